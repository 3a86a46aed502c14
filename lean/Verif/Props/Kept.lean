import Verif.Lemmas.KeptPlugins
import Verif.Lemmas.KeptCheck
import Verif.Lemmas.KeptFails
import Verif.Props.Responses
import Verif.Props.Fragments

/-!
# C72: no requested data is lost

Whatever data a query asks for — at any depth, directly or through fragments — can be reached through attributes of
the classes generated for it.
-/

namespace Turms.Props
open Turms Spec Fragments

/-- both theorems about generated responses, this one and C79, in one -/
theorem document_kept (W : Reading) {prep : List Char → List Char} {c : Ctx} {pf : FragmentsConfig}
    {po : OperationsConfig} {doc : Document} {T : List Stmt} {r0 r1 r2 : Reg} {ss1 ss2 : List Stmt}
    (hfrag : fragmentsPlugin prep c pf doc r0 = .ok (ss1, r1))
    (hops : operationsPlugin prep c po doc r1 = .ok (ss2, r2))
    (hT : ∀ st ∈ ss1 ++ ss2, st ∈ T)
    (hfirst : r0.interfaceFragmentImpl = [] ∧ r0.unionFragmentMembers = [])
    (hscalars : r0.scalarMap = W.scalars)
    (hnodup : c.schema.types.keys.Nodup) (honce : FieldsOnce c.schema) (hvalid : ValidImplementations c.schema)
    (hunique : UniqueClasses T) (haliases : UniqueAliases T)
    (hbases : ∀ b, ConfiguredBase c b → ¬ IsClass T (lastComponent b))
    (hbasesF : ∀ b ∈ pf.fragmentBases ++ pf.objectBases, ¬ IsClass T (lastComponent b))
    (hbasesO : ∀ k b, b ∈ po.basesFor k → ¬ IsClass T (lastComponent b))
    (hdef : ∀ d ∈ fragmentsOf doc, ∀ x, Spreads d.sels x → x ∈ (fragmentsOf doc).map (·.name))
    (hcyc : ∀ n d, lookup (fragmentsOf doc) n = some d → ¬ Needs (fragmentsOf doc) d.sels n)
    (hinl : ∀ d ∈ fragmentsOf doc, NoInlineSpread d.sels)
    (hkeepF : ∀ d ∈ fragmentsOf doc, KeepableFragment c (definitions doc) d)
    (hdefO : ∀ o ∈ operationsOf doc, ∀ x, Spreads o.sels x → x ∈ (fragmentsOf doc).map (·.name))
    (hkeepO : ∀ o ∈ operationsOf doc, ∀ root, c.schema.root o.kind = some root → IsObject c.schema root ∧
      Apart c (definitions doc) root o.sels ∧
      ∀ name alias args sub t, Sel.field name alias args sub ∈ o.sels →
        FieldType c.schema root name t → Keepable c (definitions doc) t sub) :
    ∀ o ∈ operationsOf doc, ∃ name cls root, o.name = some name ∧ o.kind.kind.style c.env name = .ok cls ∧
      c.schema.root o.kind = some root ∧ IsClass T cls ∧
      (∀ key name sub t path, Picks c.schema (definitions doc) root o.sels key name sub → name ≠ "__typename" →
        FieldType c.schema root name t → Asks c.schema (definitions doc) t sub path →
        Carries T cls key fun ann => Offers T ann path) ∧
      (Assumed c T W → ∀ v, MayAccept T W.isa (.name cls) v → ∃ kvs, v = .obj kvs ∧
        DeliversFields c.schema (definitions doc) W.leaf c.config.createCatchall root root o.sels kvs) := by
  obtain ⟨l, hl, hnames, hnd, hbefore⟩ := C11_document_order doc hinl hdef hcyc
  obtain ⟨l', hl', _, hmem, _⟩ := C12_document_fragments doc
  rw [hl] at hl'
  cases hl'
  unfold fragmentsPlugin at hfrag
  obtain ⟨fs, r', hx, hfrag⟩ := Gen.bind_ok.1 hfrag
  obtain ⟨hx, rfl⟩ := Gen.lift_ok.1 hx
  rw [hl] at hx
  cases hx
  have hin : ∀ {d}, d ∈ l → d ∈ fragmentsOf doc := fun {d} hd => by
    obtain ⟨n, hn⟩ := (hmem d).1 hd
    exact (lookup_mem hn).1
  have h0 : StateK c (definitions doc) T W (fun _ => False) r0 :=
    ⟨⟨hunique, haliases, hbases, hvalid, hnodup, honce⟩, hscalars, fun f hf => hf.elim⟩
  have h1 := generateFragments_keeps l h0 hbasesF
    (fun d hd => by
      obtain ⟨n, hn⟩ := (hmem d).1 hd
      rw [definitions_get?, (lookup_mem hn).2, hn])
    hnd (fun d hd => hkeepF d (hin hd))
    (fun before d after e g hg => .inr (hbefore before after d e g (.direct g hg)))
    (fun d _ => by rw [hfirst.1, hfirst.2]; exact ⟨rfl, rfl⟩)
    hfrag (fun st hst => hT st (List.mem_append_left _ hst))
  have e : (fun f => False ∨ f ∈ l.map (·.name)) = (· ∈ (fragmentsOf doc).map (·.name)) := by
    funext f; rw [false_or, hnames]
  rw [e] at h1
  exact generateOperations_keeps _ h1 hbasesO
    (fun o ho => ⟨fun root hr => (hkeepO o ho root hr).1, hdefO o ho, fun root hr => (hkeepO o ho root hr).2.1,
      fun root hr => (hkeepO o ho root hr).2.2⟩) hops
    (fun st hst => hT st (List.mem_append_right _ hst))

/-- Run the fragments plugin and then the operations plugin on a document.  Assume:

* about the schema: names are unique, fields of a type have different names, objects declare the fields of their
  interfaces;
* about the module `T` (which contains everything the two plugins generated): no two different classes or type aliases
  have the same name, and no generated class is called like a configured base class;
* about the document: every spread fragment is defined, no fragment needs itself, no fragment hides a spread below
  an inline fragment, and the selections are of the shapes `Keepable` and `KeepableFragment` describe.

Then every operation has a class, named by the configured naming rules, and for every field the operation asks for,
every path of data asked for below that field, of whatever length: the class carries the field in an attribute of its
own, and the path can be followed from there through the attributes of the generated classes.

Missing for the full property: selections outside `Keepable`; see the counterexamples below, for which data is lost. -/
theorem C72_requested_data_kept_partial {prep : List Char → List Char} {c : Ctx} {pf : FragmentsConfig}
    {po : OperationsConfig} {doc : Document} {T : List Stmt} {r0 r1 r2 : Reg} {ss1 ss2 : List Stmt}
    (hfrag : fragmentsPlugin prep c pf doc r0 = .ok (ss1, r1))
    (hops : operationsPlugin prep c po doc r1 = .ok (ss2, r2))
    (hT : ∀ st ∈ ss1 ++ ss2, st ∈ T)
    (hfirst : r0.interfaceFragmentImpl = [] ∧ r0.unionFragmentMembers = [])
    (hnodup : c.schema.types.keys.Nodup) (honce : FieldsOnce c.schema) (hvalid : ValidImplementations c.schema)
    (hunique : UniqueClasses T) (haliases : UniqueAliases T)
    (hbases : ∀ b, ConfiguredBase c b → ¬ IsClass T (lastComponent b))
    (hbasesF : ∀ b ∈ pf.fragmentBases ++ pf.objectBases, ¬ IsClass T (lastComponent b))
    (hbasesO : ∀ k b, b ∈ po.basesFor k → ¬ IsClass T (lastComponent b))
    (hdef : ∀ d ∈ fragmentsOf doc, ∀ x, Spreads d.sels x → x ∈ (fragmentsOf doc).map (·.name))
    (hcyc : ∀ n d, lookup (fragmentsOf doc) n = some d → ¬ Needs (fragmentsOf doc) d.sels n)
    (hinl : ∀ d ∈ fragmentsOf doc, NoInlineSpread d.sels)
    (hkeepF : ∀ d ∈ fragmentsOf doc, KeepableFragment c (definitions doc) d)
    (hdefO : ∀ o ∈ operationsOf doc, ∀ x, Spreads o.sels x → x ∈ (fragmentsOf doc).map (·.name))
    (hkeepO : ∀ o ∈ operationsOf doc, ∀ root, c.schema.root o.kind = some root → IsObject c.schema root ∧
      Apart c (definitions doc) root o.sels ∧
      ∀ name alias args sub t, Sel.field name alias args sub ∈ o.sels →
        FieldType c.schema root name t → Keepable c (definitions doc) t sub) :
    ∀ o ∈ operationsOf doc, ∃ name cls root, o.name = some name ∧ o.kind.kind.style c.env name = .ok cls ∧
      c.schema.root o.kind = some root ∧ IsClass T cls ∧
      ∀ key name sub t path, Picks c.schema (definitions doc) root o.sels key name sub → name ≠ "__typename" →
        FieldType c.schema root name t → Asks c.schema (definitions doc) t sub path →
        Carries T cls key fun ann => Offers T ann path := by
  intro o ho
  obtain ⟨name, cls, root, h1, h2, h3, h4, h5, _⟩ := document_kept ⟨fun _ _ => False, fun _ _ => False, r0.scalarMap⟩
    hfrag hops hT hfirst rfl hnodup honce hvalid hunique haliases hbases hbasesF hbasesO hdef hcyc hinl hkeepF hdefO
    hkeepO o ho
  exact ⟨name, cls, root, h1, h2, h3, h4, h5⟩

/-! ## a document that meets the hypotheses -/

/-- no object type declares two fields of the same name, or a meta-field -/
def fieldsOnceB (s : Schema) : Bool :=
  s.types.all fun x => match x.2.defn with
    | .object fs _ => decide ((fs.map (·.name)).Nodup) &&
        fs.all fun f => f.name != "__typename" && f.name != "__schema" && f.name != "__type"
    | _ => true

theorem same_of_nodup {fs : List FieldDef} (h : (fs.map (·.name)).Nodup) {a b : FieldDef} (ha : a ∈ fs) (hb : b ∈ fs)
    (e : a.name = b.name) : a = b := by
  induction fs with
  | nil => cases ha
  | cons x fs ih =>
    obtain ⟨h1, h2⟩ := List.nodup_cons.1 h
    rcases List.mem_cons.1 ha with rfl | ha'
    · rcases List.mem_cons.1 hb with rfl | hb'
      · rfl
      · exact (h1 (List.mem_map.2 ⟨b, hb', e.symm⟩)).elim
    · rcases List.mem_cons.1 hb with rfl | hb'
      · exact (h1 (List.mem_map.2 ⟨a, ha', e⟩)).elim
      · exact ih h2 ha' hb'

theorem fieldsOnce_of {s : Schema} (h : fieldsOnceB s = true) : FieldsOnce s := by
  have key : ∀ {o fs is}, s.lookup o = some (.object fs is) → (fs.map (·.name)).Nodup ∧
      ∀ f ∈ fs, f.name ≠ "__typename" ∧ f.name ≠ "__schema" ∧ f.name ≠ "__type" := by
    intro o fs is hl
    unfold Schema.lookup at hl
    cases hg : s.types.get? o with
    | none => rw [hg] at hl; cases hl
    | some e =>
      rw [hg] at hl
      have hd : e.defn = .object fs is := Option.some.inj hl
      have := List.all_eq_true.1 h _ (Dict.mem_of_get? hg)
      simp only [hd, Bool.and_eq_true, decide_eq_true_eq, List.all_eq_true, bne_iff_ne, ne_eq] at this
      exact ⟨this.1, fun f hf => ⟨(this.2 f hf).1.1, (this.2 f hf).1.2, (this.2 f hf).2⟩⟩
  intro o name t t' h1 h2
  cases h1 with
  | declared hl hm =>
    have hk := key hl
    generalize hn : FieldDef.name _ = n at h2
    cases h2 with
    | declared hl' hm' =>
      rw [hl] at hl'
      cases hl'
      rw [same_of_nodup hk.1 hm hm' hn]
    | typename => exact ((hk.2 _ hm).1 hn).elim
    | schema h => exact ((hk.2 _ hm).2.1 hn).elim
    | type h => exact ((hk.2 _ hm).2.2 hn).elim
  | typename =>
    generalize hn : "__typename" = n at h2
    cases h2 with
    | declared hl hm => exact (((key hl).2 _ hm).1 hn.symm).elim
    | typename => rfl
    | schema h => exact absurd hn (by decide)
    | type h => exact absurd hn (by decide)
  | schema h =>
    generalize hn : "__schema" = n at h2
    cases h2 with
    | declared hl hm => exact (((key hl).2 _ hm).2.1 hn.symm).elim
    | typename => exact absurd hn (by decide)
    | schema h => rfl
    | type h => exact absurd hn (by decide)
  | type h =>
    generalize hn : "__type" = n at h2
    cases h2 with
    | declared hl hm => exact (((key hl).2 _ hm).2.2 hn.symm).elim
    | typename => exact absurd hn (by decide)
    | schema h => exact absurd hn (by decide)
    | type h => rfl

/-- the names a module assigns type expressions to -/
def assignedNames (T : List Stmt) : List String :=
  T.filterMap fun
    | .assign (.name n) _ => some n
    | _ => none

theorem mem_assignedNames {T : List Stmt} {n : String} {e : Expr} (h : Stmt.assign (.name n) e ∈ T) : n ∈ assignedNames T :=
  List.mem_filterMap.2 ⟨_, h, rfl⟩

theorem uniqueAliases_of {T : List Stmt} (h : (assignedNames T).Nodup) (hd : ∀ n ∈ assignedNames T, n ∉ classNames T) :
    UniqueAliases T := by
  intro n e hm
  refine ⟨fun hc => hd n (mem_assignedNames hm) (mem_classNames.2 hc), fun e' hm' => ?_⟩
  clear hd
  induction T with
  | nil => cases hm
  | cons x T ih =>
    have key : ∀ {e}, x = .assign (.name n) e → ∀ {e'}, ¬ Stmt.assign (.name n) e' ∈ T := by
      rintro e rfl e' hm
      have : (n :: assignedNames T).Nodup := h
      exact (List.nodup_cons.1 this).1 (mem_assignedNames hm)
    have ht : (assignedNames T).Nodup := by
      revert h
      unfold assignedNames
      rw [List.filterMap_cons]
      split
      · exact id
      · exact fun h => (List.nodup_cons.1 h).2
    rcases List.mem_cons.1 hm with h1 | h1
    · rcases List.mem_cons.1 hm' with h2 | h2
      · rw [← h1] at h2; cases h2; rfl
      · exact (key h1.symm h2).elim
    · rcases List.mem_cons.1 hm' with h2 | h2
      · exact (key h2.symm h1).elim
      · exact ih ht h1 h2

/-- The theorem applies: from the class of the query `Look` one can follow `node`, then (at a user) `friend`, then (at
a post) `title`. -/
example : ∃ T, generated blogSchema blogDoc = .ok T ∧
    Carries T "Look" "node" fun ann => Offers T ann [("User", "friend"), ("Post", "title")] := by
  obtain ⟨a, r, b, r', h1, h2, h3, h4⟩ := generated_ok (s := blogSchema) (doc := blogDoc)
    (test := fun T => decide (((classNames T).Nodup ∧ "BaseModel" ∉ classNames T) ∧ (assignedNames T).Nodup ∧
      ∀ n ∈ assignedNames T, n ∉ classNames T)) (by decide +kernel)
  obtain ⟨⟨hn, hb⟩, hal, hdis⟩ := of_decide_eq_true h4
  have hb' : ∀ x, ConfiguredBase { schema := blogSchema } x → ¬ IsClass (a ++ b) (lastComponent x) := by
    intro x hx hc
    have : x = "pydantic.BaseModel" := by
      rcases hx with hx | hx | ⟨n, l, hl, _⟩
      · simpa using hx
      · cases hx
      · cases hl
    subst this
    exact hb (mem_classNames.2 hc)
  refine ⟨a ++ b, h3, ?_⟩
  have := C72_requested_data_kept_partial (T := a ++ b) h1 h2 (fun _ h => h) ⟨rfl, rfl⟩ (by decide)
    (fieldsOnce_of (by decide +kernel)) blog_valid (uniqueClasses_of_nodup hn) (uniqueAliases_of hal hdis) hb'
    (by simp) (by intro k b hb; cases k <;> cases hb)
    (by
      intro d hd x hx
      simp only [blogDoc, fragmentsOf, List.filterMap_cons, List.filterMap_nil, List.mem_singleton] at hd
      subst hd
      exact (blog_spreads hx).elim)
    (by
      intro n d hl hx
      have hd := (lookup_mem hl).1
      simp only [blogDoc, fragmentsOf, List.filterMap_cons, List.filterMap_nil, List.mem_singleton] at hd
      subst hd
      have : ∀ y, ¬ Needs (fragmentsOf blogDoc) [ask "name",
          ask "friend" [ask "id", .inline (some "Post") [ask "title"], ask "__typename"], ask "__typename"] y := by
        intro y hy
        induction hy with
        | direct f h => exact blog_spreads h
        | through g d f _ _ _ ih => exact ih
      exact this _ hx)
    (by
      intro d hd
      simp only [blogDoc, fragmentsOf, List.filterMap_cons, List.filterMap_nil, List.mem_singleton] at hd
      subst hd
      refine .field _ _ _ _ _ .nil (.field _ _ _ _ _ (.field _ _ _ _ _ .nil (.inline _ _ _ ?_
        (.field _ _ _ _ _ .nil .nil))) (.field _ _ _ _ _ .nil .nil))
      intro f h
      cases h with
      | field _ _ _ _ _ _ h => cases h
      | later _ _ _ h => cases h)
    (by
      intro d hd
      simp only [blogDoc, fragmentsOf, List.filterMap_cons, List.filterMap_nil, List.mem_singleton] at hd
      subst hd
      exact keepableFragmentB_ok (n := 20) (by decide +kernel))
    (by
      intro o ho x hx
      simp only [blogDoc, operationsOf, List.filterMap_cons, List.filterMap_nil, List.mem_singleton] at ho
      subst ho
      have : x = "UserBits" := by
        simp only [ask] at hx
        repeat (first | (cases hx; done) | (cases hx <;> first | rfl | rename_i hx))
      subst this
      decide)
    (by
      intro o ho root hroot
      simp only [blogDoc, operationsOf, List.filterMap_cons, List.filterMap_nil, List.mem_singleton] at ho
      subst ho
      have : root = "Query" := by cases hroot; rfl
      subst this
      refine ⟨blog_query, apartB_ok (n := 20) (by decide +kernel), fun name alias args sub t hm ht => ?_⟩
      have key : typedB blogSchema (keepableB { schema := blogSchema } (definitions blogDoc) 20) "Query" [
          ask "node" [ask "id", .spread "UserBits", .inline (some "Post") [ask "title"], ask "__typename"],
          ask "search" [.spread "UserBits", .inline (some "Post") [ask "title"], ask "__typename"]] = true := by
        decide +kernel
      refine keepableB_ok 20 (typedB_ok key hm ?_ ht)
      rintro rfl
      simp [ask] at hm)
    _ (List.mem_singleton.2 rfl)
  obtain ⟨name, cls, root, e1, e2, e3, _, hk⟩ := this
  cases e1
  cases e3
  have : Kind.query.style ({} : Env) "Look" = .ok "Look" := by decide +kernel
  have e2 : Kind.query.style ({} : Env) "Look" = .ok cls := e2
  rw [this] at e2
  cases e2
  have hnode : ∀ {o}, possibleB blogSchema "Node" o = true → Possible blogSchema (TypeNode.named "Node").base o :=
    fun h => possibleB_iff.1 h
  refine hk "node" "node" _ (.named "Node") _ (.field (alias := none) (List.mem_cons_self ..)) (by decide)
    (.declared (fd := plainField "node" (.named "Node")) rfl (by simp)) ?_
  refine .step (o := "User") (hnode (by decide +kernel))
    (.spread (f := "UserBits") (by simp) rfl (possibleB_iff.1 (by decide +kernel))
      (.field (name := "friend") (alias := none) (args := []) (List.mem_cons_of_mem _ (List.mem_cons_self ..))))
    (by decide) (.declared (fd := plainField "friend" (.named "Node")) rfl (by simp)) ?_
  refine .step (o := "Post") (hnode (by decide +kernel))
    (.inline (t := "Post") (inner := [ask "title"]) (by simp) (possibleB_iff.1 (by decide +kernel))
      (.field (name := "title") (alias := none) (args := []) (List.mem_cons_self ..)))
    (by decide) (.declared (fd := plainField "title" (.named "String")) rfl (by simp)) .done

/-! ## selections for which data is lost -/

/-- `query Look { … }` with these fragments -/
def lookDoc (fs : List FragDef) (sels : List Sel) : Document :=
  fs.map .fragment ++ [.operation ⟨.query, some "Look", [], sels⟩]

/-- For this document classes are generated, the query asks for the data at `path` below the field `key`, and the class
of the query does not carry it. -/
def Loses (fs : List FragDef) (sels : List Sel) (key : String) (path : List (String × String)) : Prop :=
  ∃ T, generated blogSchema (lookDoc fs sels) = .ok T ∧
    (∃ name sub t, Picks blogSchema (definitions (lookDoc fs sels)) "Query" sels key name sub ∧ name ≠ "__typename" ∧
      FieldType blogSchema "Query" name t ∧ Asks blogSchema (definitions (lookDoc fs sels)) t sub path) ∧
    ¬ Carries T "Look" key fun ann => Offers T ann path

/-- checks `Asks` -/
def asksB (s : Schema) (defs : Dict FragDef) (n : Nat) : List (String × String) → TypeNode → List Sel → Bool
  | [], _, _ => true
  | (o, key) :: rest, t, sels => possibleB s t.base o &&
    match picksOf s defs o n sels with
    | none => false
    | some l => l.any fun p => p.1 == key && p.2.1 != "__typename" &&
        (match s.lookup o with
          | some (.object fs _) => fs.any fun f => f.name == p.2.1 && asksB s defs n rest f.type p.2.2
          | _ => false)

theorem asksB_ok {s : Schema} {defs : Dict FragDef} {n : Nat} : ∀ {path t sels}, asksB s defs n path t sels = true →
    Asks s defs t sels path := by
  intro path
  induction path with
  | nil => intro t sels _; exact .done
  | cons x rest ih =>
    obtain ⟨o, key⟩ := x
    intro t sels h
    rw [asksB, Bool.and_eq_true] at h
    cases hp : picksOf s defs o n sels with
    | none => rw [hp] at h; cases h.2
    | some l =>
      rw [hp] at h
      obtain ⟨⟨k, name, sub⟩, hm, h'⟩ := List.any_eq_true.1 h.2
      simp only [Bool.and_eq_true, beq_iff_eq, bne_iff_ne, ne_eq] at h'
      obtain ⟨⟨rfl, hn⟩, h'⟩ := h'
      split at h'
      · rename_i fs is hl
        obtain ⟨f, hf, hr⟩ := List.any_eq_true.1 h'
        rw [Bool.and_eq_true, beq_iff_eq] at hr
        obtain ⟨rfl, hr⟩ := hr
        exact .step (possibleB_iff.1 h.1) (picks_of_mem n hp hm) hn (.declared hl hf) (ih hr)
      · cases h'

theorem loses {fs : List FragDef} {sels : List Sel} {key : String} {path : List (String × String)}
    (h : asksB blogSchema (definitions (lookDoc fs sels)) 20 (("Query", key) :: path) (.named "Query") sels = true)
    (h' : generatedSatisfies blogSchema (lookDoc fs sels) (fun T => losesB T 20 "Look" key path) = true) :
    Loses fs sels key path := by
  obtain ⟨a, r, b, r', _, _, h3, h4⟩ := generated_ok h'
  refine ⟨_, h3, ?_, losesB_ok h4⟩
  cases asksB_ok h with
  | step _ hp hn hf ha => exact ⟨_, _, _, hp, hn, hf, ha⟩

/-- C72 fails for a fragment spread inside an inline fragment on a field of an interface type: the spread is ignored.
```
fragment UserBits on User { name }
query Look { node { id ... on User { ...UserBits } } }
``` -/
theorem C72_spread_in_inline_counterexample :
    Loses [⟨"UserBits", "User", [ask "name"]⟩] [ask "node" [ask "id", .inline (some "User") [.spread "UserBits"]]]
      "node" [("User", "name")] := loses (by decide +kernel) (by decide +kernel)

/-- … for an inline fragment inside an inline fragment, on an interface: the inner one is ignored.
`query Look { node { id ... on User { ... on User { name } } } }` -/
theorem C72_nested_inline_counterexample :
    Loses [] [ask "node" [ask "id", .inline (some "User") [.inline (some "User") [ask "name"]]]]
      "node" [("User", "name")] := loses (by decide +kernel) (by decide +kernel)

/-- … and on a union. `query Look { found { ... on User { ... on Node { id } } } }` -/
theorem C72_nested_inline_in_union_counterexample :
    Loses [] [ask "found" [.inline (some "User") [.inline (some "Node") [ask "id"]]]]
      "found" [("User", "id")] := loses (by decide +kernel) (by decide +kernel)

/-- … for an inline fragment in a fragment on an object type: it is ignored.
```
fragment UserBits on User { id ... on User { name } }
query Look { node { id ...UserBits } }
``` -/
theorem C72_inline_in_object_fragment_counterexample :
    Loses [⟨"UserBits", "User", [ask "id", .inline (some "User") [ask "name"]]⟩]
      [ask "node" [ask "id", .spread "UserBits"]] "node" [("User", "name")] := loses (by decide +kernel) (by decide +kernel)

/-- … for a fragment on a union that is spread at a field of an interface type: the implementing classes do not get
its fields.
```
fragment Hit on Found { ... on User { name } }
query Look { node { id ...Hit } }
``` -/
theorem C72_union_fragment_at_interface_counterexample :
    Loses [⟨"Hit", "Found", [.inline (some "User") [ask "name"]]⟩] [ask "node" [ask "id", .spread "Hit"]]
      "node" [("User", "name")] := loses (by decide +kernel) (by decide +kernel)

/-- … for two fragments that apply to the same member of a union: there are two classes for the member, each lacking
the fields of the other.
```
fragment UserBits on User { name }
query Look { found { ...UserBits ... on User { id } } }
``` -/
theorem C72_two_fragments_at_union_counterexample :
    Loses [⟨"UserBits", "User", [ask "name"]⟩] [ask "found" [.spread "UserBits", .inline (some "User") [ask "id"]]]
      "found" [("User", "name")] := loses (by decide +kernel) (by decide +kernel)

/-- … for a field selected both in a fragment and beside it with different sub-selections: the declaration in the class
hides the inherited one.
```
fragment UserBits on User { friend { ... on Post { title } } }
query Look { node { id ...UserBits ... on User { friend { id } } } }
``` -/
theorem C72_merged_subselections_counterexample :
    Loses [⟨"UserBits", "User", [ask "friend" [.inline (some "Post") [ask "title"]]]⟩]
      [ask "node" [ask "id", .spread "UserBits", .inline (some "User") [ask "friend" [ask "id"]]]]
      "node" [("User", "friend"), ("Post", "title")] := loses (by decide +kernel) (by decide +kernel)

/-- … for a response key with a leading underscore: the attribute is private to pydantic.
`query Look { node { _id: id } }` -/
theorem C72_underscore_counterexample :
    Loses [] [ask "node" [.field "id" (some "_id") [] []]] "node" [("User", "_id")] :=
  loses (by decide +kernel) (by decide +kernel)

/-- An aliased `__typename` is not carried either: `query Look { node { id kind: __typename } }`. -/
theorem C72_aliased_typename_counterexample :
    ∃ T, generated blogSchema (lookDoc [] [ask "node" [ask "id", .field "__typename" (some "kind") [] []]]) = .ok T ∧
      ¬ Carries T "Look" "node" fun ann => Offers T ann [("User", "kind")] := by
  obtain ⟨a, r, b, r', _, _, h3, h4⟩ := generated_ok (s := blogSchema)
    (doc := lookDoc [] [ask "node" [ask "id", .field "__typename" (some "kind") [] []]])
    (test := fun T => losesB T 20 "Look" "node" [("User", "kind")]) (by decide +kernel)
  exact ⟨_, h3, losesB_ok h4⟩

end Turms.Props
