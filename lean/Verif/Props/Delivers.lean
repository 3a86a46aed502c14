import Verif.Lemmas.DeliversCheck
import Verif.Props.ModuleNames

/-!
# C79: an accepted response has what the selections promise

The converse of C19.  If the class generated for an operation accepts a response, then the code using it can rely on
the selection set and the schema: every selected field is there, nullable fields only are null, and so on at any depth.
-/

namespace Turms.Props
open Turms Spec Fragments

/-- the class of a scalar or enum, read off the registry -/
theorem classOf_output {c : Ctx} {r : Reg} {isa leaf : String → Val → Prop} {n : String} (h : IsLeaf c.schema n) :
    Reading.classOf ⟨isa, leaf, r.scalarMap⟩ c n = outputSideClass c r n := by
  unfold Reading.classOf outputSideClass scalarClass
  rcases h with h | ⟨vs, h⟩ <;> rw [h]

/-- Run the fragments plugin and then the operations plugin on a document.  Assume what is assumed in C72, and

* about the schema: every interface is implemented by some object type;
* about scalars and enums: their Python classes are not called like something in the module `T`, and what the Python
  class accepts is a value of the scalar or enum.

Then every operation has a class, named by the configured naming rules, and whatever JSON value this class accepts is
an object that delivers what the operation's selections promise.

The acceptance of values is only bounded from above, so it does not matter, for instance, which of several declarations
of an attribute pydantic uses.

Missing for the full property: selections outside `Keepable`; see the counterexamples below. -/
theorem C79_accepted_responses_deliver_partial {prep : List Char → List Char} {c : Ctx} {pf : FragmentsConfig}
    {po : OperationsConfig} {doc : Document} {leaf isa : String → Val → Prop} {T : List Stmt} {r0 r1 r2 : Reg}
    {ss1 ss2 : List Stmt}
    (hfrag : fragmentsPlugin prep c pf doc r0 = .ok (ss1, r1))
    (hops : operationsPlugin prep c po doc r1 = .ok (ss2, r2))
    (hT : ∀ st ∈ ss1 ++ ss2, st ∈ T)
    (hfirst : r0.interfaceFragmentImpl = [] ∧ r0.unionFragmentMembers = [])
    (hnodup : c.schema.types.keys.Nodup) (honce : FieldsOnce c.schema) (hvalid : ValidImplementations c.schema)
    (hinhabited : ∀ n, IsInterface c.schema n → ∃ o, Possible c.schema n o)
    (hunique : UniqueClasses T) (haliases : UniqueAliases T)
    (hbases : ∀ b, ConfiguredBase c b → ¬ IsClass T (lastComponent b))
    (hbasesF : ∀ b ∈ pf.fragmentBases ++ pf.objectBases, ¬ IsClass T (lastComponent b))
    (hbasesO : ∀ k b, b ∈ po.basesFor k → ¬ IsClass T (lastComponent b))
    (houtside : ∀ n cls, IsLeaf c.schema n → outputSideClass c r0 n = some cls →
      ¬ IsClass T cls ∧ ∀ e, Stmt.assign (.name cls) e ∉ T)
    (hleaf : ∀ n cls v, IsLeaf c.schema n → outputSideClass c r0 n = some cls → isa cls v → leaf n v)
    (hdef : ∀ d ∈ fragmentsOf doc, ∀ x, Spreads d.sels x → x ∈ (fragmentsOf doc).map (·.name))
    (hcyc : ∀ n d, lookup (fragmentsOf doc) n = some d → ¬ Needs (fragmentsOf doc) d.sels n)
    (hinl : ∀ d ∈ fragmentsOf doc, NoInlineSpread d.sels)
    (hkeepF : ∀ d ∈ fragmentsOf doc, KeepableFragment c (definitions doc) d)
    (hdefO : ∀ o ∈ operationsOf doc, ∀ x, Spreads o.sels x → x ∈ (fragmentsOf doc).map (·.name))
    (hkeepO : ∀ o ∈ operationsOf doc, ∀ root, c.schema.root o.kind = some root → IsObject c.schema root ∧
      Apart c (definitions doc) root o.sels ∧
      ∀ name al args sub t, Sel.field name al args sub ∈ o.sels →
        FieldType c.schema root name t → Keepable c (definitions doc) t sub) :
    ∀ o ∈ operationsOf doc, ∃ name cls root, o.name = some name ∧ o.kind.kind.style c.env name = .ok cls ∧
      c.schema.root o.kind = some root ∧ IsClass T cls ∧
      ∀ v, MayAccept T isa (.name cls) v → ∃ kvs, v = .obj kvs ∧
        DeliversFields c.schema (definitions doc) leaf c.config.createCatchall root root o.sels kvs := by
  intro o ho
  obtain ⟨name, cls, root, h1, h2, h3, h4, _, h5⟩ := document_kept ⟨isa, leaf, r0.scalarMap⟩
    hfrag hops hT hfirst rfl hnodup honce hvalid hunique haliases hbases hbasesF hbasesO hdef hcyc hinl hkeepF hdefO
    hkeepO o ho
  refine ⟨name, cls, root, h1, h2, h3, h4, h5 ⟨hinhabited, fun n cls hl hc => ?_, fun n cls v hl hc => ?_⟩⟩
  · exact houtside n cls hl (by rw [← hc]; exact (classOf_output hl).symm)
  · exact hleaf n cls v hl (by rw [← hc]; exact (classOf_output hl).symm)

theorem alias_bound {T : List Stmt} {n : String} {e : Expr} (h : Stmt.assign (.name n) e ∈ T) : n ∈ boundL T :=
  List.mem_flatMap.2 ⟨_, h, by simp [bound]⟩

/-- C79 with assumptions about schema, document and configuration only: instead of asking that no two classes of the
generated module share a name, and that no class is called like a configured base class or the class of a scalar or
enum, it is enough that the selection paths are clear and the names are separate. -/
theorem C79_document_delivers_partial {prep : List Char → List Char} {c : Ctx} {pf : FragmentsConfig}
    {po : OperationsConfig} {doc : Document} {leaf isa : String → Val → Prop} {r0 r1 r2 : Reg} {ss1 ss2 : List Stmt}
    (hfrag : fragmentsPlugin prep c pf doc r0 = .ok (ss1, r1))
    (hops : operationsPlugin prep c po doc r1 = .ok (ss2, r2))
    (hfirst : r0.interfaceFragmentImpl = [] ∧ r0.unionFragmentMembers = [])
    (hnodup : c.schema.types.keys.Nodup) (hempty : "" ∉ c.schema.types.keys)
    (hfields : FieldsOnce c.schema) (hvalid : ValidImplementations c.schema)
    (hinhabited : ∀ n, IsInterface c.schema n → ∃ o, Possible c.schema n o)
    (hclearF : ∀ f ∈ fragmentsOf doc, ClearFragment c.schema f)
    (hclearO : ∀ o ∈ operationsOf doc, ∀ root, c.schema.root o.kind = some root →
      ClearPaths c.schema (nestedOf c.schema root o))
    (honce : ((operationsOf doc).map (·.name)).Nodup) (hsep : SeparateDefinitions c.env doc)
    (hbases : ∀ b, (ConfiguredBase c b ∨ b ∈ pf.fragmentBases ++ pf.objectBases ∨ ∃ k, b ∈ po.basesFor k) →
      ∀ k n x, DefinitionClass c.env doc k n x → ¬ x.toList <+: (lastComponent b).toList)
    (houtside : ∀ n cls, IsLeaf c.schema n → outputSideClass c r0 n = some cls →
      ∀ k n x, DefinitionClass c.env doc k n x → ¬ x.toList <+: cls.toList)
    (hleaf : ∀ n cls v, IsLeaf c.schema n → outputSideClass c r0 n = some cls → isa cls v → leaf n v)
    (hdef : ∀ d ∈ fragmentsOf doc, ∀ x, Spreads d.sels x → x ∈ (fragmentsOf doc).map (·.name))
    (hcyc : ∀ n d, lookup (fragmentsOf doc) n = some d → ¬ Needs (fragmentsOf doc) d.sels n)
    (hinl : ∀ d ∈ fragmentsOf doc, NoInlineSpread d.sels)
    (hkeepF : ∀ d ∈ fragmentsOf doc, KeepableFragment c (definitions doc) d)
    (hdefO : ∀ o ∈ operationsOf doc, ∀ x, Spreads o.sels x → x ∈ (fragmentsOf doc).map (·.name))
    (hkeepO : ∀ o ∈ operationsOf doc, ∀ root, c.schema.root o.kind = some root → IsObject c.schema root ∧
      Apart c (definitions doc) root o.sels ∧
      ∀ name al args sub t, Sel.field name al args sub ∈ o.sels →
        FieldType c.schema root name t → Keepable c (definitions doc) t sub) :
    ∀ o ∈ operationsOf doc, ∃ name cls root, o.name = some name ∧ o.kind.kind.style c.env name = .ok cls ∧
      c.schema.root o.kind = some root ∧ IsClass (ss1 ++ ss2) cls ∧
      ∀ v, MayAccept (ss1 ++ ss2) isa (.name cls) v → ∃ kvs, v = .obj kvs ∧
        DeliversFields c.schema (definitions doc) leaf c.config.createCatchall root root o.sels kvs := by
  obtain ⟨hd, hp⟩ := C57_document_classes_partial hfrag hops hnodup hempty hclearF hclearO honce hsep
  have hno : ∀ b, (ConfiguredBase c b ∨ b ∈ pf.fragmentBases ++ pf.objectBases ∨ ∃ k, b ∈ po.basesFor k) →
      ¬ IsClass (ss1 ++ ss2) (lastComponent b) := fun b hb hcl => by
    obtain ⟨k, n, x, hx, hpre⟩ := hp _ (isClass_bound hcl)
    exact hbases b hb k n x hx hpre
  refine C79_accepted_responses_deliver_partial hfrag hops (fun _ h => h) hfirst hnodup hfields hvalid hinhabited
    (uniqueClasses_of_bound hd) (uniqueAliases_of_bound hd)
    (fun b hb => hno b (.inl hb)) (fun b hb => hno b (.inr (.inl hb))) (fun k b hb => hno b (.inr (.inr ⟨k, hb⟩)))
    (fun n cls hl hc => ?_) hleaf hdef hcyc hinl hkeepF hdefO hkeepO
  have key : ∀ a, a ∈ boundL (ss1 ++ ss2) → a ≠ cls := by
    rintro a ha rfl
    obtain ⟨k, n', x, hx, hpre⟩ := hp _ ha
    exact houtside n _ hl hc k n' x hx hpre
  exact ⟨fun h => key _ (isClass_bound h) rfl, fun e h => key _ (alias_bound h) rfl⟩

/-! ## a document that meets the hypotheses -/

theorem blog_inhabited (n : String) (h : IsInterface blogSchema n) : ∃ o, Possible blogSchema n o := by
  obtain ⟨fs, is, h⟩ := h
  have : n = "Node" := by
    rcases blog_types h with ⟨rfl, h⟩ | ⟨rfl, h⟩ | ⟨rfl, h⟩ | ⟨rfl, h⟩ | ⟨rfl, h⟩ | ⟨rfl, h⟩ <;> first | rfl | cases h
  subst this
  exact ⟨"User", possibleB_iff.1 (by decide +kernel)⟩

theorem blog_class {n cls : String} (h : IsLeaf blogSchema n)
    (hc : outputSideClass { schema := blogSchema } (Reg.init {}) n = some cls) : n = "String" ∧ cls = "str" := by
  have : n = "String" := by
    rcases h with h | ⟨vs, h⟩ <;>
      rcases blog_types h with ⟨rfl, h⟩ | ⟨rfl, h⟩ | ⟨rfl, h⟩ | ⟨rfl, h⟩ | ⟨rfl, h⟩ | ⟨rfl, h⟩ <;>
      first | rfl | cases h
  subst this
  have : outputSideClass { schema := blogSchema } (Reg.init {}) "String" = some "str" := by decide +kernel
  rw [this] at hc
  cases hc
  exact ⟨rfl, rfl⟩

/-- the query of `blogDoc` -/
def blogSels : List Sel := [
  ask "node" [ask "id", .spread "UserBits", .inline (some "Post") [ask "title"], ask "__typename"],
  ask "search" [.spread "UserBits", .inline (some "Post") [ask "title"], ask "__typename"]]

/-- what `str` accepts -/
def strB (n : String) (v : Val) : Bool :=
  n == "str" && match v with
    | .atom _ => true
    | _ => false

/-- a response to the query -/
def blogResponse : List (String × Val) := [
  ("node", .obj [("__typename", .atom "User"), ("id", .atom "1"), ("name", .null),
    ("friend", .obj [("__typename", .atom "Post"), ("id", .atom "2"), ("title", .atom "Hello")])]),
  ("search", .list [.obj [("__typename", .atom "Post"), ("title", .null)]])]

/-- The theorem applies: the class of the query `Look` accepts a response with some data in it, and whatever it accepts
delivers what the query promises. -/
example : ∃ T, generated blogSchema blogDoc = .ok T ∧
    MayAccept T (fun n v => strB n v = true) (.name "Look") (.obj blogResponse) ∧
    ∀ v, MayAccept T (fun n v => strB n v = true) (.name "Look") v → ∃ kvs, v = .obj kvs ∧
      DeliversFields blogSchema (definitions blogDoc) (fun _ v => ∃ x, v = .atom x) true "Query" "Query"
        blogSels kvs := by
  obtain ⟨a, r, b, r', h1, h2, h3, h4⟩ := generated_ok (s := blogSchema) (doc := blogDoc)
    (test := fun T => takesB T strB ["User", "Post"] 20 (.name "Look") (.obj blogResponse) &&
      decide ("str" ∉ classNames T ∧ "str" ∉ assignedNames T))
    (by decide +kernel)
  rw [Bool.and_eq_true, decide_eq_true_eq] at h4
  obtain ⟨h4, h5, h7⟩ := h4
  refine ⟨a ++ b, h3, ?_, ?_⟩
  · refine takes_mayAccept (fun n v hv => ?_) (takesB_ok 20 h4)
    have : n = "str" := by
      have hv : strB n v = true := hv
      unfold strB at hv
      simp only [Bool.and_eq_true, beq_iff_eq] at hv
      exact hv.1
    subst this
    exact ⟨fun hc => h5 (mem_classNames.2 hc), fun e he => h7 (mem_assignedNames he)⟩
  · obtain ⟨name, cls, root, e1, e2, e3, _, hk⟩ := C79_document_delivers_partial
      (leaf := fun _ v => ∃ x, v = .atom x) (isa := fun n v => strB n v = true)
      h1 h2 ⟨rfl, rfl⟩ (by decide) (by decide +kernel) (fieldsOnce_of (by decide +kernel)) blog_valid blog_inhabited
      blog_clearFragment blog_clearOperation (by decide +kernel) blog_separate blog_bases
      (by
        intro n cls hl hc k n' x hx
        obtain ⟨rfl, rfl⟩ := blog_class hl hc
        rcases blog_definition hx with ⟨rfl, rfl, rfl⟩ | ⟨rfl, rfl, rfl⟩ <;> decide +kernel)
      (by
        intro n cls v hl hc hv
        obtain ⟨rfl, rfl⟩ := blog_class hl hc
        cases v with
        | atom x => exact ⟨x, rfl⟩
        | null => cases hv
        | list l => cases hv
        | obj l => cases hv)
      blog_defined blog_acyclic blog_inline
      (by
        intro d hd
        rw [blog_fragments hd]
        exact keepableFragmentB_ok (n := 20) (by decide +kernel))
      (by
        intro o ho x hx
        simp only [blogDoc, operationsOf, List.filterMap_cons, List.filterMap_nil, List.mem_singleton] at ho
        subst ho
        have : x = "UserBits" := by
          simp only [ask] at hx
          repeat (first | (cases hx; done) | (cases hx <;> first | rfl | rename_i hx))
        subst this
        decide)
      (by
        intro o ho root hroot
        simp only [blogDoc, operationsOf, List.filterMap_cons, List.filterMap_nil, List.mem_singleton] at ho
        subst ho
        have : root = "Query" := by cases hroot; rfl
        subst this
        refine ⟨blog_query, apartB_ok (n := 20) (by decide +kernel), fun name al args sub t hm ht => ?_⟩
        have key : typedB blogSchema (keepableB { schema := blogSchema } (definitions blogDoc) 20) "Query" [
            ask "node" [ask "id", .spread "UserBits", .inline (some "Post") [ask "title"], ask "__typename"],
            ask "search" [.spread "UserBits", .inline (some "Post") [ask "title"], ask "__typename"]] = true := by
          decide +kernel
        refine keepableB_ok 20 (typedB_ok key hm ?_ ht)
        rintro rfl
        simp [ask] at hm)
      _ (List.mem_singleton.2 rfl)
    cases e1
    cases e3
    have : Kind.query.style ({} : Env) "Look" = .ok "Look" := by decide +kernel
    have e2 : Kind.query.style ({} : Env) "Look" = .ok cls := e2
    rw [this] at e2
    cases e2
    exact hk

/-! ## selections for which responses slip through -/

/-- For this document classes are generated, and the class of the query accepts a response that does not deliver what
the query promises. -/
def Slips (fs : List FragDef) (sels : List Sel) (kvs : List (String × Val)) : Prop :=
  ∃ T, generated blogSchema (lookDoc fs sels) = .ok T ∧
    Takes T (fun n v => strB n v = true) (.name "Look") (.obj kvs) ∧
    ∀ leaf catchAll, ¬ DeliversFields blogSchema (definitions (lookDoc fs sels)) leaf catchAll "Query" "Query" sels kvs

theorem picksAt_fieldAt {s : Schema} {defs : Dict FragDef} {o p : String} {sels : List Sel} {key name : String}
    {sub : List Sel} {t : TypeNode} (h : PicksAt s defs o p sels key name sub t) : ∃ q, FieldAt s q name t := by
  induction h with
  | field _ h => exact ⟨_, h⟩
  | spread _ _ _ _ ih => exact ih
  | inline _ _ _ ih => exact ih
  | inlineAny _ _ ih => exact ih

theorem blog_idAt {p : String} {t : TypeNode} (h : FieldAt blogSchema p "id" t) : t = .nonNull (.named "String") := by
  rcases h with h | ⟨fs, is, fd, h, hm, hn, rfl⟩
  · generalize he : "id" = n at h
    cases h with
    | declared hl hm =>
      rcases blog_types hl with ⟨rfl, h⟩ | ⟨rfl, h⟩ | ⟨rfl, h⟩ | ⟨rfl, h⟩ | ⟨rfl, h⟩ | ⟨rfl, h⟩ <;> cases h <;>
        simp only [List.mem_cons, List.not_mem_nil, or_false] at hm <;>
        rcases hm with rfl | rfl | rfl <;> first | rfl | exact absurd he (by decide)
    | typename => exact absurd he (by decide)
    | schema => exact absurd he (by decide)
    | type => exact absurd he (by decide)
  · rcases blog_types h with ⟨rfl, h⟩ | ⟨rfl, h⟩ | ⟨rfl, h⟩ | ⟨rfl, h⟩ | ⟨rfl, h⟩ | ⟨rfl, h⟩ <;> cases h
    cases List.mem_singleton.1 hm
    rfl

theorem blog_foundAt {p : String} {t : TypeNode} (h : FieldAt blogSchema p "found" t) : t = .named "Found" := by
  rcases h with h | ⟨fs, is, fd, h, hm, hn, rfl⟩
  · generalize he : "found" = n at h
    cases h with
    | declared hl hm =>
      rcases blog_types hl with ⟨rfl, h⟩ | ⟨rfl, h⟩ | ⟨rfl, h⟩ | ⟨rfl, h⟩ | ⟨rfl, h⟩ | ⟨rfl, h⟩ <;> cases h <;>
        simp only [List.mem_cons, List.not_mem_nil, or_false] at hm <;>
        rcases hm with rfl | rfl | rfl <;> first | rfl | exact absurd he (by decide)
    | typename => exact absurd he (by decide)
    | schema => exact absurd he (by decide)
    | type => exact absurd he (by decide)
  · rcases blog_types h with ⟨rfl, h⟩ | ⟨rfl, h⟩ | ⟨rfl, h⟩ | ⟨rfl, h⟩ | ⟨rfl, h⟩ | ⟨rfl, h⟩ <;> cases h
    cases List.mem_singleton.1 hm
    exact absurd hn (by decide)

/-- a user without the id that is asked for -/
theorem slips {fs : List FragDef} {sub : List Sel} {key : String} {kvs : List (String × Val)}
    (hp : (picksOf blogSchema (definitions (lookDoc fs [ask "found" sub])) "User" 20 sub).any
      (fun l => l.any fun x => x.1 == key && x.2.1 == "id") = true)
    (htag : Val.entry kvs "__typename" = some (.atom "User")) (hmiss : Val.entry kvs key = none)
    (h : generatedSatisfies blogSchema (lookDoc fs [ask "found" sub])
      (fun T => takesB T strB ["User", "Post"] 20 (.name "Look") (.obj [("found", .obj kvs)])) = true) :
    Slips fs [ask "found" sub] [("found", .obj kvs)] := by
  obtain ⟨a, r, b, r', _, _, h3, h4⟩ := generated_ok h
  refine ⟨_, h3, takesB_ok 20 h4, fun leaf catchAll hd => ?_⟩
  obtain ⟨t, h5, _, h6⟩ := hd "found" "found" sub (.field (List.mem_singleton.2 (rfl : _ = Sel.field "found" none [] sub))) (by decide)
  obtain ⟨q, hq⟩ := picksAt_fieldAt h5
  cases blog_foundAt hq
  cases hl : picksOf blogSchema (definitions (lookDoc fs [ask "found" sub])) "User" 20 sub with
  | none => rw [hl] at hp; cases hp
  | some l =>
  rw [hl] at hp
  obtain ⟨⟨k, n, u⟩, hm, hx⟩ := List.any_eq_true.1 (show (l.any _) = true from hp)
  simp only [Bool.and_eq_true, beq_iff_eq] at hx
  obtain ⟨rfl, rfl⟩ := hx
  have hpk := picks_of_mem 20 hl hm
  cases h6 _ rfl with
  | leaf h => rcases h with h | ⟨_, h⟩ <;> cases h
  | object _ h => rcases h with ⟨_, _, h⟩ | ⟨_, _, h⟩ <;> cases h
  | other _ _ h => obtain ⟨_, _, h⟩ := h; cases h
  | member ty h1 h2 h3 h4 h5 h6 =>
    cases h5 _ htag
    have hpos : Possible blogSchema "Found" "User" := possibleB_iff.1 (by decide +kernel)
    rcases h4 with rfl | ⟨h4, _⟩
    · obtain ⟨h7, h8⟩ := h6 _ _ _ hpk (by decide)
      obtain ⟨q, hq⟩ := picksAt_fieldAt h7
      have := h8 hmiss
      rw [blog_idAt hq] at this
      cases this
    · exact h4 hpos

/-- C79 fails for two fragments that apply to the same member of a union: a user without `id` is taken for the class of
the other fragment.
```
fragment UserBits on User { name }
query Look { found { ...UserBits ... on User { id } } }
``` -/
theorem C79_two_fragments_at_union_counterexample :
    Slips [⟨"UserBits", "User", [ask "name"]⟩] [ask "found" [.spread "UserBits", .inline (some "User") [ask "id"]]]
      [("found", .obj [("__typename", .atom "User"), ("name", .atom "Ada")])] :=
  slips (key := "id") (by decide +kernel) rfl rfl (by decide +kernel)

/-- … for an inline fragment inside an inline fragment: the inner one is ignored.
`query Look { found { ... on User { name ... on Node { id } } } }` -/
theorem C79_nested_inline_counterexample :
    Slips [] [ask "found" [.inline (some "User") [ask "name", .inline (some "Node") [ask "id"]]]]
      [("found", .obj [("__typename", .atom "User"), ("name", .atom "Ada")])] :=
  slips (key := "id") (by decide +kernel) rfl rfl (by decide +kernel)

/-- … for an inline fragment in a fragment on an object type: it is ignored.
```
fragment UserBits on User { name ... on User { id } }
query Look { found { ...UserBits } }
``` -/
theorem C79_inline_in_object_fragment_counterexample :
    Slips [⟨"UserBits", "User", [ask "name", .inline (some "User") [ask "id"]]⟩] [ask "found" [.spread "UserBits"]]
      [("found", .obj [("__typename", .atom "User"), ("name", .atom "Ada")])] :=
  slips (key := "id") (by decide +kernel) rfl rfl (by decide +kernel)

theorem blog_nameAt {p : String} {t : TypeNode} (h : FieldAt blogSchema p "name" t) : t = .named "String" := by
  rcases h with h | ⟨fs, is, fd, h, hm, hn, rfl⟩
  · generalize he : "name" = n at h
    cases h with
    | declared hl hm =>
      rcases blog_types hl with ⟨rfl, h⟩ | ⟨rfl, h⟩ | ⟨rfl, h⟩ | ⟨rfl, h⟩ | ⟨rfl, h⟩ | ⟨rfl, h⟩ <;> cases h <;>
        simp only [List.mem_cons, List.not_mem_nil, or_false] at hm <;>
        rcases hm with rfl | rfl | rfl <;> first | rfl | exact absurd he (by decide)
    | typename => exact absurd he (by decide)
    | schema => exact absurd he (by decide)
    | type => exact absurd he (by decide)
  · rcases blog_types h with ⟨rfl, h⟩ | ⟨rfl, h⟩ | ⟨rfl, h⟩ | ⟨rfl, h⟩ | ⟨rfl, h⟩ | ⟨rfl, h⟩ <;> cases h
    cases List.mem_singleton.1 hm
    exact absurd hn (by decide)

theorem blog_nodeAt {p : String} {t : TypeNode} (h : FieldAt blogSchema p "node" t) : t = .named "Node" := by
  rcases h with h | ⟨fs, is, fd, h, hm, hn, rfl⟩
  · generalize he : "node" = n at h
    cases h with
    | declared hl hm =>
      rcases blog_types hl with ⟨rfl, h⟩ | ⟨rfl, h⟩ | ⟨rfl, h⟩ | ⟨rfl, h⟩ | ⟨rfl, h⟩ | ⟨rfl, h⟩ <;> cases h <;>
        simp only [List.mem_cons, List.not_mem_nil, or_false] at hm <;>
        rcases hm with rfl | rfl | rfl <;> first | rfl | exact absurd he (by decide)
    | typename => exact absurd he (by decide)
    | schema => exact absurd he (by decide)
    | type => exact absurd he (by decide)
  · rcases blog_types h with ⟨rfl, h⟩ | ⟨rfl, h⟩ | ⟨rfl, h⟩ | ⟨rfl, h⟩ | ⟨rfl, h⟩ | ⟨rfl, h⟩ <;> cases h
    cases List.mem_singleton.1 hm
    exact absurd hn (by decide)

/-- With the catch-all class (the default), an object of a known type that does not deliver what is selected for this
type is not refused: it is taken for an object of an unknown type.  Here a user's name is a list.
`query Look { node { id ... on User { name } } }` -/
theorem C79_catch_all_counterexample :
    ∃ T, generated blogSchema (lookDoc [] [ask "node" [ask "id", .inline (some "User") [ask "name"]]]) = .ok T ∧
      Takes T (fun n v => strB n v = true) (.name "Look")
        (.obj [("node", .obj [("__typename", .atom "User"), ("id", .atom "1"), ("name", .list [])])]) ∧
      ∀ leaf : String → Val → Prop, ¬ leaf "String" (.list []) →
        ¬ DeliversFields blogSchema (definitions (lookDoc [] [ask "node" [ask "id", .inline (some "User") [ask "name"]]]))
          leaf false "Query" "Query" [ask "node" [ask "id", .inline (some "User") [ask "name"]]]
          [("node", .obj [("__typename", .atom "User"), ("id", .atom "1"), ("name", .list [])])] := by
  obtain ⟨a, r, b, r', _, _, h3, h4⟩ := generated_ok (s := blogSchema)
    (doc := lookDoc [] [ask "node" [ask "id", .inline (some "User") [ask "name"]]])
    (test := fun T => takesB T strB ["User", "Post"] 20 (.name "Look")
      (.obj [("node", .obj [("__typename", .atom "User"), ("id", .atom "1"), ("name", .list [])])])) (by decide +kernel)
  refine ⟨_, h3, takesB_ok 20 h4, fun leaf hleaf hd => ?_⟩
  obtain ⟨t, h5, _, h6⟩ := hd "node" "node" _ (.field (List.mem_singleton.2 (rfl : _ = Sel.field "node" none [] _)))
    (by decide)
  obtain ⟨q, hq⟩ := picksAt_fieldAt h5
  cases blog_nodeAt hq
  cases h6 _ rfl with
  | leaf h => rcases h with h | ⟨_, h⟩ <;> cases h
  | object ty _ _ h1 _ h2 h3 =>
    cases h1 _ rfl
    have hpk : Picks blogSchema (definitions (lookDoc [] [ask "node" [ask "id", .inline (some "User") [ask "name"]]]))
        "User" [ask "id", .inline (some "User") [ask "name"]] "name" "name" [] :=
      .inline (t := "User") (inner := [ask "name"]) (by simp) (possibleB_iff.1 (by decide +kernel))
        (.field (List.mem_singleton.2 (rfl : _ = Sel.field "name" none [] [])))
    obtain ⟨h7, _⟩ := h2 _ _ _ hpk (by decide)
    have h8 := h3 _ _ _ _ hpk (by decide) rfl
    obtain ⟨q, hq⟩ := picksAt_fieldAt h7
    rw [blog_nameAt hq] at h8
    cases h8 with
    | leaf _ h => exact hleaf h
  | other _ h => cases h
  | member _ h => cases h

end Turms.Props
