import Verif.Lemmas.ScopePlugins
import Verif.Lemmas.InputsLoop
import Verif.Props.Enums
import Verif.Props.Responses
import Verif.Spec.UnionSpread

/-!
# C60: the names the generated fragment and operation classes evaluate

The module is executed statement by statement: the base classes and annotations of a class are evaluated when the
class statement runs, so they must be imported or bound by then.  (Quoted names are not evaluated.)
-/

namespace Turms.Props
open Turms Turms.Spec Turms.Fragments

theorem no_rawSpread {sels : List Sel} (h : NoInlineSpread sels) {f : String} : ¬ RawSpread sels f := by
  rintro ⟨t, sub, hm, hs⟩
  induction h with
  | nil => cases hm
  | spread g rest _ ih => exact ih (by simpa using hm)
  | field n a args s rest _ _ _ ih => exact ih (by simpa using hm)
  | inline u s rest hno _ ih =>
    rcases List.mem_cons.1 hm with e | hm
    · cases e
      exact hno f (spreads_of_mem hs)
    · exact ih hm

theorem fragments_styled {prep : List Char → List Char} {c : Ctx} {pf : FragmentsConfig} {doc : Document} {r0 r1 : Reg}
    {ss1 : List Stmt} (hplain : PlainConfig c.config) (hstyled : Styled c.env r0)
    (hfirst : r0.interfaceFragmentImpl = [] ∧ r0.unionFragmentMembers = [])
    (hdef : ∀ d ∈ fragmentsOf doc, ∀ x, Spreads d.sels x → x ∈ (fragmentsOf doc).map (·.name))
    (hcyc : ∀ n d, lookup (fragmentsOf doc) n = some d → ¬ Needs (fragmentsOf doc) d.sels n)
    (hinl : ∀ d ∈ fragmentsOf doc, NoInlineSpread d.sels)
    (hfrag : fragmentsPlugin prep c pf doc r0 = .ok (ss1, r1)) :
    Styled c.env r1 ∧ ∀ n, RegisteredType r1 n ↔ RegisteredType r0 n := by
  obtain ⟨l, hl, hnames, hnd, hbefore⟩ := C11_document_order doc hinl hdef hcyc
  obtain ⟨l', hl', _, hmem, _⟩ := C12_document_fragments doc
  rw [hl] at hl'
  cases hl'
  unfold fragmentsPlugin at hfrag
  obtain ⟨fs, r', hx, hfrag⟩ := Gen.bind_ok.1 hfrag
  obtain ⟨hx, rfl⟩ := Gen.lift_ok.1 hx
  rw [hl] at hx
  cases hx
  have hdoc : ∀ d ∈ l, d ∈ fragmentsOf doc ∧ lookup (fragmentsOf doc) d.name = some d := by
    intro d hd
    obtain ⟨n, hn⟩ := (hmem d).1 hd
    exact ⟨(lookup_mem hn).1, by rw [(lookup_mem hn).2, hn]⟩
  have h := (generateFragments_resolve (D := fun _ => False) (U := fun _ => True) (X := fun _ => True) hplain (fun _ _ => trivial)
    (fun _ _ _ _ _ _ _ => trivial) l hstyled (fun _ _ _ _ => trivial) (fun _ _ _ _ => trivial) hnd
    (fun f hf hs => hcyc _ _ (hdoc f hf).2 (.direct _ hs))
    (fun before d after e x hx => .inr (hbefore before after d e x (.direct x hx)))
    (fun d _ => by rw [hfirst.1, hfirst.2]; exact ⟨rfl, rfl⟩) hfrag)
  exact ⟨h.1, h.2.2.1⟩

/-- Run the fragments plugin and then the operations plugin on a document, starting from a registry in which every
registered class carries its styled name and no fragment is registered.  Assume:

* about the document: every spread fragment is defined, no fragment needs itself, no fragment hides a spread below
  an inline fragment;
* about the configuration: the configured class options are literals, and the configured base classes of objects end
  up imported (see `C60_object_bases_imported` for a sufficient condition, and the counterexample);
* `Field` ends up imported if one of the two places that forget to import it is reached.

Then, executing the generated classes in order, every evaluated name is imported or built in, the class of an enum
or input type registered before, bound by an earlier statement, or the name of a fragment on an interface that the
document spreads at a union. -/
theorem C60_responses_resolve_partial {prep : List Char → List Char} {c : Ctx} {pf : FragmentsConfig}
    {po : OperationsConfig} {doc : Document} {r0 r1 r2 : Reg} {ss1 ss2 : List Stmt}
    (hfrag : fragmentsPlugin prep c pf doc r0 = .ok (ss1, r1))
    (hops : operationsPlugin prep c po doc r1 = .ok (ss2, r2))
    (hplain : PlainConfig c.config) (hstyled : Styled c.env r0)
    (hfirst : r0.interfaceFragmentImpl = [] ∧ r0.unionFragmentMembers = [])
    (hdef : ∀ d ∈ fragmentsOf doc, ∀ x, Spreads d.sels x → x ∈ (fragmentsOf doc).map (·.name))
    (hdefO : ∀ o ∈ operationsOf doc, ∀ x, Spreads o.sels x → x ∈ (fragmentsOf doc).map (·.name))
    (hcyc : ∀ n d, lookup (fragmentsOf doc) n = some d → ¬ Needs (fragmentsOf doc) d.sels n)
    (hinl : ∀ d ∈ fragmentsOf doc, NoInlineSpread d.sels)
    (hbases : ∀ b ∈ c.config.objectBases, External r2 (lastComponent b))
    (hfield : NeedsField c po doc → External r2 "Field") :
    Resolves (fun n => External r2 n ∨ RegisteredType r0 n ∨ InterfaceFragmentAtUnion c doc n) (ss1 ++ ss2) ∧
    ∀ n, External r0 n → External r2 n := by
  obtain ⟨l, hl, hnames, hnd, hbefore⟩ := C11_document_order doc hinl hdef hcyc
  obtain ⟨l', hl', _, hmem, _⟩ := C12_document_fragments doc
  rw [hl] at hl'
  cases hl'
  unfold fragmentsPlugin at hfrag
  obtain ⟨fs, r', hx, hfrag⟩ := Gen.bind_ok.1 hfrag
  obtain ⟨hx, rfl⟩ := Gen.lift_ok.1 hx
  rw [hl] at hx
  cases hx
  have hdoc : ∀ d ∈ l, d ∈ fragmentsOf doc ∧ lookup (fragmentsOf doc) d.name = some d := by
    intro d hd
    obtain ⟨n, hn⟩ := (hmem d).1 hd
    exact ⟨(lookup_mem hn).1, by rw [(lookup_mem hn).2, hn]⟩
  let X : String → Prop := fun n =>
    (∃ b ∈ c.config.objectBases, n = lastComponent b) ∨ (n = "Field" ∧ NeedsField c po doc)
  have hX : BasesIn X c := fun b hb => .inl ⟨b, hb, rfl⟩
  have hF : LonelyField X c := by
    intro hc t fs is d ht hi
    refine .inr ⟨rfl, .inr ⟨by simpa using hc, t, ⟨fs, is, ?_⟩, fun o ho => ?_⟩⟩
    · unfold Schema.lookup; rw [ht]; rfl
    · obtain ⟨i, hi', _⟩ := mem_implementations ⟨fs, is, by unfold Schema.lookup; rw [ht]; rfl⟩ ho
      rw [hi] at hi'
      cases hi'
  obtain ⟨a1, a2, a3, a4⟩ := generateFragments_resolve (D := fun _ => False) (U := SpreadAtUnion c.schema doc) hplain hX hF l hstyled
    (fun f hf g hg => .inl ⟨f, (hdoc f hf).1, hg⟩)
    (fun f hf g hg => (no_rawSpread (hinl f (hdoc f hf).1) hg).elim) hnd
    (fun f hf hs => hcyc _ _ (hdoc f hf).2 (.direct _ hs))
    (fun before d after e x hx => .inr (hbefore before after d e x (.direct x hx)))
    (fun d _ => by rw [hfirst.1, hfirst.2]; exact ⟨rfl, rfl⟩) hfrag
  obtain ⟨b1, b2⟩ := generateOperations_resolve (U := SpreadAtUnion c.schema doc) hplain hX hF _
    (fun o ho root hr g hg => .inr ⟨o, ho, root, hr, hg⟩) (fun hc o ho v hv hvo => .inr ⟨rfl, .inl ⟨hc, o, ho, v, hv, hvo⟩⟩) a1 hops
  refine ⟨?_, fun n hn => b1 n (a2 n hn)⟩
  have hXE : ∀ n, X n → External r2 n := by
    rintro n (⟨b, hb, rfl⟩ | ⟨rfl, hf⟩)
    · exact hbases b hb
    · exact hfield hf
  obtain ⟨d1, d2⟩ := a4 (fun n => External r2 n ∨ RegisteredType r0 n ∨ InterfaceFragmentAtUnion c doc n)
    (fun n hn => .inl (b1 n hn)) (fun n hn => .inr (.inl hn)) (fun n hn => .inl (hXE n hn))
    (fun _ _ h => h.elim) (fun _ _ h => h)
    (fun f hf n hi hu hs => .inr (.inr ⟨f, (hdoc f hf).1, hi, hu, hs⟩))
  rw [resolves_append]
  refine ⟨d1, b2 _ (fun n hn => .inl (.inl hn)) (fun n hn => .inl (.inr (.inl ((a3 n).1 hn)))) (fun n hn => .inl (.inl (hXE n hn))) ?_⟩
  intro o ho g n hg hn
  rcases d2 g n (.inr ((hnames g).2 (hdefO o ho g hg))) hn with h | h
  · exact .inl h
  · exact .inr (List.mem_flatMap.1 h)

/-- A sufficient condition for the hypothesis about base classes: one of the document's operations is of a kind with
no base classes of its own. -/
theorem C60_object_bases_imported {prep : List Char → List Char} {c : Ctx} {po : OperationsConfig} {doc : Document}
    {r r' : Reg} {ss : List Stmt} (hplain : PlainConfig c.config) (hstyled : Styled c.env r)
    (hops : operationsPlugin prep c po doc r = .ok (ss, r'))
    (o : OpDef) (ho : o ∈ operationsOf doc) (hb : po.basesFor o.kind = []) :
    ∀ b ∈ c.config.objectBases, External r' (lastComponent b) := by
  unfold operationsPlugin at hops
  generalize operationsOf doc = os at ho hops
  have hX : BasesIn (fun _ => True) c := fun _ _ => trivial
  have hF : LonelyField (fun _ => True) c := fun _ _ _ _ _ _ _ => trivial
  induction os generalizing r ss with
  | nil => cases ho
  | cons a os ih =>
    unfold generateOperations at hops
    obtain ⟨s1, r1, h1, h⟩ := Gen.bind_ok.1 hops
    obtain ⟨s2, r2, h2, h⟩ := Gen.bind_ok.1 h
    obtain ⟨rfl, rfl⟩ := Gen.pure_ok.1 h
    have g := generateOperation_resolve (U := fun _ => True) hplain hX hF (fun _ _ _ _ => trivial)
      (fun _ _ _ _ => trivial) hstyled h1
    rcases List.mem_cons.1 ho with rfl | ho
    · intro b hbm
      refine (generateOperations_resolve (U := fun _ => True) hplain hX hF os (fun _ _ _ _ _ _ => trivial)
        (fun _ _ _ _ _ _ => trivial) g.1 h2).1 _ ?_
      exact generateOperation_bases hplain hstyled hb h1 b hbm
    · exact ih g.1 ho h2

/-! ## a whole module -/

/-- Run the enums, inputs, fragments and operations plugins, in this order, on a fresh registry.  Under the same
assumptions, the whole module can be executed: every name evaluated by any of the generated statements is imported
or built in, or bound by an earlier statement — or is the name of a fragment on an interface that the document spreads
at a union. -/
theorem C60_module_resolves_partial {prep : List Char → List Char} {c : Ctx} {pe : EnumsConfig} {pi : InputsConfig}
    {pf : FragmentsConfig} {po : OperationsConfig} {doc : Document} {r1 r2 r3 r4 : Reg} {ss1 ss2 ss3 ss4 : List Stmt}
    (henums : generateEnums c pe (Reg.init c.env) = .ok (ss1, r1))
    (hinputs : generateInputs c pi r1 = .ok (ss2, r2))
    (hfrag : fragmentsPlugin prep c pf doc r2 = .ok (ss3, r3))
    (hops : operationsPlugin prep c po doc r3 = .ok (ss4, r4))
    (hplain : PlainConfig c.config) (hnodup : c.schema.types.keys.Nodup)
    (hdef : ∀ d ∈ fragmentsOf doc, ∀ x, Spreads d.sels x → x ∈ (fragmentsOf doc).map (·.name))
    (hdefO : ∀ o ∈ operationsOf doc, ∀ x, Spreads o.sels x → x ∈ (fragmentsOf doc).map (·.name))
    (hcyc : ∀ n d, lookup (fragmentsOf doc) n = some d → ¬ Needs (fragmentsOf doc) d.sels n)
    (hinl : ∀ d ∈ fragmentsOf doc, NoInlineSpread d.sels)
    (hbases : ∀ b ∈ c.config.objectBases, External r4 (lastComponent b))
    (hfield : NeedsField c po doc → External r4 "Field") :
    Resolves (fun n => External r4 n ∨ InterfaceFragmentAtUnion c doc n) (ss1 ++ (ss2 ++ (ss3 ++ ss4))) := by
  have e1 := (generateEnums_ok henums).1
  have s0 : Styled c.env (Reg.init c.env) := styled_stateAfter c.env []
  have s1 := e1.styled s0
  obtain ⟨⟨K, e2, _⟩, _⟩ := generateInputs_ok s1 hplain hnodup hinputs
  have s2 := e2.styled s1
  have none0 : ∀ n, ¬ Registered (Reg.init c.env) n := by
    rintro n ⟨k, t, h⟩
    cases k <;> cases h
  obtain ⟨hr, hx⟩ := C60_responses_resolve_partial hfrag hops hplain s2
    ⟨e2.impl.1.trans e1.impl.1, e2.impl.2.trans e1.impl.2⟩ hdef hdefO hcyc hinl hbases hfield
  rw [resolves_append]
  refine ⟨e1.resolves _ (fun n hn => .inl (hx n (e2.ext n hn))) fun n hn => (none0 n hn).elim, ?_⟩
  have k1 : ∀ n, Registered r1 n → ∃ s ∈ ss1, n ∈ bound s := fun n hn =>
    (e1.registered.1 hn).elim (fun h => (none0 n h).elim) definedNames_bound
  rw [resolves_append]
  refine ⟨e2.resolves _ (fun n hn => .inl (.inl (hx n hn))) fun n hn => .inr (k1 n hn), hr.mono ?_⟩
  rintro n (h | ⟨k, t, _, h⟩ | h)
  · exact .inl (.inl (.inl h))
  · rcases e2.registered.1 ⟨k, t, h⟩ with h | h
    · exact .inl (.inr (k1 n h))
    · exact .inr (definedNames_bound h)
  · exact .inl (.inl (.inr h))

/-- In a document that spreads no fragment on an interface at a union, whose operations declare no optional variable, for a schema whose
interfaces are all implemented (or with catch-all classes) and a configuration without base classes for operations, nothing is left to assume
about the generated module: it can be executed. -/
theorem C60_module_resolves_closed_partial {prep : List Char → List Char} {c : Ctx} {pe : EnumsConfig} {pi : InputsConfig}
    {pf : FragmentsConfig} {po : OperationsConfig} {doc : Document} {r1 r2 r3 r4 : Reg} {ss1 ss2 ss3 ss4 : List Stmt}
    (henums : generateEnums c pe (Reg.init c.env) = .ok (ss1, r1))
    (hinputs : generateInputs c pi r1 = .ok (ss2, r2))
    (hfrag : fragmentsPlugin prep c pf doc r2 = .ok (ss3, r3))
    (hops : operationsPlugin prep c po doc r3 = .ok (ss4, r4))
    (hplain : PlainConfig c.config) (hnodup : c.schema.types.keys.Nodup)
    (hdef : ∀ d ∈ fragmentsOf doc, ∀ x, Spreads d.sels x → x ∈ (fragmentsOf doc).map (·.name))
    (hdefO : ∀ o ∈ operationsOf doc, ∀ x, Spreads o.sels x → x ∈ (fragmentsOf doc).map (·.name))
    (hcyc : ∀ n d, lookup (fragmentsOf doc) n = some d → ¬ Needs (fragmentsOf doc) d.sels n)
    (hinl : ∀ d ∈ fragmentsOf doc, NoInlineSpread d.sels)
    (hobj : ∀ d ∈ fragmentsOf doc, IsInterface c.schema d.typeCondition → ¬ SpreadAtUnion c.schema doc d.name)
    (hsome : ∃ o ∈ operationsOf doc, po.basesFor o.kind = [])
    (hvars : ∀ o ∈ operationsOf doc, ∀ v ∈ o.vars, v.isOptional = false)
    (himpl : c.config.createCatchall = false → ∀ t, IsInterface c.schema t → ∃ o, Possible c.schema t o) :
    Resolves (External r4) (ss1 ++ (ss2 ++ (ss3 ++ ss4))) := by
  have nofield : ¬ NeedsField c po doc := by
    rintro (⟨_, o, ho, v, hv, h⟩ | ⟨hc, t, ht, h⟩)
    · rw [hvars o ho v hv] at h; cases h
    · obtain ⟨o, ho⟩ := himpl hc t ht
      exact h o ho
  have e1 := (generateEnums_ok henums).1
  have s1 := e1.styled (styled_stateAfter c.env [])
  obtain ⟨⟨K, e2, _⟩, _⟩ := generateInputs_ok s1 hplain hnodup hinputs
  obtain ⟨s3, _⟩ := (fragments_styled hplain (e2.styled s1) ⟨e2.impl.1.trans e1.impl.1, e2.impl.2.trans e1.impl.2⟩
    hdef hcyc hinl hfrag)
  obtain ⟨o, ho, hb⟩ := hsome
  refine (C60_module_resolves_partial henums hinputs hfrag hops hplain hnodup hdef hdefO hcyc hinl
    (C60_object_bases_imported hplain s3 hops o ho hb) (fun h => (nofield h).elim)).mono ?_
  rintro n (h | ⟨f, hf, hi, hu, _⟩)
  · exact h
  · exact (hobj f hf hi hu).elim

/-! ## modules that meet the hypotheses, and modules that cannot be executed -/

/-- the four plugins, one after the other -/
def moduleOf (c : Ctx) (po : OperationsConfig) (doc : Document) : Gen (List Stmt) := do
  let a ← generateEnums c {}
  let b ← generateInputs c {}
  let x ← fragmentsPlugin id c {} doc
  let y ← operationsPlugin id c po doc
  pure (a ++ (b ++ (x ++ y)))

/-- `test` holds of what the plugins generate -/
def moduleSatisfies (c : Ctx) (po : OperationsConfig) (doc : Document) (test : List Stmt → Reg → Bool) : Bool :=
  match moduleOf c po doc (Reg.init c.env) with
  | .error _ => false
  | .ok (ss, r) => test ss r

theorem module_ok {c : Ctx} {po : OperationsConfig} {doc : Document} {test : List Stmt → Reg → Bool}
    (h : moduleSatisfies c po doc test = true) :
    ∃ ss r, moduleOf c po doc (Reg.init c.env) = .ok (ss, r) ∧ test ss r = true := by
  unfold moduleSatisfies at h
  split at h
  · cases h
  · rename_i ss r e; exact ⟨ss, r, e, h⟩

theorem moduleOf_ok {c : Ctx} {po : OperationsConfig} {doc : Document} {ss : List Stmt} {r0 r : Reg}
    (h : moduleOf c po doc r0 = .ok (ss, r)) : ∃ a b x y r1 r2 r3, generateEnums c {} r0 = .ok (a, r1) ∧
      generateInputs c {} r1 = .ok (b, r2) ∧ fragmentsPlugin id c {} doc r2 = .ok (x, r3) ∧
      operationsPlugin id c po doc r3 = .ok (y, r) ∧ ss = a ++ (b ++ (x ++ y)) := by
  unfold moduleOf at h
  obtain ⟨a, r1, h1, h⟩ := Gen.bind_ok.1 h
  obtain ⟨b, r2, h2, h⟩ := Gen.bind_ok.1 h
  obtain ⟨x, r3, h3, h⟩ := Gen.bind_ok.1 h
  obtain ⟨y, r4, h4, h⟩ := Gen.bind_ok.1 h
  obtain ⟨rfl, rfl⟩ := Gen.pure_ok.1 h
  exact ⟨a, b, x, y, r1, r2, r3, h1, h2, h3, h4, rfl⟩

/-- `blogSchema` with an enum, an input type and a field taking it -/
def storeSchema : Schema := { query := some "Query", types := [
  ("String", ⟨.scalar, none⟩),
  ("Int", ⟨.scalar, none⟩),
  ("Color", ⟨.enum [⟨"RED", none, none⟩], none⟩),
  ("Filter", ⟨.input [⟨"color", .named "Color", none, none, none⟩] [], none⟩),
  ("Node", ⟨.interface [plainField "id" (.nonNull (.named "String"))] [], none⟩),
  ("Lonely", ⟨.interface [plainField "id" (.nonNull (.named "String"))] [], none⟩),
  ("User", ⟨.object [plainField "id" (.nonNull (.named "String")), plainField "name" (.named "String"),
    plainField "friend" (.named "Node"), plainField "color" (.named "Color")] ["Node"], none⟩),
  ("Post", ⟨.object [plainField "id" (.nonNull (.named "String")), plainField "title" (.named "String")]
    ["Node"], none⟩),
  ("Found", ⟨.union ["User", "Post"], none⟩),
  ("Query", ⟨.object [plainField "node" (.named "Node"), plainField "found" (.named "Found"),
    plainField "ping" (.nonNull (.named "Int")), plainField "user" (.named "User"), plainField "lonely" (.nonNull (.named "Lonely")),
    plainField "search" (.nonNull (.list (.nonNull (.named "Found"))))] [], none⟩)] }

/-- ```
fragment UserBits on User { name friend { id ... on Post { title } __typename } __typename }
query Look($f: Filter!) {
  node { id ...UserBits ... on Post { title } __typename }
  search { ...UserBits ... on Post { title } __typename }
  user { color } }
``` -/
def storeDoc : Document := [
  .fragment ⟨"UserBits", "User", [ask "name",
    ask "friend" [ask "id", .inline (some "Post") [ask "title"], ask "__typename"], ask "__typename"]⟩,
  .operation ⟨.query, some "Look", [⟨"f", .nonNull (.named "Filter"), none⟩], [
    ask "node" [ask "id", .spread "UserBits", .inline (some "Post") [ask "title"], ask "__typename"],
    ask "search" [.spread "UserBits", .inline (some "Post") [ask "title"], ask "__typename"],
    ask "user" [ask "color"]]⟩]

mutual
/-- the fragments spread in a selection -/
def spreadNamesOf : Sel → List String
  | .spread f => [f]
  | .field _ _ _ sub => spreadNames sub
  | .inline _ sub => spreadNames sub
/-- the fragments spread in a selection set -/
def spreadNames : List Sel → List String
  | [] => []
  | s :: ss => spreadNamesOf s ++ spreadNames ss
end

theorem mem_spreadNames {sels : List Sel} {x : String} (h : Spreads sels x) : x ∈ spreadNames sels := by
  induction h with
  | here f rest => simp [spreadNames, spreadNamesOf]
  | field n a args sub rest f _ ih => simp [spreadNames, spreadNamesOf, ih]
  | inline t sub rest f _ ih => simp [spreadNames, spreadNamesOf, ih]
  | later s rest f _ ih => simp [spreadNames, ih]

theorem store_fragments {d : FragDef} (hd : d ∈ fragmentsOf storeDoc) : d = ⟨"UserBits", "User", [ask "name",
    ask "friend" [ask "id", .inline (some "Post") [ask "title"], ask "__typename"], ask "__typename"]⟩ := by
  simpa only [storeDoc, fragmentsOf, List.filterMap_cons, List.filterMap_nil, List.mem_singleton] using hd

theorem store_look {x : String} (h : Spreads [
    ask "node" [ask "id", .spread "UserBits", .inline (some "Post") [ask "title"], ask "__typename"],
    ask "search" [.spread "UserBits", .inline (some "Post") [ask "title"], ask "__typename"],
    ask "user" [ask "color"]] x) : x = "UserBits" := by
    have h := mem_spreadNames h
    simp only [ask, spreadNames, spreadNamesOf, List.nil_append, List.append_nil, List.cons_append, List.mem_cons] at h
    simpa using h

/-- The theorem applies, and its conclusion is about fourteen statements. -/
example : ∃ ss r, moduleOf { schema := storeSchema } {} storeDoc (Reg.init {}) = .ok (ss, r) ∧
    (boundL ss).length = 14 ∧ Resolves (fun n => External r n ∨ InterfaceFragmentAtUnion { schema := storeSchema } storeDoc n) ss := by
  obtain ⟨ss, r, h, ht⟩ := module_ok (c := { schema := storeSchema }) (po := {}) (doc := storeDoc)
    (test := fun ss r => r.imports.contains "pydantic.BaseModel" && (r.imports.contains "pydantic.Field" &&
      (boundL ss).length == 14)) (by decide +kernel)
  simp only [Bool.and_eq_true, beq_iff_eq, List.contains_iff_mem] at ht
  obtain ⟨a, b, x, y, r1, r2, r3, h1, h2, h3, h4, rfl⟩ := moduleOf_ok h
  refine ⟨_, r, h, ht.2.2, C60_module_resolves_partial h1 h2 h3 h4 (fun t l hl => by cases hl) (by decide +kernel) ?_ ?_ ?_ ?_ ?_ ?_⟩
  · intro d hd x hx
    rw [store_fragments hd] at hx
    exact (blog_spreads hx).elim
  · intro o ho x hx
    simp only [storeDoc, operationsOf, List.filterMap_cons, List.filterMap_nil, List.mem_singleton] at ho
    subst ho
    rw [store_look hx]
    simp [fragmentsOf, storeDoc]
  · intro n d hl hx
    rw [store_fragments (lookup_mem hl).1] at hx
    clear hl
    induction hx with
    | direct f h => exact blog_spreads h
    | through g d f _ _ _ ih => exact ih
  · intro d hd
    rw [store_fragments hd]
    refine .field _ _ _ _ _ .nil (.field _ _ _ _ _ (.field _ _ _ _ _ .nil (.inline _ _ _ ?_
      (.field _ _ _ _ _ .nil .nil))) (.field _ _ _ _ _ .nil .nil))
    intro f h
    simp only [ask] at h
    repeat (first | (cases h; done) | (cases h <;> rename_i h))
  · intro b hb
    rw [List.mem_singleton.1 hb]
    exact .inl ⟨_, ht.1, rfl⟩
  · intro _
    exact .inl ⟨_, ht.2.1, by decide +kernel⟩

/-! ### a module with a fragment on an interface -/

/-- the types of the fields of that name -/
def fieldTypes (s : Schema) (t name : String) : List TypeNode :=
  ((((s.fieldsOf t).getD []).filter (·.name == name)).map (·.type)) ++
  [.nonNull (.named "String"), .nonNull (.named "__Schema"), .named "__Type"]

theorem mem_fieldTypes {s : Schema} {t name : String} {ty : TypeNode} (h : FieldOn s t name ty) : ty ∈ fieldTypes s t name := by
  unfold fieldTypes Schema.fieldsOf
  cases h with
  | object hl hm => rw [hl]; exact List.mem_append_left _ (List.mem_map.2 ⟨_, List.mem_filter.2 ⟨hm, by simp⟩, rfl⟩)
  | interface hl hm => rw [hl]; exact List.mem_append_left _ (List.mem_map.2 ⟨_, List.mem_filter.2 ⟨hm, by simp⟩, rfl⟩)
  | _ => simp

/-- the type is a union -/
def unionTest (s : Schema) (t : String) : Bool :=
  match s.lookup t with
  | some (.union _) => true
  | _ => false

/-- the selection is a spread of the fragment -/
def spreadTest (f : String) : Sel → Bool
  | .spread g => g == f
  | _ => false

mutual
/-- `AtUnion`, computed, for one selection -/
def atUnionSel (s : Schema) (f t : String) : Sel → Bool
  | .spread g => unionTest s t && g == f
  | .field n _ _ sub => (fieldTypes s t n).any fun ty => atUnionSels s f ty.base sub
  | .inline none _ => false
  | .inline (some o) sub => (unionTest s t && sub.any (spreadTest f)) || atUnionSels s f o sub
/-- `AtUnion`, computed -/
def atUnionSels (s : Schema) (f t : String) : List Sel → Bool
  | [] => false
  | x :: rest => atUnionSel s f t x || atUnionSels s f t rest
end

theorem atUnion_mem {s : Schema} {f t : String} {sels : List Sel} {x : Sel} (hm : x ∈ sels) (hx : atUnionSel s f t x = true) :
    atUnionSels s f t sels = true := by
  induction sels with
  | nil => cases hm
  | cons y rest ih =>
    unfold atUnionSels
    rcases List.mem_cons.1 hm with rfl | hm
    · rw [hx]; rfl
    · rw [ih hm, Bool.or_true]

theorem atUnion_test {s : Schema} {f t : String} {sels : List Sel} (h : AtUnion s f t sels) : atUnionSels s f t sels = true := by
  induction h with
  | here hl hm => exact atUnion_mem hm (by simp [atUnionSel, unionTest, hl])
  | member hl hm hs =>
    refine atUnion_mem hm ?_
    unfold atUnionSel
    rw [show unionTest s _ = true by simp [unionTest, hl], List.any_eq_true.2 ⟨_, hs, by simp [spreadTest]⟩]
    rfl
  | field hm hf _ ih =>
    refine atUnion_mem hm ?_
    unfold atUnionSel
    exact List.any_eq_true.2 ⟨_, mem_fieldTypes hf, ih⟩
  | inline hm _ ih =>
    refine atUnion_mem hm ?_
    unfold atUnionSel
    rw [ih, Bool.or_true]

/-- `SpreadAtUnion`, computed -/
def spreadAtUnionTest (s : Schema) (doc : Document) (f : String) : Bool :=
  (fragmentsOf doc).any (fun d => atUnionSels s f d.typeCondition d.sels) ||
  (operationsOf doc).any fun o => match s.root o.kind with
    | some root => atUnionSels s f root o.sels
    | none => false

theorem spreadAtUnion_test {s : Schema} {doc : Document} {f : String} (h : SpreadAtUnion s doc f) :
    spreadAtUnionTest s doc f = true := by
  unfold spreadAtUnionTest
  rw [Bool.or_eq_true, List.any_eq_true, List.any_eq_true]
  rcases h with ⟨d, hd, h⟩ | ⟨o, ho, root, hr, h⟩
  · exact .inl ⟨d, hd, atUnion_test h⟩
  · exact .inr ⟨o, ho, by rw [hr]; exact atUnion_test h⟩

/-- ```
fragment Bits on Node { id }
fragment UserBits on User { ...Bits name }
query Look { node { ...Bits ...UserBits __typename }  user { ...Bits }  search { ...UserBits __typename } }
``` -/
def sharedDoc : Document := [
  .fragment ⟨"Bits", "Node", [ask "id"]⟩,
  .fragment ⟨"UserBits", "User", [.spread "Bits", ask "name"]⟩,
  .operation ⟨.query, some "Look", [], [
    ask "node" [.spread "Bits", .spread "UserBits", ask "__typename"],
    ask "user" [.spread "Bits"],
    ask "search" [.spread "UserBits", ask "__typename"]]⟩]

theorem shared_fragments {d : FragDef} (hd : d ∈ fragmentsOf sharedDoc) :
    d = ⟨"Bits", "Node", [ask "id"]⟩ ∨ d = ⟨"UserBits", "User", [.spread "Bits", ask "name"]⟩ := by
  simpa only [sharedDoc, fragmentsOf, List.filterMap_cons, List.filterMap_nil, List.mem_cons, List.not_mem_nil, or_false] using hd

theorem shared_not_at_union : ∀ d ∈ fragmentsOf sharedDoc, IsInterface storeSchema d.typeCondition →
    ¬ SpreadAtUnion storeSchema sharedDoc d.name := by
  intro d hd hi hu
  have h := spreadAtUnion_test hu
  rcases shared_fragments hd with rfl | rfl
  · exact absurd h (by decide +kernel)
  · obtain ⟨fs, is, h⟩ := hi
    exact absurd (h : Schema.lookup storeSchema "User" = _) (by simp [storeSchema, Schema.lookup, Dict.get?])

theorem shared_spreads {d : FragDef} (hd : d ∈ fragmentsOf sharedDoc) {x : String} (h : Spreads d.sels x) :
    d.name = "UserBits" ∧ x = "Bits" := by
  have h := mem_spreadNames h
  rcases shared_fragments hd with rfl | rfl
  · simp [ask, spreadNames, spreadNamesOf] at h
  · simp [ask, spreadNames, spreadNamesOf] at h
    exact ⟨rfl, h⟩

theorem shared_needs {d : FragDef} (hd : d ∈ fragmentsOf sharedDoc) {x : String}
    (h : Needs (fragmentsOf sharedDoc) d.sels x) : d.name = "UserBits" ∧ x = "Bits" := by
  generalize hs : d.sels = sels at h
  induction h generalizing d with
  | direct f h => exact shared_spreads hd (hs ▸ h)
  | through g d' f _ hl h ih =>
    obtain ⟨_, rfl⟩ := ih hd hs
    obtain ⟨hm, hn⟩ := lookup_mem hl
    obtain ⟨h2, _⟩ := shared_spreads hm h
    rw [hn] at h2
    exact absurd h2 (by decide +kernel)

/-- A fragment on an interface that is spread at an interface, at an object and in a fragment, but at no union: the
theorem applies, and no name is left out. -/
example : ∃ ss r, moduleOf { schema := storeSchema } {} sharedDoc (Reg.init {}) = .ok (ss, r) ∧
    (∀ n ∈ ["BitsUser", "BitsPost", "UserBits", "Look"], n ∈ boundL ss) ∧ Resolves (External r) ss := by
  obtain ⟨ss, r, h, ht⟩ := module_ok (c := { schema := storeSchema }) (po := {}) (doc := sharedDoc)
    (test := fun ss r => decide (∀ n ∈ ["BitsUser", "BitsPost", "UserBits", "Look"], n ∈ boundL ss)) (by decide +kernel)
  obtain ⟨a, b, x, y, r1, r2, r3, h1, h2, h3, h4, rfl⟩ := moduleOf_ok h
  refine ⟨_, r, h, of_decide_eq_true ht, C60_module_resolves_closed_partial h1 h2 h3 h4 (fun t l hl => by cases hl)
    (by decide +kernel) ?_ ?_ ?_ ?_ shared_not_at_union ?_ ?_ ?_⟩
  · intro d hd x hx
    rw [(shared_spreads hd hx).2]
    simp [fragmentsOf, sharedDoc]
  · intro o ho x hx
    simp only [sharedDoc, operationsOf, List.filterMap_cons, List.filterMap_nil, List.mem_singleton] at ho
    subst ho
    have := mem_spreadNames hx
    simp [ask, spreadNames, spreadNamesOf] at this
    simp [fragmentsOf, sharedDoc]
    rcases this with h | h | h | h <;> simp [h]
  · intro n d hl hx
    obtain ⟨hm, hn⟩ := lookup_mem hl
    obtain ⟨h1, h2⟩ := shared_needs hm hx
    rw [hn, h2] at h1
    exact absurd h1 (by decide +kernel)
  · intro d hd
    rcases shared_fragments hd with rfl | rfl
    · exact .field _ _ _ _ _ .nil .nil
    · exact .spread _ _ (.field _ _ _ _ _ .nil .nil)
  · exact ⟨_, List.mem_cons_self .., rfl⟩
  · intro o ho v hv
    simp only [sharedDoc, operationsOf, List.filterMap_cons, List.filterMap_nil, List.mem_singleton] at ho
    subst ho
    cases hv
  · intro h; cases h

/-- `External`, computed -/
def externalTest (r : Reg) (n : String) : Bool :=
  r.imports.any (fun d => lastComponent d == n) || neverImported.contains n ||
  r.builtins.any (fun b => (helperNames b).contains n) || r.scalarMap.any (fun p => p.2 == n)

theorem external_test {r : Reg} {n : String} (h : External r n) : externalTest r n = true := by
  unfold externalTest
  simp only [Bool.or_eq_true, List.any_eq_true, beq_iff_eq, List.contains_iff_mem]
  rcases h with ⟨d, hd, e⟩ | h | ⟨b, hb, h⟩ | ⟨s, hs, _⟩
  · exact .inl (.inl (.inl ⟨d, hd, e⟩))
  · exact .inl (.inl (.inr h))
  · exact .inl (.inr ⟨b, hb, h⟩)
  · exact .inr ⟨_, Dict.mem_of_get? hs, rfl⟩

theorem resolves_evaluated {ss : List Stmt} : ∀ {E : String → Prop} {n : String}, Resolves E ss → n ∈ evaluatedL ss →
    E n ∨ n ∈ boundL ss := by
  induction ss with
  | nil => intro E n _ h; cases h
  | cons s ss ih =>
    intro E n hr h
    unfold boundL
    rw [List.flatMap_cons, List.mem_append]
    rcases List.mem_append.1 h with h | h
    · exact .inl (hr.1 n h)
    · rcases ih hr.2 h with (h | h) | h
      · exact .inl h
      · exact .inr (.inl h)
      · exact .inr (.inr h)

/-- the name `n` is evaluated by the module, but neither provided nor bound by it -/
def unboundTest (n : String) (ss : List Stmt) (r : Reg) : Bool :=
  (evaluatedL ss).contains n && (!(boundL ss).contains n && !externalTest r n)

theorem unbound {c : Ctx} {po : OperationsConfig} {doc : Document} (n : String)
    (h : moduleSatisfies c po doc (unboundTest n) = true) :
    ∃ ss r, moduleOf c po doc (Reg.init c.env) = .ok (ss, r) ∧ n ∈ evaluatedL ss ∧ ¬ Resolves (External r) ss := by
  obtain ⟨ss, r, h, ht⟩ := module_ok h
  unfold unboundTest at ht
  simp only [Bool.and_eq_true, Bool.not_eq_true', List.contains_iff_mem] at ht
  refine ⟨ss, r, h, ht.1, fun hr => ?_⟩
  rcases resolves_evaluated hr ht.1 with h | h
  · rw [external_test h] at ht; cases ht.2.2
  · have := ht.2.1
    simp [h] at this

/-- `query Ping($x: Int) { ping }` with the default configuration: the class of the arguments calls `Field`, which
is not imported. -/
theorem C60_arguments_field_counterexample : ∃ ss r,
    moduleOf { schema := storeSchema } {} [.operation ⟨.query, some "Ping", [⟨"x", .named "Int", none⟩], [ask "ping"]⟩]
      (Reg.init {}) = .ok (ss, r) ∧ "Field" ∈ evaluatedL ss ∧ ¬ Resolves (External r) ss :=
  unbound (c := { schema := storeSchema }) "Field" (by decide +kernel)

/-- `query Who { user { name } }` with base classes configured for queries and arguments, and a base class
configured for objects that no other plugin imports: the class of the user has a base class that is not imported. -/
theorem C60_object_bases_counterexample : ∃ ss r,
    moduleOf { schema := storeSchema, config := { objectBases := ["models.Row"] } }
      { queryBases := ["models.Query"], argumentsBases := ["models.Arguments"] }
      [.operation ⟨.query, some "Who", [], [ask "user" [ask "name"]]⟩] (Reg.init {}) = .ok (ss, r) ∧
    "Row" ∈ evaluatedL ss ∧ ¬ Resolves (External r) ss :=
  unbound (c := { schema := storeSchema, config := { objectBases := ["models.Row"] } }) "Row" (by decide +kernel)

/-- `fragment Bits on Node { id }  query Find { search { ...Bits __typename } }` with the default configuration: the
annotation of `search` evaluates `Bits`, a class that is not generated. -/
theorem C60_interface_fragment_counterexample : ∃ ss r,
    moduleOf { schema := storeSchema } {} [.fragment ⟨"Bits", "Node", [ask "id"]⟩,
      .operation ⟨.query, some "Find", [], [ask "search" [.spread "Bits", ask "__typename"]]⟩] (Reg.init {}) = .ok (ss, r) ∧
    "Bits" ∈ evaluatedL ss ∧ ¬ Resolves (External r) ss :=
  unbound (c := { schema := storeSchema }) "Bits" (by decide +kernel)

/-- `fragment Bits on Node { id }  query Find { search { ... on User { ...Bits name } __typename } }`: the class for the
inline fragment has the base class `Bits`, which is not generated. -/
theorem C60_interface_fragment_inline_counterexample : ∃ ss r,
    moduleOf { schema := storeSchema } {} [.fragment ⟨"Bits", "Node", [ask "id"]⟩,
      .operation ⟨.query, some "Find", [], [ask "search" [.inline (some "User") [.spread "Bits", ask "name"],
        ask "__typename"]]⟩] (Reg.init {}) = .ok (ss, r) ∧
    "Bits" ∈ evaluatedL ss ∧ ¬ Resolves (External r) ss :=
  unbound (c := { schema := storeSchema }) "Bits" (by decide +kernel)

/-- `query Alone { lonely { id } }` where no type implements the interface, without catch-all classes: `Field` is called but not
imported. -/
theorem C60_lonely_interface_counterexample : ∃ ss r,
    moduleOf { schema := storeSchema, config := { createCatchall := false } } {}
      [.operation ⟨.query, some "Alone", [], [ask "lonely" [ask "id"]]⟩]
      (Reg.init {}) = .ok (ss, r) ∧ "Field" ∈ evaluatedL ss ∧ ¬ Resolves (External r) ss :=
  unbound (c := { schema := storeSchema, config := { createCatchall := false } }) "Field" (by decide +kernel)

end Turms.Props
