import Verif.Lemmas.HierarchyCheck
import Verif.Props.Kept

/-!
# C73: the class statements of the generated module can be executed

The generated classes inherit from each other: the class of a selection inherits from those of the fragments spread in
it.  Python refuses a class whose bases have no consistent method resolution order, or that names a base twice, or whose
base is not (yet) a class; importing the module then fails.
-/

namespace Turms.Props
open Turms Spec Fragments

/-- Run the fragments plugin and then the operations plugin on a document.  Let `ext` be the imported classes with their
method resolution orders.  Assume:

* about the configuration: the bases configured for all objects (at least one), and those for operations, can be used
  together in a class statement; no other bases are configured for interfaces, single types, or fragments;
* about the module: no name is bound twice, or is that of an imported class or of an ancestor of one;
* about the document: every spread fragment is defined, no fragment needs itself, no fragment hides a spread below
  an inline fragment, and the selections are of the shapes `Inheritable` and `InheritableFragment` describe: the
  fragments spread beside each other do not inherit from a common one.

Then executing all class statements succeeds: every base is a class bound before, and there is a method resolution
order.

Missing for the full property: selections outside `Inheritable` (see the counterexamples below, for which it fails) and
the other bases that can be configured.  The classes `Meta` and `Arguments` nested in class bodies are not executed. -/
theorem C73_class_statements_execute_partial {prep : List Char → List Char} {c : Ctx} {pf : FragmentsConfig}
    {po : OperationsConfig} {doc : Document} {ext : Classes} {r0 r1 r2 : Reg} {ss1 ss2 : List Stmt}
    (hfrag : fragmentsPlugin prep c pf doc r0 = .ok (ss1, r1))
    (hops : operationsPlugin prep c po doc r1 = .ok (ss2, r2))
    (hfirst : r0.interfaceFragmentImpl = [] ∧ r0.unionFragmentMembers = [])
    (hnodup : c.schema.types.keys.Nodup)
    (hsome : c.config.objectBases ≠ [])
    (hbases : ∀ n, (newMro ext n (baseNames c.config.objectBases)).isSome = true)
    (hbasesO : ∀ k n, (newMro ext n (baseNames (po.basesFor k))).isSome = true)
    (hinterface : c.config.interfaceBases = none) (hadditional : c.config.additionalBases = [])
    (hplain : pf.fragmentBases = [] ∧ pf.objectBases = [])
    (hunique : (boundNames (ss1 ++ ss2)).Nodup)
    (hnew : ∀ x ∈ boundNames (ss1 ++ ss2), ext x = none ∧ ∀ b l, ext b = some l → x ∉ l)
    (hdef : ∀ d ∈ fragmentsOf doc, ∀ x, Spreads d.sels x → x ∈ (fragmentsOf doc).map (·.name))
    (hcyc : ∀ n d, lookup (fragmentsOf doc) n = some d → ¬ Needs (fragmentsOf doc) d.sels n)
    (hinl : ∀ d ∈ fragmentsOf doc, NoInlineSpread d.sels)
    (hinhF : ∀ d ∈ fragmentsOf doc, InheritableFragment c (definitions doc) d)
    (hdefO : ∀ o ∈ operationsOf doc, ∀ x, Spreads o.sels x → x ∈ (fragmentsOf doc).map (·.name))
    (hinhO : ∀ o ∈ operationsOf doc, ∀ root, c.schema.root o.kind = some root → IsObject c.schema root ∧
      ∀ name al args sub t, Sel.field name al args sub ∈ o.sels →
        FieldType c.schema root name t → Inheritable c (definitions doc) t sub) :
    ClassesExecute ext (ss1 ++ ss2) := by
  obtain ⟨l, hl, hnames, hnd, hbefore⟩ := C11_document_order doc hinl hdef hcyc
  obtain ⟨l', hl', _, hmem, _⟩ := C12_document_fragments doc
  rw [hl] at hl'
  cases hl'
  unfold fragmentsPlugin at hfrag
  obtain ⟨fs, r', hx, hfrag⟩ := Gen.bind_ok.1 hfrag
  obtain ⟨hx, rfl⟩ := Gen.lift_ok.1 hx
  rw [hl] at hx
  cases hx
  have hin : ∀ {d}, d ∈ l → d ∈ fragmentsOf doc := fun {d} hd => by
    obtain ⟨n, hn⟩ := (hmem d).1 hd
    exact (lookup_mem hn).1
  -- the configured bases
  have hE : common c ≠ [] := by
    unfold common baseNames
    simpa using hsome
  obtain ⟨X, O, hX, hO⟩ : ∃ X O, lookupAll ext (common c) = some X ∧ Merges (X ++ [nameIds (common c)]) O := by
    have := hbases ""
    unfold newMro at this
    rw [if_neg (by simpa using hE)] at this
    cases hX : lookupAll ext (baseNames c.config.objectBases) with
    | none => rw [hX] at this; cases this
    | some X =>
      rw [hX] at this
      dsimp only at this
      cases hO : c3 (X ++ [nameIds (baseNames c.config.objectBases)]) with
      | none => rw [hO] at this; cases this
      | some O => exact ⟨X, O, rfl, c3_iff.1 hO⟩
  have hbasesO' : ∀ k n, (newMro ext n (operationBases c po k)).isSome = true := by
    intro k n
    unfold operationBases
    split
    · exact hbases n
    · exact hbasesO k n
  have hbound : ∀ {bs : List Expr} {ls}, lookupAll ext bs = some ls → ∀ b, Expr.name b ∈ bs → ∃ m, ext b = some m := by
    intro bs
    induction bs with
    | nil => intro _ _ b hb; cases hb
    | cons x bs ih =>
      intro ls hls b hb
      cases x <;> try cases hls
      rename_i y
      unfold lookupAll at hls
      cases hy : ext y with
      | none => rw [hy] at hls; cases hls
      | some m =>
        cases hr : lookupAll ext bs with
        | none => rw [hy, hr] at hls; cases hls
        | some ms =>
          rcases List.mem_cons.1 hb with hb | hb
          · cases hb; exact ⟨m, hy⟩
          · exact ih hr b hb
  have hvals : ∀ {bs : List Expr} {ls}, lookupAll ext bs = some ls → ∀ m ∈ ls, ∃ b, ext b = some m := by
    intro bs
    induction bs with
    | nil => intro ls hls m hm; cases hls; cases hm
    | cons x bs ih =>
      intro ls hls m hm
      cases x <;> try cases hls
      rename_i y
      unfold lookupAll at hls
      cases hy : ext y with
      | none => rw [hy] at hls; cases hls
      | some m' =>
        cases hr : lookupAll ext bs with
        | none => rw [hy, hr] at hls; cases hls
        | some ms =>
          rw [hy, hr] at hls
          cases hls
          rcases List.mem_cons.1 hm with rfl | hm
          · exact ⟨y, hy⟩
          · exact ih hr m hm
  have hfresh : FreshNames (common c) (fun bs => ∃ k, bs = operationBases c po k) O X [] (boundNames (ss1 ++ ss2)) := by
    intro x hx
    obtain ⟨hx1, hx2⟩ := hnew x hx
    have hxE : x ∉ nameIds (common c) := by
      intro hm
      obtain ⟨m, hm⟩ := hbound hX x (mem_nameIds.1 hm)
      rw [hx1] at hm; cases hm
    have hxX : ∀ l ∈ X, x ∉ l := by
      intro l hl
      obtain ⟨b, hb⟩ := hvals hX l hl
      exact hx2 b l hb
    refine ⟨by simp, fun hm => ?_, hxE, hxX, ?_⟩
    · obtain ⟨l, hl, hxl⟩ := hO.mem hm
      rcases List.mem_append.1 hl with hl | hl
      · exact hxX l hl hxl
      · rw [List.mem_singleton.1 hl] at hxl; exact hxE hxl
    · rintro bs ⟨k, rfl⟩ hm
      have := hbasesO' k ""
      unfold newMro at this
      rw [if_neg (by intro he; rw [List.isEmpty_iff.1 he] at hm; cases hm)] at this
      cases hL : lookupAll ext (operationBases c po k) with
      | none => rw [hL] at this; cases this
      | some ls =>
        obtain ⟨m, hm⟩ := hbound hL x hm
        rw [hx1] at hm; cases hm
  rw [boundNames_append] at hunique hfresh
  have hb0 : Before (definitions doc) (fun _ _ => False) (fun _ => False) (common c)
      (fun bs => ∃ k, bs = operationBases c po k) O X [] ext :=
    ⟨hE, hX, hO, by rintro bs ⟨k, rfl⟩ n; exact hbasesO' k n, fun f b hf => hf.elim, fun f g m hf => hf.elim,
      fun m hm => by cases hm⟩
  have h0 : StateH c (definitions doc) (fun _ _ => False) (fun _ => False) r0 :=
    ⟨fun n => by rw [hadditional]; rfl, by unfold interfaceBaseList; rw [hinterface]; rfl, hnodup, fun f hf => hf.elim⟩
  obtain ⟨G, env1, hrun1, h1, hb1⟩ := generateFragments_run l h0 (fun _ _ h => h) hplain
    (fun d hd => by
      obtain ⟨n, hn⟩ := (hmem d).1 hd
      rw [definitions_get?, (lookup_mem hn).2, hn])
    hnd (fun d hd => hinhF d (hin hd))
    (fun before d after e g hg => .inr (hbefore before after d e g (.direct g hg)))
    (fun d _ => by rw [hfirst.1, hfirst.2]; exact ⟨rfl, rfl⟩)
    hfrag hb0 (List.nodup_append.1 hunique).1 (hfresh.mono fun x hx => List.mem_append_left _ hx)
  have e : (fun f => False ∨ f ∈ l.map (·.name)) = (· ∈ (fragmentsOf doc).map (·.name)) := by
    funext f; rw [false_or, hnames]
  rw [e] at h1 hb1
  have hgood := generateOperations_good (prep := prep) (p := po) _ h1
    (fun o ho => ⟨fun root hr => (hinhO o ho root hr).1, hdefO o ho, fun root hr => (hinhO o ho root hr).2⟩) hops
  obtain ⟨env2, hrun2, _⟩ := run_list hb1 (fun _ h => h) (List.nodup_append.1 hunique).2.1 (hfresh.later hunique) hgood
  unfold ClassesExecute
  rw [runClasses_append, hrun1]
  show (runClasses env1 ss2).isSome = true
  rw [hrun2]
  rfl

/-! ## a document that meets the hypotheses -/

/-- only `pydantic.BaseModel` is imported -/
def pydanticOnly : Classes := fun x => if x = "BaseModel" then some ["BaseModel", "object"] else none

theorem pydanticOnly_bases (n : String) :
    (newMro pydanticOnly n (baseNames ["pydantic.BaseModel"])).isSome = true := by
  have : baseNames ["pydantic.BaseModel"] = [.name "BaseModel"] := by decide +kernel
  rw [this]
  show (Option.map _ (c3 [["BaseModel", "object"], ["BaseModel"]])).isSome = true
  rw [Option.isSome_map]
  decide +kernel

/-- a test of what is generated for the document -/
def lookSatisfies (fs : List FragDef) (sels : List Sel) (test : List Stmt → Bool) : Bool :=
  generatedSatisfies blogSchema (lookDoc fs sels) test

/--
```
fragment Names on User { name }
fragment Ids on Node { id }
fragment Both on User { ...Names ...Ids friend { ...Ids } }
fragment Hit on Found { ... on User { name } ... on Post { title } }
fragment Again on Found { ...Hit }
```
-/
def treeFragments : List FragDef := [
  ⟨"Names", "User", [ask "name"]⟩,
  ⟨"Ids", "Node", [ask "id"]⟩,
  ⟨"Both", "User", [.spread "Names", .spread "Ids", ask "friend" [.spread "Ids"]]⟩,
  ⟨"Hit", "Found", [.inline (some "User") [ask "name"], .inline (some "Post") [ask "title"]]⟩,
  ⟨"Again", "Found", [.spread "Hit"]⟩]

/-- `query Look { node { id ...Both } found { ... on User { id ...Names } } search { ...Again } }` -/
def treeSels : List Sel := [
  ask "node" [ask "id", .spread "Both"],
  ask "found" [.inline (some "User") [ask "id", .spread "Names"]],
  ask "search" [.spread "Again"]]

/-- The theorem applies to this document, for which 20 classes are generated. -/
example : ∃ T, generated blogSchema (lookDoc treeFragments treeSels) = .ok T ∧ (classNames T).length = 20 ∧
    ClassesExecute pydanticOnly T := by
  obtain ⟨a, r, b, r', h1, h2, h3, h4⟩ := generated_ok (s := blogSchema) (doc := lookDoc treeFragments treeSels)
    (test := fun T => decide ((boundNames T).Nodup ∧ (∀ x ∈ boundNames T, x ≠ "BaseModel" ∧ x ≠ "object") ∧
      (classNames T).length = 20)) (by decide +kernel)
  obtain ⟨hnd, hne, hlen⟩ := of_decide_eq_true h4
  have hfs : fragmentsOf (lookDoc treeFragments treeSels) = treeFragments := rfl
  obtain ⟨hdef, hcyc, hinl⟩ := fragmentsB_ok (fs := treeFragments) (by decide +kernel)
  refine ⟨a ++ b, h3, hlen, C73_class_statements_execute_partial h1 h2 ⟨rfl, rfl⟩ (by decide) (by simp)
    pydanticOnly_bases (by intro k n; cases k <;> rfl) rfl rfl ⟨rfl, rfl⟩ hnd ?_ hdef hcyc hinl ?_ ?_ ?_⟩
  · intro x hx
    obtain ⟨e1, e2⟩ := hne x hx
    refine ⟨if_neg e1, fun b l hb => ?_⟩
    unfold pydanticOnly at hb
    split at hb
    · cases hb; simp [e1, e2]
    · cases hb
  · have : ∀ d ∈ treeFragments, inheritableFragmentB { schema := blogSchema }
        (definitions (lookDoc treeFragments treeSels)) 20 d = true := by decide +kernel
    exact fun d hd => inheritableFragmentB_ok (this d hd)
  · intro o ho x hx
    cases List.mem_singleton.1 (show o ∈ [_] from ho)
    have : ∀ x ∈ spreadNames treeSels, x ∈ treeFragments.map (·.name) := by decide +kernel
    exact this x (mem_spreadNames hx)
  · intro o ho root hroot
    cases List.mem_singleton.1 (show o ∈ [_] from ho)
    cases hroot
    refine ⟨blog_query, fun name al args sub t hm ht => ?_⟩
    have key : typedB blogSchema (inheritableB { schema := blogSchema } (definitions (lookDoc treeFragments treeSels)) 20)
        "Query" treeSels = true := by decide +kernel
    refine inheritableB_ok 20 (typedB_ok key hm ?_ ht)
    rintro rfl
    simp [treeSels, ask] at hm

/-! ## documents for which a class statement fails -/

/-- For this document classes are generated, no name is bound twice, and importing the module fails in a class
statement. -/
def Breaks (fs : List FragDef) (sels : List Sel) : Prop :=
  ∃ T, generated blogSchema (lookDoc fs sels) = .ok T ∧ (boundNames T).Nodup ∧ ¬ ClassesExecute pydanticOnly T

theorem breaks {fs : List FragDef} {sels : List Sel} (h : lookSatisfies fs sels (fun T =>
    decide (boundNames T).Nodup && !(runClasses pydanticOnly T).isSome) = true) : Breaks fs sels := by
  obtain ⟨a, r, b, r', _, _, h3, h4⟩ := generated_ok h
  rw [Bool.and_eq_true, decide_eq_true_eq] at h4
  refine ⟨_, h3, h4.1, fun he => ?_⟩
  unfold ClassesExecute at he
  rw [he] at h4
  exact absurd h4.2 (by decide)

/-- C73 fails if a fragment is spread before another one that spreads it: there is no method resolution order for
`class LookNodeBaseUser(Names, More, LookNodeBase, BaseModel)`.
```
fragment Names on User { name }
fragment More on User { ...Names id }
query Look { node { id ...Names ...More } }
``` -/
theorem C73_related_spreads_counterexample :
    Breaks [⟨"Names", "User", [ask "name"]⟩, ⟨"More", "User", [.spread "Names", ask "id"]⟩]
      [ask "node" [ask "id", .spread "Names", .spread "More"]] := breaks (by decide +kernel)

/-- The order in which they have to be spread is not the same in fragments on objects, where the bases are reversed.
```
fragment Names on User { name }
fragment More on User { ...Names id }
fragment All on User { ...More ...Names }
query Look { node { id ...All } }
``` -/
theorem C73_related_spreads_in_fragment_counterexample :
    Breaks [⟨"Names", "User", [ask "name"]⟩, ⟨"More", "User", [.spread "Names", ask "id"]⟩,
        ⟨"All", "User", [.spread "More", .spread "Names"]⟩]
      [ask "node" [ask "id", .spread "All"]] := breaks (by decide +kernel)

/-- C73 fails if a fragment is spread twice beside each other, which GraphQL allows: the class names a base twice.
`query Look { node { id ...Names ...Names } }` -/
theorem C73_duplicate_spread_counterexample :
    Breaks [⟨"Names", "User", [ask "name"]⟩] [ask "node" [ask "id", .spread "Names", .spread "Names"]] :=
  breaks (by decide +kernel)

/-- C73 fails for a fragment on a union that is spread inside an inline fragment: its name is bound to a `Union`, which
is no class.
```
fragment Hit on Found { ... on User { name } }
query Look { found { ... on User { ...Hit } } }
``` -/
theorem C73_union_fragment_counterexample :
    Breaks [⟨"Hit", "Found", [.inline (some "User") [ask "name"]]⟩]
      [ask "found" [.inline (some "User") [.spread "Hit"]]] := breaks (by decide +kernel)

/-- C73 fails for a fragment hidden below an inline fragment of another one that is defined before: the fragments are
generated in that order.
```
fragment Hit on Found { ... on User { ...Names } }
fragment Names on User { name }
query Look { found { ...Hit } }
``` -/
theorem C73_hidden_spread_counterexample :
    Breaks [⟨"Hit", "Found", [.inline (some "User") [.spread "Names"]]⟩, ⟨"Names", "User", [ask "name"]⟩]
      [ask "found" [.spread "Hit"]] := breaks (by decide +kernel)

/-- Even for a document that meets all hypotheses of the theorem, C73 fails if an additional base of a type is also a base
of all objects: the base is named twice.  (`additional_bases: {User: [pydantic.BaseModel]}`,
`query Look { found { ... on User { name } } }`) -/
theorem C73_additional_base_counterexample :
    ∃ ss r, operationsPlugin id { schema := blogSchema, config := { additionalBases := [("User", ["pydantic.BaseModel"])] } }
        {} (lookDoc [] [ask "found" [.inline (some "User") [ask "name"]]]) (Reg.init {}) = .ok (ss, r) ∧
      (boundNames ss).Nodup ∧ ¬ ClassesExecute pydanticOnly ss := by
  have h : (match operationsPlugin id { schema := blogSchema, config := { additionalBases := [("User", ["pydantic.BaseModel"])] } }
        {} (lookDoc [] [ask "found" [.inline (some "User") [ask "name"]]]) (Reg.init {}) with
      | .ok (ss, _) => decide (boundNames ss).Nodup && !(runClasses pydanticOnly ss).isSome
      | .error _ => false) = true := by decide +kernel
  split at h
  · rename_i ss r hg
    rw [Bool.and_eq_true, decide_eq_true_eq] at h
    refine ⟨ss, r, hg, h.1, fun he => ?_⟩
    unfold ClassesExecute at he
    rw [he] at h
    exact absurd h.2 (by decide)
  · cases h

end Turms.Props
