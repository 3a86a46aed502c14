import Verif.Lemmas.Module
import Verif.Props.StrawberryScope
import Verif.Props.FuncScope

/-! # C76: a generated module executes from its first line -/

namespace Turms.Props
open Turms Spec

/-- C76, for any list of plugins: if the configuration is accepted, the statements of the plugins find the names that
imports, helper classes and earlier statements give them, and every rebuilt class is defined, then the whole module —
imports first, in whatever order Python iterates its sets — executes with nothing but the names `B` of Python's builtins.

The helper classes for introspection enums need `Enum`, which they do not import themselves: it must be imported by a
plugin, see `C76_enum_counterexample`. -/
theorem C76_assembly_partial {B : List String} {env : Env} {bases : Dict (List String)} {plugins : List Plugin}
    {iter : List String → List String} {skip : Bool} {tree m : List Stmt} {r : Reg}
    (hB : PythonNames B) (haccepted : validateNames B env.config bases = .ok ()) (hiter : ∀ l, (iter l).Perm l)
    (hrun : runPlugins plugins (Reg.init env) = .ok (tree, r))
    (hres : Resolves (Provided (Reg.init env) r) tree)
    (henum : ∀ b ∈ r.builtins, b ∈ enumHelpers → ∃ d ∈ r.imports, lastComponent d = "Enum")
    (hrebuilt : skip = false → ∀ n ∈ r.forwardReferences, n ∈ boundL tree)
    (h : generateAst env iter plugins skip = .ok m) : Executes (· ∈ B) m :=
  generateAst_executes hB ((C71_accepted_iff _ _ _).1 haccepted) hiter hrun hres henum hrebuilt h

/-- C76, for the strawberry plugin with `skip_forwards`: a module generated from a schema with an accepted configuration
executes from its first line, under the hypotheses of `C67_names_partial` (and unless an introspection enum is used
while no enum is generated). -/
theorem C76_strawberry_partial {B : List String} {c : Ctx} {p : StrawberryConfig} {sd : SchemaDirectives}
    {bases : Dict (List String)} {iter : List String → List String} {m : List Stmt}
    (hB : PythonNames B) (haccepted : validateNames B c.env.config bases = .ok ()) (hiter : ∀ l, (iter l).Perm l)
    (hplain : PlainConfig c.config) (hbases : p.inputtypeBases = []) (hdir : DirectivesUsable p sd)
    (hvalid : ValidComposites c.schema) (hdefaults : PlainDefaults c.schema)
    (henum : ∀ ss r, strawberryPlugin c p sd (Reg.init c.env) = .ok (ss, r) →
      ∀ b ∈ r.builtins, b ∈ enumHelpers → ∃ d ∈ r.imports, lastComponent d = "Enum")
    (h : generateAst c.env iter [⟨"StrawberryPlugin", strawberryPlugin c p sd⟩] true = .ok m) :
    Executes (· ∈ B) m := by
  have hr : ∃ ss r, strawberryPlugin c p sd (Reg.init c.env) = .ok (ss, r) := by
    unfold generateAst runPlugins at h
    simp only at h
    cases hs : strawberryPlugin c p sd (Reg.init c.env) with
    | error e => rw [hs] at h; cases h
    | ok x => exact ⟨x.1, x.2, rfl⟩
  obtain ⟨ss, r, hs⟩ := hr
  have hrun : runPlugins [⟨"StrawberryPlugin", strawberryPlugin c p sd⟩] (Reg.init c.env) = .ok (ss, r) := by
    unfold runPlugins
    simp only [hs, runPlugins, List.append_nil]
  exact C76_assembly_partial hB haccepted hiter hrun
    (C67_names_partial c p sd [] ss r hplain hbases hdir hvalid hdefaults hs) (henum ss r hs) (fun h => by cases h) h

/-! ## The hypotheses can be met -/

/-- the builtins the examples need -/
def someBuiltins : List String := "None" :: neverImported

theorem ast_ok {env : Env} {iter : List String → List String} {plugins : List Plugin} {skip : Bool}
    {test : List Stmt → Bool} (h : (match generateAst env iter plugins skip with
      | .ok m => test m
      | .error _ => false) = true) : ∃ m, generateAst env iter plugins skip = .ok m ∧ test m = true := by
  split at h
  · rename_i m e
    exact ⟨m, e, h⟩
  · cases h

/-- Python iterates the sets backwards -/
example : ∃ m, generateAst {} List.reverse [⟨"StrawberryPlugin", strawberryPlugin berryCtx {} tagDirectives⟩] true = .ok m ∧
    m.length = 12 ∧ Executes (· ∈ someBuiltins) m := by
  obtain ⟨m, hm, ht⟩ := ast_ok (env := {}) (iter := List.reverse)
    (plugins := [⟨"StrawberryPlugin", strawberryPlugin berryCtx {} tagDirectives⟩]) (skip := true)
    (test := fun m => m.length == 12) (by decide +kernel)
  refine ⟨m, hm, by simpa using ht, C76_strawberry_partial (c := berryCtx) (bases := []) (fun n h => h) (by decide +kernel)
    (fun l => List.reverse_perm l) (fun t l h => by cases h) rfl tag_usable berry_valid.1 berry_valid.2 ?_ hm⟩
  intro ss r hs
  obtain ⟨ss', r', hs', ht'⟩ := plugin_ok (c := berryCtx) (p := {}) (sd := tagDirectives) (r := Reg.init {})
    (test := fun _ r => r.builtins.isEmpty) (by decide +kernel)
  have hs : strawberryPlugin berryCtx {} tagDirectives (Reg.init {}) = .ok (ss, r) := hs
  rw [hs'] at hs
  cases hs
  intro b hb
  rw [List.isEmpty_iff.1 ht'] at hb
  cases hb

/-! ## Counterexamples -/

theorem executes_evaluated {ss : List Stmt} : ∀ {K : String → Prop} {n : String}, Executes K ss → n ∈ evaluatedL ss →
    Found (fun n => K n ∨ n ∈ providesL ss) n := by
  induction ss with
  | nil => intro K n _ h; cases h
  | cons s ss ih =>
    intro K n hr h
    rw [evaluatedL, List.mem_append] at h
    rcases h with h | h
    · exact (hr.1 n h).mono fun m hm => .inl hm
    · refine (ih hr.2 h).mono fun m hm => ?_
      simp only [providesL, List.flatMap_cons, List.mem_append] at hm ⊢
      rcases hm with (hm | hm) | hm
      · exact .inl hm
      · exact .inr (.inl hm)
      · exact .inr (.inr hm)

/-- the module evaluates the undotted name `n`, but binds it nowhere -/
def looseTest (n : String) (m : List Stmt) : Bool :=
  (evaluatedL m).contains n && (!(providesL m).contains n && !hasDot n)

theorem loose_module {n : String} {m : List Stmt} (h : looseTest n m = true) {B : List String} (hn : n ∉ B) :
    ¬ Executes (· ∈ B) m := by
  unfold looseTest at h
  simp only [Bool.and_eq_true, Bool.not_eq_true', List.contains_iff_mem] at h
  intro he
  rcases executes_evaluated he h.1 with (h' | h') | ⟨a, b, rfl, _⟩
  · exact hn h'
  · have := h.2.1
    simp [h'] at this
  · have := h.2.2
    simp [hasDot] at this

/-- a schema with some of the types for introspection, and an interface with an enum field -/
def introSchema : Schema := { query := some "Query", types := [("String", ⟨.scalar, none⟩),
  ("__Schema", ⟨.object [plainField "types" (.nonNull (.list (.nonNull (.named "__Type"))))] [], none⟩),
  ("__Type", ⟨.object [plainField "kind" (.nonNull (.named "__TypeKind"))] [], none⟩),
  ("__TypeKind", ⟨.enum [⟨"OBJECT", none, none⟩], none⟩),
  ("Level", ⟨.enum [⟨"LOW", none, none⟩], none⟩),
  ("Node", ⟨.interface [plainField "level" (.named "Level")] [], none⟩),
  ("Item", ⟨.object [plainField "level" (.named "Level")] ["Node"], none⟩),
  ("Query", ⟨.object [plainField "node" (.named "Node")] [], none⟩)] }

/-- `query Kinds { __schema { types { kind } } }` with the operations plugin alone: the helper class for `__TypeKind` is
derived from `Enum`, which nothing imports. -/
theorem C76_enum_counterexample : ∃ m,
    generateAst {} id [⟨"OperationsPlugin", operationsPlugin id { schema := introSchema } {}
      [.operation ⟨.query, some "Kinds", [], [ask "__schema" [ask "types" [ask "kind"]]]⟩]⟩] false = .ok m ∧
    ∀ B : List String, "Enum" ∉ B → ¬ Executes (· ∈ B) m := by
  obtain ⟨m, h, ht⟩ := ast_ok (env := {}) (iter := id) (plugins := [⟨"OperationsPlugin",
    operationsPlugin id { schema := introSchema } {}
      [.operation ⟨.query, some "Kinds", [], [ask "__schema" [ask "types" [ask "kind"]]]⟩]⟩]) (skip := false)
    (test := looseTest "Enum") (by decide +kernel)
  exact ⟨m, h, fun B hB => loose_module ht hB⟩

/-- `query Look { node { level } }` with the operations plugin alone: the class that is rebuilt for the field of an
interface does not exist (the classes are called `LookNodeBase`, `LookNodeBaseItem`, …). -/
theorem C76_rebuild_counterexample : ∃ m,
    generateAst {} id [⟨"OperationsPlugin", operationsPlugin id { schema := introSchema } {}
      [.operation ⟨.query, some "Look", [], [ask "node" [ask "level"]]⟩]⟩] false = .ok m ∧
    ∀ B : List String, "LookNode" ∉ B → ¬ Executes (· ∈ B) m := by
  obtain ⟨m, h, ht⟩ := ast_ok (env := {}) (iter := id) (plugins := [⟨"OperationsPlugin",
    operationsPlugin id { schema := introSchema } {}
      [.operation ⟨.query, some "Look", [], [ask "node" [ask "level"]]⟩]⟩]) (skip := false)
    (test := looseTest "LookNode") (by decide +kernel)
  exact ⟨m, h, fun B hB => loose_module ht hB⟩

end Turms.Props
