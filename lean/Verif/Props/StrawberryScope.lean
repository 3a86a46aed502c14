import Verif.Lemmas.StrawberryScope
import Verif.Props.Objects
import Verif.Props.Strawberry
import Verif.Props.ResponseScope

/-! # C67: a strawberry module finds every name it uses -/

namespace Turms.Props
open Turms Spec

/-- C67: run the plugin on any registry that previous calls leave behind.  If no base classes for inputs are configured,
every directive applied in the schema is defined there and generated, and applied without enum values, then executing
the statements never meets an unbound name: directives, scalars, enums, inputs, interfaces and types come in an order in
which every decorator, base, annotation and default is available.

The names that are there at the start are those of imports and helper classes, builtins, `strawberry.…` if the package
is imported, classes of plugins that ran before, and the Python types scalars were mapped to *before*: a scalar of the
schema is found only because the module defines it.

Missing for the full property: configured base classes, enum values in directives and the rebuild statements, see the
counterexamples. -/
theorem C67_names_partial (c : Ctx) (p : StrawberryConfig) (sd : SchemaDirectives) (ops : List Op) (ss : List Stmt)
    (r' : Reg) (hplain : PlainConfig c.config) (hbases : p.inputtypeBases = []) (hdir : DirectivesUsable p sd)
    (hvalid : ValidComposites c.schema) (hdefaults : PlainDefaults c.schema)
    (h : strawberryPlugin c p sd (stateAfter c.env ops) = .ok (ss, r')) :
    Resolves (Provided (stateAfter c.env ops) r') ss :=
  strawberry_resolves hplain hbases hdir (fun t ht => ⟨(hvalid.2 t ht).1, hdefaults t ht⟩) (styled_stateAfter _ _) h

/-! ## The hypotheses can be met -/

/-- `directive @tag(name: String!, old: Token) on OBJECT | FIELD_DEFINITION`, applied to a type and to fields -/
def tagDirectives : SchemaDirectives where
  defined := [⟨"tag", ["OBJECT", "FIELD_DEFINITION"],
    [⟨"name", .nonNull (.named "String"), none, none, none⟩, ⟨"old", .named "String", some (.str "no"), none, none⟩]⟩]
  onType := fun t => if t = "Item" then [⟨"tag", [("name", .string "item")]⟩] else []
  onField := fun t f => if t = "Query" ∧ f = "items" then [⟨"tag", [("name", .string "all"), ("old", .null)]⟩] else []

theorem tag_applied {p : StrawberryConfig} {a : DirectiveApp} (h : Applied p tagDirectives a) :
    a = ⟨"tag", [("name", .string "item")]⟩ ∨ a = ⟨"tag", [("name", .string "all"), ("old", .null)]⟩ := by
  rcases h.2 with ⟨t, h⟩ | ⟨t, f, h⟩
  · simp only [tagDirectives] at h
    split at h
    · exact .inl (List.mem_singleton.1 h)
    · cases h
  · simp only [tagDirectives] at h
    split at h
    · exact .inr (List.mem_singleton.1 h)
    · cases h

theorem tag_usable : DirectivesUsable {} tagDirectives := by
  refine ⟨fun a ha => ⟨rfl, _, List.mem_singleton.2 rfl, ?_, ?_⟩, fun a ha q hq => ?_⟩
  · rcases tag_applied ha with rfl | rfl <;> rfl
  · exact ⟨by decide +kernel, by decide +kernel⟩
  · rcases tag_applied ha with rfl | rfl
    · rw [List.mem_singleton.1 hq]; trivial
    · simp only [List.mem_cons, List.not_mem_nil, or_false] at hq
      rcases hq with rfl | rfl <;> trivial

theorem berry_valid : ValidComposites berrySchema ∧ PlainDefaults berrySchema := by
  have h1 : ∀ t ∈ compositeTypes berrySchema, t.name ∉ t.interfaces ∧ t.interfaces.Nodup := by decide +kernel
  have h2 : ((compositeTypes berrySchema).all fun t => t.fields.all fun f => f.args.all fun a =>
    match a.default with
    | none => true
    | some d => d.closed) = true := by decide +kernel
  refine ⟨⟨by decide +kernel, fun t ht => h1 t (mem_compositeTypes.2 ht)⟩, fun t ht f hf a ha d hd => ?_⟩
  have h3 := List.all_eq_true.1 (List.all_eq_true.1 (List.all_eq_true.1 h2 t (mem_compositeTypes.2 ht)) f hf) a ha
  rw [hd] at h3
  exact h3

theorem plugin_ok {c : Ctx} {p : StrawberryConfig} {sd : SchemaDirectives} {r : Reg} {test : List Stmt → Reg → Bool}
    (h : (match strawberryPlugin c p sd r with
      | .ok (ss, r') => test ss r'
      | .error _ => false) = true) : ∃ ss r', strawberryPlugin c p sd r = .ok (ss, r') ∧ test ss r' = true := by
  split at h
  · rename_i ss r' e
    exact ⟨ss, r', e, h⟩
  · cases h

/-- The theorem applies to a schema with directives, scalars, enums, inputs, an interface, an object and root types. -/
example : ∃ ss r', strawberryPlugin berryCtx {} tagDirectives (stateAfter {} []) = .ok (ss, r') ∧
    boundL ss = ["tag", "Token", "Colour", "Filter", "Node", "Item", "Query", "Subscription"] ∧
    "tag" ∈ evaluatedL ss ∧ "Token" ∈ evaluatedL ss ∧ Resolves (Provided (stateAfter {} []) r') ss := by
  obtain ⟨ss, r', h, ht⟩ := plugin_ok (c := berryCtx) (p := {}) (sd := tagDirectives) (r := stateAfter {} [])
    (test := fun ss _ => (boundL ss == ["tag", "Token", "Colour", "Filter", "Node", "Item", "Query", "Subscription"]) &&
      ((evaluatedL ss).contains "tag" && (evaluatedL ss).contains "Token")) (by decide +kernel)
  simp only [Bool.and_eq_true, beq_iff_eq, List.contains_iff_mem] at ht
  exact ⟨ss, r', h, ht.1, ht.2.1, ht.2.2, C67_names_partial berryCtx {} tagDirectives [] ss r'
    (fun t l h => by cases h) rfl tag_usable berry_valid.1 berry_valid.2 h⟩

/-! ## Counterexamples -/

theorem provided_init {r : Reg} {n : String} (h : Provided (Reg.init {}) r n) :
    externalTest { r with scalarMap := (Reg.init {}).scalarMap } n = true ∨ n ∈ strawberryApi.map ("strawberry." ++ ·) ∨
      n = "None" := by
  rcases h with h | ⟨_, a, ha, rfl⟩ | h | ⟨k, t, h⟩ | ⟨i, h⟩
  · exact .inl (external_test h)
  · exact .inr (.inl (List.mem_map_of_mem ha))
  · exact .inr (.inr h)
  · cases k <;> cases h
  · cases h

theorem not_provided {n : String} {ss : List Stmt} {r : Reg} (h : unboundTest n ss r = true)
    (h1 : (Reg.init {}).scalarMap.any (fun p => p.2 == n) = false)
    (h2 : n ∉ "None" :: strawberryApi.map ("strawberry." ++ ·)) :
    n ∈ evaluatedL ss ∧ ¬ Resolves (Provided (Reg.init {}) r) ss := by
  unfold unboundTest at h
  simp only [Bool.and_eq_true, Bool.not_eq_true', List.contains_iff_mem] at h
  refine ⟨h.1, fun hr => ?_⟩
  rcases resolves_evaluated hr h.1 with h' | h'
  · rcases provided_init h' with h' | h' | h'
    · have h3 := h.2.2
      unfold externalTest at h' h3
      simp only [h1, Bool.or_false, Bool.or_eq_false_iff] at h' h3
      simp only [h3.1.1, h3.1.2, Bool.or_false] at h'
      cases h'
    · exact h2 (List.mem_cons_of_mem _ h')
    · exact h2 (h' ▸ List.mem_cons_self)
  · have := h.2.1
    simp [h'] at this

/-- `type Item @paint(as: RED) { … }` with `directive @paint(as: String) on OBJECT` -/
def paintDirectives : SchemaDirectives where
  defined := [⟨"paint", ["OBJECT"], [⟨"as", .named "String", none, none, none⟩]⟩]
  onType := fun t => if t = "Item" then [⟨"paint", [("as", .enum "RED")]⟩] else []

/-- C67, limit: an enum value in the application of a directive is emitted as the *text* of the syntax node, which
names nothing (the model keeps the leading name of that text; the text as a whole is not even an expression). -/
theorem C67_enum_value_counterexample :
    ∃ ss r', strawberryPlugin berryCtx {} paintDirectives (Reg.init {}) = .ok (ss, r') ∧
      "EnumValueNode" ∈ evaluatedL ss ∧ ¬ Resolves (Provided (Reg.init {}) r') ss := by
  obtain ⟨ss, r', h, ht⟩ := plugin_ok (c := berryCtx) (p := {}) (sd := paintDirectives) (r := Reg.init {})
    (test := unboundTest "EnumValueNode") (by decide +kernel)
  exact ⟨ss, r', h, not_provided ht (by decide +kernel) (by decide +kernel)⟩

/-- the interface and the object of the example only -/
def itemCtx : Ctx :=
  { schema := { types := berrySchema.types.filter fun p => ["String", "ID", "Node", "Item"].contains p.1 } }

/-- C67, limit: with `generate_directives: false` the directives are still applied, but not defined. -/
theorem C67_directives_off_counterexample :
    ∃ ss r', strawberryPlugin itemCtx { generateDirectives := false } tagDirectives (Reg.init {}) = .ok (ss, r') ∧
      "tag" ∈ evaluatedL ss ∧ ¬ Resolves (Provided (Reg.init {}) r') ss := by
  obtain ⟨ss, r', h, ht⟩ := plugin_ok (c := itemCtx) (p := { generateDirectives := false }) (sd := tagDirectives)
    (r := Reg.init {}) (test := unboundTest "tag") (by decide +kernel)
  exact ⟨ss, r', h, not_provided ht (by decide +kernel) (by decide +kernel)⟩

end Turms.Props
