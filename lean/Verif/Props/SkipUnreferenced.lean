import Verif.Props.Inputs
import Verif.Props.Enums

/-! # C44: dropping unreferenced inputs and enums

Both plugins, with `skip_unreferenced`, run on the outcome of the reference analysis of the same documents.
-/

namespace Turms.Props
open Turms Spec

/-- C44: with `skip_unreferenced`, every input type that the types of the documents' variables need — directly or
through fields of needed inputs — is generated, and so is every enum that they need, unless the user's underscore
rules drop it. Enums of selected fields are generated as well when inline fragments are not directly nested.
(Missing: directly nested inline fragments, C43; and types needed only by an input that is generated because it is
a member of a referenced discriminated union, see the counterexample.) -/
theorem C44_needed_kept_partial (c : Ctx) (doc : Document) (hv : ValidDoc c.schema doc) (hn : c.schema.types.keys.Nodup)
    (hp : PlainConfig c.config) :
    ∃ refs, createReferenceRegistry c.schema doc = .ok refs ∧
      (∀ (p : InputsConfig) (ops : List Op) (ss : List Stmt) (r' : Reg), p.refInputs = some refs.inputs →
        generateInputs c p (stateAfter c.env ops) = .ok (ss, r') →
        ∀ t, InputOf c.schema t → Needed c.schema doc t.name → ¬ (p.skipUnderscore = true ∧ t.name.toList.head? = some '_') →
          ∃ cls, Kind.input.style c.env t.name = .ok cls ∧ cls ∈ definedNames ss) ∧
      (∀ (p : EnumsConfig) (ops : List Op) (ss : List Stmt) (r' : Reg), p.refEnums = some refs.enums →
        generateEnums c p (stateAfter c.env ops) = .ok (ss, r') →
        ∀ t, EnumOf c.schema t → Needed c.schema doc t.name ∨ (FlatDoc doc ∧ SelectedIn c.schema doc t.name) →
          ¬ (p.skipUnderscore = true ∧ ∃ rest, t.name.toList = '_' :: rest) →
          ¬ (p.skipDoubleUnderscore = true ∧ ∃ rest, t.name.toList = '_' :: '_' :: rest) →
          ∃ cls, Kind.enum.style c.env t.name = .ok cls ∧ cls ∈ definedNames ss) := by
  obtain ⟨refs, hr, hi⟩ := C43_inputs c.schema doc hv
  obtain ⟨refs', hr', _, _, hneed, hsel⟩ := C43_leaves_partial c.schema doc hv
  rw [hr] at hr'
  cases hr'
  refine ⟨refs, hr, ?_, ?_⟩
  · intro p ops ss r' hpr h t ht hneeded hu
    have hin : IsInput c.schema t.name := ⟨_, _, inputOf_lookup hn ht⟩
    have hkept : Kept p t.name := by
      refine ⟨?_, hu⟩
      intro l hl
      rw [hpr] at hl
      cases hl
      exact (hi _).2 ⟨hin, hneeded⟩
    obtain ⟨n, _, h2, h3⟩ := ((C60_inputs_fresh c p ops ss r' hp hn h).2.1 t.name (.inl ⟨t, ht, .inr hkept, rfl⟩)).2
    exact ⟨n, h2, h3⟩
  · intro p ops ss r' hpr h t ht hneeded hu1 hu2
    have hen : IsEnum c.schema t.name := by
      obtain ⟨e, he, h1, _⟩ := ht
      exact ⟨t.values, by unfold Schema.lookup; rw [Dict.get?_of_mem_nodup hn he]; simp [h1]⟩
    have hkept : EnumKept p t.name := by
      refine ⟨?_, hu1, hu2⟩
      intro l hl
      rw [hpr] at hl
      cases hl
      rcases hneeded with h | ⟨hf, h⟩
      · exact (hneed _ h).1 hen
      · exact (hsel hf _ h).1 hen
    obtain ⟨cls, h1, h2⟩ := enumClass_mem h ht hkept
    refine ⟨cls, h1, ?_⟩
    obtain ⟨a, b, rfl⟩ := List.append_of_mem h2
    rw [definedNames_append]
    simp [definedNames]

/-- … and nothing is kept without need: a generated input is needed, or a member of a union that is, or a wrapper
of a needed `@oneOf` input. -/
theorem C44_nothing_else_kept (c : Ctx) (doc : Document) (hv : ValidDoc c.schema doc) (hn : c.schema.types.keys.Nodup)
    (hp : PlainConfig c.config) :
    ∃ refs, createReferenceRegistry c.schema doc = .ok refs ∧
      ∀ (p : InputsConfig) (ops : List Op) (ss : List Stmt) (r' : Reg), p.refInputs = some refs.inputs →
        generateInputs c p (stateAfter c.env ops) = .ok (ss, r') → ∀ n ∈ definedNames ss,
          ∃ t, InputOf c.schema t ∧ (Needed c.schema doc t.name ∨ ∃ u dn k, Declares t u dn k ∧ Needed c.schema doc u) ∧
            (Kind.input.style c.env t.name = .ok n ∨
              OneOf t.directives ∧ ∃ f ∈ t.fields, Kind.input.style c.env (t.name ++ upperFirst f.name) = .ok n) := by
  obtain ⟨refs, hr, hi⟩ := C43_inputs c.schema doc hv
  refine ⟨refs, hr, ?_⟩
  intro p ops ss r' hpr h n hn'
  have hneed : ∀ x, Referenced p x → Needed c.schema doc x := fun x hx => ((hi x).1 (hx _ hpr)).2
  obtain ⟨k, hk, hs⟩ := C48_deselected_absent c p ops ss r' hp hn h n hn'
  rcases hk with ⟨t, ht, hsel, rfl⟩ | ⟨t, ht, _, hk, ho, _, f, hf, rfl⟩
  · refine ⟨t, ht, ?_, .inl hs⟩
    rcases hsel with ⟨u, dn, k, hd, hu⟩ | hk
    · exact .inr ⟨u, dn, k, hd, hneed u hu⟩
    · exact .inl (hneed _ hk.1)
  · exact ⟨t, ht, .inl (hneed _ hk.1), .inr ⟨ho, f, hf, hs⟩⟩

/-- the hypotheses are met by the recursive schema and document of C43: `In` and `Color` are kept, `Unused`, `Mood`
and `Other` are dropped -/
example : ValidDoc refSchema refDoc ∧
    createReferenceRegistry refSchema refDoc = .ok { inputs := ["In"], enums := ["Color"], scalars := ["ID"] } ∧
    (generateEnums { schema := refSchema } { refEnums := some ["Color"] } (stateAfter {} [])).toOption.map
      (fun x => definedNames x.1) = some ["Color"] ∧
    (generateInputs { schema := refSchema } { refInputs := some ["In"] } (stateAfter {} [.generate .enum "Color"])).toOption.map
      (fun x => definedNames x.1) = some ["In"] :=
  ⟨refDoc_valid.1, by decide +kernel, by decide +kernel, by decide +kernel⟩

/-- `query Q($u: U) { x }` where `U` is a discriminated union whose only member `M` has a field of the given type -/
def unionCtx (t : String) : Ctx :=
  { schema := { types := [("Int", ⟨.scalar, none⟩), ("Color", ⟨.enum [{ name := "RED" }], none⟩), ("U", ⟨.input [] [], none⟩),
      ("Leaf", ⟨.input [{ name := "n", type := .named "Int" }] [], none⟩),
      ("M", ⟨.input [{ name := "field", type := .named t }]
        [⟨"unionElementOf", [("union", "U"), ("discriminator", "kind"), ("key", "M")]⟩], none⟩),
      ("Query", ⟨.object [{ name := "x", type := .named "Int" }] [], none⟩)], query := some "Query" } }
/-- the document -/
def unionDoc : Document :=
  [.operation { kind := .query, name := some "Q", vars := [{ name := "u", type := .named "U" }], sels := [.field "x" none [] []] }]

/-- C44 is false of the code: the member `M` is generated because its union is referenced, but the analysis did not
look at its fields. A field of an input type then mentions a class that is not generated. -/
theorem C44_union_member_fields_counterexample :
    ∃ refs, createReferenceRegistry (unionCtx "Leaf").schema unionDoc = .ok refs ∧
      (generateInputs (unionCtx "Leaf") { refInputs := some refs.inputs } (stateAfter {} [])).toOption.map
          (fun x => (definedNames x.1, (x.1.flatMap fieldsOf).map (·.ann))) =
        some (["M", "U"], [sub "Literal" (.str "M"), sub "Optional" (.str "Leaf")]) := by
  exact ⟨{ inputs := ["U"], scalars := ["Int"] }, by decide +kernel, by decide +kernel⟩

/-- … and with a field of an enum type generation fails (in the default configuration), although the enums plugin
ran before: it dropped the enum. -/
theorem C44_union_member_enum_counterexample :
    ∃ refs es r, createReferenceRegistry (unionCtx "Color").schema unionDoc = .ok refs ∧
      generateEnums (unionCtx "Color") { refEnums := some refs.enums } (stateAfter {} []) = .ok (es, r) ∧
      (generateInputs (unionCtx "Color") { refInputs := some refs.inputs } r).map (fun x => definedNames x.1) =
        .error (.noEnumFound "Color") := by
  exact ⟨{ inputs := ["U"], scalars := ["Int"] }, _, _, by decide +kernel, rfl, by decide +kernel⟩

end Turms.Props
