import Verif.Lemmas.StrawberryMarks

/-! # What strawberry modules say about scalars and enums -/

namespace Turms
open Spec

theorem strawberryScalar_told {p : StrawberryConfig} {sd : SchemaDirectives} {t : ScalarType} {s : Stmt} {r r' : Reg}
    (h : strawberryScalar p sd t r = .ok (s, r')) : ScalarTold p sd t.name t.description s := by
  unfold strawberryScalar at h
  obtain ⟨kws, r1, h1, h⟩ := Gen.bind_ok.1 h
  obtain ⟨_, r2, h2, h⟩ := Gen.bind_ok.1 h
  obtain ⟨rfl, rfl⟩ := Gen.pure_ok.1 h
  refine ⟨⟨_, rfl⟩, ?_, carriesDirectives h1 ?_, ?_, ?_⟩
  · have hk := directiveKeywords_other h1 (k := "description") (by decide)
    unfold keywordIn at hk
    rw [Option.map_eq_none_iff] at hk
    rw [← nonBlank_told]
    simp only [markOf, keywordOf]
    cases nonBlank t.description <;> simp [hk]
  · simp only [markOf, keywordOf, keywordIn]
    cases nonBlank t.description <;> simp
  all_goals
    simp only [markOf, keywordOf]
  · have hk := directiveKeywords_other h1 (k := "serialize") (by decide)
    unfold keywordIn at hk
    rw [Option.map_eq_none_iff] at hk
    cases nonBlank t.description <;> simp [hk]
  · have hk := directiveKeywords_other h1 (k := "parse_value") (by decide)
    unfold keywordIn at hk
    rw [Option.map_eq_none_iff] at hk
    cases nonBlank t.description <;> simp [hk]

theorem strawberryScalarLoop_told {p : StrawberryConfig} {sd : SchemaDirectives} : ∀ (ts : List ScalarType)
    {ss : List Stmt} {r r' : Reg}, strawberryScalarLoop p sd ts r = .ok (ss, r') →
    List.Forall₂ (fun (t : ScalarType) s => ScalarTold p sd t.name t.description s) ts ss := by
  intro ts
  induction ts with
  | nil =>
    intro ss r r' h
    obtain ⟨rfl, rfl⟩ := Gen.pure_ok.1 h
    exact .nil
  | cons t ts ih =>
    intro ss r r' h
    unfold strawberryScalarLoop at h
    obtain ⟨s, r1, h1, h⟩ := Gen.bind_ok.1 h
    obtain ⟨ss', r2, h2, h⟩ := Gen.bind_ok.1 h
    obtain ⟨rfl, rfl⟩ := Gen.pure_ok.1 h
    exact .cons (strawberryScalar_told h1) (ih h2)

/-- the class of an enum is decorated as an enum with its custom directives, and starts with its description -/
def EnumTold (env : Env) (p : StrawberryConfig) (sd : SchemaDirectives) (t : EnumType) (s : Stmt) : Prop :=
  ∃ cls bases body d, Kind.enum.style env t.name = .ok cls ∧ s = .classDef cls bases body [d] ∧
    calledName d = "strawberry.enum" ∧ CarriesDirectives p (sd.onType t.name) s ∧
    ∀ e, told t.description = some e → body.head? = some (.expr e)

theorem strawberryEnum_told {c : Ctx} {p : StrawberryConfig} {sd : SchemaDirectives} {t : EnumType} {ss : List Stmt}
    {r r' : Reg} (h : strawberryEnum c p sd t r = .ok (ss, r')) (hk : KeptType p t.name) :
    ∃ s, ss = [s] ∧ EnumTold c.env p sd t s := by
  unfold strawberryEnum at h
  obtain ⟨kws, r1, h1, h⟩ := Gen.bind_ok.1 h
  rw [← keptType_iff, Bool.or_eq_false_iff] at hk
  rw [if_neg (by simp [hk.1]), if_neg (by simp [hk.2])] at h
  obtain ⟨cls, r2, h2, h⟩ := Gen.bind_ok.1 h
  obtain ⟨_, r3, h3, h⟩ := Gen.bind_ok.1 h
  obtain ⟨rfl, rfl⟩ := Gen.pure_ok.1 h
  obtain ⟨_, hst, rfl⟩ := generateClass_ok h2
  refine ⟨_, rfl, cls, _, _, _, hst, rfl, calledName_decorator _ _, carriesDirectives h1 (keywordOf_decorator _ _ _), ?_⟩
  intro e he
  rw [← nonBlank_told, Option.map_eq_some_iff] at he
  obtain ⟨d, hd, rfl⟩ := he
  unfold descriptionStmts
  rw [hd]
  rfl

theorem strawberryEnums_told {c : Ctx} {p : StrawberryConfig} {sd : SchemaDirectives} : ∀ (ts : List EnumType)
    {ss : List Stmt} {r r' : Reg}, strawberryEnums c p sd ts r = .ok (ss, r') →
    ∀ t ∈ ts, KeptType p t.name → ∃ s ∈ ss, EnumTold c.env p sd t s := by
  intro ts
  induction ts with
  | nil => intro ss r r' _ t ht; cases ht
  | cons t ts ih =>
    intro ss r r' h u hu hk
    unfold strawberryEnums at h
    obtain ⟨s, r1, h1, h⟩ := Gen.bind_ok.1 h
    obtain ⟨ss', r2, h2, h⟩ := Gen.bind_ok.1 h
    obtain ⟨rfl, rfl⟩ := Gen.pure_ok.1 h
    rcases List.mem_cons.1 hu with rfl | hu
    · obtain ⟨s', rfl, hm⟩ := strawberryEnum_told h1 hk
      exact ⟨s', by simp, hm⟩
    · obtain ⟨s', hs', hm⟩ := ih h2 u hu hk
      exact ⟨s', List.mem_append_right _ hs', hm⟩

/-- both parts of the plugin -/
theorem strawberryPlugin_leaves {c : Ctx} {p : StrawberryConfig} {sd : SchemaDirectives} {r r' : Reg} {ss : List Stmt}
    (h : strawberryPlugin c p sd r = .ok (ss, r')) :
    (p.generateDirectives = true → ∀ t ∈ customScalars p c.schema, ∃ s ∈ ss, ScalarTold p sd t.name t.description s) ∧
    (p.generateEnums = true → ∀ t ∈ enumTypes c.schema, KeptType p t.name → ∃ s ∈ ss, EnumTold c.env p sd t s) := by
  unfold strawberryPlugin at h
  obtain ⟨_, r0, h0, h⟩ := Gen.bind_ok.1 h
  obtain ⟨ds, r1, h1, h⟩ := Gen.bind_ok.1 h
  obtain ⟨sc, r2, h2, h⟩ := Gen.bind_ok.1 h
  obtain ⟨es, r3, h3, h⟩ := Gen.bind_ok.1 h
  obtain ⟨is, r4, h4, h⟩ := Gen.bind_ok.1 h
  obtain ⟨ts, r5, h5, h⟩ := Gen.bind_ok.1 h
  obtain ⟨rfl, rfl⟩ := Gen.pure_ok.1 h
  constructor
  · intro hg t ht
    rcases whenEnabled_ok h2 with ⟨_, h2⟩ | ⟨hf, _⟩
    · unfold strawberryScalars at h2
      cases hc : customScalars p c.schema with
      | nil => rw [hc] at ht; cases ht
      | cons u us =>
        rw [hc] at h2 ht
        obtain ⟨_, r6, _, h2⟩ := Gen.bind_ok.1 h2
        obtain ⟨s, hs, hm⟩ := forall₂_mem_left (strawberryScalarLoop_told _ h2) ht
        exact ⟨s, by simp [hs], hm⟩
    · rw [hf] at hg; cases hg
  · intro hg t ht hk
    rcases whenEnabled_ok h3 with ⟨_, h3⟩ | ⟨hf, _⟩
    · obtain ⟨s, hs, hm⟩ := strawberryEnums_told _ h3 t ht hk
      exact ⟨s, by simp [hs], hm⟩
    · rw [hf] at hg; cases hg

end Turms
