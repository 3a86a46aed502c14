import Verif.Spec.Config
import Verif.Lemmas.ObjectFields

namespace Turms
open Spec

theorem blockApplies_iff (enabled : Bool) (types : List GQLType) (exclude include_ : Option (List String))
    (g : GQLType) (typename : Option String) :
    blockApplies enabled types exclude include_ g typename = true ↔
      Selects enabled types exclude include_ g typename := by
  unfold blockApplies Selects
  cases enabled
  · simp
  by_cases hg : g ∈ types
  · cases typename <;> cases exclude <;> cases include_ <;> simp [hg] <;> grind
  · simp [hg]

theorem mem_optEntry {k n : String} {e : Expr} {o : Option Bool} :
    (k, e) ∈ optEntry n o ↔ k = n ∧ ∃ b, o = some b ∧ e = .const (.bool b) := by
  unfold optEntry
  cases o <;> simp

theorem mem_extraEntry {k : String} {e : Expr} {o : Option String} :
    (k, e) ∈ extraEntry o ↔ k = "extra" ∧ ∃ x, o = some x ∧ e = .const (.str x) := by
  unfold extraEntry
  cases o <;> simp [Expr.str]

theorem named_map (l : List (String × Expr)) : named (l.map fun p => (some p.1, p.2)) = l := by
  induction l with
  | nil => rfl
  | cons p l ih => simp [named, ih]

theorem assignments_map (l : List (String × Expr)) : assignments (l.map fun p => .assign (.name p.1) p.2) = l := by
  induction l with
  | nil => rfl
  | cons p l ih => simp [assignments, ih]

theorem generatePydanticConfig_settings {c : Ctx} {g : GQLType} {tn : Option String} {ss : List Stmt}
    {r r' : Reg} (h : generatePydanticConfig c g tn r = .ok (ss, r')) :
    settings ss = (if c.env.config.pydanticV2 then configDictEntries c.config g tn
      else configClassEntries c.config g tn) ∧ (ss = [] ↔ settings ss = []) := by
  unfold generatePydanticConfig at h
  cases hv : c.env.config.pydanticV2 with
  | true =>
    rw [hv] at h
    simp only [if_true] at h ⊢
    unfold generateConfigDict at h
    by_cases he : (configDictEntries c.config g tn).isEmpty
    · rw [if_pos he] at h
      obtain ⟨rfl, rfl⟩ := Gen.pure_ok.1 h
      simp only [settings]
      rw [List.isEmpty_iff] at he
      simp [he]
    · rw [if_neg he] at h
      obtain ⟨_, r1, h1, h⟩ := Gen.bind_ok.1 h
      obtain ⟨rfl, rfl⟩ := Gen.pure_ok.1 h
      simp only [settings, named_map]
      rw [List.isEmpty_iff] at he
      simp [he]
  | false =>
    rw [hv] at h
    simp only [Bool.false_eq_true, if_false] at h ⊢
    obtain ⟨rfl, rfl⟩ := Gen.pure_ok.1 h
    unfold generateConfigClass
    dsimp only
    by_cases he : (configClassEntries c.config g tn).isEmpty
    · rw [if_pos he]
      rw [List.isEmpty_iff] at he
      simp [settings, he]
    · rw [if_neg he]
      rw [List.isEmpty_iff] at he
      simp [settings, assignments, assignments_map, he]

/-- the settings that come from `additional_config` -/
theorem mem_additionalEntries {config : GenConfig} {tn : Option String} {k : String} {e : Expr} :
    (k, e) ∈ additionalEntries config tn ↔
      ∃ t l v, tn = some t ∧ t ≠ "" ∧ config.additionalConfig.get? t = some l ∧ (k, v) ∈ l ∧ e = v.expr := by
  unfold additionalEntries
  cases tn with
  | none => simp [truthy]
  | some t =>
    by_cases ht : t = ""
    · simp [truthy, ht]
    · simp only [truthy]
      cases hc : config.additionalConfig.get? t with
      | none => simp [hc]
      | some l =>
        simp [ht, hc]
        constructor
        · rintro ⟨a, b, h, h1, h2⟩; exact ⟨b, h1 ▸ h, h2.symm⟩
        · rintro ⟨v, h, h1⟩; exact ⟨k, v, h, rfl, h1.symm⟩

theorem mem_entries {config : GenConfig} {g : GQLType} {tn : Option String} {k : String} {e : Expr} (v2 : Bool) :
    (k, e) ∈ (if v2 then configDictEntries config g tn else configClassEntries config g tn) ↔
      (k = "frozen" ∧ e = .const (.bool true) ∧
        Selects config.freeze.enabled config.freeze.types config.freeze.exclude config.freeze.include_ g tn) ∨
      (OptionSets (populationKey v2) config.options k e ∧
        Selects config.options.enabled config.options.types config.options.exclude config.options.include_ g tn) ∨
      (∃ t l v, tn = some t ∧ t ≠ "" ∧ config.additionalConfig.get? t = some l ∧ (k, v) ∈ l ∧ e = v.expr) := by
  rw [← blockApplies_iff, ← blockApplies_iff, ← mem_additionalEntries]
  cases v2 <;>
    simp only [configDictEntries, configClassEntries, populationKey, if_true, Bool.false_eq_true, if_false,
      List.mem_append, or_assoc, OptionSets] <;>
    (refine or_congr ?_ (or_congr ?_ Iff.rfl)
     · split <;> simp_all
     · split
       · simp only [List.mem_append, mem_optEntry, mem_extraEntry, and_true, or_assoc, *]
       · simp_all)

end Turms

namespace Turms
open Spec

theorem settings_append (a b : List Stmt) : settings (a ++ b) = settings a ++ settings b := by
  fun_induction settings a <;> simp_all [settings]

/-- statements that declare fields or are comments -/
def Plain (s : Stmt) : Prop := (∃ a b c, s = .annAssign a b c) ∨ (∃ e, s = .expr e) ∨
  (∃ a n as ds b de re, s = .funcDef a n as ds b de re)

theorem settings_plain {ss : List Stmt} (h : ∀ s ∈ ss, Plain s) : settings ss = [] := by
  induction ss with
  | nil => rfl
  | cons s ss ih =>
    have hs := h s (by simp)
    have := ih (fun s hs => h s (by simp [hs]))
    rcases hs with ⟨a, b, c, rfl⟩ | ⟨e, rfl⟩ | ⟨a, n, as, ds, b, de, re, rfl⟩ <;> simp [settings, this]

theorem inputFieldStmts_plain {c : Ctx} {cls : String} {f : InputFieldDef} {ss : List Stmt} {r r' : Reg}
    (h : inputFieldStmts c cls f r = .ok (ss, r')) : ∀ s ∈ ss, Plain s := by
  unfold inputFieldStmts at h
  obtain ⟨attr, r1, h1, h⟩ := Gen.bind_ok.1 h
  obtain ⟨a, r2, h2, h⟩ := Gen.bind_ok.1 h
  obtain ⟨a', r3, h3, h⟩ := Gen.bind_ok.1 h
  obtain ⟨v, r4, h4, h⟩ := Gen.bind_ok.1 h
  intro s hs
  split at h <;> obtain ⟨rfl, rfl⟩ := Gen.pure_ok.1 h
  · simp only [List.mem_cons, List.not_mem_nil, or_false] at hs
    rcases hs with rfl | rfl
    · exact .inl ⟨_, _, _, rfl⟩
    · exact .inr (.inl ⟨_, rfl⟩)
  · simp only [List.mem_cons, List.not_mem_nil, or_false] at hs
    subst hs
    exact .inl ⟨_, _, _, rfl⟩

theorem inputFields_plain {c : Ctx} {cls : String} {skip : List String} {fs : List InputFieldDef} :
    ∀ {ss : List Stmt} {r r' : Reg}, inputFields c cls skip fs r = .ok (ss, r') → ∀ s ∈ ss, Plain s := by
  induction fs with
  | nil =>
    intro ss r r' h
    obtain ⟨rfl, rfl⟩ := Gen.pure_ok.1 h
    simp
  | cons f fs ih =>
    intro ss r r' h
    unfold inputFields at h
    obtain ⟨fieldName, r1, h1, h⟩ := Gen.bind_ok.1 h
    split at h
    · exact ih h
    · obtain ⟨s, r2, h2, h⟩ := Gen.bind_ok.1 h
      obtain ⟨rest, r3, h3, h⟩ := Gen.bind_ok.1 h
      obtain ⟨rfl, rfl⟩ := Gen.pure_ok.1 h
      intro x hx
      rcases List.mem_append.1 hx with hx | hx
      · exact inputFieldStmts_plain h2 x hx
      · exact ih h3 x hx

theorem discriminatorStmts_ok {ds : List Discriminator} :
    ∀ {ss : List Stmt} {r r' : Reg}, discriminatorStmts ds r = .ok (ss, r') → ss = ds.map discriminatorStmt := by
  induction ds with
  | nil =>
    intro ss r r' h
    obtain ⟨rfl, rfl⟩ := Gen.pure_ok.1 h
    simp
  | cons f fs ih =>
    intro ss r r' h
    unfold discriminatorStmts at h
    obtain ⟨_, r1, h1, h⟩ := Gen.bind_ok.1 h
    obtain ⟨_, r2, h2, h⟩ := Gen.bind_ok.1 h
    obtain ⟨rest, r3, h3, h⟩ := Gen.bind_ok.1 h
    obtain ⟨rfl, rfl⟩ := Gen.pure_ok.1 h
    simp [ih h3]

/-- the parts of a generated input class -/
theorem generateInputType_ok {c : Ctx} {p : InputsConfig} {name tn : String} {desc : Option String}
    {fields : List InputFieldDef} {ds : List Discriminator} {s : Stmt} {r r' : Reg}
    (h : generateInputType c p name tn desc fields ds r = .ok (s, r')) :
    ∃ bases body cfg r1, s = .classDef name bases (body ++ cfg) [] ∧ settings body = [] ∧
      generatePydanticConfig c .input (some tn) r1 = .ok (cfg, r') := by
  unfold generateInputType at h
  obtain ⟨extra, r1, h1, h⟩ := Gen.bind_ok.1 h
  obtain ⟨lits, r2, h2, h⟩ := Gen.bind_ok.1 h
  obtain ⟨fs, r3, h3, h⟩ := Gen.bind_ok.1 h
  obtain ⟨cfg, r4, h4, h⟩ := Gen.bind_ok.1 h
  obtain ⟨hs, rfl⟩ := Gen.pure_ok.1 h
  subst hs
  refine ⟨_, _, cfg, r3, rfl, ?_, h4⟩
  apply settings_plain
  intro s hs
  simp only [List.mem_cons, List.mem_append] at hs
  rcases hs with rfl | (hs | hs) | hs
  · exact .inr (.inl ⟨_, rfl⟩)
  · rw [discriminatorStmts_ok h2] at hs
    obtain ⟨d, _, rfl⟩ := List.mem_map.1 hs
    exact .inl ⟨_, _, _, rfl⟩
  · exact inputFields_plain h3 s hs
  · split at hs
    · simp only [List.mem_cons, List.not_mem_nil, or_false] at hs
      subst hs
      exact .inr (.inr ⟨_, _, _, _, _, _, _, rfl⟩)
    · simp at hs

theorem objectFieldStmts_plain {c : Ctx} {cls : String} {f : FieldDef} {ss : List Stmt} {r r' : Reg}
    (h : objectFieldStmts c cls f r = .ok (ss, r')) : ∀ s ∈ ss, Plain s := by
  unfold objectFieldStmts at h
  obtain ⟨attr, r1, h1, h⟩ := Gen.bind_ok.1 h
  obtain ⟨a, r2, h2, h⟩ := Gen.bind_ok.1 h
  obtain ⟨a', r3, h3, h⟩ := Gen.bind_ok.1 h
  obtain ⟨v, r4, h4, h⟩ := Gen.bind_ok.1 h
  obtain ⟨rfl, rfl⟩ := Gen.pure_ok.1 h
  intro s hs
  rcases List.mem_cons.1 hs with rfl | hs
  · exact .inl ⟨_, _, _, rfl⟩
  · split at hs
    · simp only [List.mem_cons, List.not_mem_nil, or_false] at hs
      subst hs
      exact .inr (.inl ⟨_, rfl⟩)
    · simp at hs

theorem objectFields_plain {c : Ctx} {cls : String} {fs : List FieldDef} :
    ∀ {ss : List Stmt} {r r' : Reg}, objectFields c cls fs r = .ok (ss, r') → ∀ s ∈ ss, Plain s := by
  induction fs with
  | nil =>
    intro ss r r' h
    obtain ⟨rfl, rfl⟩ := Gen.pure_ok.1 h
    simp
  | cons f fs ih =>
    intro ss r r' h
    unfold objectFields at h
    obtain ⟨s, r2, h2, h⟩ := Gen.bind_ok.1 h
    obtain ⟨rest, r3, h3, h⟩ := Gen.bind_ok.1 h
    obtain ⟨rfl, rfl⟩ := Gen.pure_ok.1 h
    intro x hx
    rcases List.mem_append.1 hx with hx | hx
    · exact objectFieldStmts_plain h2 x hx
    · exact ih h3 x hx

/-- the effect of one round of the objects loop -/
theorem objectStep_ok {c : Ctx} {p : ObjectsConfig} {t : CompositeType} {acc acc' : ObjAcc} {r r' : Reg}
    (h : objectStep c p t acc r = .ok (acc', r')) :
    acc' = acc ∧ ((p.skipUnderscore && underscored t.name) || (p.skipDoubleUnderscore && doubleUnderscored t.name)) = true ∨
    ∃ classname extra bs body cfg r1 r2 r3 r4, 
      ((p.skipUnderscore && underscored t.name) || (p.skipDoubleUnderscore && doubleUnderscored t.name)) = false ∧
      additionalBasesFor c t.name r = .ok (extra, r1) ∧
      generateComposite c.env t r1 = .ok (classname, r2) ∧
      interfaceLoop c classname t.interfaces t.interfaces acc.interfaceMap r2 = .ok ((bs, acc'.interfaceMap), r3) ∧
      acc'.interfaceBaseMap = (if t.isInterface then acc.interfaceBaseMap.set t.name classname else acc.interfaceBaseMap) ∧
      acc'.tree = acc.tree ++ [.classDef classname (extra ++ bs ++ baseNames p.bases) (body ++ cfg) []] ∧
      settings body = [] ∧ generatePydanticConfig c .object (some t.name) r4 = .ok (cfg, r') := by
  unfold objectStep at h
  obtain ⟨extra, r1, h1, h⟩ := Gen.bind_ok.1 h
  by_cases hs1 : (p.skipUnderscore && underscored t.name) = true
  · rw [if_pos hs1] at h
    obtain ⟨rfl, rfl⟩ := Gen.pure_ok.1 h
    exact .inl ⟨rfl, by simp [hs1]⟩
  rw [if_neg hs1] at h
  by_cases hs2 : (p.skipDoubleUnderscore && doubleUnderscored t.name) = true
  · rw [if_pos hs2] at h
    obtain ⟨rfl, rfl⟩ := Gen.pure_ok.1 h
    exact .inl ⟨rfl, by simp [hs2]⟩
  rw [if_neg hs2] at h
  obtain ⟨classname, r2, h2, h⟩ := Gen.bind_ok.1 h
  obtain ⟨⟨bs, im⟩, r3, h3, h⟩ := Gen.bind_ok.1 h
  obtain ⟨fs, r4, h4, h⟩ := Gen.bind_ok.1 h
  obtain ⟨cfg, r5, h5, h⟩ := Gen.bind_ok.1 h
  obtain ⟨rfl, rfl⟩ := Gen.pure_ok.1 h
  refine .inr ⟨classname, extra, bs, _, cfg, r1, r2, r3, r4, ?_, h1, h2, h3, rfl, rfl, ?_, h5⟩
  · simp only [Bool.not_eq_true] at hs1 hs2
    simp [hs1, hs2]
  · apply settings_plain
    intro s hs
    rcases List.mem_append.1 hs with hs | hs
    · split at hs
      · simp only [List.mem_cons, List.not_mem_nil, or_false] at hs
        subst hs
        exact .inr (.inl ⟨_, rfl⟩)
      · simp at hs
    · exact objectFields_plain h4 s hs

theorem referenceMarker_name {o : Option String} {b l : String} {r r' : Reg} {e : Expr}
    (h : referenceMarker o b l r = .ok (e, r')) :
    e = .name (if o.getD "" = "" then l else lastComponent (o.getD "")) := by
  unfold referenceMarker at h
  cases o with
  | none => simp only [registerBuiltin] at h; cases h; simp
  | some o =>
    simp only at h
    by_cases ho : o = ""
    · simp only [ho, if_true, registerBuiltin] at h; cases h; simp [ho]
    · simp only [ho, if_false] at h
      split at h
      · cases h
      · cases h; simp [ho]

end Turms
