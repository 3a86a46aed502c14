import Verif.Lemmas.Strawberry
import Verif.Props.Enums

/-! # The strawberry plugin as a whole -/

namespace Turms
open Spec

theorem Quiet.scalar {r r' : Reg} (h : Quiet r r') : r'.scalarMap = r.scalarMap := h.tables.1

/-! ## directives -/

theorem still_directiveLeaf {c : Ctx} {n : String} : Still (directiveLeaf c n) := by unfold directiveLeaf; still

theorem still_directiveAnnotation {c : Ctx} (t : TypeNode) : ∀ {o : Bool}, Still (directiveAnnotation c t o) := by
  induction t with
  | named n => intro o; exact still_directiveLeaf.bind fun _ => still_optionalWrap
  | list t ih => intro o; exact still_registerImport.bind fun _ => ih.bind fun _ => still_optionalWrap
  | nonNull t ih => intro o; exact ih

theorem still_directiveFieldValue {d : Option PyDefault} : Still (directiveFieldValue d) := by
  unfold directiveFieldValue
  split
  · exact .pure
  · exact .pure
  · exact Still.lift.bind fun _ => .pure

theorem still_directiveField {c : Ctx} {a : ArgDef} : Still (directiveField c a) :=
  still_directiveFieldValue.bind fun _ => still_nodeName.bind fun _ => (still_directiveAnnotation _).bind fun _ => .pure

theorem still_directiveFields {c : Ctx} (as : List ArgDef) : Still (directiveFields c as) := by
  induction as with
  | nil => exact .pure
  | cons a as ih => exact still_directiveField.bind fun _ => ih.bind fun _ => .pure

theorem still_directiveClass {c : Ctx} {p : StrawberryConfig} {d : DirectiveDef} : Still (directiveClass c p d) := by
  unfold directiveClass
  split
  · exact .pure
  · split
    · exact .pure
    · exact (still_directiveFields _).bind fun _ => still_generatePydanticConfig.bind fun _ => .pure

theorem still_directiveClasses {c : Ctx} {p : StrawberryConfig} (ds : List DirectiveDef) :
    Still (directiveClasses c p ds) := by
  induction ds with
  | nil => exact .pure
  | cons a as ih => exact still_directiveClass.bind fun _ => ih.bind fun _ => .pure

theorem still_strawberryDirectives {c : Ctx} {p : StrawberryConfig} {ds : List DirectiveDef} :
    Still (strawberryDirectives c p ds) := by
  unfold strawberryDirectives
  split
  · exact .pure
  · exact still_registerImport.bind fun _ => still_directiveClasses _

/-! ## scalars -/

theorem strawberryScalar_ok {env : Env} {p : StrawberryConfig} {sd : SchemaDirectives} {t : ScalarType} {s : Stmt}
    {r r' : Reg} (hs : Styled env r) (h : strawberryScalar p sd t r = .ok (s, r')) :
    Styled env r' ∧ r'.scalarMap = r.scalarMap.set t.name t.name ∧ ∃ e, s = .assign (.name t.name) e := by
  unfold strawberryScalar at h
  obtain ⟨kws, r1, h1, h⟩ := Gen.bind_ok.1 h
  obtain ⟨_, r2, h2, h⟩ := Gen.bind_ok.1 h
  obtain ⟨rfl, rfl⟩ := Gen.pure_ok.1 h
  have q1 := still_directiveKeywords.quiet h1
  cases h2
  exact ⟨fun k n cl hk => hs.frame q1.frame k n cl (by cases k <;> exact hk), by rw [q1.scalar], _, rfl⟩

theorem strawberryScalarLoop_ok {env : Env} {p : StrawberryConfig} {sd : SchemaDirectives} :
    ∀ (ts : List ScalarType) {ss : List Stmt} {r r' : Reg}, Styled env r →
    strawberryScalarLoop p sd ts r = .ok (ss, r') → Styled env r' ∧
      (∀ n, r'.scalarMap.get? n = if n ∈ ts.map (·.name) then some n else r.scalarMap.get? n) ∧
      List.Forall₂ (fun (t : ScalarType) s => ∃ e, s = .assign (.name t.name) e) ts ss := by
  intro ts
  induction ts with
  | nil =>
    intro ss r r' hs h
    obtain ⟨rfl, rfl⟩ := Gen.pure_ok.1 h
    exact ⟨hs, by simp, .nil⟩
  | cons t ts ih =>
    intro ss r r' hs h
    unfold strawberryScalarLoop at h
    obtain ⟨s, r1, h1, h⟩ := Gen.bind_ok.1 h
    obtain ⟨ss', r2, h2, h⟩ := Gen.bind_ok.1 h
    obtain ⟨rfl, rfl⟩ := Gen.pure_ok.1 h
    obtain ⟨hs1, hm, hf⟩ := strawberryScalar_ok hs h1
    obtain ⟨hs2, i2, i3⟩ := ih hs1 h2
    refine ⟨hs2, fun n => ?_, .cons hf i3⟩
    rw [i2, hm]
    by_cases hn : n ∈ ts.map (·.name)
    · rw [if_pos hn, if_pos (by simp only [List.map_cons, List.mem_cons]; exact .inr hn)]
    · rw [if_neg hn, Dict.get?_set]
      by_cases he : t.name = n
      · rw [if_pos he, if_pos (by simp [he]), he]
      · rw [if_neg he, if_neg]
        simp only [List.map_cons, List.mem_cons, not_or]
        exact ⟨fun h => he h.symm, hn⟩

theorem strawberryScalars_ok {c : Ctx} {p : StrawberryConfig} {sd : SchemaDirectives} {ss : List Stmt} {r r' : Reg}
    (hs : Styled c.env r) (h : strawberryScalars c p sd r = .ok (ss, r')) : Styled c.env r' ∧
      (∀ n, r'.scalarMap.get? n =
        if n ∈ (customScalars p c.schema).map (·.name) then some n else r.scalarMap.get? n) ∧
      List.Forall₂ (fun (t : ScalarType) s => ∃ e, s = .assign (.name t.name) e) (customScalars p c.schema) ss := by
  unfold strawberryScalars at h
  cases hc : customScalars p c.schema with
  | nil =>
    rw [hc] at h
    obtain ⟨rfl, rfl⟩ := Gen.pure_ok.1 h
    exact ⟨hs, by simp, .nil⟩
  | cons t ts =>
    rw [hc] at h
    obtain ⟨_, r1, h1, h⟩ := Gen.bind_ok.1 h
    have q := still_registerImport.quiet h1
    obtain ⟨a, b, d⟩ := strawberryScalarLoop_ok _ (hs.frame q.frame) h
    exact ⟨a, fun n => by rw [b, q.scalar], d⟩

/-! ## enums -/

/-- the class generated for an enum -/
def EnumMeans (env : Env) (t : EnumType) (s : Stmt) : Prop :=
  ∃ cls decorators, Kind.enum.style env t.name = .ok cls ∧ s = .classDef cls [.name "Enum"]
    (orPass (descriptionStmts t.description ++ t.values.flatMap enumValueStmts)) decorators

theorem strawberryEnum_ok {c : Ctx} {p : StrawberryConfig} {sd : SchemaDirectives} {t : EnumType} {ss : List Stmt}
    {r r' : Reg} (hs : Styled c.env r) (h : strawberryEnum c p sd t r = .ok (ss, r')) :
    Styled c.env r' ∧ r'.scalarMap = r.scalarMap ∧
    ((¬ KeptType p t.name ∧ ss = []) ∨ (KeptType p t.name ∧ ∃ s, ss = [s] ∧ EnumMeans c.env t s)) := by
  unfold strawberryEnum at h
  obtain ⟨kws, r1, h1, h⟩ := Gen.bind_ok.1 h
  have q1 := still_directiveKeywords.quiet h1
  have hs1 := hs.frame q1.frame
  by_cases hk : KeptType p t.name
  · rw [← keptType_iff, Bool.or_eq_false_iff] at hk
    rw [if_neg (by simp [hk.1]), if_neg (by simp [hk.2])] at h
    rw [← Bool.or_eq_false_iff, keptType_iff] at hk
    obtain ⟨cls, r2, h2, h⟩ := Gen.bind_ok.1 h
    obtain ⟨_, r3, h3, h⟩ := Gen.bind_ok.1 h
    obtain ⟨rfl, rfl⟩ := Gen.pure_ok.1 h
    have q3 := still_registerImport.quiet h3
    have hs2 := styled_generateClass hs1 h2
    obtain ⟨_, hst, rfl⟩ := generateClass_ok h2
    refine ⟨hs2.frame q3.frame, q3.scalar.trans q1.scalar, .inr ⟨hk, _, rfl, _, _, hst, rfl⟩⟩
  · refine ⟨?_, ?_, .inl ⟨hk, ?_⟩⟩
    all_goals
      rw [← keptType_iff] at hk
      simp only [Bool.not_eq_false, Bool.or_eq_true] at hk
      by_cases hk1 : (p.skipUnderscore && underscored t.name) = true
      · rw [if_pos hk1] at h
        obtain ⟨rfl, rfl⟩ := Gen.pure_ok.1 h
        first | exact hs1 | exact q1.scalar | rfl
      · rw [if_neg hk1, if_pos (hk.resolve_left hk1)] at h
        obtain ⟨rfl, rfl⟩ := Gen.pure_ok.1 h
        first | exact hs1 | exact q1.scalar | rfl

theorem strawberryEnums_ok {c : Ctx} {p : StrawberryConfig} {sd : SchemaDirectives} : ∀ (ts : List EnumType)
    {ss : List Stmt} {r r' : Reg}, Styled c.env r → strawberryEnums c p sd ts r = .ok (ss, r') →
    Styled c.env r' ∧ r'.scalarMap = r.scalarMap ∧
    List.Forall₂ (EnumMeans c.env) (ts.filter fun t => keptSb p t.name) ss := by
  intro ts
  induction ts with
  | nil =>
    intro ss r r' hs h
    obtain ⟨rfl, rfl⟩ := Gen.pure_ok.1 h
    exact ⟨hs, rfl, .nil⟩
  | cons t ts ih =>
    intro ss r r' hs h
    unfold strawberryEnums at h
    obtain ⟨s, r1, h1, h⟩ := Gen.bind_ok.1 h
    obtain ⟨ss', r2, h2, h⟩ := Gen.bind_ok.1 h
    obtain ⟨rfl, rfl⟩ := Gen.pure_ok.1 h
    obtain ⟨hs1, hsm1, hcase⟩ := strawberryEnum_ok hs h1
    obtain ⟨i1, i2, i3⟩ := ih hs1 h2
    refine ⟨i1, i2.trans hsm1, ?_⟩
    rcases hcase with ⟨hk, rfl⟩ | ⟨hk, s, rfl, hm⟩
    · rw [List.filter_cons_of_neg (by rw [keptSb_iff]; exact hk)]
      exact i3
    · rw [List.filter_cons_of_pos (by rw [keptSb_iff]; exact hk)]
      exact .cons hm i3

/-! ## inputs -/

/-- the declaration generated for an input field -/
def InputFieldMeans (W : World) (c : Ctx) (sm : Reg) (f : InputFieldDef) (s : Stmt) : Prop :=
  ∃ n a v, s = .annAssign n a v ∧ FieldParamOf c.env f.name n ∧
    (¬ Inst W (inputSideClass c sm) f.type.base .null → ∀ v, Accepts W a v ↔ Legal (Inst W (inputSideClass c sm)) f.type v)

theorem still_strawberryInputField {c : Ctx} {cls : String} {f : InputFieldDef} : Still (strawberryInputField c cls f) :=
  still_nodeName.bind fun _ => (still_argAnnotation _).bind fun _ => .pure

theorem strawberryInputFields_ok {W : World} {c : Ctx} {cls : String} {sm : Reg} : ∀ (fs : List InputFieldDef)
    {ss : List Stmt} {r r' : Reg}, Styled c.env r → r.scalarMap = sm.scalarMap →
    strawberryInputFields c cls fs r = .ok (ss, r') → Quiet r r' ∧ List.Forall₂ (InputFieldMeans W c sm) fs ss := by
  intro fs
  induction fs with
  | nil =>
    intro ss r r' _ _ h
    obtain ⟨rfl, rfl⟩ := Gen.pure_ok.1 h
    exact ⟨.refl _, .nil⟩
  | cons f fs ih =>
    intro ss r r' hs hsm h
    unfold strawberryInputFields at h
    obtain ⟨s, r1, h1, h⟩ := Gen.bind_ok.1 h
    obtain ⟨ss', r2, h2, h⟩ := Gen.bind_ok.1 h
    obtain ⟨rfl, rfl⟩ := Gen.pure_ok.1 h
    have q1 := still_strawberryInputField.quiet h1
    obtain ⟨i1, i2⟩ := ih (hs.frame q1.frame) (q1.scalar.trans hsm) h2
    refine ⟨q1.trans i1, .cons ?_ i2⟩
    unfold strawberryInputField at h1
    obtain ⟨n, r3, h3, h1⟩ := Gen.bind_ok.1 h1
    obtain ⟨a, r4, h4, h1⟩ := Gen.bind_ok.1 h1
    obtain ⟨rfl, rfl⟩ := Gen.pure_ok.1 h1
    have q3 := still_nodeName.quiet h3
    obtain ⟨hn, -⟩ := Gen.lift_ok.1 h3
    refine ⟨_, _, _, rfl, hn, fun hnull v => ?_⟩
    have hc : inputSideClass c r3 = inputSideClass c sm := inputSideClass_congr (q3.scalar.trans hsm)
    rw [← hc] at hnull ⊢
    exact ((argAnnotation_shape W c cls).sound _ trivial true _ _ _ (hs.frame q3.frame) h4 hnull).2 v

/-- the input is not skipped (`skip_double_underscore` does not apply to inputs) -/
def keptIn (p : StrawberryConfig) (n : String) : Bool := !(p.skipUnderscore && underscored n)

/-- the class generated for an input type -/
def InputMeans (W : World) (c : Ctx) (sm : Reg) (t : InputType) (s : Stmt) : Prop :=
  ∃ cls bases body decorators, Kind.input.style c.env t.name = .ok cls ∧ s = .classDef cls bases body decorators ∧
    List.Forall₂ (InputFieldMeans W c sm) t.fields (body.filter isMember)

theorem strawberryInput_ok {W : World} {c : Ctx} {p : StrawberryConfig} {sd : SchemaDirectives} {t : InputType}
    {sm r r' : Reg} {ss : List Stmt} (hs : Styled c.env r) (hsm : r.scalarMap = sm.scalarMap)
    (h : strawberryInput c p sd t r = .ok (ss, r')) :
    Styled c.env r' ∧ r'.scalarMap = sm.scalarMap ∧
    ((keptIn p t.name = false ∧ ss = []) ∨ (keptIn p t.name = true ∧ ∃ s, ss = [s] ∧ InputMeans W c sm t s)) := by
  unfold strawberryInput at h
  by_cases hk : (p.skipUnderscore && underscored t.name) = true
  · rw [if_pos hk] at h
    obtain ⟨rfl, rfl⟩ := Gen.pure_ok.1 h
    exact ⟨hs, hsm, .inl ⟨by simp [keptIn, hk], rfl⟩⟩
  · rw [if_neg hk] at h
    obtain ⟨kws, r1, h1, h⟩ := Gen.bind_ok.1 h
    obtain ⟨extra, r2, h2, h⟩ := Gen.bind_ok.1 h
    obtain ⟨cls, r3, h3, h⟩ := Gen.bind_ok.1 h
    obtain ⟨fs, r4, h4, h⟩ := Gen.bind_ok.1 h
    obtain ⟨cfg, r5, h5, h⟩ := Gen.bind_ok.1 h
    obtain ⟨rfl, rfl⟩ := Gen.pure_ok.1 h
    have q1 := still_directiveKeywords.quiet h1
    have q2 := still_additionalBasesFor.quiet h2
    have hs2 := (hs.frame q1.frame).frame q2.frame
    have hs3 := styled_generateClass hs2 h3
    obtain ⟨_, hst, rfl⟩ := generateClass_ok h3
    have hsm3 : (r2.setClass .input t.name cls).scalarMap = sm.scalarMap := q2.scalar.trans (q1.scalar.trans hsm)
    obtain ⟨q4, hf⟩ := strawberryInputFields_ok (W := W) _ hs3 hsm3 h4
    have q5 := still_generatePydanticConfig.quiet h5
    refine ⟨(hs3.frame q4.frame).frame q5.frame, q5.scalar.trans (q4.scalar.trans hsm3),
      .inr ⟨by unfold keptIn; rw [Bool.not_eq_true] at hk; rw [hk]; rfl, _, rfl, _, _, _, _, hst, rfl, ?_⟩⟩
    have : fs.filter isMember = fs := by
      rw [List.filter_eq_self]
      intro s hs
      obtain ⟨f, _, n, a, v, rfl, _⟩ := forall₂_mem_right hf hs
      rfl
    rw [List.filter_append, List.filter_append, config_no_members h5, descriptionStmts_no_members, this]
    simpa using hf

theorem strawberryInputs_ok {W : World} {c : Ctx} {p : StrawberryConfig} {sd : SchemaDirectives} {sm : Reg} :
    ∀ (ts : List InputType) {ss : List Stmt} {r r' : Reg}, Styled c.env r → r.scalarMap = sm.scalarMap →
    strawberryInputs c p sd ts r = .ok (ss, r') →
    Styled c.env r' ∧ r'.scalarMap = sm.scalarMap ∧
    List.Forall₂ (InputMeans W c sm) (ts.filter fun t => keptIn p t.name) ss := by
  intro ts
  induction ts with
  | nil =>
    intro ss r r' hs hsm h
    obtain ⟨rfl, rfl⟩ := Gen.pure_ok.1 h
    exact ⟨hs, hsm, .nil⟩
  | cons t ts ih =>
    intro ss r r' hs hsm h
    unfold strawberryInputs at h
    obtain ⟨s, r1, h1, h⟩ := Gen.bind_ok.1 h
    obtain ⟨ss', r2, h2, h⟩ := Gen.bind_ok.1 h
    obtain ⟨rfl, rfl⟩ := Gen.pure_ok.1 h
    obtain ⟨hs1, hsm1, hcase⟩ := strawberryInput_ok (W := W) hs hsm h1
    obtain ⟨i1, i2, i3⟩ := ih hs1 hsm1 h2
    refine ⟨i1, i2, ?_⟩
    rcases hcase with ⟨hk, rfl⟩ | ⟨hk, s, rfl, hm⟩
    · rw [List.filter_cons_of_neg (by simp [hk])]
      exact i3
    · rw [List.filter_cons_of_pos (p := fun t : InputType => keptIn p t.name) hk]
      exact .cons hm i3

/-! ## the plugin -/

/-- what a run of the plugin emits; `r'` is the registry at its end -/
structure PluginMeans (W : World) (c : Ctx) (p : StrawberryConfig) (r r' : Reg) (ss : List Stmt) : Prop where
  parts : ∃ ds sc es is ts, ss = ds ++ sc ++ es ++ is ++ ts ∧
    (if p.generateDirectives then
      List.Forall₂ (fun (t : ScalarType) s => ∃ e, s = .assign (.name t.name) e) (customScalars p c.schema) sc
      else sc = []) ∧
    (if p.generateEnums then
      List.Forall₂ (EnumMeans c.env) ((enumTypes c.schema).filter fun t => keptSb p t.name) es else es = []) ∧
    (if p.generateInputs then
      List.Forall₂ (InputMeans W c r') ((inputTypes c.schema).filter fun t => keptIn p t.name) is else is = []) ∧
    (if p.generateTypes then
      List.Forall₂ (TypeMeans W c r') ((sortedComposites c.schema).filter fun t => keptSb p t.name) ts else ts = [])
  scalars : ∀ n, r'.scalarMap.get? n =
    if p.generateDirectives = true ∧ n ∈ (customScalars p c.schema).map (·.name) then some n else r.scalarMap.get? n

theorem whenEnabled_ok {b : Bool} {g : Gen (List Stmt)} {r r' : Reg} {ss : List Stmt}
    (h : whenEnabled b g r = .ok (ss, r')) : (b = true ∧ g r = .ok (ss, r')) ∨ (b = false ∧ ss = [] ∧ r' = r) := by
  unfold whenEnabled at h
  cases b
  · rw [if_neg (by simp)] at h
    obtain ⟨rfl, rfl⟩ := Gen.pure_ok.1 h
    exact .inr ⟨rfl, rfl, rfl⟩
  · exact .inl ⟨rfl, h⟩

theorem strawberryPlugin_ok {W : World} {c : Ctx} {p : StrawberryConfig} {sd : SchemaDirectives} {r r' : Reg}
    {ss : List Stmt} (hs : Styled c.env r) (h : strawberryPlugin c p sd r = .ok (ss, r')) :
    PluginMeans W c p r r' ss := by
  unfold strawberryPlugin at h
  obtain ⟨_, r0, h0, h⟩ := Gen.bind_ok.1 h
  obtain ⟨ds, r1, h1, h⟩ := Gen.bind_ok.1 h
  obtain ⟨sc, r2, h2, h⟩ := Gen.bind_ok.1 h
  obtain ⟨es, r3, h3, h⟩ := Gen.bind_ok.1 h
  obtain ⟨is, r4, h4, h⟩ := Gen.bind_ok.1 h
  obtain ⟨ts, r5, h5, h⟩ := Gen.bind_ok.1 h
  obtain ⟨rfl, rfl⟩ := Gen.pure_ok.1 h
  have q0 := still_registerImport.quiet h0
  have q1 : Quiet r0 r1 := by
    rcases whenEnabled_ok h1 with ⟨_, h1⟩ | ⟨_, _, rfl⟩
    · exact still_strawberryDirectives.quiet h1
    · exact .refl _
  have q := q0.trans q1
  have hs1 := hs.frame q.frame
  have hsc : Styled c.env r2 ∧ (∀ n, r2.scalarMap.get? n =
      if p.generateDirectives = true ∧ n ∈ (customScalars p c.schema).map (·.name) then some n else r.scalarMap.get? n) ∧
      (if p.generateDirectives then
      List.Forall₂ (fun (t : ScalarType) s => ∃ e, s = .assign (.name t.name) e) (customScalars p c.schema) sc
      else sc = []) := by
    rcases whenEnabled_ok h2 with ⟨hb, h2⟩ | ⟨hb, rfl, rfl⟩
    · obtain ⟨a, b, d⟩ := strawberryScalars_ok hs1 h2
      refine ⟨a, fun n => ?_, by rw [hb]; exact d⟩
      rw [b, q.scalar, hb]
      simp
    · exact ⟨hs1, fun n => by rw [hb, q.scalar]; simp, by rw [hb]; rfl⟩
  obtain ⟨hs2, hsm2, hsc⟩ := hsc
  have hen : Styled c.env r3 ∧ r3.scalarMap = r2.scalarMap ∧ (if p.generateEnums then
      List.Forall₂ (EnumMeans c.env) ((enumTypes c.schema).filter fun t => keptSb p t.name) es else es = []) := by
    rcases whenEnabled_ok h3 with ⟨hb, h3⟩ | ⟨hb, rfl, rfl⟩
    · obtain ⟨a, b, d⟩ := strawberryEnums_ok _ hs2 h3
      exact ⟨a, b, by rw [hb]; exact d⟩
    · exact ⟨hs2, rfl, by rw [hb]; rfl⟩
  obtain ⟨hs3, hsm3, hen⟩ := hen
  have hin : ∀ sm : Reg, r3.scalarMap = sm.scalarMap → Styled c.env r4 ∧ r4.scalarMap = sm.scalarMap ∧ (if p.generateInputs then
      List.Forall₂ (InputMeans W c sm) ((inputTypes c.schema).filter fun t => keptIn p t.name) is else is = []) := by
    intro sm hsm
    rcases whenEnabled_ok h4 with ⟨hb, h4⟩ | ⟨hb, rfl, rfl⟩
    · obtain ⟨a, b, d⟩ := strawberryInputs_ok (W := W) _ hs3 hsm h4
      exact ⟨a, b, by rw [hb]; exact d⟩
    · exact ⟨hs3, hsm, by rw [hb]; rfl⟩
  have hty : ∀ sm : Reg, r4.scalarMap = sm.scalarMap → r5.scalarMap = sm.scalarMap ∧ (if p.generateTypes then
      List.Forall₂ (TypeMeans W c sm) ((sortedComposites c.schema).filter fun t => keptSb p t.name) ts else ts = []) := by
    intro sm hsm
    obtain ⟨hs4, _, _⟩ := hin r3 rfl
    rcases whenEnabled_ok h5 with ⟨hb, h5⟩ | ⟨hb, rfl, rfl⟩
    · unfold strawberryTypes at h5
      obtain ⟨_, r6, h6, h5⟩ := Gen.bind_ok.1 h5
      have q6 := still_registerImport.quiet h6
      obtain ⟨b, d⟩ := strawberryTypeLoop_ok (W := W) _ (hs4.frame q6.frame) (q6.scalar.trans hsm) h5
      exact ⟨b, by rw [hb]; exact d⟩
    · exact ⟨hsm, by rw [hb]; rfl⟩
  have e4 : r4.scalarMap = r3.scalarMap := (hin r3 rfl).2.1
  have e5 : r5.scalarMap = r4.scalarMap := (hty r4 rfl).1
  exact ⟨⟨ds, sc, es, is, ts, rfl, hsc, hen, (hin r5 (e4.symm.trans e5.symm)).2.2, (hty r5 e5.symm).2⟩,
    fun n => by rw [e5, e4, hsm3, hsm2]⟩

end Turms
