import Verif.Lemmas.StrawberryPlugin
import Verif.Lemmas.ObjectsPlugin

/-! # Decorators, base classes and metadata of the classes of the strawberry plugin -/

namespace Turms
open Spec

theorem nonBlank_told (d : Option String) : (nonBlank d).map Expr.str = told d := by
  cases d with
  | none => rfl
  | some s =>
    unfold nonBlank told
    dsimp only
    split <;> rfl

/-- the arguments of one application -/
theorem directiveArgs_ok : ∀ (as : List (String × Value)) {kws : List (Option String × Expr)}, directiveArgs as = .ok kws →
    List.Forall₂ (fun a k => k.1 = some a.1 ∧
      (a.2.Plain → ∃ v, literalMeaning a.2 = some v ∧ evalLiteral k.2 = some v)) as kws
  | [], kws, h => by cases h; exact .nil
  | (k, v) :: as, kws, h => by
    unfold directiveArgs at h
    cases h1 : convertValueNode v with
    | error x => rw [h1] at h; cases h
    | ok e =>
      rw [h1] at h
      dsimp only at h
      cases h2 : directiveArgs as with
      | error x => rw [h2] at h; cases h
      | ok xs =>
        rw [h2] at h
        cases h
        refine .cons ⟨rfl, fun hp => ?_⟩ (directiveArgs_ok as h2)
        obtain ⟨e', d, g1, g2, g3⟩ := convertValueNode_plain v hp
        rw [h1] at g1
        cases g1
        exact ⟨d, g2, g3⟩

/-- the keyword arguments for directives -/
theorem directiveKeywords_ok {p : StrawberryConfig} {ds : List DirectiveApp} {kws : List (Option String × Expr)}
    {r r' : Reg} (h : directiveKeywords p ds r = .ok (kws, r')) :
    (ds.filter (fun d => !p.builtinDirectives.contains d.name) = [] ∧ kws = []) ∨
    (ds.filter (fun d => !p.builtinDirectives.contains d.name) ≠ [] ∧ ∃ calls, kws = [(some "directives", .list calls)] ∧
      List.Forall₂ AppliedAs (ds.filter fun d => !p.builtinDirectives.contains d.name) calls) := by
  unfold directiveKeywords at h
  have hc : ∀ (l : List DirectiveApp) (cs : List Expr), directiveCalls l = .ok cs → List.Forall₂ AppliedAs l cs := by
    intro l
    induction l with
    | nil => intro cs e; cases e; exact .nil
    | cons d l ih =>
      intro cs e
      unfold directiveCalls at e
      cases h1 : directiveArgs d.args with
      | error x => rw [h1] at e; cases e
      | ok kws =>
        rw [h1] at e
        dsimp only at e
        cases h2 : directiveCalls l with
        | error x => rw [h2] at e; cases e
        | ok cs' =>
          rw [h2] at e
          cases e
          exact .cons ⟨kws, rfl, directiveArgs_ok _ h1⟩ (ih cs' h2)
  cases hd : ds.filter fun d => !p.builtinDirectives.contains d.name with
  | nil =>
    rw [hd] at h
    obtain ⟨rfl, _⟩ := Gen.pure_ok.1 h
    exact .inl ⟨rfl, rfl⟩
  | cons d l =>
    rw [hd] at h
    obtain ⟨calls, r1, h1, h⟩ := Gen.bind_ok.1 h
    obtain ⟨h1, _⟩ := Gen.lift_ok.1 h1
    obtain ⟨rfl, _⟩ := Gen.pure_ok.1 h
    exact .inr ⟨by simp, calls, rfl, hc _ _ h1⟩

/-- what keyword arguments say -/
def keywordIn (k : String) (kws : List (Option String × Expr)) : Option Expr := (kws.find? (·.1 == some k)).map (·.2)

theorem metadata_description {d e : Option String} {kws : List (Option String × Expr)}
    (hk : keywordIn "description" kws = none) : keywordIn "description" (metadataKeywords d e ++ kws) = told d := by
  rw [← nonBlank_told]
  unfold metadataKeywords keywordIn at *
  rw [Option.map_eq_none_iff] at hk
  cases nonBlank d <;> cases nonBlank e <;> simp [hk]

theorem metadata_deprecation {d e : Option String} {kws : List (Option String × Expr)}
    (hk : keywordIn "deprecation_reason" kws = none) :
    keywordIn "deprecation_reason" (metadataKeywords d e ++ kws) = told e := by
  rw [← nonBlank_told]
  unfold metadataKeywords keywordIn at *
  rw [Option.map_eq_none_iff] at hk
  cases nonBlank d <;> cases nonBlank e <;> simp [hk]

theorem metadata_directives {d e : Option String} {kws : List (Option String × Expr)} :
    keywordIn "directives" (metadataKeywords d e ++ kws) = keywordIn "directives" kws := by
  unfold metadataKeywords keywordIn
  cases nonBlank d <;> cases nonBlank e <;> simp

theorem directiveKeywords_other {p : StrawberryConfig} {ds : List DirectiveApp} {kws : List (Option String × Expr)}
    {r r' : Reg} (h : directiveKeywords p ds r = .ok (kws, r')) {k : String} (hk : k ≠ "directives") :
    keywordIn k kws = none := by
  rcases directiveKeywords_ok h with ⟨_, rfl⟩ | ⟨_, calls, rfl, _⟩
  · rfl
  · simp [keywordIn, Ne.symm hk]

theorem carriesDirectives {p : StrawberryConfig} {ds : List DirectiveApp} {kws : List (Option String × Expr)}
    {r r' : Reg} (h : directiveKeywords p ds r = .ok (kws, r')) {s : Stmt}
    (hs : markOf "directives" s = keywordIn "directives" kws) : CarriesDirectives p ds s := by
  unfold CarriesDirectives
  rcases directiveKeywords_ok h with ⟨he, rfl⟩ | ⟨hne, calls, rfl, hc⟩
  · rw [he]; exact hs
  · split
    · rename_i he; exact (hne he).elim
    · rename_i hx _; exact ⟨calls, hs, hc⟩

theorem keywordOf_decorator (k name : String) (kws : List (Option String × Expr)) :
    keywordOf k (decorator name kws) = keywordIn k kws := by
  cases kws <;> rfl

theorem calledName_decorator (name : String) (kws : List (Option String × Expr)) :
    calledName (decorator name kws) = name := by
  cases kws <;> rfl

theorem markOf_fieldCall (k n : String) (a : Expr) (kws : List (Option String × Expr)) :
    markOf k (.annAssign n a (fieldCall kws)) = keywordIn k kws := by
  cases kws <;> rfl

theorem resolverDecorator_name (t : String) (kws : List (Option String × Expr)) :
    calledName (resolverDecorator t kws) = resolverKind t := by
  simp only [resolverDecorator, calledName, resolverKind, beq_iff_eq]

/-- one field -/
theorem strawberryField_told {c : Ctx} {p : StrawberryConfig} {sd : SchemaDirectives} {t cls : String} {f : FieldDef}
    {r r' : Reg} {s : Stmt} (h : strawberryField c p sd t cls f r = .ok (s, r')) : FieldTold p sd t f s := by
  unfold strawberryField at h
  obtain ⟨⟨args, ds⟩, r1, h1, h⟩ := Gen.bind_ok.1 h
  obtain ⟨ret, r2, h2, h⟩ := Gen.bind_ok.1 h
  obtain ⟨kws, r3, h3, h⟩ := Gen.bind_ok.1 h
  dsimp only at h
  have k1 := metadata_description (d := f.description) (e := f.deprecation) (directiveKeywords_other h3 (k := "description") (by decide))
  have k2 := metadata_deprecation (d := f.description) (e := f.deprecation) (directiveKeywords_other h3 (k := "deprecation_reason") (by decide))
  have k3 := metadata_directives (d := f.description) (e := f.deprecation) (kws := kws)
  unfold fieldStmt at h
  split at h
  · obtain ⟨n, r4, h4, h⟩ := Gen.bind_ok.1 h
    obtain ⟨rfl, _⟩ := Gen.pure_ok.1 h
    refine ⟨?_, ?_, carriesDirectives h3 ?_, .inl ⟨_, _, _, rfl⟩, fun _ _ _ _ _ _ _ e => by cases e⟩
    · rw [markOf_fieldCall, k1]
    · rw [markOf_fieldCall, k2]
    · rw [markOf_fieldCall, k3]
  · obtain ⟨ret', r4, h4, h⟩ := Gen.bind_ok.1 h
    obtain ⟨n, r5, h5, h⟩ := Gen.bind_ok.1 h
    obtain ⟨rfl, _⟩ := Gen.pure_ok.1 h
    refine ⟨k1, k2, carriesDirectives h3 k3, .inr ?_, ?_⟩
    · simp [decoratorNames, resolverDecorator_name]
    · intro b n' as ds' body dec ret'' e
      cases e
      simp

theorem strawberryFields_told {c : Ctx} {p : StrawberryConfig} {sd : SchemaDirectives} {t cls : String} :
    ∀ (fs : List FieldDef) {r r' : Reg} {ss : List Stmt},
    strawberryFields c p sd t cls fs r = .ok (ss, r') → List.Forall₂ (FieldTold p sd t) fs ss := by
  intro fs
  induction fs with
  | nil =>
    intro r r' ss h
    obtain ⟨rfl, _⟩ := Gen.pure_ok.1 h
    exact .nil
  | cons f fs ih =>
    intro r r' ss h
    unfold strawberryFields at h
    obtain ⟨s, r1, h1, h⟩ := Gen.bind_ok.1 h
    obtain ⟨ss', r2, h2, h⟩ := Gen.bind_ok.1 h
    obtain ⟨rfl, rfl⟩ := Gen.pure_ok.1 h
    exact .cons (strawberryField_told h1) (ih h2)

/-- base classes of interfaces are called like their interfaces -/
def BasesStyled (env : Env) (r : Reg) : Prop :=
  ∀ i n, r.interfaceBaseclassMap.get? i = some n → styled env.stylers Styler.objectName i = .ok n

theorem Quiet.bases {r r' : Reg} (h : Quiet r r') : r'.interfaceBaseclassMap = r.interfaceBaseclassMap := by
  obtain ⟨_, _, _, rfl, _⟩ := h
  rfl

theorem BasesStyled.quiet {env : Env} {r r' : Reg} (hb : BasesStyled env r) (h : Quiet r r') : BasesStyled env r' := by
  unfold BasesStyled
  rw [h.bases]
  exact hb

theorem strawberryBases_ok {c : Ctx} {all is : List String} : ∀ {bs : List Expr} {r r' : Reg},
    strawberryBases c all is r = .ok (bs, r') → ∃ inherited : List String, bs = inherited.map .name ∧
      List.Forall₂ (fun i n => r.interfaceBaseclassMap.get? i = some n)
        (is.filter fun i => !extendedByOthers c.schema i (all.filter (· != i))) inherited := by
  induction is with
  | nil =>
    intro bs r r' h
    obtain ⟨rfl, _⟩ := Gen.pure_ok.1 h
    exact ⟨[], rfl, .nil⟩
  | cons i is ih =>
    intro bs r r' h
    unfold strawberryBases at h
    by_cases hx : (!extendedByOthers c.schema i (all.filter (· != i))) = true
    · rw [if_pos hx] at h
      obtain ⟨b, r1, h1, h⟩ := Gen.bind_ok.1 h
      obtain ⟨bs', r2, h2, h⟩ := Gen.bind_ok.1 h
      obtain ⟨rfl, _⟩ := Gen.pure_ok.1 h
      unfold inheritInterface at h1
      cases hg : r.interfaceBaseclassMap.get? i with
      | none => rw [hg] at h1; cases h1
      | some n =>
        rw [hg] at h1
        cases h1
        obtain ⟨inh, rfl, hf⟩ := ih h2
        refine ⟨b :: inh, rfl, ?_⟩
        rw [List.filter_cons_of_pos (p := fun i => !extendedByOthers c.schema i (all.filter (· != i))) hx]
        exact .cons hg hf
    · rw [if_neg hx] at h
      obtain ⟨inh, rfl, hf⟩ := ih h
      refine ⟨inh, rfl, ?_⟩
      rw [List.filter_cons_of_neg (p := fun i => !extendedByOthers c.schema i (all.filter (· != i))) hx]
      exact hf

theorem strawberryClassName_bases {env : Env} {t : CompositeType} {cls : String} {r r' : Reg} (hb : BasesStyled env r)
    (h : strawberryClassName env t r = .ok (cls, r')) : BasesStyled env r' := by
  unfold strawberryClassName at h
  split at h
  · unfold generateInterface at h
    split at h
    · cases h
    · unfold styleInterface at h
      cases hst : styled env.stylers Styler.objectName t.name with
      | error e => rw [hst] at h; cases h
      | ok n =>
        rw [hst] at h
        cases h
        intro i m hm
        dsimp only at hm
        rw [Dict.get?_set] at hm
        split at hm
        · rename_i he
          cases hm
          rw [← he]
          exact hst
        · exact hb i m hm
  · obtain ⟨_, _, rfl⟩ := generateClass_ok h
    exact fun i m hm => hb i m hm

/-- what the class of a composite type says -/
def TypeTold (W : World) (c : Ctx) (sm : Reg) (p : StrawberryConfig) (sd : SchemaDirectives) (t : CompositeType) (s : Stmt) : Prop :=
  TypeMeans W c sm t s ∧ CarriesDirectives p (sd.onType t.name) s ∧
  ∃ cls extra inherited body d listed, s = .classDef cls (extra ++ inherited.map .name) body [d] ∧
    List.Forall₂ (FieldTold p sd t.name) t.fields (body.filter isMember) ∧
    calledName d = (if t.isInterface then "strawberry.interface" else "strawberry.type") ∧
    listed.Sublist t.interfaces ∧ (∀ i, i ∈ listed ↔ i ∈ t.interfaces ∧ ¬ ExtendedWithin c.schema i t.interfaces) ∧
    List.Forall₂ (fun i n => styled c.env.stylers Styler.objectName i = .ok n) listed inherited

theorem strawberryType_told {W : World} {c : Ctx} {p : StrawberryConfig} {sd : SchemaDirectives} {t : CompositeType}
    {sm r r' : Reg} {ss : List Stmt} (hs : Styled c.env r) (hsm : r.scalarMap = sm.scalarMap) (hb : BasesStyled c.env r)
    (h : strawberryType c p sd t r = .ok (ss, r')) :
    BasesStyled c.env r' ∧ (KeptType p t.name → ∃ s, ss = [s] ∧ TypeTold W c sm p sd t s) := by
  have hbase := strawberryType_ok (W := W) hs hsm h
  obtain ⟨-, -, hbase⟩ := hbase
  unfold strawberryType at h
  obtain ⟨extra, r1, h1, h⟩ := Gen.bind_ok.1 h
  have q1 := still_additionalBasesFor.quiet h1
  have hb1 := hb.quiet q1
  have hs1 := hs.frame q1.frame
  have hsm1 := q1.tables.1.trans hsm
  by_cases hk : KeptType p t.name
  · rw [← keptType_iff, Bool.or_eq_false_iff] at hk
    rw [if_neg (by simp [hk.1]), if_neg (by simp [hk.2])] at h
    rw [← Bool.or_eq_false_iff, keptType_iff] at hk
    obtain ⟨kws, r2, h2, h⟩ := Gen.bind_ok.1 h
    obtain ⟨cls, r3, h3, h⟩ := Gen.bind_ok.1 h
    obtain ⟨bs, r4, h4, h⟩ := Gen.bind_ok.1 h
    obtain ⟨fs, r5, h5, h⟩ := Gen.bind_ok.1 h
    obtain ⟨cfg, r6, h6, h⟩ := Gen.bind_ok.1 h
    obtain ⟨rfl, rfl⟩ := Gen.pure_ok.1 h
    have q2 := still_directiveKeywords.quiet h2
    obtain ⟨_, hs3, hsm3⟩ := strawberryClassName_ok (hs1.frame q2.frame) h3
    have hb3 := strawberryClassName_bases (hb1.quiet q2) h3
    have q4 := (still_strawberryBases _).quiet h4
    have q5 := (still_strawberryFields _).quiet h5
    have q6 := still_generatePydanticConfig.quiet h6
    have hf := strawberryFields_ok (W := W) _ (hs3.frame q4.frame)
      (q4.tables.1.trans (hsm3.trans (q2.tables.1.trans hsm1))) h5
    have ht := strawberryFields_told _ h5
    obtain ⟨inh, rfl, hinh⟩ := strawberryBases_ok h4
    refine ⟨((hb3.quiet q4).quiet q5).quiet q6, fun _ => ⟨_, rfl, ?_, ?_, ?_⟩⟩
    · rcases hbase with ⟨hn, _⟩ | ⟨_, s, he, hm⟩
      · exact (hn hk).elim
      · rw [List.singleton_inj] at he
        rw [he]; exact hm
    · refine carriesDirectives h2 ?_
      exact keywordOf_decorator _ _ _
    · refine ⟨cls, extra, inh, _, _, _, rfl, ?_, calledName_decorator _ _, List.filter_sublist, ?_, hinh.imp fun i n => hb3 i n⟩
      · rw [List.filter_append, List.filter_append, config_no_members h6, descriptionStmts_no_members, filter_members hf]
        simpa using ht
      · intro i
        rw [List.mem_filter, ← extendedByOthers_iff, Bool.not_eq_true', Bool.not_eq_true]
  · refine ⟨?_, fun h => (hk h).elim⟩
    rw [← keptType_iff] at hk
    simp only [Bool.not_eq_false, Bool.or_eq_true] at hk
    by_cases hk1 : (p.skipUnderscore && underscored t.name) = true
    · rw [if_pos hk1] at h
      obtain ⟨rfl, rfl⟩ := Gen.pure_ok.1 h
      exact hb1
    · rw [if_neg hk1, if_pos (hk.resolve_left hk1)] at h
      obtain ⟨rfl, rfl⟩ := Gen.pure_ok.1 h
      exact hb1

theorem strawberryTypeLoop_told {W : World} {c : Ctx} {p : StrawberryConfig} {sd : SchemaDirectives} {sm : Reg} :
    ∀ (ts : List CompositeType) {r r' : Reg} {ss : List Stmt}, Styled c.env r → r.scalarMap = sm.scalarMap →
    BasesStyled c.env r → strawberryTypeLoop c p sd ts r = .ok (ss, r') →
    ∀ t ∈ ts, KeptType p t.name → ∃ s ∈ ss, TypeTold W c sm p sd t s := by
  intro ts
  induction ts with
  | nil => intro r r' ss _ _ _ _ t ht; cases ht
  | cons t ts ih =>
    intro r r' ss hs hsm hb h
    unfold strawberryTypeLoop at h
    obtain ⟨s, r1, h1, h⟩ := Gen.bind_ok.1 h
    obtain ⟨ss', r2, h2, h⟩ := Gen.bind_ok.1 h
    obtain ⟨rfl, rfl⟩ := Gen.pure_ok.1 h
    obtain ⟨hs1, hsm1, _⟩ := strawberryType_ok (W := W) hs hsm h1
    obtain ⟨hb1, hx⟩ := strawberryType_told (W := W) hs hsm hb h1
    have := ih hs1 hsm1 hb1 h2
    intro u hu hk
    rcases List.mem_cons.1 hu with rfl | hu
    · obtain ⟨s', rfl, hm⟩ := hx hk
      exact ⟨s', by simp, hm⟩
    · obtain ⟨s', hs', hm⟩ := this u hu hk
      exact ⟨s', List.mem_append_right _ hs', hm⟩

/-! ## inputs -/

/-- what the class of an input type says -/
def InputTold (W : World) (c : Ctx) (sm : Reg) (p : StrawberryConfig) (sd : SchemaDirectives) (t : InputType) (s : Stmt) : Prop :=
  InputMeans W c sm t s ∧ CarriesDirectives p (sd.onType t.name) s ∧ decoratorNames s = ["strawberry.input"] ∧
  (OneOf t.directives → markOf "one_of" s = some (.const (.bool true))) ∧
  (¬ OneOf t.directives → markOf "one_of" s = none) ∧
  ∃ cls bases body ds, s = .classDef cls bases body ds ∧
    List.Forall₂ (fun (f : InputFieldDef) s => markOf "description" s = told f.description ∧
      markOf "deprecation_reason" s = told f.deprecation) t.fields (body.filter isMember)

theorem strawberryInputFields_told {c : Ctx} {cls : String} : ∀ (fs : List InputFieldDef) {ss : List Stmt} {r r' : Reg},
    strawberryInputFields c cls fs r = .ok (ss, r') →
    List.Forall₂ (fun (f : InputFieldDef) s => markOf "description" s = told f.description ∧
      markOf "deprecation_reason" s = told f.deprecation) fs ss := by
  intro fs
  induction fs with
  | nil =>
    intro ss r r' h
    obtain ⟨rfl, rfl⟩ := Gen.pure_ok.1 h
    exact .nil
  | cons f fs ih =>
    intro ss r r' h
    unfold strawberryInputFields at h
    obtain ⟨s, r1, h1, h⟩ := Gen.bind_ok.1 h
    obtain ⟨ss', r2, h2, h⟩ := Gen.bind_ok.1 h
    obtain ⟨rfl, rfl⟩ := Gen.pure_ok.1 h
    refine .cons ?_ (ih h2)
    unfold strawberryInputField at h1
    obtain ⟨n, r3, h3, h1⟩ := Gen.bind_ok.1 h1
    obtain ⟨a, r4, h4, h1⟩ := Gen.bind_ok.1 h1
    obtain ⟨rfl, rfl⟩ := Gen.pure_ok.1 h1
    rw [markOf_fieldCall, markOf_fieldCall]
    have a := metadata_description (d := f.description) (e := f.deprecation) (kws := []) rfl
    have b := metadata_deprecation (d := f.description) (e := f.deprecation) (kws := []) rfl
    rw [List.append_nil] at a b
    exact ⟨a, b⟩

theorem strawberryInput_told {W : World} {c : Ctx} {p : StrawberryConfig} {sd : SchemaDirectives} {t : InputType}
    {sm r r' : Reg} {ss : List Stmt} (hs : Styled c.env r) (hsm : r.scalarMap = sm.scalarMap)
    (h : strawberryInput c p sd t r = .ok (ss, r')) :
    r'.interfaceBaseclassMap = r.interfaceBaseclassMap ∧
    (keptIn p t.name = true → ∃ s, ss = [s] ∧ InputTold W c sm p sd t s) := by
  obtain ⟨-, -, hbase⟩ := strawberryInput_ok (W := W) hs hsm h
  unfold strawberryInput at h
  by_cases hk : (p.skipUnderscore && underscored t.name) = true
  · rw [if_pos hk] at h
    obtain ⟨rfl, rfl⟩ := Gen.pure_ok.1 h
    refine ⟨rfl, fun h => ?_⟩
    rw [keptIn, hk] at h
    cases h
  · rw [if_neg hk] at h
    obtain ⟨kws, r1, h1, h⟩ := Gen.bind_ok.1 h
    obtain ⟨extra, r2, h2, h⟩ := Gen.bind_ok.1 h
    obtain ⟨cls, r3, h3, h⟩ := Gen.bind_ok.1 h
    obtain ⟨fs, r4, h4, h⟩ := Gen.bind_ok.1 h
    obtain ⟨cfg, r5, h5, h⟩ := Gen.bind_ok.1 h
    obtain ⟨rfl, rfl⟩ := Gen.pure_ok.1 h
    have q1 := still_directiveKeywords.quiet h1
    have q2 := still_additionalBasesFor.quiet h2
    have hs2 := (hs.frame q1.frame).frame q2.frame
    have hs3 := styled_generateClass hs2 h3
    obtain ⟨_, hst, rfl⟩ := generateClass_ok h3
    have hsm3 : (r2.setClass .input t.name cls).scalarMap = sm.scalarMap := q2.scalar.trans (q1.scalar.trans hsm)
    obtain ⟨q4, hf⟩ := strawberryInputFields_ok (W := W) _ hs3 hsm3 h4
    have ht := strawberryInputFields_told _ h4
    have q5 := still_generatePydanticConfig.quiet h5
    refine ⟨(q4.trans q5).bases.trans (q1.trans q2).bases, fun hkept => ⟨_, rfl, ?_, ?_, ?_, ?_, ?_, ?_⟩⟩
    · rcases hbase with ⟨hn, _⟩ | ⟨_, s, he, hm⟩
      · rw [hkept] at hn; cases hn
      · rw [List.singleton_inj] at he
        rw [he]; exact hm
    · refine carriesDirectives h1 ?_
      refine (keywordOf_decorator _ _ _).trans ?_
      unfold keywordIn
      rw [List.find?_append]
      split <;> simp
    · simp [decoratorNames, calledName_decorator]
    · intro ho
      refine (keywordOf_decorator _ _ _).trans ?_
      have := directiveKeywords_other h1 (k := "one_of") (by decide)
      unfold keywordIn at *
      rw [Option.map_eq_none_iff] at this
      rw [List.find?_append, this, (isOneof_iff _).2 ho]
      rfl
    · intro ho
      refine (keywordOf_decorator _ _ _).trans ?_
      have := directiveKeywords_other h1 (k := "one_of") (by decide)
      rw [← isOneof_iff, Bool.not_eq_true] at ho
      rw [ho]
      simpa using this
    · refine ⟨_, _, _, _, rfl, ?_⟩
      have : fs.filter isMember = fs := by
        rw [List.filter_eq_self]
        intro s hs
        obtain ⟨f, _, n, a, v, rfl, _⟩ := forall₂_mem_right hf hs
        rfl
      rw [List.filter_append, List.filter_append, config_no_members h5, descriptionStmts_no_members, this]
      simpa using ht

theorem strawberryInputs_told {W : World} {c : Ctx} {p : StrawberryConfig} {sd : SchemaDirectives} {sm : Reg} :
    ∀ (ts : List InputType) {ss : List Stmt} {r r' : Reg}, Styled c.env r → r.scalarMap = sm.scalarMap →
    strawberryInputs c p sd ts r = .ok (ss, r') → r'.interfaceBaseclassMap = r.interfaceBaseclassMap ∧
    ∀ t ∈ ts, keptIn p t.name = true → ∃ s ∈ ss, InputTold W c sm p sd t s := by
  intro ts
  induction ts with
  | nil =>
    intro ss r r' _ _ h
    obtain ⟨rfl, rfl⟩ := Gen.pure_ok.1 h
    exact ⟨rfl, fun t ht => by cases ht⟩
  | cons t ts ih =>
    intro ss r r' hs hsm h
    unfold strawberryInputs at h
    obtain ⟨s, r1, h1, h⟩ := Gen.bind_ok.1 h
    obtain ⟨ss', r2, h2, h⟩ := Gen.bind_ok.1 h
    obtain ⟨rfl, rfl⟩ := Gen.pure_ok.1 h
    obtain ⟨hs1, hsm1, _⟩ := strawberryInput_ok (W := W) hs hsm h1
    obtain ⟨hb1, hx⟩ := strawberryInput_told (W := W) hs hsm h1
    obtain ⟨i1, i2⟩ := ih hs1 hsm1 h2
    refine ⟨i1.trans hb1, fun u hu hk => ?_⟩
    rcases List.mem_cons.1 hu with rfl | hu
    · obtain ⟨s', rfl, hm⟩ := hx hk
      exact ⟨s', by simp, hm⟩
    · obtain ⟨s', hs', hm⟩ := i2 u hu hk
      exact ⟨s', List.mem_append_right _ hs', hm⟩

/-! ## the interface table in the other parts -/

theorem strawberryScalarLoop_bases {p : StrawberryConfig} {sd : SchemaDirectives} : ∀ (ts : List ScalarType)
    {ss : List Stmt} {r r' : Reg}, strawberryScalarLoop p sd ts r = .ok (ss, r') →
    r'.interfaceBaseclassMap = r.interfaceBaseclassMap := by
  intro ts
  induction ts with
  | nil =>
    intro ss r r' h
    obtain ⟨rfl, rfl⟩ := Gen.pure_ok.1 h
    rfl
  | cons t ts ih =>
    intro ss r r' h
    unfold strawberryScalarLoop at h
    obtain ⟨s, r1, h1, h⟩ := Gen.bind_ok.1 h
    obtain ⟨ss', r2, h2, h⟩ := Gen.bind_ok.1 h
    obtain ⟨rfl, rfl⟩ := Gen.pure_ok.1 h
    refine (ih h2).trans ?_
    unfold strawberryScalar at h1
    obtain ⟨kws, r3, h3, h1⟩ := Gen.bind_ok.1 h1
    obtain ⟨_, r4, h4, h1⟩ := Gen.bind_ok.1 h1
    obtain ⟨rfl, rfl⟩ := Gen.pure_ok.1 h1
    have q1 := still_directiveKeywords.quiet h3
    cases h4
    exact q1.bases

theorem strawberryScalars_bases {c : Ctx} {p : StrawberryConfig} {sd : SchemaDirectives} {ss : List Stmt} {r r' : Reg}
    (h : strawberryScalars c p sd r = .ok (ss, r')) : r'.interfaceBaseclassMap = r.interfaceBaseclassMap := by
  unfold strawberryScalars at h
  cases hc : customScalars p c.schema with
  | nil =>
    rw [hc] at h
    obtain ⟨rfl, rfl⟩ := Gen.pure_ok.1 h
    rfl
  | cons t ts =>
    rw [hc] at h
    obtain ⟨_, r1, h1, h⟩ := Gen.bind_ok.1 h
    exact (strawberryScalarLoop_bases _ h).trans (still_registerImport.quiet h1).bases

theorem strawberryEnums_bases {c : Ctx} {p : StrawberryConfig} {sd : SchemaDirectives} : ∀ (ts : List EnumType)
    {ss : List Stmt} {r r' : Reg}, strawberryEnums c p sd ts r = .ok (ss, r') →
    r'.interfaceBaseclassMap = r.interfaceBaseclassMap := by
  intro ts
  induction ts with
  | nil =>
    intro ss r r' h
    obtain ⟨rfl, rfl⟩ := Gen.pure_ok.1 h
    rfl
  | cons t ts ih =>
    intro ss r r' h
    unfold strawberryEnums at h
    obtain ⟨s, r1, h1, h⟩ := Gen.bind_ok.1 h
    obtain ⟨ss', r2, h2, h⟩ := Gen.bind_ok.1 h
    obtain ⟨rfl, rfl⟩ := Gen.pure_ok.1 h
    refine (ih h2).trans ?_
    unfold strawberryEnum at h1
    obtain ⟨kws, r3, h3, h1⟩ := Gen.bind_ok.1 h1
    have q1 := still_directiveKeywords.quiet h3
    split at h1
    · obtain ⟨rfl, rfl⟩ := Gen.pure_ok.1 h1
      exact q1.bases
    · split at h1
      · obtain ⟨rfl, rfl⟩ := Gen.pure_ok.1 h1
        exact q1.bases
      · obtain ⟨cls, r4, h4, h1⟩ := Gen.bind_ok.1 h1
        obtain ⟨_, r5, h5, h1⟩ := Gen.bind_ok.1 h1
        obtain ⟨rfl, rfl⟩ := Gen.pure_ok.1 h1
        obtain ⟨_, _, rfl⟩ := generateClass_ok h4
        exact (still_registerImport.quiet h5).bases.trans q1.bases

/-- what the plugin says about types and inputs -/
theorem strawberryPlugin_told {W : World} {c : Ctx} {p : StrawberryConfig} {sd : SchemaDirectives} {r r' : Reg}
    {ss : List Stmt} (hs : Styled c.env r) (hb : BasesStyled c.env r) (h : strawberryPlugin c p sd r = .ok (ss, r')) :
    (p.generateInputs = true → ∀ t ∈ inputTypes c.schema, keptIn p t.name = true → ∃ s ∈ ss, InputTold W c r' p sd t s) ∧
    (p.generateTypes = true → ∀ t ∈ sortedComposites c.schema, KeptType p t.name → ∃ s ∈ ss, TypeTold W c r' p sd t s) := by
  unfold strawberryPlugin at h
  obtain ⟨_, r0, h0, h⟩ := Gen.bind_ok.1 h
  obtain ⟨ds, r1, h1, h⟩ := Gen.bind_ok.1 h
  obtain ⟨sc, r2, h2, h⟩ := Gen.bind_ok.1 h
  obtain ⟨es, r3, h3, h⟩ := Gen.bind_ok.1 h
  obtain ⟨is, r4, h4, h⟩ := Gen.bind_ok.1 h
  obtain ⟨ts, r5, h5, h⟩ := Gen.bind_ok.1 h
  obtain ⟨rfl, rfl⟩ := Gen.pure_ok.1 h
  have q0 := still_registerImport.quiet h0
  have q1 : Quiet r0 r1 := by
    rcases whenEnabled_ok h1 with ⟨_, h1⟩ | ⟨_, _, rfl⟩
    · exact still_strawberryDirectives.quiet h1
    · exact .refl _
  have q := q0.trans q1
  have hs1 := hs.frame q.frame
  have hsc : Styled c.env r2 ∧ r2.interfaceBaseclassMap = r.interfaceBaseclassMap := by
    rcases whenEnabled_ok h2 with ⟨_, h2⟩ | ⟨_, rfl, rfl⟩
    · exact ⟨(strawberryScalars_ok hs1 h2).1, (strawberryScalars_bases h2).trans q.bases⟩
    · exact ⟨hs1, q.bases⟩
  obtain ⟨hs2, hb2⟩ := hsc
  have hen : Styled c.env r3 ∧ r3.interfaceBaseclassMap = r2.interfaceBaseclassMap := by
    rcases whenEnabled_ok h3 with ⟨_, h3⟩ | ⟨_, rfl, rfl⟩
    · exact ⟨(strawberryEnums_ok _ hs2 h3).1, strawberryEnums_bases _ h3⟩
    · exact ⟨hs2, rfl⟩
  obtain ⟨hs3, hb3⟩ := hen
  have hin : ∀ sm : Reg, r3.scalarMap = sm.scalarMap → Styled c.env r4 ∧ r4.scalarMap = sm.scalarMap ∧
      r4.interfaceBaseclassMap = r3.interfaceBaseclassMap ∧ (p.generateInputs = true →
      ∀ t ∈ inputTypes c.schema, keptIn p t.name = true → ∃ s ∈ is, InputTold W c sm p sd t s) := by
    intro sm hsm
    rcases whenEnabled_ok h4 with ⟨_, h4⟩ | ⟨hf, rfl, rfl⟩
    · obtain ⟨a, b, _⟩ := strawberryInputs_ok (W := W) _ hs3 hsm h4
      obtain ⟨d, e⟩ := strawberryInputs_told (W := W) _ hs3 hsm h4
      exact ⟨a, b, d, fun _ => e⟩
    · exact ⟨hs3, hsm, rfl, fun ht => by rw [hf] at ht; cases ht⟩
  have e4 : r4.scalarMap = r3.scalarMap := (hin r3 rfl).2.1
  have hb4 : BasesStyled c.env r4 := by
    unfold BasesStyled
    rw [(hin r3 rfl).2.2.1, hb3, hb2]
    exact hb
  have hty : ∀ sm : Reg, r4.scalarMap = sm.scalarMap → r5.scalarMap = sm.scalarMap ∧ (p.generateTypes = true →
      ∀ t ∈ sortedComposites c.schema, KeptType p t.name → ∃ s ∈ ts, TypeTold W c sm p sd t s) := by
    intro sm hsm
    obtain ⟨hs4, _⟩ := hin r3 rfl
    rcases whenEnabled_ok h5 with ⟨_, h5⟩ | ⟨hf, rfl, rfl⟩
    · unfold strawberryTypes at h5
      obtain ⟨_, r6, h6, h5⟩ := Gen.bind_ok.1 h5
      have q6 := still_registerImport.quiet h6
      obtain ⟨b, _⟩ := strawberryTypeLoop_ok (W := W) _ (hs4.frame q6.frame) (q6.scalar.trans hsm) h5
      exact ⟨b, fun _ => strawberryTypeLoop_told _ (hs4.frame q6.frame) (q6.scalar.trans hsm) (hb4.quiet q6) h5⟩
    · exact ⟨hsm, fun ht => by rw [hf] at ht; cases ht⟩
  have e5 : r5.scalarMap = r4.scalarMap := (hty r4 rfl).1
  refine ⟨fun hg t ht hk => ?_, fun hg t ht hk => ?_⟩
  · obtain ⟨s, hs, hm⟩ := (hin r5 (e4.symm.trans e5.symm)).2.2.2 hg t ht hk
    exact ⟨s, by simp [hs], hm⟩
  · obtain ⟨s, hs, hm⟩ := (hty r5 e5.symm).2 hg t ht hk
    exact ⟨s, by simp [hs], hm⟩

end Turms
