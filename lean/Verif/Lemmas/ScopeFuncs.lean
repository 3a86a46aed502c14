import Verif.Lemmas.ScopePlugins
import Verif.Lemmas.StillWalk

/-! # The names that function definitions evaluate -/

namespace Turms
open Spec

theorem Quiet.soft {r r' : Reg} (h : Quiet r r') : Soft r r' := by
  obtain ⟨_, _, _, rfl, a, b, d⟩ := h
  exact ⟨rfl, a, b, d⟩

section
variable {α : Type} {env : Env} {S : Places} {X : String → Prop}

theorem Still.scoped {g : Gen α} (h : Still g) : Scoped env S X g fun _ _ => True :=
  ⟨fun _ _ _ _ hg => ⟨(h.quiet hg).soft, fun _ _ => trivial⟩⟩

theorem namesIn_tuple {E : String → Prop} {es : List Expr} (h : ∀ e ∈ es, NamesIn E e) : NamesIn E (.tuple es) := by
  intro n hn
  simp only [freeNames, mem_freeNamesL] at hn
  obtain ⟨e, he, hn⟩ := hn
  exact h e he n hn

theorem namesIn_pair {E : String → Prop} {a b : Expr} (ha : NamesIn E a) (hb : NamesIn E b) : NamesIn E (.tuple [a, b]) := by
  refine namesIn_tuple fun e he => ?_
  simp only [List.mem_cons, List.not_mem_nil, or_false] at he
  rcases he with rfl | rfl
  · exact ha
  · exact hb

theorem scoped_referenceUnset : Scoped env S X (referenceUnset env) NamesIn :=
  Scoped.of (P := fun _ r' e => ∃ x, e = .name x ∧ External r' x) (fun _ h => soft_marker (by decide) h)
    fun _ _ _ _ h hE => by
      obtain ⟨x, rfl, h⟩ := h
      exact namesIn_name (hE x (.inl h))

theorem scoped_referenceUnsetType : Scoped env S X (referenceUnsetType env) NamesIn :=
  Scoped.of (P := fun _ r' e => ∃ x, e = .name x ∧ External r' x) (fun _ h => soft_marker (by decide) h)
    fun _ _ _ _ h hE => by
      obtain ⟨x, rfl, h⟩ := h
      exact namesIn_name (hE x (.inl h))

theorem scoped_unsetUnion {a : Expr} : Scoped env S X (unsetUnion env a) fun E e => NamesIn E a → NamesIn E e := by
  unfold unsetUnion
  exact (scoped_registerImport (n := "Union") (by decide +kernel)).bind fun _ => scoped_referenceUnsetType.bind fun u =>
    .pure fun E hu hn ha => namesIn_sub hn (namesIn_pair ha hu)

theorem scoped_coercibleInputUnion {a : Expr} {s : String} :
    Scoped env S X (coercibleInputUnion a s) fun E e => NamesIn E a → NamesIn E e := by
  unfold coercibleInputUnion
  exact (scoped_registerImport (n := lastComponent s) rfl).bind fun _ =>
    (scoped_registerImport (n := "Union") (by decide +kernel)).bind fun _ =>
    .pure fun E hu hn ha => namesIn_sub hu (namesIn_pair ha (namesIn_name hn))

theorem scoped_paramLeaf {c : Ctx} {co : Coercions} {n : String} : Scoped c.env S X (paramLeaf c co n) NamesIn := by
  unfold paramLeaf
  split
  · split
    · rename_i p _
      exact (scoped_registerImport (n := lastComponent p) rfl).bind fun _ => .pure fun E h => namesIn_name h
    · exact scoped_referenceScalar
  · refine scoped_referenceInput.bind fun x => ?_
    split
    · exact scoped_coercibleInputUnion
    · exact .pure fun E h => h
  · exact scoped_referenceEnum
  · exact .fail

theorem scoped_paramAnnotation {c : Ctx} {co : Coercions} (t : TypeNode) : ∀ {o : Bool},
    Scoped c.env S X (paramAnnotation c co t o) NamesIn := by
  induction t with
  | named n =>
    intro o
    unfold paramAnnotation
    exact scoped_paramLeaf.bind fun x => scoped_optionalWrap
  | list t ih =>
    intro o
    unfold paramAnnotation
    refine (scoped_registerImport (n := "Iterable") (by decide +kernel)).bind fun _ => ih.bind fun x =>
      scoped_optionalWrap.mono fun E e he hx hl => he (namesIn_sub hl hx)
  | nonNull t ih => intro o; unfold paramAnnotation; exact ih

theorem scoped_recurseOverwritten {x : Expr} (t : TypeNode) : ∀ {o : Bool},
    Scoped env S X (recurseTypeAnnotation env (some x) t o) fun E e => NamesIn E x → NamesIn E e := by
  induction t with
  | named n =>
    intro o
    unfold recurseTypeAnnotation namedOr
    exact (Scoped.pure (Q := fun _ y => y = x) fun _ => rfl).bind fun y =>
      scoped_optionalWrap.mono fun E e he hy hx => he (hy ▸ hx)
  | list t ih =>
    intro o
    unfold recurseTypeAnnotation
    refine (scoped_registerImport (n := "List") (by decide +kernel)).bind fun _ => ih.bind fun y =>
      scoped_optionalWrap.mono fun E e he hx hl hy => he (namesIn_sub hl (hx hy))
  | nonNull t ih => intro o; unfold recurseTypeAnnotation; exact ih

theorem scoped_variableAnnotation {co : Coercions} {t : TypeNode} :
    Scoped env S X (variableAnnotation env co t) NamesIn := by
  unfold variableAnnotation
  refine .ite (fun _ => ?_) fun _ => .ite (fun _ => ?_) fun _ => scoped_recurseTypeAnnotation t
  · exact (scoped_registerImport rfl).bind fun _ =>
      (scoped_recurseOverwritten t).mono fun E e he h => he (namesIn_name h)
  · exact scoped_referenceInput.bind fun x => scoped_coercibleInputUnion.bind fun u =>
      (scoped_recurseOverwritten t).mono fun E e he hu hx => he (hu hx)

/-- the names evaluated by parameters -/
structure ParamsIn (E : String → Prop) (P : Params) : Prop where
  pos : ∀ a ∈ P.pos, ∀ n ∈ freeNamesO a.annotation, E n
  kw : ∀ a ∈ P.kw, ∀ n ∈ freeNamesO a.annotation, E n
  values : NamesInL E P.values

theorem ParamsIn.empty {E : String → Prop} : ParamsIn E {} :=
  ⟨fun _ h => (by cases h), fun _ h => (by cases h), fun _ h => (by simp [freeNamesL] at h)⟩

theorem ParamsIn.append {E : String → Prop} {a b : Params} (ha : ParamsIn E a) (hb : ParamsIn E b) : ParamsIn E (a.append b) :=
  ⟨fun x hx => (List.mem_append.1 hx).elim (ha.pos x) (hb.pos x), fun x hx => (List.mem_append.1 hx).elim (ha.kw x) (hb.kw x),
    ha.values.append hb.values⟩

theorem ParamsIn.pos1 {E : String → Prop} {n : String} {a : Expr} (h : NamesIn E a) : ParamsIn E ⟨[⟨n, some a⟩], [], []⟩ :=
  ⟨fun x hx => (by cases List.mem_singleton.1 hx; exact h), fun _ h => (by cases h), fun _ h => (by simp [freeNamesL] at h)⟩

theorem ParamsIn.kw1 {E : String → Prop} {n : String} {a v : Expr} (h : NamesIn E a) (hv : NamesIn E v) :
    ParamsIn E ⟨[], [⟨n, some a⟩], [v]⟩ :=
  ⟨fun _ h => (by cases h), fun x hx => by cases List.mem_singleton.1 hx; exact h,
    fun n hn => hv n (by simpa [freeNamesL] using hn)⟩

theorem scoped_inputFieldParam {c : Ctx} {co : Coercions} {f : InputFieldDef} :
    Scoped c.env S X (inputFieldParam c co f) ParamsIn := by
  unfold inputFieldParam
  refine still_nodeName.scoped.bind fun _ => (scoped_paramAnnotation _).bind fun a => ?_
  split
  · exact .pure fun E ha _ => .pos1 ha
  · exact scoped_unsetUnion.bind fun u => scoped_referenceUnset.bind fun v => .pure fun E hv hu ha _ => .kw1 (hu ha) hv

theorem scoped_inputTypeParams {c : Ctx} {co : Coercions} (fs : List InputFieldDef) :
    Scoped c.env S X (inputTypeParams c co fs) ParamsIn := by
  induction fs with
  | nil => exact .pure fun _ => .empty
  | cons f fs ih =>
    unfold inputTypeParams
    exact scoped_inputFieldParam.bind fun _ => ih.bind fun _ => .pure fun E hb ha => ha.append hb

theorem scoped_extraArgParams (as : List ExtraArg) : Scoped env S X (extraArgParams as) ParamsIn := by
  induction as with
  | nil => exact .pure fun _ => .empty
  | cons a as ih =>
    unfold extraArgParams
    exact (scoped_registerImport rfl).bind fun _ => ih.bind fun _ => .pure fun E hb ha =>
      (ParamsIn.pos1 (namesIn_name ha)).append hb

theorem scoped_extraKwargParams (ks : List ExtraKwarg) (hO : ∀ k ∈ ks, k.default = .none → X "Optional") :
    Scoped env S X (extraKwargParams ks) ParamsIn := by
  induction ks with
  | nil => exact .pure fun _ => .empty
  | cons k ks ih =>
    unfold extraKwargParams
    refine scoped_assumeIf (hO k (List.mem_cons_self ..)) ((scoped_registerImport rfl).bind fun _ =>
      (ih fun k' hk => hO k' (List.mem_cons_of_mem _ hk)).bind fun _ => .pure fun E hb ha ho => ?_)
    refine (ParamsIn.kw1 ?_ fun n hn => ?_).append hb
    · unfold extraKwargAnnotation
      split
      · rename_i hd; exact namesIn_sub (ho hd) (namesIn_name ha)
      · exact namesIn_name ha
    · simp [freeNames] at hn

theorem scoped_expandedParams {c : Ctx} {p : FuncsConfig} (vs : List VarDef) :
    Scoped c.env S X (expandedParams c p vs) ParamsIn := by
  induction vs with
  | nil => exact .pure fun _ => .empty
  | cons v vs ih =>
    unfold expandedParams
    split
    · exact still_wrappedName.scoped.bind fun _ => still_expandedFields.scoped.bind fun _ =>
        (scoped_inputTypeParams _).bind fun _ => ih.bind fun _ => .pure fun E hb ha _ _ => ha.append hb
    · exact ih

theorem scoped_requiredParams {c : Ctx} {p : FuncsConfig} (vs : List VarDef) :
    Scoped c.env S X (requiredParams c p vs) ParamsIn := by
  induction vs with
  | nil => exact .pure fun _ => .empty
  | cons v vs ih =>
    unfold requiredParams
    exact still_parameterName.scoped.bind fun _ => scoped_variableAnnotation.bind fun _ => ih.bind fun _ =>
      .pure fun E hb ha _ => (ParamsIn.pos1 ha).append hb

theorem scoped_optionalParams {c : Ctx} {p : FuncsConfig} (vs : List VarDef) :
    Scoped c.env S X (optionalParams c p vs) ParamsIn := by
  induction vs with
  | nil => exact .pure fun _ => .empty
  | cons v vs ih =>
    unfold optionalParams
    exact still_parameterName.scoped.bind fun _ => scoped_variableAnnotation.bind fun _ => scoped_unsetUnion.bind fun _ =>
      scoped_referenceUnset.bind fun _ => ih.bind fun _ => .pure fun E hb hv hu ha _ => (ParamsIn.kw1 (hu ha) hv).append hb

theorem scoped_generateParameters {c : Ctx} {p : FuncsConfig} {d : FuncDefinition} {o : OpDef}
    (hO : ∀ k ∈ p.kwargsFor d, k.default = .none → X "Optional") :
    Scoped c.env S X (generateParameters c p d o) ParamsIn := by
  unfold generateParameters
  exact (scoped_extraArgParams _).bind fun _ => (scoped_expandedParams _).bind fun _ =>
    (scoped_requiredParams _).bind fun _ => (scoped_optionalParams _).bind fun _ =>
    (scoped_extraKwargParams _ hO).bind fun _ => .pure fun E h5 h4 h3 h2 h1 =>
      (((h1.append h2).append h3).append h4).append h5

/-! ## the bodies: which module-level names they use -/

theorem scoped_unsetBound : Scoped env S X (referenceUnset env) fun E _ => E (unsetName env) :=
  Scoped.of (P := fun _ r' _ => External r' (unsetName env)) (fun _ h => by
    obtain ⟨s, x, e, hx⟩ := soft_marker (by decide) h
    rw [referenceUnset_ok h] at e
    cases e
    exact ⟨s, hx⟩) fun _ _ _ _ h hE => hE _ (.inl h)

theorem scoped_entryStmt {target key param : String} {req : Bool} :
    Scoped env S X (entryStmt env target key param req) fun E _ => req = false → E (unsetName env) := by
  unfold entryStmt
  refine .ite (fun h => .pure fun E hf => ?_) fun _ => ?_
  · rw [h] at hf; cases hf
  · unfold guardedAssign
    exact scoped_unsetBound.bind fun _ => .pure fun E h _ => h

theorem scoped_fieldEntries {target : String} (fs : List InputFieldDef) :
    Scoped env S X (fieldEntries env target fs) fun E _ => (∃ g ∈ fs, ¬ RequiredField g) → E (unsetName env) := by
  induction fs with
  | nil => exact .pure fun E ⟨g, hg, _⟩ => (by cases hg)
  | cons f fs ih =>
    unfold fieldEntries
    refine still_nodeName.scoped.bind fun _ => scoped_entryStmt.bind fun _ => ih.bind fun _ => .pure fun E h2 h1 _ => ?_
    rintro ⟨g, hg, hn⟩
    rcases List.mem_cons.1 hg with rfl | hg
    · refine h1 ?_
      cases hb : g.type.isNonNull with
      | false => rfl
      | true => exact (hn (requiredField_iff.1 hb)).elim
    · exact h2 ⟨g, hg, hn⟩

theorem scoped_variableEntry {c : Ctx} {p : FuncsConfig} {v : VarDef} :
    Scoped c.env S X (variableEntry c p v) fun E _ => (v.name ∉ p.expandInputTypes ∧ ¬ RequiredVar v) ∨
      (v.name ∈ p.expandInputTypes ∧ ∃ fs, FieldsOfVar c.schema v fs ∧ ∃ g ∈ fs, ¬ RequiredField g) →
      E (unsetName c.env) := by
  unfold variableEntry
  refine .ite (fun he => ?_) fun he => ?_
  · have he : v.name ∈ p.expandInputTypes := by simpa using he
    unfold expandedEntry
    refine still_wrappedName.scoped.bindP (V := fun n => n = v.type.base) (fun _ _ _ h => wrappedName_base h) fun n hn => ?_
    subst hn
    refine still_expandedFields.scoped.bindP (V := fun fs => FieldsOfVar c.schema v fs) (fun _ _ _ h => expandedFields_ok h)
      fun fs hfs => ?_
    refine still_parameterName.scoped.bind fun _ => still_emptyDict.scoped.bind fun _ =>
      (scoped_fieldEntries fs).bind fun _ => .pure fun E h _ _ _ _ => ?_
    rintro (⟨h', _⟩ | ⟨_, fs', hfs', hg⟩)
    · exact (h' he).elim
    · obtain ⟨d1, e1⟩ := hfs
      obtain ⟨d2, e2⟩ := hfs'
      rw [e1] at e2
      cases e2
      exact h hg
  · have he : v.name ∉ p.expandInputTypes := by simpa using he
    unfold plainEntry
    refine still_parameterName.scoped.bind fun _ => scoped_entryStmt.bind fun _ => .pure fun E h _ => ?_
    rintro (⟨_, hn⟩ | ⟨h', _⟩)
    · refine h ?_
      cases hb : v.isRequired with
      | false => rfl
      | true => exact (hn (requiredVar_iff.1 hb)).elim
    · exact (he h').elim

theorem scoped_variableAssignments {c : Ctx} {p : FuncsConfig} {o : OpDef} :
    Scoped c.env S X (variableAssignments c p o) fun E _ => UsesUnset c p o → E (unsetName c.env) := by
  have loop : ∀ vs : List VarDef, Scoped c.env S X (variableEntries c p vs) fun E _ =>
      (∃ v ∈ vs, (v.name ∉ p.expandInputTypes ∧ ¬ RequiredVar v) ∨
        (v.name ∈ p.expandInputTypes ∧ ∃ fs, FieldsOfVar c.schema v fs ∧ ∃ g ∈ fs, ¬ RequiredField g)) →
      E (unsetName c.env) := by
    intro vs
    induction vs with
    | nil => exact .pure fun E ⟨g, hg, _⟩ => (by cases hg)
    | cons v vs ih =>
      unfold variableEntries
      refine scoped_variableEntry.bind fun _ => ih.bind fun _ => .pure fun E h2 h1 => ?_
      rintro ⟨w, hw, h⟩
      rcases List.mem_cons.1 hw with rfl | hw
      · exact h1 h
      · exact h2 ⟨w, hw, h⟩
  unfold variableAssignments
  exact still_emptyDict.scoped.bind fun _ => (loop _).bind fun _ => .pure fun E h _ => h

theorem scoped_finalStmt {c : Ctx} {p : FuncsConfig} {d : FuncDefinition} {o : OpDef} {b : Bool} :
    Scoped c.env S X (finalStmt c p d o b) fun E _ => E (lastComponent d.use) := by
  have proxy : Scoped c.env S X (proxyCall c p d o) fun E _ => E (lastComponent d.use) := by
    unfold proxyCall
    exact (scoped_registerImport rfl).bind fun _ => still_operationClassName.scoped.bind fun _ => .pure fun E _ h => h
  unfold finalStmt
  refine proxy.bind fun _ => .ite (fun _ => ?_) fun _ => ?_
  · exact still_collapsedAttr.scoped.bind fun _ => .pure fun E _ h => h
  · exact still_collapsedAttr.scoped.bind fun _ => .pure fun E _ h => h

/-! ## the functions -/

theorem scoped_iteratorImport {d : FuncDefinition} {o : OpDef} :
    Scoped env S X (iteratorImport d o) fun E _ => o.kind = .subscription →
      E (if d.isAsync then "AsyncIterator" else "Iterator") := by
  unfold iteratorImport
  refine .ite (fun _ => ?_) fun h => .pure fun E e => (h (by rw [e]; rfl)).elim
  have : lastComponent (if d.isAsync then "typing.AsyncIterator" else "typing.Iterator") =
      if d.isAsync then "AsyncIterator" else "Iterator" := by
    cases d.isAsync <;> decide +kernel
  exact (scoped_registerImport this).mono fun E _ h _ => h

/-- what defining and calling a function needs, except for the annotation of its result -/
def FuncIn (c : Ctx) (p : FuncsConfig) (d : FuncDefinition) (o : OpDef) (E : String → Prop) (f : Stmt) : Prop :=
  (∀ A, returnsOf f = some (handsBack d o A) → ∀ n ∈ evaluated f, E n ∨ n ∈ freeNames A) ∧
  E (lastComponent d.use) ∧ (UsesUnset c p o → E (unsetName c.env))

theorem handsBack_inj {d : FuncDefinition} {o : OpDef} {A B : Expr} (h : handsBack d o A = handsBack d o B) : A = B := by
  unfold handsBack at h
  cases hk : o.kind <;> rw [hk] at h
  · exact h
  · exact h
  · cases h; rfl

theorem functionReturns_eq {d : FuncDefinition} {o : OpDef} (hk : d.kind = o.kind) (A : Expr) :
    functionReturns d A = handsBack d o A := by
  unfold functionReturns handsBack
  rw [hk]
  cases o.kind <;> rfl

theorem scoped_operationFunc {c : Ctx} {p : FuncsConfig} {d : FuncDefinition} {o : OpDef} (hk : d.kind = o.kind)
    (hO : ∀ k ∈ p.kwargsFor d, k.default = .none → X "Optional") :
    Scoped c.env S X (operationFunc c p d o) (FuncIn c p d o) := by
  unfold operationFunc
  refine still_returnAnnotation.scoped.bind fun ret => still_queryDoc.scoped.bind fun doc =>
    scoped_variableAssignments.bind fun as => scoped_iteratorImport.bind fun _ => (scoped_generateParameters hO).bind fun P =>
    scoped_finalStmt.bind fun fin => .pure fun E hfin hP hit hun _ _ => ⟨fun A hA n hn => ?_, hfin, hun⟩
  rw [functionReturns_eq hk] at hA hn
  simp only [returnsOf, Option.some.injEq] at hA
  have hA := handsBack_inj hA
  subst hA
  simp only [evaluated, freeNamesL, List.nil_append, List.mem_append, List.mem_flatMap] at hn
  rcases hn with (hn | ⟨a, ha, hn⟩) | hn
  · exact .inl (hP.values n hn)
  · rcases ha with ha | ha
    · exact .inl (hP.pos a ha n hn)
    · exact .inl (hP.kw a ha n hn)
  · unfold handsBack at hn
    split at hn
    · rename_i hs
      simp only [freeNamesO, freeNames, List.cons_append, List.nil_append, List.mem_cons] at hn
      rcases hn with rfl | hn
      · exact .inl (hit hs)
      · exact .inr hn
    · exact .inr hn

/-- all functions, each with what it needs -/
theorem scoped_allOperationFuncs {c : Ctx} {p : FuncsConfig} (os : List OpDef)
    (hO : ∀ d ∈ p.definitions, ∀ k ∈ p.kwargsFor d, k.default = .none → X "Optional") :
    Scoped c.env S X (allOperationFuncs c p os) fun E fs => List.Forall₂ (fun x f => FuncIn c p x.2 x.1 E f)
      (os.flatMap fun o => (p.definitions.filter fun d => d.kind == o.kind).map fun d => (o, d)) fs := by
  have inner : ∀ (o : OpDef) (ds : List FuncDefinition), (∀ d ∈ ds, d ∈ p.definitions ∧ d.kind = o.kind) →
      Scoped c.env S X (operationFuncs c p o ds) fun E fs => List.Forall₂ (fun x f => FuncIn c p x.2 x.1 E f)
        (ds.map fun d => (o, d)) fs := by
    intro o ds
    induction ds with
    | nil => exact fun _ => .pure fun _ => .nil
    | cons d ds ih =>
      intro h
      unfold operationFuncs
      obtain ⟨h1, h2⟩ := h d (List.mem_cons_self ..)
      exact (scoped_operationFunc h2 (hO d h1)).bind fun _ => (ih fun d' hd => h d' (List.mem_cons_of_mem _ hd)).bind fun _ =>
        .pure fun E b a => .cons a b
  induction os with
  | nil => exact .pure fun _ => .nil
  | cons o os ih =>
    unfold allOperationFuncs
    refine (inner o _ fun d hd => ?_).bind fun _ => ih.bind fun _ => .pure fun E b a => List.rel_append a b
    unfold FuncsConfig.definitionsFor at hd
    rw [List.mem_filter] at hd
    exact ⟨hd.1, by simpa using hd.2⟩

/-! ## the factories -/

/-- what defining and calling a factory needs -/
def FactoryIn (c : Ctx) (fs : List InputFieldDef) (E : String → Prop) (f : Stmt) : Prop :=
  (∀ n ∈ evaluated f, E n) ∧ (∃ cls, returnsOf f = some (.name cls) ∧ E cls) ∧
    ((∃ g ∈ fs, ¬ RequiredField g) → E (unsetName c.env))

theorem scoped_inputFunc {c : Ctx} {p : InputFuncsConfig} {t : String} {fs : List InputFieldDef} :
    Scoped c.env S X (inputFunc c p t fs) (FactoryIn c fs) := by
  unfold inputFunc
  refine Scoped.bind (P := fun E cls => E cls) ?_ fun cls => ?_
  · constructor
    intro r a r' _ h
    refine ⟨(still_getClass.quiet h).soft, fun E hE => hE _ (.inr (.inl ⟨.input, t, .inr rfl, ?_⟩))⟩
    unfold getClass Dict.get at h
    cases hg : (r.classMap .input).get? t with
    | none => rw [hg] at h; cases h
    | some k => rw [hg] at h; cases h; rfl
  · refine still_parameterName.scoped.bind fun _ => (scoped_inputTypeParams _).bind fun P => Scoped.bind (P := fun _ _ => True) ?_
      fun doc => still_emptyDict.scoped.bind fun _ => (scoped_fieldEntries _).bind fun _ => .pure fun E hu _ _ hP _ hc =>
      ⟨fun n hn => ?_, ⟨cls, rfl, hc⟩, hu⟩
    · exact Still.scoped still_factoryDoc
    · simp only [evaluated, freeNamesL, List.nil_append, List.mem_append, List.mem_flatMap] at hn
      rcases hn with (hn | ⟨a, ha, hn⟩) | hn
      · exact hP.values n hn
      · rcases ha with ha | ha
        · exact hP.pos a ha n hn
        · exact hP.kw a ha n hn
      · simp only [freeNamesO, freeNames, List.mem_singleton] at hn
        exact hn ▸ hc

theorem skipsFactory_soft {p : InputFuncsConfig} {r r' : Reg} (h : Soft r r') (n : String) :
    skipsFactory p r' n = skipsFactory p r n := by
  unfold skipsFactory
  have := h.frame.2 .input
  dsimp only [Reg.classMap] at this
  rw [this]

/-- all factories, each with what it needs -/
theorem factories_in {c : Ctx} {p : InputFuncsConfig} (ts : List InputType) : ∀ {r r' : Reg} {ss : List Stmt},
    Styled c.env r → factories c p ts r = .ok (ss, r') → Soft r r' ∧
    ∀ E : String → Prop, (∀ n, Avail S X r r' n → E n) → List.Forall₂ (fun t f => FactoryIn c t.fields E f)
      (ts.filter fun t => !skipsFactory p r t.name) ss := by
  induction ts with
  | nil =>
    intro r r' ss _ h
    obtain ⟨rfl, rfl⟩ := Gen.pure_ok.1 h
    exact ⟨.refl _, fun _ _ => .nil⟩
  | cons t ts ih =>
    intro r r' ss hs h
    unfold factories at h
    obtain ⟨a, r1, h1, h⟩ := Gen.bind_ok.1 h
    obtain ⟨b, r2, h2, h⟩ := Gen.bind_ok.1 h
    obtain ⟨rfl, rfl⟩ := Gen.pure_ok.1 h
    unfold factoryStep at h1
    split at h1
    · rename_i hk
      cases h1
      rw [List.filter_cons_of_neg (by simp [hk])]
      exact ih hs h2
    · rename_i hk
      split at h1
      · cases h1
      · rename_i s r3 hf
        cases h1
        obtain ⟨s1, q1⟩ := (scoped_inputFunc (S := S) (X := X)).run _ _ _ hs hf
        obtain ⟨s2, q2⟩ := ih (hs.soft s1) h2
        refine ⟨s1.trans s2, fun E hE => ?_⟩
        rw [List.filter_cons_of_pos (by simp [hk])]
        refine .cons (q1 E fun n hn => hE n (hn.mono (.refl _) s2)) ?_
        have := q2 E fun n hn => hE n (hn.mono s1 (.refl _))
        simp only [skipsFactory_soft s1] at this
        exact this

end
end Turms
