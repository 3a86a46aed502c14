import Verif.Lemmas.Funcs

/-! # The funcs plugins only touch imports, helper classes and forward references -/

namespace Turms
open Spec

/-- every run of the generator is quiet -/
structure Still {α : Type} (g : Gen α) : Prop where
  run : ∀ r, Quietly g r fun _ => True

section
variable {α β : Type}

theorem Quietly.still {g : Gen α} {Q : Reg → α → Prop} (h : ∀ r, Quietly g r (Q r)) : Still g :=
  ⟨fun r => (h r).mono fun _ _ => trivial⟩

theorem Still.pure {a : α} : Still (pure a : Gen α) := ⟨fun _ => .pure trivial⟩
theorem Still.fail {e : Err} : Still (Gen.fail e : Gen α) := ⟨fun _ => .fail⟩
theorem Still.lift {x : Except Err α} : Still (Gen.lift x) := ⟨fun _ => .lift fun _ _ => trivial⟩
theorem Still.bind {x : Gen α} {f : α → Gen β} (hx : Still x) (hf : ∀ a, Still (f a)) : Still (x >>= f) :=
  ⟨fun r => (hx.run r).bind fun a r1 _ _ => (hf a).run r1⟩
theorem Still.ite {p : Prop} [Decidable p] {x y : Gen α} (hx : Still x) (hy : Still y) :
    Still (if p then x else y) := by split <;> assumption
theorem Still.quiet {g : Gen α} (h : Still g) {r r' : Reg} {a : α} (hg : g r = .ok (a, r')) : Quiet r r' :=
  (h.run r a r' hg).1
end

theorem still_registerImport {n : String} : Still (registerImport n) := ⟨fun _ => quietly_registerImport⟩
theorem still_registerImports {l : List String} : Still (registerImports l) := ⟨fun _ => quietly_registerImports⟩
theorem still_optionalWrap {o : Bool} {e : Expr} : Still (optionalWrap o e) := Quietly.still fun _ => quietly_optionalWrap
theorem still_nodeName {env : Env} {n : String} : Still (nodeName env n) := .lift
theorem still_parameterName {env : Env} {n : String} : Still (parameterName env n) := .lift
theorem still_referenceScalar {n : String} : Still (referenceScalar n) := Quietly.still fun _ => quietly_referenceScalar
theorem still_reference {env : Env} {k : Kind} {n p : String} {f : Bool} : Still (referenceGeneric env k n p f) := by
  constructor
  intro r a r' h
  unfold referenceGeneric at h
  refine ⟨?_, trivial⟩
  repeat' split at h
  all_goals cases h
  · exact quiet_addForward _ _
  · exact .refl _
theorem still_referenceInput {env : Env} {n p : String} : Still (referenceInput env n p) :=
  ⟨fun _ _ _ h => ⟨(quietly_reference (k := .input) _ _ h).1, trivial⟩⟩
theorem still_referenceEnum {env : Env} {n p : String} {f : Bool} : Still (referenceEnum env n p f) :=
  Quietly.still fun _ => quietly_referenceEnum
theorem still_referenceNamed {env : Env} {n : String} : Still (referenceNamed env n) := ⟨fun _ => quietly_referenceNamed⟩
theorem still_referenceUnset {env : Env} : Still (referenceUnset env) := Quietly.still fun _ => quietly_referenceMarker
theorem still_referenceUnsetType {env : Env} : Still (referenceUnsetType env) :=
  Quietly.still fun _ => quietly_referenceMarker
theorem still_recurseTypeAnnotation {env : Env} {x : Option Expr} {t : TypeNode} {o : Bool} :
    Still (recurseTypeAnnotation env x t o) := ⟨fun _ => quietly_recurseTypeAnnotation _⟩
theorem still_rootTypeOf {s : Schema} {k : OpKind} : Still (rootTypeOf s k) := Quietly.still fun _ => quietly_rootTypeOf

theorem still_getClass {k : Kind} {n : String} : Still (getClass k n) := by
  constructor
  intro r a r' h
  unfold getClass at h
  split at h <;> cases h
  exact ⟨.refl _, trivial⟩

theorem still_operationSingleOf {n : String} : Still (operationSingleOf n) := by
  constructor
  intro r a r' h
  unfold operationSingleOf at h
  cases h
  exact ⟨.refl _, trivial⟩

theorem still_interfaceImpl {f t : String} : Still (getInterfaceFragmentImplementationOrNone f t) := by
  constructor
  intro r a r' h
  unfold getInterfaceFragmentImplementationOrNone at h
  repeat' split at h
  all_goals cases h
  all_goals exact ⟨.refl _, trivial⟩

/-- apply the rules for quiet generators -/
macro "still" : tactic => `(tactic| repeat' (first
  | assumption
  | exact Still.pure
  | exact Still.fail
  | exact still_registerImport
  | exact still_registerImports
  | exact still_optionalWrap
  | exact still_nodeName
  | exact still_parameterName
  | exact still_referenceScalar
  | exact still_reference
  | exact still_referenceInput
  | exact still_referenceEnum
  | exact still_referenceNamed
  | exact still_referenceUnset
  | exact still_referenceUnsetType
  | exact still_recurseTypeAnnotation
  | exact still_rootTypeOf
  | exact still_getClass
  | exact still_operationSingleOf
  | exact still_interfaceImpl
  | exact Still.lift
  | apply Still.bind
  | apply Still.ite
  | intro _
  | split))

section
variable {c : Ctx} {p : FuncsConfig}

theorem still_coercibleInputUnion {e : Expr} {s : String} : Still (coercibleInputUnion e s) := by
  unfold coercibleInputUnion; still

theorem still_paramLeaf {co : Coercions} {n : String} : Still (paramLeaf c co n) := by
  have := @still_coercibleInputUnion
  unfold paramLeaf; still

theorem still_paramAnnotation {co : Coercions} (t : TypeNode) : ∀ {o : Bool}, Still (paramAnnotation c co t o) := by
  induction t with
  | named n => intro o; unfold paramAnnotation; exact still_paramLeaf.bind fun _ => still_optionalWrap
  | list t ih =>
    intro o; unfold paramAnnotation
    exact still_registerImport.bind fun _ => ih.bind fun _ => still_optionalWrap
  | nonNull t ih => intro o; unfold paramAnnotation; exact ih

theorem still_variableAnnotation {env : Env} {co : Coercions} {t : TypeNode} :
    Still (variableAnnotation env co t) := by
  have := @still_coercibleInputUnion
  unfold variableAnnotation; still

theorem still_unsetUnion {env : Env} {a : Expr} : Still (unsetUnion env a) := by unfold unsetUnion; still
theorem still_dictStrAny : Still dictStrAny := by unfold dictStrAny; still

theorem still_inputFieldParam {co : Coercions} {f : InputFieldDef} : Still (inputFieldParam c co f) := by
  unfold inputFieldParam
  refine still_nodeName.bind fun _ => (still_paramAnnotation _).bind fun _ => ?_
  split
  · exact .pure
  · exact still_unsetUnion.bind fun _ => still_referenceUnset.bind fun _ => .pure

theorem still_inputTypeParams {co : Coercions} (fs : List InputFieldDef) : Still (inputTypeParams c co fs) := by
  induction fs with
  | nil => exact .pure
  | cons f fs ih => unfold inputTypeParams; exact still_inputFieldParam.bind fun _ => ih.bind fun _ => .pure

theorem still_extraArgParams (as : List ExtraArg) : Still (extraArgParams as) := by
  induction as with
  | nil => exact .pure
  | cons a as ih => unfold extraArgParams; exact still_registerImport.bind fun _ => ih.bind fun _ => .pure

theorem still_extraKwargParams (as : List ExtraKwarg) : Still (extraKwargParams as) := by
  induction as with
  | nil => exact .pure
  | cons a as ih => unfold extraKwargParams; exact still_registerImport.bind fun _ => ih.bind fun _ => .pure

theorem still_wrappedName {t : TypeNode} : Still (wrappedName t) := by unfold wrappedName; still
theorem still_expandedFields {s : Schema} {n : String} : Still (expandedFields s n) := by unfold expandedFields; still

theorem still_expandedParams (vs : List VarDef) : Still (expandedParams c p vs) := by
  induction vs with
  | nil => exact .pure
  | cons v vs ih =>
    unfold expandedParams
    split
    · exact still_wrappedName.bind fun _ => still_expandedFields.bind fun _ => (still_inputTypeParams _).bind fun _ =>
        ih.bind fun _ => .pure
    · exact ih

theorem still_requiredParams (vs : List VarDef) : Still (requiredParams c p vs) := by
  induction vs with
  | nil => exact .pure
  | cons v vs ih =>
    unfold requiredParams
    exact still_parameterName.bind fun _ => still_variableAnnotation.bind fun _ => ih.bind fun _ => .pure

theorem still_optionalParams (vs : List VarDef) : Still (optionalParams c p vs) := by
  induction vs with
  | nil => exact .pure
  | cons v vs ih =>
    unfold optionalParams
    exact still_parameterName.bind fun _ => still_variableAnnotation.bind fun _ => still_unsetUnion.bind fun _ =>
      still_referenceUnset.bind fun _ => ih.bind fun _ => .pure

theorem still_generateParameters {d : FuncDefinition} {o : OpDef} : Still (generateParameters c p d o) := by
  unfold generateParameters
  exact (still_extraArgParams _).bind fun _ => (still_expandedParams _).bind fun _ =>
    (still_requiredParams _).bind fun _ => (still_optionalParams _).bind fun _ =>
    (still_extraKwargParams _).bind fun _ => .pure

theorem still_entryStmt {env : Env} {t k q : String} {b : Bool} : Still (entryStmt env t k q b) := by
  unfold entryStmt guardedAssign; still

theorem still_emptyDict {n : String} : Still (emptyDict n) := by
  unfold emptyDict; exact still_dictStrAny.bind fun _ => .pure

theorem still_fieldEntries {env : Env} {t : String} (fs : List InputFieldDef) : Still (fieldEntries env t fs) := by
  induction fs with
  | nil => exact .pure
  | cons f fs ih =>
    unfold fieldEntries
    exact still_nodeName.bind fun _ => still_entryStmt.bind fun _ => ih.bind fun _ => .pure

theorem still_variableEntries (vs : List VarDef) : Still (variableEntries c p vs) := by
  induction vs with
  | nil => exact .pure
  | cons v vs ih =>
    unfold variableEntries
    refine Still.bind ?_ fun _ => ih.bind fun _ => .pure
    unfold variableEntry
    split
    · unfold expandedEntry
      exact still_wrappedName.bind fun _ => still_expandedFields.bind fun _ => still_parameterName.bind fun _ =>
        still_emptyDict.bind fun _ => (still_fieldEntries _).bind fun _ => .pure
    · unfold plainEntry
      exact still_parameterName.bind fun _ => still_entryStmt.bind fun _ => .pure

theorem still_variableAssignments {o : OpDef} : Still (variableAssignments c p o) := by
  unfold variableAssignments
  exact still_emptyDict.bind fun _ => (still_variableEntries _).bind fun _ => .pure

theorem still_operationClassName {o : OpDef} : Still (operationClassName c o) := by
  unfold operationClassName; still

theorem still_firstField {o : OpDef} : Still (firstField o) := by unfold firstField; still
theorem still_rootFieldDef {s n : String} : Still (rootFieldDef c s n) := by unfold rootFieldDef; still
theorem still_nameId {e : Expr} : Still (nameId e) := by unfold nameId; still
theorem still_nameOrValue {e : Expr} : Still (nameOrValue e) := by unfold nameOrValue; still

theorem still_collapsedOverwrite {cls k : String} {sub : List Sel} {fd : FieldDef} :
    Still (collapsedOverwrite c cls k sub fd) := by
  unfold collapsedOverwrite
  split
  · exact .pure
  · refine Still.bind ?_ fun _ => .pure
    unfold collapsedFragment
    refine still_interfaceImpl.bind fun i => ?_
    split
    · exact .pure
    · exact still_reference.bind fun _ => still_nameId
  · exact .pure

theorem still_outputNamed {ov : Option String} {n : String} : Still (outputNamed c ov n) := by
  unfold outputNamed; still

theorem still_outputAnnotation {ov : Option String} : ∀ (t : TypeNode) {o : Bool}, Still (outputAnnotation c ov t o)
  | .nonNull (.named n), o => by unfold outputAnnotation; exact .fail
  | .nonNull (.list t), o => by unfold outputAnnotation; exact still_outputAnnotation t
  | .nonNull (.nonNull t), o => by unfold outputAnnotation; exact still_outputAnnotation t
  | .list t, o => by
    unfold outputAnnotation
    exact still_registerImport.bind fun _ => (still_outputAnnotation t).bind fun _ => still_optionalWrap
  | .named n, o => by unfold outputAnnotation; exact still_outputNamed.bind fun _ => still_optionalWrap

theorem still_outputNamedLabel {ov : Option String} {n : String} : Still (outputNamedLabel c ov n) := by
  have := @still_nameId
  unfold outputNamedLabel; still

theorem still_outputLabel {ov : Option String} (t : TypeNode) : ∀ {o : Bool}, Still (outputLabel c ov t o) := by
  induction t with
  | named n => intro o; unfold outputLabel; exact still_outputNamedLabel.bind fun _ => .pure
  | list t ih => intro o; unfold outputLabel; exact ih.bind fun _ => .pure
  | nonNull t ih => intro o; unfold outputLabel; exact ih

theorem still_typeLabel {env : Env} (t : TypeNode) : ∀ {o : Bool}, Still (typeLabel env t o) := by
  induction t with
  | named n =>
    intro o; unfold typeLabel
    exact still_referenceNamed.bind fun _ => still_nameOrValue.bind fun _ => .pure
  | list t ih => intro o; unfold typeLabel; exact ih.bind fun _ => .pure
  | nonNull t ih => intro o; unfold typeLabel; exact ih

theorem still_returnAnnotation {o : OpDef} {b : Bool} : Still (returnAnnotation c o b) := by
  unfold returnAnnotation
  refine still_operationClassName.bind fun _ => still_rootTypeOf.bind fun _ => ?_
  split
  · unfold collapsedReturn
    refine still_operationSingleOf.bind fun s => ?_
    split
    · exact .pure
    · unfold computedReturn
      exact still_firstField.bind fun _ => still_rootFieldDef.bind fun _ => still_collapsedOverwrite.bind fun _ =>
        still_outputAnnotation _
  · exact .pure

theorem still_returnLabel {o : OpDef} {b : Bool} : Still (returnLabel c o b) := by
  unfold returnLabel
  refine still_operationClassName.bind fun _ => still_rootTypeOf.bind fun _ => ?_
  split
  · unfold collapsedLabel
    exact still_firstField.bind fun _ => still_rootFieldDef.bind fun _ => still_collapsedOverwrite.bind fun _ =>
      still_outputLabel _
  · exact .pure

theorem still_describeArgs {fd : Option FieldDef} : ∀ (as : List (String × Value)) {m : Dict String},
    Still (describeArgs fd as m) := by
  intro as
  induction as with
  | nil => intro m; exact .pure
  | cons a as ih =>
    intro m
    obtain ⟨k, v⟩ := a
    cases v with
    | «variable» v =>
      simp only [describeArgs]
      repeat' split
      all_goals first | exact .fail | exact ih
    | _ => simp only [describeArgs]; exact ih

theorem still_estimateVariables {root : String} : ∀ (ss : List Sel) {m : Dict String},
    Still (estimateVariables c root ss m) := by
  intro ss
  induction ss with
  | nil => intro m; exact .pure
  | cons s ss ih =>
    intro m
    cases s with
    | field n a as sub =>
      simp only [estimateVariables]
      refine (still_describeArgs _).bind fun _ => ?_
      split
      · exact .fail
      · exact ih
    | _ => simp only [estimateVariables]; exact ih

theorem still_rootDescriptions {root : String} : ∀ (ss : List Sel) {m : Dict String},
    Still (rootDescriptions c root ss m) := by
  intro ss
  induction ss with
  | nil => intro m; exact .pure
  | cons s ss ih =>
    intro m
    cases s with
    | field n a as sub =>
      simp only [rootDescriptions]
      split
      · exact .fail
      · exact ih
    | _ => simp only [rootDescriptions]; exact ih

theorem still_inputDescription {s : Schema} (t : TypeNode) : Still (inputDescription s t) := by
  induction t with
  | named n => unfold inputDescription; still
  | list t ih => unfold inputDescription; exact ih.bind fun _ => .pure
  | nonNull t ih => unfold inputDescription; exact ih.bind fun _ => .pure

theorem still_inputTypeDescriptions (fs : List InputFieldDef) : Still (inputTypeDescriptions c fs) := by
  induction fs with
  | nil => exact .pure
  | cons f fs ih =>
    unfold inputTypeDescriptions
    refine still_nodeName.bind fun _ => still_parameterName.bind fun _ => Still.bind ?_ fun _ => ih.bind fun _ => .pure
    unfold fieldDescription
    split
    · exact .pure
    · exact still_inputDescription _

theorem still_concatDocs {f : VarDef → Gen String} (hf : ∀ v, Still (f v)) (vs : List VarDef) :
    Still (concatDocs f vs) := by
  induction vs with
  | nil => exact .pure
  | cons v vs ih => unfold concatDocs; exact (hf v).bind fun _ => ih.bind fun _ => .pure

theorem still_queryDoc {d : FuncDefinition} {o : OpDef} {b : Bool} : Still (queryDoc c p d o b) := by
  unfold queryDoc
  refine still_rootTypeOf.bind fun _ => still_returnLabel.bind fun _ => (still_estimateVariables _).bind fun _ =>
    Still.bind ?_ fun _ => (still_concatDocs ?_ _).bind fun _ => (still_concatDocs ?_ _).bind fun _ => .pure
  · unfold docHead
    dsimp only
    refine Still.ite .pure ?_
    exact (still_rootDescriptions _).bind fun _ => .pure
  · intro v
    unfold docRequired
    split
    · exact still_wrappedName.bind fun _ => still_expandedFields.bind fun _ => still_inputTypeDescriptions _
    · split
      · exact still_parameterName.bind fun _ => (still_typeLabel _).bind fun _ => .pure
      · exact .pure
  · intro v
    unfold docOptional
    split
    · exact .pure
    · refine still_parameterName.bind fun _ => (still_typeLabel _).bind fun _ => Still.bind ?_ fun _ => .pure
      unfold docDefault defaultText
      still

theorem still_collapsedAttr {o : OpDef} {b : Bool} {e : Expr} : Still (collapsedAttr c o b e) := by
  unfold collapsedAttr
  split
  · exact still_firstField.bind fun _ => still_nodeName.bind fun _ => .pure
  · exact .pure

theorem still_finalStmt {d : FuncDefinition} {o : OpDef} {b : Bool} : Still (finalStmt c p d o b) := by
  unfold finalStmt
  refine Still.bind ?_ fun _ => ?_
  · unfold proxyCall
    exact still_registerImport.bind fun _ => still_operationClassName.bind fun _ => .pure
  · split
    · exact still_collapsedAttr.bind fun _ => .pure
    · exact still_collapsedAttr.bind fun _ => .pure

theorem still_operationFunc {d : FuncDefinition} {o : OpDef} : Still (operationFunc c p d o) := by
  unfold operationFunc
  refine still_returnAnnotation.bind fun _ => still_queryDoc.bind fun _ => still_variableAssignments.bind fun _ =>
    Still.bind ?_ fun _ => still_generateParameters.bind fun _ => still_finalStmt.bind fun _ => .pure
  unfold iteratorImport; still

theorem still_operationFuncs {o : OpDef} (ds : List FuncDefinition) : Still (operationFuncs c p o ds) := by
  induction ds with
  | nil => exact .pure
  | cons d ds ih => unfold operationFuncs; exact still_operationFunc.bind fun _ => ih.bind fun _ => .pure

theorem still_allOperationFuncs (os : List OpDef) : Still (allOperationFuncs c p os) := by
  induction os with
  | nil => exact .pure
  | cons o os ih => unfold allOperationFuncs; exact (still_operationFuncs _).bind fun _ => ih.bind fun _ => .pure

theorem still_factoryDoc {q : InputFuncsConfig} {cls : String} {fs : List InputFieldDef} : Still (factoryDoc c q cls fs) := by
  unfold factoryDoc
  split
  · exact (still_inputTypeDescriptions _).bind fun _ => .pure
  · exact .pure

theorem still_inputFunc {q : InputFuncsConfig} {n : String} {fs : List InputFieldDef} :
    Still (inputFunc c q n fs) := by
  unfold inputFunc
  exact still_getClass.bind fun _ => still_parameterName.bind fun _ => (still_inputTypeParams _).bind fun _ =>
    still_factoryDoc.bind fun _ => still_emptyDict.bind fun _ => (still_fieldEntries _).bind fun _ => .pure

end

end Turms
