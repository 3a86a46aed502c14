import Verif.Lemmas.TwinTypes

/-! # The functions and factories under two settings of the generated models -/

namespace Turms
open Spec

section
variable {c : Ctx} {m : ModelOptions}

local notation "c°" => withOptions c m

theorem blind_dictStrAny : Blind dictStrAny := blind_registerImport.then fun _ => blind_registerImport.then fun _ => .pure rfl
theorem blind_emptyDict {n : String} : Blind (emptyDict n) := blind_dictStrAny.then fun _ => .pure rfl
theorem twin_unsetUnion {a : Expr} : Twin id (unsetUnion c.env a) (unsetUnion (c°).env a) :=
  blind_registerImport.then fun _ => Twin.then blind_referenceMarker fun _ => .pure rfl
theorem twin_referenceUnset : Twin id (referenceUnset c.env) (referenceUnset (c°).env) := blind_referenceMarker
theorem twin_entryStmt {t k p : String} {b : Bool} : Twin id (entryStmt c.env t k p b) (entryStmt (c°).env t k p b) :=
  .ite (.pure rfl) (twin_referenceUnset.then fun _ => .pure rfl)
theorem blind_extraArgParams (l : List ExtraArg) : Blind (extraArgParams l) := by
  induction l with
  | nil => exact Twin.pure rfl
  | cons a l ih => exact blind_registerImport.then fun _ => ih.then fun _ => .pure rfl
theorem blind_extraKwargParams (l : List ExtraKwarg) : Blind (extraKwargParams l) := by
  induction l with
  | nil => exact Twin.pure rfl
  | cons a l ih => exact blind_registerImport.then fun _ => ih.then fun _ => .pure rfl
theorem twin_operationClassName {o : OpDef} : Twin id (operationClassName c o) (operationClassName c° o) := by
  unfold operationClassName
  split
  · exact .fail
  · exact .lift
theorem blind_firstField {o : OpDef} : Blind (firstField o) := by
  unfold firstField
  split
  · exact Twin.pure rfl
  · exact Twin.fail
  · exact Twin.fail
theorem blind_nameId {e : Expr} : Blind (nameId e) := by
  unfold nameId
  split
  · exact Twin.pure rfl
  · exact Twin.fail
theorem blind_nameOrValue {e : Expr} : Blind (nameOrValue e) := by
  unfold nameOrValue
  split
  · exact Twin.pure rfl
  · exact Twin.pure rfl
  · exact Twin.fail
theorem twin_collapsedFragment {f t : String} : Twin id (collapsedFragment c f t) (collapsedFragment c° f t) := by
  unfold collapsedFragment
  refine blind_interfaceImpl.then fun x => ?_
  split
  · exact .pure rfl
  · exact Twin.then blind_referenceGeneric fun _ => blind_nameId
theorem twin_collapsedOverwrite {cls k : String} {sub : List Sel} {fd : FieldDef} :
    Twin id (collapsedOverwrite c cls k sub fd) (collapsedOverwrite c° cls k sub fd) := by
  unfold collapsedOverwrite
  split
  · exact .pure rfl
  · exact twin_collapsedFragment.then fun _ => .pure rfl
  · exact .pure rfl
theorem twin_collapsedAttr {o : OpDef} {b : Bool} {e : Expr} : Twin id (collapsedAttr c o b e) (collapsedAttr c° o b e) := by
  unfold collapsedAttr
  exact .ite (blind_firstField.then fun _ => twin_nodeName.then fun _ => .pure rfl) (.pure rfl)
theorem twin_finalStmt {p : FuncsConfig} {d : FuncDefinition} {o : OpDef} {b : Bool} :
    Twin id (finalStmt c p d o b) (finalStmt c° p d o b) := by
  unfold finalStmt proxyCall
  exact (blind_registerImport.then fun _ => twin_operationClassName.then fun _ => .pure rfl).then fun _ =>
    .ite (twin_collapsedAttr.then fun _ => .pure rfl) (twin_collapsedAttr.then fun _ => .pure rfl)

theorem blind_describeArgs {fd : Option FieldDef} (as : List (String × Value)) :
    ∀ {d : Dict String}, Blind (describeArgs fd as d) := by
  induction as with
  | nil => intro d; exact Twin.pure rfl
  | cons a as ih =>
    intro d
    obtain ⟨k, v⟩ := a
    cases v
    case «variable» x =>
      unfold describeArgs
      cases fd with
      | none => exact Twin.fail
      | some f =>
        dsimp only
        split
        · exact .ite ih ih
        · exact ih
    all_goals unfold describeArgs; exact ih

theorem twin_estimateVariables {root : String} (ss : List Sel) : ∀ {d : Dict String},
    Twin id (estimateVariables c root ss d) (estimateVariables c° root ss d) := by
  induction ss with
  | nil => intro d; exact .pure rfl
  | cons s ss ih =>
    intro d
    cases s with
    | spread f => unfold estimateVariables; exact ih
    | inline t sub => unfold estimateVariables; exact ih
    | field a b d e => unfold estimateVariables; exact Twin.then (blind_describeArgs _) fun _ => .ite .fail ih

theorem twin_rootDescriptions {root : String} (ss : List Sel) : ∀ {d : Dict String},
    Twin id (rootDescriptions c root ss d) (rootDescriptions c° root ss d) := by
  induction ss with
  | nil => intro d; exact .pure rfl
  | cons s ss ih =>
    intro d
    cases s with
    | spread f => unfold rootDescriptions; exact ih
    | inline t sub => unfold rootDescriptions; exact ih
    | field a b d e =>
      unfold rootDescriptions
      have hs : (withOptions c m).schema = c.schema := rfl
      simp only [hs]
      split
      · exact .fail
      · exact ih

theorem twin_rootFieldDef {root n : String} : Twin id (rootFieldDef c root n) (rootFieldDef c° root n) := by
  show Blind (rootFieldDef c root n)
  unfold rootFieldDef
  split
  · exact Twin.pure rfl
  · exact Twin.fail

theorem twin_outputNamed {ov : Option String} {n : String} : Twin id (outputNamed c ov n) (outputNamed c° ov n) := by
  unfold outputNamed
  have hs : (withOptions c m).schema = c.schema := rfl
  simp only [hs]
  split <;> first
    | exact blind_referenceScalar
    | exact blind_referenceEnum
    | exact .fail
    | exact .ite (.pure rfl) .fail

theorem twin_outputNamedLabel {ov : Option String} {n : String} :
    Twin id (outputNamedLabel c ov n) (outputNamedLabel c° ov n) := by
  unfold outputNamedLabel
  have hs : (withOptions c m).schema = c.schema := rfl
  simp only [hs]
  split <;> first
    | exact blind_referenceScalar.then fun _ => blind_nameId
    | exact Twin.then blind_referenceEnum fun _ => blind_nameId
    | exact .fail
    | exact .ite (.pure rfl) .fail

theorem twin_outputAnnotation {ov : Option String} : ∀ (t : TypeNode) {o : Bool},
    Twin id (outputAnnotation c ov t o) (outputAnnotation c° ov t o)
  | .named n, o => by
    unfold outputAnnotation
    exact twin_outputNamed.then fun _ => blind_optionalWrap
  | .list t, o => by
    unfold outputAnnotation
    exact blind_registerImport.then fun _ => (twin_outputAnnotation t).then fun _ => blind_optionalWrap
  | .nonNull (.named n), o => by unfold outputAnnotation; exact .fail
  | .nonNull (.list t), o => by unfold outputAnnotation; exact twin_outputAnnotation t
  | .nonNull (.nonNull t), o => by unfold outputAnnotation; exact twin_outputAnnotation t

theorem twin_outputLabel {ov : Option String} (t : TypeNode) : ∀ {o : Bool},
    Twin id (outputLabel c ov t o) (outputLabel c° ov t o) := by
  induction t with
  | named n => intro o; unfold outputLabel; exact twin_outputNamedLabel.then fun _ => .pure rfl
  | list t ih => intro o; unfold outputLabel; exact ih.then fun _ => .pure rfl
  | nonNull t ih => intro o; unfold outputLabel; exact ih

theorem twin_typeLabel (t : TypeNode) : ∀ {o : Bool}, Twin id (typeLabel c.env t o) (typeLabel (c°).env t o) := by
  induction t with
  | named n =>
    intro o; unfold typeLabel
    exact Twin.then blind_referenceNamed fun _ => blind_nameOrValue.then fun _ => .pure rfl
  | list t ih => intro o; unfold typeLabel; exact ih.then fun _ => .pure rfl
  | nonNull t ih => intro o; unfold typeLabel; exact ih

theorem get?_map {α β : Type} (f : α → β) (l : Dict α) (k : String) :
    Dict.get? (l.map fun p => (p.1, f p.2)) k = (l.get? k).map f := by
  induction l with
  | nil => rfl
  | cons p l ih =>
    obtain ⟨k', v⟩ := p
    simp only [Dict.get?, List.map_cons] at *
    split
    · rfl
    · exact ih

theorem twin_operationSingleOf {n : String} : Twin (Option.map annotationShape) (operationSingleOf n) (operationSingleOf n) := by
  blind
  unfold operationSingleOf
  have h := congrArg (fun d => Dict.get? d n) ho
  simp only [get?_map] at h
  simp only [seen, core, hi, ho, h]

theorem twin_returnAnnotation {o : OpDef} {b : Bool} :
    Twin annotationShape (returnAnnotation c o b) (returnAnnotation c° o b) := by
  unfold returnAnnotation
  refine twin_operationClassName.then fun _ => Twin.then blind_rootTypeOf fun _ => .ite ?_ (.pure rfl)
  unfold collapsedReturn
  refine twin_operationSingleOf.bind fun x x' hx => ?_
  cases x with
  | none =>
    cases x' with
    | some y => cases hx
    | none =>
      unfold computedReturn
      exact blind_firstField.then fun _ => twin_rootFieldDef.then fun _ => twin_collapsedOverwrite.then fun _ =>
        (twin_outputAnnotation _).see
  | some a =>
    cases x' with
    | none => cases hx
    | some a' => exact .pure (Option.some.inj hx)

theorem twin_returnLabel {o : OpDef} {b : Bool} : Twin id (returnLabel c o b) (returnLabel c° o b) := by
  unfold returnLabel
  refine twin_operationClassName.then fun _ => Twin.then blind_rootTypeOf fun _ => .ite ?_ (.pure rfl)
  unfold collapsedLabel
  exact blind_firstField.then fun _ => twin_rootFieldDef.then fun _ => twin_collapsedOverwrite.then fun _ => twin_outputLabel _

theorem twin_concatDocs {f f' : VarDef → Gen String} (vs : List VarDef) (h : ∀ v, Twin id (f v) (f' v)) :
    Twin id (concatDocs f vs) (concatDocs f' vs) := by
  induction vs with
  | nil => exact .pure rfl
  | cons v vs ih =>
    unfold concatDocs
    exact (h v).then fun _ => ih.then fun _ => .pure rfl

theorem blind_wrappedName {t : TypeNode} : Blind (wrappedName t) := by
  unfold wrappedName
  split <;> first | exact Twin.pure rfl | exact Twin.fail

theorem blind_expandedFields {s : Schema} {n : String} : Blind (expandedFields s n) := by
  unfold expandedFields
  split <;> first | exact Twin.pure rfl | exact Twin.fail

theorem blind_coercibleInputUnion {e : Expr} {x : String} : Blind (coercibleInputUnion e x) :=
  blind_registerImport.then fun _ => blind_registerImport.then fun _ => .pure rfl

theorem twin_paramAnnotation {co : Coercions} (t : TypeNode) : ∀ {o : Bool},
    Twin id (paramAnnotation c co t o) (paramAnnotation c° co t o) := by
  induction t with
  | named n =>
    intro o; unfold paramAnnotation
    refine Twin.then ?_ fun _ => blind_optionalWrap
    unfold paramLeaf
    have hs : (withOptions c m).schema = c.schema := rfl
    simp only [hs]
    split
    · split
      · exact blind_registerImport.then fun _ => .pure rfl
      · exact blind_referenceScalar
    · refine Twin.then blind_referenceInput fun _ => ?_
      split
      · exact blind_coercibleInputUnion
      · exact .pure rfl
    · exact blind_referenceEnum
    · exact .fail
  | list t ih =>
    intro o; unfold paramAnnotation
    exact blind_registerImport.then fun _ => ih.then fun _ => blind_optionalWrap
  | nonNull t ih => intro o; unfold paramAnnotation; exact ih

theorem twin_inputTypeParams {co : Coercions} (fs : List InputFieldDef) :
    Twin id (inputTypeParams c co fs) (inputTypeParams c° co fs) := by
  induction fs with
  | nil => exact .pure rfl
  | cons f fs ih =>
    unfold inputTypeParams
    refine Twin.then ?_ fun _ => ih.then fun _ => .pure rfl
    unfold inputFieldParam
    exact twin_nodeName.then fun _ => (twin_paramAnnotation _).then fun _ => .ite (.pure rfl)
      (twin_unsetUnion.then fun _ => twin_referenceUnset.then fun _ => .pure rfl)

theorem twin_fieldEntries {t : String} (fs : List InputFieldDef) :
    Twin id (fieldEntries c.env t fs) (fieldEntries (c°).env t fs) := by
  induction fs with
  | nil => exact .pure rfl
  | cons f fs ih =>
    unfold fieldEntries
    exact twin_nodeName.then fun _ => twin_entryStmt.then fun _ => ih.then fun _ => .pure rfl

theorem blind_inputDescription {s : Schema} (t : TypeNode) : Blind (inputDescription s t) := by
  induction t with
  | named n =>
    unfold inputDescription
    split <;> first | exact Twin.pure rfl | exact Twin.fail
  | list t ih => unfold inputDescription; exact ih.then fun _ => .pure rfl
  | nonNull t ih => unfold inputDescription; exact ih.then fun _ => .pure rfl

theorem twin_inputTypeDescriptions (fs : List InputFieldDef) :
    Twin id (inputTypeDescriptions c fs) (inputTypeDescriptions c° fs) := by
  induction fs with
  | nil => exact .pure rfl
  | cons f fs ih =>
    unfold inputTypeDescriptions
    refine twin_nodeName.then fun _ => twin_parameterName.then fun _ => Twin.then ?_ fun _ => ih.then fun _ => .pure rfl
    unfold fieldDescription
    exact .ite (.pure rfl) (blind_inputDescription _)

variable {p : FuncsConfig}

theorem twin_queryDoc {d : FuncDefinition} {o : OpDef} {b : Bool} : Twin id (queryDoc c p d o b) (queryDoc c° p d o b) := by
  unfold queryDoc
  refine Twin.then blind_rootTypeOf fun _ => twin_returnLabel.then fun _ => (twin_estimateVariables _).then fun _ =>
    Twin.then ?_ fun _ => (twin_concatDocs _ fun v => ?_).then fun _ => (twin_concatDocs _ fun v => ?_).then fun _ => .pure rfl
  · unfold docHead
    exact .ite (.pure rfl) ((twin_rootDescriptions _).then fun _ => .pure rfl)
  · unfold docRequired
    exact .ite (blind_wrappedName.then fun _ => Twin.then blind_expandedFields fun _ => twin_inputTypeDescriptions _)
      (.ite (twin_parameterName.then fun _ => (twin_typeLabel _).then fun _ => .pure rfl) (.pure rfl))
  · unfold docOptional
    refine .ite (.pure rfl) (twin_parameterName.then fun _ => (twin_typeLabel _).then fun _ => Twin.then ?_ fun _ => .pure rfl)
    unfold docDefault
    split
    · exact .pure rfl
    · refine Twin.then ?_ fun _ => .pure rfl
      unfold defaultText
      split <;> first | exact .pure rfl | exact .fail

theorem twin_variableEntries (vs : List VarDef) : Twin id (variableEntries c p vs) (variableEntries c° p vs) := by
  induction vs with
  | nil => exact .pure rfl
  | cons v vs ih =>
    unfold variableEntries
    refine Twin.then ?_ fun _ => ih.then fun _ => .pure rfl
    unfold variableEntry
    exact .ite (blind_wrappedName.then fun _ => Twin.then blind_expandedFields fun _ => twin_parameterName.then fun _ =>
        blind_emptyDict.then fun _ => (twin_fieldEntries _).then fun _ => .pure rfl)
        (twin_parameterName.then fun _ => twin_entryStmt.then fun _ => .pure rfl)

theorem twin_expandedParams (vs : List VarDef) : Twin id (expandedParams c p vs) (expandedParams c° p vs) := by
  induction vs with
  | nil => exact .pure rfl
  | cons v vs ih =>
    unfold expandedParams
    exact .ite (blind_wrappedName.then fun _ => Twin.then blind_expandedFields fun _ =>
        (twin_inputTypeParams _).then fun _ => ih.then fun _ => .pure rfl) ih

theorem twin_variableAnnotation {co : Coercions} {t : TypeNode} :
    Twin id (variableAnnotation c.env co t) (variableAnnotation (c°).env co t) := by
  unfold variableAnnotation
  exact .ite (blind_registerImport.then fun _ => twin_recurse)
    (.ite (Twin.then blind_referenceInput fun _ => blind_coercibleInputUnion.then fun _ => twin_recurse) twin_recurse)

theorem twin_requiredParams (vs : List VarDef) : Twin id (requiredParams c p vs) (requiredParams c° p vs) := by
  induction vs with
  | nil => exact .pure rfl
  | cons v vs ih =>
    unfold requiredParams
    exact twin_parameterName.then fun _ => twin_variableAnnotation.then fun _ => ih.then fun _ => .pure rfl

theorem twin_optionalParams (vs : List VarDef) : Twin id (optionalParams c p vs) (optionalParams c° p vs) := by
  induction vs with
  | nil => exact .pure rfl
  | cons v vs ih =>
    unfold optionalParams
    exact twin_parameterName.then fun _ => twin_variableAnnotation.then fun _ => twin_unsetUnion.then fun _ =>
      twin_referenceUnset.then fun _ => ih.then fun _ => .pure rfl

theorem twin_operationFunc {d : FuncDefinition} {o : OpDef} : Twin shape (operationFunc c p d o) (operationFunc c° p d o) := by
  unfold operationFunc
  refine twin_returnAnnotation.bind fun a a' ha => twin_queryDoc.then fun _ => Twin.then ?_ fun _ =>
    Twin.then ?_ fun _ => Twin.then ?_ fun _ => twin_finalStmt.then fun _ => .pure ?_
  · exact blind_emptyDict.then fun _ => (twin_variableEntries _).then fun _ => .pure rfl
  · unfold iteratorImport
    exact .ite blind_registerImport (.pure rfl)
  · unfold generateParameters
    exact (blind_extraArgParams _).then fun _ => (twin_expandedParams _).then fun _ =>
      (twin_requiredParams _).then fun _ => (twin_optionalParams _).then fun _ =>
      (blind_extraKwargParams _).then fun _ => .pure rfl
  · simp only [shape, Option.map_some]
    congr 2
    unfold functionReturns
    split
    · rw [annotationShape_sub (by split <;> decide), annotationShape_sub (by split <;> decide), ha]
    · exact ha

theorem twin_funcsPlugin {d : Document} : Twin shapes (funcsPlugin c p d) (funcsPlugin c° p d) := by
  unfold funcsPlugin
  generalize operationsOf d = os
  induction os with
  | nil => exact .pure rfl
  | cons o os ih =>
    unfold allOperationFuncs
    refine Twin.bind (φ := shapes) ?_ fun _ _ h => ih.bind fun _ _ h' => .pure (by rw [shapes_append, shapes_append, h, h'])
    generalize p.definitionsFor o = ds
    induction ds with
    | nil => exact .pure rfl
    | cons d ds ih =>
      unfold operationFuncs
      exact twin_operationFunc.bind fun _ _ h => ih.bind fun _ _ h' => .pure (by rw [shapes_cons, shapes_cons, h, h'])

theorem twin_inputFunc {p : InputFuncsConfig} {t : String} {fs : List InputFieldDef} :
    Twin id (inputFunc c p t fs) (inputFunc c° p t fs) := by
  unfold inputFunc
  refine blind_getClass.then fun _ => twin_parameterName.then fun _ => (twin_inputTypeParams _).then fun _ =>
    Twin.then ?_ fun _ => blind_emptyDict.then fun _ => (twin_fieldEntries _).then fun _ => .pure rfl
  unfold factoryDoc
  exact .ite ((twin_inputTypeDescriptions _).then fun _ => .pure rfl) (.pure rfl)

theorem twin_factoryStep {p : InputFuncsConfig} {t : InputType} : Twin id (factoryStep c p t) (factoryStep c° p t) :=
  ⟨fun r r' hr => by
  have h := (twin_inputFunc (c := c) (m := m) (p := p) (t := t.name) (fs := t.fields)).run r r' hr
  have hk : skipsFactory p r' t.name = skipsFactory p r t.name := by
    obtain ⟨i, o, rfl, hi, ho⟩ := core_cases hr; rfl
  unfold factoryStep
  rw [hk]
  split
  · show Except.ok (_, core r) = .ok (_, core r'); rw [hr]
  · follow (inputFunc c p t.name t.fields r), (inputFunc c° p t.name t.fields r'), h⟩

theorem twin_inputFuncsPlugin {p : InputFuncsConfig} : Twin id (inputFuncsPlugin c p) (inputFuncsPlugin c° p) := by
  unfold inputFuncsPlugin
  show Twin id _ (factories c° p (inputTypes c.schema))
  generalize inputTypes c.schema = ts
  induction ts with
  | nil => exact .pure rfl
  | cons t ts ih =>
    unfold factories
    exact twin_factoryStep.then fun _ => ih.then fun _ => .pure rfl
end

end Turms
