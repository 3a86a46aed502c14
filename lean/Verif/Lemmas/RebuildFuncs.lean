import Verif.Lemmas.RebuildTypes

/-! # Which names are rebuilt at the end of a module: functions and factories -/

set_option linter.unusedSectionVars false

namespace Turms
open Spec

/-- `Fwd` without conditions on the result -/
def F {α : Type} (A : Reg → Prop) (B E : String → Prop) (g : Gen α) : Prop := Fwd A B E True g fun _ => True

/-- what the functions and factories may refer to: enums and inputs that are registered -/
class FnRules (c : outParam Ctx) (A : Reg → Prop) (B E : String → Prop) : Prop where
  stable : Stable A
  enum : ∀ n q, IsEnum c.schema n → F A B E (referenceEnum c.env n q false)
  input : ∀ n, IsInput c.schema n → F A B E (referenceInput c.env n "SHOULD_NOT_BE_USED")

section
variable {α β : Type} {A : Reg → Prop} {B E : String → Prop}
theorem F.calm {g : Gen α} (hs : Stable A) (h : Calm g) : F A B E g := (Fwd.calm hs h).mono (fun _ _ => trivial) id
theorem F.pure {a : α} : F A B E (pure a : Gen α) := Fwd.pure fun _ => trivial
theorem F.fail {e : Err} : F A B E (Gen.fail e : Gen α) := Fwd.fail
theorem F.bind {x : Gen α} {f : α → Gen β} (hx : F A B E x) (hf : ∀ a, F A B E (f a)) : F A B E (x >>= f) :=
  Fwd.thenF hx hf
theorem F.ite {p : Prop} [Decidable p] {x y : Gen α} (hx : F A B E x) (hy : F A B E y) :
    F A B E (if p then x else y) := Fwd.ite (fun _ => hx) fun _ => hy
end

section
variable {α : Type} {A : Reg → Prop} {B E : String → Prop} {c : Ctx} [hc : FnRules c A B E]
include hc
theorem F.lift {x : Except Err α} : F A B E (Gen.lift x) := .calm hc.stable .lift
theorem fn_registerImport {n : String} : F A B E (registerImport n) := .calm hc.stable calm_registerImport
theorem fn_registerImports {l : List String} : F A B E (registerImports l) := .calm hc.stable (calm_registerImports _)
theorem fn_optionalWrap {o : Bool} {e : Expr} : F A B E (optionalWrap o e) := .calm hc.stable calm_optionalWrap
theorem fn_nodeName {env : Env} {n : String} : F A B E (nodeName env n) := .lift
theorem fn_parameterName {env : Env} {n : String} : F A B E (parameterName env n) := .lift
theorem fn_referenceScalar {n : String} : F A B E (referenceScalar n) := .calm hc.stable calm_referenceScalar
theorem fn_reference {env : Env} {k : Kind} {n q : String} : F A B E (referenceGeneric env k n q false) :=
  .calm hc.stable calm_referenceGeneric
theorem fn_referenceUnset {env : Env} : F A B E (referenceUnset env) := .calm hc.stable calm_referenceMarker
theorem fn_referenceUnsetType {env : Env} : F A B E (referenceUnsetType env) := .calm hc.stable calm_referenceMarker
theorem fn_recurseTypeAnnotation {env : Env} {x : Option Expr} {t : TypeNode} {o : Bool}
    (hn : x = none → t.base ∉ builtinNames) : F A B E (recurseTypeAnnotation env x t o) :=
  .calm hc.stable (calm_recurseTypeAnnotation _ hn)
theorem fn_referenceNamed {env : Env} {n : String} (hn : n ∉ builtinNames) : F A B E (referenceNamed env n) :=
  .calm hc.stable (calm_referenceNamed hn)
theorem fn_rootTypeOf {s : Schema} {k : OpKind} : F A B E (rootTypeOf s k) := .calm hc.stable calm_rootTypeOf
theorem fn_getClass {k : Kind} {n : String} : F A B E (getClass k n) := .calm hc.stable calm_getClass
theorem fn_operationSingleOf {n : String} : F A B E (operationSingleOf n) := .calm hc.stable
  (.of_still still_operationSingleOf fun r a r' h => by unfold operationSingleOf at h; cases h; rfl)
theorem fn_interfaceImpl {f t : String} : F A B E (getInterfaceFragmentImplementationOrNone f t) :=
  .calm hc.stable calm_getImpl
end

/-- apply the rules -/
macro "fn" : tactic => `(tactic| repeat' (first
  | assumption
  | exact F.pure
  | exact F.fail
  | exact fn_registerImport
  | exact fn_registerImports
  | exact fn_optionalWrap
  | exact fn_nodeName
  | exact fn_parameterName
  | exact fn_referenceScalar
  | exact fn_reference
  | exact fn_referenceUnset
  | exact fn_referenceUnsetType
  | exact fn_rootTypeOf
  | exact fn_getClass
  | exact fn_operationSingleOf
  | exact fn_interfaceImpl
  | exact F.lift
  | apply F.bind
  | apply F.ite
  | intro _
  | split))

/-- a type whose annotation does not need one of turms' own helper classes -/
def UserType (t : TypeNode) : Prop := t.base ∉ builtinNames

section
variable {A : Reg → Prop} {B E : String → Prop} {c : Ctx} {p : FuncsConfig} [hc : FnRules c A B E]
include hc

theorem fn_coercibleInputUnion {e : Expr} {s : String} : F A B E (coercibleInputUnion e s) := by
  unfold coercibleInputUnion; fn

theorem fn_paramLeaf {co : Coercions} {n : String} : F A B E (paramLeaf c co n) := by
  unfold paramLeaf
  split
  · fn
  · rename_i h
    refine (hc.input _ ⟨_, _, h⟩).bind fun _ => ?_
    split
    · exact fn_coercibleInputUnion
    · exact .pure
  · rename_i h
    exact hc.enum _ _ ⟨_, h⟩
  · exact .fail

theorem fn_paramAnnotation {co : Coercions} (t : TypeNode) : ∀ {o : Bool}, F A B E (paramAnnotation c co t o) := by
  induction t with
  | named n => intro o; unfold paramAnnotation; exact fn_paramLeaf.bind fun _ => fn_optionalWrap
  | list t ih =>
    intro o; unfold paramAnnotation
    exact fn_registerImport.bind fun _ => ih.bind fun _ => fn_optionalWrap
  | nonNull t ih => intro o; unfold paramAnnotation; exact ih

theorem fn_variableAnnotation {co : Coercions} {t : TypeNode} (ht : UserType t)
    (hco : truthy (co.inputs.get? t.base) = true → IsInput c.schema t.base) :
    F A B E (variableAnnotation c.env co t) := by
  unfold variableAnnotation
  refine .ite ?_ ?_
  · exact fn_registerImport.bind fun _ => fn_recurseTypeAnnotation (fun h => by cases h)
  · split
    · rename_i h
      exact (hc.input _ (hco h)).bind fun _ => fn_coercibleInputUnion.bind fun _ =>
        fn_recurseTypeAnnotation (fun h => by cases h)
    · exact fn_recurseTypeAnnotation (fun _ => ht)

/-- the variables have no helper types, and only input types are coerced as inputs -/
def PlainVars (c : Ctx) (p : FuncsConfig) (vs : List VarDef) : Prop :=
  ∀ v ∈ vs, UserType v.type ∧ (truthy (p.co.inputs.get? v.type.base) = true → IsInput c.schema v.type.base)

omit hc in
theorem PlainVars.filter {vs : List VarDef} {f : VarDef → Bool} (h : PlainVars c p vs) : PlainVars c p (vs.filter f) :=
  fun v hv => h v (List.mem_filter.1 hv).1

theorem fn_unsetUnion {env : Env} {a : Expr} : F A B E (unsetUnion env a) := by unfold unsetUnion; fn
theorem fn_dictStrAny : F A B E dictStrAny := by unfold dictStrAny; fn

theorem fn_inputFieldParam {co : Coercions} {f : InputFieldDef} : F A B E (inputFieldParam c co f) := by
  unfold inputFieldParam
  refine fn_nodeName.bind fun _ => (fn_paramAnnotation _).bind fun _ => ?_
  split
  · exact .pure
  · exact fn_unsetUnion.bind fun _ => fn_referenceUnset.bind fun _ => .pure

theorem fn_inputTypeParams {co : Coercions} (fs : List InputFieldDef) : F A B E (inputTypeParams c co fs) := by
  induction fs with
  | nil => exact .pure
  | cons f fs ih => unfold inputTypeParams; exact fn_inputFieldParam.bind fun _ => ih.bind fun _ => .pure

theorem fn_extraArgParams (as : List ExtraArg) : F A B E (extraArgParams as) := by
  induction as with
  | nil => exact .pure
  | cons a as ih => unfold extraArgParams; exact fn_registerImport.bind fun _ => ih.bind fun _ => .pure

theorem fn_extraKwargParams (as : List ExtraKwarg) : F A B E (extraKwargParams as) := by
  induction as with
  | nil => exact .pure
  | cons a as ih => unfold extraKwargParams; exact fn_registerImport.bind fun _ => ih.bind fun _ => .pure

theorem fn_wrappedName {t : TypeNode} : F A B E (wrappedName t) := by unfold wrappedName; fn
theorem fn_expandedFields {s : Schema} {n : String} : F A B E (expandedFields s n) := by unfold expandedFields; fn

theorem fn_expandedParams (vs : List VarDef) : F A B E (expandedParams c p vs) := by
  induction vs with
  | nil => exact .pure
  | cons v vs ih =>
    unfold expandedParams
    split
    · exact fn_wrappedName.bind fun _ => fn_expandedFields.bind fun _ => (fn_inputTypeParams _).bind fun _ =>
        ih.bind fun _ => .pure
    · exact ih

theorem fn_requiredParams (vs : List VarDef) (hv : PlainVars c p vs) : F A B E (requiredParams c p vs) := by
  induction vs with
  | nil => exact .pure
  | cons v vs ih =>
    unfold requiredParams
    exact fn_parameterName.bind fun _ => (fn_variableAnnotation (hv v (List.mem_cons_self ..)).1
      (hv v (List.mem_cons_self ..)).2).bind fun _ => (ih fun v h => hv v (List.mem_cons_of_mem _ h)).bind fun _ => .pure

theorem fn_optionalParams (vs : List VarDef) (hv : PlainVars c p vs) : F A B E (optionalParams c p vs) := by
  induction vs with
  | nil => exact .pure
  | cons v vs ih =>
    unfold optionalParams
    exact fn_parameterName.bind fun _ => (fn_variableAnnotation (hv v (List.mem_cons_self ..)).1
      (hv v (List.mem_cons_self ..)).2).bind fun _ => fn_unsetUnion.bind fun _ =>
      fn_referenceUnset.bind fun _ => (ih fun v h => hv v (List.mem_cons_of_mem _ h)).bind fun _ => .pure

theorem fn_generateParameters {d : FuncDefinition} {o : OpDef} (hv : PlainVars c p o.vars) : F A B E (generateParameters c p d o) := by
  unfold generateParameters
  exact (fn_extraArgParams _).bind fun _ => (fn_expandedParams _).bind fun _ =>
    (fn_requiredParams _ hv.filter.filter).bind fun _ => (fn_optionalParams _ hv.filter).bind fun _ =>
    (fn_extraKwargParams _).bind fun _ => .pure

theorem fn_entryStmt {env : Env} {t k q : String} {b : Bool} : F A B E (entryStmt env t k q b) := by
  unfold entryStmt guardedAssign; fn

theorem fn_emptyDict {n : String} : F A B E (emptyDict n) := by
  unfold emptyDict; exact fn_dictStrAny.bind fun _ => .pure

theorem fn_fieldEntries {env : Env} {t : String} (fs : List InputFieldDef) : F A B E (fieldEntries env t fs) := by
  induction fs with
  | nil => exact .pure
  | cons f fs ih =>
    unfold fieldEntries
    exact fn_nodeName.bind fun _ => fn_entryStmt.bind fun _ => ih.bind fun _ => .pure

theorem fn_variableEntries (vs : List VarDef) : F A B E (variableEntries c p vs) := by
  induction vs with
  | nil => exact .pure
  | cons v vs ih =>
    unfold variableEntries
    refine F.bind ?_ fun _ => ih.bind fun _ => .pure
    unfold variableEntry
    split
    · unfold expandedEntry
      exact fn_wrappedName.bind fun _ => fn_expandedFields.bind fun _ => fn_parameterName.bind fun _ =>
        fn_emptyDict.bind fun _ => (fn_fieldEntries _).bind fun _ => .pure
    · unfold plainEntry
      exact fn_parameterName.bind fun _ => fn_entryStmt.bind fun _ => .pure

theorem fn_variableAssignments {o : OpDef} : F A B E (variableAssignments c p o) := by
  unfold variableAssignments
  exact fn_emptyDict.bind fun _ => (fn_variableEntries _).bind fun _ => .pure

theorem fn_operationClassName {o : OpDef} : F A B E (operationClassName c o) := by
  unfold operationClassName; fn

theorem fn_firstField {o : OpDef} : F A B E (firstField o) := by unfold firstField; fn
theorem fn_rootFieldDef {s n : String} : F A B E (rootFieldDef c s n) := by unfold rootFieldDef; fn
theorem fn_nameId {e : Expr} : F A B E (nameId e) := by unfold nameId; fn
theorem fn_nameOrValue {e : Expr} : F A B E (nameOrValue e) := by unfold nameOrValue; fn

theorem fn_collapsedOverwrite {cls k : String} {sub : List Sel} {fd : FieldDef} :
    F A B E (collapsedOverwrite c cls k sub fd) := by
  unfold collapsedOverwrite
  split
  · exact .pure
  · refine F.bind ?_ fun _ => .pure
    unfold collapsedFragment
    refine fn_interfaceImpl.bind fun i => ?_
    split
    · exact .pure
    · exact fn_reference.bind fun _ => fn_nameId
  · exact .pure

theorem fn_outputNamed {ov : Option String} {n : String} : F A B E (outputNamed c ov n) := by
  unfold outputNamed
  split
  · exact hc.enum _ _ ⟨_, by assumption⟩
  all_goals fn

theorem fn_outputAnnotation {ov : Option String} : ∀ (t : TypeNode) {o : Bool}, F A B E (outputAnnotation c ov t o)
  | .nonNull (.named n), o => by unfold outputAnnotation; exact .fail
  | .nonNull (.list t), o => by unfold outputAnnotation; exact fn_outputAnnotation t
  | .nonNull (.nonNull t), o => by unfold outputAnnotation; exact fn_outputAnnotation t
  | .list t, o => by
    unfold outputAnnotation
    exact fn_registerImport.bind fun _ => (fn_outputAnnotation t).bind fun _ => fn_optionalWrap
  | .named n, o => by unfold outputAnnotation; exact fn_outputNamed.bind fun _ => fn_optionalWrap

theorem fn_outputNamedLabel {ov : Option String} {n : String} : F A B E (outputNamedLabel c ov n) := by
  have := @fn_nameId
  unfold outputNamedLabel
  split
  · exact (hc.enum _ _ ⟨_, by assumption⟩).bind fun _ => fn_nameId
  · exact fn_referenceScalar.bind fun _ => fn_nameId
  all_goals fn

theorem fn_outputLabel {ov : Option String} (t : TypeNode) : ∀ {o : Bool}, F A B E (outputLabel c ov t o) := by
  induction t with
  | named n => intro o; unfold outputLabel; exact fn_outputNamedLabel.bind fun _ => .pure
  | list t ih => intro o; unfold outputLabel; exact ih.bind fun _ => .pure
  | nonNull t ih => intro o; unfold outputLabel; exact ih

theorem fn_typeLabel {env : Env} (t : TypeNode) : UserType t → ∀ {o : Bool}, F A B E (typeLabel env t o) := by
  induction t with
  | named n =>
    intro ht o; unfold typeLabel
    exact (fn_referenceNamed ht).bind fun _ => fn_nameOrValue.bind fun _ => .pure
  | list t ih => intro ht o; unfold typeLabel; exact (ih ht).bind fun _ => .pure
  | nonNull t ih => intro ht o; unfold typeLabel; exact ih ht

theorem fn_returnAnnotation {o : OpDef} {b : Bool} : F A B E (returnAnnotation c o b) := by
  unfold returnAnnotation
  refine fn_operationClassName.bind fun _ => fn_rootTypeOf.bind fun _ => ?_
  split
  · unfold collapsedReturn
    refine fn_operationSingleOf.bind fun s => ?_
    split
    · exact .pure
    · unfold computedReturn
      exact fn_firstField.bind fun _ => fn_rootFieldDef.bind fun _ => fn_collapsedOverwrite.bind fun _ =>
        fn_outputAnnotation _
  · exact .pure

theorem fn_returnLabel {o : OpDef} {b : Bool} : F A B E (returnLabel c o b) := by
  unfold returnLabel
  refine fn_operationClassName.bind fun _ => fn_rootTypeOf.bind fun _ => ?_
  split
  · unfold collapsedLabel
    exact fn_firstField.bind fun _ => fn_rootFieldDef.bind fun _ => fn_collapsedOverwrite.bind fun _ =>
      fn_outputLabel _
  · exact .pure

theorem fn_describeArgs {fd : Option FieldDef} : ∀ (as : List (String × Value)) {m : Dict String},
    F A B E (describeArgs fd as m) := by
  intro as
  induction as with
  | nil => intro m; exact .pure
  | cons a as ih =>
    intro m
    obtain ⟨k, v⟩ := a
    cases v with
    | «variable» v =>
      simp only [describeArgs]
      repeat' split
      all_goals first | exact .fail | exact ih
    | _ => simp only [describeArgs]; exact ih

theorem fn_estimateVariables {root : String} : ∀ (ss : List Sel) {m : Dict String},
    F A B E (estimateVariables c root ss m) := by
  intro ss
  induction ss with
  | nil => intro m; exact .pure
  | cons s ss ih =>
    intro m
    cases s with
    | field n a as sub =>
      simp only [estimateVariables]
      refine (fn_describeArgs _).bind fun _ => ?_
      split
      · exact .fail
      · exact ih
    | _ => simp only [estimateVariables]; exact ih

theorem fn_rootDescriptions {root : String} : ∀ (ss : List Sel) {m : Dict String},
    F A B E (rootDescriptions c root ss m) := by
  intro ss
  induction ss with
  | nil => intro m; exact .pure
  | cons s ss ih =>
    intro m
    cases s with
    | field n a as sub =>
      simp only [rootDescriptions]
      split
      · exact .fail
      · exact ih
    | _ => simp only [rootDescriptions]; exact ih

theorem fn_inputDescription {s : Schema} (t : TypeNode) : F A B E (inputDescription s t) := by
  induction t with
  | named n => unfold inputDescription; fn
  | list t ih => unfold inputDescription; exact ih.bind fun _ => .pure
  | nonNull t ih => unfold inputDescription; exact ih.bind fun _ => .pure

theorem fn_inputTypeDescriptions (fs : List InputFieldDef) : F A B E (inputTypeDescriptions c fs) := by
  induction fs with
  | nil => exact .pure
  | cons f fs ih =>
    unfold inputTypeDescriptions
    refine fn_nodeName.bind fun _ => fn_parameterName.bind fun _ => F.bind ?_ fun _ => ih.bind fun _ => .pure
    unfold fieldDescription
    split
    · exact .pure
    · exact fn_inputDescription _

theorem fn_concatDocs {f : VarDef → Gen String} (vs : List VarDef) (hf : ∀ v ∈ vs, F A B E (f v)) :
    F A B E (concatDocs f vs) := by
  induction vs with
  | nil => exact .pure
  | cons v vs ih => unfold concatDocs; exact (hf v (List.mem_cons_self ..)).bind fun _ =>
    (ih fun v h => hf v (List.mem_cons_of_mem _ h)).bind fun _ => .pure

theorem fn_queryDoc {d : FuncDefinition} {o : OpDef} {b : Bool} (hv : PlainVars c p o.vars) : F A B E (queryDoc c p d o b) := by
  unfold queryDoc
  refine fn_rootTypeOf.bind fun _ => fn_returnLabel.bind fun _ => (fn_estimateVariables _).bind fun _ =>
    F.bind ?_ fun _ => (fn_concatDocs _ ?_).bind fun _ => (fn_concatDocs _ ?_).bind fun _ => .pure
  · unfold docHead
    dsimp only
    refine F.ite .pure ?_
    exact (fn_rootDescriptions _).bind fun _ => .pure
  · intro v hm
    unfold docRequired
    split
    · exact fn_wrappedName.bind fun _ => fn_expandedFields.bind fun _ => fn_inputTypeDescriptions _
    · split
      · exact fn_parameterName.bind fun _ => (fn_typeLabel _ (hv v hm).1).bind fun _ => .pure
      · exact .pure
  · intro v hm
    unfold docOptional
    split
    · exact .pure
    · refine fn_parameterName.bind fun _ => (fn_typeLabel _ (hv v hm).1).bind fun _ => F.bind ?_ fun _ => .pure
      unfold docDefault defaultText
      fn

theorem fn_collapsedAttr {o : OpDef} {b : Bool} {e : Expr} : F A B E (collapsedAttr c o b e) := by
  unfold collapsedAttr
  split
  · exact fn_firstField.bind fun _ => fn_nodeName.bind fun _ => .pure
  · exact .pure

theorem fn_finalStmt {d : FuncDefinition} {o : OpDef} {b : Bool} : F A B E (finalStmt c p d o b) := by
  unfold finalStmt
  refine F.bind ?_ fun _ => ?_
  · unfold proxyCall
    exact fn_registerImport.bind fun _ => fn_operationClassName.bind fun _ => .pure
  · split
    · exact fn_collapsedAttr.bind fun _ => .pure
    · exact fn_collapsedAttr.bind fun _ => .pure

theorem fn_operationFunc {d : FuncDefinition} {o : OpDef} (hv : PlainVars c p o.vars) : F A B E (operationFunc c p d o) := by
  unfold operationFunc
  refine fn_returnAnnotation.bind fun _ => (fn_queryDoc hv).bind fun _ => fn_variableAssignments.bind fun _ =>
    F.bind ?_ fun _ => (fn_generateParameters hv).bind fun _ => fn_finalStmt.bind fun _ => .pure
  unfold iteratorImport; fn

theorem fn_operationFuncs {o : OpDef} (hv : PlainVars c p o.vars) (ds : List FuncDefinition) : F A B E (operationFuncs c p o ds) := by
  induction ds with
  | nil => exact .pure
  | cons d ds ih => unfold operationFuncs; exact (fn_operationFunc hv).bind fun _ => ih.bind fun _ => .pure

theorem fn_allOperationFuncs (os : List OpDef) (hv : ∀ o ∈ os, PlainVars c p o.vars) : F A B E (allOperationFuncs c p os) := by
  induction os with
  | nil => exact .pure
  | cons o os ih => unfold allOperationFuncs; exact (fn_operationFuncs (hv o (List.mem_cons_self ..)) _).bind fun _ =>
    (ih fun o h => hv o (List.mem_cons_of_mem _ h)).bind fun _ => .pure

theorem fn_factoryDoc {q : InputFuncsConfig} {cls : String} {fs : List InputFieldDef} : F A B E (factoryDoc c q cls fs) := by
  unfold factoryDoc
  split
  · exact (fn_inputTypeDescriptions _).bind fun _ => .pure
  · exact .pure

theorem fn_inputFunc {q : InputFuncsConfig} {n : String} {fs : List InputFieldDef} :
    F A B E (inputFunc c q n fs) := by
  unfold inputFunc
  exact fn_getClass.bind fun _ => fn_parameterName.bind fun _ => (fn_inputTypeParams _).bind fun _ =>
    fn_factoryDoc.bind fun _ => fn_emptyDict.bind fun _ => (fn_fieldEntries _).bind fun _ => .pure

theorem fn_factories {q : InputFuncsConfig} (ts : List InputType) : F A B E (factories c q ts) := by
  induction ts with
  | nil => exact .pure
  | cons t ts ih =>
    unfold factories
    refine F.bind ⟨fun r a r' hA h => ?_⟩ fun _ => ih.bind fun _ => .pure
    unfold factoryStep at h
    split at h
    · cases h
      exact ⟨hA, fun _ h => h, fun _ => trivial, fun _ _ n hn => .inl hn⟩
    · split at h
      · cases h
      · rename_i s r1 hf
        cases h
        exact fn_inputFunc.run _ _ _ hA hf

end

/-- the rules for functions, once every enum and input is registered -/
theorem Rules.functions {c : Ctx} {D B E : String → Prop} (hR : Rules c D (Prepared False c E D) B E False)
    (hI : ∀ t m, m = "SHOULD_NOT_BE_USED" → IsInput c.schema t → Kind.input.style c.env t = .ok m → E m) : FnRules c (Prepared False c E D) B E := by
  refine ⟨hR.stable, fun n q hn => (fw_referenceEnum hR.stable (hR.enum n hn)).mono (fun _ _ h => h.elim) id,
    fun n hn => ⟨fun r a r' hA h => ?_⟩⟩
  have hreg := (hA.resolve_left id).2.2.1 n hn
  unfold referenceInput at h
  split at h
  · cases h
  · rename_i m hm
    split at h
    · rename_i hcond
      split at h
      · cases h
      · cases h
        rw [hreg] at hcond
        simp at hcond
        refine ⟨hR.stable _ _ ⟨_, _, _, rfl, fun _ h => h, fun _ h => h, fun _ h => mem_setAdd_left h⟩ hA, fun _ h => h,
          fun _ => trivial, fun _ _ x hx => ?_⟩
        rcases (mem_setAdd _ _ _).1 hx with hx | rfl
        · exact .inl hx
        · exact .inr (hcond ▸ hI n m hcond.symm hn hm)
    · split at h
      · cases h
      · cases h
        exact ⟨hA, fun _ h => h, fun _ => trivial, fun _ _ x hx => .inl hx⟩

end Turms
