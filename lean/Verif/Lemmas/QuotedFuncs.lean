import Verif.Lemmas.QuotedTypes
import Verif.Lemmas.ScopeFuncs

/-! # Which names the generated functions quote -/

namespace Turms
open Spec

theorem Still.quotes {α : Type} {B : String → Prop} {g : Gen α} (h : Still g) : Quotes B g fun _ => True :=
  ⟨fun _ _ _ hg => ⟨(h.quiet hg).soft.builtins, fun _ => trivial⟩⟩

/-- every parameter quotes names of the set -/
def QArgs (E : String → Prop) (as : List Arg) : Prop := ∀ a ∈ as, ∀ n ∈ quotedO a.annotation, E n

/-- of the parameters with and without default -/
structure QParams (E : String → Prop) (P : Params) : Prop where
  pos : QArgs E P.pos
  kw : QArgs E P.kw

section
variable {B E : String → Prop} {c : Ctx}

theorem QParams.nil : QParams E {} := ⟨fun a ha => (by cases ha), fun a ha => by cases ha⟩

theorem QParams.append {P Q : Params} (hp : QParams E P) (hq : QParams E Q) : QParams E (P.append Q) :=
  ⟨fun a ha => (List.mem_append.1 ha).elim (hp.pos a) (hq.pos a),
   fun a ha => (List.mem_append.1 ha).elim (hp.kw a) (hq.kw a)⟩

theorem QParams.pos1 {n : String} {x : Expr} (h : QIn E x) : QParams E { pos := [⟨n, some x⟩] } :=
  ⟨fun a ha => by cases List.mem_singleton.1 ha; exact h, fun a ha => by cases ha⟩

theorem QParams.kw1 {n : String} {x : Expr} {vs : List Expr} (h : QIn E x) :
    QParams E { kw := [⟨n, some x⟩], values := vs } :=
  ⟨fun a ha => (by cases ha), fun a ha => by cases List.mem_singleton.1 ha; exact h⟩

theorem q_typeAnnotationOf (x : Expr) (hx : QIn E x) (t : TypeNode) : ∀ {o : Bool},
    Quotes B (recurseTypeAnnotation c.env (some x) t o) (QIn E) := by
  induction t with
  | named n =>
    intro o
    unfold recurseTypeAnnotation namedOr
    exact (Quotes.pure hx).bind fun x => q_optionalWrap
  | list t ih =>
    intro o
    unfold recurseTypeAnnotation
    exact q_registerImport.then fun _ => ih.bind fun x => (q_optionalWrap (E := E)).mono fun e he hx => he (qin_sub hx)
  | nonNull t ih => intro o; unfold recurseTypeAnnotation; exact ih

theorem q_coercibleInputUnion {x : Expr} {p : String} :
    Quotes B (coercibleInputUnion x p) fun e => QIn E x → QIn E e := by
  unfold coercibleInputUnion
  exact q_registerImport.then fun _ => q_registerImport.then fun _ => .pure fun hx =>
    qin_sub (qin_tuple (qinL_cons hx (qinL_cons qin_name qinL_nil)))

theorem q_paramLeaf (hI : InputQuotable c B E) {co : Coercions} {n : String} : Quotes B (paramLeaf c co n) (QIn E) := by
  unfold paramLeaf
  split
  · split
    · exact q_registerImport.then fun _ => .pure qin_name
    · exact q_referenceScalar
  · rename_i fs ds hl
    refine (q_referenceInput fun _ m hm => hI.input n m ⟨fs, ds, hl⟩ hm).bind fun x => ?_
    split
    · exact q_coercibleInputUnion
    · exact .pure id
  · rename_i vs hl
    exact q_referenceEnum hI.builtin fun _ hb m hm => hI.enum n m ⟨vs, hl⟩ hb hm
  · exact .fail

theorem q_paramAnnotation (hI : InputQuotable c B E) {co : Coercions} (t : TypeNode) : ∀ {o : Bool},
    Quotes B (paramAnnotation c co t o) (QIn E) := by
  induction t with
  | named n => intro o; unfold paramAnnotation; exact (q_paramLeaf hI).bind fun x => q_optionalWrap
  | nonNull t ih => intro o; unfold paramAnnotation; exact ih
  | list t ih =>
    intro o
    unfold paramAnnotation
    exact q_registerImport.then fun _ => ih.bind fun x => (q_optionalWrap (E := E)).mono fun e he hx => he (qin_sub hx)

theorem q_variableAnnotation (hI : InputQuotable c B E) {co : Coercions} {t : TypeNode}
    (hco : ∀ n p, co.inputs.get? n = some p → IsInput c.schema n) :
    Quotes B (variableAnnotation c.env co t) (QIn E) := by
  unfold variableAnnotation
  refine .ite (fun _ => q_registerImport.then fun _ => q_typeAnnotationOf _ qin_name t) fun _ => .ite (fun h => ?_) fun _ =>
    q_recurseTypeAnnotation (S := fun _ => False) ⟨hI.builtin, hI.enum, fun _ _ h => h.elim⟩ t
  have hin : IsInput c.schema t.base := by
    cases hg : co.inputs.get? t.base with
    | none => rw [hg] at h; cases h
    | some p => exact hco _ _ hg
  refine (q_referenceInput (E := E) fun _ m hm => hI.input _ m hin hm).bind fun x => ?_
  refine (q_coercibleInputUnion (E := E)).bind fun u => ⟨fun r a r' h => ?_⟩
  refine ⟨((still_recurseTypeAnnotation (env := c.env)).quiet h).soft.builtins, fun hB hu hx => ?_⟩
  exact ((q_typeAnnotationOf (B := B) u (hu hx) t).run _ _ _ h).2 hB

theorem q_unsetUnion {env : Env} {a : Expr} : Quotes B (unsetUnion env a) fun e => QIn E a → QIn E e := by
  constructor
  intro r e r' h
  refine ⟨(still_unsetUnion.quiet h).soft.builtins, fun _ ha => ?_⟩
  unfold unsetUnion at h
  obtain ⟨_, r1, _, h⟩ := Gen.bind_ok.1 h
  obtain ⟨u, r2, hu, h⟩ := Gen.bind_ok.1 h
  obtain ⟨rfl, rfl⟩ := Gen.pure_ok.1 h
  have : ∃ n, u = .name n := by
    unfold referenceUnsetType referenceMarker at hu
    split at hu <;> (repeat' split at hu) <;> cases hu <;> exact ⟨_, rfl⟩
  obtain ⟨n, rfl⟩ := this
  exact qin_sub (qin_tuple (qinL_cons ha (qinL_cons qin_name qinL_nil)))

theorem q_inputFieldParam (hI : InputQuotable c B E) {co : Coercions} {f : InputFieldDef} :
    Quotes B (inputFieldParam c co f) (QParams E) := by
  unfold inputFieldParam
  exact q_nodeName.then fun n => (q_paramAnnotation hI _).bind fun a => .ite (fun _ => .pure .pos1) fun _ =>
    (q_unsetUnion (E := E)).bind fun u => still_referenceUnset.quotes.then fun v => .pure fun hu ha => .kw1 (hu ha)

theorem q_inputTypeParams (hI : InputQuotable c B E) {co : Coercions} (fs : List InputFieldDef) :
    Quotes B (inputTypeParams c co fs) (QParams E) := by
  induction fs with
  | nil => exact .pure .nil
  | cons f fs ih =>
    unfold inputTypeParams
    exact (q_inputFieldParam hI).bind fun a => ih.bind fun b => .pure fun hb ha => ha.append hb

theorem q_extraArgParams (l : List ExtraArg) : Quotes B (extraArgParams l) (QParams E) := by
  induction l with
  | nil => exact .pure .nil
  | cons a l ih =>
    unfold extraArgParams
    exact q_registerImport.then fun _ => ih.bind fun b => .pure fun hb => QParams.append (.pos1 qin_name) hb

theorem q_extraKwargParams (l : List ExtraKwarg) : Quotes B (extraKwargParams l) (QParams E) := by
  induction l with
  | nil => exact .pure .nil
  | cons k l ih =>
    unfold extraKwargParams
    refine q_registerImport.then fun _ => ih.bind fun b => .pure fun hb => QParams.append (.kw1 ?_) hb
    unfold extraKwargAnnotation
    split
    · exact qin_sub qin_name
    · exact qin_name

theorem q_expandedParams (hI : InputQuotable c B E) {p : FuncsConfig} (vs : List VarDef) :
    Quotes B (expandedParams c p vs) (QParams E) := by
  induction vs with
  | nil => exact .pure .nil
  | cons v vs ih =>
    unfold expandedParams
    exact .ite (fun _ => still_wrappedName.quotes.then fun _ => still_expandedFields.quotes.then fun fs =>
      (q_inputTypeParams hI fs).bind fun a => ih.bind fun b => .pure fun hb ha => ha.append hb) fun _ => ih

theorem q_requiredParams (hI : InputQuotable c B E) {p : FuncsConfig}
    (hco : ∀ n q, p.co.inputs.get? n = some q → IsInput c.schema n) (vs : List VarDef) :
    Quotes B (requiredParams c p vs) (QParams E) := by
  induction vs with
  | nil => exact .pure .nil
  | cons v vs ih =>
    unfold requiredParams
    exact q_parameterName.then fun _ => (q_variableAnnotation hI hco).bind fun a => ih.bind fun b =>
      .pure fun hb ha => QParams.append (.pos1 ha) hb

theorem q_optionalParams (hI : InputQuotable c B E) {p : FuncsConfig}
    (hco : ∀ n q, p.co.inputs.get? n = some q → IsInput c.schema n) (vs : List VarDef) :
    Quotes B (optionalParams c p vs) (QParams E) := by
  induction vs with
  | nil => exact .pure .nil
  | cons v vs ih =>
    unfold optionalParams
    exact q_parameterName.then fun _ => (q_variableAnnotation hI hco).bind fun a => (q_unsetUnion (E := E)).bind fun u =>
      still_referenceUnset.quotes.then fun x => ih.bind fun b => .pure fun hb hu ha => QParams.append (.kw1 (hu ha)) hb

theorem q_generateParameters (hI : InputQuotable c B E) {p : FuncsConfig} {d : FuncDefinition} {o : OpDef}
    (hco : ∀ n q, p.co.inputs.get? n = some q → IsInput c.schema n) :
    Quotes B (generateParameters c p d o) (QParams E) := by
  unfold generateParameters
  exact (q_extraArgParams _).bind fun _ => (q_expandedParams hI _).bind fun _ => (q_requiredParams hI hco _).bind fun _ =>
    (q_optionalParams hI hco _).bind fun _ => (q_extraKwargParams _).bind fun _ => .pure fun h5 h4 h3 h2 h1 =>
      (((h1.append h2).append h3).append h4).append h5

/-- what the parameters and the return annotation of a function quote -/
def quotedParams : Stmt → List String
  | .funcDef _ _ as _ _ _ _ => as.flatMap fun a => quotedO a.annotation
  | _ => []

theorem QParams.flat {P : Params} (h : QParams E P) : ∀ n ∈ (P.pos ++ P.kw).flatMap fun a => quotedO a.annotation, E n := by
  intro n hn
  obtain ⟨a, ha, hn⟩ := List.mem_flatMap.1 hn
  exact (List.mem_append.1 ha).elim (fun ha => h.pos a ha n hn) fun ha => h.kw a ha n hn

theorem q_operationFunc (hI : InputQuotable c B E) {p : FuncsConfig} {d : FuncDefinition} {o : OpDef}
    (hco : ∀ n q, p.co.inputs.get? n = some q → IsInput c.schema n) :
    Quotes B (operationFunc c p d o) fun f => ∀ n ∈ quotedParams f, E n := by
  unfold operationFunc
  refine still_returnAnnotation.quotes.then fun ret => still_queryDoc.quotes.then fun doc =>
    still_variableAssignments.quotes.then fun as => Quotes.then (P := fun _ => True) ?_ fun _ =>
    (q_generateParameters hI hco).bind fun P => still_finalStmt.quotes.then fun fin => .pure fun hP => hP.flat
  unfold iteratorImport
  exact .ite (fun _ => q_registerImport) fun _ => .pure trivial

theorem q_inputFunc (hI : InputQuotable c B E) {p : InputFuncsConfig} {t : String} {fs : List InputFieldDef} :
    Quotes B (inputFunc c p t fs) fun f => ∀ n ∈ quotedIn f, E n := by
  unfold inputFunc
  refine still_getClass.quotes.then fun cls => still_parameterName.quotes.then fun _ => (q_inputTypeParams hI fs).bind fun P =>
    still_factoryDoc.quotes.then fun _ => still_emptyDict.quotes.then fun _ => (still_fieldEntries _).quotes.then fun _ =>
    .pure fun hP n hn => ?_
  rw [quotedIn] at hn
  rcases List.mem_append.1 hn with hn | hn
  · exact hP.flat n hn
  · simp [quotedO, quoted] at hn

theorem q_factories (hI : InputQuotable c B E) {p : InputFuncsConfig} (ts : List InputType) :
    Quotes B (factories c p ts) (QBody E) := by
  induction ts with
  | nil => exact .pure .nil
  | cons t ts ih =>
    unfold factories
    have hs : Quotes B (factoryStep c p t) (QBody E) := by
      constructor
      intro r a r' h
      unfold factoryStep at h
      split at h
      · cases h; exact ⟨fun _ h => h, fun _ => .nil⟩
      · split at h
        · cases h
        · rename_i s r1 hi
          cases h
          have := (q_inputFunc (B := B) (E := E) hI).run _ _ _ hi
          exact ⟨this.1, fun hB => .one (this.2 hB)⟩
    exact hs.bind fun a => ih.bind fun b => .pure fun hb ha => ha.append hb

theorem q_operationFuncs (hI : InputQuotable c B E) {p : FuncsConfig} {o : OpDef}
    (hco : ∀ n q, p.co.inputs.get? n = some q → IsInput c.schema n) (ds : List FuncDefinition) :
    Quotes B (operationFuncs c p o ds) fun fs => ∀ f ∈ fs, ∀ n ∈ quotedParams f, E n := by
  induction ds with
  | nil => exact .pure fun f hf => by cases hf
  | cons d ds ih =>
    unfold operationFuncs
    exact (q_operationFunc hI hco).bind fun s => ih.bind fun rest => .pure fun hr hs f hf =>
      (List.mem_cons.1 hf).elim (fun e => e ▸ hs) (hr f)

theorem q_allOperationFuncs (hI : InputQuotable c B E) {p : FuncsConfig}
    (hco : ∀ n q, p.co.inputs.get? n = some q → IsInput c.schema n) (os : List OpDef) :
    Quotes B (allOperationFuncs c p os) fun fs => ∀ f ∈ fs, ∀ n ∈ quotedParams f, E n := by
  induction os with
  | nil => exact .pure fun f hf => by cases hf
  | cons o os ih =>
    unfold allOperationFuncs
    exact (q_operationFuncs hI hco _).bind fun s => ih.bind fun rest => .pure fun hr hs f hf =>
      (List.mem_append.1 hf).elim (hs f) (hr f)
end

end Turms
