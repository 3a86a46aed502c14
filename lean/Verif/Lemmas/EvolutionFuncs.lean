import Verif.Lemmas.EvolutionPlugins

/-! # The functions over a schema that has grown -/

namespace Turms
open Spec

variable {c : Ctx} {s' : Schema} {N : Old}

local notation "S" => Sim N

theorem sim_dictStrAny : S dictStrAny dictStrAny :=
  sim_registerImport.bind fun _ => sim_registerImport.bind fun _ => .pure
theorem sim_emptyDict {n : String} : S (emptyDict n) (emptyDict n) := sim_dictStrAny.bind fun _ => .pure
theorem sim_unsetUnion {env : Env} {a : Expr} : S (unsetUnion env a) (unsetUnion env a) :=
  sim_registerImport.bind fun _ => sim_referenceMarker.bind fun _ => .pure
theorem sim_entryStmt {env : Env} {t k p : String} {b : Bool} : S (entryStmt env t k p b) (entryStmt env t k p b) :=
  .ite .pure (sim_referenceMarker.bind fun _ => .pure)
theorem sim_extraArgParams (l : List ExtraArg) : S (extraArgParams l) (extraArgParams l) := by
  induction l with
  | nil => exact .pure
  | cons a l ih => exact sim_registerImport.bind fun _ => ih.bind fun _ => .pure
theorem sim_extraKwargParams (l : List ExtraKwarg) : S (extraKwargParams l) (extraKwargParams l) := by
  induction l with
  | nil => exact .pure
  | cons a l ih => exact sim_registerImport.bind fun _ => ih.bind fun _ => .pure
theorem sim_operationClassName {o : OpDef} : S (operationClassName c o) (operationClassName (c.on s') o) := by
  unfold operationClassName
  split
  · exact .fail
  · exact .lift
theorem sim_firstField_bind {α : Type} {o : OpDef} {k k' : String × Option String × List Sel → Gen α}
    (hs : SpreadsIn N.frags o.sels) (h : ∀ f, SpreadsIn N.frags f.2.2 →
      (∃ as rest, o.sels = .field f.1 f.2.1 as f.2.2 :: rest) → S (k f) (k' f)) :
    S (firstField o >>= k) (firstField o >>= k') := by
  unfold firstField
  cases ho : o.sels with
  | nil => exact ⟨fun r r' x r1 hA hr => by cases hr⟩
  | cons s rest =>
    cases s with
    | field n a as sub =>
      refine ⟨fun r r' x r1 hA hr => ?_⟩
      exact (h (n, a, sub) (ho ▸ hs : SpreadsIn N.frags (.field n a as sub :: rest)).field ⟨as, rest, ho⟩).run r r' x r1 hA hr
    | spread f => exact ⟨fun r r' x r1 hA hr => by cases hr⟩
    | inline t sub => exact ⟨fun r r' x r1 hA hr => by cases hr⟩
theorem sim_firstField {o : OpDef} : S (firstField o) (firstField o) := by
  unfold firstField
  split
  · exact .pure
  · exact .fail
  · exact .fail
theorem sim_nameId {e : Expr} : S (nameId e) (nameId e) := by
  unfold nameId
  split
  · exact .pure
  · exact .fail
theorem sim_nameOrValue {e : Expr} : S (nameOrValue e) (nameOrValue e) := by
  unfold nameOrValue
  split
  · exact .pure
  · exact .pure
  · exact .fail
theorem sim_collapsedFragment {f t : String} (hf : N.frags f) : S (collapsedFragment c f t) (collapsedFragment (c.on s') f t) := by
  unfold collapsedFragment
  refine (sim_interfaceImpl hf).bind fun x => ?_
  split
  · exact .pure
  · exact (sim_referenceGeneric hf).bind fun _ => sim_nameId
theorem sim_collapsedOverwrite {cls k : String} {sub : List Sel} {fd : FieldDef} (hs : SpreadsIn N.frags sub) :
    S (collapsedOverwrite c cls k sub fd) (collapsedOverwrite (c.on s') cls k sub fd) := by
  unfold collapsedOverwrite
  split
  · exact .pure
  · rename_i f hc
    have hf : N.frags f := hs.mem f (by
      have : Sel.spread f ∈ nonTypenameFields sub := by rw [hc]; exact List.mem_singleton.2 rfl
      exact (List.mem_filter.1 this).1)
    exact (sim_collapsedFragment hf).bind fun _ => .pure
  · exact .pure
theorem sim_collapsedAttr {o : OpDef} {b : Bool} {e : Expr} :
    S (collapsedAttr c o b e) (collapsedAttr (c.on s') o b e) := by
  unfold collapsedAttr
  exact .ite (sim_firstField.bind fun _ => Sim.lift.bind fun _ => .pure) .pure
theorem sim_finalStmt {p : FuncsConfig} {d : FuncDefinition} {o : OpDef} {b : Bool} :
    S (finalStmt c p d o b) (finalStmt (c.on s') p d o b) := by
  unfold finalStmt proxyCall
  exact (sim_registerImport.bind fun _ => sim_operationClassName.bind fun _ => .pure).bind fun _ =>
    .ite (sim_collapsedAttr.bind fun _ => .pure) (sim_collapsedAttr.bind fun _ => .pure)

/-- looking for descriptions in a field that was not there before, under arguments that name no variable -/
theorem sim_describeArgs {fd fd' : Option FieldDef} (h : ∀ f, fd = some f → fd' = some f) (as : List (String × Value)) :
    ∀ {m : Dict String}, S (describeArgs fd as m) (describeArgs fd' as m) := by
  induction as with
  | nil => intro m; exact .pure
  | cons a as ih =>
    intro m
    obtain ⟨k, v⟩ := a
    cases v
    case «variable» x =>
      unfold describeArgs
      cases fd with
      | none => exact .fail
      | some f =>
        rw [h f rfl] at ih ⊢
        dsimp only
        split
        · exact .ite ih ih
        · exact ih
    all_goals unfold describeArgs; exact ih

section
variable (hE : Extends c.schema s')
include hE

theorem sim_estimateVariables {root : String} (ss : List Sel) : ∀ {m : Dict String},
    S (estimateVariables c root ss m) (estimateVariables (c.on s') root ss m) := by
  induction ss with
  | nil => intro m; exact .pure
  | cons s ss ih =>
    intro m
    cases s with
    | spread f => unfold estimateVariables; exact ih
    | inline t sub => unfold estimateVariables; exact ih
    | field a b d e =>
      unfold estimateVariables
      exact (sim_describeArgs (fun _ h => hE.getFieldDef h) _).bind fun _ => .ite .fail ih

theorem sim_rootDescriptions {root : String} (ss : List Sel) : ∀ {m : Dict String},
    S (rootDescriptions c root ss m) (rootDescriptions (c.on s') root ss m) := by
  induction ss with
  | nil => intro m; exact .pure
  | cons s ss ih =>
    intro m
    cases s with
    | spread f => unfold rootDescriptions; exact ih
    | inline t sub => unfold rootDescriptions; exact ih
    | field a b d e =>
      unfold rootDescriptions
      cases hf : getFieldDef c.schema root a with
      | none => exact .fail
      | some f => simp only [hE.getFieldDef hf]; exact ih

theorem sim_rootFieldDef {root n : String} : S (rootFieldDef c root n) (rootFieldDef (c.on s') root n) := by
  unfold rootFieldDef
  cases hf : getFieldDef c.schema root n with
  | none => exact .fail
  | some f => simp only [hE.getFieldDef hf]; exact .pure

theorem sim_outputNamed {ov : Option String} {n : String} (hk : IsEnum c.schema n → N.names n) : S (outputNamed c ov n) (outputNamed (c.on s') ov n) := by
  unfold outputNamed
  cases hl : c.schema.lookup n with
  | none => exact .fail
  | some d =>
    obtain ⟨d', h1, h2⟩ := hE.lookup hl
    simp only [h1]
    cases d <;> cases d' <;> first
      | exact h2.elim
      | exact sim_referenceScalar
      | exact sim_referenceEnum (hk ⟨_, hl⟩)
      | exact .fail
      | exact .ite .pure .fail

theorem sim_outputNamedLabel {ov : Option String} {n : String} (hk : IsEnum c.schema n → N.names n) :
    S (outputNamedLabel c ov n) (outputNamedLabel (c.on s') ov n) := by
  unfold outputNamedLabel
  cases hl : c.schema.lookup n with
  | none => exact .fail
  | some d =>
    obtain ⟨d', h1, h2⟩ := hE.lookup hl
    simp only [h1]
    cases d <;> cases d' <;> first
      | exact h2.elim
      | exact sim_referenceScalar.bind fun _ => sim_nameId
      | exact (sim_referenceEnum (hk ⟨_, hl⟩)).bind fun _ => sim_nameId
      | exact .fail
      | exact .ite .pure .fail

theorem sim_outputAnnotation {ov : Option String} : ∀ (t : TypeNode) {o : Bool}, (IsEnum c.schema t.base → N.names t.base) →
    S (outputAnnotation c ov t o) (outputAnnotation (c.on s') ov t o)
  | .named n, o, hk => by
    unfold outputAnnotation
    exact (sim_outputNamed hE hk).bind fun _ => sim_optionalWrap
  | .list t, o, hk => by
    unfold outputAnnotation
    exact sim_registerImport.bind fun _ => (sim_outputAnnotation t hk).bind fun _ => sim_optionalWrap
  | .nonNull (.named n), o, _ => by unfold outputAnnotation; exact .fail
  | .nonNull (.list t), o, hk => by unfold outputAnnotation; exact sim_outputAnnotation t hk
  | .nonNull (.nonNull t), o, hk => by unfold outputAnnotation; exact sim_outputAnnotation t hk

theorem sim_outputLabel {ov : Option String} (t : TypeNode) (hk : IsEnum c.schema t.base → N.names t.base) : ∀ {o : Bool},
    S (outputLabel c ov t o) (outputLabel (c.on s') ov t o) := by
  induction t with
  | named n => intro o; unfold outputLabel; exact (sim_outputNamedLabel hE hk).bind fun _ => .pure
  | list t ih => intro o; unfold outputLabel; exact (ih hk).bind fun _ => .pure
  | nonNull t ih => intro o; unfold outputLabel; exact ih hk

theorem sim_typeLabel (t : TypeNode) (hv : VarIn N t.base) : ∀ {o : Bool}, S (typeLabel c.env t o) (typeLabel c.env t o) := by
  induction t with
  | named n =>
    intro o; unfold typeLabel
    exact (sim_referenceNamed hv).bind fun _ => sim_nameOrValue.bind fun _ => .pure
  | list t ih => intro o; unfold typeLabel; exact (ih hv).bind fun _ => .pure
  | nonNull t ih => intro o; unfold typeLabel; exact ih hv

omit hE in
theorem under_rootFieldDef {o : OpDef} {root : String} {f : String × Option String × List Sel} {fd : FieldDef}
    (hr : Sees N c.schema root o.sels) (hs : ∃ as rest, o.sels = .field f.1 f.2.1 as f.2.2 :: rest)
    (h : ∃ r r', rootFieldDef c root f.1 r = .ok (fd, r')) : IsEnum c.schema fd.type.base → N.names fd.type.base := by
  obtain ⟨as, rest, hs⟩ := hs
  obtain ⟨r, r', h⟩ := h
  rw [hs] at hr
  unfold rootFieldDef at h
  cases hg : getFieldDef c.schema root f.1 with
  | none => rw [hg] at h; exact (Gen.fail_ok.1 h).elim
  | some y => rw [hg] at h; obtain ⟨rfl, _⟩ := Gen.pure_ok.1 h; exact (hr.head.get hg).enum

theorem sim_returnAnnotation {o : OpDef} {b : Bool} (hs : SpreadsIn N.frags o.sels)
    (hr : ∀ root, c.schema.root o.kind = some root → Sees N c.schema root o.sels) (ho : N.single (o.name.getD "")) :
    S (returnAnnotation c o b) (returnAnnotation (c.on s') o b) := by
  unfold returnAnnotation
  refine sim_operationClassName.bind fun _ => (sim_rootTypeOf hE).bindOf fun _ hroot => .ite ?_ .pure
  unfold collapsedReturn
  refine (sim_operationSingleOf ho).bind fun x => ?_
  split
  · exact .pure
  · unfold computedReturn
    exact sim_firstField_bind hs fun _ hf hsel => (sim_rootFieldDef hE).bindOf fun _ hd => (sim_collapsedOverwrite hf).bind fun _ =>
      sim_outputAnnotation hE _ (under_rootFieldDef (hr _ (rootTypeOf_is hroot)) hsel hd)

theorem sim_returnLabel {o : OpDef} {b : Bool} (hs : SpreadsIn N.frags o.sels)
    (hr : ∀ root, c.schema.root o.kind = some root → Sees N c.schema root o.sels) : S (returnLabel c o b) (returnLabel (c.on s') o b) := by
  unfold returnLabel
  refine sim_operationClassName.bind fun _ => (sim_rootTypeOf hE).bindOf fun _ hroot => .ite ?_ .pure
  unfold collapsedLabel
  exact sim_firstField_bind hs fun _ hf hsel => (sim_rootFieldDef hE).bindOf fun _ hd => (sim_collapsedOverwrite hf).bind fun _ =>
      sim_outputLabel hE _ (under_rootFieldDef (hr _ (rootTypeOf_is hroot)) hsel hd)

omit hE in
theorem sim_concatDocs {f f' : VarDef → Gen String} (vs : List VarDef) (h : ∀ v ∈ vs, S (f v) (f' v)) :
    S (concatDocs f vs) (concatDocs f' vs) := by
  induction vs with
  | nil => exact .pure
  | cons v vs ih =>
    unfold concatDocs
    exact (h v (by simp)).bind fun _ => (ih fun v hv => h v (by simp [hv])).bind fun _ => .pure

omit hE in
theorem sim_wrappedName {t : TypeNode} : S (wrappedName t) (wrappedName t) := by
  unfold wrappedName
  split <;> first | exact .pure | exact .fail

omit hE in
theorem sim_expandedFields {s : Schema} {n : String} : S (expandedFields s n) (expandedFields s n) := by
  unfold expandedFields
  split <;> first | exact .pure | exact .fail

omit hE in
theorem sim_coercibleInputUnion {e : Expr} {x : String} : S (coercibleInputUnion e x) (coercibleInputUnion e x) :=
  sim_registerImport.bind fun _ => sim_registerImport.bind fun _ => .pure

omit hE in
theorem sim_paramAnnotation {co : Coercions} (t : TypeNode) (hN : N.names t.base) : ∀ {o : Bool},
    S (paramAnnotation c co t o) (paramAnnotation c co t o) := by
  induction t with
  | named n =>
    intro o; unfold paramAnnotation
    refine Sim.bind ?_ fun _ => sim_optionalWrap
    unfold paramLeaf
    split
    · split
      · exact sim_registerImport.bind fun _ => .pure
      · exact sim_referenceScalar
    · refine (sim_referenceInput hN).bind fun _ => ?_
      split
      · exact sim_coercibleInputUnion
      · exact .pure
    · exact sim_referenceEnum hN
    · exact .fail
  | list t ih =>
    intro o; unfold paramAnnotation
    exact sim_registerImport.bind fun _ => (ih hN).bind fun _ => sim_optionalWrap
  | nonNull t ih => intro o; unfold paramAnnotation; exact ih hN

omit hE in
theorem sim_inputTypeParams {co : Coercions} (fs : List InputFieldDef) (hN : ∀ f ∈ fs, N.names f.type.base) :
    S (inputTypeParams c co fs) (inputTypeParams c co fs) := by
  induction fs with
  | nil => exact .pure
  | cons f fs ih =>
    unfold inputTypeParams
    refine Sim.bind ?_ fun _ => (ih fun f hf => hN f (by simp [hf])).bind fun _ => .pure
    unfold inputFieldParam
    exact Sim.lift.bind fun _ => (sim_paramAnnotation _ (hN f (by simp))).bind fun _ => .ite .pure
      (sim_unsetUnion.bind fun _ => sim_referenceMarker.bind fun _ => .pure)

omit hE in
theorem sim_fieldEntries {env : Env} {t : String} (fs : List InputFieldDef) :
    S (fieldEntries env t fs) (fieldEntries env t fs) := by
  induction fs with
  | nil => exact .pure
  | cons f fs ih =>
    unfold fieldEntries
    exact Sim.lift.bind fun _ => sim_entryStmt.bind fun _ => ih.bind fun _ => .pure

omit hE in
theorem sim_inputDescription {s : Schema} (t : TypeNode) : S (inputDescription s t) (inputDescription s t) := by
  induction t with
  | named n =>
    unfold inputDescription
    split <;> first | exact .pure | exact .fail
  | list t ih => unfold inputDescription; exact ih.bind fun _ => .pure
  | nonNull t ih => unfold inputDescription; exact ih.bind fun _ => .pure

omit hE in
theorem sim_inputTypeDescriptions (fs : List InputFieldDef) : S (inputTypeDescriptions c fs) (inputTypeDescriptions c fs) := by
  induction fs with
  | nil => exact .pure
  | cons f fs ih =>
    unfold inputTypeDescriptions
    refine Sim.lift.bind fun _ => Sim.lift.bind fun _ => Sim.bind ?_ fun _ => ih.bind fun _ => .pure
    unfold fieldDescription
    exact .ite .pure (sim_inputDescription _)

omit hE in
theorem wrappedName_value {t : TypeNode} {n : String} (h : ∃ r r', wrappedName t r = .ok (n, r')) : n = t.base := by
  obtain ⟨r, r', h⟩ := h
  unfold wrappedName at h
  split at h <;> first
    | exact (Gen.fail_ok.1 h).elim
    | (obtain ⟨rfl, _⟩ := Gen.pure_ok.1 h; rfl)
omit hE in
theorem expandedFields_value {s : Schema} {n : String} {fs : List InputFieldDef}
    (h : ∃ r r', expandedFields s n r = .ok (fs, r')) : ∃ ds, s.lookup n = some (.input fs ds) := by
  obtain ⟨r, r', h⟩ := h
  unfold expandedFields at h
  cases hl : s.lookup n with
  | none => rw [hl] at h; exact (Gen.fail_ok.1 h).elim
  | some d =>
    rw [hl] at h
    cases d <;> first
      | exact (Gen.fail_ok.1 h).elim
      | (obtain ⟨rfl, _⟩ := Gen.pure_ok.1 h; exact ⟨_, rfl⟩)

/-- no variable is expanded, or the schema is the same and the types of the fields of known inputs are known -/
def Steady (N : Old) (c : Ctx) (s' : Schema) (p : FuncsConfig) : Prop :=
  p.expandInputTypes = [] ∨ (s' = c.schema ∧ ∀ m fs ds, N.names m → c.schema.lookup m = some (.input fs ds) → ∀ f ∈ fs, N.names f.type.base)

variable {p : FuncsConfig} (hx : Steady N c s' p)
include hx

theorem sim_queryDoc {d : FuncDefinition} {o : OpDef} {b : Bool} (hs : SpreadsIn N.frags o.sels)
    (hr : ∀ root, c.schema.root o.kind = some root → Sees N c.schema root o.sels) (h : ∀ v ∈ o.vars, N.names v.type.base) :
    S (queryDoc c p d o b) (queryDoc (c.on s') p d o b) := by
  unfold queryDoc
  refine (sim_rootTypeOf hE).bind fun _ => (sim_returnLabel hE hs hr).bind fun _ => (sim_estimateVariables hE _).bind fun _ =>
    Sim.bind ?_ fun _ => (sim_concatDocs _ fun v hv => ?_).bind fun _ => (sim_concatDocs _ fun v hv => ?_).bind fun _ => .pure
  · unfold docHead
    exact .ite .pure ((sim_rootDescriptions hE _).bind fun _ => .pure)
  · unfold docRequired
    rcases hx with hx | ⟨rfl, hN⟩
    case' inl =>
      simp only [hx]
      rw [if_neg (by simp)]
    case' inr =>
      refine .ite (sim_wrappedName.bind fun _ => sim_expandedFields.bind fun _ => sim_inputTypeDescriptions _) ?_
    all_goals exact .ite (Sim.lift.bind fun _ => (sim_typeLabel hE _ (.inl (h v (by first | exact hv | exact (List.mem_filter.1 hv).1)))).bind fun _ => .pure) .pure
  · unfold docOptional
    refine .ite .pure (Sim.lift.bind fun _ => (sim_typeLabel hE _ (.inl (h v (by first | exact hv | exact (List.mem_filter.1 hv).1)))).bind fun _ => Sim.bind ?_ fun _ => .pure)
    unfold docDefault
    split
    · exact .pure
    · refine Sim.bind ?_ fun _ => .pure
      unfold defaultText
      split <;> first | exact .pure | exact .fail

theorem sim_variableEntries (vs : List VarDef) : S (variableEntries c p vs) (variableEntries (c.on s') p vs) := by
  induction vs with
  | nil => exact .pure
  | cons v vs ih =>
    unfold variableEntries
    refine Sim.bind ?_ fun _ => ih.bind fun _ => .pure
    unfold variableEntry
    rcases hx with hx | ⟨rfl, hN⟩
    · simp only [hx]
      exact Sim.lift.bind fun _ => sim_entryStmt.bind fun _ => .pure
    · exact .ite (sim_wrappedName.bind fun _ => sim_expandedFields.bind fun _ => Sim.lift.bind fun _ =>
        sim_emptyDict.bind fun _ => (sim_fieldEntries _).bind fun _ => .pure)
        (Sim.lift.bind fun _ => sim_entryStmt.bind fun _ => .pure)

theorem sim_expandedParams (vs : List VarDef) (h : ∀ v ∈ vs, N.names v.type.base) : S (expandedParams c p vs) (expandedParams (c.on s') p vs) := by
  induction vs with
  | nil => exact .pure
  | cons v vs ih =>
    unfold expandedParams
    have hx' := hx
    rcases hx with hx | ⟨rfl, hN⟩
    · simp only [hx]
      exact ih fun v hv => h v (by simp [hv])
    · exact .ite (sim_wrappedName.bindOf fun _ hw => sim_expandedFields.bindOf fun _ he =>
        (sim_inputTypeParams _ (by
          obtain ⟨ds, hl⟩ := expandedFields_value he
          rw [wrappedName_value hw] at hl
          exact hN _ _ _ (h v (by simp)) hl)).bind fun _ => (ih fun v hv => h v (by simp [hv])).bind fun _ => .pure)
        (ih fun v hv => h v (by simp [hv]))
omit hx

theorem sim_variableAnnotation {co : Coercions} {t : TypeNode} (h : N.names t.base) :
    S (variableAnnotation c.env co t) (variableAnnotation c.env co t) := by
  unfold variableAnnotation
  refine .ite (sim_registerImport.bind fun _ => sim_recurseTypeAnnotation hE _ (.inl h))
    (.ite ((sim_referenceInput h).bind fun _ => Sim.bind ?_ fun _ => sim_recurseTypeAnnotation hE _ (.inl h))
      (sim_recurseTypeAnnotation hE _ (.inl h)))
  exact sim_registerImport.bind fun _ => sim_registerImport.bind fun _ => .pure

theorem sim_requiredParams (vs : List VarDef) (h : ∀ v ∈ vs, N.names v.type.base) :
    S (requiredParams c p vs) (requiredParams (c.on s') p vs) := by
  induction vs with
  | nil => exact .pure
  | cons v vs ih =>
    unfold requiredParams
    exact Sim.lift.bind fun _ => (sim_variableAnnotation hE (h v (by simp))).bind fun _ =>
      (ih fun v hv => h v (by simp [hv])).bind fun _ => .pure

theorem sim_optionalParams (vs : List VarDef) (h : ∀ v ∈ vs, N.names v.type.base) :
    S (optionalParams c p vs) (optionalParams (c.on s') p vs) := by
  induction vs with
  | nil => exact .pure
  | cons v vs ih =>
    unfold optionalParams
    exact Sim.lift.bind fun _ => (sim_variableAnnotation hE (h v (by simp))).bind fun _ => sim_unsetUnion.bind fun _ =>
      sim_referenceMarker.bind fun _ => (ih fun v hv => h v (by simp [hv])).bind fun _ => .pure

include hx

theorem sim_operationFunc {d : FuncDefinition} {o : OpDef} (hs : SpreadsIn N.frags o.sels) (ho : N.single (o.name.getD ""))
    (hr : ∀ root, c.schema.root o.kind = some root → Sees N c.schema root o.sels) (h : ∀ v ∈ o.vars, N.names v.type.base) :
    S (operationFunc c p d o) (operationFunc (c.on s') p d o) := by
  unfold operationFunc
  refine (sim_returnAnnotation hE hs hr ho).bind fun _ => (sim_queryDoc hE hx hs hr h).bind fun _ => Sim.bind ?_ fun _ =>
    Sim.bind ?_ fun _ => Sim.bind ?_ fun _ => sim_finalStmt.bind fun _ => .pure
  · exact sim_emptyDict.bind fun _ => (sim_variableEntries hE hx _).bind fun _ => .pure
  · unfold iteratorImport
    exact .ite sim_registerImport .pure
  · unfold generateParameters
    exact (sim_extraArgParams _).bind fun _ => (sim_expandedParams hE hx _ fun v hv => h v (by first | exact hv | exact (List.mem_filter.1 hv).1)).bind fun _ =>
      (sim_requiredParams hE _ fun v hv => h v (List.mem_filter.1 (List.mem_filter.1 hv).1).1).bind fun _ =>
      (sim_optionalParams hE _ fun v hv => h v (List.mem_filter.1 hv).1).bind fun _ =>
      (sim_extraKwargParams _).bind fun _ => .pure

theorem sim_operationFuncs {o : OpDef} (hs : SpreadsIn N.frags o.sels) (ho : N.single (o.name.getD ""))
    (hr : ∀ root, c.schema.root o.kind = some root → Sees N c.schema root o.sels) (h : ∀ v ∈ o.vars, N.names v.type.base) (ds : List FuncDefinition) :
    S (operationFuncs c p o ds) (operationFuncs (c.on s') p o ds) := by
  induction ds with
  | nil => exact .pure
  | cons d ds ih =>
    unfold operationFuncs
    exact (sim_operationFunc hE hx hs ho hr h).bind fun _ => ih.bind fun _ => .pure

theorem sim_funcsPlugin {prep : List Char → List Char} {d : Document} (hW : Whole N prep) (hv : SeesDoc N c.schema d)
    (h : ∀ o ∈ operationsOf d, ∀ v ∈ o.vars, N.names v.type.base) :
    S (funcsPlugin c p d) (funcsPlugin (c.on s') p d) := by
  unfold funcsPlugin
  have hr : ∀ o ∈ operationsOf d, ∀ root, c.schema.root o.kind = some root → Sees N c.schema root o.sels := fun o ho =>
    hv.operations o (operationsOf_mem ho)
  revert h hr
  generalize operationsOf d = os
  intro h hr
  induction os with
  | nil => exact .pure
  | cons o os ih =>
    unfold allOperationFuncs
    exact (sim_operationFuncs hE hx (fun x _ => hW.frags x) (hW.single _) (hr o (by simp)) (h o (by simp))
      _).bind fun _ => (ih (fun o ho => h o (by simp [ho])) fun o ho => hr o (by simp [ho])).bind fun _ => .pure
end

end Turms
