import Verif.Spec.GenerableFuncs
import Verif.Lemmas.GenerableInputs
import Verif.Lemmas.GenerableOperations
import Verif.Lemmas.StillWalk

/-! # The funcs and the input_funcs plugin succeed -/

namespace Turms
open Spec Fragments Documents

section
variable {c : Ctx} {defs : Dict FragDef} {K : String → Prop} {pe : EnumsConfig} {r : Reg}

theorem go_parameterName {env : Env} (hs : Stylable env) {n : String} : Go (parameterName env n) r := by
  obtain ⟨m, hm⟩ := hs.parameters n
  exact (Go.lift hm).mono fun _ _ => trivial

theorem go_referenceUnset {env : Env} : Go (referenceUnset env) r := go_referenceMarker (by decide +kernel)
theorem go_referenceUnsetType {env : Env} : Go (referenceUnsetType env) r := go_referenceMarker (by decide +kernel)

theorem go_unsetUnion {env : Env} {a : Expr} : Go (unsetUnion env a) r :=
  go_registerImport.bind fun _ _ _ _ => go_referenceUnsetType.bind fun _ _ _ _ => .ret

theorem go_dictStrAny : Go dictStrAny r :=
  go_registerImport.bind fun _ _ _ _ => go_registerImport.bind fun _ _ _ _ => .ret

theorem go_emptyDict {n : String} : Go (emptyDict n) r := go_dictStrAny.bind fun _ _ _ _ => .ret

theorem go_coercibleInputUnion {e : Expr} {s : String} : Go (coercibleInputUnion e s) r :=
  go_registerImport.bind fun _ _ _ _ => go_registerImport.bind fun _ _ _ _ => .ret

/-! ## References with a name -/

theorem go_referenceScalar_name {n p : String} (h : r.scalarMap.get? n = some p) :
    Go (referenceScalar n) r fun e => ∃ i, e = .name i := by
  unfold referenceScalar Go
  simp only [h]
  split
  · obtain ⟨_, r2, h2, m2, _⟩ := go_registerImport (n := p) (r := r)
    rw [h2]; exact ⟨_, _, rfl, m2, _, rfl⟩
  · exact ⟨_, _, rfl, .refl, _, rfl⟩

theorem go_referenceEnum_name {env : Env} (hs : Stylable env) {n : String} (hn : n ≠ "") (hb : n ∉ builtinNames)
    (h : r.enumMap.contains n = true) : Go (referenceEnum env n "" false) r fun e => ∃ i, e = .name i := by
  unfold referenceEnum Go
  simp only [show builtinNames.contains n = false by simpa using hb]
  obtain ⟨m, hm0, hm⟩ := hs.classes .enum n hn
  simp only [hm, h, Bool.not_true, Bool.false_or, Bool.false_eq_true, if_false]
  rw [if_neg (by simpa using Ne.symm hm0)]
  exact ⟨_, _, rfl, .refl, _, rfl⟩

/-- what `recurse_type_label` can print -/
def Printable (e : Expr) : Prop := (∃ i, e = .name i) ∨ ∃ s, e = .const (.str s)

theorem referenceScalar_printable {n : String} {e : Expr} {r' : Reg} (h : referenceScalar n r = .ok (e, r')) : Printable e := by
  unfold referenceScalar at h
  split at h
  · cases h
  · split at h
    · split at h
      · cases h
      · cases h; exact .inl ⟨_, rfl⟩
    · cases h; exact .inl ⟨_, rfl⟩

theorem referenceInput_printable {env : Env} {n parent : String} {a : Bool} {e : Expr} {r' : Reg}
    (h : referenceInput env n parent a r = .ok (e, r')) : Printable e := by
  unfold referenceInput at h
  split at h
  · cases h
  · split at h
    · split at h
      · cases h
      · cases h; exact .inr ⟨_, rfl⟩
    · split at h
      · cases h
      · cases h; exact .inl ⟨_, rfl⟩

theorem referenceEnum_printable {env : Env} {n parent : String} {a : Bool} {e : Expr} {r' : Reg}
    (h : referenceEnum env n parent a r = .ok (e, r')) : Printable e := by
  unfold referenceEnum at h
  split at h
  · cases h; exact .inr ⟨_, rfl⟩
  · split at h
    · cases h
    · split at h
      · split at h
        · cases h
        · cases h; exact .inr ⟨_, rfl⟩
      · cases h; exact .inl ⟨_, rfl⟩

theorem referenceNamed_printable {env : Env} {n : String} {e : Expr} {r' : Reg}
    (h : referenceNamed env n r = .ok (e, r')) : Printable e := by
  unfold referenceNamed at h
  split at h
  · split at h
    · split at h
      · cases h
      · exact referenceEnum_printable h
    · exact referenceInput_printable h
  · exact referenceScalar_printable h

theorem go_typeLabel {env : Env} (hs : Stylable env) (t : TypeNode) : ∀ {o : Bool} {r : Reg}, Available r t.base →
    Go (typeLabel env t o) r := by
  induction t with
  | named n =>
    intro o r h
    unfold typeLabel
    obtain ⟨e, r1, he, m, _⟩ := go_referenceNamed hs h
    refine Go.bind ⟨e, r1, he, m, referenceNamed_printable he⟩ fun e r1 _ hp => ?_
    refine Go.bind (P := fun _ => True) ?_ fun _ _ _ _ => .ret
    rcases hp with ⟨i, rfl⟩ | ⟨s, rfl⟩ <;> exact .ret
  | list t ih => intro o r h; unfold typeLabel; exact (ih h).bind fun _ _ _ _ => .ret
  | nonNull t ih => intro o r h; unfold typeLabel; exact ih h

/-! ## Annotations -/

theorem go_recurseOverride {env : Env} {x : Expr} (t : TypeNode) : ∀ {o : Bool} {r : Reg},
    Go (recurseTypeAnnotation env (some x) t o) r := by
  induction t with
  | named n =>
    intro o r
    unfold recurseTypeAnnotation namedOr
    exact (Go.ret).bind fun _ _ _ _ => go_optionalWrap
  | list t ih =>
    intro o r; unfold recurseTypeAnnotation
    exact go_registerImport.bind fun _ _ _ _ => ih.bind fun _ _ _ _ => go_optionalWrap
  | nonNull t ih => intro o r; unfold recurseTypeAnnotation; exact ih

theorem go_variableAnnotation {env : Env} (hs : Stylable env) {co : Coercions} {t : TypeNode} (hn : t.base ≠ "")
    (h : Available r t.base) : Go (variableAnnotation env co t) r := by
  unfold variableAnnotation
  split
  · exact go_registerImport.bind fun _ _ _ _ => go_recurseOverride t
  · split
    · exact (go_referenceInput hs hn).bind fun _ _ _ _ => go_coercibleInputUnion.bind fun _ _ _ _ => go_recurseOverride t
    · exact go_recurseTypeAnnotation t fun r1 m => go_referenceNamed hs (h.mild m)

/-- `ParamField`, in terms of the registry -/
theorem go_paramLeaf (hs : Stylable c.env) (hne : "" ∉ c.schema.types.keys) {co : Coercions} {f : InputFieldDef}
    (hl : Leaves c pe r) (h : ParamField c pe co f) : Go (paramLeaf c co f.type.base) r := by
  unfold paramLeaf
  rcases h with ⟨h1, h2⟩ | ⟨fs, ds, h1⟩ | ⟨vs, h1, h2⟩
  · rw [h1]
    dsimp only
    cases hc : co.scalars.get? f.type.base with
    | some p => exact go_registerImport.bind fun _ _ _ _ => .ret
    | none =>
      rcases h2 with ⟨p, h2⟩ | h2
      · rw [hc] at h2; cases h2
      · obtain ⟨p, hp⟩ := hl.scalars _ h2
        exact go_referenceScalar hp
  · rw [h1]
    dsimp only
    refine (go_referenceInput hs (lookup_ne_empty hne h1)).bind fun _ _ _ _ => ?_
    split
    · exact go_coercibleInputUnion
    · exact .ret
  · rw [h1]
    dsimp only
    refine go_referenceEnum hs (lookup_ne_empty hne h1) (.inr ?_)
    rcases h2 with h2 | ⟨h2, h3⟩
    · exact .inl h2
    · refine .inr ⟨hl.enums _ vs h1 h2, ?_⟩
      rintro m hm rfl
      exact h3 hm

theorem go_paramAnnotation {co : Coercions} (t : TypeNode) : ∀ {o : Bool} {r : Reg},
    (∀ r1, Mild r r1 → Go (paramLeaf c co t.base) r1) → Go (paramAnnotation c co t o) r := by
  induction t with
  | named n => intro o r h; unfold paramAnnotation; exact (h r .refl).bind fun _ _ _ _ => go_optionalWrap
  | list t ih =>
    intro o r h; unfold paramAnnotation
    exact go_registerImport.bind fun _ _ m _ => (ih fun r1 m1 => h r1 (m.trans m1)).bind fun _ _ _ _ => go_optionalWrap
  | nonNull t ih => intro o r h; unfold paramAnnotation; exact ih h

/-! ## Parameters -/

theorem go_inputTypeParams (hs : Stylable c.env) (hne : "" ∉ c.schema.types.keys) {co : Coercions}
    (fs : List InputFieldDef) : ∀ {r : Reg}, Leaves c pe r → (∀ f ∈ fs, ParamField c pe co f) →
      Go (inputTypeParams c co fs) r := by
  induction fs with
  | nil => intros; exact .ret
  | cons f fs ih =>
    intro r hl h
    unfold inputTypeParams
    refine Go.bind (P := fun _ => True) ?_ fun _ r1 m _ => (ih (hl.mild m) fun g hg => h g (List.mem_cons_of_mem _ hg)).bind
      fun _ _ _ _ => .ret
    unfold inputFieldParam
    refine (go_nodeName hs).bind fun _ r1 m _ => (go_paramAnnotation _ fun r2 m2 =>
      go_paramLeaf hs hne ((hl.mild m).mild m2) (h f List.mem_cons_self)).bind fun _ _ _ _ => ?_
    split
    · exact .ret
    · exact go_unsetUnion.bind fun _ _ _ _ => go_referenceUnset.bind fun _ _ _ _ => .ret

theorem go_extraArgParams (l : List ExtraArg) : ∀ {r : Reg}, Go (extraArgParams l) r := by
  induction l with
  | nil => exact .ret
  | cons a l ih =>
    intro r; unfold extraArgParams
    exact go_registerImport.bind fun _ _ _ _ => ih.bind fun _ _ _ _ => .ret

theorem go_extraKwargParams (l : List ExtraKwarg) : ∀ {r : Reg}, Go (extraKwargParams l) r := by
  induction l with
  | nil => exact .ret
  | cons a l ih =>
    intro r; unfold extraKwargParams
    exact go_registerImport.bind fun _ _ _ _ => ih.bind fun _ _ _ _ => .ret

/-- the variable can be expanded -/
def Expandable (c : Ctx) (pe : EnumsConfig) (co : Coercions) (v : VarDef) : Prop := ∃ n fs ds,
  (v.type = .nonNull (.named n) ∨ v.type = .list (.named n)) ∧ c.schema.lookup n = some (.input fs ds) ∧
    ∀ f ∈ fs, ParamField c pe co f

theorem go_wrappedFields {co : Coercions} {v : VarDef} (h : Expandable c pe co v) {α : Type}
    {k : List InputFieldDef → Gen α} {Q : α → Prop}
    (hk : ∀ fs, (∀ f ∈ fs, ParamField c pe co f) → Go (k fs) r Q) :
    Go (do let n ← wrappedName v.type; let fs ← expandedFields c.schema n; k fs) r Q := by
  obtain ⟨n, fs, ds, h1, h2, h3⟩ := h
  have e1 : wrappedName v.type r = .ok (n, r) := by rcases h1 with h1 | h1 <;> rw [h1] <;> rfl
  have e2 : expandedFields c.schema n r = .ok (fs, r) := by unfold expandedFields; rw [h2]; rfl
  obtain ⟨a, r', e, m, q⟩ := hk fs h3
  exact ⟨a, r', Gen.bind_ok.2 ⟨_, _, e1, Gen.bind_ok.2 ⟨_, _, e2, e⟩⟩, m, q⟩

theorem go_expandedParams (hs : Stylable c.env) (hne : "" ∉ c.schema.types.keys) {p : FuncsConfig} (vs : List VarDef) :
    ∀ {r : Reg}, Leaves c pe r → (∀ v ∈ vs, v.name ∈ p.expandInputTypes → Expandable c pe p.co v) →
      Go (expandedParams c p vs) r := by
  induction vs with
  | nil => intros; exact .ret
  | cons v vs ih =>
    intro r hl h
    unfold expandedParams
    split
    · rename_i hv
      refine go_wrappedFields (h v List.mem_cons_self (by simpa using hv)) fun fs hf => ?_
      exact (go_inputTypeParams hs hne fs hl hf).bind fun _ r1 m _ =>
        (ih (hl.mild m) fun w hw => h w (List.mem_cons_of_mem _ hw)).bind fun _ _ _ _ => .ret
    · exact ih hl fun w hw => h w (List.mem_cons_of_mem _ hw)

theorem go_requiredParams (hs : Stylable c.env) {p : FuncsConfig} (vs : List VarDef) :
    ∀ {r : Reg}, (∀ v ∈ vs, v.type.base ≠ "" ∧ Available r v.type.base) → Go (requiredParams c p vs) r := by
  induction vs with
  | nil => intros; exact .ret
  | cons v vs ih =>
    intro r h
    unfold requiredParams
    exact (go_parameterName hs).bind fun _ r1 m1 _ =>
      (go_variableAnnotation hs (h v List.mem_cons_self).1 ((h v List.mem_cons_self).2.mild m1)).bind fun _ r2 m2 _ =>
      (ih fun w hw => ⟨(h w (List.mem_cons_of_mem _ hw)).1, (h w (List.mem_cons_of_mem _ hw)).2.mild (m1.trans m2)⟩).bind
        fun _ _ _ _ => .ret

theorem go_optionalParams (hs : Stylable c.env) {p : FuncsConfig} (vs : List VarDef) :
    ∀ {r : Reg}, (∀ v ∈ vs, v.type.base ≠ "" ∧ Available r v.type.base) → Go (optionalParams c p vs) r := by
  induction vs with
  | nil => intros; exact .ret
  | cons v vs ih =>
    intro r h
    unfold optionalParams
    exact (go_parameterName hs).bind fun _ r1 m1 _ =>
      (go_variableAnnotation hs (h v List.mem_cons_self).1 ((h v List.mem_cons_self).2.mild m1)).bind fun _ r2 m2 _ =>
      go_unsetUnion.bind fun _ r3 m3 _ => go_referenceUnset.bind fun _ r4 m4 _ =>
      (ih fun w hw => ⟨(h w (List.mem_cons_of_mem _ hw)).1,
        (h w (List.mem_cons_of_mem _ hw)).2.mild (((m1.trans m2).trans m3).trans m4)⟩).bind fun _ _ _ _ => .ret

theorem go_generateParameters (hs : Stylable c.env) (hne : "" ∉ c.schema.types.keys) {p : FuncsConfig} {d : FuncDefinition}
    {o : OpDef} (hl : Leaves c pe r) (h1 : ∀ v ∈ o.vars, v.name ∈ p.expandInputTypes → Expandable c pe p.co v)
    (h2 : ∀ v ∈ o.vars, v.type.base ≠ "" ∧ Available r v.type.base) : Go (generateParameters c p d o) r := by
  unfold generateParameters
  refine (go_extraArgParams _).bind fun _ r1 m1 _ => ?_
  refine (go_expandedParams hs hne _ (hl.mild m1) fun v hv => h1 v (List.mem_filter.1 hv).1).bind fun _ r2 m2 _ => ?_
  refine (go_requiredParams hs _ fun v hv => ?_).bind fun _ r3 m3 _ => (go_optionalParams hs _ fun v hv => ?_).bind
    fun _ r4 m4 _ => (go_extraKwargParams _).bind fun _ _ _ _ => .ret
  · have hv := (List.mem_filter.1 (List.mem_filter.1 hv).1).1
    exact ⟨(h2 v hv).1, (h2 v hv).2.mild (m1.trans m2)⟩
  · have hv := (List.mem_filter.1 hv).1
    exact ⟨(h2 v hv).1, (h2 v hv).2.mild ((m1.trans m2).trans m3)⟩

/-! ## Assignments -/

theorem go_entryStmt {env : Env} {t k q : String} {b : Bool} : Go (entryStmt env t k q b) r := by
  unfold entryStmt guardedAssign
  split
  · exact .ret
  · exact go_referenceUnset.bind fun _ _ _ _ => .ret

theorem go_fieldEntries {env : Env} (hs : Stylable env) {t : String} (fs : List InputFieldDef) :
    ∀ {r : Reg}, Go (fieldEntries env t fs) r := by
  induction fs with
  | nil => exact .ret
  | cons f fs ih =>
    intro r; unfold fieldEntries
    exact (go_nodeName hs).bind fun _ _ _ _ => go_entryStmt.bind fun _ _ _ _ => ih.bind fun _ _ _ _ => .ret

theorem go_variableEntries (hs : Stylable c.env) {p : FuncsConfig} (vs : List VarDef) : ∀ {r : Reg},
    (∀ v ∈ vs, v.name ∈ p.expandInputTypes → Expandable c pe p.co v) → Go (variableEntries c p vs) r := by
  induction vs with
  | nil => intros; exact .ret
  | cons v vs ih =>
    intro r h
    unfold variableEntries
    refine Go.bind (P := fun _ => True) ?_ fun _ _ _ _ => (ih fun w hw => h w (List.mem_cons_of_mem _ hw)).bind
      fun _ _ _ _ => .ret
    unfold variableEntry
    split
    · rename_i hv
      unfold expandedEntry
      refine go_wrappedFields (h v List.mem_cons_self (by simpa using hv)) fun fs _ => ?_
      exact (go_parameterName hs).bind fun _ _ _ _ => go_emptyDict.bind fun _ _ _ _ => (go_fieldEntries hs fs).bind
        fun _ _ _ _ => .ret
    · unfold plainEntry
      exact (go_parameterName hs).bind fun _ _ _ _ => go_entryStmt.bind fun _ _ _ _ => .ret

theorem go_variableAssignments (hs : Stylable c.env) {p : FuncsConfig} {o : OpDef}
    (h : ∀ v ∈ o.vars, v.name ∈ p.expandInputTypes → Expandable c pe p.co v) : Go (variableAssignments c p o) r :=
  go_emptyDict.bind fun _ _ _ _ => (go_variableEntries hs o.vars h).bind fun _ _ _ _ => .ret

/-! ## Variables among the arguments -/

theorem isVariable_mem {args : List (String × Value)} (h : args.any (fun a => a.2.isVariable) = true) :
    ∃ a v, (a, Value.variable v) ∈ args := by
  obtain ⟨⟨a, x⟩, hm, hx⟩ := List.any_eq_true.1 h
  cases x <;> first | exact ⟨a, _, hm⟩ | cases hx

theorem variableAt_cons {n : Nat} {s : Sel} {ss : List Sel} (h : VariableAt n ss) : VariableAt n (s :: ss) := by
  cases h with
  | here hm hv => exact .here (List.mem_cons_of_mem _ hm) hv
  | deeper hm hv => exact .deeper (List.mem_cons_of_mem _ hm) hv

mutual
theorem deepSel_at : ∀ (s : Sel) (ss : List Sel), s ∈ ss → deepSel s = true → ∃ n, VariableAt n ss ∧ n % 2 = 1
  | .field name al args sub, ss, hm, h => by
    unfold deepSel at h
    rcases Bool.or_eq_true_iff.1 h with h | h
    · obtain ⟨a, v, hv⟩ := isVariable_mem h
      exact ⟨1, .here hm hv, rfl⟩
    · obtain ⟨n, hn, h0, _⟩ := skipSels_at sub h
      exact ⟨n + 1, .deeper hm hn, by omega⟩
  | .spread _, _, _, h => by unfold deepSel at h; cases h
  | .inline _ _, _, _, h => by unfold deepSel at h; cases h
theorem deepSels_at : ∀ (ss : List Sel), deepSels ss = true → ∃ n, VariableAt n ss ∧ n % 2 = 1
  | [], h => by unfold deepSels at h; cases h
  | s :: ss, h => by
    unfold deepSels at h
    rcases Bool.or_eq_true_iff.1 h with h | h
    · exact deepSel_at s (s :: ss) List.mem_cons_self h
    · obtain ⟨n, hn, h0⟩ := deepSels_at ss h
      exact ⟨n, variableAt_cons hn, h0⟩
theorem skipSel_at : ∀ (s : Sel) (ss : List Sel), s ∈ ss → skipSel s = true → ∃ n, VariableAt n ss ∧ n % 2 = 0 ∧ n ≠ 0
  | .field name al args sub, ss, hm, h => by
    unfold skipSel at h
    obtain ⟨n, hn, h0⟩ := deepSels_at sub h
    exact ⟨n + 1, .deeper hm hn, by omega, by omega⟩
  | .spread _, _, _, h => by unfold skipSel at h; cases h
  | .inline _ _, _, _, h => by unfold skipSel at h; cases h
theorem skipSels_at : ∀ (ss : List Sel), skipSels ss = true → ∃ n, VariableAt n ss ∧ n % 2 = 0 ∧ n ≠ 0
  | [], h => by unfold skipSels at h; cases h
  | s :: ss, h => by
    unfold skipSels at h
    rcases Bool.or_eq_true_iff.1 h with h | h
    · exact skipSel_at s (s :: ss) List.mem_cons_self h
    · obtain ⟨n, hn, h0⟩ := skipSels_at ss h
      exact ⟨n, variableAt_cons hn, h0⟩
end

theorem go_describeArgs {fd : FieldDef} (as : List (String × Value)) : ∀ {m : Dict String} {r : Reg},
    Go (describeArgs (some fd) as m) r := by
  induction as with
  | nil => exact .ret
  | cons a as ih =>
    intro m r
    obtain ⟨k, x⟩ := a
    cases x <;> unfold describeArgs <;> first
      | exact ih
      | (dsimp only; split <;> first | exact ih | (split <;> exact ih))

/-- the selections of an operation, as far as the documentation looks at them -/
def Documented (c : Ctx) (root : String) (sels : List Sel) : Prop :=
  ∀ s ∈ sels, ∃ name al args sub ty, s = Sel.field name al args sub ∧ FieldOn c.schema root name ty

theorem go_estimateVariables {root : String} (sels : List Sel) : ∀ {m : Dict String} {r : Reg},
    Documented c root sels → (∀ n, VariableAt n sels → n = 1 ∨ n % 2 = 0) → Go (estimateVariables c root sels m) r := by
  induction sels with
  | nil => intros; exact .ret
  | cons s sels ih =>
    intro m r h1 h2
    obtain ⟨name, al, args, sub, ty, rfl, hty⟩ := h1 s List.mem_cons_self
    obtain ⟨fd, hfd, _⟩ := getFieldDef_on hty
    unfold estimateVariables
    rw [hfd]
    refine (go_describeArgs args).bind fun _ _ _ _ => ?_
    cases hsk : skipSels sub with
    | true =>
      obtain ⟨n, hn, h0, h3⟩ := skipSels_at sub hsk
      have := h2 (n + 1) (.deeper List.mem_cons_self hn)
      omega
    | false =>
      simp only [Bool.false_eq_true, if_false]
      exact ih (fun s hs => h1 s (List.mem_cons_of_mem _ hs)) fun n hn => h2 n (variableAt_cons hn)

theorem go_rootDescriptions {root : String} (sels : List Sel) : ∀ {m : Dict String} {r : Reg},
    Documented c root sels → Go (rootDescriptions c root sels m) r := by
  induction sels with
  | nil => intros; exact .ret
  | cons s sels ih =>
    intro m r h1
    obtain ⟨name, al, args, sub, ty, rfl, hty⟩ := h1 s List.mem_cons_self
    obtain ⟨fd, hfd, _⟩ := getFieldDef_on hty
    unfold rootDescriptions
    rw [hfd]
    exact ih fun s hs => h1 s (List.mem_cons_of_mem _ hs)

theorem go_docHead {p : FuncsConfig} {o : OpDef} {root name : String} {b : Bool} (h : Documented c root o.sels) :
    Go (docHead c p o root name b) r := by
  unfold docHead
  dsimp only
  generalize (if p.extractDocumentation = true then p.documentation o else none) = x
  by_cases hx : truthy x = true
  · rw [if_pos hx]; exact .ret
  · rw [if_neg hx]; exact (go_rootDescriptions _ h).bind fun _ _ _ _ => .ret

theorem go_inputDescription {co : Coercions} {f : InputFieldDef} (h : ParamField c pe co f) :
    Go (inputDescription c.schema f.type) r := by
  have key : ∀ (t : TypeNode), t.base = f.type.base → Go (inputDescription c.schema t) r := by
    intro t
    induction t with
    | named n =>
      intro hn
      have hn : n = f.type.base := hn
      unfold inputDescription
      rw [hn]
      rcases h with ⟨h, _⟩ | ⟨fs, ds, h⟩ | ⟨vs, h, _⟩ <;>
        (obtain ⟨desc, h⟩ := types_of_lookup h; rw [h]; exact .ret)
    | list t ih => intro hn; unfold inputDescription; exact (ih hn).bind fun _ _ _ _ => .ret
    | nonNull t ih => intro hn; unfold inputDescription; exact (ih hn).bind fun _ _ _ _ => .ret
  exact key _ rfl

theorem go_inputTypeDescriptions (hs : Stylable c.env) {co : Coercions} (fs : List InputFieldDef) : ∀ {r : Reg},
    (∀ f ∈ fs, ParamField c pe co f) → Go (inputTypeDescriptions c fs) r := by
  induction fs with
  | nil => intros; exact .ret
  | cons f fs ih =>
    intro r h
    unfold inputTypeDescriptions
    refine (go_nodeName hs).bind fun _ _ _ _ => (go_parameterName hs).bind fun _ _ _ _ =>
      Go.bind (P := fun _ => True) ?_ fun _ _ _ _ => (ih fun g hg => h g (List.mem_cons_of_mem _ hg)).bind fun _ _ _ _ => .ret
    unfold fieldDescription
    split
    · exact .ret
    · exact go_inputDescription (h f List.mem_cons_self)

theorem go_concatDocs {f : VarDef → Gen String} (vs : List VarDef) : ∀ {r : Reg},
    (∀ v ∈ vs, ∀ r1, Mild r r1 → Go (f v) r1) → Go (concatDocs f vs) r := by
  induction vs with
  | nil => intros; exact .ret
  | cons v vs ih =>
    intro r h
    unfold concatDocs
    exact (h v List.mem_cons_self r .refl).bind fun _ r1 m _ =>
      (ih fun w hw r2 m2 => h w (List.mem_cons_of_mem _ hw) r2 (m.trans m2)).bind fun _ _ _ _ => .ret

theorem go_docRequired (hs : Stylable c.env) {p : FuncsConfig} {m : Dict String} {v : VarDef}
    (h1 : v.name ∈ p.expandInputTypes → Expandable c pe p.co v) (h2 : Available r v.type.base) :
    Go (docRequired c p m v) r := by
  unfold docRequired
  split
  · rename_i hv
    exact go_wrappedFields (h1 (by simpa using hv)) fun fs hf => go_inputTypeDescriptions hs fs hf
  · split
    · exact (go_parameterName hs).bind fun _ _ m _ => (go_typeLabel hs _ (h2.mild m)).bind fun _ _ _ _ => .ret
    · exact .ret

theorem go_docOptional (hs : Stylable c.env) {m : Dict String} {v : VarDef}
    (h1 : ∀ d, v.default = some d → plainDefault d = true) (h0 : v.default ≠ some .null) (h2 : Available r v.type.base) :
    Go (docOptional c m v) r := by
  unfold docOptional
  split
  · exact .ret
  · refine (go_parameterName hs).bind fun _ _ m _ => (go_typeLabel hs _ (h2.mild m)).bind fun _ _ _ _ =>
      Go.bind (P := fun _ => True) ?_ fun _ _ _ _ => .ret
    unfold docDefault
    cases hd : v.default with
    | none => exact .ret
    | some x =>
      refine Go.bind (P := fun _ => True) ?_ fun _ _ _ _ => .ret
      have := h1 x hd
      cases x <;> first | exact absurd hd h0 | exact .ret | cases this

/-! ## What functions return -/

theorem go_operationClassName (hs : Stylable c.env) {o : OpDef} {n : String} (hn : o.name = some n) (h0 : n ≠ "") :
    Go (operationClassName c o) r fun cls => cls ≠ "" := by
  unfold operationClassName
  rw [hn]
  obtain ⟨m, hm0, hm⟩ := hs.classes o.kind.kind n h0
  exact (Go.lift hm).mono fun _ e => e ▸ hm0

theorem go_rootTypeOf {o : OpDef} {t : String} (h : c.schema.root o.kind = some t) :
    Go (rootTypeOf c.schema o.kind) r (· = t) := by
  unfold rootTypeOf
  rw [h]
  exact .pure rfl

theorem go_returnAnnotation (hs : Stylable c.env) {o : OpDef} {n t : String} {b : Bool} (hn : o.name = some n) (h0 : n ≠ "")
    (ht : c.schema.root o.kind = some t) (hA : b = true → ∃ A, r.operationSingle.get? n = some A) :
    Go (returnAnnotation c o b) r := by
  obtain ⟨cls, r1, e1, m1, _⟩ := go_operationClassName (r := r) hs hn h0
  obtain ⟨root, r2, e2, m2, _⟩ := go_rootTypeOf (r := r1) ht
  have hsame : r2.operationSingle = r.operationSingle := by
    obtain ⟨_, _, _, e, _⟩ := (still_operationClassName.quiet e1).trans (still_rootTypeOf.quiet e2)
    rw [e]
  unfold returnAnnotation
  suffices h : Go (if b then collapsedReturn c o cls root else pure (.name cls)) r2 by
    obtain ⟨a, r3, e3, m3, q⟩ := h
    exact ⟨a, r3, Gen.bind_ok.2 ⟨_, _, e1, Gen.bind_ok.2 ⟨_, _, e2, e3⟩⟩, (m1.trans m2).trans m3, q⟩
  cases b with
  | false => exact .ret
  | true =>
    obtain ⟨A, hA⟩ := hA rfl
    refine ⟨A, r2, ?_, .refl, trivial⟩
    simp only [if_true]
    unfold collapsedReturn operationSingleOf
    refine Gen.bind_ok.2 ⟨some A, r2, ?_, rfl⟩
    rw [hsame, hn, Option.getD_some, hA]

theorem go_firstField {o : OpDef} {name : String} {al : Option String} {args : List (String × Value)} {sub : List Sel}
    (h : o.sels = [.field name al args sub]) : Go (firstField o) r (· = (name, al, sub)) := by
  unfold firstField
  rw [h]
  exact .pure rfl

theorem mem_asked {sels : List Sel} {s : Sel} : s ∈ nonTypenameFields sels ↔ s ∈ sels ∧ ¬ IsTypename s := by
  unfold nonTypenameFields
  rw [List.mem_filter]
  refine and_congr_right fun _ => ?_
  unfold IsTypename
  cases s with
  | field n a g i =>
    unfold Sel.isTypenameField
    constructor
    · rintro h ⟨_, _, _, he⟩
      cases he
      simp at h
    · intro h
      by_cases he : n = "__typename"
      · exact absurd ⟨a, g, i, by rw [he]⟩ h
      · simpa using he
  | spread f => simp [Sel.isTypenameField]
  | inline t i => simp [Sel.isTypenameField]

theorem go_referenceFragment (hs : Stylable c.env) (h : WalkReady c defs K r) {f : String} (hk : K f) :
    Go (do let x ← referenceGeneric c.env .fragment f "" false; nameId x) r (· ≠ "") := by
  obtain ⟨cl, hcl⟩ := h.frag f hk
  obtain ⟨m, hm0, hm⟩ := hs.classes .fragment f (h.named f hk)
  have hc : (r.classMap .fragment).contains f = true := by
    rw [Dict.contains_eq_isSome]
    show (r.fragmentMap.get? f).isSome = true
    rw [hcl]; rfl
  refine Go.bind (P := fun e => e = .name m) ⟨.name m, r, ?_, .refl, rfl⟩ fun e r2 _ hp => by subst hp; exact .pure hm0
  unfold referenceGeneric
  simp only [hm, hc, Bool.not_true, Bool.false_or]
  rw [if_neg (by simpa using Ne.symm hm0)]

theorem go_collapsedFragment (hs : Stylable c.env) (h : WalkReady c defs K r) {f n : String} {d : FragDef} (hk : K f)
    (hd : defs.get? f = some d)
    (hi : IsInterface c.schema d.typeCondition → d.typeCondition = n ∨ Possible c.schema d.typeCondition n) :
    Go (collapsedFragment c f n) r (· ≠ "") := by
  unfold collapsedFragment
  suffices hx : ∃ i, getInterfaceFragmentImplementationOrNone f n r = .ok (i, r) ∧ ∀ cl, i = some cl → cl ≠ "" by
    obtain ⟨i, hx, h0⟩ := hx
    refine Go.bind (P := (· = i)) ⟨i, r, hx, .refl, rfl⟩ ?_
    intro j r1 m hj
    subst hj
    cases j with
    | some cl => exact .pure (h0 cl rfl)
    | none =>
      exact go_referenceFragment hs (h.mild m) hk
  unfold getInterfaceFragmentImplementationOrNone
  cases hm : r.interfaceFragmentImpl.get? f with
  | none => exact ⟨none, rfl, by simp⟩
  | some m =>
    obtain ⟨h1, h2, h3⟩ := h.impl f d m hk hd hm
    dsimp only
    cases hcl : m.get? n with
    | some cl => exact ⟨some cl, rfl, by rintro _ ⟨⟩; exact h3 n cl hcl⟩
    | none =>
      rw [h.type f d hk hd]
      rcases hi h1 with rfl | hp
      · exact ⟨none, by simp, by simp⟩
      · obtain ⟨cl, he⟩ := h2 n hp
        rw [hcl] at he; cases he

/-- the class a collapsed operation returns -/
theorem go_collapsedOverwrite (hs : Stylable c.env) (h : WalkReady c defs K r) {cls key : String} {sels : List Sel}
    {fd : FieldDef} (hcls : cls ≠ "") (hret : Returnable c pe defs fd.type.base sels)
    (hgen : Generable c defs K fd.type.base sels) :
    Go (collapsedOverwrite c cls key sels fd) r fun ov => c.schema.lookup fd.type.base ≠ some .scalar →
      (∀ vs, c.schema.lookup fd.type.base ≠ some (.enum vs)) → truthy ov = true := by
  unfold collapsedOverwrite
  split
  · rename_i hnil
    refine .pure fun h1 h2 => ?_
    obtain ⟨s, hm, hs⟩ := hret.asked h1 h2
    have := mem_asked.2 ⟨hm, hs⟩
    rw [hnil] at this
    cases this
  · rename_i f hone
    have hf : Sel.spread f ∈ sels := (mem_asked.1 (by rw [hone]; exact List.mem_cons_self)).1
    have hall : ∀ s ∈ sels, s = .spread f ∨ IsTypename s := by
      intro s hs
      by_cases ht : IsTypename s
      · exact .inr ht
      · have := mem_asked.2 ⟨hs, ht⟩
        rw [hone] at this
        exact .inl (List.mem_singleton.1 this)
    have hk : K f := by
      cases hgen with
      | scalar hl => rw [hret.scalar hl] at hf; cases hf
      | enum hl => rw [(hret.enum _ hl).1] at hf; cases hf
      | object _ _ hsp => exact (hsp f hf).1
      | interface _ _ hsp => exact hsp f hf
      | union _ _ _ hsp => exact hsp f hf
    obtain ⟨d, hd⟩ := h.defined f hk
    refine (go_collapsedFragment hs h hk hd (hret.lonely f d hf hall hd)).bind fun x _ _ hx => .pure fun _ _ => ?_
    simpa [truthy] using hx
  · refine .pure fun _ _ => ?_
    simp [truthy, hcls]

theorem go_outputNamedLabel (hs : Stylable c.env) (hne : "" ∉ c.schema.types.keys) (h : WalkReady c defs K r)
    (hl : Leaves c pe r) {n : String} {sels : List Sel} {ov : Option String} (hret : Returnable c pe defs n sels)
    (hgen : Generable c defs K n sels) (hov : c.schema.lookup n ≠ some .scalar →
      (∀ vs, c.schema.lookup n ≠ some (.enum vs)) → truthy ov = true) : Go (outputNamedLabel c ov n) r := by
  unfold outputNamedLabel
  cases hgen with
  | scalar hlk hk =>
    rw [hlk]
    obtain ⟨p, hp⟩ := h.scalar n hk
    refine (go_referenceScalar_name hp).bind fun e _ _ he => ?_
    obtain ⟨i, rfl⟩ := he
    exact .ret
  | enum hlk =>
    rw [hlk]
    obtain ⟨_, hb, hk⟩ := hret.enum _ hlk
    refine (go_referenceEnum_name hs (lookup_ne_empty hne hlk) hb (hl.enums _ _ hlk hk)).bind fun e _ _ he => ?_
    obtain ⟨i, rfl⟩ := he
    exact .ret
  | object hlk => rw [hlk] at hov ⊢; dsimp only; rw [if_pos (hov (by simp) (by simp))]; exact .ret
  | interface hlk => rw [hlk] at hov ⊢; dsimp only; rw [if_pos (hov (by simp) (by simp))]; exact .ret
  | union hlk => rw [hlk] at hov ⊢; dsimp only; rw [if_pos (hov (by simp) (by simp))]; exact .ret

theorem go_outputLabel {ov : Option String} (t : TypeNode) : ∀ {o : Bool}, Go (outputNamedLabel c ov t.base) r →
    Go (outputLabel c ov t o) r := by
  induction t with
  | named n => intro o h; unfold outputLabel; exact h.bind fun _ _ _ _ => .ret
  | list t ih => intro o h; unfold outputLabel; exact (ih h).bind fun _ _ _ _ => .ret
  | nonNull t ih => intro o h; unfold outputLabel; exact ih h

theorem go_rootFieldDef {t name : String} (h : ∃ ty, FieldOn c.schema t name ty) :
    Go (rootFieldDef c t name) r fun fd => FieldOn c.schema t name fd.type := by
  obtain ⟨ty, h⟩ := h
  obtain ⟨fd, hf, ho⟩ := getFieldDef_on h
  unfold rootFieldDef
  rw [hf]
  exact .pure ho

/-- the only field of an operation can be returned -/
def Collapsible (c : Ctx) (pe : EnumsConfig) (defs : Dict FragDef) (K : String → Prop) (o : OpDef) (t : String) : Prop :=
  ∃ name al args sub, o.sels = [Sel.field name al args sub] ∧ (∃ ty, FieldOn c.schema t name ty) ∧
    ∀ ty, FieldOn c.schema t name ty → Returnable c pe defs ty.base sub ∧ Generable c defs K ty.base sub

theorem go_returnLabel (hs : Stylable c.env) (hne : "" ∉ c.schema.types.keys) (h : WalkReady c defs K r)
    (hl : Leaves c pe r) {o : OpDef} {n t : String} {b : Bool} (hn : o.name = some n) (h0 : n ≠ "")
    (ht : c.schema.root o.kind = some t) (hb : b = true → Collapsible c pe defs K o t) : Go (returnLabel c o b) r := by
  unfold returnLabel
  refine (go_operationClassName hs hn h0).bind fun cls r1 m1 hcls => (go_rootTypeOf ht).bind fun root r2 m2 hroot => ?_
  subst hroot
  cases b with
  | false => exact .ret
  | true =>
    obtain ⟨name, al, args, sub, hsel, hex, hret⟩ := hb rfl
    simp only [if_true]
    unfold collapsedLabel
    refine (go_firstField hsel).bind fun x r3 m3 hx => ?_
    subst hx
    refine (go_rootFieldDef hex).bind fun fd r4 m4 hfd => ?_
    obtain ⟨g1, g2⟩ := hret _ hfd
    have m := ((m1.trans m2).trans m3).trans m4
    refine (go_collapsedOverwrite hs (h.mild m) hcls g1 g2).bind fun ov r5 m5 hov => ?_
    exact go_outputLabel _ (go_outputNamedLabel hs hne (h.mild (m.trans m5)) (hl.mild (m.trans m5)) g1 g2 hov)

/-! ## The functions -/

/-- everything the funcs plugin needs to know of an operation -/
structure FunctionReady (c : Ctx) (pe : EnumsConfig) (p : FuncsConfig) (defs : Dict FragDef) (K : String → Prop) (r : Reg)
    (o : OpDef) (n t : String) : Prop where
  named : o.name = some n
  nonempty : n ≠ ""
  root : c.schema.root o.kind = some t
  documented : Documented c t o.sels
  depth : ∀ n, VariableAt n o.sels → n = 1 ∨ n % 2 = 0
  expanded : ∀ v ∈ o.vars, v.name ∈ p.expandInputTypes → Expandable c pe p.co v
  typed : ∀ v ∈ o.vars, v.type.base ≠ "" ∧ Available r v.type.base
  defaults : ∀ v ∈ o.vars, (∀ d, v.default = some d → plainDefault d = true) ∧ v.default ≠ some .null
  collapsed : p.collapseLonely = true → o.sels.length = 1 → Collapsible c pe defs K o t
  single : o.sels.length = 1 → ∃ A, r.operationSingle.get? n = some A

theorem go_collapsedAttr (hs : Stylable c.env) {o : OpDef} {t : String} {b : Bool} {e : Expr}
    (hb : b = true → Collapsible c pe defs K o t) : Go (collapsedAttr c o b e) r := by
  unfold collapsedAttr
  split
  · rename_i h
    obtain ⟨name, al, args, sub, hsel, _⟩ := hb h
    exact (go_firstField hsel).bind fun _ _ _ _ => (go_nodeName hs).bind fun _ _ _ _ => .ret
  · exact .ret

theorem go_operationFunc (hs : Stylable c.env) (hne : "" ∉ c.schema.types.keys) (h : WalkReady c defs K r)
    (hl : Leaves c pe r) {p : FuncsConfig} {d : FuncDefinition} {o : OpDef} {n t : String}
    (hf : FunctionReady c pe p defs K r o n t) : Go (operationFunc c p d o) r := by
  unfold operationFunc
  have hb : (p.collapseLonely && o.sels.length == 1) = true → p.collapseLonely = true ∧ o.sels.length = 1 := by
    intro hb
    simpa using hb
  generalize (p.collapseLonely && o.sels.length == 1) = b at hb
  have hc : b = true → Collapsible c pe defs K o t := fun h => hf.collapsed (hb h).1 (hb h).2
  dsimp only
  refine (go_returnAnnotation hs hf.named hf.nonempty hf.root fun h => hf.single (hb h).2).bind fun _ r1 m1 _ => ?_
  have hav : ∀ {r' : Reg}, Mild r r' → ∀ v ∈ o.vars, v.type.base ≠ "" ∧ Available r' v.type.base := fun m v hv =>
    ⟨(hf.typed v hv).1, (hf.typed v hv).2.mild m⟩
  have hdoc : Go (queryDoc c p d o b) r1 := by
    unfold queryDoc
    refine (go_rootTypeOf hf.root).bind fun root r2 m2 hroot => ?_
    subst hroot
    have m := m1.trans m2
    refine (go_returnLabel hs hne (h.mild m) (hl.mild m) hf.named hf.nonempty hf.root hc).bind fun _ r3 m3 _ => ?_
    refine (go_estimateVariables _ hf.documented hf.depth).bind fun _ r4 m4 _ => ?_
    refine (go_docHead hf.documented).bind fun _ r5 m5 _ => ?_
    have m := ((m.trans m3).trans m4).trans m5
    refine (go_concatDocs _ fun v hv r6 m6 => go_docRequired hs (hf.expanded v hv) (hav (m.trans m6) v hv).2).bind
      fun _ r6 m6 _ => ?_
    exact (go_concatDocs _ fun v hv r7 m7 => go_docOptional hs (hf.defaults v hv).1 (hf.defaults v hv).2
      (hav ((m.trans m6).trans m7) v hv).2).bind fun _ _ _ _ => .ret
  refine hdoc.bind fun _ r2 m2 _ => ?_
  refine (go_variableAssignments hs hf.expanded).bind fun _ r3 m3 _ => ?_
  refine Go.bind (P := fun _ => True) ?_ fun _ r4 m4 _ => ?_
  · unfold iteratorImport
    split
    · exact go_registerImport
    · exact .ret
  have m := ((m1.trans m2).trans m3).trans m4
  refine (go_generateParameters hs hne (hl.mild m) hf.expanded (hav m)).bind fun _ r5 m5 _ => ?_
  refine Go.bind (P := fun _ => True) ?_ fun _ _ _ _ => .ret
  unfold finalStmt proxyCall
  refine Go.bind (P := fun _ => True) (go_registerImport.bind fun _ _ _ _ =>
    (go_operationClassName hs hf.named hf.nonempty).bind fun _ _ _ _ => .ret) fun _ _ _ _ => ?_
  split
  · exact (go_collapsedAttr hs hc).bind fun _ _ _ _ => .ret
  · exact (go_collapsedAttr hs hc).bind fun _ _ _ _ => .ret

theorem FunctionReady.keep {p : FuncsConfig} {o : OpDef} {n t : String} {r' : Reg}
    (h : FunctionReady c pe p defs K r o n t) (m : Mild r r') (q : Quiet r r') : FunctionReady c pe p defs K r' o n t := by
  refine ⟨h.named, h.nonempty, h.root, h.documented, h.depth, h.expanded, fun v hv => ⟨(h.typed v hv).1, (h.typed v hv).2.mild m⟩,
    h.defaults, h.collapsed, fun hl => ?_⟩
  obtain ⟨_, _, _, e, _⟩ := q
  rw [e]
  exact h.single hl

theorem go_operationFuncs (hs : Stylable c.env) (hne : "" ∉ c.schema.types.keys) {p : FuncsConfig} {o : OpDef} {n t : String}
    (ds : List FuncDefinition) : ∀ {r : Reg}, WalkReady c defs K r → Leaves c pe r → FunctionReady c pe p defs K r o n t →
      Go (operationFuncs c p o ds) r := by
  induction ds with
  | nil => intros; exact .ret
  | cons d ds ih =>
    intro r h hl hf
    obtain ⟨s, r1, e1, m1, _⟩ := go_operationFunc (d := d) hs hne h hl hf
    obtain ⟨ss, r2, e2, m2, _⟩ := ih (h.mild m1) (hl.mild m1) (hf.keep m1 (still_operationFunc.quiet e1))
    exact ⟨_, r2, Gen.bind_ok.2 ⟨_, _, e1, Gen.bind_ok.2 ⟨_, _, e2, rfl⟩⟩, m1.trans m2, trivial⟩

theorem go_allOperationFuncs (hs : Stylable c.env) (hne : "" ∉ c.schema.types.keys) {p : FuncsConfig} (os : List OpDef) :
    ∀ {r : Reg}, WalkReady c defs K r → Leaves c pe r →
      (∀ o ∈ os, (∃ d ∈ p.definitions, d.kind = o.kind) → ∃ n t, FunctionReady c pe p defs K r o n t) →
      Go (allOperationFuncs c p os) r := by
  induction os with
  | nil => intros; exact .ret
  | cons o os ih =>
    intro r h hl hf
    have h1 : Go (operationFuncs c p o (p.definitionsFor o)) r := by
      cases hd : p.definitionsFor o with
      | nil => exact .ret
      | cons d ds =>
        have : d ∈ p.definitionsFor o := by rw [hd]; exact List.mem_cons_self
        unfold FuncsConfig.definitionsFor at this
        obtain ⟨hm, hk⟩ := List.mem_filter.1 this
        obtain ⟨n, t, hf⟩ := hf o List.mem_cons_self ⟨d, hm, by simpa using hk⟩
        exact go_operationFuncs hs hne _ h hl hf
    obtain ⟨s, r1, e1, m1, _⟩ := h1
    obtain ⟨ss, r2, e2, m2, _⟩ := ih (h.mild m1) (hl.mild m1) fun o' ho' hd => by
      obtain ⟨n, t, hf⟩ := hf o' (List.mem_cons_of_mem _ ho') hd
      exact ⟨n, t, hf.keep m1 ((still_operationFuncs _).quiet e1)⟩
    exact ⟨_, r2, Gen.bind_ok.2 ⟨_, _, e1, Gen.bind_ok.2 ⟨_, _, e2, rfl⟩⟩, m1.trans m2, trivial⟩

/-! ## The factories -/

theorem go_factories (hs : Stylable c.env) (hne : "" ∉ c.schema.types.keys) {q : InputFuncsConfig} (ts : List InputType) :
    ∀ {r : Reg}, Leaves c pe r → (∀ t ∈ ts, WantsFactory q r t.name → ∀ f ∈ t.fields, ParamField c pe q.co f) →
      Go (factories c q ts) r := by
  induction ts with
  | nil => intros; exact .ret
  | cons t ts ih =>
    intro r hl h
    unfold factories
    refine Go.bind (P := fun _ => True) ?_ fun _ r1 m _ => (ih (hl.mild m) fun t' ht' hw => h t' (List.mem_cons_of_mem _ ht')
      ⟨hw.1, hw.2.1, ?_⟩).bind fun _ _ _ _ => .ret
    · unfold factoryStep Go
      cases hsk : skipsFactory q r t.name with
      | true => simp only [hsk, if_true]; exact ⟨_, _, rfl, .refl, trivial⟩
      | false =>
        have hw := skipsFactory_iff.1 hsk
        have hpf := h t List.mem_cons_self hw
        have hgo : Go (inputFunc c q t.name t.fields) r := by
          unfold inputFunc
          refine Go.bind (P := fun _ => True) ?_ fun _ r1 m1 _ => (go_parameterName hs).bind fun _ r2 m2 _ =>
            (go_inputTypeParams hs hne _ (hl.mild (m1.trans m2)) hpf).bind fun _ _ _ _ =>
            Go.bind (P := fun _ => True) ?_ fun _ _ _ _ => go_emptyDict.bind fun _ _ _ _ => (go_fieldEntries hs _).bind
            fun _ _ _ _ => .ret
          · obtain ⟨cl, hcl⟩ := Option.isSome_iff_exists.1 hw.2.2
            unfold getClass Go
            have : (r.classMap .input).get t.name = .ok cl := by
              show r.inputMap.get t.name = _
              unfold Dict.get
              rw [hcl]
            simp only [this]
            exact ⟨_, _, rfl, .refl, trivial⟩
          · unfold factoryDoc
            split
            · exact (go_inputTypeDescriptions hs _ hpf).bind fun _ _ _ _ => .ret
            · exact .ret
        obtain ⟨s, r1, e, m, _⟩ := hgo
        simp only [hsk, Bool.false_eq_true, if_false, e]
        exact ⟨_, _, rfl, m, trivial⟩
    · have := m.classes .input
      simp only [Reg.classMap] at this
      rw [← this]
      exact hw.2.2

end
end Turms
