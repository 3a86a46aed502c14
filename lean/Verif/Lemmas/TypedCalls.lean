import Verif.Spec.TypedCalls
import Verif.Lemmas.Variables
import Verif.Lemmas.StillWalk

/-! # The annotations of the parameters of generated functions, and what well-typed arguments are serialised to -/

namespace Turms
open Spec Props

/-! ## registries -/

theorem sameTypes_operations {c : Ctx} {prep : List Char → List Char} {p : OperationsConfig} {r0 : Reg} (os : List OpDef) :
    ∀ {r r' : Reg} {ss : List Stmt}, SameTypes c.env r0 r → generateOperations prep c p os r = .ok (ss, r') →
    SameTypes c.env r0 r' := by
  induction os with
  | nil =>
    intro r r' ss h hg
    obtain ⟨_, rfl⟩ := Gen.pure_ok.1 hg
    exact h
  | cons x os ih =>
    intro r r' ss h hg
    unfold generateOperations at hg
    obtain ⟨a, r1, h1, hg⟩ := Gen.bind_ok.1 hg
    obtain ⟨b, r2, h2, hg⟩ := Gen.bind_ok.1 hg
    obtain ⟨_, rfl⟩ := Gen.pure_ok.1 hg
    exact ih ((moves_generateOperation.run _ _ _ h1).sameTypes h (paints_generateOperation.run _ _ _ h1 h.styled)) h2

theorem SameTypes.still {α : Type} {env : Env} {r0 r r' : Reg} {g : Gen α} {a : α} (h : SameTypes env r0 r) (hg : Still g)
    (e : g r = .ok (a, r')) : SameTypes env r0 r' := h.frame (hg.quiet e).frame

/-! ## the annotation of a variable -/

/-- the type of the marker, as referenced -/
theorem referenceUnsetType_ok {env : Env} {r r' : Reg} {e : Expr} (h : referenceUnsetType env r = .ok (e, r')) :
    e = .name (unsetTypeName env) := by
  unfold referenceUnsetType referenceMarker registerBuiltin registerImport at h
  unfold unsetTypeName
  split at h
  · rename_i o ho
    rw [ho]
    split at h
    · rename_i h0; cases h; simp [h0]
    · rename_i h0
      dsimp only
      rw [if_neg h0]
      split at h <;> rename_i he <;> split at he <;> cases he <;> cases h <;> rfl
  · rename_i ho
    rw [ho]
    cases h
    rfl

/-- the annotation is not a union with the type of the marker -/
def NoMarker (ut : String) (e : Expr) : Prop := ∀ ts, e = sub "Union" (.tuple ts) → Expr.name ut ∉ ts

theorem noMarker_plain {ut : String} {e : Expr} (h : PlainAnn e) : NoMarker ut e := by
  intro ts he
  cases h <;> simp [sub] at he

theorem noMarker_optional {ut : String} {e : Expr} : NoMarker ut (sub "Optional" e) := by
  intro ts he
  simp [sub] at he

theorem noMarker_optionalWrap {ut : String} {b : Bool} {x e : Expr} {r r' : Reg} (hx : NoMarker ut x)
    (h : optionalWrap b x r = .ok (e, r')) : NoMarker ut e := by
  obtain ⟨rfl, _⟩ := optionalWrap_ok h
  cases b
  · exact hx
  · exact noMarker_optional

theorem noMarker_override {ut : String} {env : Env} {u : Expr} (hu : NoMarker ut u) (t : TypeNode) : ∀ {b : Bool} {e : Expr} {r r' : Reg},
    recurseTypeAnnotation env (some u) t b r = .ok (e, r') → NoMarker ut e := by
  induction t with
  | named n =>
    intro b e r r' h
    simp only [recurseTypeAnnotation, namedOr] at h
    obtain ⟨x, r2, h2, h⟩ := Gen.bind_ok.1 h
    obtain ⟨rfl, _⟩ := Gen.pure_ok.1 h2
    exact noMarker_optionalWrap hu h
  | list t ih =>
    intro b e r r' h
    simp only [recurseTypeAnnotation] at h
    obtain ⟨u, r1, h1, h⟩ := Gen.bind_ok.1 h
    obtain ⟨x, r2, h2, h⟩ := Gen.bind_ok.1 h
    exact noMarker_optionalWrap (by intro ts he; simp [sub] at he) h
  | nonNull t ih =>
    intro b e r r' h
    simp only [recurseTypeAnnotation] at h
    exact ih h

theorem noMarker_coerced {ut : String} {x e : Expr} {q cl : String} {r r' : Reg} (hx : x = .name cl ∨ x = .str cl) (hcl : cl ≠ ut)
    (hq : lastComponent q ≠ ut) (h : coercibleInputUnion x q r = .ok (e, r')) : NoMarker ut e := by
  unfold coercibleInputUnion at h
  obtain ⟨_, r1, h1, h⟩ := Gen.bind_ok.1 h
  obtain ⟨_, r2, h2, h⟩ := Gen.bind_ok.1 h
  obtain ⟨rfl, rfl⟩ := Gen.pure_ok.1 h
  intro ts he hm
  simp only [sub, Expr.subscript.injEq, Expr.tuple.injEq, true_and] at he
  subst he
  simp only [List.mem_cons, List.not_mem_nil, or_false, Expr.name.injEq] at hm
  rcases hm with hm | hm
  · rcases hx with rfl | rfl
    · exact hcl (Expr.name.inj hm).symm
    · cases hm
  · exact hq hm.symm

/-- C16 for any styled registry -/
theorem variableAnnotation_ok {W : World} {env : Env} {co : Coercions} {ut : String} {t : TypeNode} {e : Expr} {r r' : Reg}
    (hs : Styled env r)
    (hstyle : Kind.input.style env t.base ≠ .ok "" ∧ ∀ s, Kind.input.style env t.base ≠ .error (.noInputTypeFound s))
    (hco : ∀ n q, co.scalars.get? n = some q ∨ co.inputs.get? n = some q → q ≠ "" ∧ lastComponent q ≠ ut)
    (hcl : ∀ q, co.inputs.get? t.base = some q → styledName env .input t.base ≠ some ut)
    (h : variableAnnotation env co t r = .ok (e, r')) (hleaf : ¬ VariableInst W env r co t.base .null) :
    NoMarker ut e ∧ ∀ v, Accepts W e v ↔ Legal (VariableInst W env r co) t v := by
  unfold variableAnnotation at h
  cases hsc : co.scalars.get? t.base with
  | some p =>
    have hp : p ≠ "" := (hco _ _ (.inl hsc)).1
    rw [if_pos (by simp [truthy, hsc, hp]), hsc] at h
    obtain ⟨_, r1, h1, h⟩ := Gen.bind_ok.1 h
    have hi : ∀ v, VariableInst W env r co t.base v ↔ Accepts W (.name (lastComponent p)) v := by
      intro v; unfold VariableInst; rw [hsc]
    refine ⟨noMarker_override (noMarker_plain .name) t h, fun v => ?_⟩
    have := ((overrideAnnotation_shape W env _).sound t trivial true _ _ _ trivial h
      (by intro hh; exact hleaf ((hi _).2 hh))).2 v
    simp only [if_true] at this
    rw [this]
    exact legal_congr t (fun v => (hi v).symm) v
  | none =>
    rw [if_neg (by simp [truthy, hsc])] at h
    cases hin : co.inputs.get? t.base with
    | some p =>
      obtain ⟨hp, hpu⟩ := hco _ _ (.inr hin)
      rw [if_pos (by simp [truthy, hin, hp]), hin] at h
      obtain ⟨x, r1, h1, h⟩ := Gen.bind_ok.1 h
      obtain ⟨u, r2, h2, h⟩ := Gen.bind_ok.1 h
      obtain ⟨cl, hc, hx, f1⟩ := reference_accepts (k := .input) hs (by simp) h1
      obtain ⟨f2, hu⟩ := coercibleInputUnion_ok (W := W) h2
      have hi : ∀ v, VariableInst W env r co t.base v ↔ Accepts W u v := by
        intro v
        unfold VariableInst
        rw [hsc, hin, hu, named_or_str hx]
        simp only [Option.getD_some]
        rw [inst_iff (show styledName env .input t.base = some cl from hc)]
      refine ⟨noMarker_override (noMarker_coerced hx (fun e => hcl p hin (by rw [hc, e])) hpu h2) t h, fun v => ?_⟩
      have := ((overrideAnnotation_shape W env _).sound t trivial true _ _ _ trivial h
        (by intro hh; exact hleaf ((hi _).2 hh))).2 v
      simp only [if_true] at this
      rw [this]
      exact legal_congr t (fun v => (hi v).symm) v
    | none =>
      rw [if_neg (by simp [truthy, hin])] at h
      have hi : ∀ v, VariableInst W env r co t.base v ↔ Inst W (registeredClass env r) t.base v := by
        intro v; unfold VariableInst; rw [hsc, hin]
      refine ⟨noMarker_plain (plain_recurseTypeAnnotation t hs hstyle h).2.1, fun v => ?_⟩
      have := ((typeAnnotation_shape W env).sound t hstyle true _ _ _ hs h (fun hh => hleaf ((hi _).2 hh))).2 v
      simp only [if_true] at this
      rw [this]
      exact legal_congr t (fun v => (hi v).symm) v

/-! ## the annotation of a field of an expanded variable -/

theorem noMarker_paramLeaf {ut : String} {c : Ctx} {co : Coercions} {n : String} {x : Expr} {r r' : Reg} (hs : Styled c.env r)
    (hco : ∀ q, co.inputs.get? n = some q → lastComponent q ≠ ut) (hcl : ∀ q, co.inputs.get? n = some q → inputSideClass c r n ≠ some ut)
    (h : paramLeaf c co n r = .ok (x, r')) : NoMarker ut x := by
  unfold paramLeaf at h
  unfold inputSideClass at hcl
  cases hl : c.schema.lookup n with
  | none => simp [hl, Gen.fail] at h
  | some d =>
    rw [hl] at h hcl
    cases d with
    | scalar =>
      dsimp only at h
      cases hp : co.scalars.get? n with
      | some p =>
        rw [hp] at h
        obtain ⟨_, r1, h1, h⟩ := Gen.bind_ok.1 h
        obtain ⟨rfl, rfl⟩ := Gen.pure_ok.1 h
        exact noMarker_plain .name
      | none =>
        rw [hp] at h
        obtain ⟨cl, h1, rfl, h3⟩ := referenceScalar_ok h
        exact noMarker_plain .name
    | input =>
      obtain ⟨y, r1, h1, h⟩ := Gen.bind_ok.1 h
      obtain ⟨cl, hc, hy, f1⟩ := reference_accepts (k := .input) hs (by simp) h1
      cases hp : co.inputs.get? n with
      | some p =>
        rw [hp] at h
        exact noMarker_coerced hy (fun e => hcl p hp (by rw [← e]; exact hc)) (hco p hp) h
      | none =>
        rw [hp] at h
        obtain ⟨rfl, rfl⟩ := Gen.pure_ok.1 h
        rcases hy with rfl | rfl
        · exact noMarker_plain .name
        · exact noMarker_plain .str
    | enum =>
      obtain ⟨cl, hc, hy, f1⟩ := referenceEnum_accepts h
      rcases hy with rfl | rfl
      · exact noMarker_plain .name
      · exact noMarker_plain .str
    | _ => simp [Gen.fail] at h

theorem noMarker_paramAnnotation {ut : String} {c : Ctx} {co : Coercions} (t : TypeNode) : ∀ {b : Bool} {e : Expr} {r r' : Reg},
    Styled c.env r → (∀ q, co.inputs.get? t.base = some q → lastComponent q ≠ ut) →
    (∀ q, co.inputs.get? t.base = some q → inputSideClass c r t.base ≠ some ut) →
    paramAnnotation c co t b r = .ok (e, r') → NoMarker ut e := by
  induction t with
  | named n =>
    intro b e r r' hs hco hcl h
    simp only [paramAnnotation] at h
    obtain ⟨x, r2, h2, h⟩ := Gen.bind_ok.1 h
    exact noMarker_optionalWrap (noMarker_paramLeaf hs hco hcl h2) h
  | list t ih =>
    intro b e r r' hs hco hcl h
    simp only [paramAnnotation] at h
    obtain ⟨u, r1, h1, h⟩ := Gen.bind_ok.1 h
    obtain ⟨x, r2, h2, h⟩ := Gen.bind_ok.1 h
    exact noMarker_optionalWrap (by intro ts he; simp [sub] at he) h
  | nonNull t ih =>
    intro b e r r' hs hco hcl h
    simp only [paramAnnotation] at h
    exact ih hs hco hcl h

/-! ## legal values -/

theorem legal_value {s : Schema} {leaf : String → Val → Prop} {P : String → Val → Prop} (t : TypeNode) :
    (∀ w, P t.base w → InputValue s leaf (.named t.base) w) → ∀ {w : Val}, Legal P t w → InputValue s leaf t w := by
  induction t with
  | named n =>
    rintro h w (rfl | hw)
    · exact .null rfl
    · exact h w hw
  | list t ih =>
    rintro h w (rfl | ⟨l, rfl, hl⟩)
    · exact .null rfl
    · exact .list fun x hx => ih h (hl x hx)
  | nonNull t ih =>
    rintro h w ⟨h0, hw⟩
    exact .nonNull h0 (ih h hw)

theorem value_legal {s : Schema} {leaf : String → Val → Prop} {P : String → Val → Prop} (t : TypeNode) :
    (∀ w, w ≠ .null → InputValue s leaf (.named t.base) w → P t.base w) → ∀ {w : Val}, InputValue s leaf t w → Legal P t w := by
  induction t with
  | named n =>
    intro h w hw
    by_cases h0 : w = .null
    · exact .inl h0
    · exact .inr (h w h0 hw)
  | list t ih =>
    intro h w hw
    cases hw with
    | null => exact .inl rfl
    | list hl => exact .inr ⟨_, rfl, fun x hx => ih h (hl x hx)⟩
  | nonNull t ih =>
    intro h w hw
    cases hw with
    | null h => cases h
    | nonNull h0 hw => exact ⟨h0, ih h hw⟩

/-- what is assumed about inputs, coercions and the type of the marker -/
structure TypedRun (c : Ctx) (pi : InputsConfig) (r1 : Reg) (T : List Stmt) (isa : String → Val → Prop) (S : String → Prop)
    (co : Coercions) : Prop where
  inputs : InputsRun c pi r1 T isa S
  defaults : NoOptionalNonNull c.schema
  coercions : SafeCoercions c co T isa (LeafValue c r1 isa)
  unbound : unsetTypeName c.env ∉ T.flatMap bound
  noInstance : ∀ w, ¬ isa (unsetTypeName c.env) w
  classes : ∀ n fs ds, S n → c.schema.lookup n = some (.input fs ds) → ∃ cl, inputSideClass c r1 n = some cl

section
variable {c : Ctx} {pi : InputsConfig} {r1 r2 : Reg} {T : List Stmt} {isa : String → Val → Prop} {S : String → Prop} {p : FuncsConfig}

theorem TypedRun.side (H : TypedRun c pi r1 T isa S p.co) {n : String} {w : Val} (hS : S n)
    (h : Inst (worldOf T isa) (inputSideClass c r1) n w) : w ≠ .null ∧ InputValue c.schema (LeafValue c r1 isa) (.named n) w := by
  refine ⟨fun e => H.inputs.noNull hS (e ▸ h), ?_⟩
  obtain ⟨cl, hc, ha⟩ := h
  exact sent_legal H.inputs H.defaults _ w (Nat.lt_succ_self _) n cl hS hc (worldOf_name.1 ha)

theorem TypedRun.notMarker (H : TypedRun c pi r1 T isa S p.co) {n : String} {fs : List InputFieldDef} {ds : List DirectiveUse}
    (hS : S n) (hl : c.schema.lookup n = some (.input fs ds)) : inputSideClass c r1 n ≠ some (unsetTypeName c.env) := by
  intro hc
  refine H.unbound ?_
  cases H.inputs.shape n _ fs ds hS hl hc with
  | plain fields ho hcl => exact hcl.isBound
  | wrappers e ws ho hm => exact List.mem_flatMap.2 ⟨_, hm, by simp [Spec.bound]⟩
  | direct g u fn tags ho hm hm2 => exact List.mem_flatMap.2 ⟨_, hm2, by simp [Spec.bound]⟩

theorem TypedRun.instance_ (H : TypedRun c pi r1 T isa S p.co) {n : String} {w : Val} (hS : S n) (h0 : w ≠ .null)
    (h : InputValue c.schema (LeafValue c r1 isa) (.named n) w) : Inst (worldOf T isa) (inputSideClass c r1) n w := by
  have hcl : ∃ cl, inputSideClass c r1 n = some cl := by
    cases h with
    | null => exact absurd rfl h0
    | leaf _ hv => obtain ⟨cl, hcl, _⟩ := hv; exact ⟨cl, hcl⟩
    | object hl => exact H.classes _ _ _ hS hl
    | oneOf hl => exact H.classes _ _ _ hS hl
  obtain ⟨cl, hcl⟩ := hcl
  exact ⟨cl, hcl, worldOf_name.2 (legal_sent H.inputs _ w (Nat.lt_succ_self _) n cl hS hcl h0 h)⟩

theorem TypedRun.variableInst (H : TypedRun c pi r1 T isa S p.co) {r : Reg} (hs : SameTypes c.env r2 r) {n : String} (hS : S n)
    (hreg : registeredClass c.env r2 n = inputSideClass c r1 n) (hn : p.co.scalars.get? n = none) {w : Val} (h0 : w ≠ .null)
    (h : InputValue c.schema (LeafValue c r1 isa) (.named n) w) : VariableInst (worldOf T isa) c.env r p.co n w := by
  obtain ⟨cl, hc, ha⟩ := H.instance_ hS h0 h
  unfold VariableInst
  rw [hn]
  cases hin : p.co.inputs.get? n with
  | some q =>
    obtain ⟨fs, ds, hl⟩ := H.coercions.inputs n q hin
    exact .inl ⟨cl, by simpa only [inputSideClass, hl] using hc, ha⟩
  | none => exact ⟨cl, by rw [hs.registered, hreg]; exact hc, ha⟩

theorem TypedRun.paramInst (H : TypedRun c pi r1 T isa S p.co) {r : Reg} (hs : r.scalarMap = r1.scalarMap) {n : String} (hS : S n)
    (hn : p.co.scalars.get? n = none) {w : Val} (h0 : w ≠ .null)
    (h : InputValue c.schema (LeafValue c r1 isa) (.named n) w) : ParamInst (worldOf T isa) c r p.co n w := by
  have hside : inputSideClass c r = inputSideClass c r1 := by
    funext m
    unfold inputSideClass scalarClass
    rw [hs]
  have hi := H.instance_ hS h0 h
  unfold ParamInst
  rw [hside]
  cases hl : c.schema.lookup n with
  | none => exact hi
  | some d =>
    cases d with
    | scalar => dsimp only; rw [hn]; exact hi
    | input => exact .inl hi
    | _ => exact hi

theorem TypedRun.variable_ (H : TypedRun c pi r1 T isa S p.co) {r : Reg} (hs : SameTypes c.env r2 r) {n : String} (hS : S n)
    (hreg : registeredClass c.env r2 n = inputSideClass c r1 n) {w : Val}
    (h : VariableInst (worldOf T isa) c.env r p.co n w) : w ≠ .null ∧ InputValue c.schema (LeafValue c r1 isa) (.named n) w := by
  unfold VariableInst at h
  cases hsc : p.co.scalars.get? n with
  | some q =>
    rw [hsc] at h
    exact H.coercions.legal n q (.inl hsc) w (worldOf_name.1 h)
  | none =>
    rw [hsc] at h
    cases hin : p.co.inputs.get? n with
    | some q =>
      rw [hin] at h
      rcases h with ⟨cl, hc, h⟩ | h
      · obtain ⟨fs, ds, hl⟩ := H.coercions.inputs n q hin
        exact H.side hS ⟨cl, by simp only [inputSideClass, hl, hc], h⟩
      · exact H.coercions.legal n q (.inr hin) w (worldOf_name.1 h)
    | none =>
      rw [hin] at h
      obtain ⟨cl, hc, h⟩ := h
      exact H.side hS ⟨cl, by rw [← hreg, ← hs.registered]; exact hc, h⟩

theorem TypedRun.param (H : TypedRun c pi r1 T isa S p.co) {r : Reg} (hs : r.scalarMap = r1.scalarMap) {n : String} (hS : S n) {w : Val}
    (h : ParamInst (worldOf T isa) c r p.co n w) : w ≠ .null ∧ InputValue c.schema (LeafValue c r1 isa) (.named n) w := by
  have hside : inputSideClass c r = inputSideClass c r1 := by
    funext m
    unfold inputSideClass scalarClass
    rw [hs]
  unfold ParamInst at h
  rw [hside] at h
  cases hl : c.schema.lookup n with
  | none => rw [hl] at h; exact H.side hS h
  | some d =>
    rw [hl] at h
    cases d with
    | scalar =>
      dsimp only at h
      cases hsc : p.co.scalars.get? n with
      | some q => rw [hsc] at h; exact H.coercions.legal n q (.inl hsc) w (worldOf_name.1 h)
      | none => rw [hsc] at h; exact H.side hS h
    | input =>
      rcases h with h | ⟨q, hq, h⟩
      · exact H.side hS h
      · exact H.coercions.legal n q (.inr hq) w (worldOf_name.1 h)
    | _ => exact H.side hS h

/-- One of the parameters is called `q`.  Its annotation accepts only values of the type `t`, and all of them unless the type is
coerced; the marker can be passed exactly if the parameter is not `required`. -/
def ArgFor (c : Ctx) (co : Coercions) (r1 : Reg) (T : List Stmt) (isa : String → Val → Prop) (args : List Arg) (q : String) (required : Prop)
    (t : TypeNode) : Prop :=
  ∃ A, Arg.mk q (some A) ∈ args ∧ (∀ w, Accepts (worldOf T isa) A w → InputValue c.schema (LeafValue c r1 isa) t w) ∧
    (co.scalars.get? t.base = none → ∀ w, InputValue c.schema (LeafValue c r1 isa) t w → Accepts (worldOf T isa) A w) ∧
    (required → NoMarker (unsetTypeName c.env) A) ∧
    (¬ required → ∃ ts, A = sub "Union" (.tuple ts) ∧ Expr.name (unsetTypeName c.env) ∈ ts)

theorem ArgFor.mono {args args' : List Arg} {q : String} {required : Prop} {t : TypeNode} (h : ArgFor c p.co r1 T isa args q required t)
    (hs : ∀ a ∈ args, a ∈ args') : ArgFor c p.co r1 T isa args' q required t := by
  obtain ⟨A, h1, h2⟩ := h
  exact ⟨A, hs _ h1, h2⟩

theorem params_left {a b : Params} : ∀ x ∈ a.pos ++ a.kw, x ∈ (a.append b).pos ++ (a.append b).kw := by
  intro x hx
  simp only [Params.append, List.mem_append] at hx ⊢
  rcases hx with hx | hx
  · exact .inl (.inl hx)
  · exact .inr (.inl hx)

theorem params_right {a b : Params} : ∀ x ∈ b.pos ++ b.kw, x ∈ (a.append b).pos ++ (a.append b).kw := by
  intro x hx
  simp only [Params.append, List.mem_append] at hx ⊢
  rcases hx with hx | hx
  · exact .inl (.inr hx)
  · exact .inr (.inr hx)

theorem TypedRun.variableAnnotation (H : TypedRun c pi r1 T isa S p.co) {r r' : Reg} (hs : SameTypes c.env r2 r) {t : TypeNode}
    (hS : S t.base) (hn : PlainVariableType c pi r1 t.base)
    (hreg : registeredClass c.env r2 t.base = inputSideClass c r1 t.base) {e : Expr}
    (h : variableAnnotation c.env p.co t r = .ok (e, r')) :
    NoMarker (unsetTypeName c.env) e ∧ (∀ w, Accepts (worldOf T isa) e w → InputValue c.schema (LeafValue c r1 isa) t w) ∧
    (p.co.scalars.get? t.base = none → ∀ w, InputValue c.schema (LeafValue c r1 isa) t w → Accepts (worldOf T isa) e w) := by
  obtain ⟨h1, h2⟩ := variableAnnotation_ok (W := worldOf T isa) (ut := unsetTypeName c.env) hs.styled hn.style H.coercions.target
    (by
      intro q hq hcl
      obtain ⟨fs, ds, hl⟩ := H.coercions.inputs _ q hq
      exact H.notMarker hS hl (by simp only [inputSideClass, hl, hcl]))
    h (fun hv => (H.variable_ hs hS hreg hv).1 rfl)
  exact ⟨h1, fun w hw => legal_value t (fun w hw => (H.variable_ hs hS hreg hw).2) ((h2 w).1 hw),
    fun hn w hw => (h2 w).2 (value_legal t (fun w h0 hw => H.variableInst hs hS hreg hn h0 hw) hw)⟩

theorem TypedRun.paramAnnotation (H : TypedRun c pi r1 T isa S p.co) {r r' : Reg} (hs : SameTypes c.env r2 r)
    (h12 : r2.scalarMap = r1.scalarMap) {t : TypeNode} (hS : S t.base) {e : Expr} (h : paramAnnotation c p.co t true r = .ok (e, r')) :
    (∀ w, Accepts (worldOf T isa) e w → InputValue c.schema (LeafValue c r1 isa) t w) ∧
    (p.co.scalars.get? t.base = none → ∀ w, InputValue c.schema (LeafValue c r1 isa) t w → Accepts (worldOf T isa) e w) := by
  have hsc := hs.scalarMap.trans h12
  have := ((paramAnnotation_shape (worldOf T isa) c p.co).sound t trivial true _ _ _ hs.styled h
    (fun hv => (H.param hsc hS hv).1 rfl)).2
  simp only [if_true] at this
  exact ⟨fun w hw => legal_value t (fun w hw => (H.param hsc hS hw).2) ((this w).1 hw),
    fun hn w hw => (this w).2 (value_legal t (fun w h0 hw => H.paramInst hsc hS hn h0 hw) hw)⟩

/-- a union with the type of the marker accepts nothing else -/
theorem TypedRun.unsetUnion (H : TypedRun c pi r1 T isa S p.co) {r r' : Reg} {a u : Expr} (h : unsetUnion c.env a r = .ok (u, r'))
    {w : Val} (hw : Accepts (worldOf T isa) u w) : Accepts (worldOf T isa) a w := by
  unfold Turms.unsetUnion at h
  obtain ⟨_, r2, h2, h⟩ := Gen.bind_ok.1 h
  obtain ⟨x, r3, h3, h⟩ := Gen.bind_ok.1 h
  obtain ⟨rfl, _⟩ := Gen.pure_ok.1 h
  rw [referenceUnsetType_ok h3, accepts_union] at hw
  obtain ⟨t, ht, hw⟩ := hw
  simp only [List.mem_cons, List.not_mem_nil, or_false] at ht
  rcases ht with rfl | rfl
  · exact hw
  · exact absurd ((sends_unbound H.unbound).1 (worldOf_name.1 hw)) (H.noInstance w)

theorem unsetUnion_form {W : World} {env : Env} {r r' : Reg} {a u : Expr} (h : unsetUnion env a r = .ok (u, r')) :
    (∃ ts, u = sub "Union" (.tuple ts) ∧ Expr.name (unsetTypeName env) ∈ ts) ∧ ∀ w, Accepts W a w → Accepts W u w := by
  unfold Turms.unsetUnion at h
  obtain ⟨_, r2, h2, h⟩ := Gen.bind_ok.1 h
  obtain ⟨x, r3, h3, h⟩ := Gen.bind_ok.1 h
  obtain ⟨rfl, _⟩ := Gen.pure_ok.1 h
  rw [referenceUnsetType_ok h3]
  exact ⟨⟨_, rfl, .tail _ (.head _)⟩, fun w hw => accepts_union.2 ⟨_, .head _, hw⟩⟩

/-! ## the parameters -/

theorem fieldParamOf_unique {env : Env} {v q : String} (hq : FieldParamOf env v q) {n : String} (hn : FieldParamOf env v n) : n = q := by
  unfold FieldParamOf at hn hq
  rw [hq] at hn
  cases hn
  rfl

theorem TypedRun.inputFieldParam (H : TypedRun c pi r1 T isa S p.co) {r r' : Reg} (hs : SameTypes c.env r2 r)
    (h12 : r2.scalarMap = r1.scalarMap) {f : InputFieldDef} (hS : S f.type.base) {P : Params}
    (h : inputFieldParam c p.co f r = .ok (P, r')) :
    ∃ q, FieldParamOf c.env f.name q ∧ ArgFor c p.co r1 T isa (P.pos ++ P.kw) q (RequiredField f) f.type := by
  unfold Turms.inputFieldParam at h
  obtain ⟨q, r3, hq, h⟩ := Gen.bind_ok.1 h
  obtain ⟨a, r4, ha, h⟩ := Gen.bind_ok.1 h
  have hs3 := hs.still still_nodeName hq
  obtain ⟨hacc, hex⟩ := H.paramAnnotation hs3 h12 hS ha
  have hside : inputSideClass c r3 = inputSideClass c r1 := by
    funext m
    unfold inputSideClass scalarClass
    rw [hs3.scalarMap, h12]
  refine ⟨q, (Gen.lift_ok.1 hq).1, ?_⟩
  split at h
  · rename_i hn
    obtain ⟨rfl, rfl⟩ := Gen.pure_ok.1 h
    refine ⟨a, by simp, hacc, hex,
      fun _ => noMarker_paramAnnotation f.type hs3.styled (fun q hq => (H.coercions.target _ q (.inr hq)).2) ?_ ha,
      fun hr => absurd (requiredField_iff.1 hn) hr⟩
    intro q hq
    obtain ⟨fs, ds, hl⟩ := H.coercions.inputs _ q hq
    rw [hside]
    exact H.notMarker hS hl
  · rename_i hn
    obtain ⟨u, r5, hu, h⟩ := Gen.bind_ok.1 h
    obtain ⟨x, r6, hx, h⟩ := Gen.bind_ok.1 h
    obtain ⟨rfl, rfl⟩ := Gen.pure_ok.1 h
    obtain ⟨g1, g2⟩ := unsetUnion_form (W := worldOf T isa) hu
    exact ⟨u, by simp, fun w hw => hacc w (H.unsetUnion hu hw), fun hf w hw => g2 w (hex hf w hw),
      fun hr => absurd (requiredField_iff.2 hr) hn, fun _ => g1⟩

theorem TypedRun.inputTypeParams (H : TypedRun c pi r1 T isa S p.co) (h12 : r2.scalarMap = r1.scalarMap) {fs : List InputFieldDef} :
    ∀ {r r' : Reg} {P : Params}, SameTypes c.env r2 r → (∀ f ∈ fs, S f.type.base) → inputTypeParams c p.co fs r = .ok (P, r') →
    ∀ f ∈ fs, ∃ q, FieldParamOf c.env f.name q ∧ ArgFor c p.co r1 T isa (P.pos ++ P.kw) q (RequiredField f) f.type := by
  induction fs with
  | nil => intro _ _ _ _ _ _ f hf; cases hf
  | cons g fs ih =>
    intro r r' P hs hS h f hf
    unfold Turms.inputTypeParams at h
    obtain ⟨a, r3, ha, h⟩ := Gen.bind_ok.1 h
    obtain ⟨b, r4, hb, h⟩ := Gen.bind_ok.1 h
    obtain ⟨rfl, rfl⟩ := Gen.pure_ok.1 h
    rcases List.mem_cons.1 hf with rfl | hf
    · obtain ⟨q, hq, hA⟩ := H.inputFieldParam hs h12 (hS _ (.head _)) ha
      exact ⟨q, hq, hA.mono params_left⟩
    · obtain ⟨q, hq, hA⟩ := ih (hs.still still_inputFieldParam ha) (fun f hf => hS f (.tail _ hf)) hb f hf
      exact ⟨q, hq, hA.mono params_right⟩

/-- the parameters for an expanded variable -/
def ExpandedArgs (c : Ctx) (co : Coercions) (r1 : Reg) (T : List Stmt) (isa : String → Val → Prop) (args : List Arg) (v : VarDef) : Prop :=
  ∃ n fs ds, (∃ r r', wrappedName v.type r = .ok (n, r')) ∧ v.type.base = n ∧ c.schema.lookup n = some (.input fs ds) ∧
    ∀ f ∈ fs, ∃ q, FieldParamOf c.env f.name q ∧ ArgFor c co r1 T isa args q (RequiredField f) f.type

theorem TypedRun.expandedParams (H : TypedRun c pi r1 T isa S p.co) (h12 : r2.scalarMap = r1.scalarMap) {vs : List VarDef} :
    ∀ {r r' : Reg} {P : Params}, SameTypes c.env r2 r → (∀ v ∈ vs, S v.type.base) → expandedParams c p vs r = .ok (P, r') →
    ∀ v ∈ vs, v.name ∈ p.expandInputTypes → ExpandedArgs c p.co r1 T isa (P.pos ++ P.kw) v := by
  induction vs with
  | nil => intro _ _ _ _ _ _ v hv; cases hv
  | cons x vs ih =>
    intro r r' P hs hS h v hv he
    unfold Turms.expandedParams at h
    split at h
    · obtain ⟨m, r3, hm, h⟩ := Gen.bind_ok.1 h
      obtain ⟨fs, r4, hfs, h⟩ := Gen.bind_ok.1 h
      obtain ⟨a, r5, ha, h⟩ := Gen.bind_ok.1 h
      obtain ⟨b, r6, hb, h⟩ := Gen.bind_ok.1 h
      obtain ⟨rfl, rfl⟩ := Gen.pure_ok.1 h
      have s4 := (hs.still still_wrappedName hm).still still_expandedFields hfs
      rcases List.mem_cons.1 hv with rfl | hv
      · obtain ⟨ds, hl⟩ := expandedFields_ok hfs
        have hb0 := wrappedName_base hm
        refine ⟨m, fs, ds, ⟨_, _, hm⟩, hb0.symm, hl, fun f hf => ?_⟩
        obtain ⟨q, hq, hA⟩ := H.inputTypeParams h12 s4
          (fun f hf => H.inputs.closed.fields m fs ds (hb0 ▸ hS _ (.head _)) hl f hf) ha f hf
        exact ⟨q, hq, hA.mono params_left⟩
      · obtain ⟨n, fs', ds, h1, h2, h3, h4⟩ := ih (s4.still (still_inputTypeParams _) ha) (fun f hf => hS f (.tail _ hf)) hb v hv he
        refine ⟨n, fs', ds, h1, h2, h3, fun f hf => ?_⟩
        obtain ⟨q, hq, hA⟩ := h4 f hf
        exact ⟨q, hq, hA.mono params_right⟩
    · rename_i hx
      rcases List.mem_cons.1 hv with rfl | hv
      · exact absurd (by simpa using he) hx
      · exact ih hs (fun f hf => hS f (.tail _ hf)) h v hv he

/-- the parameter for a variable that is not expanded -/
def VariableArg (c : Ctx) (co : Coercions) (r1 : Reg) (T : List Stmt) (isa : String → Val → Prop) (args : List Arg) (v : VarDef) : Prop :=
  ∃ q, ParamOf c.env v.name q ∧ ArgFor c co r1 T isa args q (RequiredVar v) v.type

/-- what is known about the type of a variable -/
def KnownVariable (c : Ctx) (pi : InputsConfig) (r1 r2 : Reg) (S : String → Prop) (v : VarDef) : Prop :=
  S v.type.base ∧ PlainVariableType c pi r1 v.type.base ∧ registeredClass c.env r2 v.type.base = inputSideClass c r1 v.type.base

theorem TypedRun.requiredParams (H : TypedRun c pi r1 T isa S p.co) {vs : List VarDef} :
    ∀ {r r' : Reg} {P : Params}, SameTypes c.env r2 r → (∀ v ∈ vs, KnownVariable c pi r1 r2 S v ∧ RequiredVar v) →
    requiredParams c p vs r = .ok (P, r') → ∀ v ∈ vs, VariableArg c p.co r1 T isa (P.pos ++ P.kw) v := by
  induction vs with
  | nil => intro _ _ _ _ _ _ v hv; cases hv
  | cons x vs ih =>
    intro r r' P hs hS h v hv
    unfold Turms.requiredParams at h
    obtain ⟨q, r3, hq, h⟩ := Gen.bind_ok.1 h
    obtain ⟨a, r4, ha, h⟩ := Gen.bind_ok.1 h
    obtain ⟨b, r5, hb, h⟩ := Gen.bind_ok.1 h
    obtain ⟨rfl, rfl⟩ := Gen.pure_ok.1 h
    have s3 := hs.still still_parameterName hq
    rcases List.mem_cons.1 hv with rfl | hv
    · obtain ⟨⟨h1, h2, h3⟩, h0⟩ := hS _ (.head _)
      obtain ⟨h4, h5, h6⟩ := H.variableAnnotation s3 h1 h2 h3 ha
      exact ⟨q, (Gen.lift_ok.1 hq).1, a, params_left _ (by simp), h5, h6, fun _ => h4, fun hr => absurd h0 hr⟩
    · obtain ⟨q, hq, hA⟩ := ih (s3.still still_variableAnnotation ha) (fun v hv => hS v (.tail _ hv)) hb v hv
      exact ⟨q, hq, hA.mono params_right⟩

theorem TypedRun.optionalParams (H : TypedRun c pi r1 T isa S p.co) {vs : List VarDef} :
    ∀ {r r' : Reg} {P : Params}, SameTypes c.env r2 r → (∀ v ∈ vs, KnownVariable c pi r1 r2 S v ∧ ¬ RequiredVar v) →
    optionalParams c p vs r = .ok (P, r') → ∀ v ∈ vs, VariableArg c p.co r1 T isa (P.pos ++ P.kw) v := by
  induction vs with
  | nil => intro _ _ _ _ _ _ v hv; cases hv
  | cons x vs ih =>
    intro r r' P hs hS h v hv
    unfold Turms.optionalParams at h
    obtain ⟨q, r3, hq, h⟩ := Gen.bind_ok.1 h
    obtain ⟨a, r4, ha, h⟩ := Gen.bind_ok.1 h
    obtain ⟨u, r5, hu, h⟩ := Gen.bind_ok.1 h
    obtain ⟨y, r6, hy, h⟩ := Gen.bind_ok.1 h
    obtain ⟨b, r7, hb, h⟩ := Gen.bind_ok.1 h
    obtain ⟨rfl, rfl⟩ := Gen.pure_ok.1 h
    have s3 := hs.still still_parameterName hq
    rcases List.mem_cons.1 hv with rfl | hv
    · obtain ⟨⟨h1, h2, h3⟩, h0⟩ := hS _ (.head _)
      obtain ⟨h4, h5, h6⟩ := H.variableAnnotation s3 h1 h2 h3 ha
      obtain ⟨g1, g2⟩ := unsetUnion_form (W := worldOf T isa) hu
      exact ⟨q, (Gen.lift_ok.1 hq).1, u, params_left _ (by simp), fun w hw => h5 w (H.unsetUnion hu hw),
        fun hf w hw => g2 w (h6 hf w hw), fun hr => absurd hr h0, fun _ => g1⟩
    · obtain ⟨q, hq, hA⟩ := ih (((s3.still still_variableAnnotation ha).still still_unsetUnion hu).still still_referenceUnset hy)
        (fun v hv => hS v (.tail _ hv)) hb v hv
      exact ⟨q, hq, hA.mono params_right⟩

theorem TypedRun.generateParameters (H : TypedRun c pi r1 T isa S p.co) (h12 : r2.scalarMap = r1.scalarMap) {d : FuncDefinition}
    {o : OpDef} {r r' : Reg} {P : Params} (hs : SameTypes c.env r2 r) (hS : ∀ v ∈ o.vars, S v.type.base)
    (hv : ∀ v ∈ o.vars, v.name ∉ p.expandInputTypes → KnownVariable c pi r1 r2 S v)
    (hexp : ∀ v ∈ o.vars, v.name ∈ p.expandInputTypes → RequiredVar v) (h : generateParameters c p d o r = .ok (P, r')) :
    ∀ v ∈ o.vars, (v.name ∉ p.expandInputTypes → VariableArg c p.co r1 T isa (P.pos ++ P.kw) v) ∧
      (v.name ∈ p.expandInputTypes → ExpandedArgs c p.co r1 T isa (P.pos ++ P.kw) v) := by
  unfold Turms.generateParameters at h
  obtain ⟨a, q1, ha, h⟩ := Gen.bind_ok.1 h
  obtain ⟨b, q2, hb, h⟩ := Gen.bind_ok.1 h
  obtain ⟨e, q3, he, h⟩ := Gen.bind_ok.1 h
  obtain ⟨f, q4, hf, h⟩ := Gen.bind_ok.1 h
  obtain ⟨g, q5, hg, h⟩ := Gen.bind_ok.1 h
  obtain ⟨rfl, rfl⟩ := Gen.pure_ok.1 h
  have s1 := hs.still (still_extraArgParams _) ha
  have s2 := s1.still (still_expandedParams _) hb
  have s3 := s2.still (still_requiredParams _) he
  have hleft {x : Arg} {a b : Params} (h : x ∈ a.pos ++ a.kw) : x ∈ (a.append b).pos ++ (a.append b).kw := params_left x h
  have hright {x : Arg} {a b : Params} (h : x ∈ b.pos ++ b.kw) : x ∈ (a.append b).pos ++ (a.append b).kw := params_right x h
  intro v hvm
  refine ⟨fun hn => ?_, fun hn => ?_⟩
  · by_cases hr : RequiredVar v
    · obtain ⟨q, hq, hA⟩ := H.requiredParams s2
        (by
          intro v hv'
          rw [List.mem_filter, List.mem_filter] at hv'
          exact ⟨hv v hv'.1.1 (by simpa using hv'.2), requiredVar_iff.1 hv'.1.2⟩) he v
        (by rw [List.mem_filter, List.mem_filter, requiredVar_iff]; exact ⟨⟨hvm, hr⟩, by simpa using hn⟩)
      exact ⟨q, hq, hA.mono fun x hx => hleft (hleft (hright hx))⟩
    · obtain ⟨q, hq, hA⟩ := H.optionalParams s3
        (by
          intro v hv'
          rw [List.mem_filter] at hv'
          have hr' := optionalVar_iff.1 (show v.isRequired = false by simpa using hv'.2)
          exact ⟨hv v hv'.1 fun he => hr' (hexp v hv'.1 he), hr'⟩) hf v
        (by rw [List.mem_filter]; exact ⟨hvm, by simpa using optionalVar_iff.2 hr⟩)
      exact ⟨q, hq, hA.mono fun x hx => hleft (hright hx)⟩
  · obtain ⟨n, fs, ds, h1, h2, h3, h4⟩ := H.expandedParams h12 s1
      (by intro v hv'; rw [List.mem_filter] at hv'; exact hS v hv'.1) hb v
      (by rw [List.mem_filter, requiredVar_iff]; exact ⟨hvm, hexp v hvm hn⟩) hn
    refine ⟨n, fs, ds, h1, h2, h3, fun f hf => ?_⟩
    obtain ⟨q, hq, hA⟩ := h4 f hf
    exact ⟨q, hq, hA.mono fun x hx => hleft (hleft (hleft (hright hx)))⟩

end

/-! ## serialised dictionaries -/

theorem wireEntries_some {R : String → Val → Prop} : ∀ {kvs : List (String × PyVal)},
    (∀ k x, (k, x) ∈ kvs → ∃ w, wire x = some w ∧ R k w) →
    ∃ ws, wireEntries kvs = some ws ∧ ws.map (·.1) = kvs.map (·.1) ∧ ∀ k w, (k, w) ∈ ws → R k w := by
  intro kvs
  induction kvs with
  | nil => intro _; exact ⟨[], rfl, rfl, fun _ _ h => by cases h⟩
  | cons e es ih =>
    intro h
    obtain ⟨k, x⟩ := e
    obtain ⟨w, hw, hR⟩ := h k x (.head _)
    obtain ⟨ws, h1, h2, h3⟩ := ih fun k x hx => h k x (.tail _ hx)
    refine ⟨(k, w) :: ws, by simp only [wireEntries, hw, h1], by simp [h2], fun k' w' hm => ?_⟩
    rcases List.mem_cons.1 hm with e | hm
    · cases e; exact hR
    · exact h3 k' w' hm

/-- the supplied fields as a list -/
theorem fieldPayload_exists {env : Env} {L : Locals} {fs : List InputFieldDef} (hn : (fs.map (·.name)).Nodup) :
    ∃ entries, FieldPayload env L fs entries := by
  induction fs with
  | nil => exact ⟨[], by simp, fun k x => by simp⟩
  | cons f fs ih =>
    rw [List.map_cons, List.nodup_cons] at hn
    obtain ⟨es, h1, h2⟩ := ih hn.2
    by_cases hf : ∃ x, ∃ param, FieldParamOf env f.name param ∧ Supplied L (unsetName env) param (RequiredField f) x
    · obtain ⟨x, param, hp, hsup⟩ := hf
      refine ⟨(f.name, x) :: es, ?_, fun k y => ?_⟩
      · rw [List.map_cons, List.nodup_cons]
        refine ⟨fun hm => ?_, h1⟩
        obtain ⟨⟨k, y⟩, hy, hk⟩ := List.mem_map.1 hm
        obtain ⟨g, hg, hgn, _⟩ := (h2 k y).1 hy
        exact hn.1 (List.mem_map.2 ⟨g, hg, by rw [hgn]; exact hk⟩)
      · rw [List.mem_cons, h2]
        constructor
        · rintro (e | ⟨g, hg, h⟩)
          · cases e; exact ⟨f, .head _, rfl, param, hp, hsup⟩
          · exact ⟨g, .tail _ hg, h⟩
        · rintro ⟨g, hg, hgn, q, hq, hs⟩
          rcases List.mem_cons.1 hg with rfl | hg
          · have := fieldParamOf_unique hp hq
            subst this
            have : y = x := by
              have h1 := hs.1
              rw [hsup.1] at h1
              cases h1; rfl
            subst this
            exact .inl (by rw [hgn])
          · exact .inr ⟨g, hg, hgn, q, hq, hs⟩
    · refine ⟨es, h1, fun k y => ?_⟩
      rw [h2]
      constructor
      · rintro ⟨g, hg, h⟩; exact ⟨g, .tail _ hg, h⟩
      · rintro ⟨g, hg, hgn, q, hq, hs⟩
        rcases List.mem_cons.1 hg with rfl | hg
        · exact (hf ⟨y, q, hq, hs⟩).elim
        · exact ⟨g, hg, hgn, q, hq, hs⟩

section
variable {c : Ctx} {r1 : Reg} {T : List Stmt} {isa : String → Val → Prop} {p : FuncsConfig}

theorem ArgFor.sends {args : List Arg} {q : String} {required : Prop} {t : TypeNode} {L : Locals} {x : PyVal}
    (h : ArgFor c p.co r1 T isa args q required t) (hL : TypedArguments (serialWorld T isa) c.env args L)
    (hx : Supplied L (unsetName c.env) q required x) : ∃ w, wire x = some w ∧ InputValue c.schema (LeafValue c r1 isa) t w := by
  obtain ⟨A, hm, hA, _, hmark, _⟩ := h
  cases hL _ hm A rfl x hx.1 with
  | marker ht =>
    rcases hx.2 with hr | hn
    · exact absurd ht (hmark hr _ rfl)
    · simp [PyVal.is] at hn
  | value hw ha => exact ⟨_, hw, hA _ ha⟩

theorem ArgFor.bound {args : List Arg} {q : String} {required : Prop} {t : TypeNode} {L : Locals}
    (h : ArgFor c p.co r1 T isa args q required t) (hL : L.map (·.1) = args.map (·.arg)) : ∃ x, L.find q = some x := by
  obtain ⟨A, hm, _⟩ := h
  exact find_some_of_mem (by rw [hL]; exact List.mem_map.2 ⟨_, hm, rfl⟩)

/-- the fields supplied by a call with well-typed arguments make a legal value of an input type -/
theorem fields_accepted {n : String} {fs : List InputFieldDef} {ds : List DirectiveUse} {args : List Arg} {L : Locals}
    {entries : List (String × PyVal)} (hl : c.schema.lookup n = some (.input fs ds)) (hone : ¬ OneOf ds)
    (hfn : (fs.map (·.name)).Nodup)
    (hf : ∀ f ∈ fs, ∃ q, FieldParamOf c.env f.name q ∧ ArgFor c p.co r1 T isa args q (RequiredField f) f.type)
    (hnames : L.map (·.1) = args.map (·.arg)) (hL : TypedArguments (serialWorld T isa) c.env args L)
    (hpay : FieldPayload c.env L fs entries) :
    ∃ ws, wireEntries entries = some ws ∧ InputValue c.schema (LeafValue c r1 isa) (.named n) (.obj ws) := by
  obtain ⟨ws, g1, g2, g3⟩ := wireEntries_some (R := fun k w => ∀ f ∈ fs, f.name = k →
      InputValue c.schema (LeafValue c r1 isa) f.type w) (kvs := entries) (by
    intro k y hy
    obtain ⟨f, hfm, hfk, q, hq, hs⟩ := (hpay.2 k y).1 hy
    obtain ⟨q', hq', hA⟩ := hf f hfm
    have := fieldParamOf_unique hq' hq
    subst this
    obtain ⟨w, hw, hv⟩ := hA.sends hL hs
    refine ⟨w, hw, fun g hg hgk => ?_⟩
    rw [List.inj_on_of_nodup_map hfn hg hfm (by rw [hgk, hfk])]
    exact hv)
  refine ⟨ws, g1, .object hl hone (by rw [g2]; exact hpay.1) ?_ ?_ ?_⟩
  · intro k w hw
    have : k ∈ entries.map (·.1) := by rw [← g2]; exact List.mem_map.2 ⟨_, hw, rfl⟩
    obtain ⟨⟨k', y⟩, hy, rfl⟩ := List.mem_map.1 this
    obtain ⟨f, hfm, hfk, _⟩ := (hpay.2 _ y).1 hy
    exact ⟨f, hfm, hfk⟩
  · intro f hfm hnn _
    obtain ⟨q, hq, hA⟩ := hf f hfm
    obtain ⟨y, hy⟩ := hA.bound hnames
    have hm := (hpay.2 f.name y).2 ⟨f, hfm, rfl, q, hq, hy, .inl (requiredField_iff.1 hnn)⟩
    have : f.name ∈ ws.map (·.1) := by rw [g2]; exact List.mem_map.2 ⟨_, hm, rfl⟩
    obtain ⟨⟨k', w⟩, hw, hk⟩ := List.mem_map.1 this
    exact ⟨w, hk ▸ hw⟩
  · intro f hfm w hw
    exact g3 _ w hw f hfm rfl

/-- the variables sent by a call with well-typed arguments are accepted -/
theorem payload_accepted {o : OpDef} {args : List Arg} {L : Locals} {kvs : List (String × PyVal)}
    (hnd : (o.vars.map (·.name)).Nodup) (hexp : ∀ v ∈ o.vars, v.name ∈ p.expandInputTypes → ExpandableVariable c v)
    (hargs : ∀ v ∈ o.vars, (v.name ∉ p.expandInputTypes → VariableArg c p.co r1 T isa args v) ∧
      (v.name ∈ p.expandInputTypes → ExpandedArgs c p.co r1 T isa args v))
    (hnames : L.map (·.1) = args.map (·.arg)) (hL : TypedArguments (serialWorld T isa) c.env args L)
    (h : VariablesPayload c p o L kvs) :
    ∃ ws, wireEntries kvs = some ws ∧ VariableValues c.schema (LeafValue c r1 isa) o.vars ws := by
  obtain ⟨h1, h2, h3⟩ := h
  have hsent : ∀ v ∈ o.vars, ∀ x, SentAs c p L v x → ∃ w, wire x = some w ∧ InputValue c.schema (LeafValue c r1 isa) v.type w := by
    rintro v hv x (⟨hn, q, hq, hs⟩ | ⟨hn, fs, entries, hfs, hpay, rfl⟩)
    · obtain ⟨q', hq', hA⟩ := (hargs v hv).1 hn
      have := (paramOf_unique hq' q).1 hq
      subst this
      exact hA.sends hL hs
    · obtain ⟨n, fs', ds, hw, hb, hl, hf⟩ := (hargs v hv).2 hn
      have hfs' : fs' = fs := fieldsOfVar_unique hfs ⟨ds, by rw [hb]; exact hl⟩
      subst hfs'
      obtain ⟨hreq, hone⟩ := hexp v hv hn
      obtain ⟨hone, hfn⟩ := hone fs' ds (by rw [hb]; exact hl)
      obtain ⟨ws, g1, g2⟩ := fields_accepted hl hone hfn hf hnames hL hpay
      have htype : v.type = .nonNull (.named n) := by
        obtain ⟨⟨t, ht⟩, _⟩ := hreq
        obtain ⟨q, q', hw⟩ := hw
        rw [ht] at hw hb ⊢
        cases t with
        | named m => rw [← hb]; rfl
        | list t => simp [wrappedName, Gen.fail] at hw
        | nonNull t => simp [wrappedName, Gen.fail] at hw
      refine ⟨.obj ws, by simp only [wire, g1], ?_⟩
      rw [htype]
      exact .nonNull (by simp) g2
  obtain ⟨ws, g1, g2, g3⟩ := wireEntries_some (R := fun k w => ∃ v ∈ o.vars, v.name = k ∧
      InputValue c.schema (LeafValue c r1 isa) v.type w) (kvs := kvs) (by
    intro k x hx
    obtain ⟨v, hv, hk, hs⟩ := h2 k x hx
    obtain ⟨w, hw, hi⟩ := hsent v hv x hs
    exact ⟨w, hw, v, hv, hk, hi⟩)
  refine ⟨ws, g1, by rw [g2]; exact h1, ?_, ?_, ?_⟩
  · intro k w hw
    obtain ⟨v, hv, hk, _⟩ := g3 k w hw
    exact ⟨v, hv, hk⟩
  · intro v hv hnn hdef
    have hreq : RequiredVar v := requiredVar_iff.1 (by simp [VarDef.isRequired, hnn, hdef])
    have hx : ∃ x, SentAs c p L v x := by
      by_cases hn : v.name ∈ p.expandInputTypes
      · obtain ⟨n, fs, ds, _, hb, hl, _⟩ := (hargs v hv).2 hn
        obtain ⟨_, hone⟩ := hexp v hv hn
        obtain ⟨entries, he⟩ := fieldPayload_exists (env := c.env) (L := L) (hone fs ds (by rw [hb]; exact hl)).2
        exact ⟨_, .inr ⟨hn, fs, entries, ⟨ds, by rw [hb]; exact hl⟩, he, rfl⟩⟩
      · obtain ⟨q, hq, hA⟩ := (hargs v hv).1 hn
        obtain ⟨x, hx⟩ := hA.bound hnames
        exact ⟨x, .inl ⟨hn, q, hq, hx, .inl hreq⟩⟩
    have := h3 v hv hx
    rw [← g2] at this
    obtain ⟨⟨k, w⟩, hw, hk⟩ := List.mem_map.1 this
    exact ⟨w, hk ▸ hw⟩
  · intro v hv w hw
    obtain ⟨v', hv', hk, hi⟩ := g3 _ w hw
    rw [← List.inj_on_of_nodup_map hnd hv' hv hk]
    exact hi

end

/-! ## factories -/

theorem factories_each {c : Ctx} {p : InputFuncsConfig} : ∀ {ts : List InputType} {ss : List Stmt} {r r' : Reg},
    factories c p ts r = .ok (ss, r') →
    List.Forall₂ (fun t f => ∃ q q', Quiet r q ∧ inputFunc c p t.name t.fields q = .ok (f, q'))
      (ts.filter fun t => !skipsFactory p r t.name) ss := by
  intro ts
  induction ts with
  | nil =>
    intro ss r r' h
    unfold factories at h
    obtain ⟨rfl, rfl⟩ := Gen.pure_ok.1 h
    exact .nil
  | cons t ts ih =>
    intro ss r r' h
    unfold factories at h
    obtain ⟨a, r1, h1, h⟩ := Gen.bind_ok.1 h
    obtain ⟨b, r2, h2, h⟩ := Gen.bind_ok.1 h
    obtain ⟨rfl, rfl⟩ := Gen.pure_ok.1 h
    have hrest := ih h2
    unfold factoryStep at h1
    split at h1
    · rename_i hs
      cases h1
      rw [List.filter_cons_of_neg (by simp [hs])]
      exact hrest
    · rename_i hs
      split at h1
      · cases h1
      · rename_i s r3 hf
        cases h1
        rw [List.filter_cons_of_pos (by simpa using hs)]
        have hq := still_inputFunc.quiet hf
        have hsk : (fun t : InputType => !skipsFactory p r1 t.name) = fun t => !skipsFactory p r t.name := by
          obtain ⟨_, _, _, e, _⟩ := hq
          funext t'
          unfold skipsFactory
          rw [e]
        rw [hsk] at hrest
        refine .cons ⟨r, _, Quiet.refl r, hf⟩ (forall₂_mem_imp hrest fun t' _ f' ⟨q, q', h1, h2⟩ => ⟨q, q', hq.trans h1, h2⟩)

/-- a call of a factory with well-typed arguments builds a legal value -/
theorem TypedRun.factory {c : Ctx} {pi : InputsConfig} {p : InputFuncsConfig} {r1 r2 r r' : Reg} {T : List Stmt}
    {isa : String → Val → Prop} {S : String → Prop} (H : TypedRun c pi r1 T isa S p.co)
    (h12 : r2.scalarMap = r1.scalarMap) (hs : SameTypes c.env r2 r) {n : String} {fs : List InputFieldDef} {ds : List DirectiveUse}
    (hl : c.schema.lookup n = some (.input fs ds)) (hone : ¬ OneOf ds) (hS : S n) (hfn : (fs.map (·.name)).Nodup) {f : Stmt}
    (hf : inputFunc c p n fs r = .ok (f, r')) : BuildsAccepted c T isa (LeafValue c r1 isa) n fs f := by
  obtain ⟨cls, hcls, name, args, defaults, body, he, _, _, _, _, hcall⟩ := inputFunc_faithful hf hfn
  have hside : inputSideClass c r1 n = some cls := by
    simp only [inputSideClass, hl, styledName, hs.styled .input n cls hcls]
    rfl
  refine ⟨cls, hs.styled .input n cls hcls, name, args, defaults, body, he, fun M pos kw L h1 h2 h3 h4 hb htyped => ?_⟩
  obtain ⟨out, g1, g2, g3, g4, _⟩ := hcall M pos kw L h1 h2 h3 h4 hb
  unfold inputFunc at hf
  obtain ⟨k, q1, hk, hf⟩ := Gen.bind_ok.1 hf
  obtain ⟨param, q2, hq, hf⟩ := Gen.bind_ok.1 hf
  obtain ⟨P, q3, hP, hf⟩ := Gen.bind_ok.1 hf
  obtain ⟨_, q4, _, hf⟩ := Gen.bind_ok.1 hf
  obtain ⟨_, q5, _, hf⟩ := Gen.bind_ok.1 hf
  obtain ⟨_, q6, _, hf⟩ := Gen.bind_ok.1 hf
  obtain ⟨hfe, _⟩ := Gen.pure_ok.1 hf
  rw [he] at hfe
  cases hfe
  have H' : TypedRun c pi r1 T isa S ({ co := p.co } : FuncsConfig).co := H
  have hargs := H'.inputTypeParams (p := { co := p.co }) h12 ((hs.still still_getClass hk).still still_parameterName hq)
    (fun g hg => H.inputs.closed.fields n fs ds hS hl g hg) hP
  obtain ⟨ws, g5, g6⟩ := fields_accepted hl hone hfn hargs (bindCall_some hb).2 htyped g4
  exact ⟨out, ws, g1, g2, g3, g5, g6, legal_sent H.inputs _ _ (Nat.lt_succ_self _) n cls hS hside (by simp) g6⟩

end Turms
