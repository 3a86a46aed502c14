import Verif.Lemmas.Variables
import Verif.Props.InputValues
import Verif.Props.FuncScope

/-!
# C87: the variables a client can send are those the server accepts

The enums, inputs, fragments and operations plugins are run on a fresh registry.  The class `Arguments` inside the class of an
operation stands for its variables.
-/

namespace Turms.Props
open Turms Turms.Spec

/-- the names of variable types mean the same in documents and in the schema -/
theorem registeredClass_sideClass {c : Ctx} {pe : EnumsConfig} {pi : InputsConfig} {r1 r2 : Reg} {ss1 ss2 : List Stmt}
    (henums : generateEnums c pe (Reg.init c.env) = .ok (ss1, r1)) (hinputs : generateInputs c pi r1 = .ok (ss2, r2))
    (hplain : PlainConfig c.config) (hnodup : c.schema.types.keys.Nodup) {S : String → Prop} (hS : ClosedInputs c pi S)
    {n : String} (hSn : S n) (hn : PlainVariableType c pi r1 n) :
    registeredClass c.env r2 n = inputSideClass c r1 n := by
  have e1 := (generateEnums_ok henums).1
  have s1 := e1.styled (styled_stateAfter c.env [])
  obtain ⟨⟨K, e2, hK⟩, _⟩ := generateInputs_ok s1 hplain hnodup hinputs
  obtain ⟨L, hL, hLK, _, _⟩ := e2.map
  have h0 : r1.inputMap = [] := e1.other .input (by decide)
  have hmap : r2.inputMap = L := by
    have : r2.inputMap = r1.inputMap ++ L := hL
    rw [this, h0]; rfl
  have hcont : r2.inputMap.contains n = true ↔ InputKey c pi n := by
    rw [hmap, Dict.contains_iff, ← hK, ← hLK]; rfl
  have hsc : scalarClass r2 n = scalarClass r1 n := by unfold scalarClass; rw [e2.scalar]
  unfold registeredClass inputSideClass
  rw [hsc]
  rcases hn.known with (hl | ⟨vs, hl⟩) | ⟨fs, ds, hl⟩
  · obtain ⟨x, hx⟩ := Option.isSome_iff_exists.1 (hn.scalar.2 hl)
    simp [hl, scalarClass, hx]
  · have hx : r1.scalarMap.get? n = none := by
      cases hx : r1.scalarMap.get? n with
      | none => rfl
      | some x => exact absurd (hn.scalar.1 (by rw [hx]; rfl)) (by rw [hl]; simp)
    have hk : r2.inputMap.contains n = false := by
      rw [Bool.eq_false_iff]
      intro h
      obtain ⟨fs, ds, h⟩ := hn.key (hcont.1 h)
      rw [hl] at h
      cases h
    simp [hl, scalarClass, hx, hk]
  · have hx : r1.scalarMap.get? n = none := by
      cases hx : r1.scalarMap.get? n with
      | none => rfl
      | some x => exact absurd (hn.scalar.1 (by rw [hx]; rfl)) (by rw [hl]; simp)
    obtain ⟨d, ht⟩ := lookup_inputOf hl
    have hk : r2.inputMap.contains n = true :=
      hcont.2 (.inl ⟨_, ht, .inr (hS.kept _ ht hSn), rfl⟩)
    simp [hl, scalarClass, hx, hk]

/-- the `Arguments` classes of all operations, and the inputs they refer to -/
theorem arguments_run {prep : List Char → List Char} {c : Ctx} {pe : EnumsConfig} {pi : InputsConfig} {pf : FragmentsConfig}
    {po : OperationsConfig} {doc : Document} {r1 r2 r3 r4 : Reg} {ss1 ss2 ss3 ss4 : List Stmt}
    {isa : String → Val → Prop} {S : String → Prop}
    (henums : generateEnums c pe (Reg.init c.env) = .ok (ss1, r1)) (hinputs : generateInputs c pi r1 = .ok (ss2, r2))
    (hfrag : fragmentsPlugin prep c pf doc r2 = .ok (ss3, r3)) (hops : operationsPlugin prep c po doc r3 = .ok (ss4, r4))
    (hplain : PlainConfig c.config) (hnodup : c.schema.types.keys.Nodup) (hargs : po.createArguments = true)
    (hS : ClosedInputs c pi S) (hU : Unambiguous c pi r1 ss2 isa) (o : OpDef) (ho : o ∈ operationsOf doc)
    (hvars : ∀ v ∈ o.vars, S v.type.base ∧ PlainVariableType c pi r1 v.type.base) :
    InputsRun c pi r1 ss2 isa S ∧ ∃ cls fields, OperationClass c o cls ∧ ArgumentsOf ss4 cls fields ∧
      List.Forall₂ (FieldFor c.env r2 ss2 isa) o.vars fields ∧
      ∀ v ∈ o.vars, registeredClass c.env r2 v.type.base = inputSideClass c r1 v.type.base := by
  have e1 := (generateEnums_ok henums).1
  have s1 := e1.styled (styled_stateAfter c.env [])
  obtain ⟨⟨K, e2, _⟩, _⟩ := generateInputs_ok s1 hplain hnodup hinputs
  have H : InputsRun c pi r1 ss2 isa S :=
    ⟨hS, hU, fun _ _ _ _ hSn hl hc => shape_of s1 hplain hnodup hinputs hS hU hSn hl hc⟩
  have t3 := sameTypes_fragmentsPlugin (r0 := r2) ⟨e2.styled s1, rfl, rfl⟩ hfrag
  obtain ⟨q, q', code, t4, hgen, hsub⟩ := operations_each (operationsOf doc) t3 hops o ho
  obtain ⟨name, cls, fields, hname, hsty, ⟨bases, body, ds, abases, abody, h1, h2, h3⟩, hf⟩ :=
    generateOperation_arguments (T := ss2) (isa := isa) hargs t4 (fun v hv => (hvars v hv).2.style) hgen
  exact ⟨H, cls, fields, ⟨name, hname, hsty⟩, ⟨bases, body, ds, abases, abody, hsub _ h1, h2, h3⟩, hf,
    fun v hv => registeredClass_sideClass henums hinputs hplain hnodup hS (hvars v hv).1 (hvars v hv).2⟩

/-- every accepted map of variables can be sent -/
theorem accepted_sends {c : Ctx} {pi : InputsConfig} {r1 r2 : Reg} {ss2 : List Stmt} {isa : String → Val → Prop} {S : String → Prop}
    {vars : List VarDef} {fields : List MField} (H : InputsRun c pi r1 ss2 isa S)
    (hf : List.Forall₂ (FieldFor c.env r2 ss2 isa) vars fields) (hvars : ∀ v ∈ vars, S v.type.base)
    (hreg : ∀ v ∈ vars, registeredClass c.env r2 v.type.base = inputSideClass c r1 v.type.base) {kvs : List (String × Val)}
    (hv : VariableValues c.schema (LeafValue c r1 isa) vars kvs) : SendsFields ss2 isa fields kvs := by
  refine ⟨hv.once, fun k x hx => ?_, fun f hfm hdef => ?_, fun f hfm x hx => ?_⟩
  · obtain ⟨v, hvm, rfl⟩ := hv.declared k x hx
    obtain ⟨f, hfm, hff⟩ := forall₂_mem_left hf hvm
    exact ⟨f, hfm, hff.key⟩
  · obtain ⟨v, hvm, hff⟩ := forall₂_mem_right hf hfm
    rw [hff.default, VarDef.isOptional, Bool.or_eq_false_iff, Bool.not_eq_false'] at hdef
    rw [hff.key]
    exact hv.required v hvm hdef.1 (Option.isSome_eq_false_iff.1 hdef.2 |> Option.isNone_iff_eq_none.1)
  · obtain ⟨v, hvm, hff⟩ := forall₂_mem_right hf hfm
    rw [hff.key] at hx
    have hSv := hvars v hvm
    have hinst : ∀ y, Inst (worldOf ss2 isa) (registeredClass c.env r2) v.type.base y ↔
        Inst (worldOf ss2 isa) (inputSideClass c r1) v.type.base y := fun y => by unfold Inst; rw [hreg v hvm]
    obtain ⟨cl, hcl⟩ := hff.class_
    rw [hreg v hvm] at hcl
    refine (hff.sends (by rw [hinst]; exact H.noNull hSv) x).2 (.inr ?_)
    rw [legal_congr v.type hinst]
    exact inputValue_legal v.type (fun y _ n cls hSn hc h0 hy => legal_sent H _ y (Nat.lt_succ_self _) n cls hSn hc h0 hy) hSv
      ⟨cl, hcl⟩ (hv.legal v hvm x hx)

/-- Run the enums, inputs, fragments and operations plugins, creating `Arguments` classes.  Take an operation whose variables
have types of `S` (types closed under fields, generated and not part of a `@unionElementOf` union) that mean the same in the
document.  Every map of variables the server accepts for the operation can be sent: an instance of the class
`Arguments` inside the class of the operation is serialised to it. -/
theorem C87_accepted_variables_can_be_sent {prep : List Char → List Char} {c : Ctx} {pe : EnumsConfig} {pi : InputsConfig}
    {pf : FragmentsConfig} {po : OperationsConfig} {doc : Document} {r1 r2 r3 r4 : Reg} {ss1 ss2 ss3 ss4 : List Stmt}
    {isa : String → Val → Prop} {S : String → Prop}
    (henums : generateEnums c pe (Reg.init c.env) = .ok (ss1, r1)) (hinputs : generateInputs c pi r1 = .ok (ss2, r2))
    (hfrag : fragmentsPlugin prep c pf doc r2 = .ok (ss3, r3)) (hops : operationsPlugin prep c po doc r3 = .ok (ss4, r4))
    (hplain : PlainConfig c.config) (hnodup : c.schema.types.keys.Nodup) (hargs : po.createArguments = true)
    (hS : ClosedInputs c pi S) (hU : Unambiguous c pi r1 ss2 isa) (o : OpDef) (ho : o ∈ operationsOf doc)
    (hvars : ∀ v ∈ o.vars, S v.type.base ∧ PlainVariableType c pi r1 v.type.base) :
    ∃ cls fields, OperationClass c o cls ∧ ArgumentsOf ss4 cls fields ∧
      ∀ kvs, VariableValues c.schema (LeafValue c r1 isa) o.vars kvs → SendsFields ss2 isa fields kvs := by
  obtain ⟨H, cls, fields, hcls, harg, hf, hreg⟩ := arguments_run henums hinputs hfrag hops hplain hnodup hargs hS hU o ho hvars
  exact ⟨cls, fields, hcls, harg, fun kvs hv => accepted_sends H hf (fun v h => (hvars v h).1) hreg hv⟩

/-- The other direction: under the same assumptions, every map of variables that an instance of the class `Arguments` is
serialised to is accepted by the server, provided that no non-null field of the schema and no non-null variable of the
operation has a default value (see the counterexamples here and at C83). -/
theorem C87_sent_variables_are_accepted_partial {prep : List Char → List Char} {c : Ctx} {pe : EnumsConfig} {pi : InputsConfig}
    {pf : FragmentsConfig} {po : OperationsConfig} {doc : Document} {r1 r2 r3 r4 : Reg} {ss1 ss2 ss3 ss4 : List Stmt}
    {isa : String → Val → Prop} {S : String → Prop}
    (henums : generateEnums c pe (Reg.init c.env) = .ok (ss1, r1)) (hinputs : generateInputs c pi r1 = .ok (ss2, r2))
    (hfrag : fragmentsPlugin prep c pf doc r2 = .ok (ss3, r3)) (hops : operationsPlugin prep c po doc r3 = .ok (ss4, r4))
    (hplain : PlainConfig c.config) (hnodup : c.schema.types.keys.Nodup) (hargs : po.createArguments = true)
    (hS : ClosedInputs c pi S) (hU : Unambiguous c pi r1 ss2 isa) (o : OpDef) (ho : o ∈ operationsOf doc)
    (hvars : ∀ v ∈ o.vars, S v.type.base ∧ PlainVariableType c pi r1 v.type.base)
    (hd : NoOptionalNonNull c.schema) (hdv : NoOptionalNonNullVar o.vars) :
    ∃ cls fields, OperationClass c o cls ∧ ArgumentsOf ss4 cls fields ∧
      ∀ kvs, SendsFields ss2 isa fields kvs ↔ VariableValues c.schema (LeafValue c r1 isa) o.vars kvs := by
  obtain ⟨H, cls, fields, hcls, harg, hf, hreg⟩ := arguments_run henums hinputs hfrag hops hplain hnodup hargs hS hU o ho hvars
  have hinst : ∀ v ∈ o.vars, ∀ y, Inst (worldOf ss2 isa) (registeredClass c.env r2) v.type.base y ↔
      Inst (worldOf ss2 isa) (inputSideClass c r1) v.type.base y := fun v hvm y => by unfold Inst; rw [hreg v hvm]
  refine ⟨cls, fields, hcls, harg, fun kvs => ⟨fun hs => ⟨hs.once, fun k x hx => ?_, fun v hvm hnn hdef => ?_, fun v hvm x hx => ?_⟩,
    fun hv => accepted_sends H hf (fun v h => (hvars v h).1) hreg hv⟩⟩
  · obtain ⟨f, hfm, rfl⟩ := hs.known k x hx
    obtain ⟨v, hvm, hff⟩ := forall₂_mem_right hf hfm
    exact ⟨v, hvm, hff.key.symm⟩
  · obtain ⟨f, hfm, hff⟩ := forall₂_mem_left hf hvm
    rw [← hff.key]
    exact hs.required f hfm (by rw [hff.default]; simp [VarDef.isOptional, hnn, hdef])
  · obtain ⟨f, hfm, hff⟩ := forall₂_mem_left hf hvm
    have hSv := (hvars v hvm).1
    rw [← hff.key] at hx
    rcases (hff.sends (by rw [hinst v hvm]; exact H.noNull hSv) x).1 (hs.values f hfm x hx) with ⟨h1, h2, _⟩ | hl
    · rw [hdv v hvm h1] at h2
      cases h2
    · rw [legal_congr v.type (hinst v hvm)] at hl
      exact legal_inputValue v.type (fun y _ n cls hSn hc hy => sent_legal H hd _ y (Nat.lt_succ_self _) n cls hSn hc hy) hSv hl

/-! ## A document that meets the hypotheses -/

/-- a recursive input and a query root -/
def pagedSchema : Schema :=
  { types := [
      ("Int", ⟨.scalar, none⟩),
      ("Page", ⟨.input [⟨"from", .nonNull (.named "Int"), none, none, none⟩, ⟨"next", .named "Page", none, none, none⟩] [], none⟩),
      ("Query", ⟨.object [⟨"n", .named "Int", [], none, none⟩] [], none⟩)]
    query := some "Query" }

def pagedCtx : Ctx := { schema := pagedSchema }

/-- `query Q($in: Page!, $is: [Int!], $max: Int = 3) { n }` -/
def pagedOp : OpDef := ⟨.query, some "Q",
  [⟨"in", .nonNull (.named "Page"), none⟩, ⟨"is", .list (.nonNull (.named "Int")), none⟩, ⟨"max", .named "Int", some (.int "3")⟩],
  [ask "n"]⟩

/-- the enums and inputs plugins -/
def pagedInputs : Except Err ((List Stmt × Reg) × (List Stmt × Reg)) := do
  let a ← generateEnums pagedCtx {} (Reg.init {})
  let b ← generateInputs pagedCtx {} a.2
  pure (a, b)

/-- the fragments and operations plugins after them -/
def pagedRun (o : OpDef) : Except Err ((List Stmt × Reg) × (List Stmt × Reg)) := do
  let x ← pagedInputs
  let f ← fragmentsPlugin id pagedCtx {} [.operation o] x.2.2
  let q ← operationsPlugin id pagedCtx {} [.operation o] f.2
  pure (f, q)

theorem paged_lookup {n : String} {d : TypeDef} (h : pagedSchema.lookup n = some d) :
    n = "Int" ∧ d = .scalar ∨
    n = "Page" ∧ d = .input [⟨"from", .nonNull (.named "Int"), none, none, none⟩, ⟨"next", .named "Page", none, none, none⟩] [] ∨
    n = "Query" ∧ d = .object [⟨"n", .named "Int", [], none, none⟩] [] := by
  unfold Schema.lookup at h
  cases he : pagedSchema.types.get? n with
  | none => rw [he] at h; cases h
  | some e =>
    rw [he] at h
    simp only [Option.map_some, Option.some.injEq] at h
    have hm := mem_of_get? he
    simp only [pagedSchema, List.mem_cons, Prod.mk.injEq, List.not_mem_nil, or_false] at hm
    rcases hm with ⟨rfl, rfl⟩ | ⟨rfl, rfl⟩ | ⟨rfl, rfl⟩
    · exact .inl ⟨rfl, h.symm⟩
    · exact .inr (.inl ⟨rfl, h.symm⟩)
    · exact .inr (.inr ⟨rfl, h.symm⟩)

theorem paged_input {t : InputType} (h : InputOf pagedCtx.schema t) : t.name = "Page" ∧ t.directives = [] := by
  obtain ⟨e, he, hd, _⟩ := h
  simp only [pagedCtx, pagedSchema, List.mem_cons, Prod.mk.injEq, List.not_mem_nil, or_false] at he
  rcases he with ⟨_, rfl⟩ | ⟨hn, rfl⟩ | ⟨_, rfl⟩ <;> simp only [TypeDef.input.injEq, reduceCtorEq] at hd
  exact ⟨hn, hd.2.symm⟩

theorem paged_closed : ClosedInputs pagedCtx {} (fun _ => True) where
  fields _ _ _ _ _ _ _ := trivial
  kept t ht _ := by
    refine ⟨fun l hl => (by cases hl), ?_⟩
    rw [(paged_input ht).1]
    decide +kernel
  noMember t ht _ := by
    rintro ⟨u, dn, k, ⟨d, hd, _⟩, _⟩
    rw [(paged_input ht).2] at hd
    cases hd
  noUnion _ t' _ _ ht := by
    rintro ⟨dn, k, ⟨d, hd, _⟩, _⟩
    rw [(paged_input ht).2] at hd
    cases hd

theorem paged_facts : pagedInputs.toOption.map (fun x => (x.2.1.flatMap bound, x.1.2.scalarMap,
      x.2.1.all fun s => match s with
        | .classDef _ _ body _ => decide (body.filterMap attrOf).Nodup
        | _ => true)) = some (["Page"], scalarDefaults, true) := by decide +kernel

/-- everything about the schema that the theorems ask for -/
theorem paged_hypotheses : ∃ ss1 r1 ss2 r2, pagedInputs = .ok ((ss1, r1), (ss2, r2)) ∧
    generateEnums pagedCtx {} (Reg.init pagedCtx.env) = .ok (ss1, r1) ∧ generateInputs pagedCtx {} r1 = .ok (ss2, r2) ∧
    Unambiguous pagedCtx {} r1 ss2 valuesIsa ∧ NoOptionalNonNull pagedCtx.schema ∧ PlainConfig pagedCtx.config ∧
    pagedCtx.schema.types.keys.Nodup ∧ r1.scalarMap = scalarDefaults ∧ ss2.flatMap bound = ["Page"] := by
  have hrun := paged_facts
  cases h : pagedInputs with
  | error e => rw [h] at hrun; cases hrun
  | ok x =>
    obtain ⟨⟨ss1, r1⟩, ⟨ss2, r2⟩⟩ := x
    rw [h] at hrun
    simp only [Except.toOption, Option.map_some, Option.some.injEq, Prod.mk.injEq] at hrun
    obtain ⟨hb, hsc, hattr⟩ := hrun
    have h' := h
    unfold pagedInputs at h'
    cases ha : generateEnums pagedCtx {} (Reg.init {}) with
    | error e => rw [ha] at h'; cases h'
    | ok a =>
    rw [ha] at h'
    change (generateInputs pagedCtx {} a.2 >>= fun b => pure (a, b)) = _ at h'
    cases hi : generateInputs pagedCtx {} a.2 with
    | error e => rw [hi] at h'; cases h'
    | ok b =>
    rw [hi] at h'
    cases h'
    refine ⟨ss1, r1, ss2, r2, rfl, ha, hi, ⟨?_, ?_, ?_, ?_, ?_⟩, ?_, ?_, by decide +kernel, hsc, hb⟩
    · rw [hb]; decide +kernel
    · intro n bases body ds hm
      rw [List.all_eq_true] at hattr
      simpa using hattr _ hm
    · rw [hb]
      rintro b (hbm | ⟨n, l, hl, _⟩)
      · cases List.mem_singleton.1 hbm
        decide +kernel
      · cases hl
    · rintro n v ⟨rfl, _⟩
      rw [hb]
      decide +kernel
    · intro n cls hl hc
      have hn : n = "Int" := by
        rcases hl with hl | ⟨vs, hl⟩ <;> rcases paged_lookup hl with ⟨h1, h2⟩ | ⟨h1, h2⟩ | ⟨h1, h2⟩ <;>
          first | exact h1 | cases h2
      subst hn
      have : inputSideClass pagedCtx r1 "Int" = some "int" := by
        show scalarClass r1 "Int" = _
        unfold scalarClass
        rw [hsc]
        decide +kernel
      rw [this] at hc
      cases hc
      rw [hb]
      refine ⟨by decide +kernel, ?_⟩
      rintro ⟨_, a, ha⟩
      cases ha
    · intro n fs ds hl f hf hnn
      rcases paged_lookup hl with ⟨_, h2⟩ | ⟨_, h2⟩ | ⟨_, h2⟩ <;> cases h2
      simp only [List.mem_cons, List.not_mem_nil, or_false] at hf
      rcases hf with rfl | rfl <;> rfl
    · intro t l hl
      cases hl

/-- the types of the variables -/
theorem paged_variable {r1 : Reg} (h : r1.scalarMap = scalarDefaults) {n : String} (hn : n = "Int" ∨ n = "Page") :
    PlainVariableType pagedCtx {} r1 n where
  known := by
    rcases hn with rfl | rfl
    · exact .inl (.inl rfl)
    · exact .inr ⟨_, _, rfl⟩
  scalar := by
    rw [h]
    rcases hn with rfl | rfl
    · exact ⟨fun _ => rfl, fun _ => by decide +kernel⟩
    · constructor
      · intro h; exact absurd h (by decide +kernel)
      · intro h; cases h
  key := by
    rintro (⟨t, ht, _, rfl⟩ | ⟨t, ht, _, _, ⟨d, hd, _⟩, _⟩)
    · rw [(paged_input ht).1]; exact ⟨_, _, rfl⟩
    · rw [(paged_input ht).2] at hd; cases hd
  style := by
    rcases hn with rfl | rfl
    · have : Kind.input.style pagedCtx.env "Int" = .ok "Int" := by decide +kernel
      rw [this]; exact ⟨by decide +kernel, fun _ h => by cases h⟩
    · have : Kind.input.style pagedCtx.env "Page" = .ok "Page" := by decide +kernel
      rw [this]; exact ⟨by decide +kernel, fun _ h => by cases h⟩

theorem paged_plugins {o : OpDef} {ss1 ss2 : List Stmt} {r1 r2 : Reg} (hi : pagedInputs = .ok ((ss1, r1), (ss2, r2)))
    (h : (pagedRun o).isOk = true) : ∃ ss3 r3 ss4 r4, fragmentsPlugin id pagedCtx {} [.operation o] r2 = .ok (ss3, r3) ∧
      operationsPlugin id pagedCtx {} [.operation o] r3 = .ok (ss4, r4) ∧ pagedRun o = .ok ((ss3, r3), (ss4, r4)) := by
  have e : pagedRun o = (fragmentsPlugin id pagedCtx {} [.operation o] r2 >>= fun f =>
      operationsPlugin id pagedCtx {} [.operation o] f.2 >>= fun q => pure (f, q)) := by
    unfold pagedRun; rw [hi]; rfl
  rw [e] at h ⊢
  cases hf : fragmentsPlugin id pagedCtx {} [.operation o] r2 with
  | error e => rw [hf] at h; cases h
  | ok f =>
    rw [hf] at h
    change Except.isOk (operationsPlugin id pagedCtx {} [.operation o] f.2 >>= fun q => pure (f, q)) = true at h
    cases hq : operationsPlugin id pagedCtx {} [.operation o] f.2 with
    | error e => rw [hq] at h; cases h
    | ok q =>
      refine ⟨f.1, f.2, q.1, q.2, rfl, hq, ?_⟩
      show (operationsPlugin id pagedCtx {} [.operation o] f.2 >>= fun q => pure (f, q)) = _
      rw [hq]; rfl

/-- `{"in": {"from": 1, "next": null}, "is": [2, 3]}` can be sent along with the query, `{"in": null}` cannot -/
example : ∃ cls fields ss1 r1 ss2 r2 ss3 r3 ss4 r4, pagedInputs = .ok ((ss1, r1), (ss2, r2)) ∧
    pagedRun pagedOp = .ok ((ss3, r3), (ss4, r4)) ∧ ArgumentsOf ss4 cls fields ∧
    SendsFields ss2 valuesIsa fields
      [("in", .obj [("from", .atom "1"), ("next", .null)]), ("is", .list [.atom "2", .atom "3"])] ∧
    ¬ SendsFields ss2 valuesIsa fields [("in", .null)] := by
  obtain ⟨ss1, r1, ss2, r2, hi, henums, hinputs, hU, hd, hp, hn, hsc, _⟩ := paged_hypotheses
  obtain ⟨ss3, r3, ss4, r4, hfrag, hops, hrun⟩ := paged_plugins (o := pagedOp) hi (by decide +kernel)
  obtain ⟨cls, fields, _, harg, hiff⟩ := C87_sent_variables_are_accepted_partial henums hinputs hfrag hops hp hn rfl paged_closed hU
    pagedOp (by simp [operationsOf])
    (by
      intro v hv
      refine ⟨trivial, paged_variable hsc ?_⟩
      simp only [pagedOp, List.mem_cons, List.not_mem_nil, or_false] at hv
      rcases hv with rfl | rfl | rfl <;> simp [TypeNode.base])
    hd
    (by
      intro v hv
      simp only [pagedOp, List.mem_cons, List.not_mem_nil, or_false] at hv
      rcases hv with rfl | rfl | rfl <;> simp [TypeNode.isNonNull])
  have hint : ∀ a, InputValue pagedCtx.schema (LeafValue pagedCtx r1 valuesIsa) (.named "Int") (.atom a) := fun a =>
    .leaf (.inl rfl) ⟨"int", by show scalarClass r1 "Int" = _; unfold scalarClass; rw [hsc]; decide +kernel, rfl, _, rfl⟩
  refine ⟨cls, fields, ss1, r1, ss2, r2, ss3, r3, ss4, r4, hi, hrun, harg, (hiff _).2 ⟨by decide +kernel, ?_, ?_, ?_⟩, fun h => ?_⟩
  · intro k x hx
    simp only [List.mem_cons, Prod.mk.injEq, List.not_mem_nil, or_false] at hx
    rcases hx with ⟨rfl, _⟩ | ⟨rfl, _⟩
    · exact ⟨_, .head _, rfl⟩
    · exact ⟨_, .tail _ (.head _), rfl⟩
  · intro v hv hnn _
    simp only [pagedOp, List.mem_cons, List.not_mem_nil, or_false] at hv
    rcases hv with rfl | rfl | rfl
    · exact ⟨_, .head _⟩
    · cases hnn
    · cases hnn
  · intro v hv x hx
    simp only [pagedOp, List.mem_cons, List.not_mem_nil, or_false] at hv
    simp only [List.mem_cons, Prod.mk.injEq, List.not_mem_nil, or_false] at hx
    rcases hv with rfl | rfl | rfl <;> simp only [String.reduceEq, false_and, true_and, or_false, false_or] at hx
    · subst hx
      refine .nonNull (by simp) (.object rfl (by rintro ⟨_, h, _⟩; cases h) (by decide +kernel) ?_ ?_ ?_)
      · intro k x hx
        simp only [List.mem_cons, Prod.mk.injEq, List.not_mem_nil, or_false] at hx
        rcases hx with ⟨rfl, _⟩ | ⟨rfl, _⟩
        · exact ⟨_, .head _, rfl⟩
        · exact ⟨_, .tail _ (.head _), rfl⟩
      · intro f hf hnn _
        simp only [List.mem_cons, List.not_mem_nil, or_false] at hf
        rcases hf with rfl | rfl
        · exact ⟨_, .head _⟩
        · cases hnn
      · intro f hf x hx
        simp only [List.mem_cons, List.not_mem_nil, or_false] at hf
        simp only [List.mem_cons, Prod.mk.injEq, List.not_mem_nil, or_false] at hx
        rcases hf with rfl | rfl <;> simp only [String.reduceEq, false_and, true_and, or_false, false_or] at hx <;> subst hx
        · exact .nonNull (by simp) (hint _)
        · exact .null rfl
    · subst hx
      refine .list fun x hx => ?_
      simp only [List.mem_cons, List.not_mem_nil, or_false] at hx
      rcases hx with rfl | rfl <;> exact .nonNull (by simp) (hint _)
  · have := ((hiff _).1 h).legal ⟨"in", .nonNull (.named "Page"), none⟩ (.head _) .null (.head _)
    cases this with
    | null h => cases h
    | nonNull h => exact h rfl

/-! ## The exception -/

/-- `query Q($n: Int! = 3) { n }` -/
def defaultedOp : OpDef := ⟨.query, some "Q", [⟨"n", .nonNull (.named "Int"), some (.int "3")⟩], [ask "n"]⟩

/-- C87: the field for `$n: Int! = 3` may be `None`, which is sent as null; the server rejects that, since the default value only
applies when the variable is left out. -/
theorem C87_defaulted_variable_counterexample : ∃ ss1 r1 ss2 r2 ss3 r3 ss4 r4 cls fields,
    pagedInputs = .ok ((ss1, r1), (ss2, r2)) ∧ pagedRun defaultedOp = .ok ((ss3, r3), (ss4, r4)) ∧
    ArgumentsOf ss4 cls fields ∧ SendsFields ss2 valuesIsa fields [("n", .null)] ∧
    ¬ VariableValues pagedSchema (LeafValue pagedCtx r1 valuesIsa) defaultedOp.vars [("n", .null)] := by
  obtain ⟨ss1, r1, ss2, r2, hi, henums, hinputs, hU, hd, hp, hn, hsc, _⟩ := paged_hypotheses
  obtain ⟨ss3, r3, ss4, r4, hfrag, hops, hrun⟩ := paged_plugins (o := defaultedOp) hi (by decide +kernel)
  obtain ⟨H, cls, fields, _, harg, hf, hreg⟩ := arguments_run henums hinputs hfrag hops hp hn rfl paged_closed hU
    defaultedOp (by simp [operationsOf])
    (by
      intro v hv
      cases List.mem_singleton.1 hv
      exact ⟨trivial, paged_variable hsc (.inl rfl)⟩)
  refine ⟨ss1, r1, ss2, r2, ss3, r3, ss4, r4, cls, fields, hi, hrun, harg, ⟨by simp, ?_, ?_, ?_⟩, fun h => ?_⟩
  · intro k x hx
    cases List.mem_singleton.1 hx
    obtain ⟨f, hfm, hff⟩ := forall₂_mem_left hf (.head _)
    exact ⟨f, hfm, hff.key⟩
  · intro f hfm hdef
    obtain ⟨v, hv, hff⟩ := forall₂_mem_right hf hfm
    cases List.mem_singleton.1 hv
    rw [hff.default] at hdef
    cases hdef
  · intro f hfm x hx
    obtain ⟨v, hv, hff⟩ := forall₂_mem_right hf hfm
    cases List.mem_singleton.1 hv
    cases (Prod.mk.inj (List.mem_singleton.1 hx)).2
    refine (hff.sends ?_ _).2 (.inl ⟨rfl, rfl, rfl⟩)
    have := H.noNull (n := "Int") trivial
    unfold Inst at this ⊢
    rwa [show (⟨"n", .nonNull (.named "Int"), some (.int "3")⟩ : VarDef).type.base = "Int" from rfl,
      show registeredClass pagedCtx.env r2 "Int" = _ from hreg _ (.head _)]
  · have := h.legal _ (.head _) .null (.head _)
    cases this with
    | null h => cases h
    | nonNull h => exact h rfl

end Turms.Props
