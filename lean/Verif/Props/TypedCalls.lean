import Verif.Lemmas.TypedComplete
import Verif.Props.Variables
import Verif.Props.Funcs

/-!
# C88: well-typed calls of the generated functions send variables the server accepts

The enums, inputs, fragments, operations and funcs plugins are run on a fresh registry.
-/

namespace Turms.Props
open Turms Turms.Spec

/-- the five plugins -/
theorem typed_run {prep : List Char → List Char} {c : Ctx} {pe : EnumsConfig} {pi : InputsConfig} {pf : FragmentsConfig}
    {po : OperationsConfig} {co : Coercions} {doc : Document} {r1 r2 r3 r4 : Reg} {ss1 ss2 ss3 ss4 : List Stmt}
    {isa : String → Val → Prop} {S : String → Prop}
    (henums : generateEnums c pe (Reg.init c.env) = .ok (ss1, r1)) (hinputs : generateInputs c pi r1 = .ok (ss2, r2))
    (hfrag : fragmentsPlugin prep c pf doc r2 = .ok (ss3, r3)) (hops : operationsPlugin prep c po doc r3 = .ok (ss4, r4))
    (hplain : PlainConfig c.config) (hnodup : c.schema.types.keys.Nodup)
    (hS : ClosedInputs c pi S) (hU : Unambiguous c pi r1 ss2 isa) (hd : NoOptionalNonNull c.schema)
    (hco : SafeCoercions c co ss2 isa (LeafValue c r1 isa))
    (hunset : unsetTypeName c.env ∉ ss2.flatMap bound ∧ ∀ w, ¬ isa (unsetTypeName c.env) w) :
    TypedRun c pi r1 ss2 isa S co ∧ SameTypes c.env r2 r4 ∧ r2.scalarMap = r1.scalarMap ∧
      ∀ n, S n → PlainVariableType c pi r1 n → registeredClass c.env r2 n = inputSideClass c r1 n := by
  have e1 := (generateEnums_ok henums).1
  have s1 := e1.styled (styled_stateAfter c.env [])
  obtain ⟨⟨K, e2, hK⟩, _⟩ := generateInputs_ok s1 hplain hnodup hinputs
  have H : InputsRun c pi r1 ss2 isa S :=
    ⟨hS, hU, fun _ _ _ _ hSn hl hc => shape_of s1 hplain hnodup hinputs hS hU hSn hl hc⟩
  have t3 := sameTypes_fragmentsPlugin (r0 := r2) ⟨e2.styled s1, rfl, rfl⟩ hfrag
  have hclass : ∀ n fs ds, S n → c.schema.lookup n = some (.input fs ds) → ∃ cl, inputSideClass c r1 n = some cl := by
    intro n fs ds hSn hl
    obtain ⟨L, hL, hLK, _, _⟩ := e2.map
    have h0 : r1.inputMap = [] := e1.other .input (by decide)
    have hmap : r2.inputMap = L := by
      have : r2.inputMap = r1.inputMap ++ L := hL
      rw [this, h0]; rfl
    obtain ⟨d, ht⟩ := lookup_inputOf hl
    have hk : r2.inputMap.contains n = true := by
      rw [hmap, Dict.contains_iff]
      have : n ∈ K := (hK n).2 (.inl ⟨_, ht, .inr (hS.kept _ ht hSn), rfl⟩)
      rw [← hLK] at this
      exact this
    rw [Dict.contains_iff, ← Dict.get?_isSome_iff] at hk
    obtain ⟨cl, hcl⟩ := Option.isSome_iff_exists.1 hk
    exact ⟨cl, by simp only [inputSideClass, hl, styledName, e2.styled s1 .input n cl hcl]; rfl⟩
  exact ⟨⟨H, hd, hco, hunset.1, hunset.2, hclass⟩, sameTypes_operations (operationsOf doc) t3 hops, e2.scalar,
    fun n hn hp => registeredClass_sideClass henums hinputs hplain hnodup hS hn hp⟩

/-- the parameters of a generated function -/
theorem typed_parameters {c : Ctx} {pi : InputsConfig} {p : FuncsConfig} {r1 r2 r4 q q' : Reg} {T : List Stmt}
    {isa : String → Val → Prop} {S : String → Prop} (H : TypedRun c pi r1 T isa S p.co) (t4 : SameTypes c.env r2 r4)
    (h12 : r2.scalarMap = r1.scalarMap)
    (hreg : ∀ n, S n → PlainVariableType c pi r1 n → registeredClass c.env r2 n = inputSideClass c r1 n) (hq : Quiet r4 q)
    {d : FuncDefinition} {o : OpDef} {name : String} {args : List Arg} {defaults : List Expr} {body : List Stmt} {returns : Option Expr}
    (hvars : ∀ v ∈ o.vars, S v.type.base ∧ (v.name ∉ p.expandInputTypes → PlainVariableType c pi r1 v.type.base) ∧
      (v.name ∈ p.expandInputTypes → ExpandableVariable c v))
    (hf : operationFunc c p d o q = .ok (.funcDef d.isAsync name args defaults body [] returns, q')) :
    ∀ v ∈ o.vars, (v.name ∉ p.expandInputTypes → VariableArg c p.co r1 T isa args v) ∧
      (v.name ∈ p.expandInputTypes → ExpandedArgs c p.co r1 T isa args v) := by
  unfold operationFunc at hf
  obtain ⟨ret, q1, hret, hf⟩ := Gen.bind_ok.1 hf
  obtain ⟨dc, q2, hdoc, hf⟩ := Gen.bind_ok.1 hf
  obtain ⟨assigns, q3, has, hf⟩ := Gen.bind_ok.1 hf
  obtain ⟨_, q4, hi, hf⟩ := Gen.bind_ok.1 hf
  obtain ⟨P, q5, hP, hf⟩ := Gen.bind_ok.1 hf
  obtain ⟨final, q6, hfin, hf⟩ := Gen.bind_ok.1 hf
  obtain ⟨he, _⟩ := Gen.pure_ok.1 hf
  cases he
  have t := (((t4.frame hq.frame).still still_returnAnnotation hret).still still_queryDoc hdoc).still still_variableAssignments has
  have t := t.still (by unfold iteratorImport; still) hi
  refine H.generateParameters h12 t (fun v hv => (hvars v hv).1) (fun v hv hn => ?_)
    (fun v hv hn => ((hvars v hv).2.2 hn).1) hP
  obtain ⟨g1, g2, _⟩ := hvars v hv
  exact ⟨g1, g2 hn, hreg _ g1 (g2 hn)⟩

/-- Run the enums, inputs, fragments, operations and funcs plugins.  Let the variables of the operations have types of `S` (types
closed under fields, generated and not part of a `@unionElementOf` union) that mean the same in the document, let the
configured coercions be safe, and let no non-null field of the schema have a default.  A variable in `expand_input_types` is
required, and its type is not a `@oneOf` input.  Then every call of a generated function that Python accepts and whose
arguments respect the annotations of the parameters hands the proxy variables that the server accepts. -/
theorem C88_typed_calls_are_accepted_partial {prep : List Char → List Char} {c : Ctx} {pe : EnumsConfig} {pi : InputsConfig}
    {pf : FragmentsConfig} {po : OperationsConfig} {p : FuncsConfig} {doc : Document} {r1 r2 r3 r4 r5 : Reg}
    {ss1 ss2 ss3 ss4 ss5 : List Stmt} {isa : String → Val → Prop} {S : String → Prop}
    (henums : generateEnums c pe (Reg.init c.env) = .ok (ss1, r1)) (hinputs : generateInputs c pi r1 = .ok (ss2, r2))
    (hfrag : fragmentsPlugin prep c pf doc r2 = .ok (ss3, r3)) (hops : operationsPlugin prep c po doc r3 = .ok (ss4, r4))
    (hfuncs : funcsPlugin c p doc r4 = .ok (ss5, r5))
    (hplain : PlainConfig c.config) (hnodup : c.schema.types.keys.Nodup)
    (hS : ClosedInputs c pi S) (hU : Unambiguous c pi r1 ss2 isa) (hd : NoOptionalNonNull c.schema)
    (hco : SafeCoercions c p.co ss2 isa (LeafValue c r1 isa))
    (hunset : unsetTypeName c.env ∉ ss2.flatMap bound ∧ ∀ w, ¬ isa (unsetTypeName c.env) w)
    (hnd : ∀ o ∈ operationsOf doc, (o.vars.map (·.name)).Nodup)
    (hvars : ∀ o ∈ operationsOf doc, ∀ v ∈ o.vars, S v.type.base ∧
      (v.name ∉ p.expandInputTypes → PlainVariableType c pi r1 v.type.base) ∧
      (v.name ∈ p.expandInputTypes → ExpandableVariable c v)) :
    List.Forall₂ (fun x f => SendsAccepted c p ss2 isa (LeafValue c r1 isa) x.2 x.1 f) (functionsFor p doc) ss5 := by
  obtain ⟨H, t4, h12, hreg⟩ := typed_run henums hinputs hfrag hops hplain hnodup hS hU hd hco hunset
  refine forall₂_mem_imp (allOperationFuncs_ok hfuncs) fun x hx f ⟨q, _, hq, hf⟩ => ?_
  obtain ⟨ho, _, hk⟩ := mem_functionsFor.1 hx
  have hfaith := operationFunc_faithful hf hk (hnd _ ho) fun v hv he => by
    obtain ⟨h1, h2⟩ := (hvars _ ho v hv).2.2 he
    exact ⟨h1, fun fs ⟨ds, hfs⟩ => (h2 fs ds hfs).2⟩
  obtain ⟨name, args, defaults, body, returns, cls, rfl, hcls, hcall⟩ := hfaith
  refine ⟨name, args, defaults, body, returns, cls, rfl, hcls, fun M pos kw L hyg hu hc huse hb htyped => ?_⟩
  obtain ⟨out, hout, hperf⟩ := hcall M pos kw L hyg hu hc huse hb
  obtain ⟨xs, kvs, h1, _, h3⟩ := hperf.args
  have hargs := typed_parameters H t4 h12 hreg hq (hvars _ ho) hf
  obtain ⟨ws, h4, h5⟩ := payload_accepted (hnd _ ho) (fun v hv he => (hvars _ ho v hv).2.2 he) hargs (bindCall_some hb).2 htyped h3
  exact ⟨out, xs, kvs, ws, hout, hperf.proxy, h1, h4, h5⟩

/-- The other direction, under the same conditions: if the types of the variables (for expanded ones: of their fields) are not
coerced, and different parameters are for different variables or fields, then every map of variables that the server accepts
is sent by a call that respects the annotations, whatever is passed for the other parameters. -/
theorem C88_accepted_variables_are_reached_partial {prep : List Char → List Char} {c : Ctx} {pe : EnumsConfig} {pi : InputsConfig}
    {pf : FragmentsConfig} {po : OperationsConfig} {p : FuncsConfig} {doc : Document} {r1 r2 r3 r4 r5 : Reg}
    {ss1 ss2 ss3 ss4 ss5 : List Stmt} {isa : String → Val → Prop} {S : String → Prop}
    (henums : generateEnums c pe (Reg.init c.env) = .ok (ss1, r1)) (hinputs : generateInputs c pi r1 = .ok (ss2, r2))
    (hfrag : fragmentsPlugin prep c pf doc r2 = .ok (ss3, r3)) (hops : operationsPlugin prep c po doc r3 = .ok (ss4, r4))
    (hfuncs : funcsPlugin c p doc r4 = .ok (ss5, r5))
    (hplain : PlainConfig c.config) (hnodup : c.schema.types.keys.Nodup)
    (hS : ClosedInputs c pi S) (hU : Unambiguous c pi r1 ss2 isa) (hd : NoOptionalNonNull c.schema)
    (hco : SafeCoercions c p.co ss2 isa (LeafValue c r1 isa))
    (hunset : unsetTypeName c.env ∉ ss2.flatMap bound ∧ ∀ w, ¬ isa (unsetTypeName c.env) w)
    (hnd : ∀ o ∈ operationsOf doc, (o.vars.map (·.name)).Nodup)
    (hvars : ∀ o ∈ operationsOf doc, ∀ v ∈ o.vars, S v.type.base ∧
      (v.name ∉ p.expandInputTypes → PlainVariableType c pi r1 v.type.base) ∧
      (v.name ∈ p.expandInputTypes → ExpandableVariable c v))
    (hfree : ∀ o ∈ operationsOf doc, ∀ v ∈ o.vars, (v.name ∉ p.expandInputTypes → p.co.scalars.get? v.type.base = none) ∧
      (v.name ∈ p.expandInputTypes → ∀ fs, FieldsOfVar c.schema v fs → ∀ f ∈ fs, p.co.scalars.get? f.type.base = none)) :
    List.Forall₂ (fun x f => ReachesAccepted c p ss2 isa (LeafValue c r1 isa) x.2 x.1 f) (functionsFor p doc) ss5 := by
  obtain ⟨H, t4, h12, hreg⟩ := typed_run henums hinputs hfrag hops hplain hnodup hS hU hd hco hunset
  refine forall₂_mem_imp (allOperationFuncs_ok hfuncs) fun x hx f ⟨q, _, hq, hf⟩ => ?_
  obtain ⟨ho, _, hk⟩ := mem_functionsFor.1 hx
  have hfaith := operationFunc_faithful hf hk (hnd _ ho) fun v hv he => by
    obtain ⟨h1, h2⟩ := (hvars _ ho v hv).2.2 he
    exact ⟨h1, fun fs ⟨ds, hfs⟩ => (h2 fs ds hfs).2⟩
  obtain ⟨name, args, defaults, body, returns, cls, rfl, hcls, hcall⟩ := hfaith
  refine ⟨name, args, defaults, body, returns, cls, rfl, hcls, fun M pos kw0 L0 hyg hu hc huse hone hb0 htyped0 ws hws => ?_⟩
  have hargs := typed_parameters H t4 h12 hreg hq (hvars _ ho) hf
  have hexp : ∀ v ∈ x.1.vars, v.name ∈ p.expandInputTypes → ExpandableVariable c v := fun v hv he => (hvars _ ho v hv).2.2 he
  obtain ⟨hn, hnames0⟩ := bindCall_some hb0
  obtain ⟨kw, hkw, hpass⟩ := choose_keywords (R := Passes c p x.1 L0 ws) (args := args) fun a ha =>
    passes_exists hone (find_some_of_mem (by rw [hnames0]; exact List.mem_map.2 ⟨a, ha, rfl⟩)) ws
  obtain ⟨L, hb, hfind⟩ := bindCall_keywords hb0 hkw
  have hL : ∀ q x', L.find q = some x' → Passes c p x.1 L0 ws q x' := fun q y h => hpass q y (hfind q y h)
  have hnames := (bindCall_some hb).2
  have htyped := passes_typed hd (hnd _ ho) hexp hargs (hfree _ ho) hn htyped0 hws hL
  obtain ⟨out, hout, hperf⟩ := hcall M [] kw L hyg hu hc huse hb
  obtain ⟨xs, kvs, h1, _, h3⟩ := hperf.args
  obtain ⟨ws', h4, _⟩ := payload_accepted (hnd _ ho) hexp hargs hnames htyped h3
  refine ⟨kw, L, out, xs, kvs, ws', hb, htyped, fun q hno => ?_, hout, hperf.proxy, h1, h4,
    passes_sends (hnd _ ho) hexp hargs hnames hws hL h3 h4⟩
  cases hq : Locals.find L q with
  | some y => exact ((hL q y hq).other hno).symm
  | none =>
    rw [find_none, hnames, ← hnames0] at hq
    exact (find_none.2 hq).symm

/-- Run the enums, inputs, fragments, operations and input_funcs plugins, under the same conditions.  Every call of a generated
factory for a type of `S` that is no `@oneOf` input, which Python accepts and whose arguments respect the annotations of the
parameters, builds the class of the type from a legal value of the type. -/
theorem C88_typed_factories_partial {prep : List Char → List Char} {c : Ctx} {pe : EnumsConfig} {pi : InputsConfig}
    {pf : FragmentsConfig} {po : OperationsConfig} {p : InputFuncsConfig} {doc : Document} {r1 r2 r3 r4 r5 : Reg}
    {ss1 ss2 ss3 ss4 ss5 : List Stmt} {isa : String → Val → Prop} {S : String → Prop}
    (henums : generateEnums c pe (Reg.init c.env) = .ok (ss1, r1)) (hinputs : generateInputs c pi r1 = .ok (ss2, r2))
    (hfrag : fragmentsPlugin prep c pf doc r2 = .ok (ss3, r3)) (hops : operationsPlugin prep c po doc r3 = .ok (ss4, r4))
    (hfuncs : inputFuncsPlugin c p r4 = .ok (ss5, r5))
    (hplain : PlainConfig c.config) (hnodup : c.schema.types.keys.Nodup)
    (hS : ClosedInputs c pi S) (hU : Unambiguous c pi r1 ss2 isa) (hd : NoOptionalNonNull c.schema)
    (hco : SafeCoercions c p.co ss2 isa (LeafValue c r1 isa))
    (hunset : unsetTypeName c.env ∉ ss2.flatMap bound ∧ ∀ w, ¬ isa (unsetTypeName c.env) w)
    (hnd : ∀ t, InputOf c.schema t → (t.fields.map (·.name)).Nodup) :
    ∃ ts : List InputType, (∀ t, t ∈ ts ↔ InputOf c.schema t ∧ WantsFactory p r4 t.name) ∧
      List.Forall₂ (fun t f => S t.name → ¬ OneOf t.directives →
        BuildsAccepted c ss2 isa (LeafValue c r1 isa) t.name t.fields f) ts ss5 := by
  obtain ⟨H, t4, h12, _⟩ := typed_run henums hinputs hfrag hops hplain hnodup hS hU hd hco hunset
  refine ⟨_, fun t => ?_, forall₂_mem_imp (factories_each hfuncs) fun t ht f ⟨q, _, hq, hf⟩ hSt ho => ?_⟩
  · rw [List.mem_filter, mem_inputTypes, Bool.not_eq_true', skipsFactory_iff]
  · have hi := mem_inputTypes.1 (List.mem_filter.1 ht).1
    exact H.factory h12 (t4.frame hq.frame) (inputOf_lookup hnodup hi) ho hSt (hnd t hi) hf

/-! ## A document that meets the hypotheses -/

/-- one function, with the fields of `$in` as parameters -/
def pagedFuncs : FuncsConfig := { definitions := [{ kind := .query, use := "client.execute" }], expandInputTypes := ["in"] }

/-- the generated functions -/
def pagedFunctions : Except Err (List Stmt) := do
  let x ← pagedRun pagedOp
  let f ← funcsPlugin pagedCtx pagedFuncs [.operation pagedOp] x.2.2
  pure f.1

/-- the parameters and defaults of a function -/
def parametersOf : Stmt → List Arg × List Expr
  | .funcDef _ _ args defaults _ _ _ => (args, defaults)
  | _ => ([], [])

/-- `def q(from_: int, next: Union[Optional[Page], UnsetType] = UNSET, is_: ... = UNSET, max: ... = UNSET)` -/
def pagedArgs : List Arg := [⟨"from_", some (.name "int")⟩,
  ⟨"next", some (sub "Union" (.tuple [sub "Optional" (.name "Page"), .name "UnsetType"]))⟩,
  ⟨"is_", some (sub "Union" (.tuple [sub "Optional" (sub "List" (.name "int")), .name "UnsetType"]))⟩,
  ⟨"max", some (sub "Union" (.tuple [sub "Optional" (.name "int"), .name "UnsetType"]))⟩]

theorem paged_functions : pagedFunctions.toOption.map (fun fs => fs.map parametersOf) =
    some [(pagedArgs, [.name "UNSET", .name "UNSET", .name "UNSET"])] := by decide +kernel

/-- the local variables of the function -/
theorem paged_scratch (n : String) (h1 : n ≠ "variables") (h2 : n ≠ "_in_") : ¬ Scratch pagedCtx pagedFuncs pagedOp n := by
  rintro (h | ⟨v, hv, hx, q, hq, rfl⟩)
  · exact h1 h
  · have hv : v.name = "in" := by simpa [pagedFuncs] using hx
    rw [hv] at hq
    have : q = "in_" := (paramOf_unique (env := pagedCtx.env) (v := "in") (q := "in_") (by unfold ParamOf; decide +kernel) q).1 hq
    subst this
    exact h2 (by decide +kernel)

/-- the function `q` of the example, and the parameters of the call `q(1, is_=[2, 3])` -/
theorem paged_function : ∃ name body returns ss1 r1 ss2 r2,
    pagedFunctions = .ok [.funcDef false name pagedArgs [.name "UNSET", .name "UNSET", .name "UNSET"] body [] returns] ∧
    pagedInputs = .ok ((ss1, r1), (ss2, r2)) ∧
    SendsAccepted pagedCtx pagedFuncs ss2 valuesIsa (LeafValue pagedCtx r1 valuesIsa) { kind := .query, use := "client.execute" } pagedOp
      (.funcDef false name pagedArgs [.name "UNSET", .name "UNSET", .name "UNSET"] body [] returns) ∧
    ReachesAccepted pagedCtx pagedFuncs ss2 valuesIsa (LeafValue pagedCtx r1 valuesIsa) { kind := .query, use := "client.execute" } pagedOp
      (.funcDef false name pagedArgs [.name "UNSET", .name "UNSET", .name "UNSET"] body [] returns) ∧
    Hygienic pagedCtx pagedFuncs { kind := .query, use := "client.execute" } pagedOp "Q" pagedArgs ∧
    TypedArguments (serialWorld ss2 valuesIsa) pagedCtx.env pagedArgs
      [("from_", arg "1"), ("next", .global "UNSET"), ("is_", .given (.list [.atom "2", .atom "3"])), ("max", .global "UNSET")] := by
  obtain ⟨ss1, r1, ss2, r2, hi, henums, hinputs, hU, hd, hp, hn, hsc, hbound⟩ := paged_hypotheses
  obtain ⟨ss3, r3, ss4, r4, hfrag, hops, hrun⟩ := paged_plugins (o := pagedOp) hi (by decide +kernel)
  have hfs := paged_functions
  unfold pagedFunctions at hfs
  rw [hrun] at hfs
  change Option.map _ (Except.toOption (funcsPlugin pagedCtx pagedFuncs [.operation pagedOp] r4 >>= fun f => pure f.1)) = _ at hfs
  cases hf : funcsPlugin pagedCtx pagedFuncs [.operation pagedOp] r4 with
  | error e => rw [hf] at hfs; cases hfs
  | ok x =>
  obtain ⟨ss5, r5⟩ := x
  rw [hf] at hfs
  change some (ss5.map parametersOf) = _ at hfs
  simp only [Option.some.injEq] at hfs
  have hco : SafeCoercions pagedCtx pagedFuncs.co ss2 valuesIsa (LeafValue pagedCtx r1 valuesIsa) :=
    ⟨fun n q h => (by rcases h with h | h <;> cases h), fun n q h => (by rcases h with h | h <;> cases h), fun n q h => (by cases h)⟩
  have hunset : unsetTypeName pagedCtx.env ∉ ss2.flatMap bound ∧ ∀ w, ¬ valuesIsa (unsetTypeName pagedCtx.env) w :=
    ⟨by rw [hbound]; decide +kernel, fun w h => absurd h.1 (by decide +kernel)⟩
  have hnd : ∀ o ∈ operationsOf [.operation pagedOp], (o.vars.map (·.name)).Nodup := by
    intro o ho
    cases List.mem_singleton.1 (show o ∈ [pagedOp] from ho)
    decide +kernel
  have hvars : ∀ o ∈ operationsOf [.operation pagedOp], ∀ v ∈ o.vars, True ∧
      (v.name ∉ pagedFuncs.expandInputTypes → PlainVariableType pagedCtx {} r1 v.type.base) ∧
      (v.name ∈ pagedFuncs.expandInputTypes → ExpandableVariable pagedCtx v) := by
    intro o ho v hv
    cases List.mem_singleton.1 (show o ∈ [pagedOp] from ho)
    refine ⟨trivial, fun _ => paged_variable hsc ?_, fun hx => ?_⟩ <;>
      simp only [pagedOp, List.mem_cons, List.not_mem_nil, or_false] at hv
    · rcases hv with rfl | rfl | rfl <;> simp [TypeNode.base]
    · rcases hv with rfl | rfl | rfl
      · refine ⟨⟨⟨_, rfl⟩, rfl⟩, fun fs ds hl => ?_⟩
        cases hl
        exact ⟨(by rintro ⟨_, h, _⟩; cases h), by decide +kernel⟩
      · exact absurd hx (by decide +kernel)
      · exact absurd hx (by decide +kernel)
  have hall := C88_typed_calls_are_accepted_partial henums hinputs hfrag hops hf hp hn paged_closed hU hd hco hunset hnd hvars
  have hreach := C88_accepted_variables_are_reached_partial henums hinputs hfrag hops hf hp hn paged_closed hU hd hco hunset hnd hvars
    fun o _ v _ => ⟨fun _ => rfl, fun _ fs _ f _ => rfl⟩
  have hff : functionsFor pagedFuncs [.operation pagedOp] = [(pagedOp, { kind := .query, use := "client.execute" })] := rfl
  rw [hff] at hall hreach
  cases hall with
  | cons hf1 hnil =>
  cases hnil
  rename_i f
  cases hreach with
  | cons hf2 _ =>
  obtain ⟨name, args, defaults, body, returns, cls, rfl, _⟩ := id hf1
  simp only [List.map_cons, List.map_nil, List.cons.injEq, and_true, parametersOf, Prod.mk.injEq] at hfs
  obtain ⟨rfl, rfl⟩ := hfs
  refine ⟨name, body, returns, ss1, r1, ss2, r2, ?_, hi, hf1, hf2, ⟨?_, ?_⟩, ?_⟩
  · unfold pagedFunctions
    rw [hrun]
    change (funcsPlugin pagedCtx pagedFuncs [.operation pagedOp] r4 >>= fun f => pure f.1) = _
    rw [hf]
    rfl
  · intro a ha
    simp only [pagedArgs, List.mem_cons, List.not_mem_nil, or_false] at ha
    rcases ha with rfl | rfl | rfl | rfl <;> exact paged_scratch _ (by decide +kernel) (by decide +kernel)
  · intro g hg
    have hg : g ∈ ["UNSET", "Q", "execute"] := hg
    simp only [List.mem_cons, List.not_mem_nil, or_false] at hg
    rcases hg with rfl | rfl | rfl <;> exact ⟨by decide +kernel, paged_scratch _ (by decide +kernel) (by decide +kernel)⟩
  · have hint : ∀ a, Accepts (serialWorld ss2 valuesIsa) (.name "int") (.atom a) := fun a => .leaf (.opaque ⟨rfl, a, rfl⟩)
    intro a ha A hA x hx
    simp only [pagedArgs, List.mem_cons, List.not_mem_nil, or_false] at ha
    rcases ha with rfl | rfl | rfl | rfl <;> cases hA <;> cases hx
    · exact .value rfl (hint _)
    · exact .marker (.tail _ (.head _))
    · refine .value rfl (.union (.head _) (.optionalSome (.list fun x hx => ?_)))
      simp only [List.mem_cons, List.not_mem_nil, or_false] at hx
      rcases hx with rfl | rfl <;> exact hint _
    · exact .marker (.tail _ (.head _))

/-- the class of an operation called `Q` -/
theorem paged_class {cls : String} (h : OperationClass pagedCtx pagedOp cls) : cls = "Q" := by
  obtain ⟨nm, hnm, hcls⟩ := h
  cases hnm
  rw [show OpKind.kind pagedOp.kind = Kind.query from rfl,
    show Kind.query.style pagedCtx.env "Q" = .ok "Q" by decide +kernel] at hcls
  cases hcls
  rfl

/-- the call `q(1, is_=[2, 3])` sends `{"in": {"from": 1}, "is": [2, 3]}` -/
example : ∃ f ss1 r1 ss2 r2, pagedFunctions = .ok [f] ∧ pagedInputs = .ok ((ss1, r1), (ss2, r2)) ∧
    ∃ out xs kvs ws, callFunc ["UNSET", "Q", "execute"] f [arg "1"] [("is_", .given (.list [.atom "2", .atom "3"]))] = some out ∧
      out.call.func = "execute" ∧ out.call.args = xs ++ [.global "Q", .dict kvs] ∧ wireEntries kvs = some ws ∧
      VariableValues pagedSchema (LeafValue pagedCtx r1 valuesIsa) pagedOp.vars ws := by
  obtain ⟨name, body, returns, ss1, r1, ss2, r2, hf, hi, ⟨_, _, _, _, _, cls, he, hcls, hcall⟩, _, hyg, htyped⟩ := paged_function
  cases paged_class hcls
  cases he
  exact ⟨_, ss1, r1, ss2, r2, hf, hi, hcall ["UNSET", "Q", "execute"] _ _ _ hyg (fun _ => .head _) (by decide +kernel)
    (by decide +kernel) rfl htyped⟩

/-- every map of variables accepted for `Q` is sent by a call of `q` -/
example : ∃ f ss1 r1 ss2 r2, pagedFunctions = .ok [f] ∧ pagedInputs = .ok ((ss1, r1), (ss2, r2)) ∧
    ∀ ws, VariableValues pagedSchema (LeafValue pagedCtx r1 valuesIsa) pagedOp.vars ws →
    ∃ kw out xs kvs ws', callFunc ["UNSET", "Q", "execute"] f [] kw = some out ∧ out.call.func = "execute" ∧
      out.call.args = xs ++ [.global "Q", .dict kvs] ∧ wireEntries kvs = some ws' ∧ SameMap ws ws' := by
  obtain ⟨name, body, returns, ss1, r1, ss2, r2, hf, hi, _, ⟨_, _, _, _, _, cls, he, hcls, hcall⟩, hyg, htyped⟩ := paged_function
  cases paged_class hcls
  cases he
  refine ⟨_, ss1, r1, ss2, r2, hf, hi, fun ws hws => ?_⟩
  have huniq : ∀ q v f, Holds pagedCtx pagedFuncs pagedOp q v f → (q, v, f) ∈ [("from_", "in", some "from"), ("next", "in", some "next"),
      ("is_", "is", none), ("max", "max", none)] := by
    intro q v f h
    cases h with
    | @variable_ v _ hv hn hq =>
      simp only [pagedOp, List.mem_cons, List.not_mem_nil, or_false] at hv
      rcases hv with rfl | rfl | rfl
      · exact absurd (show "in" ∈ pagedFuncs.expandInputTypes by decide +kernel) hn
      · have := (paramOf_unique (env := pagedCtx.env) (v := "is") (q := "is_") (by unfold ParamOf; decide +kernel) q).1 hq
        subst this
        decide +kernel
      · have := (paramOf_unique (env := pagedCtx.env) (v := "max") (q := "max") (by unfold ParamOf; decide +kernel) q).1 hq
        subst this
        decide +kernel
    | @field v fs f _ hv hn hfs hf hq =>
      have hv : v.name = "in" ∧ v.type.base = "Page" := by
        simp only [pagedOp, List.mem_cons, List.not_mem_nil, or_false] at hv
        rcases hv with rfl | rfl | rfl
        · exact ⟨rfl, rfl⟩
        · exact absurd hn (by decide +kernel)
        · exact absurd hn (by decide +kernel)
      obtain ⟨ds, hl⟩ := hfs
      rw [hv.2] at hl
      cases hl
      rw [hv.1]
      simp only [List.mem_cons, List.not_mem_nil, or_false] at hf
      rcases hf with rfl | rfl
      · have := fieldParamOf_unique (env := pagedCtx.env) (v := "from") (q := "from_") (by unfold FieldParamOf; decide +kernel) hq
        subst this
        decide +kernel
      · have := fieldParamOf_unique (env := pagedCtx.env) (v := "next") (q := "next") (by unfold FieldParamOf; decide +kernel) hq
        subst this
        decide +kernel
  obtain ⟨kw, L, out, xs, kvs, ws', _, _, _, h⟩ := hcall ["UNSET", "Q", "execute"] [arg "1"]
    [("is_", .given (.list [.atom "2", .atom "3"]))] _ hyg (fun _ => .head _) (by decide +kernel) (by decide +kernel)
    (by
      intro q v f v' f' h h'
      have h := huniq _ _ _ h
      have h' := huniq _ _ _ h'
      simp only [List.mem_cons, List.not_mem_nil, or_false, Prod.mk.injEq] at h h'
      rcases h with ⟨rfl, rfl, rfl⟩ | ⟨rfl, rfl, rfl⟩ | ⟨rfl, rfl, rfl⟩ | ⟨rfl, rfl, rfl⟩ <;>
        rcases h' with ⟨h0, rfl, rfl⟩ | ⟨h0, rfl, rfl⟩ | ⟨h0, rfl, rfl⟩ | ⟨h0, rfl, rfl⟩ <;>
        first | exact ⟨rfl, rfl⟩ | exact absurd h0 (by decide +kernel)) rfl htyped ws hws
  exact ⟨kw, out, xs, kvs, ws', h⟩

/-- the generated factories -/
def pagedFactories : Except Err (List Stmt) := do
  let x ← pagedRun pagedOp
  let f ← inputFuncsPlugin pagedCtx {} x.2.2
  pure f.1

/-- `def page(from_: int, next: Union[Optional[Page], UnsetType] = UNSET)` -/
def pageArgs : List Arg := pagedArgs.take 2

theorem paged_factories : pagedFactories.toOption.map (fun fs => fs.map parametersOf) =
    some [(pageArgs, [.name "UNSET"])] := by decide +kernel

/-- for every page `w`, the call `page(1, w)` builds `Page(**{"from": 1, "next": w})`, a legal value -/
example : ∃ f ss1 r1 ss2 r2, pagedFactories = .ok [f] ∧ pagedInputs = .ok ((ss1, r1), (ss2, r2)) ∧
    ∀ w, Sends ss2 valuesIsa (.name "Page") w →
    ∃ out ws, callFunc ["UNSET", "Page"] f [arg "1", .given w] [] = some out ∧
      out.call.func = "Page" ∧ out.call.args = [] ∧ wireEntries out.call.kwargs = some ws ∧
      InputValue pagedSchema (LeafValue pagedCtx r1 valuesIsa) (.named "Page") (.obj ws) ∧ Sends ss2 valuesIsa (.name "Page") (.obj ws) := by
  obtain ⟨ss1, r1, ss2, r2, hi, henums, hinputs, hU, hd, hp, hn, hsc, hbound⟩ := paged_hypotheses
  obtain ⟨ss3, r3, ss4, r4, hfrag, hops, hrun⟩ := paged_plugins (o := pagedOp) hi (by decide +kernel)
  have hfs := paged_factories
  unfold pagedFactories at hfs
  rw [hrun] at hfs
  change Option.map _ (Except.toOption (inputFuncsPlugin pagedCtx {} r4 >>= fun f => pure f.1)) = _ at hfs
  cases hf : inputFuncsPlugin pagedCtx {} r4 with
  | error e => rw [hf] at hfs; cases hfs
  | ok x =>
  obtain ⟨ss5, r5⟩ := x
  rw [hf] at hfs
  change some (ss5.map parametersOf) = _ at hfs
  simp only [Option.some.injEq] at hfs
  have hpage : ∀ t, InputOf pagedCtx.schema t → t = ⟨"Page", none, [⟨"from", .nonNull (.named "Int"), none, none, none⟩,
      ⟨"next", .named "Page", none, none, none⟩], []⟩ := fun t ht => by
    have := mem_inputTypes.2 ht
    exact List.mem_singleton.1 this
  obtain ⟨ts, hts, hall⟩ := C88_typed_factories_partial henums hinputs hfrag hops hf hp hn paged_closed hU hd
    ⟨fun n q h => (by rcases h with h | h <;> cases h), fun n q h => (by rcases h with h | h <;> cases h), fun n q h => (by cases h)⟩
    ⟨by rw [hbound]; decide +kernel, fun w h => absurd h.1 (by decide +kernel)⟩
    (by intro t ht; rw [hpage t ht]; decide +kernel)
  cases hall with
  | nil => cases hfs
  | @cons t f ts ss hf1 hrest =>
  have ht := hpage t ((hts t).1 (.head _)).1
  subst ht
  simp only [List.map_cons, List.cons.injEq, List.map_eq_nil_iff] at hfs
  obtain ⟨hfs, rfl⟩ := hfs
  obtain ⟨cls, hcls, name, args, defaults, body, rfl, hcall⟩ := hf1 trivial (by rintro ⟨_, h, _⟩; cases h)
  rw [show Kind.input.style pagedCtx.env "Page" = .ok "Page" by decide +kernel] at hcls
  cases hcls
  cases hfs
  refine ⟨.funcDef false name pageArgs [.name "UNSET"] body [] (some (.name "Page")), ss1, r1, ss2, r2, ?_, hi, fun w hw => ?_⟩
  · unfold pagedFactories
    rw [hrun]
    change (inputFuncsPlugin pagedCtx {} r4 >>= fun f => pure f.1) = _
    rw [hf]
    rfl
  refine hcall ["UNSET", "Page"] _ _ [("from_", arg "1"), ("next", .given w)] (by decide +kernel) ?_ (fun _ => .head _)
    (by decide +kernel) rfl ?_
  · intro g hg
    have hg : g ∈ ["UNSET", "Page"] := hg
    simp only [List.mem_cons, List.not_mem_nil, or_false] at hg
    rcases hg with rfl | rfl <;> exact ⟨by decide +kernel, by decide +kernel⟩
  · intro a ha A hA x hx
    simp only [pageArgs, pagedArgs, List.take, List.mem_cons, List.not_mem_nil, or_false] at ha
    rcases ha with rfl | rfl <;> cases hA <;> cases hx
    · exact .value rfl (.leaf (.opaque ⟨rfl, "1", rfl⟩))
    · exact .value rfl (.union (.head _) (.optionalSome (.leaf hw)))

/-! ## The exception -/

/-- an input of which exactly one field has to be given -/
def pickSchema : Schema := { query := some "Query", types := [("Int", ⟨.scalar, none⟩),
  ("Pick", ⟨.input [⟨"a", .named "Int", none, none, none⟩, ⟨"b", .named "Int", none, none, none⟩] [{ name := "oneOf" }], none⟩),
  ("Query", ⟨.object [⟨"n", .named "Int", [], none, none⟩] [], none⟩)] }

/-- `query Q($pick: Pick!) { n }` -/
def pickOp : OpDef := ⟨.query, some "Q", [⟨"pick", .nonNull (.named "Pick"), none⟩], [ask "n"]⟩

/-- C88: if the variable is expanded, the fields of a `@oneOf` input are independent optional parameters.  The call without
arguments is well typed and sends `{"pick": {}}`, which no server accepts. -/
theorem C88_oneOf_counterexample :
    builtSatisfies { schema := pickSchema } { definitions := [{ kind := .query, use := "client.execute" }], expandInputTypes := ["pick"] }
      [.operation pickOp] (fun fs _ => match fs with
        | [f] => (parametersOf f).2 == [.name "UNSET", .name "UNSET"] && (parametersOf f).1.length == 2 &&
            (parametersOf f).1.all (fun a => match a.annotation with
              | some (.subscript (.name "Union") (.tuple [_, .name "UnsetType"])) => true
              | _ => false) &&
            showCall ["UNSET", "Q", "execute"] f [] [] == some ("execute", ["<Q>", "{pick={};}"], "", false, some "n")
        | _ => false) = true ∧
    ∀ leaf, ¬ VariableValues pickSchema leaf pickOp.vars [("pick", .obj [])] := by
  refine ⟨by decide +kernel, fun leaf h => ?_⟩
  have := h.legal _ (.head _) _ (.head _)
  cases this with
  | nonNull _ h =>
    cases h with
    | leaf h _ => rcases h with h | ⟨_, h⟩ <;> cases h
    | object hl ho =>
      cases hl
      exact ho ⟨_, .head _, rfl⟩

end Turms.Props
