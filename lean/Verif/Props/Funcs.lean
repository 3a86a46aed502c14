import Verif.Lemmas.StillWalk
import Verif.Model.Inputs

/-! # C21 – C25: generated functions and input factories -/

namespace Turms.Props
open Turms Spec

/-! ## C22 -/

/-- One function is generated for every operation and every definition of its kind. Whatever the variables,
the expanded inputs and the extra arguments, no parameter without default follows one with default, and the
function offers exactly the intended parameters with the intended defaults: none for extra arguments and
required variables (or, if expanded, their required fields), the `UNSET` marker for the others, the configured
constant for extra keyword arguments. -/
theorem C22_signatures {c : Ctx} {p : FuncsConfig} {doc : Document} {ss : List Stmt} {r r' : Reg}
    (h : funcsPlugin c p doc r = .ok (ss, r')) :
    List.Forall₂ (fun x f => ValidSignature c p x.2 x.1 f) (functionsFor p doc) ss :=
  forall₂_mem_imp (allOperationFuncs_ok h) fun _ _ _ ⟨_, _, _, h⟩ => operationFunc_signature h

/-! ## C23 -/

/-- Calling a generated function: every call Python accepts calls the configured proxy once, with the extra
arguments, the class of the operation and a variables mapping that has an entry for a variable exactly if
there is something to send — the argument, unless the variable is optional and the argument is the `UNSET`
marker. It awaits the proxy if the function is asynchronous, iterates if the operation is a subscription, and
hands back the attribute of the only root field if such operations are collapsed. -/
theorem C23_calls_perform_operation {c : Ctx} {p : FuncsConfig} {doc : Document} {ss : List Stmt} {r r' : Reg}
    (h : funcsPlugin c p doc r = .ok (ss, r')) (hnd : ∀ o ∈ operationsOf doc, (o.vars.map (·.name)).Nodup)
    (hex : ∀ o ∈ operationsOf doc, ∀ v ∈ o.vars, v.name ∉ p.expandInputTypes) :
    List.Forall₂ (fun x f => Faithful c p x.2 x.1 f) (functionsFor p doc) ss := by
  refine forall₂_mem_imp (allOperationFuncs_ok h) fun x hx f ⟨_, _, _, hf⟩ => ?_
  obtain ⟨ho, _, hk⟩ := mem_functionsFor.1 hx
  have hn : ∀ v ∈ x.1.vars, v.name ∉ p.expandInputTypes := hex _ ho
  exact operationFunc_faithful hf hk (hnd _ ho) fun v hv he => (hn v hv he).elim

/-- the mapping, spelled out: the entry of `k` is the argument for the variable `k`, present always if the
variable is required and otherwise unless the argument is the marker -/
theorem C23_payload {c : Ctx} {p : FuncsConfig} {o : OpDef} {L : Locals} {kvs : List (String × PyVal)}
    (h : VariablesPayload c p o L kvs) (hex : ∀ v ∈ o.vars, v.name ∉ p.expandInputTypes) (k : String) (x : PyVal) :
    (k, x) ∈ kvs ↔ ∃ v ∈ o.vars, v.name = k ∧ ∃ param, ParamOf c.env v.name param ∧ L.find param = some x ∧
      (RequiredVar v ∨ x.is (unsetName c.env) = false) := by
  have hplain : ∀ v ∈ o.vars, ∀ x, SentAs c p L v x → ∃ param, ParamOf c.env v.name param ∧
      L.find param = some x ∧ (RequiredVar v ∨ x.is (unsetName c.env) = false) := by
    rintro v hv x (⟨_, q, hq, hs⟩ | ⟨he, _⟩)
    · exact ⟨q, hq, hs⟩
    · exact (hex v hv he).elim
  constructor
  · intro hm
    obtain ⟨v, hv, hk, hs⟩ := h.2.1 k x hm
    exact ⟨v, hv, hk, hplain v hv x hs⟩
  · rintro ⟨v, hv, rfl, q, hq, hf, hr⟩
    have hm := h.2.2 v hv ⟨x, .inl ⟨hex v hv, q, hq, hf, hr⟩⟩
    obtain ⟨⟨k', y⟩, hy, hk⟩ := List.mem_map.1 hm
    dsimp only at hk
    subst hk
    obtain ⟨w, hw, hwn, hs⟩ := h.2.1 _ _ hy
    obtain ⟨q', hq', hf', _⟩ := hplain w hw y hs
    rw [hwn] at hq'
    have : q' = q := (paramOf_unique hq q').1 hq'
    subst this
    rw [hf] at hf'
    cases hf'
    exact hy

/-! ## C24 -/

/-- The same with `expand_input_types`, for expanded variables that are required (`Input!` without default):
what is sent for them is the mapping of exactly the supplied fields, keyed by GraphQL name. -/
theorem C24_expanded_inputs_partial {c : Ctx} {p : FuncsConfig} {doc : Document} {ss : List Stmt} {r r' : Reg}
    (h : funcsPlugin c p doc r = .ok (ss, r')) (hnd : ∀ o ∈ operationsOf doc, (o.vars.map (·.name)).Nodup)
    (hreq : ∀ o ∈ operationsOf doc, ∀ v ∈ o.vars, v.name ∈ p.expandInputTypes → RequiredVar v)
    (hfs : ∀ o ∈ operationsOf doc, ∀ v ∈ o.vars, ∀ fs, FieldsOfVar c.schema v fs → (fs.map (·.name)).Nodup) :
    List.Forall₂ (fun x f => Faithful c p x.2 x.1 f) (functionsFor p doc) ss := by
  refine forall₂_mem_imp (allOperationFuncs_ok h) fun x hx f ⟨_, _, _, hf⟩ => ?_
  obtain ⟨ho, _, hk⟩ := mem_functionsFor.1 hx
  exact operationFunc_faithful hf hk (hnd _ ho)
    fun v hv he => ⟨hreq _ ho v hv he, hfs _ ho v hv⟩

/-! ## C25 -/

/-- One factory is generated for every input type that has a generated class and is not skipped. Its name is
not that of the class, its parameters are the fields (without default exactly if the field is non-null), and
every call Python accepts constructs the class from exactly the supplied fields, keyed by GraphQL name. -/
theorem C25_factories {c : Ctx} {p : InputFuncsConfig} {ss : List Stmt} {r r' : Reg}
    (h : inputFuncsPlugin c p r = .ok (ss, r')) (hnd : ∀ t ∈ inputTypes c.schema, (t.fields.map (·.name)).Nodup) :
    ∃ ts, ts.Sublist (inputTypes c.schema) ∧
      (∀ t ∈ inputTypes c.schema, t ∈ ts ↔ WantsFactory p r t.name) ∧
      List.Forall₂ (fun t f => ∃ cls, r.inputMap.get? t.name = some cls ∧ FaithfulFactory c t.fields cls f) ts ss := by
  refine ⟨_, List.filter_sublist, fun t ht => ?_, factories_ok h hnd⟩
  rw [List.mem_filter]
  simp only [ht, true_and, Bool.not_eq_true']
  exact skipsFactory_iff

/-! ## C21 -/

/-- If the operations plugin has run before (operation names are unique), the function generated for a
collapsed operation is annotated with exactly the annotation the operation class gives to its only field;
otherwise with the operation class. Subscriptions return iterators of that. -/
theorem C21_return_annotation {prep : List Char → List Char} {c : Ctx} {q : OperationsConfig} {p : FuncsConfig}
    {doc : Document} {r0 r1 r2 r3 : Reg} {ss fs : List Stmt} (hops : operationsPlugin prep c q doc r0 = .ok (ss, r1))
    (hfun : funcsPlugin c p doc r2 = .ok (fs, r3)) (hsame : r2.operationSingle = r1.operationSingle)
    (huniq : ((operationsOf doc).map (·.name)).Nodup) :
    List.Forall₂ (fun x f => ∃ A, returnsOf f = some (handsBack x.2 x.1 A) ∧
      (p.collapseLonely = true → x.1.sels.length = 1 → DeclaresOnly c x.1 ss A) ∧
      (p.collapseLonely = false ∨ x.1.sels.length ≠ 1 → ∃ cls, OperationClass c x.1 cls ∧ A = .name cls))
      (functionsFor p doc) fs := by
  refine forall₂_mem_imp (allOperationFuncs_ok hfun) fun x hx f ⟨r4, r5, hq, hf⟩ => ?_
  obtain ⟨ho, _, hk⟩ := mem_functionsFor.1 hx
  obtain ⟨ret, body, assigns, P, final, cls, rfl, ⟨_, hret⟩, _, _, _, hcls⟩ := operationFunc_ok hf
  refine ⟨ret, ?_, ?_, ?_⟩
  · unfold returnsOf functionReturns handsBack
    rw [hk]
    cases x.1.kind <;> rfl
  · intro hc hl
    obtain ⟨n, A, hn, hA, hd⟩ := (generateOperations_single hops).2 huniq x.1 ho hl
    have hb : (p.collapseLonely && x.1.sels.length == 1) = true := by simp [hc, hl]
    rw [hb] at hret
    have hsingle : r4.operationSingle.get? n = some A := by
      obtain ⟨_, _, _, e, _⟩ := hq
      rw [e]
      dsimp only
      rw [hsame]
      exact hA
    rw [returnAnnotation_registered hret hn hsingle]
    exact hd
  · intro hc
    have hb : (p.collapseLonely && x.1.sels.length == 1) = false := by
      rcases hc with hc | hc
      · simp [hc]
      · simp [hc]
    rw [hb] at hret
    exact returnAnnotation_whole hret

/-! ## Concrete cases -/

/-- a query with arguments, an input type, and root fields of every wrapping -/
def shopSchema : Schema := { query := some "Query", types := [
  ("String", ⟨.scalar, none⟩), ("Int", ⟨.scalar, none⟩),
  ("Filter", ⟨.input [{ name := "nameLike", type := .nonNull (.named "String") },
    { name := "maxPrice", type := .named "Int" }] [], none⟩),
  ("Item", ⟨.object [{ name := "title", type := .named "String" }] [], none⟩),
  ("Query", ⟨.object [{ name := "items", type := .nonNull (.list (.nonNull (.named "Item"))) }] [], none⟩)] }

/-- `query Shop($filter: Filter!, $first: Int, $page: Int!) { found: items { title } }` -/
def shopOp : OpDef where
  kind := .query
  name := some "Shop"
  vars := [⟨"filter", .nonNull (.named "Filter"), none⟩, ⟨"first", .named "Int", none⟩,
    ⟨"pageNo", .nonNull (.named "Int"), none⟩]
  sels := [.field "items" (some "found") [] [.field "title" none [] []]]

def shopCtx : Ctx := { schema := shopSchema, env := { stylers := [defaultStyler] } }

/-- synchronous and asynchronous functions with a client argument and a timeout -/
def shopFuncs : FuncsConfig := { definitions := [
  { kind := .query, use := "client.execute", extraArgs := [⟨"client", "client.Client", ""⟩] },
  { kind := .query, use := "client.aexecute", isAsync := true, extraKwargs := [⟨"timeout", "int", "", .int 5⟩] }] }

/-- the four plugins, one after the other; functions and factories -/
def built (c : Ctx) (p : FuncsConfig) (doc : Document) : Gen (List Stmt × List Stmt) := do
  let _ ← generateInputs c {}
  let _ ← operationsPlugin id c {} doc
  let a ← funcsPlugin c p doc
  let b ← inputFuncsPlugin c {}
  pure (a, b)

/-- a test on what was generated; `false` if generating failed -/
def builtSatisfies (c : Ctx) (p : FuncsConfig) (doc : Document) (test : List Stmt → List Stmt → Bool) : Bool :=
  match built c p doc (Reg.init c.env) with
  | .error _ => false
  | .ok (x, _) => test x.1 x.2

/-- what the plugins met, if the test succeeds -/
theorem built_ok {c : Ctx} {p : FuncsConfig} {doc : Document} {test : List Stmt → List Stmt → Bool}
    (h : builtSatisfies c p doc test = true) :
    ∃ r0 ss r1 fs r2 gs r3, operationsPlugin id c {} doc r0 = .ok (ss, r1) ∧ funcsPlugin c p doc r1 = .ok (fs, r2) ∧
      inputFuncsPlugin c {} r2 = .ok (gs, r3) ∧ test fs gs = true := by
  unfold builtSatisfies at h
  cases hb : built c p doc (Reg.init c.env) with
  | error e => rw [hb] at h; cases h
  | ok x =>
    rw [hb] at h
    unfold built at hb
    obtain ⟨_, r0, _, hb⟩ := Gen.bind_ok.1 hb
    obtain ⟨ss, r1, h1, hb⟩ := Gen.bind_ok.1 hb
    obtain ⟨fs, r2, h2, hb⟩ := Gen.bind_ok.1 hb
    obtain ⟨gs, r3, h3, hb⟩ := Gen.bind_ok.1 hb
    obtain ⟨hx, _⟩ := Gen.pure_ok.1 hb
    dsimp only at h
    rw [← hx] at h
    exact ⟨r0, ss, r1, fs, r2, gs, r3, h1, h2, h3, h⟩

/-- name and signature -/
def describe : Stmt → String × List (String × Option Expr)
  | .funcDef _ n args defaults _ _ _ => (n, signature args defaults)
  | _ => ("", [])

mutual
/-- a value as text -/
def showVal : PyVal → String
  | .given (.atom s) => s
  | .given _ => "?"
  | .global n => "<" ++ n ++ ">"
  | .const _ => "const"
  | .dict kvs => "{" ++ showEntries kvs ++ "}"
/-- the entries of a dictionary -/
def showEntries : List (String × PyVal) → String
  | [] => ""
  | (k, v) :: l => k ++ "=" ++ showVal v ++ ";" ++ showEntries l
end

/-- a call made by a function, as text -/
def showCall (M : List String) (f : Stmt) (pos : List PyVal) (kw : List (String × PyVal)) :
    Option (String × List String × String × Bool × Option String) :=
  (callFunc M f pos kw).map fun o =>
    (o.call.func, o.call.args.map showVal, showEntries o.call.kwargs, o.awaited, o.attr)

/-- a caller's value -/
def arg (s : String) : PyVal := .given (.atom s)

/-- the module of the examples -/
def shopNames : List String := ["UNSET", "Shop", "Filter", "execute", "aexecute"]

/-- signatures, calls with and without the optional variable, and the factory -/
example : builtSatisfies shopCtx shopFuncs [.operation shopOp] (fun fs gs =>
    match fs, gs with
    | [f, g], [k] =>
      describe f == ("shop", [("client", none), ("filter", none), ("page_no", none), ("first", some (.name "UNSET"))]) &&
      describe g == ("ashop", [("filter", none), ("page_no", none), ("first", some (.name "UNSET")),
        ("timeout", some (.const (.int 5)))]) &&
      describe k == ("filter", [("name_like", none), ("max_price", some (.name "UNSET"))]) &&
      showCall shopNames f [arg "C", arg "F", arg "2"] [] ==
        some ("execute", ["C", "<Shop>", "{filter=F;pageNo=2;}"], "", false, some "found") &&
      showCall shopNames g [arg "F"] [("first", arg "9"), ("page_no", arg "2")] ==
        some ("aexecute", ["<Shop>", "{filter=F;first=9;pageNo=2;}"], "timeout=const;", true, some "found") &&
      showCall shopNames k [arg "x"] [] == some ("Filter", [], "nameLike=x;", false, none) &&
      returnsOf f == some (sub "List" (.name "ShopFound"))
    | _, _ => false) = true := by decide +kernel

/-- the document has the properties the theorems ask for -/
example : (∀ o ∈ operationsOf [.operation shopOp], (o.vars.map (·.name)).Nodup) ∧
    ((operationsOf [.operation shopOp]).map (·.name)).Nodup ∧
    (∀ o ∈ operationsOf [.operation shopOp], ∀ v ∈ o.vars, v.name ∈ ["filter"] → RequiredVar v) ∧
    (∀ t ∈ inputTypes shopSchema, (t.fields.map (·.name)).Nodup) := by
  have ho : operationsOf [.operation shopOp] = [shopOp] := rfl
  rw [ho]
  refine ⟨?_, ?_, ?_, ?_⟩
  · intro o h; rw [List.mem_singleton.1 h]; decide
  · decide
  · intro o h; rw [List.mem_singleton.1 h]
    intro v hv hn
    simp only [shopOp, List.mem_cons, List.not_mem_nil, or_false] at hv
    rcases hv with rfl | rfl | rfl
    · exact ⟨⟨_, rfl⟩, rfl⟩
    · exact absurd hn (by decide)
    · exact absurd hn (by decide)
  · decide +kernel

/-- the hygiene the call theorems ask for -/
example : Hygienic shopCtx shopFuncs { kind := .query, use := "client.execute" } shopOp "Shop"
    [⟨"client", none⟩, ⟨"filter", none⟩, ⟨"page_no", none⟩, ⟨"first", none⟩] := by
  have hs : ∀ n, n ≠ "variables" → ¬ Scratch shopCtx shopFuncs shopOp n := by
    rintro n hn (h | ⟨v, _, he, _⟩)
    · exact hn h
    · cases he
  constructor
  · intro a ha
    apply hs
    revert a
    decide
  · intro g hg
    refine ⟨?_, hs g ?_⟩ <;> revert g <;> decide +kernel

/-- the expanded input: the fields become parameters, the mapping is sent -/
example : builtSatisfies shopCtx { shopFuncs with expandInputTypes := ["filter"] } [.operation shopOp] (fun fs _ =>
    match fs with
    | [f, _] =>
      describe f == ("shop", [("client", none), ("name_like", none), ("page_no", none),
        ("max_price", some (.name "UNSET")), ("first", some (.name "UNSET"))]) &&
      showCall shopNames f [arg "C", arg "x", arg "2"] [("first", arg "1")] ==
        some ("execute", ["C", "<Shop>", "{filter={nameLike=x;};first=1;pageNo=2;}"], "", false, some "found")
    | _ => false) = true := by decide +kernel

/-- the theorems apply to it -/
example (h : builtSatisfies shopCtx { shopFuncs with expandInputTypes := ["filter"] } [.operation shopOp]
    (fun fs _ => fs.length == 2) = true) : ∃ r1 fs r2, funcsPlugin shopCtx { shopFuncs with expandInputTypes := ["filter"] }
      [.operation shopOp] r1 = .ok (fs, r2) ∧ fs.length = 2 := by
  obtain ⟨_, _, r1, fs, r2, _, _, _, hf, _, ht⟩ := built_ok h
  exact ⟨r1, fs, r2, hf, by simpa using ht⟩

/-! ## What goes wrong -/

/-- an operation with one variable -/
def oneVar (v : VarDef) : OpDef where
  kind := .query
  name := some "Shop"
  vars := [v]
  sels := [.field "items" none [] [.field "title" none [] []]]

/-- C22: two variables that differ only in their spelling become two parameters of the same name, which
Python rejects (`SyntaxError: duplicate argument`). -/
theorem C22_duplicate_parameters_counterexample :
    builtSatisfies shopCtx { definitions := [{ kind := .query, use := "client.execute" }] }
      [.operation { shopOp with vars := [⟨"pageNo", .named "Int", none⟩, ⟨"page_no", .named "Int", none⟩] }]
      (fun fs _ => match fs with
        | [f] => (describe f).2.map (·.1) == ["page_no", "page_no"]
        | _ => false) = true := by decide +kernel

/-- C23: a variable called `variables` is overwritten by the local dictionary before it is read: the caller's
value is not sent. -/
theorem C23_variables_counterexample :
    builtSatisfies shopCtx { definitions := [{ kind := .query, use := "client.execute" }] }
      [.operation (oneVar ⟨"variables", .nonNull (.named "Int"), none⟩)]
      (fun fs _ => match fs with
        | [f] => showCall shopNames f [arg "5"] [] ==
            some ("execute", ["<Shop>", "{variables={};}"], "", false, some "items")
        | _ => false) = true := by decide +kernel

/-- C24: an expanded variable with a default value: its fields are not parameters, but the body uses them.
Every call raises `NameError` (here: the call without arguments is accepted, and fails). -/
theorem C24_default_counterexample :
    builtSatisfies shopCtx { definitions := [{ kind := .query, use := "client.execute" }], expandInputTypes := ["filter"] }
      [.operation (oneVar ⟨"filter", .nonNull (.named "Filter"), some (.string "{}")⟩)]
      (fun fs _ => match fs with
        | [f] => describe f == ("shop", [("filter", some (.name "UNSET"))]) &&
            showCall shopNames f [] [] == none && showCall shopNames f [arg "F"] [] == none
        | _ => false) = true := by decide +kernel

/-- C24: an expanded variable that may be null makes the generator fail -/
theorem C24_nullable_counterexample :
    (match operationFunc shopCtx { expandInputTypes := ["filter"], collapseLonely := false } { kind := .query, use := "client.execute" }
      (oneVar ⟨"filter", .named "Filter", none⟩) (Reg.init {}) with
    | .error (.attributeError n) => n
    | _ => "") = "Filter" := by decide +kernel

/-- a schema whose input has a field called `data` -/
def dataSchema : Schema := { query := some "Query", types := [("Int", ⟨.scalar, none⟩),
  ("Filter", ⟨.input [{ name := "data", type := .nonNull (.named "Int") }] [], none⟩)] }

/-- C25: a field called `data` is overwritten by the local dictionary: the caller's value is lost. -/
theorem C25_data_counterexample :
    builtSatisfies { schema := dataSchema } {} [] (fun _ gs => match gs with
      | [f] => showCall shopNames f [arg "5"] [] == some ("Filter", [], "data={};", false, none)
      | _ => false) = true := by decide +kernel

/-- the label of the returned type in the docstring -/
def labelOf (c : Ctx) (o : OpDef) : Except Err String :=
  match returnLabel c o true (Reg.init c.env) with
  | .ok (l, _) => .ok l
  | .error e => .error e

/-- C21: the docstring label ignores the alias of the root field: for `{ found: items { title } }` the
annotation is `List[ShopFound]` (see the example above), the label names the class `ShopItems`, which does not
exist. -/
theorem C21_label_counterexample : (labelOf shopCtx { shopOp with vars := [] }).toOption = some "List[ShopItems]" := by
  decide +kernel

end Turms.Props
