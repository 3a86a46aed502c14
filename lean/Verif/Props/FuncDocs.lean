import Verif.Lemmas.FuncDocs
import Verif.Props.Funcs
import Verif.Model.Enums
import Verif.Spec.Generable

/-! # C78: the docstrings of generated functions and factories -/

namespace Turms.Props
open Turms Spec

/-- Every generated function has a docstring whose section of arguments has one line for each parameter of the function, in
the order of the parameters, and no others. The line of a variable says whether it may be left out, what it defaults to, and
the descriptions of the arguments it is given to. Missing: variables that are expanded into their fields, and arguments of
another name than the variable (`C78_expanded_counterexample`, `C78_description_counterexample`). -/
theorem C78_function_documentation_partial {c : Ctx} {p : FuncsConfig} {doc : Document} {ss : List Stmt} {r r' : Reg}
    (h : funcsPlugin c p doc r = .ok (ss, r')) (hex : ∀ o ∈ operationsOf doc, ∀ v ∈ o.vars, v.name ∉ p.expandInputTypes) :
    List.Forall₂ (fun x f => DocumentsParameters c x.1 f) (functionsFor p doc) ss :=
  forall₂_mem_imp (allOperationFuncs_ok h) fun _ hx _ ⟨_, _, _, hf⟩ =>
    operationFunc_documented hf (hex _ (mem_functionsFor.1 hx).1)

/-- Every generated function has a docstring that begins with the name of its operation and what is known about it: the
comments above the operation, or the descriptions of its root fields under the keys of the answer. -/
theorem C78_heading {c : Ctx} {p : FuncsConfig} {doc : Document} {ss : List Stmt} {r r' : Reg}
    (h : funcsPlugin c p doc r = .ok (ss, r')) :
    List.Forall₂ (fun x f => DocumentsOperation c p x.1 f) (functionsFor p doc) ss :=
  forall₂_mem_imp (allOperationFuncs_ok h) fun _ _ _ ⟨_, _, _, hf⟩ => operationFunc_heading hf

/-- The docstring of every generated function ends with what it returns: the class of the operation, or the type of the
only field, written as in Python.  Missing: aliased root fields, for which the label names a class that does not exist
(`C21_label_counterexample`), and the Python names of scalars. -/
theorem C78_returns_partial {c : Ctx} {p : FuncsConfig} {doc : Document} {ss : List Stmt} {r r' : Reg}
    (h : funcsPlugin c p doc r = .ok (ss, r'))
    (hal : ∀ o ∈ operationsOf doc, ∀ n al as sub, Sel.field n al as sub ∈ o.sels → al = none) :
    List.Forall₂ (fun x f => DocumentsReturn c p x.1 f) (functionsFor p doc) ss :=
  forall₂_mem_imp (allOperationFuncs_ok h) fun _ hx _ ⟨_, _, _, hf⟩ =>
    operationFunc_return hf (hal _ (mem_functionsFor.1 hx).1)

/-- Every factory has a docstring naming the class and each field of the input type, with its description, or none if
documentation is not wanted. -/
theorem C78_factory_documentation {c : Ctx} {p : InputFuncsConfig} {ss : List Stmt} {r r' : Reg}
    (h : inputFuncsPlugin c p r = .ok (ss, r')) :
    ∃ ts, ts.Sublist (inputTypes c.schema) ∧ (∀ t ∈ inputTypes c.schema, t ∈ ts ↔ WantsFactory p r t.name) ∧
      List.Forall₂ (fun t f => ∃ cls, r.inputMap.get? t.name = some cls ∧
        (p.extractDocumentation = true → DocumentsFields c.env t.fields cls f) ∧
        (p.extractDocumentation = false → docOf f = none)) ts ss := by
  refine ⟨_, List.filter_sublist, fun t ht => ?_, factories_documented h⟩
  rw [List.mem_filter]
  simp only [ht, true_and, Bool.not_eq_true']
  exact skipsFactory_iff

/-- the shipped stylers treat fields and parameters alike -/
theorem shipped_alike {l : List Styler} (h : ∀ s ∈ l, Shipped s) (n : String) :
    generateParameterName l n = generateNodeName l n := by
  have hs : ∀ s, Shipped s → s.parameterName = s.nodeName := by
    rintro _ (_ | _ | _ | _) <;> rfl
  have hc : ∀ l, (∀ s ∈ l, Shipped s) → ∀ n, styleChain l Styler.parameterName n = styleChain l Styler.nodeName n := by
    intro l
    induction l with
    | nil => intro _ _; rfl
    | cons s l ih =>
      intro h n
      unfold styleChain
      rw [hs s (h s (List.mem_cons_self ..))]
      cases s.nodeName n with
      | error e => rfl
      | ok m => exact ih (fun s' hs' => h s' (List.mem_cons_of_mem _ hs')) m
  unfold generateParameterName generateNodeName styled
  rw [hc l h]

/-- With the shipped stylers the lines of a factory's docstring are about its parameters: every parameter has one. -/
theorem C78_factory_parameters {c : Ctx} {p : InputFuncsConfig} {ss : List Stmt} {r r' : Reg}
    (h : inputFuncsPlugin c p r = .ok (ss, r')) (hnd : ∀ t ∈ inputTypes c.schema, (t.fields.map (·.name)).Nodup)
    (hs : ∀ s ∈ c.env.stylers, Shipped s) :
    ∃ ts, ts.Sublist (inputTypes c.schema) ∧ (∀ t ∈ inputTypes c.schema, t ∈ ts ↔ WantsFactory p r t.name) ∧
      List.Forall₂ (fun t f => ∀ n, n ∈ paramsOf f ↔ ∃ g ∈ t.fields, ParamOf c.env g.name n) ts ss := by
  obtain ⟨ts, h1, h2, h3⟩ := C25_factories h hnd
  refine ⟨ts, h1, h2, h3.imp ?_⟩
  rintro t f ⟨cls, _, name, args, defaults, body, rfl, _, hl, _, hsig, _⟩ n
  have hp : n ∈ paramsOf (.funcDef false name args defaults body [] (some (.name cls))) ↔
      ∃ e, (n, e) ∈ signature args defaults := by
    have hm : (signature args defaults).map Prod.fst = args.map (·.arg) := by
      unfold signature
      rw [List.map_fst_zip]
      simp
      omega
    unfold paramsOf
    dsimp only
    rw [← hm]
    simp
  rw [hp]
  constructor
  · rintro ⟨e, he⟩
    obtain ⟨g, hg, hn, _⟩ := (hsig n e).1 he
    exact ⟨g, hg, by unfold ParamOf; rw [shipped_alike hs]; exact hn⟩
  · rintro ⟨g, hg, hn⟩
    unfold ParamOf at hn
    rw [shipped_alike hs] at hn
    by_cases hr : RequiredField g
    · exact ⟨none, (hsig n _).2 ⟨g, hg, hn, .inl ⟨hr, rfl⟩⟩⟩
    · exact ⟨_, (hsig n _).2 ⟨g, hg, hn, .inr ⟨hr, rfl⟩⟩⟩

/-! ## Concrete cases -/

/-- a shop whose arguments are described -/
def docSchema : Schema := { query := some "Query", types := [
  ("String", ⟨.scalar, none⟩), ("Int", ⟨.scalar, none⟩),
  ("Sort", ⟨.enum [{ name := "PRICE" }], none⟩),
  ("Filter", ⟨.input [{ name := "nameLike", type := .nonNull (.named "String"), description := some "part of the name" },
    { name := "maxPrice", type := .named "Int" }] [], none⟩),
  ("Query", ⟨.object [
    { name := "count", type := .named "Int", description := some "how many", args := [
      { name := "first", type := .named "Int", description := some "at most so many" },
      { name := "where", type := .named "Filter", description := some "which" },
      { name := "sort", type := .named "Sort" }] },
    { name := "total", type := .named "Int", args := [
      { name := "first", type := .named "Int", description := some "and here too" }] }] [], none⟩)] }

def docCtx : Ctx := { schema := docSchema, env := { stylers := [defaultStyler] } }

/-- `query Shop($first: Int = 5, $where: Filter!, $sort: Sort = PRICE) { count(first: $first, where: $where, sort: $sort) total(first: $first) }` -/
def docOp : OpDef where
  kind := .query
  name := some "Shop"
  vars := [⟨"first", .named "Int", some (.int "5")⟩, ⟨"where", .nonNull (.named "Filter"), none⟩,
    ⟨"sort", .named "Sort", some (.enum "PRICE")⟩]
  sels := [.field "count" none [("first", .variable "first"), ("where", .variable "where"), ("sort", .variable "sort")] [],
    .field "total" none [("first", .variable "first")] []]

/-- the plugins, one after the other; functions and factories -/
def documented (c : Ctx) (p : FuncsConfig) (doc : Document) : Except Err ((List Stmt × List Stmt) × Reg) :=
  (do
    let _ ← generateEnums c {}
    let _ ← generateInputs c {}
    let a ← funcsPlugin c p doc
    let b ← inputFuncsPlugin c {}
    pure (a, b) : Gen (List Stmt × List Stmt)) (Reg.init c.env)

/-- the docstrings and parameters of the functions, and the docstrings of the factories -/
def docsOf (c : Ctx) (p : FuncsConfig) (doc : Document) : Option (List (Option String × List String) × List (Option String)) :=
  match documented c p doc with
  | .error _ => none
  | .ok (x, _) => some (x.1.map fun f => (docOf f, paramsOf f), x.2.map docOf)

example : docsOf docCtx shopFuncs [.operation docOp] = some ([
    (some "Shop \n\ncount: how many\n\nArgs:\n    client (client.Client): \n    where (Filter): which\n    first (Optional[int], optional): at most so many AND and here too. Defaults to 5\n    sort (Optional[Sort], optional): No description. Defaults to PRICE\n\nReturns:\n    Shop\n",
      ["client", "where", "first", "sort"]),
    (some "Shop \n\ncount: how many\n\nArgs:\n    where (Filter): which\n    first (Optional[int], optional): at most so many AND and here too. Defaults to 5\n    sort (Optional[Sort], optional): No description. Defaults to PRICE\n    timeout (int, optional): \n\nReturns:\n    Shop\n",
      ["where", "first", "sort", "timeout"])],
    [some "Creates a Filter\n\nArguments:\n    name_like: part of the name\n    max_price: \n"]) := by decide +kernel

/-- an alias; a description stands for itself if the function returns the only field -/
example : (docsOf docCtx { definitions := [{ kind := .query, use := "client.execute" }], collapseLonely := false }
      [.operation { docOp with vars := [], sels := [.field "count" (some "n") [] [], .field "count" none [] []] }]).map (·.1) = some [
    (some "Shop \n\nn: how many\ncount: how many\n\nArgs:\n\nReturns:\n    Shop\n", [])] ∧
    (docsOf docCtx { definitions := [{ kind := .query, use := "client.execute" }], collapseLonely := true }
      [.operation { docOp with vars := [], sels := [.field "count" (some "n") [] []] }]).map (·.1) = some [
    (some "Shop \n\nhow many\n\nArgs:\n\nReturns:\n    Optional[int]\n", [])] := by decide +kernel

/-- no root field of it is aliased -/
example : ∀ o ∈ operationsOf [.operation docOp], ∀ n al as sub, Sel.field n al as sub ∈ o.sels → al = none := by
  intro o ho n al as sub hs
  rw [List.mem_singleton.1 ho] at hs
  simp [docOp] at hs
  rcases hs with ⟨_, rfl, _⟩ | ⟨_, rfl, _⟩ <;> rfl

/-- the hypotheses hold of it -/
example : (∀ o ∈ operationsOf [.operation docOp], ∀ v ∈ o.vars, v.name ∉ shopFuncs.expandInputTypes) ∧
    (∀ s ∈ docCtx.env.stylers, Shipped s) ∧ (∀ t ∈ inputTypes docSchema, (t.fields.map (·.name)).Nodup) := by
  refine ⟨(fun o _ v _ h => by cases h), fun s hs => ?_, by decide +kernel⟩
  rw [List.mem_singleton.1 hs]
  exact .default

/-! ## What goes wrong -/

/-- An argument's description is looked up under the name of the variable: `count(first: $limit)` leaves `$limit` without
description, although `first` has one. -/
theorem C78_description_counterexample :
    (docsOf docCtx { definitions := [{ kind := .query, use := "client.execute" }] }
      [.operation { docOp with vars := [⟨"limit", .named "Int", none⟩],
                               sels := [.field "total" none [("first", .variable "limit")] []] }]).map (·.1) = some [
    (some "Shop \n\n\nArgs:\n    limit (Optional[int], optional): No description. \n\nReturns:\n    Optional[int]\n", ["limit"])] := by
  decide +kernel

/-- Fields of an expanded variable are documented in the order of the variables, but are the first parameters; and the
optional ones are not marked. -/
theorem C78_expanded_counterexample :
    (docsOf docCtx { definitions := [{ kind := .query, use := "client.execute" }], expandInputTypes := ["where"] }
      [.operation { docOp with vars := [⟨"page", .nonNull (.named "Int"), none⟩, ⟨"where", .nonNull (.named "Filter"), none⟩] }]).map (·.1) = some [
    (some "Shop \n\ncount: how many\n\nArgs:\n    page (int): No description\n    name_like: part of the name\n    max_price: \n\nReturns:\n    Shop\n",
      ["name_like", "page", "max_price"])] := by
  decide +kernel

end Turms.Props
