import Verif.Model.Funcs
import Verif.Spec.Calls

/-! # What generated functions are supposed to do -/

namespace Turms.Spec
open Turms

/-- the name under which the module knows the `UNSET` marker: the configured one, else `UNSET` -/
def unsetName (env : Env) : String :=
  match env.config.unsetInstance with
  | some o => if o = "" then "UNSET" else lastComponent o
  | none => "UNSET"

/-- a variable the caller has to supply: non-null and without default -/
def RequiredVar (v : VarDef) : Prop := (∃ t, v.type = .nonNull t) ∧ v.default = none

/-- the field has to be supplied (`generate_input_type_params` ignores defaults) -/
def RequiredField (f : InputFieldDef) : Prop := ∃ t, f.type = .nonNull t

/-- the input object type behind a variable has these fields -/
def FieldsOfVar (s : Schema) (v : VarDef) (fs : List InputFieldDef) : Prop :=
  ∃ ds, s.lookup v.type.base = some (.input fs ds)

/-- the Python parameter for a variable -/
def ParamOf (env : Env) (variable_ param : String) : Prop := generateParameterName env.stylers variable_ = .ok param

/-- the Python parameter for a field of an expanded input -/
def FieldParamOf (env : Env) (field param : String) : Prop := generateNodeName env.stylers field = .ok param

/-- What reaches the payload from the parameter `param`: its value, always if it is `required`, else unless
it is the marker `u`. -/
def Supplied (L : Locals) (u param : String) (required : Prop) (x : PyVal) : Prop :=
  L.find param = some x ∧ (required ∨ x.is u = false)

/-- `entries` is the mapping of exactly the supplied fields, keyed by GraphQL name -/
def FieldPayload (env : Env) (L : Locals) (fs : List InputFieldDef) (entries : List (String × PyVal)) : Prop :=
  (entries.map (·.1)).Nodup ∧ ∀ k x, (k, x) ∈ entries ↔
    ∃ f ∈ fs, f.name = k ∧ ∃ param, FieldParamOf env f.name param ∧
      Supplied L (unsetName env) param (RequiredField f) x

/-- what is sent for a variable: the caller's argument, or for an expanded variable the mapping of the
supplied fields -/
def SentAs (c : Ctx) (p : FuncsConfig) (L : Locals) (v : VarDef) (x : PyVal) : Prop :=
  (v.name ∉ p.expandInputTypes ∧
    ∃ param, ParamOf c.env v.name param ∧ Supplied L (unsetName c.env) param (RequiredVar v) x) ∨
  (v.name ∈ p.expandInputTypes ∧
    ∃ fs entries, FieldsOfVar c.schema v fs ∧ FieldPayload c.env L fs entries ∧ x = .dict entries)

/-- what a generated function is expected to offer as parameter `name`, with or without default -/
inductive Intended (c : Ctx) (p : FuncsConfig) (d : FuncDefinition) (o : OpDef) : String → Option Expr → Prop
  | extraArg {a} : a ∈ p.globalArgs ++ d.extraArgs → Intended c p d o a.key none
  | variable_ {v param} : v ∈ o.vars → RequiredVar v → v.name ∉ p.expandInputTypes →
      ParamOf c.env v.name param → Intended c p d o param none
  | field {v fs f param} : v ∈ o.vars → RequiredVar v → v.name ∈ p.expandInputTypes →
      FieldsOfVar c.schema v fs → f ∈ fs → RequiredField f → FieldParamOf c.env f.name param →
      Intended c p d o param none
  | optionalField {v fs f param} : v ∈ o.vars → RequiredVar v → v.name ∈ p.expandInputTypes →
      FieldsOfVar c.schema v fs → f ∈ fs → ¬ RequiredField f → FieldParamOf c.env f.name param →
      Intended c p d o param (some (.name (unsetName c.env)))
  | optionalVariable {v param} : v ∈ o.vars → ¬ RequiredVar v → ParamOf c.env v.name param →
      Intended c p d o param (some (.name (unsetName c.env)))
  | extraKwarg {k} : k ∈ p.globalKwargs ++ d.extraKwargs → Intended c p d o k.key (some (.const k.default))

/-- the local dictionaries of a generated function: `variables`, and one per expanded variable -/
def Scratch (c : Ctx) (p : FuncsConfig) (o : OpDef) (n : String) : Prop :=
  n = "variables" ∨ ∃ v ∈ o.vars, v.name ∈ p.expandInputTypes ∧ ∃ param, ParamOf c.env v.name param ∧
    n = "_" ++ param

/-- The names used in the body do not get in each other's way: no parameter is called like a local
dictionary, and none of the module-level objects the body uses is hidden by a parameter or a local
dictionary. -/
structure Hygienic (c : Ctx) (p : FuncsConfig) (d : FuncDefinition) (o : OpDef) (cls : String)
    (args : List Arg) : Prop where
  params : ∀ a ∈ args, ¬ Scratch c p o a.arg
  globals : ∀ g ∈ [unsetName c.env, cls, lastComponent d.use], g ∉ args.map (·.arg) ∧ ¬ Scratch c p o g

/-- the class generated for an operation -/
def OperationClass (c : Ctx) (o : OpDef) (cls : String) : Prop :=
  ∃ n, o.name = some n ∧ o.kind.kind.style c.env n = .ok cls

/-- the attribute of the operation class that holds the one root field: named by its response key -/
def OnlyAttribute (c : Ctx) (o : OpDef) (a : String) : Prop :=
  ∃ n alias_ args sub, o.sels = [.field n alias_ args sub] ∧
    generateNodeName c.env.stylers (alias_.getD n) = .ok a

/-- the mapping sent as variables: exactly one entry for every variable that has something to send -/
def VariablesPayload (c : Ctx) (p : FuncsConfig) (o : OpDef) (L : Locals) (kvs : List (String × PyVal)) : Prop :=
  (kvs.map (·.1)).Nodup ∧ (∀ k x, (k, x) ∈ kvs → ∃ v ∈ o.vars, v.name = k ∧ SentAs c p L v x) ∧
  ∀ v ∈ o.vars, (∃ x, SentAs c p L v x) → v.name ∈ kvs.map (·.1)

/-- What a call of the function generated for `o` under the definition `d` does, given its arguments `L`: it
calls the configured proxy with the extra arguments, the operation class and the variables. -/
structure Performs (c : Ctx) (p : FuncsConfig) (d : FuncDefinition) (o : OpDef) (cls : String) (L : Locals)
    (out : Outcome) : Prop where
  proxy : out.call.func = lastComponent d.use
  args : ∃ xs kvs, out.call.args = xs ++ [.global cls, .dict kvs] ∧
    xs.map some = (p.globalArgs ++ d.extraArgs).map (fun a => L.find a.key) ∧ VariablesPayload c p o L kvs
  kwargs : out.call.kwargs.map (·.1) = (p.globalKwargs ++ d.extraKwargs).map (·.key) ∧
    out.call.kwargs.map (fun k => some k.2) = (p.globalKwargs ++ d.extraKwargs).map (fun k => L.find k.key)
  awaited : out.awaited = d.isAsync
  iterates : out.iterates = true ↔ o.kind = .subscription
  collapsed : p.collapseLonely = true → o.sels.length = 1 → ∃ a, out.attr = some a ∧ OnlyAttribute c o a
  whole : p.collapseLonely = false ∨ o.sels.length ≠ 1 → out.attr = none

/-- the body of the function compares a parameter with the `UNSET` marker: some variable, or some field of an
expanded variable, may be left out -/
def UsesUnset (c : Ctx) (p : FuncsConfig) (o : OpDef) : Prop :=
  ∃ v ∈ o.vars, (v.name ∉ p.expandInputTypes ∧ ¬ RequiredVar v) ∨
    (v.name ∈ p.expandInputTypes ∧ ∃ fs, FieldsOfVar c.schema v fs ∧ ∃ g ∈ fs, ¬ RequiredField g)

/-- Every call of `f` that Python accepts performs the operation. `M` are the names the module defines. -/
def Faithful (c : Ctx) (p : FuncsConfig) (d : FuncDefinition) (o : OpDef) (f : Stmt) : Prop :=
  ∃ name args defaults body returns cls, f = .funcDef d.isAsync name args defaults body [] returns ∧
    OperationClass c o cls ∧
    ∀ M pos kw L, Hygienic c p d o cls args → (UsesUnset c p o → unsetName c.env ∈ M) → cls ∈ M → lastComponent d.use ∈ M →
      bindCall M args defaults pos kw = some L → ∃ out, callFunc M f pos kw = some out ∧ Performs c p d o cls L out

/-- `f` has a signature Python accepts as far as defaults are concerned, offering exactly the intended
parameters with the intended defaults -/
def ValidSignature (c : Ctx) (p : FuncsConfig) (d : FuncDefinition) (o : OpDef) (f : Stmt) : Prop :=
  ∃ name args defaults body returns, f = .funcDef d.isAsync name args defaults body [] returns ∧
    defaults.length ≤ args.length ∧
    (signature args defaults).Pairwise (fun a b => a.2.isSome = true → b.2.isSome = true) ∧
    ∀ n e, (n, e) ∈ signature args defaults ↔ Intended c p d o n e

/-- The factory `f` builds `cls` from exactly the supplied fields, under a name of its own. The parameters must
not be called `data` (a local variable of the factory) or like the two module-level objects it uses. -/
def FaithfulFactory (c : Ctx) (fields : List InputFieldDef) (cls : String) (f : Stmt) : Prop :=
  ∃ name args defaults body, f = .funcDef false name args defaults body [] (some (.name cls)) ∧ name ≠ cls ∧
    defaults.length ≤ args.length ∧
    (signature args defaults).Pairwise (fun a b => a.2.isSome = true → b.2.isSome = true) ∧
    (∀ n e, (n, e) ∈ signature args defaults ↔ ∃ g ∈ fields, FieldParamOf c.env g.name n ∧
      ((RequiredField g ∧ e = none) ∨ (¬ RequiredField g ∧ e = some (.name (unsetName c.env))))) ∧
    ∀ M pos kw L, "data" ∉ args.map (·.arg) →
      (∀ g ∈ [unsetName c.env, cls], g ≠ "data" ∧ g ∉ args.map (·.arg)) →
      ((∃ g ∈ fields, ¬ RequiredField g) → unsetName c.env ∈ M) → cls ∈ M →
      bindCall M args defaults pos kw = some L →
      ∃ out, callFunc M f pos kw = some out ∧ out.call.func = cls ∧ out.call.args = [] ∧
        FieldPayload c.env L fields out.call.kwargs ∧ out.awaited = false ∧ out.iterates = false ∧ out.attr = none

/-- the input types that get a factory: those with a generated class, referenced if only referenced types are
wanted, and not starting with an underscore if those are skipped -/
def WantsFactory (p : InputFuncsConfig) (r : Reg) (name : String) : Prop :=
  (∀ l, p.refInputs = some l → name ∈ l) ∧ (p.skipUnderscore = true → name.toList.head? ≠ some '_') ∧
  (r.inputMap.get? name).isSome = true

/-- the return annotation of a function -/
def returnsOf : Stmt → Option Expr
  | .funcDef _ _ _ _ _ _ ret => ret
  | _ => none

/-- the annotation of a function handing back values of type `A`: an iterator for a subscription -/
def handsBack (d : FuncDefinition) (o : OpDef) (A : Expr) : Expr :=
  match o.kind with
  | .subscription => .subscript (.name (if d.isAsync then "AsyncIterator" else "Iterator")) A
  | _ => A

/-- the class of an operation declares its only root field with the annotation `A` -/
def DeclaresOnly (c : Ctx) (o : OpDef) (ss : List Stmt) (A : Expr) : Prop :=
  ∃ cls bases body decos attr v, OperationClass c o cls ∧ Stmt.classDef cls bases body decos ∈ ss ∧
    OnlyAttribute c o attr ∧ Stmt.annAssign attr A v ∈ body

/-- the functions to generate: for every operation one per definition of its kind, in order -/
def functionsFor (p : FuncsConfig) (doc : Document) : List (OpDef × FuncDefinition) :=
  (operationsOf doc).flatMap fun o => (p.definitions.filter fun d => d.kind == o.kind).map fun d => (o, d)

end Turms.Spec
