import Verif.Model.Annotations

/-!
# What annotations mean

Independent of the generator: `Val` are the values that travel over the wire, `Accepts` is what a Python
type annotation (evaluated by pydantic) lets through, `Legal` is what the GraphQL specification allows at a
position of a given type.
-/

namespace Turms.Spec
open Turms

/-- A value as Python/pydantic sees it: JSON.  `atom` covers strings, numbers, booleans and instances of
user classes. Lists and tuples are both sequences. -/
inductive Val where
  | null
  | atom (text : String)
  | list (items : List Val)
  | obj (entries : List (String × Val))

/-- the value stored under a key -/
def Val.entry : List (String × Val) → String → Option Val
  | [], _ => none
  | (k, v) :: l, key => if k = key then some v else Val.entry l key

/-- A field of a pydantic model: the key it is read from (its alias if it has one), whether it may be
absent, and its annotation. -/
structure MField where
  key : String
  hasDefault : Bool
  ann : Expr

/-- What the names in a module stand for: `isa` for scalars, enums and other opaque classes; `model` gives
the fields of pydantic models (inherited ones included). -/
structure World where
  isa : String → Val → Prop
  model : String → Option (List MField) := fun _ => none

/-- `Accepts W annotation v`: pydantic accepts the value `v` for a field with this annotation.  A string
constant is a forward reference to the class of that name. -/
inductive Accepts (W : World) : Expr → Val → Prop
  | leaf {n v} : W.isa n v → Accepts W (.name n) v
  | model {n fs kvs} : W.model n = some fs →
      (∀ f ∈ fs, Val.entry kvs f.key = none → f.hasDefault = true) →
      (∀ f ∈ fs, ∀ x, Val.entry kvs f.key = some x → Accepts W f.ann x) →
      Accepts W (.name n) (.obj kvs)
  | forward {n v} : Accepts W (.name n) v → Accepts W (.const (.str n)) v
  | optionalNone {t} : Accepts W (.subscript (.name "Optional") t) .null
  | optionalSome {t v} : Accepts W t v → Accepts W (.subscript (.name "Optional") t) v
  | list {t l} : (∀ x ∈ l, Accepts W t x) → Accepts W (.subscript (.name "List") t) (.list l)
  | iterable {t l} : (∀ x ∈ l, Accepts W t x) → Accepts W (.subscript (.name "Iterable") t) (.list l)
  | tuple {t l} : (∀ x ∈ l, Accepts W t x) →
      Accepts W (.subscript (.name "Tuple") (.tuple [t, .const .ellipsis])) (.list l)
  | union {ts t v} : t ∈ ts → Accepts W t v → Accepts W (.subscript (.name "Union") (.tuple ts)) v
  | annotated {t ms v} : Accepts W t v → Accepts W (.subscript (.name "Annotated") (.tuple (t :: ms))) v
  | literal {s} : Accepts W (.subscript (.name "Literal") (.const (.str s))) (.atom s)

/-- `Legal leaf t v`: GraphQL allows the value `v` where the type `t` is expected, `leaf` telling which
values a named type has.  `null` is allowed everywhere except directly under `!`. -/
def Legal (leaf : String → Val → Prop) : TypeNode → Val → Prop
  | .named n, v => v = .null ∨ leaf n v
  | .list t, v => v = .null ∨ ∃ l, v = .list l ∧ ∀ x ∈ l, Legal leaf t x
  | .nonNull t, v => v ≠ .null ∧ Legal leaf t v

/-- The values of a named type are those its Python class accepts. -/
def Inst (W : World) (cls : String → Option String) (n : String) (v : Val) : Prop :=
  ∃ c, cls n = some c ∧ Accepts W (.name c) v

/-- the styled class name, if styling succeeds -/
def styledName (env : Env) (k : Kind) (n : String) : Option String := (k.style env n).toOption

/-- the Python class a scalar is mapped to: the last component of the configured dotted path -/
def scalarClass (r : Reg) (n : String) : Option String := (r.scalarMap.get? n).map lastComponent

/-- the Python class of an enum: the built-in helper enums keep their name -/
def enumClass (env : Env) (n : String) : Option String :=
  if n ∈ builtinNames then some n else styledName env .enum n

/-- Python class of an input-position type, according to the schema -/
def inputSideClass (c : Ctx) (r : Reg) (n : String) : Option String :=
  match c.schema.lookup n with
  | some .scalar => scalarClass r n
  | some (.enum _) => enumClass c.env n
  | some (.input _ _) => styledName c.env .input n
  | _ => none

/-- Python class of a type named in a document, according to what has been registered: the scalar mapping,
else a registered input model, else a registered enum -/
def registeredClass (env : Env) (r : Reg) (n : String) : Option String :=
  match scalarClass r n with
  | some c => some c
  | none => if r.inputMap.contains n then styledName env .input n else enumClass env n

/-- Python class of an output-position type that is not a union -/
def outputSideClass (c : Ctx) (r : Reg) (n : String) : Option String :=
  match c.schema.lookup n with
  | some .scalar => scalarClass r n
  | some (.enum _) => enumClass c.env n
  | some (.object _ _) => styledName c.env .object n
  | some (.interface _ _) => styledName c.env .object n
  | _ => none

/-- values of an output type: a union has the values of its members -/
def OutputInst (W : World) (c : Ctx) (r : Reg) (n : String) (v : Val) : Prop :=
  match c.schema.lookup n with
  | some (.union ms) => ∃ m ∈ ms, Inst W (outputSideClass c r) m v
  | _ => Inst W (outputSideClass c r) n v

/-- values accepted for a parameter: a coercible scalar is *replaced*, a coercible input is *widened* -/
def ParamInst (W : World) (c : Ctx) (r : Reg) (co : Coercions) (n : String) (v : Val) : Prop :=
  match c.schema.lookup n with
  | some .scalar =>
    match co.scalars.get? n with
    | some p => Accepts W (.name (lastComponent p)) v
    | none => Inst W (inputSideClass c r) n v
  | some (.input _ _) =>
    Inst W (inputSideClass c r) n v ∨ ∃ p, co.inputs.get? n = some p ∧ Accepts W (.name (lastComponent p)) v
  | _ => Inst W (inputSideClass c r) n v

/-- values accepted for an operation variable -/
def VariableInst (W : World) (env : Env) (r : Reg) (co : Coercions) (n : String) (v : Val) : Prop :=
  match co.scalars.get? n with
  | some p => Accepts W (.name (lastComponent p)) v
  | none =>
    match co.inputs.get? n with
    | some p => Inst W (styledName env .input) n v ∨ Accepts W (.name (lastComponent p)) v
    | none => Inst W (registeredClass env r) n v

end Turms.Spec

namespace Turms.Spec
open Turms

/-- the value of a keyword argument -/
def kwarg (name : String) : List (Option String × Expr) → Option Expr
  | [] => none
  | (k, e) :: kws => if k = some name then some e else kwarg name kws

/-- the wire key declared by `alias=...`, if any -/
def aliasOf (kws : List (Option String × Expr)) : Option String :=
  match kwarg "alias" kws with
  | some (.const (.str s)) => some s
  | _ => none

/-- How pydantic reads a field declaration `target: annotation [= value]`: a value that is not a
`Field(...)` call is the default; `Field(alias=..., default=...)` sets key and default. -/
def fieldOf : Stmt → Option MField
  | .annAssign target ann none => some ⟨target, false, ann⟩
  | .annAssign target ann (some (.call (.name f) args kws)) =>
    if f = "Field" then some ⟨(aliasOf kws).getD target, (kwarg "default" kws).isSome, ann⟩
    else some ⟨target, true, ann⟩
  | .annAssign target ann (some _) => some ⟨target, true, ann⟩
  | _ => none

/-- the default value of a field declaration -/
def defaultOf : Stmt → Option Expr
  | .annAssign _ _ (some (.call (.name f) args kws)) =>
    if f = "Field" then kwarg "default" kws else some (.call (.name f) args kws)
  | .annAssign _ _ v => v
  | _ => none

/-- the Python attribute of a field declaration -/
def attrOf : Stmt → Option String
  | .annAssign target _ _ => some target
  | _ => none

/-- whether a declaration carries an explicit alias -/
def hasAlias : Stmt → Bool
  | .annAssign _ _ (some (.call (.name f) _ kws)) => f == "Field" && (kwarg "alias" kws).isSome
  | _ => false

end Turms.Spec
