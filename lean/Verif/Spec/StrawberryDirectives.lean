import Verif.Spec.Strawberry

/-!
# Directive classes of a strawberry module

Independent of the generator: what the class of a directive says, and which calls of it Python accepts.
-/

namespace Turms.Spec
open Turms

/-- the default a `strawberry.field(default=e)` or `strawberry.field(default_factory=lambda: e)` gives to a field, and
whether it is made anew for every instance -/
def givenDefault : Expr → Option (Expr × Bool)
  | .call (.name f) [] [(some k, e)] =>
    if f ≠ "strawberry.field" then none
    else if k = "default" then some (e, false)
    else if k = "default_factory" then
      match e with
      | .lambda e => some (e, true)
      | _ => none
    else none
  | _ => none

/-- a list or an object, which `dataclasses` rejects as a default -/
def _root_.Turms.PyDefault.Mutable : PyDefault → Prop
  | .list _ => True
  | .dict _ => True
  | _ => False

/-- what a field has as default if the argument has the default `d`: none if `d` is missing or `null` -/
def DefaultAs : Option PyDefault → Option Expr → Prop
  | none, v => v = none
  | some .none, v => v = none
  | some d, v => ∃ e x b, v = some e ∧ givenDefault e = some (x, b) ∧ (d.Proper → evalLiteral x = some d) ∧
      (b = true ↔ d.Mutable)

/-- The member stands for the argument of the directive: it has its name, accepts exactly the values GraphQL allows, and
has a default exactly if the argument has one other than `null`; lists and objects are made anew for every use. -/
def DirectiveArgument (W : World) (leaf : String → Val → Prop) (c : Ctx) (a : ArgDef) (s : Stmt) : Prop :=
  ∃ name ann value, s = .annAssign name ann value ∧ FieldParamOf c.env a.name name ∧
    (¬ leaf a.type.base .null → ∀ v, Accepts W ann v ↔ Legal leaf a.type v) ∧
    DefaultAs a.default value

/-- The class of a directive: called like it, declared for exactly its locations, with one field per argument. -/
def DirectiveClassOf (W : World) (leaf : String → Val → Prop) (c : Ctx) (d : DirectiveDef) (s : Stmt) : Prop :=
  ∃ body, s = .classDef d.name [] body
      [.call (.name "strawberry.schema_directive") []
        [(some "locations", .list (d.locations.map fun l => .attr (.name "Location") l))]] ∧
    List.Forall₂ (DirectiveArgument W leaf c) d.args (body.filter isMember)

/-- the name of a field, and whether it has a default -/
def fieldHead : Stmt → Option (String × Bool)
  | .annAssign n _ v => some (n, v.isSome)
  | _ => none

/-- Python accepts the call of the (data)class with these fields: every keyword is a field, none is given twice, and every
field without default is given -/
def CallAccepted (cls : Stmt) (call : Expr) : Prop :=
  ∃ name bases body decorators kws, cls = .classDef name bases body decorators ∧ call = .call (.name name) [] kws ∧
    (kws.map (·.1)).Nodup ∧ (∀ k ∈ kws, ∃ n b, k.1 = some n ∧ (n, b) ∈ body.filterMap fieldHead) ∧
    ∀ n, (n, false) ∈ body.filterMap fieldHead → some n ∈ kws.map (·.1)

/-- The application is valid for the definition: GraphQL's rules, except that all arguments without a default must be
given, also those that may be `null`. -/
structure FullApplication (d : DirectiveDef) (a : DirectiveApp) : Prop where
  name : a.name = d.name
  once : (a.args.map (·.1)).Nodup
  known : ∀ q ∈ a.args, q.1 ∈ d.args.map (·.name)
  given : ∀ x ∈ d.args, (∀ v, x.default = some v → v = .none) → x.name ∈ a.args.map (·.1)

end Turms.Spec
