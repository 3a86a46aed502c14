import Verif.Model.Strawberry
import Verif.Spec.Funcs
import Verif.Spec.Objects
import Mathlib.Data.List.Forall2

/-!
# What the strawberry plugin is supposed to generate
-/

namespace Turms.Spec
open Turms

/-! ## Python literals -/

/-- a dict display: a later entry with the same key replaces the value of the earlier one -/
def putLiteral (k : String) (v : PyDefault) : List (String × PyDefault) → List (String × PyDefault)
  | [] => [(k, v)]
  | (k', w) :: l => if k' = k then (k', v) :: l else (k', w) :: putLiteral k v l

/-- the dict built by evaluating entries from left to right, starting with `acc` -/
def dictDisplay (acc : List (String × PyDefault)) : List String → List PyDefault → List (String × PyDefault)
  | k :: ks, v :: vs => dictDisplay (putLiteral k v acc) ks vs
  | _, _ => acc

/-- string constants -/
def literalKeys : List Expr → Option (List String)
  | [] => some []
  | .const (.str k) :: es => (literalKeys es).map (k :: ·)
  | _ :: _ => none

mutual
/-- The value of a Python literal (`ast.literal_eval`); `none` if it is not one. -/
def evalLiteral : Expr → Option PyDefault
  | .const .none => some .none
  | .const (.bool b) => some (.bool b)
  | .const (.str s) => some (.str s)
  | .const (.int i) => some (.int i)
  | .const (.float s) => some (.float s)
  | .list es => (evalLiterals es).map .list
  | .dict ks vs =>
    match literalKeys ks, evalLiterals vs with
    | some ks, some vs => if ks.length = vs.length then some (.dict (dictDisplay [] ks vs)) else none
    | _, _ => none
  | _ => none
/-- several literals -/
def evalLiterals : List Expr → Option (List PyDefault)
  | [] => some []
  | e :: es =>
    match evalLiteral e, evalLiterals es with
    | some v, some vs => some (v :: vs)
    | _, _ => none
end

mutual
/-- a JSON-like value: no opaque parts, and the keys of every dict are distinct (it is a dict) -/
def _root_.Turms.PyDefault.Proper : PyDefault → Prop
  | .list l => PyDefault.ProperL l
  | .dict d => (d.map (·.1)).Nodup ∧ PyDefault.ProperD d
  | .opaque _ => False
  | _ => True
/-- the elements -/
def _root_.Turms.PyDefault.ProperL : List PyDefault → Prop
  | [] => True
  | x :: xs => x.Proper ∧ PyDefault.ProperL xs
/-- the values -/
def _root_.Turms.PyDefault.ProperD : List (String × PyDefault) → Prop
  | [] => True
  | (_, x) :: xs => x.Proper ∧ PyDefault.ProperD xs
end

mutual
/-- What a constant in a GraphQL document stands for; an enum value stands for its name, the internal value
graphql-core gives it. `none` for variables and for texts that are not numbers. -/
def literalMeaning : Value → Option PyDefault
  | .null => some .none
  | .bool b => some (.bool b)
  | .string s => some (.str s)
  | .int t => t.toInt?.map .int
  | .float t => some (.float t)
  | .enum n => some (.str n)
  | .list l => (literalMeanings l).map .list
  | .object fs => (literalFields fs).map .dict
  | .variable _ => none
/-- the elements of a list -/
def literalMeanings : List Value → Option (List PyDefault)
  | [] => some []
  | x :: xs =>
    match literalMeaning x, literalMeanings xs with
    | some v, some vs => some (v :: vs)
    | _, _ => none
/-- the fields of an object -/
def literalFields : List (String × Value) → Option (List (String × PyDefault))
  | [] => some []
  | (k, x) :: xs =>
    match literalMeaning x, literalFields xs with
    | some v, some vs => some ((k, v) :: vs)
    | _, _ => none
end

mutual
/-- built from strings, booleans, `null` and lists only -/
def _root_.Turms.Value.Plain : Value → Prop
  | .null => True
  | .bool _ => True
  | .string _ => True
  | .list l => Value.PlainL l
  | _ => False
/-- all elements are -/
def _root_.Turms.Value.PlainL : List Value → Prop
  | [] => True
  | x :: xs => x.Plain ∧ Value.PlainL xs
end

/-! ## Classes and their members -/

/-- the type is not skipped for leading underscores -/
def KeptType (p : StrawberryConfig) (name : String) : Prop :=
  ¬ (p.skipUnderscore = true ∧ name.toList.head? = some '_') ∧
  ¬ (p.skipDoubleUnderscore = true ∧ name.toList.take 2 = ['_', '_'])

/-- declarations and methods: what a class body has to say about the GraphQL fields -/
def isMember : Stmt → Bool
  | .annAssign _ _ _ => true
  | .funcDef _ _ _ _ _ _ _ => true
  | _ => false

/-- the parameter `p` of a resolver stands for the argument `a`: it has its name, and a default exactly if `a`
has one, which evaluates to that default -/
def ArgParam (env : Env) (a : ArgDef) (p : String × Option Expr) : Prop :=
  ParamOf env a.name p.1 ∧
  match a.default with
  | none => p.2 = none
  | some d => ∃ e, p.2 = some e ∧ (d.Proper → evalLiteral e = some d)

/-- the argument has no default value -/
def ArgDef.bare (a : ArgDef) : Bool := match a.default with
  | none => true
  | some _ => false

/-- A resolver for the field `f`: a method named after the field whose parameters are `self`, then the arguments
without default, then those with default, both in the order of the schema. -/
def ResolverOf (c : Ctx) (f : FieldDef) (s : Stmt) : Prop :=
  ∃ isAsync name args defaults body decorators returns rest,
    s = .funcDef isAsync name args defaults body decorators returns ∧ FieldParamOf c.env f.name name ∧
    defaults.length ≤ args.length ∧ signature args defaults = ("self", none) :: rest ∧
    List.Forall₂ (ArgParam c.env) (f.args.filter ArgDef.bare ++ f.args.filter (fun a => !ArgDef.bare a)) rest

/-- a plain attribute for the field `f` -/
def AttributeOf (c : Ctx) (f : FieldDef) (s : Stmt) : Prop :=
  ∃ name a v, s = .annAssign name a v ∧ FieldParamOf c.env f.name name

/-- the types whose fields are resolved by functions -/
def isRootName (n : String) : Prop := n = "Query" ∨ n = "Mutation" ∨ n = "Subscription"

/-- what a field is generated to: a resolver if it has arguments or belongs to a root type, else an attribute -/
def FieldMember (c : Ctx) (typename : String) (f : FieldDef) (s : Stmt) : Prop :=
  (f.args ≠ [] ∨ isRootName typename → ResolverOf c f s) ∧
  (¬ (f.args ≠ [] ∨ isRootName typename) → AttributeOf c f s)

/-- the annotation of the value of a member: that of the attribute or the return annotation of the resolver;
a subscription yields values of type `T` if it returns `AsyncGenerator[T, None]` -/
def valueAnnotation : Stmt → Option Expr
  | .annAssign _ a _ => some a
  | .funcDef false _ _ _ _ _ r => r
  | .funcDef true _ _ _ _ _ (some (.subscript (.name g) (.tuple [a, .name n]))) =>
    if g = "AsyncGenerator" ∧ n = "None" then some a else none
  | _ => none

/-- What the annotation of a parameter says: it accepts exactly the values GraphQL allows for the argument, except
that a parameter with a default accepts no `null`. `leaf` tells which values a named type has. -/
def ArgAnnotated (W : World) (leaf : String → Val → Prop) (env : Env) (a : ArgDef) (x : String × Option Expr) : Prop :=
  ParamOf env a.name x.1 ∧ ∃ e, x.2 = some e ∧
    (¬ leaf a.type.base .null → ∀ v, Accepts W e v ↔ (a.default ≠ none → v ≠ .null) ∧ Legal leaf a.type v)

/-- the annotations of the parameters of a resolver other than `self` -/
def parameterAnnotations : Stmt → List (String × Option Expr)
  | .funcDef _ _ (_ :: args) _ _ _ _ => args.map fun a => (a.arg, a.annotation)
  | _ => []

/-! ## Decorators and metadata -/

/-- the function a decorator or a call names -/
def calledName : Expr → String
  | .name n => n
  | .call (.name n) _ _ => n
  | _ => ""

/-- the value of a keyword argument of a call -/
def keywordOf (k : String) : Expr → Option Expr
  | .call _ _ kws => (kws.find? (·.1 == some k)).map (·.2)
  | _ => none

/-- what is said about a member or a class under the keyword `k`: in the `strawberry.field(...)` of an attribute, or in
the decorator of a method or class, or in the call that makes the value of a variable -/
def markOf (k : String) : Stmt → Option Expr
  | .assign _ v => keywordOf k v
  | .annAssign _ _ (some v) => keywordOf k v
  | .funcDef _ _ _ _ _ [d] _ => keywordOf k d
  | .classDef _ _ _ [d] => keywordOf k d
  | _ => none

/-- the functions a method or class is decorated with -/
def decoratorNames : Stmt → List String
  | .funcDef _ _ _ _ _ ds _ => ds.map calledName
  | .classDef _ _ _ ds => ds.map calledName
  | _ => []

/-- a text of the schema as a Python literal; the empty text counts as none -/
def told (d : Option String) : Option Expr :=
  match d with
  | some s => if s = "" then none else some (.const (.str s))
  | none => none

/-- The call `e` applies the directive as the schema does: it calls its class, with exactly the arguments of the
application, in order; strings, booleans, `null` and lists of these are passed as they are. -/
def AppliedAs (d : DirectiveApp) (e : Expr) : Prop :=
  ∃ kws, e = .call (.name d.name) [] kws ∧
    List.Forall₂ (fun a k => k.1 = some a.1 ∧ (a.2.Plain → ∃ v, literalMeaning a.2 = some v ∧ evalLiteral k.2 = some v)) d.args kws

/-- the statement carries exactly the custom directives of the list, in order, with their arguments -/
def CarriesDirectives (p : StrawberryConfig) (ds : List DirectiveApp) (s : Stmt) : Prop :=
  match ds.filter fun d => !p.builtinDirectives.contains d.name with
  | [] => markOf "directives" s = none
  | custom => ∃ calls, markOf "directives" s = some (.list calls) ∧ List.Forall₂ AppliedAs custom calls

/-- the decorator for the resolvers of a type -/
def resolverKind (typename : String) : String :=
  if typename = "Mutation" then "strawberry.mutation"
  else if typename = "Subscription" then "strawberry.subscription" else "strawberry.field"

/-- the member says what the schema says about the field, and a resolver is decorated by the kind of its type -/
structure FieldTold (p : StrawberryConfig) (sd : SchemaDirectives) (typename : String) (f : FieldDef) (s : Stmt) : Prop where
  description : markOf "description" s = told f.description
  deprecation : markOf "deprecation_reason" s = told f.deprecation
  directives : CarriesDirectives p (sd.onField typename f.name) s
  kind : (∃ n a v, s = .annAssign n a v) ∨ decoratorNames s = [resolverKind typename]
  async : ∀ b n as ds body dec ret, s = .funcDef b n as ds body dec ret → (b = true ↔ typename = "Subscription")

/-- The statement defines the scalar: `strawberry.scalar` takes its name from the new type; the description and the
custom directives are those of the schema, and values are passed as they are in both directions. -/
structure ScalarTold (p : StrawberryConfig) (sd : SchemaDirectives) (n : String) (d : Option String) (s : Stmt) : Prop where
  shape : ∃ kws, s = .assign (.name n)
    (.call (.name "strawberry.scalar") [.call (.name "NewType") [.const (.str n), .name "str"] []] kws)
  description : markOf "description" s = told d
  directives : CarriesDirectives p (sd.onType n) s
  serialize : markOf "serialize" s = some (.lambda (.name "value"))
  parse : markOf "parse_value" s = some (.lambda (.name "value"))

end Turms.Spec
