import Verif.Spec.Responses
import Verif.Spec.Inputs
import Verif.Spec.Scope

/-!
# What a server accepts as input, and what the generated input models send

Independent of the generator.  `InputValue` is the GraphQL side: the input values of a type.  `Sends` is the Python
side: what the instances of a generated class are serialised to.
-/

namespace Turms.Spec
open Turms

/-- `InputValue s leaf t v`: the JSON value `v` is a legal input for the type `t` (GraphQL specification, section 3.10
"Input Objects" and "Input Coercion" without the coercion of single values to lists).  `leaf n v` says that `v` is a value
of the scalar or enum `n`.  An input object has known keys only, all required fields are there, and each entry is legal for
its field; of a `@oneOf` input exactly one field is given, and it is not null. -/
inductive InputValue (s : Schema) (leaf : String → Val → Prop) : TypeNode → Val → Prop
  | null {t} : t.isNonNull = false → InputValue s leaf t .null
  | nonNull {t v} : v ≠ .null → InputValue s leaf t v → InputValue s leaf (.nonNull t) v
  | list {t l} : (∀ x ∈ l, InputValue s leaf t x) → InputValue s leaf (.list t) (.list l)
  | leaf {n v} : IsLeaf s n → leaf n v → InputValue s leaf (.named n) v
  | object {n fs ds kvs} : s.lookup n = some (.input fs ds) → ¬ OneOf ds → (kvs.map (·.1)).Nodup →
      (∀ k x, (k, x) ∈ kvs → ∃ f ∈ fs, f.name = k) →
      (∀ f ∈ fs, f.type.isNonNull = true → f.default = none → ∃ x, (f.name, x) ∈ kvs) →
      (∀ f ∈ fs, ∀ x, (f.name, x) ∈ kvs → InputValue s leaf f.type x) →
      InputValue s leaf (.named n) (.obj kvs)
  | oneOf {n fs ds f x} : s.lookup n = some (.input fs ds) → OneOf ds → f ∈ fs → x ≠ .null →
      InputValue s leaf f.type x → InputValue s leaf (.named n) (.obj [(f.name, x)])

/-- the function of a `WrapSerializer(function)` call -/
def serializerOf : Expr → Option String
  | .call (.name w) [.name g] [] => if w = "WrapSerializer" then some g else none
  | _ => none

/-- the classes of a union, or the only one -/
def membersOf : Expr → List String
  | .name n => [n]
  | .subscript (.name u) (.tuple ts) => if u = "Union" then ts.flatMap freeNames else []
  | _ => []

/-- `Sends T isa annotation w`: in a module with the statements `T`, some value that pydantic accepts for the annotation is
serialised to the JSON value `w` (by alias, leaving out what was not set, as clients of generated code do).  `isa n w` says
what the values of classes that are no models (scalars, enums) are serialised to.  An instance of a model has all fields
without default and any of the others.  The value of a union with a `WrapSerializer` is serialised by the function of that
name, whose effect (`oneofSerialize`) is determined by the table in its body and the class of the value. -/
inductive Sends (T : List Stmt) (isa : String → Val → Prop) : Expr → Val → Prop
  | opaque {n v} : isa n v → Sends T isa (.name n) v
  | model {n kvs} : IsClass T n → (kvs.map (·.1)).Nodup →
      (∀ k x, (k, x) ∈ kvs → ∃ st f, Declared T n st ∧ fieldOf st = some f ∧ f.key = k) →
      (∀ st f, Declared T n st → fieldOf st = some f → f.hasDefault = false → ∃ x, (f.key, x) ∈ kvs) →
      (∀ st f x, Declared T n st → fieldOf st = some f → (f.key, x) ∈ kvs → Sends T isa f.ann x) →
      Sends T isa (.name n) (.obj kvs)
  | alias {n e v} : Stmt.assign (.name n) e ∈ T → Sends T isa e v → Sends T isa (.name n) v
  | forward {n v} : Sends T isa (.name n) v → Sends T isa (.const (.str n)) v
  | optionalNone {t} : Sends T isa (.subscript (.name "Optional") t) .null
  | optionalSome {t v} : Sends T isa t v → Sends T isa (.subscript (.name "Optional") t) v
  | list {t l} : (∀ x ∈ l, Sends T isa t x) → Sends T isa (.subscript (.name "List") t) (.list l)
  | tuple {t l} : (∀ x ∈ l, Sends T isa t x) →
      Sends T isa (.subscript (.name "Tuple") (.tuple [t, .const .ellipsis])) (.list l)
  | union {ts t v} : t ∈ ts → Sends T isa t v → Sends T isa (.subscript (.name "Union") (.tuple ts)) v
  | annotated {t ms v} : (∀ m ∈ ms, serializerOf m = none ∧ discriminatorOf m = none) → Sends T isa t v →
      Sends T isa (.subscript (.name "Annotated") (.tuple (t :: ms))) v
  | serialized {u m g fn tags n v out} : serializerOf m = some g → n ∈ membersOf u → Sends T isa (.name n) v →
      fn ∈ T → bound fn = [g] → tagTable fn = some tags → oneofSerialize tags [n] v = .ok out →
      Sends T isa (.subscript (.name "Annotated") (.tuple [u, m])) (.obj out)

/-- `ClosedInputs c p S`: the types in `S` are generated, as are those of their fields, and they neither are nor have
members of a discriminated union (`@unionElementOf`) -/
structure ClosedInputs (c : Ctx) (p : InputsConfig) (S : String → Prop) : Prop where
  fields : ∀ n fs ds, S n → c.schema.lookup n = some (.input fs ds) → ∀ f ∈ fs, S f.type.base
  kept : ∀ t, InputOf c.schema t → S t.name → Kept p t.name
  noMember : ∀ t, InputOf c.schema t → S t.name → ¬ IsMember p t
  noUnion : ∀ t t', InputOf c.schema t → S t.name → InputOf c.schema t' → ¬ MemberOf p t' t.name

/-- `Unambiguous c p r T isa`: the names of the module mean one thing.  No two statements bind the same name (see C57), no
class declares an attribute twice (`Sends` takes all declarations into account, Python the last one), the configured base
classes and the classes of scalars and enums come from elsewhere, and no scalar or enum has null as a value. -/
structure Unambiguous (c : Ctx) (p : InputsConfig) (r : Reg) (T : List Stmt) (isa : String → Val → Prop) : Prop where
  distinct : (T.flatMap bound).Nodup
  attributes : ∀ n bases body ds, Stmt.classDef n bases body ds ∈ T → (body.filterMap attrOf).Nodup
  bases : ∀ b, (b ∈ p.bases ∨ ∃ n l, c.config.additionalBases.get? n = some l ∧ b ∈ l) →
    lastComponent b ∉ T.flatMap bound
  elsewhere : ∀ n v, isa n v → n ∉ T.flatMap bound
  leaves : ∀ n cls, IsLeaf c.schema n → inputSideClass c r n = some cls → cls ∉ T.flatMap bound ∧ ¬ isa cls .null

/-- the values of a scalar or enum are those of its Python class -/
def LeafValue (c : Ctx) (r : Reg) (isa : String → Val → Prop) (n : String) (v : Val) : Prop :=
  ∃ cls, inputSideClass c r n = some cls ∧ isa cls v

/-- no non-null field has a default value -/
def NoOptionalNonNull (s : Schema) : Prop :=
  ∀ n fs ds, s.lookup n = some (.input fs ds) → ∀ f ∈ fs, f.type.isNonNull = true → f.default = none

end Turms.Spec
