import Verif.Spec.InputValues

/-!
# The variables of an operation

`VariableValues` is the GraphQL side: the variable maps a server accepts along with an operation.  `SendsFields` is the
Python side: what the instances of a class with the given fields are serialised to.
-/

namespace Turms.Spec
open Turms

/-- `VariableValues s leaf vars kvs`: the server accepts the map `kvs` for the variables `vars` (GraphQL specification, section
6.1.2 "Coercing Variable Values").  Only declared variables are sent, those that are non-null and have no default are there,
and every value is a legal input for the type of its variable. -/
structure VariableValues (s : Schema) (leaf : String → Val → Prop) (vars : List VarDef) (kvs : List (String × Val)) : Prop where
  once : (kvs.map (·.1)).Nodup
  declared : ∀ k x, (k, x) ∈ kvs → ∃ v ∈ vars, v.name = k
  required : ∀ v ∈ vars, v.type.isNonNull = true → v.default = none → ∃ x, (v.name, x) ∈ kvs
  legal : ∀ v ∈ vars, ∀ x, (v.name, x) ∈ kvs → InputValue s leaf v.type x

/-- `SendsFields T isa fields kvs`: in a module with the statements `T`, an instance of a class with these fields is serialised
to `kvs`: the fields without default are set, any of the others may be. -/
structure SendsFields (T : List Stmt) (isa : String → Val → Prop) (fields : List MField) (kvs : List (String × Val)) : Prop where
  once : (kvs.map (·.1)).Nodup
  known : ∀ k x, (k, x) ∈ kvs → ∃ f ∈ fields, f.key = k
  required : ∀ f ∈ fields, f.hasDefault = false → ∃ x, (f.key, x) ∈ kvs
  values : ∀ f ∈ fields, ∀ x, (f.key, x) ∈ kvs → Sends T isa f.ann x

/-- `ArgumentsOf ss cls fields`: one of the statements is the class `cls`, and the class `Arguments` inside it has these fields -/
def ArgumentsOf (ss : List Stmt) (cls : String) (fields : List MField) : Prop :=
  ∃ bases body ds abases abody, Stmt.classDef cls bases body ds ∈ ss ∧ Stmt.classDef "Arguments" abases abody [] ∈ body ∧
    fields = abody.filterMap fieldOf

/-- `PlainVariableType c p r n`: `n` is a scalar, enum or input of the schema and means the same in a document.  Scalars have
a configured Python class and nothing else has, no enum is named like a wrapper of a `@oneOf` input, and the configured
stylers give `n` a class name. -/
structure PlainVariableType (c : Ctx) (p : InputsConfig) (r : Reg) (n : String) : Prop where
  known : IsLeaf c.schema n ∨ ∃ fs ds, c.schema.lookup n = some (.input fs ds)
  scalar : (r.scalarMap.get? n).isSome = true ↔ c.schema.lookup n = some .scalar
  key : InputKey c p n → ∃ fs ds, c.schema.lookup n = some (.input fs ds)
  style : Kind.input.style c.env n ≠ .ok "" ∧ ∀ s, Kind.input.style c.env n ≠ .error (.noInputTypeFound s)

/-- no non-null variable has a default value -/
def NoOptionalNonNullVar (vars : List VarDef) : Prop := ∀ v ∈ vars, v.type.isNonNull = true → v.default = none

end Turms.Spec
