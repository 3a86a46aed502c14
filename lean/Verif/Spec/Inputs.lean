import Verif.Model.Inputs
import Verif.Spec.Annotations

/-!
# What the inputs plugin is supposed to generate
-/

namespace Turms.Spec
open Turms

/-- `t` is an input object type of the schema -/
def InputOf (s : Schema) (t : InputType) : Prop :=
  ∃ e, (t.name, e) ∈ s.types ∧ e.defn = .input t.fields t.directives ∧ e.description = t.description

/-- `skip_unreferenced` does not drop the type: either everything is generated or the type is referenced -/
def Referenced (p : InputsConfig) (name : String) : Prop := ∀ l, p.refInputs = some l → name ∈ l

/-- the type is neither unreferenced nor skipped for its leading underscore -/
def Kept (p : InputsConfig) (name : String) : Prop :=
  Referenced p name ∧ ¬ (p.skipUnderscore = true ∧ name.toList.head? = some '_')

/-- `t` carries `@unionElementOf(union: u, discriminator: dn, key: k)` -/
def Declares (t : InputType) (u dn k : String) : Prop :=
  ∃ d ∈ t.directives, d.name = "unionElementOf" ∧ d.args.get? "union" = some u ∧
    d.args.get? "discriminator" = some dn ∧ d.args.get? "key" = some k

/-- `t` is a member of the (referenced) discriminated union `u` -/
def MemberOf (p : InputsConfig) (t : InputType) (u : String) : Prop :=
  ∃ dn k, Declares t u dn k ∧ Referenced p u

/-- `t` is a member of some referenced discriminated union -/
def IsMember (p : InputsConfig) (t : InputType) : Prop := ∃ u, MemberOf p t u

/-- the input types the plugin has to generate -/
def SelectedInput (p : InputsConfig) (t : InputType) : Prop := IsMember p t ∨ Kept p t.name

/-- `t` carries `@oneOf` -/
def OneOf (directives : List DirectiveUse) : Prop := ∃ d ∈ directives, d.name = "oneOf"

/-- the constraints the GraphQL specification puts on the fields of a `@oneOf` input -/
def OneOfValid (fields : List InputFieldDef) : Prop :=
  ∀ f ∈ fields, f.type.isNonNull = false ∧ f.default = none

/-- A `@oneOf` input that can be a plain union of its members' classes: there is at least one field, every
field is a generated, nullable input object that is not itself `@oneOf`, and no two fields have the same
type. -/
def DirectUnion (c : Ctx) (p : InputsConfig) (t : InputType) : Prop :=
  c.env.config.pydanticV2 = true ∧ t.fields ≠ [] ∧
  (∀ f ∈ t.fields, ∃ m fs ds, f.type = .named m ∧ c.schema.lookup m = some (.input fs ds) ∧ ¬ OneOf ds ∧ Kept p m) ∧
  (t.fields.map (·.type.base)).Nodup

/-- the first letter in upper case: the suffix of a wrapper class -/
def upperFirst (name : String) : String :=
  match name.toList with
  | [] => ""
  | ch :: cs => String.ofList (ch.toUpper :: cs)

/-- the names under which the plugin registers classes: the selected types, and one wrapper per field of a
`@oneOf` input that is not a direct union -/
def InputKey (c : Ctx) (p : InputsConfig) (k : String) : Prop :=
  (∃ t, InputOf c.schema t ∧ SelectedInput p t ∧ k = t.name) ∨
  (∃ t, InputOf c.schema t ∧ ¬ IsMember p t ∧ Kept p t.name ∧ OneOf t.directives ∧ ¬ DirectUnion c p t ∧
    ∃ f ∈ t.fields, k = t.name ++ upperFirst f.name)

/-- the pydantic fields of a class statement, in order -/
def fieldsOf : Stmt → List MField
  | .classDef _ _ body _ => body.filterMap fieldOf
  | _ => []

/-- The tag table of a `@oneOf` serializer, read off the emitted function: `tags = {Class: "field", ...}`. -/
def tagTable : Stmt → Option (List (String × String))
  | .funcDef _ _ _ _ [.assign _ (.dict ks vs)] _ _ => some (pairs ks vs)
  | _ => none
where
  /-- class name and tag of each entry -/
  pairs : List Expr → List Expr → List (String × String)
    | .name k :: ks, .const (.str v) :: vs => (k, v) :: pairs ks vs
    | _, _ => []

end Turms.Spec
