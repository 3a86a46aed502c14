import Verif.Spec.Strawberry
import Verif.Spec.Scope
import Verif.Spec.Config

/-!
# Which names a strawberry module may use
-/

namespace Turms.Spec
open Turms

/-- what the package offers and the plugin uses: `strawberry.type`, `strawberry.field`, ... -/
def strawberryApi : List String :=
  ["enum", "field", "input", "interface", "mutation", "scalar", "schema_directive", "subscription", "type"]

/-- Names that exist before the generated statements are executed, if `r` is the registry before the plugin runs and
`r'` the one afterwards: the imports and helper classes of the module, builtin types, the Python types that scalars
stood for *before* (the scalars of the schema must be defined by the module itself), what `import strawberry` brings
along, and classes generated by earlier plugins. -/
def Provided (r r' : Reg) (n : String) : Prop :=
  External { r' with scalarMap := r.scalarMap } n ∨
  ("strawberry" ∈ r'.imports ∧ ∃ a ∈ strawberryApi, n = "strawberry." ++ a) ∨
  n = "None" ∨ Known r n

mutual
/-- the value mentions no enum value -/
def EnumFree : Value → Prop
  | .enum _ => False
  | .list l => EnumFreeL l
  | _ => True
/-- elements -/
def EnumFreeL : List Value → Prop
  | [] => True
  | x :: xs => EnumFree x ∧ EnumFreeL xs
end

/-- the directive is applied somewhere in the schema, and it is not one of those strawberry provides -/
def Applied (p : StrawberryConfig) (sd : SchemaDirectives) (a : DirectiveApp) : Prop :=
  a.name ∉ p.builtinDirectives ∧ ((∃ t, a ∈ sd.onType t) ∨ ∃ t f, a ∈ sd.onField t f)

/-- Every applied directive is one the schema defines (as every valid schema does) and the plugin generates, and
no argument contains an enum value. -/
structure DirectivesUsable (p : StrawberryConfig) (sd : SchemaDirectives) : Prop where
  generated : ∀ a, Applied p sd a → p.generateDirectives = true ∧
    ∃ d ∈ sd.defined, d.name = a.name ∧ KeptType p d.name
  plain : ∀ a, Applied p sd a → ∀ q ∈ a.args, EnumFree q.2

/-- the defaults of all arguments of fields are values of the GraphQL type system -/
def PlainDefaults (s : Schema) : Prop :=
  ∀ t, CompositeOf s t → ∀ f ∈ t.fields, ∀ a ∈ f.args, ∀ d, a.default = some d → d.closed = true

end Turms.Spec
