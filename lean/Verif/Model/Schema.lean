import Verif.Model.Gql
import Verif.Model.Registry

/-!
# The schema and the configuration as the generator sees them

graphql-core's `GraphQLSchema` is third-party; only what the plugins read is kept.  Types in field positions
are `TypeNode`s: a `GraphQLNonNull`/`GraphQLList` wrapper chain around a *named* type, where graphql-core
keeps a pointer to the named type's definition the model looks the name up in `Schema.types`
(`type_map`).
-/

namespace Turms

/-- A coerced Python default value (`GraphQLArgument.default_value`, `GraphQLInputField.default_value`). -/
inductive PyDefault where
  | none
  | bool (b : Bool)
  | str (s : String)
  | int (i : Int)
  | float (s : String)
  | list (items : List PyDefault)
  | dict (entries : List (String × PyDefault))
  | opaque (repr : String)
deriving Repr

/-- An argument of a field (`GraphQLArgument`). -/
structure ArgDef where
  name : String
  type : TypeNode
  default : Option PyDefault := none
  description : Option String := none
  deprecation : Option String := none
deriving Repr

/-- `GraphQLField` -/
structure FieldDef where
  name : String
  type : TypeNode
  args : List ArgDef := []
  description : Option String := none
  deprecation : Option String := none
deriving Repr

/-- `GraphQLInputField`; `default = none` is `Undefined`. -/
structure InputFieldDef where
  name : String
  type : TypeNode
  default : Option PyDefault := none
  description : Option String := none
  deprecation : Option String := none
deriving Repr

/-- `GraphQLEnumValue` -/
structure EnumValueDef where
  name : String
  description : Option String := none
  deprecation : Option String := none
deriving Repr

/-- a directive application on a type's `ast_node`, e.g. `@unionElementOf(union: "U", ...)`: the string
values of its arguments -/
structure DirectiveUse where
  name : String
  args : Dict String := []
deriving Repr

/-- A named type of the schema. -/
inductive TypeDef where
  | scalar
  | enum (values : List EnumValueDef)
  | input (fields : List InputFieldDef) (directives : List DirectiveUse)
  | object (fields : List FieldDef) (interfaces : List String)
  | interface (fields : List FieldDef) (interfaces : List String)
  | union (members : List String)
deriving Repr

/-- a named type with its description -/
structure TypeEntry where
  defn : TypeDef
  description : Option String := none
deriving Repr

/-- `GraphQLSchema`: `type_map` in its order, and the root types. -/
structure Schema where
  types : Dict TypeEntry
  query : Option String := none
  mutation : Option String := none
  subscription : Option String := none
deriving Repr

/-- `client_schema.type_map.get(name)` -/
def Schema.lookup (s : Schema) (name : String) : Option TypeDef := (s.types.get? name).map (·.defn)

/-- `isinstance(t, GraphQLNonNull)` / `isinstance(t, NonNullTypeNode)` -/
def TypeNode.isNonNull : TypeNode → Bool
  | .nonNull _ => true
  | _ => false

/-- `get_named_type(t).name` -/
def TypeNode.base : TypeNode → String
  | .named n => n
  | .list t => t.base
  | .nonNull t => t.base

/-- `GraphQLTypes` — `turms/config.py:71-78` -/
inductive GQLType where
  | input | fragment | object | mutation | query | subscription | directive
deriving DecidableEq, Repr

/-- `FreezeConfig` — `turms/config.py:99-140` -/
structure FreezeConfig where
  enabled : Bool := false
  types : List GQLType := [.input, .fragment, .object]
  exclude : Option (List String) := none
  include_ : Option (List String) := none
  convertListToTuple : Bool := true

/-- `OptionsConfig` — `turms/config.py:146-187` -/
structure OptionsConfig where
  enabled : Bool := false
  extra : Option String := none
  allowMutation : Option Bool := none
  allowPopulationByFieldName : Option Bool := none
  ormMode : Option Bool := none
  useEnumValues : Option Bool := none
  validateAssignment : Option Bool := none
  types : List GQLType := [.input, .fragment, .object]
  exclude : Option (List String) := none
  include_ : Option (List String) := none

/-- The part of `GeneratorConfig` the plugins read besides `RegConfig` — `turms/config.py:193-350`. -/
structure GenConfig where
  freeze : FreezeConfig := {}
  options : OptionsConfig := {}
  forcePluginOrder : Bool := true
  documentFieldMetadata : Bool := true
  createCatchall : Bool := true
  alwaysResolveInterfaces : Bool := true
  excludeTypenames : Bool := false
  objectBases : List String := ["pydantic.BaseModel"]
  interfaceBases : Option (List String) := none
  additionalBases : Dict (List String) := []
  additionalConfig : Dict (Dict PyDefault) := []
  skipForwards : Bool := false

/-- Everything that is fixed during one run. -/
structure Ctx where
  env : Env := {}
  schema : Schema
  config : GenConfig := {}

end Turms
