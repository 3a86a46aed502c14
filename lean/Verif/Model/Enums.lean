import Verif.Model.Inputs
import Verif.Model.Referencer
import Verif.Model.Objects

/-!
# The enums plugin (`turms/plugins/enums.py`)
-/

namespace Turms

/-- `EnumsPluginConfig` and the outcome of `skip_unreferenced`: `refEnums = none` when there are no documents or the
option is off, otherwise the names of the referenced enums — `turms/plugins/enums.py:20-27, 44-49`. -/
structure EnumsConfig where
  skipUnderscore : Bool := false
  skipDoubleUnderscore : Bool := true
  refEnums : Option (List String) := none
  prepend : String := ""
  append : String := ""

/-- a string that Python's `if` takes for true -/
def nonBlank (s : Option String) : Option String := match s with
  | some s => if s = "" then none else some s
  | none => none

/-- `potential_comment` — `turms/plugins/enums.py:80-84` (a missing description is formatted as `None`) -/
def enumComment (v : EnumValueDef) : Option String :=
  match nonBlank v.deprecation with
  | none => nonBlank v.description
  | some _ => some ("DEPRECATED: " ++ v.description.getD "None")

/-- one value — `turms/plugins/enums.py:69-93`. The internal value of a GraphQL enum value in a schema built from
SDL or from an introspection result is its name, so `servalue` is the name. -/
def enumValueStmts (v : EnumValueDef) : List Stmt :=
  .assign (.name v.name) (.str v.name) ::
    match enumComment v with
    | some comment => [.expr (.str comment)]
    | none => []

/-- an enum of the schema -/
structure EnumType where
  name : String
  description : Option String
  values : List EnumValueDef

/-- `enum_types` — `turms/plugins/enums.py:38-42` -/
def enumTypes (s : Schema) : List EnumType :=
  s.types.filterMap fun p => match p.2.defn with
    | .enum vs => some ⟨p.1, p.2.description, vs⟩
    | _ => none

/-- the class body — `turms/plugins/enums.py:63-93` -/
def enumBody (t : EnumType) : List Stmt :=
  .expr (.str ((nonBlank t.description).getD "No documentation")) :: t.values.flatMap enumValueStmts

/-- `ref_registry and key not in ref_registry.enums` — `turms/plugins/enums.py:52` -/
def enumUnreferenced (p : EnumsConfig) (name : String) : Bool := match p.refEnums with
  | some l => !l.contains name
  | none => false

/-- one enum of the loop — `turms/plugins/enums.py:51-107` -/
def enumStep (c : Ctx) (p : EnumsConfig) (t : EnumType) : Gen (List Stmt) :=
  if enumUnreferenced p t.name then pure []
  else if p.skipUnderscore && underscored t.name then pure []
  else if p.skipDoubleUnderscore && doubleUnderscored t.name then pure []
  else do
    let classname ← generateClass c.env .enum t.name
    pure [.classDef classname [.name "str", .name "Enum"] (enumBody t) []]

/-- the loop — `turms/plugins/enums.py:51` -/
def enumLoop (c : Ctx) (p : EnumsConfig) : List EnumType → Gen (List Stmt)
  | [] => pure []
  | t :: ts => do
    let s ← enumStep c p t
    let ss ← enumLoop c p ts
    pure (s ++ ss)

/-- `EnumsPlugin.generate_ast` and `generate_enums` — `turms/plugins/enums.py:30-109, 122-130` -/
def generateEnums (c : Ctx) (p : EnumsConfig) : Gen (List Stmt) := do
  registerImport "enum.Enum"
  enumLoop c p (enumTypes c.schema)

end Turms
