import Verif.Model.Annotations

/-!
# The pydantic configuration of generated models and their extra base classes (`turms/utils.py`)
-/

namespace Turms

mutual
/-- `ast.Constant(value=x)` / `convert_default_value_to_ast` of a Python value: `ast.Constant` of a list or
dict unparses to its `repr`, which is the corresponding display. -/
def PyDefault.expr : PyDefault → Expr
  | .none => .const .none
  | .bool b => .const (.bool b)
  | .str s => .str s
  | .int i => .const (.int i)
  | .float s => .const (.float s)
  | .list l => .list (PyDefault.exprs l)
  | .dict d => .dict (PyDefault.keyExprs d) (PyDefault.valExprs d)
  | .opaque s => .name s
/-- elements of a list display -/
def PyDefault.exprs : List PyDefault → List Expr
  | [] => []
  | x :: xs => x.expr :: PyDefault.exprs xs
/-- keys of a dict display -/
def PyDefault.keyExprs : List (String × PyDefault) → List Expr
  | [] => []
  | (k, _) :: xs => .str k :: PyDefault.keyExprs xs
/-- values of a dict display -/
def PyDefault.valExprs : List (String × PyDefault) → List Expr
  | [] => []
  | (_, x) :: xs => x.expr :: PyDefault.valExprs xs
end

/-- The nested `if`s deciding whether a settings block applies to a class —
`turms/utils.py:224-235, 237-241` (and `326-338, 340-344`).  `exclude`/`include` lists that are `None` or
empty are falsy; `typename` may be `None`. -/
def blockApplies (enabled : Bool) (types : List GQLType) (exclude include_ : Option (List String))
    (g : GQLType) (typename : Option String) : Bool :=
  if enabled then
    if types.contains g then
      if !((exclude.getD []).isEmpty) && (match typename with
          | some t => (exclude.getD []).contains t
          | none => false) then false
      else if !((include_.getD []).isEmpty) && !(match typename with
          | some t => (include_.getD []).contains t
          | none => false) then false
      else true
    else false
  else false

/-- `if option is not None: append(name=Constant(option))` -/
def optEntry (name : String) (o : Option Bool) : List (String × Expr) := match o with
  | some b => [(name, .const (.bool b))]
  | none => []

/-- the same for `extra`, whose value is a string — `turms/utils.py:247-252, 358-364` -/
def extraEntry (o : Option String) : List (String × Expr) := match o with
  | some e => [("extra", .str e)]
  | none => []

/-- the `additional_config` block — `turms/utils.py:295-300, 405-413`. An empty typename is falsy. -/
def additionalEntries (config : GenConfig) (typename : Option String) : List (String × Expr) :=
  if truthy typename then
    ((config.additionalConfig.get? (typename.getD "")).getD []).map fun p => (p.1, p.2.expr)
  else []

/-- the keywords of `generate_config_dict` — `turms/utils.py:220-300`. -/
def configDictEntries (config : GenConfig) (g : GQLType) (typename : Option String) :
    List (String × Expr) :=
  let f := config.freeze
  let o := config.options
  (if blockApplies f.enabled f.types f.exclude f.include_ g typename
    then [("frozen", Expr.const (.bool true))] else []) ++
  (if blockApplies o.enabled o.types o.exclude o.include_ g typename then
    optEntry "allow_mutation" o.allowMutation ++
    extraEntry o.extra ++
    optEntry "validate_assignment" o.validateAssignment ++
    optEntry "populate_by_name" o.allowPopulationByFieldName ++
    optEntry "orm_mode" o.ormMode ++
    optEntry "use_enum_values" o.useEnumValues
   else []) ++
  additionalEntries config typename

/-- the assignments of `generate_config_class_pydantic` — `turms/utils.py:327-413`. -/
def configClassEntries (config : GenConfig) (g : GQLType) (typename : Option String) :
    List (String × Expr) :=
  let f := config.freeze
  let o := config.options
  (if blockApplies f.enabled f.types f.exclude f.include_ g typename
    then [("frozen", Expr.const (.bool true))] else []) ++
  (if blockApplies o.enabled o.types o.exclude o.include_ g typename then
    optEntry "allow_mutation" o.allowMutation ++
    extraEntry o.extra ++
    optEntry "validate_assignment" o.validateAssignment ++
    optEntry "allow_population_by_field_name" o.allowPopulationByFieldName ++
    optEntry "orm_mode" o.ormMode ++
    optEntry "use_enum_values" o.useEnumValues
   else []) ++
  additionalEntries config typename

/-- `generate_config_dict` — `turms/utils.py:202-310`. -/
def generateConfigDict (config : GenConfig) (g : GQLType) (typename : Option String) : Gen (List Stmt) :=
  let kws := configDictEntries config g typename
  if kws.isEmpty then pure []
  else do
    registerImport "pydantic.ConfigDict"
    pure [.assign (.name "model_config")
      (.call (.name "ConfigDict") [] (kws.map fun p => (some p.1, p.2)))]

/-- `generate_config_class_pydantic` — `turms/utils.py:313-437`. -/
def generateConfigClass (config : GenConfig) (g : GQLType) (typename : Option String) : List Stmt :=
  let fs := configClassEntries config g typename
  if fs.isEmpty then []
  else [.classDef "Config" [] (.expr (.str "A config class") :: fs.map fun p => .assign (.name p.1) p.2) []]

/-- `generate_pydantic_config` — `turms/utils.py:440-449`. -/
def generatePydanticConfig (c : Ctx) (g : GQLType) (typename : Option String) : Gen (List Stmt) :=
  if c.env.config.pydanticV2 then generateConfigDict c.config g typename
  else pure (generateConfigClass c.config g typename)

/-- `for base in bases: registry.register_import(base)` -/
def registerImports : List String → Gen Unit
  | [] => pure ()
  | b :: bs => do
    registerImport b
    registerImports bs

/-- `[ast.Name(id=base.split(".")[-1]) for base in bases]` -/
def baseNames (bases : List String) : List Expr := bases.map fun b => .name (lastComponent b)

/-- `get_additional_bases_for_type` — `turms/utils.py:588-601`. -/
def additionalBasesFor (c : Ctx) (typename : String) : Gen (List Expr) :=
  match c.config.additionalBases.get? typename with
  | some bases => do
    registerImports bases
    pure (baseNames bases)
  | none => pure []

/-- `get_interface_bases` — `turms/utils.py:618-634`: an empty or missing `interface_bases` falls back to
`object_bases`. -/
def interfaceBasesOf (c : Ctx) : Gen (List Expr) := do
  let bases := if (c.config.interfaceBases.getD []).isEmpty then c.config.objectBases
    else c.config.interfaceBases.getD []
  registerImports bases
  pure (baseNames bases)

/-- `compose_field_documentation` — `turms/utils.py:966-986`. -/
def composeFieldDocumentation (description deprecation defaultString : Option String)
    (includeMetadata : Bool) : Option String :=
  if !includeMetadata then (if truthy description then description else none)
  else
    let parts :=
      (if truthy description then [description.getD ""] else []) ++
      (if truthy deprecation then ["DEPRECATED: " ++ deprecation.getD ""] else []) ++
      (match defaultString with
        | some d => ["Default: " ++ d]
        | none => [])
    if parts.isEmpty then none else some ("\n".intercalate parts)

end Turms
