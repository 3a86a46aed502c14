import Verif.Model.FragmentsPlugin
import Verif.Model.Referencer

/-!
# The operations plugin (`turms/plugins/operations.py`)
-/

namespace Turms

/-- `OperationsPluginConfig` — `turms/plugins/operations.py:40-51`.  `documentation` stands for
`inspect_operation_for_documentation` (it reads the comments of the source text). -/
structure OperationsConfig where
  queryBases : List String := []
  mutationBases : List String := []
  subscriptionBases : List String := []
  argumentsBases : List String := []
  createArguments : Bool := true
  extractDocumentation : Bool := true
  argumentsAllowPopulationByFieldName : Bool := false
  documentation : OpDef → Option String := fun _ => none
  domain : Option String := none

/-- `registry.register_import` for each base and the names: `get_query_bases`, `get_mutation_bases`,
`get_subscription_bases`, `get_arguments_bases` — `turms/plugins/operations.py:54-98, 165-208` -/
def basesOrObject (c : Ctx) (bases : List String) : Gen (List Expr) := do
  let bs := if bases.isEmpty then c.config.objectBases else bases
  registerImports bs
  pure (baseNames bs)

/-- which class map an operation is registered in -/
def OpKind.kind : OpKind → Kind
  | .query => .query
  | .mutation => .mutation
  | .subscription => .subscription

/-- the configured bases of an operation -/
def OperationsConfig.basesFor (p : OperationsConfig) : OpKind → List String
  | .query => p.queryBases
  | .mutation => p.mutationBases
  | .subscription => p.subscriptionBases

/-- `get_operation_root_type(client_schema, o)` (graphql-core raises if there is none) -/
def rootTypeOf (s : Schema) (k : OpKind) : Gen String :=
  match s.root k with
  | some t => pure t
  | none => Gen.fail (.other "root type")

/-- One root selection — `turms/plugins/operations.py:260-288`. -/
def operationSel (c : Ctx) (root cls : String) : Sel → Gen (List Stmt × List Stmt)
  | .field name alias _ sub => do
    let fd ← assertFieldDef c.schema root name
    typeFieldNode c cls fd name alias sub
  | _ => Gen.fail (.valueError "selection")

/-- the loop: the generated declarations of each root field, and the classes -/
def operationSels (c : Ctx) (root cls : String) : List Sel → Gen (List (List Stmt) × List Stmt)
  | [] => pure ([], [])
  | s :: rest => do
    let a ← operationSel c root cls s
    let p ← operationSels c root cls rest
    pure (a.1 :: p.1, a.2 ++ p.2)

/-- `generated_node[0].annotation` -/
def annotationOf : List Stmt → Option Expr
  | .annAssign _ a _ :: _ => some a
  | _ => none

/-- `register_operation_single` if there is exactly one root field — `turms/plugins/operations.py:290-294` -/
def registerSingle (name : String) (nodes : List (List Stmt)) : Gen Unit := fun r =>
  match nodes with
  | [n] =>
    match annotationOf n with
    | some a => .ok ((), { r with operationSingle := r.operationSingle.set name a })
    | none => .ok ((), r)
  | _ => .ok ((), r)

/-- `str(parse_value_node(v.default_value))`, `none` for a null default — `turms/utils.py:910-934`,
`turms/plugins/operations.py:316-326`.  A boolean default is compared with the *string* `"true"`, although
graphql-core stores a boolean, so it always parses to `False`.  The texts of numbers are kept as written. -/
def variableDefault : Value → Gen (Option String)
  | .int t => pure (some t)
  | .float t => pure (some t)
  | .string t => pure (some t)
  | .bool _ => pure (some "False")
  | .null => pure none
  | _ => Gen.fail (.notImplemented "value")

/-- `default_python` — `turms/plugins/operations.py:316-320` -/
def defaultMarker : Option Value → Gen (Option Expr)
  | none => pure none
  | some v => do
    let d ← variableDefault v
    pure (d.map Expr.str)

/-- `not isinstance(v.type, NonNullTypeNode) or v.default_value` — `turms/plugins/operations.py:303` -/
def VarDef.isOptional (v : VarDef) : Bool := !v.type.isNonNull || v.default.isSome

/-- the value of an argument declaration — `turms/plugins/operations.py:330-386` -/
def argumentValue (fieldName target : String) (optional : Bool) : Gen (Option Expr) :=
  if target != fieldName then do
    registerImport "pydantic.Field"
    pure (some (.call (.name "Field") [] ((some "alias", .str target) ::
      (if optional then [(some "default", .const .none)] else []))))
  else pure (if optional then some (.call (.name "Field") [] [(some "default", .const .none)]) else none)

/-- One field of the `Arguments` class — `turms/plugins/operations.py:302-388`. -/
def argumentStmt (c : Ctx) (v : VarDef) : Gen Stmt := do
  let a ← recurseTypeAnnotation c.env none v.type true
  let a ← optionalWrap (v.isOptional && v.type.isNonNull) a
  let d ← defaultMarker v.default
  let a ← annotateFieldMetadata c.env a d none
  let fieldName ← parameterName c.env v.name
  let value ← argumentValue fieldName v.name v.isOptional
  pure (.annAssign fieldName a value)

/-- the loop over the variables -/
def argumentStmts (c : Ctx) : List VarDef → Gen (List Stmt)
  | [] => pure []
  | v :: vs => do
    let s ← argumentStmt c v
    let rest ← argumentStmts c vs
    pure (s :: rest)

/-- the value of `config.options.allow_population_by_field_name` -/
def optBoolConst : Option Bool → Expr
  | some b => .const (.bool b)
  | none => .const .none

/-- `generate_arguments_config` — `turms/plugins/operations.py:101-162`: for pydantic 2 the emitted value is
the one of the *global* options. (`pydantic_version` is `"v1"` or `"v2"`, never `"1"`, so the first case does
not occur.) -/
def argumentsConfig (c : Ctx) : Gen (List Stmt) := do
  registerImport "pydantic.ConfigDict"
  pure [.assign (.name "model_config") (.call (.name "ConfigDict") []
    [(some "populate_by_name", optBoolConst c.config.options.allowPopulationByFieldName)])]

/-- the `Arguments` class — `turms/plugins/operations.py:299-413` -/
def argumentsClass (c : Ctx) (p : OperationsConfig) (o : OpDef) (name : String) : Gen (List Stmt) :=
  if p.createArguments then do
    let body ← argumentStmts c o.vars
    let cfg ← argumentsConfig c
    let bases ← basesOrObject c p.argumentsBases
    pure [.classDef "Arguments" bases (.expr (.str ("Arguments for " ++ name ++ " ")) :: (body ++ cfg)) []]
  else pure []

/-- the docstring of an operation class — `turms/plugins/operations.py:240-256` -/
def operationDoc (p : OperationsConfig) (o : OpDef) : Stmt :=
  let d := if p.extractDocumentation then p.documentation o else none
  .expr (.str (if truthy d then d.getD "" else "No documentation found for this operation."))

/-- the `Meta` class of an operation — `turms/plugins/operations.py:415-441` -/
def operationMeta (p : OperationsConfig) (name document : String) : Stmt :=
  .classDef "Meta" [] ([.expr (.str ("Meta class for " ++ name ++ " ")),
    .assign (.name "document") (.str document)] ++
    (if truthy p.domain then [.assign (.name "domain") (.str (p.domain.getD ""))] else [])) []

/-- `generate_operation` — `turms/plugins/operations.py:211-462`.  `generate_pydantic_config` is called with
an `OperationType`, which is no member of the configured `GraphQLTypes`, and without a type name: it returns
nothing. -/
def generateOperation (prep : List Char → List Char) (c : Ctx) (p : OperationsConfig) (o : OpDef) :
    Gen (List Stmt) :=
  match o.name with
  | none => Gen.fail (.valueError "Operation name is required")
  | some name => do
    let cls ← generateClass c.env o.kind.kind name
    let bases ← basesOrObject c (p.basesFor o.kind)
    let root ← rootTypeOf c.schema o.kind
    let x ← operationSels c root cls o.sels
    registerSingle name x.1
    let doc ← mergedDocument prep (Documents.printOperation name o)
    let args ← argumentsClass c p o name
    pure (x.2 ++ [.classDef cls bases (operationDoc p o :: (x.1.flatten ++ args ++ [operationMeta p name doc])) []])

/-- the operations of a document, in order -/
def operationsOf (document : Document) : List OpDef :=
  document.filterMap fun d => match d with
    | .operation o => some o
    | .fragment _ => none

/-- the loop of `OperationsPlugin.generate_ast` — `turms/plugins/operations.py:500-505` -/
def generateOperations (prep : List Char → List Char) (c : Ctx) (p : OperationsConfig) :
    List OpDef → Gen (List Stmt)
  | [] => pure []
  | o :: os => do
    let s ← generateOperation prep c p o
    let rest ← generateOperations prep c p os
    pure (s ++ rest)

/-- `OperationsPlugin.generate_ast` — `turms/plugins/operations.py:481-507`, on the document
`parse_documents` returns. -/
def operationsPlugin (prep : List Char → List Char) (c : Ctx) (p : OperationsConfig) (document : Document) :
    Gen (List Stmt) := generateOperations prep c p (operationsOf document)

end Turms
