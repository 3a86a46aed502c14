import Verif.Model.Validation
import Verif.Model.Funcs

/-!
# The templates of `turms init` (`turms/cli/main.py:52-203`) and reading them back (`turms/config.py`, `turms/run.py:88-118`)

`installed` is `importlib.util.find_spec(module) is not None`.  Writing a template as YAML and reading the file back is
taken to give the same value.
-/

namespace Turms

/-- what a configuration file contains, as far as the templates use it -/
inductive Setting where
  | str (s : String)
  | bool (b : Bool)
  | list (l : List Setting)
  | dict (d : List (String × Setting))

/-- `{"type": path}` -/
def typed (path : String) : Setting := .dict [("type", .str path)]

/-- `optional_processors` — `turms/cli/main.py:52-55` -/
def optionalProcessors : Dict String :=
  [("black", "turms.processors.black.BlackProcessor"), ("isort", "turms.processors.isort.IsortProcessor")]

/-- `DEFAULT_STYLERS` — `turms/cli/main.py:57-60` -/
def defaultStylers : List Setting :=
  [typed "turms.stylers.capitalize.CapitalizeStyler", typed "turms.stylers.snake_case.SnakeCaseStyler"]

/-- `DOCUMENT_PLUGINS` — `turms/cli/main.py:62-67` -/
def documentPlugins : List Setting :=
  [typed "turms.plugins.enums.EnumsPlugin", typed "turms.plugins.inputs.InputsPlugin",
   typed "turms.plugins.fragments.FragmentsPlugin", typed "turms.plugins.operations.OperationsPlugin"]

/-- `detected_formatter_processors` — `turms/cli/main.py:70-77` -/
def detectedProcessors (installed : String → Bool) : List Setting :=
  (optionalProcessors.filter fun p => installed p.1).map fun p => typed p.2

/-- `_project` — `turms/cli/main.py:80-85` -/
def projectSetting (turms : Setting) (schema : String) (documents : Option String) : Setting :=
  let docs := match documents with
    | some d => if d = "" then [] else [("documents", Setting.str d)]
    | none => []
  .dict [("projects", .dict [("default", .dict
    ([("schema", .str schema)] ++ docs ++ [("extensions", .dict [("turms", turms)])]))])]

/-- the mapping `turms` of the three templates for documents, with its plugins — `turms/cli/main.py:88-99`.  (The
templates for rath and gql replace the plugins in the mapping; the key keeps its place.) -/
def documentsSettings (installed : String → Bool) (plugins : List Setting) : Setting :=
  let processors := detectedProcessors installed
  .dict ([("out_dir", .str "api"), ("stylers", .list defaultStylers), ("plugins", .list plugins)] ++
    (if processors.isEmpty then [] else [("processors", .list processors)]) ++
    [("scalar_definitions", .dict [("uuid", .str "str")])])

/-- the project of the three templates for documents — `turms/cli/main.py:99` -/
def documentsProject (installed : String → Bool) (plugins : List Setting) : Setting :=
  projectSetting (documentsSettings installed plugins) "https://countries.trevorblades.com/" (some "graphql/**.graphql")

/-- `build_documents_template` — `turms/cli/main.py:88-99` -/
def documentsTemplate (installed : String → Bool) : Setting := documentsProject installed documentPlugins

/-- a definition of functions; `is_async` is written only if it is true -/
def definitionSetting (kind : String) (isAsync : Bool) (use : String) : Setting :=
  .dict ([("type", .str kind)] ++ (if isAsync then [("is_async", .bool true)] else []) ++ [("use", .str use)])

/-- the functions plugin of the template for rath — `turms/cli/main.py:107-129` -/
def rathFuncs : Setting :=
  .dict [("type", .str "turms.plugins.funcs.FuncsPlugin"),
    ("global_kwargs", .list [.dict [("type", .str "rath.Rath"), ("key", .str "rath"),
      ("description", .str "The client we want to use (defaults to the currently active client)")]]),
    ("definitions", .list [
      definitionSetting "query" true "api.proxies.aexecute", definitionSetting "mutation" true "api.proxies.aexecute",
      definitionSetting "subscription" true "api.proxies.asubscribe", definitionSetting "query" false "api.proxies.execute",
      definitionSetting "mutation" false "api.proxies.execute",
      definitionSetting "subscription" false "api.proxies.subscribe"])]

/-- `build_rath_template` — `turms/cli/main.py:102-131` -/
def rathTemplate (installed : String → Bool) : Setting := documentsProject installed (documentPlugins ++ [rathFuncs])

/-- the functions plugin of the template for gql — `turms/cli/main.py:139-153` -/
def gqlFuncs : Setting :=
  .dict [("type", .str "turms.plugins.funcs.FuncsPlugin"),
    ("global_args", .list [.dict [("type", .str "gql.Client"), ("key", .str "client"),
      ("description", .str "The client we want to use to execute the operation")]]),
    ("definitions", .list [definitionSetting "query" false "api.proxies.execute",
      definitionSetting "mutation" false "api.proxies.execute",
      definitionSetting "subscription" false "api.proxies.subscribe"])]

/-- `build_gql_template` — `turms/cli/main.py:134-155` -/
def gqlTemplate (installed : String → Bool) : Setting := documentsProject installed (documentPlugins ++ [gqlFuncs])

/-- `build_strawberry_template` — `turms/cli/main.py:158-172` -/
def strawberryTemplate (installed : String → Bool) : Setting :=
  let processors := [typed "turms.processors.disclaimer.DisclaimerProcessor"] ++ detectedProcessors installed ++
    (if installed "libcst" then [typed "turms.processors.merge.MergeProcessor"] else [])
  projectSetting (.dict [("out_dir", .str "api"), ("skip_forwards", .bool true), ("stylers", .list defaultStylers),
    ("plugins", .list [typed "turms.plugins.strawberry.StrawberryPlugin"]), ("processors", .list processors),
    ("scalar_definitions", .dict [("uuid", .str "str")])]) "schema.graphql" none

/-- `TEMPLATES` and `build_default_settings` — `turms/cli/main.py:175-203`, before the conversion to YAML -/
def buildTemplate (installed : String → Bool) : String → Except Err Setting
  | "documents" => .ok (documentsTemplate installed)
  | "rath" => .ok (rathTemplate installed)
  | "gql" => .ok (gqlTemplate installed)
  | "strawberry" => .ok (strawberryTemplate installed)
  | name => .error (.keyError name)

/-! ## reading a configuration -/

/-- the value of a key; pydantic reports a missing one -/
def Setting.need (s : Setting) (key : String) : Except Err Setting :=
  match s with
  | .dict d => match Dict.get? d key with
    | some v => .ok v
    | none => .error (.invalid key)
  | _ => .error (.invalid key)

/-- the value of an optional key -/
def Setting.opt (s : Setting) (key : String) : Except Err (Option Setting) :=
  match s with
  | .dict d => .ok (Dict.get? d key)
  | _ => .error (.invalid key)

/-- a string -/
def Setting.text : Setting → Except Err String
  | .str s => .ok s
  | _ => .error (.invalid "string")

/-- a boolean (pydantic also accepts some strings and numbers: not modelled) -/
def Setting.flag : Setting → Except Err Bool
  | .bool b => .ok b
  | _ => .error (.invalid "bool")

/-- every value of a list -/
def readEach {A : Type} (read : Setting → Except Err A) : List Setting → Except Err (List A)
  | [] => .ok []
  | s :: rest =>
    match read s, readEach read rest with
    | .ok a, .ok as => .ok (a :: as)
    | .error e, _ => .error e
    | _, .error e => .error e

/-- an optional list; an absent one is empty -/
def readList {A : Type} (read : Setting → Except Err A) : Option Setting → Except Err (List A)
  | none => .ok []
  | some (.list l) => readEach read l
  | some _ => .error (.invalid "list")

/-- a field with a default -/
def readOr {A : Type} (default : A) (read : Setting → Except Err A) : Option Setting → Except Err A
  | none => .ok default
  | some s => read s

/-- a field of type `Dict[str, PythonType]` before validation -/
def readTypeMap : Option Setting → Except Err (Dict String)
  | none => .ok []
  | some (.dict d) => readPairs d
  | some _ => .error (.invalid "dict")
where
  /-- every pair -/
  readPairs : List (String × Setting) → Except Err (Dict String)
    | [] => .ok []
    | (k, v) :: rest =>
      match v.text, readPairs rest with
      | .ok t, .ok m => .ok ((k, t) :: m)
      | .error e, _ => .error e
      | _, .error e => .error e

/-- `extra="forbid"`: only these keys -/
def onlyKeys (known : List String) : Setting → Except Err Unit
  | .dict d => match d.find? fun p => !known.contains p.1 with
    | some p => .error (.invalid p.1)
    | none => .ok ()
  | _ => .error (.invalid "dict")

/-- the fields of `GeneratorConfig` — `turms/config.py:183-349`.  Only those the templates use are read; a configuration
with another one is rejected here (though not by turms), so that nothing is proved about it. -/
def readFields : List String :=
  ["out_dir", "skip_forwards", "stylers", "plugins", "processors", "scalar_definitions"]

/-- `ConfigProxy` — `turms/config.py:30-32`: the type, and the whole mapping -/
structure Component where
  type : String
  settings : Setting

/-- `ConfigProxy` from a mapping -/
def readComponent (s : Setting) : Except Err Component :=
  match s.need "type" with
  | .error e => .error e
  | .ok t => t.text.map fun path => ⟨path, s⟩

/-- a project, as far as it is read — `turms/config.py:183-349, 426-448` -/
structure ProjectConfig where
  schema : String
  documents : Option String
  outDir : String
  skipForwards : Bool
  stylers : List Component
  plugins : List Component
  processors : List Component
  scalars : Dict String

/-- `GeneratorConfig` — `turms/config.py:183-399` with its validators: the types in the scalar map are known, the
classes of plugins, processors and stylers can be imported (`imports` is `import_string`). -/
def readGenerator {A : Type} (pythonBuiltins : List String) (imports : String → Except Err A) (schema : String)
    (documents : Option String) (s : Setting) : Except Err ProjectConfig := do
  onlyKeys readFields s
  let outDir ← readOr "api" Setting.text (← s.opt "out_dir")
  let scalars ← readTypeMap (← s.opt "scalar_definitions")
  validateNames pythonBuiltins { scalarDefinitions := scalars } []
  let skip ← readOr false Setting.flag (← s.opt "skip_forwards")
  let plugins ← readList readComponent (← s.opt "plugins")
  validateImportable imports (plugins.map (·.type))
  let processors ← readList readComponent (← s.opt "processors")
  validateImportable imports (processors.map (·.type))
  let stylers ← readList readComponent (← s.opt "stylers")
  validateImportable imports (stylers.map (·.type))
  pure ⟨schema, documents, outDir, skip, stylers, plugins, processors, scalars⟩

/-- `GraphQLProject` — `turms/config.py:426-448` -/
def readProject {A : Type} (pythonBuiltins : List String) (imports : String → Except Err A) (s : Setting) :
    Except Err ProjectConfig := do
  let schema ← (← s.need "schema").text
  let documents ← readOr none (fun d => d.text.map some) (← s.opt "documents")
  let turms ← (← s.need "extensions").need "turms"
  readGenerator pythonBuiltins imports schema documents turms

/-- the projects of a mapping -/
def readProjectList {A : Type} (pythonBuiltins : List String) (imports : String → Except Err A) :
    List (String × Setting) → Except Err (Dict ProjectConfig)
  | [] => .ok []
  | (k, s) :: rest =>
    match readProject pythonBuiltins imports s, readProjectList pythonBuiltins imports rest with
    | .ok p, .ok ps => .ok ((k, p) :: ps)
    | .error e, _ => .error e
    | _, .error e => .error e

/-- the branch of `load_projects_from_configpath` for several projects — `turms/run.py:103-112` -/
def readProjects {A : Type} (pythonBuiltins : List String) (imports : String → Except Err A) (s : Setting) :
    Except Err (Dict ProjectConfig) :=
  match s.need "projects" with
  | .ok (.dict d) => readProjectList pythonBuiltins imports d
  | .ok _ => .error (.invalid "projects")
  | .error e => .error e

/-! ## the configuration of the functions plugin -/

/-- `Arg` — `turms/plugins/funcs.py:64-67` (unknown keys are ignored) -/
def readArg (s : Setting) : Except Err ExtraArg := do
  let key ← (← s.need "key").text
  let type ← (← s.need "type").text
  let description ← readOr "Specify that in turms.plugin.funcs.OperationsFuncPlugin" Setting.text (← s.opt "description")
  pure ⟨key, type, description⟩

/-- `Kwarg` — `turms/plugins/funcs.py:57-61`; of the defaults only strings and booleans occur in a `Setting` -/
def readKwarg (s : Setting) : Except Err ExtraKwarg := do
  let a ← readArg s
  let default ← readOr Const.none (fun d => match d with
    | .str t => .ok (.str t)
    | .bool b => .ok (.bool b)
    | _ => .error (.notImplemented "default")) (← s.opt "default")
  pure ⟨a.key, a.type, a.description, default⟩

/-- `OperationType` of graphql-core -/
def readKind (s : Setting) : Except Err OpKind := do
  match ← s.text with
  | "query" => pure .query
  | "mutation" => pure .mutation
  | "subscription" => pure .subscription
  | t => .error (.invalid t)

/-- `FunctionDefinition` — `turms/plugins/funcs.py:70-75` -/
def readDefinition (s : Setting) : Except Err FuncDefinition := do
  let kind ← readKind (← s.need "type")
  let isAsync ← readOr false Setting.flag (← s.opt "is_async")
  let args ← readList readArg (← s.opt "extra_args")
  let kwargs ← readList readKwarg (← s.opt "extra_kwargs")
  let use ← (← s.need "use").text
  pure ⟨kind, isAsync, args, kwargs, use⟩

/-- `FuncsPluginConfig` — `turms/plugins/funcs.py:78-98` (`extra="forbid"`).  As above, other fields are rejected. -/
def readFuncs (s : Setting) : Except Err FuncsConfig := do
  onlyKeys ["type", "global_args", "global_kwargs", "definitions"] s
  let args ← readList readArg (← s.opt "global_args")
  let kwargs ← readList readKwarg (← s.opt "global_kwargs")
  let definitions ← readList readDefinition (← s.opt "definitions")
  pure { globalArgs := args, globalKwargs := kwargs, definitions := definitions }

/-- the styler of a path — `turms/run.py:436-441` with `turms/stylers/capitalize.py`, `turms/stylers/snake_case.py`;
other stylers do not occur -/
def stylerOf : String → Except Err Styler
  | "turms.stylers.capitalize.CapitalizeStyler" => .ok capitalizeStyler
  | "turms.stylers.snake_case.SnakeCaseStyler" => .ok snakeCaseStyler
  | path => .error (.importError path)

end Turms
