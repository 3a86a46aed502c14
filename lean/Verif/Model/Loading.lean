import Verif.Model.Registry

/-!
# Loading schemas, documents, configurations and classes

`turms/helpers.py`, `turms/run.py:58-160, 288-377`, `turms/utils.py:496-529`, `turms/cli/main.py:273-308`,
`turms/cli/watch.py`. The network, the file system, the parsers and graphql-core's schema builders are parameters.
-/

namespace Turms

/-- what the loaders are given: network, files, and graphql-core's builders. `S` is the type of schemas, `I` of
introspection results. -/
structure World (S I : Type) where
  /-- `load_dsl_from_url(url, headers)` — `turms/helpers.py:87-107` (any failure is a `GenerationError`) -/
  fetch : String → Dict String → Except Err String
  /-- `load_introspection_from_url(url, headers)` — `turms/helpers.py:43-85` -/
  introspect : String → Dict String → Except Err I
  /-- `glob.glob(pattern, recursive=True)`: in the order of the directory listings -/
  glob : String → List String
  /-- `load_dsl_from_file` — `turms/helpers.py:110-113` -/
  readText : String → Except Err String
  /-- `load_introspection_from_file` — `turms/helpers.py:116-119` -/
  readIntrospection : String → Except Err I
  /-- `build_ast_schema(parse(text))` -/
  build : String → Except Err S
  /-- `build_ast_schema(parse(text), assume_valid_sdl=True, assume_valid=True)` -/
  buildAssumeValid : String → Except Err S
  /-- `build_client_schema(introspection)` -/
  buildClient : I → Except Err S

/-- reading and concatenating files in this order -/
def readAll {S I : Type} (w : World S I) : List String → Except Err String
  | [] => .ok ""
  | f :: fs =>
    match w.readText f with
    | .error e => .error e
    | .ok t =>
      match readAll w fs with
      | .error e => .error e
      | .ok rest => .ok (t ++ rest)

/-- `load_dsl_from_glob` — `turms/helpers.py:125-139` -/
def loadDslFromGlob {S I : Type} (w : World S I) (pattern : String) : Except Err String :=
  let files := pySorted strLe (w.glob pattern)
  if files.length == 0 then .error (.generationError pattern) else readAll w files

/-- `load_introspection_from_glob` — `turms/helpers.py:142-157` -/
def loadIntrospectionFromGlob {S I : Type} (w : World S I) (pattern : String) : Except Err I :=
  match pySorted strLe (w.glob pattern) with
  | [] => .error (.generationError pattern)
  | [f] => w.readIntrospection f
  | _ :: _ :: _ => .error (.generationError pattern)

/-- `SchemaField` — `turms/config.py:418-422`: a string (URL or glob) or a mapping from URLs to headers. Pydantic
is assumed to keep a string a string. -/
inductive SchemaField where
  | str (s : String)
  | map (m : Dict (Dict String))

/-- `SchemaType` — `turms/config.py:423` -/
inductive SchemaType where
  | one (f : SchemaField)
  | many (l : List SchemaField)

/-- `is_url` — `turms/run.py:297-298` -/
def isUrl (s : String) : Bool := s.startsWith "http" || s.startsWith "https"

/-- `" ".join(parts)` -/
def joinSpace : List String → String
  | [] => ""
  | [t] => t
  | t :: ts => t ++ " " ++ joinSpace ts

/-- fetching every URL of a mapping -/
def fetchAll {S I : Type} (w : World S I) : Dict (Dict String) → Except Err (List String)
  | [] => .ok []
  | (url, headers) :: m =>
    match w.fetch url headers with
    | .error e => .error e
    | .ok t =>
      match fetchAll w m with
      | .error e => .error e
      | .ok rest => .ok (t :: rest)

/-- try the SDL; on any exception fall back to introspection if that is allowed -/
def withFallback {S : Type} (allow : Bool) (sdl introspection : Except Err S) : Except Err S :=
  match sdl with
  | .ok s => .ok s
  | .error e => if allow then introspection else .error e

/-- a single schema source — `turms/run.py:312-329, 352-376` -/
def buildSingle {S I : Type} (w : World S I) (allow : Bool) : SchemaField → Except Err S
  | .map [(url, headers)] =>
    withFallback allow ((w.fetch url headers).bind w.build) ((w.introspect url headers).bind w.buildClient)
  | .map m => (fetchAll w m).bind fun parts => w.build (joinSpace parts)
  | .str s =>
    if isUrl s then
      withFallback allow ((w.fetch s []).bind w.buildAssumeValid) ((w.introspect s []).bind w.buildClient)
    else
      withFallback allow ((loadDslFromGlob w s).bind w.buildAssumeValid)
        ((loadIntrospectionFromGlob w s).bind w.buildClient)

/-- the parts of a list with several sources — `turms/run.py:338-350`: the three tests are not exclusive, and
`is_url` is applied to mappings too (where it raises `AttributeError`). -/
def listParts {S I : Type} (w : World S I) : List SchemaField → Except Err (List String)
  | [] => .ok []
  | .map _ :: _ => .error (.attributeError "startswith")
  | .str s :: items =>
    match (if isUrl s then (w.fetch s []).map (fun t => [t]) else .ok []) with
    | .error e => .error e
    | .ok here =>
      match loadDslFromGlob w s with
      | .error e => .error e
      | .ok t =>
        match listParts w items with
        | .error e => .error e
        | .ok rest => .ok (here ++ [t] ++ rest)

/-- `build_schema_from_schema_type` — `turms/run.py:301-377` -/
def buildSchema {S I : Type} (w : World S I) (allow : Bool) : SchemaType → Except Err S
  | .one f => buildSingle w allow f
  | .many [f] => buildSingle w allow f
  | .many l => (listParts w l).bind fun parts => w.build (joinSpace parts)

/-- reading the documents, `turms/utils.py:499-519`; parsing, validation and typename insertion follow. -/
def documentsText {S I : Type} (w : World S I) (pattern : String) : Except Err String :=
  if pattern == "" then .error (.generationError "documents")
  else
    match readAll w (pySorted strLe (w.glob pattern)) with
    | .error e => .error e
    | .ok dsl => if dsl == "" then .error (.other "NoDocumentsFoundError") else .ok dsl

/-! ## configuration files -/

/-- `s.lower()`; ASCII letters only (no other character lower-cases to a letter of the tables below) -/
def lowerAscii (s : String) : String := String.ofList (s.toList.map Char.toLower)

/-- `FILE_NAME_LOADERS` — `turms/run.py:70-75` -/
def loaderKeys : List String := ["yaml", "yml", "toml", "json"]

/-- `get_file_loader` — `turms/run.py:79-85`: the lookup raises `KeyError`, which the `except AttributeError` does
not catch. -/
def getFileLoader (fileName : String) : Except Err String :=
  let key := lastComponent (lowerAscii fileName)
  if loaderKeys.contains key then .ok key else .error (.keyError key)

/-- a parsed configuration: with a `projects` key, or without. `P` is the type of validated projects; `none`
stands for a pydantic `ValidationError`. -/
inductive RawConfig (P : Type) where
  | withProjects (projects : Option (Dict P))
  | withoutProjects (project : Option P)

/-- `load_projects_from_configpath` — `turms/run.py:88-118`. `parse key path` opens the file and parses it with the
loader `key` (the loader is looked up after the file has been opened, so a missing file is reported first). -/
def loadProjects {P : Type} (openFile : String → Except Err Unit) (parse : String → String → Except Err (RawConfig P))
    (path : String) (select : Option String) : Except Err (Dict P) :=
  match openFile path with
  | .error e => .error e
  | .ok _ =>
    match getFileLoader path with
    | .error e => .error e
    | .ok key =>
      match parse key path with
      | .error e => .error e
      | .ok raw =>
        match (match raw with
          | .withProjects ps => ps
          | .withoutProjects p => p.map fun p => [("default", p)]) with
        | none => .error (.generationError path)
        | some projects =>
          match select with
          | none => .ok projects
          | some key =>
            if key == "" then .ok projects
            else
              let chosen := projects.filter fun kp => kp.1 == key
              if chosen.length ≥ 1 then .ok chosen else .error (.assertion "select")

/-- `SCANNABLE_FILE_NAMES` — `turms/run.py:59-68` -/
def scannable : List String :=
  ["graphql.config.yaml", ".graphqlrc.yaml", "graphql.config.yml", ".graphqlrc.yml",
   "graphql.config.toml", ".graphqlrc.toml", "graphql.config.json", ".graphqlrc.json"]

/-- `scan_folder_for_configs` — `turms/run.py:121-138`; `join` is `os.path.join(folder, ·)`. -/
def scanFolder (join : String → String) (listing : List String) : List String :=
  (listing.filter fun f => scannable.contains (lowerAscii f)).map join

/-- `scan_folder_for_single_config` — `turms/run.py:141-163` -/
def scanSingle (join : String → String) (listing : List String) : Except Err String :=
  match scanFolder join listing with
  | [] => .error (.generationError "none")
  | [c] => .ok c
  | _ :: _ :: _ => .error (.generationError "multiple")

/-- the configuration file a command uses — `turms/cli/main.py:284` -/
def commandPath (join : String → String) (listing : List String) (config : Option String) : Except Err String :=
  match config with
  | some c => if c == "" then scanSingle join listing else .ok c
  | none => scanSingle join listing

/-- the projects a command keeps — `turms/cli/main.py:296-301` -/
def commandSelect {P : Type} (project : Option String) (projects : Dict P) : Except Err (Dict P) :=
  match project with
  | none => .ok projects
  | some key =>
    if key == "" then .ok projects
    else
      let chosen := projects.filter fun kp => kp.1 == key
      if chosen.isEmpty then .error (.other "Exception") else .ok chosen

/-- `with_projects` — `turms/cli/main.py:273-308`: the projects a command runs on. Every exception becomes a
`ClickException`. -/
def commandProjects {P : Type} (openFile : String → Except Err Unit)
    (parse : String → String → Except Err (RawConfig P)) (join : String → String) (listing : List String)
    (config project : Option String) : Except Err (Dict P) :=
  match commandPath join listing config with
  | .error _ => .error (.other "ClickException")
  | .ok path =>
    if path == "" then .error (.other "ClickException")
    else
      match loadProjects openFile parse path none with
      | .error _ => .error (.other "ClickException")
      | .ok projects =>
        match commandSelect project projects with
        | .error _ => .error (.other "ClickException")
        | .ok chosen => .ok chosen

/-! ## classes by name, and the watch filter -/

/-- `import_string` — `turms/helpers.py:17-40`. `importModule` is Python's; `getAttr` is `getattr`, `none` standing
for `AttributeError`. An `AttributeError` raised while importing is converted as well. -/
def importString {M A : Type} (importModule : String → Except Err M) (getAttr : M → String → Option A)
    (dotted : String) : Except Err A :=
  if !hasDot dotted then .error (.importError dotted)
  else
    match importModule (initComponents dotted) with
    | .error (.attributeError _) => .error (.importError dotted)
    | .error e => .error e
    | .ok m =>
      match getAttr m (lastComponent dotted) with
      | none => .error (.importError dotted)
      | some a => .ok a

/-- `os.path.basename` on POSIX -/
def basename (path : String) : String := String.ofList ((splitOnChar '/' path.toList).getLast?.getD [])

/-- `GraphQLFilter.__call__` — `turms/cli/watch.py:6-15`; `base` is the answer of watchfiles' `BaseFilter`. -/
def watchFilter (base : Bool) (path : String) : Except Err Bool :=
  if !base then .ok false
  else
    match (splitOnChar '.' (basename path).toList)[1]? with
    | none => .error .indexError
    | some ending => .ok (ending == "graphql".toList)

end Turms
