import Verif.Model.Basic

/-!
# Writing generated files: `turms/run.py:165-280`, `turms/cli/main.py:200-270, 376-455`

The file system and the operating system are parameters: which file a path denotes, whether a directory can be
created, a file opened or a text written is decided by an arbitrary `Os`. Every system call that changes the disk
is one step of the history, so a crash point is an element of the history. A text is written one character at a
time (the finest granularity at which a crash can happen).

Simplifications: nobody else writes to the disk during the run; the file a path denotes does not change during the
run; generation itself reads the disk but does not write it (external tools run by processors could).
-/

namespace Turms

/-- the content of a disk: files by identity, and which paths are directories -/
structure FS where
  files : String → Option String
  dirs : String → Bool

namespace FS

/-- the file `f` now has this content -/
def put (fs : FS) (f text : String) : FS :=
  { fs with files := fun g => if g = f then some text else fs.files g }

end FS

/-- the operating system's decisions -/
structure Os where
  /-- the file (or directory) a path denotes -/
  locate : String → String
  /-- `os.makedirs`: the directories afterwards, and the exception if it fails -/
  makedirs : FS → String → Option Err × (String → Bool)
  /-- the exception of `open(path, "w")`, if it fails -/
  openFails : FS → String → Option Err
  /-- `write` to the file raises after having written this many characters -/
  writeFails : FS → String → String → Option (Err × Nat)

/-- a disk with its history: `past` is every state the disk was in before `now`, most recent first -/
structure Disk where
  now : FS
  past : List FS

namespace Disk

/-- one system call takes the disk to a new state -/
def step (d : Disk) (fs : FS) : Disk := { now := fs, past := d.now :: d.past }

/-- every state the disk is or was in: what a crash may leave behind -/
def states (d : Disk) : List FS := d.now :: d.past

end Disk

/-- code acting on the disk; the effects of code that raises are not undone -/
abbrev Io (α : Type) := Disk → Except Err α × Disk

/-- `a; f` -/
def Io.andThen {α β : Type} (a : Io α) (f : α → Io β) : Io β := fun d =>
  match a d with
  | (.error e, d1) => (.error e, d1)
  | (.ok x, d1) => f x d1

/-- `os.path.join(a, b)` on POSIX -/
def pathJoin (a b : String) : String :=
  if b.startsWith "/" then b
  else if a == "" || a.endsWith "/" then a ++ b
  else a ++ "/" ++ b

/-- what is passed to `file.write`: a string, or something else (which raises `TypeError`) -/
inductive Payload where
  | text (s : String)
  | notText
deriving DecidableEq

/-- append the characters to the file, one at a time -/
def appendChars (f : String) : String → List Char → Disk → Disk
  | _, [], d => d
  | done, c :: cs, d => appendChars f (done.push c) cs (d.step (d.now.put f (done.push c)))

/-- `file.write(payload)` on the just opened (empty) file `f` -/
def writePayload (os : Os) (f : String) : Except Err Payload → Io Unit
  | .error e => fun d => (.error e, d)
  | .ok .notText => fun d => (.error (.typeError "write"), d)
  | .ok (.text s) => fun d =>
    match os.writeFails d.now f s with
    | some (e, n) => (.error e, appendChars f "" (s.toList.take n) d)
    | none => (.ok (), appendChars f "" s.toList d)

/-- `if not os.path.isdir(outdir): os.makedirs(outdir)` -/
def ensureDir (os : Os) (outdir : String) : Io Unit := fun d =>
  if d.now.dirs (os.locate outdir) then (.ok (), d)
  else
    match os.makedirs d.now outdir with
    | (none, ds) => (.ok (), d.step { d.now with dirs := ds })
    | (some e, ds) => (.error e, d.step { d.now with dirs := ds })

/-- `open(path, "w")`: creates or truncates the file -/
def openTruncated (os : Os) (path : String) : Io Unit := fun d =>
  match os.openFails d.now path with
  | some e => (.error e, d)
  | none => (.ok (), d.step (d.now.put (os.locate path) ""))

/-- `write_code_to_file`, `write_schema_to_file`, `write_project` — `turms/run.py:165-219`: the three have this
body and differ in what they write. The payload is computed after the file has been opened (an exception while
printing the schema or the configuration is raised there). -/
def writeToFile (os : Os) (payload : Except Err Payload) (outdir filepath : String) : Io String :=
  (ensureDir os outdir).andThen fun _ =>
  (openTruncated os (pathJoin outdir filepath)).andThen fun _ =>
  (writePayload os (os.locate (pathJoin outdir filepath)) payload).andThen fun _ d =>
  (.ok (pathJoin outdir filepath), d)

/-- the settings of a project that matter here — `turms/config.py` (`GeneratorConfig`) -/
structure Project where
  outDir : String
  generatedName : String
  schemaName : String := "schema.graphql"
  configurationName : String := "project.json"
  dumpSchema : Bool := false
  dumpConfiguration : Bool := false
  exitOnError : Bool := true
  /-- everything else in the configuration -/
  settings : String := ""
deriving DecidableEq

/-- a successful generation: the code, the printed schema, the dumped configuration (printing may raise) -/
structure Generated where
  code : String
  schemaText : Except Err String
  configText : Except Err String

/-- `generate(project)`: an arbitrary function of the project and what is on the disk — `turms/run.py:379-461` -/
abbrev Generator := Project → FS → Except Err Generated

/-- `if flag: …` -/
def Io.whenever (b : Bool) (a : Io String) : Io Unit := fun d =>
  if b then
    match a d with
    | (.error e, d1) => (.error e, d1)
    | (.ok _, d1) => (.ok (), d1)
  else (.ok (), d)

/-- the `try` block of `generate_projects` — `turms/cli/main.py:226-250` -/
def attemptProject (os : Os) (gen : Generator) (p : Project) : Io Unit := fun d =>
  match gen p d.now with
  | .error e => (.error e, d)
  | .ok g =>
    ((writeToFile os (.ok (.text g.code)) p.outDir p.generatedName).andThen fun _ =>
      (Io.whenever p.dumpSchema (writeToFile os (g.schemaText.map .text) p.outDir p.schemaName)).andThen fun _ =>
        Io.whenever p.dumpConfiguration (writeToFile os (g.configText.map .text) p.outDir p.configurationName)) d

/-- the loop of `generate_projects` — `turms/cli/main.py:216-257`: the collected exceptions -/
def projectsLoop (os : Os) (gen : Generator) : List Project → Disk → List Err × Disk
  | [], d => ([], d)
  | p :: ps, d =>
    match attemptProject os gen p d with
    | (.ok _, d1) => projectsLoop os gen ps d1
    | (.error e, d1) =>
      let rest := projectsLoop os gen ps d1
      (if p.exitOnError then e :: rest.1 else rest.1, rest.2)

/-- `generate_projects` — `turms/cli/main.py:200-270`; a `ClickException` is `Err.other "ClickException"`. -/
def generateProjects (os : Os) (gen : Generator) (ps : List Project) : Io Unit := fun d =>
  match projectsLoop os gen ps d with
  | ([], d1) => (.ok (), d1)
  | (_ :: _, d1) => (.error (.other "ClickException"), d1)

/-- the `try` block of `gen` — `turms/run.py:243-271`. `generate` returns a pair and `gen` passes that pair on to
`write_code_to_file`. The schema dump builds the schema again (`schemaText` stands for its result or exception);
`overwrite` replaces the output directory for the code only. -/
def genProject (os : Os) (gen : Generator) (overwrite : Option String) (p : Project) : Io Unit := fun d =>
  match gen p d.now with
  | .error e => (.error e, d)
  | .ok g =>
    ((writeToFile os (.ok .notText) (match overwrite with
        | some o => if o == "" then p.outDir else o
        | none => p.outDir) p.generatedName).andThen fun _ =>
      (Io.whenever p.dumpSchema (writeToFile os (g.schemaText.map .text) p.outDir p.schemaName)).andThen fun _ =>
        Io.whenever p.dumpConfiguration (writeToFile os (g.configText.map .text) p.outDir p.configurationName)) d

/-- the loop of `gen` — `turms/run.py:242-280` -/
def genLoop (os : Os) (gen : Generator) (overwrite : Option String) (strict : Bool) : List Project → Io Unit
  | [], d => (.ok (), d)
  | p :: ps, d =>
    match genProject os gen overwrite p d with
    | (.ok _, d1) => genLoop os gen overwrite strict ps d1
    | (.error _, d1) => if strict then (.error (.generationError ""), d1) else genLoop os gen overwrite strict ps d1

/-- one round of `watch_projects` — `turms/cli/main.py:340-370`: a change triggers a generation; every exception
is caught. -/
def watchRound (os : Os) (gen : Generator) (p : Project) (d : Disk) : Disk :=
  match gen p d.now with
  | .error _ => d
  | .ok g => (writeToFile os (.ok (.text g.code)) p.outDir p.generatedName d).2

/-- `watch_projects` — `turms/cli/main.py:311-370`, the disk after a sequence of change events, between which
others may edit the disk (`edits`) -/
def watchRounds (os : Os) (gen : Generator) (p : Project) : List (FS → FS) → Disk → Disk
  | [], d => d
  | edit :: edits, d => watchRounds os gen p edits (watchRound os gen p (d.step (edit d.now)))

/-- `init` — `turms/cli/main.py:376-410`. `confirmed` is the user's answer; `template` the rendered settings. The
parameter `cwd` is the working directory. -/
def initConfig (os : Os) (cwd config template : String) (confirmed : Bool) : Io Unit := fun d =>
  if (d.now.files (os.locate (pathJoin cwd config))).isSome || d.now.dirs (os.locate (pathJoin cwd config)) then
    if !confirmed then (.ok (), d)
    else
      ((openTruncated os (pathJoin cwd config)).andThen fun _ =>
        writePayload os (os.locate (pathJoin cwd config)) (.ok (.text template))) d
  else
    ((openTruncated os (pathJoin cwd config)).andThen fun _ =>
      writePayload os (os.locate (pathJoin cwd config)) (.ok (.text template))) d

/-- the loop of `download` — `turms/cli/main.py:439-455`: `schemaOf` loads and `print_schema` prints the schema of a
project; `projects` are its key and itself. -/
def downloadLoop {P : Type} (os : Os) (schemaOf : P → FS → Except Err (Except Err String)) (dir out : String) :
    List (String × P) → Io Unit
  | [], d => (.ok (), d)
  | (key, p) :: ps, d =>
    match schemaOf p d.now with
    | .error e => (.error e, d)
    | .ok text =>
      ((openTruncated os (pathJoin dir (key ++ out))).andThen fun _ =>
        (writePayload os (os.locate (pathJoin dir (key ++ out))) (text.map .text)).andThen fun _ =>
          downloadLoop os schemaOf dir out ps) d

/-- `download` — `turms/cli/main.py:425-455` -/
def download {P : Type} (os : Os) (schemaOf : P → FS → Except Err (Except Err String)) (cwd : String)
    (dir : Option String) (out : String) (projects : List (String × P)) : Io Unit := fun d =>
  match downloadLoop os schemaOf (match dir with
      | some x => if x == "" then cwd else x
      | none => cwd) out projects d with
  | (.ok _, d1) => (.ok (), d1)
  | (.error _, d1) => (.error (.other "ClickException"), d1)

end Turms
