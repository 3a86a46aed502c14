import Verif.Model.PyAst

/-!
# The polyfill parser and the processors that run external tools

`turms/parsers/polyfill.py`, `turms/processors/command.py`, `turms/processors/ruff.py`, `turms/processors/disclaimer.py`.
-/

namespace Turms

/-! ## polyfill -/

/-- the versions `validate_python_version` accepts — `turms/parsers/polyfill.py:14-22` (a number is turned into
its decimal text first, so the number 3.10 arrives as "3.1") -/
def pythonVersions : List String := ["3.7", "3.8", "3.9", "3.10", "3.11", "3.12", "3.13"]

/-- `polyfill_python_seven` for one statement — `turms/parsers/polyfill.py:29-57`. The two sets are iterated in the
order `iter` gives. -/
def polyfillStmt (iter : List String → List String) : Stmt → List Stmt
  | .importFrom m ns =>
    if m == "typing" then
      let aliases := ns.foldl setAdd []
      let need := aliases.filter (· == "Literal")
      (if need.isEmpty then [] else [.importFrom "typing_extensions" (iter need)]) ++
        [.importFrom "typing" (iter (aliases.filter (· != "Literal")))]
    else [.importFrom m ns]
  | s => [s]

/-- `PolyfillParser.parse_ast` — `turms/parsers/polyfill.py:68-75` -/
def polyfill (iter : List String → List String) (version : String) (asts : List Stmt) : List Stmt :=
  if version == "3.7" then asts.flatMap (polyfillStmt iter) else asts

/-! ## external tools -/

/-- running a command with some standard input: exit code and standard output, and what it does to the world -/
abbrev Exec (W : Type) := List String → String → W → Except Err (Int × String) × W

/-- `CommandProcessor.run` — `turms/processors/command.py:40-54` (the command already split) -/
def runCommand {W : Type} (exec : Exec W) (command : List String) (code : String) (w : W) : Except Err String × W :=
  match exec command code w with
  | (.error e, w1) => (.error e, w1)
  | (.ok (rc, out), w1) => if rc != 0 then (.error (.other "RuntimeError"), w1) else (.ok out, w1)

/-- arguments of `ruff check --fix` — `turms/processors/ruff.py:46-49`; `python` is `sys.executable`. -/
def ruffFixArgs (python : String) : List String :=
  [python, "-m", "ruff", "check", "--fix", "--quiet", "--stdin-filename", "generated.py", "-"]
/-- arguments of `ruff format` — `turms/processors/ruff.py:50-54` -/
def ruffFormatArgs (python : String) : List String :=
  [python, "-m", "ruff", "format", "--quiet", "--stdin-filename", "generated.py", "-"]

/-- `if enabled: gen_file = self._run_ruff(args, gen_file)` -/
def ruffStep {W : Type} (exec : Exec W) (enabled : Bool) (args : List String) (code : String) (w : W) :
    Except Err String × W :=
  if enabled then runCommand exec args code w else (.ok code, w)

/-- `RuffProcessor.run` — `turms/processors/ruff.py:30-55` (`_run_ruff` is `runCommand` on these arguments) -/
def runRuff {W : Type} (exec : Exec W) (python : String) (fix format : Bool) (code : String) (w : W) :
    Except Err String × W :=
  match ruffStep exec fix (ruffFixArgs python) code w with
  | (.error e, w1) => (.error e, w1)
  | (.ok code, w1) => ruffStep exec format (ruffFormatArgs python) code w1

/-- `DisclaimerProcessor.run` — `turms/processors/disclaimer.py:22-23` -/
def disclaimerRun (disclaimer genFile : String) : String := disclaimer ++ "\n" ++ genFile

end Turms
