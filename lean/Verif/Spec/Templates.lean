import Verif.Model.Templates
import Verif.Spec.Configured

/-!
# What a project made by `turms init` may rely on
-/

namespace Turms.Spec
open Turms

/-- the tools that processors call: the processor, and the module that must be installed for it to run -/
def formatterOf : List (String × String) :=
  [("turms.processors.black.BlackProcessor", "black"), ("turms.processors.isort.IsortProcessor", "isort"),
   ("turms.processors.merge.MergeProcessor", "libcst")]

/-- the classes of turms that need nothing but turms itself to be imported (black and isort are imported when the
processor runs) -/
def ownClasses : List String :=
  ["turms.stylers.capitalize.CapitalizeStyler", "turms.stylers.snake_case.SnakeCaseStyler",
   "turms.plugins.enums.EnumsPlugin", "turms.plugins.inputs.InputsPlugin", "turms.plugins.fragments.FragmentsPlugin",
   "turms.plugins.operations.OperationsPlugin", "turms.plugins.funcs.FuncsPlugin",
   "turms.plugins.strawberry.StrawberryPlugin", "turms.processors.disclaimer.DisclaimerProcessor",
   "turms.processors.black.BlackProcessor", "turms.processors.isort.IsortProcessor"]

/-- turms is installed: its classes can be imported, and the merge processor too if libcst is there -/
def TurmsWorks {A : Type} (installed : String → Bool) (imports : String → Except Err A) : Prop :=
  (∀ t ∈ ownClasses, ∃ a, imports t = .ok a) ∧
  (installed "libcst" = true → ∃ a, imports "turms.processors.merge.MergeProcessor" = .ok a)

/-- `"turms.plugins.x.XPlugin"` for the plugins of a template, in order -/
def pluginsOf : String → List String
  | "documents" => ["turms.plugins.enums.EnumsPlugin", "turms.plugins.inputs.InputsPlugin",
      "turms.plugins.fragments.FragmentsPlugin", "turms.plugins.operations.OperationsPlugin"]
  | "rath" => ["turms.plugins.enums.EnumsPlugin", "turms.plugins.inputs.InputsPlugin",
      "turms.plugins.fragments.FragmentsPlugin", "turms.plugins.operations.OperationsPlugin",
      "turms.plugins.funcs.FuncsPlugin"]
  | "gql" => ["turms.plugins.enums.EnumsPlugin", "turms.plugins.inputs.InputsPlugin",
      "turms.plugins.fragments.FragmentsPlugin", "turms.plugins.operations.OperationsPlugin",
      "turms.plugins.funcs.FuncsPlugin"]
  | "strawberry" => ["turms.plugins.strawberry.StrawberryPlugin"]
  | _ => []

/-- the templates -/
def templateNames : List String := ["documents", "rath", "gql", "strawberry"]

/-- the processors of a project, by path -/
def processorsOf (p : ProjectConfig) : List String := p.processors.map (·.type)

/-- A project made by `turms init` from this template: the plugins in their order, only processors whose tool is
installed, all formatters that are, and merging with the existing file only at the very end.  Only a strawberry server
reads no documents and has no rebuild section (its classes have no `model_rebuild`). -/
structure Initial (installed : String → Bool) (name : String) (p : ProjectConfig) : Prop where
  plugins : p.plugins.map (·.type) = pluginsOf name
  stylers : p.stylers.map (·.type) =
    ["turms.stylers.capitalize.CapitalizeStyler", "turms.stylers.snake_case.SnakeCaseStyler"]
  runnable : ∀ t ∈ processorsOf p, ∀ m, (t, m) ∈ formatterOf → installed m = true
  formatted : ∀ t m, (t, m) ∈ formatterOf → m ≠ "libcst" → installed m = true → t ∈ processorsOf p
  once : (processorsOf p).Nodup
  mergeLast : ∀ before after, processorsOf p = before ++ "turms.processors.merge.MergeProcessor" :: after → after = []
  keepsEdits : name = "strawberry" → installed "libcst" = true →
    "turms.processors.merge.MergeProcessor" ∈ processorsOf p
  documents : p.documents = none ↔ name = "strawberry"
  rebuilds : p.skipForwards = true ↔ name = "strawberry"
  outDir : p.outDir = "api"

/-- the context in which an initial project is generated: its stylers, its scalars, all other options at their defaults -/
def projectCtx (p : ProjectConfig) (stylers : List Styler) (schema : Schema) : Ctx :=
  { env := { config := { scalarDefinitions := p.scalars }, stylers := stylers }, schema := schema }

/-- the functions the template asks for: the kind of operation, whether they are asynchronous, and what they call -/
def wantedFunctions (name : String) : List (OpKind × Bool × String) :=
  (if name = "rath" then [(.query, true, "api.proxies.aexecute"), (.mutation, true, "api.proxies.aexecute"),
    (.subscription, true, "api.proxies.asubscribe")] else []) ++
  [(.query, false, "api.proxies.execute"), (.mutation, false, "api.proxies.execute"),
    (.subscription, false, "api.proxies.subscribe")]

/-- the project of a template with functions, and the configuration of its functions plugin -/
structure FunctionProject (name : String) (p : ProjectConfig) (fc : FuncsConfig) : Prop where
  last : ∃ before component, p.plugins = before ++ [component] ∧ component.type = "turms.plugins.funcs.FuncsPlugin" ∧
    readFuncs component.settings = .ok fc
  wanted : fc.definitions.map (fun d => (d.kind, d.isAsync, d.use)) = wantedFunctions name
  client : fc.globalArgs.map (fun a => (a.key, a.type)) = (if name = "gql" then [("client", "gql.Client")] else []) ∧
    fc.globalKwargs.map (fun a => (a.key, a.type, a.default)) =
      (if name = "rath" then [("rath", "rath.Rath", Const.none)] else [])
  own : ∀ d ∈ fc.definitions, d.extraArgs = [] ∧ d.extraKwargs = []
  plain : fc.expandInputTypes = []

end Turms.Spec
