import Verif.Model.Basic

/-!
# Stylers (`turms/stylers/*.py`) and the name functions of the registry

Simplification: Python's `str.upper`/`str.lower` are Unicode aware, `Char.toUpper`/`Char.toLower` are
ASCII only.  GraphQL names are ASCII (`[_A-Za-z][_0-9A-Za-z]*`), so on the names turms handles the two
agree.
-/

namespace Turms

/-- `re.sub("(.)([A-Z][a-z]+)", r"\1_\2", name)` — `turms/stylers/default.py:7`,
`turms/stylers/snake_case.py:7`.  Left-to-right scan.  `run = true` means that the scanner is inside the
greedy `[a-z]+` of the current match. -/
def sub1 : Bool → List Char → List Char
  | _, [] => []
  | run, c :: rest =>
    if run && c.isLower then c :: sub1 true rest
    else
      match rest with
      | u :: l :: rest' =>
        if c != '\n' && u.isUpper && l.isLower then c :: '_' :: u :: l :: sub1 true rest'
        else c :: sub1 false (u :: l :: rest')
      | rest => c :: sub1 false rest

/-- `re.sub("([a-z0-9])([A-Z])", r"\1_\2", name)` — `turms/stylers/default.py:8`. -/
def sub2 : List Char → List Char
  | [] => []
  | [c] => [c]
  | c :: u :: rest =>
    if (c.isLower || c.isDigit) && u.isUpper then c :: '_' :: u :: sub2 rest
    else c :: sub2 (u :: rest)

/-- `camel_to_snake` — `turms/stylers/default.py:6-8` (and the identical `snake_case.py:6-8`). -/
def camelToSnakeL (name : List Char) : List Char := (sub2 (sub1 false name)).map Char.toLower

/-- `camel_to_snake` on strings. -/
def camelToSnake (name : String) : String := String.ofList (camelToSnakeL name.toList)

/-- `typename[0].upper() + typename[1:]` — `turms/stylers/capitalize.py:20-36`, `default.py:23-39`.
Raises `IndexError` on the empty string. -/
def capitalizeFirst (typename : String) : Except Err String :=
  match typename.toList with
  | [] => .error .indexError
  | c :: cs => .ok (String.ofList (c.toUpper :: cs))

/-- A styler: the nine methods of `turms/stylers/base.py:14-59`, each an arbitrary function that may
raise (stylers are user code). -/
structure Styler where
  queryName : String → Except Err String
  mutationName : String → Except Err String
  subscriptionName : String → Except Err String
  enumName : String → Except Err String
  fragmentName : String → Except Err String
  nodeName : String → Except Err String
  inputName : String → Except Err String
  parameterName : String → Except Err String
  objectName : String → Except Err String

/-- `BaseStyler` — `turms/stylers/base.py:61-89`. -/
def baseStyler : Styler where
  queryName := .ok
  mutationName := .ok
  subscriptionName := .ok
  enumName := .ok
  fragmentName := .ok
  nodeName := .ok
  inputName := .ok
  parameterName := .ok
  objectName := .ok

/-- `AppenderStylerConfig` — `turms/stylers/appender.py:5-12`. -/
structure AppenderConfig where
  fragment : String := "Fragment"
  query : String := "Query"
  mutation : String := "Mutation"
  subscription : String := "Subscription"
  enum : String := ""
  input : String := ""

/-- `AppenderStyler` — `turms/stylers/appender.py:15-34`. -/
def appenderStyler (c : AppenderConfig) : Styler :=
  { baseStyler with
    fragmentName := fun n => .ok (n ++ c.fragment)
    queryName := fun n => .ok (n ++ c.query)
    subscriptionName := fun n => .ok (n ++ c.subscription)
    mutationName := fun n => .ok (n ++ c.mutation)
    inputName := fun n => .ok (n ++ c.input)
    enumName := fun n => .ok (n ++ c.enum) }

/-- `CapitalizeStyler` — `turms/stylers/capitalize.py:15-36` (its configuration flags are not read by
the code). -/
def capitalizeStyler : Styler :=
  { baseStyler with
    fragmentName := capitalizeFirst
    queryName := capitalizeFirst
    subscriptionName := capitalizeFirst
    mutationName := capitalizeFirst
    inputName := capitalizeFirst
    enumName := capitalizeFirst }

/-- `SnakeCaseStyler` — `turms/stylers/snake_case.py:15-24`. -/
def snakeCaseStyler : Styler :=
  { baseStyler with
    nodeName := fun n => .ok (camelToSnake n)
    parameterName := fun n => .ok (camelToSnake n) }

/-- `DefaultStyler` — `turms/stylers/default.py:15-45`. -/
def defaultStyler : Styler :=
  { capitalizeStyler with
    nodeName := fun n => .ok (camelToSnake n)
    parameterName := fun n => .ok (camelToSnake n) }

/-- `keyword.kwlist` of CPython 3.10 – 3.13 (`keyword.iskeyword`). -/
def kwlist : List String :=
  ["False", "None", "True", "and", "as", "assert", "async", "await", "break", "class", "continue",
   "def", "del", "elif", "else", "except", "finally", "for", "from", "global", "if", "import", "in",
   "is", "lambda", "nonlocal", "not", "or", "pass", "raise", "return", "try", "while", "with", "yield"]

/-- `keyword.iskeyword` -/
def isKeyword (s : String) : Bool := kwlist.contains s

/-- `if iskeyword(x): x += "_"` — `turms/registry.py:276-277` and the other `style_*` methods,
`535-538`, `544-547`. -/
def escapeKeyword (s : String) : String := if isKeyword s then s ++ "_" else s

/-- `for styler in self.stylers: name = styler.<method>(name)` — `turms/registry.py:274-275` etc. -/
def styleChain (stylers : List Styler) (method : Styler → String → Except Err String)
    (name : String) : Except Err String :=
  match stylers with
  | [] => .ok name
  | s :: rest =>
    match method s name with
    | .error e => .error e
    | .ok n => styleChain rest method n

/-- `style_inputtype_class`, `style_enum_class`, `style_objecttype_class`, `style_interface_class`,
`style_fragment_class`, `style_query_class`, `style_mutation_class`, `style_subscription_class`,
`generate_node_name`, `generate_parameter_name` — `turms/registry.py:273-278, 304-309, 346-351,
392-397, 426-431, 531-547, 549-554, 576-581, 603-608`: all ten have this body. -/
def styled (stylers : List Styler) (method : Styler → String → Except Err String)
    (name : String) : Except Err String :=
  match styleChain stylers method name with
  | .error e => .error e
  | .ok n => .ok (escapeKeyword n)

/-- `generate_node_name` — `turms/registry.py:531-538`. -/
def generateNodeName (stylers : List Styler) (name : String) : Except Err String :=
  styled stylers Styler.nodeName name

/-- `generate_parameter_name` — `turms/registry.py:540-547`. -/
def generateParameterName (stylers : List Styler) (name : String) : Except Err String :=
  styled stylers Styler.parameterName name

end Turms
