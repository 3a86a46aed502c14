import Verif.Model.Registry

/-!
# Module assembly, parsers and processors (`turms/run.py:462-603`), document rules (`turms/config.py`)

Plugins, parsers and processors are arbitrary code: they are parameters of the model. A plugin may use the
registry in any way; a parser or processor may have any effect on the world `W` (files, processes, …).
-/

namespace Turms

/-- a configured plugin: the name of its class and its `generate_ast`, given schema and configuration -/
structure Plugin where
  className : String
  run : Gen (List Stmt)

/-- the plugin loop — `turms/run.py:497-503`: a failing plugin stops the loop with a `GenerationError` naming
the plugin. -/
def runPlugins : List Plugin → Gen (List Stmt)
  | [], r => .ok ([], r)
  | p :: ps, r =>
    match p.run r with
    | .error _ => .error (.generationError p.className)
    | .ok (ss, r1) =>
      match runPlugins ps r1 with
      | .error e => .error e
      | .ok (rest, r2) => .ok (ss ++ rest, r2)

/-- `generate_ast` — `turms/run.py:468-511`. `iter` is the order in which this Python process iterates sets. -/
def generateAst (env : Env) (iter : List String → List String) (plugins : List Plugin) (skipForwards : Bool) :
    Except Err (List Stmt) :=
  match runPlugins plugins (Reg.init env) with
  | .error e => .error e
  | .ok (tree, r) =>
    match generateBuiltins (iter r.builtins) with
    | .error e => .error e
    | .ok helpers =>
      let tree := generateImports (iter r.imports) iter ++ helpers ++ tree
      .ok (if skipForwards then tree else tree ++ generateForwardRefs env r)

/-- a parser or processor on values of type `A`, acting on the world `W` -/
structure Pass (A W : Type) where
  className : String
  run : A → W → Except Err A × W

/-- `parse_ast`, `process_code` — `turms/run.py:514-577`: both have this body. -/
def runPasses {A W : Type} : List (Pass A W) → A → W → Except Err A × W
  | [], a, w => (.ok a, w)
  | p :: ps, a, w =>
    match p.run a w with
    | (.error _, w1) => (.error (.generationError p.className), w1)
    | (.ok b, w1) => runPasses ps b w1

/-- `generate_code` — `turms/run.py:580-603`; `unparse` is `parse_asts_to_string` (`turms/run.py:462-465`). -/
def generateCode {W : Type} (env : Env) (iter : List String → List String) (plugins : List Plugin)
    (skipForwards : Bool) (parsers : List (Pass (List Stmt) W)) (unparse : List Stmt → Except Err String)
    (processors : List (Pass String W)) (w : W) : Except Err String × W :=
  match generateAst env iter plugins skipForwards with
  | .error e => (.error e, w)
  | .ok tree =>
    match runPasses parsers tree w with
    | (.error e, w1) => (.error e, w1)
    | (.ok tree, w1) =>
      match unparse tree with
      | .error e => (.error e, w1)
      | .ok code => runPasses processors code w1

/-- keys of `specified_rules_map` — `turms/rules.py:111-138` -/
def specifiedRules : List String :=
  ["executable_definitions", "unique_operation_names", "lone_anonymous_operation", "single_field_subscriptions",
   "known_type_names", "fragments_on_composite_types", "variables_are_input_types", "scalar_leafs",
   "fields_on_correct_type", "unique_fragment_names", "known_fragment_names", "possible_fragment_spreads",
   "no_fragment_cycles", "no_unused_fragments", "unique_variable_names", "no_undefined_variables",
   "no_unused_variables", "known_directives", "unique_directives_per_location", "known_argument_names",
   "unique_argument_names", "values_of_correct_type", "provided_required_arguments",
   "variables_in_allowed_position", "overlapping_fields_can_be_merged", "unique_input_field_names"]

/-- `validate_omited_document_rules` — `turms/config.py:374-382` -/
def validateOmitted : List String → Except Err (List String)
  | [] => .ok []
  | rule :: rules =>
    if !specifiedRules.contains rule then .error (.invalid rule)
    else
      match validateOmitted rules with
      | .error e => .error e
      | .ok rest => .ok (rule :: rest)

/-- `get_document_rules` — `turms/config.py:401-408` (a rule is represented by its key) -/
def documentRules (omitted : List String) : List String :=
  specifiedRules.filterMap fun key => if omitted.contains key then none else some key

/-- `validate_unset_override` — `turms/config.py:351-360` -/
def validateUnset (typeClass instance_ : Option String) : Except Err Unit :=
  if typeClass.isNone != instance_.isNone then .error (.invalid "unset") else .ok ()

/-- `PythonType.validate` and the check of `validate_additional_bases` — `turms/config.py:41-68, 384-399`:
`pythonBuiltins` is `dir(builtins)`. -/
def validatePythonType (pythonBuiltins : List String) (v : String) : Except Err String :=
  if !pythonBuiltins.contains v then
    if !v.toList.contains '.' then .error (.invalid v) else .ok v
  else .ok v

/-- merging of the coercion maps: `{**config.coercible_scalars, **plugin.coercible_scalars}` -/
def mergedCoercions (global plugin : Dict String) : Dict String := Dict.merge global plugin

end Turms
