import Verif.Model.Funcs
import Verif.Model.Enums
import Verif.Model.Strawberry
import Verif.Model.Pipeline

/-!
# What the options of the generated models may change

The settings that say how the generated pydantic models behave — the pydantic version, `freeze`, `options` and
`additional_config` — and the part of a generated module that does not depend on them.
-/

namespace Turms.Spec

/-- the settings of the generated models -/
structure ModelOptions where
  pydanticV2 : Bool := true
  freeze : FreezeConfig := {}
  options : OptionsConfig := {}
  additionalConfig : Dict (Dict PyDefault) := []

/-- the same registry configuration, with another pydantic version -/
def onVersion (env : Env) (m : ModelOptions) : Env :=
  { env with config := { env.config with pydanticV2 := m.pydanticV2 } }

/-- the same project, with other settings of the generated models -/
def withOptions (c : Ctx) (m : ModelOptions) : Ctx :=
  { c with env := onVersion c.env m
           config := { c.config with freeze := m.freeze, options := m.options, additionalConfig := m.additionalConfig } }

/-- `Tuple[x, ...]` becomes `List[x]` -/
def asList (f x : Expr) : Expr :=
  if f = .name "Tuple" then
    match x with
    | .tuple [y, .const .ellipsis] => .subscript (.name "List") y
    | x => .subscript f x
  else .subscript f x

mutual
/-- an annotation with every `Tuple[x, ...]` read as `List[x]` -/
def annotationShape : Expr → Expr
  | .name n => .name n
  | .const k => .const k
  | .subscript f x => asList (annotationShape f) (annotationShape x)
  | .tuple l => .tuple (annotationShapes l)
  | .list l => .list (annotationShapes l)
  | .dict k v => .dict (annotationShapes k) (annotationShapes v)
  | .attr e a => .attr (annotationShape e) a
  | .call f as ks => .call f as ks
  | .isNot a b => .isNot a b
  | .await e => .await e
  | .lambda e => .lambda e
/-- the elements -/
def annotationShapes : List Expr → List Expr
  | [] => []
  | e :: es => annotationShape e :: annotationShapes es
end

/-- a statement of a class body that configures a pydantic model: `model_config = ConfigDict(...)`, the nested class
`Config`, `model_post_init`, and the `pass` of an empty body -/
def configures : Stmt → Bool
  | .assign (.name n) (.call (.name k) [] _) => n == "model_config" && k == "ConfigDict"
  | .classDef n [] (.expr (.const (.str d)) :: _) [] => n == "Config" && d == "A config class"
  | .funcDef _ n _ _ _ _ _ => n == "model_post_init"
  | .pass_ => true
  | _ => false

mutual
/-- a statement without the configuration of models: names, bases, decorators, docstrings, fields with their annotations
(up to `Tuple`/`List`) and values, signatures and bodies of functions -/
def shape : Stmt → Stmt
  | .annAssign t a v => .annAssign t (annotationShape a) v
  | .classDef n bs body ds => .classDef n bs (bodyShape body) ds
  | .funcDef y n as dfs body ds ret => .funcDef y n as dfs body ds (ret.map annotationShape)
  | .import_ n => .import_ n
  | .importFrom m ns => .importFrom m ns
  | .expr e => .expr e
  | .assign t v => .assign t v
  | .ifStmt t body => .ifStmt t body
  | .return_ e => .return_ e
  | .pass_ => .pass_
  | .forYield y i e => .forYield y i e
/-- the body of a class -/
def bodyShape : List Stmt → List Stmt
  | [] => []
  | s :: ss => if configures s then bodyShape ss else shape s :: bodyShape ss
end

/-- statements of a module -/
def shapes (l : List Stmt) : List Stmt := l.map shape

/-- the imports that may differ -/
def varyingImports : List String := ["typing.List", "typing.Tuple", "pydantic.ConfigDict"]

/-- a plugin and its settings -/
inductive PluginSettings where
  | enums (p : EnumsConfig)
  | inputs (p : InputsConfig)
  | objects (p : ObjectsConfig)
  | fragments (p : FragmentsConfig) (doc : Document)
  | operations (p : OperationsConfig) (doc : Document)
  | funcs (p : FuncsConfig) (doc : Document)
  | inputFuncs (p : InputFuncsConfig)
  | strawberry (p : StrawberryConfig) (sd : SchemaDirectives)

/-- the plugin in a project; `prep` adds `__typename` to the texts of documents -/
def pluginOf (prep : List Char → List Char) (c : Ctx) : PluginSettings → Plugin
  | .enums p => ⟨"EnumsPlugin", generateEnums c p⟩
  | .inputs p => ⟨"InputsPlugin", generateInputs c p⟩
  | .objects p => ⟨"ObjectsPlugin", generateTypes c p⟩
  | .fragments p doc => ⟨"FragmentsPlugin", fragmentsPlugin prep c p doc⟩
  | .operations p doc => ⟨"OperationsPlugin", operationsPlugin prep c p doc⟩
  | .funcs p doc => ⟨"FuncsPlugin", funcsPlugin c p doc⟩
  | .inputFuncs p => ⟨"InputFuncsPlugin", inputFuncsPlugin c p⟩
  | .strawberry p sd => ⟨"StrawberryPlugin", strawberryPlugin c p sd⟩

/-- no input type of the schema carries `@oneOf` -/
def NoOneOf (s : Schema) : Prop :=
  ∀ n e fs ds, (n, e) ∈ s.types → e.defn = .input fs ds → ∀ d ∈ ds, d.name ≠ "oneOf"

/-- the calls at the end of a module, `X.model_rebuild()` and `X.update_forward_refs()`, read as one -/
def rebuildShape : Stmt → Stmt
  | .expr (.call (.attr e a) [] []) =>
    .expr (.call (.attr e (if a = "update_forward_refs" then "model_rebuild" else a)) [] [])
  | s => s

/-- an import statement -/
def imports : Stmt → Bool
  | .import_ _ => true
  | .importFrom _ _ => true
  | _ => false

/-- a module without its imports and without the configuration of its models -/
def moduleShape (l : List Stmt) : List Stmt := (l.filter fun s => !imports s).map fun s => rebuildShape (shape s)

end Turms.Spec
