import Verif.Model.Operations

/-!
# The funcs plugin (`turms/plugins/funcs.py`) and the input_funcs plugin (`turms/plugins/input_funcs.py`)

Simplifications: `registry.warn` is dropped; `Kwarg.default` is a constant (`ast.Constant` accepts any value,
the code only ever unparses it); a variable listed in `expand_input_types` whose type is not an input object
raises (in the code a scalar raises `AttributeError` on `.fields`; object types cannot be the type of a
variable).
-/

namespace Turms

/-- `Arg` — `turms/plugins/funcs.py:64-67` -/
structure ExtraArg where
  key : String
  type : String
  description : String := "Specify that in turms.plugin.funcs.OperationsFuncPlugin"

/-- `Kwarg` — `turms/plugins/funcs.py:57-61` -/
structure ExtraKwarg where
  key : String
  type : String
  description : String := "Specify that in turms.plugin.funcs.OperationsFuncPlugin"
  default : Const := .none

/-- `FunctionDefinition` — `turms/plugins/funcs.py:70-75` -/
structure FuncDefinition where
  kind : OpKind
  isAsync : Bool := false
  extraArgs : List ExtraArg := []
  extraKwargs : List ExtraKwarg := []
  use : String

/-- `FuncsPluginConfig` — `turms/plugins/funcs.py:78-98`, `co` after the merge with the global coercions
(`1393-1404`).  `documentation` stands for `inspect_operation_for_documentation`. -/
structure FuncsConfig where
  prependSync : String := ""
  prependAsync : String := "a"
  collapseLonely : Bool := true
  globalArgs : List ExtraArg := []
  globalKwargs : List ExtraKwarg := []
  definitions : List FuncDefinition := []
  extractDocumentation : Bool := true
  expandInputTypes : List String := []
  co : Coercions := {}
  documentation : OpDef → Option String := fun _ => none

/-- `get_extra_args_for_onode` — `turms/plugins/funcs.py:127-132` -/
def FuncsConfig.argsFor (p : FuncsConfig) (d : FuncDefinition) : List ExtraArg := p.globalArgs ++ d.extraArgs

/-- `get_extra_kwargs_for_onode` — `turms/plugins/funcs.py:153-159` -/
def FuncsConfig.kwargsFor (p : FuncsConfig) (d : FuncDefinition) : List ExtraKwarg :=
  p.globalKwargs ++ d.extraKwargs

/-- `get_definitions_for_onode` — `turms/plugins/funcs.py:162-183` -/
def FuncsConfig.definitionsFor (p : FuncsConfig) (o : OpDef) : List FuncDefinition :=
  p.definitions.filter fun d => d.kind == o.kind

/-- `generate_async_func_name`, `generate_sync_func_name` — `turms/plugins/funcs.py:105-124`; the
`camel_to_snake` of this file is the one of the stylers. -/
def funcName (p : FuncsConfig) (d : FuncDefinition) (name : String) : String :=
  (if d.isAsync then p.prependAsync else p.prependSync) ++ camelToSnake name

/-- `unset_union_annotation` — `turms/plugins/funcs.py:374-385` -/
def unsetUnion (env : Env) (annotation : Expr) : Gen Expr := do
  registerImport "typing.Union"
  let u ← referenceUnsetType env
  pure (sub "Union" (.tuple [annotation, u]))

/-- `dict_str_any_annotation` — `turms/plugins/funcs.py:388-399` -/
def dictStrAny : Gen Expr := do
  registerImport "typing.Dict"
  registerImport "typing.Any"
  pure (sub "Dict" (.tuple [.name "str", .name "Any"]))

/-- the three lists `pos_args`, `kw_args`, `kw_values` -/
structure Params where
  pos : List Arg := []
  kw : List Arg := []
  values : List Expr := []

/-- `pos_args += ...; kw_args += ...; kw_values += ...` -/
def Params.append (a b : Params) : Params := ⟨a.pos ++ b.pos, a.kw ++ b.kw, a.values ++ b.values⟩

/-- one field of `generate_input_type_params` — `turms/plugins/funcs.py:411-441` -/
def inputFieldParam (c : Ctx) (co : Coercions) (f : InputFieldDef) : Gen Params := do
  let name ← nodeName c.env f.name
  let a ← paramAnnotation c co f.type true
  if f.type.isNonNull then pure { pos := [⟨name, some a⟩] }
  else do
    let u ← unsetUnion c.env a
    let v ← referenceUnset c.env
    pure { kw := [⟨name, some u⟩], values := [v] }

/-- `generate_input_type_params` — `turms/plugins/funcs.py:402-443` -/
def inputTypeParams (c : Ctx) (co : Coercions) : List InputFieldDef → Gen Params
  | [] => pure {}
  | f :: fs => do
    let a ← inputFieldParam c co f
    let b ← inputTypeParams c co fs
    pure (a.append b)

/-- the extra positional parameters — `turms/plugins/funcs.py:460-471` -/
def extraArgParams : List ExtraArg → Gen Params
  | [] => pure {}
  | a :: l => do
    registerImport a.type
    let b ← extraArgParams l
    pure ((Params.mk [⟨a.key, some (.name (lastComponent a.type))⟩] [] []).append b)

/-- `isinstance(v.type, NonNullTypeNode) and not v.default_value` (AST nodes are truthy) -/
def VarDef.isRequired (v : VarDef) : Bool := v.type.isNonNull && v.default.isNone

/-- `v.type.type.name.value` -/
def wrappedName : TypeNode → Gen String
  | .nonNull (.named n) => pure n
  | .list (.named n) => pure n
  | .named n => Gen.fail (.attributeError n)
  | .nonNull t => Gen.fail (.attributeError t.base)
  | .list t => Gen.fail (.attributeError t.base)

/-- `client_schema.type_map[name].fields` -/
def expandedFields (s : Schema) (n : String) : Gen (List InputFieldDef) :=
  match s.lookup n with
  | none => Gen.fail (.keyError n)
  | some (.input fs _) => pure fs
  | some _ => Gen.fail (.attributeError "fields")

/-- the first loop over the required variables: those listed in `expand_input_types` —
`turms/plugins/funcs.py:486-503` -/
def expandedParams (c : Ctx) (p : FuncsConfig) : List VarDef → Gen Params
  | [] => pure {}
  | v :: vs =>
    if p.expandInputTypes.contains v.name then do
      let n ← wrappedName v.type
      let fs ← expandedFields c.schema n
      let a ← inputTypeParams c p.co fs
      let b ← expandedParams c p vs
      pure (a.append b)
    else expandedParams c p vs

/-- the other required variables — `turms/plugins/funcs.py:505-513` -/
def requiredParams (c : Ctx) (p : FuncsConfig) : List VarDef → Gen Params
  | [] => pure {}
  | v :: vs => do
    let name ← parameterName c.env v.name
    let a ← variableAnnotation c.env p.co v.type
    let b ← requiredParams c p vs
    pure ((Params.mk [⟨name, some a⟩] [] []).append b)

/-- the optional variables — `turms/plugins/funcs.py:515-529` -/
def optionalParams (c : Ctx) (p : FuncsConfig) : List VarDef → Gen Params
  | [] => pure {}
  | v :: vs => do
    let name ← parameterName c.env v.name
    let a ← variableAnnotation c.env p.co v.type
    let u ← unsetUnion c.env a
    let x ← referenceUnset c.env
    let b ← optionalParams c p vs
    pure ((Params.mk [] [⟨name, some u⟩] [x]).append b)

/-- the annotation of an extra keyword parameter — `turms/plugins/funcs.py:536-547`: `Optional` is used
without registering its import -/
def extraKwargAnnotation (k : ExtraKwarg) : Expr :=
  if k.default = .none then sub "Optional" (.name (lastComponent k.type)) else .name (lastComponent k.type)

/-- the extra keyword parameters — `turms/plugins/funcs.py:531-555` -/
def extraKwargParams : List ExtraKwarg → Gen Params
  | [] => pure {}
  | k :: l => do
    registerImport k.type
    let b ← extraKwargParams l
    pure ((Params.mk [] [⟨k.key, some (extraKwargAnnotation k)⟩] [.const k.default]).append b)

/-- `generate_parameters` — `turms/plugins/funcs.py:446-560`: `ast.arguments(args=pos_args + kw_args,
defaults=kw_values)`. -/
def generateParameters (c : Ctx) (p : FuncsConfig) (d : FuncDefinition) (o : OpDef) : Gen Params := do
  let a ← extraArgParams (p.argsFor d)
  let required := o.vars.filter (·.isRequired)
  let b ← expandedParams c p required
  let e ← requiredParams c p (required.filter fun v => !p.expandInputTypes.contains v.name)
  let f ← optionalParams c p (o.vars.filter fun v => !v.isRequired)
  let g ← extraKwargParams (p.kwargsFor d)
  pure ((((a.append b).append e).append f).append g)

/-- `target[key]` -/
def item (target key : String) : Expr := .subscript (.name target) (.str key)

/-- `_guarded_variable_assign` — `turms/plugins/funcs.py:563-578` -/
def guardedAssign (env : Env) (target : Expr) (param : String) : Gen Stmt := do
  let u ← referenceUnset env
  pure (.ifStmt (.isNot (.name param) u) [.assign target (.name param)])

/-- `target[key] = param`, guarded unless required -/
def entryStmt (env : Env) (target key param : String) (required : Bool) : Gen Stmt :=
  if required then pure (.assign (item target key) (.name param))
  else guardedAssign env (item target key) param

/-- `name: Dict[str, Any] = {}` -/
def emptyDict (name : String) : Gen Stmt := do
  let a ← dictStrAny
  pure (.annAssign name a (some (.dict [] [])))

/-- the fields of an expanded variable — `turms/plugins/funcs.py:632-651` -/
def fieldEntries (env : Env) (target : String) : List InputFieldDef → Gen (List Stmt)
  | [] => pure []
  | f :: fs => do
    let name ← nodeName env f.name
    let s ← entryStmt env target f.name name f.type.isNonNull
    let rest ← fieldEntries env target fs
    pure (s :: rest)

/-- an expanded variable — `turms/plugins/funcs.py:612-657` -/
def expandedEntry (c : Ctx) (v : VarDef) : Gen (List Stmt) := do
  let n ← wrappedName v.type
  let fs ← expandedFields c.schema n
  let param ← parameterName c.env v.name
  let d ← emptyDict ("_" ++ param)
  let ss ← fieldEntries c.env ("_" ++ param) fs
  pure (d :: (ss ++ [.assign (item "variables" v.name) (.name ("_" ++ param))]))

/-- a variable that is not expanded — `turms/plugins/funcs.py:658-670` -/
def plainEntry (c : Ctx) (v : VarDef) : Gen (List Stmt) := do
  let param ← parameterName c.env v.name
  let s ← entryStmt c.env "variables" v.name param v.isRequired
  pure [s]

/-- one variable -/
def variableEntry (c : Ctx) (p : FuncsConfig) (v : VarDef) : Gen (List Stmt) :=
  if p.expandInputTypes.contains v.name then expandedEntry c v else plainEntry c v

/-- the loop over the variables -/
def variableEntries (c : Ctx) (p : FuncsConfig) : List VarDef → Gen (List Stmt)
  | [] => pure []
  | v :: vs => do
    let a ← variableEntry c p v
    let b ← variableEntries c p vs
    pure (a ++ b)

/-- `generate_variable_assignments` — `turms/plugins/funcs.py:581-670` -/
def variableAssignments (c : Ctx) (p : FuncsConfig) (o : OpDef) : Gen (List Stmt) := do
  let d ← emptyDict "variables"
  let ss ← variableEntries c p o.vars
  pure (d :: ss)

/-- `get_operation_class_name` — `turms/plugins/funcs.py:677-704` -/
def operationClassName (c : Ctx) (o : OpDef) : Gen String :=
  match o.name with
  | none => Gen.fail (.other "Operation name is None")
  | some n => Gen.lift (o.kind.kind.style c.env n)

/-- the first selection, which has to be a field -/
def firstField (o : OpDef) : Gen (String × Option String × List Sel) :=
  match o.sels with
  | .field n a _ sub :: _ => pure (n, a, sub)
  | [] => Gen.fail .indexError
  | _ => Gen.fail (.attributeError "selection_set")

/-- `field_definition.type` -/
def rootFieldDef (c : Ctx) (root name : String) : Gen FieldDef :=
  match getFieldDef c.schema root name with
  | some f => pure f
  | none => Gen.fail (.attributeError "type")

/-- the class a selection set that is one spread collapses to — `turms/plugins/funcs.py:741-757` -/
def collapsedFragment (c : Ctx) (fragment typename : String) : Gen String := do
  let impl ← getInterfaceFragmentImplementationOrNone fragment typename
  match impl with
  | some i => pure i
  | none => do
    let x ← referenceGeneric c.env .fragment fragment "" false
    nameId x

/-- the `overwrite_final` argument of the annotation and of the label — `turms/plugins/funcs.py:733-773,
793-828`; `key` is the response key for the annotation and the *field name* for the label -/
def collapsedOverwrite (c : Ctx) (cls key : String) (sub : List Sel) (fd : FieldDef) : Gen (Option String) :=
  match nonTypenameFields sub with
  | [] => pure none
  | [.spread f] => do
    let x ← collapsedFragment c f fd.type.base
    pure (some x)
  | _ => pure (some (cls ++ pyCapitalize key))

/-- the annotation of a collapsed operation that the operations plugin has not registered -/
def computedReturn (c : Ctx) (o : OpDef) (cls root : String) : Gen Expr := do
  let f ← firstField o
  let fd ← rootFieldDef c root f.1
  let ov ← collapsedOverwrite c cls (f.2.1.getD f.1) f.2.2 fd
  outputAnnotation c ov fd.type true

/-- `registry.get_operation_single_or_none(...)` — `turms/registry.py:266-271` -/
def operationSingleOf (name : String) : Gen (Option Expr) := fun r => .ok (r.operationSingle.get? name, r)

/-- the collapsed case: the registered annotation, else a computed one — `turms/plugins/funcs.py:723-773` -/
def collapsedReturn (c : Ctx) (o : OpDef) (cls root : String) : Gen Expr := do
  let s ← operationSingleOf (o.name.getD "")
  match s with
  | some a => pure a
  | none => computedReturn c o cls root

/-- `get_return_type_annotation` — `turms/plugins/funcs.py:707-776` -/
def returnAnnotation (c : Ctx) (o : OpDef) (collapse : Bool) : Gen Expr := do
  let cls ← operationClassName c o
  let root ← rootTypeOf c.schema o.kind
  if collapse then collapsedReturn c o cls root else pure (.name cls)

/-- the label of a collapsed operation — `turms/plugins/funcs.py:789-828` -/
def collapsedLabel (c : Ctx) (o : OpDef) (cls root : String) : Gen String := do
  let f ← firstField o
  let fd ← rootFieldDef c root f.1
  let ov ← collapsedOverwrite c cls f.1 f.2.2 fd
  outputLabel c ov fd.type true

/-- `get_return_type_string` — `turms/plugins/funcs.py:779-832` -/
def returnLabel (c : Ctx) (o : OpDef) (collapse : Bool) : Gen String := do
  let cls ← operationClassName c o
  let root ← rootTypeOf c.schema o.kind
  if collapse then collapsedLabel c o cls root else pure cls

/-- `isinstance(value, VariableNode)` -/
def Value.isVariable : Value → Bool
  | .variable _ => true
  | _ => false

mutual
/-- `estimate_variable_name` on a selection whose `root` is not a type: `get_field_def` answers `None`, so a
variable argument raises `AttributeError` — `turms/plugins/funcs.py:835-870` -/
def deepSel : Sel → Bool
  | .field _ _ args sub => args.any (fun a => a.2.isVariable) || skipSels sub
  | _ => false
/-- the loop -/
def deepSels : List Sel → Bool
  | [] => false
  | s :: ss => deepSel s || deepSels ss
/-- the recursive call is on the fields *of* a field, so the arguments of every second level are skipped -/
def skipSel : Sel → Bool
  | .field _ _ _ sub => deepSels sub
  | _ => false
/-- the loop -/
def skipSels : List Sel → Bool
  | [] => false
  | s :: ss => skipSel s || skipSels ss
end

/-- the descriptions found for the variables among the arguments of a root field: looked up under the
*variable's* name — `turms/plugins/funcs.py:844-861` -/
def describeArgs (fd : Option FieldDef) : List (String × Value) → Dict String → Gen (Dict String)
  | [], m => pure m
  | (_, .variable v) :: as, m =>
    match fd with
    | none => Gen.fail (.attributeError "args")
    | some f =>
      match f.args.find? (·.name == v) with
      | some a =>
        if truthy a.description then
          describeArgs fd as (m.set v (match m.get? v with
            | some old => old ++ " AND " ++ a.description.getD ""
            | none => a.description.getD ""))
        else describeArgs fd as m
      | none => describeArgs fd as m
  | _ :: as, m => describeArgs fd as m

/-- `estimate_variable_name` — `turms/plugins/funcs.py:835-870` -/
def estimateVariables (c : Ctx) (root : String) : List Sel → Dict String → Gen (Dict String)
  | [], m => pure m
  | .field n _ args sub :: ss, m => do
    let m ← describeArgs (getFieldDef c.schema root n) args m
    if skipSels sub then Gen.fail (.attributeError "args") else estimateVariables c root ss m
  | _ :: ss, m => estimateVariables c root ss m

/-- the descriptions of the root fields by response key — `turms/plugins/funcs.py:902-910` -/
def rootDescriptions (c : Ctx) (root : String) : List Sel → Dict String → Gen (Dict String)
  | [], m => pure m
  | .field n a _ _ :: ss, m =>
    match getFieldDef c.schema root n with
    | none => Gen.fail (.attributeError "description")
    | some f =>
      rootDescriptions c root ss (if truthy f.description then m.set (a.getD n) (f.description.getD "") else m)
  | _ :: ss, m => rootDescriptions c root ss m

/-- `"\n".join(...)` -/
def joinLines (l : List String) : String := "\n".intercalate l

/-- the lines for the root fields — `turms/plugins/funcs.py:912-918` -/
def descriptionLines (collapse : Bool) (m : Dict String) : List String :=
  if collapse && m.length == 1 then m.map (·.2) else m.map fun p => p.1 ++ ": " ++ p.2

/-- the text above the arguments — `turms/plugins/funcs.py:888-923` -/
def docHead (c : Ctx) (p : FuncsConfig) (o : OpDef) (root name : String) (collapse : Bool) : Gen String :=
  let d := if p.extractDocumentation then p.documentation o else none
  if truthy d then pure (name ++ " \n" ++ d.getD "")
  else do
    let m ← rootDescriptions c root o.sels []
    pure (joinLines ((name ++ " \n") :: descriptionLines collapse m))

/-- `generate_input_description` — `turms/plugins/funcs.py:278-305` -/
def inputDescription (s : Schema) : TypeNode → Gen String
  | .nonNull t => do
    let d ← inputDescription s t
    pure (d ++ " (required)")
  | .list t => do
    let d ← inputDescription s t
    pure (d ++ " (list)")
  | .named n =>
    match s.types.get? n with
    | some ⟨.scalar, d⟩ => pure (d.getD "")
    | some ⟨.input _ _, d⟩ => pure (d.getD "")
    | some ⟨.enum _, _⟩ => pure n
    | _ => Gen.fail (.notImplemented n)

/-- the description of a field, else of its type — `value.description or generate_input_description(...)` -/
def fieldDescription (s : Schema) (f : InputFieldDef) : Gen String :=
  if truthy f.description then pure (f.description.getD "") else inputDescription s f.type

/-- `generate_input_type_descriptions` — `turms/plugins/funcs.py:307-317` -/
def inputTypeDescriptions (c : Ctx) : List InputFieldDef → Gen String
  | [] => pure ""
  | f :: fs => do
    let _ ← nodeName c.env f.name
    let name ← parameterName c.env f.name
    let d ← fieldDescription c.schema f
    let rest ← inputTypeDescriptions c fs
    pure ("    " ++ name ++ ": " ++ d ++ "\n" ++ rest)

/-- `str(v.default_value.value)`: null, list and object values have no `value` -/
def defaultText : Value → Gen String
  | .int t => pure t
  | .float t => pure t
  | .string t => pure t
  | .bool b => pure (if b then "True" else "False")
  | .enum n => pure n
  | _ => Gen.fail (.attributeError "value")

/-- the documentation of a variable in the first loop — `turms/plugins/funcs.py:932-948` -/
def docRequired (c : Ctx) (p : FuncsConfig) (m : Dict String) (v : VarDef) : Gen String :=
  if p.expandInputTypes.contains v.name then do
    let n ← wrappedName v.type
    let fs ← expandedFields c.schema n
    inputTypeDescriptions c fs
  else if v.isRequired then do
    let name ← parameterName c.env v.name
    let l ← typeLabel c.env v.type true
    pure ("    " ++ name ++ " (" ++ l ++ "): " ++ (m.get? v.name).getD "No description" ++ "\n")
  else pure ""

/-- `'' if not v.default_value else 'Defaults to ' + str(v.default_value.value)` -/
def docDefault : Option Value → Gen String
  | none => pure ""
  | some x => do
    let t ← defaultText x
    pure ("Defaults to " ++ t)

/-- the documentation of a variable in the second loop — `turms/plugins/funcs.py:950-954` -/
def docOptional (c : Ctx) (m : Dict String) (v : VarDef) : Gen String :=
  if v.isRequired then pure ""
  else do
    let name ← parameterName c.env v.name
    let l ← typeLabel c.env v.type true
    let d ← docDefault v.default
    pure ("    " ++ name ++ " (" ++ l ++ ", optional): " ++ (m.get? v.name).getD "No description" ++ ". " ++
      d ++ "\n")

/-- a loop collecting text -/
def concatDocs (f : VarDef → Gen String) : List VarDef → Gen String
  | [] => pure ""
  | v :: vs => do
    let a ← f v
    let b ← concatDocs f vs
    pure (a ++ b)

/-- `generate_query_doc` — `turms/plugins/funcs.py:873-959` -/
def queryDoc (c : Ctx) (p : FuncsConfig) (d : FuncDefinition) (o : OpDef) (collapse : Bool) : Gen Stmt := do
  let root ← rootTypeOf c.schema o.kind
  let label ← returnLabel c o collapse
  let m ← estimateVariables c root o.sels []
  let head ← docHead c p o root (o.name.getD "") collapse
  let req ← concatDocs (docRequired c p m) o.vars
  let opt ← concatDocs (docOptional c m) o.vars
  pure (.expr (.str (head ++ "\n\nArgs:\n" ++
    String.join ((p.argsFor d).map fun a => "    " ++ a.key ++ " (" ++ a.type ++ "): " ++ a.description ++ "\n") ++
    req ++ opt ++
    String.join ((p.kwargsFor d).map fun k =>
      "    " ++ k.key ++ " (" ++ k.type ++ ", optional): " ++ k.description ++ "\n") ++
    "\nReturns:\n    " ++ label ++ "\n")))

/-- the call of the proxy function — `turms/plugins/funcs.py:135-150, 971-993` and the same expression in the
other three generators -/
def proxyCall (c : Ctx) (p : FuncsConfig) (d : FuncDefinition) (o : OpDef) : Gen Expr := do
  registerImport d.use
  let cls ← operationClassName c o
  pure (.call (.name (lastComponent d.use))
    ((p.argsFor d).map (fun a => .name a.key) ++ [.name cls, .name "variables"])
    ((p.kwargsFor d).map fun k => (some k.key, .name k.key)))

/-- `registry.generate_node_name(correct_attr)`, applied to the result if the operation is collapsed -/
def collapsedAttr (c : Ctx) (o : OpDef) (collapse : Bool) (e : Expr) : Gen Expr :=
  if collapse then do
    let f ← firstField o
    let a ← nodeName c.env (f.2.1.getD f.1)
    pure (.attr e a)
  else pure e

/-- `genereate_async_call`, `genereate_sync_call`, `genereate_async_iterator`, `genereate_sync_iterator` —
`turms/plugins/funcs.py:962-1222` -/
def finalStmt (c : Ctx) (p : FuncsConfig) (d : FuncDefinition) (o : OpDef) (collapse : Bool) : Gen Stmt := do
  let call ← proxyCall c p d o
  if d.kind == .subscription then do
    let y ← collapsedAttr c o collapse (.name "event")
    pure (.forYield d.isAsync call y)
  else do
    let e ← collapsedAttr c o collapse (if d.isAsync then .await call else call)
    pure (.return_ e)

/-- the import of the iterator type — `turms/plugins/funcs.py:1255-1256, 1302-1303` -/
def iteratorImport (d : FuncDefinition) (o : OpDef) : Gen Unit :=
  if o.kind == .subscription then registerImport (if d.isAsync then "typing.AsyncIterator" else "typing.Iterator")
  else pure ()

/-- the return annotation of the function -/
def functionReturns (d : FuncDefinition) (annotation : Expr) : Expr :=
  if d.kind == .subscription then sub (if d.isAsync then "AsyncIterator" else "Iterator") annotation
  else annotation

/-- `generate_operation_func` — `turms/plugins/funcs.py:1225-1347` -/
def operationFunc (c : Ctx) (p : FuncsConfig) (d : FuncDefinition) (o : OpDef) : Gen Stmt := do
  let collapse := p.collapseLonely && o.sels.length == 1
  let ret ← returnAnnotation c o collapse
  let doc ← queryDoc c p d o collapse
  let assigns ← variableAssignments c p o
  iteratorImport d o
  let params ← generateParameters c p d o
  let final ← finalStmt c p d o collapse
  pure (.funcDef d.isAsync (funcName p d (o.name.getD "")) (params.pos ++ params.kw) params.values
    (doc :: (assigns ++ [final])) [] (some (functionReturns d ret)))

/-- the inner loop of `FuncsPlugin.generate_ast` -/
def operationFuncs (c : Ctx) (p : FuncsConfig) (o : OpDef) : List FuncDefinition → Gen (List Stmt)
  | [] => pure []
  | d :: ds => do
    let s ← operationFunc c p d o
    let rest ← operationFuncs c p o ds
    pure (s :: rest)

/-- the outer loop — `turms/plugins/funcs.py:1416-1426` -/
def allOperationFuncs (c : Ctx) (p : FuncsConfig) : List OpDef → Gen (List Stmt)
  | [] => pure []
  | o :: os => do
    let s ← operationFuncs c p o (p.definitionsFor o)
    let rest ← allOperationFuncs c p os
    pure (s ++ rest)

/-- `FuncsPlugin.generate_ast` — `turms/plugins/funcs.py:1385-1430`, on the document `parse_documents`
returns. -/
def funcsPlugin (c : Ctx) (p : FuncsConfig) (document : Document) : Gen (List Stmt) :=
  allOperationFuncs c p (operationsOf document)

/-! ## input_funcs -/

/-- `InputFuncsPluginConfig` — `turms/plugins/input_funcs.py:34-48`; `refInputs` is
`ref_registry.inputs` if a reference registry is used. -/
structure InputFuncsConfig where
  co : Coercions := {}
  skipUnderscore : Bool := true
  refInputs : Option (List String) := none
  prepend : String := ""
  extractDocumentation : Bool := true

/-- `func_name` — `turms/plugins/input_funcs.py:61-64` -/
def factoryName (prepend param cls : String) : String :=
  if prepend ++ param == cls then prepend ++ param ++ "_" else prepend ++ param

/-- the docstring of a factory — `turms/plugins/input_funcs.py:74-78` -/
def factoryDoc (c : Ctx) (p : InputFuncsConfig) (cls : String) (fields : List InputFieldDef) : Gen (List Stmt) :=
  if p.extractDocumentation then do
    let d ← inputTypeDescriptions c fields
    pure [.expr (.str ("Creates a " ++ cls ++ "\n\nArguments:\n" ++ d))]
  else pure []

/-- `generate_input_func` — `turms/plugins/input_funcs.py:51-148` -/
def inputFunc (c : Ctx) (p : InputFuncsConfig) (typename : String) (fields : List InputFieldDef) : Gen Stmt := do
  let cls ← getClass .input typename
  let param ← parameterName c.env typename
  let params ← inputTypeParams c p.co fields
  let doc ← factoryDoc c p cls fields
  let d ← emptyDict "data"
  let ss ← fieldEntries c.env "data" fields
  pure (.funcDef false (factoryName p.prepend param cls) (params.pos ++ params.kw) params.values
    (doc ++ d :: (ss ++ [.return_ (.call (.name cls) [] [(none, .name "data")])])) [] (some (.name cls)))

/-- is the input type skipped? — `turms/plugins/input_funcs.py:171-181` -/
def skipsFactory (p : InputFuncsConfig) (r : Reg) (name : String) : Bool :=
  unreferenced p.refInputs name || (p.skipUnderscore && underscored name) || !r.inputMap.contains name

/-- one input type -/
def factoryStep (c : Ctx) (p : InputFuncsConfig) (t : InputType) : Gen (List Stmt) := fun r =>
  if skipsFactory p r t.name then .ok ([], r)
  else
    match inputFunc c p t.name t.fields r with
    | .error e => .error e
    | .ok (s, r) => .ok ([s], r)

/-- the loop of `generate_input_funcs` — `turms/plugins/input_funcs.py:151-188` -/
def factories (c : Ctx) (p : InputFuncsConfig) : List InputType → Gen (List Stmt)
  | [] => pure []
  | t :: ts => do
    let a ← factoryStep c p t
    let b ← factories c p ts
    pure (a ++ b)

/-- `InputFuncsPlugin.generate_ast` — `turms/plugins/input_funcs.py:200-221` -/
def inputFuncsPlugin (c : Ctx) (p : InputFuncsConfig) : Gen (List Stmt) := factories c p (inputTypes c.schema)

end Turms
