import Verif.Model.Stylers
import Verif.Model.PyAst

/-!
# `ClassRegistry` (`turms/registry.py`)
-/

namespace Turms

/-- The part of `GeneratorConfig` the registry reads (`turms/config.py`, `turms/registry.py:230-233,
691, 716-746`). -/
structure RegConfig where
  scalarDefinitions : Dict String := []
  pydanticV2 : Bool := true
  unsetInstance : Option String := none
  unsetTypeClass : Option String := none
  graphqlDefaultClass : Option String := none
  deprecatedClass : Option String := none

/-- What never changes during a run: configuration and stylers. -/
structure Env where
  config : RegConfig := {}
  stylers : List Styler := []

/-- `SCALAR_DEFAULTS` — `turms/registry.py:16-24`. -/
def scalarDefaults : Dict String :=
  [("ID", "str"), ("String", "str"), ("Int", "int"), ("Boolean", "bool"),
   ("GenericScalar", "typing.Dict"), ("DateTime", "datetime.datetime"), ("Float", "float")]

/-- Keys of `built_in_map` — `turms/registry.py:51-211`. -/
def builtinNames : List String :=
  ["__TypeKind", "__DirectiveLocation", "UNSET", "GraphQLDefault", "Deprecated"]

/-- The mutable attributes of `ClassRegistry` — `turms/registry.py:225-260`.  Sets are duplicate-free
lists.  `fragmentTypeMap` stores the name of the GraphQL type only. -/
structure Reg where
  imports : List String := []
  builtins : List String := []
  scalarMap : Dict String := []
  fragmentDocumentMap : Dict String := []
  enumMap : Dict String := []
  inputMap : Dict String := []
  objectMap : Dict String := []
  interfaceReferenceMap : Dict String := []
  interfaceBaseclassMap : Dict String := []
  fragmentMap : Dict String := []
  queryMap : Dict String := []
  subscriptionMap : Dict String := []
  mutationMap : Dict String := []
  interfaceFragments : Dict Expr := []
  forwardReferences : List String := []
  fragmentTypeMap : Dict String := []
  interfaceFragmentImpl : Dict (Dict String) := []
  unionFragmentMembers : Dict (Dict String) := []
  operationSingle : Dict Expr := []

/-- `ClassRegistry.__init__` — `turms/registry.py:222-261`. -/
def Reg.init (env : Env) : Reg :=
  { scalarMap := Dict.merge scalarDefaults env.config.scalarDefinitions }

/-- The seven kinds of definition with a `<kind>_class_map`. -/
inductive Kind where
  | input | enum | object | fragment | query | mutation | subscription
deriving DecidableEq, Repr

/-- which styler method a kind uses — `turms/registry.py:273-278, 304-309, 346-351, 426-431, 549-554,
576-581, 603-608` -/
def Kind.method : Kind → Styler → String → Except Err String
  | .input => Styler.inputName
  | .enum => Styler.enumName
  | .object => Styler.objectName
  | .fragment => Styler.fragmentName
  | .query => Styler.queryName
  | .mutation => Styler.mutationName
  | .subscription => Styler.subscriptionName

/-- `style_<kind>_class` -/
def Kind.style (k : Kind) (env : Env) (typename : String) : Except Err String :=
  styled env.stylers k.method typename

/-- `self.<kind>_class_map` -/
def Reg.classMap (r : Reg) : Kind → Dict String
  | .input => r.inputMap
  | .enum => r.enumMap
  | .object => r.objectMap
  | .fragment => r.fragmentMap
  | .query => r.queryMap
  | .mutation => r.mutationMap
  | .subscription => r.subscriptionMap

/-- `self.<kind>_class_map[typename] = classname` -/
def Reg.setClass (r : Reg) (k : Kind) (typename classname : String) : Reg :=
  match k with
  | .input => { r with inputMap := r.inputMap.set typename classname }
  | .enum => { r with enumMap := r.enumMap.set typename classname }
  | .object => { r with objectMap := r.objectMap.set typename classname }
  | .fragment => { r with fragmentMap := r.fragmentMap.set typename classname }
  | .query => { r with queryMap := r.queryMap.set typename classname }
  | .mutation => { r with mutationMap := r.mutationMap.set typename classname }
  | .subscription => { r with subscriptionMap := r.subscriptionMap.set typename classname }

/-- The state monad of the generator: state survives only successful calls (every modelled registry
method raises before it mutates anything). -/
abbrev Gen (α : Type) := StateT Reg (Except Err) α

/-- `self.forward_references.add(parent)` -/
def Reg.addForward (r : Reg) (parent : String) : Reg :=
  { r with forwardReferences := setAdd r.forwardReferences parent }

/-- `generate_inputtype`, `generate_enum`, `generate_objecttype`, `generate_fragment`, `generate_query`,
`generate_mutation`, `generate_subscription` — `turms/registry.py:280-286, 311-317, 353-359, 433-440,
556-562, 583-589, 610-616`: assert unregistered, style, store, return. -/
def generateClass (env : Env) (k : Kind) (typename : String) : Gen String := fun r =>
  if (r.classMap k).contains typename then .error (.assertion typename)
  else
    match k.style env typename with
    | .error e => .error e
    | .ok classname => .ok (classname, r.setClass k typename classname)

/-- `get_inputtype_class`, `get_enum_class` — `turms/registry.py:288-289, 324-325`. -/
def getClass (k : Kind) (typename : String) : Gen String := fun r =>
  match (r.classMap k).get typename with
  | .error e => .error e
  | .ok c => .ok (c, r)

/-- the exception raised when a forward reference is not allowed -/
def Kind.forwardError (k : Kind) (typename : String) : Err :=
  match k with
  | .input => .noInputTypeFound typename
  | .enum => .noEnumFound typename
  | _ => .registryError typename

/-- `reference_inputtype` — `turms/registry.py:291-302`. -/
def referenceInput (env : Env) (typename parent : String) (allowForward : Bool := true) : Gen Expr :=
  fun r =>
    match Kind.input.style env typename with
    | .error e => .error e
    | .ok classname =>
      if !(r.inputMap.contains typename) || parent == classname then
        if !allowForward then .error (.noInputTypeFound typename)
        else .ok (.str classname, r.addForward parent)
      else
        match r.inputMap.get typename with
        | .error e => .error e
        | .ok c => .ok (.name c, r)

/-- `reference_enum` — `turms/registry.py:327-344`. -/
def referenceEnum (env : Env) (typename parent : String) (allowForward : Bool := true) : Gen Expr :=
  fun r =>
    if builtinNames.contains typename then
      .ok (.str typename, { r.addForward parent with builtins := setAdd r.builtins typename })
    else
      match Kind.enum.style env typename with
      | .error e => .error e
      | .ok classname =>
        if !(r.enumMap.contains typename) || parent == classname then
          if !allowForward then .error (.noEnumFound typename)
          else .ok (.str classname, r.addForward parent)
        else .ok (.name classname, r)

/-- `_reference_generic` — `turms/registry.py:373-390`, used by `reference_object`,
`reference_fragment`, `reference_query`, `reference_mutation`, `reference_subscription`
(`361-371, 464-474, 564-574, 591-601, 618-628`). -/
def referenceGeneric (env : Env) (k : Kind) (typename parent : String) (allowForward : Bool := true) :
    Gen Expr := fun r =>
  match k.style env typename with
  | .error e => .error e
  | .ok classname =>
    if !((r.classMap k).contains typename) || parent == classname then
      if !allowForward then .error (.registryError typename)
      else .ok (.str classname, r.addForward parent)
    else .ok (.name classname, r)

/-- dispatch of `reference_<kind>` -/
def reference (env : Env) (k : Kind) (typename parent : String) (allowForward : Bool := true) :
    Gen Expr :=
  match k with
  | .input => referenceInput env typename parent allowForward
  | .enum => referenceEnum env typename parent allowForward
  | k => referenceGeneric env k typename parent allowForward

/-- `style_interface_class` — `turms/registry.py:392-397` (uses `style_object_name`). -/
def styleInterface (env : Env) (typename : String) : Except Err String :=
  styled env.stylers Styler.objectName typename

/-- `generate_interface` — `turms/registry.py:399-409`. -/
def generateInterface (env : Env) (typename : String) (withBase : Bool := true) : Gen String := fun r =>
  if r.interfaceBaseclassMap.contains typename then .error (.assertion typename)
  else
    match styleInterface env typename with
    | .error e => .error e
    | .ok classname =>
      let base := if withBase then classname ++ "Base" else classname
      .ok (base, { r with
        interfaceBaseclassMap := r.interfaceBaseclassMap.set typename base
        interfaceReferenceMap := r.interfaceReferenceMap.set typename classname })

/-- `inherit_interface` — `turms/registry.py:411-416`. -/
def inheritInterface (typename : String) : Gen String := fun r =>
  match r.interfaceBaseclassMap.get? typename with
  | none => .error (.registryError typename)
  | some c => .ok (c, r)

/-- `reference_interface` — `turms/registry.py:418-424`. -/
def referenceInterface (env : Env) (typename parent : String) : Gen Expr := fun r =>
  match styleInterface env typename with
  | .error e => .error e
  | .ok classname => .ok (.str classname, r.addForward parent)

/-- `inherit_fragment` — `turms/registry.py:524-529`. -/
def inheritFragment (typename : String) : Gen String := fun r =>
  match r.fragmentMap.get? typename with
  | none => .error (.registryError typename)
  | some c => .ok (c, r)

/-- the tuple in `register_import` — `turms/registry.py:631` -/
def neverImported : List String := ["bool", "str", "int", "float", "dict", "list", "tuple"]

/-- `register_import` — `turms/registry.py:630-634`. -/
def registerImport (name : String) : Gen Unit := fun r =>
  if neverImported.contains name then .ok ((), r)
  else .ok ((), { r with imports := setAdd r.imports name })

/-- `register_builtin` — `turms/registry.py:319-322`. -/
def registerBuiltin (name : String) : Gen Unit := fun r =>
  .ok ((), { r with builtins := setAdd r.builtins name })

/-- `name.split(".")[-1]` (a non-empty `split` result always has a last element) -/
def lastComponent (name : String) : String :=
  String.ofList ((splitOnChar '.' name.toList).getLast?.getD [])

/-- `".".join(name.split(".")[:-1])` -/
def initComponents (name : String) : String :=
  String.ofList (joinWith '.' (splitOnChar '.' name.toList).dropLast)

/-- `"." in name` -/
def hasDot (name : String) : Bool := name.toList.contains '.'

/-- `reference_unset`, `reference_unset_type`, `reference_graphql_default`, `reference_deprecated` —
`turms/registry.py:713-751`: the four methods differ in the override, the builtin bundle and the name. A
falsy override (`None` or `""`) selects the builtin. -/
def referenceMarker (override : Option String) (builtin local_ : String) : Gen Expr := fun r =>
  match override with
  | some o =>
    if o = "" then
      match registerBuiltin builtin r with
      | .error e => .error e
      | .ok (_, r) => .ok (.name local_, r)
    else
      match registerImport o r with
      | .error e => .error e
      | .ok (_, r) => .ok (.name (lastComponent o), r)
  | none =>
    match registerBuiltin builtin r with
    | .error e => .error e
    | .ok (_, r) => .ok (.name local_, r)

/-- `reference_unset` — `turms/registry.py:713-721`. -/
def referenceUnset (env : Env) : Gen Expr := referenceMarker env.config.unsetInstance "UNSET" "UNSET"
/-- `reference_unset_type` — `turms/registry.py:723-731`. -/
def referenceUnsetType (env : Env) : Gen Expr :=
  referenceMarker env.config.unsetTypeClass "UNSET" "UnsetType"
/-- `reference_graphql_default` — `turms/registry.py:733-741`. -/
def referenceGraphqlDefault (env : Env) : Gen Expr :=
  referenceMarker env.config.graphqlDefaultClass "GraphQLDefault" "GraphQLDefault"
/-- `reference_deprecated` — `turms/registry.py:743-751`. -/
def referenceDeprecated (env : Env) : Gen Expr :=
  referenceMarker env.config.deprecatedClass "Deprecated" "Deprecated"

/-- `register_scalar` — `turms/registry.py:753-754`. -/
def registerScalar (scalarType pythonType : String) : Gen Unit := fun r =>
  .ok ((), { r with scalarMap := r.scalarMap.set scalarType pythonType })

/-- `reference_scalar` — `turms/registry.py:756-769`. -/
def referenceScalar (scalarType : String) : Gen Expr := fun r =>
  match r.scalarMap.get? scalarType with
  | none => .error (.noScalarFound scalarType)
  | some pythonType =>
    if hasDot pythonType then
      match registerImport pythonType r with
      | .error e => .error e
      | .ok (_, r) => .ok (.name (lastComponent pythonType), r)
    else .ok (.name (lastComponent pythonType), r)

/-- `register_fragment_document` — `turms/registry.py:704-708`. -/
def registerFragmentDocument (typename document : String) : Gen Unit := fun r =>
  if r.fragmentDocumentMap.contains typename then .error (.assertion typename)
  else .ok ((), { r with fragmentDocumentMap := r.fragmentDocumentMap.set typename document })

/-- `get_interface_fragment_implementation_or_none` — `turms/registry.py:476-511`. -/
def getInterfaceFragmentImplementationOrNone (fragmentname typename : String) : Gen (Option String) :=
  fun r =>
    match r.interfaceFragmentImpl.get? fragmentname with
    | none => .ok (none, r)
    | some impl =>
      match impl.get? typename with
      | some c => .ok (some c, r)
      | none =>
        match r.fragmentTypeMap.get? fragmentname with
        | some t => if t = typename then .ok (none, r) else .error (.registryError fragmentname)
        | none => .error (.registryError fragmentname)

/-- The grouping loop of `generate_imports` — `turms/registry.py:640-648`: `order` is the order in which
Python happens to iterate the import set. Result: lone imports and, per module, the set of names. -/
def groupImports : List String → List String × Dict (List String)
  | order => order.foldl
      (fun (acc : List String × Dict (List String)) name =>
        if !(hasDot name) then (setAdd acc.1 name, acc.2)
        else
          (acc.1, acc.2.set (initComponents name)
            (setAdd ((acc.2.get? (initComponents name)).getD []) (lastComponent name))))
      ([], [])

/-- `generate_imports` — `turms/registry.py:636-662`.  `order` is the iteration order of the set
`_imports`; `inner` gives the iteration order of the sets built in the function. -/
def generateImports (order : List String) (inner : List String → List String) : List Stmt :=
  let g := groupImports order
  (inner g.1).map Stmt.import_ ++ g.2.map (fun p => Stmt.importFrom p.1 (inner p.2))

/-- `generate_forward_refs` — `turms/registry.py:677-702`. -/
def generateForwardRefs (env : Env) (r : Reg) : List Stmt :=
  (pySorted strLe r.forwardReferences).map fun reference =>
    .expr (.call (.attr (.name reference)
      (if env.config.pydanticV2 then "model_rebuild" else "update_forward_refs")) [] [])

/-- enum-like class with string members, as in `turms/registry.py:52-95` -/
def strEnumClass (name : String) (values : List String) : Stmt :=
  .classDef name [.name "str", .name "Enum"] (values.map fun v => .assign (.name v) (.str v)) []

/-- `built_in_map[...]` — `turms/registry.py:51-211`.  Bodies of the helper classes' methods are
abbreviated to `pass` (they are constant text). -/
def builtinStmts : String → Except Err (List Stmt)
  | "__TypeKind" => .ok [strEnumClass "__TypeKind" ["OBJECT", "INTERFACE", "UNION", "ENUM", "INPUT_OBJECT"]]
  | "__DirectiveLocation" => .ok [strEnumClass "__DirectiveLocation"
      ["SCALAR", "OBJECT", "FIELD_DEFINITION", "ARGUMENT_DEFINITION", "INTERFACE", "UNION", "ENUM",
       "ENUM_VALUE", "INPUT_OBJECT", "INPUT_FIELD_DEFINITION", "SCHEMA"]]
  | "UNSET" => .ok [.classDef "UnsetType" [] [.pass_] [],
      .assign (.name "UNSET") (.call (.name "UnsetType") [] [])]
  | "GraphQLDefault" => .ok [.classDef "GraphQLDefault" [] [.pass_] []]
  | "Deprecated" => .ok [.classDef "Deprecated" [] [.pass_] []]
  | k => .error (.keyError k)

/-- `generate_builtins` — `turms/registry.py:664-675`; `order` is the iteration order of `_builtins`. -/
def generateBuiltins : List String → Except Err (List Stmt)
  | [] => .ok []
  | b :: order =>
    match builtinStmts b with
    | .error e => .error e
    | .ok s =>
      match generateBuiltins order with
      | .error e => .error e
      | .ok rest => .ok (s ++ rest)

/-! ## Histories -/

/-- A call on the registry. -/
inductive Op where
  | generate (k : Kind) (typename : String)
  | getClass (k : Kind) (typename : String)
  | reference (k : Kind) (typename parent : String) (allowForward : Bool)
  | generateInterface (typename : String) (withBase : Bool)
  | inheritInterface (typename : String)
  | referenceInterface (typename parent : String)
  | inheritFragment (typename : String)
  | registerImport (name : String)
  | referenceUnset
  | referenceUnsetType
  | referenceGraphqlDefault
  | referenceDeprecated
  | registerScalar (scalarType pythonType : String)
  | referenceScalar (scalarType : String)
  | registerFragmentDocument (typename document : String)
deriving DecidableEq, Repr

/-- What a call returns. -/
inductive Ret where
  | none
  | cls (name : String)
  | expr (e : Expr)
deriving DecidableEq

/-- tag the result of a call -/
def Gen.tag {α : Type} (g : Gen α) (f : α → Ret) : Gen Ret := fun r =>
  match g r with
  | .error e => .error e
  | .ok (a, r') => .ok (f a, r')

/-- Effect of one call. -/
def Op.run (env : Env) : Op → Gen Ret
  | .generate k t => (generateClass env k t).tag .cls
  | .getClass k t => (Turms.getClass k t).tag .cls
  | .reference k t p f => (Turms.reference env k t p f).tag .expr
  | .generateInterface t b => (Turms.generateInterface env t b).tag .cls
  | .inheritInterface t => (Turms.inheritInterface t).tag .cls
  | .referenceInterface t p => (Turms.referenceInterface env t p).tag .expr
  | .inheritFragment t => (Turms.inheritFragment t).tag .cls
  | .registerImport n => (Turms.registerImport n).tag fun _ => .none
  | .referenceUnset => (Turms.referenceUnset env).tag .expr
  | .referenceUnsetType => (Turms.referenceUnsetType env).tag .expr
  | .referenceGraphqlDefault => (Turms.referenceGraphqlDefault env).tag .expr
  | .referenceDeprecated => (Turms.referenceDeprecated env).tag .expr
  | .registerScalar s p => (Turms.registerScalar s p).tag fun _ => .none
  | .referenceScalar s => (Turms.referenceScalar s).tag .expr
  | .registerFragmentDocument t d => (Turms.registerFragmentDocument t d).tag fun _ => .none

/-- State after a call: a failing call leaves the registry as it was (the caller may catch the
exception and go on). -/
def Op.step (env : Env) (r : Reg) (op : Op) : Reg :=
  match op.run env r with
  | .ok (_, r') => r'
  | .error _ => r

/-- What the caller sees of a call. -/
def Op.outcome (env : Env) (r : Reg) (op : Op) : Except Err Ret :=
  match op.run env r with
  | .ok (x, _) => .ok x
  | .error e => .error e

/-- Registry state after a history of calls on a fresh registry. -/
def stateAfter (env : Env) (ops : List Op) : Reg := ops.foldl (Op.step env) (Reg.init env)

/-- The observable trace of a history: each call with its outcome, in order. -/
def traceFrom (env : Env) (r : Reg) : List Op → List (Op × Except Err Ret)
  | [] => []
  | op :: ops => (op, op.outcome env r) :: traceFrom env (op.step env r) ops

/-- The observable trace of a history on a fresh registry. -/
def trace (env : Env) (ops : List Op) : List (Op × Except Err Ret) := traceFrom env (Reg.init env) ops

end Turms
