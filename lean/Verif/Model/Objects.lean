import Verif.Model.Inputs

/-!
# The objects plugin (`turms/plugins/objects.py`)
-/

namespace Turms

/-- `ast.keyword(arg="default", value=Constant(None))` when the field is nullable —
`turms/plugins/objects.py:289-293` -/
def nullableDefault (t : TypeNode) : List (Option String × Expr) :=
  if t.isNonNull then [] else [(some "default", .const .none)]

/-- the value of a field declaration — `turms/plugins/objects.py:309-342` -/
def objectFieldValue (fieldName : String) (f : FieldDef) : Gen (Option Expr) :=
  if fieldName != f.name then do
    registerImport "pydantic.Field"
    pure (some (.call (.name "Field") [] (nullableDefault f.type ++ [(some "alias", .str f.name)])))
  else if !(nullableDefault f.type).isEmpty then do
    registerImport "pydantic.Field"
    pure (some (.call (.name "Field") [] (nullableDefault f.type)))
  else pure none

/-- One field of an object class — `turms/plugins/objects.py:285-359`. -/
def objectFieldStmts (c : Ctx) (className : String) (f : FieldDef) : Gen (List Stmt) := do
  let fieldName ← nodeName c.env f.name
  let a ← objectAnnotation c className f.type true
  let a ← annotateFieldMetadata c.env a none f.deprecation
  let v ← objectFieldValue fieldName f
  let doc := composeFieldDocumentation f.description f.deprecation none c.config.documentFieldMetadata
  pure (.annAssign fieldName a v :: (if truthy doc then [.expr (.str (doc.getD ""))] else []))

/-- the field loop -/
def objectFields (c : Ctx) (className : String) : List FieldDef → Gen (List Stmt)
  | [] => pure []
  | f :: fs => do
    let s ← objectFieldStmts c className f
    let rest ← objectFields c className fs
    pure (s ++ rest)

/-- `ObjectsPluginConfig` — `turms/plugins/objects.py:34-39` -/
structure ObjectsConfig where
  bases : List String := ["pydantic.BaseModel"]
  skipUnderscore : Bool := false
  skipDoubleUnderscore : Bool := true

/-- an object or interface type of the schema -/
structure CompositeType where
  name : String
  isInterface : Bool
  description : Option String
  fields : List FieldDef
  interfaces : List String

/-- the objects and interfaces of the schema, in `type_map` order — `turms/plugins/objects.py:219-225` -/
def compositeTypes (s : Schema) : List CompositeType :=
  s.types.filterMap fun p => match p.2.defn with
    | .object fs is => some ⟨p.1, false, p.2.description, fs, is⟩
    | .interface fs is => some ⟨p.1, true, p.2.description, fs, is⟩
    | _ => none

/-- `sorted(..., key=isinstance(…, GraphQLInterfaceType), reverse=True)` — `turms/plugins/objects.py:227-234`;
`reverse=True` keeps the sort stable. -/
def sortedComposites (s : Schema) : List CompositeType :=
  pySorted (fun a b => a.isInterface || !b.isInterface) (compositeTypes s)

/-- interfaces an interface type implements -/
def Schema.interfacesOf (s : Schema) (n : String) : List String :=
  match s.lookup n with
  | some (.object _ is) => is
  | some (.interface _ is) => is
  | _ => []

/-- `interface_is_extended_by_other_interfaces` — `turms/utils.py:637-645` -/
def extendedByOthers (s : Schema) (i : String) (others : List String) : Bool :=
  (others.flatMap s.interfacesOf).contains i

/-- the interface loop — `turms/plugins/objects.py:264-277`: returns the additional base classes and the
updated `interface_map` -/
def interfaceLoop (c : Ctx) (classname : String) (all : List String) :
    List String → Dict (List String) → Gen (List Expr × Dict (List String))
  | [], m => pure ([], m)
  | i :: is, m => do
    let m' := m.set i ((m.get? i).getD [] ++ [classname])
    if !extendedByOthers c.schema i (all.filter (· != i)) then do
      let b ← inheritInterface i
      let (bs, m'') ← interfaceLoop c classname all is m'
      pure (.name b :: bs, m'')
    else interfaceLoop c classname all is m'

/-- accumulators of `generate_types` -/
structure ObjAcc where
  interfaceMap : Dict (List String) := []
  interfaceBaseMap : Dict String := []
  tree : List Stmt := []

/-- `name.startswith("__")` -/
def doubleUnderscored (name : String) : Bool := name.toList.take 2 == ['_', '_']

/-- register the class of an object or interface — `turms/plugins/objects.py:258-262` -/
def generateComposite (env : Env) (t : CompositeType) : Gen String :=
  if t.isInterface then generateInterface env t.name else generateClass env .object t.name

/-- one round of the loop — `turms/plugins/objects.py:246-374` -/
def objectStep (c : Ctx) (p : ObjectsConfig) (t : CompositeType) (acc : ObjAcc) : Gen ObjAcc := do
  let extra ← additionalBasesFor c t.name
  if p.skipUnderscore && underscored t.name then pure acc
  else if p.skipDoubleUnderscore && doubleUnderscored t.name then pure acc
  else do
    let classname ← generateComposite c.env t
    let ib := if t.isInterface then acc.interfaceBaseMap.set t.name classname else acc.interfaceBaseMap
    let (bs, im) ← interfaceLoop c classname t.interfaces t.interfaces acc.interfaceMap
    let fs ← objectFields c classname t.fields
    let cfg ← generatePydanticConfig c .object (some t.name)
    pure { interfaceMap := im
           interfaceBaseMap := ib
           tree := acc.tree ++ [.classDef classname (extra ++ bs ++ baseNames p.bases)
             ((if truthy t.description then [.expr (.str (t.description.getD ""))] else []) ++ fs ++ cfg) []] }

/-- the loop -/
def objectLoop (c : Ctx) (p : ObjectsConfig) : List CompositeType → ObjAcc → Gen ObjAcc
  | [], acc => pure acc
  | t :: ts, acc => do
    let acc ← objectStep c p t acc
    objectLoop c p ts acc

/-- `Interface = Union[...]` — `turms/plugins/objects.py:376-393` -/
def interfaceUnion (p : String × List String) : Stmt :=
  .assign (.name p.1) (sub "Union" (.tuple (p.2.map .name)))

/-- `registry.register_import("typing.Union")`, once per union — `turms/plugins/objects.py:377` -/
def registerUnions : Dict (List String) → Gen Unit
  | [] => pure ()
  | _ :: ps => do
    registerImport "typing.Union"
    registerUnions ps

/-- `generate_types` — `turms/plugins/objects.py:210-415`. -/
def generateTypes (c : Ctx) (p : ObjectsConfig) : Gen (List Stmt) := do
  registerImports p.bases
  let acc ← objectLoop c p (sortedComposites c.schema) {}
  registerUnions acc.interfaceMap
  let unimplemented := acc.interfaceBaseMap.filter fun q => !acc.interfaceMap.contains q.1
  if !unimplemented.isEmpty && c.config.alwaysResolveInterfaces then
    Gen.fail (.generationError "unimplemented interfaces")
  else
    pure (acc.tree ++ acc.interfaceMap.map interfaceUnion ++
      unimplemented.map fun q => .assign (.name q.1) (.name q.2))

end Turms
