import Verif.Model.PydanticConfig

/-!
# The inputs plugin (`turms/plugins/inputs.py`)
-/

namespace Turms

/-- raise or continue -/
def Gen.lift {α : Type} (x : Except Err α) : Gen α := fun r =>
  match x with
  | .ok a => .ok (a, r)
  | .error e => .error e

/-- `registry.generate_node_name` -/
def nodeName (env : Env) (name : String) : Gen String := Gen.lift (generateNodeName env.stylers name)

/-- `registry.generate_parameter_name` -/
def parameterName (env : Env) (name : String) : Gen String :=
  Gen.lift (generateParameterName env.stylers name)

mutual
/-- Python's `repr` of a default value (strings in single quotes; escapes are not modelled) -/
def PyDefault.pyRepr : PyDefault → String
  | .none => "None"
  | .bool b => if b then "True" else "False"
  | .str s => "'" ++ s ++ "'"
  | .int i => toString i
  | .float s => s
  | .list l => "[" ++ ", ".intercalate (PyDefault.pyReprs l) ++ "]"
  | .dict d => "{" ++ ", ".intercalate (PyDefault.pyReprEntries d) ++ "}"
  | .opaque s => s
/-- the elements -/
def PyDefault.pyReprs : List PyDefault → List String
  | [] => []
  | x :: xs => x.pyRepr :: PyDefault.pyReprs xs
/-- the entries -/
def PyDefault.pyReprEntries : List (String × PyDefault) → List String
  | [] => []
  | (k, x) :: xs => ("'" ++ k ++ "': " ++ x.pyRepr) :: PyDefault.pyReprEntries xs
end

/-- Python's `str` of a default value -/
def PyDefault.pyStr : PyDefault → String
  | .str s => s
  | d => d.pyRepr

/-- `default_string` — `turms/plugins/inputs.py:269-273, 698-702` -/
def defaultString (d : Option PyDefault) : Option String := match d with
  | none => none
  | some .none => none
  | some d => some d.pyStr

/-- `has_default or not isinstance(value.type, GraphQLNonNull)` — `turms/plugins/inputs.py:266, 274` -/
def omittableField (f : InputFieldDef) : Bool := f.default.isSome || !f.type.isNonNull

/-- One field of an input class — `turms/plugins/inputs.py:258-315, 689-752`. -/
def inputFieldStmts (c : Ctx) (className : String) (f : InputFieldDef) : Gen (List Stmt) := do
  let fieldName ← nodeName c.env f.name
  let ds := defaultString f.default
  let omittable := omittableField f
  let a ← inputFieldAnnotation c className f.type omittable
  let a ← annotateFieldMetadata c.env a (ds.map Expr.str) f.deprecation
  let v ← inputFieldValue fieldName f.name omittable f.description
  let assign := Stmt.annAssign fieldName a v
  if c.config.documentFieldMetadata && (truthy f.deprecation || ds.isSome) then
    pure [assign, .expr (match composeFieldDocumentation f.description f.deprecation ds
        c.config.documentFieldMetadata with
      | some d => .str d
      | none => .const .none)]
  else pure [assign]

/-- the field loop; `skip` are the discriminator names — `turms/plugins/inputs.py:256-261` -/
def inputFields (c : Ctx) (className : String) (skip : List String) : List InputFieldDef → Gen (List Stmt)
  | [] => pure []
  | f :: fs => do
    let fieldName ← nodeName c.env f.name
    if skip.contains fieldName then inputFields c className skip fs
    else do
      let s ← inputFieldStmts c className f
      let rest ← inputFields c className skip fs
      pure (s ++ rest)

/-- `Discriminator` — `turms/plugins/inputs.py:205-208` -/
structure Discriminator where
  discriminator : String
  value : String
deriving DecidableEq, Repr

/-- the `Literal` field of a discriminator — `turms/plugins/inputs.py:226-248` -/
def discriminatorStmt (d : Discriminator) : Stmt :=
  .annAssign d.discriminator (sub "Literal" (.str d.value))
    (some (.call (.name "Field") [] [(some "default", .str d.value)]))

/-- the literal fields and their imports -/
def discriminatorStmts : List Discriminator → Gen (List Stmt)
  | [] => pure []
  | d :: ds => do
    registerImport "typing.Literal"
    registerImport "pydantic.Field"
    let rest ← discriminatorStmts ds
    pure (discriminatorStmt d :: rest)

/-- the docstring statement — `turms/plugins/inputs.py:220-224` -/
def docOrDefault (description : Option String) : Stmt :=
  .expr (.str (if truthy description then description.getD "" else "No documentation"))

/-- `name.startswith("_")` -/
def underscored (name : String) : Bool := name.toList.head? == some '_'

/-- `InputsPluginConfig` and the outcome of `skip_unreferenced`: `refInputs = none` when every input is
generated, otherwise the names of the referenced inputs — `turms/plugins/inputs.py:34-46, 546-553`. -/
structure InputsConfig where
  bases : List String := ["pydantic.BaseModel"]
  skipUnderscore : Bool := true
  refInputs : Option (List String) := none

/-- `model_post_init`, emitted for members of a discriminated union — `turms/plugins/inputs.py:317-326`.
The body `self.__pydantic_fields_set__.update({...})` is abbreviated to a call. -/
def postInit (ds : List Discriminator) : Stmt :=
  .funcDef false "model_post_init" [{ arg := "self" }, { arg := "context" }] []
    [.expr (.call (.attr (.attr (.name "self") "__pydantic_fields_set__") "update")
      [.list (ds.map fun d => .str d.discriminator)] [])] [] none

/-- `generate_input_type` — `turms/plugins/inputs.py:211-339`; also the class built in the main loop
(`683-790`), which is the same code without discriminators. -/
def generateInputType (c : Ctx) (p : InputsConfig) (name typename : String) (description : Option String)
    (fields : List InputFieldDef) (ds : List Discriminator) : Gen Stmt := do
  let extra ← additionalBasesFor c typename
  let lits ← discriminatorStmts ds
  let fs ← inputFields c name (ds.map (·.discriminator)) fields
  let post := if !ds.isEmpty && c.env.config.pydanticV2 then [postInit ds] else []
  let cfg ← generatePydanticConfig c .input (some typename)
  pure (.classDef name (extra ++ baseNames p.bases)
    (docOrDefault description :: (lits ++ fs ++ post) ++ cfg) [])

/-- `is_oneof_input_type` — `turms/utils.py:604-615` (the `is_one_of` attribute of graphql-core 3.3 and the
directive of the SDL node coincide for SDL schemas). -/
def isOneof (directives : List DirectiveUse) : Bool := directives.any (·.name == "oneOf")

/-- `validate_oneof_input_type` — `turms/plugins/inputs.py:342-356`. -/
def validateOneof (typename : String) : List InputFieldDef → Except Err Unit
  | [] => .ok ()
  | f :: fs =>
    if f.type.isNonNull then .error (.generationError typename)
    else if f.default.isSome then .error (.generationError typename)
    else validateOneof typename fs

/-- the loop of `get_oneof_member_map` — `turms/plugins/inputs.py:367-374`: only a *nullable named* type is
an instance of `GraphQLInputObjectType`. -/
def oneofMembers (s : Schema) : List InputFieldDef → Option (Dict String)
  | [] => some []
  | f :: fs =>
    match f.type with
    | .named m =>
      match s.lookup m with
      | some (.input _ ds) =>
        if isOneof ds then none
        else match oneofMembers s fs with
          | none => none
          | some rest => some ((f.name, m) :: rest)
      | _ => none
    | _ => none

/-- number of distinct elements: `len({...})` -/
def distinctCount (l : List String) : Nat := (l.foldl setAdd []).length

/-- `get_oneof_member_map` — `turms/plugins/inputs.py:359-377`. -/
def oneofMemberMap (s : Schema) (fields : List InputFieldDef) : Option (Dict String) :=
  match oneofMembers s fields with
  | none => none
  | some ms =>
    if distinctCount (ms.map (·.2)) != ms.length then none
    else if ms.isEmpty then none
    else some ms

/-- `_pascal` — `turms/plugins/inputs.py:380-381` (ASCII) -/
def pascal (name : String) : String :=
  match name.toList with
  | [] => ""
  | ch :: cs => String.ofList (ch.toUpper :: cs)

/-- `generate_union_alias` — `turms/plugins/inputs.py:389-405`. -/
def generateUnionAlias (alias : String) (members : List String) : Gen Stmt :=
  match members with
  | [m] => pure (.assign (.name alias) (.name m))
  | ms => do
    registerImport "typing.Union"
    pure (.assign (.name alias) (sub "Union" (.tuple (ms.map .name))))

/-- one wrapper class of `generate_oneof_wrapper_input` — `turms/plugins/inputs.py:425-470`.  A failed
assertion of `generate_inputtype` is turned into `GenerationError`. -/
def oneofWrapper (c : Ctx) (p : InputsConfig) (typename : String) (extra : List Expr) (f : InputFieldDef) :
    Gen (String × Stmt) := fun r =>
  match generateClass c.env .input (typename ++ pascal f.name) r with
  | .error (.assertion _) => .error (.generationError typename)
  | .error e => .error e
  | .ok (classname, r) => (do
      let fieldName ← nodeName c.env f.name
      let a ← inputAnnotation c classname f.type false
      let a ← annotateFieldMetadata c.env a none f.deprecation
      let v ← inputFieldValue fieldName f.name false f.description
      let cfg ← generatePydanticConfig c .input (some typename)
      pure (classname, Stmt.classDef classname (extra ++ baseNames p.bases)
        ([.expr (.str (if truthy f.description then f.description.getD ""
            else "'" ++ f.name ++ "' variant of the @oneOf input '" ++ typename ++ "'")),
          .annAssign fieldName a v] ++ cfg) []) : Gen (String × Stmt)) r

/-- the wrapper loop -/
def oneofWrappers (c : Ctx) (p : InputsConfig) (typename : String) (extra : List Expr) :
    List InputFieldDef → Gen (List (String × Stmt))
  | [] => pure []
  | f :: fs => do
    let w ← oneofWrapper c p typename extra f
    let ws ← oneofWrappers c p typename extra fs
    pure (w :: ws)

/-- `generate_oneof_wrapper_input` — `turms/plugins/inputs.py:408-475`. -/
def generateOneofWrapperInput (c : Ctx) (p : InputsConfig) (typename : String)
    (fields : List InputFieldDef) : Gen (List Stmt) := do
  let extra ← additionalBasesFor c typename
  let ws ← oneofWrappers c p typename extra fields
  let alias ← generateClass c.env .input typename
  let a ← generateUnionAlias alias (ws.map (·.1))
  pure (ws.map (·.2) ++ [a])

/-- `{value_key: registry.get_inputtype_class(member.name) ...}` — `turms/plugins/inputs.py:491-494` -/
def memberClasses : Dict String → Gen (Dict String)
  | [] => pure []
  | (k, m) :: ms => do
    let cl ← getClass .input m
    let rest ← memberClasses ms
    pure ((k, cl) :: rest)

/-- `if cond: registry.register_import(name)` -/
def importIf (cond : Bool) (name : String) : Gen Unit := if cond then registerImport name else pure ()

/-- `list(dict.fromkeys(l))` -/
def dedupKeepFirst (l : List String) : List String := l.foldl setAdd []

/-- `generate_oneof_direct_union` — `turms/plugins/inputs.py:478-529`.  The emitted serializer function is
represented by its tag table (`tags`); the rest of its body is constant text whose behaviour is
`oneofSerialize` below. `_snake` is the same regular expression as `camel_to_snake`. -/
def generateOneofDirectUnion (c : Ctx) (typename : String) (members : Dict String) : Gen (List Stmt) := do
  let alias ← generateClass c.env .input typename
  let ser := "_serialize_" ++ camelToSnake alias
  let mcs ← memberClasses members
  importIf (mcs.length > 1) "typing.Union"
  registerImport "typing.Annotated"
  registerImport "pydantic.WrapSerializer"
  let names := dedupKeepFirst (mcs.map (·.2))
  let u := if mcs.length > 1 then sub "Union" (.tuple (names.map .name))
    else .name (names.headD "")
  pure [
    .funcDef false ser [{ arg := "value" }, { arg := "handler" }] []
      [.assign (.name "tags") (.dict (mcs.map fun p => .name p.2) (mcs.map fun p => .str p.1))] [] none,
    .assign (.name alias) (sub "Annotated" (.tuple [u, .call (.name "WrapSerializer") [.name ser] []]))]

/-- What the emitted serializer does at run time (`turms/plugins/inputs.py:511-524`): `tags` is the dict
display `{Class: "field", ...}` (a repeated class keeps its first position and last value), `mro` are the
classes of the value, its own class first, `payload` is what `handler(value)` returns. -/
def oneofSerialize {α : Type} (tags : Dict String) (mro : List String) (payload : α) :
    Except Err (List (String × α)) :=
  let dict := Dict.merge [] tags
  match (match mro.head? with
      | some own => dict.get? own
      | none => none) with
  | some tag => .ok [(tag, payload)]
  | none =>
    match dict.find? (fun p => mro.contains p.1) with
    | some (_, tag) => .ok [(tag, payload)]
    | none => .error (.valueError "not a member")

/-- An entry of `memberships` — `turms/plugins/inputs.py:593` -/
structure Membership where
  union : String
  discriminator : String
  key : String
deriving DecidableEq, Repr

/-- `skip_unreferenced and name not in ref_registry.inputs` — `turms/plugins/inputs.py:546-553` -/
def unreferenced (ref : Option (List String)) (name : String) : Bool :=
  match ref with
  | some l => !l.contains name
  | none => false

/-- the directive loop of the pre-pass — `turms/plugins/inputs.py:566-593`; `discr` is
`union_type_discriminators` -/
def membershipsOf (ref : Option (List String)) (typename : String) :
    List DirectiveUse → Dict String → Except Err (List Membership × Dict String)
  | [], discr => .ok ([], discr)
  | d :: ds, discr =>
    if d.name != "unionElementOf" then membershipsOf ref typename ds discr
    else
      match d.args.get? "union", d.args.get? "discriminator", d.args.get? "key" with
      | some u, some dn, some k =>
        if unreferenced ref u then membershipsOf ref typename ds discr
        else
          match discr.get? u with
          | some dn' =>
            if dn' != dn then .error (.generationError u)
            else
              match membershipsOf ref typename ds discr with
              | .error e => .error e
              | .ok (ms, discr') => .ok (⟨u, dn, k⟩ :: ms, discr')
          | none =>
            match membershipsOf ref typename ds (discr.set u dn) with
            | .error e => .error e
            | .ok (ms, discr') => .ok (⟨u, dn, k⟩ :: ms, discr')
      | _, _, _ => .error (.generationError typename)

/-- one `Discriminator` per distinct name — `turms/plugins/inputs.py:600-610` -/
def collectDiscriminators (typename : String) : List Membership → Dict String → Except Err (Dict String)
  | [], acc => .ok acc
  | m :: ms, acc =>
    match acc.get? m.discriminator with
    | some v =>
      if v != m.key then .error (.generationError typename)
      else collectDiscriminators typename ms (acc.set m.discriminator m.key)
    | none => collectDiscriminators typename ms (acc.set m.discriminator m.key)

/-- `union_input_types[u]` after appending `name` unless present — `turms/plugins/inputs.py:614-617` -/
def addMember (u : Dict (List String)) (union name : String) : Dict (List String) :=
  u.set union (setAdd ((u.get? union).getD []) name)

/-- the accumulators of the pre-pass -/
structure PrePass where
  unionTypes : Dict (List String) := []
  discriminators : Dict String := []
  memberTypes : List String := []
  tree : List Stmt := []

/-- an input type of the schema: name, description, fields, directives -/
structure InputType where
  name : String
  description : Option String
  fields : List InputFieldDef
  directives : List DirectiveUse

/-- one round of the pre-pass — `turms/plugins/inputs.py:562-629` -/
def prePassStep (c : Ctx) (p : InputsConfig) (t : InputType) (acc : PrePass) : Gen PrePass := do
  let (ms, discr) ← Gen.lift (membershipsOf p.refInputs t.name t.directives acc.discriminators)
  if ms.isEmpty then pure { acc with discriminators := discr }
  else do
    let ds ← Gen.lift (collectDiscriminators t.name ms [])
    let name ← generateClass c.env .input t.name
    let cls ← generateInputType c p name t.name t.description t.fields (ds.map fun d => ⟨d.1, d.2⟩)
    pure { unionTypes := ms.foldl (fun u m => addMember u m.union name) acc.unionTypes
           discriminators := discr
           memberTypes := setAdd acc.memberTypes t.name
           tree := acc.tree ++ [cls] }

/-- the pre-pass — `turms/plugins/inputs.py:562-629` -/
def prePass (c : Ctx) (p : InputsConfig) : List InputType → PrePass → Gen PrePass
  | [], acc => pure acc
  | t :: ts, acc => do
    let acc ← prePassStep c p t acc
    prePass c p ts acc

/-- the assignment `Name = Annotated[Union[...], Field(discriminator=...)]` —
`turms/plugins/inputs.py:669-719` -/
def discriminatedUnion (name : String) (members : List String) (discriminator : String) : Stmt :=
  .assign (.name name) (sub "Annotated" (.tuple
    [sub "Union" (.tuple (members.map .name)),
     .call (.name "Field") [] [(some "discriminator", .str discriminator)]]))

/-- whether a member of a direct union will be missing from the module — `turms/plugins/inputs.py:654-661` -/
def memberMissing (p : InputsConfig) (m : String) : Bool :=
  unreferenced p.refInputs m || (p.skipUnderscore && underscored m)

/-- the member map of a `@oneOf` input, or `none` when wrapper classes are needed —
`turms/plugins/inputs.py:645-664` -/
def directMembers (c : Ctx) (p : InputsConfig) (t : InputType) : Option (Dict String) :=
  if c.env.config.pydanticV2 then
    match oneofMemberMap c.schema t.fields with
    | some ms => if ms.any (fun m => memberMissing p m.2) then none else some ms
    | none => none
  else none

/-- what the main loop does with an input type — `turms/plugins/inputs.py:636-790`: statements emitted now,
and possibly a deferred direct union -/
def mainStep (c : Ctx) (p : InputsConfig) (pre : PrePass) (t : InputType) :
    Gen (List Stmt × Option (String × Dict String)) :=
  if pre.memberTypes.contains t.name then pure ([], none)
  else if unreferenced p.refInputs t.name then pure ([], none)
  else if p.skipUnderscore && underscored t.name then pure ([], none)
  else if isOneof t.directives then do
    Gen.lift (validateOneof t.name t.fields)
    match directMembers c p t with
    | some ms => pure ([], some (t.name, ms))
    | none => do
      let s ← generateOneofWrapperInput c p t.name t.fields
      pure (s, none)
  else
    match pre.unionTypes.get? t.name with
    | some members => do
      registerImports ["typing.Union", "typing.Annotated", "pydantic.Field"]
      let name ← generateClass c.env .input t.name
      pure ([discriminatedUnion name members ((pre.discriminators.get? t.name).getD "")], none)
    | none => do
      let name ← generateClass c.env .input t.name
      let cls ← generateInputType c p name t.name t.description t.fields []
      pure ([cls], none)

/-- the main loop -/
def mainLoop (c : Ctx) (p : InputsConfig) (pre : PrePass) :
    List InputType → Gen (List Stmt × List (String × Dict String))
  | [] => pure ([], [])
  | t :: ts => do
    let (s, d) ← mainStep c p pre t
    let (ss, ds) ← mainLoop c p pre ts
    pure (s ++ ss, d.toList ++ ds)

/-- the deferred unions — `turms/plugins/inputs.py:792-793` -/
def deferredUnions (c : Ctx) : List (String × Dict String) → Gen (List Stmt)
  | [] => pure []
  | (n, ms) :: rest => do
    let s ← generateOneofDirectUnion c n ms
    let ss ← deferredUnions c rest
    pure (s ++ ss)

/-- the input object types of the schema, in `type_map` order — `turms/plugins/inputs.py:540-544` -/
def inputTypes (s : Schema) : List InputType :=
  s.types.filterMap fun p => match p.2.defn with
    | .input fs ds => some ⟨p.1, p.2.description, fs, ds⟩
    | _ => none

/-- `generate_inputs` — `turms/plugins/inputs.py:532-795`. -/
def generateInputs (c : Ctx) (p : InputsConfig) : Gen (List Stmt) := do
  registerImports p.bases
  let pre ← prePass c p (inputTypes c.schema) {}
  let (ss, ds) ← mainLoop c p pre (inputTypes c.schema)
  let us ← deferredUnions c ds
  pure (pre.tree ++ ss ++ us)

end Turms
