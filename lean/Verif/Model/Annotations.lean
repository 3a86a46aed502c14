import Verif.Model.Schema

/-!
# Type annotations

`turms/utils.py` (`recurse_type_annotation`, `recurse_type_label`, `recurse_outputtype_annotation`,
`recurse_outputtype_label`, `annotate_field_metadata`), `turms/plugins/inputs.py`
(`generate_input_annotation` and the field helpers), `turms/plugins/objects.py`
(`generate_object_field_annotation`), `turms/plugins/funcs.py` (`generate_input_annotation`,
`generate_variable_annotation`).
-/

namespace Turms

/-- raise -/
def Gen.fail {α : Type} (e : Err) : Gen α := fun _ => .error e

/-- `ast.Subscript(value=ast.Name(f), slice=x)` -/
def sub (f : String) (x : Expr) : Expr := .subscript (.name f) x

/-- the recurring `if is_optional: register_import("typing.Optional"); return Optional[x]; return x`.
The import is registered before or after `x` is computed depending on the call site; the registered set is
the same. -/
def optionalWrap (isOptional : Bool) (x : Expr) : Gen Expr :=
  if isOptional then do
    registerImport "typing.Optional"
    pure (sub "Optional" x)
  else pure x

/-- `Tuple[x, ...]` or `List[x]`: the `list_builder` closures -/
def listBuilder (asTuple : Bool) (x : Expr) : Expr :=
  if asTuple then sub "Tuple" (.tuple [x, .const .ellipsis]) else sub "List" x

/-- the import a `list_builder` needs -/
def listImport (asTuple : Bool) : Gen Unit :=
  registerImport (if asTuple then "typing.Tuple" else "typing.List")

/-- The `NamedTypeNode` lookup of `recurse_type_annotation` and `recurse_type_label` —
`turms/utils.py:690-707, 880-896`: scalar, else input (no forward), else enum (no forward). -/
def referenceNamed (env : Env) (n : String) : Gen Expr := fun r =>
  match referenceScalar n r with
  | .error (.noScalarFound _) =>
    match referenceInput env n "" false r with
    | .error (.noInputTypeFound _) =>
      match referenceEnum env n "" false r with
      | .error (.noEnumFound _) => .error (.notImplemented n)
      | x => x
    | x => x
  | x => x

/-- the leaf of `recurse_type_annotation`: the override if there is one — `turms/utils.py:682-707` -/
def namedOr (env : Env) (overwriteFinal : Option Expr) (n : String) : Gen Expr :=
  match overwriteFinal with
  | some x => pure x
  | none => referenceNamed env n

/-- `recurse_type_annotation` — `turms/utils.py:648-719`. -/
def recurseTypeAnnotation (env : Env) (overwriteFinal : Option Expr) : TypeNode → Bool → Gen Expr
  | .nonNull t, _ => recurseTypeAnnotation env overwriteFinal t false
  | .list t, opt => do
    registerImport "typing.List"
    let x ← recurseTypeAnnotation env overwriteFinal t true
    optionalWrap opt (sub "List" x)
  | .named n, opt => do
    let x ← namedOr env overwriteFinal n
    optionalWrap opt x

/-- the named-type cases of `generate_input_annotation` of the inputs plugin —
`turms/plugins/inputs.py:56-87`. -/
def inputLeaf (c : Ctx) (parent n : String) : Gen Expr :=
  match c.schema.lookup n with
  | some .scalar => referenceScalar n
  | some (.input _ _) => referenceInput c.env n parent
  | some (.enum _) => referenceEnum c.env n parent (!c.config.forcePluginOrder)
  | _ => Gen.fail (.notImplemented n)

/-- `generate_input_annotation` of the inputs plugin — `turms/plugins/inputs.py:48-141`. -/
def inputAnnotation (c : Ctx) (parent : String) : TypeNode → Bool → Gen Expr
  | .nonNull t, _ => inputAnnotation c parent t false
  | .list t, opt => do
    let asTuple := c.config.freeze.enabled && c.config.freeze.types.contains .input &&
      c.config.freeze.convertListToTuple
    listImport asTuple
    let x ← inputAnnotation c parent t true
    optionalWrap opt (listBuilder asTuple x)
  | .named n, opt => do
    let x ← inputLeaf c parent n
    optionalWrap opt x

/-- `generate_input_field_annotation` — `turms/plugins/inputs.py:144-166`. -/
def inputFieldAnnotation (c : Ctx) (parent : String) (t : TypeNode) (omittable : Bool) : Gen Expr := do
  let x ← inputAnnotation c parent t true
  optionalWrap (omittable && t.isNonNull) x

/-- Python truthiness of an optional string -/
def truthy (s : Option String) : Bool := match s with
  | some s => s != ""
  | none => false

/-- `generate_input_field_value` — `turms/plugins/inputs.py:169-202`. -/
def inputFieldValue (fieldName valueKey : String) (omittable : Bool) (description : Option String) :
    Gen (Option Expr) :=
  let hasAlias := fieldName != valueKey
  if !hasAlias && !truthy description then
    pure (if omittable then some (.const .none) else none)
  else do
    registerImport "pydantic.Field"
    pure (some (.call (.name "Field") []
      ((if hasAlias then [(some "alias", Expr.str valueKey)] else []) ++
       (if omittable then [(some "default", Expr.const .none)] else []) ++
       (if truthy description then [(some "description", Expr.str (description.getD ""))] else []))))

/-- one optional marker call `Marker(arg)` — `turms/utils.py:1003-1018` -/
def markerCall (ref : Gen Expr) (arg : Option Expr) : Gen (List Expr) :=
  match arg with
  | some d => do
    let f ← ref
    pure [Expr.call f [d] []]
  | none => pure []

/-- `annotate_field_metadata` — `turms/utils.py:989-1028`. -/
def annotateFieldMetadata (env : Env) (annotation : Expr) (defaultAst : Option Expr)
    (deprecation : Option String) : Gen Expr := do
  let m1 ← markerCall (referenceGraphqlDefault env) defaultAst
  let m2 ← markerCall (referenceDeprecated env) (deprecation.map Expr.str)
  if (m1 ++ m2).isEmpty then pure annotation
  else do
    registerImport "typing.Annotated"
    pure (sub "Annotated" (.tuple (annotation :: (m1 ++ m2))))

/-- `generate_object_field_annotation` on a named type that is not a union —
`turms/plugins/objects.py:50-80, 128-142`. -/
def objectLeaf (c : Ctx) (parent n : String) : Gen Expr :=
  match c.schema.lookup n with
  | some .scalar => referenceScalar n
  | some (.interface _ _) => referenceInterface c.env n parent
  | some (.object _ _) => referenceGeneric c.env .object n parent
  | some (.enum _) => referenceEnum c.env n parent (!c.config.forcePluginOrder)
  | _ => Gen.fail (.notImplemented n)

/-- the members of a union, in order (`turms/plugins/objects.py:91-101, 112-122`). Members of a union are
object types; on anything else the model's `objectLeaf` answers as the code does, except that a union
nested in a union (rejected by graphql-core) raises. -/
def objectMembers (c : Ctx) (parent : String) : List String → Gen (List Expr)
  | [] => pure []
  | m :: ms => do
    let x ← objectLeaf c parent m
    let xs ← objectMembers c parent ms
    pure (x :: xs)

/-- the named-type cases of `generate_object_field_annotation` — `turms/plugins/objects.py:50-142`. -/
def objectNamed (c : Ctx) (parent n : String) : Gen Expr :=
  match c.schema.lookup n with
  | some (.union ms) => do
    registerImport "typing.Union"
    let xs ← objectMembers c parent ms
    pure (sub "Union" (.tuple xs))
  | _ => objectLeaf c parent n

/-- `generate_object_field_annotation` — `turms/plugins/objects.py:42-207`. -/
def objectAnnotation (c : Ctx) (parent : String) : TypeNode → Bool → Gen Expr
  | .nonNull t, _ => objectAnnotation c parent t false
  | .list t, opt => do
    let asTuple := c.config.freeze.enabled && c.config.freeze.types.contains .object &&
      c.config.freeze.convertListToTuple
    listImport asTuple
    let x ← objectAnnotation c parent t true
    if opt then optionalWrap opt (listBuilder asTuple x)
    else do
      registerImport "typing.List"
      pure (listBuilder asTuple x)
  | .named n, opt => do
    let x ← objectNamed c parent n
    optionalWrap opt x

/-- The coercion maps of `FuncsPluginConfig` after merging with the global ones. -/
structure Coercions where
  scalars : Dict String := []
  inputs : Dict String := []

/-- `coercible_input_union` — `turms/plugins/funcs.py:320-339`. -/
def coercibleInputUnion (ref : Expr) (coercible : String) : Gen Expr := do
  registerImport coercible
  registerImport "typing.Union"
  pure (sub "Union" (.tuple [ref, .name (lastComponent coercible)]))

/-- the named-type cases of `generate_input_annotation` of the funcs plugin —
`turms/plugins/funcs.py:192-237`. -/
def paramLeaf (c : Ctx) (co : Coercions) (n : String) : Gen Expr :=
  match c.schema.lookup n with
  | some .scalar =>
    match co.scalars.get? n with
    | some p => do
      registerImport p
      pure (.name (lastComponent p))
    | none => referenceScalar n
  | some (.input _ _) => do
    let x ← referenceInput c.env n "SHOULD_NOT_BE_USED"
    match co.inputs.get? n with
    | some p => coercibleInputUnion x p
    | none => pure x
  | some (.enum _) => referenceEnum c.env n "SHOULD_NOT_BE_USED" false
  | _ => Gen.fail (.notImplemented n)

/-- `generate_input_annotation` of the funcs plugin — `turms/plugins/funcs.py:186-275`. -/
def paramAnnotation (c : Ctx) (co : Coercions) : TypeNode → Bool → Gen Expr
  | .nonNull t, _ => paramAnnotation c co t false
  | .list t, opt => do
    registerImport "typing.Iterable"
    let x ← paramAnnotation c co t true
    optionalWrap opt (sub "Iterable" x)
  | .named n, opt => do
    let x ← paramLeaf c co n
    optionalWrap opt x

/-- `generate_variable_annotation` — `turms/plugins/funcs.py:342-371`.  A coercion target that is the
empty string is falsy and ignored. -/
def variableAnnotation (env : Env) (co : Coercions) (t : TypeNode) : Gen Expr :=
  if truthy (co.scalars.get? t.base) then do
    let p := (co.scalars.get? t.base).getD ""
    registerImport p
    recurseTypeAnnotation env (some (.name (lastComponent p))) t true
  else if truthy (co.inputs.get? t.base) then do
    let p := (co.inputs.get? t.base).getD ""
    let x ← referenceInput env t.base "SHOULD_NOT_BE_USED"
    let u ← coercibleInputUnion x p
    recurseTypeAnnotation env (some u) t true
  else recurseTypeAnnotation env none t true

/-- the named-type cases of `recurse_outputtype_annotation` — `turms/utils.py:757-789` -/
def outputNamed (c : Ctx) (overwriteFinal : Option String) (n : String) : Gen Expr :=
  match c.schema.lookup n with
  | some (.enum _) => referenceEnum c.env n "" false
  | some .scalar => referenceScalar n
  | some (.object _ _) | some (.interface _ _) | some (.union _) =>
    if truthy overwriteFinal then pure (.name (overwriteFinal.getD ""))
    else Gen.fail (.assertion "Needs to be set")
  | _ => Gen.fail (.notImplemented n)

/-- `recurse_outputtype_annotation` — `turms/utils.py:722-793`.  As in the code, the `GraphQLNonNull` case
strips *two* layers: `type = type.of_type` and then `type.of_type` again; on a named type the second access
raises `AttributeError`. -/
def outputAnnotation (c : Ctx) (overwriteFinal : Option String) : TypeNode → Bool → Gen Expr
  | .nonNull (.named n), _ => Gen.fail (.attributeError n)
  | .nonNull (.list t), _ => outputAnnotation c overwriteFinal t false
  | .nonNull (.nonNull t), _ => outputAnnotation c overwriteFinal t false
  | .list t, opt => do
    registerImport "typing.List"
    let x ← outputAnnotation c overwriteFinal t true
    optionalWrap opt (sub "List" x)
  | .named n, opt => do
    let x ← outputNamed c overwriteFinal n
    optionalWrap opt x

/-- `"Optional[" + x + "]"` -/
def optionalLabel (opt : Bool) (x : String) : String := if opt then "Optional[" ++ x ++ "]" else x

/-- `registry.reference_…(…).id`: an `ast.Constant` has no `id` -/
def nameId (e : Expr) : Gen String := match e with
  | .name i => pure i
  | _ => Gen.fail (.attributeError "id")

/-- `x.id if isinstance(x, ast.Name) else x.value` -/
def nameOrValue (e : Expr) : Gen String := match e with
  | .name i => pure i
  | .const (.str s) => pure s
  | _ => Gen.fail (.attributeError "value")

/-- the named-type cases of `recurse_outputtype_label` — `turms/utils.py:824-847` -/
def outputNamedLabel (c : Ctx) (overwriteFinal : Option String) (n : String) : Gen String :=
  match c.schema.lookup n with
  | some (.enum _) => do nameId (← referenceEnum c.env n "" false)
  | some .scalar => do nameId (← referenceScalar n)
  | some (.object _ _) | some (.interface _ _) | some (.union _) =>
    if truthy overwriteFinal then pure (overwriteFinal.getD "")
    else Gen.fail (.assertion "Needs to be set")
  | _ => Gen.fail (.notImplemented n)

/-- `recurse_outputtype_label` — `turms/utils.py:796-850`. -/
def outputLabel (c : Ctx) (overwriteFinal : Option String) : TypeNode → Bool → Gen String
  | .nonNull t, _ => outputLabel c overwriteFinal t false
  | .list t, opt => do
    let x ← outputLabel c overwriteFinal t true
    pure (optionalLabel opt ("List[" ++ x ++ "]"))
  | .named n, opt => do
    let x ← outputNamedLabel c overwriteFinal n
    pure (optionalLabel opt x)

/-- `recurse_type_label` — `turms/utils.py:853-907` (never called with an override). -/
def typeLabel (env : Env) : TypeNode → Bool → Gen String
  | .nonNull t, _ => typeLabel env t false
  | .list t, opt => do
    let x ← typeLabel env t true
    pure (optionalLabel opt ("List[" ++ x ++ "]"))
  | .named n, opt => do
    let x ← nameOrValue (← referenceNamed env n)
    pure (optionalLabel opt x)

end Turms
