import Verif.Model.Enums

/-!
# The strawberry plugin (`turms/plugins/strawberry.py`)

Simplifications: `generate_directives_func` and `generate_enums_func` are their defaults; the text of lambdas is
constant; an argument of a union type (which GraphQL rejects) raises.
-/

namespace Turms

/-- a directive application on an `ast_node`: `@name(arg: value, ...)` -/
structure DirectiveApp where
  name : String
  args : List (String × Value) := []

/-- `GraphQLDirective` -/
structure DirectiveDef where
  name : String
  locations : List String := []
  args : List ArgDef := []

/-- what the plugin reads from the schema beyond the types: the directives it defines, and those applied in the
SDL to types and to fields (nothing if the schema was built from an introspection result: no `ast_node`) -/
structure SchemaDirectives where
  defined : List DirectiveDef := []
  onType : String → List DirectiveApp := fun _ => []
  onField : String → String → List DirectiveApp := fun _ _ => []

/-- `StrawberryPluginConfig` — `turms/plugins/strawberry.py:360-386` (`types_bases` is never read) -/
structure StrawberryConfig where
  generateDirectives : Bool := true
  generateScalars : Bool := true
  builtinDirectives : List String := ["include", "skip", "deprecated", "specifiedBy", "oneOf"]
  builtinScalars : List String := ["String", "Boolean", "DateTime", "Int", "Float", "ID"]
  generateEnums : Bool := true
  generateTypes : Bool := true
  generateInputs : Bool := true
  inputtypeBases : List String := []
  skipUnderscore : Bool := false
  skipDoubleUnderscore : Bool := true

/-- `build_directive_type_annotation` on a named type — `turms/plugins/strawberry.py:61-88, 113`:
`registry.reference_enum(value.name)` lacks the argument `parent`, so an enum raises `TypeError`. -/
def directiveLeaf (c : Ctx) (n : String) : Gen Expr :=
  match c.schema.lookup n with
  | some .scalar => referenceScalar n
  | some (.enum _) => Gen.fail (.other "missing argument: parent")
  | _ => Gen.fail (.notImplemented n)

/-- `build_directive_type_annotation` — `turms/plugins/strawberry.py:58-113` -/
def directiveAnnotation (c : Ctx) : TypeNode → Bool → Gen Expr
  | .nonNull t, _ => directiveAnnotation c t false
  | .list t, opt => do
    registerImport "typing.List"
    let x ← directiveAnnotation c t true
    optionalWrap opt (sub "List" x)
  | .named n, opt => do
    let x ← directiveLeaf c n
    optionalWrap opt x

mutual
/-- `convert_default_value_to_ast` on a value other than `Undefined` — `turms/utils.py:937-963` -/
def convertDefault : PyDefault → Except Err Expr
  | .none => .ok (.const .none)
  | .str s => .ok (.const (.str s))
  | .bool b => .ok (.const (.bool b))
  | .int i => .ok (.const (.int i))
  | .float s => .ok (.const (.float s))
  | .list l =>
    match convertDefaults l with
    | .ok es => .ok (.list es)
    | .error e => .error e
  | .dict d =>
    match convertEntries d with
    | .ok kvs => .ok (.dict (kvs.map (·.1)) (kvs.map (·.2)))
    | .error e => .error e
  | .opaque s => .error (.notImplemented s)
/-- the elements of a list -/
def convertDefaults : List PyDefault → Except Err (List Expr)
  | [] => .ok []
  | x :: xs =>
    match convertDefault x with
    | .error e => .error e
    | .ok y =>
      match convertDefaults xs with
      | .error e => .error e
      | .ok ys => .ok (y :: ys)
/-- the entries of a dict -/
def convertEntries : List (String × PyDefault) → Except Err (List (Expr × Expr))
  | [] => .ok []
  | (k, x) :: xs =>
    match convertDefault x with
    | .error e => .error e
    | .ok y =>
      match convertEntries xs with
      | .error e => .error e
      | .ok ys => .ok ((.const (.str k), y) :: ys)
end

mutual
/-- `convert_valuenode_to_ast` — `turms/plugins/strawberry.py:117-148`: the `value` of an int or float node is
its *text*; the constant made of an enum node is the node itself, which unparses to its `repr` — no literal, here
a name nothing binds; an object node gives an `ast.Dict` whose keys are strings instead of expressions, which
cannot be unparsed. -/
def convertValueNode : Value → Except Err Expr
  | .null => .ok (.const .none)
  | .string s => .ok (.const (.str s))
  | .int t => .ok (.const (.str t))
  | .float t => .ok (.const (.str t))
  | .bool b => .ok (.const (.bool b))
  | .enum _ => .ok (.name "EnumValueNode")
  | .list l =>
    match convertValueNodes l with
    | .ok es => .ok (.list es)
    | .error e => .error e
  | .object _ => .error (.attributeError "_fields")
  | .variable n => .error (.notImplemented n)
/-- the elements of a list -/
def convertValueNodes : List Value → Except Err (List Expr)
  | [] => .ok []
  | x :: xs =>
    match convertValueNode x with
    | .error e => .error e
    | .ok y =>
      match convertValueNodes xs with
      | .error e => .error e
      | .ok ys => .ok (y :: ys)
end

/-- the keyword arguments of a directive call — `turms/plugins/strawberry.py:705-708` -/
def directiveArgs : List (String × Value) → Except Err (List (Option String × Expr))
  | [] => .ok []
  | (k, v) :: as =>
    match convertValueNode v with
    | .error e => .error e
    | .ok x =>
      match directiveArgs as with
      | .error e => .error e
      | .ok xs => .ok ((some k, x) :: xs)

/-- the calls — `turms/plugins/strawberry.py:698-712` -/
def directiveCalls : List DirectiveApp → Except Err (List Expr)
  | [] => .ok []
  | d :: ds =>
    match directiveArgs d.args with
    | .error e => .error e
    | .ok kws =>
      match directiveCalls ds with
      | .error e => .error e
      | .ok cs => .ok (.call (.name d.name) [] kws :: cs)

/-- `generate_directive_keywords` — `turms/plugins/strawberry.py:684-721` -/
def directiveKeywords (p : StrawberryConfig) (ds : List DirectiveApp) : Gen (List (Option String × Expr)) :=
  match ds.filter fun d => !p.builtinDirectives.contains d.name with
  | [] => pure []
  | d :: ds => do
    let calls ← Gen.lift (directiveCalls (d :: ds))
    pure [(some "directives", .list calls)]

/-- `isinstance(default, ast.List)` or `ast.Dict` -/
def needsFactory : Expr → Bool
  | .list _ => true
  | .dict _ _ => true
  | _ => false

/-- `field_value` — `turms/plugins/strawberry.py:203-247`: an explicit `null` counts as no default -/
def directiveFieldValue : Option PyDefault → Gen (Option Expr)
  | none => pure none
  | some .none => pure none
  | some d => do
    let x ← Gen.lift (convertDefault d)
    pure (some (.call (.name "strawberry.field") []
      [if needsFactory x then (some "default_factory", .lambda x) else (some "default", x)]))

/-- one argument of a directive — `turms/plugins/strawberry.py:198-258` -/
def directiveField (c : Ctx) (a : ArgDef) : Gen Stmt := do
  let v ← directiveFieldValue a.default
  let n ← nodeName c.env a.name
  let t ← directiveAnnotation c a.type true
  pure (.annAssign n t v)

/-- the loop over the arguments -/
def directiveFields (c : Ctx) : List ArgDef → Gen (List Stmt)
  | [] => pure []
  | a :: as => do
    let s ← directiveField c a
    let ss ← directiveFields c as
    pure (s :: ss)

/-- `fields or [ast.Pass()]` -/
def orPass (ss : List Stmt) : List Stmt := match ss with
  | [] => [.pass_]
  | ss => ss

/-- one directive definition — `turms/plugins/strawberry.py:172-281` -/
def directiveClass (c : Ctx) (p : StrawberryConfig) (d : DirectiveDef) : Gen (List Stmt) :=
  if p.skipUnderscore && underscored d.name then pure []
  else if p.skipDoubleUnderscore && doubleUnderscored d.name then pure []
  else do
    let fs ← directiveFields c d.args
    let cfg ← generatePydanticConfig c .directive (some d.name)
    pure [.classDef d.name [] (orPass fs ++ cfg)
      [.call (.name "strawberry.schema_directive") []
        [(some "locations", .list (d.locations.map fun l => .attr (.name "Location") l))]]]

/-- the loop -/
def directiveClasses (c : Ctx) (p : StrawberryConfig) : List DirectiveDef → Gen (List Stmt)
  | [] => pure []
  | d :: ds => do
    let s ← directiveClass c p d
    let ss ← directiveClasses c p ds
    pure (s ++ ss)

/-- `default_generate_directives` — `turms/plugins/strawberry.py:150-283` -/
def strawberryDirectives (c : Ctx) (p : StrawberryConfig) (ds : List DirectiveDef) : Gen (List Stmt) :=
  match ds.filter fun d => !p.builtinDirectives.contains d.name with
  | [] => pure []
  | d :: ds => do
    registerImport "strawberry.schema_directive.Location"
    directiveClasses c p (d :: ds)

/-- a decorator: a bare name without keyword arguments, else a call -/
def decorator (name : String) (kws : List (Option String × Expr)) : Expr := match kws with
  | [] => .name name
  | kws => .call (.name name) [] kws

/-- `[ast.Expr(value=ast.Constant(value=type.description))] if type.description else []` -/
def descriptionStmts (d : Option String) : List Stmt :=
  match nonBlank d with
  | some s => [.expr (.str s)]
  | none => []

/-- one enum — `turms/plugins/strawberry.py:300-356` -/
def strawberryEnum (c : Ctx) (p : StrawberryConfig) (sd : SchemaDirectives) (t : EnumType) : Gen (List Stmt) := do
  let kws ← directiveKeywords p (sd.onType t.name)
  if p.skipUnderscore && underscored t.name then pure []
  else if p.skipDoubleUnderscore && doubleUnderscored t.name then pure []
  else do
    let classname ← generateClass c.env .enum t.name
    registerImport "enum.Enum"
    pure [.classDef classname [.name "Enum"]
      (orPass (descriptionStmts t.description ++ t.values.flatMap enumValueStmts)) [decorator "strawberry.enum" kws]]

/-- `default_generate_enums` — `turms/plugins/strawberry.py:286-358` -/
def strawberryEnums (c : Ctx) (p : StrawberryConfig) (sd : SchemaDirectives) : List EnumType → Gen (List Stmt)
  | [] => pure []
  | t :: ts => do
    let s ← strawberryEnum c p sd t
    let ss ← strawberryEnums c p sd ts
    pure (s ++ ss)

/-- `generate_object_field_annotation` — `turms/plugins/strawberry.py:392-535` -/
def resolverAnnotation (c : Ctx) (parent : String) : TypeNode → Bool → Gen Expr
  | .nonNull t, _ => resolverAnnotation c parent t false
  | .list t, opt => do
    registerImport "typing.List"
    let x ← resolverAnnotation c parent t true
    optionalWrap opt (sub "List" x)
  | .named n, opt => do
    let x ← objectNamed c parent n
    optionalWrap opt x

/-- `recurse_argument_annotation` — `turms/plugins/strawberry.py:538-681` -/
def argAnnotation (c : Ctx) (parent : String) : TypeNode → Bool → Gen Expr
  | .nonNull t, _ => argAnnotation c parent t false
  | .list t, opt => do
    registerImport "typing.List"
    let x ← argAnnotation c parent t true
    optionalWrap opt (sub "List" x)
  | .named n, opt => do
    let x ← inputLeaf c parent n
    optionalWrap opt x

/-- description and deprecation reason of a field — `turms/plugins/strawberry.py:772-788, 922-938` -/
def metadataKeywords (description deprecation : Option String) : List (Option String × Expr) :=
  (match nonBlank description with
    | some s => [(some "description", Expr.str s)]
    | none => []) ++
  (match nonBlank deprecation with
    | some s => [(some "deprecation_reason", Expr.str s)]
    | none => [])

/-- the value of a plain field: `strawberry.field(...)` if there is anything to say -/
def fieldCall (kws : List (Option String × Expr)) : Option Expr := match kws with
  | [] => none
  | kws => some (.call (.name "strawberry.field") [] kws)

/-- one field of an input — `turms/plugins/strawberry.py:769-820` -/
def strawberryInputField (c : Ctx) (cls : String) (f : InputFieldDef) : Gen Stmt := do
  let n ← nodeName c.env f.name
  let a ← argAnnotation c cls f.type true
  pure (.annAssign n a (fieldCall (metadataKeywords f.description f.deprecation)))

/-- the loop -/
def strawberryInputFields (c : Ctx) (cls : String) : List InputFieldDef → Gen (List Stmt)
  | [] => pure []
  | f :: fs => do
    let s ← strawberryInputField c cls f
    let ss ← strawberryInputFields c cls fs
    pure (s :: ss)

/-- one input type — `turms/plugins/strawberry.py:738-837`: the configured base classes are not imported -/
def strawberryInput (c : Ctx) (p : StrawberryConfig) (sd : SchemaDirectives) (t : InputType) : Gen (List Stmt) :=
  if p.skipUnderscore && underscored t.name then pure []
  else do
    let kws ← directiveKeywords p (sd.onType t.name)
    let extra ← additionalBasesFor c t.name
    let name ← generateClass c.env .input t.name
    let fs ← strawberryInputFields c name t.fields
    let cfg ← generatePydanticConfig c .input (some t.name)
    pure [.classDef name (extra ++ baseNames p.inputtypeBases) (descriptionStmts t.description ++ fs ++ cfg)
      [decorator "strawberry.input" (kws ++ (if isOneof t.directives then [(some "one_of", .const (.bool true))] else []))]]

/-- `generate_inputs` — `turms/plugins/strawberry.py:724-839` -/
def strawberryInputs (c : Ctx) (p : StrawberryConfig) (sd : SchemaDirectives) : List InputType → Gen (List Stmt)
  | [] => pure []
  | t :: ts => do
    let s ← strawberryInput c p sd t
    let ss ← strawberryInputs c p sd ts
    pure (s ++ ss)

/-- `sorted(value.args.items(), key=default_value == Undefined, reverse=True)`, a stable sort that moves the
arguments without default to the front — `turms/plugins/strawberry.py:943-950` -/
def sortedArgs (args : List ArgDef) : List ArgDef :=
  pySorted (fun a b => a.default.isNone || !b.default.isNone) args

/-- the arguments of a resolver — `turms/plugins/strawberry.py:952-969` -/
def resolverArgs (c : Ctx) (cls : String) : List ArgDef → Gen (List Arg × List Expr)
  | [] => pure ([], [])
  | a :: as => do
    let n ← parameterName c.env a.name
    let t ← argAnnotation c cls a.type a.default.isNone
    let rest ← resolverArgs c cls as
    pure (⟨n, some t⟩ :: rest.1, (a.default.map PyDefault.expr).toList ++ rest.2)

/-- the root types, by name — `turms/plugins/strawberry.py:990` -/
def rootNames : List String := ["Mutation", "Subscription", "Query"]

/-- the return annotation: subscriptions return generators — `turms/plugins/strawberry.py:1023-1035` -/
def resolverReturns (typename : String) (a : Expr) : Gen Expr :=
  if typename == "Subscription" then do
    registerImport "typing.AsyncGenerator"
    pure (sub "AsyncGenerator" (.tuple [a, .name "None"]))
  else pure a

/-- the decorator of a resolver — `turms/plugins/strawberry.py:1014-1045` -/
def resolverDecorator (typename : String) (kws : List (Option String × Expr)) : Expr :=
  .call (.name (if typename == "Mutation" then "strawberry.mutation"
    else if typename == "Subscription" then "strawberry.subscription" else "strawberry.field")) [] kws

/-- a plain field or a resolver — `turms/plugins/strawberry.py:990-1061` -/
def fieldStmt (c : Ctx) (typename : String) (f : FieldDef) (args : List Arg) (defaults : List Expr) (ret : Expr)
    (kws : List (Option String × Expr)) : Gen Stmt :=
  if args.isEmpty && !rootNames.contains typename then do
    let n ← nodeName c.env f.name
    pure (.annAssign n ret (fieldCall kws))
  else do
    let ret ← resolverReturns typename ret
    let n ← nodeName c.env f.name
    pure (.funcDef (typename == "Subscription") n (⟨"self", none⟩ :: args) defaults
      (descriptionStmts f.description ++ [.return_ (.const .none)]) [resolverDecorator typename kws] (some ret))

/-- one field of an object or interface — `turms/plugins/strawberry.py:919-1063` -/
def strawberryField (c : Ctx) (p : StrawberryConfig) (sd : SchemaDirectives) (typename cls : String) (f : FieldDef) :
    Gen Stmt := do
  let a ← resolverArgs c cls (sortedArgs f.args)
  let ret ← resolverAnnotation c cls f.type true
  let kws ← directiveKeywords p (sd.onField typename f.name)
  fieldStmt c typename f a.1 a.2 ret (metadataKeywords f.description f.deprecation ++ kws)

/-- the loop over the fields -/
def strawberryFields (c : Ctx) (p : StrawberryConfig) (sd : SchemaDirectives) (typename cls : String) :
    List FieldDef → Gen (List Stmt)
  | [] => pure []
  | f :: fs => do
    let s ← strawberryField c p sd typename cls f
    let ss ← strawberryFields c p sd typename cls fs
    pure (s :: ss)

/-- the base classes for the interfaces — `turms/plugins/strawberry.py:899-911` (the maps collected on the way
are not used) -/
def strawberryBases (c : Ctx) (all : List String) : List String → Gen (List Expr)
  | [] => pure []
  | i :: is =>
    if !extendedByOthers c.schema i (all.filter (· != i)) then do
      let b ← inheritInterface i
      let bs ← strawberryBases c all is
      pure (.name b :: bs)
    else strawberryBases c all is

/-- the class of an object or interface — `turms/plugins/strawberry.py:883-889` -/
def strawberryClassName (env : Env) (t : CompositeType) : Gen String :=
  if t.isInterface then generateInterface env t.name false else generateClass env .object t.name

/-- one object or interface — `turms/plugins/strawberry.py:866-1073` -/
def strawberryType (c : Ctx) (p : StrawberryConfig) (sd : SchemaDirectives) (t : CompositeType) : Gen (List Stmt) := do
  let extra ← additionalBasesFor c t.name
  if p.skipUnderscore && underscored t.name then pure []
  else if p.skipDoubleUnderscore && doubleUnderscored t.name then pure []
  else do
    let kws ← directiveKeywords p (sd.onType t.name)
    let cls ← strawberryClassName c.env t
    let bs ← strawberryBases c t.interfaces t.interfaces
    let fs ← strawberryFields c p sd t.name cls t.fields
    let cfg ← generatePydanticConfig c .object (some t.name)
    pure [.classDef cls (extra ++ bs) (descriptionStmts t.description ++ fs ++ cfg)
      [decorator (if t.isInterface then "strawberry.interface" else "strawberry.type") kws]]

/-- the loop -/
def strawberryTypeLoop (c : Ctx) (p : StrawberryConfig) (sd : SchemaDirectives) : List CompositeType → Gen (List Stmt)
  | [] => pure []
  | t :: ts => do
    let s ← strawberryType c p sd t
    let ss ← strawberryTypeLoop c p sd ts
    pure (s ++ ss)

/-- `generate_types` — `turms/plugins/strawberry.py:842-1075` -/
def strawberryTypes (c : Ctx) (p : StrawberryConfig) (sd : SchemaDirectives) : Gen (List Stmt) := do
  registerImport "strawberry"
  strawberryTypeLoop c p sd (sortedComposites c.schema)

/-- a scalar of the schema -/
structure ScalarType where
  name : String
  description : Option String

/-- the scalars to generate — `turms/plugins/strawberry.py:1084-1089` -/
def customScalars (p : StrawberryConfig) (s : Schema) : List ScalarType :=
  s.types.filterMap fun e => match e.2.defn with
    | .scalar => if p.builtinScalars.contains e.1 then none else some ⟨e.1, e.2.description⟩
    | _ => none

/-- one scalar — `turms/plugins/strawberry.py:1096-1156` -/
def strawberryScalar (p : StrawberryConfig) (sd : SchemaDirectives) (t : ScalarType) : Gen Stmt := do
  let kws ← directiveKeywords p (sd.onType t.name)
  registerScalar t.name t.name
  pure (.assign (.name t.name) (.call (.name "strawberry.scalar")
    [.call (.name "NewType") [.str t.name, .name "str"] []]
    (kws ++ (match nonBlank t.description with
      | some d => [(some "description", Expr.str d)]
      | none => []) ++ [(some "serialize", .lambda (.name "value")), (some "parse_value", .lambda (.name "value"))])))

/-- the loop -/
def strawberryScalarLoop (p : StrawberryConfig) (sd : SchemaDirectives) : List ScalarType → Gen (List Stmt)
  | [] => pure []
  | t :: ts => do
    let s ← strawberryScalar p sd t
    let ss ← strawberryScalarLoop p sd ts
    pure (s :: ss)

/-- `generate_scalars` — `turms/plugins/strawberry.py:1078-1158` -/
def strawberryScalars (c : Ctx) (p : StrawberryConfig) (sd : SchemaDirectives) : Gen (List Stmt) :=
  match customScalars p c.schema with
  | [] => pure []
  | t :: ts => do
    registerImport "typing.NewType"
    strawberryScalarLoop p sd (t :: ts)

/-- `... if enabled else []` -/
def whenEnabled (b : Bool) (g : Gen (List Stmt)) : Gen (List Stmt) := if b then g else pure []

/-- `StrawberryPlugin.generate_ast` — `turms/plugins/strawberry.py:1174-1217`: the scalars depend on
`generate_directives`, not on `generate_scalars` -/
def strawberryPlugin (c : Ctx) (p : StrawberryConfig) (sd : SchemaDirectives) : Gen (List Stmt) := do
  registerImport "strawberry"
  let ds ← whenEnabled p.generateDirectives (strawberryDirectives c p sd.defined)
  let ss ← whenEnabled p.generateDirectives (strawberryScalars c p sd)
  let es ← whenEnabled p.generateEnums (strawberryEnums c p sd (enumTypes c.schema))
  let is ← whenEnabled p.generateInputs (strawberryInputs c p sd (inputTypes c.schema))
  let ts ← whenEnabled p.generateTypes (strawberryTypes c p sd)
  pure (ds ++ ss ++ es ++ is ++ ts)

end Turms
