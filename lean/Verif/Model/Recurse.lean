import Verif.Model.Objects

/-!
# Models of responses: `recurse_annotation` and `type_field_node` (`turms/recurse.py`)

`recurse_annotation(node, parent, type, ...)` returns an annotation and appends classes to `subtree`; here a
generator returns the annotation together with the classes it appends, in order.

Simplifications: a lambda passed to `wrapOutput` plays the role of the recursive call on the wrapped type;
`registry.warn` is dropped; the two dictionaries of lists of the interface case are kept as lists of pairs in
insertion order (they are only read with `.get(typename, [])`); the field statements of an inline fragment on
an interface are appended to the class body as one nested list by the code, which `ast.unparse` flattens, so
they are concatenated here.
-/

namespace Turms

/-- `str.capitalize`: first character upper case, the others *lower* case (names are ASCII) -/
def pyCapitalize (s : String) : String :=
  match s.toList with
  | [] => ""
  | c :: cs => String.ofList (c.toUpper :: cs.map Char.toLower)

/-- `isinstance(field, FieldNode) and field.name.value == "__typename"` — `turms/utils.py:108` -/
def Sel.isTypenameField : Sel → Bool
  | .field n _ _ _ => n == "__typename"
  | _ => false

/-- `non_typename_fields` — `turms/utils.py:99-109` -/
def nonTypenameFields (sels : List Sel) : List Sel := sels.filter fun s => !s.isTypenameField

/-- the keyword `exclude=True` of the typename fields — `turms/utils.py:158-159, 188-189` -/
def excludeKeyword (c : Ctx) : List (Option String × Expr) :=
  if c.config.excludeTypenames then [(some "exclude", .const (.bool true))] else []

/-- the three imports of the typename fields — `turms/utils.py:150-152, 180-182` -/
def typenameImports : Gen Unit := do
  registerImport "pydantic.Field"
  registerImport "typing.Optional"
  registerImport "typing.Literal"

/-- the declaration `generate_typename_field` builds -/
def typenameStmt (c : Ctx) (typename : String) : Stmt :=
  .annAssign "typename" (sub "Literal" (.str typename))
    (some (.call (.name "Field") []
      ([(some "alias", .str "__typename"), (some "default", .str typename)] ++ excludeKeyword c)))

/-- `generate_typename_field` — `turms/utils.py:145-174` -/
def typenameField (c : Ctx) (typename : String) : Gen Stmt := do
  typenameImports
  pure (typenameStmt c typename)

/-- the declaration `generate_generic_typename_field` builds -/
def genericTypenameStmt (c : Ctx) : Stmt :=
  .annAssign "typename" (.name "str")
    (some (.call (.name "Field") [] ((some "alias", .str "__typename") :: excludeKeyword c)))

/-- `generate_generic_typename_field` — `turms/utils.py:177-199` -/
def genericTypenameField (c : Ctx) : Gen Stmt := do
  typenameImports
  pure (genericTypenameStmt c)

/-- `ast.Expr(Constant(type.description))` or `"No documentation"` — `turms/recurse.py:219-226, 299-303,
461-464` -/
def docStmt (description : Option String) : Stmt :=
  .expr (.str (if truthy description then description.getD "" else "No documentation"))

/-- `type.fields[name]` -/
def fieldNamed (name : String) (fields : List FieldDef) : Gen FieldDef :=
  match fields.find? (·.name == name) with
  | some f => pure f
  | none => Gen.fail (.keyError name)

/-- the fields of an object or interface type -/
def Schema.fieldsOf (s : Schema) (typename : String) : Option (List FieldDef) :=
  match s.lookup typename with
  | some (.object fs _) => some fs
  | some (.interface fs _) => some fs
  | _ => none

/-- graphql-core's `get_field_def(schema, parent_type, field_node)`: the introspection meta-fields, else
the field of that name. -/
def getFieldDef (s : Schema) (typename name : String) : Option FieldDef :=
  if name == "__schema" && s.query == some typename then
    some { name := "__schema", type := .nonNull (.named "__Schema") }
  else if name == "__type" && s.query == some typename then
    some { name := "__type", type := .named "__Type" }
  else if name == "__typename" then
    some { name := "__typename", type := .nonNull (.named "String") }
  else ((s.fieldsOf typename).getD []).find? (·.name == name)

/-- an object type implementing an interface -/
structure Implementation where
  name : String
  description : Option String := none

/-- `client_schema.get_implementations(type).objects`: the object types declaring the interface, in
`type_map` order -/
def implementations (s : Schema) (iface : String) : List Implementation :=
  s.types.filterMap fun p => match p.2.defn with
    | .object _ is => if is.contains iface then some ⟨p.1, p.2.description⟩ else none
    | _ => none

/-- The wrapper cases of `recurse_annotation` — `turms/recurse.py:602-659`: `!` clears `is_optional`, a list
is a `Tuple[x, ...]` if `freeze` is enabled and a `List[x]` otherwise. -/
def wrapOutput (c : Ctx) (leaf : String → Bool → Gen (Expr × List Stmt)) :
    TypeNode → Bool → Gen (Expr × List Stmt)
  | .nonNull t, _ => wrapOutput c leaf t false
  | .list t, opt => do
    listImport c.config.freeze.enabled
    let x ← wrapOutput c leaf t true
    let e ← optionalWrap opt (listBuilder c.config.freeze.enabled x.1)
    pure (e, x.2)
  | .named n, opt => leaf n opt

/-- `type_field_node` after the annotation has been computed — `turms/recurse.py:731-784` -/
def finishField (c : Ctx) (fieldName target : String) (fd : FieldDef) (annotation : Expr) : Gen (List Stmt) := do
  let a ← annotateFieldMetadata c.env annotation none fd.deprecation
  let v ← objectFieldValue fieldName { fd with name := target }
  let doc := composeFieldDocumentation fd.description fd.deprecation none c.config.documentFieldMetadata
  pure (.annAssign fieldName a v :: (if truthy doc then [.expr (.str (doc.getD ""))] else []))

/-- `type_field_node` — `turms/recurse.py:683-784`; `leaf` is `recurse_annotation` on the named type of the
field. -/
def typeField (c : Ctx) (fd : FieldDef) (target : String) (leaf : String → Bool → Gen (Expr × List Stmt)) :
    Gen (List Stmt × List Stmt) := do
  let fieldName ← nodeName c.env target
  let x ← wrapOutput c leaf fd.type true
  let s ← finishField c fieldName target fd x.1
  pure (s, x.2)

/-- `registry.get_interface_fragment_implementation_or_none(...)`, else `registry.inherit_fragment(...)` —
`turms/recurse.py:508-526` -/
def spreadBase (fragment typename : String) : Gen String := do
  let impl ← getInterfaceFragmentImplementationOrNone fragment typename
  match impl with
  | some i => pure i
  | none => inheritFragment fragment

/-- the reference a selection set consisting of one spread collapses to — `turms/recurse.py:471-499` -/
def collapseReference (c : Ctx) (parent fragment typename : String) : Gen Expr := do
  let impl ← getInterfaceFragmentImplementationOrNone fragment typename
  match impl with
  | some i => pure (.name i)
  | none => referenceGeneric c.env .fragment fragment parent

/-- The classes a fragment spread contributes to the implementing types of an interface: the pairs
(type, class) appended to `implementing_class_base_classes` — `turms/recurse.py:234-252`,
`turms/plugins/fragments.py:229-247`. -/
def spreadImplementations (fragment : String) : Gen (List (String × String)) := fun r =>
  match r.interfaceFragmentImpl.get? fragment with
  | some m => .ok (m, r)
  | none =>
    match r.fragmentTypeMap.get? fragment with
    | none => .error (.keyError fragment)
    | some t =>
      match inheritFragment fragment r with
      | .error e => .error e
      | .ok (cls, r) => .ok ([(t, cls)], r)

/-- what a selection set contributes to an object class: base classes, body, classes of nested selections -/
structure ObjectParts where
  bases : List String := []
  body : List Stmt := []
  classes : List Stmt := []

/-- sequential composition -/
def ObjectParts.append (a b : ObjectParts) : ObjectParts :=
  ⟨a.bases ++ b.bases, a.body ++ b.body, a.classes ++ b.classes⟩

/-- what a selection set contributes to the classes of an interface -/
structure InterfaceParts where
  body : List Stmt := []
  implBases : List (String × String) := []
  inlineBodies : List (String × List Stmt) := []
  classes : List Stmt := []

/-- sequential composition -/
def InterfaceParts.append (a b : InterfaceParts) : InterfaceParts :=
  ⟨a.body ++ b.body, a.implBases ++ b.implBases, a.inlineBodies ++ b.inlineBodies, a.classes ++ b.classes⟩

/-- `implementing_class_base_classes.get(typename, [])` -/
def InterfaceParts.basesFor (p : InterfaceParts) (typename : String) : List String :=
  (p.implBases.filter fun q => q.1 == typename).map (·.2)

/-- `inline_fragment_fields.get(typename, [])`, flattened -/
def InterfaceParts.bodyFor (p : InterfaceParts) (typename : String) : List Stmt :=
  ((p.inlineBodies.filter fun q => q.1 == typename).map (·.2)).flatten

/-- `[ast.Name(id=x) for x in names]` -/
def names (l : List String) : List Expr := l.map .name

/-- the first bases of an object class: those contributed by spreads, else the ones configured for the type —
`turms/recurse.py:149-154, 543-547` -/
def spreadOrAdditional (c : Ctx) (typename : String) (bases : List String) : Gen (List Expr) :=
  if bases.isEmpty then additionalBasesFor c typename else pure (names bases)

/-- the object case after the selections have been walked — `turms/recurse.py:545-588` -/
def finishObject (c : Ctx) (cls typename : String) (description : Option String) (tn : Stmt) (p : ObjectParts)
    (opt : Bool) : Gen (Expr × List Stmt) := do
  let bases ← spreadOrAdditional c typename p.bases
  let cfg ← generatePydanticConfig c .object none
  let e ← optionalWrap opt (.name cls)
  pure (e, p.classes ++ [.classDef cls (bases ++ baseNames c.config.objectBases)
    (docStmt description :: tn :: (p.body ++ cfg)) []])

/-- The object case of `recurse_annotation` — `turms/recurse.py:455-588`; `walk cls` walks the selections for
the class `cls`. -/
def objectNode (c : Ctx) (parent target typename : String) (description : Option String) (sub : List Sel)
    (walk : String → Gen ObjectParts) (opt : Bool) : Gen (Expr × List Stmt) := do
  let cls := parent ++ pyCapitalize target
  let tn ← typenameField c typename
  match nonTypenameFields sub with
  | [.spread f] => do
    let x ← collapseReference c parent f typename
    let e ← optionalWrap opt x
    pure (e, [])
  | _ => do
    let p ← walk cls
    finishObject c cls typename description tn p opt

/-- one implementing class — `turms/recurse.py:292-337` -/
def implementingClass (c : Ctx) (mother : String) (p : InterfaceParts) (i : Implementation) : Gen Stmt := do
  let extra ← additionalBasesFor c i.name
  let ib ← interfaceBasesOf c
  let tn ← typenameField c i.name
  pure (.classDef (mother ++ i.name) (names (p.basesFor i.name) ++ [.name mother] ++ extra ++ ib)
    (docStmt i.description :: tn :: p.bodyFor i.name) [])

/-- the loop over the implementing types -/
def implementingClasses (c : Ctx) (mother : String) (p : InterfaceParts) : List Implementation → Gen (List Stmt)
  | [] => pure []
  | i :: is => do
    let s ← implementingClass c mother p i
    let rest ← implementingClasses c mother p is
    pure (s :: rest)

/-- `Annotated[Union[...], Field(discriminator="typename")]` — `turms/recurse.py:342-375` -/
def taggedUnion (classes : List String) : Expr :=
  sub "Annotated" (.tuple [sub "Union" (.tuple (names classes)),
    .call (.name "Field") [] [(some "discriminator", .str "typename")]])

/-- the catch-all class and the final union — `turms/recurse.py:377-434` -/
def catchAll (c : Ctx) (mother : String) (tagged : Expr) : Gen (Expr × List Stmt) :=
  if c.config.createCatchall then do
    let ib ← interfaceBasesOf c
    let tn ← genericTypenameField c
    registerImport "typing.Union"
    pure (sub "Union" (.tuple [tagged, .name (mother ++ "CatchAll")]),
      [.classDef (mother ++ "CatchAll") (.name mother :: ib)
        [.expr (.str ("Catch all class for " ++ mother)), tn] []])
  else pure (tagged, [])

/-- The interface case of `recurse_annotation` — `turms/recurse.py:209-453`; `walk base` walks the selections
with the class name prefix `base`. -/
def interfaceNode (c : Ctx) (parent target typename : String) (description : Option String)
    (walk : String → Gen InterfaceParts) (opt : Bool) : Gen (Expr × List Stmt) := do
  let base := parent ++ pyCapitalize target
  let p ← walk base
  let mother := base ++ "Base"
  let extra ← additionalBasesFor c typename
  let ib ← interfaceBasesOf c
  let cfg ← generatePydanticConfig c .fragment none
  let impls ← implementingClasses c mother p (implementations c.schema typename)
  registerImport "typing.Annotated"
  registerImport "typing.Union"
  let x ← catchAll c mother (taggedUnion ((implementations c.schema typename).map fun i => mother ++ i.name))
  let e ← optionalWrap opt x.1
  pure (e, p.classes ++ (.classDef mother (extra ++ ib) (docStmt description :: (p.body ++ cfg)) [] ::
    (impls ++ x.2)))

/-- the typename field of an inline fragment's class: only if no spread contributes a base —
`turms/recurse.py:139-147` -/
def inlineTypename (c : Ctx) (typename : String) (bases : List String) : Gen (List Stmt) :=
  if bases.isEmpty then do
    let t ← typenameField c typename
    pure [t]
  else pure []

/-- the class of an inline fragment on a union — `turms/recurse.py:129-176` -/
def inlineClass (c : Ctx) (cls typename : String) (p : ObjectParts) : Gen (List Stmt) := do
  let tn ← inlineTypename c typename p.bases
  let bases ← spreadOrAdditional c typename p.bases
  let cfg ← generatePydanticConfig c .fragment none
  let body := tn ++ p.body ++ cfg
  pure (p.classes ++ [.classDef cls (bases ++ baseNames c.config.objectBases)
    (if body.isEmpty then [.pass_] else body) []])

/-- the annotation of a union — `turms/recurse.py:178-207`: with a single class, `is_optional` is ignored -/
def unionReference (classes : List String) (opt : Bool) : Gen Expr :=
  match classes with
  | [] => Gen.fail .indexError
  | [n] => pure (.name n)
  | n :: m :: ns => do
    registerImport "typing.Union"
    optionalWrap opt (sub "Union" (.tuple (names (n :: m :: ns))))

/-- The union case of `recurse_annotation` — `turms/recurse.py:79-207`. -/
def unionNode (walk : Gen (List String × List Stmt)) (opt : Bool) : Gen (Expr × List Stmt) := do
  let p ← walk
  let e ← unionReference p.1 opt
  pure (e, p.2)

/-- `recurse_annotation` on a named type — `turms/recurse.py:79-600`.  `objs`, `ifcs` and `uns` walk the
selection set `sub` of the node in the three composite cases. -/
def namedNode (c : Ctx) (parent target : String) (sub : List Sel)
    (objs : String → List FieldDef → String → Gen ObjectParts)
    (ifcs : List FieldDef → String → Gen InterfaceParts)
    (uns : Gen (List String × List Stmt)) (n : String) (opt : Bool) : Gen (Expr × List Stmt) :=
  match c.schema.types.get? n with
  | some ⟨.scalar, _⟩ => do
    let x ← referenceScalar n
    let e ← optionalWrap opt x
    pure (e, [])
  | some ⟨.enum _, _⟩ => do
    let x ← referenceEnum c.env n parent
    let e ← optionalWrap opt x
    pure (e, [])
  | some ⟨.object fs _, d⟩ => objectNode c parent target n d sub (objs n fs) opt
  | some ⟨.interface fs _, d⟩ => interfaceNode c parent target n d (ifcs fs) opt
  | some ⟨.union _, _⟩ => unionNode uns opt
  | _ => Gen.fail (.attributeError n)

/-- `if registry.is_interface_fragment(...): raise`, else the class of the fragment —
`turms/recurse.py:97-109` -/
def inlineSpreadBase (fragment : String) : Gen String := fun r =>
  if r.interfaceFragments.contains fragment then .error (.other fragment)
  else inheritFragment fragment r

/-- `client_schema.get_type(...)` must be an object type — `turms/recurse.py:112-124` -/
def objectFieldNamed (s : Schema) (typename name : String) : Gen FieldDef :=
  match s.lookup typename with
  | some (.object fs _) => fieldNamed name fs
  | _ => Gen.fail (.notImplemented typename)

/-- `get_field_def`, raising if there is none — `turms/recurse.py:286-290` -/
def fieldDefOf (s : Schema) (typename name : String) : Gen FieldDef :=
  match getFieldDef s typename name with
  | some f => pure f
  | none => Gen.fail (.valueError name)

/-- `if not isinstance(on_type, GraphQLObjectType): raise ValueError` — `turms/recurse.py:271-273` -/
def requireObject (s : Schema) (typename : String) : Gen Unit :=
  match s.lookup typename with
  | some (.object _ _) => pure ()
  | _ => Gen.fail (.valueError typename)

/-- the class name of an inline fragment on a union — `turms/recurse.py:89-91` -/
def inlineClassName (parent typename : String) : String := parent ++ typename ++ "InlineFragment"

mutual
/-- One selection of an object — `turms/recurse.py:503-543`. -/
def objectSel (c : Ctx) (typename : String) (fields : List FieldDef) (cls : String) : Sel → Gen ObjectParts
  | .spread f => do
    let b ← spreadBase f typename
    pure ⟨[b], [], []⟩
  | .inline _ _ => Gen.fail (.notImplemented "inline fragment")
  | .field name alias _ sub =>
    if name == "__typename" then pure {}
    else do
      let fd ← fieldNamed name fields
      let x ← typeField c fd (alias.getD name) (namedNode c cls (alias.getD name) sub
        (fun n fs k => objectSels c n fs k sub) (fun fs k => interfaceSels c fs k sub) (unionSels c cls sub))
      pure ⟨[], x.1, x.2⟩
/-- the loop over the selections of an object -/
def objectSels (c : Ctx) (typename : String) (fields : List FieldDef) (cls : String) :
    List Sel → Gen ObjectParts
  | [] => pure {}
  | s :: rest => do
    let a ← objectSel c typename fields cls s
    let p ← objectSels c typename fields cls rest
    pure (a.append p)
/-- One selection of an interface — `turms/recurse.py:234-282`. -/
def interfaceSel (c : Ctx) (fields : List FieldDef) (base : String) : Sel → Gen InterfaceParts
  | .spread f => do
    let bs ← spreadImplementations f
    pure ⟨[], bs, [], []⟩
  | .inline none _ => Gen.fail (.attributeError "type_condition")
  | .inline (some t) sub => do
    requireObject c.schema t
    let x ← inlineSels c t base sub
    pure ⟨[], [], [(t, x.1)], x.2⟩
  | .field name alias _ sub =>
    if name == "__typename" then pure {}
    else do
      let fd ← fieldNamed name fields
      let x ← typeField c fd (alias.getD name) (namedNode c base (alias.getD name) sub
        (fun n fs k => objectSels c n fs k sub) (fun fs k => interfaceSels c fs k sub) (unionSels c base sub))
      pure ⟨x.1, [], [], x.2⟩
/-- the loop over the selections of an interface -/
def interfaceSels (c : Ctx) (fields : List FieldDef) (base : String) : List Sel → Gen InterfaceParts
  | [] => pure {}
  | s :: rest => do
    let a ← interfaceSel c fields base s
    let p ← interfaceSels c fields base rest
    pure (a.append p)
/-- One selection of an inline fragment on an interface — `turms/recurse.py:275-282`: everything but fields
is skipped. -/
def inlineSel (c : Ctx) (typename parent : String) : Sel → Gen (List Stmt × List Stmt)
  | .spread _ => pure ([], [])
  | .inline _ _ => pure ([], [])
  | .field name alias _ sub =>
    if name == "__typename" then pure ([], [])
    else do
      let fd ← fieldDefOf c.schema typename name
      typeField c fd (alias.getD name) (namedNode c parent (alias.getD name) sub
        (fun n fs k => objectSels c n fs k sub) (fun fs k => interfaceSels c fs k sub) (unionSels c parent sub))
/-- the loop over the selections of an inline fragment on an interface -/
def inlineSels (c : Ctx) (typename parent : String) : List Sel → Gen (List Stmt × List Stmt)
  | [] => pure ([], [])
  | s :: rest => do
    let a ← inlineSel c typename parent s
    let p ← inlineSels c typename parent rest
    pure (a.1 ++ p.1, a.2 ++ p.2)
/-- One selection of a union — `turms/recurse.py:84-176`: the names of the classes and the classes. Fields are
skipped. -/
def unionSel (c : Ctx) (parent : String) : Sel → Gen (List String × List Stmt)
  | .spread f => do
    let n ← inheritFragment f
    pure ([n], [])
  | .inline none _ => Gen.fail (.attributeError "type_condition")
  | .inline (some t) sub => do
    let p ← unionInlineSels c t (inlineClassName parent t) sub
    let s ← inlineClass c (inlineClassName parent t) t p
    pure ([inlineClassName parent t], s)
  | .field _ _ _ _ => pure ([], [])
/-- the loop over the selections of a union -/
def unionSels (c : Ctx) (parent : String) : List Sel → Gen (List String × List Stmt)
  | [] => pure ([], [])
  | s :: rest => do
    let a ← unionSel c parent s
    let p ← unionSels c parent rest
    pure (a.1 ++ p.1, a.2 ++ p.2)
/-- One selection of an inline fragment on a union — `turms/recurse.py:97-127`: nested inline fragments are
skipped. -/
def unionInlineSel (c : Ctx) (typename cls : String) : Sel → Gen ObjectParts
  | .spread f => do
    let b ← inlineSpreadBase f
    pure ⟨[b], [], []⟩
  | .inline _ _ => pure {}
  | .field name alias _ sub =>
    if name == "__typename" then pure {}
    else do
      let fd ← objectFieldNamed c.schema typename name
      let x ← typeField c fd (alias.getD name) (namedNode c cls (alias.getD name) sub
        (fun n fs k => objectSels c n fs k sub) (fun fs k => interfaceSels c fs k sub) (unionSels c cls sub))
      pure ⟨[], x.1, x.2⟩
/-- the loop over the selections of an inline fragment on a union -/
def unionInlineSels (c : Ctx) (typename cls : String) : List Sel → Gen ObjectParts
  | [] => pure {}
  | s :: rest => do
    let a ← unionInlineSel c typename cls s
    let p ← unionInlineSels c typename cls rest
    pure (a.append p)
end

/-- `recurse_annotation(node, parent, type, ..)` on a named type — `turms/recurse.py:41-600` -/
def recurseNamed (c : Ctx) (parent target : String) (sub : List Sel) : String → Bool → Gen (Expr × List Stmt) :=
  namedNode c parent target sub
    (fun n fs k => objectSels c n fs k sub) (fun fs k => interfaceSels c fs k sub) (unionSels c parent sub)

/-- `recurse_annotation` — `turms/recurse.py:41-670`: annotation and appended classes. `target` is the
response key of the node, `sub` its selection set. -/
def recurseAnnotation (c : Ctx) (parent target : String) (sub : List Sel) (t : TypeNode) (opt : Bool) :
    Gen (Expr × List Stmt) := wrapOutput c (recurseNamed c parent target sub) t opt

/-- `type_field_node(node, parent, field, ...)` — `turms/recurse.py:683-784`: the declaration (and its
comment) and the appended classes. -/
def typeFieldNode (c : Ctx) (parent : String) (fd : FieldDef) (name : String) (alias : Option String)
    (sub : List Sel) : Gen (List Stmt × List Stmt) :=
  typeField c fd (alias.getD name) (recurseNamed c parent (alias.getD name) sub)

end Turms
