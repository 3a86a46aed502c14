import Verif.Model.Recurse
import Verif.Model.Fragments
import Verif.Model.Documents

/-!
# The fragments plugin (`turms/plugins/fragments.py`): `generate_fragment`

`prep` is `auto_add_typename_field_to_fragment_str` (it parses and prints, third party).
-/

namespace Turms

/-- `FragmentsPluginConfig` — `turms/plugins/fragments.py:129-136` -/
structure FragmentsConfig where
  fragmentBases : List String := []
  objectBases : List String := []
  addDocumentation : Bool := true
  generateMetaClass : Bool := true

/-- `get_fragment_bases` — `turms/plugins/fragments.py:139-170` -/
def fragmentBasesOf (c : Ctx) (p : FragmentsConfig) (isObject : Bool) : Gen (List Expr) := do
  registerImports p.fragmentBases
  registerImports (if isObject then p.objectBases else [])
  registerImports c.config.objectBases
  pure (baseNames p.fragmentBases ++ baseNames (if isObject then p.objectBases else []) ++
    baseNames c.config.objectBases)

/-- `register_fragment_type` — `turms/registry.py:442-443` -/
def registerFragmentType (fragment typename : String) : Gen Unit := fun r =>
  .ok ((), { r with fragmentTypeMap := r.fragmentTypeMap.set fragment typename })

/-- `register_interface_fragment_implementations` — `turms/registry.py:445-448` -/
def registerImplementations (fragment : String) (m : Dict String) : Gen Unit := fun r =>
  .ok ((), { r with interfaceFragmentImpl := r.interfaceFragmentImpl.set fragment m })

/-- `register_union_fragment_members` — `turms/registry.py:453-456` -/
def registerUnionMembers (fragment : String) (m : Dict String) : Gen Unit := fun r =>
  .ok ((), { r with unionFragmentMembers := r.unionFragmentMembers.set fragment m })

/-- the documentation of a fragment's type — `turms/plugins/fragments.py:206-213, 384-387` -/
def fragmentDoc (p : FragmentsConfig) (description : Option String) : Stmt :=
  docStmt (if p.addDocumentation then description else none)

/-- One selection of a fragment on an interface — `turms/plugins/fragments.py:227-297`.  Differs from
`interfaceSel` in accepting an inline fragment on any type (only those on implementing object types have an
effect). -/
def fragInterfaceSel (c : Ctx) (fields : List FieldDef) (name : String) : Sel → Gen InterfaceParts
  | .inline (some t) sub => do
    let x ← inlineSels c t name sub
    pure ⟨[], [], [(t, x.1)], x.2⟩
  | s => interfaceSel c fields name s

/-- the loop -/
def fragInterfaceSels (c : Ctx) (fields : List FieldDef) (name : String) : List Sel → Gen InterfaceParts
  | [] => pure {}
  | s :: rest => do
    let a ← fragInterfaceSel c fields name s
    let p ← fragInterfaceSels c fields name rest
    pure (a.append p)

/-- one implementing class of an interface fragment — `turms/plugins/fragments.py:334-371` -/
def fragImplementingClass (c : Ctx) (name : String) (p : InterfaceParts) (i : Implementation) : Gen Stmt := do
  let extra ← additionalBasesFor c i.name
  let ib ← interfaceBasesOf c
  let tn ← typenameField c i.name
  pure (.classDef (name ++ i.name) (names (p.basesFor i.name) ++ [.name (name ++ "Base")] ++ extra ++ ib)
    (docStmt i.description :: tn :: p.bodyFor i.name) [])

/-- the loop over the implementing types -/
def fragImplementingClasses (c : Ctx) (name : String) (p : InterfaceParts) :
    List Implementation → Gen (List Stmt)
  | [] => pure []
  | i :: is => do
    let s ← fragImplementingClass c name p i
    let rest ← fragImplementingClasses c name p is
    pure (s :: rest)

/-- A fragment on an interface — `turms/plugins/fragments.py:198-379`. -/
def interfaceFragment (c : Ctx) (p : FragmentsConfig) (f : FragDef) (name : String)
    (description : Option String) (fields : List FieldDef) : Gen (List Stmt) := do
  let extra ← additionalBasesFor c f.typeCondition
  let q ← fragInterfaceSels c fields name f.sels
  let ib ← interfaceBasesOf c
  let tn ← genericTypenameField c
  let mother := fragmentDoc p description :: q.body
  let impls ← fragImplementingClasses c name q (implementations c.schema f.typeCondition)
  registerImplementations f.name
    ((implementations c.schema f.typeCondition).foldl (fun m i => m.set i.name (name ++ i.name)) [])
  pure (q.classes ++ [.classDef (name ++ "Base") (extra ++ ib) mother [],
      .classDef (name ++ "Catch") [.name (name ++ "Base")]
        (.expr (.str ("Catch all class for " ++ name ++ "Base")) :: tn :: mother) []] ++ impls)

/-- the base class a spread contributes to a fragment on an object — `turms/plugins/fragments.py:394-420` -/
def fragSpreadBase (fragment typename : String) : Gen String := fun r =>
  match r.interfaceFragmentImpl.get? fragment with
  | some m =>
    match m.get? typename with
    | some cls => .ok (cls, r)
    | none => .error (.other fragment)
  | none => inheritFragment fragment r

/-- `get_field_def` with an assertion — `turms/plugins/fragments.py:427-428` -/
def assertFieldDef (s : Schema) (typename name : String) : Gen FieldDef :=
  match getFieldDef s typename name with
  | some f => pure f
  | none => Gen.fail (.assertion name)

/-- One selection of a fragment on an object — `turms/plugins/fragments.py:391-438`. Inline fragments are
skipped. -/
def fragObjectSel (c : Ctx) (typename name : String) : Sel → Gen ObjectParts
  | .spread f => do
    let b ← fragSpreadBase f typename
    pure ⟨[b], [], []⟩
  | .inline _ _ => pure {}
  | .field fname alias _ sub =>
    if fname == "__typename" then pure {}
    else do
      let fd ← assertFieldDef c.schema typename fname
      let x ← typeFieldNode c name fd fname alias sub
      pure ⟨[], x.1, x.2⟩

/-- the loop -/
def fragObjectSels (c : Ctx) (typename name : String) : List Sel → Gen ObjectParts
  | [] => pure {}
  | s :: rest => do
    let a ← fragObjectSel c typename name s
    let p ← fragObjectSels c typename name rest
    pure (a.append p)

/-- `registry.fragment_document_map` as texts -/
def documentTexts (r : Reg) : Dict (List Char) := r.fragmentDocumentMap.map fun p => (p.1, p.2.toList)

/-- `replace_iteratively(print_ast(node), registry)` -/
def mergedDocument (prep : List Char → List Char) (text : List Char) : Gen String := fun r =>
  match Documents.embedDocument prep (documentTexts r) text with
  | .ok t => .ok (String.ofList t, r)
  | .error e => .error e

/-- the `Meta` class of a fragment on an object — `turms/plugins/fragments.py:440-470` -/
def fragmentMeta (prep : List Char → List Char) (p : FragmentsConfig) (f : FragDef) : Gen (List Stmt) :=
  if p.generateMetaClass then do
    let doc ← mergedDocument prep (Documents.printFragment f)
    pure [.classDef "Meta" [] [.expr (.str ("Meta class for " ++ f.name)),
      .assign (.name "document") (.str doc), .assign (.name "name") (.str f.name),
      .assign (.name "type") (.str f.typeCondition)] []]
  else pure []

/-- A fragment on an object — `turms/plugins/fragments.py:381-491`: the classes of spread fragments are
*prepended* one by one, so they end up in reverse order. -/
def objectFragment (prep : List Char → List Char) (c : Ctx) (p : FragmentsConfig) (f : FragDef) (name : String)
    (description : Option String) : Gen (List Stmt) := do
  let extra ← additionalBasesFor c f.typeCondition
  let tn ← typenameField c f.typeCondition
  let q ← fragObjectSels c f.typeCondition name f.sels
  let meta_ ← fragmentMeta prep p f
  let fb ← fragmentBasesOf c p true
  let cfg ← generatePydanticConfig c .fragment none
  pure (q.classes ++ [.classDef name (names q.bases.reverse ++ extra ++ fb)
    (fragmentDoc p description :: tn :: (q.body ++ cfg ++ meta_)) []])

/-- `registry.get_union_fragment_members(...)`, raising `KeyError` — `turms/registry.py:458-459` -/
def unionMembersOf (fragment : String) : Gen (List (String × String)) := fun r =>
  match r.unionFragmentMembers.get? fragment with
  | some m => .ok (m, r)
  | none => .error (.keyError fragment)

/-- One selection of an inline fragment of a fragment on a union — `turms/plugins/fragments.py:528-563`: a
spread contributes the *fragment's name* as a base class; nested inline fragments are skipped. -/
def fragUnionInlineSel (c : Ctx) (typename name : String) : Sel → Gen ObjectParts
  | .spread f => pure ⟨[f], [], []⟩
  | .inline _ _ => pure {}
  | .field fname alias _ sub =>
    if fname == "__typename" then pure {}
    else do
      let fd ← assertFieldDef c.schema typename fname
      let x ← typeFieldNode c name fd fname alias sub
      pure ⟨[], x.1, x.2⟩

/-- the loop -/
def fragUnionInlineSels (c : Ctx) (typename name : String) : List Sel → Gen ObjectParts
  | [] => pure {}
  | s :: rest => do
    let a ← fragUnionInlineSel c typename name s
    let p ← fragUnionInlineSels c typename name rest
    pure (a.append p)

/-- One selection of a fragment on a union — `turms/plugins/fragments.py:505-567`. -/
def fragUnionSel (c : Ctx) (name : String) : Sel → Gen InterfaceParts
  | .spread f => do
    let bs ← unionMembersOf f
    pure ⟨[], bs, [], []⟩
  | .inline none _ => Gen.fail (.attributeError "type_condition")
  | .inline (some t) sub => do
    let q ← fragUnionInlineSels c t name sub
    pure ⟨[], q.bases.map fun b => (t, b), [(t, q.body)], q.classes⟩
  | .field fname _ _ _ => if fname == "__typename" then pure {} else Gen.fail (.assertion fname)

/-- the loop -/
def fragUnionSels (c : Ctx) (name : String) : List Sel → Gen InterfaceParts
  | [] => pure {}
  | s :: rest => do
    let a ← fragUnionSel c name s
    let p ← fragUnionSels c name rest
    pure (a.append p)

/-- one member class of a union fragment — `turms/plugins/fragments.py:571-597` -/
def fragMemberClass (c : Ctx) (p : FragmentsConfig) (name : String) (q : InterfaceParts) (member : String) :
    Gen Stmt := do
  let fb ← fragmentBasesOf c p false
  let tn ← typenameField c member
  pure (.classDef (name ++ member) (names (q.basesFor member) ++ fb) (tn :: q.bodyFor member) [])

/-- the loop over the members -/
def fragMemberClasses (c : Ctx) (p : FragmentsConfig) (name : String) (q : InterfaceParts) :
    List String → Gen (List Stmt)
  | [] => pure []
  | m :: ms => do
    let s ← fragMemberClass c p name q m
    let rest ← fragMemberClasses c p name q ms
    pure (s :: rest)

/-- A fragment on a union — `turms/plugins/fragments.py:493-628`. -/
def unionFragment (c : Ctx) (p : FragmentsConfig) (f : FragDef) (name : String)
    (description : Option String) (members : List String) : Gen (List Stmt) := do
  let _ ← additionalBasesFor c f.typeCondition
  let q ← fragUnionSels c name f.sels
  let ms ← fragMemberClasses c p name q members
  registerUnionMembers f.name (members.foldl (fun m i => m.set i (name ++ i)) [])
  registerImport "typing.Union"
  pure (q.classes ++ ms ++ [.assign (.name name) (sub "Union" (.tuple (names (members.map (name ++ ·)))))] ++
    (if truthy description && p.addDocumentation then [.expr (.str (description.getD ""))] else []))

/-- the three cases of `generate_fragment`; any other type makes the function return `None`, on which
`plugin_tree += ...` raises -/
def fragmentBody (prep : List Char → List Char) (c : Ctx) (p : FragmentsConfig) (f : FragDef) (name : String) :
    TypeEntry → Gen (List Stmt)
  | ⟨.interface fs _, d⟩ => interfaceFragment c p f name d fs
  | ⟨.object _ _, d⟩ => objectFragment prep c p f name d
  | ⟨.union ms, d⟩ => unionFragment c p f name d ms
  | _ => Gen.fail (.typeError f.typeCondition)

/-- `generate_fragment` — `turms/plugins/fragments.py:173-628`. -/
def generateFragment (prep : List Char → List Char) (c : Ctx) (p : FragmentsConfig) (f : FragDef) :
    Gen (List Stmt) :=
  match c.schema.types.get? f.typeCondition with
  | none => Gen.fail (.other f.typeCondition)
  | some e => do
    let name ← generateClass c.env .fragment f.name
    registerFragmentDocument f.name (String.ofList (Documents.printFragment f))
    registerFragmentType f.name f.typeCondition
    fragmentBody prep c p f name e

/-- the loop of `FragmentsPlugin.generate_ast` — `turms/plugins/fragments.py:679-682` -/
def generateFragments (prep : List Char → List Char) (c : Ctx) (p : FragmentsConfig) :
    List FragDef → Gen (List Stmt)
  | [] => pure []
  | f :: fs => do
    let s ← generateFragment prep c p f
    let rest ← generateFragments prep c p fs
    pure (s ++ rest)

/-- `FragmentsPlugin.generate_ast` — `turms/plugins/fragments.py:652-684`, on the document
`parse_documents` returns. -/
def fragmentsPlugin (prep : List Char → List Char) (c : Ctx) (p : FragmentsConfig) (document : Document) :
    Gen (List Stmt) := do
  let fs ← Gen.lift (Fragments.orderedFragments document)
  generateFragments prep c p fs

end Turms
