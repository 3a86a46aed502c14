import Verif.Model.Inputs
import Verif.Model.Fragments

/-!
# Which inputs, enums and scalars the documents refer to — `turms/referencer.py`
-/

namespace Turms

/-- `ReferenceRegistry` — `turms/referencer.py:30-55`; the sets `objects` and `operations` are never filled. -/
structure RefReg where
  fragments : List String := []
  enums : List String := []
  inputs : List String := []
  scalars : List String := []
deriving DecidableEq, Repr

/-- `register_fragment` — `turms/referencer.py:42-43` -/
def RefReg.addFragment (r : RefReg) (n : String) : RefReg := { r with fragments := setAdd r.fragments n }
/-- `register_enum` — `turms/referencer.py:45-46` -/
def RefReg.addEnum (r : RefReg) (n : String) : RefReg := { r with enums := setAdd r.enums n }
/-- `register_input` — `turms/referencer.py:48-49` -/
def RefReg.addInput (r : RefReg) (n : String) : RefReg := { r with inputs := setAdd r.inputs n }
/-- `register_scalar` — `turms/referencer.py:51-52` -/
def RefReg.addScalar (r : RefReg) (n : String) : RefReg := { r with scalars := setAdd r.scalars n }

/-- the wrapper cases of `recurse_type_annotation` — `turms/referencer.py:163-185`: both kinds of type (written in
a document, taken from the schema) are unwrapped in the same way -/
def refWrapped (named : String → RefReg → Except Err RefReg) : TypeNode → RefReg → Except Err RefReg
  | .nonNull t, r => refWrapped named t r
  | .list t, r => refWrapped named t r
  | .named n, r => named n r

/-- the loop over the fields of an input type — `turms/referencer.py:200-201` -/
def refFields (named : String → RefReg → Except Err RefReg) : List InputFieldDef → RefReg → Except Err RefReg
  | [], r => .ok r
  | f :: fs, r =>
    match refWrapped named f.type r with
    | .error e => .error e
    | .ok r => refFields named fs r

/-- the named-type cases of `recurse_type_annotation` — `turms/referencer.py:171-204`, with a bound on the number of
nested input types entered. (The Python function has no bound; `refNamed_ok` shows that the bound used in
`refType` is never reached, because every input entered was unregistered before. Python's own recursion limit is
not modelled.) A name the schema does not know fails the assertion of line 173. -/
def refNamed (s : Schema) : Nat → String → RefReg → Except Err RefReg
  | depth, n, r =>
    match s.lookup n with
    | none => .error (.assertion n)
    | some .scalar => .ok (r.addScalar n)
    | some (.enum _) => .ok (r.addEnum n)
    | some (.input fields _) =>
      if r.inputs.contains n then .ok r
      else
        match depth with
        | 0 => .error (.invalid "bound")
        | depth + 1 => refFields (refNamed s depth) fields (r.addInput n)
    | some _ => .error (.other n)

/-- `recurse_type_annotation` — `turms/referencer.py:156-204` -/
def refType (s : Schema) (t : TypeNode) (r : RefReg) : Except Err RefReg :=
  refWrapped (refNamed s (s.types.length + 1)) t r

/-- `type.fields[name].type` where `type` came from `schema.get_type`: `None` and unions have no `fields`. -/
def refFieldType (d : Option TypeDef) (name : String) : Except Err TypeNode :=
  let look (fs : List FieldDef) : Except Err TypeNode :=
    match fs.find? (fun f => f.name == name) with
    | some f => .ok f.type
    | none => .error (.keyError name)
  match d with
  | some (.object fs _) => look fs
  | some (.interface fs _) => look fs
  | some (.input fs _) =>
    match fs.find? (fun f => f.name == name) with
    | some f => .ok f.type
    | none => .error (.keyError name)
  | _ => .error (.attributeError "fields")

/-- whether `fields` of the type may be read — the `isinstance` tests of `turms/referencer.py:86-93, 108-116` -/
def hasFields : Option TypeDef → Bool
  | some (.object _ _) => true
  | some (.interface _ _) => true
  | _ => false

mutual
/-- `recurse_find_references` — `turms/referencer.py:58-153`, on a field with the given name and sub-selections
and the named type of that field (the wrapper cases, lines 133-150, only unwrap). -/
def findRefs (s : Schema) (name : String) (typename : String) : List Sel → RefReg → Except Err RefReg
  | sub, r =>
    match s.lookup typename with
    | some .scalar => .ok (r.addScalar typename)
    | some (.enum _) => .ok (r.addEnum typename)
    | some (.input _ _) => .error (.other typename)
    | none => .error (.other typename)
    | some d =>
      match sub with
      | [] => .error (.other name)
      | x :: xs =>
        match findSub s d x r with
        | .error e => .error e
        | .ok r => findSubs s d xs r
/-- one sub-selection of a composite field — `turms/referencer.py:73-121` -/
def findSub (s : Schema) (d : TypeDef) : Sel → RefReg → Except Err RefReg
  | .spread n, r => .ok (r.addFragment n)
  | .inline condition sub, r => findInline s condition sub r
  | .field n _ _ sub, r =>
    if n == "__typename" then .ok r
    else if !hasFields (some d) then .error (.other n)
    else
      match refFieldType (some d) n with
      | .error e => .error e
      | .ok t => findRefs s n t.base sub r
/-- the loop — `turms/referencer.py:73` -/
def findSubs (s : Schema) (d : TypeDef) : List Sel → RefReg → Except Err RefReg
  | [], r => .ok r
  | x :: xs, r =>
    match findSub s d x r with
    | .error e => .error e
    | .ok r => findSubs s d xs r
/-- the loop over an inline fragment — `turms/referencer.py:77-105`: only its fields are looked at -/
def findInline (s : Schema) (condition : Option String) : List Sel → RefReg → Except Err RefReg
  | [], r => .ok r
  | .field n _ _ sub :: xs, r =>
    match condition with
    | none => .error (.attributeError "name")
    | some c =>
      if n == "__typename" then findInline s condition xs r
      else if !hasFields (s.lookup c) then .error (.other c)
      else
        match refFieldType (s.lookup c) n with
        | .error e => .error e
        | .ok t =>
          match findRefs s n t.base sub r with
          | .error e => .error e
          | .ok r => findInline s condition xs r
  | .spread _ :: xs, r => findInline s condition xs r
  | .inline _ _ :: xs, r => findInline s condition xs r
end

/-- a field at the top of a fragment or operation — `turms/referencer.py:227-238, 243-252, 262-271` -/
def refTopField (s : Schema) (d : Option TypeDef) (n : String) (sub : List Sel) (r : RefReg) : Except Err RefReg :=
  if n == "__typename" then .ok r
  else
    match refFieldType d n with
    | .error e => .error e
    | .ok t => findRefs s n t.base sub r

/-- the fields of an inline fragment at the top of a fragment — `turms/referencer.py:239-252` -/
def refTopInline (s : Schema) (d : Option TypeDef) : List Sel → RefReg → Except Err RefReg
  | [], r => .ok r
  | .field n _ _ sub :: xs, r =>
    match refTopField s d n sub r with
    | .error e => .error e
    | .ok r => refTopInline s d xs r
  | _ :: xs, r => refTopInline s d xs r

/-- the selections of a fragment — `turms/referencer.py:224-252` -/
def refFragment (s : Schema) (d : Option TypeDef) : List Sel → RefReg → Except Err RefReg
  | [], r => .ok r
  | .field n _ _ sub :: xs, r =>
    match refTopField s d n sub r with
    | .error e => .error e
    | .ok r => refFragment s d xs r
  | .inline condition sub :: xs, r =>
    match condition with
    | none => .error (.attributeError "name")
    | some c =>
      match refTopInline s (s.lookup c) sub r with
      | .error e => .error e
      | .ok r => refFragment s d xs r
  | .spread _ :: xs, r => refFragment s d xs r

/-- the selections of an operation — `turms/referencer.py:260-271` -/
def refOperationSels (s : Schema) (d : Option TypeDef) : List Sel → RefReg → Except Err RefReg
  | [], r => .ok r
  | .field n _ _ sub :: xs, r =>
    match refTopField s d n sub r with
    | .error e => .error e
    | .ok r => refOperationSels s d xs r
  | _ :: xs, r => refOperationSels s d xs r

/-- the variables of an operation — `turms/referencer.py:257-258` -/
def refVariables (s : Schema) : List VarDef → RefReg → Except Err RefReg
  | [], r => .ok r
  | v :: vs, r =>
    match refType s v.type r with
    | .error e => .error e
    | .ok r => refVariables s vs r

/-- `schema.get_root_type` (third-party) -/
def Schema.root (s : Schema) : OpKind → Option String
  | .query => s.query
  | .mutation => s.mutation
  | .subscription => s.subscription

/-- `operations[definition.name.value] = definition` for all operations — `turms/referencer.py:220-221`: a later
operation of the same name replaces an earlier one, an anonymous operation has no `name.value`. -/
def operationDefinitions : Document → Dict OpDef → Except Err (Dict OpDef)
  | [], d => .ok d
  | .fragment _ :: rest, d => operationDefinitions rest d
  | .operation o :: rest, d =>
    match o.name with
    | none => .error (.attributeError "value")
    | some n => operationDefinitions rest (d.set n o)

/-- the loop over the fragments — `turms/referencer.py:223-252` -/
def refFragments (s : Schema) : Dict FragDef → RefReg → Except Err RefReg
  | [], r => .ok r
  | (_, f) :: fs, r =>
    match refFragment s (s.lookup f.typeCondition) f.sels r with
    | .error e => .error e
    | .ok r => refFragments s fs r

/-- the loop over the operations — `turms/referencer.py:254-271` -/
def refOperations (s : Schema) : Dict OpDef → RefReg → Except Err RefReg
  | [], r => .ok r
  | (_, o) :: os, r =>
    match refVariables s o.vars r with
    | .error e => .error e
    | .ok r =>
      match refOperationSels s ((s.root o.kind).bind s.lookup) o.sels r with
      | .error e => .error e
      | .ok r => refOperations s os r

/-- `create_reference_registry_from_documents` — `turms/referencer.py:207-273` -/
def createReferenceRegistry (s : Schema) (document : Document) : Except Err RefReg :=
  match operationDefinitions document [] with
  | .error e => .error e
  | .ok ops =>
    match refFragments s (Fragments.fragmentDefinitions document []) {} with
    | .error e => .error e
    | .ok r => refOperations s ops r

end Turms
