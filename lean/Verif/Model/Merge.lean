import Verif.Model.Basic

/-!
# The merge processor — `turms/processors/merge.py`

libcst trees are modelled by `Node`: what the processor looks at (kind, name, body, annotated assignment
targets) is explicit, everything else (decorators, bases, parameters, comments, whitespace) is opaque text
that travels with the node.  Parsing and printing (`cst.parse_module`, `Module.code`) are parameters.
-/

namespace Turms.Merge

/-- A small statement on a `SimpleStatementLine`: an annotated assignment to a plain name, or anything else.
Simplification: annotated assignments to attributes/subscripts (`self.x: int = 1`), whose `target.value` is
not a string, are `other`. -/
inductive Small where
  | annAssign (target rest : String)
  | other (text : String)
deriving DecidableEq, Repr

/-- A libcst statement.  `head` of a class/function is everything but its name and body; `trivia` of a line
is its leading lines and trailing comment.  Simplification: class and function bodies are indented blocks
(not one-line suites). -/
inductive Node where
  | cls (name head : String) (body : List Node)
  | fn (name head : String) (body : List Node)
  | line (trivia : String) (smalls : List Small)
  | other (text : String)
deriving Repr

/-- A parsed module: comments before the first and after the last statement are kept apart by libcst. -/
structure Module where
  header : List String
  body : List Node
  footer : List String
deriving Repr

/-- `retrieve_symbol_name` — `turms/processors/merge.py:11-16`. -/
def retrieveSymbolName : List Small → Option String
  | [] => none
  | .annAssign t _ :: _ => some t
  | .other _ :: rest => retrieveSymbolName rest

/-- the name under which a class member is merged — `turms/processors/merge.py:47-54, 60-83`
(nested classes and unnamed statements have none) -/
def memberKey : Node → Option String
  | .fn name _ _ => some name
  | .line _ smalls => retrieveSymbolName smalls
  | .cls _ _ _ => none
  | .other _ => none

/-- the name under which a module level statement is merged — `turms/processors/merge.py:148-156, 160-184` -/
def topKey : Node → Option String
  | .cls name _ _ => some name
  | .fn name _ _ => some name
  | .line _ _ => none
  | .other _ => none

/-- Merging of one class member: `merge_functions`/`merge_statements` — `turms/processors/merge.py:19-36`,
called at `66` and `77`.  Combining a function with a statement line builds an ill-typed libcst node whose
`.code` raises `TypeError`. -/
def mergeMember (generated existing : Node) : Except Err Node :=
  match existing, generated with
  | .line trivia _, .line _ smalls => .ok (.line trivia smalls)
  | .line _ _, _ => .error (.typeError "body")
  | .fn _ _ body, .fn name head _ => .ok (.fn name head body)
  | .fn _ _ _, _ => .error (.typeError "body")
  | e, _ => .ok e

section
variable {α : Type}

/-- The first loop: the `OrderedDict` of generated symbols — `turms/processors/merge.py:47-54` and
`148-156`. -/
def collect (key : α → Option String) : List α → Dict α → Dict α
  | [], d => d
  | n :: ns, d =>
    match key n with
    | some k => collect key ns (d.set k n)
    | none => collect key ns d

/-- State of the second loop. -/
structure Loop (α : Type) where
  newBody : List α
  implemented : List String
  position : Dict Nat

/-- One iteration of the second loop — `turms/processors/merge.py:60-83` and `160-184`. -/
def loopStep (key : α → Option String) (merge : α → α → Except Err α) (symbols : Dict α)
    (s : Loop α) (node : α) : Except Err (Loop α) :=
  match key node with
  | none => .ok { s with newBody := s.newBody ++ [node] }
  | some name =>
    match symbols.get? name with
    | none => .ok { s with newBody := s.newBody ++ [node] }
    | some x =>
      match merge x node with
      | .error e => .error e
      | .ok m => .ok {
          newBody := s.newBody ++ [m]
          implemented := s.implemented ++ [name]
          position := s.position.set name s.newBody.length }

/-- The second loop — `turms/processors/merge.py:60-83` and `160-184`. -/
def loop (key : α → Option String) (merge : α → α → Except Err α) (symbols : Dict α) :
    List α → Loop α → Except Err (Loop α)
  | [], s => .ok s
  | n :: ns, s =>
    match loopStep key merge symbols s n with
    | .error e => .error e
    | .ok s' => loop key merge symbols ns s'

/-- The inner placement loop for one `existingkey`: the missing symbols listed before it in the generated
file (in order), and what remains missing — `turms/processors/merge.py:98-105` and `197-204`. -/
def placeOne (existingKey : String) : List String → List String → List String × List String
  | [], missing => ([], missing)
  | key :: keys, missing =>
    if existingKey = key then ([], missing)
    else if missing.contains key then
      let (moved, rest) := placeOne existingKey keys (missing.erase key)
      (key :: moved, rest)
    else placeOne existingKey keys missing

/-- The placement loop — `turms/processors/merge.py:95-105` and `194-204`.  Simplification: `beforemap` is a
list of (index, symbol) entries; `beforemap[i]` is the entries with index `i` in order. -/
def place (keys : List String) (position : Dict Nat) :
    List String → List String → Except Err (List (Nat × String) × List String)
  | [], missing => .ok ([], missing)
  | e :: es, missing =>
    let (moved, missing') := placeOne e keys missing
    match position.get e with
    | .error err => .error err
    | .ok p =>
      match place keys position es missing' with
      | .error err => .error err
      | .ok (before, rest) => .ok (moved.map (fun k => (p, k)) ++ before, rest)

/-- `for missingkey in keys: updated_body.append(symbols[missingkey])` -/
def lookupAll (symbols : Dict α) : List String → Except Err (List α)
  | [] => .ok []
  | k :: ks =>
    match symbols.get k with
    | .error e => .error e
    | .ok n =>
      match lookupAll symbols ks with
      | .error e => .error e
      | .ok ns => .ok (n :: ns)

/-- `aftermap[index]` if present — `turms/processors/merge.py:107-108, 116` and `206-207, 215`: `aftermap`
has at most one entry. -/
def afterAt (after : Option (Nat × List String)) (index : Nat) : List String :=
  match after with
  | some (i, ks) => if i = index then ks else []
  | none => []

/-- The last loop — `turms/processors/merge.py:110-118` and `209-217`. -/
def weave (symbols : Dict α) (before : List (Nat × String)) (after : Option (Nat × List String)) :
    Nat → List α → Except Err (List α)
  | _, [] => .ok []
  | index, node :: nodes =>
    match lookupAll symbols ((before.filter (fun p => p.1 == index)).map (·.2)) with
    | .error e => .error e
    | .ok pre =>
      match lookupAll symbols (afterAt after index) with
      | .error e => .error e
      | .ok post =>
        match weave symbols before after (index + 1) nodes with
        | .error e => .error e
        | .ok rest => .ok (pre ++ node :: post ++ rest)

/-- The common algorithm of `merge_class` and `merge_code` on statement lists —
`turms/processors/merge.py:39-122` and `140-221` (the two bodies are the same code, apart from the names
looked at and the way two statements are merged). -/
def mergeBody (key : α → Option String) (merge : α → α → Except Err α) (generated existing : List α) :
    Except Err (List α) :=
  let symbols := collect key generated []
  match loop key merge symbols existing ⟨[], [], []⟩ with
  | .error e => .error e
  | .ok s =>
    let missing := symbols.keys.filter (fun k => !s.implemented.contains k)
    match place symbols.keys s.position s.implemented missing with
    | .error e => .error e
    | .ok (before, rest) =>
      match s.implemented.getLast? with
      | some lastKey =>
        match s.position.get lastKey with
        | .error e => .error e
        | .ok p => weave symbols before (some (p, rest)) 0 s.newBody
      | none =>
        match weave symbols before none 0 s.newBody with
        | .error e => .error e
        | .ok b =>
          match lookupAll symbols rest with
          | .error e => .error e
          | .ok tail => .ok (b ++ tail)

end

/-- `node.body.body` for a class or function node -/
def bodyOf : Node → List Node
  | .cls _ _ b => b
  | .fn _ _ b => b
  | _ => []

/-- `merge_class` — `turms/processors/merge.py:39-128`: bases, decorators and name stay those of the
existing class. -/
def mergeClass (generated existing : Node) : Except Err Node :=
  match existing with
  | .cls name head body =>
    match mergeBody memberKey mergeMember (bodyOf generated) body with
    | .error e => .error e
    | .ok b => .ok (.cls name head b)
  | e => .ok e

/-- `merge_functions` at module level — `turms/processors/merge.py:19-25` (`generated` may be a class of the
same name). -/
def mergeFunctions (generated existing : Node) : Node :=
  match generated with
  | .fn name head _ => .fn name head (bodyOf existing)
  | .cls name head _ => .cls name head (bodyOf existing)
  | g => g

/-- the merge of two module level statements of the same name — `turms/processors/merge.py:161-184` -/
def mergeTop (generated existing : Node) : Except Err Node :=
  match existing with
  | .cls _ _ _ => mergeClass generated existing
  | .fn _ _ _ => .ok (mergeFunctions generated existing)
  | e => .ok e

/-- `merge_code` on parsed modules — `turms/processors/merge.py:140-223`: `cst.Module(body=updated_body)`
has no header and no footer. -/
def mergeModules (existing generated : Module) : Except Err Module :=
  match mergeBody topKey mergeTop generated.body existing.body with
  | .error e => .error e
  | .ok b => .ok ⟨[], b, []⟩

/-- `merge_code` — `turms/processors/merge.py:135-225`. -/
def mergeCode (parse : String → Except Err Module) (code : Module → String) (old new : String) :
    Except Err String :=
  match parse old with
  | .error e => .error e
  | .ok existing =>
    match parse new with
    | .error e => .error e
    | .ok generated =>
      match mergeModules existing generated with
      | .error e => .error e
      | .ok m => .ok (code m)

/-- `MergeProcessor.run` — `turms/processors/merge.py:248-263`.  The file system is a partial map from
paths to contents; `os.path.join` is a parameter. -/
def run (parse : String → Except Err Module) (code : Module → String) (join : String → String → String)
    (fs : String → Option String) (outDir generatedName genFile : String) : Except Err String :=
  match fs (join outDir generatedName) with
  | none => .ok genFile
  | some existingCode => mergeCode parse code existingCode genFile

end Turms.Merge
