import Verif.Spec.Lexer
import Verif.Spec.Documents

/-!
# The grammar of executable documents (GraphQL specification, sections 2.2 – 2.11), as a parser on tokens

Directives are left out, as in `Model/Gql.lean`: a document with `@` is not read.  The number in each function
bounds the depth of the recursion; `document` passes more than a document of that many tokens can need.
-/

namespace Turms.Spec.Syntax
open Turms.Spec.Lex

/-- the next token is this punctuator -/
def next (c : Char) (ts : List Token) : Bool := ts.head? == some (.punct c)

/-- a name, and what follows it -/
def takeName : List Token → Option (List Char × List Token)
  | .name s :: r => some (s, r)
  | _ => none

/-- a name with a colon, and what follows it -/
def takeKey : List Token → Option (List Char × List Token)
  | .name s :: .punct ':' :: r => some (s, r)
  | _ => none

/-- `true`, `false`, `null`, or an enum value -/
def word (s : List Char) : Value :=
  if s = "true".toList then .bool true
  else if s = "false".toList then .bool false
  else if s = "null".toList then .null
  else .enum (String.ofList s)

/-- a number with a fractional part or an exponent is a float -/
def number (s : List Char) : Value :=
  if s.any (fun c => c == '.' || c == 'e' || c == 'E') then .float (String.ofList s) else .int (String.ofList s)

mutual
/-- `Value` -/
def value : Nat → List Token → Option (Value × List Token)
  | 0, _ => none
  | _ + 1, .punct '$' :: .name s :: r => some (.variable (String.ofList s), r)
  | _ + 1, .number s :: r => some (number s, r)
  | _ + 1, .str s :: r => some (.string (String.ofList s), r)
  | _ + 1, .name s :: r => some (word s, r)
  | n + 1, .punct '[' :: r => (values n r).map fun x => (.list x.1, x.2)
  | n + 1, .punct '{' :: r => (fields '}' n r).map fun x => (.object x.1, x.2)
  | _ + 1, _ => none
/-- values up to the closing bracket -/
def values : Nat → List Token → Option (List Value × List Token)
  | 0, _ => none
  | n + 1, ts =>
    if next ']' ts then some ([], ts.tail)
    else
      match value n ts with
      | none => none
      | some (v, r) => (values n r).map fun x => (v :: x.1, x.2)
/-- `name: value` up to the closing punctuator: object fields and arguments -/
def fields (close : Char) : Nat → List Token → Option (List (String × Value) × List Token)
  | 0, _ => none
  | n + 1, ts =>
    if next close ts then some ([], ts.tail)
    else
      match takeKey ts with
      | none => none
      | some (f, r) =>
        match value n r with
        | none => none
        | some (v, r) => (fields close n r).map fun x => ((String.ofList f, v) :: x.1, x.2)
end

/-- `Arguments`, which may be absent but not empty -/
def arguments (n : Nat) (ts : List Token) : Option (List (String × Value) × List Token) :=
  if next '(' ts then
    match fields ')' n ts.tail with
    | some ([], _) => none
    | x => x
  else some ([], ts)

mutual
/-- `Selection` -/
def selection : Nat → List Token → Option (Sel × List Token)
  | 0, _ => none
  | n + 1, .spread :: .name s :: r =>
    if s = "on".toList then
      match takeName r with
      | none => none
      | some (t, r) => (selectionSet n r).map fun x => (.inline (some (String.ofList t)) x.1, x.2)
    else some (.spread (String.ofList s), r)
  | n + 1, .spread :: r => (selectionSet n r).map fun x => (.inline none x.1, x.2)
  | n + 1, .name a :: r =>
    if next ':' r then
      match takeName r.tail with
      | none => none
      | some (f, r) => fieldRest n (String.ofList f) (some (String.ofList a)) r
    else fieldRest n (String.ofList a) none r
  | _ + 1, _ => none
/-- arguments and selection set of a field -/
def fieldRest : Nat → String → Option String → List Token → Option (Sel × List Token)
  | 0, _, _, _ => none
  | n + 1, f, a, ts =>
    match arguments n ts with
    | none => none
    | some (args, r) =>
      if next '{' r then (selectionSet n r).map fun x => (.field f a args x.1, x.2)
      else some (.field f a args [], r)
/-- `SelectionSet`, which is not empty -/
def selectionSet : Nat → List Token → Option (List Sel × List Token)
  | 0, _ => none
  | n + 1, ts =>
    if next '{' ts then
      match selections n ts.tail with
      | some ([], _) => none
      | x => x
    else none
/-- selections up to the closing brace -/
def selections : Nat → List Token → Option (List Sel × List Token)
  | 0, _ => none
  | n + 1, ts =>
    if next '}' ts then some ([], ts.tail)
    else
      match selection n ts with
      | none => none
      | some (s, r) => (selections n r).map fun x => (s :: x.1, x.2)
end

/-- the exclamation mark -/
def bang (t : TypeNode) (ts : List Token) : TypeNode × List Token :=
  if next '!' ts then (.nonNull t, ts.tail) else (t, ts)

/-- `Type` -/
def type : Nat → List Token → Option (TypeNode × List Token)
  | 0, _ => none
  | _ + 1, .name s :: r => some (bang (.named (String.ofList s)) r)
  | n + 1, .punct '[' :: r =>
    match type n r with
    | none => none
    | some (t, r) => if next ']' r then some (bang (.list t) r.tail) else none
  | _ + 1, _ => none

/-- `DefaultValue`, which may be absent -/
def defaultValue (n : Nat) (ts : List Token) : Option (Option Value × List Token) :=
  if next '=' ts then (value n ts.tail).map fun x => (some x.1, x.2) else some (none, ts)

/-- `VariableDefinition`s up to the closing parenthesis -/
def variables : Nat → List Token → Option (List VarDef × List Token)
  | 0, _ => none
  | n + 1, ts =>
    if next ')' ts then some ([], ts.tail)
    else
      match if next '$' ts then takeKey ts.tail else none with
      | none => none
      | some (v, r) =>
        match type n r with
        | none => none
        | some (t, r) =>
          match defaultValue n r with
          | none => none
          | some (d, r) => (variables n r).map fun x => (⟨String.ofList v, t, d⟩ :: x.1, x.2)

/-- `VariableDefinitions`, which may be absent but not empty -/
def variableDefinitions (n : Nat) (ts : List Token) : Option (List VarDef × List Token) :=
  if next '(' ts then
    match variables n ts.tail with
    | some ([], _) => none
    | x => x
  else some ([], ts)

/-- the rest of an operation after its name -/
def operationRest (n : Nat) (kind : OpKind) (name : Option String) (ts : List Token) : Option (Defn × List Token) :=
  match variableDefinitions n ts with
  | none => none
  | some (vs, r) => (selectionSet n r).map fun x => (.operation ⟨kind, name, vs, x.1⟩, x.2)

/-- an operation after the word `query`, `mutation` or `subscription` -/
def operation (n : Nat) (kind : OpKind) : List Token → Option (Defn × List Token)
  | .name s :: r => operationRest n kind (some (String.ofList s)) r
  | r => operationRest n kind none r

/-- a fragment definition after the word `fragment`; no fragment is called `on` -/
def fragment (n : Nat) : List Token → Option (Defn × List Token)
  | .name f :: .name on :: .name t :: r =>
    if f ≠ "on".toList ∧ on = "on".toList then
      (selectionSet n r).map fun x => (.fragment ⟨String.ofList f, String.ofList t, x.1⟩, x.2)
    else none
  | _ => none

/-- `ExecutableDefinition` -/
def definition (n : Nat) (ts : List Token) : Option (Defn × List Token) :=
  match ts with
  | .name k :: r =>
    if k = "query".toList then operation n .query r
    else if k = "mutation".toList then operation n .mutation r
    else if k = "subscription".toList then operation n .subscription r
    else if k = "fragment".toList then fragment n r
    else none
  | ts => (selectionSet n ts).map fun x => (.operation ⟨.query, none, [], x.1⟩, x.2)

/-- `ExecutableDefinition`s up to the end -/
def definitions : Nat → List Token → Option Document
  | _, [] => some []
  | 0, _ => none
  | n + 1, ts =>
    match definition n ts with
    | none => none
    | some (d, r) => (definitions n r).map (d :: ·)

/-- what a text means, if it is a document -/
def read (text : List Char) : Option Document :=
  (lex text).bind fun ts =>
    match definitions (2 * ts.length + 2) ts with
    | some [] => none
    | x => x

/-! ## Which syntax trees the grammar knows

Every tree a GraphQL parser returns is of this form; the generator never builds any other. -/

/-- `Name` -/
def isName (s : String) : Bool :=
  match s.toList with
  | [] => false
  | c :: cs => isNameStart c && cs.all isNameChar

/-- the contents of a string constant as written between the quotes -/
def stringBody : List Char → Bool
  | [] => true
  | '\\' :: c :: r => !isNewline c && stringBody r
  | ['\\'] => false
  | c :: r => c != '"' && !isNewline c && stringBody r

/-- a number: starts with a digit or a sign, and goes on with digits, and for floats with the other characters -/
def isNumber (float : Bool) (s : String) : Bool :=
  match s.toList with
  | [] => false
  | c :: cs => (isDigit c || c == '-') &&
    cs.all (fun c => isDigit c || (float && (c == '.' || c == 'e' || c == 'E' || c == '+' || c == '-'))) &&
    (!float || cs.any (fun c => c == '.' || c == 'e' || c == 'E'))

mutual
def goodValue : Value → Bool
  | .variable n => isName n
  | .int t => isNumber false t
  | .float t => isNumber true t
  | .string t => stringBody t.toList
  | .bool _ => true
  | .null => true
  | .enum n => isName n && n != "true" && n != "false" && n != "null"
  | .list l => goodValues l
  | .object l => goodFields l
def goodValues : List Value → Bool
  | [] => true
  | v :: l => goodValue v && goodValues l
def goodFields : List (String × Value) → Bool
  | [] => true
  | (n, v) :: l => isName n && goodValue v && goodFields l
end

/-- an alias or a type condition -/
def isNameIfAny : Option String → Bool
  | none => true
  | some a => isName a

mutual
def goodSel : Sel → Bool
  | .field n a args sub => isName n && isNameIfAny a && goodFields args && goodSels sub
  | .spread n => isName n && n != "on"
  | .inline t sub => isNameIfAny t && !sub.isEmpty && goodSels sub
def goodSels : List Sel → Bool
  | [] => true
  | s :: l => goodSel s && goodSels l
end

/-- no type is marked twice -/
def goodType : TypeNode → Bool
  | .named n => isName n
  | .list t => goodType t
  | .nonNull (.nonNull _) => false
  | .nonNull t => goodType t

def goodVar (v : VarDef) : Bool :=
  isName v.name && goodType v.type && (match v.default with | none => true | some d => goodValue d)

def goodOp (name : String) (o : OpDef) : Bool :=
  isName name && o.vars.all goodVar && !o.sels.isEmpty && goodSels o.sels

def goodFrag (f : FragDef) : Bool :=
  isName f.name && f.name != "on" && isName f.typeCondition && !f.sels.isEmpty && goodSels f.sels

def goodDefn : Defn → Bool
  | .operation o => o.name.isSome && goodOp (o.name.getD "") o
  | .fragment f => goodFrag f

end Turms.Spec.Syntax
