import Verif.Model.Gql

/-!
# Documents: printing, `__typename` insertion, embedding fragments

`turms/utils.py:452-493, 532-587` and the part of graphql-core's `print_ast` it relies on.
-/

namespace Turms.Documents

/-! ## `graphql.language.print_ast` (third party)

Directives are not modelled.  Texts are lists of characters. -/

/-- `indent(string)`: `wrap("  ", string.replace("\n", "\n  "))`, the replacement part -/
def indentLines : List Char → List Char
  | [] => []
  | '\n' :: s => '\n' :: ' ' :: ' ' :: indentLines s
  | c :: s => c :: indentLines s

/-- `join(strings, separator)` -/
def joinS (sep : List Char) : List (List Char) → List Char
  | [] => []
  | [a] => a
  | a :: b :: l => a ++ (sep ++ joinS sep (b :: l))

/-- `block(array)`: `"{\n" + indent(join(array, "\n")) + "\n}"` -/
def block (items : List (List Char)) : List Char :=
  '{' :: '\n' :: ' ' :: ' ' :: (indentLines (joinS ['\n'] items) ++ ['\n', '}'])

mutual
/-- printing a value; the contents of a string constant are kept as printed (escaped) -/
def printValue : Value → List Char
  | .variable n => '$' :: n.toList
  | .int t => t.toList
  | .float t => t.toList
  | .string t => '"' :: (t.toList ++ ['"'])
  | .bool b => if b then "true".toList else "false".toList
  | .null => "null".toList
  | .enum n => n.toList
  | .list l => '[' :: (joinS [',', ' '] (printValues l) ++ [']'])
  | .object l => '{' :: (joinS [',', ' '] (printFields l) ++ ['}'])
def printValues : List Value → List (List Char)
  | [] => []
  | v :: l => printValue v :: printValues l
/-- object fields and arguments: `name: value` -/
def printFields : List (String × Value) → List (List Char)
  | [] => []
  | (n, v) :: l => (n.toList ++ (':' :: ' ' :: printValue v)) :: printFields l
end

/-- arguments of a field: `(a: 1, b: 2)`, one per line if the line gets longer than 80 characters -/
def printArgs (before : List Char) (args : List (String × Value)) : List Char :=
  if args.isEmpty then []
  else
    let line := '(' :: (joinS [',', ' '] (printFields args) ++ [')'])
    if (before ++ line).length > 80 then
      '(' :: '\n' :: ' ' :: ' ' :: (indentLines (joinS ['\n'] (printFields args)) ++ ['\n', ')'])
    else line

/-- `alias: name` -/
def printHead (name : String) (alias : Option String) : List Char :=
  match alias with
  | none => name.toList
  | some a => a.toList ++ (':' :: ' ' :: name.toList)

/-- `on Type ` of an inline fragment -/
def printCondition : Option String → List Char
  | none => []
  | some n => 'o' :: 'n' :: ' ' :: (n.toList ++ [' '])

mutual
/-- a selection; an inline fragment prints as `... on Type {`, a spread as `...Name` -/
def printSel : Sel → List Char
  | .field name alias args sub =>
    printHead name alias ++ (printArgs (printHead name alias) args ++
      (if sub.isEmpty then [] else ' ' :: block (printSels sub)))
  | .spread n => '.' :: '.' :: '.' :: n.toList
  | .inline t sub =>
    '.' :: '.' :: '.' :: ' ' :: (printCondition t ++ block (printSels sub))
def printSels : List Sel → List (List Char)
  | [] => []
  | s :: l => printSel s :: printSels l
end

/-- `fragment Name on Type { ... }` -/
def printFragment (f : FragDef) : List Char :=
  "fragment ".toList ++ (f.name.toList ++ (" on ".toList ++ (f.typeCondition.toList ++
    (' ' :: block (printSels f.sels)))))

def printType : TypeNode → List Char
  | .named n => n.toList
  | .list t => '[' :: (printType t ++ [']'])
  | .nonNull t => printType t ++ ['!']

/-- `$name: Type = default` -/
def printVar (v : VarDef) : List Char :=
  '$' :: (v.name.toList ++ (':' :: ' ' :: (printType v.type ++
    (match v.default with
     | none => []
     | some d => ' ' :: '=' :: ' ' :: printValue d))))

def printKind : OpKind → List Char
  | .query => "query".toList
  | .mutation => "mutation".toList
  | .subscription => "subscription".toList

/-- a named operation (`generate_operation` rejects anonymous ones) -/
def printOperation (name : String) (o : OpDef) : List Char :=
  printKind o.kind ++ (' ' :: (name.toList ++
    ((if o.vars.isEmpty then [] else '(' :: (joinS [',', ' '] (o.vars.map printVar) ++ [')'])) ++
      (' ' :: block (printSels o.sels)))))

/-! ## `__typename` -/

/-- `FieldNode(name=NameNode(value="__typename"), ...)` -/
def typenameSel : Sel := .field "__typename" none [] []

/-- `isinstance(field, FieldNode) and field.name.value == "__typename"` — `turms/utils.py:460-463`. -/
def isTypename : Sel → Bool
  | .field n _ _ _ => n == "__typename"
  | _ => false

mutual
/-- the loop body of `add_typename_recursively` — `turms/utils.py:476-479`: only fields with a selection set
are entered -/
def addTypenameSel : Sel → Sel
  | .field n a args sub => .field n a args (if sub.isEmpty then sub else addTypename sub)
  | .spread n => .spread n
  | .inline t sub => .inline t sub
def addTypenameEach : List Sel → List Sel
  | [] => []
  | s :: l => addTypenameSel s :: addTypenameEach l
/-- `add_typename_recursively(selection_set)` — `turms/utils.py:452-482` with `skip=False`.  (The field is
appended before the loop; the loop leaves it unchanged as it has no selection set.) -/
def addTypename : List Sel → List Sel
  | [] => [typenameSel]
  | s :: l => addTypenameSel s :: (addTypenameEach l ++
      (if (s :: l).any isTypename then [] else [typenameSel]))
end

/-- `add_typename_recursively(selection_set, skip)` — `turms/utils.py:452-482`. -/
def addTypenameTop (skip : Bool) (sels : List Sel) : List Sel :=
  if skip then addTypenameEach sels else addTypename sels

/-- `auto_add_typename_field_to_all_objects` — `turms/utils.py:485-493`. -/
def addTypenameDefn : Defn → Defn
  | .operation o => .operation { o with sels := addTypenameTop true o.sels }
  | .fragment f => .fragment { f with sels := addTypenameTop false f.sels }

def autoAddTypename (doc : Document) : Document := doc.map addTypenameDefn

/-- the effect of `auto_add_typename_field_to_fragment_str` on a parsed fragment definition —
`turms/utils.py:535-554` -/
def addTypenameToFragment (f : FragDef) : FragDef :=
  if f.sels.any isTypename then f else { f with sels := f.sels ++ [typenameSel] }

/-! ## embedding fragment definitions -/

/-- `[a-zA-Z]` -/
def isLetter (c : Char) : Bool := ('a' ≤ c && c ≤ 'z') || ('A' ≤ c && c ≤ 'Z')

/-- `fragment_searcher.findall(text)` with `fragment_searcher = re.compile(r"\.\.\.(?P<fragment>[a-zA-Z]*)")` —
`turms/utils.py:532`.  The scan resumes after the captured letters; resuming before them is the same because
no match starts at a letter. -/
def findSpreads : List Char → List (List Char)
  | '.' :: '.' :: '.' :: rest => rest.takeWhile isLetter :: findSpreads rest
  | _ :: rest => findSpreads rest
  | [] => []

/-- the names added in one round — `turms/utils.py:563-566` -/
def newFragments (pattern : List Char) (taken : List String) : List String :=
  let z := (findSpreads pattern).foldl (fun s n => setAdd s (String.ofList n)) []
  pySorted strLe (z.filter (fun f => !taken.contains f && f != ""))

/-- the list comprehension — `turms/utils.py:572-577`; `prep` is
`auto_add_typename_field_to_fragment_str` -/
def fetchFragments (prep : List Char → List Char) (docs : Dict (List Char)) :
    List String → Except Err (List (List Char))
  | [] => .ok []
  | key :: rest =>
    match docs.get? key with
    | none => .error (.keyError key)
    | some text =>
      match fetchFragments prep docs rest with
      | .error e => .error e
      | .ok texts => .ok (prep text :: texts)

/-- `replace_iteratively` — `turms/utils.py:557-587`.  `prep` is `auto_add_typename_field_to_fragment_str`
(it parses and prints, third party), `docs` is the registry's `fragment_document_map`.  The first argument
bounds the number of rounds; the theorem `C14_*` shows it is never reached for `docs.length + 1`. -/
def replaceIteratively (prep : List Char → List Char) (docs : Dict (List Char)) :
    Nat → List Char → List String → Except Err (List Char)
  | 0, _, _ => .error (.other "recursion")
  | n + 1, pattern, taken =>
    match newFragments pattern taken with
    | [] => .ok pattern
    | k :: ks =>
      match fetchFragments prep docs (k :: ks) with
      | .error (.keyError key) => .error (.fragmentNotFound key)
      | .error e => .error e
      | .ok texts =>
        replaceIteratively prep docs n (joinS ['\n', '\n'] (texts ++ [pattern])) ((k :: ks) ++ taken)

/-- the call in `generate_operation` — `turms/plugins/operations.py:296-297`. -/
def embedDocument (prep : List Char → List Char) (docs : Dict (List Char)) (operation : List Char) :
    Except Err (List Char) :=
  replaceIteratively prep docs (docs.length + 1) operation []

end Turms.Documents
