import Verif.Spec.Fragments

/-!
# Vocabulary for C13 – C15
-/

namespace Turms.Spec

/-- no name of a GraphQL document contains a dot -/
def nameOk (n : String) : Bool := n.toList.all (· != '.')

/-- the text contains no three consecutive dots -/
def noEllipsis : List Char → Bool
  | '.' :: '.' :: '.' :: _ => false
  | _ :: rest => noEllipsis rest
  | [] => true

mutual
/-- names contain no dots, and no literal contains `...` -/
def valueOk : Value → Bool
  | .variable n => nameOk n
  | .int t => noEllipsis t.toList
  | .float t => noEllipsis t.toList
  | .string t => noEllipsis t.toList
  | .bool _ => true
  | .null => true
  | .enum n => nameOk n
  | .list l => valuesOk l
  | .object l => fieldsOk l
def valuesOk : List Value → Bool
  | [] => true
  | v :: l => valueOk v && valuesOk l
def fieldsOk : List (String × Value) → Bool
  | [] => true
  | (n, v) :: l => nameOk n && valueOk v && fieldsOk l
end

/-- the fragment name consists of ASCII letters (GraphQL also allows digits and underscores) -/
def lettersOnly (n : String) : Bool :=
  !n.toList.isEmpty && n.toList.all (fun c => ('a' ≤ c && c ≤ 'z') || ('A' ≤ c && c ≤ 'Z'))

mutual
/-- the selection's names are GraphQL names, no literal in it contains `...`, and the fragments it spreads are
named with letters only -/
def selOk : Sel → Bool
  | .field n a args sub =>
    nameOk n && (match a with | none => true | some a => nameOk a) && fieldsOk args && selsOk sub
  | .spread n => lettersOnly n
  | .inline t sub => (match t with | none => true | some t => nameOk t) && selsOk sub
def selsOk : List Sel → Bool
  | [] => true
  | s :: l => selOk s && selsOk l
end

def typeOk : TypeNode → Bool
  | .named n => nameOk n
  | .list t => typeOk t
  | .nonNull t => typeOk t

def varOk (v : VarDef) : Bool :=
  nameOk v.name && typeOk v.type && (match v.default with | none => true | some d => valueOk d)

def opOk (name : String) (o : OpDef) : Bool := nameOk name && o.vars.all varOk && selsOk o.sels

def fragOk (f : FragDef) : Bool := nameOk f.name && nameOk f.typeCondition && selsOk f.sels

/-- the meta field `__typename`, possibly under an alias -/
def isTypenameField : Sel → Bool
  | .field n _ _ _ => n == "__typename"
  | _ => false

/-- the fragment as it is embedded: with `__typename` requested -/
def withTypename (f : FragDef) : FragDef :=
  if f.sels.any isTypenameField then f
  else { f with sels := f.sels ++ [.field "__typename" none [] []] }

/-- the selection requests the response key `__typename` -/
def requestsTypename : Sel → Bool
  | .field n none _ _ => n == "__typename"
  | _ => false

mutual
/-- every selection set below this selection (selection sets of fields, at any depth, also inside inline
fragments) requests `__typename` -/
def typenameBelow : Sel → Bool
  | .field _ _ _ sub => sub.isEmpty || (sub.any requestsTypename && typenamesBelow sub)
  | .spread _ => true
  | .inline _ sub => typenamesBelow sub
def typenamesBelow : List Sel → Bool
  | [] => true
  | s :: l => typenameBelow s && typenamesBelow l
end

mutual
/-- no field `alias: __typename`, and nothing to do inside inline fragments -/
def simpleSel : Sel → Bool
  | .field n a _ sub => (n != "__typename" || a.isNone) && simpleSels sub
  | .spread _ => true
  | .inline _ sub => typenamesBelow sub
def simpleSels : List Sel → Bool
  | [] => true
  | s :: l => simpleSel s && simpleSels l
end

mutual
/-- `ExtendsSel s s'`: the same selection, where `__typename` may have been appended to selection sets inside -/
inductive ExtendsSel : Sel → Sel → Prop
  | field (n : String) (a : Option String) (args : List (String × Value)) (sub sub' : List Sel) :
      ExtendsSet sub sub' → ExtendsSel (.field n a args sub) (.field n a args sub')
  | spread (n : String) : ExtendsSel (.spread n) (.spread n)
  | inline (t : Option String) (sub sub' : List Sel) :
      ExtendsSet sub sub' → ExtendsSel (.inline t sub) (.inline t sub')
/-- position by position -/
inductive ExtendsEach : List Sel → List Sel → Prop
  | nil : ExtendsEach [] []
  | cons (s s' : Sel) (l l' : List Sel) : ExtendsSel s s' → ExtendsEach l l' → ExtendsEach (s :: l) (s' :: l')
/-- a selection set: all selections are kept in order; `__typename` is appended only where no field
`__typename` was selected -/
inductive ExtendsSet : List Sel → List Sel → Prop
  | same (l l' : List Sel) : ExtendsEach l l' → ExtendsSet l l'
  | added (l l' : List Sel) : ExtendsEach l l' →
      (∀ (a : Option String) (args : List (String × Value)) (sub : List Sel), .field "__typename" a args sub ∉ l) →
      ExtendsSet l (l' ++ [.field "__typename" none [] []])
end

/-- what C15 asks of a definition: `__typename` in every selection set below an operation's root, and in every
selection set of a fragment -/
def typenameComplete : Defn → Bool
  | .operation o => typenamesBelow o.sels
  | .fragment f => f.sels.any requestsTypename && typenamesBelow f.sels

/-- `simpleSels` for a definition -/
def simpleDefn : Defn → Bool
  | .operation o => simpleSels o.sels
  | .fragment f => simpleSels f.sels

end Turms.Spec
