import Verif.Model.Recurse
import Verif.Spec.Inputs
import Verif.Spec.Enums
import Verif.Spec.Fragments
import Verif.Model.Operations

/-!
# Specification: the nested selections of a definition and the names of their classes

The path of a nested selection is the list of response keys (alias, or field name) that lead to it.  An inline fragment in
a union has no key of its own, and the key of the union is left out of the class names below it: there the path has the
type of the inline fragment.
-/

namespace Turms.Spec

/-- a step of a path: a response key, or the type of an inline fragment in a union -/
inductive Step where
  | key (k : String)
  | member (t : String)
deriving DecidableEq

/-- what is selected at the end of a path -/
inductive NestedKind where
  | object
  | iface (typename : String)
deriving DecidableEq

/-- a nested selection -/
structure Nested where
  path : List Step
  kind : NestedKind
deriving DecidableEq

/-- one step in front -/
def Nested.push (k : Step) (n : Nested) : Nested := { n with path := k :: n.path }

/-- the fields a type declares -/
def declared (s : Schema) (t name : String) : Option FieldDef := ((s.fieldsOf t).getD []).find? (·.name == name)

mutual
/-- the nested selections below one selection; `look` finds the fields of the type selected from -/
def nestedSel (s : Schema) (look : String → Option FieldDef) : Sel → List Nested
  | .spread _ => []
  | .inline none _ => []
  | .inline (some t) sub => nestedSels s (getFieldDef s t) sub
  | .field name al _ sub =>
    match look name with
    | none => []
    | some fd =>
      match s.lookup fd.type.base with
      | some (.object fs _) =>
        (nestedSels s (fun n => fs.find? (·.name == n)) sub).map (Nested.push (.key (al.getD name))) ++
          [⟨[.key (al.getD name)], .object⟩]
      | some (.interface fs _) =>
        (nestedSels s (fun n => fs.find? (·.name == n)) sub).map (Nested.push (.key (al.getD name))) ++
          [⟨[.key (al.getD name)], .iface fd.type.base⟩]
      | some (.union _) => nestedMembers s sub
      | _ => []
/-- the nested selections below a selection set -/
def nestedSels (s : Schema) (look : String → Option FieldDef) : List Sel → List Nested
  | [] => []
  | x :: xs => nestedSel s look x ++ nestedSels s look xs
/-- the nested selections below one selection of a union -/
def nestedMember (s : Schema) : Sel → List Nested
  | .inline (some t) sub => (nestedSels s (declared s t) sub).map (Nested.push (.member t)) ++ [⟨[.member t], .object⟩]
  | _ => []
/-- the nested selections below the selection set of a union -/
def nestedMembers (s : Schema) : List Sel → List Nested
  | [] => []
  | x :: xs => nestedMember s x ++ nestedMembers s xs
end

/-- the nested selections of an operation with root type `root` -/
def nestedOf (s : Schema) (root : String) (o : OpDef) : List Nested := nestedSels s (getFieldDef s root) o.sels

/-- the nested selections of a fragment -/
def nestedOfFragment (s : Schema) (f : FragDef) : List Nested :=
  match s.lookup f.typeCondition with
  | some (.interface _ _) => nestedSels s (declared s f.typeCondition) f.sels
  | _ => nestedSels s (getFieldDef s f.typeCondition) f.sels

/-- What the names of the classes of a fragment itself have after the name of the fragment: for an interface there are
two common classes and one for each type that implements it, for a union one for each member and the union. -/
def ownSuffixes (s : Schema) (f : FragDef) : List String :=
  match s.lookup f.typeCondition with
  | some (.interface _ _) => "Base" :: "Catch" :: (implementations s f.typeCondition).map (·.name)
  | some (.union ms) => ms ++ [""]
  | _ => [""]

/-- a key up to upper and lower case -/
def caseless (k : String) : List Char := k.toList.map Char.toLower

/-- the words of a name in camel case: each begins with a capital -/
def humps : List Char → List (List Char)
  | [] => []
  | c :: cs =>
    match humps cs with
    | [] => [[c]]
    | w :: ws => if (w.head?.any Char.isUpper) = true then [c] :: w :: ws else (c :: w) :: ws

/-- the words a step contributes to the name of a class, up to case -/
def stepWords : Step → List (List Char)
  | .key k => [caseless k]
  | .member t => (humps (t ++ "InlineFragment").toList).map (List.map Char.toLower)

/-- the words of a path, up to case -/
def pathWords (p : List Step) : List (List Char) := p.flatMap stepWords

/-- keys begin with a letter, types with a capital -/
def ClearStep : Step → Prop
  | .key k => k.toList.head?.any Char.isAlpha = true
  | .member t => t.toList.head?.any Char.isUpper = true

instance : DecidablePred ClearStep
  | .key _ => inferInstanceAs (Decidable (_ = _))
  | .member _ => inferInstanceAs (Decidable (_ = _))

/-- What the names of the classes rely on: no two nested selections have the same path up to case, keys begin with a
letter (and types of inline fragments in unions with a capital), no key directly below an interface begins with `base`, and
no object type implementing a selected interface is called `CatchAll`. -/
structure ClearPaths (s : Schema) (l : List Nested) : Prop where
  distinct : (l.map fun n => pathWords n.path).Nodup
  letters : ∀ n ∈ l, ∀ k ∈ n.path, ClearStep k
  base : ∀ n ∈ l, ∀ t, n.kind = .iface t → ∀ m ∈ l, ∀ w rest, pathWords m.path = pathWords n.path ++ w :: rest →
    ¬ "base".toList <+: w
  catchAll : ∀ n ∈ l, ∀ t, n.kind = .iface t → ∀ fs is, s.lookup "CatchAll" = some (.object fs is) → t ∉ is

/-- … and, for a fragment: its own classes are distinct, and no key at its top begins, up to case, the name of a type for which the
fragment has a class of its own (or `base` or `catch`, for an interface). -/
structure ClearFragment (s : Schema) (f : FragDef) : Prop where
  paths : ClearPaths s (nestedOfFragment s f)
  own : (ownSuffixes s f).Nodup
  apart : ∀ n ∈ nestedOfFragment s f, ∀ k rest, n.path = .key k :: rest → ∀ x ∈ ownSuffixes s f, ¬ caseless k <+: caseless x
  members : ∀ n ∈ nestedOfFragment s f, ∀ t rest, n.path = .member t :: rest → ∀ x ∈ ownSuffixes s f,
    ¬ (t ++ "InlineFragment").toList <+: x.toList

/-- the class of a definition of the document -/
inductive DefinitionClass (env : Env) (doc : Document) : Kind → String → String → Prop
  | fragment {f cls} : f ∈ fragmentsOf doc → Kind.fragment.style env f.name = .ok cls →
      DefinitionClass env doc .fragment f.name cls
  | operation {o n cls} : o ∈ operationsOf doc → o.name = some n → o.kind.kind.style env n = .ok cls →
      DefinitionClass env doc o.kind.kind n cls

/-- the class of an enum or input type (or of one alternative of a `@oneOf` input) -/
inductive TypeClass (c : Ctx) (pe : EnumsConfig) (pi : InputsConfig) : Kind → String → String → Prop
  | enum {t cls} : EnumOf c.schema t → EnumKept pe t.name → Kind.enum.style c.env t.name = .ok cls →
      TypeClass c pe pi .enum t.name cls
  | input {n cls} : InputKey c pi n → Kind.input.style c.env n = .ok cls → TypeClass c pe pi .input n cls

/-- No two definitions get classes of which one begins with the name of the other. -/
def SeparateDefinitions (env : Env) (doc : Document) : Prop :=
  ∀ k n x k' n' y, DefinitionClass env doc k n x → DefinitionClass env doc k' n' y → (k, n) ≠ (k', n') →
    ¬ x.toList <+: y.toList

/-- … and no two types get the same class, and no class of a type
begins with the name of the class of a definition. -/
structure Separate (c : Ctx) (pe : EnumsConfig) (pi : InputsConfig) (doc : Document) : Prop where
  definitions : SeparateDefinitions c.env doc
  types : ∀ k n k' n' x, TypeClass c pe pi k n x → TypeClass c pe pi k' n' x → (k, n) = (k', n')
  both : ∀ k n x k' n' y, DefinitionClass c.env doc k n x → TypeClass c pe pi k' n' y → ¬ x.toList <+: y.toList

end Turms.Spec
