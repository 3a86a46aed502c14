/-!
# Specification of names

Independent of the model: what a GraphQL name is, where snake_case puts underscores.
-/

namespace Turms.Spec

/-- Letters, digits and underscore of a GraphQL/Python identifier (ASCII). -/
def IdentChar (c : Char) : Prop := c.isUpper ∨ c.isLower ∨ c.isDigit ∨ c = '_'

/-- GraphQL `Name`: `[_A-Za-z][_0-9A-Za-z]*`. -/
def IsName : List Char → Prop
  | [] => False
  | c :: cs => (IdentChar c ∧ ¬ c.isDigit) ∧ ∀ d ∈ cs, IdentChar d

/-- Word boundaries: an upper-case letter starts a new word when the previous character is a lower-case
letter or a digit, or when the following character is a lower-case letter (and there is a previous
character on the same line).  `wordsFrom prev s` inserts one underscore at each boundary of `s`, where
`prev` is the character before `s`. -/
def wordsFrom (prev : Option Char) : List Char → List Char
  | [] => []
  | u :: rest =>
    let boundary : Bool :=
      match prev with
      | none => false
      | some p => u.isUpper && (p.isLower || p.isDigit || (p != '\n' && (rest.head?.any Char.isLower)))
    if boundary then '_' :: u :: wordsFrom (some u) rest else u :: wordsFrom (some u) rest

/-- snake_case: underscores at word boundaries, everything lower-case. -/
def snake (s : List Char) : List Char := (wordsFrom none s).map Char.toLower

end Turms.Spec
