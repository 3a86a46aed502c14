import Verif.Model.OperationDocs

/-! # Lines of a source text and the comments in them -/

namespace Turms.Spec
open Turms

/-- a text made of these lines, each ended by a newline or by a carriage return and a newline -/
inductive LinesOf : List (List Char) → List Char → Prop
  | nil : LinesOf [] []
  | lf {l ls t} : LinesOf ls t → LinesOf (l :: ls) (l ++ '\n' :: t)
  | crlf {l ls t} : LinesOf ls t → LinesOf (l :: ls) (l ++ '\r' :: '\n' :: t)

/-- the text contains none of the characters that end a line (in the sense of Python, which has more of them than GraphQL) -/
def OneLine (l : List Char) : Prop := ∀ c ∈ l, c ∉ ['\n', '\r', '\x0b', '\x0c', '\x1c', '\x1d', '\x1e', '\u0085', '\u2028', '\u2029']

/-- `text` is what follows the last `#` of the line -/
def AfterHash (line text : List Char) : Prop := ∃ before, line = before ++ '#' :: text ∧ '#' ∉ text

/-- `position` is an offset into the line of `text` that comes after the lines `above` -/
def OnLineAfter (text : List Char) (above : List (List Char)) (position : Nat) : Prop :=
  ∃ before left right, LinesOf above before ∧ text = before ++ left ++ right ∧ OneLine left ∧
    position = (before ++ left).length

/-- the lines and their comments, in order: lines without `#` have none -/
inductive Comments : List (List Char) → List (List Char) → Prop
  | nil : Comments [] []
  | skip {l ls ts} : '#' ∉ l → Comments ls ts → Comments (l :: ls) ts
  | take {l t ls ts} : AfterHash l t → Comments ls ts → Comments (l :: ls) (t :: ts)

end Turms.Spec
