import Verif.Model.Merge

/-!
# Specification vocabulary for merging

Only the shape of files (`Node`, `Module`) is used, not the merge algorithm.
-/

namespace Turms.Merge.Spec
open Turms.Merge

/-- two lists of equal length, related position by position -/
inductive Pointwise {α : Type} (R : α → α → Prop) : List α → List α → Prop
  | nil : Pointwise R [] []
  | cons {a b as bs} : R a b → Pointwise R as bs → Pointwise R (a :: as) (b :: bs)

/-- the name of a module level statement: classes and functions are named, the rest is not -/
def topName : Node → Option String
  | .cls n _ _ => some n
  | .fn n _ _ => some n
  | _ => none

/-- the first annotated assignment of a line names it -/
def annotatedName : List Small → Option String
  | [] => none
  | .annAssign t _ :: _ => some t
  | .other _ :: rest => annotatedName rest

/-- the name of a class member: methods and annotated attributes are named, the rest is not -/
def memberName : Node → Option String
  | .fn n _ _ => some n
  | .line _ smalls => annotatedName smalls
  | _ => none

/-- the members of a class -/
def members : Node → List Node
  | .cls _ _ b => b
  | .fn _ _ b => b
  | _ => []

/-- `after` is how the class member `before` of the existing file may look after merging with generated
members `gen`: verbatim if `gen` has no member of that name; a method keeps its body; an attribute keeps
its comments and takes the generated definition. -/
inductive KeptMember (gen : List Node) : Node → Node → Prop
  | verbatim (e : Node) (h : ∀ n, memberName e = some n → ∀ g ∈ gen, memberName g ≠ some n) :
      KeptMember gen e e
  | method (n h h' : String) (b b' : List Node) (hg : Node.fn n h' b' ∈ gen) :
      KeptMember gen (.fn n h b) (.fn n h' b)
  | attribute (n t t' : String) (s s' : List Small) (hs : annotatedName s = some n)
      (hs' : annotatedName s' = some n) (hg : Node.line t' s' ∈ gen) :
      KeptMember gen (.line t s) (.line t s')

/-- `after` is how the module level statement `before` may look after merging with the generated statements
`gen`: verbatim if `gen` has nothing of that name; a function keeps its body under the generated
signature; a class keeps its head, and all its members are kept in order. -/
inductive KeptTop (gen : List Node) : Node → Node → Prop
  | verbatim (e : Node) (h : ∀ n, topName e = some n → ∀ g ∈ gen, topName g ≠ some n) : KeptTop gen e e
  | function (n h h' : String) (b b' : List Node) (hg : Node.fn n h' b' ∈ gen) :
      KeptTop gen (.fn n h b) (.fn n h' b)
  | class_ (n h : String) (b b' kept gb : List Node) (gh : String) (hg : Node.cls n gh gb ∈ gen)
      (hkept : Pointwise (KeptMember gb) b kept) (hsub : kept.Sublist b') :
      KeptTop gen (.cls n h b) (.cls n h b')

/-- no name is a class in one file and a function in the other -/
def SameKinds (existing generated : List Node) : Prop :=
  ∀ e ∈ existing, ∀ g ∈ generated, topName e = topName g →
    match e, g with
    | .cls _ _ _, .fn _ _ _ => False
    | .fn _ _ _, .cls _ _ _ => False
    | _, _ => True

/-- the members of every class of the file have distinct names -/
def DistinctMembers (file : List Node) : Prop :=
  ∀ n h b, Node.cls n h b ∈ file → (b.filterMap memberName).Nodup

/-- `k` comes before `e` in the list of names -/
def Before (names : List String) (k e : String) : Prop := ∃ a b c, names = a ++ k :: b ++ e :: c

end Turms.Merge.Spec
