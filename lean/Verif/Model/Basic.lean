/-!
# Basic vocabulary of the model

Python exceptions as values, Python dictionaries as insertion-ordered association lists.
-/

namespace Turms

/-- The exceptions the modelled code can raise (or let escape).  The payload is the offending name,
not the message text.  Models the classes in `turms/errors.py` plus the builtin exceptions raised
implicitly (`AssertionError` by `assert`, `KeyError` by `d[k]`, ...). -/
inductive Err where
  | assertion (what : String)
  | keyError (key : String)
  | indexError
  | attributeError (what : String)
  | typeError (what : String)
  | valueError (what : String)
  | notImplemented (what : String)
  | importError (what : String)
  | registryError (what : String)
  | noScalarFound (what : String)
  | noEnumFound (what : String)
  | noInputTypeFound (what : String)
  | fragmentNotFound (what : String)
  | generationError (what : String)
  | invalid (what : String)
  | other (what : String)
deriving DecidableEq, Repr

/-- Results can be compared (used by the concrete examples only). -/
instance {ε α : Type} [DecidableEq ε] [DecidableEq α] : DecidableEq (Except ε α)
  | .ok a, .ok b => if h : a = b then isTrue (by rw [h]) else isFalse (by simp [h])
  | .error a, .error b => if h : a = b then isTrue (by rw [h]) else isFalse (by simp [h])
  | .ok _, .error _ => isFalse (by simp)
  | .error _, .ok _ => isFalse (by simp)

/-- Python `dict` with string keys: association list in insertion order. -/
abbrev Dict (α : Type) := List (String × α)

namespace Dict
variable {α : Type}

/-- `d.get(k)` -/
def get? : Dict α → String → Option α
  | [], _ => none
  | (k', v) :: d, k => if k' = k then some v else get? d k

/-- `k in d` -/
def contains (d : Dict α) (k : String) : Bool := d.any (fun p => p.1 == k)

/-- `d[k]`, raising `KeyError` -/
def get (d : Dict α) (k : String) : Except Err α :=
  match get? d k with
  | some v => .ok v
  | none => .error (.keyError k)

/-- `d[k] = v`: a present key keeps its position, a new one goes to the end. -/
def set : Dict α → String → α → Dict α
  | [], k, v => [(k, v)]
  | (k', v') :: d, k, v => if k' = k then (k', v) :: d else (k', v') :: set d k v

/-- `d.keys()` -/
def keys (d : Dict α) : List String := d.map (·.1)

/-- `{**a, **b}` -/
def merge (a b : Dict α) : Dict α := b.foldl (fun acc p => set acc p.1 p.2) a

end Dict

/-- Python `set.add` on a set represented by a duplicate-free list.  The representation order carries no
meaning; wherever Python iterates over a set the model takes an arbitrary permutation. -/
def setAdd {α : Type} [DecidableEq α] (s : List α) (a : α) : List α := if a ∈ s then s else s ++ [a]

/-- insertion into a sorted list, after equal elements (keeps the sort stable when folding from the
right) -/
def insertSorted {α : Type} (le : α → α → Bool) (a : α) : List α → List α
  | [] => [a]
  | b :: l => if le a b then a :: b :: l else b :: insertSorted le a l

/-- Python's `sorted`: a stable sort.  Implemented as insertion sort; all stable sorts compute the same
list. -/
def pySorted {α : Type} (le : α → α → Bool) : List α → List α
  | [] => []
  | a :: l => insertSorted le a (pySorted le l)

/-- Python's `<=` on strings: lexicographic by code point. -/
def strLe (a b : String) : Bool := decide (a ≤ b)

/-- `s.split(c)` for a one-character separator. -/
def splitOnChar (c : Char) : List Char → List (List Char)
  | [] => [[]]
  | d :: s =>
    if d = c then [] :: splitOnChar c s
    else
      match splitOnChar c s with
      | [] => [[d]]   -- impossible: the result is never empty
      | w :: ws => (d :: w) :: ws

/-- `c.join(parts)` for a one-character separator. -/
def joinWith (c : Char) : List (List Char) → List Char
  | [] => []
  | [w] => w
  | w :: ws => w ++ c :: joinWith c ws

end Turms
