import Verif.Model.Registry

/-!
# The documentation of an operation, read from the source text
-/

namespace Turms

/-- the characters at which `str.splitlines` breaks lines (CPython; `\r\n` counts once) -/
def pyLineBreak (c : Char) : Bool :=
  c == '\n' || c == '\r' || c == '\x0b' || c == '\x0c' || c == '\x1c' || c == '\x1d' || c == '\x1e' ||
  c == '\u0085' || c == '\u2028' || c == '\u2029'

/-- `str.splitlines` — used at `turms/utils.py:131`; `acc` is the current line, reversed. A trailing line break does not
begin another line. -/
def splitLines : List Char → List Char → List (List Char)
  | [], [] => []
  | [], a :: acc => [(a :: acc).reverse]
  | '\r' :: '\n' :: cs, acc => acc.reverse :: splitLines cs []
  | c :: cs, acc => if pyLineBreak c then acc.reverse :: splitLines cs [] else splitLines cs (c :: acc)

/-- `source.get_location(position).line` of graphql-core — used at `turms/utils.py:132-133`: one more than the number of
matches of `\r\n|[\n\r]` that start before the position -/
def sourceLine : List Char → Nat → Nat
  | _, 0 => 1
  | [], _ + 1 => 1
  | '\r' :: '\n' :: cs, n + 1 => 1 + sourceLine cs (n - 1)
  | c :: cs, n + 1 => if c == '\n' || c == '\r' then 1 + sourceLine cs n else sourceLine cs n

/-- group 1 of `commentline_regex = re.compile(r"^.*#(.*)")` — `turms/utils.py:51`: `.*` is greedy, so it is what follows
the last `#` -/
def commentText (line : List Char) : Option (List Char) :=
  if line.contains '#' then some (line.reverse.takeWhile (· != '#')).reverse else none

/-- `inspect_operation_for_documentation` — `turms/utils.py:112-142`. `loc` is the source text and the offset of the
operation, `first` the offset of its first selection; both are `None` only for nodes that were not parsed from text. The
check for a missing selection set is left out, operations always have one. -/
def inspectOperation (loc : Option (List Char × Nat)) (first : Option Nat) : Except Err (Option String) :=
  match loc, first with
  | none, _ => .error (.generationError "Could not find loc for operation. This should not happen")
  | some _, none => .error (.generationError "Could not find loc for first operation. This should not happen")
  | some (body, start), some first =>
    let definition := ((splitLines body []).take (sourceLine body first - 1)).drop (sourceLine body start - 1)
    let doc := definition.filterMap commentText
    .ok (if doc.isEmpty then none else some (String.ofList (joinWith '\n' doc)))

end Turms
