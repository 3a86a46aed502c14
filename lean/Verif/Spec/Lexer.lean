/-!
# The lexical grammar of GraphQL documents (October 2021 specification, section 2.1), as a state machine

Numbers are not checked for well-formedness, and string contents are kept as written (escapes are not decoded):
only the division of a document into tokens matters here.
-/

namespace Turms.Spec.Lex

inductive Token where
  | punct (c : Char)
  | spread
  | name (s : List Char)
  | number (s : List Char)
  | str (s : List Char)
  | block (s : List Char)
deriving DecidableEq, Repr

/-- where the lexer is: between tokens, or inside one (the characters read so far, reversed) -/
inductive State where
  | between
  | name (rev : List Char)
  | number (rev : List Char)
  | dot1
  | dot2
  | comment
  | quote1
  | quote2
  | str (rev : List Char)
  | strEscape (rev : List Char)
  | block (rev : List Char)
deriving DecidableEq, Repr

def isNameStart (c : Char) : Bool := c == '_' || ('a' ≤ c && c ≤ 'z') || ('A' ≤ c && c ≤ 'Z')
def isDigit (c : Char) : Bool := '0' ≤ c && c ≤ '9'
def isNameChar (c : Char) : Bool := isNameStart c || isDigit c
def isNewline (c : Char) : Bool := c == '\n' || c == '\r'
def isIgnored (c : Char) : Bool := isNewline c || c == ' ' || c == '\t' || c == ',' || c == '﻿'
def isPunct (c : Char) : Bool := "!$&():=@[]{|}".toList.contains c

/-- reading a character between tokens -/
def start (c : Char) : Option (List Token × State) :=
  if isIgnored c then some ([], .between)
  else if isPunct c then some ([.punct c], .between)
  else if isNameStart c then some ([], .name [c])
  else if isDigit c || c == '-' then some ([], .number [c])
  else if c == '.' then some ([], .dot1)
  else if c == '#' then some ([], .comment)
  else if c == '"' then some ([], .quote1)
  else none

/-- a token ends here; the character belongs to what follows -/
def endToken (t : Token) (c : Char) : Option (List Token × State) :=
  (start c).map fun (ts, s) => (t :: ts, s)

/-- reading one character: the tokens completed by it, and the new state -/
def step : State → Char → Option (List Token × State)
  | .between, c => start c
  | .name rev, c => if isNameChar c then some ([], .name (c :: rev)) else endToken (.name rev.reverse) c
  | .number rev, c =>
    if isNameChar c || c == '.' || c == '+' || c == '-' then some ([], .number (c :: rev))
    else endToken (.number rev.reverse) c
  | .dot1, c => if c == '.' then some ([], .dot2) else none
  | .dot2, c => if c == '.' then some ([.spread], .between) else none
  | .comment, c => some ([], if isNewline c then .between else .comment)
  | .quote1, c =>
    if c == '"' then some ([], .quote2)
    else if isNewline c then none
    else if c == '\\' then some ([], .strEscape []) else some ([], .str [c])
  | .quote2, c => if c == '"' then some ([], .block []) else endToken (.str []) c
  | .str rev, c =>
    if c == '"' then some ([.str rev.reverse], .between)
    else if isNewline c then none
    else if c == '\\' then some ([], .strEscape rev) else some ([], .str (c :: rev))
  | .strEscape rev, c => if isNewline c then none else some ([], .str (c :: '\\' :: rev))
  | .block rev, c =>
    match c, rev with
    | '"', '"' :: '"' :: '\\' :: rest => some ([], .block ('"' :: '"' :: '"' :: '\\' :: rest))
    | '"', '"' :: '"' :: rest => some ([.block rest.reverse], .between)
    | c, rev => some ([], .block (c :: rev))

/-- reading characters from a state -/
def run : State → List Char → Option (List Token × State)
  | s, [] => some ([], s)
  | s, c :: cs =>
    match step s c with
    | none => none
    | some (ts, s1) => (run s1 cs).map fun (us, s2) => (ts ++ us, s2)

/-- the end of the document -/
def finish : State → Option (List Token)
  | .between => some []
  | .comment => some []
  | .name rev => some [.name rev.reverse]
  | .number rev => some [.number rev.reverse]
  | .quote2 => some [.str []]
  | _ => none

/-- the tokens of a document, if it is lexically correct -/
def lex (doc : List Char) : Option (List Token) :=
  match run .between doc with
  | none => none
  | some (ts, s) => (finish s).map (ts ++ ·)

/-- the tokens of several documents, one after the other -/
def lexEach : List (List Char) → Option (List Token)
  | [] => some []
  | d :: ds =>
    match lex d, lexEach ds with
    | some ts, some us => some (ts ++ us)
    | _, _ => none

end Turms.Spec.Lex
