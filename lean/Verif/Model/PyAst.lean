import Verif.Model.Basic

/-!
# The fragment of Python's `ast` module used by the generator

Simplification: `ctx`, `lineno`, `type_comment`, `level` (always 0) and other attributes that do not
influence the unparsed program are dropped.
-/

namespace Turms

/-- `ast.Constant` payloads. Floats are kept as their decimal text. -/
inductive Const where
  | none
  | bool (b : Bool)
  | str (s : String)
  | int (i : Int)
  | float (s : String)
  | ellipsis
deriving DecidableEq, Repr

/-- `ast.expr`.  `call` carries `ast.keyword`s as (arg, value); `arg = none` is `**value`. -/
inductive Expr where
  | name (id : String)
  | const (c : Const)
  | subscript (value slice : Expr)
  | tuple (elts : List Expr)
  | list (elts : List Expr)
  | dict (keys vals : List Expr)
  | attr (value : Expr) (attr : String)
  | call (func : Expr) (args : List Expr) (keywords : List (Option String × Expr))
  | isNot (left right : Expr)
  | await (value : Expr)
  | lambda (body : Expr)
deriving Repr

namespace Expr
mutual
/-- Decidable equality of expressions (used by concrete examples). -/
def decEq : (a b : Expr) → Decidable (a = b)
  | .name a, .name b => if h : a = b then isTrue (by rw [h]) else isFalse (by simp [h])
  | .const a, .const b => if h : a = b then isTrue (by rw [h]) else isFalse (by simp [h])
  | .subscript a1 a2, .subscript b1 b2 =>
    match decEq a1 b1, decEq a2 b2 with
    | isTrue h1, isTrue h2 => isTrue (by rw [h1, h2])
    | isFalse h, _ => isFalse (by simp [h])
    | _, isFalse h => isFalse (by simp [h])
  | .tuple a, .tuple b =>
    match decEqList a b with
    | isTrue h => isTrue (by rw [h])
    | isFalse h => isFalse (by simp [h])
  | .list a, .list b =>
    match decEqList a b with
    | isTrue h => isTrue (by rw [h])
    | isFalse h => isFalse (by simp [h])
  | .dict a1 a2, .dict b1 b2 =>
    match decEqList a1 b1, decEqList a2 b2 with
    | isTrue h1, isTrue h2 => isTrue (by rw [h1, h2])
    | isFalse h, _ => isFalse (by simp [h])
    | _, isFalse h => isFalse (by simp [h])
  | .attr a1 a2, .attr b1 b2 =>
    match decEq a1 b1 with
    | isTrue h1 => if h : a2 = b2 then isTrue (by rw [h1, h]) else isFalse (by simp [h])
    | isFalse h => isFalse (by simp [h])
  | .call a1 a2 a3, .call b1 b2 b3 =>
    match decEq a1 b1, decEqList a2 b2, decEqKws a3 b3 with
    | isTrue h1, isTrue h2, isTrue h3 => isTrue (by rw [h1, h2, h3])
    | isFalse h, _, _ => isFalse (by simp [h])
    | _, isFalse h, _ => isFalse (by simp [h])
    | _, _, isFalse h => isFalse (by simp [h])
  | .isNot a1 a2, .isNot b1 b2 =>
    match decEq a1 b1, decEq a2 b2 with
    | isTrue h1, isTrue h2 => isTrue (by rw [h1, h2])
    | isFalse h, _ => isFalse (by simp [h])
    | _, isFalse h => isFalse (by simp [h])
  | .await a, .await b =>
    match decEq a b with
    | isTrue h => isTrue (by rw [h])
    | isFalse h => isFalse (by simp [h])
  | .lambda a, .lambda b =>
    match decEq a b with
    | isTrue h => isTrue (by rw [h])
    | isFalse h => isFalse (by simp [h])
  | .name .., .const .. | .name .., .subscript .. | .name .., .tuple .. | .name .., .list ..
  | .name .., .dict .. | .name .., .attr .. | .name .., .call .. | .name .., .isNot ..
  | .name .., .await .. | .name .., .lambda ..
  | .const .., .name .. | .const .., .subscript .. | .const .., .tuple .. | .const .., .list ..
  | .const .., .dict .. | .const .., .attr .. | .const .., .call .. | .const .., .isNot ..
  | .const .., .await .. | .const .., .lambda ..
  | .subscript .., .name .. | .subscript .., .const .. | .subscript .., .tuple ..
  | .subscript .., .list .. | .subscript .., .dict .. | .subscript .., .attr ..
  | .subscript .., .call .. | .subscript .., .isNot .. | .subscript .., .await ..
  | .subscript .., .lambda ..
  | .tuple .., .name .. | .tuple .., .const .. | .tuple .., .subscript .. | .tuple .., .list ..
  | .tuple .., .dict .. | .tuple .., .attr .. | .tuple .., .call .. | .tuple .., .isNot ..
  | .tuple .., .await .. | .tuple .., .lambda ..
  | .list .., .name .. | .list .., .const .. | .list .., .subscript .. | .list .., .tuple ..
  | .list .., .dict .. | .list .., .attr .. | .list .., .call .. | .list .., .isNot ..
  | .list .., .await .. | .list .., .lambda ..
  | .dict .., .name .. | .dict .., .const .. | .dict .., .subscript .. | .dict .., .tuple ..
  | .dict .., .list .. | .dict .., .attr .. | .dict .., .call .. | .dict .., .isNot ..
  | .dict .., .await .. | .dict .., .lambda ..
  | .attr .., .name .. | .attr .., .const .. | .attr .., .subscript .. | .attr .., .tuple ..
  | .attr .., .list .. | .attr .., .dict .. | .attr .., .call .. | .attr .., .isNot ..
  | .attr .., .await .. | .attr .., .lambda ..
  | .call .., .name .. | .call .., .const .. | .call .., .subscript .. | .call .., .tuple ..
  | .call .., .list .. | .call .., .dict .. | .call .., .attr .. | .call .., .isNot ..
  | .call .., .await .. | .call .., .lambda ..
  | .isNot .., .name .. | .isNot .., .const .. | .isNot .., .subscript .. | .isNot .., .tuple ..
  | .isNot .., .list .. | .isNot .., .dict .. | .isNot .., .attr .. | .isNot .., .call ..
  | .isNot .., .await .. | .isNot .., .lambda ..
  | .await .., .name .. | .await .., .const .. | .await .., .subscript .. | .await .., .tuple ..
  | .await .., .list .. | .await .., .dict .. | .await .., .attr .. | .await .., .call ..
  | .await .., .isNot .. | .await .., .lambda ..
  | .lambda .., .name .. | .lambda .., .const .. | .lambda .., .subscript .. | .lambda .., .tuple ..
  | .lambda .., .list .. | .lambda .., .dict .. | .lambda .., .attr .. | .lambda .., .call ..
  | .lambda .., .isNot .. | .lambda .., .await .. => isFalse (by simp)
/-- equality of lists of expressions -/
def decEqList : (a b : List Expr) → Decidable (a = b)
  | [], [] => isTrue rfl
  | [], _ :: _ => isFalse (by simp)
  | _ :: _, [] => isFalse (by simp)
  | a :: as, b :: bs =>
    match decEq a b, decEqList as bs with
    | isTrue h1, isTrue h2 => isTrue (by rw [h1, h2])
    | isFalse h, _ => isFalse (by simp [h])
    | _, isFalse h => isFalse (by simp [h])
/-- equality of keyword lists -/
def decEqKws : (a b : List (Option String × Expr)) → Decidable (a = b)
  | [], [] => isTrue rfl
  | [], _ :: _ => isFalse (by simp)
  | _ :: _, [] => isFalse (by simp)
  | (k, a) :: as, (l, b) :: bs =>
    match decEq a b, decEqKws as bs with
    | isTrue h1, isTrue h2 =>
      if h : k = l then isTrue (by rw [h1, h2, h]) else isFalse (by simp [h])
    | isFalse h, _ => isFalse (by simp [h])
    | _, isFalse h => isFalse (by simp [h])
end
end Expr

instance : DecidableEq Expr := Expr.decEq

/-- `ast.arg` -/
structure Arg where
  arg : String
  annotation : Option Expr := none
deriving DecidableEq, Repr

/-- `ast.stmt`, the kinds the generator emits.  `classDef` ignores `keywords`; `decorator_list` is kept
where it is used (functions, classes of the strawberry plugin).  `funcDef` carries the positional
parameters and their defaults (the last `defaults.length` parameters have a default). -/
inductive Stmt where
  | import_ (name : String)
  | importFrom (module : String) (names : List String)
  | expr (e : Expr)
  | assign (target : Expr) (value : Expr)
  | annAssign (target : String) (annotation : Expr) (value : Option Expr)
  | ifStmt (test : Expr) (body : List Stmt)
  | return_ (e : Expr)
  | pass_
  | classDef (name : String) (bases : List Expr) (body : List Stmt) (decorators : List Expr)
  | funcDef (isAsync : Bool) (name : String) (args : List Arg) (defaults : List Expr)
      (body : List Stmt) (decorators : List Expr) (returns : Option Expr)
  | forYield (isAsync : Bool) (iter : Expr) (yielded : Expr)
deriving Repr

/-- abbreviation for a string constant -/
def Expr.str (s : String) : Expr := .const (.str s)

end Turms
