import Verif.Model.PyAst
import Verif.Spec.Annotations

/-!
# Calling a generated function

A small interpreter for the Python subset the generated functions are written in, independent of the
generator: parameter binding (positional arguments, keyword arguments, defaults), `name: T = {}`,
`d["key"] = x`, `if x is not M: ...`, `return` and `for ... yield`.

Dictionaries are values here, not references: the generated bodies never store into a dictionary after it has
been stored into another one.
-/

namespace Turms.Spec
open Turms

/-- A Python object: something the caller passes, an object the module binds at top level (a class, a
function, the `UNSET` marker; identified by its name), a constant or a dictionary with string keys. -/
inductive PyVal where
  | given (v : Val)
  | global (name : String)
  | const (c : Const)
  | dict (entries : List (String × PyVal))

/-- the object is this module-level object (`is`) -/
def PyVal.is (name : String) : PyVal → Bool
  | .global n => n == name
  | _ => false

/-- local variables -/
abbrev Locals := List (String × PyVal)

/-- the value of a variable -/
def Locals.find : Locals → String → Option PyVal
  | [], _ => none
  | (k, v) :: l, x => if k = x then some v else Locals.find l x

/-- `d[key] = v` on the entries of a dictionary -/
def putEntry (key : String) (v : PyVal) : List (String × PyVal) → List (String × PyVal)
  | [] => [(key, v)]
  | (k, w) :: l => if k = key then (k, v) :: l else (k, w) :: putEntry key v l

/-- Evaluation of names and constants: a local variable, else an object of the module `M`, else
`NameError`. -/
def evalExpr (M : List String) (L : Locals) : Expr → Option PyVal
  | .name n =>
    match L.find n with
    | some v => some v
    | none => if n ∈ M then some (.global n) else none
  | .const c => some (.const c)
  | .dict [] [] => some (.dict [])
  | _ => none

/-- the arguments of a call -/
def evalArgs (M : List String) (L : Locals) : List Expr → Option (List PyVal)
  | [] => some []
  | e :: es =>
    match evalExpr M L e, evalArgs M L es with
    | some v, some vs => some (v :: vs)
    | _, _ => none

/-- the keyword arguments of a call: `key=value` and `**mapping` -/
def evalKwargs (M : List String) (L : Locals) : List (Option String × Expr) → Option (List (String × PyVal))
  | [] => some []
  | (some k, e) :: es =>
    match evalExpr M L e, evalKwargs M L es with
    | some v, some vs => some ((k, v) :: vs)
    | _, _ => none
  | (none, e) :: es =>
    match evalExpr M L e, evalKwargs M L es with
    | some (.dict kvs), some vs => some (kvs ++ vs)
    | _, _ => none

/-- a call of a module-level function or class -/
structure Call where
  func : String
  args : List PyVal
  kwargs : List (String × PyVal)

/-- what a function does in the end: it calls `call`, awaits it or not, and hands on the result (or, for an
iterator, each event), or one attribute of it -/
structure Outcome where
  call : Call
  awaited : Bool
  iterates : Bool
  attr : Option String

/-- a call expression; the function has to be a module-level object -/
def evalCall (M : List String) (L : Locals) : Expr → Option Call
  | .call f args kws =>
    match evalExpr M L f, evalArgs M L args, evalKwargs M L kws with
    | some (.global g), some as, some ks => some ⟨g, as, ks⟩
    | _, _, _ => none
  | _ => none

/-- a call, possibly awaited -/
def evalAwait (M : List String) (L : Locals) : Expr → Option (Bool × Call)
  | .await e => (evalCall M L e).map fun c => (true, c)
  | e => (evalCall M L e).map fun c => (false, c)

/-- the value handed back: a call, possibly awaited, or an attribute of its result -/
def evalResult (M : List String) (L : Locals) : Expr → Option Outcome
  | .attr e a => (evalAwait M L e).map fun x => ⟨x.2, x.1, false, some a⟩
  | e => (evalAwait M L e).map fun x => ⟨x.2, x.1, false, none⟩

/-- what is yielded for each event -/
def yieldAttr : Expr → Option (Option String)
  | .name n => if n = "event" then some none else none
  | .attr (.name n) a => if n = "event" then some (some a) else none
  | _ => none

/-- assignment to a variable or to an entry of a dictionary -/
def store (L : Locals) (v : PyVal) : Expr → Option Locals
  | .name n => some ((n, v) :: L)
  | .subscript (.name d) (.const (.str k)) =>
    match L.find d with
    | some (.dict kvs) => some ((d, .dict (putEntry k v kvs)) :: L)
    | _ => none
  | _ => none

mutual
/-- One statement: the new local variables, and the outcome if the function is left. `none` is an
exception. -/
def execStmt (M : List String) (L : Locals) : Stmt → Option (Locals × Option Outcome)
  | .expr _ => some (L, none)
  | .annAssign n _ (some e) => (evalExpr M L e).map fun v => ((n, v) :: L, none)
  | .assign t e =>
    match evalExpr M L e with
    | some v => (store L v t).map fun L => (L, none)
    | none => none
  | .ifStmt (.isNot a b) body =>
    match evalExpr M L a, evalExpr M L b with
    | some x, some (.global m) => if x.is m then some (L, none) else execBody M L body
    | _, _ => none
  | .return_ e => (evalResult M L e).map fun o => (L, some o)
  | .forYield isAsync iter y =>
    match evalCall M L iter, yieldAttr y with
    | some c, some a => some (L, some ⟨c, isAsync, true, a⟩)
    | _, _ => none
  | _ => none
/-- the statements of a body, in order -/
def execBody (M : List String) (L : Locals) : List Stmt → Option (Locals × Option Outcome)
  | [] => some (L, none)
  | s :: ss =>
    match execStmt M L s with
    | some (L, none) => execBody M L ss
    | x => x
end

/-- Python's rule for `ast.arguments`: the defaults belong to the *last* parameters. -/
def signature (args : List Arg) (defaults : List Expr) : List (String × Option Expr) :=
  (args.map (·.arg)).zip
    (List.replicate (args.length - defaults.length) none ++ defaults.map some)

/-- Parameter binding: positional arguments first, then keyword arguments, then defaults (evaluated in the
module); `none` is a `TypeError`. -/
def bindParams (M : List String) : List (String × Option Expr) → List PyVal → List (String × PyVal) → Option Locals
  | [], [], _ => some []
  | [], _ :: _, _ => none
  | (n, _) :: ps, x :: pos, kw =>
    match Locals.find kw n, bindParams M ps pos kw with
    | none, some L => some ((n, x) :: L)
    | _, _ => none
  | (n, d) :: ps, [], kw =>
    match (match Locals.find kw n with
      | some x => some x
      | none => d.bind (evalExpr M [])), bindParams M ps [] kw with
    | some x, some L => some ((n, x) :: L)
    | _, _ => none

/-- A call `f(*pos, **kw)` binds these local variables. Duplicate parameters are a `SyntaxError`, as are more
defaults than parameters; an unknown keyword is a `TypeError`. -/
def bindCall (M : List String) (args : List Arg) (defaults : List Expr) (pos : List PyVal)
    (kw : List (String × PyVal)) : Option Locals :=
  if (args.map (·.arg)).Nodup ∧ defaults.length ≤ args.length ∧ ∀ k ∈ kw.map (·.1), k ∈ args.map (·.arg) then
    bindParams M (signature args defaults) pos kw
  else none

/-- calling a generated function -/
def callFunc (M : List String) : Stmt → List PyVal → List (String × PyVal) → Option Outcome
  | .funcDef _ _ args defaults body _ _, pos, kw =>
    match bindCall M args defaults pos kw with
    | some L =>
      match execBody M L body with
      | some (_, o) => o
      | none => none
    | none => none
  | _, _, _ => none

end Turms.Spec
