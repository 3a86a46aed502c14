import Verif.Spec.Funcs

/-! # The synchronous and the asynchronous function of an operation -/

namespace Turms.Spec
open Turms

/-- what two functions for the same operation have in common -/
structure Template where
  name : String
  args : List Arg
  defaults : List Expr
  docstring : Expr
  stores : List Stmt
  callArgs : List Expr
  callKwargs : List (Option String × Expr)
  attr : Option String
  hands : Expr

/-- the value, or one attribute of it -/
def selected : Option String → Expr → Expr
  | none, e => e
  | some a, e => .attr e a

/-- the call of the proxy function: the definition says which one -/
def Template.call (t : Template) (d : FuncDefinition) : Expr :=
  .call (.name (lastComponent d.use)) t.callArgs t.callKwargs

/-- The last statement: `return` the result, awaited in an asynchronous function, or `yield` each event of the (possibly
asynchronous) iterator. -/
def Template.last (t : Template) (d : FuncDefinition) (o : OpDef) : Stmt :=
  match o.kind with
  | .subscription => .forYield d.isAsync (t.call d) (selected t.attr (.name "event"))
  | _ => .return_ (selected t.attr (if d.isAsync then .await (t.call d) else t.call d))

/-- The function: the definition decides about `async`, the prefix of the name, the proxy, `await`, and whether the
iterator is asynchronous; everything else is the template's. -/
def Template.render (t : Template) (p : FuncsConfig) (d : FuncDefinition) (o : OpDef) : Stmt :=
  .funcDef d.isAsync ((if d.isAsync then p.prependAsync else p.prependSync) ++ t.name) t.args t.defaults
    (.expr t.docstring :: (t.stores ++ [t.last d o])) [] (some (handsBack d o t.hands))

/-- two definitions with the same extra arguments -/
def SameExtras (d d' : FuncDefinition) : Prop := d'.extraArgs = d.extraArgs ∧ d'.extraKwargs = d.extraKwargs

/-- the local variable a statement introduces -/
def introduces : Stmt → Option String
  | .annAssign n _ _ => some n
  | .assign (.name n) _ => some n
  | _ => none

/-- the name is neither a parameter nor a local variable of the function -/
def SeesGlobal (name : String) : Stmt → Prop
  | .funcDef _ _ args _ body _ _ => name ∉ args.map (·.arg) ∧ ∀ s ∈ body, introduces s ≠ some name
  | _ => False

/-- the same request: the same arguments reach the proxy, and the same part of the result is handed back in the same way -/
structure SameRequest (out out' : Outcome) : Prop where
  args : out'.call.args = out.call.args
  kwargs : out'.call.kwargs = out.call.kwargs
  attr : out'.attr = out.attr
  iterates : out'.iterates = out.iterates

end Turms.Spec
