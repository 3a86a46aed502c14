import Verif.Spec.Funcs
import Verif.Spec.Names

/-! # The names of generated functions -/

namespace Turms.Spec
open Turms

/-- the name of a function -/
def functionName : Stmt → Option String
  | .funcDef _ n _ _ _ _ _ => some n
  | _ => none

/-- the prefix for asynchronous or synchronous functions -/
def prefixFor (p : FuncsConfig) (d : FuncDefinition) : String := if d.isAsync then p.prependAsync else p.prependSync

/-- the name of an operation in snake_case -/
def snakeName (o : OpDef) : String := String.ofList (snake (o.name.getD "").toList)

/-- the documented name of the function: the prefix, then the operation in snake_case -/
def documentedName (p : FuncsConfig) (d : FuncDefinition) (o : OpDef) : String := prefixFor p d ++ snakeName o

end Turms.Spec
