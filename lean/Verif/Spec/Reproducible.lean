import Verif.Spec.Pipeline

/-!
# Two runs on the same project

Python iterates sets of strings in an order that depends on the hash seed of the process.  A run is described by the
function that orders sets; every such function permutes its argument.
-/

namespace Turms.Spec
open Turms

/-- an order in which a Python process may iterate its sets of strings -/
def SetOrder (iter : List String → List String) : Prop := ∀ l, (iter l).Perm l

/-- after the statements ran, the name `n` stands for what the module `src` exports under this name (`none`: it is the
top-level module `n` itself): the last import of `n` is the one from `src` -/
def ImportedFrom (ss : List Stmt) (n : String) (src : Option String) : Prop :=
  ∃ before after, binds ss = before ++ (src, n) :: after ∧ ∀ p ∈ after, p.2 ≠ n

end Turms.Spec
