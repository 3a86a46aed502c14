import Verif.Spec.StrawberryScope
import Verif.Model.Pipeline

/-!
# Executing a generated module from its first line

Here nothing is taken for granted but the names of Python itself: imports and helper classes are statements of the
module like all others.
-/

namespace Turms.Spec
open Turms

/-- the names a statement binds in the module, imports included -/
def provides : Stmt → List String
  | .import_ m => [m]
  | .importFrom _ names => names
  | s => bound s

/-- looking up `n` succeeds if the names `known` are bound: `n` is one of them, or a path `m.a` into a module `m` that
is (`strawberry.field`) -/
def Found (known : String → Prop) (n : String) : Prop := known n ∨ ∃ m a, n = m ++ "." ++ a ∧ known m

/-- Executing the module in order never meets an unknown name, if `known` holds of the names known at the start. -/
def Executes (known : String → Prop) : List Stmt → Prop
  | [] => True
  | s :: ss => (∀ n ∈ evaluated s, Found known n) ∧ Executes (fun n => known n ∨ n ∈ provides s) ss

/-- the statement that makes pydantic resolve the quoted names in a class -/
def rebuildStmt (v2 : Bool) (n : String) : Stmt :=
  .expr (.call (.attr (.name n) (if v2 then "model_rebuild" else "update_forward_refs")) [] [])

/-- the helper classes of introspection enums -/
def enumHelpers : List String := ["__TypeKind", "__DirectiveLocation"]

/-- `B` contains the builtin types the generator never imports, and `None` -/
def PythonNames (B : List String) : Prop := ∀ n ∈ "None" :: neverImported, n ∈ B

end Turms.Spec
