import Verif.Spec.Scope

/-!
# Specification: class bodies that hide the names they use

The body of a class is executed top to bottom in the namespace of the class, which is searched before the module's.
An annotated assignment with a value stores the value *before* it evaluates the annotation
(Python reference, 7.2.2); one without a value stores nothing.
-/

namespace Turms.Spec
open Turms

/-- the names a statement of a class body stores in the namespace of the class -/
def stored : Stmt → List String
  | .annAssign n _ (some _) => [n]
  | .assign (.name n) _ => [n]
  | .funcDef _ n _ _ _ _ _ => [n]
  | .classDef n _ _ _ => [n]
  | _ => []

/-- the names stored by a class body -/
def storedL (body : List Stmt) : List String := body.flatMap stored

/-- executing `s` in a namespace that holds `held`, no evaluated name is found in the namespace of the class -/
def Clear (held : List String) : Stmt → Prop
  | .annAssign n a (some v) => (∀ x ∈ freeNames v, x ∉ held) ∧ ∀ x ∈ freeNames a, x ∉ n :: held
  | s => ∀ x ∈ evaluated s, x ∉ held

/-- Executing the body of a class in a namespace that holds `held`, every evaluated name is looked up in the module: no
attribute of the class hides a name that the rest of the body uses. -/
def Unshadowed (held : List String) : List Stmt → Prop
  | [] => True
  | s :: ss => Clear held s ∧ Unshadowed (stored s ++ held) ss

end Turms.Spec
