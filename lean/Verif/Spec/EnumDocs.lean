import Mathlib.Data.List.Forall2
import Verif.Spec.Enums

/-! # What the body of a generated enum class says -/

namespace Turms.Spec
open Turms

/-- a text that is present and not empty -/
def Written (t : Option String) (x : String) : Prop := t = some x ∧ x ≠ ""

/-- what stands below the assignment of an enum value: its description, marked if the value is deprecated -/
inductive ValueDoc (v : EnumValueDef) : List Stmt → Prop
  | nothing : (∀ x, ¬ Written v.deprecation x) → (∀ x, ¬ Written v.description x) → ValueDoc v []
  | described {x} : (∀ x, ¬ Written v.deprecation x) → Written v.description x → ValueDoc v [.expr (.str x)]
  | deprecated {x d} : Written v.deprecation x → v.description = some d → ValueDoc v [.expr (.str ("DEPRECATED: " ++ d))]
  | undescribed {x} : Written v.deprecation x → v.description = none → ValueDoc v [.expr (.str "DEPRECATED: None")]

/-- the body of the class: its docstring, and the values in order, each followed by its documentation -/
inductive EnumBody (t : EnumType) : List Stmt → Prop
  | mk {text docs} : (∀ x, Written t.description x → text = x) →
      ((∀ x, ¬ Written t.description x) → text = "No documentation") → List.Forall₂ ValueDoc t.values docs →
      EnumBody t (.expr (.str text) ::
        (t.values.zip docs).flatMap fun p => .assign (.name p.1.name) (.str p.1.name) :: p.2)

end Turms.Spec
