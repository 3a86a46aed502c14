import Verif.Spec.Scope
import Verif.Spec.Fragments
import Verif.Spec.Responses
import Verif.Model.Operations

/-!
# Which classes the spread of a fragment can stand for
-/

namespace Turms.Spec
open Turms

/-- A class the registry knows for the fragment `f`: its own class (or alias), or the class generated for one of the
types it applies to. -/
def FragmentClass (r : Reg) (f n : String) : Prop :=
  r.fragmentMap.get? f = some n ∨
  (∃ m t, r.interfaceFragmentImpl.get? f = some m ∧ (t, n) ∈ m) ∨
  ∃ m t, r.unionFragmentMembers.get? f = some m ∧ (t, n) ∈ m

/-- `n` is the class of a registered enum or input type -/
def RegisteredType (r : Reg) (n : String) : Prop :=
  ∃ k t, (k = Kind.enum ∨ k = Kind.input) ∧ (r.classMap k).get? t = some n

/-- the names bound by a list of statements -/
def boundL (ss : List Stmt) : List String := ss.flatMap bound

/-- `n` is the name a fragment on an interface is registered under.  No class of that name is generated (only
`nBase`, `nCatch` and one class per implementing type). -/
def InterfaceFragmentName (c : Ctx) (doc : Document) (n : String) : Prop :=
  ∃ f ∈ fragmentsOf doc, IsInterface c.schema f.typeCondition ∧ Kind.fragment.style c.env f.name = .ok n

/-- The two places that call pydantic's `Field` without importing it: the class of an operation's arguments, for an
optional variable, and the union of the classes of an interface, if no object type implements it and catch-all
classes are switched off. -/
def NeedsField (c : Ctx) (p : OperationsConfig) (doc : Document) : Prop :=
  (p.createArguments = true ∧ ∃ o ∈ operationsOf doc, ∃ v ∈ o.vars, v.isOptional = true) ∨
  (c.config.createCatchall = false ∧ ∃ t, IsInterface c.schema t ∧ ∀ o, ¬ Possible c.schema t o)

end Turms.Spec
