import Verif.Spec.Generable
import Verif.Spec.ResponseScope

/-!
# Where a fragment is spread at a union
-/

namespace Turms.Spec
open Turms

/-- `AtUnion s f t sels`: somewhere in the selections `sels` on the type `t`, the fragment `f` is spread where the type is
a union, directly or inside an inline fragment. -/
inductive AtUnion (s : Schema) (f : String) : String → List Sel → Prop
  | here {t ms sels} : s.lookup t = some (.union ms) → Sel.spread f ∈ sels → AtUnion s f t sels
  | member {t ms o sub sels} : s.lookup t = some (.union ms) → Sel.inline (some o) sub ∈ sels → Sel.spread f ∈ sub →
      AtUnion s f t sels
  | field {t name alias args sub sels ty} : Sel.field name alias args sub ∈ sels → FieldOn s t name ty →
      AtUnion s f ty.base sub → AtUnion s f t sels
  | inline {t o sub sels} : Sel.inline (some o) sub ∈ sels → AtUnion s f o sub → AtUnion s f t sels

/-- the fragment `f` is spread at a union by a fragment or an operation of the document -/
def SpreadAtUnion (s : Schema) (doc : Document) (f : String) : Prop :=
  (∃ d ∈ fragmentsOf doc, AtUnion s f d.typeCondition d.sels) ∨
  ∃ o ∈ operationsOf doc, ∃ root, s.root o.kind = some root ∧ AtUnion s f root o.sels

/-- `n` is the name a fragment on an interface is registered under, and the document spreads that fragment at a union.
No class of that name is generated (only `nBase`, `nCatch` and one class per implementing type). -/
def InterfaceFragmentAtUnion (c : Ctx) (doc : Document) (n : String) : Prop :=
  ∃ f ∈ fragmentsOf doc, IsInterface c.schema f.typeCondition ∧ SpreadAtUnion c.schema doc f.name ∧
    Kind.fragment.style c.env f.name = .ok n

end Turms.Spec
