import Verif.Spec.Fragments
import Verif.Model.Operations

/-!
# Documents whose definitions can be told apart

The rules of the GraphQL specification (unique names, spread fragments exist, no cycles) and what turms needs to order the
fragments (no spread hidden below an inline fragment of a fragment definition, see C11).
-/

namespace Turms.Spec

structure Composable (doc : Document) : Prop where
  fragmentNames : ((fragmentsOf doc).map (·.name)).Nodup
  operationNames : ((operationsOf doc).map (·.name)).Nodup
  defined : ∀ d ∈ fragmentsOf doc, ∀ x, Spreads d.sels x → x ∈ (fragmentsOf doc).map (·.name)
  definedO : ∀ o ∈ operationsOf doc, ∀ x, Spreads o.sels x → x ∈ (fragmentsOf doc).map (·.name)
  acyclic : ∀ n d, lookup (fragmentsOf doc) n = some d → ¬ Needs (fragmentsOf doc) d.sels n
  inline : ∀ d ∈ fragmentsOf doc, NoInlineSpread d.sels

end Turms.Spec
