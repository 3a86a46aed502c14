import Verif.Model.Pipeline
import Verif.Spec.Registry

/-!
# What module assembly and the pass pipeline are supposed to do
-/

namespace Turms.Spec
open Turms

/-- the plugins run one after the other, each on the registry its predecessors left, with these outputs -/
inductive PluginRuns : List Plugin → Reg → List (List Stmt) → Reg → Prop
  | nil (r : Reg) : PluginRuns [] r [] r
  | cons {p : Plugin} {ps : List Plugin} {r r1 r2 : Reg} {ss : List Stmt} {outs : List (List Stmt)} :
      p.run r = .ok (ss, r1) → PluginRuns ps r1 outs r2 → PluginRuns (p :: ps) r (ss :: outs) r2

/-- the passes transform `a` in world `w` one after the other into `b`, leaving world `w'` -/
inductive PassChain {A W : Type} : List (Pass A W) → A → W → A → W → Prop
  | nil (a : A) (w : W) : PassChain [] a w a w
  | cons {p : Pass A W} {ps : List (Pass A W)} {a b c : A} {w w1 w2 : W} :
      p.run a w = (.ok b, w1) → PassChain ps b w1 c w2 → PassChain (p :: ps) a w c w2

/-- the validation rules of the GraphQL specification, by the sections of its chapter 5: documents, operations,
fields, arguments, fragments, values, directives, variables -/
def graphqlRules : List String :=
  ["executable_definitions"] ++
  ["unique_operation_names", "lone_anonymous_operation", "single_field_subscriptions"] ++
  ["fields_on_correct_type", "overlapping_fields_can_be_merged", "scalar_leafs"] ++
  ["known_argument_names", "unique_argument_names", "provided_required_arguments"] ++
  ["unique_fragment_names", "known_type_names", "fragments_on_composite_types", "no_unused_fragments",
   "known_fragment_names", "no_fragment_cycles", "possible_fragment_spreads"] ++
  ["values_of_correct_type", "unique_input_field_names"] ++
  ["known_directives", "unique_directives_per_location"] ++
  ["unique_variable_names", "variables_are_input_types", "no_undefined_variables", "no_unused_variables",
   "variables_in_allowed_position"]

/-- an import statement -/
def IsImport : Stmt → Prop
  | .import_ _ => True
  | .importFrom _ _ => True
  | _ => False

/-- the coercion that applies: the plugin's, else the global one -/
def coercionFor (global plugin : Dict String) (n : String) : Option String :=
  match plugin.get? n with
  | some c => some c
  | none => global.get? n

/-- an annotation without its `Optional`, `List` and `Iterable` layers -/
def unwrapped : Expr → Expr
  | .subscript (.name w) x => if w = "Optional" ∨ w = "List" ∨ w = "Iterable" then unwrapped x else .subscript (.name w) x
  | e => e

end Turms.Spec
