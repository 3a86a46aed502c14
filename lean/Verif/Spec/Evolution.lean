import Verif.Model.Funcs
import Verif.Spec.Inputs
import Verif.Spec.Enums

/-!
# Schemas that grow

What it means that a schema was only added to, as far as the code generated for a given document is concerned.
-/

namespace Turms.Spec

/-- every field of the old type is still there, unchanged; there may be new ones -/
def KeepsFields (old new : List FieldDef) : Prop :=
  ∀ n f, old.find? (·.name == n) = some f → new.find? (·.name == n) = some f

/-- a type after an additive change: objects and interfaces may gain fields (and interfaces they implement), enums may
gain values, inputs may change their fields; a union keeps its members -/
def Grows : TypeDef → TypeDef → Prop
  | .scalar, .scalar => True
  | .enum _, .enum _ => True
  | .input _ _, .input _ _ => True
  | .object old _, .object new _ => KeepsFields old new
  | .interface old _, .interface new _ => KeepsFields old new
  | .union old, .union new => new = old
  | _, _ => False

/-- the object types that declare an interface, with their descriptions, in the order of the schema -/
def implementers (s : Schema) (i : String) : List (String × Option String) :=
  s.types.filterMap fun t => match t.2.defn with
    | .object _ is => if i ∈ is then some (t.1, t.2.description) else none
    | _ => none

/-- the new schema has everything the old one has; it may have new types, in any place, but no interface of the old
schema has new implementing types -/
structure Extends (old new : Schema) : Prop where
  query : new.query = old.query
  roots : ∀ k t, old.root k = some t → new.root k = some t
  types : ∀ n e, old.types.get? n = some e →
    ∃ e', new.types.get? n = some e' ∧ e'.description = e.description ∧ Grows e.defn e'.defn
  implementers : ∀ n e fs is, old.types.get? n = some e → e.defn = .interface fs is →
    implementers new n = implementers old n
  /-- no new type has the name of one of turms' helper classes -/
  helpers : ∀ n ∈ builtinNames, (new.types.get? n).isSome → (old.types.get? n).isSome

/-- The classes generated for the enums and inputs of the old schema are the same ones: the same enums are kept, no name of
the old schema starts or stops being the name of an input class, and no new type is called like one of the old input
classes (those of `@oneOf` inputs are not named after a type). -/
structure SameNames (c c' : Ctx) (pe pe' : EnumsConfig) (pi pi' : InputsConfig) : Prop where
  enums : ∀ n vs, c.schema.lookup n = some (.enum vs) → (EnumKept pe n ↔ EnumKept pe' n)
  inputs : ∀ n, (c.schema.types.get? n).isSome ∨ n ∈ builtinNames ∨ InputKey c pi n →
    (InputKey c pi n ↔ InputKey c' pi' n)
  fresh : ∀ n, InputKey c pi n → (c'.schema.types.get? n).isSome → (c.schema.types.get? n).isSome

end Turms.Spec
