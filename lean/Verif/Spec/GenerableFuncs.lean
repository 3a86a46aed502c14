import Verif.Spec.Generable
import Verif.Spec.Funcs

/-!
# Schemas and documents for which functions and factories are generated

Narrowed, as `Spec/Generable.lean`, where the code cannot handle a valid document.
-/

namespace Turms.Spec
open Turms

/-- `VariableAt n sels`: a field at depth `n` of the selection set has a variable among its arguments; the fields of
`sels` itself have depth 1 -/
inductive VariableAt : Nat → List Sel → Prop
  | here {name alias args sub sels a v} : Sel.field name alias args sub ∈ sels → (a, Value.variable v) ∈ args →
      VariableAt 1 sels
  | deeper {n name alias args sub sels} : Sel.field name alias args sub ∈ sels → VariableAt n sub → VariableAt (n + 1) sels

/-- a field of an input type that can be a parameter: of a scalar that is known or coerced, of an input type, or of an
enum that was generated — unless its class has the name of the placeholder the code uses -/
def ParamField (c : Ctx) (pe : EnumsConfig) (co : Coercions) (f : InputFieldDef) : Prop :=
  (c.schema.lookup f.type.base = some .scalar ∧ ((∃ p, co.scalars.get? f.type.base = some p) ∨ ScalarKnown c.env f.type.base)) ∨
  (∃ fs ds, c.schema.lookup f.type.base = some (.input fs ds)) ∨
  (∃ vs, c.schema.lookup f.type.base = some (.enum vs) ∧ (f.type.base ∈ builtinNames ∨
    (EnumKept pe f.type.base ∧ Kind.style .enum c.env f.type.base ≠ .ok "SHOULD_NOT_BE_USED")))

/-- the selection asks for `__typename` -/
def IsTypename (s : Sel) : Prop := ∃ alias args sub, s = Sel.field "__typename" alias args sub

/-- `Returnable c pe defs n sels`: a function can return just its field of the type `n`, with the selection set `sels`.

* scalars and enums have no selection set; an enum was generated, and is not one of introspection;
* of an object, interface or union something other than `__typename` is asked for;
* if that is just one fragment, on an interface, then the field has that interface as its type, or an object type that
  implements it. -/
structure Returnable (c : Ctx) (pe : EnumsConfig) (defs : Dict FragDef) (n : String) (sels : List Sel) : Prop where
  scalar : c.schema.lookup n = some .scalar → sels = []
  enum : ∀ vs, c.schema.lookup n = some (.enum vs) → sels = [] ∧ n ∉ builtinNames ∧ EnumKept pe n
  asked : c.schema.lookup n ≠ some .scalar → (∀ vs, c.schema.lookup n ≠ some (.enum vs)) → ∃ s ∈ sels, ¬ IsTypename s
  lonely : ∀ f d, Sel.spread f ∈ sels → (∀ s ∈ sels, s = .spread f ∨ IsTypename s) → defs.get? f = some d →
    IsInterface c.schema d.typeCondition → d.typeCondition = n ∨ Possible c.schema d.typeCondition n

/-- An operation for which functions can be generated.

* `depth`: variables are used as arguments of root fields or at an even depth only;
* `defaults`: no variable has the default `null`;
* `expanded`: the variables to expand have the type `T!` or `[T]` for an input type `T` (without further wrappers);
* `collapsed`: if functions return the only field of an operation, it is returnable. -/
structure GenerableFunction (c : Ctx) (pe : EnumsConfig) (p : FuncsConfig) (defs : Dict FragDef) (o : OpDef) : Prop where
  depth : ∀ n, VariableAt n o.sels → n = 1 ∨ n % 2 = 0
  typed : ∀ v ∈ o.vars, v.type.base ≠ ""
  defaults : ∀ v ∈ o.vars, v.default ≠ some .null
  expanded : ∀ v ∈ o.vars, v.name ∈ p.expandInputTypes → ∃ n fs ds,
    (v.type = .nonNull (.named n) ∨ v.type = .list (.named n)) ∧ c.schema.lookup n = some (.input fs ds) ∧
    ∀ f ∈ fs, ParamField c pe p.co f
  collapsed : p.collapseLonely = true → ∀ name alias args sub t ty, o.sels = [.field name alias args sub] →
    c.schema.root o.kind = some t → FieldOn c.schema t name ty → Returnable c pe defs ty.base sub

/-- Functions for all operations, and factories for all inputs, can be generated.  (Only operations of a kind for which a
function is configured matter.)  Operations have different names. -/
structure GenerableFunctions (c : Ctx) (pe : EnumsConfig) (p : FuncsConfig) (q : InputFuncsConfig) (doc : Document) :
    Prop where
  functions : ∀ o ∈ operationsOf doc, (∃ d ∈ p.definitions, d.kind = o.kind) → GenerableFunction c pe p (definitions doc) o
  names : ((operationsOf doc).map (·.name)).Nodup
  factories : ∀ t, InputOf c.schema t → (∀ l, q.refInputs = some l → t.name ∈ l) →
    (q.skipUnderscore = true → t.name.toList.head? ≠ some '_') → ∀ f ∈ t.fields, ParamField c pe q.co f

end Turms.Spec
