import Verif.Spec.Generable
import Verif.Spec.Strawberry

/-!
# Schemas for which the plugins for objects and for strawberry succeed
-/

namespace Turms.Spec
open Turms

/-! ## The objects plugin, after the enums plugin -/

/-- a field may have the type `n`, which is not a union: its scalar is known; an enum is generated before (and not called
like the class of the field), or may be referred to in advance -/
def ModelLeaf (c : Ctx) (pe : EnumsConfig) (cls n : String) : Prop :=
  (c.schema.lookup n = some .scalar ∧ ScalarKnown c.env n) ∨
  (∃ fs is, c.schema.lookup n = some (.object fs is) ∨ c.schema.lookup n = some (.interface fs is)) ∨
  (∃ vs, c.schema.lookup n = some (.enum vs) ∧ (c.config.forcePluginOrder = false ∨ n ∈ builtinNames ∨
    (EnumKept pe n ∧ Kind.style .enum c.env n ≠ .ok cls)))

/-- the same for any output type; the members of a union are objects -/
def ModelField (c : Ctx) (pe : EnumsConfig) (cls n : String) : Prop :=
  ModelLeaf c pe cls n ∨ ∃ ms, c.schema.lookup n = some (.union ms) ∧
    ∀ m ∈ ms, ∃ fs is, c.schema.lookup m = some (.object fs is)

/-- What the objects plugin needs.

* `fields`: every field has a type as above;
* `parents`: the interfaces a class has to inherit from are generated, and before it: an interface that implements
  another one comes later in the schema;
* `implemented`: with `always_resolve_interfaces`, every interface is implemented by a type that is generated. -/
structure GenerableModels (c : Ctx) (pe : EnumsConfig) (p : ObjectsConfig) : Prop where
  fields : ∀ t, CompositeOf c.schema t → KeptObject p t.name → ∀ cls, CompositeClass c.env t cls → ∀ f ∈ t.fields,
    ModelField c pe cls f.type.base
  parents : ∀ t, CompositeOf c.schema t → KeptObject p t.name → ∀ i ∈ t.interfaces,
    ¬ ExtendedWithin c.schema i t.interfaces → KeptObject p i ∧
      (∃ u, CompositeOf c.schema u ∧ u.isInterface = true ∧ u.name = i) ∧
      (t.isInterface = true → [i, t.name].Sublist c.schema.types.keys)
  implemented : c.config.alwaysResolveInterfaces = true → ∀ t, CompositeOf c.schema t → KeptObject p t.name →
    t.isInterface = true → ∃ u, CompositeOf c.schema u ∧ KeptObject p u.name ∧ t.name ∈ u.interfaces

/-! ## The strawberry plugin -/

/-- a value that can be passed to a directive: no object, and no variable -/
inductive Passable : Value → Prop
  | null : Passable .null
  | string {s} : Passable (.string s)
  | int {t} : Passable (.int t)
  | float {t} : Passable (.float t)
  | bool {b} : Passable (.bool b)
  | enum {n} : Passable (.enum n)
  | list {l} : (∀ v ∈ l, Passable v) → Passable (.list l)

/-- the scalar is known, or the plugin defines it -/
def ServerScalar (c : Ctx) (p : StrawberryConfig) (n : String) : Prop :=
  c.schema.lookup n = some .scalar ∧ (ScalarKnown c.env n ∨ (p.generateDirectives = true ∧ n ∉ p.builtinScalars))

/-- the enum is generated before and not called like the class `cls`, or may be referred to in advance -/
def ServerEnum (c : Ctx) (p : StrawberryConfig) (cls n : String) : Prop :=
  (∃ vs, c.schema.lookup n = some (.enum vs)) ∧ (c.config.forcePluginOrder = false ∨ n ∈ builtinNames ∨
    (p.generateEnums = true ∧ KeptType p n ∧ Kind.style .enum c.env n ≠ .ok cls))

/-- an argument or input field may have the type `n` -/
def ServerInput (c : Ctx) (p : StrawberryConfig) (cls n : String) : Prop :=
  ServerScalar c p n ∨ ServerEnum c p cls n ∨ ∃ fs ds, c.schema.lookup n = some (.input fs ds)

/-- a field may have the type `n`; the members of a union are objects -/
def ServerOutput (c : Ctx) (p : StrawberryConfig) (cls n : String) : Prop :=
  ServerScalar c p n ∨ ServerEnum c p cls n ∨
  (∃ fs is, c.schema.lookup n = some (.object fs is) ∨ c.schema.lookup n = some (.interface fs is)) ∨
  ∃ ms, c.schema.lookup n = some (.union ms) ∧ ∀ m ∈ ms, ∃ fs is, c.schema.lookup m = some (.object fs is)

/-- What the strawberry plugin needs.

* `defined`: the arguments of the directives the schema defines are of scalar types known to turms, or configured — an
  enum or a scalar of the schema will not do —, and their defaults are JSON-like;
* `onTypes`, `onFields`: no object is passed to a directive;
* `inputs`, `types`: every field and every argument has a type as above;
* `parents`: as for the objects plugin. -/
structure GenerableServer (c : Ctx) (p : StrawberryConfig) (sd : SchemaDirectives) : Prop where
  defined : p.generateDirectives = true → ∀ d ∈ sd.defined, d.name ∉ p.builtinDirectives → KeptType p d.name →
    ∀ a ∈ d.args, (c.schema.lookup a.type.base = some .scalar ∧ ScalarKnown c.env a.type.base) ∧
      ∀ v, a.default = some v → v.Proper
  onTypes : ∀ t, ∀ d ∈ sd.onType t, d.name ∉ p.builtinDirectives → ∀ q ∈ d.args, Passable q.2
  onFields : ∀ t f, ∀ d ∈ sd.onField t f, d.name ∉ p.builtinDirectives → ∀ q ∈ d.args, Passable q.2
  inputs : p.generateInputs = true → ∀ t, InputOf c.schema t →
    ¬ (p.skipUnderscore = true ∧ t.name.toList.head? = some '_') →
    ∀ cls, Kind.style .input c.env t.name = .ok cls → ∀ f ∈ t.fields, ServerInput c p cls f.type.base
  types : p.generateTypes = true → ∀ t, CompositeOf c.schema t → KeptType p t.name →
    ∀ cls, styled c.env.stylers Styler.objectName t.name = .ok cls → ∀ f ∈ t.fields,
      ServerOutput c p cls f.type.base ∧ ∀ a ∈ f.args, ServerInput c p cls a.type.base
  parents : p.generateTypes = true → ∀ t, CompositeOf c.schema t → KeptType p t.name → ∀ i ∈ t.interfaces,
    ¬ ExtendedWithin c.schema i t.interfaces → KeptType p i ∧
      (∃ u, CompositeOf c.schema u ∧ u.isInterface = true ∧ u.name = i) ∧
      (t.isInterface = true → [i, t.name].Sublist c.schema.types.keys)

end Turms.Spec
