import Verif.Spec.Responses
import Verif.Spec.Inputs
import Verif.Spec.Enums
import Verif.Spec.Documents
import Verif.Model.Operations

/-!
# Schemas and documents for which generation succeeds

The clauses are those of the GraphQL specification (fields exist, spread fragments are defined, …), narrowed where the
code cannot handle a valid document.
-/

namespace Turms.Spec
open Turms

/-- Every non-empty name can be styled as a class name, and the result is not empty; every name can be styled as
attribute and as parameter.  (Names of GraphQL are never empty.) -/
structure Stylable (env : Env) : Prop where
  classes : ∀ k n, n ≠ "" → ∃ m, m ≠ "" ∧ Kind.style k env n = .ok m
  nodes : ∀ n, ∃ m, generateNodeName env.stylers n = .ok m
  parameters : ∀ n, ∃ m, generateParameterName env.stylers n = .ok m

/-- the stylers shipped with turms -/
inductive Shipped : Styler → Prop
  | default : Shipped defaultStyler
  | capitalize : Shipped capitalizeStyler
  | appender (a : AppenderConfig) : Shipped (appenderStyler a)
  | snake : Shipped snakeCaseStyler

/-- the scalar is known to turms or configured -/
def ScalarKnown (env : Env) (n : String) : Prop :=
  (∃ p, (n, p) ∈ scalarDefaults) ∨ ∃ p, (n, p) ∈ env.config.scalarDefinitions

/-- `FieldOn s t name ty`: the object or interface type `t` has a field of that name and type; the introspection fields
included -/
inductive FieldOn (s : Schema) : String → String → TypeNode → Prop
  | object {t fs is fd} : s.lookup t = some (.object fs is) → fd ∈ fs → FieldOn s t fd.name fd.type
  | interface {t fs is fd} : s.lookup t = some (.interface fs is) → fd ∈ fs → FieldOn s t fd.name fd.type
  | typename {t} : FieldOn s t "__typename" (.nonNull (.named "String"))
  | schema {t} : s.query = some t → FieldOn s t "__schema" (.nonNull (.named "__Schema"))
  | type {t} : s.query = some t → FieldOn s t "__type" (.named "__Type")

/-- a fragment that may be spread where the object is of type `o`: it is generated, and if it is on an interface, `o`
implements that -/
def SpreadFits (s : Schema) (defs : Dict FragDef) (known : String → Prop) (o f : String) : Prop :=
  known f ∧ ∃ d, defs.get? f = some d ∧ (IsInterface s d.typeCondition → Possible s d.typeCondition o)

/-- `Generable c defs known n sels`: models can be generated for the selection set `sels` on the type `n`, if the
fragments `known` have been generated before.

* a scalar has a Python type;
* on an object: there are no inline fragments; spread fragments fit; the fields exist;
* on an interface: spread fragments are known; inline fragments are on object types, with existing fields;
* on a union: there is at least one fragment; spread fragments are known; inline fragments name a type, and the fields
  asked for are declared by that object type. -/
inductive Generable (c : Ctx) (defs : Dict FragDef) (known : String → Prop) : String → List Sel → Prop
  | scalar {n sels} : c.schema.lookup n = some .scalar → ScalarKnown c.env n → Generable c defs known n sels
  | enum {n sels vs} : c.schema.lookup n = some (.enum vs) → Generable c defs known n sels
  | object {n sels fs is} : c.schema.lookup n = some (.object fs is) →
      (∀ t inner, Sel.inline t inner ∉ sels) →
      (∀ f, Sel.spread f ∈ sels → SpreadFits c.schema defs known n f) →
      (∀ name alias args sub, Sel.field name alias args sub ∈ sels → name ≠ "__typename" →
        ∃ fd ∈ fs, fd.name = name) →
      (∀ name alias args sub fd, Sel.field name alias args sub ∈ sels → name ≠ "__typename" →
        fd ∈ fs → fd.name = name → Generable c defs known fd.type.base sub) →
      Generable c defs known n sels
  | interface {n sels fs is} : c.schema.lookup n = some (.interface fs is) →
      (∀ inner, Sel.inline none inner ∉ sels) →
      (∀ f, Sel.spread f ∈ sels → known f) →
      (∀ name alias args sub, Sel.field name alias args sub ∈ sels → name ≠ "__typename" →
        ∃ fd ∈ fs, fd.name = name) →
      (∀ name alias args sub fd, Sel.field name alias args sub ∈ sels → name ≠ "__typename" →
        fd ∈ fs → fd.name = name → Generable c defs known fd.type.base sub) →
      (∀ o inner, Sel.inline (some o) inner ∈ sels → IsObject c.schema o) →
      (∀ o inner name alias args sub, Sel.inline (some o) inner ∈ sels →
        Sel.field name alias args sub ∈ inner → name ≠ "__typename" → ∃ ty, FieldOn c.schema o name ty) →
      (∀ o inner name alias args sub ty, Sel.inline (some o) inner ∈ sels →
        Sel.field name alias args sub ∈ inner → name ≠ "__typename" → FieldOn c.schema o name ty →
        Generable c defs known ty.base sub) →
      Generable c defs known n sels
  | union {n sels ms} : c.schema.lookup n = some (.union ms) →
      (∃ s ∈ sels, Sel.isFragment s = true) →
      (∀ inner, Sel.inline none inner ∉ sels) →
      (∀ f, Sel.spread f ∈ sels → known f) →
      (∀ o inner f, Sel.inline (some o) inner ∈ sels → Sel.spread f ∈ inner → known f) →
      (∀ o inner name alias args sub, Sel.inline (some o) inner ∈ sels →
        Sel.field name alias args sub ∈ inner → name ≠ "__typename" →
        ∃ fs is fd, c.schema.lookup o = some (.object fs is) ∧ fd ∈ fs ∧ fd.name = name) →
      (∀ o inner name alias args sub fs is fd, Sel.inline (some o) inner ∈ sels →
        Sel.field name alias args sub ∈ inner → name ≠ "__typename" →
        c.schema.lookup o = some (.object fs is) → fd ∈ fs → fd.name = name →
        Generable c defs known fd.type.base sub) →
      Generable c defs known n sels

/-- the fields a selection set asks for on the object or interface type `t` exist, and models can be generated for them -/
structure FieldsGenerable (c : Ctx) (defs : Dict FragDef) (known : String → Prop) (t : String) (sels : List Sel) :
    Prop where
  exist : ∀ name alias args sub, Sel.field name alias args sub ∈ sels → name ≠ "__typename" →
    ∃ ty, FieldOn c.schema t name ty
  nested : ∀ name alias args sub ty, Sel.field name alias args sub ∈ sels → name ≠ "__typename" →
    FieldOn c.schema t name ty → Generable c defs known ty.base sub

/-- The fragments for which classes can be generated.

* on an object: spread fragments fit (inline fragments are ignored by the code);
* on an interface: spread fragments are known, inline fragments name a type;
* on a union: spread fragments are on unions, inline fragments name a type. -/
inductive GenerableFragment (c : Ctx) (defs : Dict FragDef) (known : String → Prop) (d : FragDef) : Prop
  | object : IsObject c.schema d.typeCondition →
      (∀ f, Sel.spread f ∈ d.sels → SpreadFits c.schema defs known d.typeCondition f) →
      FieldsGenerable c defs known d.typeCondition d.sels → GenerableFragment c defs known d
  | interface {fs is} : c.schema.lookup d.typeCondition = some (.interface fs is) →
      (∀ f, Sel.spread f ∈ d.sels → known f) →
      (∀ inner, Sel.inline none inner ∉ d.sels) →
      (∀ name alias args sub, Sel.field name alias args sub ∈ d.sels → name ≠ "__typename" →
        ∃ fd ∈ fs, fd.name = name) →
      (∀ name alias args sub fd, Sel.field name alias args sub ∈ d.sels → name ≠ "__typename" →
        fd ∈ fs → fd.name = name → Generable c defs known fd.type.base sub) →
      (∀ o inner, Sel.inline (some o) inner ∈ d.sels → FieldsGenerable c defs known o inner) →
      GenerableFragment c defs known d
  | union {ms} : c.schema.lookup d.typeCondition = some (.union ms) →
      (∀ f, Sel.spread f ∈ d.sels → known f ∧ ∃ d' ms', defs.get? f = some d' ∧
        c.schema.lookup d'.typeCondition = some (.union ms')) →
      (∀ inner, Sel.inline none inner ∉ d.sels) →
      (∀ name alias args sub, Sel.field name alias args sub ∈ d.sels → name = "__typename") →
      (∀ o inner, Sel.inline (some o) inner ∈ d.sels → FieldsGenerable c defs known o inner) →
      GenerableFragment c defs known d

/-- a default value the code can convert: a string, a number, a boolean or null -/
def plainDefault : Value → Bool
  | .int _ => true
  | .float _ => true
  | .string _ => true
  | .bool _ => true
  | .null => true
  | _ => false

/-- `VariableType c pe pi n`: the type `n` of a variable is available to the class of the arguments: a known scalar, or
an input or enum that was generated (and is not called like a scalar) -/
def VariableType (c : Ctx) (pe : EnumsConfig) (pi : InputsConfig) (n : String) : Prop :=
  ScalarKnown c.env n ∨ (∃ t, InputOf c.schema t ∧ SelectedInput pi t ∧ t.name = n) ∨
    (∃ t, EnumOf c.schema t ∧ EnumKept pe t.name ∧ t.name = n) ∨ n ∈ builtinNames

/-- An operation for which a class can be generated: it has a name, its root selections are fields of the root type,
and its variables have available types and plain defaults. -/
structure GenerableOperation (c : Ctx) (pe : EnumsConfig) (pi : InputsConfig) (defs : Dict FragDef)
    (known : String → Prop) (o : OpDef) : Prop where
  named : ∃ n, o.name = some n ∧ n ≠ ""
  root : ∃ t, c.schema.root o.kind = some t
  fields : ∀ s ∈ o.sels, ∃ name alias args sub, s = Sel.field name alias args sub
  exist : ∀ t name alias args sub, c.schema.root o.kind = some t → Sel.field name alias args sub ∈ o.sels →
    ∃ ty, FieldOn c.schema t name ty
  nested : ∀ t name alias args sub ty, c.schema.root o.kind = some t → Sel.field name alias args sub ∈ o.sels →
    FieldOn c.schema t name ty → Generable c defs known ty.base sub
  variables : ∀ v ∈ o.vars, VariableType c pe pi v.type.base
  defaults : ∀ v ∈ o.vars, ∀ d, v.default = some d → plainDefault d = true

/-- What is needed of the input types of the schema.

* `fields`: the fields of the types to generate are of known scalars, of input types, or of enums that were generated
  (or any enum, if `force_plugin_order` is off);
* `distinct`: with `force_plugin_order`, the class that declares a field of an enum type is not called like the enum;
* `oneOf`: `@oneOf` inputs have only nullable fields without defaults, as GraphQL demands;
* `complete`, `agree`, `keys`: `@unionElementOf` is used with all its arguments; the members of a union agree on the
  name of the discriminator; a type has only one key for a discriminator;
* `wrappers`: no wrapper class of a `@oneOf` input is called like another input type or wrapper. -/
structure GenerableInputs (c : Ctx) (pe : EnumsConfig) (pi : InputsConfig) : Prop where
  fields : ∀ t, InputOf c.schema t → SelectedInput pi t → ∀ f ∈ t.fields,
    (c.schema.lookup f.type.base = some .scalar ∧ ScalarKnown c.env f.type.base) ∨
    (∃ fs ds, c.schema.lookup f.type.base = some (.input fs ds)) ∨
    (∃ vs, c.schema.lookup f.type.base = some (.enum vs) ∧
      (c.config.forcePluginOrder = false ∨ f.type.base ∈ builtinNames ∨ EnumKept pe f.type.base))
  distinct : c.config.forcePluginOrder = true → ∀ t, InputOf c.schema t → SelectedInput pi t → ∀ f ∈ t.fields,
    (∃ vs, c.schema.lookup f.type.base = some (.enum vs)) → ∀ k, k = t.name ∨ (OneOf t.directives ∧ k = t.name ++ upperFirst f.name) →
    Kind.style .enum c.env f.type.base ≠ Kind.style .input c.env k
  oneOf : ∀ t, InputOf c.schema t → Kept pi t.name → OneOf t.directives → OneOfValid t.fields
  complete : ∀ t, InputOf c.schema t → ∀ d ∈ t.directives, d.name = "unionElementOf" →
    ∃ u dn k, d.args.get? "union" = some u ∧ d.args.get? "discriminator" = some dn ∧ d.args.get? "key" = some k
  agree : ∀ t t' u dn dn' k k', InputOf c.schema t → InputOf c.schema t' → Referenced pi u →
    Declares t u dn k → Declares t' u dn' k' → dn = dn'
  keys : ∀ t u u' dn k k', InputOf c.schema t → Referenced pi u → Referenced pi u' →
    Declares t u dn k → Declares t u' dn k' → k = k'
  wrappers : ((inputTypes c.schema).flatMap fun t =>
    t.name :: (if isOneof t.directives then t.fields.map fun f => t.name ++ upperFirst f.name else [])).Nodup

/-- Schema and documents for which modules are generated.  Beside the clauses above:

* `defined`, `acyclic`: as GraphQL demands, every fragment spread is defined, and no fragment needs itself;
* `inline`: no fragment spreads another one inside an inline fragment (the code overlooks that it depends on it);
* `unique`: no two operations of the same kind have the same name;
* `named`, `printable`: names are GraphQL names, no literal contains `...`, and spread fragments are named with letters
  only (the code scans the printed documents for spreads, and does not see other names). -/
structure GenerableDocument (c : Ctx) (pe : EnumsConfig) (pi : InputsConfig) (doc : Document) : Prop where
  inputs : GenerableInputs c pe pi
  fragments : ∀ d ∈ fragmentsOf doc,
    GenerableFragment c (definitions doc) (fun f => f ∈ (fragmentsOf doc).map (·.name)) d
  operations : ∀ o ∈ operationsOf doc,
    GenerableOperation c pe pi (definitions doc) (fun f => f ∈ (fragmentsOf doc).map (·.name)) o
  defined : ∀ d ∈ fragmentsOf doc, ∀ x, Spreads d.sels x → x ∈ (fragmentsOf doc).map (·.name)
  definedO : ∀ o ∈ operationsOf doc, ∀ x, Spreads o.sels x → x ∈ (fragmentsOf doc).map (·.name)
  acyclic : ∀ n d, lookup (fragmentsOf doc) n = some d → ¬ Needs (fragmentsOf doc) d.sels n
  inline : ∀ d ∈ fragmentsOf doc, NoInlineSpread d.sels
  unique : ((operationsOf doc).map fun o => (o.kind, o.name)).Nodup
  named : ∀ d ∈ fragmentsOf doc, d.name ≠ ""
  printable : ∀ d ∈ fragmentsOf doc, fragOk d = true
  printableO : ∀ o ∈ operationsOf doc, ∀ n, o.name = some n → opOk n o = true

end Turms.Spec
