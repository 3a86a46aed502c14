import Verif.Spec.Annotations
import Verif.Spec.Fragments
import Verif.Model.Recurse

/-!
# What a server may answer, and what a generated module accepts

Independent of the generator.  `Conforms` is the GraphQL side: which JSON values are possible results of a
selection set.  `Takes` is the Python side: which JSON values pydantic accepts for an annotation, given the
statements of a module.
-/

namespace Turms.Spec
open Turms

/-! ## GraphQL -/

/-- a scalar or enum type -/
def IsLeaf (s : Schema) (n : String) : Prop :=
  s.lookup n = some .scalar ∨ ∃ vs, s.lookup n = some (.enum vs)

/-- an object type -/
def IsObject (s : Schema) (n : String) : Prop := ∃ fs is, s.lookup n = some (.object fs is)

/-- an interface type -/
def IsInterface (s : Schema) (n : String) : Prop := ∃ fs is, s.lookup n = some (.interface fs is)

/-- `n` is a union type -/
def IsUnion (s : Schema) (n : String) : Prop := ∃ ms, s.lookup n = some (.union ms)

/-- `Possible s n o`: a value of the composite type `n` may be an object of type `o`
(GraphQL's `GetPossibleTypes`). -/
inductive Possible (s : Schema) : String → String → Prop
  | object {o} : IsObject s o → Possible s o o
  | interface {n o fs is} : IsInterface s n → s.lookup o = some (.object fs is) → n ∈ is → Possible s n o
  | union {n o ms} : s.lookup n = some (.union ms) → IsObject s o → o ∈ ms → Possible s n o

/-- `Picks s defs o sels key field sub`: for an object of type `o`, the selection set asks for `field` under
the response key `key` with the sub-selections `sub` — directly, in a fragment spread or in an inline
fragment whose type condition applies to `o` (GraphQL's `CollectFields`). -/
inductive Picks (s : Schema) (defs : Dict FragDef) (o : String) :
    List Sel → String → String → List Sel → Prop
  | field {sels name alias args sub} : Sel.field name alias args sub ∈ sels →
      Picks s defs o sels (alias.getD name) name sub
  | spread {sels f d key name sub} : Sel.spread f ∈ sels → defs.get? f = some d →
      Possible s d.typeCondition o → Picks s defs o d.sels key name sub → Picks s defs o sels key name sub
  | inline {sels t inner key name sub} : Sel.inline (some t) inner ∈ sels → Possible s t o →
      Picks s defs o inner key name sub → Picks s defs o sels key name sub
  | inlineAny {sels inner key name sub} : Sel.inline none inner ∈ sels →
      Picks s defs o inner key name sub → Picks s defs o sels key name sub

/-- `FieldType s o name t`: on objects of type `o` the field has type `t`. Includes the introspection
meta-fields. -/
inductive FieldType (s : Schema) : String → String → TypeNode → Prop
  | declared {o fs is fd} : s.lookup o = some (.object fs is) → fd ∈ fs → FieldType s o fd.name fd.type
  | typename {o} : FieldType s o "__typename" (.nonNull (.named "String"))
  | schema {o} : s.query = some o → FieldType s o "__schema" (.nonNull (.named "__Schema"))
  | type {o} : s.query = some o → FieldType s o "__type" (.named "__Type")

/-- `Conforms s defs leaf t sels v`: `v` is a possible result for a field of type `t` with selection set `sels`.
`leaf n v` says that `v` is a value of the scalar or enum `n`.  In an object all requested keys are present,
each holds a possible result of *every* selection of that key (the selections of one key are merged, so a
result for the merged selection is one for each of them), and `__typename` is the name of the object's type.
-/
inductive Conforms (s : Schema) (defs : Dict FragDef) (leaf : String → Val → Prop) :
    TypeNode → List Sel → Val → Prop
  | null {t sels} : t.isNonNull = false → Conforms s defs leaf t sels .null
  | nonNull {t sels v} : v ≠ .null → Conforms s defs leaf t sels v → Conforms s defs leaf (.nonNull t) sels v
  | list {t sels l} : (∀ x ∈ l, Conforms s defs leaf t sels x) → Conforms s defs leaf (.list t) sels (.list l)
  | leaf {n sels v} : IsLeaf s n → leaf n v → Conforms s defs leaf (.named n) sels v
  | object {n o sels kvs} : Possible s n o →
      (∀ key name sub, Picks s defs o sels key name sub → Val.entry kvs key ≠ none) →
      (∀ key name sub t x, Picks s defs o sels key name sub → FieldType s o name t →
        Val.entry kvs key = some x → Conforms s defs leaf t sub x) →
      (∀ key sub, Picks s defs o sels key "__typename" sub → Val.entry kvs key = some (.atom o)) →
      (∀ x, Val.entry kvs "__typename" = some x → x = .atom o) →
      Conforms s defs leaf (.named n) sels (.obj kvs)

/-- `ObjectResult s defs leaf o sels kvs`: the object with these entries is a possible result of the selection
set for an object of type `o`. -/
structure ObjectResult (s : Schema) (defs : Dict FragDef) (leaf : String → Val → Prop) (o : String)
    (sels : List Sel) (kvs : List (String × Val)) : Prop where
  present : ∀ key name sub, Picks s defs o sels key name sub → Val.entry kvs key ≠ none
  conforms : ∀ key name sub t x, Picks s defs o sels key name sub → FieldType s o name t →
    Val.entry kvs key = some x → Conforms s defs leaf t sub x
  typename : ∀ key sub, Picks s defs o sels key "__typename" sub → Val.entry kvs key = some (.atom o)
  reserved : ∀ x, Val.entry kvs "__typename" = some x → x = .atom o

/-- Like `Conforms`, but entries for fields of nullable types may be missing instead of `null` — as they are when the
selection is conditional.  Everything that conforms is of this form. -/
inductive SparseConforms (s : Schema) (defs : Dict FragDef) (leaf : String → Val → Prop) :
    TypeNode → List Sel → Val → Prop
  | null {t sels} : t.isNonNull = false → SparseConforms s defs leaf t sels .null
  | nonNull {t sels v} : v ≠ .null → SparseConforms s defs leaf t sels v → SparseConforms s defs leaf (.nonNull t) sels v
  | list {t sels l} : (∀ x ∈ l, SparseConforms s defs leaf t sels x) → SparseConforms s defs leaf (.list t) sels (.list l)
  | leaf {n sels v} : IsLeaf s n → leaf n v → SparseConforms s defs leaf (.named n) sels v
  | object {n o sels kvs} : Possible s n o →
      (∀ key name sub, Picks s defs o sels key name sub →
        (∀ t, FieldType s o name t → t.isNonNull = false) ∨ Val.entry kvs key ≠ none) →
      (∀ key name sub t x, Picks s defs o sels key name sub → FieldType s o name t →
        Val.entry kvs key = some x → SparseConforms s defs leaf t sub x) →
      (∀ key sub, Picks s defs o sels key "__typename" sub → Val.entry kvs key = some (.atom o)) →
      (∀ x, Val.entry kvs "__typename" = some x → x = .atom o) →
      SparseConforms s defs leaf (.named n) sels (.obj kvs)

/-- the same for the entries of an object -/
structure SparseResult (s : Schema) (defs : Dict FragDef) (leaf : String → Val → Prop) (o : String)
    (sels : List Sel) (kvs : List (String × Val)) : Prop where
  present : ∀ key name sub, Picks s defs o sels key name sub →
    (∀ t, FieldType s o name t → t.isNonNull = false) ∨ Val.entry kvs key ≠ none
  conforms : ∀ key name sub t x, Picks s defs o sels key name sub → FieldType s o name t →
    Val.entry kvs key = some x → SparseConforms s defs leaf t sub x
  typename : ∀ key sub, Picks s defs o sels key "__typename" sub → Val.entry kvs key = some (.atom o)
  reserved : ∀ x, Val.entry kvs "__typename" = some x → x = .atom o

/-- `SubType s a b`: wherever `b` is expected, `a` may be declared (the rule for implementing an interface
field). -/
inductive SubType (s : Schema) : TypeNode → TypeNode → Prop
  | refl {n} : SubType s (.named n) (.named n)
  | named {a b} : ¬ IsLeaf s a → (∀ o, Possible s a o → Possible s b o) → SubType s (.named a) (.named b)
  | list {a b} : SubType s a b → SubType s (.list a) (.list b)
  | nonNull {a b} : SubType s a b → SubType s (.nonNull a) (.nonNull b)
  | strict {a b} : SubType s a b → b.isNonNull = false → SubType s (.nonNull a) b

/-- Every object type declares the fields of its interfaces, with the same or a more specific type (GraphQL's
`IsValidImplementation`), and no type has two fields of the same name. -/
def ValidImplementations (s : Schema) : Prop :=
  ∀ i o fs is fs' is', s.lookup i = some (.interface fs is) → s.lookup o = some (.object fs' is') → i ∈ is' →
    ∀ fd ∈ fs, ∃ fd' ∈ fs', fd'.name = fd.name ∧ SubType s fd'.type fd.type

/-! ## Python -/

/-- the module defines a class of this name -/
def IsClass (T : List Stmt) (n : String) : Prop := ∃ bases body ds, Stmt.classDef n bases body ds ∈ T

/-- no two different classes of the module have the same name -/
def UniqueClasses (T : List Stmt) : Prop :=
  ∀ n bs body ds bs' body' ds', Stmt.classDef n bs body ds ∈ T → Stmt.classDef n bs' body' ds' ∈ T →
    bs = bs' ∧ body = body' ∧ ds = ds'

/-- `Declared T n st`: `st` is in the body of the class `n` or of a class it inherits from. (Where the same
attribute is declared more than once, pydantic uses one of the declarations; here all count, which makes
acceptance harder.) -/
inductive Declared (T : List Stmt) : String → Stmt → Prop
  | own {n bases body ds st} : Stmt.classDef n bases body ds ∈ T → st ∈ body → Declared T n st
  | inherited {n bases body ds b st} : Stmt.classDef n bases body ds ∈ T → Expr.name b ∈ bases →
      Declared T b st → Declared T n st

/-- the discriminator of a `Field(discriminator="...")` call -/
def discriminatorOf : Expr → Option String
  | .call (.name f) _ kws =>
    if f = "Field" then
      match kwarg "discriminator" kws with
      | some (.const (.str d)) => some d
      | _ => none
    else none
  | _ => none

/-- The class `n` has a field with attribute `d`, wire key `key` and annotation `Literal["tag"]`. -/
def Tagged (T : List Stmt) (n d key tag : String) : Prop :=
  ∃ st f, Declared T n st ∧ attrOf st = some d ∧ fieldOf st = some f ∧ f.key = key ∧
    f.ann = .subscript (.name "Literal") (.const (.str tag))

/-- `Takes T isa annotation v`: in a module with the statements `T`, pydantic accepts the JSON value `v` for the
annotation.  `isa n v` says which values the classes that are no models (scalars, enums) accept.  A model
accepts an object if every declared field is present or has a default and every present entry is accepted;
further entries are ignored.  A discriminated union looks at the discriminator: the entry must be present and
name one of the members. -/
inductive Takes (T : List Stmt) (isa : String → Val → Prop) : Expr → Val → Prop
  | opaque {n v} : isa n v → Takes T isa (.name n) v
  | model {n kvs} : IsClass T n →
      (∀ st f, Declared T n st → fieldOf st = some f → Val.entry kvs f.key = none → f.hasDefault = true) →
      (∀ st f x, Declared T n st → fieldOf st = some f → Val.entry kvs f.key = some x → Takes T isa f.ann x) →
      Takes T isa (.name n) (.obj kvs)
  | alias {n e v} : Stmt.assign (.name n) e ∈ T → Takes T isa e v → Takes T isa (.name n) v
  | forward {n v} : Takes T isa (.name n) v → Takes T isa (.const (.str n)) v
  | optionalNone {t} : Takes T isa (.subscript (.name "Optional") t) .null
  | optionalSome {t v} : Takes T isa t v → Takes T isa (.subscript (.name "Optional") t) v
  | list {t l} : (∀ x ∈ l, Takes T isa t x) → Takes T isa (.subscript (.name "List") t) (.list l)
  | tuple {t l} : (∀ x ∈ l, Takes T isa t x) →
      Takes T isa (.subscript (.name "Tuple") (.tuple [t, .const .ellipsis])) (.list l)
  | union {ts t v} : t ∈ ts → Takes T isa t v → Takes T isa (.subscript (.name "Union") (.tuple ts)) v
  | annotated {t ms v} : (∀ m ∈ ms, discriminatorOf m = none) → Takes T isa t v →
      Takes T isa (.subscript (.name "Annotated") (.tuple (t :: ms))) v
  | discriminated {ts m d n key tag kvs} : discriminatorOf m = some d →
      (∀ e ∈ ts, ∃ n' tag', e = .name n' ∧ Tagged T n' d key tag') →
      Expr.name n ∈ ts → Tagged T n d key tag → Val.entry kvs key = some (.atom tag) →
      Takes T isa (.name n) (.obj kvs) →
      Takes T isa (.subscript (.name "Annotated") (.tuple [.subscript (.name "Union") (.tuple ts), m])) (.obj kvs)
  | literal {s} : Takes T isa (.subscript (.name "Literal") (.const (.str s))) (.atom s)

/-- a class configured as base class of generated models -/
def ConfiguredBase (c : Ctx) (b : String) : Prop :=
  b ∈ c.config.objectBases ∨ b ∈ c.config.interfaceBases.getD [] ∨
    ∃ n l, c.config.additionalBases.get? n = some l ∧ b ∈ l

/-! ## The selections covered -/

/-- whether the named type inside the wrappers is nullable -/
def innerNullable : TypeNode → Bool
  | .named _ => true
  | .list t => innerNullable t
  | .nonNull (.named _) => false
  | .nonNull t => innerNullable t

/-- fragment spreads and inline fragments: the selections that become members of the Python union for a field
of a union type -/
def Sel.isFragment : Sel → Bool
  | .field .. => false
  | _ => true

/-- `Supported s defs known t sels`: the selection sets (on a field of type `t`) for which the generated models
accept every possible result.  `known f` says that the fragment `f` has been generated already.

* an object: its spreads are of fragments on that object type or on one of its interfaces;
* an interface: `__typename` is selected under its own name (the plugin adds it to the documents);
* a union: there is a fragment for every member, fragments are on object types (a spread fragment may be on a
  union that has the member), spreads inside inline fragments are of fragments on the same object type, and
  a nullable union has at least two fragments. -/
inductive Supported (s : Schema) (defs : Dict FragDef) (known : String → Prop) : TypeNode → List Sel → Prop
  | leaf {t sels} : IsLeaf s t.base → Supported s defs known t sels
  | object {t sels fs is} : s.lookup t.base = some (.object fs is) →
      (∀ f, Sel.spread f ∈ sels → known f ∧ ∃ d, defs.get? f = some d ∧
        (d.typeCondition = t.base ∨ (IsInterface s d.typeCondition ∧ Possible s d.typeCondition t.base))) →
      (∀ name alias args sub fd, Sel.field name alias args sub ∈ sels → name ≠ "__typename" →
        fd ∈ fs → fd.name = name → Supported s defs known fd.type sub) →
      Supported s defs known t sels
  | interface {t sels fs is} : s.lookup t.base = some (.interface fs is) →
      (∃ args sub, Sel.field "__typename" none args sub ∈ sels) →
      (∀ f, Sel.spread f ∈ sels → known f) →
      (∀ name alias args sub fd, Sel.field name alias args sub ∈ sels → name ≠ "__typename" →
        fd ∈ fs → fd.name = name → Supported s defs known fd.type sub) →
      (∀ o inner name alias args sub t', Sel.inline (some o) inner ∈ sels →
        Sel.field name alias args sub ∈ inner → name ≠ "__typename" → FieldType s o name t' →
        Supported s defs known t' sub) →
      Supported s defs known t sels
  | union {t sels ms} : s.lookup t.base = some (.union ms) →
      (innerNullable t = true → 2 ≤ (sels.filter Sel.isFragment).length) →
      (∀ o ∈ ms, (∃ inner, Sel.inline (some o) inner ∈ sels) ∨
        ∃ f d, Sel.spread f ∈ sels ∧ defs.get? f = some d ∧ Possible s d.typeCondition o) →
      (∀ f, Sel.spread f ∈ sels → known f ∧ ∃ d, defs.get? f = some d ∧ ¬ IsInterface s d.typeCondition) →
      (∀ o inner f, Sel.inline (some o) inner ∈ sels → Sel.spread f ∈ inner →
        known f ∧ ∃ d, defs.get? f = some d ∧ d.typeCondition = o) →
      (∀ o inner name alias args sub t', Sel.inline (some o) inner ∈ sels →
        Sel.field name alias args sub ∈ inner → name ≠ "__typename" → FieldType s o name t' →
        Supported s defs known t' sub) →
      Supported s defs known t sels

/-- `SupportedFragment c defs known d`: the fragments for which the generated classes accept every possible
result.

* on an interface: inline fragments are on object types;
* on an object: as for fields of an object type (introspection fields included);
* on a union: spreads inside inline fragments are of fragments on that object type whose class is named like
  the fragment. -/
inductive SupportedFragment (c : Ctx) (defs : Dict FragDef) (known : String → Prop) : FragDef → Prop
  | interface {d fs is} : c.schema.lookup d.typeCondition = some (.interface fs is) →
      (∀ f, Sel.spread f ∈ d.sels → known f) →
      (∀ name alias args sub fd, Sel.field name alias args sub ∈ d.sels → name ≠ "__typename" →
        fd ∈ fs → fd.name = name → Supported c.schema defs known fd.type sub) →
      (∀ o inner, Sel.inline (some o) inner ∈ d.sels → IsObject c.schema o) →
      (∀ o inner name alias args sub t, Sel.inline (some o) inner ∈ d.sels →
        Sel.field name alias args sub ∈ inner → name ≠ "__typename" → FieldType c.schema o name t →
        Supported c.schema defs known t sub) →
      SupportedFragment c defs known d
  | object {d} : IsObject c.schema d.typeCondition →
      (∀ f, Sel.spread f ∈ d.sels → known f ∧ ∃ d', defs.get? f = some d' ∧
        (d'.typeCondition = d.typeCondition ∨
          (IsInterface c.schema d'.typeCondition ∧ Possible c.schema d'.typeCondition d.typeCondition))) →
      (∀ name alias args sub t, Sel.field name alias args sub ∈ d.sels → name ≠ "__typename" →
        FieldType c.schema d.typeCondition name t → Supported c.schema defs known t sub) →
      SupportedFragment c defs known d
  | union {d ms} : c.schema.lookup d.typeCondition = some (.union ms) → (∀ m ∈ ms, IsObject c.schema m) →
      (∀ f, Sel.spread f ∈ d.sels → known f) →
      (∀ o inner, Sel.inline (some o) inner ∈ d.sels → IsObject c.schema o) →
      (∀ o inner f, Sel.inline (some o) inner ∈ d.sels → Sel.spread f ∈ inner →
        known f ∧ styled c.env.stylers Styler.fragmentName f = .ok f ∧
          ∃ d', defs.get? f = some d' ∧ d'.typeCondition = o) →
      (∀ o inner name alias args sub t, Sel.inline (some o) inner ∈ d.sels →
        Sel.field name alias args sub ∈ inner → name ≠ "__typename" → FieldType c.schema o name t →
        Supported c.schema defs known t sub) →
      SupportedFragment c defs known d

/-- the fragment definitions of a document by name (the last one, should the document define several) -/
def definitions (doc : Document) : Dict FragDef := (fragmentsOf doc).reverse.map fun d => (d.name, d)

end Turms.Spec
