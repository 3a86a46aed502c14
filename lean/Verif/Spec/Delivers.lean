import Verif.Spec.Kept

/-!
# What an accepted response is sure to contain

Independent of the generator.  `MayAccept` is the Python side: an upper bound for the JSON values pydantic accepts for
an annotation.  `Delivers` is the GraphQL side: the value has everything, and everywhere the shape, that the selection
set and the schema promise.
-/

namespace Turms.Spec
open Turms

/-! ## GraphQL -/

/-- `FieldAt s p name t`: in a selection set on the object or interface type `p`, the field has type `t` -/
def FieldAt (s : Schema) (p name : String) (t : TypeNode) : Prop :=
  FieldType s p name t ∨ ∃ fs is fd, s.lookup p = some (.interface fs is) ∧ fd ∈ fs ∧ fd.name = name ∧ fd.type = t

/-- `PicksAt s defs o p sels key field sub t`: in the selection set on the type `p`, objects of type `o` are asked for
`field` under the response key `key` with the sub-selections `sub`, and `t` is the type of the field on the type for
whose selection set it is written.  (An object type may declare a more specific type than the interface on which the
field is selected.) -/
inductive PicksAt (s : Schema) (defs : Dict FragDef) (o : String) :
    String → List Sel → String → String → List Sel → TypeNode → Prop
  | field {p sels name alias args sub t} : Sel.field name alias args sub ∈ sels → FieldAt s p name t →
      PicksAt s defs o p sels (alias.getD name) name sub t
  | spread {p sels f d key name sub t} : Sel.spread f ∈ sels → defs.get? f = some d → Possible s d.typeCondition o →
      PicksAt s defs o d.typeCondition d.sels key name sub t → PicksAt s defs o p sels key name sub t
  | inline {p sels q inner key name sub t} : Sel.inline (some q) inner ∈ sels → Possible s q o →
      PicksAt s defs o q inner key name sub t → PicksAt s defs o p sels key name sub t
  | inlineAny {p sels inner key name sub t} : Sel.inline none inner ∈ sels →
      PicksAt s defs o p inner key name sub t → PicksAt s defs o p sels key name sub t

/-- the named type, unless there is a list around it -/
def namedOf : TypeNode → Option String
  | .named n => some n
  | .nonNull t => namedOf t
  | .list _ => none

/-- `Delivers s defs leaf catchAll t sels v`: the value `v` delivers what a field of type `t` with the selection set
`sels` promises.

* `null` only where the type is nullable (or the class of the scalar itself accepts it: `leaf n .null`);
* lists where the type is a list;
* for an object type: an object which does not claim to be of another type, with a value for every selected field —
  missing only if the field is nullable — that delivers what the field promises, and so on;
* for an interface: the same for one of its object types, which is named in `__typename`.  With catch-all classes
  switched on, it may also be an object of another type; then it has the fields selected on the interface itself;
* for a union: the same for an object type to which one of the fragments applies.  (In a valid document it is a member
  of the union.  If it is not, only the fields of that fragment are there.)

Where a key is selected several times, the field's type is the one in one of these places. -/
inductive Delivers (s : Schema) (defs : Dict FragDef) (leaf : String → Val → Prop) (catchAll : Bool) :
    TypeNode → List Sel → Val → Prop
  | null {t sels} : t.isNonNull = false → Delivers s defs leaf catchAll t sels .null
  | nonNull {t sels v} : (v = .null → ∃ n, namedOf t = some n ∧ IsLeaf s n ∧ leaf n .null) →
      Delivers s defs leaf catchAll t sels v → Delivers s defs leaf catchAll (.nonNull t) sels v
  | list {t sels l} : (∀ x ∈ l, Delivers s defs leaf catchAll t sels x) →
      Delivers s defs leaf catchAll (.list t) sels (.list l)
  | leaf {n sels v} : IsLeaf s n → leaf n v → Delivers s defs leaf catchAll (.named n) sels v
  | object {n o sels kvs} (ty : String → TypeNode) :
      (IsObject s n ∨ IsInterface s n) → Possible s n o →
      (∀ x, Val.entry kvs "__typename" = some x → x = .atom o) →
      (IsInterface s n → Val.entry kvs "__typename" ≠ none) →
      (∀ key name sub, Picks s defs o sels key name sub → name ≠ "__typename" →
        PicksAt s defs o n sels key name sub (ty key) ∧ (Val.entry kvs key = none → (ty key).isNonNull = false)) →
      (∀ key name sub x, Picks s defs o sels key name sub → name ≠ "__typename" → Val.entry kvs key = some x →
        Delivers s defs leaf catchAll (ty key) sub x) →
      Delivers s defs leaf catchAll (.named n) sels (.obj kvs)
  | other {n sels kvs} (ty : String → TypeNode) : catchAll = true → IsInterface s n →
      Val.entry kvs "__typename" ≠ none →
      (∀ name al args sub, Sel.field name al args sub ∈ sels → name ≠ "__typename" →
        FieldAt s n name (ty (al.getD name)) ∧
          (Val.entry kvs (al.getD name) = none → (ty (al.getD name)).isNonNull = false)) →
      (∀ name al args sub x, Sel.field name al args sub ∈ sels → name ≠ "__typename" →
        Val.entry kvs (al.getD name) = some x → Delivers s defs leaf catchAll (ty (al.getD name)) sub x) →
      Delivers s defs leaf catchAll (.named n) sels (.obj kvs)
  | member {n ms o y zs sels kvs} (ty : String → TypeNode) :
      s.lookup n = some (.union ms) → y ∈ sels → Applies s defs o y →
      (zs = sels ∨ ¬ Possible s n o ∧ zs = [y]) →
      (∀ x, Val.entry kvs "__typename" = some x → x = .atom o) →
      (∀ key name sub, Picks s defs o zs key name sub → name ≠ "__typename" →
        PicksAt s defs o n zs key name sub (ty key) ∧ (Val.entry kvs key = none → (ty key).isNonNull = false)) →
      (∀ key name sub x, Picks s defs o zs key name sub → name ≠ "__typename" → Val.entry kvs key = some x →
        Delivers s defs leaf catchAll (ty key) sub x) →
      Delivers s defs leaf catchAll (.named n) sels (.obj kvs)

/-- an object of type `o` with these entries has, for each field selected, a value that delivers what the field
promises; entries of nullable fields may be missing -/
def DeliversFields (s : Schema) (defs : Dict FragDef) (leaf : String → Val → Prop) (catchAll : Bool) (o p : String)
    (sels : List Sel) (kvs : List (String × Val)) : Prop :=
  ∀ key name sub, Picks s defs o sels key name sub → name ≠ "__typename" → ∃ t,
    PicksAt s defs o p sels key name sub t ∧ (Val.entry kvs key = none → t.isNonNull = false) ∧
    ∀ x, Val.entry kvs key = some x → Delivers s defs leaf catchAll t sub x

/-! ## Python -/

/-- the class has a field with this attribute -/
def HasAttr (T : List Stmt) (n attr : String) : Prop :=
  privateName attr = false ∧ ∃ st, Declared T n st ∧ attrOf st = some attr

/-- `MayAccept T isa annotation v`: in a module with the statements `T`, pydantic possibly accepts the JSON value `v`
for the annotation.  As `Takes`, except that a name that is a class or type alias of the module is nothing else, and
that where an attribute is declared more than once — in the class or in the classes it inherits from — it is left open
which of the declarations (`decl attr`) pydantic uses; private attributes are no fields.  Entries are looked up by
alias, not by attribute name: without the option to populate by field name. -/
inductive MayAccept (T : List Stmt) (isa : String → Val → Prop) : Expr → Val → Prop
  | opaque {n v} : ¬ IsClass T n → (∀ e, Stmt.assign (.name n) e ∉ T) → isa n v → MayAccept T isa (.name n) v
  | model {n kvs} (decl : String → Stmt) : IsClass T n →
      (∀ attr, HasAttr T n attr → Declared T n (decl attr) ∧ attrOf (decl attr) = some attr) →
      (∀ attr f, HasAttr T n attr → fieldOf (decl attr) = some f → Val.entry kvs f.key = none → f.hasDefault = true) →
      (∀ attr f x, HasAttr T n attr → fieldOf (decl attr) = some f → Val.entry kvs f.key = some x →
        MayAccept T isa f.ann x) →
      MayAccept T isa (.name n) (.obj kvs)
  | alias {n e v} : Stmt.assign (.name n) e ∈ T → MayAccept T isa e v → MayAccept T isa (.name n) v
  | forward {n v} : MayAccept T isa (.name n) v → MayAccept T isa (.const (.str n)) v
  | optionalNone {t} : MayAccept T isa (.subscript (.name "Optional") t) .null
  | optionalSome {t v} : MayAccept T isa t v → MayAccept T isa (.subscript (.name "Optional") t) v
  | list {t l} : (∀ x ∈ l, MayAccept T isa t x) → MayAccept T isa (.subscript (.name "List") t) (.list l)
  | tuple {t l} : (∀ x ∈ l, MayAccept T isa t x) →
      MayAccept T isa (.subscript (.name "Tuple") (.tuple [t, .const .ellipsis])) (.list l)
  | union {ts t v} : t ∈ ts → MayAccept T isa t v → MayAccept T isa (.subscript (.name "Union") (.tuple ts)) v
  | annotated {t ms v} : (∀ m ∈ ms, discriminatorOf m = none) → MayAccept T isa t v →
      MayAccept T isa (.subscript (.name "Annotated") (.tuple (t :: ms))) v
  | discriminated {ts m d n key tag kvs} : discriminatorOf m = some d → Expr.name n ∈ ts → Tagged T n d key tag →
      Val.entry kvs key = some (.atom tag) → MayAccept T isa (.name n) (.obj kvs) →
      MayAccept T isa (.subscript (.name "Annotated") (.tuple [.subscript (.name "Union") (.tuple ts), m])) (.obj kvs)
  | literal {s} : MayAccept T isa (.subscript (.name "Literal") (.const (.str s))) (.atom s)

end Turms.Spec
