import Verif.Spec.Responses

/-!
# Which data a query asks for, and which data a generated module offers

Independent of the generator.  A *path* is a list of steps `(o, key)`: in an object of type `o`, take the entry with
the response key `key`.  `Asks` is the GraphQL side: the paths for which a selection set requests data.  `Offers` is
the Python side: the paths that can be followed through attributes of the generated classes.
-/

namespace Turms.Spec
open Turms

/-! ## GraphQL -/

/-- `Asks s defs t sels path`: a field of type `t` with the selection set `sels` asks for the data at `path`.
`__typename` is left out: it is not data but names the object's type. -/
inductive Asks (s : Schema) (defs : Dict FragDef) : TypeNode → List Sel → List (String × String) → Prop
  | done {t sels} : Asks s defs t sels []
  | step {t sels o key name sub t' rest} : Possible s t.base o → Picks s defs o sels key name sub →
      name ≠ "__typename" → FieldType s o name t' → Asks s defs t' sub rest → Asks s defs t sels ((o, key) :: rest)

/-! ## Python -/

/-- `Member T e n`: a value of the annotation `e` may be an instance of the class `n` -/
inductive Member (T : List Stmt) : Expr → String → Prop
  | cls {n} : IsClass T n → Member T (.name n) n
  | alias {n e m} : Stmt.assign (.name n) e ∈ T → Member T e m → Member T (.name n) m
  | forward {n m} : Member T (.name n) m → Member T (.const (.str n)) m
  | optional {t m} : Member T t m → Member T (.subscript (.name "Optional") t) m
  | list {t m} : Member T t m → Member T (.subscript (.name "List") t) m
  | tuple {t m} : Member T t m → Member T (.subscript (.name "Tuple") (.tuple [t, .const .ellipsis])) m
  | union {ts t m} : t ∈ ts → Member T t m → Member T (.subscript (.name "Union") (.tuple ts)) m
  | annotated {t ms m} : Member T t m → Member T (.subscript (.name "Annotated") (.tuple (t :: ms))) m

/-- the class is the one for objects of type `o`: it has `typename: Literal["o"]`, read from `__typename` -/
def IsFor (T : List Stmt) (n o : String) : Prop := Tagged T n "typename" "__typename" o

/-- attributes with a leading underscore are private to pydantic: they are no fields -/
def privateName (attr : String) : Bool := attr.toList.head? == some '_'

/-- `Carries T n key P`: instances of the class `n` carry the response entry `key` in an attribute of their own, whose
annotation has the property `P`.  As pydantic uses one of several declarations of an attribute, every declaration for
the key must have the property, and no declaration for another key may use the attribute. -/
def Carries (T : List Stmt) (n key : String) (P : Expr → Prop) : Prop :=
  (∃ st f, Declared T n st ∧ fieldOf st = some f ∧ f.key = key) ∧
  ∀ st f attr, Declared T n st → fieldOf st = some f → f.key = key → attrOf st = some attr →
    P f.ann ∧ privateName attr = false ∧
    ∀ st' f', Declared T n st' → fieldOf st' = some f' → attrOf st' = some attr → f'.key = key

/-- `Offers T e path`: the path can be followed in values of the annotation `e`: there is a class for objects of the
first step's type, and every class for them carries the entry and offers the rest of the path. -/
def Offers (T : List Stmt) : Expr → List (String × String) → Prop
  | _, [] => True
  | e, (o, key) :: rest => (∃ n, Member T e n ∧ IsFor T n o) ∧
      ∀ n, Member T e n → IsFor T n o → Carries T n key fun ann => Offers T ann rest

/-- a name of the module that stands for a type expression stands for nothing else -/
def UniqueAliases (T : List Stmt) : Prop :=
  ∀ n e, Stmt.assign (.name n) e ∈ T → ¬ IsClass T n ∧ ∀ e', Stmt.assign (.name n) e' ∈ T → e' = e

/-! ## The selections covered -/

/-- no type has two fields of the same name -/
def FieldsOnce (s : Schema) : Prop := ∀ o name t t', FieldType s o name t → FieldType s o name t' → t = t'

/-- For objects of type `o`, the fields selected can be told apart: a response key is selected in one way only (it may
be selected repeatedly, say in several fragments, but with the same sub-selections), different keys have different
Python names, and neither the key `__typename` nor the attribute `typename` nor private names are used. -/
structure Apart (c : Ctx) (defs : Dict FragDef) (o : String) (sels : List Sel) : Prop where
  once : ∀ key name sub name' sub', Picks c.schema defs o sels key name sub → Picks c.schema defs o sels key name' sub' →
    name = name' ∧ sub = sub'
  attrs : ∀ key name sub key' name' sub' attr, Picks c.schema defs o sels key name sub →
    Picks c.schema defs o sels key' name' sub' → generateNodeName c.env.stylers key = .ok attr →
    generateNodeName c.env.stylers key' = .ok attr → key = key'
  reserved : ∀ key name sub, Picks c.schema defs o sels key name sub → name ≠ "__typename" → key ≠ "__typename" ∧
    ∀ attr, generateNodeName c.env.stylers key = .ok attr → attr ≠ "typename" ∧ privateName attr = false

/-- the selection is a fragment (spread or inline) that applies to objects of type `o` -/
def Applies (s : Schema) (defs : Dict FragDef) (o : String) : Sel → Prop
  | .field .. => False
  | .spread f => ∃ d, defs.get? f = some d ∧ Possible s d.typeCondition o
  | .inline (some t) _ => Possible s t o
  | .inline none _ => True

/-- a field selection -/
def IsField : Sel → Prop
  | .field .. => True
  | _ => False

/-- an inline fragment -/
def IsInline : Sel → Prop
  | .inline .. => True
  | _ => False

/-- `Keepable c defs t sels`: the selection sets (on a field of type `t`) for which the generated models keep all data.

* an object: its spreads are of fragments on that object type or on one of its interfaces;
* an interface: its spreads are of fragments on object and interface types, and its inline fragments contain fields
  only;
* a union: exactly one fragment applies to each member, spread fragments are not on interfaces, inline fragments are on
  its members and contain fields and spreads of fragments on the same object type;
* everywhere the selected fields can be told apart. -/
inductive Keepable (c : Ctx) (defs : Dict FragDef) : TypeNode → List Sel → Prop
  | leaf {t sels} : IsLeaf c.schema t.base → Keepable c defs t sels
  | object {t sels fs is} : c.schema.lookup t.base = some (.object fs is) →
      (∀ f, Sel.spread f ∈ sels → ∃ d, defs.get? f = some d ∧ (d.typeCondition = t.base ∨
        (IsInterface c.schema d.typeCondition ∧ Possible c.schema d.typeCondition t.base))) →
      Apart c defs t.base sels →
      (∀ name alias args sub fd, Sel.field name alias args sub ∈ sels → name ≠ "__typename" →
        fd ∈ fs → fd.name = name → Keepable c defs fd.type sub) →
      Keepable c defs t sels
  | interface {t sels fs is} : c.schema.lookup t.base = some (.interface fs is) →
      (∀ f, Sel.spread f ∈ sels → ∃ d, defs.get? f = some d ∧
        (IsObject c.schema d.typeCondition ∨ IsInterface c.schema d.typeCondition)) →
      (∀ o inner x, Sel.inline (some o) inner ∈ sels → x ∈ inner → IsField x) →
      (∀ o, Possible c.schema t.base o → Apart c defs o sels) →
      (∀ name alias args sub fd, Sel.field name alias args sub ∈ sels → name ≠ "__typename" →
        fd ∈ fs → fd.name = name → Keepable c defs fd.type sub) →
      (∀ o inner name alias args sub t', Sel.inline (some o) inner ∈ sels →
        Sel.field name alias args sub ∈ inner → name ≠ "__typename" → FieldType c.schema o name t' →
        Keepable c defs t' sub) →
      Keepable c defs t sels
  | union {t sels ms} : c.schema.lookup t.base = some (.union ms) →
      (∀ name alias args sub, Sel.field name alias args sub ∈ sels → name = "__typename") →
      (∀ o ∈ ms, ∃ x ∈ sels, Applies c.schema defs o x) →
      (∀ o ∈ ms, ∀ x ∈ sels, ∀ y ∈ sels, Applies c.schema defs o x → Applies c.schema defs o y → x = y) →
      (∀ f, Sel.spread f ∈ sels → ∃ d, defs.get? f = some d ∧ ¬ IsInterface c.schema d.typeCondition) →
      (∀ o inner, Sel.inline (some o) inner ∈ sels → Possible c.schema t.base o) →
      (∀ o inner f, Sel.inline (some o) inner ∈ sels → Sel.spread f ∈ inner →
        ∃ d, defs.get? f = some d ∧ d.typeCondition = o) →
      (∀ o inner x, Sel.inline (some o) inner ∈ sels → x ∈ inner → ¬ IsInline x) →
      (∀ o, Possible c.schema t.base o → Apart c defs o sels) →
      (∀ o inner name alias args sub t', Sel.inline (some o) inner ∈ sels →
        Sel.field name alias args sub ∈ inner → name ≠ "__typename" → FieldType c.schema o name t' →
        Keepable c defs t' sub) →
      Keepable c defs t sels

/-- `KeepableFragment c defs d`: the fragments for which the generated classes keep all data.

* on an interface: spreads and inline fragments as for fields of an interface type;
* on an object: spreads as for fields of an object type, no inline fragments;
* on a union: spreads inside inline fragments are of fragments on that object type whose class is named like the
  fragment, and inline fragments are not nested;
* everywhere the selected fields can be told apart. -/
inductive KeepableFragment (c : Ctx) (defs : Dict FragDef) : FragDef → Prop
  | interface {d fs is} : c.schema.lookup d.typeCondition = some (.interface fs is) →
      (∀ f, Sel.spread f ∈ d.sels → ∃ d', defs.get? f = some d' ∧
        (IsObject c.schema d'.typeCondition ∨ IsInterface c.schema d'.typeCondition)) →
      (∀ o inner, Sel.inline (some o) inner ∈ d.sels → IsObject c.schema o) →
      (∀ o inner x, Sel.inline (some o) inner ∈ d.sels → x ∈ inner → IsField x) →
      (∀ o, Possible c.schema d.typeCondition o → Apart c defs o d.sels) →
      (∀ name alias args sub fd, Sel.field name alias args sub ∈ d.sels → name ≠ "__typename" →
        fd ∈ fs → fd.name = name → Keepable c defs fd.type sub) →
      (∀ o inner name alias args sub t, Sel.inline (some o) inner ∈ d.sels →
        Sel.field name alias args sub ∈ inner → name ≠ "__typename" → FieldType c.schema o name t →
        Keepable c defs t sub) →
      KeepableFragment c defs d
  | object {d} : IsObject c.schema d.typeCondition →
      (∀ f, Sel.spread f ∈ d.sels → ∃ d', defs.get? f = some d' ∧
        (d'.typeCondition = d.typeCondition ∨
          (IsInterface c.schema d'.typeCondition ∧ Possible c.schema d'.typeCondition d.typeCondition))) →
      (∀ x ∈ d.sels, ¬ IsInline x) →
      Apart c defs d.typeCondition d.sels →
      (∀ name alias args sub t, Sel.field name alias args sub ∈ d.sels → name ≠ "__typename" →
        FieldType c.schema d.typeCondition name t → Keepable c defs t sub) →
      KeepableFragment c defs d
  | union {d ms} : c.schema.lookup d.typeCondition = some (.union ms) → (∀ m ∈ ms, IsObject c.schema m) →
      (∀ o inner, Sel.inline (some o) inner ∈ d.sels → IsObject c.schema o) →
      (∀ o inner f, Sel.inline (some o) inner ∈ d.sels → Sel.spread f ∈ inner →
        styled c.env.stylers Styler.fragmentName f = .ok f ∧ ∃ d', defs.get? f = some d' ∧ d'.typeCondition = o) →
      (∀ o inner x, Sel.inline (some o) inner ∈ d.sels → x ∈ inner → ¬ IsInline x) →
      (∀ o, Possible c.schema d.typeCondition o → Apart c defs o d.sels) →
      (∀ o inner name alias args sub t, Sel.inline (some o) inner ∈ d.sels →
        Sel.field name alias args sub ∈ inner → name ≠ "__typename" → FieldType c.schema o name t →
        Keepable c defs t sub) →
      KeepableFragment c defs d

end Turms.Spec
