import Verif.Model.Schema

/-!
# Which types the documents need

Written without reference to the analysis in `turms/referencer.py`.
-/

namespace Turms.Spec
open Turms

/-- the definition is in the document and no later one of its kind has the same name (a valid document has no two
definitions of one kind with the same name; then these are all its definitions) -/
inductive Current : Document → Defn → Prop
  | operation {doc before after : Document} {o : OpDef} : doc = before ++ .operation o :: after →
      (∀ o', Defn.operation o' ∈ after → o'.name ≠ o.name) → Current doc (.operation o)
  | fragment {doc before after : Document} {f : FragDef} : doc = before ++ .fragment f :: after →
      (∀ f', Defn.fragment f' ∈ after → f'.name ≠ f.name) → Current doc (.fragment f)

/-- a name of an input object type -/
def IsInput (s : Schema) (n : String) : Prop := ∃ fs ds, s.lookup n = some (.input fs ds)
/-- a name of an enum -/
def IsEnum (s : Schema) (n : String) : Prop := ∃ vs, s.lookup n = some (.enum vs)
/-- a name of a scalar -/
def IsScalar (s : Schema) (n : String) : Prop := s.lookup n = some .scalar
/-- a name of an object, interface or union -/
def IsComposite (s : Schema) (n : String) : Prop :=
  (∃ fs is, s.lookup n = some (.object fs is)) ∨ (∃ fs is, s.lookup n = some (.interface fs is)) ∨
  ∃ ms, s.lookup n = some (.union ms)

/-- The types the variables of the document need: those they are declared with, and then those of the fields of
needed input objects. -/
inductive Needed (s : Schema) (doc : Document) : String → Prop
  | declared {o : OpDef} {v : VarDef} : Current doc (.operation o) → v ∈ o.vars → Needed s doc v.type.base
  | field {m : String} {fs : List InputFieldDef} {ds : List DirectiveUse} {f : InputFieldDef} : Needed s doc m →
      s.lookup m = some (.input fs ds) → f ∈ fs → Needed s doc f.type.base

/-- field `n` of the object or interface `parent` has type `t` -/
def HasField (s : Schema) (parent n : String) (t : TypeNode) : Prop :=
  ∃ fs is f, (s.lookup parent = some (.object fs is) ∨ s.lookup parent = some (.interface fs is)) ∧
    fs.find? (fun f => f.name == n) = some f ∧ f.type = t

/-- `Reaches s parent sels x`: somewhere in the selection set `sels` on `parent`, at any depth and through any
inline fragments, a field of (wrapped) type `x` is selected. -/
inductive Reaches (s : Schema) : String → List Sel → String → Prop
  | field {parent : String} {sels : List Sel} {n : String} {a : Option String} {args : List (String × Value)}
      {sub : List Sel} {t : TypeNode} : .field n a args sub ∈ sels → n ≠ "__typename" → HasField s parent n t →
      Reaches s parent sels t.base
  | deeper {parent : String} {sels : List Sel} {n : String} {a : Option String} {args : List (String × Value)}
      {sub : List Sel} {t : TypeNode} {x : String} : .field n a args sub ∈ sels → n ≠ "__typename" → HasField s parent n t →
      IsComposite s t.base → Reaches s t.base sub x → Reaches s parent sels x
  | inline {parent c : String} {sels sub : List Sel} {x : String} : .inline (some c) sub ∈ sels →
      Reaches s c sub x → Reaches s parent sels x
  | bare {parent : String} {sels sub : List Sel} {x : String} : .inline none sub ∈ sels →
      Reaches s parent sub x → Reaches s parent sels x

/-- the root type of a kind of operation -/
def rootType (s : Schema) : OpKind → Option String
  | .query => s.query
  | .mutation => s.mutation
  | .subscription => s.subscription

/-- a field of type `x` is selected somewhere in the document -/
inductive SelectedIn (s : Schema) (doc : Document) : String → Prop
  | operation {o : OpDef} {root x : String} : Current doc (.operation o) →
      rootType s o.kind = some root →
      Reaches s root o.sels x → SelectedIn s doc x
  | fragment {f : FragDef} {x : String} : Current doc (.fragment f) → Reaches s f.typeCondition f.sels x →
      SelectedIn s doc x

/-- no inline fragment stands directly inside another inline fragment, and every one has a type condition -/
inductive Flat : Sel → Prop
  | spread {n : String} : Flat (.spread n)
  | field {n : String} {a : Option String} {args : List (String × Value)} {sub : List Sel} :
      (∀ x ∈ sub, Flat x) → Flat (.field n a args sub)
  | inline {c : String} {sub : List Sel} : (∀ x ∈ sub, Flat x) → (∀ c' sub', Sel.inline c' sub' ∉ sub) →
      Flat (.inline (some c) sub)

/-- all inline fragments of the document are flat, and none is the direct child of an operation -/
def FlatDoc (doc : Document) : Prop :=
  (∀ o, Defn.operation o ∈ doc → (∀ x ∈ o.sels, Flat x) ∧ ∀ c sub, Sel.inline c sub ∉ o.sels) ∧
  (∀ f, Defn.fragment f ∈ doc → ∀ x ∈ f.sels, Flat x)

/-- The selection is valid on `parent` (field selection and leaf rules of the GraphQL specification, leaving out
the introspection fields `__schema` and `__type` and inline fragments without a type condition). -/
inductive ValidOn (s : Schema) : String → Sel → Prop
  | spread {parent n : String} : ValidOn s parent (.spread n)
  | typename {parent : String} {a : Option String} : ValidOn s parent (.field "__typename" a [] [])
  | leaf {parent n : String} {a : Option String} {args : List (String × Value)} {t : TypeNode} : n ≠ "__typename" →
      HasField s parent n t → (IsScalar s t.base ∨ IsEnum s t.base) → ValidOn s parent (.field n a args [])
  | composite {parent n : String} {a : Option String} {args : List (String × Value)} {sub : List Sel} {t : TypeNode} :
      n ≠ "__typename" → HasField s parent n t → IsComposite s t.base → sub ≠ [] → (∀ x ∈ sub, ValidOn s t.base x) →
      ValidOn s parent (.field n a args sub)
  | inline {parent c : String} {sub : List Sel} : IsComposite s c → (∀ x ∈ sub, ValidOn s c x) →
      ValidOn s parent (.inline (some c) sub)

/-- a type that may be used for variables and input fields -/
def InputLike (s : Schema) (n : String) : Prop := IsScalar s n ∨ IsEnum s n ∨ IsInput s n

/-- A schema and a document as graphql-core accepts them, with named operations (leaving out what `ValidOn` leaves
out). -/
structure ValidDoc (s : Schema) (doc : Document) : Prop where
  inputs : ∀ m fs ds, s.lookup m = some (.input fs ds) → ∀ f ∈ fs, InputLike s f.type.base
  named : ∀ o, Defn.operation o ∈ doc → o.name ≠ none
  variables : ∀ o, Defn.operation o ∈ doc → ∀ v ∈ o.vars, InputLike s v.type.base
  operations : ∀ o, Defn.operation o ∈ doc → ∃ root,
    rootType s o.kind = some root ∧
    ∀ x ∈ o.sels, ValidOn s root x
  fragments : ∀ f, Defn.fragment f ∈ doc → ∀ x ∈ f.sels, ValidOn s f.typeCondition x

end Turms.Spec
