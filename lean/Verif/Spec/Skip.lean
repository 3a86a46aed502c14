import Verif.Spec.Referencer
import Verif.Spec.Inputs
import Verif.Spec.Enums

/-!
# Documents and schemas for which `skip_unreferenced` only removes code
-/

namespace Turms.Spec
open Turms

/-- no field has the name of a meta-field, and `String` is not an enum -/
structure NoMeta (s : Schema) : Prop where
  objects : ∀ p fs is f, s.lookup p = some (.object fs is) → f ∈ fs → f.name ≠ "__schema" ∧ f.name ≠ "__type"
  interfaces : ∀ p fs is f, s.lookup p = some (.interface fs is) → f ∈ fs → f.name ≠ "__schema" ∧ f.name ≠ "__type"
  string : ¬ IsEnum s "String"

/-- the variables of the documents need the input object type of this name -/
def NeedsInput (s : Schema) (doc : Document) (n : String) : Prop := IsInput s n ∧ Needed s doc n

/-- the documents need the input, or a discriminated union it is a member of -/
def Used (s : Schema) (doc : Document) (t : InputType) : Prop :=
  NeedsInput s doc t.name ∨ ∃ u dn k, Declares t u dn k ∧ NeedsInput s doc u

/-- a type that is there anyway: a scalar, an enum the documents need or select, an input they use -/
def Present (s : Schema) (doc : Document) (n : String) : Prop :=
  IsScalar s n ∨ (IsEnum s n ∧ (Needed s doc n ∨ SelectedIn s doc n)) ∨ ∃ t, InputOf s t ∧ t.name = n ∧ Used s doc t

/-- A valid document, the inline fragments of which the analysis sees, over a schema in which
* a used input belongs to no discriminated union that is not needed,
* the fields of the members of needed discriminated unions have types that are there anyway (those of needed inputs do),
* the classes generated for the fields of a `@oneOf` input are not called like a type or like those of another input. -/
structure Trimmable (s : Schema) (doc : Document) : Prop where
  keys : s.types.keys.Nodup
  valid : ValidDoc s doc
  flat : FlatDoc doc
  plain : NoMeta s
  /-- no two definitions of a kind have the same name -/
  single : ∀ d ∈ doc, Current doc d
  unions : ∀ t, InputOf s t → Used s doc t → ∀ u dn k, Declares t u dn k → NeedsInput s doc u
  members : ∀ t, InputOf s t → (∃ u dn k, Declares t u dn k ∧ NeedsInput s doc u) → ∀ f ∈ t.fields, Present s doc f.type.base
  wrappers : ∀ t, InputOf s t → OneOf t.directives → ∀ f ∈ t.fields,
    s.types.get? (t.name ++ upperFirst f.name) = none ∧
    ∀ t', InputOf s t' → OneOf t'.directives → ∀ f' ∈ t'.fields, t'.name ++ upperFirst f'.name = t.name ++ upperFirst f.name →
      t'.name = t.name

end Turms.Spec
