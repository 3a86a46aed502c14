import Verif.Model.Enums

/-!
# What the enums plugin is supposed to generate
-/

namespace Turms.Spec
open Turms

/-- `t` is an enum of the schema -/
def EnumOf (s : Schema) (t : EnumType) : Prop :=
  ∃ e, (t.name, e) ∈ s.types ∧ e.defn = .enum t.values ∧ e.description = t.description

/-- the documented rules: an enum is generated unless the documents do not refer to it (when that is asked for),
or it starts with one or two underscores (when that is asked for) -/
def EnumKept (p : EnumsConfig) (name : String) : Prop :=
  (∀ l, p.refEnums = some l → name ∈ l) ∧
  ¬ (p.skipUnderscore = true ∧ ∃ rest, name.toList = '_' :: rest) ∧
  ¬ (p.skipDoubleUnderscore = true ∧ ∃ rest, name.toList = '_' :: '_' :: rest)

/-- `_name_`: reserved by Python's `enum` module, which raises `ValueError` -/
def sunder (n : List Char) : Bool :=
  match n with
  | '_' :: c :: rest => c != '_' && rest.getLast? == some '_' && rest.dropLast.getLast?.getD c != '_'
  | _ => false

/-- A name that, assigned in the body of an `Enum` class, becomes a member: not a Python keyword (syntax error), not
`mro` and not a `_sunder_` name (`ValueError`), and without two leading underscores (private or special names are
not members). -/
def EnumMemberName (n : String) : Prop :=
  isKeyword n = false ∧ n ≠ "mro" ∧ sunder n.toList = false ∧ doubleUnderscored n = false

instance (n : String) : Decidable (EnumMemberName n) := by unfold EnumMemberName; exact inferInstance

/-- What Python's `enum` makes of a class body: the members with their values, in order, or `none` when creating the
class fails or a name does not become a member. A name assigned twice raises `TypeError`; a repeated value makes
the name an alias, not a member. -/
def enumMembers : List Stmt → List (String × String) → Option (List (String × String))
  | [], acc => some acc
  | .expr (.const _) :: rest, acc => enumMembers rest acc
  | .assign (.name n) (.const (.str v)) :: rest, acc =>
    if EnumMemberName n ∧ n ∉ acc.map (·.1) ∧ v ∉ acc.map (·.2) then enumMembers rest (acc ++ [(n, v)]) else none
  | _ :: _, _ => none

end Turms.Spec
