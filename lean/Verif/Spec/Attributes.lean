import Verif.Spec.Annotations
import Verif.Spec.Inputs

/-!
# Attribute names and wire names

A pydantic model reads and writes each attribute under its alias, or under its own name if it has none.
-/

namespace Turms.Spec
open Turms

mutual
/-- the attribute declarations `name: annotation [= value]` in the classes of a statement, nested classes included -/
def declsIn : Stmt → List Stmt
  | .annAssign n a v => [.annAssign n a v]
  | .classDef _ _ body _ => declsInL body
  | _ => []
/-- of a block -/
def declsInL : List Stmt → List Stmt
  | [] => []
  | s :: ss => declsIn s ++ declsInL ss
end

/-- `d` declares an attribute whose name is the styled form of its wire name, with an alias exactly if the two
differ -/
def Keyed (env : Env) (d : Stmt) : Prop :=
  ∃ field attr, fieldOf d = some field ∧ attrOf d = some attr ∧ (hasAlias d = true ↔ attr ≠ field.key) ∧
    (generateNodeName env.stylers field.key = .ok attr ∨ generateParameterName env.stylers field.key = .ok attr)

/-- `d` declares the attribute `typename` for the wire name `__typename` -/
def TypenameDecl (d : Stmt) : Prop :=
  attrOf d = some "typename" ∧ (fieldOf d).map (·.key) = some "__typename" ∧ hasAlias d = true

/-- `d` declares the discriminator of a union of input types (`@unionElementOf(discriminator: ...)`), under its own
name -/
def DiscriminatorDecl (s : Schema) (d : Stmt) : Prop :=
  ∃ n, attrOf d = some n ∧ (fieldOf d).map (·.key) = some n ∧ hasAlias d = false ∧
    ∃ t, InputOf s t ∧ ∃ u ∈ t.directives, u.name = "unionElementOf" ∧ u.args.get? "discriminator" = some n

end Turms.Spec
