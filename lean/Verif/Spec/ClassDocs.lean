import Verif.Spec.EnumDocs
import Verif.Spec.Objects
import Verif.Spec.Funcs
import Verif.Model.Operations

/-! # The documentation generated classes carry -/

namespace Turms.Spec
open Turms

/-- the text shown for a description: the description if there is one that is not empty, else a fixed text -/
inductive Shown (instead : String) (description : Option String) : String → Prop
  | written {x} : Written description x → Shown instead description x
  | missing : (∀ x, ¬ Written description x) → Shown instead description instead

/-- a line of a comment for an optional text -/
inductive CommentLine (label : String) (text : Option String) : List String → Prop
  | written {x} : Written text x → CommentLine label text [label ++ x]
  | missing : (∀ x, ¬ Written text x) → CommentLine label text []

/-- what stands below the declaration of a field: its description and, if field metadata is documented, why it is
deprecated, one per line; nothing if there is nothing to say -/
inductive FieldComment (metadata : Bool) (f : FieldDef) : List Stmt → Prop
  | silent : CommentLine "" f.description [] → (metadata = true → CommentLine "DEPRECATED: " f.deprecation []) →
      FieldComment metadata f []
  | described {x} : CommentLine "" f.description [x] → (metadata = true → CommentLine "DEPRECATED: " f.deprecation []) →
      FieldComment metadata f [.expr (.str x)]
  | deprecated {y} : CommentLine "" f.description [] → metadata = true → CommentLine "DEPRECATED: " f.deprecation [y] →
      FieldComment metadata f [.expr (.str y)]
  | both {x y} : CommentLine "" f.description [x] → metadata = true → CommentLine "DEPRECATED: " f.deprecation [y] →
      FieldComment metadata f [.expr (.str (x ++ "\n" ++ y))]

/-- the declaration of a field followed by its comment -/
def DocumentedField (metadata : Bool) (f : FieldDef) (ss : List Stmt) : Prop :=
  ∃ attr ann value comment, ss = .annAssign attr ann value :: comment ∧ FieldComment metadata f comment

/-- the declaration of a selected root field, documented by the field of the schema -/
def DocumentedSelection (c : Ctx) (root : String) (s : Sel) (ss : List Stmt) : Prop :=
  ∃ name alias_ args sub f, s = .field name alias_ args sub ∧ getFieldDef c.schema root name = some f ∧
    DocumentedField c.config.documentFieldMetadata f ss

/-- the class has an inner class `Meta` that assigns the attribute this text -/
inductive MetaSays : Stmt → String → String → Prop
  | mk {cls bs body ds mbs mbody mds attr text} : .classDef "Meta" mbs mbody mds ∈ body →
      .assign (.name attr) (.str text) ∈ mbody → MetaSays (.classDef cls bs body ds) attr text

/-- the class with this name whose docstring is `text` -/
def DocClass (ss : List Stmt) (cls text : String) (s : Stmt) : Prop :=
  s ∈ ss ∧ ∃ bs rest, s = .classDef cls bs (.expr (.str text) :: rest) []

end Turms.Spec
