import Verif.Spec.Syntax
import Verif.Model.Documents

/-!
# Reading and printing fragment texts (`turms/utils.py:535-554`)

`graphql.parse` is third party: it reads a text by the grammar of `Spec/Syntax.lean`.
-/

namespace Turms.Documents

/-- `print_ast` of a definition; operations have names (`generate_operation` rejects others) -/
def printDefn : Defn → List Char
  | .operation o => printOperation (o.name.getD "") o
  | .fragment f => printFragment f

/-- the loop body of `auto_add_typename_field_to_fragment_str` — `turms/utils.py:537-552` -/
def completeDefn : Defn → Defn
  | .operation o => .operation o
  | .fragment f => .fragment (addTypenameToFragment f)

/-- `auto_add_typename_field_to_fragment_str` — `turms/utils.py:535-554`.  Simplification: a text that is no document
(`parse` raises `GraphQLSyntaxError`) is left as it is; the registry holds printed fragments only. -/
def reparse (text : List Char) : List Char :=
  match Spec.Syntax.read text with
  | none => text
  | some ds => joinS ['\n', '\n'] (ds.map fun d => printDefn (completeDefn d))

end Turms.Documents
