import Verif.Spec.ResponseScope
import Verif.Model.Enums
import Verif.Spec.Referencer

/-!
# Quoted names

Pydantic evaluates the string constants of an annotation when the class is rebuilt at the end of the module: each
of them must name something the module defines.  The argument of `Literal` is a plain string, and calls inside an
annotation (`Field(...)`, `GraphQLDefault("...")`, `Deprecated("...")`) are metadata.
-/

namespace Turms.Spec
open Turms

mutual
/-- the names quoted in a type annotation -/
def quoted : Expr → List String
  | .const (.str s) => [s]
  | .subscript f x => if f = .name "Literal" then [] else quoted f ++ quoted x
  | .tuple l => quotedL l
  | .list l => quotedL l
  | _ => []
/-- of a list -/
def quotedL : List Expr → List String
  | [] => []
  | e :: es => quoted e ++ quotedL es
end

/-- of an optional annotation -/
def quotedO : Option Expr → List String
  | none => []
  | some e => quoted e

/-- of an assigned value: a subscript is a type alias (`X = Union[...]`), anything else is plain data -/
def quotedValue : Expr → List String
  | .subscript f x => quoted (.subscript f x)
  | _ => []

mutual
/-- the names quoted in the annotations of a statement -/
def quotedIn : Stmt → List String
  | .annAssign _ a _ => quoted a
  | .assign _ v => quotedValue v
  | .classDef _ _ body _ => quotedInL body
  | .ifStmt _ body => quotedInL body
  | .funcDef _ _ as _ _ _ re => as.flatMap (fun a => quotedO a.annotation) ++ quotedO re
  | _ => []
/-- of a block -/
def quotedInL : List Stmt → List String
  | [] => []
  | s :: ss => quotedIn s ++ quotedInL ss
end

end Turms.Spec
