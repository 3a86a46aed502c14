import Verif.Model.Registry

/-!
# Specification vocabulary for registry histories

Only the *shape of calls and results* is used here, not the registry's state.
-/

namespace Turms

/-- the class a call is made for (`parent`), if any -/
def Op.parent? : Op → Option String
  | .reference _ _ p _ => some p
  | .referenceInterface _ p => some p
  | _ => none

/-- the helper bundle a successful call needs, if any -/
def Op.builtin? (env : Env) : Op → Option String
  | .reference .enum n _ _ => if builtinNames.contains n then some n else none
  | .referenceUnset => if env.config.unsetInstance.getD "" = "" then some "UNSET" else none
  | .referenceUnsetType => if env.config.unsetTypeClass.getD "" = "" then some "UNSET" else none
  | .referenceGraphqlDefault =>
    if env.config.graphqlDefaultClass.getD "" = "" then some "GraphQLDefault" else none
  | .referenceDeprecated =>
    if env.config.deprecatedClass.getD "" = "" then some "Deprecated" else none
  | _ => none

/-- is the expression a quoted (forward) reference? -/
def isQuoted : Ret → Bool
  | .expr (.const (.str _)) => true
  | _ => false


namespace Spec

/-- What a list of statements imports: `import n` binds `(none, n)`, `from m import a, b` binds
`(some m, a)` and `(some m, b)`. -/
def binds : List Stmt → List (Option String × String)
  | [] => []
  | .import_ n :: rest => (none, n) :: binds rest
  | .importFrom m ns :: rest => ns.map (fun n => (some m, n)) ++ binds rest
  | _ :: rest => binds rest

/-- The modules named in `from ... import ...` statements. -/
def fromModules : List Stmt → List String
  | [] => []
  | .importFrom m _ :: rest => m :: fromModules rest
  | _ :: rest => fromModules rest

/-- The names a list of statements defines at module level (classes and simple assignments). -/
def definedNames : List Stmt → List String
  | [] => []
  | .classDef n _ _ _ :: rest => n :: definedNames rest
  | .assign (.name n) _ :: rest => n :: definedNames rest
  | _ :: rest => definedNames rest

/-- The names a helper bundle is expected to define. -/
def helperNames : String → List String
  | "UNSET" => ["UnsetType", "UNSET"]
  | n => [n]

/-- The classes rebuilt by a list of `X.<method>()` statements. -/
def rebuilt (method : String) : List Stmt → List String
  | [] => []
  | .expr (.call (.attr (.name n) m) [] []) :: rest =>
    if m = method then n :: rebuilt method rest else rebuilt method rest
  | _ :: rest => rebuilt method rest

/-- Strictly ascending list of names. -/
def Ascending (l : List String) : Prop := l.Pairwise (· < ·)

/-- The rebuild method for a configuration. -/
def rebuildMethod (env : Env) : String :=
  if env.config.pydanticV2 then "model_rebuild" else "update_forward_refs"

/-- the calls of `register_scalar` in a history -/
def registersScalar (s : String) : Op → Bool
  | .registerScalar s' _ => s' == s
  | _ => false

end Spec
end Turms
