import Verif.Spec.Registry

/-!
# Python types in a configuration

`B` stands for the names of Python's builtins, `dir(builtins)`.
-/

namespace Turms.Spec
open Turms

/-- all that is used of the builtins: their names are not empty and have no dot -/
def BuiltinNames (B : List String) : Prop := ∀ b ∈ B, b ≠ "" ∧ '.' ∉ b.toList

/-- a Python type as a configuration may give it: the name of a builtin, or a path with a dot -/
def KnownType (B : List String) (t : String) : Prop := t ∈ B ∨ '.' ∈ t.toList

/-- all Python types in the configuration are known, and the type and the instance of the sentinel are replaced
together or not at all -/
structure Configured (B : List String) (cfg : RegConfig) (bases : Dict (List String)) : Prop where
  scalars : ∀ p ∈ cfg.scalarDefinitions, KnownType B p.2
  graphqlDefault : ∀ t, cfg.graphqlDefaultClass = some t → KnownType B t
  deprecated : ∀ t, cfg.deprecatedClass = some t → KnownType B t
  unsetType : ∀ t, cfg.unsetTypeClass = some t → KnownType B t
  unsetInstance : ∀ t, cfg.unsetInstance = some t → KnownType B t
  bases : ∀ p ∈ bases, ∀ t ∈ p.2, KnownType B t
  together : cfg.unsetTypeClass = none ↔ cfg.unsetInstance = none

/-- in a module with these imports, the name `n` stands for the configured type `t`: it is this builtin, or it is
imported from the module that the path names -/
inductive StandsFor (B : List String) (imports : List Stmt) (t n : String) : Prop
  | builtin (known : t ∈ B) (same : n = t)
  | imported (m : String) (path : t = m ++ "." ++ n) (bound : (some m, n) ∈ binds imports)

/-- the calls for the replaceable helpers: the configured replacement and the name of the generated helper -/
def helperOf (cfg : RegConfig) : Op → Option (Option String × String)
  | .referenceUnset => some (cfg.unsetInstance, "UNSET")
  | .referenceUnsetType => some (cfg.unsetTypeClass, "UnsetType")
  | .referenceGraphqlDefault => some (cfg.graphqlDefaultClass, "GraphQLDefault")
  | .referenceDeprecated => some (cfg.deprecatedClass, "Deprecated")
  | _ => none

end Turms.Spec
