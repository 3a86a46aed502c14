import Verif.Spec.ClassDocs

/-! # The base classes generated classes are configured to have -/

namespace Turms.Spec
open Turms

/-- base classes given by dotted paths, as they are named in a class statement -/
def namedBases (paths : List String) : List Expr := paths.map fun p => .name (lastComponent p)

/-- the first list, or the second if the first is empty -/
def orElseBases : List String → List String → List String
  | [], bs => bs
  | a :: as, _ => a :: as

/-- the bases configured for operations of a kind -/
def wantedBases (q : OperationsConfig) : OpKind → List String
  | .query => q.queryBases
  | .mutation => q.mutationBases
  | .subscription => q.subscriptionBases

/-- the bases configured for the classes of one GraphQL type -/
def extraBases (config : GenConfig) (typename : String) : List String := (config.additionalBases.get? typename).getD []

/-- the bases of the classes of interfaces -/
def interfaceBases (config : GenConfig) : List String := orElseBases (config.interfaceBases.getD []) config.objectBases

/-- `early` are the classes of spread fragments or interfaces, all of them names -/
def AllNames (early : List Expr) : Prop := ∀ e ∈ early, ∃ n, e = .name n

/-- the bases of the class of a selection on an object: the classes of the fragments spread in it (if there are none, the
bases configured for its type), then the bases of all objects -/
def SelectionBases (config : GenConfig) (typename : String) (sub : List Sel) (bs : List Expr) : Prop :=
  ∃ early, bs = early ++ namedBases config.objectBases ∧
    ((∀ x ∈ sub, ∀ f, x ≠ .spread f) → early = namedBases (extraBases config typename)) ∧
    ((∃ f, .spread f ∈ sub) → AllNames early ∧ early ≠ [])

end Turms.Spec
