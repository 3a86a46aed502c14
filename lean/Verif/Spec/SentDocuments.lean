import Verif.Spec.Syntax
import Verif.Model.Operations

/-!
# Vocabulary for C91
-/

namespace Turms.Spec

/-- the statement is an operation class that says which document to send -/
def SaysDocument (s : Stmt) (text : String) : Prop :=
  ∃ cls bases body meta_, s = .classDef cls bases body [] ∧ .classDef "Meta" [] meta_ [] ∈ body ∧
    .assign (.name "document") (.str text) ∈ meta_ ∧
    ∀ other, .assign (.name "document") other ∈ meta_ → other = .str text

/-- what the server is to be asked: the operation as it was written, after the fragments it needs, in which `__typename`
is requested -/
def AsksFor (frags : List FragDef) (o : OpDef) (sent : Document) : Prop :=
  ∃ used : List FragDef, (used.map (·.name)).Nodup ∧ (∀ f ∈ used, f ∈ frags) ∧
    (∀ n, n ∈ used.map (·.name) ↔ Needs frags o.sels n) ∧
    sent = used.map (fun f => .fragment (withTypename f)) ++ [.operation o]

/-- what the search for `...Name` in printed text handles (see C13): fragments are named with letters only, and no
constant contains three dots -/
def searchable : Defn → Bool
  | .operation o => opOk (o.name.getD "") o
  | .fragment f => fragOk f

end Turms.Spec
