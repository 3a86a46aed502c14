import Verif.Model.Gql

/-!
# Which fragments a selection set needs (GraphQL specification vocabulary)
-/

namespace Turms.Spec

/-- `Spreads sels f`: the selection set contains `...f`, at any depth below fields and inline fragments. -/
inductive Spreads : List Sel → String → Prop
  | here (f : String) (rest : List Sel) : Spreads (.spread f :: rest) f
  | field (n : String) (a : Option String) (args : List (String × Value)) (sub rest : List Sel) (f : String) :
      Spreads sub f → Spreads (.field n a args sub :: rest) f
  | inline (t : Option String) (sub rest : List Sel) (f : String) :
      Spreads sub f → Spreads (.inline t sub :: rest) f
  | later (s : Sel) (rest : List Sel) (f : String) : Spreads rest f → Spreads (s :: rest) f

/-- the fragment of the given name (the last one, should the document define several) -/
def lookup (defs : List FragDef) (name : String) : Option FragDef :=
  defs.reverse.find? (fun f => f.name == name)

/-- `Needs defs sels f`: fragment `f` is spread in the selection set, directly or through the definitions of
other spread fragments. -/
inductive Needs (defs : List FragDef) (sels : List Sel) : String → Prop
  | direct (f : String) : Spreads sels f → Needs defs sels f
  | through (g : String) (d : FragDef) (f : String) :
      Needs defs sels g → lookup defs g = some d → Spreads d.sels f → Needs defs sels f

/-- no spread is hidden below an inline fragment -/
inductive NoInlineSpread : List Sel → Prop
  | nil : NoInlineSpread []
  | spread (f : String) (rest : List Sel) : NoInlineSpread rest → NoInlineSpread (.spread f :: rest)
  | field (n : String) (a : Option String) (args : List (String × Value)) (sub rest : List Sel) :
      NoInlineSpread sub → NoInlineSpread rest → NoInlineSpread (.field n a args sub :: rest)
  | inline (t : Option String) (sub rest : List Sel) :
      (∀ f, ¬ Spreads sub f) → NoInlineSpread rest → NoInlineSpread (.inline t sub :: rest)

/-- the fragment definitions of a document -/
def fragmentsOf (doc : Document) : List FragDef :=
  doc.filterMap (fun d => match d with | .fragment f => some f | .operation _ => none)

/-- `Path G a b`: in the dependency graph, `b` is a direct or indirect dependency of `a`. -/
inductive Path (G : List (String × List String)) : String → String → Prop
  | edge (a : String) (deps : List String) (b : String) : (a, deps) ∈ G → b ∈ deps → Path G a b
  | step (a : String) (deps : List String) (b c : String) : (a, deps) ∈ G → b ∈ deps → Path G b c → Path G a c

/-- the graph has no cycle -/
def Acyclic (G : List (String × List String)) : Prop := ∀ a, ¬ Path G a a

/-- every dependency is itself a node -/
def Closed (G : List (String × List String)) : Prop :=
  ∀ k deps, (k, deps) ∈ G → ∀ d ∈ deps, d ∈ G.map (·.1)

/-- the representation of `Dict[str, Set[str]]` as a list: no key and no set member occurs twice -/
def IsDictOfSets (G : List (String × List String)) : Prop :=
  (G.map (·.1)).Nodup ∧ ∀ k deps, (k, deps) ∈ G → deps.Nodup

end Turms.Spec
