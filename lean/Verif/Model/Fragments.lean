import Verif.Model.Gql

/-!
# Fragment dependencies and their order — `turms/plugins/fragments.py:43-126, 614-632`
-/

namespace Turms.Fragments

/-- `{definition.name.value: definition for definition in document.definitions if isinstance(...)}` —
`turms/plugins/fragments.py:82-86` and `618-622`: a later definition of the same name replaces an earlier
one. -/
def fragmentDefinitions : Document → Dict FragDef → Dict FragDef
  | [], d => d
  | .fragment f :: rest, d => fragmentDefinitions rest (d.set f.name f)
  | .operation _ :: rest, d => fragmentDefinitions rest d

/-- Python `set.update` -/
def setUnion (a b : List String) : List String := b.foldl setAdd a

/-- result of the search: the dependencies and the (mutated) visited set -/
abbrev Found := Except Err (List String × List String)

mutual
/-- One selection of the loop in `find_fragment_dependencies_recursive` —
`turms/plugins/fragments.py:53-73`; `enter` is the recursive call for a spread fragment. Selections that are
neither spreads nor fields (inline fragments) are skipped, as in the code. -/
def walkSel (defs : Dict FragDef) (enter : FragDef → List String → Found) :
    Sel → List String → Found
  | .spread spreadName, visited =>
    let dependencies := [spreadName]
    match defs.get? spreadName with
    | some fragment =>
      if visited.contains spreadName then .ok (dependencies, visited)
      else
        match enter fragment (setAdd visited spreadName) with
        | .error e => .error e
        | .ok (more, visited) => .ok (setUnion dependencies more, visited)
    | none => .ok (dependencies, visited)
  | .field _ _ _ sub, visited => walkSels defs enter sub visited
  | .inline _ _, visited => .ok ([], visited)
/-- The loop in `find_fragment_dependencies_recursive` — `turms/plugins/fragments.py:49-75`. -/
def walkSels (defs : Dict FragDef) (enter : FragDef → List String → Found) :
    List Sel → List String → Found
  | [], visited => .ok ([], visited)
  | s :: rest, visited =>
    match walkSel defs enter s visited with
    | .error e => .error e
    | .ok (dependencies, visited) =>
      match walkSels defs enter rest visited with
      | .error e => .error e
      | .ok (more, visited) => .ok (setUnion dependencies more, visited)
end

/-- `find_fragment_dependencies_recursive` — `turms/plugins/fragments.py:43-75`, with a bound on the nesting
of fragments entered.  (The Python function has no bound; the theorem `findDeps_ok` shows that the bound
`defs.length` is never reached, because every fragment entered was unvisited before.) -/
def findDepsDepth (defs : Dict FragDef) : Nat → List Sel → List String → Found
  | 0 => walkSels defs (fun f _ => .error (.other ("recursion: " ++ f.name)))
  | n + 1 => walkSels defs (fun f visited => findDepsDepth defs n f.sels visited)

/-- the call with `visited = set()` in `build_recursive_dependency_graph` —
`turms/plugins/fragments.py:91-96` -/
def findDeps (defs : Dict FragDef) (sels : List Sel) : Except Err (List String) :=
  match findDepsDepth defs defs.length sels [] with
  | .error e => .error e
  | .ok (dependencies, _) => .ok dependencies

/-- the loop of `build_recursive_dependency_graph` — `turms/plugins/fragments.py:87-96` -/
def buildGraph (defs : Dict FragDef) : List (String × FragDef) → Except Err (Dict (List String))
  | [] => .ok []
  | (name, f) :: rest =>
    match findDeps defs f.sels with
    | .error e => .error e
    | .ok deps =>
      match buildGraph defs rest with
      | .error e => .error e
      | .ok g => .ok ((name, deps) :: g)

/-- `build_recursive_dependency_graph` — `turms/plugins/fragments.py:78-98`. -/
def buildRecursiveDependencyGraph (document : Document) : Except Err (Dict (List String)) :=
  let defs := fragmentDefinitions document []
  buildGraph defs defs

/-- state of `topological_sort` -/
structure Kahn where
  graph : Dict (List String)
  queue : List String
  resolved : List String
  sorted : List String

/-- The inner loop of `topological_sort` over `dependency_graph.items()` —
`turms/plugins/fragments.py:113-119`: returns the updated graph, and the queue and resolved set. -/
def relax (fragment : String) : Dict (List String) → List String → List String →
    Dict (List String) × List String × List String
  | [], queue, resolved => ([], queue, resolved)
  | (frag, deps) :: rest, queue, resolved =>
    if deps.contains fragment then
      let deps' := deps.erase fragment
      if deps'.isEmpty && !resolved.contains frag then
        let (g, q, r) := relax fragment rest (queue ++ [frag]) (setAdd resolved frag)
        ((frag, deps') :: g, q, r)
      else
        let (g, q, r) := relax fragment rest queue resolved
        ((frag, deps') :: g, q, r)
    else
      let (g, q, r) := relax fragment rest queue resolved
      ((frag, deps) :: g, q, r)

/-- The while loop of `topological_sort` — `turms/plugins/fragments.py:109-119`, with a bound on the number
of iterations (never reached, see `kahn_ok`). -/
def kahnLoop : Nat → Kahn → Except Err Kahn
  | n, s =>
    match s.queue with
    | [] => .ok s
    | fragment :: queue =>
      match n with
      | 0 => .error (.other "loop")
      | n + 1 =>
        let (g, q, r) := relax fragment s.graph queue s.resolved
        kahnLoop n ⟨g, q, r, s.sorted ++ [fragment]⟩

/-- `topological_sort` — `turms/plugins/fragments.py:101-126`.  The bound on the number of loop iterations is
the number of nodes. -/
def topologicalSort (graph : Dict (List String)) : Except Err (List String) :=
  let initial := (graph.filter (fun p => p.2.isEmpty)).map (·.1)
  match kahnLoop graph.length ⟨graph, initial, initial, []⟩ with
  | .error e => .error e
  | .ok s => .ok (s.sorted ++ graph.keys.filter (fun f => !s.sorted.contains f))

/-- `reorder_definitions` — `turms/plugins/fragments.py:614-632`. -/
def reorderDefinitions (document : Document) (sorted : List String) : List FragDef :=
  let defs := fragmentDefinitions document []
  sorted.filterMap (fun name => defs.get? name)

/-- The order in which `FragmentsPlugin.generate_ast` generates fragments —
`turms/plugins/fragments.py:668-677`. -/
def orderedFragments (document : Document) : Except Err (List FragDef) :=
  match buildRecursiveDependencyGraph document with
  | .error e => .error e
  | .ok graph =>
    match topologicalSort graph with
    | .error e => .error e
    | .ok sorted => .ok (reorderDefinitions document sorted)

end Turms.Fragments
