import Verif.Lemmas.Topo

/-!
# Properties of fragment dependencies and their order (C10, C11, C12)
-/

namespace Turms.Props
open Turms.Fragments Turms.Spec

/-! ## C10 -/

/-- The dependency search terminates on every document, cyclic or not, with one entry per fragment of the
document; an entry never contains a fragment that is not needed; and it is exactly the set of needed
fragments when no spread is hidden below an inline fragment.

Missing for the full property: the last part without the hypothesis `NoInlineSpread`, which is false, see
`C10_dependencies_counterexample`. -/
theorem C10_dependencies_partial (doc : Document) :
    ∃ g, buildRecursiveDependencyGraph doc = .ok g ∧
      (∀ name, name ∈ g.map (·.1) ↔ name ∈ (fragmentsOf doc).map (·.name)) ∧
      (g.map (·.1)).Nodup ∧
      ∀ name deps, (name, deps) ∈ g → deps.Nodup ∧ ∃ d, lookup (fragmentsOf doc) name = some d ∧
        (∀ x ∈ deps, Needs (fragmentsOf doc) d.sels x) ∧
        ((∀ d ∈ fragmentsOf doc, NoInlineSpread d.sels) →
          ∀ x, x ∈ deps ↔ Needs (fragmentsOf doc) d.sels x) := by
  obtain ⟨g, hg, hk, hn, hd, hm⟩ := graph_spec doc
  refine ⟨g, hg, ?_, hn, ?_⟩
  · intro name
    have := fragmentDefinitions_keys doc [] name
    rw [← hk] at this
    simpa [Dict.keys] using this
  · intro name deps hmem
    obtain ⟨d, hl, hx⟩ := hm name deps hmem
    refine ⟨hd name deps hmem, d, hl, ?_, ?_⟩
    · intro x h
      exact reachF_needs ((hx x).1 h)
    · intro hall x
      rw [hx]
      exact ⟨reachF_needs, needs_reachF (hall d (lookup_mem hl).1) hall⟩

/-- a cyclic document: `fragment A on T { b { ...B } }  fragment B on T { ...A ...C } fragment C on T { x }` -/
def cyclicDoc : Document :=
  [.fragment ⟨"A", "T", [.field "b" none [] [.spread "B"]]⟩,
   .fragment ⟨"B", "T", [.spread "A", .spread "C"]⟩,
   .fragment ⟨"C", "T", [.field "x" none [] []]⟩]

example : buildRecursiveDependencyGraph cyclicDoc =
    .ok [("A", ["B", "A", "C"]), ("B", ["A", "B", "C"]), ("C", [])] := by rfl

example : ∀ d ∈ fragmentsOf cyclicDoc, NoInlineSpread d.sels := by
  intro d hd
  simp only [cyclicDoc, fragmentsOf, List.filterMap_cons, List.filterMap_nil, List.mem_cons,
    List.not_mem_nil, or_false] at hd
  rcases hd with rfl | rfl | rfl
  · exact .field _ _ _ _ _ (.spread _ _ .nil) .nil
  · exact .spread _ _ (.spread _ _ .nil)
  · exact .field _ _ _ _ _ .nil .nil

/-- `fragment A on T { ... on X { ...B } }  fragment B on X { x }` -/
def inlineDoc : Document :=
  [.fragment ⟨"A", "T", [.inline (some "X") [.spread "B"]]⟩,
   .fragment ⟨"B", "X", [.field "x" none [] []]⟩]

/-- C10 is false for spreads below inline fragments: `A` needs `B`, but the computed dependency set of `A` is
empty. -/
theorem C10_dependencies_counterexample :
    ∃ g d, buildRecursiveDependencyGraph inlineDoc = .ok g ∧ ("A", []) ∈ g ∧
      lookup (fragmentsOf inlineDoc) "A" = some d ∧ Needs (fragmentsOf inlineDoc) d.sels "B" :=
  ⟨[("A", []), ("B", [])], ⟨"A", "T", [.inline (some "X") [.spread "B"]]⟩, rfl, by simp, rfl,
    .direct _ (.inline _ _ _ _ (.here _ _))⟩

/-! ## C11 -/

/-- For every dependency graph without cycles whose dependencies are all nodes, the order contains every
node exactly once, and every node comes after all of its dependencies. -/
theorem C11_topological_order (G : Dict (List String)) (hrep : IsDictOfSets G) (hac : Acyclic G)
    (hcl : Closed G) :
    ∃ l, topologicalSort G = .ok l ∧ l.Perm (G.map (·.1)) ∧
      ∀ (before after : List String) (f : String), l = before ++ f :: after →
        ∀ deps, (f, deps) ∈ G → ∀ d ∈ deps, d ∈ before :=
  topologicalSort_acyclic hrep.1 hrep.2 hac hcl

/-- For every graph whatsoever: the order contains every node exactly once, and the nodes that can be
ordered come first: the result is `done ++ rest` where in `done` everything comes after its dependencies,
and every node all of whose dependencies are in `done` is in `done` too. -/
theorem C11_best_effort (G : Dict (List String)) (hrep : IsDictOfSets G) :
    ∃ done rest, topologicalSort G = .ok (done ++ rest) ∧ (done ++ rest).Perm (G.map (·.1)) ∧
      (∀ (before after : List String) (f : String), done = before ++ f :: after →
        ∀ deps, (f, deps) ∈ G → ∀ d ∈ deps, d ∈ before) ∧
      (∀ f ∈ rest, ∃ deps, (f, deps) ∈ G ∧ ∃ d ∈ deps, d ∉ done) ∧
      rest.Sublist (G.map (·.1)) := by
  obtain ⟨done, h1, h2, h3, h4, h5⟩ := topologicalSort_spec hrep.1 hrep.2
  refine ⟨done, _, h1, perm_append_filter h2 hrep.1 h3, h4, ?_, List.filter_sublist⟩
  intro f hf
  simp only [List.mem_filter, List.contains_eq_mem, Bool.not_eq_eq_eq_not, Bool.not_true,
    decide_eq_false_iff_not] at hf
  obtain ⟨deps, hm⟩ := mem_of_mem_keys hf.1
  refine ⟨deps, hm, Classical.byContradiction fun hno => hf.2 (h5 f deps hm (fun d hd => ?_))⟩
  exact Classical.byContradiction fun hd' => hno ⟨d, hd, hd'⟩

/-- Documents: if every spread fragment is defined, no fragment needs itself (both are GraphQL validation
rules) and no spread is hidden below an inline fragment, then the fragments are generated in an order in which
each comes after all the fragments it needs. -/
theorem C11_document_order (doc : Document)
    (hinl : ∀ d ∈ fragmentsOf doc, NoInlineSpread d.sels)
    (hdef : ∀ d ∈ fragmentsOf doc, ∀ x, Spreads d.sels x → x ∈ (fragmentsOf doc).map (·.name))
    (hcyc : ∀ n d, lookup (fragmentsOf doc) n = some d → ¬ Needs (fragmentsOf doc) d.sels n) :
    ∃ l, orderedFragments doc = .ok l ∧
      (∀ n, n ∈ l.map (·.name) ↔ n ∈ (fragmentsOf doc).map (·.name)) ∧ (l.map (·.name)).Nodup ∧
      ∀ (before after : List FragDef) (d : FragDef), l = before ++ d :: after →
        ∀ x, Needs (fragmentsOf doc) d.sels x → x ∈ before.map (·.name) := by
  obtain ⟨g, hg, hk, hn, hd, hm⟩ := graph_spec doc
  have hmem : ∀ name deps, (name, deps) ∈ g → ∃ d, lookup (fragmentsOf doc) name = some d ∧
      ∀ x, x ∈ deps ↔ Needs (fragmentsOf doc) d.sels x := by
    intro name deps h
    obtain ⟨d, hl, hx⟩ := hm name deps h
    refine ⟨d, hl, fun x => ?_⟩
    rw [hx]
    exact ⟨reachF_needs, needs_reachF (hinl d (lookup_mem hl).1) hinl⟩
  have hkn : ∀ name, name ∈ g.keys ↔ name ∈ (fragmentsOf doc).map (·.name) := by
    intro name
    have := fragmentDefinitions_keys doc [] name
    rw [← hk] at this
    simpa [Dict.keys] using this
  have hneeds_def : ∀ sels, (∀ x, Spreads sels x → x ∈ (fragmentsOf doc).map (·.name)) →
      ∀ x, Needs (fragmentsOf doc) sels x → x ∈ (fragmentsOf doc).map (·.name) := by
    intro sels hs x hx
    cases hx with
    | direct _ h => exact hs x h
    | through g d _ _ hl hsp => exact hdef d (lookup_mem hl).1 x hsp
  have hcl : ∀ k deps, (k, deps) ∈ g → ∀ d ∈ deps, d ∈ g.keys := by
    intro k deps h x hx
    obtain ⟨d, hl, hiff⟩ := hmem k deps h
    rw [hkn]
    exact hneeds_def d.sels (hdef d (lookup_mem hl).1) x ((hiff x).1 hx)
  have htrans : ∀ sels y d x, Needs (fragmentsOf doc) sels y → lookup (fragmentsOf doc) y = some d →
      Needs (fragmentsOf doc) d.sels x → Needs (fragmentsOf doc) sels x := by
    intro sels y d x h1 hl h2
    induction h2 with
    | direct f hf => exact .through y d f h1 hl hf
    | through g' d' f _ hl' hs ih => exact .through g' d' f ih hl' hs
  have hpath : ∀ a b, Path g a b → ∃ d, lookup (fragmentsOf doc) a = some d ∧
      Needs (fragmentsOf doc) d.sels b := by
    intro a b h
    induction h with
    | edge a deps b hm hb =>
      obtain ⟨d, hl, hiff⟩ := hmem a deps hm
      exact ⟨d, hl, (hiff b).1 hb⟩
    | step a deps b c hm hb _ ih =>
      obtain ⟨d, hl, hiff⟩ := hmem a deps hm
      obtain ⟨d', hl', hn'⟩ := ih
      exact ⟨d, hl, htrans d.sels b d' c ((hiff b).1 hb) hl' hn'⟩
  have hac : ∀ a, ¬ Path g a a := by
    intro a h
    obtain ⟨d, hl, hn⟩ := hpath a a h
    exact hcyc a d hl hn
  obtain ⟨l, h1, h2, h3⟩ := topologicalSort_acyclic hn hd hac hcl
  have hname : ∀ k f, (fragmentDefinitions doc []).get? k = some f → f.name = k := by
    intro k f h
    rw [fragmentDefinitions_get?] at h
    exact (lookup_mem (by simpa using h)).2
  have hnames := filterMap_names hname l (fun x hx => by rw [← hk]; exact h2.mem_iff.1 hx)
  refine ⟨reorderDefinitions doc l, by simp [orderedFragments, hg, h1], ?_, ?_, ?_⟩
  · intro n
    simp only [reorderDefinitions]
    rw [hnames, h2.mem_iff, hkn]
  · simp only [reorderDefinitions]
    rw [hnames]
    exact h2.nodup_iff.2 hn
  · intro before after d he x hx
    simp only [reorderDefinitions] at he
    rw [he] at hnames
    simp only [List.map_append, List.map_cons] at hnames
    have hdl : d.name ∈ l := by rw [← hnames]; simp
    have hdmem : d ∈ l.filterMap (fun name => (fragmentDefinitions doc []).get? name) := by rw [he]; simp
    obtain ⟨n, _, hn'⟩ := List.mem_filterMap.1 hdmem
    have hnd := hname n d hn'
    obtain ⟨deps, hdeps⟩ := mem_of_mem_keys (h2.mem_iff.1 hdl)
    obtain ⟨d', hl', hiff⟩ := hmem _ _ hdeps
    rw [fragmentDefinitions_get?, hnd.symm] at hn'
    simp only [Dict.get?_nil, Option.or_none] at hn'
    rw [hn'] at hl'
    cases hl'
    exact h3 _ _ _ hnames.symm deps hdeps x ((hiff x).2 hx)

example : topologicalSort [("A", ["B", "C"]), ("B", ["C"]), ("C", []), ("D", ["A", "B", "C"])] =
    .ok ["C", "B", "A", "D"] := by decide +kernel

/-- `fragment A on T { b { ...B } c }  fragment B on T { x }` -/
def orderDoc : Document :=
  [.fragment ⟨"A", "T", [.field "b" none [] [.spread "B"], .field "c" none [] []]⟩,
   .fragment ⟨"B", "T", [.field "x" none [] []]⟩]

example : (orderedFragments orderDoc).map (·.map (·.name)) = .ok ["B", "A"] := by decide +kernel

/-- the acyclicity and closedness hypotheses are met by a graph with a diamond -/
example : Acyclic [("A", ["B"]), ("B", [])] ∧ Closed [("A", ["B"]), ("B", [])] ∧
    IsDictOfSets [("A", ["B"]), ("B", [])] := by
  refine ⟨?_, ?_, ?_⟩
  · have h : ∀ a b, Path [("A", ["B"]), ("B", [])] a b → a = "A" ∧ b = "B" := by
      intro a b h
      induction h with
      | edge a deps b hm hb =>
        simp only [List.mem_cons, Prod.mk.injEq, List.not_mem_nil, or_false] at hm
        rcases hm with ⟨rfl, rfl⟩ | ⟨rfl, rfl⟩ <;> simp_all
      | step a deps b c hm hb _ ih =>
        simp only [List.mem_cons, Prod.mk.injEq, List.not_mem_nil, or_false] at hm
        rcases hm with ⟨rfl, rfl⟩ | ⟨rfl, rfl⟩ <;> simp_all
    intro a ha
    have := h a a ha
    rw [this.1] at this
    exact absurd this.2 (by decide +kernel)
  · intro k deps hm d hd
    simp only [List.mem_cons, Prod.mk.injEq, List.not_mem_nil, or_false] at hm
    rcases hm with ⟨rfl, rfl⟩ | ⟨rfl, rfl⟩ <;> simp_all
  · refine ⟨by decide +kernel, ?_⟩
    intro k deps hm
    simp only [List.mem_cons, Prod.mk.injEq, List.not_mem_nil, or_false] at hm
    rcases hm with ⟨rfl, rfl⟩ | ⟨rfl, rfl⟩ <;> simp

/-- Without the hypothesis on inline fragments the document order is wrong: in `inlineDoc`, `A` needs `B` but
is generated first. -/
theorem C11_document_order_counterexample :
    (orderedFragments inlineDoc).map (·.map (·.name)) = .ok ["A", "B"] := by decide +kernel

/-! ## C12 -/

/-- For every dependency graph, cyclic, dangling or not, the ordering terminates (the model's loop bound is
never reached) and returns a permutation of the nodes. -/
theorem C12_order_is_permutation (G : Dict (List String)) (hrep : IsDictOfSets G) :
    ∃ l, topologicalSort G = .ok l ∧ l.Perm (G.map (·.1)) := by
  obtain ⟨done, h1, h2, h3, h4, h5⟩ := topologicalSort_spec hrep.1 hrep.2
  exact ⟨_, h1, perm_append_filter h2 hrep.1 h3⟩

/-- For every document, the fragments generated are the fragments of the document, each name once; if the
document defines no name twice, they are a permutation of its fragment definitions. -/
theorem C12_document_fragments (doc : Document) :
    ∃ l, orderedFragments doc = .ok l ∧ (l.map (·.name)).Nodup ∧
      (∀ d, d ∈ l ↔ ∃ n, lookup (fragmentsOf doc) n = some d) ∧
      (((fragmentsOf doc).map (·.name)).Nodup → l.Perm (fragmentsOf doc)) := by
  obtain ⟨g, hg, hk, hn, hd, hm⟩ := graph_spec doc
  obtain ⟨done, h1, h2, h3, h4, h5⟩ := topologicalSort_spec hn hd
  have hp := perm_append_filter h2 hn h3
  generalize done ++ g.keys.filter (fun f => !done.contains f) = l at h1 hp
  have hname : ∀ k f, (fragmentDefinitions doc []).get? k = some f → f.name = k := by
    intro k f h
    rw [fragmentDefinitions_get?] at h
    exact (lookup_mem (by simpa using h)).2
  have hnames := filterMap_names hname l (fun x hx => by rw [← hk]; exact hp.mem_iff.1 hx)
  have hnod : ((reorderDefinitions doc l).map (·.name)).Nodup := by
    simp only [reorderDefinitions]
    rw [hnames]
    exact hp.nodup_iff.2 hn
  have hmem : ∀ d, d ∈ reorderDefinitions doc l ↔ ∃ n, lookup (fragmentsOf doc) n = some d := by
    intro d
    simp only [reorderDefinitions, List.mem_filterMap, fragmentDefinitions_get?, Dict.get?_nil, Option.or_none]
    constructor
    · rintro ⟨n, _, h⟩; exact ⟨n, h⟩
    · rintro ⟨n, h⟩
      refine ⟨n, ?_, h⟩
      rw [hp.mem_iff, hk, ← Dict.get?_isSome_iff, fragmentDefinitions_get?, h]; rfl
  refine ⟨reorderDefinitions doc l, by simp [orderedFragments, hg, h1], hnod, hmem, ?_⟩
  intro hu
  refine (List.perm_ext_iff_of_nodup ?_ ?_).2 ?_
  · exact List.nodup_of_map' hnod
  · exact List.nodup_of_map' hu
  · intro d
    rw [hmem]
    constructor
    · rintro ⟨n, h⟩; exact (lookup_mem h).1
    · intro hdm
      refine ⟨d.name, ?_⟩
      unfold lookup
      have hs : ((fragmentsOf doc).reverse.find? (fun f => f.name == d.name)).isSome := by
        rw [List.find?_isSome]
        exact ⟨d, List.mem_reverse.2 hdm, by simp⟩
      obtain ⟨e, he⟩ := Option.isSome_iff_exists.1 hs
      rw [he]
      have hem := List.mem_reverse.1 (List.mem_of_find?_eq_some he)
      have hen : e.name = d.name := by simpa using List.find?_some he
      congr 1
      exact List.inj_on_of_nodup_map' hu hem hdm hen

/-- a cycle with a dangling dependency -/
example : topologicalSort [("A", ["B"]), ("B", ["A", "Gone"]), ("C", [])] = .ok ["C", "A", "B"] := by
  decide +kernel

example : (orderedFragments cyclicDoc).map (·.map (·.name)) = .ok ["C", "A", "B"] := by decide +kernel

end Turms.Props
