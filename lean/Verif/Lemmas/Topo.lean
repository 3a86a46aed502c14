import Verif.Lemmas.Fragments

namespace Turms.Fragments
open Turms.Spec

/-- what `relax` returns -/
theorem relax_keys (f : String) (g : Dict (List String)) (q r : List String) :
    (relax f g q r).1.keys = g.keys := by
  induction g generalizing q r with
  | nil => rfl
  | cons p g ih =>
    obtain ⟨k, deps⟩ := p
    simp only [relax]
    split
    · split
      · simp only [Dict.keys, List.map_cons]; congr 1; exact ih _ _
      · simp only [Dict.keys, List.map_cons]; congr 1; exact ih _ _
    · simp only [Dict.keys, List.map_cons]; congr 1; exact ih _ _

theorem relax_mem (f : String) (g : Dict (List String)) (q r : List String) (k : String) (deps : List String) :
    (k, deps) ∈ (relax f g q r).1 ↔ ∃ deps0, (k, deps0) ∈ g ∧ deps = deps0.erase f := by
  induction g generalizing q r with
  | nil => simp [relax]
  | cons p g ih =>
    obtain ⟨k', deps'⟩ := p
    simp only [relax]
    split
    · split
      · simp only [List.mem_cons, ih, Prod.mk.injEq]; grind
      · simp only [List.mem_cons, ih, Prod.mk.injEq]; grind
    · rename_i hc
      have hc' : deps'.erase f = deps' := List.erase_of_not_mem (by simpa using hc)
      simp only [List.mem_cons, ih, Prod.mk.injEq]; grind

/-- the nodes `relax` appends to the queue -/
theorem relax_new (f : String) (g : Dict (List String)) (q r : List String) (hg : g.keys.Nodup) :
    ∃ new : List String, (relax f g q r).2.1 = q ++ new ∧ new.Nodup ∧
      (∀ x, x ∈ (relax f g q r).2.2 ↔ x ∈ r ∨ x ∈ new) ∧
      (∀ x ∈ new, x ∉ r) ∧
      (∀ x ∈ new, ∃ deps0, (x, deps0) ∈ g ∧ f ∈ deps0 ∧ deps0.erase f = []) ∧
      (∀ x deps0, (x, deps0) ∈ g → f ∈ deps0 → deps0.erase f = [] → x ∈ r ∨ x ∈ new) := by
  induction g generalizing q r with
  | nil => exact ⟨[], by simp [relax]⟩
  | cons p g ih =>
    obtain ⟨k, deps⟩ := p
    simp only [Dict.keys, List.map_cons, List.nodup_cons] at hg
    simp only [relax]
    split
    · rename_i hc
      have hc : f ∈ deps := by simpa using hc
      split
      · rename_i he
        simp only [Bool.and_eq_true, List.isEmpty_iff, Bool.not_eq_eq_eq_not, Bool.not_true] at he
        obtain ⟨he, hk⟩ := he
        have hk : k ∉ r := by simpa using hk
        obtain ⟨new, h1, h2, h3, h4, h5, h6⟩ := ih (q ++ [k]) (setAdd r k) hg.2
        refine ⟨k :: new, by simp [h1], ?_, ?_, ?_, ?_, ?_⟩
        · rw [List.nodup_cons]
          refine ⟨fun hkn => ?_, h2⟩
          exact h4 k hkn ((mem_setAdd _ _ _).2 (.inr rfl))
        · intro x; rw [h3, mem_setAdd]; simp only [List.mem_cons]; grind
        · intro x hx
          rcases List.mem_cons.1 hx with rfl | hx
          · exact hk
          · intro hr; exact h4 x hx ((mem_setAdd _ _ _).2 (.inl hr))
        · intro x hx
          rcases List.mem_cons.1 hx with rfl | hx
          · exact ⟨deps, List.mem_cons_self, hc, he⟩
          · obtain ⟨d0, hd0, hr⟩ := h5 x hx
            exact ⟨d0, List.mem_cons_of_mem _ hd0, hr⟩
        · intro x d0 hx hf hd
          rcases List.mem_cons.1 hx with hx | hx
          · cases hx; exact .inr List.mem_cons_self
          · rcases h6 x d0 hx hf hd with h | h
            · rcases (mem_setAdd _ _ _).1 h with h | rfl
              · exact .inl h
              · exact .inr List.mem_cons_self
            · exact .inr (List.mem_cons_of_mem _ h)
      · rename_i he
        simp only [Bool.and_eq_true, List.isEmpty_iff, Bool.not_eq_eq_eq_not, Bool.not_true, not_and] at he
        obtain ⟨new, h1, h2, h3, h4, h5, h6⟩ := ih q r hg.2
        refine ⟨new, h1, h2, h3, h4, ?_, ?_⟩
        · intro x hx
          obtain ⟨d0, hd0, hr⟩ := h5 x hx
          exact ⟨d0, List.mem_cons_of_mem _ hd0, hr⟩
        · intro x d0 hx hf hd
          rcases List.mem_cons.1 hx with hx | hx
          · cases hx
            have := he hd
            exact .inl (by simpa using this)
          · exact h6 x d0 hx hf hd
    · rename_i hc
      have hc : f ∉ deps := by simpa using hc
      obtain ⟨new, h1, h2, h3, h4, h5, h6⟩ := ih q r hg.2
      refine ⟨new, h1, h2, h3, h4, ?_, ?_⟩
      · intro x hx
        obtain ⟨d0, hd0, hr⟩ := h5 x hx
        exact ⟨d0, List.mem_cons_of_mem _ hd0, hr⟩
      · intro x d0 hx hf hd
        rcases List.mem_cons.1 hx with hx | hx
        · cases hx; exact absurd hf hc
        · exact h6 x d0 hx hf hd

/-- every element of `l` has its dependencies (in `G`) earlier in `l` -/
def Ordered (G : Dict (List String)) (l : List String) : Prop :=
  ∀ (before after : List String) (f : String), l = before ++ f :: after →
    ∀ deps, (f, deps) ∈ G → ∀ d ∈ deps, d ∈ before

/-- the invariant of the loop -/
structure Inv (G : Dict (List String)) (s : Kahn) : Prop where
  keys : s.graph.keys = G.keys
  nodup : (s.sorted ++ s.queue).Nodup
  resolved : ∀ x, x ∈ s.resolved ↔ x ∈ s.sorted ∨ x ∈ s.queue
  known : ∀ x ∈ s.resolved, x ∈ G.keys
  /-- the remaining dependencies are the ones not yet emitted -/
  remaining : ∀ k deps, (k, deps) ∈ s.graph → ∃ deps0, (k, deps0) ∈ G ∧
    ∀ d, d ∈ deps ↔ d ∈ deps0 ∧ d ∉ s.sorted
  depsNodup : ∀ k deps, (k, deps) ∈ s.graph → deps.Nodup
  /-- nodes without remaining dependencies have been queued -/
  free : ∀ k, (k, []) ∈ s.graph → k ∈ s.resolved
  ready : ∀ x ∈ s.queue, (x, []) ∈ s.graph
  ordered : Ordered G s.sorted

theorem ordered_snoc {G : Dict (List String)} {l : List String} {f : String} (h : Ordered G l)
    (hf : ∀ deps, (f, deps) ∈ G → ∀ d ∈ deps, d ∈ l) : Ordered G (l ++ [f]) := by
  intro before after x he deps hx d hd
  rcases List.eq_nil_or_concat after with rfl | ⟨after', y, rfl⟩
  · have := List.append_inj_left' he rfl
    have h2 := List.append_inj_right' he rfl
    cases h2
    subst this
    exact hf deps hx d hd
  · have he' : l ++ [f] = (before ++ x :: after') ++ [y] := by simp [he]
    have := List.append_inj_left' he' rfl
    exact h before after' x this deps hx d hd

theorem mem_of_mem_keys {α : Type} {d : Dict α} {k : String} (h : k ∈ d.keys) : ∃ v, (k, v) ∈ d := by
  simp only [Dict.keys, List.mem_map] at h
  obtain ⟨⟨a, b⟩, h, rfl⟩ := h
  exact ⟨b, h⟩

theorem mem_keys_of_mem {α : Type} {d : Dict α} {k : String} {v : α} (h : (k, v) ∈ d) : k ∈ d.keys := by
  simp only [Dict.keys, List.mem_map]
  exact ⟨_, h, rfl⟩

theorem unique_val {α : Type} {d : Dict α} (hn : d.keys.Nodup) {k : String} {v w : α} (h1 : (k, v) ∈ d)
    (h2 : (k, w) ∈ d) : v = w := by
  have a := Dict.get?_of_mem_nodup hn h1
  have b := Dict.get?_of_mem_nodup hn h2
  rw [a] at b
  exact Option.some.inj b

theorem Inv.step {G : Dict (List String)} (hG : G.keys.Nodup) {s : Kahn} (h : Inv G s) {f : String}
    {queue : List String} (hq : s.queue = f :: queue) :
    Inv G ⟨(relax f s.graph queue s.resolved).1, (relax f s.graph queue s.resolved).2.1,
      (relax f s.graph queue s.resolved).2.2, s.sorted ++ [f]⟩ := by
  have hsG : s.graph.keys.Nodup := by rw [h.keys]; exact hG
  obtain ⟨new, hn1, hn2, hn3, hn4, hn5, hn6⟩ := relax_new f s.graph queue s.resolved hsG
  have hnod := h.nodup
  rw [hq] at hnod
  have hfs : f ∉ s.sorted := by
    intro hf
    have := (List.nodup_append.1 hnod).2.2 f hf f List.mem_cons_self
    exact this rfl
  have hfq : f ∉ queue := by
    have := (List.nodup_append.1 hnod).2.1
    exact (List.nodup_cons.1 this).1
  have hnew_res : ∀ x ∈ new, x ∉ s.sorted ∧ x ∉ queue ∧ x ≠ f := by
    intro x hx
    have := hn4 x hx
    rw [h.resolved, hq] at this
    grind
  constructor
  · rw [relax_keys, h.keys]
  · simp only [hn1]
    have : (s.sorted ++ [f] ++ (queue ++ new)) = (s.sorted ++ (f :: queue)) ++ new := by simp
    rw [this, List.nodup_append]
    refine ⟨hnod, hn2, ?_⟩
    intro a ha b hb hab
    subst hab
    have := hnew_res a hb
    simp only [List.mem_append, List.mem_cons] at ha
    grind
  · intro x
    simp only [hn1, hn3, h.resolved, hq]
    simp only [List.mem_append, List.mem_cons]
    grind
  · intro x hx
    simp only [hn3] at hx
    rcases hx with hx | hx
    · exact h.known x hx
    · obtain ⟨d0, hd0, _⟩ := hn5 x hx
      rw [← h.keys]
      exact mem_keys_of_mem hd0
  · intro k deps hk
    simp only [relax_mem] at hk
    obtain ⟨d1, hd1, rfl⟩ := hk
    obtain ⟨d0, hd0, hr⟩ := h.remaining k d1 hd1
    refine ⟨d0, hd0, fun d => ?_⟩
    rw [List.Nodup.mem_erase_iff (h.depsNodup k d1 hd1), hr]
    simp only [List.mem_append, List.mem_singleton]
    grind
  · intro k deps hk
    simp only [relax_mem] at hk
    obtain ⟨d1, hd1, rfl⟩ := hk
    exact (h.depsNodup k d1 hd1).erase _
  · intro k hk
    simp only [relax_mem] at hk
    obtain ⟨d1, hd1, he⟩ := hk
    simp only [hn3]
    by_cases hf : f ∈ d1
    · exact hn6 k d1 hd1 hf he.symm
    · rw [List.erase_of_not_mem hf] at he
      subst he
      exact .inl (h.free k hd1)
  · intro x hx
    simp only [hn1, List.mem_append] at hx
    simp only [relax_mem]
    rcases hx with hx | hx
    · exact ⟨[], h.ready x (by rw [hq]; exact List.mem_cons_of_mem _ hx), rfl⟩
    · obtain ⟨d0, hd0, _, he⟩ := hn5 x hx
      exact ⟨d0, hd0, he.symm⟩
  · refine ordered_snoc h.ordered ?_
    intro deps hdeps d hd
    obtain ⟨d0, hd0, hr⟩ := h.remaining f [] (h.ready f (by rw [hq]; exact List.mem_cons_self))
    have := unique_val hG hdeps hd0
    subst this
    have := (hr d)
    simp only [List.not_mem_nil, false_iff, not_and, Decidable.not_not] at this
    exact this hd

/-- number of nodes not yet emitted -/
theorem sorted_length_le {G : Dict (List String)} {s : Kahn} (h : Inv G s) :
    s.sorted.length + s.queue.length ≤ G.length := by
  have := h.nodup.length_le_of_subset (l₂ := G.keys) (fun x hx =>
    h.known x ((h.resolved x).2 (by simpa using hx)))
  simpa [Dict.keys] using this

theorem kahnLoop_ok {G : Dict (List String)} (hG : G.keys.Nodup) (n : Nat) (s : Kahn) (h : Inv G s)
    (hn : G.length ≤ s.sorted.length + n) :
    ∃ s', kahnLoop n s = .ok s' ∧ Inv G s' ∧ s'.queue = [] := by
  induction n generalizing s with
  | zero =>
    have := sorted_length_le h
    have hq : s.queue = [] := by
      cases hq : s.queue with
      | nil => rfl
      | cons a l => rw [hq] at this; simp at this; omega
    refine ⟨s, ?_, h, hq⟩
    rw [kahnLoop, hq]
  | succ n ih =>
    cases hq : s.queue with
    | nil =>
      refine ⟨s, ?_, h, hq⟩
      rw [kahnLoop, hq]
    | cons f queue =>
      obtain ⟨s', h1, h2⟩ := ih _ (h.step hG hq) (by simp; omega)
      refine ⟨s', ?_, h2⟩
      rw [kahnLoop, hq]
      exact h1

theorem initial_inv {G : Dict (List String)} (hG : G.keys.Nodup)
    (hd : ∀ k deps, (k, deps) ∈ G → deps.Nodup) :
    Inv G ⟨G, (G.filter (fun p => p.2.isEmpty)).map (·.1), (G.filter (fun p => p.2.isEmpty)).map (·.1), []⟩ := by
  constructor
  · rfl
  · simp only [List.nil_append]
    exact List.Sublist.nodup (List.Sublist.map _ List.filter_sublist) hG
  · intro x; simp
  · intro x hx
    simp only [List.mem_map, List.mem_filter] at hx
    obtain ⟨p, hp, rfl⟩ := hx
    exact mem_keys_of_mem (v := p.2) hp.1
  · intro k deps hk
    exact ⟨deps, hk, by simp⟩
  · exact hd
  · intro k hk
    simp only [List.mem_map, List.mem_filter]
    exact ⟨_, ⟨hk, rfl⟩, rfl⟩
  · intro x hx
    simp only [List.mem_map, List.mem_filter] at hx
    obtain ⟨⟨a, b⟩, ⟨hp, hb⟩, rfl⟩ := hx
    simp only [List.isEmpty_iff] at hb
    subst hb
    exact hp
  · intro b a f he
    simp at he

/-- the result of the sort -/
theorem topologicalSort_spec {G : Dict (List String)} (hG : G.keys.Nodup)
    (hd : ∀ k deps, (k, deps) ∈ G → deps.Nodup) :
    ∃ done : List String, topologicalSort G = .ok (done ++ G.keys.filter (fun f => !done.contains f)) ∧
      done.Nodup ∧ (∀ x ∈ done, x ∈ G.keys) ∧ Ordered G done ∧
      (∀ k deps, (k, deps) ∈ G → (∀ d ∈ deps, d ∈ done) → k ∈ done) := by
  obtain ⟨s, h1, h2, h3⟩ := kahnLoop_ok hG G.length _ (initial_inv hG hd) (by simp)
  have hres : ∀ x, x ∈ s.resolved ↔ x ∈ s.sorted := by intro x; rw [h2.resolved, h3]; simp
  refine ⟨s.sorted, ?_, ?_, ?_, h2.ordered, ?_⟩
  · simp only [topologicalSort, h1]
  · have := h2.nodup; rw [h3] at this; simpa using this
  · intro x hx; exact h2.known x ((hres x).2 hx)
  · intro k deps hk hdeps
    have hkk : k ∈ s.graph.keys := by rw [h2.keys]; exact mem_keys_of_mem hk
    obtain ⟨rem, hrem⟩ := mem_of_mem_keys hkk
    obtain ⟨d0, hd0, hr⟩ := h2.remaining k rem hrem
    have := unique_val hG hk hd0
    subst this
    have : rem = [] := by
      apply List.eq_nil_iff_forall_not_mem.2
      intro d hd
      have := (hr d).1 hd
      exact this.2 (hdeps d this.1)
    subst this
    exact (hres k).1 (h2.free k hrem)

theorem perm_append_filter {done keys : List String} (h1 : done.Nodup) (h2 : keys.Nodup)
    (h3 : ∀ x ∈ done, x ∈ keys) :
    (done ++ keys.filter (fun f => !done.contains f)).Perm keys := by
  refine (List.perm_ext_iff_of_nodup ?_ h2).2 ?_
  · rw [List.nodup_append]
    refine ⟨h1, List.Sublist.nodup List.filter_sublist h2, ?_⟩
    intro a ha b hb hab
    subst hab
    simp only [List.mem_filter, List.contains_eq_mem, Bool.not_eq_eq_eq_not, Bool.not_true,
      decide_eq_false_iff_not] at hb
    exact hb.2 ha
  · intro a
    simp only [List.mem_append, List.mem_filter, List.contains_eq_mem, Bool.not_eq_eq_eq_not, Bool.not_true,
      decide_eq_false_iff_not]
    grind


/-! ## acyclic graphs -/

theorem Path.trans {G : List (String × List String)} {a b c : String} (h1 : Path G a b) (h2 : Path G b c) :
    Path G a c := by
  induction h1 with
  | edge a deps b hm hb => exact .step a deps b c hm hb h2
  | step a deps b c' hm hb _ ih => exact .step a deps b c hm hb (ih h2)

open Classical in
/-- number of nodes reachable from `a` -/
noncomputable def reachCount (G : Dict (List String)) (a : String) : Nat :=
  G.keys.countP (fun k => decide (Path G a k))

open Classical in
theorem countP_lt {α : Type} {p q : α → Bool} {l : List α} (h : ∀ x, p x = true → q x = true) {a : α}
    (ha : a ∈ l) (hp : p a = false) (hq : q a = true) : l.countP p < l.countP q := by
  induction l with
  | nil => cases ha
  | cons b l ih =>
    have hle : l.countP p ≤ l.countP q := List.countP_mono_left (fun x _ hx => h x hx)
    rcases List.mem_cons.1 ha with rfl | ha
    · rw [List.countP_cons_of_neg (by simp [hp]), List.countP_cons_of_pos hq]
      omega
    · have := ih ha
      by_cases hb : p b = true
      · rw [List.countP_cons_of_pos hb, List.countP_cons_of_pos (h b hb)]
        omega
      · rw [List.countP_cons_of_neg hb, List.countP_cons]
        omega

theorem reachCount_lt {G : Dict (List String)} (hac : ∀ a, ¬ Path G a a)
    (hcl : ∀ k deps, (k, deps) ∈ G → ∀ d ∈ deps, d ∈ G.keys) {k : String} {deps : List String} {d : String}
    (hk : (k, deps) ∈ G) (hd : d ∈ deps) : reachCount G d < reachCount G k := by
  classical
  unfold reachCount
  refine countP_lt (a := d) ?_ (hcl k deps hk d hd) ?_ ?_
  · intro x hx
    simp only [decide_eq_true_eq] at hx ⊢
    exact .step k deps d x hk hd hx
  · simpa using hac d
  · simpa using Path.edge k deps d hk hd

theorem all_done {G : Dict (List String)} (hac : ∀ a, ¬ Path G a a)
    (hcl : ∀ k deps, (k, deps) ∈ G → ∀ d ∈ deps, d ∈ G.keys) {done : List String}
    (h : ∀ k deps, (k, deps) ∈ G → (∀ d ∈ deps, d ∈ done) → k ∈ done) :
    ∀ n k, k ∈ G.keys → reachCount G k < n → k ∈ done := by
  intro n
  induction n with
  | zero => intro k _ hn; omega
  | succ n ih =>
    intro k hk hn
    obtain ⟨deps, hm⟩ := mem_of_mem_keys hk
    refine h k deps hm (fun d hd => ih d (hcl k deps hm d hd) ?_)
    have := reachCount_lt hac hcl hm hd
    omega

theorem topologicalSort_acyclic {G : Dict (List String)} (hG : G.keys.Nodup)
    (hd : ∀ k deps, (k, deps) ∈ G → deps.Nodup) (hac : ∀ a, ¬ Path G a a)
    (hcl : ∀ k deps, (k, deps) ∈ G → ∀ d ∈ deps, d ∈ G.keys) :
    ∃ l, topologicalSort G = .ok l ∧ l.Perm G.keys ∧ Ordered G l := by
  obtain ⟨done, h1, h2, h3, h4, h5⟩ := topologicalSort_spec hG hd
  have hall : ∀ k ∈ G.keys, k ∈ done := fun k hk => all_done hac hcl h5 _ k hk (Nat.lt_succ_self _)
  have hnil : G.keys.filter (fun f => !done.contains f) = [] := by
    apply List.filter_eq_nil_iff.2
    intro a ha
    simpa using hall a ha
  refine ⟨_, h1, perm_append_filter h2 hG h3, ?_⟩
  rw [hnil, List.append_nil]
  exact h4

/-! ## documents -/

theorem reachF_needs {doc : Document} {sels : List Sel} {f : String}
    (h : ReachF (fragmentDefinitions doc []) (SpreadsF sels) f) : Needs (fragmentsOf doc) sels f := by
  induction h with
  | direct f hf => exact .direct _ hf.toSpreads
  | through g d f _ hg hs ih =>
    rw [fragmentDefinitions_get?] at hg
    simp only [Dict.get?_nil, Option.or_none] at hg
    exact .through g d f ih hg hs.toSpreads

theorem lookup_mem {l : List FragDef} {n : String} {d : FragDef} (h : lookup l n = some d) :
    d ∈ l ∧ d.name = n := by
  unfold lookup at h
  refine ⟨?_, ?_⟩
  · exact List.mem_reverse.1 (List.mem_of_find?_eq_some h)
  · simpa using List.find?_some h

theorem needs_reachF {doc : Document} {sels : List Sel} {f : String} (hs : NoInlineSpread sels)
    (hall : ∀ d ∈ fragmentsOf doc, NoInlineSpread d.sels)
    (h : Needs (fragmentsOf doc) sels f) : ReachF (fragmentDefinitions doc []) (SpreadsF sels) f := by
  induction h with
  | direct f hf => exact .direct _ (spreadsF_of_noInline hf hs)
  | through g d f _ hg hsp ih =>
    refine .through g d f ih ?_ (spreadsF_of_noInline hsp (hall d (lookup_mem hg).1))
    rw [fragmentDefinitions_get?, hg]; rfl

/-- the graph of a document -/
theorem graph_spec (doc : Document) : ∃ g, buildRecursiveDependencyGraph doc = .ok g ∧
    g.keys = (fragmentDefinitions doc []).keys ∧ g.keys.Nodup ∧ (∀ k deps, (k, deps) ∈ g → deps.Nodup) ∧
    (∀ k deps, (k, deps) ∈ g → ∃ d, lookup (fragmentsOf doc) k = some d ∧
      ∀ x, x ∈ deps ↔ ReachF (fragmentDefinitions doc []) (SpreadsF d.sels) x) := by
  obtain ⟨g, hg⟩ := buildGraph_ok (fragmentDefinitions doc []) (fragmentDefinitions doc [])
  have hk := buildGraph_keys hg
  have hnd := fragmentDefinitions_nodup doc [] (by simp [Dict.keys])
  refine ⟨g, hg, hk, by rw [hk]; exact hnd, ?_, ?_⟩
  · intro k deps hm
    obtain ⟨f, _, hf⟩ := buildGraph_mem hg hm
    exact findDeps_nodup hf
  · intro k deps hm
    obtain ⟨f, hf, hd⟩ := buildGraph_mem hg hm
    refine ⟨f, ?_, fun x => findDeps_mem hd x⟩
    have := Dict.get?_of_mem_nodup hnd hf
    rw [fragmentDefinitions_get?] at this
    simpa using this

theorem filterMap_names {d : Dict FragDef} (hname : ∀ k f, d.get? k = some f → f.name = k) (l : List String)
    (hl : ∀ x ∈ l, x ∈ d.keys) : (l.filterMap (fun n => d.get? n)).map (·.name) = l := by
  induction l with
  | nil => rfl
  | cons a l ih =>
    have ha := (Dict.get?_isSome_iff d a).2 (hl a List.mem_cons_self)
    obtain ⟨f, hf⟩ := Option.isSome_iff_exists.1 ha
    rw [List.filterMap_cons_some hf, List.map_cons, hname a f hf,
      ih (fun x hx => hl x (List.mem_cons_of_mem _ hx))]

end Turms.Fragments

theorem List.inj_on_of_nodup_map' {α β : Type} {f : α → β} {l : List α} (h : (l.map f).Nodup) {a b : α}
    (ha : a ∈ l) (hb : b ∈ l) (he : f a = f b) : a = b := by
  induction l with
  | nil => cases ha
  | cons c l ih =>
    simp only [List.map_cons, List.nodup_cons, List.mem_map, not_exists, not_and] at h
    rcases List.mem_cons.1 ha with ha1 | ha1 <;> rcases List.mem_cons.1 hb with hb1 | hb1
    · rw [ha1, hb1]
    · subst ha1; exact absurd he.symm (h.1 b hb1)
    · subst hb1; exact absurd he (h.1 a ha1)
    · exact ih h.2 ha1 hb1

theorem List.nodup_of_map' {α β : Type} {f : α → β} {l : List α} (h : (l.map f).Nodup) : l.Nodup := by
  induction l with
  | nil => simp
  | cons c l ih =>
    simp only [List.map_cons, List.nodup_cons, List.mem_map, not_exists, not_and] at h
    exact List.nodup_cons.2 ⟨fun hc => h.1 c hc rfl, ih h.2⟩
