import Verif.Model.Fragments
import Verif.Spec.Fragments
import Verif.Lemmas.Basic

namespace Turms.Fragments
open Turms.Spec

theorem mem_setUnion (a b : List String) (x : String) : x ∈ setUnion a b ↔ x ∈ a ∨ x ∈ b := by
  unfold setUnion
  induction b generalizing a with
  | nil => simp
  | cons c b ih => rw [List.foldl_cons, ih, mem_setAdd]; grind

theorem nodup_setUnion (a b : List String) (h : a.Nodup) : (setUnion a b).Nodup := by
  unfold setUnion
  induction b generalizing a with
  | nil => simpa
  | cons c b ih => rw [List.foldl_cons]; exact ih _ (nodup_setAdd _ _ h)

/-- spreads the walk sees: below fields, not below inline fragments -/
inductive SpreadsF : List Sel → String → Prop
  | here (f : String) (rest : List Sel) : SpreadsF (.spread f :: rest) f
  | field (n : String) (a : Option String) (args : List (String × Value)) (sub rest : List Sel) (f : String) :
      SpreadsF sub f → SpreadsF (.field n a args sub :: rest) f
  | later (s : Sel) (rest : List Sel) (f : String) : SpreadsF rest f → SpreadsF (s :: rest) f

theorem SpreadsF.toSpreads {l : List Sel} {f : String} (h : SpreadsF l f) : Spreads l f := by
  induction h with
  | here f rest => exact .here _ _
  | field n a args sub rest f _ ih => exact .field _ _ _ _ _ _ ih
  | later s rest f _ ih => exact .later _ _ _ ih

theorem spreadsF_of_noInline {l : List Sel} {f : String} (h : Spreads l f) (hn : NoInlineSpread l) :
    SpreadsF l f := by
  induction h with
  | here f rest => exact .here _ _
  | field n a args sub rest f _ ih => cases hn; exact .field _ _ _ _ _ _ (ih ‹_›)
  | inline t sub rest f h _ => cases hn; exact absurd h (‹∀ f, ¬ Spreads sub f› f)
  | later s rest f _ ih => cases hn <;> exact .later _ _ _ (ih ‹_›)

/-- reachability as seen by the walk -/
inductive ReachF (defs : Dict FragDef) (direct : String → Prop) : String → Prop
  | direct (f : String) : direct f → ReachF defs direct f
  | through (g : String) (d : FragDef) (f : String) :
      ReachF defs direct g → defs.get? g = some d → SpreadsF d.sels f → ReachF defs direct f

theorem ReachF.mono {defs : Dict FragDef} {p q : String → Prop} (h : ∀ f, p f → q f) {f : String}
    (hr : ReachF defs p f) : ReachF defs q f := by
  induction hr with
  | direct f hf => exact .direct _ (h _ hf)
  | through g d f _ hd hs ih => exact .through g d f ih hd hs

theorem ReachF.bind {defs : Dict FragDef} {p q : String → Prop} (h : ∀ f, p f → ReachF defs q f) {f : String}
    (hr : ReachF defs p f) : ReachF defs q f := by
  induction hr with
  | direct f hf => exact h _ hf
  | through g d f _ hd hs ih => exact .through g d f ih hd hs

/-- what one (partial) walk establishes -/
structure Good (defs : Dict FragDef) (direct : String → Prop) (V D V' : List String) : Prop where
  sub : ∀ x ∈ V, x ∈ V'
  cover : ∀ f, direct f → f ∈ D
  entered : ∀ g ∈ V', g ∉ V → ∃ d, defs.get? g = some d ∧ ∀ f, SpreadsF d.sels f → f ∈ D
  closed : ∀ f ∈ D, (defs.get? f).isSome → f ∈ V'
  sound : ∀ f ∈ D, ReachF defs direct f
  nodup : D.Nodup

theorem Good.empty (defs : Dict FragDef) (V : List String) (p : String → Prop) (hp : ∀ f, ¬ p f) :
    Good defs p V [] V :=
  ⟨fun _ h => h, fun f h => absurd h (hp f), fun g h h2 => absurd h h2, by simp, by simp, by simp⟩

theorem Good.append {defs : Dict FragDef} {p q : String → Prop} {V D V1 D2 V2 : List String}
    (h1 : Good defs p V D V1) (h2 : Good defs q V1 D2 V2) :
    Good defs (fun f => p f ∨ q f) V (setUnion D D2) V2 := by
  refine ⟨fun x hx => h2.sub x (h1.sub x hx), ?_, ?_, ?_, ?_, nodup_setUnion _ _ h1.nodup⟩
  · intro f hf
    rw [mem_setUnion]
    exact hf.imp (h1.cover f) (h2.cover f)
  · intro g hg hgV
    by_cases hg1 : g ∈ V1
    · obtain ⟨d, hd, hs⟩ := h1.entered g hg1 hgV
      exact ⟨d, hd, fun f hf => by rw [mem_setUnion]; exact .inl (hs f hf)⟩
    · obtain ⟨d, hd, hs⟩ := h2.entered g hg hg1
      exact ⟨d, hd, fun f hf => by rw [mem_setUnion]; exact .inr (hs f hf)⟩
  · intro f hf hd
    rw [mem_setUnion] at hf
    rcases hf with hf | hf
    · exact h2.sub f (h1.closed f hf hd)
    · exact h2.closed f hf hd
  · intro f hf
    rw [mem_setUnion] at hf
    rcases hf with hf | hf
    · exact (h1.sound f hf).mono (fun _ h => .inl h)
    · exact (h2.sound f hf).mono (fun _ h => .inr h)

theorem Good.congr {defs : Dict FragDef} {p q : String → Prop} {V D V1 : List String}
    (h : Good defs p V D V1) (hpq : ∀ f, p f ↔ q f) : Good defs q V D V1 := by
  have : p = q := funext fun f => propext (hpq f)
  exact this ▸ h

theorem spreadsF_cons_spread (s : String) (rest : List Sel) (f : String) :
    SpreadsF (.spread s :: rest) f ↔ f = s ∨ SpreadsF rest f := by
  constructor
  · intro h; cases h with
    | here => exact .inl rfl
    | later _ _ _ h => exact .inr h
  · rintro (rfl | h)
    · exact .here _ _
    · exact .later _ _ _ h

theorem spreadsF_cons_field (n : String) (a : Option String) (args : List (String × Value)) (sub rest : List Sel)
    (f : String) : SpreadsF (.field n a args sub :: rest) f ↔ SpreadsF sub f ∨ SpreadsF rest f := by
  constructor
  · intro h; cases h with
    | field _ _ _ _ _ _ h => exact .inl h
    | later _ _ _ h => exact .inr h
  · rintro (h | h)
    · exact .field _ _ _ _ _ _ h
    · exact .later _ _ _ h

theorem spreadsF_cons_inline (t : Option String) (sub rest : List Sel) (f : String) :
    SpreadsF (.inline t sub :: rest) f ↔ SpreadsF rest f := by
  constructor
  · intro h; cases h with
    | later _ _ _ h => exact h
  · intro h; exact .later _ _ _ h

theorem spreadsF_single_spread (s f : String) : SpreadsF [.spread s] f ↔ f = s := by
  rw [spreadsF_cons_spread]
  constructor
  · rintro (h | h)
    · exact h
    · cases h
  · exact .inl

theorem spreadsF_cons (s : Sel) (rest : List Sel) (f : String) :
    SpreadsF (s :: rest) f ↔ SpreadsF [s] f ∨ SpreadsF rest f := by
  constructor
  · intro h
    cases h with
    | here => exact .inl (.here _ _)
    | field _ _ _ _ _ _ h => exact .inl (.field _ _ _ _ _ _ h)
    | later _ _ _ h => exact .inr h
  · rintro (h | h)
    · cases h with
      | here => exact .here _ _
      | field _ _ _ _ _ _ h => exact .field _ _ _ _ _ _ h
      | later _ _ _ h => cases h
    · exact .later _ _ _ h

mutual
theorem walkSel_good {defs : Dict FragDef} {enter : FragDef → List String → Found}
    (henter : ∀ f V D V', enter f V = .ok (D, V') → Good defs (SpreadsF f.sels) V D V') :
    ∀ (s : Sel) (V D V' : List String), walkSel defs enter s V = .ok (D, V') →
      Good defs (SpreadsF [s]) V D V'
  | .spread s, V, D, V', h => by
    simp only [walkSel] at h
    split at h
    · rename_i fragment hget
      split at h
      · rename_i hc
        cases h
        have hc' : s ∈ V := by simpa using hc
        refine ⟨fun _ h => h, ?_, fun g h h2 => absurd h h2, ?_, ?_, by simp⟩
        · intro f hf; simp [(spreadsF_single_spread _ _).1 hf]
        · intro f hf _
          simp only [List.mem_singleton] at hf
          exact hf ▸ hc'
        · intro f hf
          simp only [List.mem_singleton] at hf
          exact .direct _ ((spreadsF_single_spread _ _).2 hf)
      · rename_i hc
        split at h
        · cases h
        · rename_i more v2 he
          cases h
          have hg := henter _ _ _ _ he
          have hsV : s ∈ V' := hg.sub s ((mem_setAdd _ _ _).2 (.inr rfl))
          refine ⟨fun x hx => hg.sub x ((mem_setAdd _ _ _).2 (.inl hx)), ?_, ?_, ?_, ?_,
            nodup_setUnion _ _ (by simp)⟩
          · intro f hf
            rw [mem_setUnion, (spreadsF_single_spread _ _).1 hf]; simp
          · intro g hgV' hgV
            by_cases hgs : g = s
            · subst hgs
              exact ⟨fragment, hget, fun f hf => by rw [mem_setUnion]; exact .inr (hg.cover f hf)⟩
            · obtain ⟨d, hd, hs⟩ := hg.entered g hgV' (by rw [mem_setAdd]; simp [hgV, hgs])
              exact ⟨d, hd, fun f hf => by rw [mem_setUnion]; exact .inr (hs f hf)⟩
          · intro f hf hd
            rw [mem_setUnion, List.mem_singleton] at hf
            rcases hf with rfl | hf
            · exact hsV
            · exact hg.closed f hf hd
          · intro f hf
            rw [mem_setUnion, List.mem_singleton] at hf
            have hs : ReachF defs (SpreadsF [.spread s]) s :=
              .direct _ ((spreadsF_single_spread _ _).2 rfl)
            rcases hf with rfl | hf
            · exact hs
            · exact (hg.sound f hf).bind (fun x hx => .through s fragment x hs hget hx)
    · rename_i hget
      cases h
      refine ⟨fun _ h => h, ?_, fun g h h2 => absurd h h2, ?_, ?_, by simp⟩
      · intro f hf; simp [(spreadsF_single_spread _ _).1 hf]
      · intro f hf hd
        simp only [List.mem_singleton] at hf
        subst hf
        rw [hget] at hd; simp at hd
      · intro f hf
        simp only [List.mem_singleton] at hf
        exact .direct _ ((spreadsF_single_spread _ _).2 hf)
  | .field n a args sub, V, D, V', h => by
    simp only [walkSel] at h
    refine (walkSels_good henter sub V D V' h).congr (fun f => ?_)
    rw [spreadsF_cons_field]
    constructor
    · exact .inl
    · rintro (h | h)
      · exact h
      · cases h
  | .inline t sub, V, D, V', h => by
    simp only [walkSel] at h
    cases h
    refine Good.empty defs V _ (fun f hf => ?_)
    rw [spreadsF_cons_inline] at hf
    cases hf
theorem walkSels_good {defs : Dict FragDef} {enter : FragDef → List String → Found}
    (henter : ∀ f V D V', enter f V = .ok (D, V') → Good defs (SpreadsF f.sels) V D V') :
    ∀ (l : List Sel) (V D V' : List String), walkSels defs enter l V = .ok (D, V') →
      Good defs (SpreadsF l) V D V'
  | [], V, D, V', h => by
    simp only [walkSels] at h
    cases h
    exact Good.empty defs V _ (fun f hf => by cases hf)
  | s :: rest, V, D, V', h => by
    simp only [walkSels] at h
    split at h
    · cases h
    · rename_i d1 v1 h1
      split at h
      · cases h
      · rename_i d2 v2 h2
        cases h
        exact ((walkSel_good henter s V d1 v1 h1).append (walkSels_good henter rest v1 d2 _ h2)).congr
          (fun f => (spreadsF_cons s rest f).symm)
end

theorem findDepsDepth_good (defs : Dict FragDef) (n : Nat) : ∀ (l : List Sel) (V D V' : List String),
    findDepsDepth defs n l V = .ok (D, V') → Good defs (SpreadsF l) V D V' := by
  induction n with
  | zero =>
    intro l V D V' h
    exact walkSels_good (fun f V D V' h => by cases h) l V D V' h
  | succ n ih =>
    intro l V D V' h
    exact walkSels_good (fun f V D V' h => ih _ _ _ _ h) l V D V' h

/-- number of fragments not yet visited -/
def unvisited (defs : Dict FragDef) (V : List String) : Nat :=
  (defs.keys.filter (fun k => !V.contains k)).length

theorem unvisited_mono (defs : Dict FragDef) {V V' : List String} (h : ∀ x ∈ V, x ∈ V') :
    unvisited defs V' ≤ unvisited defs V := by
  unfold unvisited
  have h2 : ∀ l : List String, (l.filter (fun k => !V'.contains k)).length ≤
      (l.filter (fun k => !V.contains k)).length := by
    intro l
    rw [← List.countP_eq_length_filter, ← List.countP_eq_length_filter]
    apply List.countP_mono_left
    intro x _ hx
    simp only [List.contains_eq_mem, Bool.not_eq_eq_eq_not, Bool.not_true, decide_eq_false_iff_not] at hx ⊢
    exact fun hv => hx (h x hv)
  exact h2 _

theorem unvisited_lt (defs : Dict FragDef) {V : List String} {s : String} (hs : s ∈ defs.keys) (hv : s ∉ V) :
    unvisited defs (setAdd V s) < unvisited defs V := by
  unfold unvisited
  generalize defs.keys = l at hs
  induction l with
  | nil => simp at hs
  | cons a l ih =>
    by_cases hm : s ∈ l
    · have := ih hm
      by_cases ha : a ∈ setAdd V s
      · have hf : (List.filter (fun k => !List.contains V k) (a :: l)).length ≥
            (List.filter (fun k => !List.contains V k) l).length := by
          rw [List.filter_cons]; split <;> simp
        rw [List.filter_cons_of_neg (by simp [ha])]
        omega
      · have ha' : a ∉ V := fun h => ha ((mem_setAdd _ _ _).2 (.inl h))
        rw [List.filter_cons_of_pos (by simp [ha]), List.filter_cons_of_pos (by simp [ha'])]
        simp only [List.length_cons]
        omega
    · have has : s = a := by
        rcases List.mem_cons.1 hs with h | h
        · exact h
        · exact absurd h hm
      subst has
      rw [List.filter_cons_of_neg (by simp [mem_setAdd]), List.filter_cons_of_pos (by simp [hv])]
      have := unvisited_mono [] (V := V) (V' := setAdd V s) (fun x hx => (mem_setAdd _ _ _).2 (.inl hx))
      have h2 : (l.filter (fun k => !(setAdd V s).contains k)).length ≤
          (l.filter (fun k => !V.contains k)).length := by
        rw [← List.countP_eq_length_filter, ← List.countP_eq_length_filter]
        apply List.countP_mono_left
        intro x _ hx
        simp only [List.contains_eq_mem, Bool.not_eq_eq_eq_not, Bool.not_true, decide_eq_false_iff_not] at hx ⊢
        exact fun hv => hx ((mem_setAdd _ _ _).2 (.inl hv))
      simp only [List.length_cons]
      omega

mutual
theorem walkSel_ok {defs : Dict FragDef} {enter : FragDef → List String → Found} {n : Nat}
    (henter : ∀ f V D V', enter f V = .ok (D, V') → Good defs (SpreadsF f.sels) V D V')
    (hok : ∀ f V, unvisited defs V < n → ∃ D V', enter f V = .ok (D, V')) :
    ∀ (s : Sel) (V : List String), unvisited defs V ≤ n → ∃ D V', walkSel defs enter s V = .ok (D, V')
  | .spread s, V, h => by
    simp only [walkSel]
    split
    · rename_i fragment hget
      split
      · exact ⟨_, _, rfl⟩
      · rename_i hc
        have hk : s ∈ defs.keys := by rw [← Dict.get?_isSome_iff, hget]; rfl
        have := unvisited_lt defs hk (V := V) (by simpa using hc)
        obtain ⟨D, V', he⟩ := hok fragment (setAdd V s) (by omega)
        rw [he]
        exact ⟨_, _, rfl⟩
    · exact ⟨_, _, rfl⟩
  | .field n a args sub, V, h => by
    simp only [walkSel]
    exact walkSels_ok henter hok sub V h
  | .inline t sub, V, h => by
    simp only [walkSel]
    exact ⟨_, _, rfl⟩
theorem walkSels_ok {defs : Dict FragDef} {enter : FragDef → List String → Found} {n : Nat}
    (henter : ∀ f V D V', enter f V = .ok (D, V') → Good defs (SpreadsF f.sels) V D V')
    (hok : ∀ f V, unvisited defs V < n → ∃ D V', enter f V = .ok (D, V')) :
    ∀ (l : List Sel) (V : List String), unvisited defs V ≤ n → ∃ D V', walkSels defs enter l V = .ok (D, V')
  | [], V, h => ⟨_, _, rfl⟩
  | s :: rest, V, h => by
    obtain ⟨d1, v1, h1⟩ := walkSel_ok henter hok s V h
    have hsub := (walkSel_good henter s V d1 v1 h1).sub
    obtain ⟨d2, v2, h2⟩ := walkSels_ok henter hok rest v1
      (Nat.le_trans (unvisited_mono defs hsub) h)
    simp only [walkSels, h1, h2]
    exact ⟨_, _, rfl⟩
end

theorem findDepsDepth_ok (defs : Dict FragDef) (n : Nat) : ∀ (l : List Sel) (V : List String),
    unvisited defs V ≤ n → ∃ D V', findDepsDepth defs n l V = .ok (D, V') := by
  induction n with
  | zero =>
    intro l V h
    exact walkSels_ok (n := 0) (fun f V D V' h => by cases h) (fun f V h => absurd h (by omega)) l V h
  | succ n ih =>
    intro l V h
    exact walkSels_ok (n := n + 1) (fun f V D V' h => findDepsDepth_good defs n _ _ _ _ h)
      (fun f V h => ih _ _ (by omega)) l V h

/-- the search never reaches its recursion bound -/
theorem findDeps_ok (defs : Dict FragDef) (l : List Sel) : ∃ D, findDeps defs l = .ok D := by
  obtain ⟨D, V', h⟩ := findDepsDepth_ok defs defs.length l [] (by
    unfold unvisited
    refine Nat.le_trans (List.length_filter_le _ _) ?_
    simp [Dict.keys])
  exact ⟨D, by simp [findDeps, h]⟩

theorem findDeps_mem {defs : Dict FragDef} {l : List Sel} {D : List String} (h : findDeps defs l = .ok D)
    (f : String) : f ∈ D ↔ ReachF defs (SpreadsF l) f := by
  unfold findDeps at h
  split at h
  · cases h
  · rename_i d v hd
    cases h
    have hg := findDepsDepth_good defs _ _ _ _ _ hd
    constructor
    · exact hg.sound f
    · intro hr
      induction hr with
      | direct f hf => exact hg.cover f hf
      | through g d f _ hget hs ih =>
        obtain ⟨d', hd', hs'⟩ := hg.entered g (hg.closed g ih (by rw [hget]; rfl)) (by simp)
        rw [hget] at hd'
        cases hd'
        exact hs' f hs

theorem findDeps_nodup {defs : Dict FragDef} {l : List Sel} {D : List String} (h : findDeps defs l = .ok D) :
    D.Nodup := by
  unfold findDeps at h
  split at h
  · cases h
  · rename_i d v hd
    cases h
    exact (findDepsDepth_good defs _ _ _ _ _ hd).nodup

/-! ## fragment definitions -/

theorem fragmentDefinitions_get? (doc : Document) (d : Dict FragDef) (n : String) :
    (fragmentDefinitions doc d).get? n = (lookup (fragmentsOf doc) n).or (d.get? n) := by
  induction doc generalizing d with
  | nil => simp [fragmentDefinitions, fragmentsOf, lookup]
  | cons x doc ih =>
    cases x with
    | operation o => simpa [fragmentDefinitions, fragmentsOf, lookup] using ih d
    | fragment f =>
      simp only [fragmentDefinitions]
      rw [ih]
      simp only [fragmentsOf, lookup, List.filterMap_cons, List.reverse_cons, List.find?_append,
        List.find?_singleton, Dict.get?_set]
      rw [Option.or_assoc]
      congr 1
      by_cases h : f.name = n <;> simp [h]

theorem fragmentDefinitions_nodup (doc : Document) (d : Dict FragDef) (h : d.keys.Nodup) :
    (fragmentDefinitions doc d).keys.Nodup := by
  induction doc generalizing d with
  | nil => simpa [fragmentDefinitions]
  | cons x doc ih =>
    cases x with
    | operation o => exact ih d h
    | fragment f => exact ih _ (Dict.nodup_keys_set _ _ _ h)

theorem fragmentDefinitions_keys (doc : Document) (d : Dict FragDef) (n : String) :
    n ∈ (fragmentDefinitions doc d).keys ↔ n ∈ d.keys ∨ n ∈ (fragmentsOf doc).map (·.name) := by
  induction doc generalizing d with
  | nil => simp [fragmentDefinitions, fragmentsOf]
  | cons x doc ih =>
    cases x with
    | operation o => simpa [fragmentDefinitions, fragmentsOf] using ih d
    | fragment f =>
      simp only [fragmentDefinitions]
      rw [ih, Dict.mem_keys_set]
      simp only [fragmentsOf, List.filterMap_cons, List.map_cons, List.mem_cons]
      grind

theorem buildGraph_ok (defs : Dict FragDef) (l : List (String × FragDef)) : ∃ g, buildGraph defs l = .ok g := by
  induction l with
  | nil => exact ⟨_, rfl⟩
  | cons p l ih =>
    obtain ⟨n, f⟩ := p
    obtain ⟨g, hg⟩ := ih
    obtain ⟨D, hD⟩ := findDeps_ok defs f.sels
    simp only [buildGraph, hD, hg]
    exact ⟨_, rfl⟩

theorem buildGraph_keys {defs : Dict FragDef} {l : List (String × FragDef)} {g : Dict (List String)}
    (h : buildGraph defs l = .ok g) : g.keys = l.map (·.1) := by
  induction l generalizing g with
  | nil => cases h; rfl
  | cons p l ih =>
    obtain ⟨n, f⟩ := p
    simp only [buildGraph] at h
    split at h
    · cases h
    · split at h
      · cases h
      · rename_i g' hg'
        cases h
        simp only [Dict.keys, List.map_cons]
        rw [← ih hg']; rfl

theorem buildGraph_mem {defs : Dict FragDef} {l : List (String × FragDef)} {g : Dict (List String)}
    (h : buildGraph defs l = .ok g) {n : String} {deps : List String} (hm : (n, deps) ∈ g) :
    ∃ f, (n, f) ∈ l ∧ findDeps defs f.sels = .ok deps := by
  induction l generalizing g with
  | nil => cases h; cases hm
  | cons p l ih =>
    obtain ⟨m, f⟩ := p
    simp only [buildGraph] at h
    split at h
    · cases h
    · rename_i D hD
      split at h
      · cases h
      · rename_i g' hg'
        cases h
        rcases List.mem_cons.1 hm with he | hm'
        · cases he
          exact ⟨f, List.mem_cons_self, hD⟩
        · obtain ⟨f', hf', hd⟩ := ih hg' hm'
          exact ⟨f', List.mem_cons_of_mem _ hf', hd⟩

end Turms.Fragments
