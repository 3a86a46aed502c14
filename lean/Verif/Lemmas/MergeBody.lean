import Verif.Lemmas.Merge
import Verif.Spec.Merge

namespace Turms.Merge
open Turms.Merge.Spec
variable {α : Type}

/-- Everything we need to know about a successful `mergeBody`. -/
theorem mergeBody_spec (key : α → Option String) (merge : α → α → Except Err α)
    (hkey : ∀ x n m k, key x = some k → key n = some k → merge x n = .ok m → key m = some k)
    (gen ex r : List α) (h : mergeBody key merge gen ex = .ok r) :
    ∃ (nb : List α) (before : List (Nat × String)) (rest : List String) (ins : List α), nb.length = ex.length ∧
      (∀ (i : Nat) n m, ex[i]? = some n → nb[i]? = some m → StepTo key merge (collect key gen []) n m) ∧
      nb.Sublist r ∧
      (before.map (·.2) ++ rest).Perm
        ((collect key gen []).keys.filter (fun k => !(ex.filterMap (implKey key (collect key gen []))).contains k)) ∧
      lookupAll (collect key gen []) (before.map (·.2) ++ rest) = .ok ins ∧
      r.Perm (nb ++ ins) ∧
      -- where a missing symbol goes
      (∀ i k, (i, k) ∈ before → ∃ e x A M node B, e ∈ ex.filterMap (implKey key (collect key gen [])) ∧
        (collect key gen []).get? k = some x ∧ key node = some e ∧ r = A ++ x :: M ++ node :: B ∧
        (∀ y ∈ M, ∃ k' ∈ before.map (·.2), (collect key gen []).get? k' = some y) ∧
        (∃ a b, (collect key gen []).keys = a ++ k :: b ∧ e ∉ a ∧ e ≠ k) ∧
        ∃ pre post, ex.filterMap (implKey key (collect key gen [])) = pre ++ e :: post ∧
          ∀ e' ∈ pre, ¬ ∃ a b, (collect key gen []).keys = a ++ k :: b ∧ e' ∉ a ∧ e' ≠ k) ∧
      (∀ k ∈ rest, (∀ e ∈ ex.filterMap (implKey key (collect key gen [])),
          ¬ ∃ a b, (collect key gen []).keys = a ++ k :: b ∧ e ∉ a ∧ e ≠ k) ∧
        ∃ x A M B, (collect key gen []).get? k = some x ∧ r = A ++ M ++ x :: B ∧
          (∀ y ∈ M, ∃ k' ∈ rest, (collect key gen []).get? k' = some y) ∧
          match (ex.filterMap (implKey key (collect key gen []))).getLast? with
          | some e => ∃ A' node, A = A' ++ [node] ∧ key node = some e
          | none => A = nb ∧ ∀ n, n ∈ B → ∃ k' ∈ rest, (collect key gen []).get? k' = some n) := by
  unfold mergeBody at h
  simp only at h
  generalize hsym : collect key gen [] = symbols at h ⊢
  have hsymkey : ∀ k x, symbols.get? k = some x → key x = some k := by
    intro k x hx
    rw [← hsym] at hx
    rcases get?_collect key gen [] k x hx with h | h
    · exact h.1
    · simp [Dict.get?] at h
  have hnodup : symbols.keys.Nodup := by
    rw [← hsym]; exact nodup_collect key gen [] (by simp [Dict.keys])
  split at h
  · cases h
  · rename_i s hs
    obtain ⟨⟨nb, h1, hl, h2⟩, h3, h4⟩ := loop_spec key merge symbols
      (fun x n m k hk hx hm => hkey x n m k (hsymkey k x hx) hk hm) ex ⟨[], [], []⟩ s hs (by simp)
    simp only [List.nil_append] at h1 h3
    split at h
    · cases h
    · rename_i before rest hplace
      rw [h3] at hplace h4 h
      obtain ⟨p1, p2, p3⟩ := place_spec symbols.keys s.position _ _
        (hnodup.filter _) before rest hplace
      have hbk : ∀ p ∈ before, p.2 ∈ symbols.keys := by
        intro p hp
        have := p1.subset (List.mem_append_left rest (List.mem_map_of_mem (f := (·.2)) hp))
        exact (List.mem_filter.1 this).1
      have hrk : ∀ k ∈ rest, k ∈ symbols.keys := by
        intro k hk
        have := p1.subset (List.mem_append_right (before.map (·.2)) hk)
        exact (List.mem_filter.1 this).1
      obtain ⟨ins, hins⟩ := lookupAll_ok symbols (before.map (·.2) ++ rest) (by
        intro k hk
        rcases List.mem_append.1 hk with hk | hk
        · obtain ⟨p, hp, rfl⟩ := List.mem_map.1 hk
          exact hbk p hp
        · exact hrk k hk)
      have hpos : ∀ p ∈ before, p.1 < s.newBody.length := by
        rintro ⟨i, k⟩ hp
        obtain ⟨pre, e, post, he, hpe, _⟩ := p2 i k hp
        obtain ⟨j, m, hj1, hj2, _⟩ := h4 e (by rw [he]; simp)
        rw [hpe] at hj1; cases hj1
        exact (List.getElem?_eq_some_iff.1 hj2).1
      have hbeforeAll : (inserted before none 0 s.newBody.length).Perm (before.map (·.2)) := by
        have := count_inserted_before before 0 s.newBody.length
        have hf : before.filter (fun p => decide (0 ≤ p.1) && decide (p.1 < 0 + s.newBody.length)) = before := by
          rw [List.filter_eq_self]; intro p hp; simp [hpos p hp]
        rw [hf] at this; exact this
      -- permuted keys give permuted nodes
      have lookup_perm : ∀ (a b : List String) (x y : List α), a.Perm b → lookupAll symbols a = .ok x →
          lookupAll symbols b = .ok y → x.Perm y := by
        intro a b x y hp hx hy
        have e1 := lookupAll_eq symbols a x hx
        have e2 := lookupAll_eq symbols b y hy
        have : (x.map some).Perm (y.map some) := by rw [← e1, ← e2]; exact hp.map _
        have := this.filterMap id
        simpa using this
      -- the placement before an existing symbol
      have hbef : ∀ (after : Option (Nat × List String)) (r0 : List α) (tail : List α),
          weave symbols before after 0 s.newBody = .ok r0 → r = r0 ++ tail →
          ∀ i k, (i, k) ∈ before → ∃ e x A M node B, e ∈ ex.filterMap (implKey key symbols) ∧
            symbols.get? k = some x ∧ key node = some e ∧ r = A ++ x :: M ++ node :: B ∧
            (∀ y ∈ M, ∃ k' ∈ before.map (·.2), symbols.get? k' = some y) ∧
            (∃ a b, symbols.keys = a ++ k :: b ∧ e ∉ a ∧ e ≠ k) ∧
            ∃ pre post, ex.filterMap (implKey key symbols) = pre ++ e :: post ∧
              ∀ e' ∈ pre, ¬ ∃ a b, symbols.keys = a ++ k :: b ∧ e' ∉ a ∧ e' ≠ k := by
        intro after r0 tail hw hr i k hik
        obtain ⟨pre, e, post, he, hpe, hbe, hfirst⟩ := p2 i k hik
        obtain ⟨j, node, hj1, hj2, hj3⟩ := h4 e (by rw [he]; simp)
        rw [hpe] at hj1; cases hj1
        obtain ⟨A, pn, postn, B, hr0, hl1, _⟩ := weave_at symbols before after 0 i s.newBody r0 node hw hj2
        have hkmem : k ∈ (before.filter (fun p => p.1 == 0 + i)).map (·.2) := by
          apply List.mem_map.2
          exact ⟨(i, k), List.mem_filter.2 ⟨hik, by simp⟩, rfl⟩
        obtain ⟨ka, kb, hkab⟩ := List.append_of_mem hkmem
        have hmap := lookupAll_eq symbols _ pn hl1
        rw [hkab] at hmap
        simp only [List.map_append, List.map_cons] at hmap
        obtain ⟨pa, pb', hpn, hpa, hpb⟩ := List.append_eq_map_iff.1 hmap
        cases pb' with
        | nil => simp at hpb
        | cons x pb =>
          simp only [List.map_cons, List.cons.injEq] at hpb
          refine ⟨e, x, A ++ pa, pb, node, postn ++ B ++ tail, by rw [he]; simp, hpb.1.symm, hj3, ?_, ?_, hbe,
            pre, post, he, hfirst⟩
          · rw [hr, hr0, hpn]; simp
          · intro y hy
            have : some y ∈ kb.map symbols.get? := by rw [← hpb.2]; exact List.mem_map_of_mem hy
            obtain ⟨k', hk', hke⟩ := List.mem_map.1 this
            refine ⟨k', ?_, hke⟩
            have : k' ∈ (before.filter (fun p => p.1 == 0 + i)).map (·.2) := by rw [hkab]; simp [hk']
            obtain ⟨p, hp, rfl⟩ := List.mem_map.1 this
            exact List.mem_map_of_mem (f := (·.2)) (List.mem_filter.1 hp).1
      split at h
      · -- some implemented symbol exists
        rename_i lastKey hlast
        split at h
        · cases h
        · rename_i p hp
          have hp' : s.position.get? lastKey = some p := by
            unfold Dict.get at hp; split at hp <;> cases hp; assumption
          obtain ⟨j, node, hj1, hj2, hj3⟩ := h4 lastKey (List.mem_of_getLast? hlast)
          rw [hp'] at hj1; cases hj1
          have hjlt := (List.getElem?_eq_some_iff.1 hj2).1
          obtain ⟨ins', hi1, hi2⟩ := weave_perm symbols before (some (p, rest)) 0 s.newBody r h
          have hperm : (inserted before (some (p, rest)) 0 s.newBody.length).Perm (before.map (·.2) ++ rest) :=
            (inserted_after before p rest 0 s.newBody.length ⟨by omega, by omega⟩).trans
              (hbeforeAll.append_right rest)
          refine ⟨nb, before, rest, ins, hl, h2, ?_, p1, hins, ?_, hbef _ r [] h (by simp), ?_⟩
          · rw [← h1]; exact weave_sublist symbols before _ 0 s.newBody r h
          · rw [← h1]
            exact hi2.trans (List.Perm.append_left _ (lookup_perm _ _ _ _ hperm hi1 hins))
          · intro k hk
            refine ⟨p3 k hk, ?_⟩
            obtain ⟨A, pn, postn, B, hr0, _, hl2⟩ := weave_at symbols before _ 0 p s.newBody r node h hj2
            simp only [afterAt, Nat.zero_add, if_true] at hl2
            obtain ⟨ka, kb, hkab⟩ := List.append_of_mem hk
            have hmap := lookupAll_eq symbols _ postn hl2
            rw [hkab] at hmap
            simp only [List.map_append, List.map_cons] at hmap
            obtain ⟨pa, pb', hpn, hpa, hpb⟩ := List.append_eq_map_iff.1 hmap
            cases pb' with
            | nil => simp at hpb
            | cons x pb =>
              simp only [List.map_cons, List.cons.injEq] at hpb
              refine ⟨x, A ++ pn ++ [node], pa, pb ++ B, hpb.1.symm, ?_, ?_, ?_⟩
              · rw [hr0, hpn]; simp
              · intro y hy
                have : some y ∈ ka.map symbols.get? := by rw [← hpa]; exact List.mem_map_of_mem hy
                obtain ⟨k', hk', hke⟩ := List.mem_map.1 this
                exact ⟨k', by rw [hkab]; simp [hk'], hke⟩
              · rw [hlast]
                exact ⟨A ++ pn, node, rfl, hj3⟩
      · -- nothing of the generated file existed
        rename_i hlast
        split at h
        · cases h
        · rename_i b hb
          split at h
          · cases h
          · rename_i tail htail
            cases h
            have himpl : ex.filterMap (implKey key symbols) = [] := List.getLast?_eq_none_iff.1 hlast
            obtain ⟨ins', hi1, hi2⟩ := weave_perm symbols before none 0 s.newBody b hb
            have hbnil : before = [] := by
              cases before with
              | nil => rfl
              | cons q qs =>
                obtain ⟨i, k⟩ := q
                obtain ⟨pre, e, post, he, _⟩ := p2 i k (by simp)
                rw [himpl] at he; simp at he
            subst hbnil
            have hbnb : b = s.newBody := by
              have := weave_id symbols none (by intro i; rfl) 0 s.newBody
              rw [this] at hb; cases hb; rfl
            refine ⟨nb, [], rest, ins, hl, h2, ?_, p1, hins, ?_, by simp, ?_⟩
            · rw [← h1, hbnb]; exact List.sublist_append_left _ _
            · simp only [List.map_nil, List.nil_append] at hins
              rw [hins] at htail; cases htail
              rw [hbnb, h1]
            · intro k hk
              refine ⟨p3 k hk, ?_⟩
              obtain ⟨ka, kb, hkab⟩ := List.append_of_mem hk
              have hmap := lookupAll_eq symbols _ tail htail
              rw [hkab] at hmap
              simp only [List.map_append, List.map_cons] at hmap
              obtain ⟨pa, pb', hpn, hpa, hpb⟩ := List.append_eq_map_iff.1 hmap
              cases pb' with
              | nil => simp at hpb
              | cons x pb =>
                simp only [List.map_cons, List.cons.injEq] at hpb
                refine ⟨x, nb, pa, pb, hpb.1.symm, ?_, ?_, ?_⟩
                · rw [hbnb, h1, hpn]; simp
                · intro y hy
                  have : some y ∈ ka.map symbols.get? := by rw [← hpa]; exact List.mem_map_of_mem hy
                  obtain ⟨k', hk', hke⟩ := List.mem_map.1 this
                  exact ⟨k', by rw [hkab]; simp [hk'], hke⟩
                · rw [himpl]
                  refine ⟨rfl, ?_⟩
                  intro n hn
                  have : some n ∈ kb.map symbols.get? := by rw [← hpb.2]; exact List.mem_map_of_mem hn
                  obtain ⟨k', hk', hke⟩ := List.mem_map.1 this
                  exact ⟨k', by rw [hkab]; simp [hk'], hke⟩

/-- if every generated symbol exists, and merging fixes every existing statement, the merge is the
identity -/
theorem mergeBody_fix (key : α → Option String) (merge : α → α → Except Err α)
    (hkey : ∀ x n m k, key x = some k → key n = some k → merge x n = .ok m → key m = some k)
    (gen ex : List α)
    (hall : ∀ k ∈ (collect key gen []).keys, ∃ n ∈ ex, key n = some k)
    (hfix : ∀ n ∈ ex, ∀ k x, key n = some k → (collect key gen []).get? k = some x → merge x n = .ok n) :
    mergeBody key merge gen ex = .ok ex := by
  unfold mergeBody
  simp only
  generalize hsym : collect key gen [] = symbols at hall hfix ⊢
  have hsymkey : ∀ k x, symbols.get? k = some x → key x = some k := by
    intro k x hx
    rw [← hsym] at hx
    rcases get?_collect key gen [] k x hx with h | h
    · exact h.1
    · simp [Dict.get?] at h
  have hloop : ∀ (l : List α) (s : Loop α), (∀ n ∈ l, n ∈ ex) →
      ∃ s', loop key merge symbols l s = .ok s' ∧ s'.newBody = s.newBody ++ l := by
    intro l
    induction l with
    | nil => intro s _; exact ⟨s, rfl, by simp⟩
    | cons n l ih =>
      intro s hl
      unfold loop loopStep
      cases hk : key n with
      | none =>
        obtain ⟨s', h1, h2⟩ := ih { s with newBody := s.newBody ++ [n] } (fun a ha => hl a (by simp [ha]))
        exact ⟨s', h1, by rw [h2]; simp⟩
      | some k =>
        simp only
        cases hg : symbols.get? k with
        | none =>
          obtain ⟨s', h1, h2⟩ := ih { s with newBody := s.newBody ++ [n] } (fun a ha => hl a (by simp [ha]))
          exact ⟨s', h1, by rw [h2]; simp⟩
        | some x =>
          simp only [hfix n (hl n (by simp)) k x hk hg]
          obtain ⟨s', h1, h2⟩ := ih ⟨s.newBody ++ [n], s.implemented ++ [k], s.position.set k s.newBody.length⟩
            (fun a ha => hl a (by simp [ha]))
          exact ⟨s', h1, by rw [h2]; simp⟩
  obtain ⟨s, hs, hnb⟩ := hloop ex ⟨[], [], []⟩ (fun n hn => hn)
  simp only [List.nil_append] at hnb
  obtain ⟨_, h3, h4⟩ := loop_spec key merge symbols
      (fun x n m k hk hx hm => hkey x n m k (hsymkey k x hx) hk hm) ex ⟨[], [], []⟩ s hs (by simp)
  simp only [List.nil_append] at h3
  rw [hs]
  have hmiss : symbols.keys.filter (fun k => !s.implemented.contains k) = [] := by
    rw [List.filter_eq_nil_iff]
    intro k hk
    obtain ⟨n, hn, hkn⟩ := hall k hk
    simp only [Bool.not_eq_true', Bool.not_eq_false, List.contains_iff_mem]
    rw [h3, List.mem_filterMap]
    exact ⟨n, hn, (implKey_eq_some ..).2 ⟨hkn, hk⟩⟩
  have hpos : ∀ e ∈ s.implemented, ∃ i, s.position.get? e = some i := by
    intro e he
    obtain ⟨i, m, h, _⟩ := h4 e he
    exact ⟨i, h⟩
  simp only
  rw [hmiss, place_nil symbols.keys s.position s.implemented hpos]
  simp only
  split
  · rename_i lk hlk
    obtain ⟨i, hi⟩ := hpos lk (List.mem_of_getLast? hlk)
    simp only [Dict.get, hi]
    rw [weave_id symbols _ (by intro j; simp [afterAt]), hnb]
  · rw [weave_id symbols _ (by intro j; rfl)]
    simp [lookupAll, hnb]

/-- what a second merge sees: every generated symbol is there -/
theorem mergeBody_all_present (key : α → Option String) (merge : α → α → Except Err α)
    (hkey : ∀ x n m k, key x = some k → key n = some k → merge x n = .ok m → key m = some k)
    (gen ex r : List α) (h : mergeBody key merge gen ex = .ok r) :
    ∀ k ∈ (collect key gen []).keys, ∃ n ∈ r, key n = some k := by
  obtain ⟨nb, before, rest, ins, hl, hst, hsub, hp, hins, hr, _, _⟩ := mergeBody_spec key merge hkey gen ex r h
  intro k hk
  have hsymkey : ∀ k x, (collect key gen []).get? k = some x → key x = some k := by
    intro k x hx
    rcases get?_collect key gen [] k x hx with h | h
    · exact h.1
    · simp [Dict.get?] at h
  by_cases hex : k ∈ ex.filterMap (implKey key (collect key gen []))
  · obtain ⟨n, hn, hkn⟩ := List.mem_filterMap.1 hex
    obtain ⟨hkn, _⟩ := (implKey_eq_some ..).1 hkn
    obtain ⟨i, hi⟩ := List.mem_iff_getElem?.1 hn
    have : i < nb.length := by rw [hl]; exact (List.getElem?_eq_some_iff.1 hi).1
    have hm := List.getElem?_eq_getElem this
    refine ⟨nb[i], hsub.subset (List.getElem_mem this), ?_⟩
    cases hst i n nb[i] hi hm with
    | keep _ e => rw [e]; exact hkn
    | merged k' x hk' hx hm' =>
      rw [hkn] at hk'; cases hk'
      exact hkey x n _ k (hsymkey k x hx) hkn hm'
  · have : k ∈ before.map (·.2) ++ rest := hp.symm.subset (List.mem_filter.2 ⟨hk, by simpa using hex⟩)
    have e1 := lookupAll_eq _ _ _ hins
    have : (collect key gen []).get? k ∈ (before.map (·.2) ++ rest).map (collect key gen []).get? :=
      List.mem_map_of_mem this
    rw [e1] at this
    obtain ⟨x, hx, hxe⟩ := List.mem_map.1 this
    exact ⟨x, hr.symm.subset (by simp [hx]), hsymkey k x hxe.symm⟩

/-- every statement of the result is either a kept/merged existing one or a generated one -/
theorem mergeBody_origin (key : α → Option String) (merge : α → α → Except Err α)
    (hkey : ∀ x n m k, key x = some k → key n = some k → merge x n = .ok m → key m = some k)
    (gen ex r : List α) (h : mergeBody key merge gen ex = .ok r) (m : α) (hm : m ∈ r) :
    (∃ n ∈ ex, StepTo key merge (collect key gen []) n m) ∨
    (∃ k, (collect key gen []).get? k = some m ∧ ∀ n ∈ ex, key n ≠ some k) := by
  obtain ⟨nb, before, rest, ins, hl, hst, hsub, hp, hins, hr, _, _⟩ := mergeBody_spec key merge hkey gen ex r h
  rcases List.mem_append.1 (hr.subset hm) with hm | hm
  · left
    obtain ⟨i, hi⟩ := List.mem_iff_getElem?.1 hm
    have : i < ex.length := by rw [← hl]; exact (List.getElem?_eq_some_iff.1 hi).1
    exact ⟨ex[i], List.getElem_mem this, hst i _ _ (List.getElem?_eq_getElem this) hi⟩
  · right
    have e1 := lookupAll_eq _ _ _ hins
    have : some m ∈ (before.map (·.2) ++ rest).map (collect key gen []).get? := by
      rw [e1]; exact List.mem_map_of_mem hm
    obtain ⟨k, hk, hke⟩ := List.mem_map.1 this
    refine ⟨k, hke, ?_⟩
    intro n hn hkn
    have := (List.mem_filter.1 (hp.subset hk))
    simp only [Bool.not_eq_true', List.contains_eq_mem, decide_eq_false_iff_not] at this
    apply this.2
    exact List.mem_filterMap.2 ⟨n, hn, (implKey_eq_some ..).2 ⟨hkn, this.1⟩⟩

/-- merging a second time changes nothing, if merging is idempotent on single statements and inserted
statements merge with themselves -/
theorem mergeBody_idem (key : α → Option String) (merge : α → α → Except Err α)
    (hkey : ∀ x n m k, key x = some k → key n = some k → merge x n = .ok m → key m = some k)
    (gen ex r : List α) (h : mergeBody key merge gen ex = .ok r)
    (hidem : ∀ k x n m, n ∈ ex → key n = some k → (collect key gen []).get? k = some x → merge x n = .ok m →
      merge x m = .ok m)
    (hself : ∀ k x, (collect key gen []).get? k = some x → (∀ n ∈ ex, key n ≠ some k) → merge x x = .ok x) :
    mergeBody key merge gen r = .ok r := by
  have hsymkey : ∀ k x, (collect key gen []).get? k = some x → key x = some k := by
    intro k x hx
    rcases get?_collect key gen [] k x hx with h | h
    · exact h.1
    · simp [Dict.get?] at h
  refine mergeBody_fix key merge hkey gen r (mergeBody_all_present key merge hkey gen ex r h) ?_
  intro m hm k x hk hx
  rcases mergeBody_origin key merge hkey gen ex r h m hm with ⟨n, hn, hst⟩ | ⟨k', hk', hnew⟩
  · cases hst with
    | keep hno e => subst e; rw [hno k hk] at hx; cases hx
    | merged k' x' hk' hx' hm' =>
      have := hkey x' n m k' (hsymkey k' x' hx') hk' hm'
      rw [hk] at this; cases this
      rw [hx] at hx'; cases hx'
      exact hidem k x n m hn hk' hx hm'
  · have := hsymkey k' m hk'
    rw [hk] at this; cases this
    rw [hx] at hk'; cases hk'
    exact hself k _ hx hnew

end Turms.Merge
