import Verif.Lemmas.MergeBody

namespace Turms.Merge
open Turms.Merge.Spec

theorem retrieve_eq (s : List Small) : retrieveSymbolName s = annotatedName s := by
  induction s with
  | nil => rfl
  | cons a s ih => cases a <;> simp [retrieveSymbolName, annotatedName, ih]

theorem memberKey_eq (n : Node) : memberKey n = memberName n := by
  cases n <;> simp [memberKey, memberName, retrieve_eq]

theorem memberKey_eq' : memberKey = memberName := funext memberKey_eq

theorem topKey_eq (n : Node) : topKey n = topName n := by cases n <;> rfl
theorem topKey_eq' : topKey = topName := funext topKey_eq

theorem bodyOf_eq (n : Node) : bodyOf n = members n := by cases n <;> rfl

theorem member_hkey : ∀ x n m k, memberKey x = some k → memberKey n = some k → mergeMember x n = .ok m →
    memberKey m = some k := by
  intro x n m k hx hn hm
  cases n <;> cases x <;> simp [mergeMember, memberKey] at * <;> (try cases hm) <;> simp_all

theorem top_hkey : ∀ x n m k, topKey x = some k → topKey n = some k → mergeTop x n = .ok m →
    topKey m = some k := by
  intro x n m k hx hn hm
  cases n with
  | cls name head body =>
    simp only [mergeTop, mergeClass] at hm
    split at hm <;> cases hm
    simpa [topKey] using hn
  | fn name head body =>
    simp only [mergeTop, mergeFunctions] at hm
    cases x <;> simp [topKey] at hx <;> cases hm <;> simp [topKey, hx]
  | line => simp [topKey] at hn
  | other => simp [topKey] at hn

theorem stepTo_member (gen : List Node) (n m : Node)
    (h : StepTo memberKey mergeMember (collect memberKey gen []) n m) : KeptMember gen n m := by
  cases h with
  | keep hno e =>
    subst e
    refine .verbatim m ?_
    intro k hk g hg hgk
    have := hno k (by rw [memberKey_eq]; exact hk)
    rw [Dict.get?_eq_none_iff] at this
    exact this ((mem_keys_collect ..).2 (.inl ⟨g, hg, by rw [memberKey_eq]; exact hgk⟩))
  | merged k x hk hx hm =>
    rcases get?_collect memberKey gen [] k x hx with ⟨hxk, hxg⟩ | h
    · cases n with
      | cls => simp [memberKey] at hk
      | other => simp [memberKey] at hk
      | fn name head body =>
        cases x <;> simp [mergeMember] at hm
        rename_i xn xh xb
        subst hm
        simp [memberKey] at hk hxk
        subst hk; subst hxk
        exact .method xn head xh body xb hxg
      | line t s =>
        cases x <;> simp [mergeMember] at hm
        rename_i xt xs
        subst hm
        simp [memberKey, retrieve_eq] at hk hxk
        exact .attribute k t xt s xs hk hxk hxg
    · simp [Dict.get?] at h

theorem pointwise_of_index {α : Type} {R : α → α → Prop} {as bs : List α} (hl : bs.length = as.length)
    (h : ∀ (i : Nat) a b, as[i]? = some a → bs[i]? = some b → R a b) : Pointwise R as bs := by
  induction as generalizing bs with
  | nil => simp at hl; subst hl; exact .nil
  | cons a as ih =>
    cases bs with
    | nil => simp at hl
    | cons b bs =>
      refine .cons (h 0 a b (by simp) (by simp)) (ih (by simpa using hl) ?_)
      intro i x y hx hy
      exact h (i + 1) x y (by simpa using hx) (by simpa using hy)

theorem mergeMembers_keeps (gen ex r : List Node) (h : mergeBody memberKey mergeMember gen ex = .ok r) :
    ∃ kept, Pointwise (KeptMember gen) ex kept ∧ kept.Sublist r := by
  obtain ⟨nb, _, _, _, hl, hst, hsub, _⟩ := mergeBody_spec memberKey mergeMember member_hkey gen ex r h
  exact ⟨nb, pointwise_of_index hl (fun i a b ha hb => stepTo_member gen a b (hst i a b ha hb)), hsub⟩

theorem stepTo_top (gen ex : List Node) (hk : SameKinds ex gen) (n m : Node) (hn : n ∈ ex)
    (h : StepTo topKey mergeTop (collect topKey gen []) n m) : KeptTop gen n m := by
  cases h with
  | keep hno e =>
    subst e
    refine .verbatim m ?_
    intro k hk g hg hgk
    have := hno k (by rw [topKey_eq]; exact hk)
    rw [Dict.get?_eq_none_iff] at this
    exact this ((mem_keys_collect ..).2 (.inl ⟨g, hg, by rw [topKey_eq]; exact hgk⟩))
  | merged k x hkn hx hm =>
    rcases get?_collect topKey gen [] k x hx with ⟨hxk, hxg⟩ | h
    · have hkinds := hk n hn x hxg (by rw [← topKey_eq, ← topKey_eq, hkn, hxk])
      cases n with
      | line => simp [topKey] at hkn
      | other => simp [topKey] at hkn
      | fn name head body =>
        cases x with
        | cls => simp at hkinds
        | line => simp [topKey] at hxk
        | other => simp [topKey] at hxk
        | fn xn xh xb =>
          simp [mergeTop, mergeFunctions, bodyOf] at hm
          subst hm
          simp [topKey] at hkn hxk
          subst hkn; subst hxk
          exact .function xn head xh body xb hxg
      | cls name head body =>
        cases x with
        | fn => simp at hkinds
        | line => simp [topKey] at hxk
        | other => simp [topKey] at hxk
        | cls xn xh xb =>
          simp only [mergeTop, mergeClass, bodyOf] at hm
          split at hm
          · cases hm
          · rename_i b hb
            cases hm
            simp [topKey] at hkn hxk
            subst hkn; subst hxk
            obtain ⟨kept, h1, h2⟩ := mergeMembers_keeps _ _ _ hb
            exact .class_ xn head body b kept xb xh hxg h1 h2
    · simp [Dict.get?] at h

theorem mergeMember_idem (x n m : Node) (h : mergeMember x n = .ok m) : mergeMember x m = .ok m := by
  cases n <;> cases x <;> simp [mergeMember] at h <;> (subst h; simp [mergeMember])

theorem mergeMember_self (x : Node) : mergeMember x x = .ok x := by
  cases x <;> simp [mergeMember]

theorem collect_get_unique {α : Type} (key : α → Option String) (gen : List α) (hn : (gen.filterMap key).Nodup)
    (n : α) (hmem : n ∈ gen) (k : String) (x : α) (hk : key n = some k)
    (hx : (collect key gen []).get? k = some x) : x = n := by
  rw [collect_of_nodup key gen [] hn (by simp [Dict.keys])] at hx
  simp only [List.nil_append] at hx
  have hkeys : Dict.keys (gen.filterMap (fun n => (key n).map (fun k => (k, n)))) = gen.filterMap key := by
    clear hx hmem hn
    induction gen with
    | nil => rfl
    | cons a gen ih =>
      cases ha : key a with
      | none =>
        rw [List.filterMap_cons_none (by simp [ha]), List.filterMap_cons_none ha]; exact ih
      | some k' =>
        rw [List.filterMap_cons_some (b := (k', a)) (by simp [ha]), List.filterMap_cons_some ha]
        simp only [Dict.keys, List.map_cons] at ih ⊢
        rw [ih]
  have := Dict.get?_of_mem_nodup (d := gen.filterMap (fun n => (key n).map (fun k => (k, n))))
    (by rw [hkeys]; exact hn) (k := k) (v := n)
    (List.mem_filterMap.2 ⟨n, hmem, by simp [hk]⟩)
  rw [this] at hx; cases hx; rfl

section
variable {α : Type}

/-- statements of the generated file whose name is new are inserted exactly once, nothing else is added -/
theorem mergeBody_new (key : α → Option String) (merge : α → α → Except Err α)
    (hkey : ∀ x n m k, key x = some k → key n = some k → merge x n = .ok m → key m = some k)
    (gen ex r : List α) (hnd : (gen.filterMap key).Nodup) (h : mergeBody key merge gen ex = .ok r) :
    ∃ kept new, r.Perm (kept ++ new) ∧ kept.length = ex.length ∧
      new.Perm (gen.filter (fun g => match key g with
        | some k => decide (k ∉ ex.filterMap key)
        | none => false)) := by
  obtain ⟨nb, before, rest, ins, hl, hst, hsub, hp, hins, hr, hx1, hx2⟩ :=
    mergeBody_spec key merge hkey gen ex r h
  refine ⟨nb, ins, hr, hl, ?_⟩
  have e1 := lookupAll_eq _ _ _ hins
  have hperm : (ins.map some).Perm (((collect key gen []).keys.filter (fun k =>
      !(ex.filterMap (implKey key (collect key gen []))).contains k)).map
      (collect key gen []).get?) := by
    rw [← e1]; exact hp.map _
  have hcollect := collect_of_nodup key gen [] hnd (by simp [Dict.keys])
  have hmem : ∀ k ∈ (collect key gen []).keys,
      ((ex.filterMap (implKey key (collect key gen []))).contains k = true ↔
        k ∈ ex.filterMap key) := by
    intro k hk
    simp only [List.contains_iff_mem, List.mem_filterMap, implKey_eq_some]
    constructor
    · rintro ⟨a, h1, h2, _⟩; exact ⟨a, h1, h2⟩
    · rintro ⟨a, h1, h2⟩; exact ⟨a, h1, h2, hk⟩
  have hfinal : ((collect key gen []).keys.filter (fun k =>
      !(ex.filterMap (implKey key (collect key gen []))).contains k)).map
      (collect key gen []).get? =
      (gen.filter (fun g => match key g with
        | some k => decide (k ∉ ex.filterMap key)
        | none => false)).map some := by
    have hflt : (collect key gen []).keys.filter (fun k =>
        !(ex.filterMap (implKey key (collect key gen []))).contains k) =
        (collect key gen []).keys.filter (fun k =>
          decide (k ∉ ex.filterMap key)) := by
      apply List.filter_congr
      intro k hk
      have := hmem k hk
      by_cases hc : k ∈ ex.filterMap key
      · rw [this.2 hc]; simp only [hc, not_true_eq_false, decide_false, Bool.not_true]
      · have h2 : (ex.filterMap (implKey key (collect key gen []))).contains k = false := by
          by_cases h3 : (ex.filterMap (implKey key (collect key gen []))).contains k = true
          · exact absurd (this.1 h3) hc
          · simpa using h3
        rw [h2]; simp [hc]
    rw [hflt]
    have hget : ∀ g ∈ gen, ∀ k, key g = some k →
        (collect key gen []).get? k = some g := by
      intro g hg k hk
      have hk1 : k ∈ (collect key gen []).keys :=
        (mem_keys_collect ..).2 (.inl ⟨g, hg, hk⟩)
      obtain ⟨x, hx⟩ := Option.isSome_iff_exists.1 ((Dict.get?_isSome_iff _ _).2 hk1)
      rw [hx, collect_get_unique key gen hnd g hg k x
        hk hx]
    have hkeys : (collect key gen []).keys = gen.filterMap key := by
      rw [hcollect]
      simp only [List.nil_append]
      clear hget hflt hmem hcollect hperm e1 hr hins hp hst hsub hl h hnd hx1 hx2
      induction gen with
      | nil => rfl
      | cons a l ih =>
        cases ha : key a with
        | none => rw [List.filterMap_cons_none (by simp [ha]), List.filterMap_cons_none ha]; exact ih
        | some k =>
          rw [List.filterMap_cons_some (b := (k, a)) (by simp [ha]), List.filterMap_cons_some ha]
          simp only [Dict.keys, List.map_cons] at ih ⊢
          rw [ih]
    rw [hkeys]
    clear hkeys hflt hmem hcollect hperm e1 hr hins hp hst hsub hl h hnd hx1 hx2
    generalize (collect key gen []).get? = f at hget ⊢
    generalize gen = l at hget ⊢
    induction l with
    | nil => rfl
    | cons a l ih =>
      have ih' := ih (fun g hg => hget g (by simp [hg]))
      cases ha : key a with
      | none =>
        rw [List.filterMap_cons_none ha, ih', List.filter_cons]
        simp [ha]
      | some k =>
        rw [List.filterMap_cons_some ha, List.filter_cons, List.filter_cons]
        by_cases hc : k ∈ ex.filterMap key
        · simp only [hc, not_true_eq_false, decide_false, Bool.false_eq_true, if_false, ha]
          exact ih'
        · simp only [hc, not_false_eq_true, decide_true, if_true, ha, List.map_cons]
          rw [hget a (by simp) k ha, ih']
  rw [hfinal] at hperm
  have := hperm.filterMap id
  simpa using this
end

theorem mergeMembers_self (b : List Node) (hn : (b.filterMap memberName).Nodup) :
    mergeBody memberKey mergeMember b b = .ok b := by
  refine mergeBody_fix memberKey mergeMember member_hkey b b ?_ ?_
  · intro k hk
    rcases (mem_keys_collect ..).1 hk with h | h
    · exact h
    · simp [Dict.keys] at h
  · intro n hn' k x hk hx
    have := collect_get_unique memberKey b (by rw [memberKey_eq']; exact hn) n hn' k x hk hx
    subst this
    exact mergeMember_self x

theorem mergeMembers_idem (gen ex r : List Node) (h : mergeBody memberKey mergeMember gen ex = .ok r) :
    mergeBody memberKey mergeMember gen r = .ok r :=
  mergeBody_idem memberKey mergeMember member_hkey gen ex r h
    (fun _ x n m _ _ _ hm => mergeMember_idem x n m hm) (fun _ x _ _ => mergeMember_self x)

end Turms.Merge
