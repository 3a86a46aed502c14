import Verif.Spec.Hierarchy
import Mathlib.Data.List.Forall2

/-! # The C3 merge -/

namespace Turms
open Spec

/-! ## number of steps -/

theorem c3Merge_more {n : Nat} : ∀ {m : Nat} {ls : List (List String)} {out : List String},
    c3Merge n ls = some out → out.length < m → c3Merge m ls = some out := by
  induction n with
  | zero => intro m ls out h; cases h
  | succ n ih =>
    intro m ls out h hm
    cases m with
    | zero => cases hm
    | succ m =>
      unfold c3Merge at h ⊢
      split
      · rename_i he; rw [if_pos he] at h; exact h
      · rename_i he
        rw [if_neg he] at h
        split at h
        · cases h
        · rename_i x hx
          cases hr : c3Merge n (c3Drop x ls) with
          | none => rw [hr] at h; cases h
          | some out' =>
            rw [hr] at h
            cases h
            rw [ih hr (by simpa using hm)]
            rfl

theorem length_drop_le (h : String) (l : List String) :
    (if l.head? = some h then l.tail else l).length ≤ l.length := by
  split
  · simp
  · exact Nat.le_refl _

theorem sum_drop_le (h : String) (ls : List (List String)) :
    ((c3Drop h ls).map List.length).sum ≤ (ls.map List.length).sum := by
  induction ls with
  | nil => exact Nat.le_refl _
  | cons l ls ih =>
    simp only [c3Drop, List.map_cons, List.sum_cons] at ih ⊢
    exact Nat.add_le_add (length_drop_le h l) ih

theorem sum_drop_lt {h : String} {ls : List (List String)} (hm : h ∈ ls.filterMap List.head?) :
    ((c3Drop h ls).map List.length).sum < (ls.map List.length).sum := by
  induction ls with
  | nil => cases hm
  | cons l ls ih =>
    have h1 := sum_drop_le h ls
    have h2 := length_drop_le h l
    simp only [c3Drop, List.map_cons, List.sum_cons] at ih h1 ⊢
    rcases List.mem_filterMap.1 hm with ⟨l', hl', he⟩
    rcases List.mem_cons.1 hl' with rfl | hl'
    · cases l' with
      | nil => cases he
      | cons x l' =>
        cases he
        rw [if_pos (by rfl)]
        simp only [List.tail_cons, List.length_cons]
        omega
    · have := ih (List.mem_filterMap.2 ⟨l', hl', he⟩)
      omega

theorem c3Merge_length {n : Nat} : ∀ {ls : List (List String)} {out : List String},
    c3Merge n ls = some out → out.length ≤ (ls.map List.length).sum := by
  induction n with
  | zero => intro ls out h; cases h
  | succ n ih =>
    intro ls out h
    unfold c3Merge at h
    split at h
    · cases h; exact Nat.zero_le _
    · split at h
      · cases h
      · rename_i x hx
        cases hr : c3Merge n (c3Drop x ls) with
        | none => rw [hr] at h; cases h
        | some out' =>
          rw [hr] at h
          cases h
          have := ih hr
          have := sum_drop_lt (List.mem_of_find?_eq_some hx)
          simp only [List.length_cons]
          omega

/-- some number of steps gives the result -/
def Merges (ls : List (List String)) (out : List String) : Prop := ∃ n, c3Merge n ls = some out

theorem c3_iff {ls : List (List String)} {out : List String} : c3 ls = some out ↔ Merges ls out := by
  constructor
  · intro h; exact ⟨_, h⟩
  · rintro ⟨n, h⟩
    exact c3Merge_more h (Nat.lt_succ_of_le (c3Merge_length h))

theorem Merges.step {ls : List (List String)} {h : String} {out : List String} (hp : c3Pick ls = some h)
    (hm : Merges (c3Drop h ls) out) : Merges ls (h :: out) := by
  obtain ⟨n, hn⟩ := hm
  refine ⟨n + 1, ?_⟩
  have hne : ¬ ls.all List.isEmpty = true := by
    intro ha
    obtain ⟨l, hl, he⟩ := List.mem_filterMap.1 (List.mem_of_find?_eq_some hp)
    have := List.all_eq_true.1 ha l hl
    rw [List.isEmpty_iff] at this
    subst this
    cases he
  unfold c3Merge
  rw [if_neg hne, hp]
  dsimp only
  rw [hn]
  rfl

theorem Merges.empty {ls : List (List String)} (h : ∀ l ∈ ls, l = []) : Merges ls [] := by
  refine ⟨1, ?_⟩
  unfold c3Merge
  rw [if_pos (List.all_eq_true.2 fun l hl => by rw [h l hl]; rfl)]

theorem Merges.cases {ls : List (List String)} {out : List String} (h : Merges ls out) :
    ((∀ l ∈ ls, l = []) ∧ out = []) ∨ ∃ x rest, out = x :: rest ∧ c3Pick ls = some x ∧ Merges (c3Drop x ls) rest := by
  obtain ⟨n, h⟩ := h
  cases n with
  | zero => cases h
  | succ n =>
    unfold c3Merge at h
    split at h
    · rename_i ha
      cases h
      exact .inl ⟨fun l hl => List.isEmpty_iff.1 (List.all_eq_true.1 ha l hl), rfl⟩
    · split at h
      · cases h
      · rename_i x hx
        cases hr : c3Merge n (c3Drop x ls) with
        | none => rw [hr] at h; cases h
        | some out' =>
          rw [hr] at h
          cases h
          exact .inr ⟨x, out', rfl, hx, n, hr⟩

/-! ## what the merge contains -/

theorem mem_of_drop {h x : String} {ls : List (List String)} {l : List String} (hl : l ∈ c3Drop h ls) (hx : x ∈ l) :
    ∃ l' ∈ ls, x ∈ l' := by
  obtain ⟨l', hl', rfl⟩ := List.mem_map.1 hl
  refine ⟨l', hl', ?_⟩
  split at hx
  · exact List.mem_of_mem_tail hx
  · exact hx

theorem pick_spec {ls : List (List String)} {h : String} (hp : c3Pick ls = some h) :
    (∃ l ∈ ls, l.head? = some h) ∧ ∀ l ∈ ls, h ∉ l.tail := by
  refine ⟨?_, fun l hl hm => ?_⟩
  · obtain ⟨l, hl, he⟩ := List.mem_filterMap.1 (List.mem_of_find?_eq_some hp)
    exact ⟨l, hl, he⟩
  · have := List.find?_some hp
    have := List.all_eq_true.1 this l hl
    simp only [Bool.not_eq_true', List.contains_eq_mem, decide_eq_false_iff_not] at this
    exact this hm

theorem not_mem_drop {h : String} {ls : List (List String)} (hp : c3Pick ls = some h) :
    ∀ l ∈ c3Drop h ls, h ∉ l := by
  intro l hl
  obtain ⟨l', hl', rfl⟩ := List.mem_map.1 hl
  have ht := (pick_spec hp).2 l' hl'
  split
  · exact ht
  · rename_i hn
    cases l' with
    | nil => simp
    | cons x l' =>
      intro hm
      rcases List.mem_cons.1 hm with rfl | hm
      · exact hn rfl
      · exact ht hm

theorem Merges.mem {out : List String} : ∀ {ls : List (List String)}, Merges ls out → ∀ {x}, x ∈ out →
    ∃ l ∈ ls, x ∈ l := by
  induction out with
  | nil => intro ls _ x hx; cases hx
  | cons y out ih =>
    intro ls h x hx
    rcases h.cases with ⟨_, h⟩ | ⟨z, rest, e, hp, hr⟩
    · cases h
    · cases e
      rcases List.mem_cons.1 hx with rfl | hx
      · obtain ⟨l, hl, he⟩ := (pick_spec hp).1
        cases l with
        | nil => cases he
        | cons a l => cases he; exact ⟨_, hl, List.mem_cons_self ..⟩
      · obtain ⟨l, hl, hm⟩ := ih hr hx
        exact mem_of_drop hl hm

theorem Merges.nodup {out : List String} : ∀ {ls : List (List String)}, Merges ls out → out.Nodup := by
  induction out with
  | nil => intro ls _; exact List.nodup_nil
  | cons y out ih =>
    intro ls h
    rcases h.cases with ⟨_, h⟩ | ⟨z, rest, e, hp, hr⟩
    · cases h
    · cases e
      refine List.nodup_cons.2 ⟨fun hm => ?_, ih hr⟩
      obtain ⟨l, hl, hx⟩ := hr.mem hm
      exact not_mem_drop hp l hl hx

/-! ## picking from a known place -/

/-- the heads before it occur in some tail, it occurs in none -/
theorem pick_at {pre post : List (List String)} {h : String} {t : List String}
    (hpre : ∀ l ∈ pre, ∀ x, l.head? = some x → x ≠ h → ∃ l' ∈ pre ++ (h :: t) :: post, x ∈ l'.tail)
    (hno : ∀ l ∈ pre ++ (h :: t) :: post, h ∉ l.tail) : c3Pick (pre ++ (h :: t) :: post) = some h := by
  have find : ∀ (p : String → Bool), p h = true → (∀ l ∈ pre, ∀ x, l.head? = some x → x ≠ h → p x = false) →
      ((pre ++ (h :: t) :: post).filterMap List.head?).find? p = some h := by
    intro p hp hl
    rw [List.filterMap_append, List.find?_append, List.filterMap_cons_some (by rfl : List.head? (h :: t) = some h),
      List.find?_cons, hp]
    cases hf : (pre.filterMap List.head?).find? p with
    | none => rfl
    | some x =>
      obtain ⟨l, hm, he⟩ := List.mem_filterMap.1 (List.mem_of_find?_eq_some hf)
      by_cases e : x = h
      · rw [e]; rfl
      · have := List.find?_some hf
        rw [hl l hm x he e] at this
        cases this
  refine find _ ?_ fun l hl x hx hne => ?_
  · rw [List.all_eq_true]
    intro l hl
    simpa using hno l hl
  · obtain ⟨l', hl', hm⟩ := hpre l hl x hx hne
    rw [List.all_eq_false]
    exact ⟨l', hl', by simpa using hm⟩

theorem drop_other {h : String} {l : List String} (hn : h ∉ l) : (if l.head? = some h then l.tail else l) = l := by
  rw [if_neg]
  intro e
  cases l with
  | nil => cases e
  | cons x l => cases e; exact hn (List.mem_cons_self ..)

theorem map_drop_other {h : String} {ls : List (List String)} (hn : ∀ l ∈ ls, h ∉ l) :
    (ls.map fun l => if l.head? = some h then l.tail else l) = ls := by
  induction ls with
  | nil => rfl
  | cons l ls ih =>
    rw [List.map_cons, drop_other (hn l (List.mem_cons_self ..)), ih fun l hl => hn l (List.mem_cons_of_mem _ hl)]

/-- copies of the result in front change nothing -/
theorem Merges.copies {out : List String} : ∀ {ls : List (List String)} (n : Nat), Merges ls out →
    Merges (List.replicate n out ++ ls) out := by
  induction out with
  | nil =>
    intro ls n h
    rcases h.cases with ⟨h, _⟩ | ⟨z, rest, e, _⟩
    · exact .empty fun l hl => by
        rcases List.mem_append.1 hl with hl | hl
        · exact (List.mem_replicate.1 hl).2
        · exact h l hl
    · cases e
  | cons x out ih =>
    intro ls n h
    cases n with
    | zero => exact h
    | succ n =>
    have hnd := h.nodup
    rcases h.cases with ⟨_, h⟩ | ⟨z, rest, e, hp, hr⟩
    · cases h
    · cases e
      refine .step (h := x) ?_ ?_
      · refine pick_at (pre := []) (post := List.replicate n (x :: out) ++ ls) (fun l hl => by cases hl) ?_
        intro l hl
        have hx := (List.nodup_cons.1 hnd).1
        rcases List.mem_cons.1 hl with rfl | hl
        · exact hx
        · rcases List.mem_append.1 hl with hl | hl
          · rw [(List.mem_replicate.1 hl).2]; exact hx
          · exact (pick_spec hp).2 l hl
      · have := ih (n + 1) hr
        unfold c3Drop at this ⊢
        rw [List.map_append, List.map_replicate, if_pos (by rfl)]
        exact this

/-! ## the bases of generated classes -/

/-- Bases with method resolution orders `w ++ O`, where the `w` have nothing in common, and further lists that merge to
`O`: the merge takes the `w` one after the other. `j` copies of `O` are what is left of earlier ones. -/
theorem merge_bases {O tl : List String} {X : List (List String)} (hO : Merges (X ++ [tl]) O)
    (ws : List (List String)) : ∀ (j : Nat) (cur bl : List String),
    (∀ w ∈ cur :: ws, ∀ x ∈ w, x ∉ O ∧ x ∉ tl ∧ ∀ l ∈ X, x ∉ l) →
    cur.Nodup → (∀ w ∈ ws, w.Nodup ∧ w ≠ []) → (cur :: ws).Pairwise (fun a b => ∀ x ∈ a, x ∉ b) →
    (bl = ws.filterMap List.head? ++ tl ∨ ∃ x rest, cur = x :: rest ∧ bl = x :: (ws.filterMap List.head? ++ tl)) →
    Merges (List.replicate j O ++ (cur ++ O) :: (ws.map (· ++ O) ++ X ++ [bl])) (cur ++ ws.flatten ++ O) := by
  induction ws with
  | nil =>
    intro j cur
    induction cur with
    | nil =>
      intro bl _ _ _ _ hbl
      have : bl = tl := by
        rcases hbl with h | ⟨x, rest, h, _⟩
        · exact h
        · cases h
      subst this
      have := hO.copies (j + 1)
      rw [List.replicate_succ'] at this
      simpa using this
    | cons a cur ih =>
      intro bl h1 h2 h3 h4 hbl
      have ha := h1 _ (List.mem_cons_self ..) a (List.mem_cons_self ..)
      have hbl' : a ∉ bl.tail := by
        rcases hbl with rfl | ⟨x, rest, e, rfl⟩
        · exact fun h => ha.2.1 (List.mem_of_mem_tail h)
        · exact ha.2.1
      refine Merges.step (h := a) (out := cur ++ [].flatten ++ O) (pick_at (t := cur ++ O) ?_ ?_) ?_
      · intro l hl x hx hne
        rw [(List.mem_replicate.1 hl).2] at hx
        refine ⟨a :: (cur ++ O), List.mem_append_right _ (List.mem_cons_self ..), ?_⟩
        exact List.mem_append_right _ (List.mem_of_mem_head? hx)
      · intro l hl
        rcases List.mem_append.1 hl with hl | hl
        · rw [(List.mem_replicate.1 hl).2]; exact fun h => ha.1 (List.mem_of_mem_tail h)
        · rcases List.mem_cons.1 hl with rfl | hl
          · intro hm
            rcases List.mem_append.1 hm with hm | hm
            · exact (List.nodup_cons.1 h2).1 hm
            · exact ha.1 hm
          · simp only [List.map_nil, List.nil_append, List.mem_append, List.mem_singleton] at hl
            rcases hl with hl | rfl
            · exact fun h => ha.2.2 l hl (List.mem_of_mem_tail h)
            · exact hbl'
      · have key := ih (if bl.head? = some a then bl.tail else bl) (fun w hw x hx => by
            rw [List.mem_singleton.1 hw] at hx
            exact h1 _ (List.mem_cons_self ..) x (List.mem_cons_of_mem _ hx))
          (List.nodup_cons.1 h2).2 h3 (List.pairwise_singleton ..) (.inl (by
            rcases hbl with rfl | ⟨x, rest, e, rfl⟩
            · exact drop_other ha.2.1
            · cases e; rw [if_pos (by rfl)]; rfl))
        unfold c3Drop
        simp only [List.map_append, List.map_cons, List.map_replicate, List.map_nil, List.nil_append] at key ⊢
        rw [drop_other ha.1, map_drop_other ha.2.2, if_pos (by rfl)]
        exact key
  | cons w ws ihw =>
    intro j cur
    induction cur with
    | nil =>
      intro bl h1 h2 h3 h4 hbl
      have hbl : bl = (w :: ws).filterMap List.head? ++ tl := by
        rcases hbl with h | ⟨x, rest, h, _⟩
        · exact h
        · cases h
      obtain ⟨hw, hne⟩ := h3 w (List.mem_cons_self ..)
      have := ihw (j + 1) w bl (fun v hv => h1 v (List.mem_cons_of_mem _ hv)) hw
        (fun v hv => h3 v (List.mem_cons_of_mem _ hv)) (List.pairwise_cons.1 h4).2 (.inr (by
          cases w with
          | nil => exact (hne rfl).elim
          | cons x rest => exact ⟨x, rest, rfl, by rw [hbl]; rfl⟩))
      rw [List.replicate_succ'] at this
      simpa using this
    | cons a cur ih =>
      intro bl h1 h2 h3 h4 hbl
      have ha := h1 _ (List.mem_cons_self ..) a (List.mem_cons_self ..)
      have hother : ∀ v ∈ w :: ws, a ∉ v := fun v hv => (List.pairwise_cons.1 h4).1 v hv a (List.mem_cons_self ..)
      have hheads : a ∉ (w :: ws).filterMap List.head? := by
        intro hm
        obtain ⟨v, hv, he⟩ := List.mem_filterMap.1 hm
        exact hother v hv (List.mem_of_mem_head? he)
      have hbl0 : a ∉ (w :: ws).filterMap List.head? ++ tl := fun h => (List.mem_append.1 h).elim hheads ha.2.1
      have hbl' : a ∉ bl.tail := by
        rcases hbl with rfl | ⟨x, rest, e, rfl⟩
        · exact fun h => hbl0 (List.mem_of_mem_tail h)
        · exact hbl0
      have hmap : ∀ l ∈ (w :: ws).map (· ++ O) ++ X, a ∉ l := by
        intro l hl hm
        rcases List.mem_append.1 hl with hl | hl
        · obtain ⟨v, hv, rfl⟩ := List.mem_map.1 hl
          rcases List.mem_append.1 hm with hm | hm
          · exact hother v hv hm
          · exact ha.1 hm
        · exact ha.2.2 l hl hm
      refine Merges.step (h := a) (out := cur ++ (w :: ws).flatten ++ O) (pick_at (t := cur ++ O) ?_ ?_) ?_
      · intro l hl x hx hne
        rw [(List.mem_replicate.1 hl).2] at hx
        refine ⟨a :: (cur ++ O), List.mem_append_right _ (List.mem_cons_self ..), ?_⟩
        exact List.mem_append_right _ (List.mem_of_mem_head? hx)
      · intro l hl
        rcases List.mem_append.1 hl with hl | hl
        · rw [(List.mem_replicate.1 hl).2]; exact fun h => ha.1 (List.mem_of_mem_tail h)
        · rcases List.mem_cons.1 hl with rfl | hl
          · intro hm
            rcases List.mem_append.1 hm with hm | hm
            · exact (List.nodup_cons.1 h2).1 hm
            · exact ha.1 hm
          · rcases List.mem_append.1 hl with hl | hl
            · exact fun h => hmap l hl (List.mem_of_mem_tail h)
            · rw [List.mem_singleton.1 hl]; exact hbl'
      · have key := ih (if bl.head? = some a then bl.tail else bl) (fun v hv x hx => by
            rcases List.mem_cons.1 hv with rfl | hv
            · exact h1 _ (List.mem_cons_self ..) x (List.mem_cons_of_mem _ hx)
            · exact h1 v (List.mem_cons_of_mem _ hv) x hx)
          (List.nodup_cons.1 h2).2 h3
          (List.pairwise_cons.2 ⟨fun v hv x hx => (List.pairwise_cons.1 h4).1 v hv x (List.mem_cons_of_mem _ hx),
            (List.pairwise_cons.1 h4).2⟩) (.inl (by
            rcases hbl with rfl | ⟨x, rest, e, rfl⟩
            · exact drop_other hbl0
            · cases e; rw [if_pos (by rfl)]; rfl))
        unfold c3Drop
        rw [List.map_append, List.map_replicate, drop_other ha.1, List.map_cons, if_pos (by rfl), List.map_append,
          map_drop_other hmap]
        exact key

end Turms
