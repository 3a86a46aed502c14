import Verif.Model.Basic

namespace Turms

section
variable {α : Type} (le : α → α → Bool)

theorem insertSorted_perm (a : α) (l : List α) : (insertSorted le a l).Perm (a :: l) := by
  induction l with
  | nil => exact List.Perm.refl _
  | cons b l ih =>
    unfold insertSorted
    split
    · exact List.Perm.refl _
    · exact (List.Perm.cons b ih).trans (List.Perm.swap a b l)

theorem pySorted_perm (l : List α) : (pySorted le l).Perm l := by
  induction l with
  | nil => exact List.Perm.refl _
  | cons a l ih => exact (insertSorted_perm le a _).trans (List.Perm.cons a ih)

theorem mem_pySorted {a : α} {l : List α} : a ∈ pySorted le l ↔ a ∈ l := (pySorted_perm le l).mem_iff

theorem insertSorted_pairwise (htot : ∀ a b, le a b = true ∨ le b a = true)
    (htrans : ∀ a b c, le a b = true → le b c = true → le a c = true)
    (a : α) (l : List α) (h : l.Pairwise (fun x y => le x y = true)) :
    (insertSorted le a l).Pairwise (fun x y => le x y = true) := by
  induction l with
  | nil => simp [insertSorted]
  | cons b l ih =>
    rw [List.pairwise_cons] at h
    unfold insertSorted
    split
    · rename_i hab
      rw [List.pairwise_cons]
      refine ⟨?_, List.pairwise_cons.2 h⟩
      intro c hc
      rcases List.mem_cons.1 hc with rfl | hc
      · exact hab
      · exact htrans _ _ _ hab (h.1 c hc)
    · rename_i hab
      rw [List.pairwise_cons]
      refine ⟨?_, ih h.2⟩
      intro c hc
      rw [(insertSorted_perm le a l).mem_iff] at hc
      rcases List.mem_cons.1 hc with rfl | hc
      · rcases htot c b with h' | h'
        · exact absurd h' hab
        · exact h'
      · exact h.1 c hc

theorem pySorted_pairwise (htot : ∀ a b, le a b = true ∨ le b a = true)
    (htrans : ∀ a b c, le a b = true → le b c = true → le a c = true) (l : List α) :
    (pySorted le l).Pairwise (fun x y => le x y = true) := by
  induction l with
  | nil => simp [pySorted]
  | cons a l ih => exact insertSorted_pairwise le htot htrans a _ ih

end

theorem strLe_total (a b : String) : strLe a b = true ∨ strLe b a = true := by
  simp [strLe]; exact String.le_total a b

theorem strLe_trans (a b c : String) (h1 : strLe a b = true) (h2 : strLe b c = true) : strLe a c = true := by
  simp [strLe] at *; exact String.le_trans h1 h2

theorem strLe_antisymm (a b : String) (h1 : strLe a b = true) (h2 : strLe b a = true) : a = b := by
  simp [strLe] at *; exact String.le_antisymm h1 h2

/-- two sorted permutations of each other are equal -/
theorem sorted_unique {α : Type} (le : α → α → Bool)
    (hanti : ∀ a b, le a b = true → le b a = true → a = b) (l1 l2 : List α)
    (h1 : l1.Pairwise (fun x y => le x y = true)) (h2 : l2.Pairwise (fun x y => le x y = true))
    (hp : l1.Perm l2) : l1 = l2 := by
  induction l1 generalizing l2 with
  | nil => exact (List.Perm.nil_eq hp)
  | cons a l1 ih =>
    cases l2 with
    | nil => exact absurd hp.length_eq (by simp)
    | cons b l2 =>
      have hab : a = b := by
        have ha : a ∈ b :: l2 := hp.mem_iff.1 (by simp)
        have hb : b ∈ a :: l1 := hp.mem_iff.2 (by simp)
        rcases List.mem_cons.1 ha with h | h
        · exact h
        · rcases List.mem_cons.1 hb with h' | h'
          · exact h'.symm
          · exact hanti _ _ ((List.pairwise_cons.1 h1).1 b h') ((List.pairwise_cons.1 h2).1 a h)
      subst hab
      rw [ih l2 (List.pairwise_cons.1 h1).2 (List.pairwise_cons.1 h2).2 (List.Perm.cons_inv hp)]

theorem pySorted_str_eq_of_perm {l1 l2 : List String} (h : l1.Perm l2) :
    pySorted strLe l1 = pySorted strLe l2 :=
  sorted_unique strLe strLe_antisymm _ _ (pySorted_pairwise strLe strLe_total strLe_trans l1)
    (pySorted_pairwise strLe strLe_total strLe_trans l2)
    ((pySorted_perm strLe l1).trans (h.trans (pySorted_perm strLe l2).symm))

/-! splitting -/

theorem splitOnChar_ne_nil (c : Char) (s : List Char) : splitOnChar c s ≠ [] := by
  cases s with
  | nil => simp [splitOnChar]
  | cons d s =>
    unfold splitOnChar
    split
    · simp
    · split <;> simp

theorem joinWith_cons (c : Char) (w : List Char) (ws : List (List Char)) (h : ws ≠ []) :
    joinWith c (w :: ws) = w ++ c :: joinWith c ws := by
  cases ws with
  | nil => exact absurd rfl h
  | cons x xs => rfl

theorem joinWith_split (c : Char) (s : List Char) : joinWith c (splitOnChar c s) = s := by
  induction s with
  | nil => rfl
  | cons d s ih =>
    unfold splitOnChar
    split
    · rename_i h; subst h
      rw [joinWith_cons _ _ _ (splitOnChar_ne_nil _ _), ih]; rfl
    · split
      · rename_i h; exact absurd h (splitOnChar_ne_nil _ _)
      · rename_i w ws h
        rw [h] at ih
        cases ws with
        | nil => simp [joinWith] at ih ⊢; exact ih
        | cons x xs => simp [joinWith] at ih ⊢; exact ih

theorem splitOnChar_parts (c : Char) (s : List Char) : ∀ w ∈ splitOnChar c s, c ∉ w := by
  induction s with
  | nil => simp [splitOnChar]
  | cons d s ih =>
    unfold splitOnChar
    split
    · intro w hw
      rcases List.mem_cons.1 hw with rfl | hw
      · simp
      · exact ih w hw
    · rename_i hd
      split
      · rename_i h; exact absurd h (splitOnChar_ne_nil _ _)
      · rename_i w ws h
        rw [h] at ih
        intro v hv
        rcases List.mem_cons.1 hv with rfl | hv
        · have := ih w (by simp)
          simp
          exact ⟨fun e => hd e.symm, this⟩
        · exact ih v (by simp [hv])

theorem splitOnChar_single_iff (c : Char) (s : List Char) : (splitOnChar c s).length = 1 ↔ c ∉ s := by
  induction s with
  | nil => simp [splitOnChar]
  | cons d s ih =>
    unfold splitOnChar
    split
    · rename_i h; subst h
      have := splitOnChar_ne_nil d s
      cases hsp : splitOnChar d s with
      | nil => exact absurd hsp this
      | cons w ws => simp
    · rename_i hd
      have := splitOnChar_ne_nil c s
      cases hsp : splitOnChar c s with
      | nil => exact absurd hsp this
      | cons w ws =>
        rw [hsp] at ih
        simp at ih ⊢
        rw [ih]
        constructor
        · intro h; exact ⟨fun e => hd e.symm, h⟩
        · exact fun h => h.2

theorem joinWith_dropLast (c : Char) (l : List (List Char)) (h : 2 ≤ l.length) :
    joinWith c l = joinWith c l.dropLast ++ c :: (l.getLast?.getD []) := by
  induction l with
  | nil => simp at h
  | cons w l ih =>
    cases l with
    | nil => simp at h
    | cons x xs =>
      cases xs with
      | nil => simp [joinWith]
      | cons y ys =>
        have := ih (by simp)
        rw [joinWith_cons _ _ _ (by simp), this]
        have e : (w :: x :: y :: ys).dropLast = w :: (x :: y :: ys).dropLast := rfl
        rw [e, joinWith_cons _ _ _ (by simp [List.dropLast])]
        simp

end Turms
