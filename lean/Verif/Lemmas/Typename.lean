import Verif.Model.Documents
import Verif.Spec.Documents

namespace Turms.Documents
open Turms.Spec

theorem addTypenameEach_eq_map (l : List Sel) : addTypenameEach l = l.map addTypenameSel := by
  induction l with
  | nil => rfl
  | cons s l ih => rw [addTypenameEach, ih]; rfl

theorem addTypename_eq (l : List Sel) :
    addTypename l = l.map addTypenameSel ++ (if l.any isTypename then [] else [typenameSel]) := by
  cases l with
  | nil => rfl
  | cons s l => rw [addTypename, addTypenameEach_eq_map]; rfl

theorem isTypename_addTypenameSel (s : Sel) : isTypename (addTypenameSel s) = isTypename s := by
  cases s <;> rfl

theorem any_map_addTypenameSel (l : List Sel) : (l.map addTypenameSel).any isTypename = l.any isTypename := by
  rw [List.any_map]
  congr 1
  funext s
  exact isTypename_addTypenameSel s

theorem addTypename_any (l : List Sel) : (addTypename l).any isTypename = true := by
  rw [addTypename_eq, List.any_append, any_map_addTypenameSel]
  cases h : l.any isTypename
  · rfl
  · simp

mutual
theorem addTypenameSel_idem : ∀ s : Sel, addTypenameSel (addTypenameSel s) = addTypenameSel s
  | .field n a args sub => by
    simp only [addTypenameSel]
    by_cases h : sub.isEmpty
    · simp [h]
    · have hne : (addTypename sub).isEmpty = false := by
        rw [addTypename_eq]; cases sub <;> simp_all
      simp only [h, Bool.false_eq_true, if_false, hne]
      rw [addTypename_idem sub]
  | .spread n => rfl
  | .inline t sub => rfl
theorem addTypenameEach_idem : ∀ l : List Sel, addTypenameEach (addTypenameEach l) = addTypenameEach l
  | [] => rfl
  | s :: l => by
    simp only [addTypenameEach]
    rw [addTypenameSel_idem s, addTypenameEach_idem l]
theorem addTypename_idem : ∀ l : List Sel, addTypename (addTypename l) = addTypename l
  | [] => rfl
  | s :: l => by
    have h1 : addTypename (addTypename (s :: l)) =
        (addTypename (s :: l)).map addTypenameSel := by
      rw [addTypename_eq (addTypename (s :: l)), addTypename_any]; simp
    rw [h1, addTypename]
    simp only [List.map_cons, List.map_append]
    rw [addTypenameSel_idem s, ← addTypenameEach_eq_map, addTypenameEach_idem l]
    congr 2
    split <;> rfl
end

mutual
theorem addTypenameSel_extends : ∀ s : Sel, ExtendsSel s (addTypenameSel s)
  | .field n a args sub => by
    simp only [addTypenameSel]
    split
    · rename_i h
      rw [List.isEmpty_iff] at h
      subst h
      exact .field _ _ _ _ _ (.same _ _ .nil)
    · exact .field _ _ _ _ _ (addTypename_extends sub)
  | .spread n => .spread n
  | .inline t sub => .inline _ _ _ (.same _ _ (ExtendsEach_refl sub))
theorem addTypenameEach_extends : ∀ l : List Sel, ExtendsEach l (addTypenameEach l)
  | [] => .nil
  | s :: l => .cons _ _ _ _ (addTypenameSel_extends s) (addTypenameEach_extends l)
theorem addTypename_extends : ∀ l : List Sel, ExtendsSet l (addTypename l)
  | [] => .added [] [] .nil (by simp)
  | s :: l => by
    rw [addTypename]
    have hx : ExtendsEach (s :: l) (addTypenameSel s :: addTypenameEach l) :=
      .cons _ _ _ _ (addTypenameSel_extends s) (addTypenameEach_extends l)
    split
    · rw [List.append_nil]; exact .same _ _ hx
    · rename_i h
      refine .added _ _ hx ?_
      intro a args sub hm
      exact h (List.any_eq_true.2 ⟨_, hm, rfl⟩)
theorem ExtendsSel_refl : ∀ s : Sel, ExtendsSel s s
  | .field n a args sub => .field _ _ _ _ _ (.same _ _ (ExtendsEach_refl sub))
  | .spread n => .spread n
  | .inline t sub => .inline _ _ _ (.same _ _ (ExtendsEach_refl sub))
theorem ExtendsEach_refl : ∀ l : List Sel, ExtendsEach l l
  | [] => .nil
  | s :: l => .cons _ _ _ _ (ExtendsSel_refl s) (ExtendsEach_refl l)
end

theorem typenamesBelow_append (a b : List Sel) :
    typenamesBelow (a ++ b) = (typenamesBelow a && typenamesBelow b) := by
  induction a with
  | nil => rfl
  | cons s a ih => rw [List.cons_append, typenamesBelow, typenamesBelow, ih, Bool.and_assoc]

/-- under the hypothesis, requesting the key is the same as having a field of that name -/
theorem requests_of_isTypename {s : Sel} (h : simpleSel s = true) : requestsTypename s = isTypename s := by
  cases s with
  | field n a args sub =>
    simp only [simpleSel, Bool.and_eq_true] at h
    cases a with
    | none => rfl
    | some a => simp [requestsTypename, isTypename] at h ⊢; simpa using h.1
  | spread n => rfl
  | inline t sub => rfl

theorem requests_addTypenameSel (s : Sel) : requestsTypename (addTypenameSel s) = requestsTypename s := by
  cases s with
  | field n a args sub => cases a <;> rfl
  | spread n => rfl
  | inline t sub => rfl

theorem simpleSels_mem {l : List Sel} (h : simpleSels l = true) : ∀ s ∈ l, simpleSel s = true := by
  induction l with
  | nil => simp
  | cons a l ih =>
    simp only [simpleSels, Bool.and_eq_true] at h
    intro s hs
    rcases List.mem_cons.1 hs with rfl | hs
    · exact h.1
    · exact ih h.2 s hs

theorem addTypename_requests {l : List Sel} (h : simpleSels l = true) :
    (addTypename l).any requestsTypename = true := by
  rw [addTypename_eq, List.any_append]
  by_cases ha : l.any isTypename
  · rw [Bool.or_eq_true]
    left
    obtain ⟨s, hs, ht⟩ := List.any_eq_true.1 ha
    refine List.any_eq_true.2 ⟨addTypenameSel s, List.mem_map_of_mem hs, ?_⟩
    rw [requests_addTypenameSel, requests_of_isTypename (simpleSels_mem h s hs), ht]
  · rw [Bool.or_eq_true]
    right
    simp [ha, typenameSel, requestsTypename]

mutual
theorem addTypenameSel_below : ∀ s : Sel, simpleSel s = true → typenameBelow (addTypenameSel s) = true
  | .field n a args sub, h => by
    simp only [simpleSel, Bool.and_eq_true] at h
    simp only [addTypenameSel]
    split
    · rename_i he; simp [typenameBelow, he]
    · simp only [typenameBelow, Bool.or_eq_true, Bool.and_eq_true]
      exact .inr ⟨addTypename_requests h.2, addTypename_below sub h.2⟩
  | .spread n, _ => rfl
  | .inline t sub, h => h
theorem addTypenameEach_below : ∀ l : List Sel, simpleSels l = true → typenamesBelow (addTypenameEach l) = true
  | [], _ => rfl
  | s :: l, h => by
    simp only [simpleSels, Bool.and_eq_true] at h
    simp only [addTypenameEach, typenamesBelow, Bool.and_eq_true]
    exact ⟨addTypenameSel_below s h.1, addTypenameEach_below l h.2⟩
theorem addTypename_below : ∀ l : List Sel, simpleSels l = true → typenamesBelow (addTypename l) = true
  | [], _ => rfl
  | s :: l, h => by
    simp only [simpleSels, Bool.and_eq_true] at h
    rw [addTypename]
    simp only [typenamesBelow, typenamesBelow_append, Bool.and_eq_true]
    refine ⟨addTypenameSel_below s h.1, addTypenameEach_below l h.2, ?_⟩
    split <;> rfl
end

end Turms.Documents
