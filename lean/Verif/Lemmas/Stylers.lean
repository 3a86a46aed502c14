import Verif.Model.Stylers
import Verif.Spec.Names

namespace Turms
open Spec

theorem lower_not_upper {c : Char} (h : c.isLower = true) : c.isUpper = false := by
  simp [Char.isLower, Char.isUpper] at *
  grind

theorem digit_not_upper {c : Char} (h : c.isDigit = true) : c.isUpper = false := by
  simp [Char.isDigit, Char.isUpper, UInt32.le_iff_toNat_le] at *
  omega

theorem upper_not_lowerdigit {c : Char} (h : c.isUpper = true) : (c.isLower || c.isDigit) = false := by
  cases h1 : c.isLower
  · cases h2 : c.isDigit
    · rfl
    · rw [digit_not_upper h2] at h; simp at h
  · rw [lower_not_upper h1] at h; simp at h

theorem sub2_cons_cons (c u : Char) (y : List Char) :
    sub2 (c :: u :: y) =
      c :: ((if (c.isLower || c.isDigit) && u.isUpper then ['_'] else []) ++ sub2 (u :: y)) := by
  rw [sub2]
  split
  · rename_i h
    simp only [Bool.and_eq_true] at h
    have hu := upper_not_lowerdigit h.2
    cases y with
    | nil => simp [sub2]
    | cons z y => simp [sub2, hu]
  · simp

theorem wordsFrom_some (p u : Char) (r : List Char) :
    wordsFrom (some p) (u :: r) =
      (if u.isUpper && (p.isLower || p.isDigit || (p != '\n' && (r.head?.any Char.isLower)))
        then ['_'] else []) ++ wordsFrom none (u :: r) := by
  simp only [wordsFrom]
  split <;> simp

theorem wordsFrom_none (c : Char) (r : List Char) :
    wordsFrom none (c :: r) = c :: wordsFrom (some c) r := by
  simp [wordsFrom]

theorem sub1_false_cons (u : Char) (r : List Char) : ∃ y, sub1 false (u :: r) = u :: y := by
  rw [sub1.eq_def]
  simp only [Bool.false_and, Bool.false_eq_true, if_false]
  split
  · split <;> exact ⟨_, rfl⟩
  · exact ⟨_, rfl⟩

theorem sub1_spec (n : Nat) : ∀ s : List Char, s.length ≤ n →
    sub2 (sub1 false s) = wordsFrom none s ∧
    ∀ p : Char, p.isLower = true → sub2 (p :: sub1 true s) = p :: wordsFrom (some p) s := by
  induction n with
  | zero =>
    intro s hs
    have : s = [] := List.length_eq_zero_iff.1 (Nat.le_zero.1 hs)
    subst this
    simp [sub1, sub2, wordsFrom]
  | succ n ih =>
    intro s hs
    cases s with
    | nil => simp [sub1, sub2, wordsFrom]
    | cons c rest =>
      have hrest : rest.length ≤ n := by simpa using hs
      have L1 : sub2 (sub1 false (c :: rest)) = wordsFrom none (c :: rest) := by
        -- the step without a match at `c`
        have noMatch : ∀ (u : Char) (r : List Char), rest = u :: r →
            ((c != '\n') && u.isUpper && (r.head?.any Char.isLower)) = false →
            sub2 (c :: sub1 false rest) = wordsFrom none (c :: rest) := by
          intro u r e hno
          obtain ⟨y, hy⟩ := sub1_false_cons u r
          have h1 := (ih rest hrest).1
          rw [e, hy] at h1
          rw [e, hy, sub2_cons_cons, h1]
          rw [wordsFrom_none c, wordsFrom_some]
          have : (u.isUpper && (c.isLower || c.isDigit || (c != '\n' && r.head?.any Char.isLower)))
              = ((c.isLower || c.isDigit) && u.isUpper) := by
            revert hno
            cases (c != '\n') <;> cases u.isUpper <;> cases (r.head?.any Char.isLower) <;>
              cases c.isLower <;> cases c.isDigit <;> simp
          rw [this]
        rw [sub1.eq_def]
        simp only [Bool.false_and, Bool.false_eq_true, if_false]
        split
        · rename_i u l rest'
          split
          · rename_i hm
            simp only [Bool.and_eq_true] at hm
            have hlen : rest'.length ≤ n := by simp at hrest; omega
            have h2 := (ih rest' hlen).2 l hm.2
            have hlu := lower_not_upper hm.2
            rw [sub2_cons_cons, sub2_cons_cons, sub2_cons_cons, h2]
            have hu := upper_not_lowerdigit hm.1.2
            simp [wordsFrom, hlu, hm.1.2, hm.2, hu]
            intro _ _; simpa using hm.1.1
          · rename_i hm
            exact noMatch u (l :: rest') rfl (by simpa using hm)
        · rename_i r hr
          match rest, hr with
          | [], _ => simp [sub1, sub2, wordsFrom]
          | [u], _ => exact noMatch u [] rfl (by simp)
          | u :: l :: r', hr => exact absurd rfl (hr u l r')
      refine ⟨L1, ?_⟩
      intro p hp
      by_cases hc : c.isLower = true
      · have h2 := (ih rest hrest).2 c hc
        have hcu := lower_not_upper hc
        rw [sub1.eq_def]
        simp only [Bool.true_and, hc, if_true]
        rw [sub2_cons_cons, h2]
        simp [wordsFrom, hcu]
      · have e : sub1 true (c :: rest) = sub1 false (c :: rest) := by
          rw [sub1.eq_def, sub1.eq_def]; simp [hc]
        obtain ⟨y, hy⟩ := sub1_false_cons c rest
        rw [e, hy, sub2_cons_cons, ← hy, L1, wordsFrom_some]
        simp [hp]

theorem camelToSnakeL_eq_snake (s : List Char) : camelToSnakeL s = snake s := by
  unfold camelToSnakeL snake
  rw [(sub1_spec s.length s (Nat.le_refl _)).1]

/-! facts about the specification -/

theorem toLower_not_upper (c : Char) : c.toLower.isUpper = false := by
  unfold Char.toLower
  split
  · rename_i h
    simp [Char.isUpper]
    grind
  · rename_i h; simp [Char.isUpper, UInt32.le_iff_toNat_le] at *; grind

theorem toLower_of_not_upper {c : Char} (h : c.isUpper = false) : c.toLower = c := by
  unfold Char.toLower
  split
  · rename_i h'; simp [Char.isUpper] at *; grind
  · rfl

theorem toUpper_of_not_lower {c : Char} (h : c.isLower = false) : c.toUpper = c := by
  unfold Char.toUpper
  split
  · rename_i h'; simp [Char.isLower] at *; grind
  · rfl

theorem toUpper_not_lower (c : Char) : c.toUpper.isLower = false := by
  by_cases h : c.isLower = true
  · unfold Char.toUpper
    simp [Char.isLower, UInt32.le_iff_toNat_le] at h
    rw [dif_pos (by simp [UInt32.le_iff_toNat_le]; omega)]
    simp [Char.isLower, UInt32.le_iff_toNat_le, UInt32.toNat_add]
    omega
  · rw [toUpper_of_not_lower (by simpa using h)]; simpa using h

theorem toLower_eq_underscore {c : Char} : c.toLower = '_' ↔ c = '_' := by
  by_cases h : c.isUpper = true
  · constructor
    · intro h'
      exfalso
      unfold Char.toLower at h'
      simp [Char.isUpper, UInt32.le_iff_toNat_le] at h
      rw [dif_pos (by simp [UInt32.le_iff_toNat_le]; omega)] at h'
      have h2 := congrArg (fun c => c.val.toNat) h'
      simp [UInt32.toNat_add] at h2
      omega
    · intro h'; subst h'; simp at h
  · rw [toLower_of_not_upper (by simpa using h)]

theorem identChar_toLower {c : Char} (h : IdentChar c) : IdentChar c.toLower := by
  by_cases hu : c.isUpper = true
  · right; left
    unfold Char.toLower
    simp [Char.isUpper, UInt32.le_iff_toNat_le] at hu
    rw [dif_pos (by simp [UInt32.le_iff_toNat_le]; omega)]
    simp [Char.isLower, UInt32.le_iff_toNat_le, UInt32.toNat_add]
    omega
  · rw [toLower_of_not_upper (by simpa using hu)]; exact h

theorem isDigit_toLower {c : Char} : c.toLower.isDigit = c.isDigit := by
  by_cases hu : c.isUpper = true
  · have h1 : c.isDigit = false := by
      cases h : c.isDigit
      · rfl
      · rw [digit_not_upper h] at hu; simp at hu
    rw [h1]
    unfold Char.toLower
    simp [Char.isUpper, UInt32.le_iff_toNat_le] at hu
    rw [dif_pos (by simp [UInt32.le_iff_toNat_le]; omega)]
    simp [Char.isDigit, UInt32.le_iff_toNat_le, UInt32.toNat_add]
    omega
  · rw [toLower_of_not_upper (by simpa using hu)]

theorem wordsFrom_cons (p : Option Char) (u : Char) (r : List Char) :
    wordsFrom p (u :: r) = u :: wordsFrom (some u) r ∨
    wordsFrom p (u :: r) = '_' :: u :: wordsFrom (some u) r := by
  cases p with
  | none => left; exact wordsFrom_none u r
  | some p =>
    rw [wordsFrom_some, wordsFrom_none]
    split
    · right; rfl
    · left; rfl

theorem wordsFrom_sublist (p : Option Char) (s : List Char) : s.Sublist (wordsFrom p s) := by
  induction s generalizing p with
  | nil => simp [wordsFrom]
  | cons u r ih =>
    rcases wordsFrom_cons p u r with h | h <;> rw [h]
    · exact List.Sublist.cons_cons u (ih (some u))
    · exact (List.Sublist.cons_cons u (ih (some u))).cons _

theorem wordsFrom_filter (p : Option Char) (s : List Char) :
    (wordsFrom p s).filter (· != '_') = s.filter (· != '_') := by
  induction s generalizing p with
  | nil => simp [wordsFrom]
  | cons u r ih =>
    rcases wordsFrom_cons p u r with h | h <;> rw [h] <;> simp [List.filter_cons, ih]

theorem wordsFrom_mem {p : Option Char} {s : List Char} {c : Char} (h : c ∈ wordsFrom p s) :
    c ∈ s ∨ c = '_' := by
  induction s generalizing p with
  | nil => simp [wordsFrom] at h
  | cons u r ih =>
    rcases wordsFrom_cons p u r with h' | h' <;> rw [h'] at h <;> simp at h ⊢ <;> grind

theorem wordsFrom_of_no_upper (p : Option Char) (s : List Char) (h : ∀ c ∈ s, c.isUpper = false) :
    wordsFrom p s = s := by
  induction s generalizing p with
  | nil => rfl
  | cons u r ih =>
    have hu := h u (by simp)
    have hr := ih (some u) (fun c hc => h c (by simp [hc]))
    cases p <;> simp [wordsFrom, hu, hr]

theorem snake_no_upper (s : List Char) : ∀ c ∈ snake s, c.isUpper = false := by
  intro c hc
  simp only [snake, List.mem_map] at hc
  obtain ⟨d, _, rfl⟩ := hc
  exact toLower_not_upper d

theorem snake_of_no_upper (s : List Char) (h : ∀ c ∈ s, c.isUpper = false) : snake s = s := by
  unfold snake
  rw [wordsFrom_of_no_upper _ _ h]
  induction s with
  | nil => rfl
  | cons u r ih =>
    simp [toLower_of_not_upper (h u (by simp)), ih (fun c hc => h c (by simp [hc]))]

theorem escapeKeyword_not_keyword (s : String) : isKeyword (escapeKeyword s) = false := by
  unfold escapeKeyword
  split
  · rename_i h
    have : ∀ k ∈ kwlist, isKeyword (k ++ "_") = false := by decide
    apply this
    simpa [isKeyword] using h
  · rename_i h; simpa using h

end Turms
