import Verif.Model.Basic

namespace Turms
namespace Dict
variable {α : Type}

@[simp] theorem get?_nil (k : String) : get? ([] : Dict α) k = none := rfl

theorem get?_set_self (d : Dict α) (k : String) (v : α) : get? (set d k v) k = some v := by
  induction d with
  | nil => simp [set, get?]
  | cons p d ih =>
    obtain ⟨k', v'⟩ := p
    by_cases h : k' = k <;> simp [set, get?, h, ih]

theorem get?_set_ne (d : Dict α) {k k2 : String} (v : α) (h : k ≠ k2) :
    get? (set d k v) k2 = get? d k2 := by
  induction d with
  | nil => simp [set, get?, h]
  | cons p d ih =>
    obtain ⟨k', v'⟩ := p
    by_cases h1 : k' = k
    · subst h1
      simp [set, get?, h]
    · simp only [set, if_neg h1, get?, ih]

theorem get?_set (d : Dict α) (k k2 : String) (v : α) :
    get? (set d k v) k2 = if k = k2 then some v else get? d k2 := by
  by_cases h : k = k2
  · subst h; simp [get?_set_self]
  · simp [h, get?_set_ne]

theorem contains_iff (d : Dict α) (k : String) : contains d k = true ↔ k ∈ keys d := by
  simp [contains, keys]

theorem get?_isSome_iff (d : Dict α) (k : String) : (get? d k).isSome ↔ k ∈ keys d := by
  induction d with
  | nil => simp [keys]
  | cons p d ih =>
    obtain ⟨k', v'⟩ := p
    by_cases h : k' = k
    · simp [get?, keys, h]
    · simp only [get?, if_neg h, ih]
      simp [keys]
      intro h'; exact absurd h'.symm h

theorem get?_eq_none_iff (d : Dict α) (k : String) : get? d k = none ↔ k ∉ keys d := by
  rw [← get?_isSome_iff]; cases get? d k <;> simp

theorem contains_eq_isSome (d : Dict α) (k : String) : contains d k = (get? d k).isSome := by
  rw [Bool.eq_iff_iff, contains_iff, get?_isSome_iff]

theorem mem_of_get? {d : Dict α} {k : String} {v : α} (h : get? d k = some v) : (k, v) ∈ d := by
  induction d with
  | nil => simp at h
  | cons p d ih =>
    obtain ⟨k', v'⟩ := p
    by_cases h1 : k' = k
    · simp [get?, h1] at h; simp [h1, h]
    · simp [get?, h1] at h; exact List.mem_cons_of_mem _ (ih h)

theorem mem_keys_set (d : Dict α) (k x : String) (v : α) :
    x ∈ keys (set d k v) ↔ x = k ∨ x ∈ keys d := by
  rw [← get?_isSome_iff, ← get?_isSome_iff, get?_set]
  by_cases h : k = x
  · simp [h]
  · simp [h]; intro h'; exact absurd h'.symm h

theorem keys_set_of_mem (d : Dict α) (k : String) (v : α) (h : k ∈ keys d) :
    keys (set d k v) = keys d := by
  induction d with
  | nil => simp [keys] at h
  | cons p d ih =>
    obtain ⟨k', v'⟩ := p
    by_cases h1 : k' = k
    · simp [set, h1, keys]
    · have : k ∈ keys d := by
        simp [keys] at h ⊢
        rcases h with h | h
        · exact absurd h.symm h1
        · exact h
      have := ih this
      simp [keys] at this
      simp [set, h1, keys, this]

theorem keys_set_of_not_mem (d : Dict α) (k : String) (v : α) (h : k ∉ keys d) :
    set d k v = d ++ [(k, v)] := by
  induction d with
  | nil => simp [set]
  | cons p d ih =>
    obtain ⟨k', v'⟩ := p
    simp [keys] at h
    have h1 : k' ≠ k := fun e => h.1 e.symm
    have : k ∉ keys d := by simp [keys]; exact h.2
    simp [set, h1, ih this]

theorem nodup_keys_set (d : Dict α) (k : String) (v : α) (h : (keys d).Nodup) :
    (keys (set d k v)).Nodup := by
  by_cases hk : k ∈ keys d
  · rw [keys_set_of_mem _ _ _ hk]; exact h
  · rw [keys_set_of_not_mem _ _ _ hk]
    simp only [keys, List.map_append, List.map_cons, List.map_nil]
    rw [List.nodup_append]
    refine ⟨h, by simp, ?_⟩
    intro a ha b hb
    simp at hb
    subst hb
    intro e; subst e; exact hk ha

theorem get?_of_mem_nodup {d : Dict α} (hn : (keys d).Nodup) {k : String} {v : α}
    (h : (k, v) ∈ d) : get? d k = some v := by
  induction d with
  | nil => simp at h
  | cons p d ih =>
    obtain ⟨k', v'⟩ := p
    simp only [keys, List.map_cons, List.nodup_cons] at hn
    rcases List.mem_cons.1 h with h | h
    · simp at h; simp [get?, h.1, h.2]
    · have h1 : k' ≠ k := by
        intro e; subst e
        exact hn.1 (List.mem_map_of_mem (f := (·.1)) h)
      simp [get?, h1, ih hn.2 h]

theorem get?_foldl_set (b a : Dict α) (k : String) (hn : (keys b).Nodup) :
    get? (b.foldl (fun acc p => set acc p.1 p.2) a) k = (get? b k).or (get? a k) := by
  induction b generalizing a with
  | nil => simp
  | cons p b ih =>
    obtain ⟨k', v'⟩ := p
    simp only [keys, List.map_cons, List.nodup_cons] at hn
    simp only [List.foldl_cons]
    rw [ih _ hn.2, get?_set]
    by_cases h1 : k' = k
    · subst h1
      have : get? b k' = none := (get?_eq_none_iff b k').2 hn.1
      simp [get?, this]
    · simp [get?, h1]

theorem get?_merge (a b : Dict α) (k : String) (hn : (keys b).Nodup) :
    get? (merge a b) k = (get? b k).or (get? a k) := get?_foldl_set b a k hn

theorem mem_keys_foldl_set (b a : Dict α) (k : String) :
    k ∈ keys (b.foldl (fun acc p => set acc p.1 p.2) a) ↔ k ∈ keys b ∨ k ∈ keys a := by
  induction b generalizing a with
  | nil => simp [keys]
  | cons p b ih =>
    simp only [List.foldl_cons, ih, mem_keys_set]
    simp [keys]
    grind

theorem mem_keys_merge (a b : Dict α) (k : String) : k ∈ keys (merge a b) ↔ k ∈ keys b ∨ k ∈ keys a :=
  mem_keys_foldl_set b a k

end Dict

section
variable {α : Type} [DecidableEq α]

theorem mem_setAdd (s : List α) (a x : α) : x ∈ setAdd s a ↔ x ∈ s ∨ x = a := by
  unfold setAdd; split <;> grind

theorem nodup_setAdd (s : List α) (a : α) (h : s.Nodup) : (setAdd s a).Nodup := by
  unfold setAdd; split
  · exact h
  · rw [List.nodup_append]; refine ⟨h, by simp, ?_⟩
    intro x hx b hb; simp at hb; subst hb; intro e; subst e; contradiction

end
end Turms
