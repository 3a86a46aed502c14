import Verif.Lemmas.Stylers
import Verif.Spec.Paths

/-! # Concatenations of capitalised words can be taken apart again -/

namespace Turms
open Spec

/-- an upper case letter followed by others -/
def IsWord (w : List Char) : Prop := ∃ c cs, w = c :: cs ∧ c.isUpper = true ∧ ∀ x ∈ cs, x.isUpper = false

/-- nothing, or something that begins with an upper case letter -/
def Stops (l : List Char) : Prop := ∀ c cs, l = c :: cs → c.isUpper = true

theorem Stops.nil : Stops [] := fun _ _ h => by cases h

theorem IsWord.stops {w rest : List Char} (h : IsWord w) : Stops (w ++ rest) := by
  obtain ⟨c, cs, rfl, hc, _⟩ := h
  intro d ds he
  cases he
  exact hc

theorem stops_join {ws : List (List Char)} (h : ∀ w ∈ ws, IsWord w) {x : List Char} (hx : Stops x) :
    Stops (ws.flatten ++ x) := by
  cases ws with
  | nil => exact hx
  | cons w ws =>
    rw [List.flatten_cons, List.append_assoc]
    exact (h w (by simp)).stops

/-- the tail of a word ends where the next word begins -/
theorem tails_eq {a b x y : List Char} (ha : ∀ c ∈ a, c.isUpper = false) (hb : ∀ c ∈ b, c.isUpper = false)
    (hx : Stops x) (hy : Stops y) (h : a ++ x = b ++ y) : a = b ∧ x = y := by
  induction a generalizing b with
  | nil =>
    cases b with
    | nil => exact ⟨rfl, h⟩
    | cons c cs =>
      have h1 := hx c (cs ++ y) h
      rw [hb c (by simp)] at h1
      cases h1
  | cons c cs ih =>
    cases b with
    | nil =>
      have h1 := hy c (cs ++ x) h.symm
      rw [ha c (by simp)] at h1
      cases h1
    | cons d ds =>
      rw [List.cons_append, List.cons_append, List.cons.injEq] at h
      obtain ⟨e1, e2⟩ := ih (fun z hz => ha z (by simp [hz])) (fun z hz => hb z (by simp [hz])) h.2
      exact ⟨by rw [h.1, e1], e2⟩

theorem words_eq {u v x y : List Char} (hu : IsWord u) (hv : IsWord v) (hx : Stops x) (hy : Stops y)
    (h : u ++ x = v ++ y) : u = v ∧ x = y := by
  obtain ⟨c, cs, rfl, _, hcs⟩ := hu
  obtain ⟨d, ds, rfl, _, hds⟩ := hv
  rw [List.cons_append, List.cons_append, List.cons.injEq] at h
  obtain ⟨e1, e2⟩ := tails_eq hcs hds hx hy h.2
  exact ⟨by rw [h.1, e1], e2⟩

/-- two lists of words with the same concatenation, up to what follows: one continues the other -/
theorem join_eq {p q : List (List Char)} {x y : List Char} (hp : ∀ w ∈ p, IsWord w) (hq : ∀ w ∈ q, IsWord w)
    (hx : Stops x) (hy : Stops y) (h : p.flatten ++ x = q.flatten ++ y) :
    (∃ t, q = p ++ t ∧ x = t.flatten ++ y) ∨ (∃ t, p = q ++ t ∧ y = t.flatten ++ x) := by
  induction p generalizing q with
  | nil => exact .inl ⟨q, rfl, h⟩
  | cons u p ih =>
    cases q with
    | nil => exact .inr ⟨u :: p, rfl, h.symm⟩
    | cons v q =>
      rw [List.flatten_cons, List.flatten_cons, List.append_assoc, List.append_assoc] at h
      obtain ⟨hv, h'⟩ := words_eq (hp u (by simp)) (hq v (by simp))
        (stops_join (fun w hw => hp w (by simp [hw])) hx) (stops_join (fun w hw => hq w (by simp [hw])) hy) h
      rcases ih (fun w hw => hp w (by simp [hw])) (fun w hw => hq w (by simp [hw])) h' with ⟨t, rfl, e⟩ | ⟨t, rfl, e⟩
      · exact .inl ⟨t, by rw [hv]; rfl, e⟩
      · exact .inr ⟨t, by rw [hv]; rfl, e⟩

/-- if a word list continued by something that stops begins with `w ++ tail`, its first word begins with `w` -/
theorem word_prefix {w : List Char} (hw : IsWord w) {ws : List (List Char)} (hws : ∀ v ∈ ws, IsWord v) {v z y : List Char}
    (hv : IsWord v) (hy : Stops y) (h : w ++ z = v ++ ws.flatten ++ y) : w <+: v := by
  obtain ⟨c, cs, rfl, hc, hcs⟩ := hw
  obtain ⟨d, ds, rfl, hd, hds⟩ := hv
  rw [List.append_assoc, List.cons_append, List.cons_append, List.cons.injEq] at h
  obtain ⟨rfl, h⟩ := h
  rw [List.cons_prefix_cons]
  refine ⟨rfl, ?_⟩
  have hs := stops_join hws hy
  generalize ws.flatten ++ y = rest at h hs
  clear hc hd
  induction cs generalizing ds with
  | nil => exact List.nil_prefix
  | cons a as ih =>
    cases ds with
    | nil =>
      have h1 := hs a (as ++ z) h.symm
      rw [hcs a (by simp)] at h1
      cases h1
    | cons b bs =>
      rw [List.cons_append, List.cons_append, List.cons.injEq] at h
      obtain ⟨rfl, h⟩ := h
      rw [List.cons_prefix_cons]
      exact ⟨rfl, ih (fun x hx => hcs x (by simp [hx])) bs (fun x hx => hds x (by simp [hx])) h⟩

/-! ## capitalised keys -/

theorem pyCapitalize_toList (k : String) :
    (pyCapitalize k).toList = match k.toList with
      | [] => []
      | c :: cs => c.toUpper :: cs.map Char.toLower := by
  unfold pyCapitalize
  cases k.toList <;> simp

theorem toUpper_isUpper {c : Char} (h : c.isAlpha = true) : c.toUpper.isUpper = true := by
  unfold Char.toUpper
  split
  · rename_i h'
    simp [Char.isUpper]
    grind
  · rename_i h'
    simp [Char.isAlpha, Char.isUpper, Char.isLower] at *
    grind

theorem toLower_toUpper (c : Char) : c.toUpper.toLower = c.toLower := by
  by_cases hl : c.isLower = true
  · have hnu := lower_not_upper hl
    rw [toLower_of_not_upper hnu]
    have hu : c.toUpper.isUpper = true := toUpper_isUpper (by simp [Char.isAlpha, hl])
    simp [Char.isLower, UInt32.le_iff_toNat_le] at hl
    unfold Char.toUpper at *
    split
    · rename_i h'
      unfold Char.toLower
      simp only [] 
      split
      · apply Char.ext
        apply UInt32.toNat_inj.1
        simp
        grind
      · rename_i h''
        simp at h''
        grind
    · grind
  · have : c.toUpper = c := by
      unfold Char.toUpper
      split
      · rename_i h'
        simp [Char.isLower] at hl
        grind
      · rfl
    rw [this]

theorem isWord_capitalize {k : String} (h : k.toList.head?.any Char.isAlpha = true) :
    IsWord (pyCapitalize k).toList := by
  have : ∃ c cs, k.toList = c :: cs ∧ c.isAlpha = true := by
    cases hk : k.toList with
    | nil => rw [hk] at h; cases h
    | cons c cs => rw [hk] at h; exact ⟨c, cs, rfl, h⟩
  obtain ⟨c, cs, hk, hc⟩ := this
  rw [pyCapitalize_toList, hk]
  refine ⟨_, _, rfl, toUpper_isUpper hc, ?_⟩
  intro x hx
  obtain ⟨y, _, rfl⟩ := List.mem_map.1 hx
  exact toLower_not_upper y

/-- capitalising keeps a key up to case -/
theorem caseless_capitalize (k : String) : (pyCapitalize k).toList.map Char.toLower = caseless k := by
  rw [pyCapitalize_toList]
  unfold caseless
  cases k.toList with
  | nil => rfl
  | cons c cs =>
    simp only [List.map_cons, toLower_toUpper, List.map_map]
    congr 1
    apply List.map_congr_left
    intro x _
    exact toLower_of_not_upper (toLower_not_upper x)

/-! ## names in camel case -/

theorem humps_flatten (l : List Char) : (humps l).flatten = l := by
  induction l with
  | nil => rfl
  | cons c cs ih =>
    unfold humps
    split
    · rename_i h
      rw [h] at ih
      rw [← ih]
      rfl
    · rename_i w ws h
      rw [h] at ih
      split <;> simp [← ih]

theorem humps_cons {l w : List Char} {ws : List (List Char)} (h : humps l = w :: ws) :
    (∀ v ∈ ws, IsWord v) ∧ ∃ c cs, w = c :: cs ∧ l.head? = some c ∧ ∀ x ∈ cs, x.isUpper = false := by
  induction l generalizing w ws with
  | nil => cases h
  | cons c cs ih =>
    unfold humps at h
    split at h
    · cases h
      exact ⟨by simp, c, [], rfl, rfl, by simp⟩
    · rename_i v vs hv
      obtain ⟨h1, d, ds, rfl, hd, hds⟩ := ih hv
      split at h
      · rename_i hu
        cases h
        refine ⟨?_, c, [], rfl, rfl, by simp⟩
        intro x hx
        rcases List.mem_cons.1 hx with rfl | hx
        · exact ⟨d, ds, rfl, by simpa using hu, hds⟩
        · exact h1 x hx
      · rename_i hu
        cases h
        refine ⟨h1, c, d :: ds, rfl, rfl, ?_⟩
        intro x hx
        rcases List.mem_cons.1 hx with rfl | hx
        · simpa using hu
        · exact hds x hx

theorem humps_words {l : List Char} (h : l.head?.any Char.isUpper = true) : ∀ w ∈ humps l, IsWord w := by
  cases hl : humps l with
  | nil => intro w hw; cases hw
  | cons w ws =>
    obtain ⟨h1, c, cs, rfl, hc, hcs⟩ := humps_cons hl
    rw [hc] at h
    intro v hv
    rcases List.mem_cons.1 hv with rfl | hv
    · exact ⟨c, cs, rfl, by simpa using h, hcs⟩
    · exact h1 v hv

end Turms
