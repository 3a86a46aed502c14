import Verif.Lemmas.SyntaxPrint

/-!
# Reading the tokens of a syntax tree gives it back
-/

namespace Turms.Syntax
open Turms.Spec Turms.Spec.Lex Turms.Spec.Syntax Turms.Documents

theorem next_punct (c d : Char) (r : List Token) : next c (.punct d :: r) = (d == c) := by
  unfold next
  rw [List.head?_cons]
  by_cases h : d = c
  · subst h; simp
  · have h1 : (d == c) = false := by simpa using h
    rw [h1]
    cases hb : (some (Token.punct d) == some (Token.punct c)) with
    | false => rfl
    | true => rw [beq_iff_eq, Option.some.injEq, Token.punct.injEq] at hb; exact absurd hb h

theorem next_name (c : Char) (s : List Char) (r : List Token) : next c (.name s :: r) = false := by
  simp [next]

theorem next_spread (c : Char) (r : List Token) : next c (.spread :: r) = false := by
  simp [next]

theorem ofList_toList (s : String) : String.ofList s.toList = s := by simp

theorem toList_eq {s t : String} (h : s.toList = t.toList) : s = t := by
  rw [← ofList_toList s, h, ofList_toList]

/-- the first token does not close a list -/
theorem tokValue_head (v : Value) : ∃ t r, tokValue v = t :: r ∧ t ≠ .punct ']' := by
  cases v <;> rw [tokValue] <;> exact ⟨_, _, rfl, by simp⟩

theorem tokValue_pos (v : Value) : 1 ≤ (tokValue v).length := by
  obtain ⟨t, r, h, _⟩ := tokValue_head v
  rw [h]; simp

theorem next_value (v : Value) (r : List Token) : next ']' (tokValue v ++ r) = false := by
  obtain ⟨t, q, h, ht⟩ := tokValue_head v
  rw [h, List.cons_append]
  unfold next
  rw [List.head?_cons]
  cases hb : (some t == some (Token.punct ']')) with
  | false => rfl
  | true => rw [beq_iff_eq, Option.some.injEq] at hb; exact absurd hb ht

theorem number_int {t : String} (h : isNumber false t = true) : number t.toList = .int t := by
  unfold isNumber at h
  split at h
  · cases h
  rename_i c cs hs
  simp only [Bool.and_eq_true, Bool.false_and, Bool.or_false] at h
  obtain ⟨⟨hc, hcs⟩, _⟩ := h
  have hd : ∀ d, isDigit d = true → (d == '.' || d == 'e' || d == 'E') = false := by
    intro d hd
    cases hb : (d == '.' || d == 'e' || d == 'E') with
    | false => rfl
    | true =>
      simp only [Bool.or_eq_true, beq_iff_eq] at hb
      rcases hb with (hb | hb) | hb <;> (subst hb; exact absurd hd (by decide))
  have hany : t.toList.any (fun c => c == '.' || c == 'e' || c == 'E') = false := by
    rw [hs, List.any_cons, Bool.or_eq_false_iff]
    constructor
    · rcases Bool.or_eq_true _ _ ▸ hc with h | h
      · exact hd c h
      · have : c = '-' := by simpa using h
        subst this; decide
    · rw [List.any_eq_false]
      intro d hm
      rw [hd d (List.all_eq_true.1 hcs d hm)]
      simp
  unfold number
  rw [hany]
  simp

theorem number_float {t : String} (h : isNumber true t = true) : number t.toList = .float t := by
  unfold isNumber at h
  split at h
  · cases h
  rename_i c cs hs
  simp only [Bool.and_eq_true, Bool.not_true, Bool.false_or] at h
  unfold number
  rw [if_pos, ofList_toList]
  rw [hs, List.any_cons, h.2, Bool.or_true]

theorem word_enum {n : String} (h1 : n ≠ "true") (h2 : n ≠ "false") (h3 : n ≠ "null") : word n.toList = .enum n := by
  unfold word
  rw [if_neg (fun h => h1 (toList_eq h)), if_neg (fun h => h2 (toList_eq h)), if_neg (fun h => h3 (toList_eq h)),
    ofList_toList]

mutual
theorem value_tok : ∀ (v : Value), goodValue v = true → ∀ (n : Nat) (r : List Token), (tokValue v).length ≤ n →
    value n (tokValue v ++ r) = some (v, r)
  | v, _, 0, r, hn => absurd hn (by have := tokValue_pos v; omega)
  | .variable s, _, n + 1, r, _ => by
    rw [tokValue, List.cons_append, List.cons_append, List.nil_append, value, ofList_toList]
  | .int t, h, n + 1, r, _ => by
    rw [goodValue] at h
    rw [tokValue, List.cons_append, List.nil_append, value, number_int h]
  | .float t, h, n + 1, r, _ => by
    rw [goodValue] at h
    rw [tokValue, List.cons_append, List.nil_append, value, number_float h]
  | .string t, _, n + 1, r, _ => by
    rw [tokValue, List.cons_append, List.nil_append, value, ofList_toList]
  | .bool b, _, n + 1, r, _ => by
    rw [tokValue, List.cons_append, List.nil_append, value]
    cases b <;> rfl
  | .null, _, n + 1, r, _ => by
    rw [tokValue, List.cons_append, List.nil_append, value]
    rfl
  | .enum s, h, n + 1, r, _ => by
    rw [goodValue] at h
    simp only [Bool.and_eq_true, bne_iff_ne, ne_eq] at h
    rw [tokValue, List.cons_append, List.nil_append, value, word_enum h.1.1.2 h.1.2 h.2]
  | .list l, h, n + 1, r, hn => by
    rw [goodValue] at h
    rw [tokValue] at hn ⊢
    simp only [List.length_cons, List.length_append, List.length_nil] at hn
    rw [List.cons_append, List.append_assoc, value]
    simp only [List.cons_append, List.nil_append]
    rw [values_tok l h n r (by omega)]
    rfl
  | .object l, h, n + 1, r, hn => by
    rw [goodValue] at h
    rw [tokValue] at hn ⊢
    simp only [List.length_cons, List.length_append, List.length_nil] at hn
    rw [List.cons_append, List.append_assoc, value]
    simp only [List.cons_append, List.nil_append]
    rw [fields_tok '}' l h n r (by omega)]
    rfl
theorem values_tok : ∀ (l : List Value), goodValues l = true → ∀ (n : Nat) (r : List Token),
    (tokValues l).flatten.length + 1 ≤ n → values n ((tokValues l).flatten ++ .punct ']' :: r) = some (l, r)
  | _, _, 0, _, hn => absurd hn (by omega)
  | [], _, n + 1, r, _ => by
    rw [tokValues, List.flatten_nil, List.nil_append, values, next_punct]
    rfl
  | v :: l, h, n + 1, r, hn => by
    rw [goodValues] at h
    simp only [Bool.and_eq_true] at h
    rw [tokValues] at hn ⊢
    rw [List.flatten_cons] at hn ⊢
    rw [List.length_append] at hn
    have := tokValue_pos v
    rw [List.append_assoc, values, next_value, value_tok v h.1 n _ (by omega)]
    simp only [Bool.false_eq_true, if_false]
    rw [values_tok l h.2 n r (by omega)]
    rfl
theorem fields_tok (close : Char) : ∀ (l : List (String × Value)), goodFields l = true → ∀ (n : Nat) (r : List Token),
    (tokFields l).flatten.length + 1 ≤ n →
    fields close n ((tokFields l).flatten ++ .punct close :: r) = some (l, r)
  | _, _, 0, _, hn => absurd hn (by omega)
  | [], _, n + 1, r, _ => by
    rw [tokFields, List.flatten_nil, List.nil_append, fields, next_punct]
    simp
  | (f, v) :: l, h, n + 1, r, hn => by
    rw [goodFields] at h
    simp only [Bool.and_eq_true] at h
    rw [tokFields] at hn ⊢
    rw [List.flatten_cons] at hn ⊢
    simp only [List.length_append, List.length_cons] at hn
    rw [List.append_assoc, List.cons_append, List.cons_append, fields, next_name]
    simp only [Bool.false_eq_true, if_false, takeKey]
    rw [value_tok v h.1.2 n _ (by omega)]
    simp only
    rw [fields_tok close l h.2 n r (by omega), ofList_toList]
    rfl
end

theorem arguments_tok (args : List (String × Value)) (h : goodFields args = true) (n : Nat) (r : List Token)
    (hn : (tokArgs args).length ≤ n) (hr : next '(' r = false) :
    arguments n (tokArgs args ++ r) = some (args, r) := by
  unfold tokArgs at hn ⊢
  unfold arguments
  cases args with
  | nil => simp [hr]
  | cons a args =>
    simp only [List.isEmpty_cons, Bool.false_eq_true, if_false, List.length_cons, List.length_append,
      List.length_nil] at hn ⊢
    rw [List.cons_append, next_punct, List.append_assoc]
    simp only [beq_self_eq_true, if_true, List.tail_cons, List.cons_append, List.nil_append]
    rw [fields_tok ')' (a :: args) h n r (by omega)]

theorem tokSel_head (s : Sel) : ∃ t r, tokSel s = t :: r ∧ (t = .spread ∨ ∃ n, t = .name n) := by
  cases s with
  | field n a args sub =>
    rw [tokSel]
    cases a
    · exact ⟨_, _, rfl, .inr ⟨_, rfl⟩⟩
    · exact ⟨_, _, rfl, .inr ⟨_, rfl⟩⟩
  | spread n => rw [tokSel]; exact ⟨_, _, rfl, .inl rfl⟩
  | inline t sub => rw [tokSel]; exact ⟨_, _, rfl, .inl rfl⟩

theorem tokSel_pos (s : Sel) : 1 ≤ (tokSel s).length := by
  obtain ⟨t, r, h, _⟩ := tokSel_head s
  rw [h]; simp

theorem next_sel (c : Char) (s : Sel) (r : List Token) : next c (tokSel s ++ r) = false := by
  obtain ⟨t, q, h, ht⟩ := tokSel_head s
  rw [h, List.cons_append]
  rcases ht with rfl | ⟨n, rfl⟩
  · exact next_spread _ _
  · exact next_name _ _ _

/-- what follows a selection: another selection, or the end of the selection set -/
def Follows (r : List Token) : Prop := ∀ c, c ≠ '}' → next c r = false

theorem follows_close (r : List Token) : Follows (.punct '}' :: r) := by
  intro c hc
  rw [next_punct]
  cases hb : ('}' == c) with
  | false => rfl
  | true => rw [beq_iff_eq] at hb; exact absurd hb.symm hc

theorem follows_sels (l : List Sel) (r : List Token) : Follows ((tokSels l).flatten ++ .punct '}' :: r) := by
  cases l with
  | nil => rw [tokSels]; exact follows_close r
  | cons s l =>
    intro c _
    rw [tokSels, List.flatten_cons, List.append_assoc]
    exact next_sel c s _

theorem fieldRest_tok (f : String) (a : Option String) (args : List (String × Value)) (sub : List Sel)
    (hargs : goodFields args = true) (n : Nat) (r : List Token) (hr : Follows r)
    (hn : (tokArgs args).length + 1 ≤ n)
    (hsub : sub.isEmpty = false → selectionSet (n - 1) (tokSet sub ++ r) = some (sub, r)) :
    fieldRest n f a (tokArgs args ++ ((if sub.isEmpty then [] else tokSet sub) ++ r)) =
      some (.field f a args sub, r) := by
  cases n with
  | zero => exact absurd hn (by omega)
  | succ n =>
    rw [fieldRest]
    cases sub with
    | nil =>
      simp only [List.isEmpty_nil, if_true, List.nil_append]
      rw [arguments_tok args hargs n r (by omega) (hr '(' (by decide))]
      simp only
      rw [hr '{' (by decide)]
      rfl
    | cons s l =>
      have h := hsub rfl
      simp only [List.isEmpty_cons, Bool.false_eq_true, if_false, Nat.add_sub_cancel] at h ⊢
      have hnext : next '{' (tokSet (s :: l) ++ r) = true := by
        unfold tokSet; rw [List.cons_append, next_punct]; rfl
      have hnext' : next '(' (tokSet (s :: l) ++ r) = false := by
        unfold tokSet; rw [List.cons_append, next_punct]; rfl
      rw [arguments_tok args hargs n _ (by omega) hnext']
      simp only
      rw [hnext, if_pos rfl, h]
      rfl

theorem tokSet_length (l : List Sel) : (tokSet l).length = (tokSels l).flatten.length + 2 := by
  unfold tokSet; simp

theorem tokSel_field (n : String) (a : Option String) (args : List (String × Value)) (sub : List Sel) :
    tokSel (.field n a args sub) = tokHead n a ++ (tokArgs args ++ (if sub.isEmpty then [] else tokSet sub)) := by
  rw [tokSel]; rfl

theorem tokSel_inline (t : Option String) (sub : List Sel) :
    tokSel (.inline t sub) = .spread :: (tokCondition t ++ tokSet sub) := by
  rw [tokSel]; rfl

mutual
theorem selection_tok : ∀ (s : Sel), goodSel s = true → ∀ (n : Nat) (r : List Token), 2 * (tokSel s).length ≤ n →
    Follows r → selection n (tokSel s ++ r) = some (s, r)
  | s, _, 0, r, hn, _ => absurd hn (by have := tokSel_pos s; omega)
  | .field f a args sub, h, n + 1, r, hn, hr => by
    rw [goodSel] at h
    simp only [Bool.and_eq_true] at h
    have hsub := selectionSet_tok sub h.2
    rw [tokSel_field] at hn ⊢
    have hlen : (tokArgs args).length + (if sub.isEmpty then ([] : List Token) else tokSet sub).length + 1 ≤
        (tokHead f a ++ (tokArgs args ++ (if sub.isEmpty then [] else tokSet sub))).length := by
      simp only [List.length_append]
      cases a <;> simp only [tokHead, List.length_cons, List.length_nil] <;> omega
    have key := fun a => fieldRest_tok f a args sub h.1.2 n r hr (by omega) (fun he => by
      rw [he] at hlen hn
      simp only [Bool.false_eq_true, if_false] at hlen hn
      rw [tokSet_length] at hlen
      refine hsub (n - 1) r (by omega) (fun hc => ?_)
      rw [hc] at he; cases he)
    cases a with
    | none =>
      rw [tokHead, List.append_assoc, List.cons_append, List.nil_append, List.append_assoc, selection, ofList_toList]
      rw [if_neg]
      · exact key none
      · have : next ':' (tokArgs args ++ ((if sub.isEmpty then [] else tokSet sub) ++ r)) = false := by
          unfold tokArgs
          split
          · split
            · exact hr ':' (by decide)
            · unfold tokSet; rw [List.nil_append, List.cons_append, next_punct]; rfl
          · rw [List.cons_append, next_punct]; rfl
        rw [this]; simp
    | some a =>
      rw [tokHead, List.append_assoc, List.cons_append, List.cons_append, List.cons_append, List.nil_append,
        List.append_assoc, selection, next_punct]
      simp only [beq_self_eq_true, if_true, List.tail_cons, takeName]
      rw [ofList_toList, ofList_toList]
      exact key (some a)
  | .spread s, h, n + 1, r, _, _ => by
    rw [goodSel] at h
    simp only [Bool.and_eq_true, bne_iff_ne, ne_eq] at h
    rw [tokSel, List.cons_append, List.cons_append, List.nil_append, selection,
      if_neg (fun he => h.2 (toList_eq he)), ofList_toList]
  | .inline t sub, h, n + 1, r, hn, _ => by
    rw [goodSel] at h
    simp only [Bool.and_eq_true, Bool.not_eq_true'] at h
    have hne : sub ≠ [] := by
      intro he; rw [he] at h; exact absurd h.1.2 (by simp)
    rw [tokSel_inline] at hn ⊢
    have hl := tokSet_length sub
    simp only [List.length_cons, List.length_append] at hn
    have key := selectionSet_tok sub h.2 n r (by omega) hne
    cases t with
    | none =>
      rw [tokCondition, List.nil_append, List.cons_append, selection, key]
      · rfl
      · intro s q he
        unfold tokSet at he
        rw [List.cons_append] at he
        cases he
    | some t =>
      rw [tokCondition]
      simp only [List.cons_append, List.nil_append]
      rw [selection, if_pos rfl]
      simp only [takeName]
      rw [key, ofList_toList]
      rfl
theorem selectionSet_tok : ∀ (l : List Sel), goodSels l = true → ∀ (n : Nat) (r : List Token),
    2 * (tokSels l).flatten.length + 2 ≤ n → l ≠ [] → selectionSet n (tokSet l ++ r) = some (l, r)
  | l, h, 0, r, hn, _ => absurd hn (by omega)
  | l, h, n + 1, r, hn, hne => by
    rw [selectionSet]
    unfold tokSet
    rw [List.cons_append, next_punct, List.append_assoc]
    simp only [beq_self_eq_true, if_true, List.tail_cons, List.cons_append, List.nil_append]
    rw [selections_tok l h n r (by omega)]
    cases l with
    | nil => exact absurd rfl hne
    | cons s l => rfl
theorem selections_tok : ∀ (l : List Sel), goodSels l = true → ∀ (n : Nat) (r : List Token),
    2 * (tokSels l).flatten.length + 1 ≤ n →
    selections n ((tokSels l).flatten ++ .punct '}' :: r) = some (l, r)
  | l, _, 0, r, hn => absurd hn (by omega)
  | [], _, n + 1, r, _ => by
    rw [tokSels, List.flatten_nil, List.nil_append, selections, next_punct]
    rfl
  | s :: l, h, n + 1, r, hn => by
    rw [goodSels] at h
    simp only [Bool.and_eq_true] at h
    rw [tokSels] at hn ⊢
    rw [List.flatten_cons] at hn ⊢
    rw [List.length_append] at hn
    have := tokSel_pos s
    rw [List.append_assoc, selections, next_sel, selection_tok s h.1 n _ (by omega) (follows_sels l r)]
    simp only [Bool.false_eq_true, if_false]
    rw [selections_tok l h.2 n r (by omega)]
    rfl
end

end Turms.Syntax
