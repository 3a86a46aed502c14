import Verif.Spec.Syntax
import Verif.Lemmas.Embed

/-!
# The tokens of printed documents
-/

namespace Turms.Syntax
open Turms.Spec Turms.Spec.Lex Turms.Spec.Syntax Turms.Documents

/-- tokens in front of what the lexer finds -/
def pre (ts : List Token) (o : Option (List Token × State)) : Option (List Token × State) :=
  o.map fun x => (ts ++ x.1, x.2)

theorem pre_nil (o : Option (List Token × State)) : pre [] o = o := by
  cases o <;> rfl

theorem pre_pre (a b : List Token) (o : Option (List Token × State)) : pre a (pre b o) = pre (a ++ b) o := by
  cases o <;> simp [pre]

theorem run_cons {s : State} {c : Char} {cs : List Char} {ts : List Token} {s1 : State} (h : step s c = some (ts, s1)) :
    run s (c :: cs) = pre ts (run s1 cs) := by
  rw [run, h]; rfl

/-- `k` levels of indentation -/
def ind (k : Nat) (cs : List Char) : List Char :=
  cs.flatMap fun c => if c = '\n' then '\n' :: List.replicate (2 * k) ' ' else [c]

theorem ind_append (k : Nat) (a b : List Char) : ind k (a ++ b) = ind k a ++ ind k b := by
  simp [ind]

theorem ind_cons (k : Nat) (c : Char) (b : List Char) :
    ind k (c :: b) = (if c = '\n' then '\n' :: List.replicate (2 * k) ' ' else [c]) ++ ind k b := by
  simp [ind]

theorem ind_plain {cs : List Char} (h : ∀ c ∈ cs, c ≠ '\n') (k : Nat) : ind k cs = cs := by
  induction cs with
  | nil => rfl
  | cons c cs ih =>
    rw [ind_cons, if_neg (h c (by simp)), ih (fun d hd => h d (by simp [hd]))]
    rfl

theorem ind_zero (cs : List Char) : ind 0 cs = cs := by
  induction cs with
  | nil => rfl
  | cons c cs ih =>
    rw [ind_cons, ih]
    by_cases hc : c = '\n'
    · subst hc; rfl
    · rw [if_neg hc]; rfl

theorem ind_indent (k : Nat) (cs : List Char) : ind k (indentLines cs) = ind (k + 1) cs := by
  induction cs with
  | nil => rfl
  | cons c cs ih =>
    by_cases hc : c = '\n'
    · subst hc
      rw [indentLines, ind_cons, ind_cons, ind_cons, ind_cons, if_pos rfl, if_neg (by decide), ih, if_pos rfl]
      have : List.replicate (2 * (k + 1)) ' ' = List.replicate (2 * k) ' ' ++ [' ', ' '] := by
        rw [show 2 * (k + 1) = 2 * k + 1 + 1 by omega, List.replicate_succ', List.replicate_succ']; simp
      rw [this]
      simp
    · rw [indent_cons_ne _ hc, ind_cons, ind_cons, if_neg hc, if_neg hc, ih]

def safe (c : Char) : Bool := isIgnored c || isPunct c

def SafeHead (b : List Char) : Prop := ∃ c r, b = c :: r ∧ safe c = true

theorem SafeHead.ind {b : List Char} (h : SafeHead b) (k : Nat) (rest : List Char) : SafeHead (ind k b ++ rest) := by
  obtain ⟨c, r, rfl, hc⟩ := h
  rw [ind_cons]
  by_cases h : c = '\n'
  · rw [if_pos h]; exact ⟨'\n', _, rfl, by decide⟩
  · rw [if_neg h]; exact ⟨c, _, rfl, hc⟩

theorem SafeHead.append {b : List Char} (h : SafeHead b) (rest : List Char) : SafeHead (b ++ rest) := by
  obtain ⟨c, r, rfl, hc⟩ := h
  exact ⟨c, r ++ rest, rfl, hc⟩

/-- whatever follows, at any indentation, the text is read as these tokens -/
def Closed (cs : List Char) (ts : List Token) : Prop :=
  ∀ k rest, run .between (ind k cs ++ rest) = pre ts (run .between rest)

/-- the same, if a delimiter follows -/
def Open (cs : List Char) (ts : List Token) : Prop :=
  ∀ k rest, SafeHead rest → run .between (ind k cs ++ rest) = pre ts (run .between rest)

theorem Closed.isOpen {cs : List Char} {ts : List Token} (h : Closed cs ts) : Open cs ts := fun k rest _ => h k rest

theorem Closed.append {a b : List Char} {ts us : List Token} (ha : Closed a ts) (hb : Closed b us) :
    Closed (a ++ b) (ts ++ us) := by
  intro k rest
  rw [ind_append, List.append_assoc, ha, hb, pre_pre]

theorem Closed.opens {a b : List Char} {ts us : List Token} (ha : Closed a ts) (hb : Open b us) :
    Open (a ++ b) (ts ++ us) := by
  intro k rest hr
  rw [ind_append, List.append_assoc, ha, hb k rest hr, pre_pre]

theorem Open.append {a b : List Char} {ts us : List Token} (ha : Open a ts) (hb : Open b us) (hs : SafeHead b) :
    Open (a ++ b) (ts ++ us) := by
  intro k rest hr
  rw [ind_append, List.append_assoc, ha k _ (hs.ind k rest), hb k rest hr, pre_pre]

theorem Open.closes {a b : List Char} {ts us : List Token} (ha : Open a ts) (hb : Closed b us) (hs : SafeHead b) :
    Closed (a ++ b) (ts ++ us) := by
  intro k rest
  rw [ind_append, List.append_assoc, ha k _ (hs.ind k rest), hb k rest, pre_pre]

theorem Open.indent {a : List Char} {ts : List Token} (ha : Open a ts) : Open (indentLines a) ts := by
  intro k rest hr
  rw [ind_indent]
  exact ha (k + 1) rest hr

theorem closed_nil : Closed [] [] := by
  intro k rest
  rw [pre_nil]; rfl

theorem open_nil : Open [] [] := closed_nil.isOpen

theorem closed_ignored {c : Char} (h : isIgnored c = true) (hc : c ≠ '\n') : Closed [c] [] := by
  intro k rest
  rw [ind_cons, if_neg hc]
  exact run_cons (by rw [step, start, if_pos h])

theorem run_spaces (n : Nat) (rest : List Char) :
    run .between (List.replicate n ' ' ++ rest) = run .between rest := by
  induction n with
  | zero => rfl
  | succ n ih =>
    rw [List.replicate_succ, List.cons_append, run_cons (ts := []) (s1 := .between) (by rfl), pre_nil, ih]

theorem closed_newline : Closed ['\n'] [] := by
  intro k rest
  rw [ind_cons, if_pos rfl]
  show run .between ('\n' :: (List.replicate (2 * k) ' ' ++ ind k [] ++ rest)) = _
  rw [run_cons (ts := []) (s1 := .between) (by rfl), List.append_assoc, run_spaces]
  rfl

theorem closed_space : Closed [' '] [] := closed_ignored (by decide) (by decide)

theorem closed_comma : Closed [',', ' '] [] := (closed_ignored (c := ',') (by decide) (by decide)).append closed_space

theorem closed_punct {c : Char} (h : step .between c = some ([.punct c], .between)) (hc : c ≠ '\n') :
    Closed [c] [.punct c] := by
  intro k rest
  rw [ind_cons, if_neg hc]
  exact run_cons h

theorem closed_spread : Closed ['.', '.', '.'] [.spread] := by
  intro k rest
  rw [ind_plain (by decide)]
  show run .between ('.' :: '.' :: '.' :: rest) = _
  rw [run_cons (ts := []) (s1 := .dot1) (by rfl), run_cons (ts := []) (s1 := .dot2) (by rfl),
    run_cons (ts := [.spread]) (s1 := .between) (by rfl), pre_nil, pre_nil]

theorem run_end (t : Token) (s : State) {c : Char} (h : step s c = endToken t c) (r : List Char) :
    run s (c :: r) = pre [t] (run .between (c :: r)) := by
  rw [run, run, h, endToken, step]
  cases start c with
  | none => rfl
  | some x =>
    obtain ⟨ts, s1⟩ := x
    simp only [Option.map_some]
    cases run s1 r <;> simp [pre]

theorem safe_cases {c : Char} (h : safe c = true) :
    c = '\n' ∨ c = '\r' ∨ c = ' ' ∨ c = '\t' ∨ c = ',' ∨ c = '﻿' ∨ c ∈ "!$&():=@[]{|}".toList := by
  unfold safe isIgnored isNewline isPunct at h
  simp only [Bool.or_eq_true, beq_iff_eq, List.contains_iff_mem] at h
  rcases h with ((((h | h) | h) | h) | h) | h
  · rcases h with h | h
    · exact .inl h
    · exact .inr (.inl h)
  · exact .inr (.inr (.inl h))
  · exact .inr (.inr (.inr (.inl h)))
  · exact .inr (.inr (.inr (.inr (.inl h))))
  · exact .inr (.inr (.inr (.inr (.inr (.inl h)))))
  · exact .inr (.inr (.inr (.inr (.inr (.inr h)))))

theorem safe_delim {c : Char} (h : safe c = true) :
    isNameChar c = false ∧ c ≠ '.' ∧ c ≠ '+' ∧ c ≠ '-' ∧ c ≠ '"' := by
  have key : ∀ d ∈ ['\n', '\r', ' ', '\t', ',', '﻿'] ++ "!$&():=@[]{|}".toList,
      isNameChar d = false ∧ d ≠ '.' ∧ d ≠ '+' ∧ d ≠ '-' ∧ d ≠ '"' := by decide
  apply key
  rcases safe_cases h with h | h | h | h | h | h | h
  · subst h; decide
  · subst h; decide
  · subst h; decide
  · subst h; decide
  · subst h; decide
  · subst h; decide
  · exact List.mem_append_right _ h

theorem run_name (cs rev rest : List Char) (h : cs.all isNameChar = true) (hr : SafeHead rest) :
    run (.name rev) (cs ++ rest) = pre [.name (rev.reverse ++ cs)] (run .between rest) := by
  induction cs generalizing rev with
  | nil =>
    obtain ⟨c, r, rfl, hc⟩ := hr
    rw [List.nil_append, run_end (.name rev.reverse) (.name rev) (by rw [step, (safe_delim hc).1]; rfl),
      List.append_nil]
  | cons c cs ih =>
    simp only [List.all_cons, Bool.and_eq_true] at h
    rw [List.cons_append, run_cons (ts := []) (s1 := .name (c :: rev)) (by rw [step, if_pos h.1]), pre_nil, ih _ h.2]
    simp

theorem run_number (cs rev rest : List Char)
    (h : cs.all (fun c => isNameChar c || c == '.' || c == '+' || c == '-') = true) (hr : SafeHead rest) :
    run (.number rev) (cs ++ rest) = pre [.number (rev.reverse ++ cs)] (run .between rest) := by
  induction cs generalizing rev with
  | nil =>
    obtain ⟨c, r, rfl, hc⟩ := hr
    obtain ⟨h1, h2, h3, h4, _⟩ := safe_delim hc
    rw [List.nil_append, run_end (.number rev.reverse) (.number rev) (by simp [step, h1, h2, h3, h4]),
      List.append_nil]
  | cons c cs ih =>
    simp only [List.all_cons, Bool.and_eq_true] at h
    rw [List.cons_append, run_cons (ts := []) (s1 := .number (c :: rev)) (by rw [step, if_pos h.1]), pre_nil, ih _ h.2]
    simp

theorem notSafe_of_nameChar {c : Char} (h : isNameChar c = true) : safe c = false := by
  cases hs : safe c with
  | false => rfl
  | true => rw [(safe_delim hs).1] at h; cases h

theorem newline_safe : safe '\n' = true := by decide

theorem isName_parts {s : String} (h : isName s = true) :
    ∃ c cs, s.toList = c :: cs ∧ isNameStart c = true ∧ cs.all isNameChar = true := by
  unfold isName at h
  split at h
  · cases h
  · rename_i c cs hs
    simp only [Bool.and_eq_true] at h
    exact ⟨c, cs, hs, h.1, h.2⟩

theorem start_name {c : Char} (h : isNameStart c = true) : start c = some ([], .name [c]) := by
  have hs := notSafe_of_nameChar (c := c) (by unfold isNameChar; rw [h]; rfl)
  unfold safe at hs
  rw [Bool.or_eq_false_iff] at hs
  unfold start
  rw [hs.1, hs.2, h]
  rfl

theorem open_name {s : String} (h : isName s = true) : Open s.toList [.name s.toList] := by
  intro k rest hr
  obtain ⟨c, cs, hs, hc, hcs⟩ := isName_parts h
  have hn : ∀ d ∈ s.toList, d ≠ '\n' := by
    rw [hs]
    intro d hd he
    subst he
    have : isNameChar '\n' = true := by
      rcases List.mem_cons.1 hd with hd | hd
      · rw [← hd] at hc; unfold isNameChar; rw [hc]; rfl
      · exact List.all_eq_true.1 hcs _ hd
    exact absurd this (by decide)
  rw [ind_plain hn, hs, List.cons_append, run_cons (ts := []) (s1 := .name [c]) (by rw [step, start_name hc]), pre_nil,
    run_name cs [c] rest hcs hr]
  rfl

theorem digit_nameChar {c : Char} (h : isDigit c = true) : isNameChar c = true := by
  unfold isNameChar; rw [h]; simp

theorem digit_range {c : Char} (h : isDigit c = true) : 48 ≤ c.val.toNat ∧ c.val.toNat ≤ 57 := by
  unfold isDigit at h
  simp only [Bool.and_eq_true, decide_eq_true_eq] at h
  exact ⟨h.1, h.2⟩

theorem digit_notNameStart {c : Char} (h : isDigit c = true) : isNameStart c = false := by
  have h1 := digit_range h
  cases hs : isNameStart c with
  | false => rfl
  | true =>
    unfold isNameStart at hs
    simp only [Bool.or_eq_true, Bool.and_eq_true, decide_eq_true_eq, beq_iff_eq] at hs
    rcases hs with (hs | hs) | hs
    · subst hs; exact absurd h (by decide)
    · have h2 : 97 ≤ c.val.toNat := hs.1; omega
    · have h2 : 65 ≤ c.val.toNat := hs.1; omega

theorem open_number {f : Bool} {s : String} (h : isNumber f s = true) : Open s.toList [.number s.toList] := by
  intro k rest hr
  unfold isNumber at h
  split at h
  · cases h
  rename_i c cs hs
  simp only [Bool.and_eq_true] at h
  obtain ⟨⟨hc, hcs⟩, _⟩ := h
  have hall : cs.all (fun c => isNameChar c || c == '.' || c == '+' || c == '-') = true := by
    rw [List.all_eq_true]
    intro d hd
    have := List.all_eq_true.1 hcs d hd
    simp only [Bool.or_eq_true, Bool.and_eq_true, beq_iff_eq] at this ⊢
    rcases this with h | ⟨_, (((h | h) | h) | h) | h⟩
    · exact .inl (.inl (.inl (digit_nameChar h)))
    · exact .inl (.inl (.inr h))
    · subst h; exact .inl (.inl (.inl (by decide)))
    · subst h; exact .inl (.inl (.inl (by decide)))
    · exact .inl (.inr h)
    · exact .inr h
  have hstart : start c = some ([], .number [c]) := by
    rcases Bool.or_eq_true _ _ ▸ hc with hd | hd
    · have hsafe := notSafe_of_nameChar (digit_nameChar hd)
      unfold safe at hsafe
      rw [Bool.or_eq_false_iff] at hsafe
      unfold start
      rw [hsafe.1, hsafe.2, digit_notNameStart hd, hd]
      rfl
    · have : c = '-' := by simpa using hd
      subst this; rfl
  have hn : ∀ d ∈ s.toList, d ≠ '\n' := by
    rw [hs]
    intro d hd he
    subst he
    rcases List.mem_cons.1 hd with hd | hd
    · rw [← hd] at hc; exact absurd hc (by decide)
    · exact absurd (List.all_eq_true.1 hall _ hd) (by decide)
  rw [ind_plain hn, hs, List.cons_append, run_cons (ts := []) (s1 := .number [c]) (by rw [step, hstart]), pre_nil,
    run_number cs [c] rest hall hr]
  rfl

theorem run_str (cs : List Char) : ∀ (rev rest : List Char), stringBody cs = true →
    run (.str rev) (cs ++ '"' :: rest) = pre [.str (rev.reverse ++ cs)] (run .between rest) := by
  induction cs using stringBody.induct with
  | case1 =>
    intro rev rest _
    rw [List.nil_append, run_cons (ts := [.str rev.reverse]) (s1 := .between) (by rfl), List.append_nil]
  | case2 c r ih =>
    intro rev rest h
    rw [stringBody] at h
    simp only [Bool.and_eq_true, Bool.not_eq_true'] at h
    rw [List.cons_append, List.cons_append, run_cons (ts := []) (s1 := .strEscape rev) (by rfl),
      run_cons (ts := []) (s1 := .str (c :: '\\' :: rev)) (by rw [step, h.1]; rfl), pre_nil, pre_nil, ih _ _ h.2]
    simp
  | case3 => intro rev rest h; cases h
  | case4 c r h1 h2 ih =>
    intro rev rest h
    rw [stringBody] at h
    · simp only [Bool.and_eq_true, Bool.not_eq_true', bne_iff_ne, ne_eq] at h
      have hb : c ≠ '\\' := by
        intro he
        cases r with
        | nil => exact h2 he rfl
        | cons d r => exact h1 d r he rfl
      rw [List.cons_append, run_cons (ts := []) (s1 := .str (c :: rev)) (by simp [step, h.1.1, h.1.2, hb]), pre_nil,
        ih _ _ h.2]
      simp
    · exact h1
    · exact h2

theorem body_plain (cs : List Char) (h : stringBody cs = true) : ∀ c ∈ cs, c ≠ '\n' := by
  induction cs using stringBody.induct with
  | case1 => intro c hc; cases hc
  | case2 c r ih =>
    rw [stringBody] at h
    simp only [Bool.and_eq_true, Bool.not_eq_true'] at h
    intro d hd he
    subst he
    rcases List.mem_cons.1 hd with hd | hd
    · exact absurd hd (by decide)
    · rcases List.mem_cons.1 hd with hd | hd
      · rw [← hd] at h; exact absurd h.1 (by decide)
      · exact ih h.2 _ hd rfl
  | case3 => cases h
  | case4 c r h1 h2 ih =>
    rw [stringBody] at h
    · simp only [Bool.and_eq_true, Bool.not_eq_true', bne_iff_ne, ne_eq] at h
      intro d hd he
      subst he
      rcases List.mem_cons.1 hd with hd | hd
      · rw [← hd] at h; exact absurd h.1.2 (by decide)
      · exact ih h.2 _ hd rfl
    · exact h1
    · exact h2

theorem open_str {cs : List Char} (h : stringBody cs = true) : Open ('"' :: (cs ++ ['"'])) [.str cs] := by
  intro k rest hr
  have hn : ∀ d ∈ '"' :: (cs ++ ['"']), d ≠ '\n' := by
    intro d hd he
    subst he
    simp only [List.mem_cons, List.mem_append, List.not_mem_nil, or_false] at hd
    rcases hd with hd | hd | hd
    · exact absurd hd (by decide)
    · exact body_plain cs h _ hd rfl
    · exact absurd hd (by decide)
  rw [ind_plain hn, List.cons_append, run_cons (ts := []) (s1 := .quote1) (by rfl), pre_nil, List.append_assoc]
  show run .quote1 (cs ++ '"' :: rest) = _
  cases cs with
  | nil =>
    obtain ⟨c, r, rfl, hc⟩ := hr
    rw [List.nil_append, run_cons (ts := []) (s1 := .quote2) (by rfl), pre_nil]
    exact run_end (.str []) .quote2 (by simp [step, (safe_delim hc).2.2.2.2]) r
  | cons c cs =>
    have hsame : run .quote1 (c :: cs ++ '"' :: rest) = run (.str []) (c :: cs ++ '"' :: rest) := by
      have hq : c ≠ '"' := by
        intro he
        subst he
        rw [stringBody] at h
        · simp at h
        · simp
        · simp
      rw [List.cons_append, run, run]
      simp [step, hq]
    rw [hsame, run_str _ _ _ h]
    rfl

end Turms.Syntax
