import Verif.Model.Documents
import Verif.Spec.Documents
import Verif.Lemmas.Basic
import Verif.Lemmas.Sort
import Verif.Lemmas.Topo

namespace Turms.Documents
open Turms.Spec

theorem F_ellipsis (rest : List Char) :
    findSpreads ('.' :: '.' :: '.' :: rest) = rest.takeWhile isLetter :: findSpreads rest := by
  rw [findSpreads]

theorem F_skip (c : Char) (rest : List Char) (h : ∀ r, c :: rest ≠ '.' :: '.' :: '.' :: r) :
    findSpreads (c :: rest) = findSpreads rest := by
  rw [findSpreads]
  intro r hc hr
  exact h r (by rw [hc, hr])

theorem F_cons_ne (c : Char) (rest : List Char) (h : c ≠ '.') : findSpreads (c :: rest) = findSpreads rest :=
  F_skip c rest (fun r he => h (by injection he))

theorem F_noDot (s b : List Char) (h : ∀ c ∈ s, c ≠ '.') : findSpreads (s ++ b) = findSpreads b := by
  induction s with
  | nil => rfl
  | cons c s ih =>
    rw [List.cons_append, F_cons_ne _ _ (h c List.mem_cons_self)]
    exact ih (fun x hx => h x (List.mem_cons_of_mem _ hx))

/-- the text starts with a character that ends a spread: neither a dot nor a letter -/
def Safe : List Char → Prop
  | [] => True
  | c :: _ => c ≠ '.' ∧ isLetter c = false

/-- `p ++ b` is not an ellipsis if `p` is not -/
theorem no_ellipsis_append {c : Char} {rest b : List Char} (hb : Safe b)
    (h : ∀ r, c :: rest ≠ '.' :: '.' :: '.' :: r) (r : List Char) :
    c :: (rest ++ b) ≠ '.' :: '.' :: '.' :: r := by
  intro he
  match rest, h, he with
  | [], h, he =>
    cases b with
    | nil => simp at he
    | cons x b =>
      simp only [List.nil_append, List.cons.injEq] at he
      exact hb.1 he.2.1
  | [x], h, he =>
    cases b with
    | nil => simp at he
    | cons y b =>
      simp only [List.cons_append, List.nil_append, List.cons.injEq] at he
      exact hb.1 he.2.2.1
  | x :: y :: rest, h, he =>
    simp only [List.cons_append, List.cons.injEq] at he
    exact h rest (by simp [he])

/-- `p` contributes the spreads `sp` wherever it is followed by a safe text -/
def Emits (p : List Char) (sp : List (List Char)) : Prop :=
  ∀ b, Safe b → findSpreads (p ++ b) = sp ++ findSpreads b

theorem Emits.nil : Emits [] [] := fun _ _ => rfl

theorem Emits.cons {c : Char} {p : List Char} {sp : List (List Char)} (hc : c ≠ '.') (h : Emits p sp) :
    Emits (c :: p) sp := by
  intro b hb
  rw [List.cons_append, F_cons_ne _ _ hc]
  exact h b hb

theorem Emits.name {s p : List Char} {sp : List (List Char)} (hs : ∀ c ∈ s, c ≠ '.') (h : Emits p sp) :
    Emits (s ++ p) sp := by
  intro b hb
  rw [List.append_assoc, F_noDot _ _ hs]
  exact h b hb

theorem Emits.append {p q : List Char} {sp sq : List (List Char)} (h1 : Emits p sp) (h2 : Emits q sq)
    (hq : Safe q) : Emits (p ++ q) (sp ++ sq) := by
  intro b hb
  have : Safe (q ++ b) := by
    cases q with
    | nil => exact hb
    | cons c q => exact hq
  rw [List.append_assoc, h1 _ this, h2 _ hb, List.append_assoc]

theorem Emits.of_noEllipsis {s : List Char} (h : noEllipsis s = true) : Emits s [] := by
  intro b hb
  induction s using noEllipsis.induct with
  | case1 => simp [noEllipsis] at h
  | case2 c rest hne ih =>
    have hne' : ∀ r, c :: rest ≠ '.' :: '.' :: '.' :: r := by
      intro r he
      injection he with h1 h2
      exact hne r h1 h2
    rw [noEllipsis] at h
    · rw [List.cons_append, F_skip _ _ (no_ellipsis_append hb hne')]
      exact ih h
    · exact fun r h1 h2 => hne r h1 h2
  | case3 => rfl

theorem takeWhile_append_safe (s b : List Char) (hb : Safe b) :
    (s ++ b).takeWhile isLetter = s.takeWhile isLetter := by
  induction s with
  | nil =>
    cases b with
    | nil => rfl
    | cons c b => simp [hb.2]
  | cons c s ih =>
    rw [List.cons_append, List.takeWhile_cons, List.takeWhile_cons]
    split
    · rw [ih]
    · rfl

theorem takeWhile_indent (s : List Char) : (indentLines s).takeWhile isLetter = s.takeWhile isLetter := by
  induction s with
  | nil => rfl
  | cons c s ih =>
    by_cases hc : c = '\n'
    · subst hc; rfl
    · rw [indentLines]
      · rw [List.takeWhile_cons, List.takeWhile_cons, ih]
      · exact hc

theorem indent_cons_ne {c : Char} (s : List Char) (h : c ≠ '\n') : indentLines (c :: s) = c :: indentLines s := by
  rw [indentLines]; exact h

theorem F_indent (p b : List Char) (hb : Safe b) : findSpreads (indentLines p ++ b) = findSpreads (p ++ b) := by
  induction p using findSpreads.induct with
  | case1 rest ih =>
    simp only [indent_cons_ne _ (show '.' ≠ '\n' by decide), List.cons_append]
    rw [F_ellipsis, F_ellipsis, ih, takeWhile_append_safe _ _ hb, takeWhile_append_safe _ _ hb, takeWhile_indent]
  | case2 c rest hne ih =>
    have hne' : ∀ r, c :: rest ≠ '.' :: '.' :: '.' :: r := by
      intro r he
      injection he with h1 h2
      exact hne r h1 h2
    rw [List.cons_append, F_skip c (rest ++ b) (no_ellipsis_append hb hne'), ← ih]
    by_cases hc : c = '\n'
    · subst hc
      simp only [indentLines, List.cons_append]
      rw [F_cons_ne _ _ (by decide), F_cons_ne _ _ (by decide), F_cons_ne _ _ (by decide)]
    · rw [indent_cons_ne _ hc, List.cons_append]
      refine F_skip c _ (no_ellipsis_append hb ?_)
      intro r he
      match rest, hne', he with
      | [], _, he => simp [indentLines] at he
      | [x], _, he =>
        by_cases hx : x = '\n'
        · subst hx; simp [indentLines] at he
        · simp [indent_cons_ne _ hx, indentLines] at he
      | x :: y :: rest, hne', he =>
        by_cases hx : x = '\n'
        · subst hx; simp [indentLines] at he
        · by_cases hy : y = '\n'
          · subst hy; simp [indent_cons_ne _ hx, indentLines] at he
          · simp only [indent_cons_ne _ hx, indent_cons_ne _ hy, List.cons.injEq] at he
            exact hne' rest (by simp [he])
  | case3 => rfl

theorem Emits.indent {p : List Char} {sp : List (List Char)} (h : Emits p sp) : Emits (indentLines p) sp := by
  intro b hb
  rw [F_indent p b hb]
  exact h b hb

/-- separators: start safely, contain no dot -/
def Sep (sep : List Char) : Prop := Safe sep ∧ sep ≠ [] ∧ ∀ c ∈ sep, c ≠ '.'

theorem sep_newline : Sep ['\n'] := ⟨⟨by decide, by decide⟩, by simp, by simp⟩
theorem sep_comma : Sep [',', ' '] := ⟨⟨by decide, by decide⟩, by simp, by simp⟩
theorem sep_para : Sep ['\n', '\n'] := ⟨⟨by decide, by decide⟩, by simp, by simp⟩

theorem Safe.append {s b : List Char} (h : Safe s) (hs : s ≠ []) : Safe (s ++ b) := by
  cases s with
  | nil => exact absurd rfl hs
  | cons c s => exact h

/-- the items of a join, with what each contributes -/
inductive EmitsEach : List (List Char) → List (List (List Char)) → Prop
  | nil : EmitsEach [] []
  | cons {p : List Char} {sp : List (List Char)} {l : List (List Char)} {ls : List (List (List Char))} :
      Emits p sp → EmitsEach l ls → EmitsEach (p :: l) (sp :: ls)

theorem Emits.join {sep : List Char} (hsep : Sep sep) {l : List (List Char)} {ls : List (List (List Char))}
    (h : EmitsEach l ls) : Emits (joinS sep l) ls.flatten := by
  induction h with
  | nil => exact Emits.nil
  | @cons p sp l ls h1 h2 ih =>
    cases l with
    | nil =>
      cases h2
      simpa [joinS] using h1
    | cons q l =>
      rw [joinS, List.flatten_cons]
      exact h1.append (Emits.name hsep.2.2 ih) (hsep.1.append hsep.2.1)

theorem EmitsEach.flatten_nil {l : List (List Char)} (h : ∀ p ∈ l, Emits p []) :
    ∃ ls : List (List (List Char)), EmitsEach l ls ∧ ls.flatten = [] := by
  induction l with
  | nil => exact ⟨[], .nil, rfl⟩
  | cons p l ih =>
    obtain ⟨ls, h1, h2⟩ := ih (fun q hq => h q (List.mem_cons_of_mem _ hq))
    exact ⟨[] :: ls, .cons (h p List.mem_cons_self) h1, by simpa using h2⟩

theorem Emits.join_quiet {sep : List Char} (hsep : Sep sep) {l : List (List Char)}
    (h : ∀ p ∈ l, Emits p []) : Emits (joinS sep l) [] := by
  obtain ⟨ls, h1, h2⟩ := EmitsEach.flatten_nil h
  exact h2 ▸ Emits.join hsep h1

theorem nameOk_iff {n : String} (h : nameOk n = true) : ∀ c ∈ n.toList, c ≠ '.' := by
  intro c hc
  unfold nameOk at h
  have := List.all_eq_true.1 h c hc
  simpa using this

theorem Emits.of_nameOk {n : String} (h : nameOk n = true) : Emits n.toList [] := by
  have := Emits.name (nameOk_iff h) Emits.nil
  simpa using this

theorem Emits.bracket {c d : Char} {p : List Char} {sp : List (List Char)} (hc : c ≠ '.') (hd : d ≠ '.')
    (hd2 : isLetter d = false) (h : Emits p sp) : Emits (c :: (p ++ [d])) sp := by
  refine Emits.cons hc ?_
  have := h.append (Emits.cons hd Emits.nil) ⟨hd, hd2⟩
  simpa using this

mutual
theorem printValue_emits : ∀ v : Value, valueOk v = true → Emits (printValue v) []
  | .variable n, h => by
    simp only [valueOk] at h
    exact Emits.cons (by decide) (Emits.of_nameOk h)
  | .int t, h => by simp only [valueOk] at h; exact Emits.of_noEllipsis h
  | .float t, h => by simp only [valueOk] at h; exact Emits.of_noEllipsis h
  | .string t, h => by
    simp only [valueOk] at h
    exact Emits.bracket (by decide) (by decide) (by decide) (Emits.of_noEllipsis h)
  | .bool b, _ => by
    cases b
    · exact Emits.of_noEllipsis (by decide +kernel)
    · exact Emits.of_noEllipsis (by decide +kernel)
  | .null, _ => Emits.of_noEllipsis (by decide +kernel)
  | .enum n, h => by simp only [valueOk] at h; exact Emits.of_nameOk h
  | .list l, h => by
    simp only [valueOk] at h
    exact Emits.bracket (by decide) (by decide) (by decide)
      (Emits.join_quiet sep_comma (printValues_emits l h))
  | .object l, h => by
    simp only [valueOk] at h
    exact Emits.bracket (by decide) (by decide) (by decide)
      (Emits.join_quiet sep_comma (printFields_emits l h))
theorem printValues_emits : ∀ l : List Value, valuesOk l = true → ∀ p ∈ printValues l, Emits p []
  | [], _ => by simp [printValues]
  | v :: l, h => by
    simp only [valuesOk, Bool.and_eq_true] at h
    intro p hp
    simp only [printValues, List.mem_cons] at hp
    rcases hp with rfl | hp
    · exact printValue_emits v h.1
    · exact printValues_emits l h.2 p hp
theorem printFields_emits : ∀ l : List (String × Value), fieldsOk l = true → ∀ p ∈ printFields l, Emits p []
  | [], _ => by simp [printFields]
  | (n, v) :: l, h => by
    simp only [fieldsOk, Bool.and_eq_true] at h
    intro p hp
    simp only [printFields, List.mem_cons] at hp
    rcases hp with rfl | hp
    · exact Emits.name (nameOk_iff h.1.1) (Emits.cons (by decide) (Emits.cons (by decide)
        (printValue_emits v h.1.2)))
    · exact printFields_emits l h.2 p hp
end

theorem printArgs_emits (before : List Char) (args : List (String × Value)) (h : fieldsOk args = true) :
    Emits (printArgs before args) [] ∧ Safe (printArgs before args) := by
  unfold printArgs
  split
  · exact ⟨Emits.nil, trivial⟩
  · dsimp only
    split
    · refine ⟨?_, by decide, by decide⟩
      refine Emits.cons (by decide) (Emits.cons (by decide) (Emits.cons (by decide) (Emits.cons (by decide) ?_)))
      have := (Emits.join_quiet sep_newline (printFields_emits args h)).indent
      have := this.append (q := ['\n', ')']) (Emits.cons (by decide) (Emits.cons (by decide) Emits.nil))
        ⟨by decide, by decide⟩
      simpa using this
    · refine ⟨?_, by decide, by decide⟩
      exact Emits.bracket (by decide) (by decide) (by decide)
        (Emits.join_quiet sep_comma (printFields_emits args h))

theorem block_emits {items : List (List Char)} {ls : List (List (List Char))} (h : EmitsEach items ls) :
    Emits (block items) ls.flatten := by
  unfold block
  refine Emits.cons (by decide) (Emits.cons (by decide) (Emits.cons (by decide) (Emits.cons (by decide) ?_)))
  have := (Emits.join sep_newline h).indent
  have := this.append (q := ['\n', '}']) (Emits.cons (by decide) (Emits.cons (by decide) Emits.nil))
    ⟨by decide, by decide⟩
  simpa using this

mutual
/-- the spreads of a selection as the regular expression sees them: an inline fragment shows as an empty name -/
def emitSel : Sel → List (List Char)
  | .field _ _ _ sub => (emitSels sub).flatten
  | .spread n => [n.toList]
  | .inline _ sub => [] :: (emitSels sub).flatten
def emitSels : List Sel → List (List (List Char))
  | [] => []
  | s :: l => emitSel s :: emitSels l
end

theorem lettersOnly_iff {n : String} (h : lettersOnly n = true) :
    n.toList ≠ [] ∧ ∀ c ∈ n.toList, isLetter c = true := by
  unfold lettersOnly at h
  simp only [Bool.and_eq_true, Bool.not_eq_eq_eq_not, Bool.not_true, List.isEmpty_eq_false_iff,
    List.all_eq_true] at h
  refine ⟨h.1, fun c hc => ?_⟩
  have := h.2 c hc
  simpa [isLetter] using this

theorem takeWhile_all {s b : List Char} (hs : ∀ c ∈ s, isLetter c = true) (hb : Safe b) :
    (s ++ b).takeWhile isLetter = s := by
  rw [takeWhile_append_safe _ _ hb]
  induction s with
  | nil => rfl
  | cons c s ih =>
    rw [List.takeWhile_cons, hs c List.mem_cons_self, if_pos rfl, ih (fun x hx => hs x (List.mem_cons_of_mem _ hx))]

theorem letter_ne_dot {c : Char} (h : isLetter c = true) : c ≠ '.' := by
  intro hc
  subst hc
  revert h; decide

mutual
theorem printSel_emits : ∀ s : Sel, selOk s = true → Emits (printSel s) (emitSel s)
  | .field n a args sub, h => by
    simp only [selOk, Bool.and_eq_true] at h
    obtain ⟨⟨⟨h1, h2⟩, h3⟩, h4⟩ := h
    simp only [printSel, emitSel]
    have hhead : ∀ c ∈ printHead n a, c ≠ '.' := by
      intro c hc
      unfold printHead at hc
      cases a with
      | none => exact nameOk_iff h1 c hc
      | some a =>
        simp only [List.mem_append, List.mem_cons] at hc
        rcases hc with hc | rfl | rfl | hc
        · exact nameOk_iff h2 c hc
        · decide
        · decide
        · exact nameOk_iff h1 c hc
    refine Emits.name hhead ?_
    have hargs := printArgs_emits (printHead n a) args h3
    have hsub : Emits (if sub.isEmpty then [] else ' ' :: block (printSels sub)) (emitSels sub).flatten ∧
        Safe (if sub.isEmpty then [] else ' ' :: block (printSels sub)) := by
      split
      · rename_i he
        rw [List.isEmpty_iff] at he
        subst he
        exact ⟨Emits.nil, trivial⟩
      · exact ⟨Emits.cons (by decide) (block_emits (printSels_emits sub h4)), by decide, by decide⟩
    have := hargs.1.append hsub.1 hsub.2
    simpa using this
  | .spread n, h => by
    simp only [selOk] at h
    simp only [printSel, emitSel]
    intro b hb
    rw [List.cons_append, List.cons_append, List.cons_append, F_ellipsis,
      takeWhile_all (lettersOnly_iff h).2 hb,
      F_noDot _ _ (fun c hc => letter_ne_dot ((lettersOnly_iff h).2 c hc))]
    rfl
  | .inline t sub, h => by
    simp only [selOk, Bool.and_eq_true] at h
    obtain ⟨h1, h2⟩ := h
    have hb := block_emits (printSels_emits sub h2)
    have hin : Emits (' ' :: (printCondition t ++ block (printSels sub))) (emitSels sub).flatten := by
      refine Emits.cons (by decide) ?_
      cases t with
      | none => exact hb
      | some n =>
        simp only at h1
        simp only [printCondition, List.cons_append, List.append_assoc, List.nil_append]
        exact Emits.cons (by decide) (Emits.cons (by decide) (Emits.cons (by decide)
          (Emits.name (nameOk_iff h1) (Emits.cons (by decide) hb))))
    simp only [printSel, emitSel]
    intro b hb'
    rw [List.cons_append, List.cons_append, List.cons_append, F_ellipsis, hin b hb']
    rfl
theorem printSels_emits : ∀ l : List Sel, selsOk l = true → EmitsEach (printSels l) (emitSels l)
  | [], _ => .nil
  | s :: l, h => by
    simp only [selsOk, Bool.and_eq_true] at h
    exact .cons (printSel_emits s h.1) (printSels_emits l h.2)
end

theorem printFragment_emits (f : FragDef) (h : fragOk f = true) :
    Emits (printFragment f) (emitSels f.sels).flatten := by
  simp only [fragOk, Bool.and_eq_true] at h
  unfold printFragment
  exact Emits.name (by decide +kernel) (Emits.name (nameOk_iff h.1.1) (Emits.name (by decide +kernel)
    (Emits.name (nameOk_iff h.1.2) (Emits.cons (by decide) (block_emits (printSels_emits _ h.2))))))

theorem printType_emits : ∀ t : TypeNode, typeOk t = true → Emits (printType t) []
  | .named n, h => Emits.of_nameOk h
  | .list t, h => Emits.bracket (by decide) (by decide) (by decide) (printType_emits t h)
  | .nonNull t, h => by
    have := (printType_emits t h).append (Emits.cons (c := '!') (by decide) Emits.nil) ⟨by decide, by decide⟩
    simpa [printType] using this

theorem printVar_emits (v : VarDef) (h : varOk v = true) : Emits (printVar v) [] := by
  simp only [varOk, Bool.and_eq_true] at h
  unfold printVar
  refine Emits.cons (by decide) (Emits.name (nameOk_iff h.1.1) (Emits.cons (by decide) (Emits.cons (by decide) ?_)))
  cases hd : v.default with
  | none => simpa using printType_emits v.type h.1.2
  | some d =>
    have h2 := h.2
    rw [hd] at h2
    have := (printType_emits v.type h.1.2).append (q := ' ' :: '=' :: ' ' :: printValue d)
      (Emits.cons (by decide) (Emits.cons (by decide) (Emits.cons (by decide) (printValue_emits d h2))))
      ⟨by decide, by decide⟩
    simpa using this

theorem printOperation_emits (name : String) (o : OpDef) (h : opOk name o = true) :
    Emits (printOperation name o) (emitSels o.sels).flatten := by
  simp only [opOk, Bool.and_eq_true] at h
  obtain ⟨⟨h1, h2⟩, h3⟩ := h
  unfold printOperation
  have hkind : ∀ c ∈ printKind o.kind, c ≠ '.' := by cases o.kind <;> decide +kernel
  refine Emits.name hkind (Emits.cons (by decide) (Emits.name (nameOk_iff h1) ?_))
  have hb := block_emits (printSels_emits _ h3)
  split
  · simpa using Emits.cons (by decide) hb
  · have hv : Emits ('(' :: (joinS [',', ' '] (o.vars.map printVar) ++ [')'])) [] := by
      refine Emits.bracket (by decide) (by decide) (by decide) (Emits.join_quiet sep_comma ?_)
      intro p hp
      obtain ⟨v, hv, rfl⟩ := List.mem_map.1 hp
      exact printVar_emits v (List.all_eq_true.1 h2 v hv)
    have := hv.append (Emits.cons (c := ' ') (by decide) hb) ⟨by decide, by decide⟩
    simpa using this

/-! ## the spreads -/

theorem spreads_cons (s : Sel) (rest : List Sel) (f : String) :
    Spreads (s :: rest) f ↔ Spreads [s] f ∨ Spreads rest f := by
  constructor
  · intro h
    cases h with
    | here => exact .inl (.here _ _)
    | field _ _ _ _ _ _ h => exact .inl (.field _ _ _ _ _ _ h)
    | inline _ _ _ _ h => exact .inl (.inline _ _ _ _ h)
    | later _ _ _ h => exact .inr h
  · rintro (h | h)
    · cases h with
      | here => exact .here _ _
      | field _ _ _ _ _ _ h => exact .field _ _ _ _ _ _ h
      | inline _ _ _ _ h => exact .inline _ _ _ _ h
      | later _ _ _ h => cases h
    · exact .later _ _ _ h

theorem spreads_nil (f : String) : ¬ Spreads [] f := by intro h; cases h

theorem spreads_field (n : String) (a : Option String) (args : List (String × Value)) (sub : List Sel)
    (f : String) : Spreads [.field n a args sub] f ↔ Spreads sub f := by
  constructor
  · intro h
    cases h with
    | field _ _ _ _ _ _ h => exact h
    | later _ _ _ h => cases h
  · exact fun h => .field _ _ _ _ _ _ h

theorem spreads_inline (t : Option String) (sub : List Sel) (f : String) :
    Spreads [.inline t sub] f ↔ Spreads sub f := by
  constructor
  · intro h
    cases h with
    | inline _ _ _ _ h => exact h
    | later _ _ _ h => cases h
  · exact fun h => .inline _ _ _ _ h

theorem spreads_spread (n f : String) : Spreads [.spread n] f ↔ f = n := by
  constructor
  · intro h
    cases h with
    | here => rfl
    | later _ _ _ h => cases h
  · rintro rfl; exact .here _ _

theorem spreads_append (a b : List Sel) (f : String) : Spreads (a ++ b) f ↔ Spreads a f ∨ Spreads b f := by
  induction a with
  | nil => simp [spreads_nil]
  | cons s a ih => rw [List.cons_append, spreads_cons, spreads_cons s a, ih, or_assoc]

mutual
theorem emitSel_mem : ∀ (s : Sel) (_ : selOk s = true) (f : String),
    (f ≠ "" ∧ f.toList ∈ emitSel s) ↔ Spreads [s] f
  | .field n a args sub, h, f => by
    simp only [selOk, Bool.and_eq_true] at h
    rw [spreads_field, ← emitSels_mem sub h.2 f]; rfl
  | .spread n, h, f => by
    simp only [selOk] at h
    rw [spreads_spread]
    simp only [emitSel, List.mem_singleton, String.toList_inj]
    constructor
    · exact fun h => h.2
    · rintro rfl
      exact ⟨fun he => (lettersOnly_iff h).1 (by rw [he]; rfl), rfl⟩
  | .inline t sub, h, f => by
    simp only [selOk, Bool.and_eq_true] at h
    rw [spreads_inline, ← emitSels_mem sub h.2 f]
    simp only [emitSel, List.mem_cons, String.toList_eq_nil_iff]
    constructor
    · rintro ⟨h1, h2 | h2⟩
      · exact absurd h2 h1
      · exact ⟨h1, h2⟩
    · rintro ⟨h1, h2⟩
      exact ⟨h1, .inr h2⟩
theorem emitSels_mem : ∀ (l : List Sel) (_ : selsOk l = true) (f : String),
    (f ≠ "" ∧ f.toList ∈ (emitSels l).flatten) ↔ Spreads l f
  | [], _, f => by simp [emitSels, spreads_nil]
  | s :: l, h, f => by
    simp only [selsOk, Bool.and_eq_true] at h
    rw [spreads_cons, ← emitSel_mem s h.1 f, ← emitSels_mem l h.2 f]
    simp only [emitSels, List.flatten_cons, List.mem_append]
    grind
end

end Turms.Documents
