import Verif.Spec.Loading
import Verif.Spec.Lexer
import Verif.Lemmas.Imports

namespace Turms
open Spec

variable {S I : Type} {w : World S I}

theorem readAll_iff (files : List String) (t : String) :
    readAll w files = .ok t ↔ ∃ texts, Contents w files texts ∧ t = String.join texts := by
  induction files generalizing t with
  | nil =>
    constructor
    · intro h; cases h; exact ⟨[], .nil, rfl⟩
    · rintro ⟨texts, h, rfl⟩; cases h; rfl
  | cons f fs ih =>
    unfold readAll
    constructor
    · intro h
      split at h
      · cases h
      · rename_i a ha
        split at h
        · cases h
        · rename_i rest hr
          cases h
          obtain ⟨texts, h1, rfl⟩ := (ih rest).1 hr
          exact ⟨a :: texts, .cons ha h1, by simp [String.join_cons]⟩
    · rintro ⟨texts, h, rfl⟩
      cases h with
      | cons ha hr =>
        rename_i a texts
        rw [ha]
        dsimp only
        rw [(ih _).2 ⟨texts, hr, rfl⟩]
        simp [String.join_cons]

theorem fetchAll_iff (m : Dict (Dict String)) (parts : List String) :
    fetchAll w m = .ok parts ↔
      List.Forall₂ (fun (uh : String × Dict String) t => w.fetch uh.1 uh.2 = .ok t) m parts := by
  induction m generalizing parts with
  | nil =>
    constructor
    · intro h; cases h; exact .nil
    · intro h; cases h; rfl
  | cons uh m ih =>
    obtain ⟨u, hd⟩ := uh
    unfold fetchAll
    constructor
    · intro h
      split at h
      · cases h
      · rename_i a ha
        split at h
        · cases h
        · rename_i rest hr
          cases h
          exact .cons ha ((ih rest).1 hr)
    · intro h
      cases h with
      | cons ha hr => rw [ha]; dsimp only; rw [(ih _).2 hr]

theorem sorted_files {files : List String} {g : String} (hp : files.Perm (w.glob g))
    (hs : files.Pairwise (fun a b => strLe a b = true)) : files = pySorted strLe (w.glob g) := by
  rw [← pySorted_str_eq_of_perm hp]
  exact sorted_unique strLe strLe_antisymm _ _ hs (pySorted_pairwise strLe strLe_total strLe_trans files)
    (pySorted_perm strLe files).symm

theorem loadDslFromGlob_iff (g t : String) :
    loadDslFromGlob w g = .ok t ↔ ∃ files texts, files.Perm (w.glob g) ∧
      files.Pairwise (fun a b => strLe a b = true) ∧ files ≠ [] ∧ Contents w files texts ∧ t = String.join texts := by
  unfold loadDslFromGlob
  dsimp only
  constructor
  · intro h
    split at h
    · cases h
    · rename_i hne
      obtain ⟨texts, h1, h2⟩ := (readAll_iff _ _).1 h
      refine ⟨_, texts, pySorted_perm _ _, pySorted_pairwise strLe strLe_total strLe_trans _, ?_, h1, h2⟩
      intro h0; rw [h0] at hne; exact hne rfl
  · rintro ⟨files, texts, hp, hs, hne, hc, rfl⟩
    have := sorted_files hp hs
    rw [← this]
    rw [if_neg (by simpa using hne)]
    exact (readAll_iff _ _).2 ⟨texts, hc, rfl⟩

theorem sdlOf_glob (g t : String) (hu : isUrl g = false) : SdlOf w (.str g) t ↔ loadDslFromGlob w g = .ok t := by
  rw [loadDslFromGlob_iff]
  constructor
  · intro h
    cases h with
    | url h _ => rw [hu] at h; cases h
    | glob _ hp hs hne hc => exact ⟨_, _, hp, hs, hne, hc, rfl⟩
  · rintro ⟨files, texts, hp, hs, hne, hc, rfl⟩
    exact .glob hu hp hs hne hc

theorem sdlOf_url (u t : String) (hu : isUrl u = true) : SdlOf w (.str u) t ↔ w.fetch u [] = .ok t := by
  constructor
  · intro h
    cases h with
    | url _ h => exact h
    | glob h => rw [hu] at h; cases h
  · exact .url hu

theorem sdlOf_map (m : Dict (Dict String)) (t : String) :
    SdlOf w (.map m) t ↔ ∃ parts, fetchAll w m = .ok parts ∧ t = joinSpace parts := by
  constructor
  · intro h
    cases h with
    | mapping h => exact ⟨_, (fetchAll_iff _ _).2 h, rfl⟩
  · rintro ⟨parts, h, rfl⟩
    exact .mapping ((fetchAll_iff _ _).1 h)

theorem introspectionOf_glob (g : String) (i : I) (hu : isUrl g = false) :
    IntrospectionOf w (.str g) i ↔ loadIntrospectionFromGlob w g = .ok i := by
  unfold loadIntrospectionFromGlob
  constructor
  · intro h
    cases h with
    | url h _ => rw [hu] at h; cases h
    | glob _ hg hr => rw [hg]; exact hr
  · intro h
    split at h
    · cases h
    · rename_i f hf
      have hp := pySorted_perm strLe (w.glob g)
      rw [hf] at hp
      exact .glob hu (List.perm_singleton.1 hp.symm) h
    · cases h

theorem introspectionOf_url (u : String) (i : I) (hu : isUrl u = true) :
    IntrospectionOf w (.str u) i ↔ w.introspect u [] = .ok i := by
  constructor
  · intro h
    cases h with
    | url _ h => exact h
    | glob h => rw [hu] at h; cases h
  · exact .url hu

theorem bind_ok_iff {α β : Type} {x : Except Err α} {f : α → Except Err β} {b : β} :
    x.bind f = .ok b ↔ ∃ a, x = .ok a ∧ f a = .ok b := by
  cases x <;> simp [Except.bind]

theorem withFallback_iff {T : Type} {allow : Bool} {a b : Except Err T} {s : T} :
    withFallback allow a b = .ok s ↔ a = .ok s ∨ (allow = true ∧ (∀ s', a ≠ .ok s') ∧ b = .ok s) := by
  unfold withFallback
  cases a with
  | ok x => simp
  | error e => cases allow <;> simp

/-! ## names -/

theorem toLower_dot (c : Char) : c.toLower = '.' ↔ c = '.' := by
  constructor
  · intro h
    unfold Char.toLower at h
    split at h
    · rename_i hc
      exfalso
      have := congrArg Char.toNat h
      have h2 : (c.val + 32).toNat = 46 := this
      have : c.val.toNat + 32 < UInt32.size := by
        have := hc.2
        have : c.val.toNat ≤ 90 := UInt32.le_iff_toNat_le.1 this
        simp only [UInt32.size]; omega
      rw [UInt32.toNat_add, Nat.mod_eq_of_lt (by simpa [UInt32.size] using this)] at h2
      have h3 : 65 ≤ c.val.toNat := UInt32.le_iff_toNat_le.1 hc.1
      have h4 : (32 : UInt32).toNat = 32 := rfl
      omega
    · exact h
  · rintro rfl; rfl

theorem lowerAscii_append (a b : String) : lowerAscii (a ++ b) = lowerAscii a ++ lowerAscii b := by
  apply String.toList_inj.1
  simp [lowerAscii]

theorem hasDot_lower (s : String) : hasDot (lowerAscii s) = hasDot s := by
  unfold hasDot lowerAscii
  rw [Bool.eq_iff_iff]
  simp [toLower_dot]

theorem lastComponent_lower (s : String) : lastComponent (lowerAscii s) = lowerAscii (lastComponent s) := by
  by_cases h : hasDot s = true
  · obtain ⟨h1, h2⟩ := dotted_split s h
    have h3 : lowerAscii s = lowerAscii (initComponents s) ++ "." ++ lowerAscii (lastComponent s) := by
      rw [← h1, lowerAscii_append, lowerAscii_append, h1]
      rfl
    exact ((dotted_iff _ _ _).2 ⟨h3, by rw [hasDot_lower]; exact h2⟩).2.2
  · have h : hasDot s = false := by simpa using h
    rw [lastComponent_of_no_dot _ h, lastComponent_of_no_dot _ (by rw [hasDot_lower]; exact h)]

theorem supported_iff (name : String) : SupportedFile name ↔ loaderKeys.contains (lastComponent (lowerAscii name)) = true := by
  rw [lastComponent_lower]
  unfold SupportedFile
  constructor
  · rintro ⟨ext, hname, hext⟩
    have hnd : hasDot ext = false := by
      rw [← hasDot_lower]
      revert hext
      generalize lowerAscii ext = x
      intro hx
      simp only [List.mem_cons, List.not_mem_nil, or_false] at hx
      rcases hx with rfl | rfl | rfl | rfl <;> decide +kernel
    have hl : lastComponent name = ext := by
      rcases hname with rfl | ⟨stem, rfl⟩
      · exact lastComponent_of_no_dot _ hnd
      · exact ((dotted_iff _ _ _).2 ⟨rfl, hnd⟩).2.2
    rw [hl]
    simpa [loaderKeys] using hext
  · intro h
    refine ⟨lastComponent name, ?_, by simpa [loaderKeys] using h⟩
    by_cases hd : hasDot name = true
    · exact .inr ⟨_, (dotted_split name hd).1.symm⟩
    · exact .inl (lastComponent_of_no_dot _ (by simpa using hd)).symm

/-! ## lexing -/

namespace Spec.Lex

theorem run_append (s : State) (a b : List Char) :
    run s (a ++ b) = match run s a with
      | none => none
      | some (ts, s1) => (run s1 b).map fun (us, s2) => (ts ++ us, s2) := by
  induction a generalizing s with
  | nil => simp only [List.nil_append, run]; cases run s b <;> simp
  | cons c a ih =>
    simp only [List.cons_append, run]
    cases step s c with
    | none => rfl
    | some p =>
      obtain ⟨ts, s1⟩ := p
      dsimp only
      rw [ih]
      cases run s1 a with
      | none => rfl
      | some q =>
        obtain ⟨us, s2⟩ := q
        dsimp only [Option.map]
        cases run s2 b <;> simp

/-- after a newline the lexer is between tokens, unless it is inside a block string -/
theorem newline_between {s s1 : State} {ts : List Token} (h : step s '\n' = some (ts, s1)) :
    s1 = .between ∨ ∃ rev, s1 = .block rev := by
  have hs : start '\n' = some ([], .between) := by decide +kernel
  have hn : isNameChar '\n' = false := by decide +kernel
  have hl : isNewline '\n' = true := by decide +kernel
  cases s with
  | between => rw [step, hs] at h; cases h; exact .inl rfl
  | name rev => rw [step, hn] at h; simp [endToken, hs] at h; exact .inl h.2.symm
  | number rev => rw [step, hn] at h; simp [endToken, hs] at h; exact .inl h.2.symm
  | dot1 => simp [step] at h
  | dot2 => simp [step] at h
  | comment => simp [step, hl] at h; exact .inl h.2.symm
  | quote1 => simp [step, hl] at h
  | quote2 => simp [step, endToken, hs] at h; exact .inl h.2.symm
  | str rev => simp [step, hl] at h
  | strEscape rev => simp [step, hl] at h
  | block rev => simp [step] at h; exact .inr ⟨_, h.2.symm⟩

/-- a lexically correct text that ends in a newline leaves the lexer between tokens -/
theorem lex_newline {a : List Char} {ts : List Token} (h : lex (a ++ ['\n']) = some ts) :
    run .between (a ++ ['\n']) = some (ts, .between) := by
  unfold lex at h
  rw [run_append] at h ⊢
  cases hr : run .between a with
  | none => rw [hr] at h; cases h
  | some p =>
    obtain ⟨us, s⟩ := p
    rw [hr] at h
    dsimp only at h ⊢
    simp only [run] at h ⊢
    cases hst : step s '\n' with
    | none => rw [hst] at h; cases h
    | some q =>
      obtain ⟨vs, s1⟩ := q
      rw [hst] at h
      dsimp only [Option.map] at h ⊢
      rcases newline_between hst with rfl | ⟨rev, rfl⟩
      · simp [finish] at h ⊢; exact h
      · simp [finish] at h

theorem lex_append_between {a b : List Char} {ts : List Token} (h : run .between a = some (ts, .between)) :
    lex (a ++ b) = (lex b).map (ts ++ ·) := by
  unfold lex
  rw [run_append, h]
  dsimp only
  cases run .between b with
  | none => rfl
  | some p =>
    obtain ⟨us, s⟩ := p
    dsimp only [Option.map]
    cases finish s <;> simp

end Spec.Lex

end Turms
