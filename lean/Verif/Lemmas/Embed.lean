import Verif.Lemmas.Documents

namespace Turms.Documents
open Turms.Spec Turms.Fragments

theorem joinS_eq_intercalate (sep : List Char) (l : List (List Char)) : joinS sep l = sep.intercalate l := by
  induction l with
  | nil => rfl
  | cons a l ih =>
    cases l with
    | nil => simp [joinS, List.intercalate]
    | cons b l =>
      rw [joinS, ih]
      simp [List.intercalate, List.intersperse]

theorem joinS_cons (sep a : List Char) (l : List (List Char)) (h : l ≠ []) :
    joinS sep (a :: l) = a ++ (sep ++ joinS sep l) := by
  cases l with
  | nil => exact absurd rfl h
  | cons b l => rw [joinS]

theorem joinS_nested (sep : List Char) (a b : List (List Char)) (hb : b ≠ []) :
    joinS sep (a ++ [joinS sep b]) = joinS sep (a ++ b) := by
  induction a with
  | nil => simp [joinS]
  | cons x a ih =>
    rw [List.cons_append, joinS_cons _ _ _ (by simp), ih, List.cons_append, joinS_cons _ _ _ (by simp [hb])]

theorem foldl_setAdd_mem (l : List (List Char)) (s : List String) (f : String) :
    f ∈ l.foldl (fun s n => setAdd s (String.ofList n)) s ↔ f ∈ s ∨ f.toList ∈ l := by
  induction l generalizing s with
  | nil => simp
  | cons a l ih =>
    rw [List.foldl_cons, ih, mem_setAdd, List.mem_cons]
    have : f = String.ofList a ↔ f.toList = a := by
      constructor
      · rintro rfl; simp
      · rintro rfl; simp
    rw [this, or_assoc]

theorem foldl_setAdd_nodup (l : List (List Char)) (s : List String) (h : s.Nodup) :
    (l.foldl (fun s n => setAdd s (String.ofList n)) s).Nodup := by
  induction l generalizing s with
  | nil => simpa
  | cons a l ih => rw [List.foldl_cons]; exact ih _ (nodup_setAdd _ _ h)

theorem mem_newFragments (pattern : List Char) (taken : List String) (f : String) :
    f ∈ newFragments pattern taken ↔ (f ≠ "" ∧ f.toList ∈ findSpreads pattern) ∧ f ∉ taken := by
  unfold newFragments
  simp only [mem_pySorted, List.mem_filter, foldl_setAdd_mem, List.not_mem_nil, false_or, Bool.and_eq_true,
    Bool.not_eq_eq_eq_not, Bool.not_true, List.contains_eq_mem, decide_eq_false_iff_not, bne_iff_ne]
  grind

theorem newFragments_nodup (pattern : List Char) (taken : List String) : (newFragments pattern taken).Nodup := by
  unfold newFragments
  refine (pySorted_perm _ _).nodup_iff.2 ?_
  exact List.Sublist.nodup List.filter_sublist (foldl_setAdd_nodup _ _ (by simp))

/-- the registered documents -/
def docsOf (frags : List FragDef) : Dict (List Char) := frags.map (fun f => (f.name, printFragment f))

theorem docs_get? (frags : List FragDef) (hu : (frags.map (·.name)).Nodup) (n : String) :
    (docsOf frags).get? n = (lookup frags n).map printFragment := by
  cases hl : lookup frags n with
  | some f =>
    obtain ⟨hm, hn⟩ := lookup_mem hl
    refine Dict.get?_of_mem_nodup ?_ ?_
    · simp only [docsOf, Dict.keys, List.map_map]
      exact hu
    · exact List.mem_map.2 ⟨f, hm, by rw [hn]⟩
  | none =>
    rw [Option.map_none, Dict.get?_eq_none_iff]
    simp only [docsOf, Dict.keys, List.map_map, List.mem_map, not_exists, not_and]
    intro f hf hfn
    have : ((frags.reverse.find? (fun f => f.name == n))).isSome := by
      rw [List.find?_isSome]
      exact ⟨f, List.mem_reverse.2 hf, by simpa using hfn⟩
    unfold lookup at hl
    rw [hl] at this
    cases this

theorem fetch_spec {prep : List Char → List Char} {frags : List FragDef} (hu : (frags.map (·.name)).Nodup)
    (hprep : ∀ f ∈ frags, prep (printFragment f) = printFragment (addTypenameToFragment f)) (keys : List String) :
    (∃ k ∈ keys, lookup frags k = none ∧ fetchFragments prep (docsOf frags) keys = .error (.keyError k)) ∨
    (∃ fs : List FragDef, fs.map (·.name) = keys ∧ (∀ f ∈ fs, lookup frags f.name = some f) ∧
      fetchFragments prep (docsOf frags) keys =
        .ok (fs.map (fun f => printFragment (addTypenameToFragment f)))) := by
  induction keys with
  | nil => exact .inr ⟨[], rfl, by simp, rfl⟩
  | cons k keys ih =>
    simp only [fetchFragments, docs_get? frags hu]
    cases hl : lookup frags k with
    | none => exact .inl ⟨k, List.mem_cons_self, hl, rfl⟩
    | some f =>
      simp only [Option.map_some]
      obtain ⟨hm, hn⟩ := lookup_mem hl
      rcases ih with ⟨k', hk', hl', he⟩ | ⟨fs, h1, h2, h3⟩
      · exact .inl ⟨k', List.mem_cons_of_mem _ hk', hl', by rw [he]⟩
      · refine .inr ⟨f :: fs, by simp [hn, h1], ?_, ?_⟩
        · intro g hg
          rcases List.mem_cons.1 hg with rfl | hg
          · rw [hn]; exact hl
          · exact h2 g hg
        · rw [h3, hprep f hm]; rfl

theorem selsOk_append (a b : List Sel) (ha : selsOk a = true) (hb : selsOk b = true) : selsOk (a ++ b) = true := by
  induction a with
  | nil => exact hb
  | cons s a ih =>
    simp only [selsOk, Bool.and_eq_true] at ha
    simp only [List.cons_append, selsOk, Bool.and_eq_true]
    exact ⟨ha.1, ih ha.2⟩

theorem addTypenameToFragment_ok {f : FragDef} (h : fragOk f = true) : fragOk (addTypenameToFragment f) = true := by
  unfold addTypenameToFragment
  split
  · exact h
  · simp only [fragOk, Bool.and_eq_true] at h ⊢
    exact ⟨h.1, selsOk_append _ _ h.2 (by decide +kernel)⟩

theorem addTypenameToFragment_spreads (f : FragDef) (x : String) :
    Spreads (addTypenameToFragment f).sels x ↔ Spreads f.sels x := by
  unfold addTypenameToFragment
  split
  · rfl
  · rw [spreads_append]
    constructor
    · rintro (h | h)
      · exact h
      · unfold typenameSel at h
        rw [spreads_field] at h
        exact absurd h (spreads_nil x)
    · exact .inl

theorem addTypenameToFragment_name (f : FragDef) : (addTypenameToFragment f).name = f.name := by
  unfold addTypenameToFragment; split <;> rfl

/-- what the regular expression finds in the document built so far -/
theorem pattern_spreads {text : List Char} {sels : List Sel}
    (he : Emits text (emitSels sels).flatten) (ho : selsOk sels = true) {done : List FragDef}
    (hd : ∀ d ∈ done, fragOk d = true) (f : String) :
    (f ≠ "" ∧ f.toList ∈ findSpreads (joinS ['\n', '\n']
      (done.map (fun d => printFragment (addTypenameToFragment d)) ++ [text]))) ↔
    (Spreads sels f ∨ ∃ d ∈ done, Spreads d.sels f) := by
  have hE : ∀ done : List FragDef, (∀ d ∈ done, fragOk d = true) →
      EmitsEach (done.map (fun d => printFragment (addTypenameToFragment d)) ++ [text])
        (done.map (fun d => (emitSels (addTypenameToFragment d).sels).flatten) ++ [(emitSels sels).flatten]) := by
    intro done hd
    induction done with
    | nil => exact .cons he .nil
    | cons d done ih =>
      exact .cons (printFragment_emits _ (addTypenameToFragment_ok (hd d List.mem_cons_self)))
        (ih (fun x hx => hd x (List.mem_cons_of_mem _ hx)))
  have hj := Emits.join sep_para (hE done hd) [] trivial
  rw [List.append_nil] at hj
  rw [hj]
  rw [← emitSels_mem sels ho f]
  simp only [findSpreads, List.append_nil, List.mem_flatten, List.mem_append, List.mem_map, List.mem_singleton]
  constructor
  · rintro ⟨h1, l, (⟨d, hdm, rfl⟩ | rfl), h3⟩
    · refine .inr ⟨d, hdm, ?_⟩
      rw [← addTypenameToFragment_spreads]
      have hok := addTypenameToFragment_ok (hd d hdm)
      simp only [fragOk, Bool.and_eq_true] at hok
      exact (emitSels_mem _ hok.2 f).1 ⟨h1, h3⟩
    · exact .inl ⟨h1, List.mem_flatten.1 h3⟩
  · rintro (⟨h1, h2⟩ | ⟨d, hdm, h⟩)
    · exact ⟨h1, _, .inr rfl, List.mem_flatten.2 h2⟩
    · rw [← addTypenameToFragment_spreads] at h
      have hok := addTypenameToFragment_ok (hd d hdm)
      simp only [fragOk, Bool.and_eq_true] at hok
      have := (emitSels_mem _ hok.2 f).2 h
      exact ⟨this.1, _, .inl ⟨d, hdm, rfl⟩, this.2⟩

/-- the outcomes of `replaceIteratively` -/
def Outcome (frags : List FragDef) (text : List Char) (sels : List Sel) (r : Except Err (List Char)) : Prop :=
  (∃ k, Needs frags sels k ∧ lookup frags k = none ∧ r = .error (.fragmentNotFound k)) ∨
  (∃ fs : List FragDef, (fs.map (·.name)).Nodup ∧ (∀ f ∈ fs, lookup frags f.name = some f) ∧
    (∀ n, n ∈ fs.map (·.name) ↔ Needs frags sels n) ∧
    r = .ok (joinS ['\n', '\n'] (fs.map (fun f => printFragment (addTypenameToFragment f)) ++
      [text])))

theorem replaceIteratively_spec {prep : List Char → List Char} {frags : List FragDef}
    (hu : (frags.map (·.name)).Nodup)
    (hprep : ∀ f ∈ frags, prep (printFragment f) = printFragment (addTypenameToFragment f))
    (hok : ∀ f ∈ frags, fragOk f = true) {text : List Char} {sels : List Sel}
    (he : Emits text (emitSels sels).flatten) (ho : selsOk sels = true) :
    ∀ (n : Nat) (done : List FragDef), (done.map (·.name)).Nodup →
      (∀ f ∈ done, lookup frags f.name = some f) → (∀ f ∈ done, Needs frags sels f.name) →
      frags.length + 1 ≤ n + done.length →
      Outcome frags text sels (replaceIteratively prep (docsOf frags) n
        (joinS ['\n', '\n'] (done.map (fun f => printFragment (addTypenameToFragment f)) ++
          [text])) (done.map (·.name))) := by
  intro n
  induction n with
  | zero =>
    intro done h1 h2 h3 h4
    have : done.length ≤ frags.length := by
      refine List.Nodup.length_le_of_subset (List.nodup_of_map' h1) ?_
      intro f hf
      exact (lookup_mem (h2 f hf)).1
    omega
  | succ n ih =>
    intro done h1 h2 h3 h4
    have hdok : ∀ d ∈ done, fragOk d = true := fun d hd => hok d (lookup_mem (h2 d hd)).1
    have hps := pattern_spreads he ho hdok
    generalize hpat : joinS ['\n', '\n'] (done.map (fun f => printFragment (addTypenameToFragment f)) ++
          [text]) = pattern at *
    have hnew : ∀ f, f ∈ newFragments pattern (done.map (·.name)) ↔
        (Spreads sels f ∨ ∃ d ∈ done, Spreads d.sels f) ∧ f ∉ done.map (·.name) := by
      intro f; rw [mem_newFragments, hps]
    have hneeds : ∀ f ∈ newFragments pattern (done.map (·.name)), Needs frags sels f := by
      intro f hf
      rcases ((hnew f).1 hf).1 with h | ⟨d, hd, h⟩
      · exact .direct _ h
      · exact .through d.name d f (h3 d hd) (h2 d hd) h
    have hnd := newFragments_nodup pattern (done.map (·.name))
    rw [replaceIteratively]
    generalize hks : newFragments pattern (done.map (·.name)) = new at *
    cases new with
    | nil =>
      refine .inr ⟨done, h1, h2, ?_, ?_⟩
      · intro f
        have hno : ∀ f, ¬ ((Spreads sels f ∨ ∃ d ∈ done, Spreads d.sels f) ∧ f ∉ done.map (·.name)) :=
          fun f h => by have := (hnew f).2 h; cases this
        constructor
        · intro hf
          obtain ⟨d, hd, rfl⟩ := List.mem_map.1 hf
          exact h3 d hd
        · intro hf
          induction hf with
          | direct f hf => exact Classical.byContradiction fun hc => hno f ⟨.inl hf, hc⟩
          | through g d f _ hl hs ih' =>
            refine Classical.byContradiction fun hc => hno f ⟨.inr ⟨d, ?_, hs⟩, hc⟩
            obtain ⟨d', hd', hn'⟩ := List.mem_map.1 ih'
            have := h2 d' hd'
            rw [hn', hl] at this
            cases this
            exact hd'
      · rw [hpat]
    | cons k ks =>
      dsimp only
      rcases fetch_spec hu hprep (k :: ks) with ⟨k', hk', hl, hef⟩ | ⟨fs, hf1, hf2, hf3⟩
      · rw [hef]
        exact .inl ⟨k', hneeds k' hk', hl, rfl⟩
      · rw [hf3]
        dsimp only
        have hj := joinS_nested ['\n', '\n'] (fs.map (fun f => printFragment (addTypenameToFragment f)))
          (done.map (fun f => printFragment (addTypenameToFragment f)) ++ [text]) (by simp)
        rw [hpat] at hj
        rw [hj, ← List.append_assoc, ← List.map_append, ← hf1, ← List.map_append]
        refine ih (fs ++ done) ?_ ?_ ?_ ?_
        · rw [List.map_append, hf1, List.nodup_append]
          refine ⟨hnd, h1, ?_⟩
          intro a ha b hb hab
          subst hab
          exact ((hnew a).1 ha).2 hb
        · intro f hf
          rcases List.mem_append.1 hf with hf | hf
          · exact hf2 f hf
          · exact h2 f hf
        · intro f hf
          rcases List.mem_append.1 hf with hf | hf
          · exact hneeds f.name (by rw [← hf1]; exact List.mem_map_of_mem hf)
          · exact h3 f hf
        · have : fs.length = (k :: ks).length := by rw [← hf1, List.length_map]
          simp only [List.length_append, this, List.length_cons]
          omega

theorem embedDocument_spec {prep : List Char → List Char} {frags : List FragDef}
    (hu : (frags.map (·.name)).Nodup)
    (hprep : ∀ f ∈ frags, prep (printFragment f) = printFragment (addTypenameToFragment f))
    (hok : ∀ f ∈ frags, fragOk f = true) {text : List Char} {sels : List Sel}
    (he : Emits text (emitSels sels).flatten) (ho : selsOk sels = true) :
    Outcome frags text sels (embedDocument prep (docsOf frags) (text)) := by
  have := replaceIteratively_spec hu hprep hok he ho (frags.length + 1) [] (by simp) (by simp) (by simp) (by simp)
  unfold embedDocument
  have hl : (docsOf frags).length = frags.length := by simp [docsOf]
  rw [hl]
  simpa [joinS] using this

/-- `embedDocument` on an operation -/
theorem embedOperation_spec {prep : List Char → List Char} {frags : List FragDef}
    (hu : (frags.map (·.name)).Nodup)
    (hprep : ∀ f ∈ frags, prep (printFragment f) = printFragment (addTypenameToFragment f))
    (hok : ∀ f ∈ frags, fragOk f = true) {name : String} {o : OpDef} (ho : opOk name o = true) :
    Outcome frags (printOperation name o) o.sels (embedDocument prep (docsOf frags) (printOperation name o)) :=
  embedDocument_spec hu hprep hok (printOperation_emits name o ho)
    (by simp only [opOk, Bool.and_eq_true] at ho; exact ho.2)

/-- `embedDocument` on a fragment -/
theorem embedFragment_spec {prep : List Char → List Char} {frags : List FragDef}
    (hu : (frags.map (·.name)).Nodup)
    (hprep : ∀ f ∈ frags, prep (printFragment f) = printFragment (addTypenameToFragment f))
    (hok : ∀ f ∈ frags, fragOk f = true) {d : FragDef} (hd : fragOk d = true) :
    Outcome frags (printFragment d) d.sels (embedDocument prep (docsOf frags) (printFragment d)) :=
  embedDocument_spec hu hprep hok (printFragment_emits d hd)
    (by simp only [fragOk, Bool.and_eq_true] at hd; exact hd.2)

end Turms.Documents
