import Verif.Spec.Regenerate
import Verif.Props.Merge

/-! # C86: generating again and again -/

namespace Turms.Props
open Turms Turms.Merge Turms.Merge.Spec

theorem pointwise_mem {α : Type} {R : α → α → Prop} {as bs : List α} (h : Pointwise R as bs) {a : α} (ha : a ∈ as) :
    ∃ b ∈ bs, R a b := by
  induction h with
  | nil => cases ha
  | cons hab _ ih =>
    rcases List.mem_cons.1 ha with rfl | ha
    · exact ⟨_, by simp, hab⟩
    · obtain ⟨b, hb, h⟩ := ih ha
      exact ⟨b, by simp [hb], h⟩

/-- one run keeps the item -/
theorem run_keeps {f g r : Module} {it : Item} (hk : SameKinds f.body g.body) (hn : NotGenerated g it)
    (h : mergeModules f g = .ok r) (hi : Has f it) : Has r it := by
  obtain ⟨kept, hp, hs⟩ := C30_keeps_user_code f g r hk h
  have hclass : ∀ {c hd ms}, Node.cls c hd ms ∈ f.body → Node.cls c hd ms ∈ r.body ∨
      ∃ ms' gb gh, Node.cls c hd ms' ∈ r.body ∧ Node.cls c gh gb ∈ g.body ∧ ∀ x ∈ ms, ∃ y ∈ ms', KeptMember gb x y := by
    intro c hd ms hm
    obtain ⟨b, hb, hkt⟩ := pointwise_mem hp hm
    cases hkt with
    | verbatim _ _ => exact .inl (hs.subset hb)
    | class_ _ _ _ ms' kept' gb gh hg hkept hsub =>
      refine .inr ⟨ms', gb, gh, hs.subset hb, hg, fun x hx => ?_⟩
      obtain ⟨y, hy, h⟩ := pointwise_mem hkept hx
      exact ⟨y, hsub.subset hy, h⟩
  cases it with
  | statement s =>
    obtain ⟨b, hb, hkt⟩ := pointwise_mem hp hi
    cases hkt with
    | verbatim _ _ => exact hs.subset hb
    | function n hd hd' b' gb hg => exact (hn n rfl _ hg rfl).elim
    | class_ n hd b1 ms' kept' gb gh hg _ _ => exact (hn n rfl _ hg rfl).elim
  | function n b =>
    obtain ⟨hd, hi⟩ := hi
    obtain ⟨x, hx, hkt⟩ := pointwise_mem hp hi
    cases hkt with
    | verbatim _ _ => exact ⟨hd, hs.subset hx⟩
    | function _ _ hd' _ _ _ => exact ⟨hd', hs.subset hx⟩
  | member c s =>
    obtain ⟨hd, ms, hc, hm⟩ := hi
    rcases hclass hc with h1 | ⟨ms', gb, gh, h1, h2, h3⟩
    · exact ⟨hd, ms, h1, hm⟩
    · obtain ⟨y, hy, hkm⟩ := h3 s hm
      refine ⟨hd, ms', h1, ?_⟩
      cases hkm with
      | verbatim _ _ => exact hy
      | method n _ _ _ _ hg => exact (hn n rfl _ _ h2 _ hg rfl).elim
      | «attribute» n _ _ s1 s2 e1 e2 hg => exact (hn n e1 _ _ h2 _ hg e2).elim
  | method c n b =>
    obtain ⟨hd, ms, hc, hd', hm⟩ := hi
    rcases hclass hc with h1 | ⟨ms', gb, gh, h1, h2, h3⟩
    · exact ⟨hd, ms, h1, hd', hm⟩
    · obtain ⟨y, hy, hkm⟩ := h3 _ hm
      cases hkm with
      | verbatim _ _ => exact ⟨hd, ms', h1, hd', hy⟩
      | method _ _ hd'' _ _ _ => exact ⟨hd, ms', h1, hd'', hy⟩
  | comment c n t =>
    obtain ⟨hd, ms, hc, s, hm, e⟩ := hi
    rcases hclass hc with h1 | ⟨ms', gb, gh, h1, h2, h3⟩
    · exact ⟨hd, ms, h1, s, hm, e⟩
    · obtain ⟨y, hy, hkm⟩ := h3 _ hm
      cases hkm with
      | verbatim _ _ => exact ⟨hd, ms', h1, s, hy, e⟩
      | «attribute» n' _ _ _ s' e1 e2 _ =>
        rw [e] at e1
        cases e1
        exact ⟨hd, ms', h1, s', hy, e2⟩

/-- However often turms runs, whatever it generates each time, and whatever else is edited in between: the bodies of
functions and methods, the comments at attributes, and the statements and class members no generated code has the name of
are still there. (No name may become a class in one file and a function in the other, see C30.) -/
theorem C86_user_code_survives {it : Item} {f f' : Module} (h : History it f f') (hi : Has f it) : Has f' it := by
  induction h with
  | start => exact hi
  | run _ hk hn hm ih => exact run_keeps hk hn hm ih
  | edit _ he ih => exact he ih

section
variable {parse : String → Except Err Module} {code : Module → String} {pre : List (Pass String (Option String))} {gen g : String} {gm : Module}

theorem runPasses_merge {file : Option String} (hpre : ∀ file, runPasses pre gen file = (.ok g, file)) :
    runPasses (pre ++ [mergePass parse code]) gen file = runPasses [mergePass parse code] g file := by
  have : ∀ (ps : List (Pass String (Option String))) (x : String) (w : Option String), runPasses ps x w = (.ok g, file) →
      runPasses (ps ++ [mergePass parse code]) x w = runPasses [mergePass parse code] g file := by
    intro ps
    induction ps with
    | nil => intro x w h; simp only [runPasses] at h; cases h; rfl
    | cons p ps ih =>
      intro x w h
      simp only [runPasses, List.cons_append] at h ⊢
      split at h
      · cases h
      · rename_i b w1 hb
        exact ih _ _ h
  exact this _ _ _ (hpre file)

theorem merge_some {old : String} {e r : Module} (h1 : parse old = .ok e) (h2 : parse g = .ok gm) (h3 : mergeModules e gm = .ok r) :
    runPasses [mergePass parse code] g (some old) = (.ok (code r), some old) := by
  simp only [runPasses, mergePass, Merge.run, mergeCode, h1, h2, h3]

/-- Generating again with the merge processor last, as `turms init` sets it up, changes nothing once the generated code has
been merged: whatever the file was, after the first run every further run writes the same text. `parse` and `code` stand for
libcst; asked for is that it reads what it printed. (The generated classes have distinct member names and no name changes
kind, see C32.) -/
theorem C86_stable_partial (hpre : ∀ file, runPasses pre gen file = (.ok g, file)) (hg : parse g = .ok gm)
    (hd : DistinctMembers gm.body) {old : String} {e r : Module} (ho : parse old = .ok e) (hk : SameKinds e.body gm.body)
    (hm : mergeModules e gm = .ok r) (hr : parse (code r) = .ok r) (n : Nat) :
    again (pre ++ [mergePass parse code]) gen (n + 1) (some old) = .ok (some (code r)) := by
  have hi := C32_idempotent_partial e gm r hk hd hm
  have hrest : ∀ n, again (pre ++ [mergePass parse code]) gen n (some (code r)) = .ok (some (code r)) := by
    intro n
    induction n with
    | zero => rfl
    | succ n ih => simp only [again, runPasses_merge hpre, merge_some hr hg hi, ih]
  simp only [again, runPasses_merge hpre, merge_some ho hg hm, hrest]

/-- The same if there was no file: it gets the generated text, and keeps it. -/
theorem C86_fresh_partial (hpre : ∀ file, runPasses pre gen file = (.ok g, file)) (hg : parse g = .ok gm)
    (hc : code gm = g) (hh : gm.header = []) (hf : gm.footer = []) (hn : (gm.body.filterMap topName).Nodup)
    (hd : DistinctMembers gm.body) (n : Nat) :
    again (pre ++ [mergePass parse code]) gen (n + 1) none = .ok (some g) := by
  have hi := C33_self_merge_partial gm hh hf hn hd
  have hrest : ∀ n, again (pre ++ [mergePass parse code]) gen n (some g) = .ok (some g) := by
    intro n
    induction n with
    | zero => rfl
    | succ n ih => simp only [again, runPasses_merge hpre, merge_some hg hg hi, hc, ih]
  have h1 : runPasses [mergePass parse code] g none = (.ok g, none) := by simp only [runPasses, mergePass, Merge.run]
  simp only [again, runPasses_merge hpre, h1, hrest]

/-- merging code into a file that has it, below lines of its own -/
theorem merge_below (m : Module) (hn : (m.body.filterMap topName).Nodup) (hd : DistinctMembers m.body) (d : String) (k : Nat) :
    mergeModules ⟨[], List.replicate k (.other d) ++ m.body, []⟩ m = .ok ⟨[], List.replicate k (.other d) ++ m.body, []⟩ := by
  have : mergeBody topKey mergeTop m.body (List.replicate k (.other d) ++ m.body) = .ok (List.replicate k (.other d) ++ m.body) := by
    refine mergeBody_fix topKey mergeTop top_hkey _ _ ?_ ?_
    · intro k' hk
      rcases (mem_keys_collect ..).1 hk with h | h
      · obtain ⟨n, hn, h⟩ := h
        exact ⟨n, List.mem_append_right _ hn, h⟩
      · simp [Dict.keys] at h
    · intro n hn' k' x hk hx
      rcases List.mem_append.1 hn' with hn' | hn'
      · rw [List.eq_of_mem_replicate hn'] at hk
        simp [topKey] at hk
      · have := collect_get_unique topKey m.body (by rw [topKey_eq']; exact hn) n hn' k' x hk hx
        subst this
        cases x with
        | line => simp [topKey] at hk
        | other => simp [topKey] at hk
        | fn => simp [mergeTop, mergeFunctions, bodyOf]
        | cls n' h' b' =>
          simp only [mergeTop, mergeClass, bodyOf, mergeMembers_self b' (hd n' h' b' hn')]
  unfold mergeModules
  rw [this]

/-- The order of the processors matters: with the disclaimer added after merging, it is added on every run; after `n + 1` runs
the file has `n + 1` of them, although nothing has changed. -/
theorem C86_disclaimer_last_counterexample {d : String} (hg : parse gen = .ok gm) (hc : code gm = gen) (hn : (gm.body.filterMap topName).Nodup)
    (hd : DistinctMembers gm.body) (hh : gm.header = []) (hf : gm.footer = [])
    (hp : ∀ k, parse (d ++ "\n" ++ code ⟨[], List.replicate k (.other d) ++ gm.body, []⟩) =
      .ok ⟨[], List.replicate (k + 1) (.other d) ++ gm.body, []⟩) (n : Nat) :
    again [mergePass parse code, disclaimerPass d] gen (n + 1) none =
      .ok (some (d ++ "\n" ++ code ⟨[], List.replicate n (.other d) ++ gm.body, []⟩)) := by
  have hrest : ∀ n k, again [mergePass parse code, disclaimerPass d] gen n
      (some (d ++ "\n" ++ code ⟨[], List.replicate k (.other d) ++ gm.body, []⟩)) =
      .ok (some (d ++ "\n" ++ code ⟨[], List.replicate (k + n) (.other d) ++ gm.body, []⟩)) := by
    intro n
    induction n with
    | zero => intro k; rfl
    | succ n ih =>
      intro k
      have h1 : runPasses [mergePass parse code, disclaimerPass d] gen
          (some (d ++ "\n" ++ code ⟨[], List.replicate k (.other d) ++ gm.body, []⟩)) =
          (.ok (d ++ "\n" ++ code ⟨[], List.replicate (k + 1) (.other d) ++ gm.body, []⟩),
            some (d ++ "\n" ++ code ⟨[], List.replicate k (.other d) ++ gm.body, []⟩)) := by
        simp only [runPasses, mergePass, disclaimerPass, disclaimerRun, Merge.run, mergeCode, hp k, hg, merge_below gm hn hd]
      simp only [again, h1, ih (k + 1)]
      rw [show k + 1 + n = k + (n + 1) by omega]
  have h0 : gm = ⟨[], List.replicate 0 (.other d) ++ gm.body, []⟩ := by
    cases gm
    simp only at hh hf
    simp [hh, hf]
  have h1 : runPasses [mergePass parse code, disclaimerPass d] gen none = (.ok (d ++ "\n" ++ gen), none) := by
    simp only [runPasses, mergePass, disclaimerPass, disclaimerRun, Merge.run]
  simp only [again, h1]
  have h2 : gen = code ⟨[], List.replicate 0 (.other d) ++ gm.body, []⟩ := by rw [← h0, hc]
  have := hrest n 0
  rw [← h2, Nat.zero_add] at this
  exact this
end

/-! ## Concrete cases -/

/-- a history: generated twice, with a helper added in between -/
example : History (.function "get_user" [.other "return my_cache[id]"]) mergeOld
    ⟨[], merged.body ++ [.fn "mine" "()" []], []⟩ ∧ Has mergeOld (.function "get_user" [.other "return my_cache[id]"]) := by
  refine ⟨.edit (.run (.run (.start _) ?_ trivial (f'' := merged) (g := mergeNew) rfl) ?_ trivial (f'' := merged) (g := mergeNew) rfl) ?_,
    "(id)", by simp [mergeOld]⟩
  · simp [SameKinds, mergeOld, mergeNew, topName]
  · simp [SameKinds, merged, mergeNew, topName]
  · rintro ⟨h, hm⟩
    exact ⟨h, List.mem_append_left _ hm⟩

/-- a parser and a printer for files of two kinds of statements: `D` and the class `C` -/
def toyParse (s : String) : Except Err Module :=
  .ok ⟨[], s.toList.filterMap fun c => if c = 'D' then some (.other "D") else if c = 'C' then some (.cls "C" "" []) else none, []⟩
def toyCode (m : Module) : String := String.ofList (m.body.map fun n => match n with | .other _ => 'D' | _ => 'C')

/-- the laws asked for hold of them -/
theorem toy_laws (k : Nat) : toyParse ("D" ++ "\n" ++ toyCode ⟨[], List.replicate k (.other "D") ++ [.cls "C" "" []], []⟩) =
    .ok ⟨[], List.replicate (k + 1) (.other "D") ++ [.cls "C" "" []], []⟩ := by
  unfold toyParse toyCode
  simp only [String.toList_append, String.toList_ofList, List.map_append, List.map_replicate, List.filterMap_append]
  have : ∀ k, (List.replicate k 'D').filterMap (fun c => if c = 'D' then some (Node.other "D") else
      if c = 'C' then some (.cls "C" "" []) else none) = List.replicate k (.other "D") := by
    intro k
    induction k with
    | zero => rfl
    | succ k ih => rw [List.replicate_succ, List.filterMap_cons]; simp only [if_true]; rw [ih]; rfl
  rw [this, List.replicate_succ]
  rfl

/-- four disclaimers after four runs, -/
example : again [mergePass toyParse toyCode, disclaimerPass "D"] "C" 4 none = .ok (some "D\nDDDC") :=
  C86_disclaimer_last_counterexample (gm := ⟨[], [.cls "C" "" []], []⟩) rfl rfl (by decide)
    (by intro n h b hm; simp at hm; simp [hm]) rfl rfl toy_laws 3

/-- but one if merging comes last -/
example (n : Nat) : again ([disclaimerPass "D"] ++ [mergePass toyParse toyCode]) "C" (n + 1) (some "DC") = .ok (some "DC") :=
  C86_stable_partial (g := "D\nC") (gm := ⟨[], [.other "D", .cls "C" "" []], []⟩) (e := ⟨[], [.other "D", .cls "C" "" []], []⟩)
    (r := ⟨[], [.other "D", .cls "C" "" []], []⟩) (fun _ => rfl) rfl (by intro n h b hm; simp at hm; simp [hm]) rfl
    (by simp [SameKinds, topName]) rfl rfl n

example (n : Nat) : again ([] ++ [mergePass toyParse toyCode]) "C" (n + 1) none = .ok (some "C") :=
  C86_fresh_partial (gm := ⟨[], [.cls "C" "" []], []⟩) (fun _ => rfl) rfl rfl rfl rfl (by decide)
    (by intro n h b hm; simp at hm; simp [hm]) n

end Turms.Props
