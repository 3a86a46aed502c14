import Verif.Lemmas.Registry
import Verif.Lemmas.Sort

namespace Turms
open Spec

theorem dotted_split (d : String) (h : hasDot d = true) :
    initComponents d ++ "." ++ lastComponent d = d ∧ hasDot (lastComponent d) = false := by
  have hmem : '.' ∈ d.toList := by simpa [hasDot] using h
  have hlen : 2 ≤ (splitOnChar '.' d.toList).length := by
    have h1 : (splitOnChar '.' d.toList).length ≠ 1 := by
      rw [ne_eq, splitOnChar_single_iff]; simpa using hmem
    have h0 : (splitOnChar '.' d.toList).length ≠ 0 := by
      rw [ne_eq, List.length_eq_zero_iff]; exact splitOnChar_ne_nil _ _
    omega
  have hj := joinWith_dropLast '.' _ hlen
  rw [joinWith_split] at hj
  constructor
  · apply String.toList_inj.1
    simp only [initComponents, lastComponent, String.toList_append, String.toList_ofList]
    rw [show ".".toList = ['.'] from rfl]
    simpa using hj.symm
  · simp only [hasDot, lastComponent, String.toList_ofList]
    cases hl : (splitOnChar '.' d.toList).getLast? with
    | none => simp
    | some w =>
      have := splitOnChar_parts '.' d.toList w (List.mem_of_getLast? hl)
      simpa using this

/-- splitting a dotted name at its last dot is unique -/
theorem last_dot_unique {m n m' n' : List Char} (h : m ++ '.' :: n = m' ++ '.' :: n')
    (h1 : '.' ∉ n) (h2 : '.' ∉ n') : m = m' ∧ n = n' := by
  induction m generalizing m' with
  | nil =>
    cases m' with
    | nil => simpa using h
    | cons c m' =>
      simp at h
      exfalso; apply h1; rw [h.2]; simp
  | cons c m ih =>
    cases m' with
    | nil =>
      simp at h
      exfalso; apply h2; rw [← h.2]; simp
    | cons d m' =>
      simp at h
      have := ih h.2
      simp [h.1, this]

theorem dotted_iff (d m n : String) :
    (hasDot d = true ∧ initComponents d = m ∧ lastComponent d = n) ↔
      (d = m ++ "." ++ n ∧ hasDot n = false) := by
  constructor
  · rintro ⟨h, rfl, rfl⟩
    have := dotted_split d h
    exact ⟨this.1.symm, this.2⟩
  · rintro ⟨h, hn⟩
    have hd : hasDot d = true := by
      rw [h]; simp [hasDot]
    have := dotted_split d hd
    refine ⟨hd, ?_⟩
    have e : initComponents d ++ "." ++ lastComponent d = m ++ "." ++ n := by rw [this.1, h]
    have e' := congrArg String.toList e
    simp only [String.toList_append, List.append_assoc] at e'
    rw [show ".".toList = ['.'] from rfl] at e'
    simp only [List.cons_append, List.nil_append] at e'
    have h1 : '.' ∉ (lastComponent d).toList := by simpa [hasDot] using this.2
    have h2 : '.' ∉ n.toList := by simpa [hasDot] using hn
    obtain ⟨a, b⟩ := last_dot_unique e' h1 h2
    exact ⟨String.toList_inj.1 a, String.toList_inj.1 b⟩

theorem lastComponent_of_no_dot (d : String) (h : hasDot d = false) : lastComponent d = d := by
  have hmem : '.' ∉ d.toList := by simpa [hasDot] using h
  have h1 := (splitOnChar_single_iff '.' d.toList).2 hmem
  have hj := joinWith_split '.' d.toList
  match hs : splitOnChar '.' d.toList, h1 with
  | [w], _ =>
    rw [hs] at hj
    simp [joinWith] at hj
    simp [lastComponent, hs, hj]

theorem groupImports_snoc (order : List String) (name : String) :
    groupImports (order ++ [name]) =
      (if !(hasDot name) then (setAdd (groupImports order).1 name, (groupImports order).2)
        else
          ((groupImports order).1, (groupImports order).2.set (initComponents name)
            (setAdd (((groupImports order).2.get? (initComponents name)).getD []) (lastComponent name)))) := by
  simp [groupImports]

theorem groupImports_lone (order : List String) (x : String) :
    x ∈ (groupImports order).1 ↔ x ∈ order ∧ hasDot x = false := by
  induction order using list_snoc_induction with
  | h0 => simp [groupImports]
  | h1 order n ih =>
    rw [groupImports_snoc]
    split
    · rename_i hd
      simp at hd
      simp only [mem_setAdd, ih, List.mem_append, List.mem_singleton]
      grind
    · rename_i hd
      simp at hd
      simp only [ih, List.mem_append, List.mem_singleton]
      grind

theorem groupImports_lone_nodup (order : List String) : (groupImports order).1.Nodup := by
  induction order using list_snoc_induction with
  | h0 => simp [groupImports]
  | h1 order n ih =>
    rw [groupImports_snoc]
    split
    · exact nodup_setAdd _ _ ih
    · exact ih

theorem groupImports_mods (order : List String) (m x : String) :
    x ∈ ((groupImports order).2.get? m).getD [] ↔
      ∃ d ∈ order, hasDot d = true ∧ initComponents d = m ∧ lastComponent d = x := by
  induction order using list_snoc_induction generalizing m x with
  | h0 => simp [groupImports]
  | h1 order n ih =>
    rw [groupImports_snoc]
    split
    · rename_i hd
      simp at hd
      simp only [ih, List.mem_append, List.mem_singleton]
      grind
    · rename_i hd
      simp at hd
      simp only [Dict.get?_set]
      by_cases hm : initComponents n = m
      · subst hm
        simp only [if_true, Option.getD_some, mem_setAdd, ih, List.mem_append, List.mem_singleton]
        grind
      · simp only [if_neg hm, ih, List.mem_append, List.mem_singleton]
        grind

theorem groupImports_keys_nodup (order : List String) : (Dict.keys (groupImports order).2).Nodup := by
  induction order using list_snoc_induction with
  | h0 => simp [groupImports, Dict.keys]
  | h1 order n ih =>
    rw [groupImports_snoc]
    split
    · exact ih
    · exact Dict.nodup_keys_set _ _ _ ih

theorem groupImports_vals_nodup (order : List String) (m : String) :
    (((groupImports order).2.get? m).getD []).Nodup := by
  induction order using list_snoc_induction generalizing m with
  | h0 => simp [groupImports]
  | h1 order n ih =>
    rw [groupImports_snoc]
    split
    · exact ih m
    · simp only [Dict.get?_set]
      split
      · exact nodup_setAdd _ _ (ih _)
      · exact ih m

theorem binds_append (a b : List Stmt) : binds (a ++ b) = binds a ++ binds b := by
  induction a with
  | nil => rfl
  | cons s a ih => cases s <;> simp [binds, ih]

theorem binds_imports (l : List String) : binds (l.map Stmt.import_) = l.map (fun n => (none, n)) := by
  induction l with
  | nil => rfl
  | cons a l ih => simp [binds, ih]

theorem binds_froms (inner : List String → List String) (l : Dict (List String)) :
    binds (l.map (fun p => Stmt.importFrom p.1 (inner p.2))) =
      l.flatMap (fun p => (inner p.2).map (fun n => (some p.1, n))) := by
  induction l with
  | nil => rfl
  | cons a l ih => simp [binds, ih]

theorem mem_binds_generateImports (order : List String) (inner : List String → List String)
    (hin : ∀ l, (inner l).Perm l) (p : Option String × String) :
    p ∈ binds (generateImports order inner) ↔
      (p.1 = none ∧ p.2 ∈ (groupImports order).1) ∨
      (∃ m, p.1 = some m ∧ p.2 ∈ ((groupImports order).2.get? m).getD []) := by
  obtain ⟨pm, pn⟩ := p
  unfold generateImports
  simp only [binds_append, binds_imports, binds_froms, List.mem_append, List.mem_map, List.mem_flatMap]
  constructor
  · rintro (⟨n, hn, e⟩ | ⟨q, hq, n, hn, e⟩)
    · cases e
      left; exact ⟨rfl, (hin _).mem_iff.1 hn⟩
    · cases e
      right
      refine ⟨q.1, rfl, ?_⟩
      have := Dict.get?_of_mem_nodup (groupImports_keys_nodup order) (k := q.1) (v := q.2) hq
      rw [this]
      exact (hin _).mem_iff.1 hn
  · rintro (⟨h1, h2⟩ | ⟨m, h1, h2⟩)
    · subst h1
      left; exact ⟨pn, (hin _).mem_iff.2 h2, rfl⟩
    · subst h1
      right
      cases hg : (groupImports order).2.get? m with
      | none => rw [hg] at h2; simp at h2
      | some ns =>
        rw [hg] at h2
        exact ⟨(m, ns), Dict.mem_of_get? hg, pn, (hin _).mem_iff.2 h2, rfl⟩

theorem nodup_flatMap_dict (inner : List String → List String) (hin : ∀ l, (inner l).Perm l)
    (d : Dict (List String)) (hk : (Dict.keys d).Nodup) (hv : ∀ p ∈ d, p.2.Nodup) :
    (d.flatMap (fun p => (inner p.2).map (fun n => (some p.1, n)))).Nodup := by
  induction d with
  | nil => simp
  | cons q d ih =>
    simp only [Dict.keys, List.map_cons, List.nodup_cons] at hk
    simp only [List.flatMap_cons]
    rw [List.nodup_append]
    refine ⟨?_, ih hk.2 (fun p hp => hv p (by simp [hp])), ?_⟩
    · have : (inner q.2).Nodup := (hin _).nodup_iff.2 (hv q (by simp))
      rw [List.Nodup, List.pairwise_map]
      exact List.Pairwise.imp (fun h => by simpa using h) this
    · intro a ha b hb e
      subst e
      simp only [List.mem_map, List.mem_flatMap] at ha hb
      obtain ⟨n, _, rfl⟩ := ha
      obtain ⟨p, hp, n', _, e⟩ := hb
      simp at e
      apply hk.1
      rw [← e.1]
      exact List.mem_map_of_mem (f := (·.1)) hp

theorem binds_generateImports_nodup (order : List String) (inner : List String → List String)
    (hin : ∀ l, (inner l).Perm l) : (binds (generateImports order inner)).Nodup := by
  unfold generateImports
  simp only [binds_append, binds_imports, binds_froms]
  rw [List.nodup_append]
  refine ⟨?_, ?_, ?_⟩
  · have : (inner (groupImports order).1).Nodup := (hin _).nodup_iff.2 (groupImports_lone_nodup order)
    rw [List.Nodup, List.pairwise_map]
    exact List.Pairwise.imp (fun h => by simpa using h) this
  · apply nodup_flatMap_dict inner hin _ (groupImports_keys_nodup order)
    intro p hp
    have := groupImports_vals_nodup order p.1
    rw [Dict.get?_of_mem_nodup (groupImports_keys_nodup order) (k := p.1) (v := p.2) hp] at this
    exact this
  · intro a ha b hb e
    subst e
    simp only [List.mem_map, List.mem_flatMap] at ha hb
    obtain ⟨n, _, rfl⟩ := ha
    obtain ⟨p, _, n', _, e⟩ := hb
    simp at e

theorem fromModules_generateImports (order : List String) (inner : List String → List String) :
    fromModules (generateImports order inner) = Dict.keys (groupImports order).2 := by
  unfold generateImports
  have h1 : ∀ (l : List String) (rest : List Stmt),
      fromModules (l.map Stmt.import_ ++ rest) = fromModules rest := by
    intro l rest
    induction l with
    | nil => rfl
    | cons a l ih => simp [fromModules, ih]
  have h2 : ∀ (l : Dict (List String)),
      fromModules (l.map (fun p => Stmt.importFrom p.1 (inner p.2))) = Dict.keys l := by
    intro l
    induction l with
    | nil => rfl
    | cons a l ih => simp [fromModules, ih, Dict.keys]
  simp only [h1, h2]

end Turms
