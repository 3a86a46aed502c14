import Verif.Lemmas.ClassNames
import Mathlib.Data.List.Nodup

/-! # The names of the classes of an operation are distinct -/

namespace Turms
open Spec

/-- the words of a step -/
def wordsAt : Step → List (List Char)
  | .key k => [(pyCapitalize k).toList]
  | .member t => humps (t ++ "InlineFragment").toList

/-- the words of a path -/
def wordsOf (path : List Step) : List (List Char) := path.flatMap wordsAt

theorem wordsAt_flatten (k : Step) : (wordsAt k).flatten = (stepName k).toList := by
  cases k with
  | key k => simp [wordsAt, stepName]
  | member t => exact humps_flatten _

theorem capsOf_toList (path : List Step) : (capsOf path).toList = (wordsOf path).flatten := by
  induction path with
  | nil => rfl
  | cons k p ih =>
    unfold wordsOf at *
    rw [capsOf_cons, String.toList_append, ih, List.flatMap_cons, List.flatten_append, wordsAt_flatten]

theorem wordsOf_caseless (path : List Step) : (wordsOf path).map (List.map Char.toLower) = pathWords path := by
  unfold wordsOf pathWords
  rw [List.map_flatMap]
  congr 1
  funext k
  cases k with
  | key k => simp [wordsAt, stepWords, caseless_capitalize]
  | member t => rfl

theorem head_append {a b : String} {p : Char → Bool} (h : a.toList.head?.any p = true) :
    (a ++ b).toList.head?.any p = true := by
  rw [String.toList_append]
  cases ha : a.toList with
  | nil => rw [ha] at h; cases h
  | cons c cs => rw [ha] at h; exact h

theorem wordsOf_words {path : List Step} (h : ∀ k ∈ path, ClearStep k) : ∀ w ∈ wordsOf path, IsWord w := by
  intro w hw
  obtain ⟨k, hk, hw⟩ := List.mem_flatMap.1 hw
  have := h k hk
  cases k with
  | key k =>
    rw [List.mem_singleton.1 hw]
    exact isWord_capitalize this
  | member t => exact humps_words (head_append this) w hw

theorem wordsAt_ne {k : Step} : wordsAt k ≠ [] := by
  cases k with
  | key k => simp [wordsAt]
  | member t =>
    intro h
    have := congrArg List.flatten h
    rw [wordsAt_flatten] at this
    have := congrArg List.length this
    simp [stepName] at this

/-- what follows the words of a path in a class name -/
def SuffixOf (kind : NestedKind) (x : List Char) : Prop :=
  (kind = .object ∧ x = []) ∨ ∃ t z, kind = .iface t ∧ x = "Base".toList ++ z

theorem SuffixOf.stops {k : NestedKind} {x : List Char} (h : SuffixOf k x) : Stops x := by
  rcases h with ⟨_, rfl⟩ | ⟨t, z, _, rfl⟩
  · exact .nil
  · intro c cs he
    cases he
    decide

theorem mem_namesAt {s : Schema} {pre a : String} {n : Nested} (h : a ∈ namesAt s pre n) :
    ∃ x, SuffixOf n.kind x ∧ a.toList = pre.toList ++ ((wordsOf n.path).flatten ++ x) := by
  unfold namesAt at h
  split at h
  · rename_i hk
    rw [List.mem_singleton] at h
    subst h
    refine ⟨[], .inl ⟨hk, rfl⟩, ?_⟩
    rw [String.toList_append, capsOf_toList, List.append_nil]
  · rename_i t hk
    have : ∃ z : String, a = pre ++ capsOf n.path ++ "Base" ++ z := by
      rcases List.mem_cons.1 h with rfl | h
      · exact ⟨"", by rw [String.append_empty]⟩
      · rcases List.mem_append.1 h with h | h
        · obtain ⟨i, _, rfl⟩ := List.mem_map.1 h
          exact ⟨_, rfl⟩
        · rw [List.mem_singleton] at h
          exact ⟨_, h⟩
    obtain ⟨z, rfl⟩ := this
    refine ⟨_, .inr ⟨t, z.toList, hk, rfl⟩, ?_⟩
    simp only [String.toList_append, capsOf_toList, List.append_assoc]

theorem names_continue {s : Schema} {l : List Nested} (hl : ClearPaths s l) {m n : Nested} (hm : m ∈ l) (hn : n ∈ l)
    (hne : pathWords m.path ≠ pathWords n.path) {x y : List Char} (hx : SuffixOf m.kind x) (hy : SuffixOf n.kind y)
    {t : List (List Char)} (ht : wordsOf n.path = wordsOf m.path ++ t) (he : x = t.flatten ++ y) : False := by
  have hwords : ∀ w ∈ wordsOf n.path, IsWord w := wordsOf_words (hl.letters n hn)
  have hmap := wordsOf_caseless n.path
  rw [ht, List.map_append, wordsOf_caseless] at hmap
  cases t with
  | nil =>
    rw [List.map_nil, List.append_nil] at hmap
    exact hne hmap
  | cons v t =>
    rw [ht] at hwords
    have hv : IsWord v := hwords v (by simp)
    rcases hx with ⟨_, rfl⟩ | ⟨ty, z, hk, rfl⟩
    · obtain ⟨c, cs, rfl, _⟩ := hv
      cases he
    · have hb : IsWord "Base".toList := ⟨'B', ['a', 's', 'e'], by decide, by decide, by decide⟩
      rw [List.flatten_cons] at he
      have hpre := word_prefix hb (fun w hw => hwords w (by simp [hw])) hv hy.stops he
      refine hl.base m hm ty hk n hn (v.map Char.toLower) (t.map (List.map Char.toLower)) hmap.symm ?_
      have := hpre.map Char.toLower
      have hlow : "Base".toList.map Char.toLower = "base".toList := by decide
      rw [hlow] at this
      exact this

theorem names_differ {s : Schema} {l : List Nested} (hl : ClearPaths s l) {pre a : String} {m n : Nested} (hm : m ∈ l)
    (hn : n ∈ l) (hne : pathWords m.path ≠ pathWords n.path) (ha : a ∈ namesAt s pre m) (hb : a ∈ namesAt s pre n) :
    False := by
  obtain ⟨x, hx, ea⟩ := mem_namesAt ha
  obtain ⟨y, hy, eb⟩ := mem_namesAt hb
  rw [ea] at eb
  have he := List.append_cancel_left eb
  have hw : ∀ n ∈ l, ∀ w ∈ wordsOf n.path, IsWord w := fun n hn => wordsOf_words (hl.letters n hn)
  rcases join_eq (hw m hm) (hw n hn) hx.stops hy.stops he with ⟨t, ht, e⟩ | ⟨t, ht, e⟩
  · exact names_continue hl hm hn hne hx hy ht e
  · exact names_continue hl hn hm (Ne.symm hne) hy hx ht e

theorem implementations_nodup {s : Schema} (h : s.types.keys.Nodup) (t : String) :
    ((implementations s t).map (·.name)).Nodup := by
  have hsub : ((implementations s t).map (·.name)).Sublist s.types.keys := by
    unfold implementations Dict.keys
    generalize s.types = l
    induction l with
    | nil => exact List.Sublist.refl _
    | cons p l ih =>
      rw [List.filterMap_cons]
      split
      · exact ih.cons _
      · rename_i i hi
        have : i.name = p.1 := by
          revert hi
          split
          · split
            · intro h; cases h; rfl
            · intro h; cases h
          · intro h; cases h
        rw [List.map_cons, List.map_cons, this]
        exact ih.cons_cons _
  exact h.sublist hsub

theorem mem_implementations_object {s : Schema} (h : s.types.keys.Nodup) {t : String} {i : Implementation}
    (hi : i ∈ implementations s t) : ∃ fs is, s.lookup i.name = some (.object fs is) ∧ t ∈ is := by
  unfold implementations at hi
  obtain ⟨p, hp, he⟩ := List.mem_filterMap.1 hi
  split at he
  · rename_i fs is hd
    split at he
    · rename_i hc
      cases he
      refine ⟨fs, is, ?_, by simpa using hc⟩
      unfold Schema.lookup
      rw [Dict.get?_of_mem_nodup h hp]
      rw [Option.map_some, hd]
    · cases he
  · cases he

theorem namesAt_nodup {s : Schema} (h : s.types.keys.Nodup) {pre : String} {n : Nested}
    (hc : ∀ t, n.kind = .iface t → ∀ fs is, s.lookup "CatchAll" = some (.object fs is) → t ∉ is) (hempty : "" ∉ s.types.keys) :
    (namesAt s pre n).Nodup := by
  unfold namesAt
  split
  · simp
  · rename_i t hk
    have hinj : ∀ a b : String, pre ++ capsOf n.path ++ "Base" ++ a = pre ++ capsOf n.path ++ "Base" ++ b → a = b := by
      intro a b hab
      exact String.toList_inj.1 (List.append_cancel_left
        (as := (pre ++ capsOf n.path ++ "Base").toList) (by rw [← String.toList_append, ← String.toList_append, hab]))
    rw [List.nodup_cons, List.nodup_append]
    refine ⟨?_, ?_, by simp, ?_⟩
    · intro hm
      rcases List.mem_append.1 hm with hm | hm
      · obtain ⟨i, hi, he⟩ := List.mem_map.1 hm
        have : i.name = "" := hinj _ _ (by rw [he, String.append_empty])
        obtain ⟨fs, is, hl, _⟩ := mem_implementations_object h hi
        rw [this] at hl
        apply hempty
        unfold Schema.lookup at hl
        cases hg : s.types.get? "" with
        | none => rw [hg] at hl; cases hl
        | some v => exact List.mem_map.2 ⟨_, Dict.mem_of_get? hg, rfl⟩
      · rw [List.mem_singleton] at hm
        have : "CatchAll" = "" := hinj _ _ (by rw [← hm, String.append_empty])
        exact absurd this (by decide)
    · have := implementations_nodup h t
      have h2 := List.Nodup.map (f := fun x => pre ++ capsOf n.path ++ "Base" ++ x) (fun a b hab => hinj a b hab) this
      rw [List.map_map] at h2
      exact h2
    · intro a ha b hb hab
      rw [List.mem_singleton] at hb
      obtain ⟨i, hi, rfl⟩ := List.mem_map.1 ha
      rw [hb] at hab
      have hn := hinj _ _ hab
      obtain ⟨fs, is, hl, ht⟩ := mem_implementations_object h hi
      rw [hn] at hl
      exact hc t hk fs is hl ht

theorem namesAt_path_ne {s : Schema} {pre : String} {n : Nested} (hp : n.path ≠ [])
    (hw : ∀ w ∈ wordsOf n.path, IsWord w) : pre ∉ namesAt s pre n := by
  intro h
  obtain ⟨x, _, e⟩ := mem_namesAt h
  cases hn : n.path with
  | nil => exact hp hn
  | cons k p =>
    rw [hn] at e hw
    cases hk : wordsAt k with
    | nil => exact wordsAt_ne hk
    | cons v vs =>
      obtain ⟨c, cs, hc, _⟩ := hw v (by simp [wordsOf, hk])
      have := congrArg List.length e
      simp [wordsOf, hk, hc] at this

mutual
theorem nestedSel_path {s : Schema} (x : Sel) : ∀ look, ∀ n ∈ nestedSel s look x, n.path ≠ [] := by
  intro look n hn
  cases x with
  | spread f => rw [nestedSel] at hn; cases hn
  | inline t sub =>
    cases t with
    | none => rw [nestedSel] at hn; cases hn
    | some t => rw [nestedSel] at hn; exact nestedSels_path sub _ n hn
  | field name al as sub =>
    cases hl : look name with
    | none => rw [nestedSel, hl] at hn; cases hn
    | some fd =>
      rw [nestedSel_field hl] at hn
      unfold itemsAt at hn
      split at hn
      · rcases List.mem_append.1 hn with hn | hn
        · obtain ⟨m, _, rfl⟩ := List.mem_map.1 hn; simp [Nested.push]
        · rw [List.mem_singleton.1 hn]; simp
      · rcases List.mem_append.1 hn with hn | hn
        · obtain ⟨m, _, rfl⟩ := List.mem_map.1 hn; simp [Nested.push]
        · rw [List.mem_singleton.1 hn]; simp
      · exact nestedMembers_path sub n hn
      · cases hn
theorem nestedSels_path {s : Schema} (xs : List Sel) : ∀ look, ∀ n ∈ nestedSels s look xs, n.path ≠ [] := by
  intro look n hn
  cases xs with
  | nil => rw [nestedSels] at hn; cases hn
  | cons x xs =>
    rw [nestedSels] at hn
    rcases List.mem_append.1 hn with hn | hn
    · exact nestedSel_path x look n hn
    · exact nestedSels_path xs look n hn
theorem nestedMembers_path {s : Schema} (xs : List Sel) : ∀ n ∈ nestedMembers s xs, n.path ≠ [] := by
  intro n hn
  cases xs with
  | nil => rw [nestedMembers] at hn; cases hn
  | cons x xs =>
    rw [nestedMembers] at hn
    rcases List.mem_append.1 hn with hn | hn
    · unfold nestedMember at hn
      split at hn
      · rcases List.mem_append.1 hn with hn | hn
        · obtain ⟨m, _, rfl⟩ := List.mem_map.1 hn; simp [Nested.push]
        · rw [List.mem_singleton.1 hn]; simp
      · cases hn
    · exact nestedMembers_path xs n hn
end

theorem names_nodup {s : Schema} (h : s.types.keys.Nodup) (hempty : "" ∉ s.types.keys) {l : List Nested}
    (hl : ClearPaths s l) (hp : ∀ n ∈ l, n.path ≠ []) (pre : String) : (l.flatMap (namesAt s pre) ++ [pre]).Nodup := by
  rw [List.nodup_append]
  refine ⟨?_, by simp, ?_⟩
  · rw [List.nodup_flatMap]
    refine ⟨fun n hn => namesAt_nodup h (hl.catchAll n hn) hempty, ?_⟩
    have hd := hl.distinct
    unfold List.Nodup at hd
    rw [List.pairwise_map] at hd
    refine (List.Pairwise.and_mem.1 hd).imp ?_
    rintro m n ⟨hm, hn, hne⟩ a ha hb
    exact names_differ hl hm hn hne ha hb
  · intro a ha b hb hab
    rw [List.mem_singleton] at hb
    subst hb
    subst hab
    obtain ⟨n, hn, ha⟩ := List.mem_flatMap.1 ha
    exact namesAt_path_ne (hp n hn) (wordsOf_words (hl.letters n hn)) ha

end Turms
