import Verif.Lemmas.MergeTop

/-!
# C30 – C34: merging regenerated code into an existing file
-/

namespace Turms.Props
open Turms Turms.Merge Turms.Merge.Spec

/-- an existing file: an import, a class with a hand-written method and comment, a hand-written function -/
def mergeOld : Module := ⟨[], [.other "import os",
  .cls "User" "(BaseModel)" [.line "# mine" [.annAssign "id" "int"],
    .fn "greet" "(self)" [.other "return 'hi'"]],
  .fn "get_user" "(id)" [.other "return my_cache[id]"], .fn "helper" "()" [.other "pass"]], []⟩

/-- a regenerated file -/
def mergeNew : Module := ⟨[], [.other "import sys",
  .cls "Color" "(Enum)" [.other "RED = 1"],
  .cls "User" "(BaseModel)" [.line "" [.annAssign "id" "str"], .line "" [.annAssign "name" "str"]],
  .fn "get_user" "(id, rath)" [.other "return execute(id)"], .fn "get_color" "()" [.other "..."]], []⟩

/-- the merge result of the two files above, used as the non-trivial instance of the theorems below -/
def merged : Module := ⟨[], [.other "import os",
  .cls "Color" "(Enum)" [.other "RED = 1"],
  .cls "User" "(BaseModel)" [.line "# mine" [.annAssign "id" "str"], .line "" [.annAssign "name" "str"],
    .fn "greet" "(self)" [.other "return 'hi'"]],
  .fn "get_user" "(id, rath)" [.other "return my_cache[id]"], .fn "get_color" "()" [.other "..."],
  .fn "helper" "()" [.other "pass"]], []⟩

example : mergeModules mergeOld mergeNew = .ok merged := rfl

/-! ## C30 -/

/-- C30: every existing top-level statement and class member survives, in order: verbatim if the generated
file does not name it, with its hand-written body (and the regenerated signature) if it is a function.
(Precondition of the property: no name is a class in one file and a function in the other.) -/
theorem C30_keeps_user_code (existing generated r : Module)
    (hk : SameKinds existing.body generated.body) (h : mergeModules existing generated = .ok r) :
    ∃ kept, Pointwise (KeptTop generated.body) existing.body kept ∧ kept.Sublist r.body := by
  unfold mergeModules at h
  split at h
  · cases h
  · rename_i b hb
    cases h
    obtain ⟨nb, _, _, _, hl, hst, hsub, _⟩ := mergeBody_spec topKey mergeTop top_hkey _ _ _ hb
    exact ⟨nb, pointwise_of_index hl (fun i a b' ha hb' =>
      stepTo_top _ _ hk a b' (List.mem_of_getElem? ha) (hst i a b' ha hb')), hsub⟩

example : SameKinds mergeOld.body mergeNew.body := by
  simp [SameKinds, mergeOld, mergeNew, topName]

/-- Why the precondition is there: if the user's function has become a class, the function's body ends up
as the body of the class. -/
theorem C30_kind_clash_counterexample :
    mergeModules ⟨[], [.fn "user" "()" [.other "return 1"]], []⟩ ⟨[], [.cls "user" "" [.other "x: int"]], []⟩ =
      .ok ⟨[], [.cls "user" "" [.other "return 1"]], []⟩ := rfl

/-- Limit of C30: comments before the first statement of the file (licence header) and after the last one
are lost. -/
theorem C30_header_lost_counterexample :
    mergeModules ⟨["# licence"], [.other "import os"], ["# end"]⟩ ⟨[], [], []⟩ =
      .ok ⟨[], [.other "import os"], []⟩ := rfl

/-! ## C31 -/

/-- C31: every class and function of the generated file is present in the result, and so is every method
and annotated attribute of a generated class that existed as a class. -/
theorem C31_all_present_partial (existing generated r : Module) (h : mergeModules existing generated = .ok r) :
    (∀ g ∈ generated.body, ∀ k, topName g = some k → ∃ n ∈ r.body, topName n = some k) ∧
    (∀ k h' b, Node.cls k h' b ∈ existing.body → (generated.body.filterMap topName).Nodup →
      ∀ gh gb, Node.cls k gh gb ∈ generated.body → ∃ b', Node.cls k h' b' ∈ r.body ∧
        ∀ g ∈ gb, ∀ m, memberName g = some m → ∃ n ∈ b', memberName n = some m) := by
  unfold mergeModules at h
  split at h
  · cases h
  · rename_i b hb
    cases h
    constructor
    · intro g hg k hk
      have := mergeBody_all_present topKey mergeTop top_hkey _ _ _ hb k
        ((mem_keys_collect ..).2 (.inl ⟨g, hg, by rw [topKey_eq]; exact hk⟩))
      simpa [topKey_eq] using this
    · intro k h' eb he hnd gh gb hg
      obtain ⟨nb, _, _, _, hl, hst, hsub, _⟩ := mergeBody_spec topKey mergeTop top_hkey _ _ _ hb
      obtain ⟨i, hi⟩ := List.mem_iff_getElem?.1 he
      have hlt : i < nb.length := by rw [hl]; exact (List.getElem?_eq_some_iff.1 hi).1
      have hstep := hst i _ _ hi (List.getElem?_eq_getElem hlt)
      have hin : nb[i] ∈ b := hsub.subset (List.getElem_mem hlt)
      have hkey : k ∈ (collect topKey generated.body []).keys :=
        (mem_keys_collect ..).2 (.inl ⟨_, hg, rfl⟩)
      cases hstep with
      | keep hno e =>
        have := hno k rfl
        rw [Dict.get?_eq_none_iff] at this
        exact absurd hkey this
      | merged k' x hk' hx hm =>
        have hkk : k' = k := by simpa [topKey] using hk'.symm
        subst hkk
        have hxe := collect_get_unique topKey generated.body (by rw [topKey_eq']; exact hnd) _ hg k' x rfl hx
        subst hxe
        simp only [mergeTop, mergeClass, bodyOf] at hm
        split at hm
        · cases hm
        · rename_i b' hb'
          simp only [Except.ok.injEq] at hm
          refine ⟨b', by rw [hm]; exact hin, ?_⟩
          intro g hg' m hgm
          have := mergeBody_all_present memberKey mergeMember member_hkey _ _ _ hb' m
            ((mem_keys_collect ..).2 (.inl ⟨g, hg', by rw [memberKey_eq]; exact hgm⟩))
          simpa [memberKey_eq] using this

/-- C31: a generated class or function whose name the existing file does not have is inserted verbatim and
exactly once; nothing else is added.  (For files in which the generated names are distinct.) -/
theorem C31_new_symbols_once_partial (existing generated r : Module)
    (hnd : (generated.body.filterMap topName).Nodup)
    (h : mergeModules existing generated = .ok r) :
    ∃ kept new, r.body.Perm (kept ++ new) ∧ kept.length = existing.body.length ∧
      new.Perm (generated.body.filter (fun g => match topName g with
        | some k => decide (k ∉ existing.body.filterMap topName)
        | none => false)) := by
  unfold mergeModules at h
  split at h
  · cases h
  · rename_i b hb
    cases h
    have := mergeBody_new topKey mergeTop top_hkey _ _ b (by rw [topKey_eq']; exact hnd) hb
    rw [topKey_eq'] at this
    exact this

/-- C31 inside a class that exists in both files: methods and annotated attributes that are new are inserted
verbatim and exactly once, nothing else is added. -/
theorem C31_new_members_once_partial (name head gh : String) (b gb : List Node) (r : Node)
    (hnd : (gb.filterMap memberName).Nodup)
    (h : mergeClass (.cls name gh gb) (.cls name head b) = .ok r) :
    ∃ b' kept new, r = .cls name head b' ∧ b'.Perm (kept ++ new) ∧ kept.length = b.length ∧
      new.Perm (gb.filter (fun g => match memberName g with
        | some k => decide (k ∉ b.filterMap memberName)
        | none => false)) := by
  simp only [mergeClass, bodyOf] at h
  split at h
  · cases h
  · rename_i b' hb
    cases h
    obtain ⟨kept, new, h1, h2, h3⟩ := mergeBody_new memberKey mergeMember member_hkey _ _ b'
      (by rw [memberKey_eq']; exact hnd) hb
    rw [memberKey_eq'] at h3
    exact ⟨b', kept, new, rfl, h1, h2, h3⟩

/-- C31, where new symbols go: if the existing file has a symbol that the generated file lists later than the
new one, the new one is put right before the first such symbol (only other new symbols in between);
otherwise right after the last symbol of the existing file that is also generated; if there is none, at the
end. -/
theorem C31_placement_partial (existing generated r : Module) (hnd : (generated.body.filterMap topName).Nodup)
    (h : mergeModules existing generated = .ok r) (g : Node) (hg : g ∈ generated.body) (k : String)
    (hk : topName g = some k) (hnew : k ∉ existing.body.filterMap topName) :
    (∃ e A M node B P S, existing.body.filterMap topName = P ++ e :: S ∧
      Before (generated.body.filterMap topName) k e ∧
      (∀ e' ∈ P, ¬ Before (generated.body.filterMap topName) k e') ∧
      r.body = A ++ g :: M ++ node :: B ∧ topName node = some e ∧
      (∀ y ∈ M, y ∈ generated.body ∧ ∀ k', topName y = some k' → k' ∉ existing.body.filterMap topName)) ∨
    ((∀ e ∈ existing.body.filterMap topName, ¬ Before (generated.body.filterMap topName) k e) ∧
      ∃ A M B, r.body = A ++ M ++ g :: B ∧
      (∀ y ∈ M, y ∈ generated.body ∧ ∀ k', topName y = some k' → k' ∉ existing.body.filterMap topName) ∧
      ((∃ A' node e, A = A' ++ [node] ∧ topName node = some e ∧
          ((existing.body.filterMap topName).filter
            (fun n => decide (n ∈ generated.body.filterMap topName))).getLast? = some e) ∨
       ((∀ e ∈ existing.body.filterMap topName, e ∉ generated.body.filterMap topName) ∧
          A.length = existing.body.length))) := by
  unfold mergeModules at h
  split at h
  · cases h
  · rename_i b hb
    cases h
    obtain ⟨nb, before, rest, ins, hl, hst, hsub, hp, hins, hr, hbef, haft⟩ :=
      mergeBody_spec topKey mergeTop top_hkey _ _ _ hb
    have hcollect := collect_of_nodup topKey generated.body [] (by rw [topKey_eq']; exact hnd) (by simp [Dict.keys])
    have hkeys : (collect topKey generated.body []).keys = generated.body.filterMap topName := by
      rw [hcollect]
      simp only [List.nil_append]
      clear hcollect hr hins hp hst hsub hl hb hnd hbef haft hg
      induction generated.body with
      | nil => rfl
      | cons a l ih =>
        cases ha : topName a with
        | none => rw [List.filterMap_cons_none (by simp [topKey_eq, ha]), List.filterMap_cons_none ha]; exact ih
        | some k =>
          rw [List.filterMap_cons_some (b := (k, a)) (by simp [topKey_eq, ha]), List.filterMap_cons_some ha]
          simp only [Dict.keys, List.map_cons] at ih ⊢
          rw [ih]
    have himpl : ∀ e, e ∈ existing.body.filterMap (implKey topKey (collect topKey generated.body [])) ↔
        e ∈ existing.body.filterMap topName ∧ e ∈ generated.body.filterMap topName := by
      intro e
      rw [← hkeys]
      simp only [List.mem_filterMap, implKey_eq_some, topKey_eq]
      constructor
      · rintro ⟨a, h1, h2, h3⟩; exact ⟨⟨a, h1, h2⟩, h3⟩
      · rintro ⟨⟨a, h1, h2⟩, h3⟩; exact ⟨a, h1, h2, h3⟩
    have himpl' : existing.body.filterMap (implKey topKey (collect topKey generated.body [])) =
        (existing.body.filterMap topName).filter (fun n => decide (n ∈ generated.body.filterMap topName)) := by
      rw [← hkeys]
      generalize collect topKey generated.body [] = sy
      generalize existing.body = l
      induction l with
      | nil => rfl
      | cons a l ih =>
        cases ha : topName a with
        | none =>
          rw [List.filterMap_cons_none (by simp [implKey, topKey_eq, ha]), List.filterMap_cons_none ha, ih]
        | some k' =>
          rw [List.filterMap_cons_some ha, List.filter_cons]
          by_cases hc : k' ∈ sy.keys
          · rw [List.filterMap_cons_some (b := k') ((implKey_eq_some ..).2 ⟨by rw [topKey_eq]; exact ha, hc⟩)]
            simp only [hc, decide_true, if_true, ih]
          · rw [List.filterMap_cons_none (by
              simp [implKey, topKey_eq, ha, Dict.contains_eq_isSome]
              rw [Dict.get?_eq_none_iff]; exact hc)]
            simp only [hc, decide_false, Bool.false_eq_true, if_false, ih]
    have hkgen : k ∈ generated.body.filterMap topName := List.mem_filterMap.2 ⟨g, hg, hk⟩
    have hkmiss : k ∈ before.map (·.2) ++ rest := by
      refine hp.symm.subset (List.mem_filter.2 ⟨by rw [hkeys]; exact hkgen, ?_⟩)
      have : ¬ k ∈ existing.body.filterMap (implKey topKey (collect topKey generated.body [])) := by
        intro hc; exact hnew ((himpl k).1 hc).1
      simpa using this
    have hmissing : ∀ k' ∈ before.map (·.2) ++ rest, k' ∉ existing.body.filterMap topName := by
      intro k' hk' hc
      have h1 := List.mem_filter.1 (hp.subset hk')
      simp only [Bool.not_eq_true', List.contains_eq_mem, decide_eq_false_iff_not] at h1
      exact h1.2 ((himpl k').2 ⟨hc, by rw [← hkeys]; exact h1.1⟩)
    have hgetg : ∀ x, (collect topKey generated.body []).get? k = some x → x = g := fun x hx =>
      collect_get_unique topKey generated.body (by rw [topKey_eq']; exact hnd) g hg k x
        (by rw [topKey_eq]; exact hk) hx
    have hM : ∀ (l : List String) (y : Node), (∀ k' ∈ l, k' ∉ existing.body.filterMap topName) →
        (∃ k' ∈ l, (collect topKey generated.body []).get? k' = some y) →
        y ∈ generated.body ∧ ∀ k', topName y = some k' → k' ∉ existing.body.filterMap topName := by
      rintro l y hl' ⟨k', hk', hy⟩
      rcases get?_collect topKey generated.body [] k' y hy with ⟨h1, h2⟩ | h1
      · refine ⟨h2, ?_⟩
        intro k'' hk''
        rw [topKey_eq, hk''] at h1; cases h1
        exact hl' _ hk'
      · simp [Dict.get?] at h1
    have hbefore : ∀ e, e ∈ generated.body.filterMap topName → e ∉ [k] →
        ((∃ a b, (collect topKey generated.body []).keys = a ++ k :: b ∧ e ∉ a ∧ e ≠ k) ↔
          Before (generated.body.filterMap topName) k e) := by
      intro e he hek
      rw [hkeys]
      simp at hek
      constructor
      · rintro ⟨a, b, h1, h2, h3⟩
        have : e ∈ b := by
          rw [h1] at he
          simp [h2, h3] at he; exact he
        obtain ⟨b1, b2, hb12⟩ := List.append_of_mem this
        exact ⟨a, b1, b2, by rw [h1, hb12]; simp⟩
      · rintro ⟨a, b, c, h1⟩
        refine ⟨a, b ++ e :: c, by rw [h1]; simp, ?_, hek⟩
        intro hea
        rw [h1] at hnd
        have hd := (List.nodup_append.1 hnd).2.2
        exact hd e (List.mem_append_left _ hea) e (by simp) rfl
    rcases List.mem_append.1 hkmiss with hkb | hkr
    · left
      obtain ⟨⟨i, k'⟩, hik, rfl⟩ := List.mem_map.1 hkb
      obtain ⟨e, x, A, M, node, B, he, hx, hnode, hrr, hMM, hbe, pre, post, hpp, hfirst⟩ := hbef i k' hik
      have hx' := hgetg x hx
      subst hx'
      rw [himpl', List.filter_eq_append_iff] at hpp
      obtain ⟨P, S', hPS, hP, hS⟩ := hpp
      rw [List.filter_eq_cons_iff] at hS
      obtain ⟨P2, S, hS', hP2, heg, hS2⟩ := hS
      refine ⟨e, A, M, node, B, P ++ P2, S, by rw [hPS, hS']; simp, ?_, ?_, hrr,
        by rw [← topKey_eq]; exact hnode, ?_⟩
      · obtain ⟨a, b', h1, h2, h3⟩ := hbe
        exact (hbefore e ((himpl e).1 he).2 (by simpa using h3)).1 ⟨a, b', h1, h2, h3⟩
      · intro e' he' hbe'
        have hgen' : e' ∈ generated.body.filterMap topName := by
          obtain ⟨a, b', c, h1⟩ := hbe'; rw [h1]; simp
        have hek : e' ≠ k' := by
          intro e''; rw [e''] at he'
          apply hnew; rw [hPS, hS']
          rcases List.mem_append.1 he' with h | h <;> simp [h]
        rcases List.mem_append.1 he' with h | h
        · refine hfirst e' ?_ ((hbefore e' hgen' (by simpa using hek)).2 hbe')
          rw [← hP]
          exact List.mem_filter.2 ⟨h, by simpa using hgen'⟩
        · exact hP2 e' h (by simpa using hgen')
      · intro y hy
        exact hM _ y (fun k'' hk'' => hmissing k'' (List.mem_append_left _ hk'')) (hMM y hy)
    · right
      obtain ⟨hno, x, A, M, B, hx, hrr, hMM, hA⟩ := haft k hkr
      have hx' := hgetg x hx
      subst hx'
      refine ⟨?_, A, M, B, hrr, ?_, ?_⟩
      · intro e he hbe
        obtain ⟨a, b', c, h1⟩ := hbe
        have hegen : e ∈ generated.body.filterMap topName := by rw [h1]; simp
        have hek : e ≠ k := by intro e'; rw [e'] at he; exact hnew he
        exact hno e ((himpl e).2 ⟨he, hegen⟩) ((hbefore e hegen (by simpa using hek)).2 ⟨a, b', c, h1⟩)
      · intro y hy
        exact hM _ y (fun k'' hk'' => hmissing k'' (List.mem_append_right _ hk'')) (hMM y hy)
      · cases hlast : (existing.body.filterMap (implKey topKey (collect topKey generated.body []))).getLast? with
        | some e =>
          rw [hlast] at hA
          obtain ⟨A', node, h1, h2⟩ := hA
          rw [himpl'] at hlast
          exact .inl ⟨A', node, e, h1, by rw [← topKey_eq]; exact h2, hlast⟩
        | none =>
          rw [hlast] at hA
          right
          have hnil := List.getLast?_eq_none_iff.1 hlast
          refine ⟨?_, by rw [hA.1, hl]⟩
          intro e he hg'
          have := (himpl e).2 ⟨he, hg'⟩
          rw [hnil] at this; simp at this

/-- Why C31 is partial: nested classes of a generated class are neither added nor updated, so the
`class Meta: document = ...` of an operation keeps the old document for ever. -/
theorem C31_nested_class_counterexample :
    mergeModules ⟨[], [.cls "GetUser" "" [.cls "Meta" "" [.other "document = 'old'"]]], []⟩
      ⟨[], [.cls "GetUser" "" [.cls "Arguments" "" [.other "pass"], .cls "Meta" "" [.other "document = 'new'"]]], []⟩ =
      .ok ⟨[], [.cls "GetUser" "" [.cls "Meta" "" [.other "document = 'old'"]]], []⟩ := rfl

/-- Why C31 is partial: new imports (and every other statement that is no class or function) of the
generated file are dropped, so merged code may use names it does not import. -/
theorem C31_import_counterexample :
    mergeModules ⟨[], [.cls "User" "" []], []⟩
      ⟨[], [.other "from enum import Enum", .cls "Color" "(Enum)" [.other "RED = 1"], .cls "User" "" []], []⟩ =
      .ok ⟨[], [.cls "Color" "(Enum)" [.other "RED = 1"], .cls "User" "" []], []⟩ := rfl

/-- Limit of C31: "before the next generated symbol that existed" holds for the first one in the order of the
*existing* file: here `new` belongs before `b` in the generated file, but is put before `c`. -/
theorem C31_order_counterexample :
    mergeModules ⟨[], [.fn "c" "" [], .fn "b" "" []], []⟩ ⟨[], [.fn "new" "" [], .fn "b" "" [], .fn "c" "" []], []⟩ =
      .ok ⟨[], [.fn "new" "" [], .fn "c" "" [], .fn "b" "" []], []⟩ := rfl

/-! ## C32 -/

/-- C32: merging the same generated code again changes nothing.  Missing from the full property: generated
classes must have distinct member names and no name may be a function in the existing and a class in the
generated file (`C32_duplicate_members_counterexample`, `C32_kind_clash_counterexample`). -/
theorem C32_idempotent_partial (existing generated r : Module)
    (hk : SameKinds existing.body generated.body) (hd : DistinctMembers generated.body)
    (h : mergeModules existing generated = .ok r) : mergeModules r generated = .ok r := by
  unfold mergeModules at h ⊢
  split at h
  · cases h
  · rename_i b hb
    cases h
    have : mergeBody topKey mergeTop generated.body b = .ok b := by
      refine mergeBody_idem topKey mergeTop top_hkey _ _ b hb ?_ ?_
      · intro k x n m hn hkn hx hm
        rcases get?_collect topKey generated.body [] k x hx with ⟨hxk, hxg⟩ | h
        · have hkinds := hk n hn x hxg (by rw [← topKey_eq, ← topKey_eq, hkn, hxk])
          cases n with
          | line => simp [topKey] at hkn
          | other => simp [topKey] at hkn
          | fn name head body =>
            cases x with
            | cls => simp at hkinds
            | line => simp [topKey] at hxk
            | other => simp [topKey] at hxk
            | fn xn xh xb =>
              simp [mergeTop, mergeFunctions, bodyOf] at hm
              subst hm
              simp [mergeTop, mergeFunctions, bodyOf]
          | cls name head body =>
            simp only [mergeTop, mergeClass] at hm
            split at hm
            · cases hm
            · rename_i b' hb'
              cases hm
              simp only [mergeTop, mergeClass, mergeMembers_idem _ _ _ hb']
        · simp [Dict.get?] at h
      · intro k x hx _
        rcases get?_collect topKey generated.body [] k x hx with ⟨hxk, hxg⟩ | h
        · cases x with
          | line => simp [topKey] at hxk
          | other => simp [topKey] at hxk
          | fn => simp [mergeTop, mergeFunctions, bodyOf]
          | cls n h' b' =>
            simp only [mergeTop, mergeClass, bodyOf, mergeMembers_self b' (hd n h' b' hxg)]
        · simp [Dict.get?] at h
    rw [this]

example : SameKinds mergeOld.body mergeNew.body ∧ DistinctMembers mergeNew.body ∧
    mergeModules merged mergeNew = .ok merged := by
  refine ⟨by simp [SameKinds, mergeOld, mergeNew, topName], ?_, rfl⟩
  intro n h b hmem
  simp [mergeNew] at hmem
  rcases hmem with ⟨rfl, rfl, rfl⟩ | ⟨rfl, rfl, rfl⟩ <;> decide +kernel

/-- Limit of C32: a generated class with two members of one name (a property and its setter). -/
theorem C32_duplicate_members_counterexample :
    let gen : Module := ⟨[], [.cls "A" "" [.fn "x" "@property(self)" [.other "get"], .fn "x" "@x.setter(self, v)" [.other "set"]]], []⟩
    mergeModules ⟨[], [], []⟩ gen = .ok gen ∧
    mergeModules gen gen =
      .ok ⟨[], [.cls "A" "" [.fn "x" "@x.setter(self, v)" [.other "get"], .fn "x" "@x.setter(self, v)" [.other "set"]]], []⟩ := by
  exact ⟨rfl, rfl⟩

/-- Limit of C32: a function that became a class. -/
theorem C32_kind_clash_counterexample :
    let gen : Module := ⟨[], [.cls "user" "" [.line "" [.annAssign "id" "int"]]], []⟩
    mergeModules ⟨[], [.fn "user" "()" [.other "return 1"]], []⟩ gen = .ok ⟨[], [.cls "user" "" [.other "return 1"]], []⟩ ∧
    mergeModules ⟨[], [.cls "user" "" [.other "return 1"]], []⟩ gen =
      .ok ⟨[], [.cls "user" "" [.other "return 1", .line "" [.annAssign "id" "int"]]], []⟩ := by
  exact ⟨rfl, rfl⟩

/-! ## C33 -/

/-- C33: merging a file into itself gives the file.  Missing from the full property: names must be distinct
and the file must not begin or end with comments (see the counterexamples for C30 and C32). -/
theorem C33_self_merge_partial (m : Module) (hh : m.header = []) (hf : m.footer = [])
    (hn : (m.body.filterMap topName).Nodup) (hd : DistinctMembers m.body) :
    mergeModules m m = .ok m := by
  have : mergeBody topKey mergeTop m.body m.body = .ok m.body := by
    refine mergeBody_fix topKey mergeTop top_hkey _ _ ?_ ?_
    · intro k hk
      rcases (mem_keys_collect ..).1 hk with h | h
      · exact h
      · simp [Dict.keys] at h
    · intro n hn' k x hk hx
      have := collect_get_unique topKey m.body (by rw [topKey_eq']; exact hn) n hn' k x hk hx
      subst this
      cases x with
      | line => simp [topKey] at hk
      | other => simp [topKey] at hk
      | fn => simp [mergeTop, mergeFunctions, bodyOf]
      | cls n' h' b' =>
        simp only [mergeTop, mergeClass, bodyOf, mergeMembers_self b' (hd n' h' b' hn')]
  unfold mergeModules
  rw [this]
  cases m
  simp at hh hf
  simp [hh, hf]

example : mergeModules mergeNew mergeNew = .ok mergeNew := rfl

/-! ## C34 -/

/-- C34: without an existing file the generated code is returned unchanged; with one, the merge of its
content; for every parser, printer, path join and file system. -/
theorem C34_run (parse : String → Except Err Module) (code : Module → String)
    (join : String → String → String) (fs : String → Option String) (outDir name gen : String) :
    (fs (join outDir name) = none → Merge.run parse code join fs outDir name gen = .ok gen) ∧
    (∀ old e g m, fs (join outDir name) = some old → parse old = .ok e → parse gen = .ok g →
      mergeModules e g = .ok m → Merge.run parse code join fs outDir name gen = .ok (code m)) ∧
    (∀ old, fs (join outDir name) = some old →
      ((∃ err, parse old = .error err) ∨ (∃ err, parse gen = .error err)) →
      ∃ err, Merge.run parse code join fs outDir name gen = .error err) := by
  refine ⟨?_, ?_, ?_⟩
  · intro h; simp [Merge.run, h]
  · intro old e g m h1 h2 h3 h4
    simp [Merge.run, mergeCode, h1, h2, h3, h4]
  · intro old h1 h2
    rcases h2 with ⟨err, h2⟩ | ⟨err, h2⟩
    · exact ⟨err, by simp [Merge.run, mergeCode, h1, h2]⟩
    · cases h3 : parse old with
      | error e => exact ⟨e, by simp [Merge.run, mergeCode, h1, h3]⟩
      | ok e => exact ⟨err, by simp [Merge.run, mergeCode, h1, h2, h3]⟩

example : Merge.run (fun s => .ok ⟨[], [.other s], []⟩) (fun m => match m.body with | [.other s] => s | _ => "?")
    (fun a b => a ++ "/" ++ b) (fun p => if p = "api/schema.py" then some "old" else none) "api" "schema.py" "new" =
    .ok "old" := rfl

end Turms.Props
