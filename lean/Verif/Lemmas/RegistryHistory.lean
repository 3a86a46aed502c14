import Verif.Lemmas.Imports

/-!
# What one registry call does to the import set, the scalar table and the rebuild section
-/

namespace Turms
open Turms.Spec

theorem rebuilt_generateForwardRefs (env : Env) (r : Reg) :
    rebuilt (rebuildMethod env) (generateForwardRefs env r) = pySorted strLe r.forwardReferences := by
  unfold generateForwardRefs
  generalize pySorted strLe r.forwardReferences = l
  induction l with
  | nil => rfl
  | cons a l ih =>
    have hstep : ∀ (m : String) (rest : List Stmt),
        rebuilt m (.expr (.call (.attr (.name a) m) [] []) :: rest) = a :: rebuilt m rest := by
      intro m rest; simp [rebuilt]
    exact (hstep _ _).trans (congrArg (a :: ·) ih)

/-- what a call does to the import set -/
theorem run_imports {env : Env} {op : Op} {r r' : Reg} {x : Ret} (h : op.run env r = .ok (x, r')) :
    r'.imports = r.imports ∨ ∃ d, d ∉ neverImported ∧ r'.imports = setAdd r.imports d := by
  have imp : ∀ (d : String) (r1 : Reg), registerImport d r = .ok ((), r1) →
      r1.imports = r.imports ∨ ∃ d, d ∉ neverImported ∧ r1.imports = setAdd r.imports d := by
    intro d r1 h
    rw [registerImport_ok h]
    split
    · exact .inl rfl
    · rename_i hd; exact .inr ⟨d, hd, rfl⟩
  have marker : ∀ (o : Option String) (b l : String), (referenceMarker o b l).tag .expr r = .ok (x, r') →
      r'.imports = r.imports ∨ ∃ d, d ∉ neverImported ∧ r'.imports = setAdd r.imports d := by
    intro o b l h
    obtain ⟨e, he, _⟩ := Gen.tag_ok h
    rcases marker_ok he with ⟨_, _, rfl⟩ | ⟨d, _, _, _, h3⟩
    · exact .inl rfl
    · exact imp d _ h3
  cases op with simp only [Op.run] at h
  | generate k n =>
    obtain ⟨c, hc, rfl⟩ := Gen.tag_ok h
    obtain ⟨h1, h2, rfl⟩ := generateClass_ok hc
    left; cases k <;> rfl
  | getClass k n =>
    obtain ⟨c, hc, rfl⟩ := Gen.tag_ok h
    unfold Turms.getClass at hc
    split at hc <;> cases hc
    exact .inl rfl
  | reference k n p f =>
    obtain ⟨e, he, rfl⟩ := Gen.tag_ok h
    rcases reference_ok he with ⟨c, s, rfl, rfl, _⟩ | ⟨c, rfl, _, _, rfl, _⟩ | ⟨rfl, h2, rfl, rfl⟩ <;>
      exact .inl rfl
  | generateInterface n b =>
    obtain ⟨c, hc, rfl⟩ := Gen.tag_ok h
    unfold Turms.generateInterface at hc
    split at hc
    · cases hc
    · split at hc <;> cases hc
      exact .inl rfl
  | inheritInterface n =>
    obtain ⟨c, hc, rfl⟩ := Gen.tag_ok h
    unfold Turms.inheritInterface at hc
    split at hc <;> cases hc
    exact .inl rfl
  | referenceInterface n p =>
    obtain ⟨c, hc, rfl⟩ := Gen.tag_ok h
    unfold Turms.referenceInterface at hc
    split at hc <;> cases hc
    exact .inl rfl
  | inheritFragment n =>
    obtain ⟨c, hc, rfl⟩ := Gen.tag_ok h
    unfold Turms.inheritFragment at hc
    split at hc <;> cases hc
    exact .inl rfl
  | registerImport n =>
    obtain ⟨c, hc, rfl⟩ := Gen.tag_ok h
    exact imp n _ hc
  | referenceUnset => exact marker _ _ _ h
  | referenceUnsetType => exact marker _ _ _ h
  | referenceGraphqlDefault => exact marker _ _ _ h
  | referenceDeprecated => exact marker _ _ _ h
  | registerScalar a b =>
    obtain ⟨c, hc, rfl⟩ := Gen.tag_ok h
    unfold Turms.registerScalar at hc
    cases hc
    exact .inl rfl
  | referenceScalar a =>
    obtain ⟨c, hc, rfl⟩ := Gen.tag_ok h
    unfold Turms.referenceScalar at hc
    split at hc
    · cases hc
    · split at hc
      · split at hc
        · cases hc
        · rename_i r1 hr
          cases hc
          exact imp _ _ hr
      · cases hc
        exact .inl rfl
  | registerFragmentDocument t d =>
    obtain ⟨c, hc, rfl⟩ := Gen.tag_ok h
    unfold Turms.registerFragmentDocument at hc
    split at hc <;> cases hc
    exact .inl rfl

/-- a registered import stays registered. -/
theorem imports_monotone (env : Env) (ops later : List Op) (d : String)
    (h : d ∈ (stateAfter env ops).imports) : d ∈ (stateAfter env (ops ++ later)).imports := by
  induction later using list_snoc_induction with
  | h0 => simpa using h
  | h1 later op ih =>
    rw [← List.append_assoc, stateAfter_snoc]
    unfold Op.step
    cases hrun : op.run env (stateAfter env (ops ++ later)) with
    | error e => exact ih
    | ok xr =>
      obtain ⟨x, r'⟩ := xr
      simp only
      rcases run_imports hrun with h | ⟨d', hd, h⟩
      · rw [h]; exact ih
      · rw [h, mem_setAdd]; exact .inl ih

theorem scalarMap_step (env : Env) (r : Reg) (op : Op) (s : String) (h : registersScalar s op = false) :
    (op.step env r).scalarMap.get? s = r.scalarMap.get? s := by
  have imp : ∀ (d : String) (r1 : Reg), registerImport d r = .ok ((), r1) → r1.scalarMap = r.scalarMap := by
    intro d r1 h
    rw [registerImport_ok h]
    split <;> rfl
  unfold Op.step
  split
  · rename_i x r' hrun
    cases op with simp only [Op.run] at hrun
    | generate k n =>
      obtain ⟨c, hc, rfl⟩ := Gen.tag_ok hrun
      obtain ⟨h1, h2, rfl⟩ := generateClass_ok hc
      cases k <;> rfl
    | getClass k n =>
      obtain ⟨c, hc, rfl⟩ := Gen.tag_ok hrun
      unfold Turms.getClass at hc
      split at hc <;> cases hc
      rfl
    | reference k n p f =>
      obtain ⟨e, he, rfl⟩ := Gen.tag_ok hrun
      rcases reference_ok he with ⟨c, s, rfl, rfl, _⟩ | ⟨c, rfl, _, _, rfl, _⟩ | ⟨rfl, h2, rfl, rfl⟩ <;> rfl
    | generateInterface n b =>
      obtain ⟨c, hc, rfl⟩ := Gen.tag_ok hrun
      unfold Turms.generateInterface at hc
      split at hc
      · cases hc
      · split at hc <;> cases hc
        rfl
    | inheritInterface n =>
      obtain ⟨c, hc, rfl⟩ := Gen.tag_ok hrun
      unfold Turms.inheritInterface at hc
      split at hc <;> cases hc
      rfl
    | referenceInterface n p =>
      obtain ⟨c, hc, rfl⟩ := Gen.tag_ok hrun
      unfold Turms.referenceInterface at hc
      split at hc <;> cases hc
      rfl
    | inheritFragment n =>
      obtain ⟨c, hc, rfl⟩ := Gen.tag_ok hrun
      unfold Turms.inheritFragment at hc
      split at hc <;> cases hc
      rfl
    | registerImport n =>
      obtain ⟨c, hc, rfl⟩ := Gen.tag_ok hrun
      rw [imp n _ hc]
    | referenceUnset =>
      obtain ⟨e, he, _⟩ := Gen.tag_ok hrun
      rcases marker_ok he with ⟨_, _, rfl⟩ | ⟨d, _, _, _, h3⟩
      · rfl
      · rw [imp d _ h3]
    | referenceUnsetType =>
      obtain ⟨e, he, _⟩ := Gen.tag_ok hrun
      rcases marker_ok he with ⟨_, _, rfl⟩ | ⟨d, _, _, _, h3⟩
      · rfl
      · rw [imp d _ h3]
    | referenceGraphqlDefault =>
      obtain ⟨e, he, _⟩ := Gen.tag_ok hrun
      rcases marker_ok he with ⟨_, _, rfl⟩ | ⟨d, _, _, _, h3⟩
      · rfl
      · rw [imp d _ h3]
    | referenceDeprecated =>
      obtain ⟨e, he, _⟩ := Gen.tag_ok hrun
      rcases marker_ok he with ⟨_, _, rfl⟩ | ⟨d, _, _, _, h3⟩
      · rfl
      · rw [imp d _ h3]
    | registerScalar a b =>
      obtain ⟨c, hc, rfl⟩ := Gen.tag_ok hrun
      unfold Turms.registerScalar at hc
      cases hc
      simp [registersScalar] at h
      simp [Dict.get?_set, h]
    | referenceScalar a =>
      obtain ⟨c, hc, rfl⟩ := Gen.tag_ok hrun
      unfold Turms.referenceScalar at hc
      split at hc
      · cases hc
      · split at hc
        · split at hc
          · cases hc
          · rename_i r1 hr
            cases hc
            rw [imp _ _ hr]
        · cases hc
          rfl
    | registerFragmentDocument t d =>
      obtain ⟨c, hc, rfl⟩ := Gen.tag_ok hrun
      unfold Turms.registerFragmentDocument at hc
      split at hc <;> cases hc
      rfl
  · rfl


/-- a registered interface keeps its base class in every later history -/
theorem interfaceBase_step (env : Env) (r : Reg) (op : Op) (s v : String)
    (h : r.interfaceBaseclassMap.get? s = some v) :
    (op.step env r).interfaceBaseclassMap.get? s = some v := by
  have imp : ∀ (d : String) (r1 : Reg), registerImport d r = .ok ((), r1) → r1.interfaceBaseclassMap = r.interfaceBaseclassMap := by
    intro d r1 h
    rw [registerImport_ok h]
    split <;> rfl
  unfold Op.step
  split
  · rename_i x r' hrun
    cases op with simp only [Op.run] at hrun
    | generate k n =>
      obtain ⟨c, hc, rfl⟩ := Gen.tag_ok hrun
      obtain ⟨h1, h2, rfl⟩ := generateClass_ok hc
      cases k <;> exact h
    | getClass k n =>
      obtain ⟨c, hc, rfl⟩ := Gen.tag_ok hrun
      unfold Turms.getClass at hc
      split at hc <;> cases hc
      exact h
    | reference k n p f =>
      obtain ⟨e, he, rfl⟩ := Gen.tag_ok hrun
      rcases reference_ok he with ⟨c, s, rfl, rfl, _⟩ | ⟨c, rfl, _, _, rfl, _⟩ | ⟨rfl, h2, rfl, rfl⟩ <;> exact h
    | generateInterface n b =>
      obtain ⟨c, hc, rfl⟩ := Gen.tag_ok hrun
      unfold Turms.generateInterface at hc
      split at hc
      · cases hc
      · rename_i hcon
        split at hc <;> cases hc
        have hne : s ≠ n := by
          intro e
          subst e
          apply hcon
          rw [Dict.contains_eq_isSome, h]; rfl
        simp only [Dict.get?_set]
        simp [hne.symm, h]
    | inheritInterface n =>
      obtain ⟨c, hc, rfl⟩ := Gen.tag_ok hrun
      unfold Turms.inheritInterface at hc
      split at hc <;> cases hc
      exact h
    | referenceInterface n p =>
      obtain ⟨c, hc, rfl⟩ := Gen.tag_ok hrun
      unfold Turms.referenceInterface at hc
      split at hc <;> cases hc
      exact h
    | inheritFragment n =>
      obtain ⟨c, hc, rfl⟩ := Gen.tag_ok hrun
      unfold Turms.inheritFragment at hc
      split at hc <;> cases hc
      exact h
    | registerImport n =>
      obtain ⟨c, hc, rfl⟩ := Gen.tag_ok hrun
      rw [imp n _ hc]; exact h
    | referenceUnset =>
      obtain ⟨e, he, _⟩ := Gen.tag_ok hrun
      rcases marker_ok he with ⟨_, _, rfl⟩ | ⟨d, _, _, _, h3⟩
      · exact h
      · rw [imp d _ h3]; exact h
    | referenceUnsetType =>
      obtain ⟨e, he, _⟩ := Gen.tag_ok hrun
      rcases marker_ok he with ⟨_, _, rfl⟩ | ⟨d, _, _, _, h3⟩
      · exact h
      · rw [imp d _ h3]; exact h
    | referenceGraphqlDefault =>
      obtain ⟨e, he, _⟩ := Gen.tag_ok hrun
      rcases marker_ok he with ⟨_, _, rfl⟩ | ⟨d, _, _, _, h3⟩
      · exact h
      · rw [imp d _ h3]; exact h
    | referenceDeprecated =>
      obtain ⟨e, he, _⟩ := Gen.tag_ok hrun
      rcases marker_ok he with ⟨_, _, rfl⟩ | ⟨d, _, _, _, h3⟩
      · exact h
      · rw [imp d _ h3]; exact h
    | registerScalar a b =>
      obtain ⟨c, hc, rfl⟩ := Gen.tag_ok hrun
      unfold Turms.registerScalar at hc
      cases hc
      exact h
    | referenceScalar a =>
      obtain ⟨c, hc, rfl⟩ := Gen.tag_ok hrun
      unfold Turms.referenceScalar at hc
      split at hc
      · cases hc
      · split at hc
        · split at hc
          · cases hc
          · rename_i r1 hr
            cases hc
            rw [imp _ _ hr]; exact h
        · cases hc
          exact h
    | registerFragmentDocument t d =>
      obtain ⟨c, hc, rfl⟩ := Gen.tag_ok hrun
      unfold Turms.registerFragmentDocument at hc
      split at hc <;> cases hc
      exact h
  · exact h


theorem interfaceBase_monotone (env : Env) (ops later : List Op) (s v : String)
    (h : (stateAfter env ops).interfaceBaseclassMap.get? s = some v) :
    (stateAfter env (ops ++ later)).interfaceBaseclassMap.get? s = some v := by
  induction later using list_snoc_induction with
  | h0 => simpa using h
  | h1 later op ih =>
    rw [← List.append_assoc, stateAfter_snoc]
    exact interfaceBase_step env _ op s v ih

end Turms
