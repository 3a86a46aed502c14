import Verif.Lemmas.Annotations
import Verif.Model.Inputs

namespace Turms
open Spec

theorem Gen.lift_ok {α : Type} {x : Except Err α} {a : α} {r r' : Reg} :
    Gen.lift x r = .ok (a, r') ↔ x = .ok a ∧ r = r' := by
  unfold Gen.lift
  cases x <;> simp

theorem frame_lift {α : Type} {x : Except Err α} {a : α} {r r' : Reg}
    (h : Gen.lift x r = .ok (a, r')) : Frame r r' := by
  obtain ⟨_, rfl⟩ := Gen.lift_ok.1 h
  exact Frame.refl _

theorem frame_markerCall {ref : Gen Expr} {o : Option Expr} {l : List Expr} {r r' : Reg}
    (hr : ∀ r r' e, ref r = .ok (e, r') → Frame r r') (h : markerCall ref o r = .ok (l, r')) : Frame r r' := by
  unfold markerCall at h
  cases o with
  | none => obtain ⟨_, rfl⟩ := Gen.pure_ok.1 h; exact Frame.refl _
  | some d =>
    obtain ⟨f, r3, h3, h4⟩ := Gen.bind_ok.1 h
    obtain ⟨_, rfl⟩ := Gen.pure_ok.1 h4
    exact hr _ _ _ h3

/-- metadata markers do not change what an annotation accepts -/
theorem annotateFieldMetadata_ok {W : World} {env : Env} {a e : Expr} {d : Option Expr} {dep : Option String}
    {r r' : Reg} (h : annotateFieldMetadata env a d dep r = .ok (e, r')) :
    Frame r r' ∧ ∀ v, Accepts W e v ↔ Accepts W a v := by
  unfold annotateFieldMetadata at h
  obtain ⟨m1, r1, h1, h⟩ := Gen.bind_ok.1 h
  obtain ⟨m2, r2, h2, h⟩ := Gen.bind_ok.1 h
  have f1 : Frame r r1 := frame_markerCall (fun _ _ _ h => frame_marker h) h1
  have f2 : Frame r1 r2 := frame_markerCall (fun _ _ _ h => frame_marker h) h2
  by_cases hm : (m1 ++ m2).isEmpty
  · rw [if_pos hm] at h
    obtain ⟨rfl, rfl⟩ := Gen.pure_ok.1 h
    exact ⟨f1.trans f2, fun v => Iff.rfl⟩
  · rw [if_neg hm] at h
    obtain ⟨_, r3, h3, h⟩ := Gen.bind_ok.1 h
    obtain ⟨rfl, rfl⟩ := Gen.pure_ok.1 h
    exact ⟨(f1.trans f2).trans (frame_registerImport h3), fun v => accepts_annotated⟩

theorem inputFieldValue_ok {fieldName key : String} {om : Bool} {desc : Option String} {v : Option Expr}
    {r r' : Reg} (h : inputFieldValue fieldName key om desc r = .ok (v, r')) (ann : Expr) :
    Frame r r' ∧ fieldOf (.annAssign fieldName ann v) = some ⟨key, om, ann⟩ ∧
    defaultOf (.annAssign fieldName ann v) = (if om then some (.const .none) else none) ∧
    hasAlias (.annAssign fieldName ann v) = (fieldName != key) := by
  unfold inputFieldValue at h
  by_cases hk : fieldName = key
  · subst hk
    by_cases hd : truthy desc = true
    · simp only [bne_self_eq_false, Bool.not_false, hd, Bool.not_true, Bool.and_false,
        Bool.false_eq_true, if_false, if_true, List.nil_append] at h
      obtain ⟨_, r1, h1, h⟩ := Gen.bind_ok.1 h
      obtain ⟨rfl, rfl⟩ := Gen.pure_ok.1 h
      refine ⟨frame_registerImport h1, ?_⟩
      cases om <;> simp [fieldOf, defaultOf, hasAlias, aliasOf, kwarg]
    · simp only [bne_self_eq_false, Bool.not_false, hd, Bool.and_true, if_true] at h
      obtain ⟨rfl, rfl⟩ := Gen.pure_ok.1 h
      refine ⟨Frame.refl _, ?_⟩
      cases om <;> simp [fieldOf, defaultOf, hasAlias]
  · have hne : (fieldName != key) = true := by simpa using hk
    simp only [hne, Bool.not_true, Bool.false_and, Bool.false_eq_true, if_false, if_true] at h
    obtain ⟨_, r1, h1, h⟩ := Gen.bind_ok.1 h
    obtain ⟨rfl, rfl⟩ := Gen.pure_ok.1 h
    refine ⟨frame_registerImport h1, ?_⟩
    cases om <;> cases hd : truthy desc <;>
      simp [fieldOf, defaultOf, hasAlias, aliasOf, kwarg, Expr.str, hne]

/-- what a declaration of an input field means -/
theorem inputFieldStmts_ok {W : World} {c : Ctx} {cls : String} {f : InputFieldDef} {ss : List Stmt} {r r' : Reg}
    (hs : Styled c.env r) (h : inputFieldStmts c cls f r = .ok (ss, r'))
    (hn : ¬ Inst W (inputSideClass c r) f.type.base .null) :
    Frame r r' ∧ ∃ (attr : String) (ann : Expr) (v : Option Expr) (doc : List Stmt),
      generateNodeName c.env.stylers f.name = .ok attr ∧
      ss = .annAssign attr ann v :: doc ∧ (doc = [] ∨ ∃ e, doc = [.expr e]) ∧
      fieldOf (.annAssign attr ann v) = some ⟨f.name, omittableField f, ann⟩ ∧
      defaultOf (.annAssign attr ann v) = (if omittableField f then some (.const .none) else none) ∧
      hasAlias (.annAssign attr ann v) = (attr != f.name) ∧
      ∀ x, Accepts W ann x ↔
        (Legal (Inst W (inputSideClass c r)) f.type x ∨ (omittableField f = true ∧ x = .null)) := by
  unfold inputFieldStmts at h
  obtain ⟨attr, r1, h1, h⟩ := Gen.bind_ok.1 h
  obtain ⟨hname, rfl⟩ := Gen.lift_ok.1 h1
  obtain ⟨a, r2, h2, h⟩ := Gen.bind_ok.1 h
  obtain ⟨a', r3, h3, h⟩ := Gen.bind_ok.1 h
  obtain ⟨v, r4, h4, h⟩ := Gen.bind_ok.1 h
  unfold inputFieldAnnotation at h2
  obtain ⟨b, r5, h5, h6⟩ := Gen.bind_ok.1 h2
  obtain ⟨ha0, f6⟩ := optionalWrap_ok h6
  obtain ⟨f5, hb⟩ := (inputAnnotation_shape W c cls).sound f.type trivial true _ _ _ hs h5 hn
  obtain ⟨f3, ha⟩ := annotateFieldMetadata_ok (W := W) h3
  obtain ⟨f4, hv⟩ := inputFieldValue_ok h4 a'
  have hacc : ∀ x, Accepts W a' x ↔
      (Legal (Inst W (inputSideClass c r)) f.type x ∨ (omittableField f = true ∧ x = .null)) := by
    intro x
    rw [ha, ha0]
    simp only [if_true] at hb
    unfold omittableField
    cases hnn : f.type.isNonNull with
    | false =>
      simp only [Bool.and_false, Bool.false_eq_true, if_false, Bool.not_false, Bool.or_true, true_and]
      rw [hb]
      constructor
      · exact .inl
      · rintro (h | rfl)
        · exact h
        · cases hf : f.type with
          | named n => exact .inl rfl
          | list t => exact .inl rfl
          | nonNull t => rw [hf] at hnn; simp [TypeNode.isNonNull] at hnn
    | true =>
      cases hdef : f.default.isSome with
      | false => simp [hb]
      | true => simp [accepts_optional, hb, or_comm]
  have hfr := (f5.trans f6).trans (f3.trans f4)
  split at h
  · obtain ⟨rfl, rfl⟩ := Gen.pure_ok.1 h
    exact ⟨hfr, attr, a', v, _, hname, rfl, .inr ⟨_, rfl⟩, hv.1, hv.2.1, hv.2.2, hacc⟩
  · obtain ⟨rfl, rfl⟩ := Gen.pure_ok.1 h
    exact ⟨hfr, attr, a', v, [], hname, rfl, .inl rfl, hv.1, hv.2.1, hv.2.2, hacc⟩

end Turms
