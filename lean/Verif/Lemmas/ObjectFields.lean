import Verif.Lemmas.InputFields
import Verif.Model.Objects

namespace Turms
open Spec

theorem objectFieldValue_ok {attr : String} {f : FieldDef} {v : Option Expr}
    {r r' : Reg} (h : objectFieldValue attr f r = .ok (v, r')) (ann : Expr) :
    Frame r r' ∧ fieldOf (.annAssign attr ann v) = some ⟨f.name, !f.type.isNonNull, ann⟩ ∧
    defaultOf (.annAssign attr ann v) = (if f.type.isNonNull then none else some (.const .none)) ∧
    hasAlias (.annAssign attr ann v) = (attr != f.name) := by
  unfold objectFieldValue nullableDefault at h
  by_cases hk : attr = f.name
  · cases hn : f.type.isNonNull
    · simp only [hk, bne_self_eq_false, Bool.false_eq_true, if_false, hn, List.isEmpty_cons, Bool.not_false,
        if_true] at h
      obtain ⟨_, r1, h1, h⟩ := Gen.bind_ok.1 h
      obtain ⟨rfl, rfl⟩ := Gen.pure_ok.1 h
      refine ⟨frame_registerImport h1, ?_⟩
      simp [fieldOf, defaultOf, hasAlias, aliasOf, kwarg, hk]
    · simp only [hk, bne_self_eq_false, Bool.false_eq_true, if_false, hn, List.isEmpty_nil, Bool.not_true,
        if_true] at h
      obtain ⟨rfl, rfl⟩ := Gen.pure_ok.1 h
      refine ⟨Frame.refl _, ?_⟩
      simp [fieldOf, defaultOf, hasAlias, hk]
  · have hne : (attr != f.name) = true := by simpa using hk
    rw [if_pos hne] at h
    obtain ⟨_, r1, h1, h⟩ := Gen.bind_ok.1 h
    obtain ⟨rfl, rfl⟩ := Gen.pure_ok.1 h
    refine ⟨frame_registerImport h1, ?_⟩
    cases hn : f.type.isNonNull <;>
      simp [fieldOf, defaultOf, hasAlias, aliasOf, kwarg, Expr.str, hne]

/-- what a declaration of an object field means -/
theorem objectFieldStmts_ok {W : World} {c : Ctx} {cls : String} {f : FieldDef} {ss : List Stmt} {r r' : Reg}
    (hs : Styled c.env r) (h : objectFieldStmts c cls f r = .ok (ss, r'))
    (hn : ¬ OutputInst W c r f.type.base .null) :
    Frame r r' ∧ ∃ (attr : String) (ann : Expr) (v : Option Expr) (doc : List Stmt),
      generateNodeName c.env.stylers f.name = .ok attr ∧
      ss = .annAssign attr ann v :: doc ∧ (doc = [] ∨ ∃ e, doc = [.expr e]) ∧
      fieldOf (.annAssign attr ann v) = some ⟨f.name, !f.type.isNonNull, ann⟩ ∧
      defaultOf (.annAssign attr ann v) = (if f.type.isNonNull then none else some (.const .none)) ∧
      hasAlias (.annAssign attr ann v) = (attr != f.name) ∧
      ∀ x, Accepts W ann x ↔ Legal (OutputInst W c r) f.type x := by
  unfold objectFieldStmts at h
  obtain ⟨attr, r1, h1, h⟩ := Gen.bind_ok.1 h
  obtain ⟨hname, rfl⟩ := Gen.lift_ok.1 h1
  obtain ⟨a, r2, h2, h⟩ := Gen.bind_ok.1 h
  obtain ⟨a', r3, h3, h⟩ := Gen.bind_ok.1 h
  obtain ⟨v, r4, h4, h⟩ := Gen.bind_ok.1 h
  obtain ⟨f2, ha⟩ := (objectAnnotation_shape W c cls).sound f.type trivial true _ _ _ hs h2 hn
  obtain ⟨f3, hb⟩ := annotateFieldMetadata_ok (W := W) h3
  obtain ⟨f4, hv⟩ := objectFieldValue_ok h4 a'
  obtain ⟨rfl, rfl⟩ := Gen.pure_ok.1 h
  refine ⟨f2.trans (f3.trans f4), attr, a', v, _, hname, rfl, ?_, hv.1, hv.2.1, hv.2.2, ?_⟩
  · split
    · exact .inr ⟨_, rfl⟩
    · exact .inl rfl
  · intro x
    rw [hb, ha]
    simp

end Turms
