import Verif.Spec.StrawberryDirectives
import Verif.Lemmas.StrawberryMarks

/-! # The directive classes of the strawberry plugin -/

namespace Turms
open Spec

theorem directiveAnnotation_shape (W : World) (c : Ctx) :
    Shape W (Styled c.env) (fun _ => True) (directiveAnnotation c) (fun r => Inst W (inputSideClass c r)) where
  nonNull t b := by funext r; rfl
  inv _ _ h f := h.frame f
  list t b r e r' hs h := by
    simp only [directiveAnnotation] at h
    obtain ⟨u, r1, h1, h⟩ := Gen.bind_ok.1 h
    obtain ⟨x, r2, h2, h⟩ := Gen.bind_ok.1 h
    obtain ⟨he, hf⟩ := optionalWrap_ok h
    exact ⟨x, _, r1, r2, h2, frame_registerImport h1, hf, he, fun v => accepts_listBuilder (b := false)⟩
  named n b r e r' hN hs h := by
    simp only [directiveAnnotation] at h
    obtain ⟨x, r2, h2, h⟩ := Gen.bind_ok.1 h
    obtain ⟨he, hf⟩ := optionalWrap_ok h
    unfold directiveLeaf at h2
    cases hl : c.schema.lookup n with
    | none => rw [hl] at h2; exact (Gen.fail_ok.1 h2).elim
    | some t =>
      rw [hl] at h2
      cases t with
      | scalar =>
        obtain ⟨cl, hc, rfl, f1⟩ := referenceScalar_ok h2
        refine ⟨_, f1.trans hf, he, fun v => ?_⟩
        have : inputSideClass c r n = some cl := by unfold inputSideClass; rw [hl]; exact hc
        rw [inst_iff this]
      | _ => exact (Gen.fail_ok.1 h2).elim
  stable r r' n v f := by
    rw [inputSideClass_frame f]

theorem needsFactory_expr {d : PyDefault} (hd : d ≠ .none) {x : Expr} (h : convertDefault d = .ok x) :
    needsFactory x = true ↔ d.Mutable := by
  cases d with
  | none => exact (hd rfl).elim
  | str s => cases h; simp [needsFactory, PyDefault.Mutable]
  | bool s => cases h; simp [needsFactory, PyDefault.Mutable]
  | int s => cases h; simp [needsFactory, PyDefault.Mutable]
  | float s => cases h; simp [needsFactory, PyDefault.Mutable]
  | list l =>
    unfold convertDefault at h
    split at h
    · cases h; simp [needsFactory, PyDefault.Mutable]
    · cases h
  | dict l =>
    unfold convertDefault at h
    split at h
    · cases h; simp [needsFactory, PyDefault.Mutable]
    · cases h
  | «opaque» s => cases h

/-- the default of one argument -/
theorem directiveFieldValue_ok {d : Option PyDefault} {v : Option Expr} {r r' : Reg}
    (h : directiveFieldValue d r = .ok (v, r')) : DefaultAs d v := by
  have key : ∀ d : PyDefault, d ≠ .none → (do
      let x ← Gen.lift (convertDefault d)
      pure (some (Expr.call (.name "strawberry.field") []
        [if needsFactory x then (some "default_factory", .lambda x) else (some "default", x)])) : Gen (Option Expr)) r
      = .ok (v, r') → ∃ e x b, v = some e ∧ givenDefault e = some (x, b) ∧ (d.Proper → evalLiteral x = some d) ∧
          (b = true ↔ d.Mutable) := by
    intro d hd h'
    obtain ⟨x, r1, h1, h2⟩ := Gen.bind_ok.1 h'
    obtain ⟨h1, _⟩ := Gen.lift_ok.1 h1
    obtain ⟨rfl, _⟩ := Gen.pure_ok.1 h2
    refine ⟨_, x, needsFactory x, rfl, ?_, fun hp => ?_, needsFactory_expr hd h1⟩
    · cases hn : needsFactory x <;> simp [givenDefault]
    · rw [convertDefault_expr d hp] at h1
      cases h1
      exact evalLiteral_expr d hp
  cases d with
  | none => exact (Gen.pure_ok.1 h).1.symm
  | some d =>
    cases d with
    | none => exact (Gen.pure_ok.1 h).1.symm
    | _ => exact key _ (by simp) h

theorem directiveFields_ok {W : World} {c : Ctx} {sm : Reg} : ∀ (as : List ArgDef) {ss : List Stmt} {r r' : Reg},
    Styled c.env r → r.scalarMap = sm.scalarMap → directiveFields c as r = .ok (ss, r') →
    List.Forall₂ (DirectiveArgument W (Inst W (inputSideClass c sm)) c) as ss
  | [], ss, r, r', _, _, h => by
    obtain ⟨rfl, _⟩ := Gen.pure_ok.1 h
    exact .nil
  | a :: as, ss, r, r', hs, hsm, h => by
    unfold directiveFields at h
    obtain ⟨s, r1, h1, h⟩ := Gen.bind_ok.1 h
    obtain ⟨ss', r2, h2, h⟩ := Gen.bind_ok.1 h
    obtain ⟨rfl, _⟩ := Gen.pure_ok.1 h
    have q1 := still_directiveField.quiet h1
    refine .cons ?_ (directiveFields_ok as (hs.frame q1.frame) (q1.tables.1.trans hsm) h2)
    unfold directiveField at h1
    obtain ⟨v, r3, h3, h1⟩ := Gen.bind_ok.1 h1
    obtain ⟨n, r4, h4, h1⟩ := Gen.bind_ok.1 h1
    obtain ⟨t, r5, h5, h1⟩ := Gen.bind_ok.1 h1
    obtain ⟨rfl, _⟩ := Gen.pure_ok.1 h1
    have q3 := still_directiveFieldValue.quiet h3
    obtain ⟨hn, rfl⟩ := Gen.lift_ok.1 h4
    refine ⟨n, t, v, rfl, hn, fun hnull x => ?_, directiveFieldValue_ok h3⟩
    have hc : inputSideClass c r3 = inputSideClass c sm := inputSideClass_congr (q3.tables.1.trans hsm)
    rw [← hc] at hnull ⊢
    rw [((directiveAnnotation_shape W c).sound _ trivial _ _ _ _ (hs.frame q3.frame) h5 hnull).2 x]
    simp

theorem directiveArguments_members {W : World} {leaf : String → Val → Prop} {c : Ctx} {as : List ArgDef} {ss : List Stmt}
    (h : List.Forall₂ (DirectiveArgument W leaf c) as ss) : (orPass ss).filter isMember = ss := by
  have key : ∀ {as : List ArgDef} {ss : List Stmt}, List.Forall₂ (DirectiveArgument W leaf c) as ss →
      ss.filter isMember = ss := by
    intro as ss h
    induction h with
    | nil => rfl
    | cons h _ ih =>
      obtain ⟨n, t, v, rfl, _⟩ := h
      rw [List.filter_cons_of_pos rfl, ih]
  cases ss with
  | nil => rfl
  | cons s ss => exact key h

theorem directiveClasses_ok {W : World} {c : Ctx} {p : StrawberryConfig} {sm : Reg} : ∀ (ds : List DirectiveDef)
    {ss : List Stmt} {r r' : Reg}, Styled c.env r → r.scalarMap = sm.scalarMap → directiveClasses c p ds r = .ok (ss, r') →
    List.Forall₂ (DirectiveClassOf W (Inst W (inputSideClass c sm)) c) (ds.filter fun d => keptSb p d.name) ss
  | [], ss, r, r', _, _, h => by
    obtain ⟨rfl, _⟩ := Gen.pure_ok.1 h
    exact .nil
  | d :: ds, ss, r, r', hs, hsm, h => by
    unfold directiveClasses at h
    obtain ⟨s, r1, h1, h⟩ := Gen.bind_ok.1 h
    obtain ⟨ss', r2, h2, h⟩ := Gen.bind_ok.1 h
    obtain ⟨rfl, _⟩ := Gen.pure_ok.1 h
    have q1 := still_directiveClass.quiet h1
    have ih := directiveClasses_ok (W := W) ds (hs.frame q1.frame) (q1.tables.1.trans hsm) h2
    unfold directiveClass at h1
    split at h1
    · rename_i hu
      obtain ⟨rfl, _⟩ := Gen.pure_ok.1 h1
      rw [List.filter_cons_of_neg (by unfold keptSb; rw [hu]; simp)]
      exact ih
    · rename_i hu
      split at h1
      · rename_i hu2
        obtain ⟨rfl, _⟩ := Gen.pure_ok.1 h1
        rw [List.filter_cons_of_neg (by unfold keptSb; rw [hu2]; simp)]
        exact ih
      · rename_i hu2
        rw [List.filter_cons_of_pos (by unfold keptSb; simp only [Bool.not_eq_true] at hu hu2; rw [hu, hu2]; rfl)]
        obtain ⟨fs, r3, h3, h1⟩ := Gen.bind_ok.1 h1
        obtain ⟨cfg, r4, h4, h1⟩ := Gen.bind_ok.1 h1
        obtain ⟨rfl, _⟩ := Gen.pure_ok.1 h1
        have hf := directiveFields_ok (W := W) _ hs hsm h3
        refine .cons ⟨_, rfl, ?_⟩ ih
        rw [List.filter_append, config_no_members h4, List.append_nil, directiveArguments_members hf]
        exact hf

theorem strawberryDirectives_ok {W : World} {c : Ctx} {p : StrawberryConfig} {ds : List DirectiveDef}
    {ss : List Stmt} {r r' : Reg} (hs : Styled c.env r) (h : strawberryDirectives c p ds r = .ok (ss, r')) :
    List.Forall₂ (DirectiveClassOf W (Inst W (inputSideClass c r)) c)
      ((ds.filter fun d => !p.builtinDirectives.contains d.name).filter fun d => keptSb p d.name) ss := by
  unfold strawberryDirectives at h
  cases e : ds.filter fun d => !p.builtinDirectives.contains d.name with
  | nil =>
    rw [e] at h
    obtain ⟨rfl, _⟩ := Gen.pure_ok.1 h
    exact .nil
  | cons d l =>
    rw [e] at h
    obtain ⟨_, r1, h1, h⟩ := Gen.bind_ok.1 h
    have q1 := still_registerImport.quiet h1
    exact directiveClasses_ok _ (hs.frame q1.frame) q1.tables.1 h

end Turms
