import Verif.Spec.Pipeline
import Verif.Lemmas.Annotations

namespace Turms
open Spec

theorem builtinStmts_names {b : String} {ss : List Stmt} (h : builtinStmts b = .ok ss) :
    definedNames ss = helperNames b ∧ b ∈ builtinNames := by
  unfold builtinStmts at h
  split at h <;> cases h <;> exact ⟨rfl, by decide +kernel⟩

theorem builtinStmts_total {b : String} (h : b ∈ builtinNames) : ∃ ss, builtinStmts b = .ok ss := by
  simp only [builtinNames, List.mem_cons, List.not_mem_nil, or_false] at h
  rcases h with rfl | rfl | rfl | rfl | rfl <;> exact ⟨_, rfl⟩

theorem definedNames_app (a b : List Stmt) : definedNames (a ++ b) = definedNames a ++ definedNames b := by
  induction a with
  | nil => rfl
  | cons s a ih =>
    cases s with
    | classDef n bs body ds => simp [definedNames, ih]
    | assign t v => cases t <;> simp [definedNames, ih]
    | _ => simp [definedNames, ih]

theorem generateBuiltins_names {order : List String} {ss : List Stmt} (h : generateBuiltins order = .ok ss) (x : String) :
    x ∈ definedNames ss ↔ ∃ b ∈ order, x ∈ helperNames b := by
  induction order generalizing ss with
  | nil => cases h; simp [definedNames]
  | cons b order ih =>
    unfold generateBuiltins at h
    split at h
    · cases h
    · rename_i s hs
      split at h
      · cases h
      · rename_i rest hr
        cases h
        rw [definedNames_app, List.mem_append, ih hr, (builtinStmts_names hs).1]
        simp

theorem generateBuiltins_known {order : List String} {ss : List Stmt} (h : generateBuiltins order = .ok ss) :
    ∀ b ∈ order, b ∈ builtinNames := by
  induction order generalizing ss with
  | nil => simp
  | cons b order ih =>
    unfold generateBuiltins at h
    split at h
    · cases h
    · rename_i s hs
      split at h
      · cases h
      · rename_i rest hr
        intro c hc
        rcases List.mem_cons.1 hc with rfl | hc
        · exact (builtinStmts_names hs).2
        · exact ih hr c hc

theorem generateBuiltins_total {order : List String} (h : ∀ b ∈ order, b ∈ builtinNames) :
    ∃ ss, generateBuiltins order = .ok ss := by
  induction order with
  | nil => exact ⟨[], rfl⟩
  | cons b order ih =>
    obtain ⟨s, hs⟩ := builtinStmts_total (h b (by simp))
    obtain ⟨rest, hr⟩ := ih fun c hc => h c (by simp [hc])
    exact ⟨s ++ rest, by unfold generateBuiltins; rw [hs, hr]⟩

theorem coercionFor_merge {g p : Dict String} (hn : p.keys.Nodup) (n : String) :
    (mergedCoercions g p).get? n = coercionFor g p n := by
  unfold mergedCoercions coercionFor
  rw [Dict.get?_merge _ _ _ hn]
  cases p.get? n <;> rfl

theorem unwrapped_optionalWrap {o : Bool} {x e : Expr} {r r' : Reg} (h : optionalWrap o x r = .ok (e, r')) :
    unwrapped e = unwrapped x ∧ ∀ d ∈ r.imports, d ∈ r'.imports := by
  unfold optionalWrap at h
  split at h
  · obtain ⟨_, r1, h1, h⟩ := Gen.bind_ok.1 h
    obtain ⟨rfl, rfl⟩ := Gen.pure_ok.1 h
    refine ⟨by simp [sub, unwrapped], fun d hd => ?_⟩
    unfold registerImport at h1
    split at h1 <;> cases h1
    · exact hd
    · exact (mem_setAdd _ _ _).2 (.inl hd)
  · obtain ⟨rfl, rfl⟩ := Gen.pure_ok.1 h
    exact ⟨rfl, fun _ h => h⟩

theorem imports_registerImport {n : String} {r r' : Reg} {u : Unit} (h : registerImport n r = .ok (u, r')) :
    (n ∈ neverImported ∨ n ∈ r'.imports) ∧ ∀ d ∈ r.imports, d ∈ r'.imports := by
  unfold registerImport at h
  split at h
  · rename_i hn; cases h; exact ⟨.inl (by simpa using hn), fun _ h => h⟩
  · cases h; exact ⟨.inr ((mem_setAdd _ _ _).2 (.inr rfl)), fun d hd => (mem_setAdd _ _ _).2 (.inl hd)⟩

/-- the wrappers of a parameter annotation carry its leaf -/
theorem paramAnnotation_leaf {c : Ctx} {co : Coercions} {t : TypeNode} : ∀ {o : Bool} {e : Expr} {r r' : Reg},
    paramAnnotation c co t o r = .ok (e, r') → ∃ x r1 r2, paramLeaf c co t.base r1 = .ok (x, r2) ∧
      unwrapped e = unwrapped x ∧ (∀ d ∈ r2.imports, d ∈ r'.imports) := by
  induction t with
  | named n =>
    intro o e r r' h
    unfold paramAnnotation at h
    obtain ⟨x, r1, h1, h⟩ := Gen.bind_ok.1 h
    obtain ⟨h2, h3⟩ := unwrapped_optionalWrap h
    exact ⟨x, r, r1, h1, h2, h3⟩
  | nonNull t ih => intro o e r r' h; exact ih h
  | list t ih =>
    intro o e r r' h
    unfold paramAnnotation at h
    obtain ⟨_, r1, h1, h⟩ := Gen.bind_ok.1 h
    obtain ⟨x, r2, h2, h⟩ := Gen.bind_ok.1 h
    obtain ⟨h3, h4⟩ := unwrapped_optionalWrap h
    obtain ⟨y, r3, r4, h5, h6, h7⟩ := ih h2
    refine ⟨y, r3, r4, h5, ?_, fun d hd => h4 d (h7 d hd)⟩
    rw [h3]
    simp [sub, unwrapped, h6]

/-- the wrappers of a variable annotation carry the override -/
theorem recurseTypeAnnotation_leaf {env : Env} {x : Expr} {t : TypeNode} : ∀ {o : Bool} {e : Expr} {r r' : Reg},
    recurseTypeAnnotation env (some x) t o r = .ok (e, r') → unwrapped e = unwrapped x ∧ (∀ d ∈ r.imports, d ∈ r'.imports) := by
  induction t with
  | named n =>
    intro o e r r' h
    unfold recurseTypeAnnotation at h
    obtain ⟨y, r1, h1, h⟩ := Gen.bind_ok.1 h
    obtain ⟨rfl, rfl⟩ := Gen.pure_ok.1 h1
    exact unwrapped_optionalWrap h
  | nonNull t ih => intro o e r r' h; exact ih h
  | list t ih =>
    intro o e r r' h
    unfold recurseTypeAnnotation at h
    obtain ⟨_, r1, h1, h⟩ := Gen.bind_ok.1 h
    obtain ⟨y, r2, h2, h⟩ := Gen.bind_ok.1 h
    obtain ⟨h3, h4⟩ := unwrapped_optionalWrap h
    obtain ⟨h5, h6⟩ := ih h2
    refine ⟨?_, fun d hd => h4 d (h6 d ((imports_registerImport h1).2 d hd))⟩
    rw [h3]
    simp [sub, unwrapped, h5]

theorem coercibleUnion_imports {x e : Expr} {p : String} {r r' : Reg} (h : coercibleInputUnion x p r = .ok (e, r')) :
    e = sub "Union" (.tuple [x, .name (lastComponent p)]) ∧ (p ∈ neverImported ∨ p ∈ r'.imports) ∧
    ∀ d ∈ r.imports, d ∈ r'.imports := by
  unfold coercibleInputUnion at h
  obtain ⟨_, r1, h1, h⟩ := Gen.bind_ok.1 h
  obtain ⟨_, r2, h2, h⟩ := Gen.bind_ok.1 h
  obtain ⟨rfl, rfl⟩ := Gen.pure_ok.1 h
  have a := imports_registerImport h1
  have b := imports_registerImport h2
  exact ⟨rfl, a.1.imp id (b.2 p), fun d hd => b.2 d (a.2 d hd)⟩

end Turms
