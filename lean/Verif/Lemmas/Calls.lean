import Verif.Spec.Calls
import Verif.Lemmas.Basic

/-! # Facts about the interpreter for generated functions -/

namespace Turms
open Spec

theorem find_cons_self (k : String) (v : PyVal) (L : Locals) : Locals.find ((k, v) :: L) k = some v := by
  simp [Locals.find]

theorem find_cons_ne {k n : String} (v : PyVal) (L : Locals) (h : n ≠ k) :
    Locals.find ((k, v) :: L) n = Locals.find L n := by
  simp [Locals.find, Ne.symm h]

theorem find_none {L : Locals} {n : String} : Locals.find L n = none ↔ n ∉ L.map (·.1) := by
  induction L with
  | nil => simp [Locals.find]
  | cons p L ih =>
    obtain ⟨k, v⟩ := p
    simp only [Locals.find, List.map_cons, List.mem_cons, not_or]
    by_cases h : k = n
    · simp [h]
    · simp [h, ih, Ne.symm h]

theorem find_some_of_mem {L : Locals} {n : String} (h : n ∈ L.map (·.1)) : ∃ v, Locals.find L n = some v := by
  cases hf : Locals.find L n with
  | none => exact absurd h (find_none.1 hf)
  | some v => exact ⟨v, rfl⟩

theorem putEntry_fresh {k : String} {v : PyVal} {kvs : List (String × PyVal)} (h : k ∉ kvs.map (·.1)) :
    putEntry k v kvs = kvs ++ [(k, v)] := by
  induction kvs with
  | nil => rfl
  | cons p l ih =>
    obtain ⟨a, w⟩ := p
    simp only [List.map_cons, List.mem_cons, not_or] at h
    simp only [putEntry, Ne.symm h.1, if_false, List.cons_append]
    rw [ih h.2]

theorem bindParams_names {M : List String} : ∀ {ps : List (String × Option Expr)} {pos : List PyVal}
    {kw : List (String × PyVal)} {L : Locals}, bindParams M ps pos kw = some L → L.map (·.1) = ps.map (·.1) := by
  intro ps
  induction ps with
  | nil =>
    intro pos kw L h
    cases pos with
    | nil => simp only [bindParams, Option.some.injEq] at h; subst h; rfl
    | cons x pos => simp [bindParams] at h
  | cons p ps ih =>
    obtain ⟨n, d⟩ := p
    intro pos kw L h
    cases pos with
    | nil =>
      simp only [bindParams] at h
      split at h
      · rename_i x L' _ hL
        cases h
        simp [ih hL]
      · cases h
    | cons x pos =>
      simp only [bindParams] at h
      split at h
      · rename_i L' _ hL
        cases h
        simp [ih hL]
      · cases h

theorem bindCall_some {M : List String} {args : List Arg} {defaults : List Expr} {pos : List PyVal}
    {kw : List (String × PyVal)} {L : Locals} (h : bindCall M args defaults pos kw = some L) :
    (args.map (·.arg)).Nodup ∧ L.map (·.1) = args.map (·.arg) := by
  unfold bindCall at h
  split at h
  · rename_i hc
    refine ⟨hc.1, ?_⟩
    rw [bindParams_names h]
    unfold signature
    rw [List.map_fst_zip]
    simp only [List.length_map, List.length_append, List.length_replicate]
    omega
  · cases h

theorem execBody_append {M : List String} {L L' : Locals} : ∀ {ss ts : List Stmt},
    execBody M L ss = some (L', none) → execBody M L (ss ++ ts) = execBody M L' ts := by
  intro ss
  induction ss generalizing L with
  | nil =>
    intro ts h
    simp only [execBody, Option.some.injEq, Prod.mk.injEq, and_true] at h
    subst h
    rfl
  | cons s ss ih =>
    intro ts h
    simp only [execBody] at h
    rw [List.cons_append]
    simp only [execBody]
    cases hs : execStmt M L s with
    | none => rw [hs] at h; simp at h
    | some x =>
      obtain ⟨L1, o⟩ := x
      rw [hs] at h
      cases o with
      | none => exact ih h
      | some o => simp at h

theorem execBody_cons {M : List String} {L L1 : Locals} {s : Stmt} {ss : List Stmt}
    (h : execStmt M L s = some (L1, none)) : execBody M L (s :: ss) = execBody M L1 ss := by
  simp only [execBody, h]

/-- evaluation of a local variable -/
theorem eval_local {M : List String} {L : Locals} {n : String} {v : PyVal} (h : L.find n = some v) :
    evalExpr M L (.name n) = some v := by simp [evalExpr, h]

/-- evaluation of a module-level object -/
theorem eval_global {M : List String} {L : Locals} {n : String} (h : L.find n = none) (hM : n ∈ M) :
    evalExpr M L (.name n) = some (.global n) := by simp [evalExpr, h, hM]

end Turms
