import Verif.Lemmas.StrawberryScope
import Verif.Props.Configured
import Verif.Props.Registry
import Verif.Lemmas.Imports
import Verif.Lemmas.InputsClass
import Verif.Spec.Module

/-! # From the statements of the plugins to the whole module -/

namespace Turms
open Spec Props

theorem Spec.Found.mono {K K' : String → Prop} {n : String} (h : Found K n) (hK : ∀ m, K m → K' m) : Found K' n := by
  rcases h with h | ⟨m, a, rfl, h⟩
  · exact .inl (hK _ h)
  · exact .inr ⟨m, a, rfl, hK _ h⟩

theorem Spec.Executes.mono {ss : List Stmt} : ∀ {K K' : String → Prop}, Executes K ss → (∀ m, K m → K' m) → Executes K' ss := by
  induction ss with
  | nil => intro _ _ _ _; trivial
  | cons s ss ih =>
    intro K K' h hK
    exact ⟨fun n hn => (h.1 n hn).mono hK, ih h.2 fun m hm => hm.imp (hK m) id⟩

/-- names provided by a block -/
def providesL (ss : List Stmt) : List String := ss.flatMap provides

theorem executes_append {a b : List Stmt} : ∀ {K : String → Prop},
    Executes K (a ++ b) ↔ Executes K a ∧ Executes (fun n => K n ∨ n ∈ providesL a) b := by
  induction a with
  | nil =>
    intro K
    simp [Executes, providesL]
  | cons s ss ih =>
    intro K
    simp only [List.cons_append, Executes, ih, and_assoc, providesL, List.flatMap_cons, List.mem_append, or_assoc]

theorem mem_bound_provides {s : Stmt} {n : String} (h : n ∈ bound s) : n ∈ provides s := by
  cases s <;> first | exact h | (simp [bound] at h)

/-- what resolves, executes -/
theorem Spec.Resolves.executes {ss : List Stmt} : ∀ {K E : String → Prop}, Resolves E ss → (∀ n, E n → Found K n) →
    Executes K ss := by
  induction ss with
  | nil => intro _ _ _ _; trivial
  | cons s ss ih =>
    intro K E h hE
    refine ⟨fun n hn => hE n (h.1 n hn), ih h.2 fun n hn => ?_⟩
    rcases hn with hn | hn
    · exact (hE n hn).mono fun m hm => .inl hm
    · exact .inl (.inr (mem_bound_provides hn))

/-! ## imports -/

theorem executes_imports {K : String → Prop} {order : List String} {inner : List String → List String} :
    Executes K (generateImports order inner) := by
  have : ∀ (ss : List Stmt) (K : String → Prop), (∀ s ∈ ss, evaluated s = []) → Executes K ss := by
    intro ss
    induction ss with
    | nil => intro _ _; trivial
    | cons s ss ih =>
      intro K h
      exact ⟨by rw [h s List.mem_cons_self]; simp, ih _ fun t ht => h t (List.mem_cons_of_mem _ ht)⟩
  refine this _ _ fun s hs => ?_
  unfold generateImports at hs
  simp only [List.mem_append, List.mem_map] at hs
  rcases hs with ⟨_, _, rfl⟩ | ⟨_, _, rfl⟩ <;> rfl

theorem provides_of_binds {ss : List Stmt} {m : Option String} {n : String} (h : (m, n) ∈ binds ss) : n ∈ providesL ss := by
  induction ss with
  | nil => simp [binds] at h
  | cons s ss ih =>
    simp only [providesL, List.flatMap_cons, List.mem_append]
    cases s with
    | import_ a =>
      simp only [binds, List.mem_cons, Prod.mk.injEq] at h
      rcases h with ⟨_, rfl⟩ | h
      · exact .inl (by simp [provides])
      · exact .inr (ih h)
    | importFrom a ns =>
      simp only [binds, List.mem_append, List.mem_map, Prod.mk.injEq] at h
      rcases h with ⟨x, hx, _, rfl⟩ | h
      · exact .inl hx
      · exact .inr (ih h)
    | _ => exact .inr (ih (by simpa only [binds] using h))

/-- every import provides its last component -/
theorem import_provided {imports order : List String} {inner : List String → List String} (ho : order.Perm imports)
    (hin : ∀ l, (inner l).Perm l) {d : String} (hd : d ∈ imports) :
    lastComponent d ∈ providesL (generateImports order inner) := by
  by_cases hdot : hasDot d = true
  · obtain ⟨h1, h2⟩ := dotted_split d hdot
    have h3 : '.' ∉ (lastComponent d).toList := by simpa only [hasDot, List.contains_eq_mem, decide_eq_false_iff_not] using h2
    have h4 : initComponents d ++ "." ++ lastComponent d ∈ imports := by rw [h1]; exact hd
    exact provides_of_binds (m := some (initComponents d))
      ((C07_binds_exactly imports order inner ho hin (some (initComponents d)) (lastComponent d)).2 ⟨h4, h3⟩)
  · rw [lastComponent_noDot (by simpa using hdot)]
    refine provides_of_binds (m := none) ((C07_binds_exactly imports order inner ho hin none d).2 ⟨hd, ?_⟩)
    simpa [hasDot] using hdot

/-! ## helper classes -/

theorem executes_helper {K : String → Prop} {b : String} {ss : List Stmt} (h : builtinStmts b = .ok ss) (hs : K "str")
    (he : b ∈ enumHelpers → K "Enum") : Executes K ss ∧ ∀ n ∈ helperNames b, n ∈ providesL ss := by
  unfold builtinStmts at h
  split at h
  · cases h
    have := he (by decide +kernel)
    refine ⟨⟨fun n hn => .inl ?_, trivial⟩, fun n hn => ?_⟩
    · have hn : n ∈ ["str", "Enum"] := hn
      simp at hn
      rcases hn with rfl | rfl <;> assumption
    · exact hn
  · cases h
    have := he (by decide +kernel)
    refine ⟨⟨fun n hn => .inl ?_, trivial⟩, fun n hn => ?_⟩
    · have hn : n ∈ ["str", "Enum"] := hn
      simp at hn
      rcases hn with rfl | rfl <;> assumption
    · exact hn
  · cases h
    refine ⟨⟨fun n hn => ?_, fun n hn => ?_, trivial⟩, fun n hn => hn⟩
    · cases hn
    · have hn : n ∈ ["UnsetType"] := hn
      exact .inl (.inr hn)
  · cases h
    exact ⟨⟨(fun n hn => by cases hn), trivial⟩, fun n hn => hn⟩
  · cases h
    exact ⟨⟨(fun n hn => by cases hn), trivial⟩, fun n hn => hn⟩
  · cases h

theorem executes_helpers : ∀ {order : List String} {ss : List Stmt} {K : String → Prop},
    generateBuiltins order = .ok ss → K "str" → (∀ b ∈ order, b ∈ enumHelpers → K "Enum") →
    Executes K ss ∧ ∀ b ∈ order, ∀ n ∈ helperNames b, n ∈ providesL ss := by
  intro order
  induction order with
  | nil =>
    intro ss K h _ _
    cases h
    exact ⟨trivial, by simp⟩
  | cons b order ih =>
    intro ss K h hs he
    unfold generateBuiltins at h
    cases hb : builtinStmts b with
    | error e => rw [hb] at h; cases h
    | ok s =>
      rw [hb] at h
      cases hr : generateBuiltins order with
      | error e => rw [hr] at h; cases h
      | ok rest =>
        rw [hr] at h
        cases h
        obtain ⟨h1, h2⟩ := executes_helper hb hs (he b List.mem_cons_self)
        obtain ⟨h3, h4⟩ := ih (K := fun n => K n ∨ n ∈ providesL s) hr (.inl hs)
          fun b' hb' he' => .inl (he b' (List.mem_cons_of_mem _ hb') he')
        refine ⟨executes_append.2 ⟨h1, h3⟩, ?_⟩
        intro b' hb' n hn
        simp only [providesL, List.flatMap_append, List.mem_append]
        rcases List.mem_cons.1 hb' with rfl | hb'
        · exact .inl (h2 n hn)
        · exact .inr (h4 b' hb' n hn)

/-! ## the module -/

theorem scalarMap_init_known {B : List String} {env : Env} {bases : Dict (List String)} (hB : PythonNames B)
    (hc : Configured B env.config bases) {s t : String} (h : (Reg.init env).scalarMap.get? s = some t)
    (hd : hasDot t = false) : t ∈ B := by
  have hm : (s, t) ∈ Dict.merge scalarDefaults env.config.scalarDefinitions := Dict.mem_of_get? h
  rcases mem_foldl_set hm with hm | hm
  · have key : ∀ q ∈ scalarDefaults, hasDot q.2 = false → q.2 ∈ neverImported := by decide +kernel
    exact hB t (List.mem_cons_of_mem _ (key _ hm hd))
  · rcases hc.scalars _ hm with h | h
    · exact h
    · simp only [hasDot, List.contains_eq_mem, decide_eq_false_iff_not] at hd
      exact absurd h hd

theorem registered_init {env : Env} {n : String} : ¬ Known (Reg.init env) n := by
  rintro (⟨k, t, h⟩ | ⟨i, h⟩)
  · cases k <;> cases h
  · cases h

/-- what a plugin may take as provided is there once imports and helpers are executed -/
theorem provided_found {B : List String} {env : Env} {bases : Dict (List String)} {r : Reg}
    {iter : List String → List String} {helpers : List Stmt} {n : String}
    (hB : PythonNames B) (hc : Configured B env.config bases) (hiter : ∀ l, (iter l).Perm l)
    (hh : ∀ b ∈ iter r.builtins, ∀ n ∈ helperNames b, n ∈ providesL helpers) (hn : Provided (Reg.init env) r n) :
    Found (fun n => n ∈ B ∨ n ∈ providesL (generateImports (iter r.imports) iter ++ helpers)) n := by
  have himp : ∀ {d}, d ∈ r.imports → lastComponent d ∈ providesL (generateImports (iter r.imports) iter ++ helpers) := by
    intro d hd
    simp only [providesL, List.flatMap_append, List.mem_append]
    exact .inl (import_provided (hiter _) hiter hd)
  rcases hn with (⟨d, hd, rfl⟩ | hn | ⟨b, hb, hn⟩ | ⟨s, hs, hd⟩) | ⟨hs, a, _, rfl⟩ | rfl | hn
  · exact .inl (.inr (himp hd))
  · exact .inl (.inl (hB n (List.mem_cons_of_mem _ hn)))
  · refine .inl (.inr ?_)
    simp only [providesL, List.flatMap_append, List.mem_append]
    exact .inr (hh b ((hiter _).mem_iff.2 hb) n hn)
  · exact .inl (.inl (scalarMap_init_known hB hc hs hd))
  · refine .inr ⟨"strawberry", a, rfl, .inr ?_⟩
    have := himp hs
    rwa [lastComponent_noDot (by decide +kernel)] at this
  · exact .inl (.inl (hB _ List.mem_cons_self))
  · exact absurd hn registered_init

theorem executes_forwards {env : Env} {r : Reg} {K : String → Prop} (h : ∀ n ∈ r.forwardReferences, K n) :
    Executes K (generateForwardRefs env r) := by
  unfold generateForwardRefs
  have key : ∀ (l : List String) (K : String → Prop), (∀ n ∈ l, K n) → Executes K (l.map fun reference =>
    Stmt.expr (.call (.attr (.name reference)
      (if env.config.pydanticV2 then "model_rebuild" else "update_forward_refs")) [] [])) := by
    intro l
    induction l with
    | nil => intro _ _; trivial
    | cons x l ih =>
      intro K h
      refine ⟨fun n hn => .inl ?_, ih _ fun n hn => .inl (h n (List.mem_cons_of_mem _ hn))⟩
      have hn : n ∈ [x] := hn
      rw [List.mem_singleton] at hn
      exact hn ▸ h x List.mem_cons_self
  exact key _ _ fun n hn => h n ((pySorted_perm _ _).mem_iff.1 hn)

theorem boundL_providesL {ss : List Stmt} {n : String} (h : n ∈ boundL ss) : n ∈ providesL ss := by
  simp only [boundL, providesL, List.mem_flatMap] at h ⊢
  exact ⟨h.choose, h.choose_spec.1, mem_bound_provides h.choose_spec.2⟩

/-- If the statements of the plugins resolve, the whole module executes. -/
theorem generateAst_executes {B : List String} {env : Env} {bases : Dict (List String)} {plugins : List Plugin}
    {iter : List String → List String} {skip : Bool} {tree m : List Stmt} {r : Reg}
    (hB : PythonNames B) (hc : Configured B env.config bases) (hiter : ∀ l, (iter l).Perm l)
    (hrun : runPlugins plugins (Reg.init env) = .ok (tree, r))
    (hres : Resolves (Provided (Reg.init env) r) tree)
    (henum : ∀ b ∈ r.builtins, b ∈ enumHelpers → ∃ d ∈ r.imports, lastComponent d = "Enum")
    (hfwd : skip = false → ∀ n ∈ r.forwardReferences, n ∈ boundL tree)
    (h : generateAst env iter plugins skip = .ok m) : Executes (· ∈ B) m := by
  unfold generateAst at h
  rw [hrun] at h
  simp only at h
  cases hb : generateBuiltins (iter r.builtins) with
  | error e => rw [hb] at h; cases h
  | ok helpers =>
    rw [hb] at h
    simp only [Except.ok.injEq] at h
    obtain ⟨h1, h2⟩ := executes_helpers
      (K := fun n => n ∈ B ∨ n ∈ providesL (generateImports (iter r.imports) iter)) hb
      (.inl (hB _ (by decide +kernel)))
      (fun b hb' he => by
        obtain ⟨d, hd, hl⟩ := henum b ((hiter _).mem_iff.1 hb') he
        exact .inr (hl ▸ import_provided (hiter _) hiter hd))
    have h3 : Executes (· ∈ B) (generateImports (iter r.imports) iter ++ helpers ++ tree) :=
      executes_append.2 ⟨executes_append.2 ⟨executes_imports, h1⟩,
        hres.executes fun n hn => provided_found hB hc hiter h2 hn⟩
    cases skip with
    | true => simp only [if_true] at h; exact h ▸ h3
    | false =>
      simp only [Bool.false_eq_true, if_false] at h
      rw [← h]
      refine executes_append.2 ⟨h3, executes_forwards fun n hn => .inr ?_⟩
      simp only [providesL, List.flatMap_append, List.mem_append]
      exact .inr (boundL_providesL (hfwd rfl n hn))

end Turms
