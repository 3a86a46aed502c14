import Verif.Spec.Twins
import Verif.Lemmas.Compose
import Verif.Lemmas.EvolutionFuncs
import Verif.Lemmas.StillWalk

/-! # Two definitions for the same operation -/

namespace Turms
open Spec

/-- agreement on everything that matters to functions -/
def atAll : Old := oldFor (fun _ => True) (fun _ => True) (fun _ => True) id

theorem agree_quiet {r r1 r2 : Reg} (h1 : Quiet r r1) (h2 : Quiet r r2) : Agree atAll r1 r2 := by
  obtain ⟨_, _, _, rfl, _⟩ := h1
  obtain ⟨_, _, _, rfl, _⟩ := h2
  exact {
    imports := fun _ _ => .inl trivial
    builtins := fun _ _ => .inl trivial
    forwardReferences := fun _ _ => .inl trivial
    inputMap := fun _ _ => rfl
    inputOnly := fun _ _ h => (h trivial).elim
    enumMap := fun _ _ => rfl
    enumOnly := fun _ _ h => (h trivial).elim
    scalarMap := rfl
    fragmentDocumentMap := fun _ _ => rfl
    closed := fun _ _ _ _ _ _ => trivial
    objectMap := rfl
    interfaceReferenceMap := rfl
    interfaceBaseclassMap := rfl
    fragmentMap := fun _ _ => rfl
    queryMap := fun _ _ h => h
    subscriptionMap := fun _ _ h => h
    mutationMap := fun _ _ h => h
    interfaceFragments := rfl
    fragmentTypeMap := fun _ _ => rfl
    interfaceFragmentImpl := fun _ _ => rfl
    unionFragmentMembers := fun _ _ => rfl
    operationSingle := fun _ _ => rfl }

/-- both ran -/
theorem Sim.both {α : Type} {N : Old} {g g' : Gen α} (h : Sim N g g') {r r' r1 r1' : Reg} {a a' : α} (hA : Agree N r r')
    (h1 : g r = .ok (a, r1)) (h2 : g' r' = .ok (a', r1')) : a' = a ∧ Agree N r1 r1' := by
  obtain ⟨_, e, hA1⟩ := h.run _ _ _ _ hA h1
  rw [e] at h2
  cases h2
  exact ⟨rfl, hA1⟩

theorem agree_registerImport {N : Old} (hN : ∀ x, N.imports x) {a b : String} {r r' r1 r1' : Reg} (hA : Agree N r r')
    (h1 : registerImport a r = .ok ((), r1)) (h2 : registerImport b r' = .ok ((), r1')) : Agree N r1 r1' := by
  unfold registerImport at h1 h2
  split at h1 <;> split at h2 <;> cases h1 <;> cases h2
  all_goals exact { hA with imports := fun x _ => .inl (hN x) }

section
variable {c : Ctx} {p : FuncsConfig} {d d' : FuncDefinition} {o : OpDef}

theorem queryDoc_same (h : SameExtras d d') {b : Bool} : queryDoc c p d' o b = queryDoc c p d o b := by
  unfold queryDoc FuncsConfig.argsFor FuncsConfig.kwargsFor
  rw [h.1, h.2]

theorem generateParameters_same (h : SameExtras d d') : generateParameters c p d' o = generateParameters c p d o := by
  unfold generateParameters FuncsConfig.argsFor FuncsConfig.kwargsFor
  rw [h.1, h.2]

theorem agree_iteratorImport {r r' r1 r1' : Reg} {a b : Unit} (hA : Agree atAll r r')
    (h1 : iteratorImport d o r = .ok (a, r1)) (h2 : iteratorImport d' o r' = .ok (b, r1')) : Agree atAll r1 r1' := by
  unfold iteratorImport at h1 h2
  split at h1
  · rename_i hk
    rw [if_pos hk] at h2
    exact agree_registerImport (fun _ => trivial) hA h1 h2
  · rename_i hk
    rw [if_neg hk] at h2
    obtain ⟨_, rfl⟩ := Gen.pure_ok.1 h1
    obtain ⟨_, rfl⟩ := Gen.pure_ok.1 h2
    exact hA

theorem firstField_same {r r' r1 r1' : Reg} {x x' : String × Option String × List Sel} (h : firstField o r = .ok (x, r1))
    (h' : firstField o r' = .ok (x', r1')) : x' = x := by
  unfold firstField at h h'
  match ho : o.sels with
  | [] => rw [ho] at h; exact (Gen.fail_ok.1 h).elim
  | .field _ _ _ _ :: _ =>
    rw [ho] at h h'
    exact (Gen.pure_ok.1 h').1.symm.trans (Gen.pure_ok.1 h).1
  | .inline _ _ :: _ => rw [ho] at h; exact (Gen.fail_ok.1 h).elim
  | .spread _ :: _ => rw [ho] at h; exact (Gen.fail_ok.1 h).elim

theorem collapsedAttr_value {b : Bool} {e e' y y' : Expr} {r r' r1 r1' : Reg} (h : collapsedAttr c o b e r = .ok (y, r1))
    (h' : collapsedAttr c o b e' r' = .ok (y', r1')) : ∃ a, y = selected a e ∧ y' = selected a e' := by
  unfold collapsedAttr at h h'
  split at h
  · rename_i hb
    rw [if_pos hb] at h'
    obtain ⟨f, r2, h1, h⟩ := Gen.bind_ok.1 h
    obtain ⟨n, r3, h2, k⟩ := Gen.bind_ok.1 h
    obtain ⟨f', r2', h1', h'⟩ := Gen.bind_ok.1 h'
    obtain ⟨n', r3', h2', k'⟩ := Gen.bind_ok.1 h'
    have e1 : f' = f := firstField_same h1 h1'
    subst e1
    have e2 : n = n' := by
      have k1 := (Gen.lift_ok.1 h2).1
      have k2 := (Gen.lift_ok.1 h2').1
      rw [k1] at k2
      cases k2
      rfl
    subst e2
    exact ⟨some n, (Gen.pure_ok.1 k).1.symm, (Gen.pure_ok.1 k').1.symm⟩
  · rename_i hb
    rw [if_neg hb] at h'
    exact ⟨none, (Gen.pure_ok.1 h).1.symm, (Gen.pure_ok.1 h').1.symm⟩

theorem proxyCall_twins (hs : SameExtras d d') {e e' : Expr} {r r' r1 r1' : Reg} (h : proxyCall c p d o r = .ok (e, r1))
    (h' : proxyCall c p d' o r' = .ok (e', r1')) : ∃ as ks, e = .call (.name (lastComponent d.use)) as ks ∧
      e' = .call (.name (lastComponent d'.use)) as ks := by
  unfold proxyCall at h h'
  obtain ⟨_, _, _, h⟩ := Gen.bind_ok.1 h
  obtain ⟨cls, _, h2, h⟩ := Gen.bind_ok.1 h
  obtain ⟨_, _, _, h'⟩ := Gen.bind_ok.1 h'
  obtain ⟨cls', _, h2', h'⟩ := Gen.bind_ok.1 h'
  obtain ⟨n, hn, hc⟩ := operationClassName_ok h2
  obtain ⟨n', hn', hc'⟩ := operationClassName_ok h2'
  rw [hn] at hn'
  cases hn'
  rw [hc] at hc'
  cases hc'
  refine ⟨_, _, (Gen.pure_ok.1 h).1.symm, ?_⟩
  rw [← (Gen.pure_ok.1 h').1]
  unfold FuncsConfig.argsFor FuncsConfig.kwargsFor
  rw [hs.1, hs.2]

/-- the statements that fill the mapping of variables: they introduce a variable or store into a dictionary -/
inductive Stores : Stmt → Prop
  | intro_ {n a e} : Stores (.annAssign n a (some e))
  | entry {t k e} : Stores (.assign (item t k) e)
  | guarded {x u t k e} : Stores (.ifStmt (.isNot x u) [.assign (item t k) e])

theorem entryStmt_stores {env : Env} {t k q : String} {b : Bool} {s : Stmt} {r r1 : Reg}
    (h : entryStmt env t k q b r = .ok (s, r1)) : Stores s := by
  unfold entryStmt at h
  split at h
  · rw [← (Gen.pure_ok.1 h).1]; exact .entry
  · unfold guardedAssign at h
    obtain ⟨_, _, _, h⟩ := Gen.bind_ok.1 h
    rw [← (Gen.pure_ok.1 h).1]; exact .guarded

theorem emptyDict_stores {n : String} {s : Stmt} {r r1 : Reg} (h : emptyDict n r = .ok (s, r1)) : Stores s := by
  unfold emptyDict at h
  obtain ⟨_, _, _, h⟩ := Gen.bind_ok.1 h
  rw [← (Gen.pure_ok.1 h).1]; exact .intro_

theorem fieldEntries_stores {env : Env} {t : String} : ∀ {fs : List InputFieldDef} {ss : List Stmt} {r r1 : Reg},
    fieldEntries env t fs r = .ok (ss, r1) → ∀ s ∈ ss, Stores s := by
  intro fs
  induction fs with
  | nil => intro ss r r1 h; rw [← (Gen.pure_ok.1 h).1]; simp
  | cons f fs ih =>
    intro ss r r1 h
    unfold fieldEntries at h
    obtain ⟨_, _, _, h⟩ := Gen.bind_ok.1 h
    obtain ⟨_, _, h1, h⟩ := Gen.bind_ok.1 h
    obtain ⟨_, _, h2, h⟩ := Gen.bind_ok.1 h
    rw [← (Gen.pure_ok.1 h).1]
    exact List.forall_mem_cons.2 ⟨entryStmt_stores h1, ih h2⟩

theorem variableEntry_stores {v : VarDef} {ss : List Stmt} {r r1 : Reg}
    (h : variableEntry c p v r = .ok (ss, r1)) : ∀ s ∈ ss, Stores s := by
  unfold variableEntry at h
  split at h
  · unfold expandedEntry at h
    obtain ⟨_, _, _, h⟩ := Gen.bind_ok.1 h
    obtain ⟨_, _, _, h⟩ := Gen.bind_ok.1 h
    obtain ⟨_, _, _, h⟩ := Gen.bind_ok.1 h
    obtain ⟨_, _, h1, h⟩ := Gen.bind_ok.1 h
    obtain ⟨_, _, h2, h⟩ := Gen.bind_ok.1 h
    rw [← (Gen.pure_ok.1 h).1]
    refine List.forall_mem_cons.2 ⟨emptyDict_stores h1, ?_⟩
    intro s hs
    rcases List.mem_append.1 hs with hs | hs
    · exact fieldEntries_stores h2 s hs
    · rw [List.mem_singleton.1 hs]; exact .entry
  · unfold plainEntry at h
    obtain ⟨_, _, _, h⟩ := Gen.bind_ok.1 h
    obtain ⟨_, _, h1, h⟩ := Gen.bind_ok.1 h
    rw [← (Gen.pure_ok.1 h).1]
    intro s hs
    rw [List.mem_singleton.1 hs]
    exact entryStmt_stores h1

theorem variableEntries_stores : ∀ {vs : List VarDef} {ss : List Stmt} {r r1 : Reg},
    variableEntries c p vs r = .ok (ss, r1) → ∀ s ∈ ss, Stores s := by
  intro vs
  induction vs with
  | nil => intro ss r r1 h; rw [← (Gen.pure_ok.1 h).1]; simp
  | cons v vs ih =>
    intro ss r r1 h
    unfold variableEntries at h
    obtain ⟨_, _, h1, h⟩ := Gen.bind_ok.1 h
    obtain ⟨_, _, h2, h⟩ := Gen.bind_ok.1 h
    rw [← (Gen.pure_ok.1 h).1]
    intro s hs
    exact (List.mem_append.1 hs).elim (variableEntry_stores h1 s) (ih h2 s)

theorem variableAssignments_stores {ss : List Stmt} {r r1 : Reg}
    (h : variableAssignments c p o r = .ok (ss, r1)) : ∀ s ∈ ss, Stores s := by
  unfold variableAssignments at h
  obtain ⟨_, _, h1, h⟩ := Gen.bind_ok.1 h
  obtain ⟨_, _, h2, h⟩ := Gen.bind_ok.1 h
  rw [← (Gen.pure_ok.1 h).1]
  exact List.forall_mem_cons.2 ⟨emptyDict_stores h1, variableEntries_stores h2⟩

/-- two definitions for the same operation give two instances of one template -/
theorem operationFunc_twins (hs : SameExtras d d') (hk : d.kind = o.kind) (hk' : d'.kind = o.kind) {f f' : Stmt}
    {r r' r1 r1' : Reg} (hA : Agree atAll r r') (h : operationFunc c p d o r = .ok (f, r1))
    (h' : operationFunc c p d' o r' = .ok (f', r1')) :
    ∃ t : Template, t.name = camelToSnake (o.name.getD "") ∧ (∀ s ∈ t.stores, Stores s) ∧ f = t.render p d o ∧ f' = t.render p d' o := by
  have hE : Extends c.schema c.schema := Extends.refl _
  have hx : Steady atAll c c.schema p := .inr ⟨rfl, fun _ _ _ _ _ _ _ => trivial⟩
  have hr : ∀ root, c.schema.root o.kind = some root → Sees atAll c.schema root o.sels :=
    fun _ _ => (grown_refl c.schema).sees _ _
  have hsp : SpreadsIn atAll.frags o.sels := fun _ _ => trivial
  have hv : ∀ v ∈ o.vars, atAll.names v.type.base := fun _ _ => trivial
  unfold operationFunc at h h'
  rw [queryDoc_same hs, generateParameters_same hs] at h'
  obtain ⟨ret, _, a1, h⟩ := Gen.bind_ok.1 h
  obtain ⟨doc, _, a2, h⟩ := Gen.bind_ok.1 h
  obtain ⟨ss, _, a3, h⟩ := Gen.bind_ok.1 h
  obtain ⟨_, _, a4, h⟩ := Gen.bind_ok.1 h
  obtain ⟨P, _, a5, h⟩ := Gen.bind_ok.1 h
  obtain ⟨fin, _, a6, h⟩ := Gen.bind_ok.1 h
  obtain ⟨ret', _, b1, h'⟩ := Gen.bind_ok.1 h'
  obtain ⟨doc', _, b2, h'⟩ := Gen.bind_ok.1 h'
  obtain ⟨ss', _, b3, h'⟩ := Gen.bind_ok.1 h'
  obtain ⟨_, _, b4, h'⟩ := Gen.bind_ok.1 h'
  obtain ⟨P', _, b5, h'⟩ := Gen.bind_ok.1 h'
  obtain ⟨fin', _, b6, h'⟩ := Gen.bind_ok.1 h'
  obtain ⟨rfl, hA⟩ := (sim_returnAnnotation hE hsp hr trivial).both hA a1 b1
  obtain ⟨rfl, hA⟩ := (sim_queryDoc hE hx hsp hr hv).both hA a2 b2
  obtain ⟨rfl, hA⟩ := (show Sim atAll (variableAssignments c p o) (variableAssignments c p o) from
    sim_emptyDict.bind fun _ => (sim_variableEntries hE hx _).bind fun _ => .pure).both hA a3 b3
  have hA := agree_iteratorImport hA a4 b4
  obtain ⟨rfl, hA⟩ := (show Sim atAll (generateParameters c p d o) (generateParameters c p d o) from by
    unfold generateParameters
    exact (sim_extraArgParams _).bind fun _ => (sim_expandedParams hE hx _ fun v _ => trivial).bind fun _ =>
      (sim_requiredParams hE _ fun v _ => trivial).bind fun _ =>
      (sim_optionalParams hE _ fun v _ => trivial).bind fun _ =>
      (sim_extraKwargParams _).bind fun _ => .pure).both hA a5 b5
  obtain ⟨e, hdoc⟩ : ∃ e, doc' = .expr e := by
    unfold queryDoc at a2
    obtain ⟨_, _, _, a2⟩ := Gen.bind_ok.1 a2
    obtain ⟨_, _, _, a2⟩ := Gen.bind_ok.1 a2
    obtain ⟨_, _, _, a2⟩ := Gen.bind_ok.1 a2
    obtain ⟨_, _, _, a2⟩ := Gen.bind_ok.1 a2
    obtain ⟨_, _, _, a2⟩ := Gen.bind_ok.1 a2
    obtain ⟨_, _, _, a2⟩ := Gen.bind_ok.1 a2
    exact ⟨_, (Gen.pure_ok.1 a2).1.symm⟩
  subst hdoc
  have hst := variableAssignments_stores a3
  unfold finalStmt at a6 b6
  obtain ⟨call, _, a7, a6⟩ := Gen.bind_ok.1 a6
  obtain ⟨call', _, b7, b6⟩ := Gen.bind_ok.1 b6
  obtain ⟨as, ks, rfl, rfl⟩ := proxyCall_twins hs a7 b7
  rw [hk] at a6
  rw [hk'] at b6
  have e1 : ∀ x : FuncDefinition, x.kind = o.kind → functionReturns x ret' = handsBack x o ret' := by
    intro x hx
    unfold functionReturns handsBack
    rw [hx]
    cases o.kind <;> rfl
  rw [← (Gen.pure_ok.1 h).1, ← (Gen.pure_ok.1 h').1, e1 d hk, e1 d' hk']
  split at a6
  · rename_i hsub
    rw [if_pos hsub] at b6
    obtain ⟨y, _, a8, a6⟩ := Gen.bind_ok.1 a6
    obtain ⟨y', _, b8, b6⟩ := Gen.bind_ok.1 b6
    obtain ⟨a, rfl, rfl⟩ := collapsedAttr_value a8 b8
    have hsub : o.kind = .subscription := by simpa using hsub
    refine ⟨⟨_, P'.pos ++ P'.kw, P'.values, e, ss', as, ks, a, ret'⟩, rfl, hst, ?_, ?_⟩
    · rw [← (Gen.pure_ok.1 a6).1]; unfold Template.render Template.last; rw [hsub]; rfl
    · rw [← (Gen.pure_ok.1 b6).1]; unfold Template.render Template.last; rw [hsub]; rfl
  · rename_i hsub
    rw [if_neg hsub] at b6
    obtain ⟨y, _, a8, a6⟩ := Gen.bind_ok.1 a6
    obtain ⟨y', _, b8, b6⟩ := Gen.bind_ok.1 b6
    obtain ⟨a, rfl, rfl⟩ := collapsedAttr_value a8 b8
    refine ⟨⟨_, P'.pos ++ P'.kw, P'.values, e, ss', as, ks, a, ret'⟩, rfl, hst, ?_, ?_⟩
    · rw [← (Gen.pure_ok.1 a6).1]; unfold Template.render Template.last
      cases hk : o.kind with
      | subscription => simp [hk] at hsub
      | _ => rfl
    · rw [← (Gen.pure_ok.1 b6).1]; unfold Template.render Template.last
      cases hk : o.kind with
      | subscription => simp [hk] at hsub
      | _ => rfl
end

/-! ## calls -/

/-- storing introduces no other variable -/
theorem stores_names {M : List String} {s : Stmt} (h : Stores s) {n : String} (hn : introduces s ≠ some n) {L L' : Locals}
    {x : Option Outcome} (he : execStmt M L s = some (L', x)) : x = none ∧ (L.find n = none → L'.find n = none) := by
  have hput : ∀ {t k : String} {v : PyVal} {L L' : Locals}, store L v (item t k) = some L' → L.find n = none → L'.find n = none := by
    intro t k v L L' hs hf
    change (match L.find t with
      | some (.dict kvs) => some ((t, .dict (putEntry k v kvs)) :: L)
      | _ => none) = some L' at hs
    split at hs
    · rename_i kvs hd
      cases hs
      simp only [Locals.find]
      split
      · rename_i e; subst e; rw [hf] at hd; cases hd
      · exact hf
    · cases hs
  have hone : ∀ {t k : String} {e : Expr} {L L' : Locals} {x : Option Outcome}, execStmt M L (.assign (item t k) e) = some (L', x) →
      x = none ∧ (L.find n = none → L'.find n = none) := by
    intro t k e L L' x he
    simp only [execStmt] at he
    split at he
    · rename_i v hv
      cases hs : store L v (item t k) with
      | none => rw [hs] at he; cases he
      | some L1 => rw [hs] at he; cases he; exact ⟨rfl, hput hs⟩
    · cases he
  cases h with
  | @intro_ m a e =>
    simp only [execStmt] at he
    cases hv : evalExpr M L e with
    | none => rw [hv] at he; cases he
    | some v =>
      rw [hv] at he; cases he
      refine ⟨rfl, fun hf => ?_⟩
      simp only [Locals.find]
      rw [if_neg]
      · exact hf
      · intro e; exact hn (by rw [introduces, e])
  | entry => exact hone he
  | @guarded y u t k e =>
    simp only [execStmt] at he
    split at he
    · split at he
      · cases he; exact ⟨rfl, id⟩
      · simp only [execBody] at he
        cases hb : execStmt M L (.assign (item t k) e) with
        | none => rw [hb] at he; cases he
        | some z =>
          obtain ⟨L1, z⟩ := z
          obtain ⟨rfl, hk⟩ := hone hb
          rw [hb] at he
          cases he
          exact ⟨rfl, hk⟩
    · cases he

theorem storesAll_names {M : List String} {n : String} : ∀ {ss : List Stmt}, (∀ s ∈ ss, Stores s) →
    (∀ s ∈ ss, introduces s ≠ some n) → ∀ {L L' : Locals} {x : Option Outcome}, execBody M L ss = some (L', x) →
    x = none ∧ (L.find n = none → L'.find n = none) := by
  intro ss
  induction ss with
  | nil => intro _ _ L L' x h; simp only [execBody] at h; cases h; exact ⟨rfl, id⟩
  | cons s ss ih =>
    intro h1 h2 L L' x h
    simp only [execBody] at h
    cases hs : execStmt M L s with
    | none => rw [hs] at h; cases h
    | some z =>
      obtain ⟨L1, z⟩ := z
      obtain ⟨rfl, k1⟩ := stores_names (h1 s (by simp)) (h2 s (by simp)) hs
      rw [hs] at h
      obtain ⟨k2, k3⟩ := ih (fun s hs => h1 s (by simp [hs])) (fun s hs => h2 s (by simp [hs])) h
      exact ⟨k2, fun hf => k3 (k1 hf)⟩

/-- stores end without leaving the function -/
theorem storesAll_stay {M : List String} {ss : List Stmt} (h : ∀ s ∈ ss, Stores s) {L L' : Locals} {x : Option Outcome}
    (he : execBody M L ss = some (L', x)) : x = none := by
  induction ss generalizing L with
  | nil => simp only [execBody] at he; cases he; rfl
  | cons s ss ih =>
    simp only [execBody] at he
    cases hs : execStmt M L s with
    | none => rw [hs] at he; cases he
    | some z =>
      obtain ⟨L1, z⟩ := z
      obtain ⟨m, hm⟩ : ∃ m, introduces s ≠ some m := by
        cases hi : introduces s with
        | none => exact ⟨"", by simp⟩
        | some k => exact ⟨k ++ "x", fun e => by
            have := congrArg String.length (Option.some.inj e)
            simp at this⟩
      obtain ⟨rfl, _⟩ := stores_names (h s (by simp)) hm hs
      rw [hs] at he
      exact ih (fun s hs => h s (by simp [hs])) he

/-- what the last statement needs and does -/
theorem last_outcome {M : List String} {L : Locals} {t : Template} {d : FuncDefinition} {o : OpDef} {x : Option (Locals × Option Outcome)}
    (h : execStmt M L (t.last d o) = x) : x = match evalCall M L (t.call d) with
      | some call => some (L, some ⟨call, d.isAsync, o.kind == .subscription, t.attr⟩)
      | none => none := by
  subst h
  unfold Template.last
  have hcall : ∀ a : Option String, execStmt M L (.return_ (selected a (if d.isAsync then .await (t.call d) else t.call d))) =
      match evalCall M L (t.call d) with
      | some call => some (L, some ⟨call, d.isAsync, false, a⟩)
      | none => none := by
    intro a
    simp only [execStmt]
    cases a <;> cases d.isAsync <;> simp only [selected, evalResult, evalAwait, Template.call, if_true, Bool.false_eq_true, if_false]
    all_goals cases evalCall M L (.call (.name (lastComponent d.use)) t.callArgs t.callKwargs) <;> rfl
  have hyield : ∀ a : Option String, yieldAttr (selected a (.name "event")) = some a := by
    intro a; cases a <;> simp [selected, yieldAttr]
  cases hk : o.kind with
  | subscription =>
    dsimp only
    simp only [execStmt, hyield]
    cases evalCall M L (t.call d) <;> rfl
  | query => exact hcall _
  | mutation => exact hcall _

theorem Template.call_outcome {M : List String} {t : Template} (ht : ∀ s ∈ t.stores, Stores s) {p : FuncsConfig} {d : FuncDefinition}
    {o : OpDef} {pos : List PyVal} {kw : List (String × PyVal)} {out : Outcome}
    (h : callFunc M (t.render p d o) pos kw = some out) :
    ∃ L L' call, bindCall M t.args t.defaults pos kw = some L ∧ execBody M L t.stores = some (L', none) ∧
      evalCall M L' (t.call d) = some call ∧ out = ⟨call, d.isAsync, o.kind == .subscription, t.attr⟩ := by
  dsimp only [Template.render, callFunc] at h
  cases hb : bindCall M t.args t.defaults pos kw with
  | none => rw [hb] at h; cases h
  | some L =>
    rw [hb] at h
    dsimp only at h
    rw [execBody_cons (L1 := L) rfl] at h
    cases hs : execBody M L t.stores with
    | none =>
      exfalso
      have : ∀ (ss ts : List Stmt) (L : Locals), execBody M L ss = none → execBody M L (ss ++ ts) = none := by
        intro ss ts
        induction ss with
        | nil => intro L h; simp only [execBody] at h; cases h
        | cons s ss ih =>
          intro L h
          simp only [execBody, List.cons_append] at h ⊢
          cases he : execStmt M L s with
          | none => rfl
          | some z =>
            obtain ⟨L1, z⟩ := z
            rw [he] at h
            cases z with
            | none => exact ih _ h
            | some z => cases h
      rw [this _ _ _ hs] at h
      cases h
    | some z =>
      obtain ⟨L', z⟩ := z
      obtain rfl := storesAll_stay ht hs
      rw [execBody_append hs] at h
      simp only [execBody] at h
      cases hc : evalCall M L' (t.call d) with
      | none =>
        have := last_outcome (M := M) (L := L') (t := t) (d := d) (o := o) rfl
        rw [hc] at this
        dsimp only at this
        rw [this] at h
        cases h
      | some call =>
        have := last_outcome (M := M) (L := L') (t := t) (d := d) (o := o) rfl
        rw [hc] at this
        dsimp only at this
        rw [this] at h
        cases h
        exact ⟨L, L', call, rfl, hs, hc, rfl⟩

theorem Template.call_intro {M : List String} {t : Template} {p : FuncsConfig} {d : FuncDefinition}
    {o : OpDef} {pos : List PyVal} {kw : List (String × PyVal)} {L L' : Locals} {call : Call}
    (h1 : bindCall M t.args t.defaults pos kw = some L) (h2 : execBody M L t.stores = some (L', none))
    (h3 : evalCall M L' (t.call d) = some call) :
    callFunc M (t.render p d o) pos kw = some ⟨call, d.isAsync, o.kind == .subscription, t.attr⟩ := by
  dsimp only [Template.render, callFunc]
  rw [h1]
  dsimp only
  rw [execBody_cons (L1 := L) rfl, execBody_append h2]
  simp only [execBody]
  rw [last_outcome (M := M) (L := L') (t := t) (d := d) (o := o) rfl, h3]

end Turms
