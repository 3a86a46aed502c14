import Mathlib.Data.List.Forall2
import Verif.Lemmas.Calls
import Verif.Lemmas.ResponsePlugins
import Verif.Spec.Funcs

/-! # What the funcs generators return -/

namespace Turms
open Spec

theorem referenceUnset_ok {env : Env} {r r' : Reg} {e : Expr} (h : referenceUnset env r = .ok (e, r')) :
    e = .name (unsetName env) := by
  unfold referenceUnset referenceMarker registerBuiltin registerImport at h
  unfold unsetName
  split at h
  · rename_i o ho
    rw [ho]
    dsimp only at h ⊢
    split at h
    · rename_i heq
      rw [if_pos heq]
      cases h
      rfl
    · rename_i heq
      rw [if_neg heq]
      split at h
      · cases h
      · cases h; rfl
  · rename_i ho
    rw [ho]
    cases h
    rfl

theorem requiredField_iff {f : InputFieldDef} : f.type.isNonNull = true ↔ RequiredField f := by
  unfold RequiredField
  cases h : f.type <;> simp [TypeNode.isNonNull]

theorem requiredVar_iff {v : VarDef} : v.isRequired = true ↔ RequiredVar v := by
  unfold RequiredVar VarDef.isRequired
  cases h : v.type <;> cases h2 : v.default <;> simp [TypeNode.isNonNull]

theorem optionalVar_iff {v : VarDef} : v.isRequired = false ↔ ¬ RequiredVar v := by
  rw [← requiredVar_iff]; simp

/-! ## Executing the generated statements -/

section Exec
variable {M : List String} {env : Env}

theorem entryStmt_exec {L : Locals} {target key param : String} {req : Bool} {r r' : Reg} {s : Stmt}
    {kvs : List (String × PyVal)} {x : PyVal} (h : entryStmt env target key param req r = .ok (s, r'))
    (ht : L.find target = some (.dict kvs)) (hp : L.find param = some x) (hu : L.find (unsetName env) = none)
    (hM : req = false → unsetName env ∈ M) :
    execStmt M L s = some (if req || !x.is (unsetName env) then (target, .dict (putEntry key x kvs)) :: L else L,
      none) := by
  have hstore : store L x (item target key) = some ((target, .dict (putEntry key x kvs)) :: L) := by
    simp [store, item, Expr.str, ht]
  unfold entryStmt at h
  split at h
  · rename_i hr
    obtain ⟨rfl, rfl⟩ := Gen.pure_ok.1 h
    simp [execStmt, eval_local hp, hstore, hr]
  · rename_i hr
    unfold guardedAssign at h
    obtain ⟨e, r1, h1, h⟩ := Gen.bind_ok.1 h
    obtain ⟨rfl, rfl⟩ := Gen.pure_ok.1 h
    rw [referenceUnset_ok h1]
    simp only [execStmt, eval_local hp, eval_global hu (hM (by simpa using hr))]
    cases hx : x.is (unsetName env) with
    | true => simp [hr]
    | false => simp [hr, execBody, execStmt, eval_local hp, hstore]

theorem emptyDict_exec {L : Locals} {n : String} {r r' : Reg} {s : Stmt} (h : emptyDict n r = .ok (s, r')) :
    execStmt M L s = some ((n, .dict []) :: L, none) := by
  unfold emptyDict at h
  obtain ⟨a, r1, _, h⟩ := Gen.bind_ok.1 h
  obtain ⟨rfl, rfl⟩ := Gen.pure_ok.1 h
  simp [execStmt, evalExpr]

theorem supplied_congr {L L' : Locals} {u param : String} {q : Prop} {x : PyVal}
    (h : L'.find param = L.find param) : Supplied L' u param q x ↔ Supplied L u param q x := by
  unfold Supplied; rw [h]

theorem fieldEntries_exec {target : String} : ∀ {fs : List InputFieldDef} {L : Locals} {r r' : Reg}
    {ss : List Stmt} {kvs : List (String × PyVal)}, fieldEntries env target fs r = .ok (ss, r') →
    (fs.map (·.name)).Nodup → (∀ f ∈ fs, f.name ∉ kvs.map (·.1)) → L.find target = some (.dict kvs) →
    (∀ f ∈ fs, ∀ q, FieldParamOf env f.name q → q ≠ target ∧ ∃ x, L.find q = some x) →
    L.find (unsetName env) = none → unsetName env ≠ target →
    ((∃ f ∈ fs, ¬ RequiredField f) → unsetName env ∈ M) →
    ∃ L' sent, execBody M L ss = some (L', none) ∧ L'.find target = some (.dict (kvs ++ sent)) ∧
      (∀ n, n ≠ target → L'.find n = L.find n) ∧ (sent.map (·.1)).Sublist (fs.map (·.name)) ∧
      ∀ k x, (k, x) ∈ sent ↔ ∃ f ∈ fs, f.name = k ∧ ∃ q, FieldParamOf env f.name q ∧
        Supplied L (unsetName env) q (RequiredField f) x := by
  intro fs
  induction fs with
  | nil =>
    intro L r r' ss kvs h _ _ ht _ _ _ _
    unfold fieldEntries at h
    obtain ⟨rfl, rfl⟩ := Gen.pure_ok.1 h
    exact ⟨L, [], by simp [execBody], by simpa using ht, fun _ _ => rfl, .slnil, by simp⟩
  | cons f fs ih =>
    intro L r r' ss kvs h hnd hfresh ht hpar hu hut hM
    unfold fieldEntries at h
    obtain ⟨q, r1, hq, h⟩ := Gen.bind_ok.1 h
    obtain ⟨s, r2, hs, h⟩ := Gen.bind_ok.1 h
    obtain ⟨rest, r3, hrest, h⟩ := Gen.bind_ok.1 h
    obtain ⟨rfl, rfl⟩ := Gen.pure_ok.1 h
    have hq' : FieldParamOf env f.name q := (Gen.lift_ok.1 hq).1
    obtain ⟨hqt, x, hx⟩ := hpar f (List.mem_cons_self ..) q hq'
    have hex := entryStmt_exec (M := M) hs ht hx hu (fun hf => hM ⟨f, List.mem_cons_self .., fun hr => by
      rw [requiredField_iff.2 hr] at hf; cases hf⟩)
    have hM : (∃ g ∈ fs, ¬ RequiredField g) → unsetName env ∈ M :=
      fun ⟨g, hg, hn⟩ => hM ⟨g, List.mem_cons_of_mem _ hg, hn⟩
    rw [List.map_cons, List.nodup_cons] at hnd
    have hff : f.name ∉ kvs.map (·.1) := hfresh f (List.mem_cons_self ..)
    by_cases hc : (f.type.isNonNull || !x.is (unsetName env)) = true
    · rw [if_pos hc, putEntry_fresh hff] at hex
      obtain ⟨L', sent, e1, e2, e3, e4, e5⟩ := ih (L := (target, .dict (kvs ++ [(f.name, x)])) :: L)
        (kvs := kvs ++ [(f.name, x)]) hrest hnd.2
        (by
          intro g hg hmem
          rw [List.map_append, List.mem_append] at hmem
          rcases hmem with hm | hm
          · exact hfresh g (List.mem_cons_of_mem _ hg) hm
          · simp at hm
            exact hnd.1 (hm ▸ List.mem_map_of_mem hg))
        (find_cons_self ..)
        (by
          intro g hg q' hq2
          obtain ⟨h1, y, h2⟩ := hpar g (List.mem_cons_of_mem _ hg) q' hq2
          exact ⟨h1, y, by rw [find_cons_ne _ _ h1]; exact h2⟩)
        (by rw [find_cons_ne _ _ hut]; exact hu) hut hM
      refine ⟨L', (f.name, x) :: sent, ?_, ?_, ?_, ?_, ?_⟩
      · rw [execBody_cons hex]; exact e1
      · rw [e2]; simp
      · intro n hn; rw [e3 n hn, find_cons_ne _ _ hn]
      · simp only [List.map_cons]; exact e4.cons_cons _
      · intro k y
        rw [List.mem_cons, e5]
        constructor
        · rintro (heq | ⟨g, hg, hk, q', hq2, hsup⟩)
          · cases heq
            refine ⟨f, List.mem_cons_self .., rfl, q, hq', hx, ?_⟩
            rw [Bool.or_eq_true] at hc
            rcases hc with hc | hc
            · exact Or.inl (requiredField_iff.1 hc)
            · exact Or.inr (by simpa using hc)
          · refine ⟨g, List.mem_cons_of_mem _ hg, hk, q', hq2, ?_⟩
            exact (supplied_congr (find_cons_ne _ _ (hpar g (List.mem_cons_of_mem _ hg) q' hq2).1)).1 hsup
        · rintro ⟨g, hg, hk, q', hq2, hsup⟩
          rcases List.mem_cons.1 hg with rfl | hg
          · left
            have : q' = q := by
              unfold FieldParamOf at hq' hq2; rw [hq'] at hq2; cases hq2; rfl
            subst this
            have hy := hsup.1
            rw [hx] at hy
            cases hy
            rw [hk]
          · right
            exact ⟨g, hg, hk, q', hq2,
              (supplied_congr (find_cons_ne _ _ (hpar g (List.mem_cons_of_mem _ hg) q' hq2).1)).2 hsup⟩
    · rw [if_neg hc] at hex
      obtain ⟨L', sent, e1, e2, e3, e4, e5⟩ := ih (L := L) (kvs := kvs) hrest hnd.2
        (fun g hg => hfresh g (List.mem_cons_of_mem _ hg)) ht
        (fun g hg => hpar g (List.mem_cons_of_mem _ hg)) hu hut hM
      refine ⟨L', sent, ?_, e2, e3, ?_, ?_⟩
      · rw [execBody_cons hex]; exact e1
      · simp only [List.map_cons]; exact e4.cons _
      · intro k y
        rw [e5]
        constructor
        · rintro ⟨g, hg, hr⟩; exact ⟨g, List.mem_cons_of_mem _ hg, hr⟩
        · rintro ⟨g, hg, hk, q', hq2, hsup⟩
          rcases List.mem_cons.1 hg with rfl | hg
          · exfalso
            have : q' = q := by
              unfold FieldParamOf at hq' hq2; rw [hq'] at hq2; cases hq2; rfl
            subst this
            have hy := hsup.1
            rw [hx] at hy
            cases hy
            apply hc
            rw [Bool.or_eq_true]
            rcases hsup.2 with h1 | h1
            · exact Or.inl (requiredField_iff.2 h1)
            · exact Or.inr (by simp [h1])
          · exact ⟨g, hg, hk, q', hq2, hsup⟩

theorem wrappedName_base {t : TypeNode} {n : String} {r r' : Reg} (h : wrappedName t r = .ok (n, r')) :
    n = t.base := by
  cases t with
  | named m => unfold wrappedName at h; exact (Gen.fail_ok.1 h).elim
  | list t =>
    cases t with
    | named m => unfold wrappedName at h; obtain ⟨rfl, rfl⟩ := Gen.pure_ok.1 h; rfl
    | list t => unfold wrappedName at h; exact (Gen.fail_ok.1 h).elim
    | nonNull t => unfold wrappedName at h; exact (Gen.fail_ok.1 h).elim
  | nonNull t =>
    cases t with
    | named m => unfold wrappedName at h; obtain ⟨rfl, rfl⟩ := Gen.pure_ok.1 h; rfl
    | list t => unfold wrappedName at h; exact (Gen.fail_ok.1 h).elim
    | nonNull t => unfold wrappedName at h; exact (Gen.fail_ok.1 h).elim

theorem expandedFields_ok {s : Schema} {n : String} {fs : List InputFieldDef} {r r' : Reg}
    (h : expandedFields s n r = .ok (fs, r')) : ∃ ds, s.lookup n = some (.input fs ds) := by
  unfold expandedFields at h
  cases hl : s.lookup n with
  | none => rw [hl] at h; exact (Gen.fail_ok.1 h).elim
  | some d =>
    rw [hl] at h
    cases d with
    | input fs' ds =>
      dsimp only at h
      obtain ⟨rfl, rfl⟩ := Gen.pure_ok.1 h
      exact ⟨ds, rfl⟩
    | _ => exact (Gen.fail_ok.1 h).elim

theorem underscore_ne_variables (q : String) : "_" ++ q ≠ "variables" := by
  intro h
  have := congrArg (fun s => s.toList.head?) h
  simp [String.toList_append] at this

/-- what a run of the generated assignments needs to know about the local variables -/
structure Ready (c : Ctx) (p : FuncsConfig) (S : String → Prop) (L : Locals) (vs : List VarDef) : Prop where
  plain : ∀ v ∈ vs, v.name ∉ p.expandInputTypes → ∀ q, ParamOf c.env v.name q → ¬ S q ∧ ∃ x, L.find q = some x
  expanded : ∀ v ∈ vs, v.name ∈ p.expandInputTypes → ∀ fs, FieldsOfVar c.schema v fs →
    (fs.map (·.name)).Nodup ∧ ∀ f ∈ fs, ∀ q, FieldParamOf c.env f.name q → ¬ S q ∧ ∃ x, L.find q = some x
  scratch : S "variables" ∧ ∀ v ∈ vs, v.name ∈ p.expandInputTypes → ∀ q, ParamOf c.env v.name q → S ("_" ++ q)
  unset : ¬ S (unsetName c.env) ∧ L.find (unsetName c.env) = none

theorem Ready.congr {c : Ctx} {p : FuncsConfig} {S : String → Prop} {L L' : Locals} {vs : List VarDef}
    (h : Ready c p S L vs) (hL : ∀ n, ¬ S n → L'.find n = L.find n) : Ready c p S L' vs := by
  refine ⟨?_, ?_, h.scratch, h.unset.1, by rw [hL _ h.unset.1]; exact h.unset.2⟩
  · intro v hv he q hq
    obtain ⟨h1, x, h2⟩ := h.plain v hv he q hq
    exact ⟨h1, x, by rw [hL _ h1]; exact h2⟩
  · intro v hv he fs hfs
    obtain ⟨h1, h2⟩ := h.expanded v hv he fs hfs
    refine ⟨h1, fun f hf q hq => ?_⟩
    obtain ⟨h3, x, h4⟩ := h2 f hf q hq
    exact ⟨h3, x, by rw [hL _ h3]; exact h4⟩

theorem Ready.tail {c : Ctx} {p : FuncsConfig} {S : String → Prop} {L : Locals} {v : VarDef} {vs : List VarDef}
    (h : Ready c p S L (v :: vs)) : Ready c p S L vs :=
  ⟨fun w hw => h.plain w (List.mem_cons_of_mem _ hw), fun w hw => h.expanded w (List.mem_cons_of_mem _ hw),
    ⟨h.scratch.1, fun w hw => h.scratch.2 w (List.mem_cons_of_mem _ hw)⟩, h.unset⟩

theorem sentAs_congr {c : Ctx} {p : FuncsConfig} {S : String → Prop} {L L' : Locals} {v : VarDef}
    {vs : List VarDef} {x : PyVal} (h : Ready c p S L vs) (hv : v ∈ vs)
    (hL : ∀ n, ¬ S n → L'.find n = L.find n) : SentAs c p L' v x ↔ SentAs c p L v x := by
  unfold SentAs
  constructor
  · rintro (⟨he, q, hq, hs⟩ | ⟨he, fs, es, hfs, hp, hx⟩)
    · exact .inl ⟨he, q, hq, (supplied_congr (hL _ (h.plain v hv he q hq).1)).1 hs⟩
    · refine .inr ⟨he, fs, es, hfs, ⟨hp.1, fun k y => ?_⟩, hx⟩
      rw [hp.2]
      constructor
      · rintro ⟨f, hf, hk, q, hq, hs⟩
        exact ⟨f, hf, hk, q, hq, (supplied_congr (hL _ ((h.expanded v hv he fs hfs).2 f hf q hq).1)).1 hs⟩
      · rintro ⟨f, hf, hk, q, hq, hs⟩
        exact ⟨f, hf, hk, q, hq, (supplied_congr (hL _ ((h.expanded v hv he fs hfs).2 f hf q hq).1)).2 hs⟩
  · rintro (⟨he, q, hq, hs⟩ | ⟨he, fs, es, hfs, hp, hx⟩)
    · exact .inl ⟨he, q, hq, (supplied_congr (hL _ (h.plain v hv he q hq).1)).2 hs⟩
    · refine .inr ⟨he, fs, es, hfs, ⟨hp.1, fun k y => ?_⟩, hx⟩
      rw [hp.2]
      constructor
      · rintro ⟨f, hf, hk, q, hq, hs⟩
        exact ⟨f, hf, hk, q, hq, (supplied_congr (hL _ ((h.expanded v hv he fs hfs).2 f hf q hq).1)).2 hs⟩
      · rintro ⟨f, hf, hk, q, hq, hs⟩
        exact ⟨f, hf, hk, q, hq, (supplied_congr (hL _ ((h.expanded v hv he fs hfs).2 f hf q hq).1)).1 hs⟩

/-- the statements of one variable: the entry is added, or nothing is to be sent -/
theorem variableEntry_exec {c : Ctx} {p : FuncsConfig} {S : String → Prop} {L : Locals} {v : VarDef}
    {vs : List VarDef} {ss : List Stmt} {r r' : Reg} {kvs : List (String × PyVal)}
    (h : variableEntry c p v r = .ok (ss, r')) (hR : Ready c p S L (v :: vs))
    (hM : (v.name ∉ p.expandInputTypes ∧ ¬ RequiredVar v) ∨ (v.name ∈ p.expandInputTypes ∧
      ∃ fs, FieldsOfVar c.schema v fs ∧ ∃ g ∈ fs, ¬ RequiredField g) → unsetName c.env ∈ M)
    (hk : v.name ∉ kvs.map (·.1)) (ht : L.find "variables" = some (.dict kvs)) :
    ∃ L' sent, execBody M L ss = some (L', none) ∧ L'.find "variables" = some (.dict (kvs ++ sent)) ∧
      (∀ n, ¬ S n → L'.find n = L.find n) ∧
      ((∃ x, sent = [(v.name, x)] ∧ SentAs c p L v x) ∨ (sent = [] ∧ ∀ x, ¬ SentAs c p L v x)) := by
  unfold variableEntry at h
  split at h
  · rename_i he
    have he : v.name ∈ p.expandInputTypes := by simpa using he
    unfold expandedEntry at h
    obtain ⟨n, r1, hn, h⟩ := Gen.bind_ok.1 h
    obtain ⟨fs, r2, hfs, h⟩ := Gen.bind_ok.1 h
    obtain ⟨q, r3, hq, h⟩ := Gen.bind_ok.1 h
    obtain ⟨d, r4, hd, h⟩ := Gen.bind_ok.1 h
    obtain ⟨es, r5, hes, h⟩ := Gen.bind_ok.1 h
    obtain ⟨rfl, rfl⟩ := Gen.pure_ok.1 h
    have hq : ParamOf c.env v.name q := (Gen.lift_ok.1 hq).1
    obtain ⟨ds, hl⟩ := expandedFields_ok hfs
    rw [wrappedName_base hn] at hl
    have hfo : FieldsOfVar c.schema v fs := ⟨ds, hl⟩
    obtain ⟨hnd, hpar⟩ := hR.expanded v (List.mem_cons_self ..) he fs hfo
    have hSq : S ("_" ++ q) := hR.scratch.2 v (List.mem_cons_self ..) he q hq
    have hne : ∀ {m : String}, ¬ S m → m ≠ "_" ++ q := fun hm e => hm (e ▸ hSq)
    obtain ⟨L', sent, e1, e2, e3, e4, e5⟩ := fieldEntries_exec (M := M) (L := ("_" ++ q, .dict []) :: L)
      (kvs := []) hes hnd (by simp) (find_cons_self ..)
      (by
        intro f hf q' hq'
        obtain ⟨h1, x, h2⟩ := hpar f hf q' hq'
        exact ⟨hne h1, x, by rw [find_cons_ne _ _ (hne h1)]; exact h2⟩)
      (by rw [find_cons_ne _ _ (hne hR.unset.1)]; exact hR.unset.2) (hne hR.unset.1)
      (fun hx => hM (.inr ⟨he, fs, hfo, hx⟩))
    simp only [List.nil_append] at e2
    have hvar : L'.find "variables" = some (.dict kvs) := by
      rw [e3 _ (Ne.symm (underscore_ne_variables q)), find_cons_ne _ _ (Ne.symm (underscore_ne_variables q))]
      exact ht
    refine ⟨("variables", .dict (putEntry v.name (.dict sent) kvs)) :: L', [(v.name, .dict sent)], ?_, ?_, ?_,
      .inl ⟨_, rfl, .inr ⟨he, fs, sent, hfo, ⟨e4.nodup hnd, fun k x => ?_⟩, rfl⟩⟩⟩
    · rw [execBody_cons (emptyDict_exec hd), execBody_append e1]
      simp [execBody, execStmt, eval_local e2, store, item, Expr.str, hvar]
    · rw [putEntry_fresh hk, find_cons_self]
    · intro m hm
      have : m ≠ "variables" := fun e => hm (e ▸ hR.scratch.1)
      rw [find_cons_ne _ _ this, e3 _ (hne hm), find_cons_ne _ _ (hne hm)]
    · rw [e5]
      constructor
      · rintro ⟨f, hf, hk, q', hq', hs⟩
        exact ⟨f, hf, hk, q', hq', (supplied_congr (find_cons_ne _ _ (hne (hpar f hf q' hq').1))).1 hs⟩
      · rintro ⟨f, hf, hk, q', hq', hs⟩
        exact ⟨f, hf, hk, q', hq', (supplied_congr (find_cons_ne _ _ (hne (hpar f hf q' hq').1))).2 hs⟩
  · rename_i he
    have he : v.name ∉ p.expandInputTypes := by simpa using he
    unfold plainEntry at h
    obtain ⟨q, r1, hq, h⟩ := Gen.bind_ok.1 h
    obtain ⟨s, r2, hs, h⟩ := Gen.bind_ok.1 h
    obtain ⟨rfl, rfl⟩ := Gen.pure_ok.1 h
    have hq : ParamOf c.env v.name q := (Gen.lift_ok.1 hq).1
    obtain ⟨hSq, x, hx⟩ := hR.plain v (List.mem_cons_self ..) he q hq
    have hex := entryStmt_exec (M := M) hs ht hx hR.unset.2 (fun hf => hM (.inl ⟨he, fun hr => by
      rw [requiredVar_iff.2 hr] at hf; cases hf⟩))
    by_cases hc : (v.isRequired || !x.is (unsetName c.env)) = true
    · rw [if_pos hc] at hex
      refine ⟨_, [(v.name, x)], by rw [execBody_cons hex]; rfl, by rw [putEntry_fresh hk, find_cons_self], ?_,
        .inl ⟨x, rfl, .inl ⟨he, q, hq, hx, ?_⟩⟩⟩
      · intro m hm
        exact find_cons_ne _ _ (fun e => hm (e ▸ hR.scratch.1))
      · rw [Bool.or_eq_true] at hc
        rcases hc with hc | hc
        · exact .inl (requiredVar_iff.1 hc)
        · exact .inr (by simpa using hc)
    · rw [if_neg hc] at hex
      refine ⟨L, [], by rw [execBody_cons hex]; rfl, by simpa using ht, fun _ _ => rfl, .inr ⟨rfl, ?_⟩⟩
      rintro y (⟨_, q', hq', hsup⟩ | ⟨he', _⟩)
      · have : q' = q := by
          unfold ParamOf at hq hq'; rw [hq] at hq'; cases hq'; rfl
        subst this
        have hy := hsup.1
        rw [hx] at hy
        cases hy
        apply hc
        rw [Bool.or_eq_true]
        rcases hsup.2 with h1 | h1
        · exact .inl (requiredVar_iff.2 h1)
        · exact .inr (by simp [h1])
      · exact he he'

/-- the statements of all variables -/
theorem variableEntries_exec {c : Ctx} {p : FuncsConfig} {S : String → Prop} : ∀ {vs : List VarDef} {L : Locals}
    {ss : List Stmt} {r r' : Reg} {kvs : List (String × PyVal)}, variableEntries c p vs r = .ok (ss, r') →
    Ready c p S L vs → ((∃ v ∈ vs, (v.name ∉ p.expandInputTypes ∧ ¬ RequiredVar v) ∨ (v.name ∈ p.expandInputTypes ∧
      ∃ fs, FieldsOfVar c.schema v fs ∧ ∃ g ∈ fs, ¬ RequiredField g)) → unsetName c.env ∈ M) → (vs.map (·.name)).Nodup → (∀ v ∈ vs, v.name ∉ kvs.map (·.1)) →
    L.find "variables" = some (.dict kvs) →
    ∃ L' sent, execBody M L ss = some (L', none) ∧ L'.find "variables" = some (.dict (kvs ++ sent)) ∧
      (∀ n, ¬ S n → L'.find n = L.find n) ∧ (sent.map (·.1)).Sublist (vs.map (·.name)) ∧
      (∀ k x, (k, x) ∈ sent → ∃ v ∈ vs, v.name = k ∧ SentAs c p L v x) ∧
      (∀ v ∈ vs, ∀ x, SentAs c p L v x → v.name ∈ sent.map (·.1)) := by
  intro vs
  induction vs with
  | nil =>
    intro L ss r r' kvs h _ _ _ _ ht
    unfold variableEntries at h
    obtain ⟨rfl, rfl⟩ := Gen.pure_ok.1 h
    exact ⟨L, [], rfl, by simpa using ht, fun _ _ => rfl, .slnil, by simp, by simp⟩
  | cons v vs ih =>
    intro L ss r r' kvs h hR hM hnd hfresh ht
    unfold variableEntries at h
    obtain ⟨a, r1, ha, h⟩ := Gen.bind_ok.1 h
    obtain ⟨b, r2, hb, h⟩ := Gen.bind_ok.1 h
    obtain ⟨rfl, rfl⟩ := Gen.pure_ok.1 h
    rw [List.map_cons, List.nodup_cons] at hnd
    obtain ⟨L1, s1, e1, e2, e3, e4⟩ := variableEntry_exec (M := M) ha hR
      (fun hx => hM ⟨v, List.mem_cons_self .., hx⟩) (hfresh v (List.mem_cons_self ..)) ht
    have hR1 : Ready c p S L1 vs := hR.tail.congr e3
    have hf1 : ∀ w ∈ vs, w.name ∉ (kvs ++ s1).map (·.1) := by
      intro w hw hmem
      rw [List.map_append, List.mem_append] at hmem
      rcases hmem with hm | hm
      · exact hfresh w (List.mem_cons_of_mem _ hw) hm
      · rcases e4 with ⟨x, rfl, _⟩ | ⟨rfl, _⟩
        · simp at hm
          exact hnd.1 (hm ▸ List.mem_map_of_mem hw)
        · simp at hm
    obtain ⟨L2, s2, f1, f2, f3, f4, f5, f6⟩ := ih hb hR1
      (fun ⟨w, hw, hx⟩ => hM ⟨w, List.mem_cons_of_mem _ hw, hx⟩) hnd.2 hf1 e2
    refine ⟨L2, s1 ++ s2, by rw [execBody_append e1]; exact f1, by rw [f2, List.append_assoc],
      fun n hn => by rw [f3 n hn, e3 n hn], ?_, ?_, ?_⟩
    · rw [List.map_append, List.map_cons]
      rcases e4 with ⟨x, rfl, _⟩ | ⟨rfl, _⟩
      · exact f4.cons_cons _
      · exact f4.cons _
    · intro k x hkx
      rcases List.mem_append.1 hkx with hkx | hkx
      · rcases e4 with ⟨y, rfl, hy⟩ | ⟨rfl, _⟩
        · simp only [List.mem_singleton, Prod.mk.injEq] at hkx
          obtain ⟨rfl, rfl⟩ := hkx
          exact ⟨v, List.mem_cons_self .., rfl, hy⟩
        · simp at hkx
      · obtain ⟨w, hw, hk, hs⟩ := f5 k x hkx
        exact ⟨w, List.mem_cons_of_mem _ hw, hk, (sentAs_congr hR.tail hw e3).1 hs⟩
    · intro w hw x hs
      rw [List.map_append, List.mem_append]
      rcases List.mem_cons.1 hw with rfl | hw
      · rcases e4 with ⟨y, rfl, hy⟩ | ⟨rfl, hno⟩
        · left; simp
        · exact (hno x hs).elim
      · right
        exact f6 w hw x ((sentAs_congr hR.tail hw e3).2 hs)

end Exec

/-! ## The parameters -/

/-- every keyword parameter has its value -/
def Params.Good (P : Params) : Prop := P.kw.length = P.values.length

/-- the parameter list contains `n`, with this default -/
def Params.Has (P : Params) (n : String) (d : Option Expr) : Prop :=
  (d = none ∧ n ∈ P.pos.map (·.arg)) ∨ ∃ e, d = some e ∧ (n, e) ∈ (P.kw.map (·.arg)).zip P.values

theorem Params.good_append {a b : Params} (ha : a.Good) (hb : b.Good) : (a.append b).Good := by
  unfold Params.Good at *
  simp [Params.append, ha, hb]

theorem Params.has_append {a b : Params} (ha : a.Good) (n : String) (d : Option Expr) :
    (a.append b).Has n d ↔ a.Has n d ∨ b.Has n d := by
  unfold Params.Good at ha
  unfold Params.Has Params.append
  simp only [List.map_append, List.mem_append]
  rw [List.zip_append (by simpa using ha)]
  simp only [List.mem_append]
  constructor
  · rintro (⟨h, h1 | h1⟩ | ⟨e, h, h1 | h1⟩)
    · exact .inl (.inl ⟨h, h1⟩)
    · exact .inr (.inl ⟨h, h1⟩)
    · exact .inl (.inr ⟨e, h, h1⟩)
    · exact .inr (.inr ⟨e, h, h1⟩)
  · rintro ((⟨h, h1⟩ | ⟨e, h, h1⟩) | (⟨h, h1⟩ | ⟨e, h, h1⟩))
    · exact .inl ⟨h, .inl h1⟩
    · exact .inr ⟨e, h, .inl h1⟩
    · exact .inl ⟨h, .inr h1⟩
    · exact .inr ⟨e, h, .inr h1⟩

theorem signature_params {P : Params} (h : P.Good) : signature (P.pos ++ P.kw) P.values =
    P.pos.map (fun a => (a.arg, none)) ++ (P.kw.map (·.arg)).zip (P.values.map some) := by
  unfold Params.Good at h
  unfold signature
  have hl : (P.pos ++ P.kw).length - P.values.length = P.pos.length := by simp [h]
  rw [hl, List.map_append, List.zip_append (by simp)]
  congr 1
  generalize P.pos = l
  induction l with
  | nil => rfl
  | cons a l ih => simp [List.replicate_succ, ih]

theorem mem_signature {P : Params} (h : P.Good) (n : String) (d : Option Expr) :
    (n, d) ∈ signature (P.pos ++ P.kw) P.values ↔ P.Has n d := by
  rw [signature_params h, List.mem_append]
  unfold Params.Has
  constructor
  · rintro (h1 | h1)
    · obtain ⟨a, ha, he⟩ := List.mem_map.1 h1
      cases he
      exact .inl ⟨rfl, List.mem_map_of_mem ha⟩
    · rw [List.zip_map_right] at h1
      obtain ⟨q, hq, he⟩ := List.mem_map.1 h1
      cases he
      exact .inr ⟨q.2, rfl, hq⟩
  · rintro (⟨rfl, h1⟩ | ⟨e, rfl, h1⟩)
    · left
      obtain ⟨a, ha, he⟩ := List.mem_map.1 h1
      exact List.mem_map.2 ⟨a, ha, by rw [he]⟩
    · right
      rw [List.zip_map_right]
      exact List.mem_map.2 ⟨(n, e), h1, rfl⟩

/-- a parameter list describes a set of (name, default) pairs -/
def Params.Is (P : Params) (Q : String → Option Expr → Prop) : Prop := P.Good ∧ ∀ n d, P.Has n d ↔ Q n d

theorem Params.Is.append {a b : Params} {Q R : String → Option Expr → Prop} (ha : a.Is Q) (hb : b.Is R) :
    (a.append b).Is fun n d => Q n d ∨ R n d :=
  ⟨Params.good_append ha.1 hb.1, fun n d => by rw [Params.has_append ha.1, ha.2, hb.2]⟩

theorem Params.Is.iff {a : Params} {Q R : String → Option Expr → Prop} (ha : a.Is Q)
    (h : ∀ n d, Q n d ↔ R n d) : a.Is R := ⟨ha.1, fun n d => (ha.2 n d).trans (h n d)⟩

theorem Params.is_empty : (Params.mk [] [] []).Is fun _ _ => False :=
  ⟨rfl, fun n d => by simp [Params.Has]⟩

theorem Params.is_pos (a : Arg) : (Params.mk [a] [] []).Is fun n d => n = a.arg ∧ d = none :=
  ⟨rfl, fun n d => by simp [Params.Has]; exact And.comm⟩

theorem Params.is_kw (a : Arg) (e : Expr) : (Params.mk [] [a] [e]).Is fun n d => n = a.arg ∧ d = some e :=
  ⟨rfl, fun n d => by
    simp only [Params.Has, List.map_nil, List.not_mem_nil, and_false, false_or, List.map_cons, List.zip_cons_cons,
      List.zip_nil_right, List.mem_singleton, Prod.mk.injEq]
    constructor
    · rintro ⟨e', rfl, rfl, rfl⟩; exact ⟨rfl, rfl⟩
    · rintro ⟨rfl, rfl⟩; exact ⟨e, rfl, rfl, rfl⟩⟩

section Params
variable {c : Ctx} {p : FuncsConfig}

theorem inputFieldParam_ok {co : Coercions} {f : InputFieldDef} {P : Params} {r r' : Reg}
    (h : inputFieldParam c co f r = .ok (P, r')) : P.Is fun n d => FieldParamOf c.env f.name n ∧
      ((RequiredField f ∧ d = none) ∨ (¬ RequiredField f ∧ d = some (.name (unsetName c.env)))) := by
  unfold inputFieldParam at h
  obtain ⟨q, r1, hq, h⟩ := Gen.bind_ok.1 h
  obtain ⟨a, r2, _, h⟩ := Gen.bind_ok.1 h
  have hq : FieldParamOf c.env f.name q := (Gen.lift_ok.1 hq).1
  have huniq : ∀ n, FieldParamOf c.env f.name n ↔ n = q := by
    intro n
    constructor
    · intro h; unfold FieldParamOf at h hq; rw [hq] at h; cases h; rfl
    · rintro rfl; exact hq
  split at h
  · rename_i hn
    have hn := requiredField_iff.1 hn
    obtain ⟨rfl, rfl⟩ := Gen.pure_ok.1 h
    exact (Params.is_pos _).iff fun n d => by simp [huniq, hn]
  · rename_i hn
    have hn : ¬ RequiredField f := fun h => hn (requiredField_iff.2 h)
    obtain ⟨u, r3, _, h⟩ := Gen.bind_ok.1 h
    obtain ⟨x, r4, hx, h⟩ := Gen.bind_ok.1 h
    obtain ⟨rfl, rfl⟩ := Gen.pure_ok.1 h
    rw [referenceUnset_ok hx]
    exact (Params.is_kw _ _).iff fun n d => by simp [huniq, hn]

theorem inputTypeParams_ok {co : Coercions} : ∀ {fs : List InputFieldDef} {P : Params} {r r' : Reg},
    inputTypeParams c co fs r = .ok (P, r') → P.Is fun n d => ∃ f ∈ fs, FieldParamOf c.env f.name n ∧
      ((RequiredField f ∧ d = none) ∨ (¬ RequiredField f ∧ d = some (.name (unsetName c.env)))) := by
  intro fs
  induction fs with
  | nil =>
    intro P r r' h
    unfold inputTypeParams at h
    obtain ⟨rfl, rfl⟩ := Gen.pure_ok.1 h
    exact Params.is_empty.iff fun n d => by simp
  | cons f fs ih =>
    intro P r r' h
    unfold inputTypeParams at h
    obtain ⟨a, r1, ha, h⟩ := Gen.bind_ok.1 h
    obtain ⟨b, r2, hb, h⟩ := Gen.bind_ok.1 h
    obtain ⟨rfl, rfl⟩ := Gen.pure_ok.1 h
    exact ((inputFieldParam_ok ha).append (ih hb)).iff fun n d => by simp

theorem extraArgParams_ok : ∀ {as : List ExtraArg} {P : Params} {r r' : Reg},
    extraArgParams as r = .ok (P, r') → P.Is fun n d => ∃ a ∈ as, n = a.key ∧ d = none := by
  intro as
  induction as with
  | nil =>
    intro P r r' h
    unfold extraArgParams at h
    obtain ⟨rfl, rfl⟩ := Gen.pure_ok.1 h
    exact Params.is_empty.iff fun n d => by simp
  | cons a as ih =>
    intro P r r' h
    unfold extraArgParams at h
    obtain ⟨_, r1, ha, h⟩ := Gen.bind_ok.1 h
    obtain ⟨b, r2, hb, h⟩ := Gen.bind_ok.1 h
    obtain ⟨rfl, rfl⟩ := Gen.pure_ok.1 h
    exact ((Params.is_pos _).append (ih hb)).iff fun n d => by simp

theorem extraKwargParams_ok : ∀ {ks : List ExtraKwarg} {P : Params} {r r' : Reg},
    extraKwargParams ks r = .ok (P, r') → P.Is fun n d => ∃ k ∈ ks, n = k.key ∧ d = some (.const k.default) := by
  intro ks
  induction ks with
  | nil =>
    intro P r r' h
    unfold extraKwargParams at h
    obtain ⟨rfl, rfl⟩ := Gen.pure_ok.1 h
    exact Params.is_empty.iff fun n d => by simp
  | cons k ks ih =>
    intro P r r' h
    unfold extraKwargParams at h
    obtain ⟨_, r1, ha, h⟩ := Gen.bind_ok.1 h
    obtain ⟨b, r2, hb, h⟩ := Gen.bind_ok.1 h
    obtain ⟨rfl, rfl⟩ := Gen.pure_ok.1 h
    exact ((Params.is_kw _ _).append (ih hb)).iff fun n d => by simp

theorem paramOf_unique {env : Env} {v q : String} (hq : ParamOf env v q) (n : String) :
    ParamOf env v n ↔ n = q := by
  constructor
  · intro h; unfold ParamOf at h hq; rw [hq] at h; cases h; rfl
  · rintro rfl; exact hq

theorem requiredParams_ok : ∀ {vs : List VarDef} {P : Params} {r r' : Reg},
    requiredParams c p vs r = .ok (P, r') → P.Is fun n d => ∃ v ∈ vs, ParamOf c.env v.name n ∧ d = none := by
  intro vs
  induction vs with
  | nil =>
    intro P r r' h
    unfold requiredParams at h
    obtain ⟨rfl, rfl⟩ := Gen.pure_ok.1 h
    exact Params.is_empty.iff fun n d => by simp
  | cons v vs ih =>
    intro P r r' h
    unfold requiredParams at h
    obtain ⟨q, r1, hq, h⟩ := Gen.bind_ok.1 h
    obtain ⟨a, r2, _, h⟩ := Gen.bind_ok.1 h
    obtain ⟨b, r3, hb, h⟩ := Gen.bind_ok.1 h
    obtain ⟨rfl, rfl⟩ := Gen.pure_ok.1 h
    have hq : ParamOf c.env v.name q := (Gen.lift_ok.1 hq).1
    exact ((Params.is_pos _).append (ih hb)).iff fun n d => by simp [paramOf_unique hq]

theorem optionalParams_ok : ∀ {vs : List VarDef} {P : Params} {r r' : Reg},
    optionalParams c p vs r = .ok (P, r') →
    P.Is fun n d => ∃ v ∈ vs, ParamOf c.env v.name n ∧ d = some (.name (unsetName c.env)) := by
  intro vs
  induction vs with
  | nil =>
    intro P r r' h
    unfold optionalParams at h
    obtain ⟨rfl, rfl⟩ := Gen.pure_ok.1 h
    exact Params.is_empty.iff fun n d => by simp
  | cons v vs ih =>
    intro P r r' h
    unfold optionalParams at h
    obtain ⟨q, r1, hq, h⟩ := Gen.bind_ok.1 h
    obtain ⟨a, r2, _, h⟩ := Gen.bind_ok.1 h
    obtain ⟨u, r3, _, h⟩ := Gen.bind_ok.1 h
    obtain ⟨x, r4, hx, h⟩ := Gen.bind_ok.1 h
    obtain ⟨b, r5, hb, h⟩ := Gen.bind_ok.1 h
    obtain ⟨rfl, rfl⟩ := Gen.pure_ok.1 h
    have hq : ParamOf c.env v.name q := (Gen.lift_ok.1 hq).1
    rw [referenceUnset_ok hx]
    exact ((Params.is_kw _ _).append (ih hb)).iff fun n d => by simp [paramOf_unique hq]

theorem fieldsOfVar_unique {s : Schema} {v : VarDef} {fs fs' : List InputFieldDef} (h : FieldsOfVar s v fs)
    (h' : FieldsOfVar s v fs') : fs' = fs := by
  obtain ⟨ds, h⟩ := h
  obtain ⟨ds', h'⟩ := h'
  rw [h] at h'
  cases h'
  rfl

theorem expandedParams_ok : ∀ {vs : List VarDef} {P : Params} {r r' : Reg},
    expandedParams c p vs r = .ok (P, r') → P.Is fun n d => ∃ v ∈ vs, v.name ∈ p.expandInputTypes ∧
      ∃ fs, FieldsOfVar c.schema v fs ∧ ∃ f ∈ fs, FieldParamOf c.env f.name n ∧
      ((RequiredField f ∧ d = none) ∨ (¬ RequiredField f ∧ d = some (.name (unsetName c.env)))) := by
  intro vs
  induction vs with
  | nil =>
    intro P r r' h
    unfold expandedParams at h
    obtain ⟨rfl, rfl⟩ := Gen.pure_ok.1 h
    exact Params.is_empty.iff fun n d => by simp
  | cons v vs ih =>
    intro P r r' h
    unfold expandedParams at h
    split at h
    · rename_i he
      have he : v.name ∈ p.expandInputTypes := by simpa using he
      obtain ⟨m, r1, hm, h⟩ := Gen.bind_ok.1 h
      obtain ⟨fs, r2, hfs, h⟩ := Gen.bind_ok.1 h
      obtain ⟨a, r3, ha, h⟩ := Gen.bind_ok.1 h
      obtain ⟨b, r4, hb, h⟩ := Gen.bind_ok.1 h
      obtain ⟨rfl, rfl⟩ := Gen.pure_ok.1 h
      obtain ⟨ds, hl⟩ := expandedFields_ok hfs
      rw [wrappedName_base hm] at hl
      have hfo : FieldsOfVar c.schema v fs := ⟨ds, hl⟩
      refine ((inputTypeParams_ok ha).append (ih hb)).iff fun n d => ?_
      constructor
      · rintro (h1 | ⟨w, hw, h1⟩)
        · exact ⟨v, List.mem_cons_self .., he, fs, hfo, h1⟩
        · exact ⟨w, List.mem_cons_of_mem _ hw, h1⟩
      · rintro ⟨w, hw, hwe, fs', hfs', h1⟩
        rcases List.mem_cons.1 hw with rfl | hw
        · rw [fieldsOfVar_unique hfo hfs'] at h1
          exact .inl h1
        · exact .inr ⟨w, hw, hwe, fs', hfs', h1⟩
    · rename_i he
      have he : v.name ∉ p.expandInputTypes := by simpa using he
      refine (ih h).iff fun n d => ?_
      constructor
      · rintro ⟨w, hw, h1⟩; exact ⟨w, List.mem_cons_of_mem _ hw, h1⟩
      · rintro ⟨w, hw, hwe, h1⟩
        rcases List.mem_cons.1 hw with rfl | hw
        · exact (he hwe).elim
        · exact ⟨w, hw, hwe, h1⟩

theorem generateParameters_ok {d : FuncDefinition} {o : OpDef} {P : Params} {r r' : Reg}
    (h : generateParameters c p d o r = .ok (P, r')) : P.Is (Intended c p d o) := by
  unfold generateParameters at h
  obtain ⟨a, r1, ha, h⟩ := Gen.bind_ok.1 h
  obtain ⟨b, r2, hb, h⟩ := Gen.bind_ok.1 h
  obtain ⟨e, r3, he, h⟩ := Gen.bind_ok.1 h
  obtain ⟨f, r4, hf, h⟩ := Gen.bind_ok.1 h
  obtain ⟨g, r5, hg, h⟩ := Gen.bind_ok.1 h
  obtain ⟨rfl, rfl⟩ := Gen.pure_ok.1 h
  refine (((((extraArgParams_ok ha).append (expandedParams_ok hb)).append (requiredParams_ok he)).append
    (optionalParams_ok hf)).append (extraKwargParams_ok hg)).iff fun n dflt => ?_
  constructor
  · rintro ((((⟨a, ha, rfl, rfl⟩ | ⟨v, hv, hx, fs, hfs, f, hf, hq, hd⟩) | ⟨v, hv, hq, rfl⟩) | ⟨v, hv, hq, rfl⟩) |
      ⟨k, hk, rfl, rfl⟩)
    · exact .extraArg ha
    · rw [List.mem_filter, requiredVar_iff] at hv
      rcases hd with ⟨hr, rfl⟩ | ⟨hr, rfl⟩
      · exact .field hv.1 hv.2 hx hfs hf hr hq
      · exact .optionalField hv.1 hv.2 hx hfs hf hr hq
    · rw [List.mem_filter, List.mem_filter, requiredVar_iff] at hv
      exact .variable_ hv.1.1 hv.1.2 (by simpa using hv.2) hq
    · rw [List.mem_filter] at hv
      exact .optionalVariable hv.1 (optionalVar_iff.1 (by simpa using hv.2)) hq
    · exact .extraKwarg hk
  · intro hi
    cases hi with
    | extraArg ha => exact .inl (.inl (.inl (.inl ⟨_, ha, rfl, rfl⟩)))
    | variable_ hv hr hx hq =>
      refine .inl (.inl (.inr ⟨_, ?_, hq, rfl⟩))
      rw [List.mem_filter, List.mem_filter, requiredVar_iff]
      exact ⟨⟨hv, hr⟩, by simpa using hx⟩
    | field hv hr hx hfs hf hrf hq =>
      refine .inl (.inl (.inl (.inr ⟨_, ?_, hx, _, hfs, _, hf, hq, .inl ⟨hrf, rfl⟩⟩)))
      rw [List.mem_filter, requiredVar_iff]; exact ⟨hv, hr⟩
    | optionalField hv hr hx hfs hf hrf hq =>
      refine .inl (.inl (.inl (.inr ⟨_, ?_, hx, _, hfs, _, hf, hq, .inr ⟨hrf, rfl⟩⟩)))
      rw [List.mem_filter, requiredVar_iff]; exact ⟨hv, hr⟩
    | optionalVariable hv hr hq =>
      refine .inl (.inr ⟨_, ?_, hq, rfl⟩)
      rw [List.mem_filter]; exact ⟨hv, by simpa using optionalVar_iff.2 hr⟩
    | extraKwarg hk => exact .inr ⟨_, hk, rfl, rfl⟩

end Params

/-! ## The final statement -/

theorem evalArgs_locals {M : List String} {L : Locals} : ∀ {ks : List String}, (∀ k ∈ ks, ∃ x, L.find k = some x) →
    ∃ xs, evalArgs M L (ks.map .name) = some xs ∧ xs.map some = ks.map L.find := by
  intro ks
  induction ks with
  | nil => intro _; exact ⟨[], rfl, rfl⟩
  | cons k ks ih =>
    intro h
    obtain ⟨x, hx⟩ := h k (List.mem_cons_self ..)
    obtain ⟨xs, h1, h2⟩ := ih fun k' hk => h k' (List.mem_cons_of_mem _ hk)
    exact ⟨x :: xs, by simp [evalArgs, eval_local hx, h1], by simp [hx, h2]⟩

theorem evalArgs_append {M : List String} {L : Locals} : ∀ {es fs : List Expr} {xs ys : List PyVal},
    evalArgs M L es = some xs → evalArgs M L fs = some ys → evalArgs M L (es ++ fs) = some (xs ++ ys) := by
  intro es
  induction es with
  | nil => intro fs xs ys h1 h2; simp only [evalArgs, Option.some.injEq] at h1; subst h1; exact h2
  | cons e es ih =>
    intro fs xs ys h1 h2
    simp only [evalArgs] at h1
    cases he : evalExpr M L e with
    | none => rw [he] at h1; simp at h1
    | some v =>
      cases hes : evalArgs M L es with
      | none => rw [he, hes] at h1; simp at h1
      | some vs =>
        rw [he, hes] at h1
        cases h1
        simp [evalArgs, he, ih hes h2]

theorem evalKwargs_locals {M : List String} {L : Locals} : ∀ {ks : List String},
    (∀ k ∈ ks, ∃ x, L.find k = some x) →
    ∃ xs, evalKwargs M L (ks.map fun k => (some k, .name k)) = some xs ∧ xs.map (·.1) = ks ∧
      xs.map (fun x => some x.2) = ks.map L.find := by
  intro ks
  induction ks with
  | nil => intro _; exact ⟨[], rfl, rfl, rfl⟩
  | cons k ks ih =>
    intro h
    obtain ⟨x, hx⟩ := h k (List.mem_cons_self ..)
    obtain ⟨xs, h1, h2, h3⟩ := ih fun k' hk => h k' (List.mem_cons_of_mem _ hk)
    exact ⟨(k, x) :: xs, by simp [evalKwargs, eval_local hx, h1], by simp [h2], by simp [hx, h3]⟩

theorem operationClassName_ok {c : Ctx} {o : OpDef} {cls : String} {r r' : Reg}
    (h : operationClassName c o r = .ok (cls, r')) : OperationClass c o cls := by
  unfold operationClassName at h
  cases hn : o.name with
  | none => rw [hn] at h; exact (Gen.fail_ok.1 h).elim
  | some n => rw [hn] at h; exact ⟨n, hn, (Gen.lift_ok.1 h).1⟩

theorem operationClass_unique {c : Ctx} {o : OpDef} {a b : String} (h1 : OperationClass c o a)
    (h2 : OperationClass c o b) : a = b := by
  obtain ⟨n, hn, ha⟩ := h1
  obtain ⟨m, hm, hb⟩ := h2
  rw [hn] at hm
  cases hm
  rw [ha] at hb
  cases hb
  rfl

theorem collapsedAttr_ok {c : Ctx} {o : OpDef} {collapse : Bool} {e y : Expr} {r r' : Reg}
    (h : collapsedAttr c o collapse e r = .ok (y, r')) (hc : collapse = true → o.sels.length = 1) :
    (collapse = false ∧ y = e) ∨ (collapse = true ∧ ∃ a, y = .attr e a ∧ OnlyAttribute c o a) := by
  unfold collapsedAttr at h
  cases collapse with
  | false =>
    obtain ⟨rfl, rfl⟩ := Gen.pure_ok.1 h
    exact .inl ⟨rfl, rfl⟩
  | true =>
    obtain ⟨f, r1, hf, h⟩ := Gen.bind_ok.1 h
    obtain ⟨a, r2, ha, h⟩ := Gen.bind_ok.1 h
    obtain ⟨rfl, rfl⟩ := Gen.pure_ok.1 h
    refine .inr ⟨rfl, a, rfl, ?_⟩
    unfold nodeName at ha
    replace ha := (Gen.lift_ok.1 ha).1
    unfold firstField at hf
    have hl := hc rfl
    cases hs : o.sels with
    | nil => rw [hs] at hl; cases hl
    | cons s ss =>
      rw [hs] at hf hl
      have : ss = [] := by
        cases ss with
        | nil => rfl
        | cons _ _ => simp at hl
      subst this
      cases s with
      | field n al as sub =>
        obtain ⟨rfl, rfl⟩ := Gen.pure_ok.1 hf
        exact ⟨n, al, as, sub, hs, ha⟩
      | _ => exact (Gen.fail_ok.1 hf).elim

theorem finalStmt_exec {c : Ctx} {p : FuncsConfig} {d : FuncDefinition} {o : OpDef} {collapse : Bool}
    {s : Stmt} {r r' : Reg} {M : List String} {L : Locals} {kvs : List (String × PyVal)} {cls : String}
    (h : finalStmt c p d o collapse r = .ok (s, r')) (hc : collapse = true → o.sels.length = 1)
    (hcls : OperationClass c o cls) (hv : L.find "variables" = some (.dict kvs))
    (ha : ∀ a ∈ p.argsFor d, ∃ x, L.find a.key = some x) (hk : ∀ k ∈ p.kwargsFor d, ∃ x, L.find k.key = some x)
    (h1 : L.find cls = none) (h2 : cls ∈ M) (h3 : L.find (lastComponent d.use) = none)
    (h4 : lastComponent d.use ∈ M) :
    ∃ xs ks attr, execStmt M L s = some (L, some ⟨⟨lastComponent d.use, xs ++ [.global cls, .dict kvs], ks⟩,
        d.isAsync, d.kind == .subscription, attr⟩) ∧
      xs.map some = (p.argsFor d).map (fun a => L.find a.key) ∧ ks.map (·.1) = (p.kwargsFor d).map (·.key) ∧
      ks.map (fun k => some k.2) = (p.kwargsFor d).map (fun k => L.find k.key) ∧
      ((collapse = false ∧ attr = none) ∨ (collapse = true ∧ ∃ a, attr = some a ∧ OnlyAttribute c o a)) := by
  unfold finalStmt at h
  obtain ⟨call, r1, hcall, h⟩ := Gen.bind_ok.1 h
  unfold proxyCall at hcall
  obtain ⟨_, r2, _, hcall⟩ := Gen.bind_ok.1 hcall
  obtain ⟨cls', r3, hcls', hcall⟩ := Gen.bind_ok.1 hcall
  obtain ⟨rfl, rfl⟩ := Gen.pure_ok.1 hcall
  have hcc := operationClass_unique hcls (operationClassName_ok hcls')
  subst hcc
  obtain ⟨xs, hx1, hx2⟩ := evalArgs_locals (M := M) (L := L) (ks := (p.argsFor d).map (·.key)) (by
    intro k hk'
    obtain ⟨a, ha', rfl⟩ := List.mem_map.1 hk'
    exact ha a ha')
  obtain ⟨ks, hk1, hk2, hk3⟩ := evalKwargs_locals (M := M) (L := L) (ks := (p.kwargsFor d).map (·.key)) (by
    intro k hk'
    obtain ⟨a, ha', rfl⟩ := List.mem_map.1 hk'
    exact hk a ha')
  have hargs := evalArgs_append (fs := [.name cls, .name "variables"]) (ys := [.global cls, .dict kvs]) hx1
    (by simp [evalArgs, eval_global h1 h2, eval_local hv])
  rw [List.map_map] at hargs hk1 hx2 hk3
  have hcall : evalCall M L (.call (.name (lastComponent d.use))
      ((p.argsFor d).map (fun a => .name a.key) ++ [.name cls, .name "variables"])
      ((p.kwargsFor d).map fun k => (some k.key, .name k.key))) =
      some ⟨lastComponent d.use, xs ++ [.global cls, .dict kvs], ks⟩ := by
    simp only [evalCall, eval_global h3 h4]
    have e1 : evalArgs M L ((p.argsFor d).map (fun a => .name a.key) ++ [.name cls, .name "variables"]) =
      some (xs ++ [.global cls, .dict kvs]) := hargs
    have e2 : evalKwargs M L ((p.kwargsFor d).map fun k => (some k.key, .name k.key)) = some ks := hk1
    rw [e1, e2]
  generalize hE : Expr.call (.name (lastComponent d.use))
      ((p.argsFor d).map (fun a => .name a.key) ++ [.name cls, .name "variables"])
      ((p.kwargsFor d).map fun k => (some k.key, .name k.key)) = E at hcall h
  split at h
  · rename_i hsub
    obtain ⟨y, r4, hy, h⟩ := Gen.bind_ok.1 h
    obtain ⟨rfl, rfl⟩ := Gen.pure_ok.1 h
    rcases collapsedAttr_ok hy hc with ⟨hcf, rfl⟩ | ⟨hct, a, rfl, hoa⟩
    · refine ⟨xs, ks, none, ?_, hx2, hk2, hk3, .inl ⟨hcf, rfl⟩⟩
      simp [execStmt, hcall, yieldAttr, hsub]
    · refine ⟨xs, ks, some a, ?_, hx2, hk2, hk3, .inr ⟨hct, a, rfl, hoa⟩⟩
      simp [execStmt, hcall, yieldAttr, hsub]
  · rename_i hsub
    obtain ⟨y, r4, hy, h⟩ := Gen.bind_ok.1 h
    obtain ⟨rfl, rfl⟩ := Gen.pure_ok.1 h
    have hsub : (d.kind == .subscription) = false := by simpa using hsub
    have haw : evalAwait M L (if d.isAsync then .await E else E) =
        some (d.isAsync, ⟨lastComponent d.use, xs ++ [.global cls, .dict kvs], ks⟩) := by
      cases d.isAsync with
      | true => simp [evalAwait, hcall]
      | false => subst hE; simp [evalAwait, hcall]
    rcases collapsedAttr_ok hy hc with ⟨hcf, rfl⟩ | ⟨hct, a, rfl, hoa⟩
    · refine ⟨xs, ks, none, ?_, hx2, hk2, hk3, .inl ⟨hcf, rfl⟩⟩
      have : evalResult M L (if d.isAsync then .await E else E) =
          (evalAwait M L (if d.isAsync then .await E else E)).map fun x => ⟨x.2, x.1, false, none⟩ := by
        subst hE
        cases d.isAsync <;> simp [evalResult]
      simp [execStmt, this, haw, hsub]
    · refine ⟨xs, ks, some a, ?_, hx2, hk2, hk3, .inr ⟨hct, a, rfl, hoa⟩⟩
      simp [execStmt, evalResult, haw, hsub]

/-! ## The function -/

theorem operationFunc_ok {c : Ctx} {p : FuncsConfig} {d : FuncDefinition} {o : OpDef} {f : Stmt} {r r' : Reg}
    (h : operationFunc c p d o r = .ok (f, r')) :
    ∃ ret doc assigns P final, ∃ cls, f = .funcDef d.isAsync (funcName p d (o.name.getD "")) (P.pos ++ P.kw) P.values
        (.expr doc :: (assigns ++ [final])) [] (some (functionReturns d ret)) ∧
      (∃ r2, returnAnnotation c o (p.collapseLonely && o.sels.length == 1) r = .ok (ret, r2)) ∧
      (∃ r1 r2, variableAssignments c p o r1 = .ok (assigns, r2)) ∧
      (∃ r1 r2, generateParameters c p d o r1 = .ok (P, r2)) ∧
      (∃ r1 r2, finalStmt c p d o (p.collapseLonely && o.sels.length == 1) r1 = .ok (final, r2)) ∧
      OperationClass c o cls := by
  unfold operationFunc at h
  obtain ⟨ret, r1, hret, h⟩ := Gen.bind_ok.1 h
  obtain ⟨doc, r2, hdoc, h⟩ := Gen.bind_ok.1 h
  obtain ⟨assigns, r3, has, h⟩ := Gen.bind_ok.1 h
  obtain ⟨_, r4, _, h⟩ := Gen.bind_ok.1 h
  obtain ⟨P, r5, hP, h⟩ := Gen.bind_ok.1 h
  obtain ⟨final, r6, hfin, h⟩ := Gen.bind_ok.1 h
  obtain ⟨rfl, rfl⟩ := Gen.pure_ok.1 h
  have hcls : ∃ cls, OperationClass c o cls := by
    unfold returnAnnotation at hret
    obtain ⟨cls, _, hcls, _⟩ := Gen.bind_ok.1 hret
    exact ⟨cls, operationClassName_ok hcls⟩
  obtain ⟨cls, hcls⟩ := hcls
  have hd : ∃ e, doc = .expr e := by
    unfold queryDoc at hdoc
    obtain ⟨_, _, _, hdoc⟩ := Gen.bind_ok.1 hdoc
    obtain ⟨_, _, _, hdoc⟩ := Gen.bind_ok.1 hdoc
    obtain ⟨_, _, _, hdoc⟩ := Gen.bind_ok.1 hdoc
    obtain ⟨_, _, _, hdoc⟩ := Gen.bind_ok.1 hdoc
    obtain ⟨_, _, _, hdoc⟩ := Gen.bind_ok.1 hdoc
    obtain ⟨_, _, _, hdoc⟩ := Gen.bind_ok.1 hdoc
    exact ⟨_, (Gen.pure_ok.1 hdoc).1.symm⟩
  obtain ⟨e, rfl⟩ := hd
  exact ⟨ret, e, assigns, P, final, cls, rfl, ⟨_, hret⟩, ⟨_, _, has⟩, ⟨_, _, hP⟩, ⟨_, _, hfin⟩, hcls⟩

theorem params_mem {P : Params} {n : String} {e : Option Expr} (h : P.Has n e) :
    n ∈ (P.pos ++ P.kw).map (·.arg) := by
  rw [List.map_append, List.mem_append]
  rcases h with ⟨_, h⟩ | ⟨x, _, h⟩
  · exact .inl h
  · exact .inr (List.of_mem_zip h).1

/-- calling the function -/
theorem operationFunc_faithful {c : Ctx} {p : FuncsConfig} {d : FuncDefinition} {o : OpDef} {f : Stmt} {r r' : Reg}
    (h : operationFunc c p d o r = .ok (f, r')) (hkind : d.kind = o.kind) (hnd : (o.vars.map (·.name)).Nodup)
    (hreq : ∀ v ∈ o.vars, v.name ∈ p.expandInputTypes → RequiredVar v ∧
      ∀ fs, FieldsOfVar c.schema v fs → (fs.map (·.name)).Nodup) : Faithful c p d o f := by
  obtain ⟨ret, doc, assigns, P, final, cls, rfl, _, ⟨_, _, has⟩, ⟨_, _, hP⟩, ⟨_, _, hfin⟩, hcls⟩ := operationFunc_ok h
  refine ⟨_, _, _, _, _, cls, rfl, hcls, ?_⟩
  intro M pos kw L hyg hu hc huse hb
  have hP := generateParameters_ok hP
  obtain ⟨_, hnames⟩ := bindCall_some hb
  have hint : ∀ {n e}, Intended c p d o n e → ¬ Scratch c p o n ∧ ∃ x, L.find n = some x := by
    intro n e hi
    have hm := params_mem ((hP.2 n e).2 hi)
    refine ⟨?_, find_some_of_mem (by rw [hnames]; exact hm)⟩
    obtain ⟨a, ha, rfl⟩ := List.mem_map.1 hm
    exact hyg.params a ha
  have hglob : ∀ g ∈ [unsetName c.env, cls, lastComponent d.use], L.find g = none ∧ ¬ Scratch c p o g := by
    intro g hg
    obtain ⟨h1, h2⟩ := hyg.globals g hg
    exact ⟨find_none.2 (by rw [hnames]; exact h1), h2⟩
  have hvars : Scratch c p o "variables" := .inl rfl
  unfold variableAssignments at has
  obtain ⟨dct, r1, hdct, has⟩ := Gen.bind_ok.1 has
  obtain ⟨ss, r2, hss, has⟩ := Gen.bind_ok.1 has
  obtain ⟨rfl, rfl⟩ := Gen.pure_ok.1 has
  have hR : Ready c p (Scratch c p o) L o.vars := by
    refine ⟨?_, ?_, ⟨hvars, ?_⟩, (hglob _ (by simp)).2, (hglob _ (by simp)).1⟩
    · intro v hv he q hq
      by_cases hr : RequiredVar v
      · exact hint (.variable_ hv hr he hq)
      · exact hint (.optionalVariable hv hr hq)
    · intro v hv he fs hfo
      refine ⟨(hreq v hv he).2 fs hfo, fun g hg q hq => ?_⟩
      by_cases hr : RequiredField g
      · exact hint (.field hv (hreq v hv he).1 he hfo hg hr hq)
      · exact hint (.optionalField hv (hreq v hv he).1 he hfo hg hr hq)
    · intro v hv he q hq
      exact .inr ⟨v, hv, he, q, hq, rfl⟩
  have hcong : ∀ n, ¬ Scratch c p o n → Locals.find (("variables", PyVal.dict []) :: L) n = L.find n := by
    intro n hn
    exact find_cons_ne _ _ (fun e => hn (e ▸ hvars))
  obtain ⟨L', sent, e1, e2, e3, e4, e5, e6⟩ := variableEntries_exec (M := M) (kvs := []) hss (hR.congr hcong) hu hnd
    (by simp) (find_cons_self ..)
  simp only [List.nil_append] at e2
  have hL' : ∀ n, ¬ Scratch c p o n → L'.find n = L.find n := fun n hn => by rw [e3 n hn, hcong n hn]
  have hal : ∀ {n e}, Intended c p d o n e → L'.find n = L.find n := fun hi => hL' _ (hint hi).1
  obtain ⟨xs, ks, attr, g1, g2, g3, g4, g5⟩ := finalStmt_exec (M := M) (L := L') (kvs := sent) (cls := cls) hfin
    (by intro h; simp at h; exact h.2) hcls e2
    (by
      intro a ha
      have hi : Intended c p d o a.key none := .extraArg ha
      obtain ⟨_, x, hx⟩ := hint hi
      exact ⟨x, by rw [hal hi]; exact hx⟩)
    (by
      intro a ha
      have hi : Intended c p d o a.key _ := .extraKwarg ha
      obtain ⟨_, x, hx⟩ := hint hi
      exact ⟨x, by rw [hal hi]; exact hx⟩)
    (by rw [hL' _ (hglob _ (by simp)).2]; exact (hglob _ (by simp)).1) hc
    (by rw [hL' _ (hglob _ (by simp)).2]; exact (hglob _ (by simp)).1) huse
  refine ⟨⟨⟨lastComponent d.use, xs ++ [.global cls, .dict sent], ks⟩, d.isAsync, d.kind == .subscription, attr⟩,
    ?_, ?_⟩
  · unfold callFunc
    dsimp only
    rw [hb]
    dsimp only
    rw [execBody_cons (L1 := L) (by simp [execStmt]), List.cons_append, execBody_cons (emptyDict_exec hdct),
      execBody_append e1]
    simp only [execBody, g1]
  · refine ⟨rfl, ⟨xs, sent, rfl, ?_, e4.nodup hnd, ?_, ?_⟩, ⟨g3, ?_⟩, rfl, ?_, ?_, ?_⟩
    · rw [g2]
      exact List.map_congr_left fun a ha => hal (.extraArg ha)
    · intro k x hkx
      obtain ⟨v, hv, hk, hs⟩ := e5 k x hkx
      exact ⟨v, hv, hk, (sentAs_congr hR hv hcong).1 hs⟩
    · rintro v hv ⟨x, hx⟩
      exact e6 v hv x ((sentAs_congr hR hv hcong).2 hx)
    · rw [g4]
      exact List.map_congr_left fun a ha => hal (.extraKwarg ha)
    · rw [hkind]; simp
    · intro h1 h2
      rcases g5 with ⟨hf, _⟩ | ⟨_, a, ha, hoa⟩
      · simp [h1, h2] at hf
      · exact ⟨a, ha, hoa⟩
    · intro h1
      rcases g5 with ⟨_, ha⟩ | ⟨ht, _⟩
      · exact ha
      · simp at ht
        rcases h1 with h1 | h1
        · simp [h1] at ht
        · exact (h1 ht.2).elim

theorem signature_pairwise {P : Params} (h : P.Good) :
    (signature (P.pos ++ P.kw) P.values).Pairwise (fun a b => a.2.isSome = true → b.2.isSome = true) := by
  rw [signature_params h, List.pairwise_append]
  refine ⟨?_, ?_, ?_⟩
  · rw [List.pairwise_map]
    exact List.pairwise_of_forall fun _ _ => by simp
  · refine List.Pairwise.imp_of_mem ?_ (List.pairwise_of_forall (R := fun _ _ => True) fun _ _ => trivial)
    intro a b _ hb _ _
    rw [List.zip_map_right] at hb
    obtain ⟨q, _, rfl⟩ := List.mem_map.1 hb
    rfl
  · intro a ha b hb
    obtain ⟨q, _, rfl⟩ := List.mem_map.1 ha
    simp

theorem operationFunc_signature {c : Ctx} {p : FuncsConfig} {d : FuncDefinition} {o : OpDef} {f : Stmt} {r r' : Reg}
    (h : operationFunc c p d o r = .ok (f, r')) : ValidSignature c p d o f := by
  obtain ⟨ret, doc, assigns, P, final, cls, rfl, _, _, ⟨_, _, hP⟩, _, _⟩ := operationFunc_ok h
  have hP := generateParameters_ok hP
  refine ⟨_, _, _, _, _, rfl, ?_, ?_, fun n e => by rw [mem_signature hP.1, hP.2]⟩
  · have := hP.1
    unfold Params.Good at this
    simp [this]
  · exact signature_pairwise hP.1

theorem forall₂_mem_imp {α β : Type} {R S : α → β → Prop} {as : List α} {bs : List β} (h : List.Forall₂ R as bs)
    (hi : ∀ a ∈ as, ∀ b, R a b → S a b) : List.Forall₂ S as bs := by
  induction h with
  | nil => exact .nil
  | cons h _ ih =>
    exact .cons (hi _ (List.mem_cons_self ..) _ h) (ih fun a ha => hi a (List.mem_cons_of_mem _ ha))

theorem mem_functionsFor {p : FuncsConfig} {doc : Document} {x : OpDef × FuncDefinition} :
    x ∈ functionsFor p doc ↔ x.1 ∈ operationsOf doc ∧ x.2 ∈ p.definitions ∧ x.2.kind = x.1.kind := by
  unfold functionsFor
  simp only [List.mem_flatMap, List.mem_map, List.mem_filter, beq_iff_eq]
  constructor
  · rintro ⟨o, ho, d, ⟨hd, hk⟩, rfl⟩; exact ⟨ho, hd, hk⟩
  · rintro ⟨ho, hd, hk⟩; exact ⟨x.1, ho, x.2, ⟨hd, hk⟩, rfl⟩

end Turms
