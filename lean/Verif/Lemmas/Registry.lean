import Verif.Model.Registry
import Verif.Spec.Registry
import Verif.Lemmas.Basic
import Verif.Lemmas.Stylers

namespace Turms

theorem Gen.tag_ok {α : Type} {g : Gen α} {f : α → Ret} {r r' : Reg} {x : Ret}
    (h : g.tag f r = .ok (x, r')) : ∃ a, g r = .ok (a, r') ∧ x = f a := by
  unfold Gen.tag at h
  split at h
  · cases h
  · rename_i a r'' heq
    cases h
    exact ⟨a, heq, rfl⟩

theorem classMap_setClass (r : Reg) (k k' : Kind) (n c : String) :
    (r.setClass k n c).classMap k' = if k = k' then (r.classMap k').set n c else r.classMap k' := by
  cases k <;> cases k' <;> rfl

theorem generateClass_ok {env : Env} {k : Kind} {n c : String} {r r' : Reg}
    (h : generateClass env k n r = .ok (c, r')) :
    (r.classMap k).contains n = false ∧ k.style env n = .ok c ∧ r' = r.setClass k n c := by
  unfold generateClass at h
  split at h
  · cases h
  · rename_i hc
    split at h
    · cases h
    · rename_i cl hs
      cases h
      exact ⟨by simpa using hc, hs, rfl⟩

theorem classMap_addForward (r : Reg) (p : String) (k : Kind) :
    (r.addForward p).classMap k = r.classMap k := by
  cases k <;> rfl

/-- the three ways a reference can succeed -/
theorem reference_ok {env : Env} {k : Kind} {n p : String} {f : Bool} {r r' : Reg} {e : Expr}
    (h : reference env k n p f r = .ok (e, r')) :
    (∃ c s, e = .name c ∧ r' = r ∧ (r.classMap k).contains n = true ∧ k.style env n = .ok s ∧ p ≠ s ∧
        ((k = .input ∧ r.inputMap.get? n = some c) ∨ (k ≠ .input ∧ c = s)) ∧
        ¬ (k = .enum ∧ n ∈ builtinNames)) ∨
    (∃ c, e = .str c ∧ f = true ∧ k.style env n = .ok c ∧ r' = r.addForward p ∧
        ((r.classMap k).contains n = false ∨ p = c) ∧ ¬ (k = .enum ∧ n ∈ builtinNames)) ∨
    (k = .enum ∧ n ∈ builtinNames ∧ e = .str n ∧
        r' = { r.addForward p with builtins := setAdd r.builtins n }) := by
  have generic : ∀ k : Kind, k ≠ .input → k ≠ .enum → referenceGeneric env k n p f r = .ok (e, r') →
      (∃ c s, e = .name c ∧ r' = r ∧ (r.classMap k).contains n = true ∧ k.style env n = .ok s ∧ p ≠ s ∧
        ((k = .input ∧ r.inputMap.get? n = some c) ∨ (k ≠ .input ∧ c = s)) ∧
        ¬ (k = .enum ∧ n ∈ builtinNames)) ∨
      (∃ c, e = .str c ∧ f = true ∧ k.style env n = .ok c ∧ r' = r.addForward p ∧
        ((r.classMap k).contains n = false ∨ p = c) ∧ ¬ (k = .enum ∧ n ∈ builtinNames)) ∨
      (k = .enum ∧ n ∈ builtinNames ∧ e = .str n ∧
        r' = { r.addForward p with builtins := setAdd r.builtins n }) := by
    intro k hk hk2 h
    unfold referenceGeneric at h
    split at h
    · cases h
    · rename_i c hs
      split at h
      · rename_i hc
        split at h
        · cases h
        · rename_i hf
          cases h
          right; left
          refine ⟨c, rfl, by simpa using hf, hs, rfl, ?_, by simp [hk2]⟩
          simpa using hc
      · rename_i hc
        cases h
        left
        simp at hc
        exact ⟨c, c, rfl, rfl, hc.1, hs, hc.2, .inr ⟨hk, rfl⟩, by simp [hk2]⟩
  cases k with
  | input =>
    simp only [reference] at h
    unfold referenceInput at h
    split at h
    · cases h
    · rename_i c hs
      split at h
      · rename_i hc
        split at h
        · cases h
        · rename_i hf
          cases h
          right; left
          refine ⟨c, rfl, by simpa using hf, hs, rfl, ?_, by simp⟩
          simpa [Reg.classMap] using hc
      · rename_i hc
        simp at hc
        unfold Dict.get at h
        split at h
        · rename_i heq
          split at heq <;> cases heq
          rename_i heq
          cases h
        · rename_i c' heq
          split at heq
          · rename_i v hv
            cases heq
            cases h
            left
            exact ⟨_, c, rfl, rfl, hc.1, hs, hc.2, .inl ⟨rfl, hv⟩, by simp⟩
          · cases heq
  | enum =>
    simp only [reference] at h
    unfold referenceEnum at h
    split at h
    · rename_i hb
      cases h
      right; right
      exact ⟨rfl, by simpa using hb, rfl, rfl⟩
    · rename_i hb
      simp at hb
      split at h
      · cases h
      · rename_i c hs
        split at h
        · rename_i hc
          split at h
          · cases h
          · rename_i hf
            cases h
            right; left
            refine ⟨c, rfl, by simpa using hf, hs, rfl, ?_, by simp [hb]⟩
            simpa [Reg.classMap] using hc
        · rename_i hc
          cases h
          left
          simp at hc
          exact ⟨c, c, rfl, rfl, hc.1, hs, hc.2, .inr ⟨by simp, rfl⟩, by simp [hb]⟩
  | object => exact generic .object (by simp) (by simp) h
  | fragment => exact generic .fragment (by simp) (by simp) h
  | query => exact generic .query (by simp) (by simp) h
  | mutation => exact generic .mutation (by simp) (by simp) h
  | subscription => exact generic .subscription (by simp) (by simp) h

theorem marker_ok {o : Option String} {b l : String} {r r' : Reg} {e : Expr}
    (h : referenceMarker o b l r = .ok (e, r')) :
    (o.getD "" = "" ∧ e = .name l ∧ r' = { r with builtins := setAdd r.builtins b }) ∨
    (∃ d, o = some d ∧ d ≠ "" ∧ e = .name (lastComponent d) ∧
      registerImport d r = .ok ((), r')) := by
  unfold referenceMarker at h
  split at h
  · split at h
    · rename_i o ho
      subst ho
      simp [registerBuiltin] at h
      left; simp [h]
    · rename_i o ho
      split at h
      · cases h
      · rename_i r1 hr
        cases h
        right
        exact ⟨o, rfl, ho, rfl, hr⟩
  · simp [registerBuiltin] at h
    left; simp [h]

theorem registerImport_ok {d : String} {r r' : Reg} (h : registerImport d r = .ok ((), r')) :
    r' = if d ∈ neverImported then r else { r with imports := setAdd r.imports d } := by
  unfold registerImport at h
  split at h
  · rename_i hd; cases h; rw [if_pos (by simpa using hd)]
  · rename_i hd; cases h; rw [if_neg (by simpa using hd)]

theorem registerImport_frame {d : String} {r r' : Reg} (h : registerImport d r = .ok ((), r')) :
    (∀ k, r'.classMap k = r.classMap k) ∧ r'.forwardReferences = r.forwardReferences ∧
    r'.builtins = r.builtins ∧ r'.interfaceBaseclassMap = r.interfaceBaseclassMap := by
  rw [registerImport_ok h]
  split
  · simp
  · refine ⟨fun k => by cases k <;> rfl, rfl, rfl, rfl⟩

/-- Everything a successful call does to the observable parts of the registry. -/
theorem run_ok {env : Env} {op : Op} {r r' : Reg} {x : Ret} (h : op.run env r = .ok (x, r')) :
    (∀ k, r'.classMap k = r.classMap k ∨
      ∃ n c, op = .generate k n ∧ x = .cls c ∧ (r.classMap k).contains n = false ∧
        k.style env n = .ok c ∧ r'.classMap k = (r.classMap k).set n c) ∧
    (r'.forwardReferences = if isQuoted x then
      (match op.parent? with | some p => setAdd r.forwardReferences p | none => r.forwardReferences)
      else r.forwardReferences) ∧
    (r'.builtins = match op.builtin? env with | some b => setAdd r.builtins b | none => r.builtins) := by
  have marker : ∀ (o : Option String) (b l : String), (referenceMarker o b l).tag .expr r = .ok (x, r') →
      op.parent? = none → op.builtin? env = (if o.getD "" = "" then some b else none) →
      (∀ k, r'.classMap k = r.classMap k ∨
      ∃ n c, op = .generate k n ∧ x = .cls c ∧ (r.classMap k).contains n = false ∧
        k.style env n = .ok c ∧ r'.classMap k = (r.classMap k).set n c) ∧
    (r'.forwardReferences = if isQuoted x then
      (match op.parent? with | some p => setAdd r.forwardReferences p | none => r.forwardReferences)
      else r.forwardReferences) ∧
    (r'.builtins = match op.builtin? env with | some b => setAdd r.builtins b | none => r.builtins) := by
    intro o b l h hp hb
    obtain ⟨e, he, rfl⟩ := Gen.tag_ok h
    rcases marker_ok he with ⟨h1, rfl, rfl⟩ | ⟨d, h1, h2, rfl, h3⟩
    · simp [hp, hb, h1]
      intro k; cases k <;> rfl
    · have hfr := registerImport_frame h3
      simp [hp, hb, h1, h2, hfr]
  cases op with simp only [Op.run] at h
  | generate k n =>
    obtain ⟨c, hc, rfl⟩ := Gen.tag_ok h
    obtain ⟨h1, h2, rfl⟩ := generateClass_ok hc
    refine ⟨?_, ?_, ?_⟩
    · intro k'
      rw [classMap_setClass]
      by_cases hk : k = k'
      · subst hk
        right
        exact ⟨n, c, rfl, rfl, h1, h2, by simp⟩
      · left; simp [hk]
    · simp [isQuoted]; cases k <;> rfl
    · simp [Op.builtin?]; cases k <;> rfl
  | getClass k n =>
    obtain ⟨c, hc, rfl⟩ := Gen.tag_ok h
    unfold Turms.getClass at hc
    split at hc <;> cases hc
    simp [isQuoted, Op.builtin?]
  | reference k n p f =>
    obtain ⟨e, he, rfl⟩ := Gen.tag_ok h
    rcases reference_ok he with ⟨c, s, rfl, rfl, _, _, _, _, hnb⟩ | ⟨c, rfl, _, _, rfl, _, hnb⟩ | ⟨rfl, h2, rfl, rfl⟩
    · refine ⟨fun k' => .inl rfl, by simp [isQuoted], ?_⟩
      cases k <;> simp [Op.builtin?]
      rename_i hq
      simp at hnb
      simp [hnb]
    · refine ⟨fun k' => .inl (classMap_addForward _ _ _), by simp [isQuoted, Op.parent?, Reg.addForward, Expr.str], ?_⟩
      cases k <;> simp [Op.builtin?, Reg.addForward]
      simp at hnb
      simp [hnb]
    · refine ⟨fun k' => .inl (by cases k' <;> rfl), by simp [isQuoted, Op.parent?, Reg.addForward, Expr.str], ?_⟩
      simp [Op.builtin?, h2]
  | generateInterface n b =>
    obtain ⟨c, hc, rfl⟩ := Gen.tag_ok h
    unfold Turms.generateInterface at hc
    split at hc
    · cases hc
    · split at hc <;> cases hc
      refine ⟨fun k' => .inl (by cases k' <;> rfl), by simp [isQuoted], by simp [Op.builtin?]⟩
  | inheritInterface n =>
    obtain ⟨c, hc, rfl⟩ := Gen.tag_ok h
    unfold Turms.inheritInterface at hc
    split at hc <;> cases hc
    simp [isQuoted, Op.builtin?]
  | referenceInterface n p =>
    obtain ⟨c, hc, rfl⟩ := Gen.tag_ok h
    unfold Turms.referenceInterface at hc
    split at hc <;> cases hc
    refine ⟨fun k' => .inl (classMap_addForward _ _ _), by simp [isQuoted, Op.parent?, Reg.addForward, Expr.str],
      by simp [Op.builtin?, Reg.addForward]⟩
  | inheritFragment n =>
    obtain ⟨c, hc, rfl⟩ := Gen.tag_ok h
    unfold Turms.inheritFragment at hc
    split at hc <;> cases hc
    simp [isQuoted, Op.builtin?]
  | registerImport n =>
    obtain ⟨c, hc, rfl⟩ := Gen.tag_ok h
    have hfr := registerImport_frame hc
    simp [isQuoted, Op.builtin?, hfr]
  | referenceUnset => exact marker _ _ _ h rfl rfl
  | referenceUnsetType => exact marker _ _ _ h rfl rfl
  | referenceGraphqlDefault => exact marker _ _ _ h rfl rfl
  | referenceDeprecated => exact marker _ _ _ h rfl rfl
  | registerScalar a b =>
    obtain ⟨c, hc, rfl⟩ := Gen.tag_ok h
    unfold Turms.registerScalar at hc
    cases hc
    refine ⟨fun k' => .inl (by cases k' <;> rfl), by simp [isQuoted], by simp [Op.builtin?]⟩
  | referenceScalar a =>
    obtain ⟨c, hc, rfl⟩ := Gen.tag_ok h
    unfold Turms.referenceScalar at hc
    split at hc
    · cases hc
    · split at hc
      · split at hc
        · cases hc
        · rename_i r1 hr
          cases hc
          have hfr := registerImport_frame hr
          simp [isQuoted, Op.builtin?, hfr]
      · cases hc
        simp [isQuoted, Op.builtin?]
  | registerFragmentDocument t d =>
    obtain ⟨c, hc, rfl⟩ := Gen.tag_ok h
    unfold Turms.registerFragmentDocument at hc
    split at hc <;> cases hc
    refine ⟨fun k' => .inl (by cases k' <;> rfl), by simp [isQuoted], by simp [Op.builtin?]⟩

theorem stateAfter_snoc (env : Env) (ops : List Op) (op : Op) :
    stateAfter env (ops ++ [op]) = op.step env (stateAfter env ops) := by
  simp [stateAfter]

theorem traceFrom_snoc (env : Env) (r : Reg) (ops : List Op) (op : Op) :
    traceFrom env r (ops ++ [op]) =
      traceFrom env r ops ++ [(op, op.outcome env (ops.foldl (Op.step env) r))] := by
  induction ops generalizing r with
  | nil => rfl
  | cons o ops ih => simp [traceFrom, ih]

theorem trace_snoc (env : Env) (ops : List Op) (op : Op) :
    trace env (ops ++ [op]) = trace env ops ++ [(op, op.outcome env (stateAfter env ops))] :=
  traceFrom_snoc env _ ops op

theorem trace_append_prefix (env : Env) (a b : List Op) : ∃ t, trace env (a ++ b) = trace env a ++ t := by
  induction b generalizing a with
  | nil => exact ⟨[], by simp⟩
  | cons o b ih =>
    obtain ⟨t, ht⟩ := ih (a ++ [o])
    rw [trace_snoc] at ht
    exact ⟨_, by simpa using ht⟩

theorem list_snoc_induction {α : Type} {P : List α → Prop} (l : List α) (h0 : P [])
    (h1 : ∀ l a, P l → P (l ++ [a])) : P l := by
  have : ∀ n, ∀ l : List α, l.length = n → P l := by
    intro n
    induction n with
    | zero => intro l hl; rw [List.length_eq_zero_iff.1 hl]; exact h0
    | succ n ih =>
      intro l hl
      have hne : l ≠ [] := by intro e; subst e; simp at hl
      rw [← List.dropLast_concat_getLast hne]
      apply h1
      apply ih
      simp [hl]
  exact this _ l rfl

theorem mem_trace_iff {env : Env} {ops : List Op} {op : Op} {o : Except Err Ret} :
    (op, o) ∈ trace env ops ↔
      ∃ pre post, ops = pre ++ op :: post ∧ o = op.outcome env (stateAfter env pre) := by
  constructor
  · induction ops using list_snoc_induction with
    | h0 => intro h; simp [trace, traceFrom] at h
    | h1 ops a ih =>
      intro h
      rw [trace_snoc, List.mem_append] at h
      rcases h with h | h
      · obtain ⟨pre, post, e, ho⟩ := ih h
        exact ⟨pre, post ++ [a], by simp [e], ho⟩
      · simp at h
        exact ⟨ops, [], by simp [h], by simp [h]⟩
  · rintro ⟨pre, post, rfl, rfl⟩
    have : pre ++ op :: post = (pre ++ [op]) ++ post := by simp
    rw [this]
    obtain ⟨t, ht⟩ := trace_append_prefix env (pre ++ [op]) post
    rw [ht, trace_snoc]
    simp

/-- Class maps record exactly the successful registrations of the history, and hold styled names. -/
theorem classMap_trace (env : Env) (ops : List Op) (k : Kind) (n c : String) :
    ((stateAfter env ops).classMap k).get? n = some c ↔ (Op.generate k n, .ok (.cls c)) ∈ trace env ops := by
  induction ops using list_snoc_induction generalizing n c with
  | h0 => simp [stateAfter, trace, traceFrom]; cases k <;> simp [Reg.init, Reg.classMap]
  | h1 ops op ih =>
    rw [stateAfter_snoc, trace_snoc, List.mem_append, ← ih]
    simp only [Op.step, Op.outcome, List.mem_singleton, Prod.mk.injEq]
    cases hrun : op.run env (stateAfter env ops) with
    | error e => simp
    | ok xr =>
      obtain ⟨x, r'⟩ := xr
      simp only [Except.ok.injEq]
      rcases (run_ok hrun).1 k with h | ⟨n', c', rfl, rfl, hc, hs, h⟩
      · rw [h]
        constructor
        · exact .inl
        · rintro (h' | ⟨rfl, rfl⟩)
          · exact h'
          · obtain ⟨c2, hc2, hx⟩ := Gen.tag_ok hrun
            cases hx
            obtain ⟨_, _, rfl⟩ := generateClass_ok hc2
            rw [classMap_setClass] at h
            simp only [if_true] at h
            rw [← h, Dict.get?_set_self]
      · rw [h, Dict.get?_set]
        by_cases hn : n' = n
        · subst hn
          have : ((stateAfter env ops).classMap k).get? n' = none := by
            rw [Dict.contains_eq_isSome] at hc
            simpa using hc
          simp [this, eq_comm]
        · simp [hn]
          intro e; exact absurd e.symm hn

theorem classMap_styled (env : Env) (ops : List Op) (k : Kind) (n c : String)
    (h : ((stateAfter env ops).classMap k).get? n = some c) : k.style env n = .ok c := by
  rw [classMap_trace] at h
  obtain ⟨pre, post, _, ho⟩ := mem_trace_iff.1 h
  unfold Op.outcome at ho
  split at ho
  · rename_i x r' heq
    cases ho
    obtain ⟨c2, hc2, hx⟩ := Gen.tag_ok heq
    cases hx
    exact (generateClass_ok hc2).2.1
  · cases ho

theorem forward_trace (env : Env) (ops : List Op) (p : String) :
    p ∈ (stateAfter env ops).forwardReferences ↔
      ∃ op x, (op, .ok x) ∈ trace env ops ∧ op.parent? = some p ∧ isQuoted x = true := by
  induction ops using list_snoc_induction with
  | h0 => simp [stateAfter, trace, traceFrom, Reg.init]
  | h1 ops op ih =>
    have key : p ∈ (op.step env (stateAfter env ops)).forwardReferences ↔
        p ∈ (stateAfter env ops).forwardReferences ∨
          ∃ x, op.outcome env (stateAfter env ops) = .ok x ∧ op.parent? = some p ∧ isQuoted x = true := by
      unfold Op.step Op.outcome
      cases hrun : op.run env (stateAfter env ops) with
      | error e => simp
      | ok xr =>
        obtain ⟨x, r'⟩ := xr
        simp only
        rw [(run_ok hrun).2.1]
        by_cases hq : isQuoted x = true
        · simp only [hq, if_true]
          cases hp : op.parent? with
          | none => simp
          | some q =>
            rw [mem_setAdd]
            constructor
            · rintro (h | h)
              · exact .inl h
              · exact .inr ⟨x, rfl, by rw [h], hq⟩
            · rintro (h | ⟨y, _, h, _⟩)
              · exact .inl h
              · exact .inr (by simpa using h.symm)
        · simp [hq]
    rw [stateAfter_snoc, key, ih, trace_snoc]
    constructor
    · rintro (⟨o, x, h1, h2⟩ | ⟨x, h1, h2⟩)
      · exact ⟨o, x, by simp [h1], h2⟩
      · exact ⟨op, x, by simp [h1], h2⟩
    · rintro ⟨o, x, h1, h2⟩
      rw [List.mem_append] at h1
      rcases h1 with h1 | h1
      · exact .inl ⟨o, x, h1, h2⟩
      · simp at h1
        obtain ⟨rfl, h1⟩ := h1
        exact .inr ⟨x, h1.symm, h2⟩

theorem forward_nodup (env : Env) (ops : List Op) : (stateAfter env ops).forwardReferences.Nodup := by
  induction ops using list_snoc_induction with
  | h0 => simp [stateAfter, Reg.init]
  | h1 ops op ih =>
    rw [stateAfter_snoc]
    unfold Op.step
    cases hrun : op.run env (stateAfter env ops) with
    | error e => exact ih
    | ok xr =>
      obtain ⟨x, r'⟩ := xr
      simp only
      rw [(run_ok hrun).2.1]
      split
      · split
        · exact nodup_setAdd _ _ ih
        · exact ih
      · exact ih

theorem builtins_trace (env : Env) (ops : List Op) (b : String) :
    b ∈ (stateAfter env ops).builtins ↔
      ∃ op x, (op, .ok x) ∈ trace env ops ∧ op.builtin? env = some b := by
  induction ops using list_snoc_induction with
  | h0 => simp [stateAfter, trace, traceFrom, Reg.init]
  | h1 ops op ih =>
    have key : b ∈ (op.step env (stateAfter env ops)).builtins ↔
        b ∈ (stateAfter env ops).builtins ∨
          ∃ x, op.outcome env (stateAfter env ops) = .ok x ∧ op.builtin? env = some b := by
      unfold Op.step Op.outcome
      cases hrun : op.run env (stateAfter env ops) with
      | error e => simp
      | ok xr =>
        obtain ⟨x, r'⟩ := xr
        simp only
        rw [(run_ok hrun).2.2]
        cases hp : op.builtin? env with
        | none => simp
        | some q => rw [mem_setAdd]; simp [eq_comm]
    rw [stateAfter_snoc, key, ih, trace_snoc]
    constructor
    · rintro (⟨o, x, h1, h2⟩ | ⟨x, h1, h2⟩)
      · exact ⟨o, x, by simp [h1], h2⟩
      · exact ⟨op, x, by simp [h1], h2⟩
    · rintro ⟨o, x, h1, h2⟩
      rw [List.mem_append] at h1
      rcases h1 with h1 | h1
      · exact .inl ⟨o, x, h1, h2⟩
      · simp at h1
        obtain ⟨rfl, h1⟩ := h1
        exact .inr ⟨x, h1.symm, h2⟩

theorem builtins_nodup (env : Env) (ops : List Op) : (stateAfter env ops).builtins.Nodup := by
  induction ops using list_snoc_induction with
  | h0 => simp [stateAfter, Reg.init]
  | h1 ops op ih =>
    rw [stateAfter_snoc]
    unfold Op.step
    cases hrun : op.run env (stateAfter env ops) with
    | error e => exact ih
    | ok xr =>
      obtain ⟨x, r'⟩ := xr
      simp only
      rw [(run_ok hrun).2.2]
      split
      · exact nodup_setAdd _ _ ih
      · exact ih

end Turms
