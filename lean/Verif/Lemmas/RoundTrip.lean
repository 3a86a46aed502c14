import Verif.Spec.RoundTrip
import Verif.Lemmas.StillWalk
import Verif.Lemmas.ObjectFields
import Verif.Lemmas.Funcs
import Verif.Lemmas.ScopePlugins

/-! # The class of an operation with one root field, and what is read from it -/

namespace Turms
open Spec

theorem fieldOf_isSome (t : String) (a : Expr) (w : Option Expr) : (fieldOf (.annAssign t a w)).isSome = true := by
  unfold fieldOf
  split
  · rfl
  · split <;> rfl
  · rfl
  · rename_i h1 h2 h3
    cases w with
    | none => exact (h1 _ _ rfl).elim
    | some e => exact (h3 _ _ _ rfl).elim

/-- what a single root field contributes to the class: its declaration and perhaps a docstring -/
theorem operationSels_only {c : Ctx} {root cls : String} {s : Sel} {x : List (List Stmt) × List Stmt} {r r' : Reg}
    (h : operationSels c root cls [s] r = .ok (x, r')) : ∃ n al as sub attr A v docs hasDefault, s = .field n al as sub ∧
      generateNodeName c.env.stylers (al.getD n) = .ok attr ∧ x.1 = [.annAssign attr A v :: docs] ∧
      (∀ st ∈ docs, fieldOf st = none) ∧ fieldOf (.annAssign attr A v) = some ⟨al.getD n, hasDefault, A⟩ ∧
      (hasDefault = true → defaultOf (.annAssign attr A v) = some (.const .none)) := by
  unfold operationSels at h
  obtain ⟨a, r1, ha, h⟩ := Gen.bind_ok.1 h
  obtain ⟨p, r2, hp, h⟩ := Gen.bind_ok.1 h
  obtain ⟨rfl, rfl⟩ := Gen.pure_ok.1 h
  unfold operationSels at hp
  obtain ⟨rfl, rfl⟩ := Gen.pure_ok.1 hp
  cases s with
  | field n al as sub =>
    unfold operationSel at ha
    obtain ⟨fd, r3, _, ha⟩ := Gen.bind_ok.1 ha
    unfold typeFieldNode typeField at ha
    obtain ⟨attr, r4, hattr, ha⟩ := Gen.bind_ok.1 ha
    obtain ⟨y, r5, _, ha⟩ := Gen.bind_ok.1 ha
    obtain ⟨st, r6, hst, ha⟩ := Gen.bind_ok.1 ha
    obtain ⟨rfl, rfl⟩ := Gen.pure_ok.1 ha
    unfold finishField at hst
    obtain ⟨A, r7, _, hst⟩ := Gen.bind_ok.1 hst
    obtain ⟨v, r8, hv, hst⟩ := Gen.bind_ok.1 hst
    obtain ⟨rfl, rfl⟩ := Gen.pure_ok.1 hst
    obtain ⟨_, h1, h2, _⟩ := objectFieldValue_ok hv A
    refine ⟨n, al, as, sub, attr, A, v, _, _, rfl, (Gen.lift_ok.1 hattr).1, rfl, ?_, h1, fun hd => ?_⟩
    · intro st hm
      split at hm
      · cases List.mem_singleton.1 hm; rfl
      · cases hm
    · rw [h2, if_neg (by intro hc; dsimp only at hd hc; rw [hc] at hd; cases hd)]
  | spread f => unfold operationSel at ha; exact (Gen.fail_ok.1 ha).elim
  | inline t sub => unfold operationSel at ha; exact (Gen.fail_ok.1 ha).elim

theorem argumentsClass_fields {c : Ctx} {p : OperationsConfig} {o : OpDef} {n : String} {ss : List Stmt} {r r' : Reg}
    (h : argumentsClass c p o n r = .ok (ss, r')) : ∀ st ∈ ss, fieldOf st = none := by
  unfold argumentsClass at h
  split at h
  · obtain ⟨_, _, _, h⟩ := Gen.bind_ok.1 h
    obtain ⟨_, _, _, h⟩ := Gen.bind_ok.1 h
    obtain ⟨_, _, _, h⟩ := Gen.bind_ok.1 h
    obtain ⟨rfl, _⟩ := Gen.pure_ok.1 h
    intro st hm
    cases List.mem_singleton.1 hm; rfl
  · obtain ⟨rfl, _⟩ := Gen.pure_ok.1 h
    intro st hm; cases hm

/-- the class of an operation with one root field has one field, read from the response key -/
theorem generateOperation_only {prep : List Char → List Char} {c : Ctx} {q : OperationsConfig} {o : OpDef}
    {ss : List Stmt} {r r' : Reg} (h : generateOperation prep c q o r = .ok (ss, r')) (hl : o.sels.length = 1) :
    ∃ n al as sub attr A v cls bs body hasDefault, o.sels = [.field n al as sub] ∧
      generateNodeName c.env.stylers (al.getD n) = .ok attr ∧ OperationClass c o cls ∧ .classDef cls bs body [] ∈ ss ∧
      (∀ e ∈ bs, ∃ b, e = .name (lastComponent b) ∧ (b ∈ c.config.objectBases ∨ b ∈ q.basesFor o.kind)) ∧
      .annAssign attr A v ∈ body ∧ (∀ st ∈ body, (fieldOf st).isSome = true → st = .annAssign attr A v) ∧
      fieldOf (.annAssign attr A v) = some ⟨al.getD n, hasDefault, A⟩ ∧
      (hasDefault = true → defaultOf (.annAssign attr A v) = some (.const .none)) := by
  unfold generateOperation at h
  cases hn : o.name with
  | none => rw [hn] at h; exact (Gen.fail_ok.1 h).elim
  | some n =>
  rw [hn] at h
  dsimp only at h
  obtain ⟨cls, r1, h1, h⟩ := Gen.bind_ok.1 h
  obtain ⟨_, hsty, rfl⟩ := generateClass_ok h1
  obtain ⟨bs, r2, h2, h⟩ := Gen.bind_ok.1 h
  obtain ⟨root, r3, h3, h⟩ := Gen.bind_ok.1 h
  obtain ⟨x, r4, h4, h⟩ := Gen.bind_ok.1 h
  obtain ⟨u, r5, h5, h⟩ := Gen.bind_ok.1 h
  obtain ⟨doc, r6, h6, h⟩ := Gen.bind_ok.1 h
  obtain ⟨args, r7, h7, h⟩ := Gen.bind_ok.1 h
  obtain ⟨rfl, rfl⟩ := Gen.pure_ok.1 h
  obtain ⟨s, hs⟩ : ∃ s, o.sels = [s] := by
    cases ho : o.sels with
    | nil => rw [ho] at hl; cases hl
    | cons s l =>
      cases l with
      | nil => exact ⟨s, rfl⟩
      | cons _ _ => rw [ho] at hl; simp at hl
  rw [hs] at h4
  obtain ⟨m, al, as, sub, attr, A, v, docs, dflt, rfl, hattr, hx, hdocs, hf, hd⟩ := operationSels_only h4
  refine ⟨m, al, as, sub, attr, A, v, cls, bs, _, dflt, hs, hattr, ⟨n, hn, hsty⟩,
    List.mem_append_right _ (List.mem_singleton.2 rfl), ?_, ?_, ?_, hf, hd⟩
  · unfold basesOrObject at h2
    obtain ⟨_, _, _, h2⟩ := Gen.bind_ok.1 h2
    obtain ⟨rfl, _⟩ := Gen.pure_ok.1 h2
    intro e he
    unfold baseNames at he
    obtain ⟨b, hb, rfl⟩ := List.mem_map.1 he
    refine ⟨b, rfl, ?_⟩
    split at hb
    · exact .inl hb
    · exact .inr hb
  · rw [hx]; simp
  · intro st hm hsome
    rw [hx] at hm
    simp only [List.flatten_cons, List.flatten_nil, List.append_nil, List.mem_cons, List.mem_append, List.not_mem_nil,
      or_false] at hm
    rcases hm with rfl | ((rfl | hm) | hm) | rfl
    · simp [operationDoc, fieldOf] at hsome
    · rfl
    · rw [hdocs st hm] at hsome; cases hsome
    · rw [argumentsClass_fields h7 st hm] at hsome; cases hsome
    · simp [operationMeta, fieldOf] at hsome

theorem generateOperations_mem {prep : List Char → List Char} {c : Ctx} {q : OperationsConfig} :
    ∀ {os : List OpDef} {ss : List Stmt} {r r' : Reg}, generateOperations prep c q os r = .ok (ss, r') → ∀ o ∈ os,
    ∃ s r1 r2, generateOperation prep c q o r1 = .ok (s, r2) ∧ ∀ st ∈ s, st ∈ ss := by
  intro os
  induction os with
  | nil => intro ss r r' _ o ho; cases ho
  | cons o os ih =>
    intro ss r r' h o' ho'
    unfold generateOperations at h
    obtain ⟨s, r1, h1, h⟩ := Gen.bind_ok.1 h
    obtain ⟨rest, r2, h2, h⟩ := Gen.bind_ok.1 h
    obtain ⟨rfl, rfl⟩ := Gen.pure_ok.1 h
    rcases List.mem_cons.1 ho' with rfl | ho'
    · exact ⟨s, _, _, h1, fun st hs => List.mem_append_left _ hs⟩
    · obtain ⟨s', a, b, hs, hm⟩ := ih h2 o' ho'
      exact ⟨s', a, b, hs, fun st h => List.mem_append_right _ (hm st h)⟩

/-- in a module with distinct names, the class of an operation with one root field declares that field and nothing else -/
theorem only_declared {prep : List Char → List Char} {c : Ctx} {q : OperationsConfig} {doc : Document} {ss T : List Stmt}
    {r r' : Reg} (h : operationsPlugin prep c q doc r = .ok (ss, r')) (hT : ∀ st ∈ ss, st ∈ T) (hu : UniqueClasses T)
    (hb : ∀ b, (ConfiguredBase c b ∨ ∃ k, b ∈ q.basesFor k) → ¬ IsClass T (lastComponent b)) {o : OpDef}
    (ho : o ∈ operationsOf doc) (hl : o.sels.length = 1) :
    ∃ n al as sub attr A v cls hasDefault, o.sels = [.field n al as sub] ∧ OnlyAttribute c o attr ∧
      OperationClass c o cls ∧ Declared T cls (.annAssign attr A v) ∧
      (∀ st, Declared T cls st → (fieldOf st).isSome = true → st = .annAssign attr A v) ∧
      fieldOf (.annAssign attr A v) = some ⟨al.getD n, hasDefault, A⟩ ∧
      (hasDefault = true → defaultOf (.annAssign attr A v) = some (.const .none)) := by
  obtain ⟨s, r1, r2, hs, hm⟩ := generateOperations_mem h o ho
  obtain ⟨n, al, as, sub, attr, A, v, cls, bs, body, dflt, h1, h2, h3, h4, h5, h6, h7, h8, h9⟩ := generateOperation_only hs hl
  refine ⟨n, al, as, sub, attr, A, v, cls, dflt, h1, ⟨n, al, as, sub, h1, h2⟩, h3, .own (hT _ (hm _ h4)) h6, ?_, h8, h9⟩
  intro st hd hsome
  cases hd with
  | own hc hst =>
    obtain ⟨_, rfl, _⟩ := hu _ _ _ _ _ _ _ hc (hT _ (hm _ h4))
    exact h7 st hst hsome
  | inherited hc hbm hd =>
    obtain ⟨rfl, _, _⟩ := hu _ _ _ _ _ _ _ hc (hT _ (hm _ h4))
    obtain ⟨b, e, hcb⟩ := h5 _ hbm
    cases e
    refine (hb b ?_ ?_).elim
    · exact hcb.elim (fun h => .inl (.inl h)) fun h => .inr ⟨_, h⟩
    · cases hd with
      | own hc _ => exact ⟨_, _, _, hc⟩
      | inherited hc _ _ => exact ⟨_, _, _, hc⟩

theorem onlyAttribute_unique {c : Ctx} {o : OpDef} {a b : String} (h : OnlyAttribute c o a) (h' : OnlyAttribute c o b) :
    a = b := by
  obtain ⟨n, al, as, sub, h1, h2⟩ := h
  obtain ⟨n', al', as', sub', h1', h2'⟩ := h'
  rw [h1] at h1'
  cases h1'
  rw [h2] at h2'
  cases h2'
  rfl

theorem takes_declared {T : List Stmt} {isa : String → Val → Prop} {n : String} {kvs : List (String × Val)}
    (h : Takes T isa (.name n) (.obj kvs)) (hc : IsClass T n) (hisa : ∀ v, ¬ isa n v) (ha : UniqueAliases T) :
    (∀ st f, Declared T n st → fieldOf st = some f → Val.entry kvs f.key = none → f.hasDefault = true) ∧
      ∀ st f x, Declared T n st → fieldOf st = some f → Val.entry kvs f.key = some x → Takes T isa f.ann x := by
  cases h with
  | «opaque» h => exact (hisa _ h).elim
  | model _ h1 h2 => exact ⟨h1, h2⟩
  | «alias» h _ => exact ((ha _ _ h).1 hc).elim

theorem mayAccept_defaults {T : List Stmt} {isa : String → Val → Prop} {n : String} {kvs : List (String × Val)}
    (h : MayAccept T isa (.name n) (.obj kvs)) (hc : IsClass T n) (ha : UniqueAliases T) :
    ∃ decl : String → Stmt, (∀ attr, HasAttr T n attr → Declared T n (decl attr) ∧ attrOf (decl attr) = some attr) ∧
      (∀ attr f, HasAttr T n attr → fieldOf (decl attr) = some f → Val.entry kvs f.key = none → f.hasDefault = true) := by
  cases h with
  | «opaque» h _ _ => exact (h hc).elim
  | model decl _ h1 h2 _ => exact ⟨decl, h1, h2⟩
  | «alias» h _ => exact ((ha _ _ h).1 hc).elim

end Turms
