import Verif.Lemmas.Referencer
import Verif.Lemmas.Fragments

/-! # C43: the reference analysis -/

namespace Turms.Props
open Turms Spec

/-! ## the definitions looked at -/

theorem mem_set_iff {α : Type} {d : Dict α} (hd : d.keys.Nodup) (k k' : String) (v v' : α) :
    (k, v) ∈ d.set k' v' ↔ (k = k' ∧ v = v') ∨ (k ≠ k' ∧ (k, v) ∈ d) := by
  induction d with
  | nil => simp [Dict.set]
  | cons p d ih =>
    obtain ⟨a, b⟩ := p
    simp only [Dict.keys, List.map_cons, List.nodup_cons] at hd
    unfold Dict.set
    by_cases ha : a = k'
    · subst ha
      rw [if_pos rfl]
      simp only [List.mem_cons, Prod.mk.injEq]
      constructor
      · rintro (h | h)
        · exact .inl h
        · refine .inr ⟨?_, .inr h⟩
          rintro rfl
          exact hd.1 (List.mem_map.2 ⟨_, h, rfl⟩)
      · rintro (h | ⟨h, h' | h'⟩)
        · exact .inl h
        · exact absurd h'.1 h
        · exact .inr h'
    · rw [if_neg ha]
      simp only [List.mem_cons, Prod.mk.injEq, ih hd.2]
      constructor
      · rintro (⟨rfl, rfl⟩ | h | ⟨h, h'⟩)
        · exact .inr ⟨ha, .inl ⟨rfl, rfl⟩⟩
        · exact .inl h
        · exact .inr ⟨h, .inr h'⟩
      · rintro (h | ⟨h, h' | h'⟩)
        · exact .inr (.inl h)
        · exact .inl h'
        · exact .inr (.inr ⟨h, h'⟩)

theorem current_cons_fragment {x : Defn} {doc : Document} {f : FragDef} : Current (x :: doc) (.fragment f) ↔
    Current doc (.fragment f) ∨ (x = .fragment f ∧ ∀ f', Defn.fragment f' ∈ doc → f'.name ≠ f.name) := by
  constructor
  · intro h
    cases h with
    | @fragment before after _ h1 h2 =>
      cases before with
      | nil => cases h1; exact .inr ⟨rfl, h2⟩
      | cons y before => cases h1; exact .inl (.fragment rfl h2)
  · rintro (h | ⟨rfl, h⟩)
    · cases h with
      | @fragment before after _ h1 h2 => exact .fragment (before := x :: before) (by rw [h1]; rfl) h2
    · exact .fragment (before := []) rfl h

theorem current_cons_operation {x : Defn} {doc : Document} {o : OpDef} : Current (x :: doc) (.operation o) ↔
    Current doc (.operation o) ∨ (x = .operation o ∧ ∀ o', Defn.operation o' ∈ doc → o'.name ≠ o.name) := by
  constructor
  · intro h
    cases h with
    | @operation before after _ h1 h2 =>
      cases before with
      | nil => cases h1; exact .inr ⟨rfl, h2⟩
      | cons y before => cases h1; exact .inl (.operation rfl h2)
  · rintro (h | ⟨rfl, h⟩)
    · cases h with
      | @operation before after _ h1 h2 => exact .operation (before := x :: before) (by rw [h1]; rfl) h2
    · exact .operation (before := []) rfl h

theorem current_mem {doc : Document} {x : Defn} (h : Current doc x) : x ∈ doc := by
  cases h with
  | operation h1 => rw [h1]; simp
  | fragment h1 => rw [h1]; simp

theorem mem_fragmentDefinitions (doc : Document) (d : Dict FragDef) (hd : d.keys.Nodup) (k : String) (f : FragDef) :
    (k, f) ∈ Fragments.fragmentDefinitions doc d ↔ (Current doc (.fragment f) ∧ k = f.name) ∨
      ((k, f) ∈ d ∧ ∀ f', Defn.fragment f' ∈ doc → f'.name ≠ k) := by
  induction doc generalizing d with
  | nil =>
    simp only [Fragments.fragmentDefinitions, List.not_mem_nil, false_imp_iff, implies_true, and_true]
    constructor
    · exact .inr
    · rintro (⟨h, -⟩ | h)
      · exact absurd (current_mem h) (by simp)
      · exact h
  | cons x doc ih =>
    cases x with
    | operation o =>
      unfold Fragments.fragmentDefinitions
      rw [ih d hd, current_cons_fragment]
      simp
    | fragment g =>
      unfold Fragments.fragmentDefinitions
      rw [ih _ (Dict.nodup_keys_set _ _ _ hd), mem_set_iff hd, current_cons_fragment]
      constructor
      · rintro (⟨h1, h2⟩ | ⟨⟨rfl, rfl⟩ | ⟨h1, h2⟩, h3⟩)
        · exact .inl ⟨.inl h1, h2⟩
        · exact .inl ⟨.inr ⟨rfl, h3⟩, rfl⟩
        · refine .inr ⟨h2, fun f' hf' => ?_⟩
          rcases List.mem_cons.1 hf' with h | h
          · cases h; exact fun e => h1 e.symm
          · exact h3 f' h
      · rintro (⟨h1 | ⟨h1, h2⟩, h3⟩ | ⟨h1, h2⟩)
        · exact .inl ⟨h1, h3⟩
        · cases h1; exact .inr ⟨.inl ⟨h3, rfl⟩, fun f' hf' => by rw [h3]; exact h2 f' hf'⟩
        · exact .inr ⟨.inr ⟨fun e => h2 g (by simp) e.symm, h1⟩, fun f' hf' => h2 f' (by simp [hf'])⟩

theorem operationDefinitions_ok (doc : Document) (d : Dict OpDef) (hn : ∀ o, Defn.operation o ∈ doc → o.name ≠ none) :
    ∃ ops, operationDefinitions doc d = .ok ops := by
  induction doc generalizing d with
  | nil => exact ⟨_, rfl⟩
  | cons x doc ih =>
    have ih := fun d => ih d (fun o ho => hn o (by simp [ho]))
    cases x with
    | fragment f => exact ih d
    | operation o =>
      unfold operationDefinitions
      cases h : o.name with
      | none => exact absurd h (hn o (by simp))
      | some n => exact ih _

theorem mem_operationDefinitions (doc : Document) (d : Dict OpDef) (hd : d.keys.Nodup) (ops : Dict OpDef)
    (h : operationDefinitions doc d = .ok ops) (k : String) (o : OpDef) :
    (k, o) ∈ ops ↔ (Current doc (.operation o) ∧ o.name = some k) ∨
      ((k, o) ∈ d ∧ ∀ o', Defn.operation o' ∈ doc → o'.name ≠ some k) := by
  induction doc generalizing d with
  | nil =>
    cases h
    simp only [List.not_mem_nil, false_imp_iff, implies_true, and_true]
    constructor
    · exact .inr
    · rintro (⟨h, -⟩ | h)
      · exact absurd (current_mem h) (by simp)
      · exact h
  | cons x doc ih =>
    cases x with
    | fragment g =>
      unfold operationDefinitions at h
      rw [ih d hd h, current_cons_operation]
      simp
    | operation g =>
      unfold operationDefinitions at h
      cases hg : g.name with
      | none => rw [hg] at h; cases h
      | some n =>
        rw [hg] at h
        rw [ih _ (Dict.nodup_keys_set _ _ _ hd) h, mem_set_iff hd, current_cons_operation]
        constructor
        · rintro (⟨h1, h2⟩ | ⟨⟨rfl, rfl⟩ | ⟨h1, h2⟩, h3⟩)
          · exact .inl ⟨.inl h1, h2⟩
          · exact .inl ⟨.inr ⟨rfl, by rw [hg]; exact h3⟩, hg⟩
          · refine .inr ⟨h2, fun f' hf' => ?_⟩
            rcases List.mem_cons.1 hf' with h | h
            · cases h; rw [hg]; exact fun e => h1 (Option.some.inj e).symm
            · exact h3 f' h
        · rintro (⟨h1 | ⟨h1, h2⟩, h3⟩ | ⟨h1, h2⟩)
          · exact .inl ⟨h1, h3⟩
          · cases h1
            rw [hg] at h3
            cases h3
            exact .inr ⟨.inl ⟨rfl, rfl⟩, fun f' hf' => by rw [← hg]; exact h2 f' hf'⟩
          · exact .inr ⟨.inr ⟨fun e => h2 g (by simp) (by rw [hg, e]), h1⟩, fun f' hf' => h2 f' (by simp [hf'])⟩

/-! ## the whole analysis -/

theorem root_eq (s : Schema) (k : OpKind) :
    s.root k = rootType s k := by
  cases k <;> rfl

/-- what the analysis achieves on a valid document -/
theorem createReferenceRegistry_ok (s : Schema) (doc : Document) (hv : ValidDoc s doc) :
    ∃ r, createReferenceRegistry s doc = .ok r ∧
      Step s (fun x => ∃ o, Current doc (.operation o) ∧ ∃ v ∈ o.vars, x = v.type.base) (SelectedIn s doc)
        (fun x => (∃ o, Current doc (.operation o) ∧ ∃ v ∈ o.vars, x = v.type.base) ∨ (FlatDoc doc ∧ SelectedIn s doc x)) {} r := by
  let T : String → Prop := fun x => ∃ o, Current doc (.operation o) ∧ ∃ v ∈ o.vars, x = v.type.base
  let L : String → Prop := SelectedIn s doc
  have hf : ∀ (fs : Dict FragDef) (r : RefReg), (∀ p ∈ fs, Current doc (.fragment p.2)) → ∃ r', refFragments s fs r = .ok r' ∧
      Step s T L (fun x => FlatDoc doc ∧ ∃ p ∈ fs, Reaches s p.2.typeCondition p.2.sels x) r r' := by
    intro fs
    induction fs with
    | nil =>
      intro r _
      exact ⟨r, rfl, (Step.nothing r).weaken (fun _ h => h) (fun _ h => h) (by simp)⟩
    | cons p fs ih =>
      intro r hp
      obtain ⟨k, f⟩ := p
      have hc := hp (k, f) (by simp)
      obtain ⟨r1, h1, h2⟩ := refFragment_ok f.sels (hv.fragments f (current_mem hc)) r
      obtain ⟨r', h3, h4⟩ := ih r1 (fun p hp' => hp p (by simp [hp']))
      refine ⟨r', by unfold refFragments; rw [h1]; exact h3, ?_⟩
      have s1 := (h2 T).weaken (t' := T) (l' := L) (c' := _) (fun _ h => h) (fun x hx => SelectedIn.fragment hc hx) (fun _ h => h)
      refine (s1.trans h4).weaken (fun _ h => h) (fun _ h => h) ?_
      rintro x ⟨hfl, p, hp', hx⟩
      rcases List.mem_cons.1 hp' with rfl | hp'
      · exact .inl ⟨fun y hy => hfl.2 f (current_mem hc) y hy, hx⟩
      · exact .inr ⟨hfl, p, hp', hx⟩
  have ho : ∀ (os : Dict OpDef) (r : RefReg), (∀ p ∈ os, Current doc (.operation p.2)) → ∃ r', refOperations s os r = .ok r' ∧
      Step s T L (fun x => (∃ p ∈ os, ∃ v ∈ p.2.vars, x = v.type.base) ∨
        FlatDoc doc ∧ ∃ p ∈ os, ∃ root, s.root p.2.kind = some root ∧ Reaches s root p.2.sels x) r r' := by
    intro os
    induction os with
    | nil =>
      intro r _
      exact ⟨r, rfl, (Step.nothing r).weaken (fun _ h => h) (fun _ h => h) (by simp)⟩
    | cons p os ih =>
      intro r hp
      obtain ⟨k, o⟩ := p
      have hc := hp (k, o) (by simp)
      obtain ⟨r1, h1⟩ := refVariables_ok hv.inputs o.vars (hv.variables o (current_mem hc)) r
      obtain ⟨root, hroot, hsel⟩ := hv.operations o (current_mem hc)
      rw [← root_eq] at hroot
      obtain ⟨r2, h2, h2'⟩ := refTopInline_ok o.sels hsel r1
      obtain ⟨r', h3, h4⟩ := ih r2 (fun p hp' => hp p (by simp [hp']))
      refine ⟨r', ?_, ?_⟩
      · unfold refOperations
        rw [h1]
        dsimp only
        rw [hroot, Option.bind_some, refOperationSels_eq, h2]
        exact h3
      have s0 := (refVariables_step (l := L) o.vars r r1 h1).weaken (t' := T) (l' := L) (c' := _)
        (fun x ⟨v, hv, e⟩ => ⟨o, hc, v, hv, e⟩) (fun _ h => h) (fun _ h => h)
      have s1 := (h2' T).weaken (t' := T) (l' := L) (c' := _) (fun _ h => h)
        (fun x hx => SelectedIn.operation hc (by rw [← root_eq]; exact hroot) hx) (fun _ h => h)
      refine ((s0.trans s1).trans h4).weaken (fun _ h => h) (fun _ h => h) ?_
      rintro x (⟨p, hp', v, hv', e⟩ | ⟨hfl, p, hp', root', hr, hx⟩)
      · rcases List.mem_cons.1 hp' with rfl | hp'
        · exact .inl (.inl ⟨v, hv', e⟩)
        · exact .inr (.inl ⟨p, hp', v, hv', e⟩)
      · rcases List.mem_cons.1 hp' with rfl | hp'
        · rw [hroot] at hr
          cases hr
          have := hfl.1 o (current_mem hc)
          exact .inl (.inr ⟨this.1, this.2, hx⟩)
        · exact .inr (.inr ⟨hfl, p, hp', root', hr, hx⟩)
  obtain ⟨ops, hops⟩ := operationDefinitions_ok doc [] hv.named
  have hmf := fun k f => mem_fragmentDefinitions doc [] (by simp [Dict.keys]) k f
  have hmo := fun k o => mem_operationDefinitions doc [] (by simp [Dict.keys]) ops hops k o
  obtain ⟨r1, h1, s1⟩ := hf (Fragments.fragmentDefinitions doc []) {} (by
    rintro ⟨k, f⟩ hp
    rcases (hmf k f).1 hp with h | h
    · exact h.1
    · exact absurd h.1 (by simp))
  obtain ⟨r2, h2, s2⟩ := ho ops r1 (by
    rintro ⟨k, o⟩ hp
    rcases (hmo k o).1 hp with h | h
    · exact h.1
    · exact absurd h.1 (by simp))
  refine ⟨r2, ?_, ?_⟩
  · unfold createReferenceRegistry
    rw [hops]
    dsimp only
    rw [h1]
    exact h2
  · refine (s1.trans s2).weaken (fun _ h => h) (fun _ h => h) ?_
    have mo : ∀ o, Current doc (.operation o) → ∃ k, (k, o) ∈ ops := by
      intro o hc
      cases hn : o.name with
      | none => exact absurd hn (hv.named o (current_mem hc))
      | some k => exact ⟨k, (hmo k o).2 (.inl ⟨hc, hn⟩)⟩
    rintro x (⟨o, hc, v, hv', e⟩ | ⟨hfl, hx⟩)
    · obtain ⟨k, hk⟩ := mo o hc
      exact .inr (.inl ⟨(k, o), hk, v, hv', e⟩)
    · cases hx with
      | @operation o root _ hc hr hx =>
        obtain ⟨k, hk⟩ := mo o hc
        exact .inr (.inr ⟨hfl, (k, o), hk, root, by rw [root_eq]; exact hr, hx⟩)
      | @fragment f _ hc hx => exact .inl ⟨hfl, (f.name, f), (hmf _ f).2 (.inl ⟨hc, rfl⟩), hx⟩

/-- C43: on every valid document the analysis succeeds, and the inputs it considers referenced are exactly the
input types reachable from the types of variables through input fields — also when input types are recursive. -/
theorem C43_inputs (s : Schema) (doc : Document) (hv : ValidDoc s doc) :
    ∃ r, createReferenceRegistry s doc = .ok r ∧ ∀ n, n ∈ r.inputs ↔ IsInput s n ∧ Needed s doc n := by
  obtain ⟨r, h, hs⟩ := createReferenceRegistry_ok s doc hv
  refine ⟨r, h, fun n => ⟨fun hn => ?_, ?_⟩⟩
  · have hw := hs.sound (Needed s doc) (fun x => Needed s doc x ∨ SelectedIn s doc x) (fun _ h => .inl h)
      (fun m fs ds hm hl f hf => .field hm hl hf) (fun x ⟨o, ho, v, hv, e⟩ => e ▸ .declared ho hv) (fun _ h => .inr h)
      ⟨by simp, by simp, by simp⟩
    exact (hw.inputs n hn).symm
  · rintro ⟨hi, hn⟩
    have key : Covered s r n := by
      clear hi
      induction hn with
      | declared ho hv => exact hs.cover _ (.inl ⟨_, ho, _, hv, rfl⟩)
      | @field m fs ds f _ hl hf ih =>
        exact (hs.closed m (ih.inputs ⟨fs, ds, hl⟩)).elim (by simp) (fun h => h fs ds hl f hf)
    exact key.inputs hi

/-- C43: enums (and scalars) considered referenced are never more than those of needed variables' types and of
selected fields; and — with the restriction that inline fragments are not nested directly in one another and do
not stand at the top of an operation — never less. (Missing: those nested inline fragments, see the
counterexample.) -/
theorem C43_leaves_partial (s : Schema) (doc : Document) (hv : ValidDoc s doc) :
    ∃ r, createReferenceRegistry s doc = .ok r ∧
      (∀ n, n ∈ r.enums → IsEnum s n ∧ (Needed s doc n ∨ SelectedIn s doc n)) ∧
      (∀ n, n ∈ r.scalars → IsScalar s n ∧ (Needed s doc n ∨ SelectedIn s doc n)) ∧
      (∀ n, Needed s doc n → (IsEnum s n → n ∈ r.enums) ∧ (IsScalar s n → n ∈ r.scalars)) ∧
      (FlatDoc doc → ∀ n, SelectedIn s doc n → (IsEnum s n → n ∈ r.enums) ∧ (IsScalar s n → n ∈ r.scalars)) := by
  obtain ⟨r, h, hs⟩ := createReferenceRegistry_ok s doc hv
  have hw := hs.sound (Needed s doc) (fun x => Needed s doc x ∨ SelectedIn s doc x) (fun _ h => .inl h)
      (fun m fs ds hm hl f hf => .field hm hl hf) (fun x ⟨o, ho, v, hv, e⟩ => e ▸ .declared ho hv) (fun _ h => .inr h)
      ⟨by simp, by simp, by simp⟩
  refine ⟨r, h, fun n hn => (hw.enums n hn).symm, fun n hn => (hw.scalars n hn).symm, fun n hn => ?_, fun hfl n hn => ?_⟩
  · have key : Covered s r n := by
      induction hn with
      | declared ho hv => exact hs.cover _ (.inl ⟨_, ho, _, hv, rfl⟩)
      | @field m fs ds f _ hl hf ih =>
        exact (hs.closed m (ih.inputs ⟨fs, ds, hl⟩)).elim (by simp) (fun h => h fs ds hl f hf)
    exact ⟨key.enums, key.scalars⟩
  · have := hs.cover n (.inr ⟨hfl, hn⟩)
    exact ⟨this.enums, this.scalars⟩

/-- C43: the analysis terminates on every schema, also with recursive input types and also on invalid documents:
the number of input types entered inside one another never exceeds the number of types, so the bound that the
model puts on the recursion is never reached and makes no difference. -/
theorem C43_terminates (s : Schema) (t : TypeNode) (r : RefReg) :
    refType s t r ≠ .error (.invalid "bound") ∧
    ∀ bound > s.types.length, refWrapped (refNamed s bound) t r = refType s t r := by
  unfold refType
  rw [refWrapped_eq]
  have hl : room s r ≤ s.types.length := by
    unfold room
    exact Nat.le_trans (List.length_filter_le _ _) (by simp [Dict.keys])
  have h := refNamed_bound (s := s) (s.types.length + 1) t.base r (by omega)
  refine ⟨h.1, fun bound hb => ?_⟩
  rw [refWrapped_eq]
  exact h.2 bound hb

/-- a recursive schema: `In { self: In, color: Color }`, `Node { id: ID!, color: Color, mood: Mood, next: Node }` -/
def refSchema : Schema :=
  { types := [("ID", ⟨.scalar, none⟩), ("Color", ⟨.enum [], none⟩), ("Mood", ⟨.enum [], none⟩), ("Other", ⟨.enum [], none⟩),
      ("In", ⟨.input [{ name := "self", type := .named "In" }, { name := "color", type := .list (.named "Color") }] [], none⟩),
      ("Unused", ⟨.input [{ name := "o", type := .named "Other" }] [], none⟩),
      ("Node", ⟨.object [{ name := "id", type := .nonNull (.named "ID") }, { name := "mood", type := .named "Mood" },
        { name := "next", type := .named "Node" }] [], none⟩),
      ("Query", ⟨.object [{ name := "node", type := .named "Node" }] [], none⟩)]
    query := some "Query" }

/-- `query Q($i: In!) { node { __typename next { id } } }` -/
def refDoc : Document :=
  [.operation { kind := .query, name := some "Q", vars := [{ name := "i", type := .nonNull (.named "In") }],
                sels := [.field "node" none [] [.field "__typename" none [] [], .field "next" none [] [.field "id" none [] []]]] }]

example : createReferenceRegistry refSchema refDoc =
    .ok { inputs := ["In"], enums := ["Color"], scalars := ["ID"] } := by decide +kernel

theorem refDoc_valid : ValidDoc refSchema refDoc ∧ FlatDoc refDoc := by
  have nf : ∀ n t, refFieldType (refSchema.lookup "Node") n = .ok t → HasField refSchema "Node" n t :=
    fun n t h => refFieldType_hasField rfl h
  constructor
  · constructor
    · intro m fs ds hl f hf
      have hm : m = "In" ∨ m = "Unused" := by
        unfold Schema.lookup refSchema at hl
        simp only [Dict.get?] at hl
        repeat' split at hl
        all_goals first
          | (cases hl; done)
          | (left; symm; assumption)
          | (right; symm; assumption)
          | cases hl
      rcases hm with rfl | rfl
      · cases hl
        simp only [List.mem_cons, List.not_mem_nil, or_false] at hf
        rcases hf with rfl | rfl
        · exact .inr (.inr ⟨_, _, rfl⟩)
        · exact .inr (.inl ⟨_, rfl⟩)
      · cases hl
        simp only [List.mem_cons, List.not_mem_nil, or_false] at hf
        subst hf
        exact .inr (.inl ⟨_, rfl⟩)
    · intro o ho
      simp only [refDoc, List.mem_singleton, Defn.operation.injEq] at ho
      subst ho; simp
    · intro o ho v hv
      simp only [refDoc, List.mem_singleton, Defn.operation.injEq] at ho
      subst ho
      simp only [List.mem_singleton] at hv
      subst hv
      exact .inr (.inr ⟨_, _, rfl⟩)
    · intro o ho
      simp only [refDoc, List.mem_singleton, Defn.operation.injEq] at ho
      subst ho
      refine ⟨"Query", rfl, ?_⟩
      intro x hx
      simp only [List.mem_singleton] at hx
      subst hx
      refine .composite (t := .named "Node") (by decide) (refFieldType_hasField rfl rfl) (.inl ⟨_, _, rfl⟩) (by simp) ?_
      intro x hx
      simp only [List.mem_cons, List.not_mem_nil, or_false] at hx
      rcases hx with rfl | rfl
      · exact .typename
      · refine .composite (t := .named "Node") (by decide) (nf _ _ rfl) (.inl ⟨_, _, rfl⟩) (by simp) ?_
        intro x hx
        simp only [List.mem_singleton] at hx
        subst hx
        exact .leaf (t := .nonNull (.named "ID")) (by decide) (nf _ _ rfl) (.inl rfl)
    · intro f hf
      simp [refDoc] at hf
  · constructor
    · intro o ho
      simp only [refDoc, List.mem_singleton, Defn.operation.injEq] at ho
      subst ho
      refine ⟨?_, by simp⟩
      intro x hx
      simp only [List.mem_singleton] at hx
      subst hx
      refine .field fun y hy => ?_
      simp only [List.mem_cons, List.not_mem_nil, or_false] at hy
      rcases hy with rfl | rfl
      · exact .field (by simp)
      · refine .field fun z hz => ?_
        simp only [List.mem_singleton] at hz
        subst hz
        exact .field (by simp)
    · intro f hf
      simp [refDoc] at hf

/-- C43 is false of the code for inline fragments directly inside inline fragments: whatever they select is
overlooked, for every schema and every selection in them. -/
theorem C43_nested_inline_counterexample (s : Schema) (c c' name : String) (outer : Option String) (sub : List Sel) :
    createReferenceRegistry s [.fragment ⟨name, c, [.inline (some c') [.inline outer sub]]⟩] = .ok {} := by
  rfl

/-- … so that an enum the document does select is missing -/
example : SelectedIn refSchema [.fragment ⟨"F", "Node", [.inline (some "Node") [.inline (some "Node") [.field "mood" none [] []]]]⟩] "Mood" :=
  .fragment (.fragment (before := []) rfl (by simp)) (.inline (List.mem_singleton.2 rfl) (.inline (List.mem_singleton.2 rfl)
    (.field (t := .named "Mood") (List.mem_singleton.2 rfl) (by decide) (refFieldType_hasField rfl rfl))))

/-- C43, another failure: an operation that uses the introspection field `__schema` (or `__type`) makes the
analysis raise `KeyError`, for every schema — these fields are not among the fields of the query type. -/
theorem C43_introspection_counterexample (s : Schema) (root name meta_ : String) (fs : List FieldDef) (is : List String)
    (hq : s.query = some root) (hl : s.lookup root = some (.object fs is)) (hm : meta_ = "__schema" ∨ meta_ = "__type")
    (hf : ∀ f ∈ fs, f.name ≠ meta_) (a : Option String) (args : List (String × Value)) (sub : List Sel) :
    createReferenceRegistry s [.operation { kind := .query, name := some name, sels := [.field meta_ a args sub] }] =
      .error (.keyError meta_) := by
  have hfind : fs.find? (fun f => f.name == meta_) = none := by
    rw [List.find?_eq_none]; intro f hf'; simpa using hf f hf'
  have hne : (meta_ == "__typename") = false := by rcases hm with rfl | rfl <;> decide
  simp only [createReferenceRegistry, operationDefinitions, Fragments.fragmentDefinitions, refFragments, Dict.set,
    refOperations, refVariables, refOperationSels, refTopField, hne, Schema.root, hq, Option.bind_some, hl, refFieldType, hfind]
  rfl

end Turms.Props
