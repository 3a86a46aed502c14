import Verif.Lemmas.TypedCalls

/-! # Well-typed calls reach every accepted map of variables -/

namespace Turms
open Spec Props

/-! ## calls with keywords only -/

theorem bindParams_keywords {M : List String} {kw : List (String × PyVal)} : ∀ {ps : List (String × Option Expr)},
    (∀ n ∈ ps.map (·.1), n ∈ kw.map (·.1)) →
    ∃ L, bindParams M ps [] kw = some L ∧ ∀ n x, Locals.find L n = some x → Locals.find kw n = some x := by
  intro ps
  induction ps with
  | nil => intro _; exact ⟨[], rfl, fun n x h => by simp [Locals.find] at h⟩
  | cons a ps ih =>
    intro h
    obtain ⟨n, d⟩ := a
    obtain ⟨L, h1, h2⟩ := ih fun m hm => h m (by simp only [List.map_cons]; exact List.mem_cons_of_mem _ hm)
    obtain ⟨x, hx⟩ := find_some_of_mem (h n (by simp))
    refine ⟨(n, x) :: L, by simp only [bindParams, hx, h1], fun m y hm => ?_⟩
    by_cases e : m = n
    · subst e
      rw [find_cons_self] at hm
      cases hm
      exact hx
    · rw [find_cons_ne _ _ e] at hm
      exact h2 m y hm

theorem bindCall_keywords {M : List String} {args : List Arg} {defaults : List Expr} {pos : List PyVal}
    {kw0 kw : List (String × PyVal)} {L0 : Locals} (h0 : bindCall M args defaults pos kw0 = some L0)
    (hk : kw.map (·.1) = args.map (·.arg)) :
    ∃ L, bindCall M args defaults [] kw = some L ∧ ∀ n x, Locals.find L n = some x → Locals.find kw n = some x := by
  unfold bindCall at h0
  split at h0
  · rename_i hc
    obtain ⟨L, h1, h2⟩ := bindParams_keywords (M := M) (kw := kw) (ps := signature args defaults) (by
      rw [hk]
      unfold signature
      rw [List.map_fst_zip]
      · exact fun n hn => hn
      · simp only [List.length_map, List.length_append, List.length_replicate]
        omega)
    refine ⟨L, ?_, h2⟩
    unfold bindCall
    rw [if_pos ⟨hc.1, hc.2.1, by rw [hk]; exact fun n hn => hn⟩]
    exact h1
  · cases h0

/-- keyword arguments chosen one by one -/
theorem choose_keywords {R : String → PyVal → Prop} : ∀ {args : List Arg}, (∀ a ∈ args, ∃ x, R a.arg x) →
    ∃ kw : List (String × PyVal), kw.map (·.1) = args.map (·.arg) ∧ ∀ n x, Locals.find kw n = some x → R n x := by
  intro args
  induction args with
  | nil => intro _; exact ⟨[], rfl, fun n x h => by simp [Locals.find] at h⟩
  | cons a args ih =>
    intro h
    obtain ⟨x, hx⟩ := h a (.head _)
    obtain ⟨kw, h1, h2⟩ := ih fun b hb => h b (.tail _ hb)
    refine ⟨(a.arg, x) :: kw, by simp [h1], fun m y hm => ?_⟩
    by_cases e : m = a.arg
    · subst e
      rw [find_cons_self] at hm
      cases hm
      exact hx
    · rw [find_cons_ne _ _ e] at hm
      exact h2 m y hm

/-! ## serialised entries -/

theorem wireEntries_mem : ∀ {kvs : List (String × PyVal)} {ws : List (String × Val)}, wireEntries kvs = some ws →
    ∀ k w, (k, w) ∈ ws ↔ ∃ x, (k, x) ∈ kvs ∧ wire x = some w := by
  intro kvs
  induction kvs with
  | nil =>
    intro ws h k w
    simp only [wireEntries, Option.some.injEq] at h
    subst h
    simp
  | cons e es ih =>
    intro ws h k w
    obtain ⟨k0, x0⟩ := e
    simp only [wireEntries] at h
    cases hw : wire x0 with
    | none => rw [hw] at h; simp at h
    | some w0 =>
      cases hws : wireEntries es with
      | none => rw [hw, hws] at h; simp at h
      | some ws0 =>
        rw [hw, hws] at h
        simp only [Option.some.injEq] at h
        subst h
        rw [List.mem_cons, ih hws]
        constructor
        · rintro (e | ⟨x, hx, hw'⟩)
          · cases e; exact ⟨x0, .head _, hw⟩
          · exact ⟨x, .tail _ hx, hw'⟩
        · rintro ⟨x, hx, hw'⟩
          rcases List.mem_cons.1 hx with e | hx
          · cases e
            rw [hw] at hw'
            cases hw'
            exact .inl rfl
          · exact .inr ⟨x, hx, hw'⟩

theorem wireEntries_keys : ∀ {kvs : List (String × PyVal)} {ws : List (String × Val)}, wireEntries kvs = some ws →
    ∀ k ∈ kvs.map (·.1), ∃ w, (k, w) ∈ ws := by
  intro kvs
  induction kvs with
  | nil => intro ws _ k hk; cases hk
  | cons e es ih =>
    intro ws h k hk
    obtain ⟨k0, x0⟩ := e
    simp only [wireEntries] at h
    cases hw : wire x0 with
    | none => rw [hw] at h; simp at h
    | some w0 =>
      cases hws : wireEntries es with
      | none => rw [hw, hws] at h; simp at h
      | some ws0 =>
        rw [hw, hws] at h
        simp only [Option.some.injEq] at h
        subst h
        rcases List.mem_cons.1 hk with rfl | hk
        · exact ⟨w0, .head _⟩
        · obtain ⟨w, hw⟩ := ih hws k hk
          exact ⟨w, .tail _ hw⟩

theorem entry_unique {α : Type} {l : List (String × α)} (h : (l.map (·.1)).Nodup) {k : String} {a b : α} (ha : (k, a) ∈ l)
    (hb : (k, b) ∈ l) : a = b := by
  have := List.inj_on_of_nodup_map h ha hb rfl
  cases this
  rfl

/-! ## the arguments -/

section
variable {c : Ctx} {r1 : Reg} {T : List Stmt} {isa : String → Val → Prop} {p : FuncsConfig} {o : OpDef}

/-- `Passes c p o L0 ws q x`: `x` is what has to be passed for the parameter `q` to send `ws` -/
structure Passes (c : Ctx) (p : FuncsConfig) (o : OpDef) (L0 : Locals) (ws : List (String × Val)) (q : String) (x : PyVal) : Prop where
  var : ∀ v, Holds c p o q v none → (∃ w, (v, w) ∈ ws ∧ x = .given w) ∨ ((∀ w, (v, w) ∉ ws) ∧ x = .global (unsetName c.env))
  field : ∀ v f, Holds c p o q v (some f) → (∃ kvs w, (v, .obj kvs) ∈ ws ∧ (f, w) ∈ kvs ∧ x = .given w) ∨
    ((∀ kvs w, (v, .obj kvs) ∈ ws → (f, w) ∉ kvs) ∧ x = .global (unsetName c.env))
  other : (∀ v f, ¬ Holds c p o q v f) → L0.find q = some x

theorem passes_exists (hone : ∀ q v f v' f', Holds c p o q v f → Holds c p o q v' f' → v = v' ∧ f = f') {L0 : Locals} {q : String}
    (hq : ∃ x, L0.find q = some x) (ws : List (String × Val)) : ∃ x, Passes c p o L0 ws q x := by
  by_cases h : ∃ v f, Holds c p o q v f
  · obtain ⟨v, f, h⟩ := h
    cases f with
    | none =>
      by_cases hw : ∃ w, (v, w) ∈ ws
      · obtain ⟨w, hw⟩ := hw
        refine ⟨.given w, fun v' h' => ?_, fun v' f' h' => ?_, fun hn => absurd h (hn _ _)⟩
        · obtain ⟨rfl, _⟩ := hone _ _ _ _ _ h h'
          exact .inl ⟨w, hw, rfl⟩
        · cases (hone _ _ _ _ _ h h').2
      · refine ⟨.global (unsetName c.env), fun v' h' => ?_, fun v' f' h' => ?_, fun hn => absurd h (hn _ _)⟩
        · obtain ⟨rfl, _⟩ := hone _ _ _ _ _ h h'
          exact .inr ⟨fun w hm => hw ⟨w, hm⟩, rfl⟩
        · cases (hone _ _ _ _ _ h h').2
    | some f =>
      by_cases hw : ∃ kvs w, (v, Val.obj kvs) ∈ ws ∧ (f, w) ∈ kvs
      · obtain ⟨kvs, w, h1, h2⟩ := hw
        refine ⟨.given w, fun v' h' => ?_, fun v' f' h' => ?_, fun hn => absurd h (hn _ _)⟩
        · cases (hone _ _ _ _ _ h h').2
        · obtain ⟨rfl, hf⟩ := hone _ _ _ _ _ h h'
          cases hf
          exact .inl ⟨kvs, w, h1, h2, rfl⟩
      · refine ⟨.global (unsetName c.env), fun v' h' => ?_, fun v' f' h' => ?_, fun hn => absurd h (hn _ _)⟩
        · cases (hone _ _ _ _ _ h h').2
        · obtain ⟨rfl, hf⟩ := hone _ _ _ _ _ h h'
          cases hf
          exact .inr ⟨fun kvs w h1 h2 => hw ⟨kvs, w, h1, h2⟩, rfl⟩
  · obtain ⟨x, hx⟩ := hq
    exact ⟨x, fun v hv => absurd ⟨_, _, hv⟩ h, fun v f hv => absurd ⟨_, _, hv⟩ h, fun _ => hx⟩

/-- an accepted value of an expanded variable -/
theorem expanded_value {v : VarDef} {args : List Arg} (he : ExpandableVariable c v) (ha : ExpandedArgs c p.co r1 T isa args v)
    {ws : List (String × Val)} {leaf : String → Val → Prop} (hv : v ∈ o.vars) (h : VariableValues c.schema leaf o.vars ws) :
    ∃ fs kvs, FieldsOfVar c.schema v fs ∧ (fs.map (·.name)).Nodup ∧ (v.name, .obj kvs) ∈ ws ∧ (kvs.map (·.1)).Nodup ∧
      (∀ k x, (k, x) ∈ kvs → ∃ f ∈ fs, f.name = k) ∧
      (∀ f ∈ fs, f.type.isNonNull = true → f.default = none → ∃ x, (f.name, x) ∈ kvs) ∧
      ∀ f ∈ fs, ∀ x, (f.name, x) ∈ kvs → InputValue c.schema leaf f.type x := by
  obtain ⟨n, fs, ds, hw, hb, hl, _⟩ := ha
  obtain ⟨hreq, hone⟩ := he
  obtain ⟨hone, hfn⟩ := hone fs ds (by rw [hb]; exact hl)
  have htype : v.type = .nonNull (.named n) := by
    obtain ⟨⟨t, ht⟩, _⟩ := hreq
    obtain ⟨q, q', hw⟩ := hw
    rw [ht] at hw hb ⊢
    cases t with
    | named m => rw [← hb]; rfl
    | list t => simp [wrappedName, Gen.fail] at hw
    | nonNull t => simp [wrappedName, Gen.fail] at hw
  obtain ⟨w, hm⟩ := h.required v hv (by rw [htype]; rfl) hreq.2
  have hval := h.legal v hv w hm
  rw [htype] at hval
  cases hval with
  | null h => cases h
  | nonNull h0 hval =>
    cases hval with
    | null => exact absurd rfl h0
    | leaf hlf _ => rcases hlf with hlf | ⟨_, hlf⟩ <;> rw [hl] at hlf <;> cases hlf
    | oneOf hl' ho =>
      rw [hl] at hl'
      cases hl'
      exact absurd ho hone
    | object hl' ho h1 h2 h3 h4 =>
      rw [hl] at hl'
      cases hl'
      exact ⟨fs, _, ⟨ds, by rw [hb]; exact hl⟩, hfn, hm, h1, h2, h3, h4⟩

theorem arg_unique {args : List Arg} (h : (args.map (·.arg)).Nodup) {a b : Arg} (ha : a ∈ args) (hb : b ∈ args) (he : a.arg = b.arg) :
    a = b := List.inj_on_of_nodup_map h ha hb he

/-- the chosen arguments are well typed -/
theorem passes_typed {args : List Arg} {L0 L : Locals} {ws : List (String × Val)} (hd : NoOptionalNonNull c.schema)
    (hnd : (o.vars.map (·.name)).Nodup)
    (hexp : ∀ v ∈ o.vars, v.name ∈ p.expandInputTypes → ExpandableVariable c v)
    (hargs : ∀ v ∈ o.vars, (v.name ∉ p.expandInputTypes → VariableArg c p.co r1 T isa args v) ∧
      (v.name ∈ p.expandInputTypes → ExpandedArgs c p.co r1 T isa args v))
    (hfree : ∀ v ∈ o.vars, (v.name ∉ p.expandInputTypes → p.co.scalars.get? v.type.base = none) ∧
      (v.name ∈ p.expandInputTypes → ∀ fs, FieldsOfVar c.schema v fs → ∀ f ∈ fs, p.co.scalars.get? f.type.base = none))
    (hn : (args.map (·.arg)).Nodup) (hL0 : TypedArguments (serialWorld T isa) c.env args L0)
    (hws : VariableValues c.schema (LeafValue c r1 isa) o.vars ws)
    (hL : ∀ q x, L.find q = some x → Passes c p o L0 ws q x) : TypedArguments (serialWorld T isa) c.env args L := by
  intro a ha A hA x hx
  have hp := hL _ _ hx
  by_cases h : ∃ v f, Holds c p o a.arg v f
  · obtain ⟨v, f, h⟩ := h
    have typed : ∀ {required : Prop} {t : TypeNode}, ArgFor c p.co r1 T isa args a.arg required t → p.co.scalars.get? t.base = none →
        ((∃ w, InputValue c.schema (LeafValue c r1 isa) t w ∧ x = .given w) ∨ (¬ required ∧ x = .global (unsetName c.env))) →
        WellTyped (serialWorld T isa) (unsetName c.env) (unsetTypeName c.env) A x := by
      rintro required t ⟨A', hm, _, hex, _, hmark⟩ hf hcase
      have := arg_unique hn ha hm rfl
      rw [this] at hA
      cases hA
      rcases hcase with ⟨w, hw, rfl⟩ | ⟨hr, rfl⟩
      · exact .value rfl (hex hf w hw)
      · obtain ⟨ts, rfl, hts⟩ := hmark hr
        exact .marker hts
    have h' := h
    generalize ha' : a.arg = qn at h
    cases h with
    | @variable_ v _ hv hne hq =>
      subst ha'
      obtain ⟨q', hq', hA'⟩ := (hargs v hv).1 hne
      have := (paramOf_unique hq' _).1 hq
      rw [← this] at hA'
      refine typed hA' ((hfree v hv).1 hne) ?_
      rcases hp.var _ h' with ⟨w, hw, rfl⟩ | ⟨hno, rfl⟩
      · exact .inl ⟨w, hws.legal v hv w hw, rfl⟩
      · refine .inr ⟨fun hr => ?_, rfl⟩
        obtain ⟨⟨t, ht⟩, hdef⟩ := hr
        obtain ⟨w, hw⟩ := hws.required v hv (by rw [ht]; rfl) hdef
        exact hno w hw
    | @field v fs f _ hv hin hfs hf hq =>
      subst ha'
      obtain ⟨n, fs', ds, _, hb, hl, hall⟩ := (hargs v hv).2 hin
      have hfs' : fs' = fs := fieldsOfVar_unique hfs ⟨ds, by rw [hb]; exact hl⟩
      subst hfs'
      obtain ⟨q', hq', hA'⟩ := hall f hf
      have := fieldParamOf_unique hq' hq
      rw [← this] at hA'
      obtain ⟨gs, kvs, hgs, hgn, hm, k1, k2, k3, k4⟩ := expanded_value (hexp v hv hin) ((hargs v hv).2 hin) hv hws
      have hgf := fieldsOfVar_unique hfs hgs
      subst hgf
      refine typed hA' ((hfree v hv).2 hin _ hfs f hf) ?_
      rcases hp.field _ _ h' with ⟨kvs', w, hm', hw, rfl⟩ | ⟨hno, rfl⟩
      · have := entry_unique hws.once hm hm'
        cases this
        exact .inl ⟨w, k4 f hf w hw, rfl⟩
      · refine .inr ⟨fun hr => ?_, rfl⟩
        have hnn := requiredField_iff.2 hr
        obtain ⟨w, hw⟩ := k3 f hf hnn (hd _ _ _ (show c.schema.lookup n = _ from hl) f hf hnn)
        exact hno kvs w hm hw
  · exact hL0 a ha A hA x (hp.other fun v f hh => h ⟨v, f, hh⟩)

/-- the variables sent are those wanted -/
theorem passes_sends {args : List Arg} {L0 L : Locals} {ws ws' : List (String × Val)} {kvs : List (String × PyVal)}
    (hnd : (o.vars.map (·.name)).Nodup)
    (hexp : ∀ v ∈ o.vars, v.name ∈ p.expandInputTypes → ExpandableVariable c v)
    (hargs : ∀ v ∈ o.vars, (v.name ∉ p.expandInputTypes → VariableArg c p.co r1 T isa args v) ∧
      (v.name ∈ p.expandInputTypes → ExpandedArgs c p.co r1 T isa args v))
    (hnames : L.map (·.1) = args.map (·.arg)) {leaf : String → Val → Prop}
    (hws : VariableValues c.schema leaf o.vars ws)
    (hL : ∀ q x, L.find q = some x → Passes c p o L0 ws q x) (hpay : VariablesPayload c p o L kvs)
    (hw : wireEntries kvs = some ws') : SameMap ws ws' := by
  obtain ⟨h1, h2, h3⟩ := hpay
  have back : ∀ k w', (k, w') ∈ ws' → ∃ w, (k, w) ∈ ws ∧ SameValue w w' := by
    intro k w' hm0
    obtain ⟨x, hx, hwx⟩ := (wireEntries_mem hw k w').1 hm0
    obtain ⟨v, hv, rfl, hs⟩ := h2 k x hx
    rcases hs with ⟨hne, q, hq, hfind, _⟩ | ⟨hin, fs, entries, hfs, hpay, rfl⟩
    · rcases (hL q x hfind).var _ (.variable_ hv hne hq) with ⟨w, hm, rfl⟩ | ⟨_, rfl⟩
      · simp only [wire, Option.some.injEq] at hwx
        subst hwx
        exact ⟨w, hm, .inl rfl⟩
      · simp [wire] at hwx
    · obtain ⟨gs, as, hgs, hgn, hm, k1, k2, k3, k4⟩ := expanded_value (hexp v hv hin) ((hargs v hv).2 hin) hv hws
      have hgf := fieldsOfVar_unique hfs hgs
      subst hgf
      simp only [wire] at hwx
      cases hes : wireEntries entries with
      | none => rw [hes] at hwx; simp at hwx
      | some bs =>
        rw [hes] at hwx
        simp only [Option.some.injEq] at hwx
        subst hwx
        refine ⟨_, hm, .inr ⟨as, bs, rfl, rfl, fun k u => ?_⟩⟩
        rw [wireEntries_mem hes]
        constructor
        · intro hku
          obtain ⟨f, hf, rfl⟩ := k2 k u hku
          obtain ⟨n, fs', ds, _, hb, hl, hall⟩ := (hargs v hv).2 hin
          have hfs' := fieldsOfVar_unique hfs ⟨ds, by rw [hb]; exact hl⟩
          subst hfs'
          obtain ⟨q, hq, hA⟩ := hall f hf
          obtain ⟨y, hy⟩ := hA.bound hnames
          rcases (hL q y hy).field _ _ (.field hv hin hfs hf hq) with ⟨as', u', hm', hu', rfl⟩ | ⟨hno, rfl⟩
          · have := entry_unique hws.once hm hm'
            cases this
            have := entry_unique k1 hku hu'
            subst this
            exact ⟨.given u, (hpay.2 _ _).2 ⟨f, hf, rfl, q, hq, hy, .inr rfl⟩, rfl⟩
          · exact absurd hku (hno as u hm)
        · rintro ⟨y, hy, hyu⟩
          obtain ⟨f, hf, rfl, q, hq, hfind, _⟩ := (hpay.2 k y).1 hy
          rcases (hL q y hfind).field _ _ (.field hv hin hfs hf hq) with ⟨as', u', hm', hu', rfl⟩ | ⟨_, rfl⟩
          · have := entry_unique hws.once hm hm'
            cases this
            simp only [wire, Option.some.injEq] at hyu
            subst hyu
            exact hu'
          · simp [wire] at hyu
  refine ⟨fun k w hm => ?_, back⟩
  obtain ⟨v, hv, rfl⟩ := hws.declared k w hm
  have hx : ∃ x, SentAs c p L v x := by
    by_cases hn : v.name ∈ p.expandInputTypes
    · obtain ⟨n, fs, ds, _, hb, hl, _⟩ := (hargs v hv).2 hn
      obtain ⟨_, hone⟩ := hexp v hv hn
      obtain ⟨entries, he⟩ := fieldPayload_exists (env := c.env) (L := L) (hone fs ds (by rw [hb]; exact hl)).2
      exact ⟨_, .inr ⟨hn, fs, entries, ⟨ds, by rw [hb]; exact hl⟩, he, rfl⟩⟩
    · obtain ⟨q, hq, hA⟩ := (hargs v hv).1 hn
      obtain ⟨x, hx⟩ := hA.bound hnames
      refine ⟨x, .inl ⟨hn, q, hq, hx, .inr ?_⟩⟩
      rcases (hL q x hx).var _ (.variable_ hv hn hq) with ⟨w', _, rfl⟩ | ⟨hno, _⟩
      · rfl
      · exact absurd hm (hno w)
  obtain ⟨w', hm'⟩ := wireEntries_keys hw _ (h3 v hv hx)
  obtain ⟨w0, hm0, hs⟩ := back _ _ hm'
  have := entry_unique hws.once hm hm0
  subst this
  exact ⟨w', hm', hs⟩

end

end Turms
