import Verif.Lemmas.InputsPlugin

namespace Turms
open Spec

theorem underscored_iff (n : String) : underscored n = true ↔ n.toList.head? = some '_' := by
  simp [underscored]

theorem isOneof_iff (ds : List DirectiveUse) : isOneof ds = true ↔ OneOf ds := by
  simp [isOneof, OneOf]

theorem unref_iff (p : InputsConfig) (n : String) :
    unreferenced p.refInputs n = true ↔ ¬ Referenced p n := by
  unfold Referenced unreferenced
  cases p.refInputs <;> simp

theorem memberMissing_iff (p : InputsConfig) (m : String) : memberMissing p m = true ↔ ¬ Kept p m := by
  unfold memberMissing Kept
  rw [Bool.or_eq_true, unref_iff, Bool.and_eq_true, underscored_iff, not_and_or, not_not]

theorem validateOneof_ok {tn : String} {fs : List InputFieldDef} :
    validateOneof tn fs = .ok () ↔ OneOfValid fs := by
  unfold OneOfValid
  induction fs with
  | nil => simp [validateOneof]
  | cons f fs ih =>
    simp only [validateOneof, List.mem_cons, forall_eq_or_imp]
    split
    · rename_i h; simp [h]
    · rename_i h
      split
      · rename_i h2
        cases hd : f.default <;> simp [hd] at h2 ⊢
      · rename_i h2
        rw [ih]
        cases hd : f.default <;> simp [hd] at h2 ⊢
        exact fun _ => by simpa using h

theorem validateOneof_error {tn : String} {fs : List InputFieldDef} (h : ¬ OneOfValid fs) :
    validateOneof tn fs = .error (.generationError tn) := by
  rw [← validateOneof_ok (tn := tn)] at h
  induction fs with
  | nil => simp [validateOneof] at h
  | cons f fs ih =>
    simp only [validateOneof] at h ⊢
    split
    · rfl
    · split
      · rfl
      · rename_i h1 h2
        rw [if_neg h1, if_neg h2] at h
        exact ih h

theorem oneofMembers_ok {s : Schema} {fs : List InputFieldDef} : ∀ {ms : Dict String},
    oneofMembers s fs = some ms ↔
      (∀ f ∈ fs, ∃ m gs ds, f.type = .named m ∧ s.lookup m = some (.input gs ds) ∧ ¬ OneOf ds) ∧
      ms = fs.map fun f => (f.name, f.type.base) := by
  induction fs with
  | nil => intro ms; simp [oneofMembers, eq_comm]
  | cons f fs ih =>
    intro ms
    have hnone : ∀ {P Q : Prop}, ¬ P → ((none : Option (Dict String)) = some ms ↔ P ∧ Q) := by
      intro P Q h; simp [h]
    unfold oneofMembers
    cases hty : f.type with
    | list t =>
      simp only
      refine hnone ?_
      intro hall
      obtain ⟨m, _, _, h, _⟩ := hall f (by simp)
      rw [hty] at h; cases h
    | nonNull t =>
      simp only
      refine hnone ?_
      intro hall
      obtain ⟨m, _, _, h, _⟩ := hall f (by simp)
      rw [hty] at h; cases h
    | named m =>
      simp only
      have hlook : (¬ ∃ gs ds, s.lookup m = some (.input gs ds) ∧ ¬ OneOf ds) →
          ¬ (∀ f' ∈ f :: fs, ∃ m gs ds, f'.type = .named m ∧ s.lookup m = some (.input gs ds) ∧ ¬ OneOf ds) := by
        intro hn hall
        obtain ⟨m', gs, ds, h, h2⟩ := hall f (by simp)
        rw [hty] at h; cases h
        exact hn ⟨gs, ds, h2⟩
      cases hl : s.lookup m with
      | none => simp only; exact hnone (hlook (by simp [hl]))
      | some d =>
        cases d with
        | input gs ds =>
          simp only
          by_cases ho : isOneof ds = true
          · rw [if_pos ho]
            refine hnone (hlook ?_)
            rintro ⟨gs', ds', he, hno⟩
            rw [hl] at he; cases he
            exact hno ((isOneof_iff _).1 ho)
          · rw [if_neg ho]
            cases hr : oneofMembers s fs with
            | none =>
              simp only
              refine hnone ?_
              intro hall
              have := (ih (ms := fs.map fun f => (f.name, f.type.base))).2 ⟨fun g hg => hall g (by simp [hg]), rfl⟩
              rw [hr] at this; cases this
            | some rest =>
              obtain ⟨hall, hrest⟩ := ih.1 hr
              simp only [Option.some.injEq, List.map_cons, hty, TypeNode.base]
              rw [← hrest]
              constructor
              · rintro rfl
                refine ⟨?_, rfl⟩
                intro g hg
                rcases List.mem_cons.1 hg with rfl | hg
                · exact ⟨m, gs, ds, hty, hl, fun h => ho ((isOneof_iff _).2 h)⟩
                · exact hall g hg
              · rintro ⟨_, rfl⟩; rfl
        | scalar | enum | object | interface | union =>
          simp only
          refine hnone (hlook ?_)
          simp [hl]

theorem foldl_setAdd_length (l : List String) : ∀ acc : List String, acc.Nodup →
    (l.foldl setAdd acc).length ≤ acc.length + l.length ∧
    ((l.foldl setAdd acc).length = acc.length + l.length ↔ (acc ++ l).Nodup) := by
  induction l with
  | nil => intro acc h; simp [h]
  | cons a l ih =>
    intro acc h
    rw [List.foldl_cons]
    by_cases ha : a ∈ acc
    · have he : setAdd acc a = acc := by simp [setAdd, ha]
      rw [he]
      obtain ⟨h1, h2⟩ := ih acc h
      refine ⟨by simp; omega, ?_⟩
      constructor
      · intro hh; simp at hh; omega
      · intro hh
        exfalso
        exact (List.nodup_append.1 hh).2.2 a ha a (by simp) rfl
    · have he : setAdd acc a = acc ++ [a] := by simp [setAdd, ha]
      rw [he]
      have hn : (acc ++ [a]).Nodup := by
        refine List.nodup_append.2 ⟨h, by simp, ?_⟩
        rintro x hx y hy rfl
        simp at hy; subst hy; exact ha hx
      obtain ⟨h1, h2⟩ := ih _ hn
      simp only [List.length_append, List.length_cons, List.length_nil, List.append_assoc, List.cons_append, List.nil_append] at h1 h2 ⊢
      refine ⟨by omega, ?_⟩
      rw [← h2]
      constructor <;> intro hh <;> omega

theorem distinctCount_iff (l : List String) : distinctCount l = l.length ↔ l.Nodup := by
  have := (foldl_setAdd_length l [] List.nodup_nil).2
  simpa [distinctCount] using this

theorem oneofMemberMap_ok {s : Schema} {fs : List InputFieldDef} {ms : Dict String} :
    oneofMemberMap s fs = some ms ↔
      fs ≠ [] ∧ (∀ f ∈ fs, ∃ m gs ds, f.type = .named m ∧ s.lookup m = some (.input gs ds) ∧ ¬ OneOf ds) ∧
      (fs.map (·.type.base)).Nodup ∧ ms = fs.map fun f => (f.name, f.type.base) := by
  unfold oneofMemberMap
  cases hm : oneofMembers s fs with
  | none =>
    simp only
    constructor
    · intro h; cases h
    · rintro ⟨_, hall, _, h⟩
      have := oneofMembers_ok.2 ⟨hall, h⟩
      rw [hm] at this; cases this
  | some ms' =>
    obtain ⟨hall, rfl⟩ := oneofMembers_ok.1 hm
    simp only [List.map_map, List.length_map]
    have hd : distinctCount (List.map ((fun x => x.2) ∘ fun f : InputFieldDef => (f.name, f.type.base)) fs) = fs.length ↔
        (fs.map (·.type.base)).Nodup := by
      have := distinctCount_iff (fs.map (·.type.base))
      rw [List.length_map] at this
      exact this
    split
    · rename_i h
      have h' : ¬ (fs.map (·.type.base)).Nodup := by
        rw [← hd]; simpa using h
      simp [h']
    · rename_i h
      have h' : (fs.map (·.type.base)).Nodup := by
        rw [← hd]; simpa using h
      split
      · rename_i he
        have : fs = [] := by simpa using he
        simp [this]
      · rename_i he
        have : fs ≠ [] := by simpa using he
        simp only [Option.some.injEq]
        constructor
        · rintro rfl; exact ⟨this, hall, h', rfl⟩
        · rintro ⟨_, _, _, rfl⟩; rfl


/-- the declarations among a list of directives -/
def DeclaresIn (ds : List DirectiveUse) (u dn k : String) : Prop :=
  ∃ d ∈ ds, d.name = "unionElementOf" ∧ d.args.get? "union" = some u ∧
    d.args.get? "discriminator" = some dn ∧ d.args.get? "key" = some k

theorem declaresIn_cons {d : DirectiveUse} {ds : List DirectiveUse} {u dn k : String} :
    DeclaresIn (d :: ds) u dn k ↔
      (d.name = "unionElementOf" ∧ d.args.get? "union" = some u ∧ d.args.get? "discriminator" = some dn ∧
        d.args.get? "key" = some k) ∨ DeclaresIn ds u dn k := by
  simp [DeclaresIn]

theorem membershipsOf_ok {p : InputsConfig} {tn : String} {ds : List DirectiveUse} :
    ∀ {discr discr' : Dict String} {ms : List Membership}, membershipsOf p.refInputs tn ds discr = .ok (ms, discr') →
    (∀ u dn k, ⟨u, dn, k⟩ ∈ ms ↔ DeclaresIn ds u dn k ∧ Referenced p u) ∧
    (∀ u dn, discr.get? u = some dn → discr'.get? u = some dn) ∧
    (∀ u dn k, ⟨u, dn, k⟩ ∈ ms → discr'.get? u = some dn) ∧
    (∀ u dn, discr'.get? u = some dn → discr.get? u = some dn ∨ ∃ k, ⟨u, dn, k⟩ ∈ ms) := by
  induction ds with
  | nil =>
    intro discr discr' ms h
    simp only [membershipsOf, Except.ok.injEq, Prod.mk.injEq] at h
    obtain ⟨rfl, rfl⟩ := h
    refine ⟨by simp [DeclaresIn], fun _ _ h => h, by simp, fun _ _ h => .inl h⟩
  | cons d ds ih =>
    intro discr discr' ms h
    unfold membershipsOf at h
    split at h
    · rename_i hname
      have hname : d.name ≠ "unionElementOf" := by simpa using hname
      obtain ⟨h1, h2⟩ := ih h
      refine ⟨?_, h2⟩
      intro u dn k
      rw [h1, declaresIn_cons]
      simp [hname]
    · rename_i hname
      have hname : d.name = "unionElementOf" := by simpa using hname
      cases hu : d.args.get? "union" with
      | none => simp [hu] at h
      | some u =>
      cases hdn : d.args.get? "discriminator" with
      | none => simp [hdn] at h
      | some dn =>
      cases hk : d.args.get? "key" with
      | none => simp [hk] at h
      | some k =>
      rw [hu, hdn, hk] at h
      dsimp only at h
      have hcons : ∀ u' dn' k', DeclaresIn (d :: ds) u' dn' k' ↔
          (u = u' ∧ dn = dn' ∧ k = k') ∨ DeclaresIn ds u' dn' k' := by
        intro u' dn' k'
        rw [declaresIn_cons]
        simp [hname, hu, hdn, hk]
      split at h
      · rename_i hr
        rw [unref_iff] at hr
        obtain ⟨h1, h2⟩ := ih h
        refine ⟨?_, h2⟩
        intro u' dn' k'
        rw [h1, hcons]
        constructor
        · rintro ⟨a, b⟩; exact ⟨.inr a, b⟩
        · rintro ⟨⟨rfl, _, _⟩ | a, b⟩
          · exact absurd b hr
          · exact ⟨a, b⟩
      · rename_i hr
        rw [unref_iff, not_not] at hr
        cases hg : discr.get? u with
        | some dn' =>
          rw [hg] at h
          dsimp only at h
          split at h
          · simp at h
          · rename_i hdd
            have hdd : dn' = dn := by simpa using hdd
            subst hdd
            cases hrec : membershipsOf p.refInputs tn ds discr with
            | error e => rw [hrec] at h; simp at h
            | ok q =>
              obtain ⟨ms0, dis0⟩ := q
              rw [hrec] at h
              simp only [Except.ok.injEq, Prod.mk.injEq] at h
              obtain ⟨rfl, rfl⟩ := h
              obtain ⟨h1, h2, h3, h4⟩ := ih hrec
              refine ⟨?_, h2, ?_, ?_⟩
              · intro u' dn' k'
                rw [List.mem_cons, h1, hcons]
                simp only [Membership.mk.injEq]
                constructor
                · rintro (⟨rfl, rfl, rfl⟩ | ⟨a, b⟩)
                  · exact ⟨.inl ⟨rfl, rfl, rfl⟩, hr⟩
                  · exact ⟨.inr a, b⟩
                · rintro ⟨⟨rfl, rfl, rfl⟩ | a, b⟩
                  · exact .inl ⟨rfl, rfl, rfl⟩
                  · exact .inr ⟨a, b⟩
              · intro u' dn' k' hm
                rcases List.mem_cons.1 hm with hm | hm
                · cases hm; exact h2 _ _ hg
                · exact h3 _ _ _ hm
              · intro u' dn' hh
                rcases h4 u' dn' hh with hh | ⟨k', hh⟩
                · exact .inl hh
                · exact .inr ⟨k', List.mem_cons_of_mem _ hh⟩
        | none =>
          rw [hg] at h
          dsimp only at h
          cases hrec : membershipsOf p.refInputs tn ds (discr.set u dn) with
          | error e => rw [hrec] at h; simp at h
          | ok q =>
            obtain ⟨ms0, dis0⟩ := q
            rw [hrec] at h
            simp only [Except.ok.injEq, Prod.mk.injEq] at h
            obtain ⟨rfl, rfl⟩ := h
            obtain ⟨h1, h2, h3, h4⟩ := ih hrec
            refine ⟨?_, ?_, ?_, ?_⟩
            · intro u' dn' k'
              rw [List.mem_cons, h1, hcons]
              simp only [Membership.mk.injEq]
              constructor
              · rintro (⟨rfl, rfl, rfl⟩ | ⟨a, b⟩)
                · exact ⟨.inl ⟨rfl, rfl, rfl⟩, hr⟩
                · exact ⟨.inr a, b⟩
              · rintro ⟨⟨rfl, rfl, rfl⟩ | a, b⟩
                · exact .inl ⟨rfl, rfl, rfl⟩
                · exact .inr ⟨a, b⟩
            · intro u' dn' hh
              refine h2 u' dn' ?_
              rw [Dict.get?_set_ne]
              · exact hh
              · rintro rfl; rw [hg] at hh; cases hh
            · intro u' dn' k' hm
              rcases List.mem_cons.1 hm with hm | hm
              · cases hm; exact h2 _ _ (Dict.get?_set_self _ _ _)
              · exact h3 _ _ _ hm
            · intro u' dn' hh
              rcases h4 u' dn' hh with hx | ⟨k', hh⟩
              · rw [Dict.get?_set] at hx
                split at hx
                · rename_i he
                  subst he
                  obtain rfl := Option.some.inj hx
                  exact .inr ⟨k, List.mem_cons_self ..⟩
                · exact .inl hx
              · exact .inr ⟨k', List.mem_cons_of_mem _ hh⟩

theorem collectDiscriminators_ok {tn : String} {ms : List Membership} :
    ∀ {acc acc' : Dict String}, acc.keys.Nodup → collectDiscriminators tn ms acc = .ok acc' →
    acc'.keys.Nodup ∧ ∀ dn k, (dn, k) ∈ acc' ↔ (dn, k) ∈ acc ∨ ∃ u, ⟨u, dn, k⟩ ∈ ms := by
  induction ms with
  | nil =>
    intro acc acc' hn h
    simp only [collectDiscriminators, Except.ok.injEq] at h
    subst h
    exact ⟨hn, by simp⟩
  | cons m ms ih =>
    intro acc acc' hn h
    unfold collectDiscriminators at h
    have key : ∀ {d k}, (d, k) ∈ acc.set m.discriminator m.key →
        (acc.get? m.discriminator = some m.key ∨ acc.get? m.discriminator = none) →
        (d, k) ∈ acc ∨ (d = m.discriminator ∧ k = m.key) := by
      intro d k hm hor
      have := Dict.get?_of_mem_nodup (Dict.nodup_keys_set _ _ _ hn) hm
      rw [Dict.get?_set] at this
      split at this
      · rename_i he; cases this; exact .inr ⟨he.symm, rfl⟩
      · exact .inl (Dict.mem_of_get? this)
    have back : ∀ {d k}, (d, k) ∈ acc → (acc.get? m.discriminator = some m.key ∨ acc.get? m.discriminator = none) →
        (d, k) ∈ acc.set m.discriminator m.key := by
      intro d k hm hor
      have hg := Dict.get?_of_mem_nodup hn hm
      refine Dict.mem_of_get? ?_
      rw [Dict.get?_set]
      split
      · rename_i he
        subst he
        rcases hor with ho | ho
        · rw [hg] at ho; cases ho; rfl
        · rw [hg] at ho; cases ho
      · exact hg
    have fin : (acc.get? m.discriminator = some m.key ∨ acc.get? m.discriminator = none) →
        collectDiscriminators tn ms (acc.set m.discriminator m.key) = .ok acc' →
        acc'.keys.Nodup ∧ ∀ dn k, (dn, k) ∈ acc' ↔ (dn, k) ∈ acc ∨ ∃ u, ⟨u, dn, k⟩ ∈ m :: ms := by
      intro hor h
      obtain ⟨h1, h2⟩ := ih (Dict.nodup_keys_set _ _ _ hn) h
      refine ⟨h1, ?_⟩
      intro dn k
      rw [h2]
      constructor
      · rintro (hh | ⟨u, hu⟩)
        · rcases key hh hor with hh | ⟨rfl, rfl⟩
          · exact .inl hh
          · exact .inr ⟨m.union, by simp⟩
        · exact .inr ⟨u, List.mem_cons_of_mem _ hu⟩
      · rintro (hh | ⟨u, hu⟩)
        · exact .inl (back hh hor)
        · rcases List.mem_cons.1 hu with hu | hu
          · refine .inl ?_
            subst hu
            exact Dict.mem_of_get? (Dict.get?_set_self _ _ _)
          · exact .inr ⟨u, hu⟩
    cases hg : acc.get? m.discriminator with
    | none =>
      rw [hg] at h
      exact fin (.inr hg) h
    | some v =>
      rw [hg] at h
      dsimp only at h
      split at h
      · simp at h
      · rename_i hv
        have hv : v = m.key := by simpa using hv
        subst hv
        exact fin (.inl hg) h

theorem setAdd_idem {l : List String} {a : String} : setAdd (setAdd l a) a = setAdd l a := by
  have : a ∈ setAdd l a := (mem_setAdd _ _ _).2 (.inr rfl)
  rw [setAdd, if_pos this]

theorem addMembers_get? (ms : List Membership) (name v : String) : ∀ U : Dict (List String),
    (ms.foldl (fun u m => addMember u m.union name) U).get? v =
      if ∃ m ∈ ms, m.union = v then some (setAdd ((U.get? v).getD []) name) else U.get? v := by
  induction ms with
  | nil => intro U; simp
  | cons m ms ih =>
    intro U
    rw [List.foldl_cons, ih]
    unfold addMember
    rw [Dict.get?_set]
    by_cases hm : m.union = v
    · subst hm
      simp only [if_true, Option.getD_some, setAdd_idem]
      split <;> simp
    · simp [hm]

/-- a member's class: emitted by the generic class builder with exactly its declared discriminators -/
def MemberClass (c : Ctx) (p : InputsConfig) (sm : Dict String) (t : InputType) (s : Stmt) : Prop :=
  ∃ (r1 r2 : Reg) (cls : String) (ds : List Discriminator), Styled c.env r1 ∧ r1.scalarMap = sm ∧ Kind.input.style c.env t.name = .ok cls ∧
    generateInputType c p cls t.name t.description t.fields ds r1 = .ok (s, r2) ∧
    (ds.map (·.discriminator)).Nodup ∧
    ∀ dn k, ⟨dn, k⟩ ∈ ds ↔ ∃ u, Declares t u dn k ∧ Referenced p u

theorem prePassStep_ok {c : Ctx} {p : InputsConfig} {t : InputType} {acc acc' : PrePass} {r r' : Reg}
    (hs : Styled c.env r) (hp : PlainConfig c.config) (hb : ∀ b ∈ p.bases, External r (lastComponent b))
    (h : prePassStep c p t acc r = .ok (acc', r')) :
    ∃ K ss, acc'.tree = acc.tree ++ ss ∧ Emits c.env .input r r' K ss ∧ (∀ k, k ∈ K ↔ IsMember p t ∧ t.name = k) ∧
    (∀ x, x ∈ acc'.memberTypes ↔ x ∈ acc.memberTypes ∨ (IsMember p t ∧ t.name = x)) ∧
    (∀ v x, x ∈ (acc'.unionTypes.get? v).getD [] ↔ x ∈ (acc.unionTypes.get? v).getD [] ∨
      (MemberOf p t v ∧ Kind.input.style c.env t.name = .ok x)) ∧
    (∀ v, (acc'.unionTypes.get? v).isSome = true ↔ (acc.unionTypes.get? v).isSome = true ∨ MemberOf p t v) ∧
    (∀ v, ((acc.unionTypes.get? v).getD []).Nodup → ((acc'.unionTypes.get? v).getD []).Nodup) ∧
    (∀ u dn, acc.discriminators.get? u = some dn → acc'.discriminators.get? u = some dn) ∧
    (∀ u dn k, Declares t u dn k → Referenced p u → acc'.discriminators.get? u = some dn) ∧
    (IsMember p t → ∃ s ∈ ss, MemberClass c p r.scalarMap t s) := by
  unfold prePassStep at h
  obtain ⟨⟨ms, discr⟩, r1, h1, h⟩ := Gen.bind_ok.1 h
  obtain ⟨h1', rfl⟩ := Gen.lift_ok.1 h1
  obtain ⟨m1, m2, m3, m4⟩ := membershipsOf_ok h1'
  have hmem : ∀ v, (∃ m ∈ ms, m.union = v) ↔ MemberOf p t v := by
    intro v
    constructor
    · rintro ⟨⟨u, dn, k⟩, hm, rfl⟩
      obtain ⟨a, b⟩ := (m1 _ _ _).1 hm
      exact ⟨dn, k, a, b⟩
    · rintro ⟨dn, k, a, b⟩
      exact ⟨⟨v, dn, k⟩, (m1 _ _ _).2 ⟨a, b⟩, rfl⟩
  dsimp only at h
  split at h
  · rename_i he
    have he : ms = [] := by simpa using he
    subst he
    obtain ⟨rfl, rfl⟩ := Gen.pure_ok.1 h
    have hno : ∀ v, ¬ MemberOf p t v := fun v hv => by simpa using (hmem v).2 hv
    have hno' : ¬ IsMember p t := fun ⟨v, hv⟩ => hno v hv
    refine ⟨[], [], by simp, Emits.nil (Soft.refl _), by simp [hno'], by simp [hno'], by simp [hno], by simp [hno], fun v h => h, m2, ?_, fun hh => absurd hh hno'⟩
    intro u dn k hd hr
    exact absurd ⟨dn, k, hd, hr⟩ (hno u)
  · rename_i he
    have he : ms ≠ [] := by simpa using he
    have hyes : IsMember p t := by
      obtain ⟨m, rest, rfl⟩ := List.exists_cons_of_ne_nil he
      exact ⟨m.union, (hmem _).1 ⟨m, by simp, rfl⟩⟩
    obtain ⟨ds, r2, h2, h⟩ := Gen.bind_ok.1 h
    obtain ⟨h2', rfl⟩ := Gen.lift_ok.1 h2
    obtain ⟨dn1, dn2⟩ := collectDiscriminators_ok (by simp [Dict.keys]) h2'
    obtain ⟨name, r3, h3, h⟩ := Gen.bind_ok.1 h
    obtain ⟨cls, r4, h4, h⟩ := Gen.bind_ok.1 h
    obtain ⟨rfl, rfl⟩ := Gen.pure_ok.1 h
    obtain ⟨_, hst, hr3⟩ := generateClass_ok h3
    have hs3 : Styled c.env r3 := by
      have := (Emits.define (ss := [.assign (.name name) (.const .none)]) h3 (Soft.refl _) rfl
        (fun ext _ _ => ⟨by simp [evaluated, freeNames], trivial⟩))
      exact this.styled hs
    have hb3 : ∀ b ∈ p.bases, External r3 (lastComponent b) := by
      intro b hbm; rw [hr3]; exact external_setClass.2 (hb b hbm)
    obtain ⟨s4, b4, u4⟩ := soft_generateInputType hs3 hp hb3 h4
    have hcls : ∃ bs body, cls = .classDef name bs body [] := by
      unfold generateInputType at h4
      obtain ⟨_, _, _, h4⟩ := Gen.bind_ok.1 h4
      obtain ⟨_, _, _, h4⟩ := Gen.bind_ok.1 h4
      obtain ⟨_, _, _, h4⟩ := Gen.bind_ok.1 h4
      obtain ⟨_, _, _, h4⟩ := Gen.bind_ok.1 h4
      obtain ⟨h4, _⟩ := Gen.pure_ok.1 h4
      exact ⟨_, _, h4.symm⟩
    refine ⟨[t.name], [cls], rfl, Emits.defineClass h3 s4 ?_ u4, ?_, ?_, ?_, ?_, ?_, m2, ?_, ?_⟩
    · obtain ⟨bs, body, rfl⟩ := hcls; rfl
    · intro k; simp [hyes, eq_comm]
    · intro x; simp [mem_setAdd, hyes, eq_comm]
    · intro v x
      rw [addMembers_get?]
      simp only [hst, Except.ok.injEq]
      by_cases hv : MemberOf p t v
      · rw [if_pos ((hmem v).2 hv), Option.getD_some, mem_setAdd]
        simp only [hv, true_and, eq_comm (a := x)]
      · rw [if_neg (mt (hmem v).1 hv)]; simp [hv]
    · intro v
      rw [addMembers_get?]
      by_cases hv : MemberOf p t v
      · rw [if_pos ((hmem v).2 hv)]; simp [hv]
      · rw [if_neg (mt (hmem v).1 hv)]; simp [hv]
    · intro v hv
      rw [addMembers_get?]
      split
      · exact nodup_setAdd _ _ hv
      · exact hv
    · intro u dn k hd hr
      exact m3 u dn k ((m1 _ _ _).2 ⟨hd, hr⟩)
    · intro _
      refine ⟨cls, by simp, r3, r4, name, _, hs3, by rw [hr3]; rfl, hst, h4, ?_, ?_⟩
      · simpa [List.map_map, Dict.keys, Function.comp_def] using dn1
      · intro dn k
        constructor
        · intro hm
          obtain ⟨q, hq, he⟩ := List.mem_map.1 hm
          cases he
          rcases (dn2 q.1 q.2).1 hq with hh | ⟨u, hu⟩
          · simp at hh
          · exact ⟨u, (m1 _ _ _).1 hu⟩
        · rintro ⟨u, hd, hr⟩
          exact List.mem_map.2 ⟨(dn, k), (dn2 dn k).2 (.inr ⟨u, (m1 _ _ _).2 ⟨hd, hr⟩⟩), rfl⟩

theorem prePass_ok {c : Ctx} {p : InputsConfig} (hp : PlainConfig c.config) {ts : List InputType} :
    ∀ {acc acc' : PrePass} {r r' : Reg}, Styled c.env r → (∀ b ∈ p.bases, External r (lastComponent b)) →
    prePass c p ts acc r = .ok (acc', r') →
    ∃ K ss, acc'.tree = acc.tree ++ ss ∧ Emits c.env .input r r' K ss ∧
    (∀ k, k ∈ K ↔ ∃ t ∈ ts, IsMember p t ∧ t.name = k) ∧
    (∀ x, x ∈ acc'.memberTypes ↔ x ∈ acc.memberTypes ∨ ∃ t ∈ ts, IsMember p t ∧ t.name = x) ∧
    (∀ v x, x ∈ (acc'.unionTypes.get? v).getD [] ↔ x ∈ (acc.unionTypes.get? v).getD [] ∨
      ∃ t ∈ ts, MemberOf p t v ∧ Kind.input.style c.env t.name = .ok x) ∧
    (∀ v, (acc'.unionTypes.get? v).isSome = true ↔ (acc.unionTypes.get? v).isSome = true ∨ ∃ t ∈ ts, MemberOf p t v) ∧
    (∀ v, ((acc.unionTypes.get? v).getD []).Nodup → ((acc'.unionTypes.get? v).getD []).Nodup) ∧
    (∀ u dn, acc.discriminators.get? u = some dn → acc'.discriminators.get? u = some dn) ∧
    (∀ t ∈ ts, ∀ u dn k, Declares t u dn k → Referenced p u → acc'.discriminators.get? u = some dn) ∧
    (∀ t ∈ ts, IsMember p t → ∃ s ∈ ss, MemberClass c p r.scalarMap t s) := by
  induction ts with
  | nil =>
    intro acc acc' r r' hs hb h
    obtain ⟨rfl, rfl⟩ := Gen.pure_ok.1 h
    exact ⟨[], [], by simp, Emits.nil (Soft.refl _), by simp, by simp, by simp, by simp, fun _ h => h, fun _ _ h => h,
      by simp, by simp⟩
  | cons t ts ih =>
    intro acc acc' r r' hs hb h
    unfold prePass at h
    obtain ⟨acc1, r1, h1, h2⟩ := Gen.bind_ok.1 h
    obtain ⟨K1, s1, a1, e1, k1, mt1, ut1, us1, un1, d1, dd1, c1⟩ := prePassStep_ok hs hp hb h1
    obtain ⟨K2, s2, a2, e2, k2, mt2, ut2, us2, un2, d2, dd2, c2⟩ := ih (e1.styled hs) (fun b hbm => e1.ext _ (hb b hbm)) h2
    refine ⟨K1 ++ K2, s1 ++ s2, by rw [a2, a1, List.append_assoc], e1.append e2, ?_, ?_, ?_, ?_, ?_, ?_, ?_, ?_⟩
    · intro k; rw [List.mem_append, k1, k2]; simp
    · intro x; rw [mt2, mt1]; simp [or_assoc]
    · intro v x; rw [ut2, ut1]; simp [or_assoc]
    · intro v; rw [us2, us1]; simp [or_assoc]
    · intro v hv; exact un2 v (un1 v hv)
    · intro u dn hh; exact d2 u dn (d1 u dn hh)
    · intro t' ht' u dn k hd hr
      rcases List.mem_cons.1 ht' with rfl | ht'
      · exact d2 _ _ (dd1 u dn k hd hr)
      · exact dd2 t' ht' u dn k hd hr
    · intro t' ht' hm
      rcases List.mem_cons.1 ht' with rfl | ht'
      · obtain ⟨s, hs', hc⟩ := c1 hm
        exact ⟨s, List.mem_append_left _ hs', hc⟩
      · obtain ⟨s, hs', hc⟩ := c2 t' ht' hm
        rw [e1.scalar] at hc
        exact ⟨s, List.mem_append_right _ hs', hc⟩


theorem directMembers_ok {c : Ctx} {p : InputsConfig} {t : InputType} {ms : Dict String} :
    directMembers c p t = some ms ↔ DirectUnion c p t ∧ ms = t.fields.map fun f => (f.name, f.type.base) := by
  unfold directMembers
  split
  · rename_i hv
    cases hm : oneofMemberMap c.schema t.fields with
    | none =>
      simp only
      constructor
      · intro h; cases h
      · rintro ⟨⟨_, h1, h2, h3⟩, rfl⟩
        have := oneofMemberMap_ok (s := c.schema).2 ⟨h1, fun f hf => by
          obtain ⟨m, gs, ds, a, b, d, _⟩ := h2 f hf
          exact ⟨m, gs, ds, a, b, d⟩, h3, rfl⟩
        rw [hm] at this; cases this
    | some ms' =>
      obtain ⟨h1, h2, h3, rfl⟩ := oneofMemberMap_ok.1 hm
      simp only
      have hany : (List.map (fun f : InputFieldDef => (f.name, f.type.base)) t.fields).any (fun m => memberMissing p m.2) = true ↔
          ∃ f ∈ t.fields, ¬ Kept p f.type.base := by
        rw [List.any_eq_true]
        constructor
        · rintro ⟨q, hq, h⟩
          obtain ⟨f, hf, rfl⟩ := List.mem_map.1 hq
          exact ⟨f, hf, (memberMissing_iff _ _).1 h⟩
        · rintro ⟨f, hf, h⟩
          exact ⟨_, List.mem_map.2 ⟨f, hf, rfl⟩, (memberMissing_iff _ _).2 h⟩
      split
      · rename_i ha
        obtain ⟨f, hf, hk⟩ := hany.1 ha
        constructor
        · intro h; cases h
        · rintro ⟨⟨_, _, h, _⟩, _⟩
          obtain ⟨m, gs, ds, a, _, _, hkk⟩ := h f hf
          rw [a] at hk
          exact absurd hkk hk
      · rename_i ha
        simp only [Option.some.injEq]
        constructor
        · rintro rfl
          refine ⟨⟨hv, h1, ?_, h3⟩, rfl⟩
          intro f hf
          obtain ⟨m, gs, ds, a, b, d⟩ := h2 f hf
          refine ⟨m, gs, ds, a, b, d, ?_⟩
          by_contra hk
          refine ha (hany.2 ⟨f, hf, ?_⟩)
          rw [a]; exact hk
        · rintro ⟨_, rfl⟩; rfl
  · rename_i hv
    constructor
    · intro h; cases h
    · rintro ⟨⟨h, _⟩, _⟩; exact absurd h hv

/-- what an input class statement is -/
def PlainClass (c : Ctx) (p : InputsConfig) (sm : Dict String) (t : InputType) (s : Stmt) : Prop :=
  ∃ (r1 r2 : Reg) (cls : String), Styled c.env r1 ∧ r1.scalarMap = sm ∧ Kind.input.style c.env t.name = .ok cls ∧
    generateInputType c p cls t.name t.description t.fields [] r1 = .ok (s, r2)

theorem generateInputType_classDef {c : Ctx} {p : InputsConfig} {name tn : String} {desc : Option String}
    {fields : List InputFieldDef} {ds : List Discriminator} {s : Stmt} {r r' : Reg}
    (h4 : generateInputType c p name tn desc fields ds r = .ok (s, r')) : ∃ bs body, s = .classDef name bs body [] := by
  unfold generateInputType at h4
  obtain ⟨_, _, _, h4⟩ := Gen.bind_ok.1 h4
  obtain ⟨_, _, _, h4⟩ := Gen.bind_ok.1 h4
  obtain ⟨_, _, _, h4⟩ := Gen.bind_ok.1 h4
  obtain ⟨_, _, _, h4⟩ := Gen.bind_ok.1 h4
  obtain ⟨h4, _⟩ := Gen.pure_ok.1 h4
  exact ⟨_, _, h4.symm⟩

theorem styled_generateClass {env : Env} {k : Kind} {t name : String} {r r1 : Reg} (hs : Styled env r)
    (h : generateClass env k t r = .ok (name, r1)) : Styled env r1 :=
  (Emits.define (ss := [.assign (.name name) (.const .none)]) h (Soft.refl _) rfl
    (fun ext _ _ => ⟨by simp [evaluated, freeNames], trivial⟩)).styled hs

/-- the keys registered by the main loop for `t` -/
def MainKey (c : Ctx) (p : InputsConfig) (pre : PrePass) (t : InputType) (k : String) : Prop :=
  t.name ∉ pre.memberTypes ∧ Kept p t.name ∧
  ((¬ OneOf t.directives ∧ k = t.name) ∨
   (OneOf t.directives ∧ ¬ DirectUnion c p t ∧ (k = t.name ∨ ∃ f ∈ t.fields, k = t.name ++ upperFirst f.name)))

theorem mainStep_ok {c : Ctx} {p : InputsConfig} {pre : PrePass} {t : InputType} {ss : List Stmt}
    {d : Option (String × Dict String)} {r r' : Reg}
    (hs : Styled c.env r) (hp : PlainConfig c.config) (hb : ∀ b ∈ p.bases, External r (lastComponent b))
    (hu : ∀ v ms, pre.unionTypes.get? v = some ms → ∀ m ∈ ms, Registered r m)
    (h : mainStep c p pre t r = .ok ((ss, d), r')) :
    ∃ K, Emits c.env .input r r' K ss ∧ (∀ k, k ∈ K ↔ MainKey c p pre t k) ∧
      (∀ x, d = some x ↔ t.name ∉ pre.memberTypes ∧ Kept p t.name ∧ OneOf t.directives ∧ DirectUnion c p t ∧
        x = (t.name, t.fields.map fun f => (f.name, f.type.base))) ∧
      (t.name ∉ pre.memberTypes → Kept p t.name → OneOf t.directives → OneOfValid t.fields) ∧
      (t.name ∉ pre.memberTypes → Kept p t.name → ¬ OneOf t.directives → pre.unionTypes.get? t.name = none →
        ∃ s ∈ ss, PlainClass c p r.scalarMap t s) ∧
      (t.name ∉ pre.memberTypes → Kept p t.name → ¬ OneOf t.directives → ∀ ms, pre.unionTypes.get? t.name = some ms →
        ∃ cls, Kind.input.style c.env t.name = .ok cls ∧
          discriminatedUnion cls ms ((pre.discriminators.get? t.name).getD "") ∈ ss) ∧
      (t.name ∉ pre.memberTypes → Kept p t.name → OneOf t.directives → ¬ DirectUnion c p t →
        ∃ rw rw' ws, Styled c.env rw ∧ rw.scalarMap = r.scalarMap ∧ generateOneofWrapperInput c p t.name t.fields rw = .ok (ws, rw') ∧
          ∀ s ∈ ws, s ∈ ss) := by
  unfold mainStep at h
  split at h
  · rename_i hm
    have hm : t.name ∈ pre.memberTypes := by simpa using hm
    obtain ⟨he, rfl⟩ := Gen.pure_ok.1 h
    cases he
    refine ⟨[], Emits.nil (Soft.refl _), ?_, ?_, fun h => absurd hm h, fun h => absurd hm h, fun h => absurd hm h,
      fun h => absurd hm h⟩
    · intro k; simp [MainKey, hm]
    · intro x; simp [hm]
  · rename_i hm
    have hm : t.name ∉ pre.memberTypes := by simpa using hm
    split at h
    · rename_i hr
      rw [unref_iff] at hr
      have hk : ¬ Kept p t.name := fun hk => hr hk.1
      obtain ⟨he, rfl⟩ := Gen.pure_ok.1 h
      cases he
      refine ⟨[], Emits.nil (Soft.refl _), ?_, ?_, fun _ h => absurd h hk, fun _ h => absurd h hk, fun _ h => absurd h hk,
        fun _ h => absurd h hk⟩
      · intro k; simp [MainKey, hk]
      · intro x; simp [hk]
    · rename_i hr
      rw [unref_iff, not_not] at hr
      split at h
      · rename_i hus
        have hk : ¬ Kept p t.name := by
          intro hk
          refine hk.2 ?_
          rw [Bool.and_eq_true, underscored_iff] at hus
          exact hus
        obtain ⟨he, rfl⟩ := Gen.pure_ok.1 h
        cases he
        refine ⟨[], Emits.nil (Soft.refl _), ?_, ?_, fun _ h => absurd h hk, fun _ h => absurd h hk, fun _ h => absurd h hk,
          fun _ h => absurd h hk⟩
        · intro k; simp [MainKey, hk]
        · intro x; simp [hk]
      · rename_i hus
        have hk : Kept p t.name := by
          refine ⟨hr, ?_⟩
          rw [Bool.and_eq_true, underscored_iff] at hus
          exact hus
        split at h
        · rename_i ho
          rw [isOneof_iff] at ho
          obtain ⟨_, r1, h1, h⟩ := Gen.bind_ok.1 h
          obtain ⟨h1', rfl⟩ := Gen.lift_ok.1 h1
          have hval := validateOneof_ok.1 h1'
          cases hd : directMembers c p t with
          | some ms =>
            rw [hd] at h
            dsimp only at h
            obtain ⟨he, rfl⟩ := Gen.pure_ok.1 h
            cases he
            obtain ⟨hdu, hms⟩ := directMembers_ok.1 hd
            subst hms
            refine ⟨[], Emits.nil (Soft.refl _), ?_, ?_, fun _ _ _ => hval, fun _ _ h => absurd ho h,
              fun _ _ h => absurd ho h, fun _ _ _ h => absurd hdu h⟩
            · intro k; simp [MainKey, ho, hdu]
            · intro x; simp [hm, hk, ho, hdu, eq_comm]
          | none =>
            rw [hd] at h
            dsimp only at h
            have hdu : ¬ DirectUnion c p t := by
              intro hdu
              have := directMembers_ok.2 ⟨hdu, rfl⟩
              rw [hd] at this; cases this
            obtain ⟨s, r2, h2, h⟩ := Gen.bind_ok.1 h
            obtain ⟨he, rfl⟩ := Gen.pure_ok.1 h
            cases he
            refine ⟨_, generateOneofWrapperInput_emits hs hp hb h2, ?_, ?_, fun _ _ _ => hval, fun _ _ h => absurd ho h,
              fun _ _ h => absurd ho h, fun _ _ _ _ => ⟨_, _, _, hs, rfl, h2, fun _ h => h⟩⟩
            · intro k
              simp only [MainKey, hm, hk, ho, hdu, not_true_eq_false, false_and, not_false_eq_true, true_and, false_or,
                List.mem_append, List.mem_map, List.mem_cons, List.not_mem_nil, or_false]
              have hup : ∀ n, pascal n = upperFirst n := fun n => rfl
              constructor
              · rintro (⟨f, hf, rfl⟩ | rfl)
                · exact .inr ⟨f, hf, by rw [hup]⟩
                · exact .inl rfl
              · rintro (rfl | ⟨f, hf, rfl⟩)
                · exact .inr rfl
                · exact .inl ⟨f, hf, by rw [hup]⟩
            · intro x; simp [hdu]
        · rename_i ho
          rw [isOneof_iff] at ho
          have hkeys : ∀ k, k ∈ [t.name] ↔ MainKey c p pre t k := by
            intro k; simp [MainKey, hm, hk, ho]
          cases hun : pre.unionTypes.get? t.name with
          | some members =>
            rw [hun] at h
            dsimp only at h
            obtain ⟨_, r1, h1, h⟩ := Gen.bind_ok.1 h
            obtain ⟨name, r2, h2, h⟩ := Gen.bind_ok.1 h
            obtain ⟨he, rfl⟩ := Gen.pure_ok.1 h
            cases he
            obtain ⟨s1, e1⟩ := soft_registerImports h1
            obtain ⟨_, hst, hr2⟩ := generateClass_ok h2
            have hmap : ∀ ms : List String, freeNamesL (ms.map Expr.name) = ms := by
              intro ms
              induction ms with
              | nil => rfl
              | cons m ms ih => simp [freeNamesL, freeNames, ih]
            refine ⟨[t.name], (Emits.define h2 (Soft.refl _) rfl ?_).softLeft s1, hkeys, ?_, fun _ _ h => absurd h ho,
              fun _ _ _ h => by simp at h, ?_, fun _ _ h => absurd h ho⟩
            · intro ext he hrg
              refine ⟨?_, trivial⟩
              intro n hn
              simp only [discriminatedUnion, evaluated, sub, freeNames, freeNamesL, freeNamesK, hmap, List.cons_append,
                List.nil_append, List.append_nil, List.mem_cons, List.mem_append, Expr.str, List.not_mem_nil, or_false] at hn
              have ext2 : ∀ x, External r1 x → ext x := by
                intro x hx; refine he x ?_; rw [hr2]; exact external_setClass.2 hx
              rcases hn with rfl | rfl | hn | rfl
              · exact ext2 _ ((e1 "typing.Annotated" (by simp)).at (by decide +kernel))
              · exact ext2 _ ((e1 "typing.Union" (by simp)).at (by decide +kernel))
              · exact hrg n (s1.registered.2 (hu _ _ hun n hn))
              · exact ext2 _ ((e1 "pydantic.Field" (by simp)).at (by decide +kernel))
            · intro x; simp [ho]
            · intro _ _ _ ms hms
              obtain rfl := Option.some.inj hms
              exact ⟨name, hst, by simp⟩
          | none =>
            rw [hun] at h
            dsimp only at h
            obtain ⟨name, r2, h2, h⟩ := Gen.bind_ok.1 h
            obtain ⟨cls, r3, h3, h⟩ := Gen.bind_ok.1 h
            obtain ⟨he, rfl⟩ := Gen.pure_ok.1 h
            cases he
            obtain ⟨_, hst, hr2⟩ := generateClass_ok h2
            have hs2 := styled_generateClass hs h2
            have hb2 : ∀ b ∈ p.bases, External r2 (lastComponent b) := by
              intro b hbm; rw [hr2]; exact external_setClass.2 (hb b hbm)
            obtain ⟨s3, b3, u3⟩ := soft_generateInputType hs2 hp hb2 h3
            refine ⟨[t.name], Emits.defineClass h2 s3 ?_ u3, hkeys, ?_, fun _ _ h => absurd h ho, ?_,
              fun _ _ _ ms h => by simp at h, fun _ _ h => absurd h ho⟩
            · obtain ⟨bs, body, rfl⟩ := generateInputType_classDef h3; rfl
            · intro x; simp [ho]
            · intro _ _ _ _
              exact ⟨cls, by simp, r2, r3, name, hs2, by rw [hr2]; rfl, hst, h3⟩

theorem mainLoop_ok {c : Ctx} {p : InputsConfig} {pre : PrePass} (hp : PlainConfig c.config) {ts : List InputType} :
    ∀ {ss : List Stmt} {ds : List (String × Dict String)} {r r' : Reg}, Styled c.env r →
    (∀ b ∈ p.bases, External r (lastComponent b)) →
    (∀ v ms, pre.unionTypes.get? v = some ms → ∀ m ∈ ms, Registered r m) →
    mainLoop c p pre ts r = .ok ((ss, ds), r') →
    ∃ K, Emits c.env .input r r' K ss ∧ (∀ k, k ∈ K ↔ ∃ t ∈ ts, MainKey c p pre t k) ∧
      (∀ x, x ∈ ds ↔ ∃ t ∈ ts, t.name ∉ pre.memberTypes ∧ Kept p t.name ∧ OneOf t.directives ∧ DirectUnion c p t ∧
        x = (t.name, t.fields.map fun f => (f.name, f.type.base))) ∧
      (∀ t ∈ ts, t.name ∉ pre.memberTypes → Kept p t.name → OneOf t.directives → OneOfValid t.fields) ∧
      (∀ t ∈ ts, t.name ∉ pre.memberTypes → Kept p t.name → ¬ OneOf t.directives → pre.unionTypes.get? t.name = none →
        ∃ s ∈ ss, PlainClass c p r.scalarMap t s) ∧
      (∀ t ∈ ts, t.name ∉ pre.memberTypes → Kept p t.name → ¬ OneOf t.directives →
        ∀ ms, pre.unionTypes.get? t.name = some ms → ∃ cls, Kind.input.style c.env t.name = .ok cls ∧
          discriminatedUnion cls ms ((pre.discriminators.get? t.name).getD "") ∈ ss) ∧
      (∀ t ∈ ts, t.name ∉ pre.memberTypes → Kept p t.name → OneOf t.directives → ¬ DirectUnion c p t →
        ∃ rw rw' ws, Styled c.env rw ∧ rw.scalarMap = r.scalarMap ∧ generateOneofWrapperInput c p t.name t.fields rw = .ok (ws, rw') ∧
          ∀ s ∈ ws, s ∈ ss) := by
  induction ts with
  | nil =>
    intro ss ds r r' hs hb hu h
    obtain ⟨he, rfl⟩ := Gen.pure_ok.1 h
    cases he
    exact ⟨[], Emits.nil (Soft.refl _), by simp, by simp, by simp, by simp, by simp, by simp⟩
  | cons t ts ih =>
    intro ss ds r r' hs hb hu h
    unfold mainLoop at h
    obtain ⟨⟨s, d⟩, r1, h1, h⟩ := Gen.bind_ok.1 h
    dsimp only at h
    obtain ⟨⟨ss', ds'⟩, r2, h2, h⟩ := Gen.bind_ok.1 h
    dsimp only at h
    obtain ⟨he, rfl⟩ := Gen.pure_ok.1 h
    cases he
    obtain ⟨K1, e1, k1, d1, v1, p1, u1, w1⟩ := mainStep_ok hs hp hb hu h1
    obtain ⟨K2, e2, k2, d2, v2, p2, u2, w2⟩ := ih (e1.styled hs) (fun b hbm => e1.ext _ (hb b hbm))
      (fun v ms hv m hm => e1.registered.2 (.inl (hu v ms hv m hm))) h2
    refine ⟨K1 ++ K2, e1.append e2, ?_, ?_, ?_, ?_, ?_, ?_⟩
    · intro k; rw [List.mem_append, k1, k2]; simp
    · intro x
      rw [List.mem_append, Option.mem_toList, d1, d2]; simp
    · intro t' ht'
      rcases List.mem_cons.1 ht' with rfl | ht'
      · exact v1
      · exact v2 t' ht'
    · intro t' ht' a b e f
      rcases List.mem_cons.1 ht' with rfl | ht'
      · obtain ⟨s, hs, hc⟩ := p1 a b e f; exact ⟨s, List.mem_append_left _ hs, hc⟩
      · obtain ⟨s, hs, hc⟩ := p2 t' ht' a b e f; rw [e1.scalar] at hc; exact ⟨s, List.mem_append_right _ hs, hc⟩
    · intro t' ht' a b e ms f
      rcases List.mem_cons.1 ht' with rfl | ht'
      · obtain ⟨cls, hs, hc⟩ := u1 a b e ms f; exact ⟨cls, hs, List.mem_append_left _ hc⟩
      · obtain ⟨cls, hs, hc⟩ := u2 t' ht' a b e ms f; exact ⟨cls, hs, List.mem_append_right _ hc⟩
    · intro t' ht' a b e f
      rcases List.mem_cons.1 ht' with rfl | ht'
      · obtain ⟨x, y, z, hs, hsm, hc, hh⟩ := w1 a b e f
        exact ⟨x, y, z, hs, hsm, hc, fun s h => List.mem_append_left _ (hh s h)⟩
      · obtain ⟨x, y, z, hs, hsm, hc, hh⟩ := w2 t' ht' a b e f
        exact ⟨x, y, z, hs, hsm.trans e1.scalar, hc, fun s h => List.mem_append_right _ (hh s h)⟩

theorem deferredUnions_ok {c : Ctx} {ds : List (String × Dict String)} :
    ∀ {ss : List Stmt} {r r' : Reg}, (∀ d ∈ ds, d.2 ≠ [] ∧ ∀ m ∈ d.2, m.2 ≠ d.1) →
    deferredUnions c ds r = .ok (ss, r') → Emits c.env .input r r' (ds.map (·.1)) ss ∧
      ∀ d ∈ ds, ∃ r1 r2 us, generateOneofDirectUnion c d.1 d.2 r1 = .ok (us, r2) ∧ (∀ u ∈ us, u ∈ ss) ∧
        (Styled c.env r → Styled c.env r1) := by
  induction ds with
  | nil =>
    intro ss r r' _ h
    obtain ⟨rfl, rfl⟩ := Gen.pure_ok.1 h
    exact ⟨Emits.nil (Soft.refl _), by simp⟩
  | cons d ds ih =>
    obtain ⟨n, ms⟩ := d
    intro ss r r' hd h
    unfold deferredUnions at h
    obtain ⟨s, r1, h1, h⟩ := Gen.bind_ok.1 h
    obtain ⟨ss', r2, h2, h⟩ := Gen.bind_ok.1 h
    obtain ⟨rfl, rfl⟩ := Gen.pure_ok.1 h
    obtain ⟨hne, hd0⟩ := hd (n, ms) (by simp)
    have e1 := generateOneofDirectUnion_emits hd0 hne h1
    obtain ⟨e2, i2⟩ := ih (fun d hdm => hd d (by simp [hdm])) h2
    refine ⟨e1.append e2, ?_⟩
    intro d hdm
    rcases List.mem_cons.1 hdm with rfl | hdm
    · exact ⟨r, r1, s, h1, fun u hu => List.mem_append_left _ hu, fun h => h⟩
    · obtain ⟨x, y, us, hh, hu, hg⟩ := i2 d hdm
      exact ⟨x, y, us, hh, fun u h => List.mem_append_right _ (hu u h), fun h => hg (e1.styled h)⟩

theorem mem_inputTypes {s : Schema} {t : InputType} : t ∈ inputTypes s ↔ InputOf s t := by
  unfold inputTypes InputOf
  rw [List.mem_filterMap]
  constructor
  · rintro ⟨⟨n, e⟩, hp, h⟩
    cases he : e.defn with
    | input fs ds =>
      rw [he] at h
      simp only [Option.some.injEq] at h
      subst h
      exact ⟨e, hp, he, rfl⟩
    | scalar | enum | object | interface | union => rw [he] at h; simp at h
  · rintro ⟨e, hp, he, hd⟩
    refine ⟨(t.name, e), hp, ?_⟩
    simp only [he, hd]


theorem inputOf_unique {s : Schema} (hn : s.types.keys.Nodup) {t t' : InputType} (h : InputOf s t) (h' : InputOf s t')
    (he : t.name = t'.name) : t = t' := by
  obtain ⟨e, he1, he2, he3⟩ := h
  obtain ⟨e', he1', he2', he3'⟩ := h'
  rw [← he] at he1'
  have a := Dict.get?_of_mem_nodup hn he1
  have b := Dict.get?_of_mem_nodup hn he1'
  rw [a] at b
  obtain rfl := Option.some.inj b
  rw [he2] at he2'
  cases t; cases t'
  simp only [TypeDef.input.injEq] at he he2' he3 he3'
  obtain ⟨rfl, rfl⟩ := he2'
  subst he; subst he3; subst he3'
  rfl

theorem inputOf_lookup {s : Schema} (hn : s.types.keys.Nodup) {t : InputType} (h : InputOf s t) :
    s.lookup t.name = some (.input t.fields t.directives) := by
  obtain ⟨e, he1, he2, he3⟩ := h
  unfold Schema.lookup
  rw [Dict.get?_of_mem_nodup hn he1, Option.map_some, he2]

/-- everything the inputs plugin guarantees -/
theorem generateInputs_ok {c : Ctx} {p : InputsConfig} {ss : List Stmt} {r r' : Reg}
    (hs : Styled c.env r) (hp : PlainConfig c.config) (hn : c.schema.types.keys.Nodup)
    (h : generateInputs c p r = .ok (ss, r')) :
    (∃ K, Emits c.env .input r r' K ss ∧ ∀ k, k ∈ K ↔ InputKey c p k) ∧
    (∀ t, InputOf c.schema t → IsMember p t → ∃ s ∈ ss, MemberClass c p r.scalarMap t s) ∧
    (∀ t, InputOf c.schema t → ¬ IsMember p t → Kept p t.name → OneOf t.directives → OneOfValid t.fields) ∧
    (∀ t, InputOf c.schema t → ¬ IsMember p t → Kept p t.name → ¬ OneOf t.directives →
      (∀ t', InputOf c.schema t' → ¬ MemberOf p t' t.name) → ∃ s ∈ ss, PlainClass c p r.scalarMap t s) ∧
    (∀ t, InputOf c.schema t → ¬ IsMember p t → Kept p t.name → ¬ OneOf t.directives →
      (∃ t', InputOf c.schema t' ∧ MemberOf p t' t.name) →
      ∃ cls ms dn, Kind.input.style c.env t.name = .ok cls ∧ discriminatedUnion cls ms dn ∈ ss ∧ ms.Nodup ∧
        (∀ x, x ∈ ms ↔ ∃ t', InputOf c.schema t' ∧ MemberOf p t' t.name ∧ Kind.input.style c.env t'.name = .ok x) ∧
        ∀ t' dn' k, InputOf c.schema t' → Declares t' t.name dn' k → Referenced p t.name → dn' = dn) ∧
    (∀ t, InputOf c.schema t → ¬ IsMember p t → Kept p t.name → OneOf t.directives → ¬ DirectUnion c p t →
      ∃ rw rw' ws, Styled c.env rw ∧ rw.scalarMap = r.scalarMap ∧
        generateOneofWrapperInput c p t.name t.fields rw = .ok (ws, rw') ∧ ∀ s ∈ ws, s ∈ ss) ∧
    (∀ t, InputOf c.schema t → ¬ IsMember p t → Kept p t.name → OneOf t.directives → DirectUnion c p t →
      ∃ r1 r2 us, Styled c.env r1 ∧
        generateOneofDirectUnion c t.name (t.fields.map fun f => (f.name, f.type.base)) r1 = .ok (us, r2) ∧
        ∀ u ∈ us, u ∈ ss) := by
  unfold generateInputs at h
  obtain ⟨_, r1, h1, h⟩ := Gen.bind_ok.1 h
  obtain ⟨pre, r2, h2, h⟩ := Gen.bind_ok.1 h
  obtain ⟨⟨ms, ds⟩, r3, h3, h⟩ := Gen.bind_ok.1 h
  dsimp only at h
  obtain ⟨us, r4, h4, h⟩ := Gen.bind_ok.1 h
  obtain ⟨rfl, rfl⟩ := Gen.pure_ok.1 h
  obtain ⟨s1, b1⟩ := soft_registerImports h1
  obtain ⟨K2, t2, a2, e2, k2, mt2, ut2, us2, un2, _, dd2, c2⟩ := prePass_ok hp (hs.soft s1) b1 h2
  rw [List.nil_append] at a2
  have hreg : ∀ v ms, pre.unionTypes.get? v = some ms → ∀ m ∈ ms, Registered r2 m := by
    intro v ms hv m hm
    have := (ut2 v m).1 (by rw [hv]; exact hm)
    rcases this with hh | ⟨t, ht, hmo, hst⟩
    · simp [Dict.get?] at hh
    · have hk : t.name ∈ K2 := (k2 _).2 ⟨t, ht, ⟨v, hmo⟩, rfl⟩
      obtain ⟨L, hL, hLK, hLd, hLs⟩ := e2.map
      rw [← hLK] at hk
      obtain ⟨q, hq, hqn⟩ := List.mem_map.1 hk
      have hqs := hLs q hq
      rw [hqn, hst] at hqs
      cases hqs
      refine e2.registered.2 (.inr ?_)
      rw [← hLd]
      exact List.mem_map.2 ⟨q, hq, rfl⟩
  have hs2 := e2.styled (hs.soft s1)
  obtain ⟨K3, e3, k3, d3, v3, p3, u3, w3⟩ := mainLoop_ok hp hs2 (fun b hbm => e2.ext _ (b1 b hbm)) hreg h3
  have hmem : ∀ t, InputOf c.schema t → (t.name ∉ pre.memberTypes ↔ ¬ IsMember p t) := by
    intro t ht
    rw [mt2]
    refine not_congr ⟨?_, ?_⟩
    · rintro (hh | ⟨t', ht', hm, he⟩)
      · simp at hh
      · rwa [← inputOf_unique hn (mem_inputTypes.1 ht') ht he]
    · intro hm; exact .inr ⟨t, mem_inputTypes.2 ht, hm, rfl⟩
  obtain ⟨e4, i4⟩ := deferredUnions_ok (r := r3) (ds := ds) (by
    intro d hd
    obtain ⟨t, ht, _, _, ho, hdu, rfl⟩ := (d3 d).1 hd
    constructor
    · simpa using hdu.2.1
    · intro m hm
      obtain ⟨f, hf, rfl⟩ := List.mem_map.1 hm
      obtain ⟨m, gs, dirs, hty, hl, hno, _⟩ := hdu.2.2.1 f hf
      dsimp only
      rw [hty]
      rintro hme
      simp only [TypeNode.base] at hme
      subst hme
      rw [inputOf_lookup hn (mem_inputTypes.1 ht)] at hl
      cases hl
      exact hno ho) h4
  have sm : r2.scalarMap = r.scalarMap := e2.scalar.trans s1.frame.1
  rw [a2]
  refine ⟨⟨K2 ++ K3 ++ ds.map (·.1), ((e2.append e3).append e4).softLeft s1, ?_⟩, ?_, ?_, ?_, ?_, ?_, ?_⟩
  · intro k
    simp only [List.mem_append, k2, k3, List.mem_map, d3]
    constructor
    · rintro ((⟨t, ht, hm, rfl⟩ | ⟨t, ht, hnm, hk, hh⟩) | ⟨x, ⟨t, ht, hnm, hk, ho, hdu, rfl⟩, rfl⟩)
      · exact .inl ⟨t, mem_inputTypes.1 ht, .inl hm, rfl⟩
      · have ht' := mem_inputTypes.1 ht
        rcases hh with ⟨_, rfl⟩ | ⟨ho, hdu, rfl | ⟨f, hf, rfl⟩⟩
        · exact .inl ⟨t, ht', .inr hk, rfl⟩
        · exact .inl ⟨t, ht', .inr hk, rfl⟩
        · exact .inr ⟨t, ht', (hmem t ht').1 hnm, hk, ho, hdu, f, hf, rfl⟩
      · exact .inl ⟨t, mem_inputTypes.1 ht, .inr hk, rfl⟩
    · rintro (⟨t, ht, hsel, rfl⟩ | ⟨t, ht, hnm, hk, ho, hdu, f, hf, rfl⟩)
      · by_cases hm : IsMember p t
        · exact .inl (.inl ⟨t, mem_inputTypes.2 ht, hm, rfl⟩)
        · have hk := hsel.resolve_left hm
          have hnm := (hmem t ht).2 hm
          by_cases ho : OneOf t.directives
          · by_cases hdu : DirectUnion c p t
            · exact .inr ⟨_, ⟨t, mem_inputTypes.2 ht, hnm, hk, ho, hdu, rfl⟩, rfl⟩
            · exact .inl (.inr ⟨t, mem_inputTypes.2 ht, hnm, hk, .inr ⟨ho, hdu, .inl rfl⟩⟩)
          · exact .inl (.inr ⟨t, mem_inputTypes.2 ht, hnm, hk, .inl ⟨ho, rfl⟩⟩)
      · exact .inl (.inr ⟨t, mem_inputTypes.2 ht, (hmem t ht).2 hnm, hk, .inr ⟨ho, hdu, .inr ⟨f, hf, rfl⟩⟩⟩)
  · intro t ht hm
    obtain ⟨s, hs', hc⟩ := c2 t (mem_inputTypes.2 ht) hm
    rw [s1.frame.1] at hc
    exact ⟨s, by simp [hs'], hc⟩
  · intro t ht hm hk ho
    exact v3 t (mem_inputTypes.2 ht) ((hmem t ht).2 hm) hk ho
  · intro t ht hm hk ho hno
    have hun : pre.unionTypes.get? t.name = none := by
      rw [← Option.not_isSome_iff_eq_none, us2]
      rintro (hh | ⟨t', ht', hh⟩)
      · simp [Dict.get?] at hh
      · exact hno t' (mem_inputTypes.1 ht') hh
    obtain ⟨s, hs', hc⟩ := p3 t (mem_inputTypes.2 ht) ((hmem t ht).2 hm) hk ho hun
    rw [sm] at hc
    exact ⟨s, by simp [hs'], hc⟩
  · rintro t ht hm hk ho ⟨t', ht', hmo⟩
    have hun := (us2 t.name).2 (.inr ⟨t', mem_inputTypes.2 ht', hmo⟩)
    obtain ⟨ms', hms⟩ := Option.isSome_iff_exists.1 hun
    obtain ⟨cls, hst, hin⟩ := u3 t (mem_inputTypes.2 ht) ((hmem t ht).2 hm) hk ho ms' hms
    refine ⟨cls, ms', _, hst, List.mem_append_left _ (List.mem_append_right _ hin), ?_, ?_, ?_⟩
    · have := un2 t.name (by simp [Dict.get?])
      rw [hms] at this
      exact this
    · intro x
      have := ut2 t.name x
      rw [hms] at this
      simp only [Option.getD_some, Dict.get?, Option.getD_none, List.not_mem_nil, false_or] at this
      rw [this]
      simp only [mem_inputTypes]
    · intro t'' dn' k ht'' hd hr
      rw [dd2 t'' (mem_inputTypes.2 ht'') _ _ _ hd hr]
      rfl
  · intro t ht hm hk ho hdu
    obtain ⟨x, y, z, a, b, e, f⟩ := w3 t (mem_inputTypes.2 ht) ((hmem t ht).2 hm) hk ho hdu
    exact ⟨x, y, z, a, b.trans sm, e, fun s h => by simp [f s h]⟩
  · intro t ht hm hk ho hdu
    have hin := (d3 _).2 ⟨t, mem_inputTypes.2 ht, (hmem t ht).2 hm, hk, ho, hdu, rfl⟩
    obtain ⟨x, y, z, a, b, hst⟩ := i4 _ hin
    exact ⟨x, y, z, hst (e3.styled hs2), a, fun u h => by simp [b u h]⟩

end Turms
