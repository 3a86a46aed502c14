import Verif.Lemmas.Skip

/-! # Generating all inputs and enums, and only those on a list -/

namespace Turms
open Spec

/-- the input is on the list, or a member of a discriminated union that is -/
def Live (l : List String) (t : InputType) : Prop := t.name ∈ l ∨ ∃ u dn k, Declares t u dn k ∧ u ∈ l

/-- the names `K` are those of what is generated with the lists `l` of inputs and `le` of enums -/
structure Splits (s : Schema) (l le : List String) (K : String → Prop) : Prop where
  live : ∀ t, InputOf s t → Live l t → K t.name
  dead : ∀ t, InputOf s t → ¬ Live l t → ¬ K t.name
  whole : ∀ t, InputOf s t → Live l t → ∀ u dn k, Declares t u dn k → u ∈ l
  fields : ∀ t, InputOf s t → Live l t → ∀ f ∈ t.fields, K f.type.base
  inputs : ∀ t, InputOf s t → t.name ∈ l → ∀ f ∈ t.fields, IsInput s f.type.base → f.type.base ∈ l
  wrapped : ∀ t, InputOf s t → t.name ∈ l → OneOf t.directives → ∀ f ∈ t.fields, K (t.name ++ pascal f.name)
  unwrapped : ∀ t, InputOf s t → ¬ Live l t → OneOf t.directives → ∀ f ∈ t.fields, ¬ K (t.name ++ pascal f.name)
  enums : ∀ t, EnumOf s t → t.name ∈ le → K t.name
  others : ∀ t, EnumOf s t → t.name ∉ le → ¬ K t.name

section
variable {c : Ctx} {p : InputsConfig} {l le : List String} {K : String → Prop} {prep : List Char → List Char}

theorem memberships_live {tn : String} {ds : List DirectiveUse} : ∀ {a a' b : Dict String} {ms : List Membership},
    (∀ u dn k, DeclaresIn ds u dn k → u ∈ l) → (∀ n ∈ l, a'.get? n = a.get? n) → membershipsOf none tn ds a = .ok (ms, b) →
    ∃ b', membershipsOf (some l) tn ds a' = .ok (ms, b') ∧ ∀ n ∈ l, b'.get? n = b.get? n := by
  induction ds with
  | nil =>
    intro a a' b ms _ ha h
    cases h
    exact ⟨a', rfl, ha⟩
  | cons d ds ih =>
    intro a a' b ms hd ha h
    have hd' : ∀ u dn k, DeclaresIn ds u dn k → u ∈ l := fun u dn k h => hd u dn k (declaresIn_cons.2 (.inr h))
    unfold membershipsOf at h ⊢
    split at h
    · rename_i hn; rw [if_pos hn]; exact ih hd' ha h
    rename_i hn
    rw [if_neg hn]
    split at h
    · rename_i u dn k h1 h2 h3
      have hu : u ∈ l := hd u dn k ⟨d, List.mem_cons_self, by simpa using hn, h1, h2, h3⟩
      rw [if_neg (by simp [unreferenced])] at h
      rw [if_neg (by simpa [unreferenced] using hu), ha u hu]
      cases hg : a.get? u with
      | some dn' =>
        rw [hg] at h
        dsimp only at h ⊢
        split at h
        · cases h
        · rename_i hne
          rw [if_neg hne]
          cases hr : membershipsOf none tn ds a with
          | error e => rw [hr] at h; cases h
          | ok x =>
            rw [hr] at h
            obtain ⟨ms', b1⟩ := x
            cases h
            obtain ⟨b', e, hb⟩ := ih hd' ha hr
            exact ⟨b', by rw [e], hb⟩
      | none =>
        rw [hg] at h
        dsimp only at h ⊢
        cases hr : membershipsOf none tn ds (a.set u dn) with
        | error e => rw [hr] at h; cases h
        | ok x =>
          rw [hr] at h
          obtain ⟨ms', b1⟩ := x
          cases h
          obtain ⟨b', e, hb⟩ := ih (a' := a'.set u dn) hd' (fun n hn => by rw [Dict.get?_set, Dict.get?_set, ha n hn]) hr
          exact ⟨b', by rw [e], hb⟩
    · cases h

theorem memberships_dead {tn : String} {ds : List DirectiveUse} {a' : Dict String} : ∀ {a b : Dict String} {ms : List Membership},
    (∀ u dn k, DeclaresIn ds u dn k → u ∉ l) → membershipsOf none tn ds a = .ok (ms, b) →
    membershipsOf (some l) tn ds a' = .ok ([], a') ∧ ∀ n ∈ l, b.get? n = a.get? n := by
  induction ds with
  | nil =>
    intro a b ms _ h
    cases h
    exact ⟨rfl, fun _ _ => rfl⟩
  | cons d ds ih =>
    intro a b ms hd h
    have hd' : ∀ u dn k, DeclaresIn ds u dn k → u ∉ l := fun u dn k h => hd u dn k (declaresIn_cons.2 (.inr h))
    unfold membershipsOf at h ⊢
    split at h
    · rename_i hn; rw [if_pos hn]; exact ih hd' h
    rename_i hn
    rw [if_neg hn]
    split at h
    · rename_i u dn k h1 h2 h3
      have hu : u ∉ l := hd u dn k ⟨d, List.mem_cons_self, by simpa using hn, h1, h2, h3⟩
      rw [if_neg (by simp [unreferenced])] at h
      rw [if_pos (by simpa [unreferenced] using hu)]
      cases hg : a.get? u with
      | some dn' =>
        rw [hg] at h
        dsimp only at h ⊢
        split at h
        · cases h
        · cases hr : membershipsOf none tn ds a with
          | error e => rw [hr] at h; cases h
          | ok x =>
            rw [hr] at h
            obtain ⟨ms', b1⟩ := x
            cases h
            exact ih hd' hr
      | none =>
        rw [hg] at h
        dsimp only at h ⊢
        cases hr : membershipsOf none tn ds (a.set u dn) with
        | error e => rw [hr] at h; cases h
        | ok x =>
          rw [hr] at h
          obtain ⟨ms', b1⟩ := x
          cases h
          obtain ⟨e, hb⟩ := ih hd' hr
          exact ⟨e, fun n hn => by rw [hb n hn]; exact Dict.get?_set_ne _ _ (fun e : u = n => hu (e ▸ hn))⟩
    · cases h

/-- what the pre-passes know about the names that are kept -/
structure PreRel (l : List String) (K : String → Prop) (a a' : PrePass) : Prop where
  unions : ∀ n ∈ l, a'.unionTypes.get? n = a.unionTypes.get? n
  discr : ∀ n ∈ l, a'.discriminators.get? n = a.discriminators.get? n
  members : ∀ n, K n → (n ∈ a'.memberTypes ↔ n ∈ a.memberTypes)
  tree : a'.tree.Sublist a.tree

theorem addMembers_same {ms : List Membership} {name : String} : ∀ {u u' : Dict (List String)},
    (∀ n ∈ l, u'.get? n = u.get? n) → (∀ m ∈ ms, m.union ∈ l) → ∀ n ∈ l,
    (ms.foldl (fun u m => addMember u m.union name) u').get? n = (ms.foldl (fun u m => addMember u m.union name) u).get? n := by
  induction ms with
  | nil => intro u u' h _; exact h
  | cons m ms ih =>
    intro u u' h hm
    refine ih (fun n hn => ?_) fun x hx => hm x (List.mem_cons_of_mem _ hx)
    unfold addMember
    rw [Dict.get?_set, Dict.get?_set, h n hn, h _ (hm m List.mem_cons_self)]

theorem addMembers_other {ms : List Membership} {name : String} : ∀ {u : Dict (List String)},
    (∀ m ∈ ms, m.union ∉ l) → ∀ n ∈ l, (ms.foldl (fun u m => addMember u m.union name) u).get? n = u.get? n := by
  induction ms with
  | nil => intro u _ _ _; rfl
  | cons m ms ih =>
    intro u hm n hn
    refine (ih (fun x hx => hm x (List.mem_cons_of_mem _ hx)) n hn).trans ?_
    exact Dict.get?_set_ne _ _ fun e => hm m List.mem_cons_self (e ▸ hn)

theorem memberships_in {tn : String} {ds : List DirectiveUse} {a b : Dict String} {ms : List Membership}
    (h : membershipsOf none tn ds a = .ok (ms, b)) (m : Membership) : m ∈ ms ↔ DeclaresIn ds m.union m.discriminator m.key := by
  obtain ⟨h1, _⟩ := membershipsOf_ok (p := { refInputs := none }) h
  exact (h1 m.union m.discriminator m.key).trans ⟨fun h => h.1, fun h => ⟨h, fun _ h => by cases h⟩⟩

theorem trim_prePassStep (hS : Splits c.schema l le K) (hp : p.refInputs = none) {t : InputType} (ht : InputOf c.schema t)
    {a a' : PrePass} (hR : PreRel l K a a') :
    Trim K prep (PreRel l K) (prePassStep c p t a) (prePassStep c { p with refInputs := some l } t a') := by
  classical
  by_cases hl : Live l t
  · unfold prePassStep
    rw [hp]
    refine Trim.bind (R := fun x y => y.1 = x.1 ∧ (∀ m ∈ x.1, m.union ∈ l) ∧ ∀ n ∈ l, y.2.get? n = x.2.get? n)
      (Trim.lift fun x hx => ?_) fun x y hxy => ?_
    · obtain ⟨ms, b⟩ := x
      obtain ⟨b', e, hb⟩ := memberships_live (hS.whole t ht hl) hR.discr hx
      exact ⟨(ms, b'), e, rfl, fun m hm => hS.whole t ht hl _ _ _ ((memberships_in hx m).1 hm), hb⟩
    · obtain ⟨ms, b⟩ := x
      obtain ⟨ms', b'⟩ := y
      obtain ⟨e, hu, hb⟩ := hxy
      dsimp only at e hu hb
      subst e
      dsimp only
      split
      · exact Trim.pure ⟨hR.unions, hb, hR.members, hR.tree⟩
      · refine Trim.bind (Trim.same fun _ _ => Sim.lift) fun ds _ e => ?_
        subst e
        refine Trim.bind (Trim.same fun N hN => sim_generateInput (hN _ (hS.live t ht hl))) fun name _ e => ?_
        subst e
        refine Trim.bind (Trim.same fun N hN => sim_generateInputType fun f hf => hN _ (hS.fields t ht hl f hf)) fun cls _ e => ?_
        subst e
        refine Trim.pure ⟨addMembers_same hR.unions hu, hb, fun n hn => ?_, hR.tree.append (.refl _)⟩
        rw [mem_setAdd, mem_setAdd, hR.members n hn]
  · have hd : ∀ u dn k, DeclaresIn t.directives u dn k → u ∉ l := fun u dn k h hu => hl (.inr ⟨u, dn, k, h, hu⟩)
    refine ⟨fun r r' x r1 hP h => ?_⟩
    unfold prePassStep at h
    rw [hp] at h
    obtain ⟨⟨ms, b⟩, r2, h1, h2⟩ := Gen.bind_ok.1 h
    obtain ⟨hms, rfl⟩ := Gen.lift_ok.1 h1
    obtain ⟨e', hb⟩ := memberships_dead (a' := a'.discriminators) hd hms
    have hskip : prePassStep c { p with refInputs := some l } t a' r' = .ok (a', r') := by
      unfold prePassStep
      refine Gen.bind_ok.2 ⟨_, r', Gen.lift_ok.2 ⟨e', rfl⟩, ?_⟩
      rfl
    refine ⟨a', r', hskip, ?_⟩
    dsimp only at h2
    split at h2
    · obtain ⟨rfl, rfl⟩ := Gen.pure_ok.1 h2
      exact ⟨⟨hR.unions, fun n hn => (hR.discr n hn).trans (hb n hn).symm, hR.members, hR.tree⟩, hP⟩
    · have hu : ∀ m ∈ ms, m.union ∉ l := fun m hm => hd _ _ _ ((memberships_in hms m).1 hm)
      obtain ⟨ds, r3, h3, h2⟩ := Gen.bind_ok.1 h2
      obtain ⟨_, rfl⟩ := Gen.lift_ok.1 h3
      obtain ⟨name, r4, h4, h2⟩ := Gen.bind_ok.1 h2
      obtain ⟨cls, r5, h5, h2⟩ := Gen.bind_ok.1 h2
      obtain ⟨rfl, rfl⟩ := Gen.pure_ok.1 h2
      refine ⟨⟨fun n hn => (hR.unions n hn).trans (addMembers_other hu n hn).symm,
        fun n hn => (hR.discr n hn).trans (hb n hn).symm, fun n hn => ?_, hR.tree.trans (List.sublist_append_left _ _)⟩,
        (hP.aside ((off_generateInput (hS.dead t ht hl)).run _ _ _ h4)).aside (off_generateInputType.run _ _ _ h5)⟩
      rw [mem_setAdd, hR.members n hn]
      exact ⟨.inl, fun h => h.resolve_right fun e => hS.dead t ht hl (e ▸ hn)⟩

theorem trim_prePass (hS : Splits c.schema l le K) (hp : p.refInputs = none) (ts : List InputType) :
    ∀ {a a' : PrePass}, (∀ t ∈ ts, InputOf c.schema t) → PreRel l K a a' →
    Trim K prep (PreRel l K) (prePass c p ts a) (prePass c { p with refInputs := some l } ts a') := by
  induction ts with
  | nil => intro a a' _ hR; exact Trim.pure hR
  | cons t ts ih =>
    intro a a' ht hR
    unfold prePass
    exact (trim_prePassStep hS hp (ht t List.mem_cons_self) hR).bind fun _ _ h =>
      ih (fun x hx => ht x (List.mem_cons_of_mem _ hx)) h

/-- in the end every type that declares itself a member is one -/
theorem prePass_members (hp : p.refInputs = none) (ts : List InputType) : ∀ {a b : PrePass} {r r' : Reg},
    prePass c p ts a r = .ok (b, r') →
    (∀ n ∈ a.memberTypes, n ∈ b.memberTypes) ∧ ∀ t ∈ ts, (∃ u dn k, Declares t u dn k) → t.name ∈ b.memberTypes := by
  induction ts with
  | nil =>
    intro a b r r' h
    obtain ⟨rfl, rfl⟩ := Gen.pure_ok.1 h
    exact ⟨fun _ h => h, fun _ h => by cases h⟩
  | cons t ts ih =>
    intro a b r r' h
    unfold prePass at h
    obtain ⟨a1, r1, h1, h2⟩ := Gen.bind_ok.1 h
    obtain ⟨i1, i2⟩ := ih h2
    have key : (∀ n ∈ a.memberTypes, n ∈ a1.memberTypes) ∧ ((∃ u dn k, Declares t u dn k) → t.name ∈ a1.memberTypes) := by
      unfold prePassStep at h1
      rw [hp] at h1
      obtain ⟨⟨ms, d⟩, r2, h3, h4⟩ := Gen.bind_ok.1 h1
      obtain ⟨hin, rfl⟩ := Gen.lift_ok.1 h3
      dsimp only at h4
      split at h4
      · rename_i hms
        obtain ⟨rfl, rfl⟩ := Gen.pure_ok.1 h4
        refine ⟨fun _ h => h, fun ⟨u, dn, k, hd⟩ => ?_⟩
        have := (memberships_in hin ⟨u, dn, k⟩).2 hd
        rw [List.isEmpty_iff.1 hms] at this
        cases this
      · obtain ⟨ds, r3, h5, h4⟩ := Gen.bind_ok.1 h4
        obtain ⟨name, r4, h6, h4⟩ := Gen.bind_ok.1 h4
        obtain ⟨cls, r5, h7, h4⟩ := Gen.bind_ok.1 h4
        obtain ⟨rfl, rfl⟩ := Gen.pure_ok.1 h4
        exact ⟨fun n hn => (mem_setAdd _ _ _).2 (.inl hn), fun _ => (mem_setAdd _ _ _).2 (.inr rfl)⟩
    refine ⟨fun n hn => i1 n (key.1 n hn), fun x hx hd => ?_⟩
    rcases List.mem_cons.1 hx with rfl | hx
    · exact i1 _ (key.2 hd)
    · exact i2 x hx hd

/-- the direct unions that are put off: those of kept inputs, with kept members -/
inductive Trimmed (K : String → Prop) : List (String × Dict String) → List (String × Dict String) → Prop
  | nil : Trimmed K [] []
  | keep {n : String} {ms : Dict String} {ds ds' : List (String × Dict String)} : K n → (∀ m ∈ ms, K m.2) → Trimmed K ds ds' →
      Trimmed K ((n, ms) :: ds) ((n, ms) :: ds')
  | drop {n : String} {ms : Dict String} {ds ds' : List (String × Dict String)} : ¬ K n → Trimmed K ds ds' →
      Trimmed K ((n, ms) :: ds) ds'

theorem Trimmed.append {a a' b b' : List (String × Dict String)} (h : Trimmed K a a') (hb : Trimmed K b b') :
    Trimmed K (a ++ b) (a' ++ b') := by
  induction h with
  | nil => exact hb
  | keep h1 h2 _ ih => exact .keep h1 h2 ih
  | drop h1 _ ih => exact .drop h1 ih

theorem trim_deferredUnions {ds ds' : List (String × Dict String)} (h : Trimmed K ds ds') :
    Trim K prep (fun a b => b.Sublist a) (deferredUnions c ds) (deferredUnions c ds') := by
  induction h with
  | nil => exact .pure (.refl _)
  | keep h1 h2 _ ih =>
    unfold deferredUnions
    refine (Trim.same fun N hN => sim_generateOneofDirectUnion (hN _ h1) fun m hm => hN _ (h2 m hm)).bind fun s _ e =>
      ih.bind fun x y hxy => .pure ?_
    subst e
    exact (List.Sublist.refl _).append hxy
  | @drop n ms ds ds' h1 _ ih =>
    refine ⟨fun r r' a r1 hP h => ?_⟩
    unfold deferredUnions at h
    obtain ⟨s, r2, e1, h⟩ := Gen.bind_ok.1 h
    obtain ⟨ss, r3, e2, h⟩ := Gen.bind_ok.1 h
    obtain ⟨rfl, rfl⟩ := Gen.pure_ok.1 h
    obtain ⟨b, r1', e, hb, hP'⟩ := ih.run _ _ _ _ (hP.aside ((off_generateOneofDirectUnion h1).run _ _ _ e1)) e2
    exact ⟨b, r1', e, hb.trans (List.sublist_append_right _ _), hP'⟩

theorem directMembers_same (hS : Splits c.schema l le K) (hp : p.refInputs = none) {t : InputType} (ht : InputOf c.schema t)
    (hl : t.name ∈ l) : directMembers c { p with refInputs := some l } t = directMembers c p t ∧
      ∀ ms, directMembers c p t = some ms → ∀ m ∈ ms, K m.2 := by
  have hmem : ∀ ms, oneofMemberMap c.schema t.fields = some ms → ∀ m ∈ ms, m.2 ∈ l ∧ K m.2 := by
    intro ms h m hm
    obtain ⟨_, h2, _, rfl⟩ := oneofMemberMap_ok.1 h
    obtain ⟨f, hf, rfl⟩ := List.mem_map.1 hm
    obtain ⟨b, gs, ds, e, hlk, _⟩ := h2 f hf
    have he : f.type.base = b := by rw [e]; rfl
    exact ⟨hS.inputs t ht hl f hf ⟨gs, ds, he ▸ hlk⟩, hS.fields t ht (.inl hl) f hf⟩
  have hmiss : ∀ ms, oneofMemberMap c.schema t.fields = some ms →
      ms.any (fun m => memberMissing { p with refInputs := some l } m.2) = ms.any (fun m => memberMissing p m.2) := by
    intro ms h
    have : ∀ m ∈ ms, memberMissing { p with refInputs := some l } m.2 = memberMissing p m.2 := by
      intro m hm
      have := (hmem ms h m hm).1
      simp [memberMissing, unreferenced, hp, this]
    rw [Bool.eq_iff_iff, List.any_eq_true, List.any_eq_true]
    exact ⟨fun ⟨m, h1, h2⟩ => ⟨m, h1, by rw [← this m h1]; exact h2⟩, fun ⟨m, h1, h2⟩ => ⟨m, h1, by rw [this m h1]; exact h2⟩⟩
  constructor
  · unfold directMembers
    split
    · cases h : oneofMemberMap c.schema t.fields with
      | none => rfl
      | some ms => dsimp only; rw [hmiss ms h]
    · rfl
  · intro ms h m hm
    unfold directMembers at h
    split at h
    · cases h' : oneofMemberMap c.schema t.fields with
      | none => rw [h'] at h; cases h
      | some ms' =>
        rw [h'] at h
        dsimp only at h
        split at h
        · cases h
        · cases h
          exact (hmem _ h' m hm).2
    · cases h

theorem oneofWrappers_ref {t : String} {extra : List Expr} {ref : Option (List String)} (fs : List InputFieldDef) :
    oneofWrappers c { p with refInputs := ref } t extra fs = oneofWrappers c p t extra fs := by
  induction fs with
  | nil => rfl
  | cons f fs ih => unfold oneofWrappers; rw [ih]; rfl
theorem generateOneofWrapperInput_ref {t : String} {ref : Option (List String)} (fs : List InputFieldDef) :
    generateOneofWrapperInput c { p with refInputs := ref } t fs = generateOneofWrapperInput c p t fs := by
  unfold generateOneofWrapperInput
  simp only [oneofWrappers_ref]

theorem trim_mainStep (hS : Splits c.schema l le K) (hp : p.refInputs = none) {t : InputType} (ht : InputOf c.schema t)
    {a a' : PrePass} (hR : PreRel l K a a') (hm : (∃ u dn k, Declares t u dn k) → t.name ∈ a.memberTypes) :
    Trim K prep (fun x y => y.1.Sublist x.1 ∧ Trimmed K x.2.toList y.2.toList) (mainStep c p a t)
      (mainStep c { p with refInputs := some l } a' t) := by
  classical
  have nothing : ∀ (x : List Stmt × Option (String × Dict String)), x.2 = none →
      ([] : List Stmt).Sublist x.1 ∧ Trimmed K x.2.toList ((none : Option (String × Dict String))).toList := by
    intro x hx
    rw [hx]
    exact ⟨List.nil_sublist _, .nil⟩
  by_cases hl : t.name ∈ l
  · have hK := hS.live t ht (.inl hl)
    have hc : a'.memberTypes.contains t.name = a.memberTypes.contains t.name := by
      rw [Bool.eq_iff_iff]; simpa using hR.members _ hK
    unfold mainStep
    rw [hc]
    by_cases h1 : a.memberTypes.contains t.name = true
    · rw [if_pos h1, if_pos h1]
      exact .pure (nothing _ rfl)
    have u1 : ¬ unreferenced p.refInputs t.name = true := by simp [unreferenced, hp]
    have u2 : ¬ unreferenced (some l) t.name = true := by simp [unreferenced, hl]
    rw [if_neg h1, if_neg h1, if_neg u1, if_neg u2]
    by_cases h2 : (p.skipUnderscore && underscored t.name) = true
    · rw [if_pos h2, if_pos h2]
      exact .pure (nothing _ rfl)
    rw [if_neg h2, if_neg h2]
    by_cases ho : isOneof t.directives = true
    · rw [if_pos ho, if_pos ho]
      obtain ⟨e1, e2⟩ := directMembers_same hS hp ht hl
      rw [e1, generateOneofWrapperInput_ref (ref := some l)]
      refine (Trim.same fun _ _ => Sim.lift).bind fun _ _ _ => ?_
      cases hd : directMembers c p t with
      | some ms => exact .pure ⟨.refl _, .keep hK (e2 ms hd) .nil⟩
      | none =>
        dsimp only
        refine Trim.bind (R := Eq) (Trim.same fun N hN => sim_generateOneofWrapperInput (hN _ hK)
          (fun f hf => hN _ (hS.wrapped t ht hl ((isOneof_iff _).1 ho) f hf)) fun f hf => hN _ (hS.fields t ht (.inl hl) f hf))
          fun x y e => ?_
        subst e
        exact .pure ⟨.refl _, .nil⟩
    · rw [if_neg ho, if_neg ho, hR.unions _ hl, hR.discr _ hl]
      cases hu : a.unionTypes.get? t.name with
      | some ms =>
        refine (Trim.same fun _ _ => sim_registerImports).bind fun _ _ _ =>
          (Trim.same fun N hN => sim_generateInput (hN _ hK)).bind fun x y e => ?_
        subst e
        exact .pure ⟨.refl _, .nil⟩
      | none =>
        refine (Trim.same fun N hN => sim_generateInput (hN _ hK)).bind fun x y e => ?_
        subst e
        refine Trim.bind (R := Eq) (Trim.same fun N hN => sim_generateInputType fun f hf => hN _ (hS.fields t ht (.inl hl) f hf))
          fun x y e => ?_
        subst e
        exact .pure ⟨.refl _, .nil⟩
  · have hskip : mainStep c { p with refInputs := some l } a' t = pure ([], none) := by
      unfold mainStep
      split
      · rfl
      · rw [if_pos (by simp [unreferenced, hl])]
    rw [hskip]
    by_cases hv : Live l t
    · have hmt : t.name ∈ a.memberTypes := hm (by
        rcases hv with h | ⟨u, dn, k, h, _⟩
        · exact (hl h).elim
        · exact ⟨u, dn, k, h⟩)
      unfold mainStep
      rw [if_pos (by simpa using hmt)]
      exact .pure (nothing _ rfl)
    · have hK := hS.dead t ht hv
      unfold mainStep
      split
      · exact .pure (nothing _ rfl)
      split
      · exact .pure (nothing _ rfl)
      split
      · exact .pure (nothing _ rfl)
      split
      · rename_i ho
        refine Trim.off (Off.lift.bind fun _ => ?_) fun x r r' h => ?_
        · split
          · exact .pure
          · exact (off_generateOneofWrapperInput hK (hS.unwrapped t ht hv ((isOneof_iff _).1 ho))).bind fun _ => .pure
        · obtain ⟨_, r2, _, h⟩ := Gen.bind_ok.1 h
          cases hd : directMembers c p t with
          | some ms =>
            rw [hd] at h
            obtain ⟨rfl, rfl⟩ := Gen.pure_ok.1 h
            exact ⟨.refl _, .drop hK .nil⟩
          | none =>
            rw [hd] at h
            obtain ⟨s, r3, _, h⟩ := Gen.bind_ok.1 h
            obtain ⟨rfl, rfl⟩ := Gen.pure_ok.1 h
            exact nothing _ rfl
      · split
        · refine Trim.off ((calm_registerImports _).off.bind fun _ => (off_generateInput hK).bind fun _ => .pure) fun x r r' h => ?_
          obtain ⟨_, r2, _, h⟩ := Gen.bind_ok.1 h
          obtain ⟨_, r3, _, h⟩ := Gen.bind_ok.1 h
          obtain ⟨rfl, rfl⟩ := Gen.pure_ok.1 h
          exact nothing _ rfl
        · refine Trim.off ((off_generateInput hK).bind fun _ => off_generateInputType.bind fun _ => .pure) fun x r r' h => ?_
          obtain ⟨_, r2, _, h⟩ := Gen.bind_ok.1 h
          obtain ⟨_, r3, _, h⟩ := Gen.bind_ok.1 h
          obtain ⟨rfl, rfl⟩ := Gen.pure_ok.1 h
          exact nothing _ rfl

theorem trim_mainLoop (hS : Splits c.schema l le K) (hp : p.refInputs = none) {a a' : PrePass} (hR : PreRel l K a a')
    (ts : List InputType) (ht : ∀ t ∈ ts, InputOf c.schema t)
    (hm : ∀ t ∈ ts, (∃ u dn k, Declares t u dn k) → t.name ∈ a.memberTypes) :
    Trim K prep (fun x y => y.1.Sublist x.1 ∧ Trimmed K x.2 y.2) (mainLoop c p a ts)
      (mainLoop c { p with refInputs := some l } a' ts) := by
  induction ts with
  | nil => exact .pure ⟨.refl _, .nil⟩
  | cons t ts ih =>
    unfold mainLoop
    refine (trim_mainStep hS hp (ht t List.mem_cons_self) hR (hm t List.mem_cons_self)).bind fun x y h =>
      (ih (fun t h => ht t (List.mem_cons_of_mem _ h)) fun t h => hm t (List.mem_cons_of_mem _ h)).bind fun u v h' => .pure ?_
    exact ⟨h.1.append h'.1, h.2.append h'.2⟩

theorem trim_generateInputs (hS : Splits c.schema l le K) (hp : p.refInputs = none) :
    Trim K prep (fun x y => y.Sublist x) (generateInputs c p) (generateInputs c { p with refInputs := some l }) := by
  have hts : ∀ t ∈ inputTypes c.schema, InputOf c.schema t := fun t h => mem_inputTypes.1 h
  unfold generateInputs
  refine (Trim.same fun _ _ => sim_registerImports).bind fun _ _ _ => ?_
  refine ⟨fun r r' x r1 hP h => ?_⟩
  obtain ⟨pre, r2, h1, h2⟩ := Gen.bind_ok.1 h
  obtain ⟨pre', r2', e1, hR, hP⟩ := (trim_prePass hS hp _ (a := {}) (a' := {}) hts
    ⟨fun _ _ => rfl, fun _ _ => rfl, fun _ _ => .rfl, .refl _⟩).run _ _ _ _ hP h1
  have hm := (prePass_members hp _ h1).2
  have key : Trim K prep (fun x y => y.Sublist x) (do
      let (ss, ds) ← mainLoop c p pre (inputTypes c.schema)
      let us ← deferredUnions c ds
      pure (pre.tree ++ ss ++ us)) (do
      let (ss, ds) ← mainLoop c { p with refInputs := some l } pre' (inputTypes c.schema)
      let us ← deferredUnions c ds
      pure (pre'.tree ++ ss ++ us)) :=
    (trim_mainLoop hS hp hR _ hts hm).bind fun x y h => (trim_deferredUnions h.2).bind fun u v h' =>
      .pure ((hR.tree.append h.1).append h')
  obtain ⟨b, r1', e2, hb, hP⟩ := key.run _ _ _ _ hP h2
  exact ⟨b, r1', Gen.bind_ok.2 ⟨pre', r2', e1, e2⟩, hb, hP⟩

theorem trim_generateEnums {p : EnumsConfig} (hS : Splits c.schema l le K) (hp : p.refEnums = none) :
    Trim K prep (fun x y => y.Sublist x) (generateEnums c p) (generateEnums c { p with refEnums := some le }) := by
  unfold generateEnums
  refine (Trim.same fun _ _ => sim_registerImport).bind fun _ _ _ => ?_
  have hts : ∀ t ∈ enumTypes c.schema, EnumOf c.schema t := fun t h => Props.mem_enumTypes.1 h
  generalize enumTypes c.schema = ts at hts
  induction ts with
  | nil => exact .pure (.refl _)
  | cons t ts ih =>
    unfold enumLoop
    refine Trim.bind (R := fun x y => y.Sublist x) ?_ fun x y h => (ih fun t h => hts t (List.mem_cons_of_mem _ h)).bind
      fun u v h' => .pure (h.append h')
    have ht := hts t List.mem_cons_self
    have u1 : ¬ enumUnreferenced p t.name = true := by simp [enumUnreferenced, hp]
    unfold enumStep
    by_cases hl : t.name ∈ le
    · have u2 : ¬ enumUnreferenced { p with refEnums := some le } t.name = true := by simp [enumUnreferenced, hl]
      rw [if_neg u1, if_neg u2]
      by_cases h1 : (p.skipUnderscore && underscored t.name) = true
      · rw [if_pos h1]; exact .pure (.refl _)
      rw [if_neg h1]
      by_cases h2 : (p.skipDoubleUnderscore && doubleUnderscored t.name) = true
      · rw [if_pos h2]; exact .pure (.refl _)
      rw [if_neg h2]
      refine (Trim.same fun N hN => sim_generateEnum (hN _ (hS.enums t ht hl))).bind fun x y e => ?_
      subst e
      exact .pure (.refl _)
    · have u2 : enumUnreferenced { p with refEnums := some le } t.name = true := by simp [enumUnreferenced, hl]
      rw [if_neg u1, if_pos u2]
      exact Trim.off (.ite .pure (.ite .pure ((off_generateEnum (hS.others t ht hl)).bind fun _ => .pure)))
        fun _ _ _ _ => List.nil_sublist _
end

end Turms
