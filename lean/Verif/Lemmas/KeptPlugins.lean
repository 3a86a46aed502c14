import Verif.Lemmas.KeptSels

/-! # Generated response models keep what is asked for: the two plugins -/

namespace Turms
open Spec

section
variable {c : Ctx} {defs : Dict FragDef} {T : List Stmt} {W : Reading} {pt : String} {K : String → Prop} {r : Reg}

/-- an inline fragment on an object contributes to that object's class only -/
theorem inlineParts {t o : String} {sub : List Sel} {body cls : List Stmt} {bases : List String}
    (ht : IsObject c.schema t) (hx : PartsK c defs T W t t sub body bases) :
    PartsK c defs T W o pt [.inline (some t) sub]
      ([] ++ InterfaceParts.bodyFor { inlineBodies := [(t, body)], implBases := bases.map (t, ·), classes := cls } o)
      (InterfaceParts.basesFor { inlineBodies := [(t, body)], implBases := bases.map (t, ·), classes := cls } o) := by
  by_cases he : t = o
  · subst he
    have h1 : InterfaceParts.bodyFor { inlineBodies := [(t, body)], implBases := bases.map (t, ·), classes := cls } t
        = body := by simp [InterfaceParts.bodyFor]
    have h2 : InterfaceParts.basesFor { inlineBodies := [(t, body)], implBases := bases.map (t, ·), classes := cls } t
        = bases := by
      simp only [InterfaceParts.basesFor]
      rw [List.filter_map, List.map_map]
      have : bases.filter ((fun q : String × String => q.1 == t) ∘ fun b => (t, b)) = bases := by
        rw [List.filter_eq_self]; intro a _; simp
      rw [this]
      have h3 : ((fun x : String × String => x.2) ∘ fun b : String => (t, b)) = id := rfl
      first | rw [h3, List.map_id] | simp
    rw [h1, h2, List.nil_append]
    exact hx.inline ht
  · have hbeq : (t == o) = false := by simpa using he
    have h1 : InterfaceParts.bodyFor { inlineBodies := [(t, body)], implBases := bases.map (t, ·), classes := cls } o
        = [] := by simp [InterfaceParts.bodyFor, hbeq]
    have h2 : InterfaceParts.basesFor { inlineBodies := [(t, body)], implBases := bases.map (t, ·), classes := cls } o
        = [] := by
      simp only [InterfaceParts.basesFor]
      rw [List.filter_map, List.map_map]
      have : bases.filter ((fun q : String × String => q.1 == o) ∘ fun b => (t, b)) = [] := by
        rw [List.filter_eq_nil_iff]; intro a _; simp [he]
      rw [this]
      rfl
    rw [h1, h2]
    exact .empty fun _ _ _ hpk => (he (possible_of_object ht (picks_single_inline hpk).1).symm).elim

/-! ## fragments on interfaces -/

theorem fragInterfaceSel_keeps (x : Sel) (n : String) (fs : List FieldDef) (is : List String) (name : String)
    (h : StateK c defs T W K r) (hl : c.schema.lookup n = some (.interface fs is)) (hk : ∀ f, Spreads [x] f → K f)
    (hf : FieldHypK c defs (declaredIn fs) [x]) (hi : IfcHypK c defs [x])
    (ho : ∀ o inner, Sel.inline (some o) inner ∈ [x] → IsObject c.schema o) :
    Quietly (fragInterfaceSel c fs name x) r (IfcK c defs T W n [x]) := by
  unfold fragInterfaceSel
  split
  · rename_i t sub
    have hm : Sel.inline (some t) sub ∈ [Sel.inline (some t) sub] := List.mem_singleton.2 rfl
    have ht := ho t sub hm
    refine (inlineSels_keeps c defs T W K sub r t name h ht (fun f hf => hk f (spreads_inline hm hf))
      (fun x hx => hi.plain t sub x hm hx) (hi.inner t sub hm)).bind fun x r2 _ hx => .pure ?_
    intro hT
    exact ⟨fun o _ => inlineParts (bases := []) ht (hx hT), .empty (by simp)⟩
  · exact interfaceSel_keeps c defs T W K _ r n fs is name h hl hk hf hi

theorem fragInterfaceSels_keeps (n : String) (fs : List FieldDef) (is : List String) (name : String)
    (hl : c.schema.lookup n = some (.interface fs is)) (sels : List Sel) : ∀ {r : Reg},
    StateK c defs T W K r → (∀ f, Spreads sels f → K f) →
    FieldHypK c defs (declaredIn fs) sels → IfcHypK c defs sels →
    (∀ o inner, Sel.inline (some o) inner ∈ sels → IsObject c.schema o) →
    Quietly (fragInterfaceSels c fs name sels) r (IfcK c defs T W n sels) := by
  induction sels with
  | nil => exact fun _ _ _ _ _ => .pure fun _ => ⟨fun _ _ => .nil, .empty (by simp)⟩
  | cons x rest ih =>
    intro r h hk hf hi ho
    have m1 : ∀ y ∈ [x], y ∈ x :: rest := fun y hy => by rw [List.mem_singleton.1 hy]; exact List.mem_cons_self ..
    have m2 : ∀ y ∈ rest, y ∈ x :: rest := fun y hy => List.mem_cons_of_mem _ hy
    unfold fragInterfaceSels
    refine (fragInterfaceSel_keeps x n fs is name h hl (fun f hm => hk f (spreads_head hm)) (hf.mono m1) (hi.mono m1)
      (fun o i hm => ho o i (m1 _ hm))).bind fun a r1 q1 ha => ?_
    exact (ih (h.quiet q1) (fun f hm => hk f (.later _ _ _ hm)) (hf.mono m2) (hi.mono m2)
      (fun o i hm => ho o i (m2 _ hm))).bind fun p r2 q2 hp => .pure (ha.append hp)

/-- a fragment on an interface registers classes that keep what it asks for -/
theorem interfaceFragment_keeps {p : FragmentsConfig} {f : FragDef} {name : String} {desc : Option String}
    {fs : List FieldDef} {is : List String} {ss : List Stmt} {r' : Reg} (h : StateK c defs T W K r)
    (hl : c.schema.lookup f.typeCondition = some (.interface fs is)) (hk : ∀ g, Spreads f.sels g → K g)
    (hf : FieldHypK c defs (declaredIn fs) f.sels) (hi : IfcHypK c defs f.sels)
    (ho : ∀ o inner, Sel.inline (some o) inner ∈ f.sels → IsObject c.schema o)
    (hg : interfaceFragment c p f name desc fs r = .ok (ss, r')) (hT : ∀ st ∈ ss, st ∈ T) :
    ∃ m r1, Quiet r r1 ∧ r' = { r1 with interfaceFragmentImpl := r1.interfaceFragmentImpl.set f.name m } ∧
      TableK c defs T W f m := by
  unfold interfaceFragment at hg
  obtain ⟨extra, r1, h1, hg⟩ := Gen.bind_ok.1 hg
  obtain ⟨q1, hextra⟩ := quietly_additionalBasesFor _ _ h1
  obtain ⟨q, r2, h2, hg⟩ := Gen.bind_ok.1 hg
  obtain ⟨q2, hq⟩ := fragInterfaceSels_keeps f.typeCondition fs is name hl f.sels (h.quiet q1) hk hf hi ho _ _ h2
  obtain ⟨ib, r3, h3, hg⟩ := Gen.bind_ok.1 hg
  obtain ⟨q3, hib⟩ := quietly_interfaceBasesOf _ _ h3
  obtain ⟨tn, r4, h4, hg⟩ := Gen.bind_ok.1 hg
  obtain ⟨q4, htn⟩ := quietly_genericTypenameField _ _ h4
  obtain ⟨impls, r5, h5, hg⟩ := Gen.bind_ok.1 hg
  obtain ⟨q5, himpls⟩ := fragImplementingClasses_ok _ _ h5
  obtain ⟨u, r6, h6, hg⟩ := Gen.bind_ok.1 hg
  unfold registerImplementations at h6
  cases h6
  obtain ⟨rfl, rfl⟩ := Gen.pure_ok.1 hg
  have hin : IsInterface c.schema f.typeCondition := ⟨_, _, hl⟩
  obtain ⟨e1, e2⟩ := foldl_set_entries (α := Implementation) (·.name) (fun i => name ++ i.name)
    (implementations c.schema f.typeCondition) []
  refine ⟨_, r5, ((q1.trans q2).trans q3).trans (q4.trans q5), rfl, fun o hpo => ?_, fun o cls hm => ?_⟩
  · obtain ⟨i, hi, rfl⟩ := mem_implementations hin hpo
    exact Option.isSome_iff_exists.1 (e2 i.name (.inr ⟨i, hi, rfl⟩))
  · rcases e1 o cls hm with hm | ⟨i, hi, rfl, rfl⟩
    · cases hm
    have hpo := possible_of_implementation hin h.module_.nodup hi
    have hcT := hT _ (List.mem_append_right _ (himpls i hi))
    have hmT : Stmt.classDef (name ++ "Base") (extra ++ ib) (fragmentDoc p desc :: (q.body ++ [])) [] ∈ T :=
      hT _ (by simp)
    refine ⟨hpo, implementing_models h.module_ ((hq (fun st hst => hT st (by simp [hst]))).1 i.name hpo) hmT rfl ?_
      (by simp) hcT⟩
    intro b st hb
    rcases List.mem_append.1 hb with hb | hb
    · rw [hextra] at hb; exact declared_baseNames h.module_.additional hb
    · rw [hib] at hb; exact declared_baseNames h.module_.interfaceBases hb

/-! ## fragments on objects -/

theorem fragSpreadBase_keeps {f o : String} (h : StateK c defs T W K r) (hk : K f) (ho : IsObject c.schema o)
    (hs : ∃ d, defs.get? f = some d ∧
      (d.typeCondition = o ∨ (IsInterface c.schema d.typeCondition ∧ Possible c.schema d.typeCondition o))) :
    Quietly (fragSpreadBase f o) r fun b => PartsK c defs T W o pt [.spread f] [] [b] := by
  obtain ⟨d, hd, hc⟩ := hs
  have hf := h.frag hk hd
  obtain ⟨hp, hc⟩ := object_or_interface hf ho hc
  intro b r' hb
  unfold fragSpreadBase at hb
  rcases hc with ⟨hno, _, hm⟩ | ⟨m, cls, hm, hcls, hmod⟩
  · rw [hno] at hb
    obtain ⟨q, hcl⟩ := quietly_inheritFragment _ _ hb
    exact ⟨q, .of_models (hm _ hcl) hd hp⟩
  · rw [hm] at hb
    dsimp only at hb
    rw [hcls] at hb
    cases hb
    exact ⟨.refl _, .of_models hmod hd hp⟩

theorem fragObjectSel_keeps (x : Sel) (o name : String) (h : StateK c defs T W K r)
    (ho : IsObject c.schema o) (hk : ∀ f, Spreads [x] f → K f) (hs : ObjSpreadsK c.schema defs o [x])
    (hx : ¬ IsInline x) (hf : FieldHypK c defs (FieldType c.schema o) [x]) :
    Quietly (fragObjectSel c o name x) r (ObjK c defs T W o [x]) := by
  unfold fragObjectSel
  split
  · rename_i f
    have hm : Sel.spread f ∈ [Sel.spread f] := List.mem_singleton.2 rfl
    exact (fragSpreadBase_keeps h (hk f (spreads_mem hm)) ho (hs f hm)).bind fun b _ _ hb => .pure fun _ => hb
  · exact (hx trivial).elim
  · rename_i fname alias args sub
    split
    · rename_i hn
      exact .pure fun _ => .typename hn
    · rename_i hn
      refine (quietly_assertFieldDef ho).bind fun fd r1 q1 hfd => ?_
      have hsup := hf fname alias args sub fd.type (List.mem_singleton.2 rfl) (by simpa using hn) hfd
      refine (typeFieldNode_keeps c defs T W K (h.quiet q1)
        (fun f hf => hk f (spreads_field (List.mem_singleton.2 rfl) hf)) hsup).bind fun x r2 _ hx => .pure ?_
      intro hT
      exact (hx hT).parts (by simpa using hn) (.inl hfd) hfd fun _ h => h

theorem fragObjectSels_keeps (o name : String) (ho : IsObject c.schema o) (sels : List Sel) : ∀ {r : Reg},
    StateK c defs T W K r → (∀ f, Spreads sels f → K f) → ObjSpreadsK c.schema defs o sels →
    (∀ x ∈ sels, ¬ IsInline x) → FieldHypK c defs (FieldType c.schema o) sels →
    Quietly (fragObjectSels c o name sels) r (ObjK c defs T W o sels) := by
  induction sels with
  | nil => exact fun _ _ _ _ _ => .pure fun _ => .nil
  | cons x rest ih =>
    intro r h hk hs hx hf
    have m1 : ∀ y ∈ [x], y ∈ x :: rest := fun y hy => by rw [List.mem_singleton.1 hy]; exact List.mem_cons_self ..
    have m2 : ∀ y ∈ rest, y ∈ x :: rest := fun y hy => List.mem_cons_of_mem _ hy
    unfold fragObjectSels
    refine (fragObjectSel_keeps x o name h ho (fun f hm => hk f (spreads_head hm)) (fun f hm => hs f (m1 _ hm))
      (hx x (List.mem_cons_self ..)) (hf.mono m1)).bind fun a r1 q1 ha => ?_
    exact (ih (h.quiet q1) (fun f hm => hk f (.later _ _ _ hm)) (fun f hm => hs f (m2 _ hm))
      (fun y hy => hx y (m2 y hy)) (hf.mono m2)).bind fun p r2 q2 hp => .pure (ha.append hp)

theorem declared_fragmentBases {p : FragmentsConfig} {b : Bool} {x : String} {st : Stmt} (h : ModuleK c T)
    (hp : ∀ b ∈ p.fragmentBases ++ p.objectBases, ¬ IsClass T (lastComponent b))
    (hx : Expr.name x ∈ baseNames p.fragmentBases ++ baseNames (if b then p.objectBases else []) ++
      baseNames c.config.objectBases) : ¬ Declared T x st := by
  rcases List.mem_append.1 hx with hx | hx
  · rcases List.mem_append.1 hx with hx | hx
    · exact declared_baseNames (fun y hy => hp y (List.mem_append_left _ hy)) hx
    · refine declared_baseNames (fun y hy => hp y (List.mem_append_right _ ?_)) hx
      split at hy
      · exact hy
      · cases hy
  · exact declared_baseNames h.objectBases hx

/-- the class of a fragment on an object keeps what the fragment asks for -/
theorem objectFragment_keeps {prep : List Char → List Char} {p : FragmentsConfig} {f : FragDef} {name : String}
    {desc : Option String} (h : StateK c defs T W K r)
    (hp : ∀ b ∈ p.fragmentBases ++ p.objectBases, ¬ IsClass T (lastComponent b))
    (ho : IsObject c.schema f.typeCondition) (hk : ∀ g, Spreads f.sels g → K g)
    (hs : ObjSpreadsK c.schema defs f.typeCondition f.sels) (hx : ∀ x ∈ f.sels, ¬ IsInline x)
    (hf : FieldHypK c defs (FieldType c.schema f.typeCondition) f.sels) :
    Quietly (objectFragment prep c p f name desc) r fun ss => (∀ st ∈ ss, st ∈ T) →
      Models c defs T W f.typeCondition f.typeCondition f.sels name := by
  unfold objectFragment
  refine quietly_additionalBasesFor.bind fun extra r1 q1 hextra => ?_
  refine quietly_typenameField.bind fun tn r2 q2 htn => ?_
  refine (fragObjectSels_keeps f.typeCondition name ho f.sels (h.quiet (q1.trans q2)) hk hs hx hf).bind
    fun q r3 q3 hq => ?_
  refine quietly_fragmentMeta.bind fun meta_ r4 q4 hmeta => ?_
  refine quietly_fragmentBasesOf.bind fun fb r5 q5 hfb => ?_
  refine quietly_generatePydanticConfig.bind fun cfg r6 q6 hcfg => .pure ?_
  intro hT
  have hcT := hT _ (List.mem_append_right _ (List.mem_singleton.2 rfl))
  refine (hq fun st hst => hT st (List.mem_append_left _ hst)).models h.module_.unique hcT ?_ ?_ ?_ ?_
    (.inl (by rw [htn]; simp))
  · intro b hb
    rcases List.mem_append.1 hb with hb | hb
    · rcases List.mem_append.1 hb with hb | hb
      · exact .inl (List.mem_reverse.1 (mem_names.1 hb))
      · rw [hextra] at hb; exact .inr fun st hd => (declared_baseNames h.module_.additional hb hd).elim
    · rw [hfb] at hb; exact .inr fun st hd => (declared_fragmentBases h.module_ hp hb hd).elim
  · intro b hb
    exact List.mem_append_left _ (List.mem_append_left _ (mem_names.2 (List.mem_reverse.2 hb)))
  · intro st hst
    rcases List.mem_cons.1 hst with rfl | hst
    · exact .inr (.inr rfl)
    · rcases List.mem_cons.1 hst with rfl | hst
      · exact .inr (.inl htn)
      · rcases List.mem_append.1 hst with hst | hst
        · rcases List.mem_append.1 hst with hst | hst
          · exact .inl hst
          · exact .inr (.inr (hcfg st hst))
        · exact .inr (.inr (hmeta st hst))
  · intro st hst
    exact .inl (by simp [hst])

/-! ## fragments on unions -/

theorem fragUnionInlineSel_keeps (x : Sel) (o name : String) (h : StateK c defs T W K r) (ho : IsObject c.schema o)
    (hk : ∀ f, Spreads [x] f → K f)
    (hs : ∀ f, Sel.spread f ∈ [x] → styled c.env.stylers Styler.fragmentName f = .ok f ∧
      ∃ d, defs.get? f = some d ∧ d.typeCondition = o)
    (hx : ¬ IsInline x) (hf : FieldHypK c defs (FieldType c.schema o) [x]) :
    Quietly (fragUnionInlineSel c o name x) r (ObjK c defs T W o [x]) := by
  unfold fragUnionInlineSel
  split
  · rename_i f
    have hm : Sel.spread f ∈ [Sel.spread f] := List.mem_singleton.2 rfl
    obtain ⟨hst, d, hd, rfl⟩ := hs f hm
    have hfr := h.frag (hk f (spreads_mem hm)) hd
    obtain ⟨cls, hcl, hst'⟩ := hfr.named
    have : cls = f := by
      have : Kind.fragment.style c.env f = .ok f := hst
      rw [this] at hst'; cases hst'; rfl
    subst this
    exact .pure fun _ => .of_models (hfr.object ho _ hcl) hd (.object ho)
  · exact (hx trivial).elim
  · rename_i fname alias args sub
    split
    · rename_i hn
      exact .pure fun _ => .typename hn
    · rename_i hn
      refine (quietly_assertFieldDef ho).bind fun fd r1 q1 hfd => ?_
      have hsup := hf fname alias args sub fd.type (List.mem_singleton.2 rfl) (by simpa using hn) hfd
      refine (typeFieldNode_keeps c defs T W K (h.quiet q1)
        (fun f hf => hk f (spreads_field (List.mem_singleton.2 rfl) hf)) hsup).bind fun x r2 _ hx => .pure ?_
      intro hT
      exact (hx hT).parts (by simpa using hn) (.inl hfd) hfd fun _ h => h

theorem fragUnionInlineSels_keeps (o name : String) (ho : IsObject c.schema o) (sels : List Sel) : ∀ {r : Reg},
    StateK c defs T W K r → (∀ f, Spreads sels f → K f) →
    (∀ f, Sel.spread f ∈ sels → styled c.env.stylers Styler.fragmentName f = .ok f ∧
      ∃ d, defs.get? f = some d ∧ d.typeCondition = o) →
    (∀ x ∈ sels, ¬ IsInline x) → FieldHypK c defs (FieldType c.schema o) sels →
    Quietly (fragUnionInlineSels c o name sels) r (ObjK c defs T W o sels) := by
  induction sels with
  | nil => exact fun _ _ _ _ _ => .pure fun _ => .nil
  | cons x rest ih =>
    intro r h hk hs hx hf
    have m1 : ∀ y ∈ [x], y ∈ x :: rest := fun y hy => by rw [List.mem_singleton.1 hy]; exact List.mem_cons_self ..
    have m2 : ∀ y ∈ rest, y ∈ x :: rest := fun y hy => List.mem_cons_of_mem _ hy
    unfold fragUnionInlineSels
    refine (fragUnionInlineSel_keeps x o name h ho (fun f hm => hk f (spreads_head hm)) (fun f hm => hs f (m1 _ hm))
      (hx x (List.mem_cons_self ..)) (hf.mono m1)).bind fun a r1 q1 ha => ?_
    exact (ih (h.quiet q1) (fun f hm => hk f (.later _ _ _ hm)) (fun f hm => hs f (m2 _ hm))
      (fun y hy => hx y (m2 y hy)) (hf.mono m2)).bind fun p r2 q2 hp => .pure (ha.append hp)

/-- hypotheses on the selections of a fragment on a union -/
structure FragUnHypK (c : Ctx) (defs : Dict FragDef) (sels : List Sel) : Prop where
  objects : ∀ o inner, Sel.inline (some o) inner ∈ sels → IsObject c.schema o
  bases : ∀ o inner f, Sel.inline (some o) inner ∈ sels → Sel.spread f ∈ inner →
    styled c.env.stylers Styler.fragmentName f = .ok f ∧ ∃ d', defs.get? f = some d' ∧ d'.typeCondition = o
  flat : ∀ o inner x, Sel.inline (some o) inner ∈ sels → x ∈ inner → ¬ IsInline x
  inner : ∀ o inner, Sel.inline (some o) inner ∈ sels → FieldHypK c defs (FieldType c.schema o) inner

theorem FragUnHypK.mono {a b : List Sel} (h : FragUnHypK c defs b) (hs : ∀ x ∈ a, x ∈ b) : FragUnHypK c defs a :=
  ⟨fun o i hm => h.objects o i (hs _ hm), fun o i f hm => h.bases o i f (hs _ hm),
    fun o i x hm => h.flat o i x (hs _ hm), fun o i hm => h.inner o i (hs _ hm)⟩

theorem fragUnionSel_keeps (x : Sel) (n name : String) (h : StateK c defs T W K r) (hk : ∀ f, Spreads [x] f → K f)
    (hu : FragUnHypK c defs [x]) :
    Quietly (fragUnionSel c name x) r (IfcK c defs T W n [x]) := by
  unfold fragUnionSel
  split
  · rename_i f
    have hmem : Sel.spread f ∈ [Sel.spread f] := List.mem_singleton.2 rfl
    obtain ⟨d, hf⟩ := h.frags f (hk f (spreads_mem hmem))
    have hm : Quietly (unionMembersOf f) r fun bs => r.unionFragmentMembers.get? f = some bs := by
      intro a r' h
      unfold unionMembersOf at h
      split at h
      · rename_i m hm; cases h; exact ⟨.refl _, hm⟩
      · cases h
    refine hm.bind fun bs _ _ hbs => .pure ?_
    intro _
    exact ⟨fun o _ => (hf.members bs hbs).parts hf.defined, .empty (by simp)⟩
  · exact .fail
  · rename_i t sub
    have hm : Sel.inline (some t) sub ∈ [Sel.inline (some t) sub] := List.mem_singleton.2 rfl
    have ht := hu.objects t sub hm
    refine (fragUnionInlineSels_keeps t name ht sub h (fun f hf => hk f (spreads_inline hm hf))
      (fun f hf => hu.bases t sub f hm hf) (fun x hx => hu.flat t sub x hm hx)
      (hu.inner t sub hm)).bind fun q r1 q1 hq => .pure ?_
    intro hT
    exact ⟨fun o _ => inlineParts ht (hq hT), .empty (by simp)⟩
  · split
    · rename_i hn
      exact .pure fun _ => ⟨fun _ _ => .typename hn, .empty fun name' al' args' sub' hs => by
        cases List.mem_singleton.1 hs; simpa using hn⟩
    · exact .fail

theorem fragUnionSels_keeps (n name : String) (sels : List Sel) : ∀ {r : Reg}, StateK c defs T W K r →
    (∀ f, Spreads sels f → K f) → FragUnHypK c defs sels →
    Quietly (fragUnionSels c name sels) r (IfcK c defs T W n sels) := by
  induction sels with
  | nil => exact fun _ _ _ => .pure fun _ => ⟨fun _ _ => .nil, .empty (by simp)⟩
  | cons x rest ih =>
    intro r h hk hu
    have m1 : ∀ y ∈ [x], y ∈ x :: rest := fun y hy => by rw [List.mem_singleton.1 hy]; exact List.mem_cons_self ..
    have m2 : ∀ y ∈ rest, y ∈ x :: rest := fun y hy => List.mem_cons_of_mem _ hy
    unfold fragUnionSels
    refine (fragUnionSel_keeps x n name h (fun f hm => hk f (spreads_head hm)) (hu.mono m1)).bind fun a r1 q1 ha => ?_
    exact (ih (h.quiet q1) (fun f hm => hk f (.later _ _ _ hm)) (hu.mono m2)).bind
      fun p r2 q2 hp => .pure (ha.append hp)

theorem fragUnionSels_body (name : String) (sels : List Sel) : ∀ {r r' : Reg} {q : InterfaceParts},
    fragUnionSels c name sels r = .ok (q, r') → q.body = [] := by
  induction sels with
  | nil =>
    intro r r' q h
    unfold fragUnionSels at h
    obtain ⟨rfl, _⟩ := Gen.pure_ok.1 h
    rfl
  | cons x rest ih =>
    intro r r' q h
    unfold fragUnionSels at h
    obtain ⟨a, r1, h1, h⟩ := Gen.bind_ok.1 h
    obtain ⟨b, r2, h2, h⟩ := Gen.bind_ok.1 h
    obtain ⟨rfl, _⟩ := Gen.pure_ok.1 h
    have ha : a.body = [] := by
      unfold fragUnionSel at h1
      split at h1
      · obtain ⟨_, _, _, h1⟩ := Gen.bind_ok.1 h1
        obtain ⟨rfl, _⟩ := Gen.pure_ok.1 h1
        rfl
      · exact (Gen.fail_ok.1 h1).elim
      · obtain ⟨_, _, _, h1⟩ := Gen.bind_ok.1 h1
        obtain ⟨rfl, _⟩ := Gen.pure_ok.1 h1
        rfl
      · split at h1
        · obtain ⟨rfl, _⟩ := Gen.pure_ok.1 h1
          rfl
        · exact (Gen.fail_ok.1 h1).elim
    show a.body ++ b.body = []
    rw [ha, ih h2]
    rfl

/-- a fragment on a union registers classes that keep what it asks for, and its name stands for their union -/
theorem unionFragment_keeps {p : FragmentsConfig} {f : FragDef} {name : String} {desc : Option String}
    {ms : List String} {ss : List Stmt} {r' : Reg} (h : StateK c defs T W K r)
    (hp : ∀ b ∈ p.fragmentBases ++ p.objectBases, ¬ IsClass T (lastComponent b))
    (hl : c.schema.lookup f.typeCondition = some (.union ms)) (hms : ∀ m ∈ ms, IsObject c.schema m)
    (hk : ∀ g, Spreads f.sels g → K g) (hu : FragUnHypK c defs f.sels)
    (ha : ∀ o, Possible c.schema f.typeCondition o → Apart c defs o f.sels)
    (hg : unionFragment c p f name desc ms r = .ok (ss, r')) (hT : ∀ st ∈ ss, st ∈ T) :
    ∃ m r1 r2, Quiet r r1 ∧ Quiet { r1 with unionFragmentMembers := r1.unionFragmentMembers.set f.name m } r2 ∧
      r' = r2 ∧ TableK c defs T W f m ∧
      ((∀ o, Possible c.schema f.typeCondition o → ∃ m, Member T (.name name) m ∧ IsFor T m o) ∧
      ∀ m o, Member T (.name name) m → IsFor T m o →
        Possible c.schema f.typeCondition o ∧ Models c defs T W o f.typeCondition f.sels m) ∧
      ByClass T (.name name) ∧ ∀ m, Member T (.name name) m → ∃ o, IsFor T m o := by
  unfold unionFragment at hg
  obtain ⟨extra, r1, h1, hg⟩ := Gen.bind_ok.1 hg
  obtain ⟨q1, hextra⟩ := quietly_additionalBasesFor _ _ h1
  obtain ⟨q, r2, h2, hg⟩ := Gen.bind_ok.1 hg
  obtain ⟨q2, hq⟩ := fragUnionSels_keeps f.typeCondition name f.sels (h.quiet q1) hk hu _ _ h2
  have hqb := fragUnionSels_body name f.sels h2
  obtain ⟨cs, r3, h3, hg⟩ := Gen.bind_ok.1 hg
  obtain ⟨q3, hcs⟩ := fragMemberClasses_ok _ _ h3
  obtain ⟨u, r4, h4, hg⟩ := Gen.bind_ok.1 hg
  unfold registerUnionMembers at h4
  cases h4
  obtain ⟨u, r5, h5, hg⟩ := Gen.bind_ok.1 hg
  obtain ⟨q5, _⟩ := quietly_registerImport _ _ h5
  obtain ⟨rfl, rfl⟩ := Gen.pure_ok.1 hg
  obtain ⟨e1, e2⟩ := foldl_set_entries (α := String) id (fun i => name ++ i) ms []
  have hmod : ∀ o ∈ ms, Models c defs T W o f.typeCondition f.sels (name ++ o) := by
    intro o hm
    have hpo : Possible c.schema f.typeCondition o := .union hl (hms o hm) hm
    have hcT : Stmt.classDef (name ++ o) (names (q.basesFor o) ++ (baseNames p.fragmentBases ++
        baseNames (if false then p.objectBases else []) ++ baseNames c.config.objectBases))
        (typenameStmt c o :: q.bodyFor o) [] ∈ T :=
      hT _ (List.mem_append_left _ (List.mem_append_left _ (List.mem_append_right _ (hcs o hm))))
    have hparts := (hq (fun st hst => hT st (List.mem_append_left _ (List.mem_append_left _
      (List.mem_append_left _ hst))))).1 o hpo
    rw [hqb, List.nil_append] at hparts
    refine hparts.models h.module_.unique hcT ?_ ?_ ?_ ?_ (.inl (List.mem_cons_self ..))
    · intro b hb
      rcases List.mem_append.1 hb with hb | hb
      · exact .inl (mem_names.1 hb)
      · exact .inr fun st hd => (declared_fragmentBases (b := false) h.module_ hp hb hd).elim
    · intro b hb
      exact List.mem_append_left _ (mem_names.2 hb)
    · intro st hst
      rcases List.mem_cons.1 hst with rfl | hst
      · exact .inr (.inl rfl)
      · exact .inl hst
    · intro st hst
      exact .inl (List.mem_cons_of_mem _ hst)
  have hmem : ∀ m, Member T (.name name) m ↔ ∃ o ∈ ms, m = name ++ o := by
    intro m
    have hal := hT _ (List.mem_append_left _ (List.mem_append_right _ (List.mem_singleton.2 rfl)))
    refine (member_alias h.module_.aliases hal).trans (member_union.trans ⟨?_, ?_⟩)
    · rintro ⟨t, ht, hm⟩
      obtain ⟨nm, hnm, rfl⟩ := List.mem_map.1 ht
      obtain ⟨o, ho, rfl⟩ := List.mem_map.1 hnm
      exact ⟨o, ho, (member_class h.module_.aliases (hmod o ho).cls).1 hm⟩
    · rintro ⟨o, ho, rfl⟩
      exact ⟨_, mem_names.2 (List.mem_map.2 ⟨o, ho, rfl⟩), .cls (hmod o ho).cls⟩
  refine ⟨_, r3, _, (q1.trans q2).trans q3, q5, rfl, ⟨fun o hpo => ?_, fun o cls hm => ?_⟩, ⟨fun o hpo => ?_,
    fun m o hm hfor => ?_⟩, ?_, fun m hm => ?_⟩
  · obtain ⟨_, hm⟩ := possible_union hl hpo
    exact Option.isSome_iff_exists.1 (e2 o (.inr ⟨o, hm, rfl⟩))
  · rcases e1 o cls hm with hm | ⟨i, hi, hk, hv⟩
    · cases hm
    · have : o = i := hk
      subst this
      subst hv
      exact ⟨.union hl (hms o hi) hi, hmod o hi⟩
  · obtain ⟨_, hm⟩ := possible_union hl hpo
    exact ⟨_, (hmem _).2 ⟨o, hm, rfl⟩, (hmod o hm).isFor⟩
  · obtain ⟨o', ho', rfl⟩ := (hmem m).1 hm
    have hpo : Possible c.schema f.typeCondition o' := .union hl (hms o' ho') ho'
    have : o = o' := (hmod o' ho').tag_eq (ha o' hpo) hfor
    subst this
    exact ⟨hpo, hmod o ho'⟩
  · intro isa v hv
    have hal := hT _ (List.mem_append_left _ (List.mem_append_right _ (List.mem_singleton.2 rfl)))
    obtain ⟨t, ht, hv⟩ := mayAccept_union (mayAccept_alias h.module_.aliases hal hv)
    obtain ⟨nm, hnm, rfl⟩ := List.mem_map.1 ht
    obtain ⟨o, ho, rfl⟩ := List.mem_map.1 hnm
    exact ⟨_, (hmem _).2 ⟨o, ho, rfl⟩, hv⟩
  · obtain ⟨o, ho, rfl⟩ := (hmem m).1 hm
    exact ⟨o, (hmod o ho).isFor⟩

/-! ## one fragment, all fragments -/

/-- the state after registering the fragment -/
theorem StateK.registered {d : FragDef} {cls : String} {docs : Dict String}
    (h : StateK c defs T W K r) (hK : ∀ f, K f → f ≠ d.name) :
    StateK c defs T W K { r.setClass .fragment d.name cls with
      fragmentDocumentMap := docs, fragmentTypeMap := r.fragmentTypeMap.set d.name d.typeCondition } := by
  refine ⟨h.module_, h.scalars, fun f hf => ?_⟩
  obtain ⟨d', hd'⟩ := h.frags f hf
  have hne := hK f hf
  exact ⟨d', hd'.of_tables (Dict.get?_set_ne _ _ hne.symm) (Dict.get?_set_ne _ _ hne.symm) rfl rfl⟩

/-- Generating one fragment extends the set of fragments the registry is right about. -/
theorem generateFragment_keeps {prep : List Char → List Char} {p : FragmentsConfig} {d : FragDef} {ss : List Stmt}
    {r' : Reg} (h : StateK c defs T W K r)
    (hp : ∀ b ∈ p.fragmentBases ++ p.objectBases, ¬ IsClass T (lastComponent b))
    (hd : defs.get? d.name = some d) (hk : ∀ g, Spreads d.sels g → K g) (hs : KeepableFragment c defs d)
    (hni : r.interfaceFragmentImpl.get? d.name = none) (hnu : r.unionFragmentMembers.get? d.name = none)
    (hg : generateFragment prep c p d r = .ok (ss, r')) (hT : ∀ st ∈ ss, st ∈ T) :
    StateK c defs T W (fun f => K f ∨ f = d.name) r' ∧
      ∀ f, f ≠ d.name → r'.interfaceFragmentImpl.get? f = r.interfaceFragmentImpl.get? f ∧
        r'.unionFragmentMembers.get? f = r.unionFragmentMembers.get? f := by
  unfold generateFragment at hg
  cases he : c.schema.types.get? d.typeCondition with
  | none => rw [he] at hg; exact (Gen.fail_ok.1 hg).elim
  | some e =>
  rw [he] at hg
  dsimp only at hg
  have hlk := lookup_entry he
  obtain ⟨name, r1, h1, hg⟩ := Gen.bind_ok.1 hg
  obtain ⟨hnc, hsty, rfl⟩ := generateClass_ok h1
  obtain ⟨u, r2, h2, hg⟩ := Gen.bind_ok.1 hg
  unfold registerFragmentDocument at h2
  split at h2
  · cases h2
  cases h2
  obtain ⟨u, r3, h3, hg⟩ := Gen.bind_ok.1 hg
  unfold registerFragmentType at h3
  cases h3
  have hK : ∀ f, K f → f ≠ d.name := by
    rintro f hf rfl
    obtain ⟨d', hd'⟩ := h.frags _ hf
    obtain ⟨cls, hc, _⟩ := hd'.named
    have : r.fragmentMap.contains d.name = true := by rw [Dict.contains_eq_isSome, hc]; rfl
    have hnc' : r.fragmentMap.contains d.name = false := hnc
    rw [this] at hnc'; cases hnc'
  have h0 := h.registered (cls := name) (docs := (r.setClass .fragment d.name name).fragmentDocumentMap.set d.name
    (String.ofList (Documents.printFragment d))) hK
  obtain ⟨r0, hr0⟩ : ∃ r0, r0 = { r.setClass .fragment d.name name with
      fragmentDocumentMap := (r.setClass .fragment d.name name).fragmentDocumentMap.set d.name
        (String.ofList (Documents.printFragment d))
      fragmentTypeMap := r.fragmentTypeMap.set d.name d.typeCondition } := ⟨_, rfl⟩
  rw [← hr0] at h0
  have t1 : r0.fragmentMap.get? d.name = some name := by rw [hr0]; exact Dict.get?_set_self ..
  have t2 : r0.fragmentTypeMap.get? d.name = some d.typeCondition := by rw [hr0]; exact Dict.get?_set_self ..
  have t3 : r0.interfaceFragmentImpl = r.interfaceFragmentImpl := by rw [hr0]; rfl
  have t4 : r0.unionFragmentMembers = r.unionFragmentMembers := by rw [hr0]; rfl
  have hg' : fragmentBody prep c p d name e r0 = .ok (ss, r') := by rw [hr0]; exact hg
  clear hg hr0 h1
  have key : ∀ (hm : StateK c defs T W K r') (hnew : FragK c defs T W r' d.name d),
      StateK c defs T W (fun f => K f ∨ f = d.name) r' := by
    intro hm hnew
    refine ⟨hm.module_, hm.scalars, ?_⟩
    rintro f (hf | rfl)
    · exact hm.frags f hf
    · exact ⟨d, hnew⟩
  have cls_eq : ∀ {x : Reg}, x.fragmentMap = r0.fragmentMap → ∀ cls, x.fragmentMap.get? d.name = some cls →
      cls = name := by
    intro x hx cls hc
    rw [hx, t1] at hc
    cases hc
    rfl
  cases hs with
  | @interface fs is hl hsp ho hpl hap hf hi =>
    obtain ⟨ek, ed⟩ := e
    cases hl.symm.trans hlk
    unfold fragmentBody at hg'
    obtain ⟨m, r1, q, rfl, htab⟩ := interfaceFragment_keeps h0 hl hk
      (fun n a g s t hm hn ⟨fd, hfd, e1, e2⟩ => e2 ▸ hf n a g s fd hm hn hfd e1)
      ⟨hsp, hpl, fun o i hm n a g s t hm' hn ht => hi o i n a g s t hm hm' hn ht⟩ ho hg' hT
    obtain ⟨q0, q1, q2, q3, q4, _⟩ := q.tables
    have hin : IsInterface c.schema d.typeCondition := ⟨_, _, hl⟩
    refine ⟨key ?_ ?_, fun f hne => ⟨?_, ?_⟩⟩
    · have h5 := h0.quiet q
      refine ⟨h5.module_, h5.scalars, fun f hf => ?_⟩
      obtain ⟨d', hd'⟩ := h5.frags f hf
      exact ⟨d', hd'.of_tables rfl rfl (Dict.get?_set_ne _ _ (hK f hf).symm) rfl⟩
    · refine ⟨hd, ?_, ⟨name, ?_, hsty⟩, ?_, fun _ => ⟨m, Dict.get?_set_self .., htab⟩,
        fun hn => (hn hin).elim, fun hobj => (not_interface_of_object hobj hin).elim, fun hn => (hn hin).elim, fun hn => (hn hin).elim,
        hap⟩
      · rw [← t2]; exact congrArg (·.get? d.name) q2
      · rw [← t1]; exact congrArg (·.get? d.name) q1
      · intro m' hm'
        have : r1.unionFragmentMembers.get? d.name = some m' := hm'
        rw [q4, t4, hnu] at this
        cases this
    · show (r1.interfaceFragmentImpl.set d.name m).get? f = _
      rw [Dict.get?_set_ne _ _ hne.symm, q3, t3]
    · show r1.unionFragmentMembers.get? f = _
      rw [q4, t4]
  | object ho hsp hx hap hf =>
    obtain ⟨fs, is, hl⟩ := ho
    have ho : IsObject c.schema d.typeCondition := ⟨fs, is, hl⟩
    obtain ⟨ek, ed⟩ := e
    cases hl.symm.trans hlk
    unfold fragmentBody at hg'
    obtain ⟨q, hmod⟩ := objectFragment_keeps (prep := prep) (name := name) (desc := ed) h0 hp ho hk
      (fun f hm => hsp f hm) hx (fun n a g s t hm hn ht => hf n a g s t hm hn ht) _ _ hg'
    have hmod := hmod hT
    obtain ⟨q0, q1, q2, q3, q4, _⟩ := q.tables
    refine ⟨key (h0.quiet q) ?_, fun f hne => ⟨by rw [q3, t3], by rw [q4, t4]⟩⟩
    refine ⟨hd, by rw [q2, t2], ⟨name, by rw [q1, t1], hsty⟩, ?_,
      fun hin => (not_interface_of_object ho hin).elim, fun _ => by rw [q3, t3, hni], ?_, ?_, ?_, ?_⟩
    · intro m hm; rw [q4, t4, hnu] at hm; cases hm
    · intro _ cls hc
      rw [cls_eq q1 cls hc]
      exact hmod
    · intro _ cls hc
      rw [cls_eq q1 cls hc]
      refine ⟨fun o hpo => ?_, fun m o hm hfor => ?_⟩
      · rw [possible_of_object ho hpo]
        exact ⟨name, .cls hmod.cls, hmod.isFor⟩
      · rw [(member_class h.module_.aliases hmod.cls).1 hm] at hfor ⊢
        rw [show o = d.typeCondition from hmod.tag_eq hap hfor]
        exact ⟨.object ho, hmod⟩
    · intro _ cls hc
      rw [cls_eq q1 cls hc]
      refine ⟨byClass_class hmod.cls, fun m hm => ⟨d.typeCondition, ?_⟩⟩
      rw [(member_class h.module_.aliases hmod.cls).1 hm]
      exact hmod.isFor
    · intro o hpo
      rw [possible_of_object ho hpo]
      exact hap
  | @union ms hl hms ho hin hflat hap hfs =>
    obtain ⟨ek, ed⟩ := e
    cases hl.symm.trans hlk
    unfold fragmentBody at hg'
    obtain ⟨m, r1, r2, q, q', rfl, htab, hm2, hm3⟩ := unionFragment_keeps h0 hp hl hms hk
      ⟨ho, hin, hflat, fun o i hm n a g s t hm' hn ht => hfs o i n a g s t hm hm' hn ht⟩ hap hg' hT
    obtain ⟨q0, q1, q2, q3, q4, _⟩ := q.tables
    obtain ⟨p0, p1, p2, p3, p4, _⟩ := q'.tables
    have e1 : r'.fragmentMap = r0.fragmentMap := p1.trans q1
    have e2 : r'.fragmentTypeMap = r0.fragmentTypeMap := p2.trans q2
    have e3 : r'.interfaceFragmentImpl = r0.interfaceFragmentImpl := p3.trans q3
    have e4 : r'.unionFragmentMembers = r0.unionFragmentMembers.set d.name m := by rw [p4]; show _ = _; rw [← q4]
    refine ⟨key ?_ ?_, fun f hne => ⟨by rw [e3, t3], by rw [e4, Dict.get?_set_ne _ _ hne.symm, t4]⟩⟩
    · refine ⟨h0.module_, (p0.trans q0).trans h0.scalars, fun f hf => ?_⟩
      obtain ⟨d', hd'⟩ := h0.frags f hf
      exact ⟨d', hd'.of_tables (by rw [e1]) (by rw [e2]) (by rw [e3]) (by rw [e4, Dict.get?_set_ne _ _ (hK f hf).symm])⟩
    · refine ⟨hd, by rw [e2, t2], ⟨name, by rw [e1, t1], hsty⟩, ?_,
        fun hi => (not_interface_of_union hl hi).elim, fun _ => by rw [e3, t3, hni],
        fun hobj => (not_object_of_union hl hobj).elim, ?_, ?_, hap⟩
      · intro m' hm'
        rw [e4, Dict.get?_set_self] at hm'
        cases hm'
        exact htab
      · intro _ cls hc
        rw [cls_eq e1 cls hc]
        exact hm2
      · intro _ cls hc
        rw [cls_eq e1 cls hc]
        exact hm3

/-- Generating fragments, each after the ones it spreads. -/
theorem generateFragments_keeps {prep : List Char → List Char} {p : FragmentsConfig} (fs : List FragDef) :
    ∀ {K : String → Prop} {r r' : Reg} {ss : List Stmt}, StateK c defs T W K r →
    (∀ b ∈ p.fragmentBases ++ p.objectBases, ¬ IsClass T (lastComponent b)) →
    (∀ d ∈ fs, defs.get? d.name = some d) → (fs.map (·.name)).Nodup →
    (∀ d ∈ fs, KeepableFragment c defs d) →
    (∀ before d after, fs = before ++ d :: after → ∀ g, Spreads d.sels g → K g ∨ g ∈ before.map (·.name)) →
    (∀ d ∈ fs, r.interfaceFragmentImpl.get? d.name = none ∧ r.unionFragmentMembers.get? d.name = none) →
    generateFragments prep c p fs r = .ok (ss, r') → (∀ st ∈ ss, st ∈ T) →
    StateK c defs T W (fun f => K f ∨ f ∈ fs.map (·.name)) r' := by
  induction fs with
  | nil =>
    intro K r r' ss h _ _ _ _ _ _ hg _
    obtain ⟨rfl, rfl⟩ := Gen.pure_ok.1 hg
    have : (fun f => K f ∨ f ∈ ([] : List FragDef).map (·.name)) = K := by funext f; simp
    rw [this]
    exact h
  | cons d fs ih =>
    intro K r r' ss h hp hd hn hkf hs hf hg hT
    unfold generateFragments at hg
    obtain ⟨s1, r1, h1, hg⟩ := Gen.bind_ok.1 hg
    obtain ⟨s2, r2, h2, hg⟩ := Gen.bind_ok.1 hg
    obtain ⟨rfl, rfl⟩ := Gen.pure_ok.1 hg
    have hs0 : ∀ g, Spreads d.sels g → K g := fun g hg => (hs [] d fs rfl g hg).elim id fun h => by cases h
    obtain ⟨hf1, hf2⟩ := hf d (List.mem_cons_self ..)
    obtain ⟨hst, hrest⟩ := generateFragment_keeps h hp (hd d (List.mem_cons_self ..)) hs0
      (hkf d (List.mem_cons_self ..)) hf1 hf2 h1 (fun st hst => hT st (List.mem_append_left _ hst))
    rw [List.map_cons, List.nodup_cons] at hn
    have e1 : (fun f => K f ∨ f ∈ (d :: fs).map (·.name)) =
        (fun f => (K f ∨ f = d.name) ∨ f ∈ fs.map (·.name)) := by
      funext f; simp [or_assoc]
    rw [e1]
    refine ih hst hp (fun x hx => hd x (List.mem_cons_of_mem _ hx)) hn.2
      (fun x hx => hkf x (List.mem_cons_of_mem _ hx)) ?_ ?_ h2 (fun st hst => hT st (List.mem_append_right _ hst))
    · intro before x after e g hg
      rcases hs (d :: before) x after (by rw [e]; rfl) g hg with h | h
      · exact .inl (.inl h)
      · rw [List.map_cons] at h
        rcases List.mem_cons.1 h with h | h
        · exact .inl (.inr h)
        · exact .inr h
    · intro x hx
      have hne : x.name ≠ d.name := by
        intro he
        exact hn.1 (he ▸ List.mem_map_of_mem hx)
      obtain ⟨a, b⟩ := hrest x.name hne
      rw [a, b]
      exact hf x (List.mem_cons_of_mem _ hx)

/-! ## operations -/

/-- the declarations of an operation's class are those of the fields selected -/
structure OpBody (c : Ctx) (defs : Dict FragDef) (T : List Stmt) (W : Reading) (root : String) (sels : List Sel) (body : List Stmt) :
    Prop where
  own : ∀ st ∈ body, OwnAny c defs T W root root sels st
  all : ∀ key name sub, Picks c.schema defs root sels key name sub → ∃ st ∈ body, Keys st key

theorem operationSels_keeps (root cls : String) (ho : IsObject c.schema root) (sels : List Sel) : ∀ {r : Reg},
    StateK c defs T W K r → (∀ f, Spreads sels f → K f) →
    (∀ name alias args sub t, Sel.field name alias args sub ∈ sels → FieldType c.schema root name t →
      Keepable c defs t sub) →
    Quietly (operationSels c root cls sels) r fun x => (∀ st ∈ x.2, st ∈ T) →
      OpBody c defs T W root sels x.1.flatten := by
  induction sels with
  | nil => exact fun _ _ _ => .pure fun _ => ⟨by simp, fun _ _ _ h => (picks_nil h).elim⟩
  | cons x rest ih =>
    intro r h hk hf
    unfold operationSels
    have hx : Quietly (operationSel c root cls x) r fun y => (∀ st ∈ y.2, st ∈ T) → OpBody c defs T W root [x] y.1 := by
      unfold operationSel
      split
      · rename_i name alias args sub
        refine (quietly_assertFieldDef ho).bind fun fd r1 q1 hfd => ?_
        have hsup := hf name alias args sub fd.type (List.mem_cons_self ..) hfd
        refine (typeFieldNode_keeps c defs T W K (h.quiet q1)
          (fun f hf => hk f (spreads_field (List.mem_cons_self ..) hf)) hsup).mono fun y hy hT => ?_
        have hfs := hy hT
        refine ⟨fun st hst f hsf => ?_, fun _ _ _ hp => hfs.all hp⟩
        obtain ⟨h1, ⟨attr, h2, h3⟩, h4⟩ := hfs.only st hst f hsf
        refine ⟨name, sub, fd.type, fd.type, attr, ?_, hfd, h2, by rw [h1]; exact h3, h4⟩
        rw [h1]
        exact .field (List.mem_singleton.2 rfl) (.inl hfd)
      · exact .fail
    refine hx.bind fun a r1 q1 ha => ?_
    refine (ih (h.quiet q1) (fun f hm => hk f (.later _ _ _ hm))
      (fun n a g s t hm ht => hf n a g s t (List.mem_cons_of_mem _ hm) ht)).bind fun p r2 _ hp => .pure ?_
    intro hT
    have ha := ha fun st hst => hT st (List.mem_append_left _ hst)
    have hp := hp fun st hst => hT st (List.mem_append_right _ hst)
    have m1 : ∀ y ∈ [x], y ∈ x :: rest := fun y hy => by rw [List.mem_singleton.1 hy]; exact List.mem_cons_self ..
    have m2 : ∀ y ∈ rest, y ∈ x :: rest := fun y hy => List.mem_cons_of_mem _ hy
    refine ⟨fun st hst f hsf => ?_, fun key name sub hpk => ?_⟩
    · rw [List.flatten_cons] at hst
      rcases List.mem_append.1 hst with hst | hst
      · obtain ⟨name, sub, t, t0, attr, g1, g2⟩ := ha.own st hst f hsf
        exact ⟨name, sub, t, t0, attr, picksAt_mono g1 m1, g2⟩
      · obtain ⟨name, sub, t, t0, attr, g1, g2⟩ := hp.own st hst f hsf
        exact ⟨name, sub, t, t0, attr, picksAt_mono g1 m2, g2⟩
    · rw [List.flatten_cons]
      rcases picks_cons hpk with hpk | hpk
      · obtain ⟨st, g1, g2⟩ := ha.all _ _ _ hpk
        exact ⟨st, List.mem_append_left _ g1, g2⟩
      · obtain ⟨st, g1, g2⟩ := hp.all _ _ _ hpk
        exact ⟨st, List.mem_append_right _ g1, g2⟩

/-- what is needed of an operation -/
structure OpHypK (c : Ctx) (defs : Dict FragDef) (K : String → Prop) (o : OpDef) : Prop where
  object : ∀ root, c.schema.root o.kind = some root → IsObject c.schema root
  spreads : ∀ f, Spreads o.sels f → K f
  apart : ∀ root, c.schema.root o.kind = some root → Apart c defs root o.sels
  fields : ∀ root, c.schema.root o.kind = some root → ∀ name alias args sub t,
    Sel.field name alias args sub ∈ o.sels → FieldType c.schema root name t → Keepable c defs t sub

/-- the class of an operation keeps what the operation asks for -/
theorem generateOperation_keeps {prep : List Char → List Char} {p : OperationsConfig} {o : OpDef} {ss : List Stmt}
    {r' : Reg} (h : StateK c defs T W K r)
    (hp : ∀ k b, b ∈ p.basesFor k → ¬ IsClass T (lastComponent b)) (ho : OpHypK c defs K o)
    (hg : generateOperation prep c p o r = .ok (ss, r')) (hT : ∀ st ∈ ss, st ∈ T) :
    SameFragments r r' ∧ ∃ name cls root, o.name = some name ∧ o.kind.kind.style c.env name = .ok cls ∧
      c.schema.root o.kind = some root ∧ IsClass T cls ∧
      (∀ key name sub t path, Picks c.schema defs root o.sels key name sub → name ≠ "__typename" →
        FieldType c.schema root name t → Asks c.schema defs t sub path →
        Carries T cls key fun ann => Offers T ann path) ∧
      (Assumed c T W → ∀ v, MayAccept T W.isa (.name cls) v → ∃ kvs, v = .obj kvs ∧
        DeliversFields c.schema defs W.leaf c.config.createCatchall root root o.sels kvs) := by
  have hsel : ∀ root cls r0 x r1, SameFragments r r0 → c.schema.root o.kind = some root →
      operationSels c root cls o.sels r0 = .ok (x, r1) → Quiet r0 r1 ∧ ((∀ st ∈ x.2, st ∈ T) →
      OpBody c defs T W root o.sels x.1.flatten) :=
    fun root cls r0 x r1 hs hr he => operationSels_keeps root cls (ho.object root hr) o.sels (h.same hs)
      ho.spreads (ho.fields root hr) _ _ he
  refine ⟨generateOperation_same hg fun root cls r0 x r1 a b e => (hsel root cls r0 x r1 a b e).1, ?_⟩
  unfold generateOperation at hg
  cases hname : o.name with
  | none => rw [hname] at hg; exact (Gen.fail_ok.1 hg).elim
  | some name =>
  rw [hname] at hg
  dsimp only at hg
  obtain ⟨cls, r1, h1, hg⟩ := Gen.bind_ok.1 hg
  obtain ⟨_, hsty, rfl⟩ := generateClass_ok h1
  obtain ⟨bs, r2, h2, hg⟩ := Gen.bind_ok.1 hg
  obtain ⟨q2, hbs⟩ := quietly_basesOrObject _ _ h2
  obtain ⟨root, r3, h3, hg⟩ := Gen.bind_ok.1 hg
  obtain ⟨x, r4, h4, hg⟩ := Gen.bind_ok.1 hg
  obtain ⟨q3, hroot⟩ := quietly_rootTypeOf _ _ h3
  have s3 : SameFragments r r3 ∧ c.schema.root o.kind = some root :=
    ⟨sameFragments_setClass.trans (.of_quiet (q2.trans q3)), hroot⟩
  obtain ⟨q4, hfit⟩ := hsel root cls r3 x r4 s3.1 s3.2 h4
  obtain ⟨u, r5, h5, hg⟩ := Gen.bind_ok.1 hg
  obtain ⟨d, r6, h6, hg⟩ := Gen.bind_ok.1 hg
  obtain ⟨a, r7, h7, hg⟩ := Gen.bind_ok.1 hg
  obtain ⟨q7, ha⟩ := quietly_argumentsClass _ _ h7
  obtain ⟨rfl, rfl⟩ := Gen.pure_ok.1 hg
  have hcT := hT _ (List.mem_append_right _ (List.mem_singleton.2 rfl))
  have hic : IsClass T cls := ⟨_, _, _, hcT⟩
  refine ⟨name, cls, root, rfl, hsty, s3.2, hic, ?_⟩
  have hbody := hfit fun s hs => hT s (List.mem_append_left _ hs)
  have honly : ∀ st, Declared T cls st → OwnAny c defs T W root root o.sels st := by
    intro st hd
    cases hd with
    | own g1 g2 =>
      obtain ⟨_, rfl, _⟩ := h.module_.unique _ _ _ _ _ _ _ g1 hcT
      rcases List.mem_cons.1 g2 with rfl | g2
      · exact fun f hf => by cases hf
      · rcases List.mem_append.1 g2 with g2 | g2
        · rcases List.mem_append.1 g2 with g2 | g2
          · exact hbody.own st g2
          · intro f hf; rw [ha st g2] at hf; cases hf
        · rw [List.mem_singleton.1 g2]
          exact fun f hf => by cases hf
    | inherited g1 g2 g3 =>
      obtain ⟨rfl, _, _⟩ := h.module_.unique _ _ _ _ _ _ _ g1 hcT
      rw [hbs] at g2
      refine (declared_baseNames (fun y hy => ?_) g2 g3).elim
      split at hy
      · exact h.module_.objectBases y hy
      · exact hp _ y hy
  have hap := ho.apart root hroot
  refine ⟨?_, ?_⟩
  · intro key name sub t path hpk hne ht hask
    obtain ⟨st, g1, f, g2, g3⟩ := hbody.all key name sub hpk
    refine ⟨⟨st, f, .own hcT (by simp [g1]), g2, g3⟩, ?_⟩
    intro st f attr hd hf1 hkey hat
    obtain ⟨name', sub', t', _, attr', h4, h5, h6, h7, h8, _⟩ := honly st hd f hf1
    rw [hkey] at h4 h7
    rw [hat] at h6
    cases h6
    obtain ⟨rfl, rfl⟩ := hap.once _ _ _ _ _ hpk (picksAt_picks h4)
    cases h.module_.once _ _ _ _ ht h5
    refine ⟨h8 path hask, ((hap.reserved _ _ _ hpk hne).2 attr h7).2, ?_⟩
    intro st' f' hd' hf' hat'
    obtain ⟨n2, u2, t2, _, a2, k2, _, k4, k5, _⟩ := honly st' hd' f' hf'
    rw [hat'] at k4
    cases k4
    exact hap.attrs _ _ _ _ _ _ _ (picksAt_picks k2) hpk k5 h7
  · intro hA v hv
    obtain ⟨kvs, rfl, hall⟩ := mayAccept_class h.module_.aliases hic hv
    refine ⟨kvs, rfl, fun key name sub hpk hne => ?_⟩
    obtain ⟨st, g1, f, g2, g3⟩ := hbody.all key name sub hpk
    have hd : Declared T cls st := .own hcT (by simp [g1])
    obtain ⟨_, _, _, _, attr, _, _, h3, h4, _⟩ := honly st hd f g2
    rw [g3] at h4
    obtain ⟨st', f', hd', hat', hf', hreq, hval⟩ := hall attr ⟨((hap.reserved _ _ _ hpk hne).2 attr h4).2, _, hd, h3⟩
    obtain ⟨name', sub', _, t0, attr', k2, _, k4, k5, _, k7⟩ := honly st' hd' f' hf'
    rw [hat'] at k4
    cases k4
    have hk : f'.key = key := hap.attrs _ _ _ _ _ _ _ (picksAt_picks k2) hpk k5 h4
    rw [hk] at k2 hreq hval
    obtain ⟨rfl, rfl⟩ := hap.once _ _ _ _ _ hpk (picksAt_picks k2)
    exact ⟨t0, k2, fun e => k7.required (hreq e), fun x hx => k7.guards hA x (hval x hx)⟩

theorem generateOperations_keeps {prep : List Char → List Char} {p : OperationsConfig} (os : List OpDef) :
    ∀ {r r' : Reg} {ss : List Stmt}, StateK c defs T W K r →
    (∀ k b, b ∈ p.basesFor k → ¬ IsClass T (lastComponent b)) → (∀ o ∈ os, OpHypK c defs K o) →
    generateOperations prep c p os r = .ok (ss, r') → (∀ st ∈ ss, st ∈ T) →
    ∀ o ∈ os, ∃ name cls root, o.name = some name ∧ o.kind.kind.style c.env name = .ok cls ∧
      c.schema.root o.kind = some root ∧ IsClass T cls ∧
      (∀ key name sub t path, Picks c.schema defs root o.sels key name sub → name ≠ "__typename" →
        FieldType c.schema root name t → Asks c.schema defs t sub path →
        Carries T cls key fun ann => Offers T ann path) ∧
      (Assumed c T W → ∀ v, MayAccept T W.isa (.name cls) v → ∃ kvs, v = .obj kvs ∧
        DeliversFields c.schema defs W.leaf c.config.createCatchall root root o.sels kvs) := by
  induction os with
  | nil => intro r r' ss _ _ _ _ _ o ho; cases ho
  | cons x os ih =>
    intro r r' ss h hp ho hg hT o hm
    unfold generateOperations at hg
    obtain ⟨s1, r1, h1, hg⟩ := Gen.bind_ok.1 hg
    obtain ⟨s2, r2, h2, hg⟩ := Gen.bind_ok.1 hg
    obtain ⟨rfl, rfl⟩ := Gen.pure_ok.1 hg
    obtain ⟨hs, hx⟩ := generateOperation_keeps h hp (ho x (List.mem_cons_self ..)) h1
      (fun st hst => hT st (List.mem_append_left _ hst))
    rcases List.mem_cons.1 hm with rfl | hm
    · exact hx
    · exact ih (h.same hs) hp (fun y hy => ho y (List.mem_cons_of_mem _ hy)) h2
        (fun st hst => hT st (List.mem_append_right _ hst)) o hm

end
end Turms
