import Verif.Lemmas.KeptWalk

/-! # Generated response models keep what is asked for: walking the selections -/

namespace Turms
open Spec

theorem spreads_head {x : Sel} {rest : List Sel} {f : String} (h : Spreads [x] f) : Spreads (x :: rest) f := by
  cases h with
  | here => exact .here ..
  | field _ _ _ _ _ _ h => exact .field _ _ _ _ _ _ h
  | inline _ _ _ _ h => exact .inline _ _ _ _ h
  | later _ _ _ h => cases h

section
variable {c : Ctx} {defs : Dict FragDef} {T : List Stmt} {W : Reading} {pt : String} {K : String → Prop} {r : Reg}

theorem ObjK.append {o : String} {x : Sel} {rest : List Sel} {a b : ObjectParts}
    (h1 : ObjK c defs T W o [x] a) (h2 : ObjK c defs T W o rest b) : ObjK c defs T W o (x :: rest) (a.append b) := by
  intro hT
  exact (h1 fun st h => hT st (List.mem_append_left _ h)).append (h2 fun st h => hT st (List.mem_append_right _ h))
    (fun _ => List.mem_append) fun _ => List.mem_append

theorem BodyK.append {n : String} {x : Sel} {rest : List Sel} {a b : List Stmt} (h1 : BodyK c defs T W n [x] a)
    (h2 : BodyK c defs T W n rest b) : BodyK c defs T W n (x :: rest) (a ++ b) := by
  refine ⟨fun st hst f hf => ?_, fun name al args sub hs hn => ?_⟩
  · rcases List.mem_append.1 hst with hst | hst
    · obtain ⟨name, al, args, sub, t, attr, g, h⟩ := h1.only st hst f hf
      exact ⟨name, al, args, sub, t, attr, by rw [List.mem_singleton.1 g]; exact List.mem_cons_self .., h⟩
    · obtain ⟨name, al, args, sub, t, attr, g, h⟩ := h2.only st hst f hf
      exact ⟨name, al, args, sub, t, attr, List.mem_cons_of_mem _ g, h⟩
  · rcases List.mem_cons.1 hs with rfl | hs
    · obtain ⟨st, h, hk⟩ := h1.all name al args sub (List.mem_singleton.2 rfl) hn
      exact ⟨st, List.mem_append_left _ h, hk⟩
    · obtain ⟨st, h, hk⟩ := h2.all name al args sub hs hn
      exact ⟨st, List.mem_append_right _ h, hk⟩

theorem BodyK.empty {n : String} {sels : List Sel}
    (h : ∀ name al args sub, Sel.field name al args sub ∈ sels → name = "__typename") : BodyK c defs T W n sels [] :=
  ⟨by simp, fun name al args sub hs hn => (hn (h name al args sub hs)).elim⟩

theorem FieldStmts.body {n name : String} {al : Option String} {args : List (String × Value)} {sub : List Sel}
    {t : TypeNode} {ss : List Stmt} (h : FieldStmts c defs T W (al.getD name) t sub ss) (hn : name ≠ "__typename")
    (hp : FieldAt c.schema n name t) : BodyK c defs T W n [.field name al args sub] ss := by
  refine ⟨fun st hst f hf => ?_, fun name' al' args' sub' hs _ => ?_⟩
  · obtain ⟨h1, ⟨attr, h2, h3⟩, _, h5⟩ := h.only st hst f hf
    exact ⟨name, al, args, sub, t, attr, List.mem_singleton.2 rfl, hn, hp, h1, h2, by rw [h1]; exact h3, h5⟩
  · cases List.mem_singleton.1 hs
    exact h.has

theorem IfcK.append {n : String} {x : Sel} {rest : List Sel} {a b : InterfaceParts}
    (h1 : IfcK c defs T W n [x] a) (h2 : IfcK c defs T W n rest b) : IfcK c defs T W n (x :: rest) (a.append b) := by
  intro hT
  obtain ⟨a1, a2⟩ := h1 fun st h => hT st (List.mem_append_left _ h)
  obtain ⟨b1, b2⟩ := h2 fun st h => hT st (List.mem_append_right _ h)
  refine ⟨fun o ho => (a1 o ho).append (b1 o ho) (fun st => ?_) fun b => mem_basesFor_append, a2.append b2⟩
  have : (a.append b).body = a.body ++ b.body := rfl
  rw [List.mem_append, mem_bodyFor_append, this, List.mem_append, List.mem_append, List.mem_append]
  constructor
  · rintro ((h | h) | h | h)
    · exact .inl (.inl h)
    · exact .inr (.inl h)
    · exact .inl (.inr h)
    · exact .inr (.inr h)
  · rintro ((h | h) | h | h)
    · exact .inl (.inl h)
    · exact .inr (.inl h)
    · exact .inl (.inr h)
    · exact .inr (.inr h)

theorem InlK.append {o : String} {x : Sel} {rest : List Sel} {a b : List Stmt × List Stmt}
    (h1 : InlK c defs T W o [x] a) (h2 : InlK c defs T W o rest b) :
    InlK c defs T W o (x :: rest) (a.1 ++ b.1, a.2 ++ b.2) := by
  intro hT
  exact (h1 fun st h => hT st (List.mem_append_left _ h)).append (h2 fun st h => hT st (List.mem_append_right _ h))
    (fun _ => List.mem_append) fun _ => by simp

theorem UnK.append {x : Sel} {rest : List Sel} {a b : List String × List Stmt}
    (h1 : UnK c defs T W [x] a) (h2 : UnK c defs T W rest b) :
    UnK c defs T W (x :: rest) (a.1 ++ b.1, a.2 ++ b.2) := by
  intro hT
  obtain ⟨a1, a2, a3⟩ := h1 fun st h => hT st (List.mem_append_left _ h)
  obtain ⟨b1, b2, b3⟩ := h2 fun st h => hT st (List.mem_append_right _ h)
  refine ⟨fun o y ho hy hay => ?_, fun n m o hn hm hfor => ?_, fun n hn =>
    (List.mem_append.1 hn).elim (a3 n) (b3 n)⟩
  · rcases List.mem_cons.1 hy with rfl | hy
    · obtain ⟨n, hn, h⟩ := a1 o y ho (List.mem_singleton.2 rfl) hay
      exact ⟨n, List.mem_append_left _ hn, h⟩
    · obtain ⟨n, hn, h⟩ := b1 o y ho hy hay
      exact ⟨n, List.mem_append_right _ hn, h⟩
  · rcases List.mem_append.1 hn with hn | hn
    · obtain ⟨y, hy, h⟩ := a2 n m o hn hm hfor
      rw [List.mem_singleton.1 hy] at h
      exact ⟨x, List.mem_cons_self .., h⟩
    · obtain ⟨y, hy, h⟩ := b2 n m o hn hm hfor
      exact ⟨y, List.mem_cons_of_mem _ hy, h⟩

theorem FieldHypK.mono {ft : String → TypeNode → Prop} {a b : List Sel}
    (h : FieldHypK c defs ft b) (hs : ∀ x ∈ a, x ∈ b) : FieldHypK c defs ft a :=
  fun name alias args sub t hm hn ht => h name alias args sub t (hs _ hm) hn ht

theorem IfcHypK.mono {a b : List Sel} (h : IfcHypK c defs b) (hs : ∀ x ∈ a, x ∈ b) : IfcHypK c defs a :=
  ⟨fun f hm => h.spreads f (hs _ hm), fun o inner x hm => h.plain o inner x (hs _ hm),
    fun o inner hm => h.inner o inner (hs _ hm)⟩

theorem UnHypK.mono {a b : List Sel} (h : UnHypK c defs b) (hs : ∀ x ∈ a, x ∈ b) : UnHypK c defs a :=
  ⟨fun f hm => h.spreads f (hs _ hm), fun o inner hm => h.objects o inner (hs _ hm),
    fun o inner f hm => h.bases o inner f (hs _ hm), fun o inner x hm => h.flat o inner x (hs _ hm),
    fun o inner hm => h.apart o inner (hs _ hm), fun o inner hm => h.inner o inner (hs _ hm)⟩

end

section
variable (c : Ctx) (defs : Dict FragDef) (T : List Stmt) (W : Reading) (K : String → Prop)

mutual
theorem objectSel_keeps : ∀ (x : Sel) (r : Reg) (o : String) (fs : List FieldDef) (is : List String) (cls : String),
    StateK c defs T W K r → c.schema.lookup o = some (.object fs is) → (∀ f, Spreads [x] f → K f) →
    ObjSpreadsK c.schema defs o [x] → FieldHypK c defs (declaredIn fs) [x] →
    Quietly (objectSel c o fs cls x) r (ObjK c defs T W o [x])
  | .spread f, r, o, fs, is, cls, h, hl, hk, hs, _ => by
    unfold objectSel
    have hm : Sel.spread f ∈ [Sel.spread f] := List.mem_singleton.2 rfl
    exact (spreadBase_keeps h (hk f (spreads_mem hm)) ⟨_, _, hl⟩ (hs f hm)).bind fun b _ _ hb => .pure fun _ => hb
  | .inline _ _, r, o, fs, is, cls, _, _, _, _, _ => by
    unfold objectSel
    exact .fail
  | .field name alias args sub, r, o, fs, is, cls, h, hl, hk, hs, hf => by
    unfold objectSel
    split
    · rename_i hn
      exact .pure fun _ => .typename hn
    · rename_i hn
      refine quietly_fieldNamed.bind fun fd r1 q1 hfd => ?_
      have hsup : Keepable c defs fd.type sub :=
        hf name alias args sub fd.type (List.mem_singleton.2 rfl) (by simpa using hn) ⟨fd, hfd.1, hfd.2, rfl⟩
      have hk' : ∀ f, Spreads sub f → K f := fun f hf => hk f (spreads_field (List.mem_singleton.2 rfl) hf)
      refine (typeField_keeps fun opt r2 q2 => namedNode_keeps ((h.quiet q1).quiet q2) hsup hk'
        (fun n fs is k r3 h3 hl3 hs3 hf3 => objectSels_keeps sub r3 n fs is k h3 hl3 hk' hs3 hf3)
        (fun n fs is k r3 h3 hl3 hf3 hi3 => interfaceSels_keeps sub r3 n fs is k h3 hl3 hk' hf3 hi3)
        (fun r3 h3 hu3 => unionSels_keeps sub r3 cls h3 hk' hu3)).bind fun x r2 _ hx => .pure ?_
      intro hT
      have ht : FieldType c.schema o name fd.type := by
        rw [← hfd.2]
        exact .declared hl hfd.1
      exact (hx hT).parts (by simpa using hn) (.inl ht) ht fun _ h => h
theorem objectSels_keeps : ∀ (sels : List Sel) (r : Reg) (o : String) (fs : List FieldDef) (is : List String)
    (cls : String), StateK c defs T W K r → c.schema.lookup o = some (.object fs is) → (∀ f, Spreads sels f → K f) →
    ObjSpreadsK c.schema defs o sels → FieldHypK c defs (declaredIn fs) sels →
    Quietly (objectSels c o fs cls sels) r (ObjK c defs T W o sels)
  | [], r, o, fs, is, cls, _, _, _, _, _ => by
    unfold objectSels
    exact .pure fun _ => .nil
  | x :: rest, r, o, fs, is, cls, h, hl, hk, hs, hf => by
    unfold objectSels
    have m1 : ∀ y ∈ [x], y ∈ x :: rest := fun y hy => by rw [List.mem_singleton.1 hy]; exact List.mem_cons_self ..
    have m2 : ∀ y ∈ rest, y ∈ x :: rest := fun y hy => List.mem_cons_of_mem _ hy
    refine (objectSel_keeps x r o fs is cls h hl (fun f hm => hk f (spreads_head hm)) (fun f hm => hs f (m1 _ hm))
      (hf.mono m1)).bind fun a r1 q1 ha => ?_
    refine (objectSels_keeps rest r1 o fs is cls (h.quiet q1) hl (fun f hm => hk f (.later _ _ _ hm))
      (fun f hm => hs f (m2 _ hm)) (hf.mono m2)).bind fun p r2 q2 hp => .pure (ha.append hp)
theorem interfaceSel_keeps : ∀ (x : Sel) (r : Reg) (n : String) (fs : List FieldDef) (is : List String)
    (base : String), StateK c defs T W K r → c.schema.lookup n = some (.interface fs is) →
    (∀ f, Spreads [x] f → K f) → FieldHypK c defs (declaredIn fs) [x] → IfcHypK c defs [x] →
    Quietly (interfaceSel c fs base x) r (IfcK c defs T W n [x])
  | .spread f, r, n, fs, is, base, h, hl, hk, _, hi => by
    unfold interfaceSel
    have hm : Sel.spread f ∈ [Sel.spread f] := List.mem_singleton.2 rfl
    refine (spreadImplementations_keeps (pt := n) h (hk f (spreads_mem hm)) (hi.spreads f hm)).bind fun bs _ _ hb => .pure ?_
    intro _
    exact ⟨fun o ho => hb o (possible_isObject ho), .empty (by simp)⟩
  | .inline none _, r, n, fs, is, base, _, _, _, _, _ => by
    unfold interfaceSel
    exact .fail
  | .inline (some t) sub, r, n, fs, is, base, h, hl, hk, _, hi => by
    unfold interfaceSel
    have hm : Sel.inline (some t) sub ∈ [Sel.inline (some t) sub] := List.mem_singleton.2 rfl
    have hreq : Quietly (requireObject c.schema t) r fun _ => IsObject c.schema t := by
      unfold requireObject
      split
      · rename_i fs' is' ht; exact .pure ⟨_, _, ht⟩
      · exact .fail
    refine hreq.bind fun _ r1 q1 ht => ?_
    refine (inlineSels_keeps sub r1 t base (h.quiet q1) ht (fun f hf => hk f (spreads_inline hm hf))
      (fun x hx => hi.plain t sub x hm hx) (hi.inner t sub hm)).bind fun x r2 _ hx => .pure ?_
    intro hT
    refine ⟨fun o ho => ?_, .empty (by simp)⟩
    have hp := (hx hT).inline (pt := n) ht
    by_cases he : t = o
    · subst he
      have : InterfaceParts.bodyFor { inlineBodies := [(t, x.1)], classes := x.2 } t = x.1 := by
        simp [InterfaceParts.bodyFor]
      simpa [this, InterfaceParts.basesFor] using hp
    · have hbeq : (t == o) = false := by simpa using he
      have : InterfaceParts.bodyFor { inlineBodies := [(t, x.1)], classes := x.2 } o = [] := by
        simp [InterfaceParts.bodyFor, hbeq]
      have hp' : PartsK c defs T W o n [.inline (some t) sub] [] [] := .empty fun _ _ _ hpk =>
        (he (possible_of_object ht (picks_single_inline hpk).1).symm).elim
      simpa [this, InterfaceParts.basesFor] using hp'
  | .field name alias args sub, r, n, fs, is, base, h, hl, hk, hf, _ => by
    unfold interfaceSel
    split
    · rename_i hn
      exact .pure fun _ => ⟨fun _ _ => .typename hn, .empty fun name' al' args' sub' hs => by
        cases List.mem_singleton.1 hs; simpa using hn⟩
    · rename_i hn
      refine quietly_fieldNamed.bind fun fd r1 q1 hfd => ?_
      have hsup : Keepable c defs fd.type sub :=
        hf name alias args sub fd.type (List.mem_singleton.2 rfl) (by simpa using hn) ⟨fd, hfd.1, hfd.2, rfl⟩
      have hk' : ∀ f, Spreads sub f → K f := fun f hf => hk f (spreads_field (List.mem_singleton.2 rfl) hf)
      refine (typeField_keeps fun opt r2 q2 => namedNode_keeps ((h.quiet q1).quiet q2) hsup hk'
        (fun n fs is k r3 h3 hl3 hs3 hf3 => objectSels_keeps sub r3 n fs is k h3 hl3 hk' hs3 hf3)
        (fun n fs is k r3 h3 hl3 hf3 hi3 => interfaceSels_keeps sub r3 n fs is k h3 hl3 hk' hf3 hi3)
        (fun r3 h3 hu3 => unionSels_keeps sub r3 base h3 hk' hu3)).bind fun x r2 _ hx => .pure ?_
      intro hT
      have hat : FieldAt c.schema n name fd.type := .inr ⟨_, _, fd, hl, hfd.1, hfd.2, rfl⟩
      refine ⟨fun o ho => ?_, (hx hT).body (by simpa using hn) hat⟩
      obtain ⟨fs', is', hlo, hno⟩ := possible_interface ⟨_, _, hl⟩ ho
      obtain ⟨fd', h1, h2, h3⟩ := h.module_.valid n o fs is fs' is' hl hlo hno fd hfd.1
      have hp : PartsK c defs T W o n [.field name alias args sub] x.1 [] := by
        refine (hx hT).parts (t' := fd'.type) (by simpa using hn) hat ?_ (subType_possible h3)
        rw [← hfd.2, ← h2]
        exact .declared hlo h1
      simpa [InterfaceParts.basesFor, InterfaceParts.bodyFor] using hp
theorem interfaceSels_keeps : ∀ (sels : List Sel) (r : Reg) (n : String) (fs : List FieldDef) (is : List String)
    (base : String), StateK c defs T W K r → c.schema.lookup n = some (.interface fs is) →
    (∀ f, Spreads sels f → K f) → FieldHypK c defs (declaredIn fs) sels → IfcHypK c defs sels →
    Quietly (interfaceSels c fs base sels) r (IfcK c defs T W n sels)
  | [], r, n, fs, is, base, _, _, _, _, _ => by
    unfold interfaceSels
    exact .pure fun _ => ⟨fun _ _ => .nil, .empty (by simp)⟩
  | x :: rest, r, n, fs, is, base, h, hl, hk, hf, hi => by
    unfold interfaceSels
    have m1 : ∀ y ∈ [x], y ∈ x :: rest := fun y hy => by rw [List.mem_singleton.1 hy]; exact List.mem_cons_self ..
    have m2 : ∀ y ∈ rest, y ∈ x :: rest := fun y hy => List.mem_cons_of_mem _ hy
    refine (interfaceSel_keeps x r n fs is base h hl (fun f hm => hk f (spreads_head hm)) (hf.mono m1) (hi.mono m1)).bind
      fun a r1 q1 ha => ?_
    refine (interfaceSels_keeps rest r1 n fs is base (h.quiet q1) hl (fun f hm => hk f (.later _ _ _ hm)) (hf.mono m2)
      (hi.mono m2)).bind fun p r2 q2 hp => .pure (ha.append hp)
theorem inlineSel_keeps : ∀ (x : Sel) (r : Reg) (o parent : String), StateK c defs T W K r →
    IsObject c.schema o → (∀ f, Spreads [x] f → K f) → IsField x → FieldHypK c defs (FieldType c.schema o) [x] →
    Quietly (inlineSel c o parent x) r (InlK c defs T W o [x])
  | .spread f, r, o, parent, _, _, _, hx, _ => hx.elim
  | .inline _ _, r, o, parent, _, _, _, hx, _ => hx.elim
  | .field name alias args sub, r, o, parent, h, ho, hk, _, hf => by
    unfold inlineSel
    split
    · rename_i hn
      exact .pure fun _ => .typename hn
    · rename_i hn
      have hfd : Quietly (fieldDefOf c.schema o name) r fun fd => FieldType c.schema o name fd.type := by
        unfold fieldDefOf
        split
        · rename_i fd hg; exact .pure (getFieldDef_type ho hg)
        · exact .fail
      refine hfd.bind fun fd r1 q1 hfd => ?_
      have hsup : Keepable c defs fd.type sub :=
        hf name alias args sub fd.type (List.mem_singleton.2 rfl) (by simpa using hn) hfd
      have hk' : ∀ f, Spreads sub f → K f := fun f hf => hk f (spreads_field (List.mem_singleton.2 rfl) hf)
      refine (typeField_keeps fun opt r2 q2 => namedNode_keeps ((h.quiet q1).quiet q2) hsup hk'
        (fun n fs is k r3 h3 hl3 hs3 hf3 => objectSels_keeps sub r3 n fs is k h3 hl3 hk' hs3 hf3)
        (fun n fs is k r3 h3 hl3 hf3 hi3 => interfaceSels_keeps sub r3 n fs is k h3 hl3 hk' hf3 hi3)
        (fun r3 h3 hu3 => unionSels_keeps sub r3 parent h3 hk' hu3)).mono fun x hx => ?_
      intro hT
      exact (hx hT).parts (by simpa using hn) (.inl hfd) hfd fun _ h => h
theorem inlineSels_keeps : ∀ (sels : List Sel) (r : Reg) (o parent : String), StateK c defs T W K r →
    IsObject c.schema o → (∀ f, Spreads sels f → K f) → (∀ x ∈ sels, IsField x) →
    FieldHypK c defs (FieldType c.schema o) sels →
    Quietly (inlineSels c o parent sels) r (InlK c defs T W o sels)
  | [], r, o, parent, _, _, _, _, _ => by
    unfold inlineSels
    exact .pure fun _ => .nil
  | x :: rest, r, o, parent, h, ho, hk, hp, hf => by
    unfold inlineSels
    have m1 : ∀ y ∈ [x], y ∈ x :: rest := fun y hy => by rw [List.mem_singleton.1 hy]; exact List.mem_cons_self ..
    have m2 : ∀ y ∈ rest, y ∈ x :: rest := fun y hy => List.mem_cons_of_mem _ hy
    refine (inlineSel_keeps x r o parent h ho (fun f hm => hk f (spreads_head hm)) (hp x (List.mem_cons_self ..))
      (hf.mono m1)).bind fun a r1 q1 ha => ?_
    refine (inlineSels_keeps rest r1 o parent (h.quiet q1) ho (fun f hm => hk f (.later _ _ _ hm))
      (fun y hy => hp y (m2 y hy)) (hf.mono m2)).bind fun p r2 q2 hp => .pure (ha.append hp)
theorem unionSel_keeps : ∀ (x : Sel) (r : Reg) (parent : String), StateK c defs T W K r →
    (∀ f, Spreads [x] f → K f) → UnHypK c defs [x] → Quietly (unionSel c parent x) r (UnK c defs T W [x])
  | .spread f, r, parent, h, hk, hu => by
    unfold unionSel
    have hmem : Sel.spread f ∈ [Sel.spread f] := List.mem_singleton.2 rfl
    obtain ⟨d, hd, hni⟩ := hu.spreads f hmem
    have hf := h.frag (hk f (spreads_mem hmem)) hd
    refine quietly_inheritFragment.bind fun n _ _ hn => .pure ?_
    intro _
    obtain ⟨h1, h2⟩ := hf.single hni n hn
    refine ⟨fun o y ho hy hay => ?_, fun n' m o hn' hm hfor => ?_, fun n' hn' => by
      rw [List.mem_singleton.1 hn']; exact hf.classes hni n hn⟩
    · rw [List.mem_singleton.1 hy] at hay
      obtain ⟨d', hd', hp⟩ := hay
      rw [hd] at hd'
      cases hd'
      exact ⟨n, List.mem_singleton.2 rfl, h1 o hp⟩
    · rw [List.mem_singleton.1 hn'] at hm
      obtain ⟨hp, hmod⟩ := h2 m o hm hfor
      refine ⟨_, hmem, ⟨d, hd, hp⟩, (hf.apart o hp).imp fun _ _ _ hpk => ?_, fun pt => ⟨hmod.cls, hmod.tag,
        fun st hst => (hmod.only st hst).imp fun _ _ _ _ p => .spread hmem hd hp p, fun key name sub hpk hne => ?_⟩⟩
      · obtain ⟨d', hd', _, hp'⟩ := picks_single_spread hpk
        rw [hd] at hd'
        cases hd'
        exact hp'
      obtain ⟨d', hd', _, hp'⟩ := picks_single_spread hpk
      rw [hd] at hd'
      cases hd'
      exact hmod.all _ _ _ hp' hne
  | .inline none _, r, parent, _, _, _ => by
    unfold unionSel
    exact .fail
  | .inline (some t) sub, r, parent, h, hk, hu => by
    unfold unionSel
    have hmem : Sel.inline (some t) sub ∈ [Sel.inline (some t) sub] := List.mem_singleton.2 rfl
    have ht := hu.objects t sub hmem
    refine (unionInlineSels_keeps sub r t (inlineClassName parent t) h ht (fun f hf => hk f (spreads_inline hmem hf))
      (fun f hm => hu.bases t sub f hmem hm) (fun x hx => hu.flat t sub x hmem hx)
      (hu.inner t sub hmem)).bind fun p r1 q1 hp => ?_
    refine (inlineClass_keeps (h.quiet q1) hp).bind fun ss r2 _ hss => .pure ?_
    intro hT
    have hmod := hss hT
    refine ⟨fun o y ho hy hay => ?_, fun n' m o hn' hm hfor => ?_, fun n' hn' => ?_⟩
    · rw [List.mem_singleton.1 hy] at hay
      rw [possible_of_object ht hay]
      exact ⟨_, List.mem_singleton.2 rfl, _, .cls hmod.cls, hmod.isFor⟩
    · rw [List.mem_singleton.1 hn'] at hm
      rw [(member_class h.module_.aliases hmod.cls).1 hm] at hfor ⊢
      have he : o = t := hmod.tag_eq (hu.apart t sub hmem) hfor
      subst he
      refine ⟨_, hmem, .object ht, (hu.apart o sub hmem).imp fun _ _ _ hpk => (picks_single_inline hpk).2,
        fun pt => ⟨hmod.cls, hmod.tag,
        fun st hst => (hmod.only st hst).imp fun _ _ _ _ p => .inline hmem (.object ht) p, fun key name sub hpk hne => ?_⟩⟩
      exact hmod.all _ _ _ (picks_single_inline hpk).2 hne
    · rw [List.mem_singleton.1 hn']
      refine ⟨byClass_class hmod.cls, fun m hm => ⟨t, ?_⟩⟩
      rw [(member_class h.module_.aliases hmod.cls).1 hm]
      exact hmod.isFor
  | .field _ _ _ _, r, parent, _, _, _ => by
    unfold unionSel
    refine .pure fun _ => ⟨fun o y ho hy hay => ?_, fun n' m o hn' hm hfor => (by cases hn'),
      fun n' hn' => (by cases hn')⟩
    rw [List.mem_singleton.1 hy] at hay
    exact hay.elim
theorem unionSels_keeps : ∀ (sels : List Sel) (r : Reg) (parent : String), StateK c defs T W K r →
    (∀ f, Spreads sels f → K f) → UnHypK c defs sels → Quietly (unionSels c parent sels) r (UnK c defs T W sels)
  | [], r, parent, _, _, _ => by
    unfold unionSels
    exact .pure fun _ => ⟨fun o y ho hy hay => (by cases hy), fun n' m o hn' hm hfor => (by cases hn'),
      fun n' hn' => (by cases hn')⟩
  | x :: rest, r, parent, h, hk, hu => by
    unfold unionSels
    have m1 : ∀ y ∈ [x], y ∈ x :: rest := fun y hy => by rw [List.mem_singleton.1 hy]; exact List.mem_cons_self ..
    have m2 : ∀ y ∈ rest, y ∈ x :: rest := fun y hy => List.mem_cons_of_mem _ hy
    refine (unionSel_keeps x r parent h (fun f hm => hk f (spreads_head hm)) (hu.mono m1)).bind fun a r1 q1 ha => ?_
    refine (unionSels_keeps rest r1 parent (h.quiet q1) (fun f hm => hk f (.later _ _ _ hm)) (hu.mono m2)).bind
      fun p r2 q2 hp => .pure (ha.append hp)
theorem unionInlineSel_keeps : ∀ (x : Sel) (r : Reg) (o cls : String), StateK c defs T W K r → IsObject c.schema o →
    (∀ f, Spreads [x] f → K f) → (∀ f, Sel.spread f ∈ [x] → ∃ d, defs.get? f = some d ∧ d.typeCondition = o) →
    ¬ IsInline x → FieldHypK c defs (FieldType c.schema o) [x] →
    Quietly (unionInlineSel c o cls x) r (ObjK c defs T W o [x])
  | .spread f, r, o, cls, h, ho, hk, hs, _, _ => by
    unfold unionInlineSel
    have hm : Sel.spread f ∈ [Sel.spread f] := List.mem_singleton.2 rfl
    exact (inlineSpreadBase_keeps h (hk f (spreads_mem hm)) ho (hs f hm)).bind fun b _ _ hb => .pure fun _ => hb
  | .inline _ _, r, o, cls, _, _, _, _, hx, _ => (hx trivial).elim
  | .field name alias args sub, r, o, cls, h, _, hk, _, _, hf => by
    unfold unionInlineSel
    split
    · rename_i hn
      exact .pure fun _ => .typename hn
    · rename_i hn
      have hfd : Quietly (objectFieldNamed c.schema o name) r fun fd => FieldType c.schema o name fd.type := by
        unfold objectFieldNamed
        split
        · rename_i fs is hl
          refine quietly_fieldNamed.mono fun fd hfd => ?_
          rw [← hfd.2]
          exact .declared hl hfd.1
        · exact .fail
      refine hfd.bind fun fd r1 q1 hfd => ?_
      have hsup : Keepable c defs fd.type sub :=
        hf name alias args sub fd.type (List.mem_singleton.2 rfl) (by simpa using hn) hfd
      have hk' : ∀ f, Spreads sub f → K f := fun f hf => hk f (spreads_field (List.mem_singleton.2 rfl) hf)
      refine (typeField_keeps fun opt r2 q2 => namedNode_keeps ((h.quiet q1).quiet q2) hsup hk'
        (fun n fs is k r3 h3 hl3 hs3 hf3 => objectSels_keeps sub r3 n fs is k h3 hl3 hk' hs3 hf3)
        (fun n fs is k r3 h3 hl3 hf3 hi3 => interfaceSels_keeps sub r3 n fs is k h3 hl3 hk' hf3 hi3)
        (fun r3 h3 hu3 => unionSels_keeps sub r3 cls h3 hk' hu3)).bind fun x r2 _ hx => .pure ?_
      intro hT
      exact (hx hT).parts (by simpa using hn) (.inl hfd) hfd fun _ h => h
theorem unionInlineSels_keeps : ∀ (sels : List Sel) (r : Reg) (o cls : String), StateK c defs T W K r →
    IsObject c.schema o → (∀ f, Spreads sels f → K f) →
    (∀ f, Sel.spread f ∈ sels → ∃ d, defs.get? f = some d ∧ d.typeCondition = o) →
    (∀ x ∈ sels, ¬ IsInline x) → FieldHypK c defs (FieldType c.schema o) sels →
    Quietly (unionInlineSels c o cls sels) r (ObjK c defs T W o sels)
  | [], r, o, cls, _, _, _, _, _, _ => by
    unfold unionInlineSels
    exact .pure fun _ => .nil
  | x :: rest, r, o, cls, h, ho, hk, hs, hx, hf => by
    unfold unionInlineSels
    have m1 : ∀ y ∈ [x], y ∈ x :: rest := fun y hy => by rw [List.mem_singleton.1 hy]; exact List.mem_cons_self ..
    have m2 : ∀ y ∈ rest, y ∈ x :: rest := fun y hy => List.mem_cons_of_mem _ hy
    refine (unionInlineSel_keeps x r o cls h ho (fun f hm => hk f (spreads_head hm)) (fun f hm => hs f (m1 _ hm))
      (hx x (List.mem_cons_self ..)) (hf.mono m1)).bind fun a r1 q1 ha => ?_
    refine (unionInlineSels_keeps rest r1 o cls (h.quiet q1) ho (fun f hm => hk f (.later _ _ _ hm))
      (fun f hm => hs f (m2 _ hm)) (fun y hy => hx y (m2 y hy)) (hf.mono m2)).bind
      fun p r2 q2 hp => .pure (ha.append hp)
end

/-- `type_field_node`: the declaration of a selected field keeps what is asked for -/
theorem typeFieldNode_keeps {r : Reg} {parent name : String} {alias : Option String} {fd : FieldDef} {sub : List Sel}
    (h : StateK c defs T W K r) (hk : ∀ f, Spreads sub f → K f) (hs : Keepable c defs fd.type sub) :
    Quietly (typeFieldNode c parent fd name alias sub) r fun x => (∀ st ∈ x.2, st ∈ T) →
      FieldStmts c defs T W (alias.getD name) fd.type sub x.1 := by
  unfold typeFieldNode recurseNamed
  exact typeField_keeps fun opt r2 q2 => namedNode_keeps (h.quiet q2) hs hk
    (fun n fs is k r3 h3 hl3 hs3 hf3 => objectSels_keeps c defs T W K sub r3 n fs is k h3 hl3 hk hs3 hf3)
    (fun n fs is k r3 h3 hl3 hf3 hi3 => interfaceSels_keeps c defs T W K sub r3 n fs is k h3 hl3 hk hf3 hi3)
    (fun r3 h3 hu3 => unionSels_keeps c defs T W K sub r3 parent h3 hk hu3)

end
end Turms
