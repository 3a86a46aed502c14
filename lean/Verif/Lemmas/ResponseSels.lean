import Verif.Lemmas.ResponseWalk

/-! # Generated response models accept what a server may answer: walking the selections -/

namespace Turms
open Spec

section
variable {c : Ctx} {defs : Dict FragDef} {leaf : String → Val → Prop} {T : List Stmt}
  {isa : String → Val → Prop} {K : String → Prop} {r : Reg}

theorem ObjQ.append {o : String} {x : Sel} {rest : List Sel} {a b : ObjectParts}
    (h1 : ObjQ c defs leaf T isa o [x] a) (h2 : ObjQ c defs leaf T isa o rest b) :
    ObjQ c defs leaf T isa o (x :: rest) (a.append b) := by
  intro hT kvs hr
  obtain ⟨a1, a2⟩ := h1 (fun st h => hT st (List.mem_append_left _ h)) kvs
    (hr.mono fun y hy => by rw [List.mem_singleton.1 hy]; exact List.mem_cons_self ..)
  obtain ⟨b1, b2⟩ := h2 (fun st h => hT st (List.mem_append_right _ h)) kvs
    (hr.mono fun y hy => List.mem_cons_of_mem _ hy)
  exact ⟨fun st h => (List.mem_append.1 h).elim (a1 st) (b1 st),
    fun k h => (List.mem_append.1 h).elim (a2 k) (b2 k)⟩

theorem ObjQ.empty {o : String} {sels : List Sel} : ObjQ c defs leaf T isa o sels {} :=
  fun _ _ _ => ⟨by simp, by simp⟩

theorem mem_basesFor_append {a b : InterfaceParts} {o x : String} :
    x ∈ (a.append b).basesFor o ↔ x ∈ a.basesFor o ∨ x ∈ b.basesFor o := by
  simp [InterfaceParts.basesFor, InterfaceParts.append, List.filter_append, List.mem_append]

theorem mem_bodyFor_append {a b : InterfaceParts} {o : String} {x : Stmt} :
    x ∈ (a.append b).bodyFor o ↔ x ∈ a.bodyFor o ∨ x ∈ b.bodyFor o := by
  simp [InterfaceParts.bodyFor, InterfaceParts.append, List.filter_append, List.mem_append]

theorem IfcQ.append {n : String} {x : Sel} {rest : List Sel} {a b : InterfaceParts}
    (h1 : IfcQ c defs leaf T isa n [x] a) (h2 : IfcQ c defs leaf T isa n rest b) :
    IfcQ c defs leaf T isa n (x :: rest) (a.append b) := by
  intro hT o ho kvs hr
  obtain ⟨a1, a2, a3⟩ := h1 (fun st h => hT st (List.mem_append_left _ h)) o ho kvs
    (hr.mono fun y hy => by rw [List.mem_singleton.1 hy]; exact List.mem_cons_self ..)
  obtain ⟨b1, b2, b3⟩ := h2 (fun st h => hT st (List.mem_append_right _ h)) o ho kvs
    (hr.mono fun y hy => List.mem_cons_of_mem _ hy)
  exact ⟨fun st h => (List.mem_append.1 h).elim (a1 st) (b1 st),
    fun k h => (mem_basesFor_append.1 h).elim (a2 k) (b2 k),
    fun k h => (mem_bodyFor_append.1 h).elim (a3 k) (b3 k)⟩

theorem IfcQ.empty {n : String} {sels : List Sel} : IfcQ c defs leaf T isa n sels {} :=
  fun _ _ _ _ _ => ⟨by simp, by simp [InterfaceParts.basesFor], by simp [InterfaceParts.bodyFor]⟩

theorem InlQ.append {o : String} {x : Sel} {rest : List Sel} {a b : List Stmt × List Stmt}
    (h1 : InlQ c defs leaf T isa o [x] a) (h2 : InlQ c defs leaf T isa o rest b) :
    InlQ c defs leaf T isa o (x :: rest) (a.1 ++ b.1, a.2 ++ b.2) := by
  intro hT kvs hr st hst
  rcases List.mem_append.1 hst with hst | hst
  · exact h1 (fun st h => hT st (List.mem_append_left _ h)) kvs
      (hr.mono fun y hy => by rw [List.mem_singleton.1 hy]; exact List.mem_cons_self ..) st hst
  · exact h2 (fun st h => hT st (List.mem_append_right _ h)) kvs
      (hr.mono fun y hy => List.mem_cons_of_mem _ hy) st hst

theorem UnQ.append {x : Sel} {rest : List Sel} {a b : List String × List Stmt}
    (h1 : UnQ c defs leaf T isa [x] a) (h2 : UnQ c defs leaf T isa rest b) :
    UnQ c defs leaf T isa (x :: rest) (a.1 ++ b.1, a.2 ++ b.2) := by
  refine ⟨?_, fun hT o ho hc kvs hr => ?_⟩
  · have e1 := h1.1
    have e2 := h2.1
    simp only [List.length_append, e1, e2]
    rw [← List.length_append, ← List.filter_append]
    rfl
  · have hr1 : SparseResult c.schema defs leaf o [x] kvs :=
      hr.mono fun y hy => by rw [List.mem_singleton.1 hy]; exact List.mem_cons_self ..
    have hr2 : SparseResult c.schema defs leaf o rest kvs := hr.mono fun y hy => List.mem_cons_of_mem _ hy
    have hc' : Covers c.schema defs [x] o ∨ Covers c.schema defs rest o := by
      rcases hc with ⟨inner, hm⟩ | ⟨f, d, hm, hd, hp⟩
      · rcases List.mem_cons.1 hm with hm | hm
        · exact .inl (.inl ⟨inner, List.mem_singleton.2 hm⟩)
        · exact .inr (.inl ⟨inner, hm⟩)
      · rcases List.mem_cons.1 hm with hm | hm
        · exact .inl (.inr ⟨f, d, List.mem_singleton.2 hm, hd, hp⟩)
        · exact .inr (.inr ⟨f, d, hm, hd, hp⟩)
    rcases hc' with hc' | hc'
    · obtain ⟨n, hn, ht⟩ := h1.2 (fun st h => hT st (List.mem_append_left _ h)) o ho hc' kvs hr1
      exact ⟨n, List.mem_append_left _ hn, ht⟩
    · obtain ⟨n, hn, ht⟩ := h2.2 (fun st h => hT st (List.mem_append_right _ h)) o ho hc' kvs hr2
      exact ⟨n, List.mem_append_right _ hn, ht⟩

theorem FieldHyp.mono {ft : String → TypeNode → Prop} {a b : List Sel} {s : Schema}
    (h : FieldHyp s defs K ft b) (hs : ∀ x ∈ a, x ∈ b) : FieldHyp s defs K ft a :=
  fun name alias args sub t hm hn ht => h name alias args sub t (hs _ hm) hn ht

theorem IfcInlines.mono {a b : List Sel} {s : Schema}
    (h : IfcInlines s defs K b) (hs : ∀ x ∈ a, x ∈ b) : IfcInlines s defs K a :=
  fun o inner hm => h o inner (hs _ hm)

theorem UnHyp.mono {a b : List Sel} {s : Schema}
    (h : UnHyp s defs K b) (hs : ∀ x ∈ a, x ∈ b) : UnHyp s defs K a :=
  ⟨fun f hm => h.1 f (hs _ hm), fun o inner f hm => h.2.1 o inner f (hs _ hm), h.2.2.mono hs⟩

/-- `get_field_def` on an object type -/
theorem getFieldDef_type {s : Schema} {o name : String} {fd : FieldDef} (ho : IsObject s o)
    (h : getFieldDef s o name = some fd) : FieldType s o name fd.type := by
  unfold getFieldDef at h
  split at h
  · rename_i hc
    rw [Bool.and_eq_true] at hc
    cases h
    cases eq_of_beq hc.1
    exact .schema (eq_of_beq hc.2)
  · split at h
    · rename_i hc
      rw [Bool.and_eq_true] at hc
      cases h
      cases eq_of_beq hc.1
      exact .type (eq_of_beq hc.2)
    · split at h
      · rename_i hc
        cases h
        cases eq_of_beq hc
        exact .typename
      · obtain ⟨fs, is, ho⟩ := ho
        have hf : s.fieldsOf o = some fs := by unfold Schema.fieldsOf; rw [ho]
        rw [hf] at h
        have hn : fd.name = name := by simpa using List.find?_some h
        rw [← hn]
        exact .declared ho (List.mem_of_find?_eq_some h)

/-- one selected field of an object of type `o`, whose field `name` has (a subtype of) the type used for the
annotation -/
theorem field_ok {name : String} {alias : Option String} {args : List (String × Value)} {fd : FieldDef}
    {sub : List Sel} {leafG : String → Bool → Gen (Expr × List Stmt)}
    (hn : ∀ r1, Quiet r r1 → Quietly (leafG fd.type.base (innerNullable fd.type)) r1 fun x =>
      (∀ st ∈ x.2, st ∈ T) →
      SoundAt c.schema defs leaf T isa (.named fd.type.base) sub (innerNullable fd.type) x.1) :
    Quietly (typeField c fd (alias.getD name) leafG) r fun x => (∀ st ∈ x.2, st ∈ T) →
      ∀ o kvs, SparseResult c.schema defs leaf o [.field name alias args sub] kvs →
        (∃ t', FieldType c.schema o name t' ∧ (t' = fd.type ∨ SubType c.schema t' fd.type)) →
        ∀ st ∈ x.1, FitsStmt T isa kvs st := by
  refine (typeField_ok hn).mono fun x hx hT o kvs hr ht st hst => ?_
  obtain ⟨t', ht, hsub⟩ := ht
  have hp : Picks c.schema defs o [.field name alias args sub] (alias.getD name) name sub :=
    .field (List.mem_singleton.2 rfl)
  refine hx hT kvs ((hr.present _ _ _ hp).imp (fun hn => ?_) id) (fun y hy => ?_) st hst
  · have := hn t' ht
    rcases hsub with rfl | hsub
    · exact this
    · exact subType_nullable hsub this
  have := hr.conforms _ _ _ _ _ hp ht hy
  rcases hsub with rfl | hsub
  · exact this
  · exact conforms_sub hsub this

end

section
variable (c : Ctx) (defs : Dict FragDef) (leaf : String → Val → Prop) (T : List Stmt)
  (isa : String → Val → Prop) (K : String → Prop)

mutual
theorem objectSel_ok : ∀ (x : Sel) (r : Reg) (o : String) (fs : List FieldDef) (is : List String) (cls : String),
    StateOk c defs leaf T isa K r → c.schema.lookup o = some (.object fs is) →
    ObjSpreads c.schema defs K o [x] → FieldHyp c.schema defs K (declaredIn fs) [x] →
    Quietly (objectSel c o fs cls x) r (ObjQ c defs leaf T isa o [x])
  | .spread f, r, o, fs, is, cls, h, hl, hs, _ => by
    unfold objectSel
    refine (spreadBase_ok h (hs f (List.mem_singleton.2 rfl)) ⟨_, _, hl⟩).bind fun b _ _ hb => .pure ?_
    intro _ kvs hr
    exact ⟨by simp, fun b' hb' => by rw [List.mem_singleton.1 hb']; exact hb.2 kvs hr⟩
  | .inline _ _, r, o, fs, is, cls, _, _, _, _ => by
    unfold objectSel
    exact .fail
  | .field name alias args sub, r, o, fs, is, cls, h, hl, hs, hf => by
    unfold objectSel
    split
    · exact .pure .empty
    · rename_i hn
      refine quietly_fieldNamed.bind fun fd r1 q1 hfd => ?_
      have hsup : Supported c.schema defs K fd.type sub :=
        hf name alias args sub fd.type (List.mem_singleton.2 rfl) (by simpa using hn) ⟨fd, hfd.1, hfd.2, rfl⟩
      refine (field_ok (args := args) fun r2 q2 => namedNode_ok
        ((h.quiet q1).quiet q2) hsup
        (fun n fs is k r3 h3 hl3 hs3 hf3 => objectSels_ok sub r3 n fs is k h3 hl3 hs3 hf3)
        (fun n fs is k r3 h3 hl3 hk3 hf3 hi3 => interfaceSels_ok sub r3 n fs is k h3 hl3 hk3 hf3 hi3)
        (fun r3 h3 hu3 => unionSels_ok sub r3 cls h3 hu3)).bind fun x r2 _ hx => .pure ?_
      intro hT kvs hr
      refine ⟨hx hT o kvs hr ⟨fd.type, ?_, .inl rfl⟩, by simp⟩
      rw [← hfd.2]
      exact .declared hl hfd.1
theorem objectSels_ok : ∀ (sels : List Sel) (r : Reg) (o : String) (fs : List FieldDef) (is : List String)
    (cls : String), StateOk c defs leaf T isa K r → c.schema.lookup o = some (.object fs is) →
    ObjSpreads c.schema defs K o sels → FieldHyp c.schema defs K (declaredIn fs) sels →
    Quietly (objectSels c o fs cls sels) r (ObjQ c defs leaf T isa o sels)
  | [], r, o, fs, is, cls, _, _, _, _ => by
    unfold objectSels
    exact .pure .empty
  | x :: rest, r, o, fs, is, cls, h, hl, hs, hf => by
    unfold objectSels
    have m1 : ∀ y ∈ [x], y ∈ x :: rest := fun y hy => by rw [List.mem_singleton.1 hy]; exact List.mem_cons_self ..
    have m2 : ∀ y ∈ rest, y ∈ x :: rest := fun y hy => List.mem_cons_of_mem _ hy
    refine (objectSel_ok x r o fs is cls h hl (fun f hm => hs f (m1 _ hm)) (hf.mono m1)).bind
      fun a r1 q1 ha => ?_
    refine (objectSels_ok rest r1 o fs is cls (h.quiet q1) hl (fun f hm => hs f (m2 _ hm)) (hf.mono m2)).bind
      fun p r2 q2 hp => .pure (ha.append hp)
theorem interfaceSel_ok : ∀ (x : Sel) (r : Reg) (n : String) (fs : List FieldDef) (is : List String)
    (base : String), StateOk c defs leaf T isa K r → c.schema.lookup n = some (.interface fs is) →
    (∀ f, Sel.spread f ∈ [x] → K f) → FieldHyp c.schema defs K (declaredIn fs) [x] →
    IfcInlines c.schema defs K [x] →
    Quietly (interfaceSel c fs base x) r (IfcQ c defs leaf T isa n [x])
  | .spread f, r, n, fs, is, base, h, hl, hk, _, _ => by
    unfold interfaceSel
    refine (spreadImplementations_ok h (hk f (List.mem_singleton.2 rfl))).bind fun bs _ _ hb => .pure ?_
    intro _ o ho kvs hr
    refine ⟨by simp, fun b hb' => ?_, by simp [InterfaceParts.bodyFor]⟩
    obtain ⟨⟨o', b'⟩, hm1, rfl⟩ := List.mem_map.1 hb'
    obtain ⟨hm2, he⟩ := List.mem_filter.1 hm1
    cases eq_of_beq he
    exact (hb _ _ (possible_isObject ho) hm2).2 kvs hr
  | .inline none _, r, n, fs, is, base, _, _, _, _, _ => by
    unfold interfaceSel
    exact .fail
  | .inline (some t) sub, r, n, fs, is, base, h, hl, hk, _, hi => by
    unfold interfaceSel
    have hreq : Quietly (requireObject c.schema t) r fun _ => IsObject c.schema t := by
      unfold requireObject
      split
      · rename_i fs' is' ht; exact .pure ⟨_, _, ht⟩
      · exact .fail
    refine hreq.bind fun _ r1 q1 ht => ?_
    refine (inlineSels_ok sub r1 t base (h.quiet q1) ht (hi t sub (List.mem_singleton.2 rfl))).bind
      fun x r2 _ hx => .pure ?_
    intro hT o ho kvs hr
    refine ⟨by simp, by simp [InterfaceParts.basesFor], fun st hst => ?_⟩
    obtain ⟨l, hm1, hst2⟩ := List.mem_flatten.1 hst
    obtain ⟨⟨t', l'⟩, hm2, rfl⟩ := List.mem_map.1 hm1
    obtain ⟨hm3, he⟩ := List.mem_filter.1 hm2
    cases List.mem_singleton.1 hm3
    cases eq_of_beq he
    exact hx hT kvs (hr.inline (List.mem_singleton.2 rfl) (.object ht)) st hst2
  | .field name alias args sub, r, n, fs, is, base, h, hl, hk, hf, _ => by
    unfold interfaceSel
    split
    · exact .pure .empty
    · rename_i hn
      refine quietly_fieldNamed.bind fun fd r1 q1 hfd => ?_
      have hsup : Supported c.schema defs K fd.type sub :=
        hf name alias args sub fd.type (List.mem_singleton.2 rfl) (by simpa using hn) ⟨fd, hfd.1, hfd.2, rfl⟩
      refine (field_ok (args := args) fun r2 q2 => namedNode_ok
        ((h.quiet q1).quiet q2) hsup
        (fun n fs is k r3 h3 hl3 hs3 hf3 => objectSels_ok sub r3 n fs is k h3 hl3 hs3 hf3)
        (fun n fs is k r3 h3 hl3 hk3 hf3 hi3 => interfaceSels_ok sub r3 n fs is k h3 hl3 hk3 hf3 hi3)
        (fun r3 h3 hu3 => unionSels_ok sub r3 base h3 hu3)).bind fun x r2 _ hx => .pure ?_
      intro hT o ho kvs hr
      refine ⟨hx hT o kvs hr ?_, by simp [InterfaceParts.basesFor], by simp [InterfaceParts.bodyFor]⟩
      obtain ⟨fs', is', hlo, hno⟩ := possible_interface ⟨_, _, hl⟩ ho
      obtain ⟨fd', h1, h2, h3⟩ := h.module_.valid n o fs is fs' is' hl hlo hno fd hfd.1
      refine ⟨fd'.type, ?_, .inr h3⟩
      rw [← hfd.2, ← h2]
      exact .declared hlo h1
theorem interfaceSels_ok : ∀ (sels : List Sel) (r : Reg) (n : String) (fs : List FieldDef) (is : List String)
    (base : String), StateOk c defs leaf T isa K r → c.schema.lookup n = some (.interface fs is) →
    (∀ f, Sel.spread f ∈ sels → K f) → FieldHyp c.schema defs K (declaredIn fs) sels →
    IfcInlines c.schema defs K sels →
    Quietly (interfaceSels c fs base sels) r (IfcQ c defs leaf T isa n sels)
  | [], r, n, fs, is, base, _, _, _, _, _ => by
    unfold interfaceSels
    exact .pure .empty
  | x :: rest, r, n, fs, is, base, h, hl, hk, hf, hi => by
    unfold interfaceSels
    have m1 : ∀ y ∈ [x], y ∈ x :: rest := fun y hy => by rw [List.mem_singleton.1 hy]; exact List.mem_cons_self ..
    have m2 : ∀ y ∈ rest, y ∈ x :: rest := fun y hy => List.mem_cons_of_mem _ hy
    refine (interfaceSel_ok x r n fs is base h hl (fun f hm => hk f (m1 _ hm)) (hf.mono m1) (hi.mono m1)).bind
      fun a r1 q1 ha => ?_
    refine (interfaceSels_ok rest r1 n fs is base (h.quiet q1) hl (fun f hm => hk f (m2 _ hm)) (hf.mono m2)
      (hi.mono m2)).bind fun p r2 q2 hp => .pure (ha.append hp)
theorem inlineSel_ok : ∀ (x : Sel) (r : Reg) (o parent : String), StateOk c defs leaf T isa K r →
    IsObject c.schema o → FieldHyp c.schema defs K (FieldType c.schema o) [x] →
    Quietly (inlineSel c o parent x) r (InlQ c defs leaf T isa o [x])
  | .spread f, r, o, parent, _, _, _ => by
    unfold inlineSel
    exact .pure fun _ _ _ => by simp
  | .inline _ _, r, o, parent, _, _, _ => by
    unfold inlineSel
    exact .pure fun _ _ _ => by simp
  | .field name alias args sub, r, o, parent, h, ho, hf => by
    unfold inlineSel
    split
    · exact .pure fun _ _ _ => by simp
    · rename_i hn
      have hfd : Quietly (fieldDefOf c.schema o name) r fun fd => FieldType c.schema o name fd.type := by
        unfold fieldDefOf
        split
        · rename_i fd hg; exact .pure (getFieldDef_type ho hg)
        · exact .fail
      refine hfd.bind fun fd r1 q1 hfd => ?_
      have hsup : Supported c.schema defs K fd.type sub :=
        hf name alias args sub fd.type (List.mem_singleton.2 rfl) (by simpa using hn) hfd
      refine (field_ok (args := args) fun r2 q2 => namedNode_ok
        ((h.quiet q1).quiet q2) hsup
        (fun n fs is k r3 h3 hl3 hs3 hf3 => objectSels_ok sub r3 n fs is k h3 hl3 hs3 hf3)
        (fun n fs is k r3 h3 hl3 hk3 hf3 hi3 => interfaceSels_ok sub r3 n fs is k h3 hl3 hk3 hf3 hi3)
        (fun r3 h3 hu3 => unionSels_ok sub r3 parent h3 hu3)).mono fun x hx => ?_
      intro hT kvs hr
      exact hx hT o kvs hr ⟨fd.type, hfd, .inl rfl⟩
theorem inlineSels_ok : ∀ (sels : List Sel) (r : Reg) (o parent : String), StateOk c defs leaf T isa K r →
    IsObject c.schema o → FieldHyp c.schema defs K (FieldType c.schema o) sels →
    Quietly (inlineSels c o parent sels) r (InlQ c defs leaf T isa o sels)
  | [], r, o, parent, _, _, _ => by
    unfold inlineSels
    exact .pure fun _ _ _ => by simp
  | x :: rest, r, o, parent, h, ho, hf => by
    unfold inlineSels
    have m1 : ∀ y ∈ [x], y ∈ x :: rest := fun y hy => by rw [List.mem_singleton.1 hy]; exact List.mem_cons_self ..
    have m2 : ∀ y ∈ rest, y ∈ x :: rest := fun y hy => List.mem_cons_of_mem _ hy
    refine (inlineSel_ok x r o parent h ho (hf.mono m1)).bind fun a r1 q1 ha => ?_
    refine (inlineSels_ok rest r1 o parent (h.quiet q1) ho (hf.mono m2)).bind
      fun p r2 q2 hp => .pure (ha.append hp)
theorem unionSel_ok : ∀ (x : Sel) (r : Reg) (parent : String), StateOk c defs leaf T isa K r →
    UnHyp c.schema defs K [x] → Quietly (unionSel c parent x) r (UnQ c defs leaf T isa [x])
  | .spread f, r, parent, h, hu => by
    unfold unionSel
    obtain ⟨hk, d, hd, hni⟩ := hu.1 f (List.mem_singleton.2 rfl)
    have hf := h.frag hk hd
    refine quietly_inheritFragment.bind fun n _ _ hn => .pure ⟨rfl, ?_⟩
    intro _ o ho hc kvs hr
    refine ⟨n, List.mem_singleton.2 rfl, ?_⟩
    rcases hc with ⟨inner, hm⟩ | ⟨f', d', hm, hd', hp⟩
    · cases List.mem_singleton.1 hm
    · cases List.mem_singleton.1 hm
      rw [hd] at hd'
      cases hd'
      exact hf.single hni n hn o hp kvs (hr.spread (List.mem_singleton.2 rfl) hd hp)
  | .inline none _, r, parent, _, _ => by
    unfold unionSel
    exact .fail
  | .inline (some t) sub, r, parent, h, hu => by
    unfold unionSel
    refine (unionInlineSels_ok sub r t (inlineClassName parent t) h
      (fun f hm => hu.2.1 t sub f (List.mem_singleton.2 rfl) hm)
      (hu.2.2 t sub (List.mem_singleton.2 rfl))).bind fun p r1 q1 hp => ?_
    by_cases ht : IsObject c.schema t
    · refine (inlineClass_ok (h.quiet q1) (hp ht)).bind fun ss r2 _ hss => .pure ⟨rfl, ?_⟩
      intro hT o ho hc kvs hr
      refine ⟨_, List.mem_singleton.2 rfl, ?_⟩
      rcases hc with ⟨inner, hm⟩ | ⟨f', d', hm, _, _⟩
      · cases List.mem_singleton.1 hm
        exact hss hT kvs (hr.inline (List.mem_singleton.2 rfl) (.object ho))
      · cases List.mem_singleton.1 hm
    · refine (quietly_inlineClass).bind fun ss r2 _ _ => .pure ⟨rfl, ?_⟩
      intro hT o ho hc kvs hr
      rcases hc with ⟨inner, hm⟩ | ⟨f', d', hm, _, _⟩
      · cases List.mem_singleton.1 hm
        exact (ht ho).elim
      · cases List.mem_singleton.1 hm
  | .field _ _ _ _, r, parent, _, _ => by
    unfold unionSel
    refine .pure ⟨rfl, ?_⟩
    intro hT o ho hc kvs hr
    rcases hc with ⟨inner, hm⟩ | ⟨f', d', hm, _, _⟩ <;> cases List.mem_singleton.1 hm
theorem unionSels_ok : ∀ (sels : List Sel) (r : Reg) (parent : String), StateOk c defs leaf T isa K r →
    UnHyp c.schema defs K sels → Quietly (unionSels c parent sels) r (UnQ c defs leaf T isa sels)
  | [], r, parent, _, _ => by
    unfold unionSels
    refine .pure ⟨rfl, ?_⟩
    intro hT o ho hc kvs hr
    rcases hc with ⟨inner, hm⟩ | ⟨f', d', hm, _, _⟩ <;> cases hm
  | x :: rest, r, parent, h, hu => by
    unfold unionSels
    have m1 : ∀ y ∈ [x], y ∈ x :: rest := fun y hy => by rw [List.mem_singleton.1 hy]; exact List.mem_cons_self ..
    have m2 : ∀ y ∈ rest, y ∈ x :: rest := fun y hy => List.mem_cons_of_mem _ hy
    refine (unionSel_ok x r parent h (hu.mono m1)).bind fun a r1 q1 ha => ?_
    refine (unionSels_ok rest r1 parent (h.quiet q1) (hu.mono m2)).bind
      fun p r2 q2 hp => .pure (ha.append hp)
theorem unionInlineSel_ok : ∀ (x : Sel) (r : Reg) (o cls : String), StateOk c defs leaf T isa K r →
    (∀ f, Sel.spread f ∈ [x] → K f ∧ ∃ d, defs.get? f = some d ∧ d.typeCondition = o) →
    FieldHyp c.schema defs K (FieldType c.schema o) [x] →
    Quietly (unionInlineSel c o cls x) r fun p => IsObject c.schema o → ObjQ c defs leaf T isa o [x] p
  | .spread f, r, o, cls, h, hs, _ => by
    unfold unionInlineSel
    by_cases ho : IsObject c.schema o
    · refine (inlineSpreadBase_ok h (hs f (List.mem_singleton.2 rfl)) ho).bind fun b _ _ hb => .pure ?_
      intro _ _ kvs hr
      exact ⟨by simp, fun b' hb' => by rw [List.mem_singleton.1 hb']; exact hb kvs hr⟩
    · exact quietly_inlineSpreadBase.bind fun b _ _ _ => .pure fun h => (ho h).elim
  | .inline _ _, r, o, cls, _, _, _ => by
    unfold unionInlineSel
    exact .pure fun _ => .empty
  | .field name alias args sub, r, o, cls, h, _, hf => by
    unfold unionInlineSel
    split
    · exact .pure fun _ => .empty
    · rename_i hn
      have hfd : Quietly (objectFieldNamed c.schema o name) r fun fd => FieldType c.schema o name fd.type := by
        unfold objectFieldNamed
        split
        · rename_i fs is hl
          refine quietly_fieldNamed.mono fun fd hfd => ?_
          rw [← hfd.2]
          exact .declared hl hfd.1
        · exact .fail
      refine hfd.bind fun fd r1 q1 hfd => ?_
      have hsup : Supported c.schema defs K fd.type sub :=
        hf name alias args sub fd.type (List.mem_singleton.2 rfl) (by simpa using hn) hfd
      refine (field_ok (args := args) fun r2 q2 => namedNode_ok
        ((h.quiet q1).quiet q2) hsup
        (fun n fs is k r3 h3 hl3 hs3 hf3 => objectSels_ok sub r3 n fs is k h3 hl3 hs3 hf3)
        (fun n fs is k r3 h3 hl3 hk3 hf3 hi3 => interfaceSels_ok sub r3 n fs is k h3 hl3 hk3 hf3 hi3)
        (fun r3 h3 hu3 => unionSels_ok sub r3 cls h3 hu3)).bind fun x r2 _ hx => .pure ?_
      intro _ hT kvs hr
      exact ⟨hx hT o kvs hr ⟨fd.type, hfd, .inl rfl⟩, by simp⟩
theorem unionInlineSels_ok : ∀ (sels : List Sel) (r : Reg) (o cls : String), StateOk c defs leaf T isa K r →
    (∀ f, Sel.spread f ∈ sels → K f ∧ ∃ d, defs.get? f = some d ∧ d.typeCondition = o) →
    FieldHyp c.schema defs K (FieldType c.schema o) sels →
    Quietly (unionInlineSels c o cls sels) r fun p => IsObject c.schema o → ObjQ c defs leaf T isa o sels p
  | [], r, o, cls, _, _, _ => by
    unfold unionInlineSels
    exact .pure fun _ => .empty
  | x :: rest, r, o, cls, h, hs, hf => by
    unfold unionInlineSels
    have m1 : ∀ y ∈ [x], y ∈ x :: rest := fun y hy => by rw [List.mem_singleton.1 hy]; exact List.mem_cons_self ..
    have m2 : ∀ y ∈ rest, y ∈ x :: rest := fun y hy => List.mem_cons_of_mem _ hy
    refine (unionInlineSel_ok x r o cls h (fun f hm => hs f (m1 _ hm)) (hf.mono m1)).bind fun a r1 q1 ha => ?_
    refine (unionInlineSels_ok rest r1 o cls (h.quiet q1) (fun f hm => hs f (m2 _ hm)) (hf.mono m2)).bind
      fun p r2 q2 hp => .pure fun ho => (ha ho).append (hp ho)
end

/-- `type_field_node`: the declaration of a selected field fits every result of the selection -/
theorem typeFieldNode_ok {r : Reg} {parent name : String} {alias : Option String} {args : List (String × Value)}
    {fd : FieldDef} {sub : List Sel} (h : StateOk c defs leaf T isa K r)
    (hs : Supported c.schema defs K fd.type sub) :
    Quietly (typeFieldNode c parent fd name alias sub) r fun x => (∀ st ∈ x.2, st ∈ T) →
      ∀ o kvs, SparseResult c.schema defs leaf o [.field name alias args sub] kvs →
        (∃ t', FieldType c.schema o name t' ∧ (t' = fd.type ∨ SubType c.schema t' fd.type)) →
        ∀ st ∈ x.1, FitsStmt T isa kvs st := by
  unfold typeFieldNode recurseNamed
  exact field_ok (args := args) fun r2 q2 => namedNode_ok (h.quiet q2) hs
    (fun n fs is k r3 h3 hl3 hs3 hf3 => objectSels_ok c defs leaf T isa K sub r3 n fs is k h3 hl3 hs3 hf3)
    (fun n fs is k r3 h3 hl3 hk3 hf3 hi3 =>
      interfaceSels_ok c defs leaf T isa K sub r3 n fs is k h3 hl3 hk3 hf3 hi3)
    (fun r3 h3 hu3 => unionSels_ok c defs leaf T isa K sub r3 parent h3 hu3)

end
end Turms
