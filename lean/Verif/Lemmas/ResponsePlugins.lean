import Verif.Lemmas.ResponseSels
import Verif.Lemmas.Topo
import Verif.Model.Operations

/-! # Generated response models accept what a server may answer: the two plugins -/

namespace Turms
open Spec

theorem Dict.mem_set {α} {d : Dict α} {k k0 : String} {v v0 : α} (h : (k, v) ∈ d.set k0 v0) :
    (k = k0 ∧ v = v0) ∨ (k, v) ∈ d := by
  induction d with
  | nil => simp [Dict.set] at h; exact .inl h
  | cons p d ih =>
    obtain ⟨a, b⟩ := p
    unfold Dict.set at h
    split at h
    · rename_i he
      rcases List.mem_cons.1 h with h | h
      · cases h
        exact .inl ⟨by simpa using he, rfl⟩
      · exact .inr (List.mem_cons_of_mem _ h)
    · rcases List.mem_cons.1 h with h | h
      · exact .inr (by rw [h]; exact List.mem_cons_self ..)
      · exact (ih h).imp id (List.mem_cons_of_mem _)

/-- a dictionary filled by a loop: its entries come from the loop, and every key is there -/
theorem foldl_set_entries {α : Type} (key val : α → String) (l : List α) : ∀ (m : Dict String),
    (∀ k v, (k, v) ∈ l.foldl (fun m x => m.set (key x) (val x)) m → (k, v) ∈ m ∨ ∃ x ∈ l, k = key x ∧ v = val x) ∧
    (∀ k, (m.get? k).isSome ∨ (∃ x ∈ l, key x = k) →
      ((l.foldl (fun m x => m.set (key x) (val x)) m).get? k).isSome) := by
  induction l with
  | nil => exact fun m => ⟨fun k v h => .inl h, fun k h => h.elim id (by rintro ⟨_, h, _⟩; cases h)⟩
  | cons x l ih =>
    intro m
    obtain ⟨h1, h2⟩ := ih (m.set (key x) (val x))
    refine ⟨fun k v h => ?_, fun k h => ?_⟩
    · rcases h1 k v h with h | ⟨y, hy, h⟩
      · rcases Dict.mem_set h with ⟨rfl, rfl⟩ | h
        · exact .inr ⟨x, List.mem_cons_self .., rfl, rfl⟩
        · exact .inl h
      · exact .inr ⟨y, List.mem_cons_of_mem _ hy, h⟩
    · refine h2 k ?_
      rcases h with h | ⟨y, hy, rfl⟩
      · left
        rw [Dict.get?_set]
        split
        · rfl
        · exact h
      · rcases List.mem_cons.1 hy with rfl | hy
        · left; rw [Dict.get?_set_self]; rfl
        · exact .inr ⟨y, hy, rfl⟩

section
variable {c : Ctx} {defs : Dict FragDef} {leaf : String → Val → Prop} {T : List Stmt}
  {isa : String → Val → Prop} {K : String → Prop} {r : Reg}

/-! ## fragments on interfaces -/

theorem fragInterfaceSel_ok (x : Sel) (n : String) (fs : List FieldDef) (is : List String) (name : String)
    (h : StateOk c defs leaf T isa K r) (hl : c.schema.lookup n = some (.interface fs is))
    (hk : ∀ f, Sel.spread f ∈ [x] → K f) (hf : FieldHyp c.schema defs K (declaredIn fs) [x])
    (hi : IfcInlines c.schema defs K [x]) (ho : ∀ o inner, Sel.inline (some o) inner ∈ [x] → IsObject c.schema o) :
    Quietly (fragInterfaceSel c fs name x) r (IfcQ c defs leaf T isa n [x]) := by
  unfold fragInterfaceSel
  split
  · rename_i t sub
    have ht := ho t sub (List.mem_singleton.2 rfl)
    refine (inlineSels_ok c defs leaf T isa K sub r t name h ht (hi t sub (List.mem_singleton.2 rfl))).bind
      fun x r2 _ hx => .pure ?_
    intro hT o ho kvs hr
    refine ⟨by simp, by simp [InterfaceParts.basesFor], fun st hst => ?_⟩
    obtain ⟨l, hm1, hst2⟩ := List.mem_flatten.1 hst
    obtain ⟨⟨t', l'⟩, hm2, rfl⟩ := List.mem_map.1 hm1
    obtain ⟨hm3, he⟩ := List.mem_filter.1 hm2
    cases List.mem_singleton.1 hm3
    cases eq_of_beq he
    exact hx hT kvs (hr.inline (List.mem_singleton.2 rfl) (.object ht)) st hst2
  · exact interfaceSel_ok c defs leaf T isa K _ r n fs is name h hl hk hf hi

theorem fragInterfaceSels_ok (n : String) (fs : List FieldDef) (is : List String) (name : String)
    (hl : c.schema.lookup n = some (.interface fs is)) (sels : List Sel) : ∀ {r : Reg},
    StateOk c defs leaf T isa K r → (∀ f, Sel.spread f ∈ sels → K f) →
    FieldHyp c.schema defs K (declaredIn fs) sels → IfcInlines c.schema defs K sels →
    (∀ o inner, Sel.inline (some o) inner ∈ sels → IsObject c.schema o) →
    Quietly (fragInterfaceSels c fs name sels) r (IfcQ c defs leaf T isa n sels) := by
  induction sels with
  | nil => exact fun _ _ _ _ _ => .pure .empty
  | cons x rest ih =>
    intro r h hk hf hi ho
    have m1 : ∀ y ∈ [x], y ∈ x :: rest := fun y hy => by rw [List.mem_singleton.1 hy]; exact List.mem_cons_self ..
    have m2 : ∀ y ∈ rest, y ∈ x :: rest := fun y hy => List.mem_cons_of_mem _ hy
    unfold fragInterfaceSels
    refine (fragInterfaceSel_ok x n fs is name h hl (fun f hm => hk f (m1 _ hm)) (hf.mono m1) (hi.mono m1)
      (fun o i hm => ho o i (m1 _ hm))).bind fun a r1 q1 ha => ?_
    exact (ih (h.quiet q1) (fun f hm => hk f (m2 _ hm)) (hf.mono m2) (hi.mono m2)
      (fun o i hm => ho o i (m2 _ hm))).bind fun p r2 q2 hp => .pure (ha.append hp)

theorem fragImplementingClasses_ok {name : String} {p : InterfaceParts} {is : List Implementation} :
    ∀ {r : Reg}, Quietly (fragImplementingClasses c name p is) r fun ss => ∀ i ∈ is,
      Stmt.classDef (name ++ i.name) (names (p.basesFor i.name) ++ [.name (name ++ "Base")] ++
        baseNames ((c.config.additionalBases.get? i.name).getD []) ++ baseNames (interfaceBaseList c))
        (docStmt i.description :: typenameStmt c i.name :: p.bodyFor i.name) [] ∈ ss := by
  induction is with
  | nil => exact .pure (by simp)
  | cons i is ih =>
    intro r
    unfold fragImplementingClasses
    have h1 : Quietly (fragImplementingClass c name p i) r fun s => s =
        Stmt.classDef (name ++ i.name) (names (p.basesFor i.name) ++ [.name (name ++ "Base")] ++
        baseNames ((c.config.additionalBases.get? i.name).getD []) ++ baseNames (interfaceBaseList c))
        (docStmt i.description :: typenameStmt c i.name :: p.bodyFor i.name) [] := by
      unfold fragImplementingClass
      refine quietly_additionalBasesFor.bind fun e1 _ _ h1 => ?_
      refine quietly_interfaceBasesOf.bind fun e2 _ _ h2 => ?_
      refine quietly_typenameField.bind fun e3 _ _ h3 => .pure ?_
      rw [h1, h2, h3]
    refine h1.bind fun s r1 _ hs => ih.bind fun rest r2 _ hrest => .pure ?_
    intro j hj
    rcases List.mem_cons.1 hj with rfl | hj
    · rw [hs]; exact List.mem_cons_self ..
    · exact List.mem_cons_of_mem _ (hrest j hj)

theorem fieldOf_fragmentDoc (p : FragmentsConfig) (d : Option String) : fieldOf (fragmentDoc p d) = none := rfl

/-- a fragment on an interface registers classes that accept its results -/
theorem interfaceFragment_ok {p : FragmentsConfig} {f : FragDef} {name : String} {desc : Option String}
    {fs : List FieldDef} {is : List String} {ss : List Stmt} {r' : Reg} (h : StateOk c defs leaf T isa K r)
    (hl : c.schema.lookup f.typeCondition = some (.interface fs is)) (hk : ∀ g, Sel.spread g ∈ f.sels → K g)
    (hf : FieldHyp c.schema defs K (declaredIn fs) f.sels) (hi : IfcInlines c.schema defs K f.sels)
    (ho : ∀ o inner, Sel.inline (some o) inner ∈ f.sels → IsObject c.schema o)
    (hg : interfaceFragment c p f name desc fs r = .ok (ss, r')) (hT : ∀ st ∈ ss, st ∈ T) :
    ∃ m r1, Quiet r r1 ∧ r' = { r1 with interfaceFragmentImpl := r1.interfaceFragmentImpl.set f.name m } ∧
      (∀ o, Possible c.schema f.typeCondition o → ∃ cls, m.get? o = some cls) ∧
      ∀ o cls, (o, cls) ∈ m → Possible c.schema f.typeCondition o ∧ FragFits c.schema defs leaf T isa f o cls := by
  unfold interfaceFragment at hg
  obtain ⟨extra, r1, h1, hg⟩ := Gen.bind_ok.1 hg
  obtain ⟨q1, hextra⟩ := quietly_additionalBasesFor _ _ h1
  obtain ⟨q, r2, h2, hg⟩ := Gen.bind_ok.1 hg
  obtain ⟨q2, hq⟩ := fragInterfaceSels_ok f.typeCondition fs is name hl f.sels (h.quiet q1) hk hf hi ho _ _ h2
  obtain ⟨ib, r3, h3, hg⟩ := Gen.bind_ok.1 hg
  obtain ⟨q3, hib⟩ := quietly_interfaceBasesOf _ _ h3
  obtain ⟨tn, r4, h4, hg⟩ := Gen.bind_ok.1 hg
  obtain ⟨q4, htn⟩ := quietly_genericTypenameField _ _ h4
  obtain ⟨impls, r5, h5, hg⟩ := Gen.bind_ok.1 hg
  obtain ⟨q5, himpls⟩ := fragImplementingClasses_ok _ _ h5
  obtain ⟨u, r6, h6, hg⟩ := Gen.bind_ok.1 hg
  unfold registerImplementations at h6
  cases h6
  obtain ⟨rfl, rfl⟩ := Gen.pure_ok.1 hg
  have hin : IsInterface c.schema f.typeCondition := ⟨_, _, hl⟩
  obtain ⟨e1, e2⟩ := foldl_set_entries (α := Implementation) (·.name) (fun i => name ++ i.name)
    (implementations c.schema f.typeCondition) []
  refine ⟨_, r5, ((q1.trans q2).trans q3).trans (q4.trans q5), rfl, fun o hpo => ?_, fun o cls hm => ?_⟩
  · obtain ⟨i, hi, rfl⟩ := mem_implementations hin hpo
    exact Option.isSome_iff_exists.1 (e2 i.name (.inr ⟨i, hi, rfl⟩))
  · rcases e1 o cls hm with hm | ⟨i, hi, rfl, rfl⟩
    · cases hm
    have hpo := possible_of_implementation hin h.module_.nodup hi
    have hcT := hT _ (List.mem_append_right _ (himpls i hi))
    refine ⟨hpo, ⟨_, _, _, hcT⟩, fun kvs hr => ?_⟩
    obtain ⟨b1, b2, b3⟩ := hq (fun st hst => hT st (by simp [hst])) i.name hpo kvs hr
    refine implementing_fits h.module_ hcT ?_ b2 b3 hr.reserved
    have hmT : Stmt.classDef (name ++ "Base") (extra ++ ib) (fragmentDoc p desc :: q.body) [] ∈ T :=
      hT _ (by simp)
    refine fits_class h.module_.unique hmT ?_ ?_
    · intro b hb
      rcases List.mem_append.1 hb with hb | hb
      · rw [hextra] at hb; exact fits_baseNames h.module_.additional hb
      · rw [hib] at hb; exact fits_baseNames h.module_.interfaceBases hb
    · intro st hst
      rcases List.mem_cons.1 hst with rfl | hst
      · exact fitsStmt_none rfl
      · exact b1 st hst

/-! ## fragments on objects -/

theorem fragSpreadBase_ok {f o : String} (h : StateOk c defs leaf T isa K r)
    (hs : K f ∧ ∃ d, defs.get? f = some d ∧
      (d.typeCondition = o ∨ (IsInterface c.schema d.typeCondition ∧ Possible c.schema d.typeCondition o)))
    (ho : IsObject c.schema o) :
    Quietly (fragSpreadBase f o) r fun b =>
      ∀ kvs, SparseResult c.schema defs leaf o [.spread f] kvs → Fits T isa kvs b := by
  obtain ⟨hk, d, hd, hc⟩ := hs
  have hf := h.frag hk hd
  intro b r' hb
  unfold fragSpreadBase at hb
  rcases hc with rfl | ⟨hi, hp⟩
  · have hni : ¬ IsInterface c.schema d.typeCondition := by
      rintro ⟨_, _, hi⟩; obtain ⟨_, _, ho⟩ := ho; rw [ho] at hi; cases hi
    rw [hf.other hni] at hb
    obtain ⟨q, hcl⟩ := quietly_inheritFragment _ _ hb
    obtain ⟨hic, hfit⟩ := hf.object ho _ hcl
    exact ⟨q, fun kvs hr => hfit kvs (hr.spread (List.mem_singleton.2 rfl) hd (.object ho))⟩
  · obtain ⟨m, hm, hm1, hm2⟩ := hf.interface hi
    obtain ⟨cls, hcls⟩ := hm1 o hp
    rw [hm] at hb
    dsimp only at hb
    rw [hcls] at hb
    cases hb
    obtain ⟨_, hic, hfit⟩ := hm2 o _ (Dict.mem_of_get? hcls)
    exact ⟨.refl _, fun kvs hr => hfit kvs (hr.spread (List.mem_singleton.2 rfl) hd hp)⟩

theorem quietly_assertFieldDef {o name : String} (ho : IsObject c.schema o) :
    Quietly (assertFieldDef c.schema o name) r fun fd => FieldType c.schema o name fd.type := by
  unfold assertFieldDef
  split
  · rename_i fd hg; exact .pure (getFieldDef_type ho hg)
  · exact .fail

theorem fragObjectSel_ok (x : Sel) (o name : String) (h : StateOk c defs leaf T isa K r)
    (ho : IsObject c.schema o) (hs : ObjSpreads c.schema defs K o [x])
    (hf : FieldHyp c.schema defs K (FieldType c.schema o) [x]) :
    Quietly (fragObjectSel c o name x) r (ObjQ c defs leaf T isa o [x]) := by
  unfold fragObjectSel
  split
  · rename_i f
    refine (fragSpreadBase_ok h (hs f (List.mem_singleton.2 rfl)) ho).bind fun b _ _ hb => .pure ?_
    intro _ kvs hr
    exact ⟨by simp, fun b' hb' => by rw [List.mem_singleton.1 hb']; exact hb kvs hr⟩
  · exact .pure .empty
  · rename_i fname alias args sub
    split
    · exact .pure .empty
    · rename_i hn
      refine (quietly_assertFieldDef ho).bind fun fd r1 q1 hfd => ?_
      have hsup := hf fname alias args sub fd.type (List.mem_singleton.2 rfl) (by simpa using hn) hfd
      refine (typeFieldNode_ok c defs leaf T isa K (args := args) (h.quiet q1) hsup).bind
        fun x r2 _ hx => .pure ?_
      intro hT kvs hr
      exact ⟨hx hT o kvs hr ⟨fd.type, hfd, .inl rfl⟩, by simp⟩

theorem fragObjectSels_ok (o name : String) (ho : IsObject c.schema o) (sels : List Sel) : ∀ {r : Reg},
    StateOk c defs leaf T isa K r → ObjSpreads c.schema defs K o sels →
    FieldHyp c.schema defs K (FieldType c.schema o) sels →
    Quietly (fragObjectSels c o name sels) r (ObjQ c defs leaf T isa o sels) := by
  induction sels with
  | nil => exact fun _ _ _ => .pure .empty
  | cons x rest ih =>
    intro r h hs hf
    have m1 : ∀ y ∈ [x], y ∈ x :: rest := fun y hy => by rw [List.mem_singleton.1 hy]; exact List.mem_cons_self ..
    have m2 : ∀ y ∈ rest, y ∈ x :: rest := fun y hy => List.mem_cons_of_mem _ hy
    unfold fragObjectSels
    refine (fragObjectSel_ok x o name h ho (fun f hm => hs f (m1 _ hm)) (hf.mono m1)).bind fun a r1 q1 ha => ?_
    exact (ih (h.quiet q1) (fun f hm => hs f (m2 _ hm)) (hf.mono m2)).bind
      fun p r2 q2 hp => .pure (ha.append hp)

theorem quietly_mergedDocument {prep : List Char → List Char} {text : List Char} :
    Quietly (mergedDocument prep text) r fun _ => True := by
  intro a r' h
  unfold mergedDocument at h
  split at h <;> cases h
  exact ⟨.refl _, trivial⟩

theorem quietly_fragmentMeta {prep : List Char → List Char} {p : FragmentsConfig} {f : FragDef} :
    Quietly (fragmentMeta prep p f) r fun ss => ∀ st ∈ ss, fieldOf st = none := by
  unfold fragmentMeta
  split
  · refine quietly_mergedDocument.bind fun d _ _ _ => .pure ?_
    intro st hst
    rw [List.mem_singleton.1 hst]
    rfl
  · exact .pure (by simp)

theorem quietly_fragmentBasesOf {p : FragmentsConfig} {b : Bool} :
    Quietly (fragmentBasesOf c p b) r fun bs => bs = baseNames p.fragmentBases ++
      baseNames (if b then p.objectBases else []) ++ baseNames c.config.objectBases := by
  unfold fragmentBasesOf
  exact quietly_registerImports.bind fun _ _ _ _ => quietly_registerImports.bind fun _ _ _ _ =>
    quietly_registerImports.bind fun _ _ _ _ => .pure rfl

theorem fits_fragmentBases {p : FragmentsConfig} {b : Bool} {kvs : List (String × Val)} {x : String}
    (h : ModuleOk c leaf T isa r)
    (hp : ∀ b ∈ p.fragmentBases ++ p.objectBases, ¬ IsClass T (lastComponent b))
    (hx : Expr.name x ∈ baseNames p.fragmentBases ++ baseNames (if b then p.objectBases else []) ++
      baseNames c.config.objectBases) : Fits T isa kvs x := by
  rcases List.mem_append.1 hx with hx | hx
  · rcases List.mem_append.1 hx with hx | hx
    · exact fits_baseNames (fun y hy => hp y (List.mem_append_left _ hy)) hx
    · refine fits_baseNames (fun y hy => hp y (List.mem_append_right _ ?_)) hx
      split at hy
      · exact hy
      · cases hy
  · exact fits_baseNames h.objectBases hx

/-- the class of a fragment on an object accepts its results -/
theorem objectFragment_ok {prep : List Char → List Char} {p : FragmentsConfig} {f : FragDef} {name : String}
    {desc : Option String} (h : StateOk c defs leaf T isa K r)
    (hp : ∀ b ∈ p.fragmentBases ++ p.objectBases, ¬ IsClass T (lastComponent b))
    (ho : IsObject c.schema f.typeCondition) (hs : ObjSpreads c.schema defs K f.typeCondition f.sels)
    (hf : FieldHyp c.schema defs K (FieldType c.schema f.typeCondition) f.sels) :
    Quietly (objectFragment prep c p f name desc) r fun ss => (∀ st ∈ ss, st ∈ T) →
      FragFits c.schema defs leaf T isa f f.typeCondition name := by
  unfold objectFragment
  refine quietly_additionalBasesFor.bind fun extra r1 q1 hextra => ?_
  refine quietly_typenameField.bind fun tn r2 q2 htn => ?_
  refine (fragObjectSels_ok f.typeCondition name ho f.sels (h.quiet (q1.trans q2)) hs hf).bind
    fun q r3 q3 hq => ?_
  refine quietly_fragmentMeta.bind fun meta_ r4 q4 hmeta => ?_
  refine quietly_fragmentBasesOf.bind fun fb r5 q5 hfb => ?_
  refine quietly_generatePydanticConfig.bind fun cfg r6 q6 hcfg => .pure ?_
  intro hT
  have hcT := hT _ (List.mem_append_right _ (List.mem_singleton.2 rfl))
  refine ⟨⟨_, _, _, hcT⟩, fun kvs hr => ?_⟩
  obtain ⟨b1, b2⟩ := hq (fun st hst => hT st (List.mem_append_left _ hst)) kvs hr
  refine fits_class h.module_.unique hcT ?_ ?_
  · intro b hb
    rcases List.mem_append.1 hb with hb | hb
    · rcases List.mem_append.1 hb with hb | hb
      · exact b2 b (List.mem_reverse.1 (mem_names.1 hb))
      · rw [hextra] at hb; exact fits_baseNames h.module_.additional hb
    · rw [hfb] at hb; exact fits_fragmentBases h.module_ hp hb
  · intro st hst
    rcases List.mem_cons.1 hst with rfl | hst
    · exact fitsStmt_none rfl
    · rcases List.mem_cons.1 hst with rfl | hst
      · rw [htn]; exact fitsStmt_typename hr.reserved
      · rcases List.mem_append.1 hst with hst | hst
        · rcases List.mem_append.1 hst with hst | hst
          · exact b1 st hst
          · exact fitsStmt_none (hcfg st hst)
        · exact fitsStmt_none (hmeta st hst)

/-! ## fragments on unions -/

theorem fragUnionInlineSel_ok (x : Sel) (o name : String) (h : StateOk c defs leaf T isa K r)
    (ho : IsObject c.schema o)
    (hs : ∀ f, Sel.spread f ∈ [x] → K f ∧ styled c.env.stylers Styler.fragmentName f = .ok f ∧
      ∃ d, defs.get? f = some d ∧ d.typeCondition = o)
    (hf : FieldHyp c.schema defs K (FieldType c.schema o) [x]) :
    Quietly (fragUnionInlineSel c o name x) r (ObjQ c defs leaf T isa o [x]) := by
  unfold fragUnionInlineSel
  split
  · rename_i f
    obtain ⟨hk, hst, d, hd, rfl⟩ := hs f (List.mem_singleton.2 rfl)
    have hfr := h.frag hk hd
    obtain ⟨cls, hcl, hst'⟩ := hfr.named
    have : cls = f := by
      have : Kind.fragment.style c.env f = .ok f := hst
      rw [this] at hst'; cases hst'; rfl
    subst this
    obtain ⟨_, hfit⟩ := hfr.object ho _ hcl
    refine .pure ?_
    intro _ kvs hr
    refine ⟨by simp, fun b' hb' => ?_⟩
    rw [List.mem_singleton.1 hb']
    exact hfit kvs (hr.spread (List.mem_singleton.2 rfl) hd (.object ho))
  · exact .pure .empty
  · rename_i fname alias args sub
    split
    · exact .pure .empty
    · rename_i hn
      refine (quietly_assertFieldDef ho).bind fun fd r1 q1 hfd => ?_
      have hsup := hf fname alias args sub fd.type (List.mem_singleton.2 rfl) (by simpa using hn) hfd
      refine (typeFieldNode_ok c defs leaf T isa K (args := args) (h.quiet q1) hsup).bind
        fun x r2 _ hx => .pure ?_
      intro hT kvs hr
      exact ⟨hx hT o kvs hr ⟨fd.type, hfd, .inl rfl⟩, by simp⟩

theorem fragUnionInlineSels_ok (o name : String) (ho : IsObject c.schema o) (sels : List Sel) : ∀ {r : Reg},
    StateOk c defs leaf T isa K r →
    (∀ f, Sel.spread f ∈ sels → K f ∧ styled c.env.stylers Styler.fragmentName f = .ok f ∧
      ∃ d, defs.get? f = some d ∧ d.typeCondition = o) →
    FieldHyp c.schema defs K (FieldType c.schema o) sels →
    Quietly (fragUnionInlineSels c o name sels) r (ObjQ c defs leaf T isa o sels) := by
  induction sels with
  | nil => exact fun _ _ _ => .pure .empty
  | cons x rest ih =>
    intro r h hs hf
    have m1 : ∀ y ∈ [x], y ∈ x :: rest := fun y hy => by rw [List.mem_singleton.1 hy]; exact List.mem_cons_self ..
    have m2 : ∀ y ∈ rest, y ∈ x :: rest := fun y hy => List.mem_cons_of_mem _ hy
    unfold fragUnionInlineSels
    refine (fragUnionInlineSel_ok x o name h ho (fun f hm => hs f (m1 _ hm)) (hf.mono m1)).bind
      fun a r1 q1 ha => ?_
    exact (ih (h.quiet q1) (fun f hm => hs f (m2 _ hm)) (hf.mono m2)).bind
      fun p r2 q2 hp => .pure (ha.append hp)

/-- hypotheses on the selections of a fragment on a union -/
structure FragUnHyp (c : Ctx) (defs : Dict FragDef) (K : String → Prop) (sels : List Sel) : Prop where
  spreads : ∀ f, Sel.spread f ∈ sels → K f
  objects : ∀ o inner, Sel.inline (some o) inner ∈ sels → IsObject c.schema o
  inner : ∀ o inner f, Sel.inline (some o) inner ∈ sels → Sel.spread f ∈ inner →
    K f ∧ styled c.env.stylers Styler.fragmentName f = .ok f ∧ ∃ d', defs.get? f = some d' ∧ d'.typeCondition = o
  fields : IfcInlines c.schema defs K sels

theorem FragUnHyp.mono {a b : List Sel} (h : FragUnHyp c defs K b) (hs : ∀ x ∈ a, x ∈ b) :
    FragUnHyp c defs K a :=
  ⟨fun f hm => h.spreads f (hs _ hm), fun o i hm => h.objects o i (hs _ hm),
    fun o i f hm => h.inner o i f (hs _ hm), h.fields.mono hs⟩

theorem fragUnionSel_ok (x : Sel) (n name : String) (h : StateOk c defs leaf T isa K r)
    (hu : FragUnHyp c defs K [x]) :
    Quietly (fragUnionSel c name x) r (IfcQ c defs leaf T isa n [x]) := by
  unfold fragUnionSel
  split
  · rename_i f
    obtain ⟨d, hf⟩ := h.frags f (hu.spreads f (List.mem_singleton.2 rfl))
    have hm : Quietly (unionMembersOf f) r fun bs => r.unionFragmentMembers.get? f = some bs := by
      intro a r' h
      unfold unionMembersOf at h
      split at h
      · rename_i m hm; cases h; exact ⟨.refl _, hm⟩
      · cases h
    refine hm.bind fun bs _ _ hbs => .pure ?_
    intro _ o ho kvs hr
    refine ⟨by simp, fun b hb => ?_, by simp [InterfaceParts.bodyFor]⟩
    obtain ⟨⟨o', b'⟩, hm1, rfl⟩ := List.mem_map.1 hb
    obtain ⟨hm2, he⟩ := List.mem_filter.1 hm1
    cases eq_of_beq he
    obtain ⟨hp, _, hfit⟩ := hf.members bs hbs _ _ hm2
    exact hfit kvs (hr.spread (List.mem_singleton.2 rfl) hf.defined hp)
  · exact .fail
  · rename_i t sub
    have ht := hu.objects t sub (List.mem_singleton.2 rfl)
    refine (fragUnionInlineSels_ok t name ht sub h
      (fun f hm => hu.inner t sub f (List.mem_singleton.2 rfl) hm)
      (hu.fields t sub (List.mem_singleton.2 rfl))).bind fun q r1 q1 hq => .pure ?_
    intro hT o ho kvs hr
    refine ⟨by simp, fun b hb => ?_, fun st hst => ?_⟩
    · obtain ⟨⟨o', b'⟩, hm1, rfl⟩ := List.mem_map.1 hb
      obtain ⟨hm2, he⟩ := List.mem_filter.1 hm1
      cases eq_of_beq he
      obtain ⟨b'', hb'', e⟩ := List.mem_map.1 hm2
      cases e
      exact (hq hT kvs (hr.inline (List.mem_singleton.2 rfl) (.object ht))).2 _ hb''
    · obtain ⟨l, hm1, hst2⟩ := List.mem_flatten.1 hst
      obtain ⟨⟨t', l'⟩, hm2, rfl⟩ := List.mem_map.1 hm1
      obtain ⟨hm3, he⟩ := List.mem_filter.1 hm2
      cases List.mem_singleton.1 hm3
      cases eq_of_beq he
      exact (hq hT kvs (hr.inline (List.mem_singleton.2 rfl) (.object ht))).1 st hst2
  · split
    · exact .pure .empty
    · exact .fail

theorem fragUnionSels_ok (n name : String) (sels : List Sel) : ∀ {r : Reg}, StateOk c defs leaf T isa K r →
    FragUnHyp c defs K sels → Quietly (fragUnionSels c name sels) r (IfcQ c defs leaf T isa n sels) := by
  induction sels with
  | nil => exact fun _ _ => .pure .empty
  | cons x rest ih =>
    intro r h hu
    have m1 : ∀ y ∈ [x], y ∈ x :: rest := fun y hy => by rw [List.mem_singleton.1 hy]; exact List.mem_cons_self ..
    have m2 : ∀ y ∈ rest, y ∈ x :: rest := fun y hy => List.mem_cons_of_mem _ hy
    unfold fragUnionSels
    refine (fragUnionSel_ok x n name h (hu.mono m1)).bind fun a r1 q1 ha => ?_
    exact (ih (h.quiet q1) (hu.mono m2)).bind fun p r2 q2 hp => .pure (ha.append hp)

theorem fragMemberClasses_ok {p : FragmentsConfig} {name : String} {q : InterfaceParts} {ms : List String} :
    ∀ {r : Reg}, Quietly (fragMemberClasses c p name q ms) r fun ss => ∀ m ∈ ms,
      Stmt.classDef (name ++ m) (names (q.basesFor m) ++ (baseNames p.fragmentBases ++
        baseNames (if false then p.objectBases else []) ++ baseNames c.config.objectBases))
        (typenameStmt c m :: q.bodyFor m) [] ∈ ss := by
  induction ms with
  | nil => exact .pure (by simp)
  | cons m ms ih =>
    intro r
    unfold fragMemberClasses
    have h1 : Quietly (fragMemberClass c p name q m) r fun s => s =
      Stmt.classDef (name ++ m) (names (q.basesFor m) ++ (baseNames p.fragmentBases ++
        baseNames (if false then p.objectBases else []) ++ baseNames c.config.objectBases))
        (typenameStmt c m :: q.bodyFor m) [] := by
      unfold fragMemberClass
      refine quietly_fragmentBasesOf.bind fun e1 _ _ h1 => ?_
      refine quietly_typenameField.bind fun e2 _ _ h2 => .pure ?_
      rw [h1, h2]
    refine h1.bind fun s r1 _ hs => ih.bind fun rest r2 _ hrest => .pure ?_
    intro j hj
    rcases List.mem_cons.1 hj with rfl | hj
    · rw [hs]; exact List.mem_cons_self ..
    · exact List.mem_cons_of_mem _ (hrest j hj)

/-- a fragment on a union registers classes that accept its results, and its name stands for their union -/
theorem unionFragment_ok {p : FragmentsConfig} {f : FragDef} {name : String} {desc : Option String}
    {ms : List String} {ss : List Stmt} {r' : Reg} (h : StateOk c defs leaf T isa K r)
    (hp : ∀ b ∈ p.fragmentBases ++ p.objectBases, ¬ IsClass T (lastComponent b))
    (hl : c.schema.lookup f.typeCondition = some (.union ms)) (hms : ∀ m ∈ ms, IsObject c.schema m)
    (hu : FragUnHyp c defs K f.sels) (hg : unionFragment c p f name desc ms r = .ok (ss, r'))
    (hT : ∀ st ∈ ss, st ∈ T) :
    ∃ m r1 r2, Quiet r r1 ∧ Quiet { r1 with unionFragmentMembers := r1.unionFragmentMembers.set f.name m } r2 ∧
      r' = r2 ∧
      (∀ o cls, (o, cls) ∈ m → Possible c.schema f.typeCondition o ∧ FragFits c.schema defs leaf T isa f o cls) ∧
      ∀ o, Possible c.schema f.typeCondition o → ∀ kvs, SparseResult c.schema defs leaf o f.sels kvs →
        Takes T isa (.name name) (.obj kvs) := by
  unfold unionFragment at hg
  obtain ⟨extra, r1, h1, hg⟩ := Gen.bind_ok.1 hg
  obtain ⟨q1, hextra⟩ := quietly_additionalBasesFor _ _ h1
  obtain ⟨q, r2, h2, hg⟩ := Gen.bind_ok.1 hg
  obtain ⟨q2, hq⟩ := fragUnionSels_ok f.typeCondition name f.sels (h.quiet q1) hu _ _ h2
  obtain ⟨cs, r3, h3, hg⟩ := Gen.bind_ok.1 hg
  obtain ⟨q3, hcs⟩ := fragMemberClasses_ok _ _ h3
  obtain ⟨u, r4, h4, hg⟩ := Gen.bind_ok.1 hg
  unfold registerUnionMembers at h4
  cases h4
  obtain ⟨u, r5, h5, hg⟩ := Gen.bind_ok.1 hg
  obtain ⟨q5, _⟩ := quietly_registerImport _ _ h5
  obtain ⟨rfl, rfl⟩ := Gen.pure_ok.1 hg
  obtain ⟨e1, e2⟩ := foldl_set_entries (α := String) id (fun i => name ++ i) ms []
  have hfit : ∀ o ∈ ms, FragFits c.schema defs leaf T isa f o (name ++ o) := by
    intro o hm
    have hpo : Possible c.schema f.typeCondition o := .union hl (hms o hm) hm
    have hcT : Stmt.classDef (name ++ o) (names (q.basesFor o) ++ (baseNames p.fragmentBases ++
        baseNames (if false then p.objectBases else []) ++ baseNames c.config.objectBases))
        (typenameStmt c o :: q.bodyFor o) [] ∈ T :=
      hT _ (List.mem_append_left _ (List.mem_append_left _ (List.mem_append_right _ (hcs o hm))))
    refine ⟨⟨_, _, _, hcT⟩, fun kvs hr => ?_⟩
    obtain ⟨b1, b2, b3⟩ := hq (fun st hst => hT st (List.mem_append_left _ (List.mem_append_left _
      (List.mem_append_left _ hst)))) o hpo kvs hr
    refine fits_class h.module_.unique hcT ?_ ?_
    · intro b hb
      rcases List.mem_append.1 hb with hb | hb
      · exact b2 b (mem_names.1 hb)
      · exact fits_fragmentBases (b := false) h.module_ hp hb
    · intro st hst
      rcases List.mem_cons.1 hst with rfl | hst
      · exact fitsStmt_typename hr.reserved
      · exact b3 st hst
  refine ⟨_, r3, _, (q1.trans q2).trans q3, q5, rfl, fun o cls hm => ?_, fun o hpo kvs hr => ?_⟩
  · rcases e1 o cls hm with hm | ⟨i, hi, hk, hv⟩
    · cases hm
    · have : o = i := hk
      subst this
      subst hv
      exact ⟨.union hl (hms o hi) hi, hfit o hi⟩
  · obtain ⟨_, hm⟩ := possible_union hl hpo
    obtain ⟨hic, hf⟩ := hfit o hm
    refine .alias (hT _ (List.mem_append_left _ (List.mem_append_right _ (List.mem_singleton.2 rfl))))
      (.union (t := .name (name ++ o)) (mem_names.2 (List.mem_map.2 ⟨o, hm, rfl⟩)) ((hf kvs hr).takes hic))

/-! ## one fragment, all fragments -/

theorem lookup_entry {s : Schema} {n : String} {e : TypeEntry} (h : s.types.get? n = some e) :
    s.lookup n = some e.defn := by
  unfold Schema.lookup; rw [h]; rfl

theorem not_interface_of_object {s : Schema} {n : String} (h : IsObject s n) : ¬ IsInterface s n := by
  rintro ⟨_, _, h2⟩; obtain ⟨_, _, h1⟩ := h; rw [h1] at h2; cases h2

theorem not_interface_of_union {s : Schema} {n : String} {ms : List String} (h : s.lookup n = some (.union ms)) :
    ¬ IsInterface s n := by
  rintro ⟨_, _, h2⟩; rw [h] at h2; cases h2

theorem not_object_of_union {s : Schema} {n : String} {ms : List String} (h : s.lookup n = some (.union ms)) :
    ¬ IsObject s n := by
  rintro ⟨_, _, h2⟩; rw [h] at h2; cases h2

theorem not_object_of_interface {s : Schema} {n : String} (h : IsInterface s n) : ¬ IsObject s n :=
  fun h' => not_interface_of_object h' h

theorem possible_of_object {s : Schema} {n o : String} (h : IsObject s n) (hp : Possible s n o) : o = n := by
  cases hp with
  | object => rfl
  | interface hi _ _ => exact (not_interface_of_object h hi).elim
  | union hu _ _ => exact (not_object_of_union hu h).elim

/-- the state after registering the fragment -/
theorem StateOk.registered {d : FragDef} {cls : String} {docs : Dict String}
    (h : StateOk c defs leaf T isa K r) (hK : ∀ f, K f → f ≠ d.name) :
    StateOk c defs leaf T isa K { r.setClass .fragment d.name cls with
      fragmentDocumentMap := docs, fragmentTypeMap := r.fragmentTypeMap.set d.name d.typeCondition } := by
  refine ⟨h.module_.of_scalars rfl, fun f hf => ?_⟩
  obtain ⟨d', hd'⟩ := h.frags f hf
  have hne := hK f hf
  exact ⟨d', hd'.of_tables (Dict.get?_set_ne _ _ hne.symm) (Dict.get?_set_ne _ _ hne.symm) rfl rfl⟩

/-- Generating one supported fragment extends the set of fragments the registry is right about. -/
theorem generateFragment_ok {prep : List Char → List Char} {p : FragmentsConfig} {d : FragDef} {ss : List Stmt}
    {r' : Reg} (h : StateOk c defs leaf T isa K r)
    (hp : ∀ b ∈ p.fragmentBases ++ p.objectBases, ¬ IsClass T (lastComponent b))
    (hd : defs.get? d.name = some d) (hs : SupportedFragment c defs K d)
    (hni : r.interfaceFragmentImpl.get? d.name = none) (hnu : r.unionFragmentMembers.get? d.name = none)
    (hg : generateFragment prep c p d r = .ok (ss, r')) (hT : ∀ st ∈ ss, st ∈ T) :
    StateOk c defs leaf T isa (fun f => K f ∨ f = d.name) r' ∧
      ∀ f, f ≠ d.name → r'.interfaceFragmentImpl.get? f = r.interfaceFragmentImpl.get? f ∧
        r'.unionFragmentMembers.get? f = r.unionFragmentMembers.get? f := by
  unfold generateFragment at hg
  cases he : c.schema.types.get? d.typeCondition with
  | none => rw [he] at hg; exact (Gen.fail_ok.1 hg).elim
  | some e =>
  rw [he] at hg
  dsimp only at hg
  have hlk := lookup_entry he
  obtain ⟨name, r1, h1, hg⟩ := Gen.bind_ok.1 hg
  obtain ⟨hnc, hsty, rfl⟩ := generateClass_ok h1
  obtain ⟨u, r2, h2, hg⟩ := Gen.bind_ok.1 hg
  unfold registerFragmentDocument at h2
  split at h2
  · cases h2
  cases h2
  obtain ⟨u, r3, h3, hg⟩ := Gen.bind_ok.1 hg
  unfold registerFragmentType at h3
  cases h3
  have hK : ∀ f, K f → f ≠ d.name := by
    rintro f hf rfl
    obtain ⟨d', hd'⟩ := h.frags _ hf
    obtain ⟨cls, hc, _⟩ := hd'.named
    have : r.fragmentMap.contains d.name = true := by rw [Dict.contains_eq_isSome, hc]; rfl
    have hnc' : r.fragmentMap.contains d.name = false := hnc
    rw [this] at hnc'; cases hnc'
  have h0 := h.registered (cls := name) (docs := (r.setClass .fragment d.name name).fragmentDocumentMap.set d.name
    (String.ofList (Documents.printFragment d))) hK
  obtain ⟨r0, hr0⟩ : ∃ r0, r0 = { r.setClass .fragment d.name name with
      fragmentDocumentMap := (r.setClass .fragment d.name name).fragmentDocumentMap.set d.name
        (String.ofList (Documents.printFragment d))
      fragmentTypeMap := r.fragmentTypeMap.set d.name d.typeCondition } := ⟨_, rfl⟩
  rw [← hr0] at h0
  have t1 : r0.fragmentMap.get? d.name = some name := by rw [hr0]; exact Dict.get?_set_self ..
  have t2 : r0.fragmentTypeMap.get? d.name = some d.typeCondition := by rw [hr0]; exact Dict.get?_set_self ..
  have t3 : r0.interfaceFragmentImpl = r.interfaceFragmentImpl := by rw [hr0]; rfl
  have t4 : r0.unionFragmentMembers = r.unionFragmentMembers := by rw [hr0]; rfl
  have hg' : fragmentBody prep c p d name e r0 = .ok (ss, r') := by rw [hr0]; exact hg
  clear hg hr0 h1
  have key : ∀ (hm : StateOk c defs leaf T isa K r') (hnew : FragOk c defs leaf T isa r' d.name d),
      StateOk c defs leaf T isa (fun f => K f ∨ f = d.name) r' := by
    intro hm hnew
    refine ⟨hm.module_, ?_⟩
    rintro f (hf | rfl)
    · exact hm.frags f hf
    · exact ⟨d, hnew⟩
  have cls_eq : ∀ {x : Reg}, x.fragmentMap = r0.fragmentMap → ∀ cls, x.fragmentMap.get? d.name = some cls →
      cls = name := by
    intro x hx cls hc
    rw [hx, t1] at hc
    cases hc
    rfl
  cases hs with
  | @interface fs is hl hk hf ho hi =>
    obtain ⟨ek, ed⟩ := e
    cases hl.symm.trans hlk
    unfold fragmentBody at hg'
    obtain ⟨m, r1, q, rfl, hm1, hm2⟩ := interfaceFragment_ok h0 hl hk
      (fun n a g s t hm hn ⟨fd, hfd, e1, e2⟩ => e2 ▸ hf n a g s fd hm hn hfd e1)
      (fun o i hm n a g s t hm' hn ht => hi o i n a g s t hm hm' hn ht) ho hg' hT
    obtain ⟨q0, q1, q2, q3, q4, _⟩ := q.tables
    have hin : IsInterface c.schema d.typeCondition := ⟨_, _, hl⟩
    refine ⟨key ?_ ?_, fun f hne => ⟨?_, ?_⟩⟩
    · have h5 := h0.quiet q
      refine ⟨h5.module_.of_scalars rfl, fun f hf => ?_⟩
      obtain ⟨d', hd'⟩ := h5.frags f hf
      exact ⟨d', hd'.of_tables rfl rfl (Dict.get?_set_ne _ _ (hK f hf).symm) rfl⟩
    · refine ⟨hd, ?_, ⟨name, ?_, hsty⟩, ?_, fun _ => ⟨m, Dict.get?_set_self .., hm1, hm2⟩,
        fun hn => (hn hin).elim, fun hobj => (not_interface_of_object hobj hin).elim, fun hn => (hn hin).elim⟩
      · rw [← t2]; exact congrArg (·.get? d.name) q2
      · rw [← t1]; exact congrArg (·.get? d.name) q1
      · intro m' hm'
        have : r1.unionFragmentMembers.get? d.name = some m' := hm'
        rw [q4, t4, hnu] at this
        cases this
    · show (r1.interfaceFragmentImpl.set d.name m).get? f = _
      rw [Dict.get?_set_ne _ _ hne.symm, q3, t3]
    · show r1.unionFragmentMembers.get? f = _
      rw [q4, t4]
  | object ho hsp hf =>
    obtain ⟨fs, is, hl⟩ := ho
    have ho : IsObject c.schema d.typeCondition := ⟨fs, is, hl⟩
    obtain ⟨ek, ed⟩ := e
    cases hl.symm.trans hlk
    unfold fragmentBody at hg'
    obtain ⟨q, hfit⟩ := objectFragment_ok (prep := prep) (name := name) (desc := ed) h0 hp ho
      (fun f hm => hsp f hm) (fun n a g s t hm hn ht => hf n a g s t hm hn ht) _ _ hg'
    have hfit := hfit hT
    obtain ⟨q0, q1, q2, q3, q4, _⟩ := q.tables
    refine ⟨key (h0.quiet q) ?_, fun f hne => ⟨by rw [q3, t3], by rw [q4, t4]⟩⟩
    refine ⟨hd, by rw [q2, t2], ⟨name, by rw [q1, t1], hsty⟩, ?_,
      fun hin => (not_interface_of_object ho hin).elim, fun _ => by rw [q3, t3, hni], ?_, ?_⟩
    · intro m hm; rw [q4, t4, hnu] at hm; cases hm
    · intro _ cls hc
      rw [cls_eq q1 cls hc]
      exact hfit
    · intro _ cls hc o hpo kvs hr
      rw [cls_eq q1 cls hc]
      rw [possible_of_object ho hpo] at hr
      exact (hfit.2 kvs hr).takes hfit.1
  | @union ms hl hms hk ho hin hfs =>
    obtain ⟨ek, ed⟩ := e
    cases hl.symm.trans hlk
    unfold fragmentBody at hg'
    obtain ⟨m, r1, r2, q, q', rfl, hm1, hm2⟩ := unionFragment_ok h0 hp hl hms
      ⟨hk, ho, hin, fun o i hm n a g s t hm' hn ht => hfs o i n a g s t hm hm' hn ht⟩ hg' hT
    obtain ⟨q0, q1, q2, q3, q4, _⟩ := q.tables
    obtain ⟨p0, p1, p2, p3, p4, _⟩ := q'.tables
    have e1 : r'.fragmentMap = r0.fragmentMap := p1.trans q1
    have e2 : r'.fragmentTypeMap = r0.fragmentTypeMap := p2.trans q2
    have e3 : r'.interfaceFragmentImpl = r0.interfaceFragmentImpl := p3.trans q3
    have e4 : r'.unionFragmentMembers = r0.unionFragmentMembers.set d.name m := by rw [p4]; show _ = _; rw [← q4]
    have e0 : r'.scalarMap = r0.scalarMap := p0.trans q0
    refine ⟨key ?_ ?_, fun f hne => ⟨by rw [e3, t3], by rw [e4, Dict.get?_set_ne _ _ hne.symm, t4]⟩⟩
    · refine ⟨h0.module_.of_scalars e0, fun f hf => ?_⟩
      obtain ⟨d', hd'⟩ := h0.frags f hf
      exact ⟨d', hd'.of_tables (by rw [e1]) (by rw [e2]) (by rw [e3]) (by rw [e4, Dict.get?_set_ne _ _ (hK f hf).symm])⟩
    · refine ⟨hd, by rw [e2, t2], ⟨name, by rw [e1, t1], hsty⟩, ?_,
        fun hi => (not_interface_of_union hl hi).elim, fun _ => by rw [e3, t3, hni],
        fun hobj => (not_object_of_union hl hobj).elim, ?_⟩
      · intro m' hm'
        rw [e4, Dict.get?_set_self] at hm'
        cases hm'
        exact hm1
      · intro _ cls hc
        rw [cls_eq e1 cls hc]
        exact hm2

/-- Generating supported fragments, each after the ones it spreads. -/
theorem generateFragments_ok {prep : List Char → List Char} {p : FragmentsConfig} (fs : List FragDef) :
    ∀ {K : String → Prop} {r r' : Reg} {ss : List Stmt}, StateOk c defs leaf T isa K r →
    (∀ b ∈ p.fragmentBases ++ p.objectBases, ¬ IsClass T (lastComponent b)) →
    (∀ d ∈ fs, defs.get? d.name = some d) → (fs.map (·.name)).Nodup →
    (∀ before d after, fs = before ++ d :: after →
      SupportedFragment c defs (fun f => K f ∨ f ∈ before.map (·.name)) d) →
    (∀ d ∈ fs, r.interfaceFragmentImpl.get? d.name = none ∧ r.unionFragmentMembers.get? d.name = none) →
    generateFragments prep c p fs r = .ok (ss, r') → (∀ st ∈ ss, st ∈ T) →
    StateOk c defs leaf T isa (fun f => K f ∨ f ∈ fs.map (·.name)) r' := by
  induction fs with
  | nil =>
    intro K r r' ss h _ _ _ _ _ hg _
    obtain ⟨rfl, rfl⟩ := Gen.pure_ok.1 hg
    have : (fun f => K f ∨ f ∈ ([] : List FragDef).map (·.name)) = K := by funext f; simp
    rw [this]
    exact h
  | cons d fs ih =>
    intro K r r' ss h hp hd hn hs hf hg hT
    unfold generateFragments at hg
    obtain ⟨s1, r1, h1, hg⟩ := Gen.bind_ok.1 hg
    obtain ⟨s2, r2, h2, hg⟩ := Gen.bind_ok.1 hg
    obtain ⟨rfl, rfl⟩ := Gen.pure_ok.1 hg
    have hs0 := hs [] d fs rfl
    have e0 : (fun f => K f ∨ f ∈ ([] : List FragDef).map (·.name)) = K := by funext f; simp
    rw [e0] at hs0
    obtain ⟨hf1, hf2⟩ := hf d (List.mem_cons_self ..)
    obtain ⟨hst, hrest⟩ := generateFragment_ok h hp (hd d (List.mem_cons_self ..)) hs0 hf1 hf2 h1
      (fun st hst => hT st (List.mem_append_left _ hst))
    rw [List.map_cons, List.nodup_cons] at hn
    have e1 : (fun f => K f ∨ f ∈ (d :: fs).map (·.name)) =
        (fun f => (K f ∨ f = d.name) ∨ f ∈ fs.map (·.name)) := by
      funext f; simp [or_assoc]
    rw [e1]
    refine ih hst hp (fun x hx => hd x (List.mem_cons_of_mem _ hx)) hn.2 ?_ ?_ h2
      (fun st hst => hT st (List.mem_append_right _ hst))
    · intro before x after e
      have := hs (d :: before) x after (by rw [e]; rfl)
      have e2 : (fun f => K f ∨ f ∈ (d :: before).map (·.name)) =
          (fun f => (K f ∨ f = d.name) ∨ f ∈ before.map (·.name)) := by
        funext f; simp [or_assoc]
      rw [e2] at this
      exact this
    · intro x hx
      have hne : x.name ≠ d.name := by
        intro he
        exact hn.1 (he ▸ List.mem_map_of_mem hx)
      obtain ⟨a, b⟩ := hrest x.name hne
      rw [a, b]
      exact hf x (List.mem_cons_of_mem _ hx)

/-! ## operations -/

theorem quietly_basesOrObject {bases : List String} :
    Quietly (basesOrObject c bases) r fun bs =>
      bs = baseNames (if bases.isEmpty then c.config.objectBases else bases) := by
  unfold basesOrObject
  exact quietly_registerImports.bind fun _ _ _ _ => .pure rfl

theorem operationSels_ok (root cls : String) (ho : IsObject c.schema root) (sels : List Sel) : ∀ {r : Reg},
    StateOk c defs leaf T isa K r → 
    (∀ name alias args sub t, Sel.field name alias args sub ∈ sels → FieldType c.schema root name t →
      Supported c.schema defs K t sub) →
    Quietly (operationSels c root cls sels) r fun x => (∀ st ∈ x.2, st ∈ T) →
      ∀ kvs, SparseResult c.schema defs leaf root sels kvs → ∀ l ∈ x.1, ∀ st ∈ l, FitsStmt T isa kvs st := by
  induction sels with
  | nil => exact fun _ _ => .pure (by simp)
  | cons x rest ih =>
    intro r h hf
    unfold operationSels
    have hx : Quietly (operationSel c root cls x) r fun y => (∀ st ∈ y.2, st ∈ T) →
        ∀ kvs, SparseResult c.schema defs leaf root [x] kvs → ∀ st ∈ y.1, FitsStmt T isa kvs st := by
      unfold operationSel
      split
      · rename_i name alias args sub
        refine (quietly_assertFieldDef ho).bind fun fd r1 q1 hfd => ?_
        have hsup := hf name alias args sub fd.type (List.mem_cons_self ..) hfd
        refine (typeFieldNode_ok c defs leaf T isa K (args := args) (h.quiet q1) hsup).mono ?_
        intro y hy hT kvs hr
        exact hy hT root kvs hr ⟨fd.type, hfd, .inl rfl⟩
      · exact .fail
    refine hx.bind fun a r1 q1 ha => ?_
    refine (ih (h.quiet q1) (fun n a g s t hm ht => hf n a g s t (List.mem_cons_of_mem _ hm) ht)).bind
      fun p r2 _ hp => .pure ?_
    intro hT kvs hr l hl
    rcases List.mem_cons.1 hl with rfl | hl
    · exact ha (fun st hst => hT st (List.mem_append_left _ hst)) kvs (hr.mono fun y hy => by
        rw [List.mem_singleton.1 hy]; exact List.mem_cons_self ..)
    · exact hp (fun st hst => hT st (List.mem_append_right _ hst)) kvs
        (hr.mono fun y hy => List.mem_cons_of_mem _ hy) l hl

theorem StateOk.of_fragment_tables {r' : Reg} (h : StateOk c defs leaf T isa K r)
    (h0 : r'.scalarMap = r.scalarMap) (h1 : r'.fragmentMap = r.fragmentMap)
    (h2 : r'.fragmentTypeMap = r.fragmentTypeMap) (h3 : r'.interfaceFragmentImpl = r.interfaceFragmentImpl)
    (h4 : r'.unionFragmentMembers = r.unionFragmentMembers) : StateOk c defs leaf T isa K r' := by
  refine ⟨h.module_.of_scalars h0, fun f hf => ?_⟩
  obtain ⟨d, hd⟩ := h.frags f hf
  exact ⟨d, hd.of_tables (by rw [h1]) (by rw [h2]) (by rw [h3]) (by rw [h4])⟩

theorem quietly_referenceNamed {env : Env} {n : String} : Quietly (referenceNamed env n) r fun _ => True := by
  intro e r' h
  refine ⟨?_, trivial⟩
  unfold referenceNamed at h
  split at h
  · split at h
    · split at h
      · cases h
      · exact (quietly_reference (k := .enum) _ _ h).1
    · exact (quietly_reference (k := .input) _ _ h).1
  · exact (quietly_referenceScalar _ _ h).1

theorem quietly_recurseTypeAnnotation {env : Env} {x : Option Expr} (t : TypeNode) : ∀ {o : Bool} {r : Reg},
    Quietly (recurseTypeAnnotation env x t o) r fun _ => True := by
  induction t with
  | named n =>
    intro o r
    unfold recurseTypeAnnotation
    have : Quietly (namedOr env x n) r fun _ => True := by
      unfold namedOr
      split
      · exact .pure trivial
      · exact quietly_referenceNamed
    exact this.bind fun _ _ _ _ => quietly_optionalWrap.mono fun _ _ => trivial
  | list t ih =>
    intro o r
    unfold recurseTypeAnnotation
    exact quietly_registerImport.bind fun _ _ _ _ => ih.bind fun _ _ _ _ =>
      quietly_optionalWrap.mono fun _ _ => trivial
  | nonNull t ih => intro o r; unfold recurseTypeAnnotation; exact ih

theorem quietly_defaultMarker {d : Option Value} : Quietly (defaultMarker d) r fun _ => True := by
  unfold defaultMarker
  split
  · exact .pure trivial
  · refine Quietly.bind (P := fun _ => True) ?_ fun _ _ _ _ => .pure trivial
    unfold variableDefault
    split <;> first | exact .pure trivial | exact .fail

theorem quietly_argumentValue {n t : String} {o : Bool} : Quietly (argumentValue n t o) r fun _ => True := by
  unfold argumentValue
  split
  · exact quietly_registerImport.bind fun _ _ _ _ => .pure trivial
  · exact .pure trivial

theorem quietly_argumentStmt {v : VarDef} : Quietly (argumentStmt c v) r fun _ => True := by
  unfold argumentStmt
  exact (quietly_recurseTypeAnnotation _).bind fun _ _ _ _ => quietly_optionalWrap.bind fun _ _ _ _ =>
    quietly_defaultMarker.bind fun _ _ _ _ => quietly_annotateFieldMetadata.bind fun _ _ _ _ =>
    quietly_parameterName.bind fun _ _ _ _ => quietly_argumentValue.bind fun _ _ _ _ => .pure trivial

theorem quietly_argumentStmts (vs : List VarDef) : ∀ {r : Reg}, Quietly (argumentStmts c vs) r fun _ => True := by
  induction vs with
  | nil => exact .pure trivial
  | cons v vs ih =>
    intro r
    unfold argumentStmts
    exact quietly_argumentStmt.bind fun _ _ _ _ => ih.bind fun _ _ _ _ => .pure trivial

theorem quietly_argumentsClass {p : OperationsConfig} {o : OpDef} {name : String} :
    Quietly (argumentsClass c p o name) r fun ss => ∀ st ∈ ss, fieldOf st = none := by
  unfold argumentsClass
  split
  · refine (quietly_argumentStmts _).bind fun _ _ _ _ => ?_
    refine Quietly.bind (P := fun _ => True) ?_ fun _ _ _ _ => quietly_basesOrObject.bind fun _ _ _ _ => .pure ?_
    · exact quietly_registerImport.bind fun _ _ _ _ => .pure trivial
    · intro st hst
      rw [List.mem_singleton.1 hst]
      rfl
  · exact .pure (by simp)

/-- the tables about fragments are the same -/
def SameFragments (r r' : Reg) : Prop :=
  r'.scalarMap = r.scalarMap ∧ r'.fragmentMap = r.fragmentMap ∧ r'.fragmentTypeMap = r.fragmentTypeMap ∧
    r'.interfaceFragmentImpl = r.interfaceFragmentImpl ∧ r'.unionFragmentMembers = r.unionFragmentMembers

theorem SameFragments.of_quiet {r r' : Reg} (q : Quiet r r') : SameFragments r r' := by
  obtain ⟨h0, h1, h2, h3, h4, _⟩ := q.tables
  exact ⟨h0, h1, h2, h3, h4⟩

theorem SameFragments.trans {a b d : Reg} (h : SameFragments a b) (h' : SameFragments b d) : SameFragments a d :=
  ⟨h'.1.trans h.1, h'.2.1.trans h.2.1, h'.2.2.1.trans h.2.2.1, h'.2.2.2.1.trans h.2.2.2.1,
    h'.2.2.2.2.trans h.2.2.2.2⟩

theorem StateOk.same {r' : Reg} (h : StateOk c defs leaf T isa K r) (q : SameFragments r r') :
    StateOk c defs leaf T isa K r' := h.of_fragment_tables q.1 q.2.1 q.2.2.1 q.2.2.2.1 q.2.2.2.2

theorem sameFragments_setClass {o : OpKind} {n cls : String} : SameFragments r (r.setClass o.kind n cls) := by
  cases o <;> exact ⟨rfl, rfl, rfl, rfl, rfl⟩

theorem sameFragments_registerSingle {n : String} {l : List (List Stmt)} {r' : Reg} {u : Unit}
    (h : registerSingle n l r = .ok (u, r')) : SameFragments r r' := by
  unfold registerSingle at h
  split at h
  · split at h <;> cases h <;> exact ⟨rfl, rfl, rfl, rfl, rfl⟩
  · cases h; exact ⟨rfl, rfl, rfl, rfl, rfl⟩

theorem quietly_rootTypeOf {s : Schema} {k : OpKind} : Quietly (rootTypeOf s k) r fun t => s.root k = some t := by
  unfold rootTypeOf
  split
  · rename_i t ht; exact .pure ht
  · exact .fail

theorem generateOperation_same {prep : List Char → List Char} {p : OperationsConfig} {o : OpDef} {ss : List Stmt}
    {r' : Reg} (hg : generateOperation prep c p o r = .ok (ss, r')) (hq : ∀ root cls r0 x r1,
      SameFragments r r0 → c.schema.root o.kind = some root →
      operationSels c root cls o.sels r0 = .ok (x, r1) → Quiet r0 r1) : SameFragments r r' := by
  unfold generateOperation at hg
  cases hname : o.name with
  | none => rw [hname] at hg; exact (Gen.fail_ok.1 hg).elim
  | some name =>
  rw [hname] at hg
  dsimp only at hg
  obtain ⟨cls, r1, h1, hg⟩ := Gen.bind_ok.1 hg
  obtain ⟨_, _, rfl⟩ := generateClass_ok h1
  obtain ⟨bs, r2, h2, hg⟩ := Gen.bind_ok.1 hg
  obtain ⟨q2, _⟩ := quietly_basesOrObject _ _ h2
  obtain ⟨root, r3, h3, hg⟩ := Gen.bind_ok.1 hg
  obtain ⟨x, r4, h4, hg⟩ := Gen.bind_ok.1 hg
  obtain ⟨q3, hroot⟩ := quietly_rootTypeOf _ _ h3
  have s3 : SameFragments r r3 ∧ c.schema.root o.kind = some root :=
    ⟨sameFragments_setClass.trans (.of_quiet (q2.trans q3)), hroot⟩
  have q4 := hq root cls r3 x r4 s3.1 s3.2 h4
  obtain ⟨u, r5, h5, hg⟩ := Gen.bind_ok.1 hg
  obtain ⟨d, r6, h6, hg⟩ := Gen.bind_ok.1 hg
  obtain ⟨q6, _⟩ := quietly_mergedDocument _ _ h6
  obtain ⟨a, r7, h7, hg⟩ := Gen.bind_ok.1 hg
  obtain ⟨q7, _⟩ := quietly_argumentsClass _ _ h7
  obtain ⟨rfl, rfl⟩ := Gen.pure_ok.1 hg
  exact s3.1.trans ((SameFragments.of_quiet q4).trans ((sameFragments_registerSingle h5).trans
    ((SameFragments.of_quiet q6).trans (.of_quiet q7))))

/-- what is needed of an operation -/
structure OpHyp (c : Ctx) (defs : Dict FragDef) (K : String → Prop) (o : OpDef) : Prop where
  object : ∀ root, c.schema.root o.kind = some root → IsObject c.schema root
  fields : ∀ root, c.schema.root o.kind = some root → ∀ name alias args sub t,
    Sel.field name alias args sub ∈ o.sels → FieldType c.schema root name t → Supported c.schema defs K t sub

/-- the class of an operation accepts its results -/
theorem generateOperation_ok {prep : List Char → List Char} {p : OperationsConfig} {o : OpDef} {ss : List Stmt}
    {r' : Reg} (h : StateOk c defs leaf T isa K r)
    (hp : ∀ k b, b ∈ p.basesFor k → ¬ IsClass T (lastComponent b)) (ho : OpHyp c defs K o)
    (hg : generateOperation prep c p o r = .ok (ss, r')) (hT : ∀ st ∈ ss, st ∈ T) :
    SameFragments r r' ∧ ∃ name cls root, o.name = some name ∧ o.kind.kind.style c.env name = .ok cls ∧
      c.schema.root o.kind = some root ∧ IsClass T cls ∧
      ∀ kvs, SparseResult c.schema defs leaf root o.sels kvs → Takes T isa (.name cls) (.obj kvs) := by
  have hsel : ∀ root cls r0 x r1, SameFragments r r0 → c.schema.root o.kind = some root →
      operationSels c root cls o.sels r0 = .ok (x, r1) → Quiet r0 r1 ∧ ((∀ st ∈ x.2, st ∈ T) →
      ∀ kvs, SparseResult c.schema defs leaf root o.sels kvs → ∀ l ∈ x.1, ∀ st ∈ l, FitsStmt T isa kvs st) :=
    fun root cls r0 x r1 hs hr he => operationSels_ok root cls (ho.object root hr) o.sels (h.same hs)
      (ho.fields root hr) _ _ he
  refine ⟨generateOperation_same hg fun root cls r0 x r1 a b e => (hsel root cls r0 x r1 a b e).1, ?_⟩
  unfold generateOperation at hg
  cases hname : o.name with
  | none => rw [hname] at hg; exact (Gen.fail_ok.1 hg).elim
  | some name =>
  rw [hname] at hg
  dsimp only at hg
  obtain ⟨cls, r1, h1, hg⟩ := Gen.bind_ok.1 hg
  obtain ⟨_, hsty, rfl⟩ := generateClass_ok h1
  obtain ⟨bs, r2, h2, hg⟩ := Gen.bind_ok.1 hg
  obtain ⟨q2, hbs⟩ := quietly_basesOrObject _ _ h2
  obtain ⟨root, r3, h3, hg⟩ := Gen.bind_ok.1 hg
  obtain ⟨x, r4, h4, hg⟩ := Gen.bind_ok.1 hg
  obtain ⟨q3, hroot⟩ := quietly_rootTypeOf _ _ h3
  have s3 : SameFragments r r3 ∧ c.schema.root o.kind = some root :=
    ⟨sameFragments_setClass.trans (.of_quiet (q2.trans q3)), hroot⟩
  obtain ⟨q4, hfit⟩ := hsel root cls r3 x r4 s3.1 s3.2 h4
  obtain ⟨u, r5, h5, hg⟩ := Gen.bind_ok.1 hg
  obtain ⟨d, r6, h6, hg⟩ := Gen.bind_ok.1 hg
  obtain ⟨a, r7, h7, hg⟩ := Gen.bind_ok.1 hg
  obtain ⟨q7, ha⟩ := quietly_argumentsClass _ _ h7
  obtain ⟨rfl, rfl⟩ := Gen.pure_ok.1 hg
  have hcT := hT _ (List.mem_append_right _ (List.mem_singleton.2 rfl))
  have hic : IsClass T cls := ⟨_, _, _, hcT⟩
  refine ⟨name, cls, root, rfl, hsty, s3.2, hic, fun kvs hr => ?_⟩
  refine Fits.takes (fits_class h.module_.unique hcT ?_ ?_) hic
  · intro b hb
    rw [hbs] at hb
    refine fits_baseNames (fun y hy => ?_) hb
    split at hy
    · exact h.module_.objectBases y hy
    · exact hp _ y hy
  · intro st hst
    rcases List.mem_cons.1 hst with rfl | hst
    · exact fitsStmt_none rfl
    · rcases List.mem_append.1 hst with hst | hst
      · rcases List.mem_append.1 hst with hst | hst
        · obtain ⟨l, hl, hst⟩ := List.mem_flatten.1 hst
          exact hfit (fun s hs => hT s (List.mem_append_left _ hs)) kvs hr l hl st hst
        · exact fitsStmt_none (ha st hst)
      · rw [List.mem_singleton.1 hst]
        exact fitsStmt_none rfl

theorem generateOperations_ok {prep : List Char → List Char} {p : OperationsConfig} (os : List OpDef) :
    ∀ {r r' : Reg} {ss : List Stmt}, StateOk c defs leaf T isa K r →
    (∀ k b, b ∈ p.basesFor k → ¬ IsClass T (lastComponent b)) → (∀ o ∈ os, OpHyp c defs K o) →
    generateOperations prep c p os r = .ok (ss, r') → (∀ st ∈ ss, st ∈ T) →
    ∀ o ∈ os, ∃ name cls root, o.name = some name ∧ o.kind.kind.style c.env name = .ok cls ∧
      c.schema.root o.kind = some root ∧ IsClass T cls ∧
      ∀ kvs, SparseResult c.schema defs leaf root o.sels kvs → Takes T isa (.name cls) (.obj kvs) := by
  induction os with
  | nil => intro r r' ss _ _ _ _ _ o ho; cases ho
  | cons x os ih =>
    intro r r' ss h hp ho hg hT o hm
    unfold generateOperations at hg
    obtain ⟨s1, r1, h1, hg⟩ := Gen.bind_ok.1 hg
    obtain ⟨s2, r2, h2, hg⟩ := Gen.bind_ok.1 hg
    obtain ⟨rfl, rfl⟩ := Gen.pure_ok.1 hg
    obtain ⟨hs, hx⟩ := generateOperation_ok h hp (ho x (List.mem_cons_self ..)) h1
      (fun st hst => hT st (List.mem_append_left _ hst))
    rcases List.mem_cons.1 hm with rfl | hm
    · exact hx
    · exact ih (h.same hs) hp (fun y hy => ho y (List.mem_cons_of_mem _ hy)) h2
        (fun st hst => hT st (List.mem_append_right _ hst)) o hm

/-! ## which fragments must be generated before -/

theorem spreads_mem {sels : List Sel} {f : String} (h : Sel.spread f ∈ sels) : Spreads sels f := by
  induction sels with
  | nil => cases h
  | cons x l ih =>
    rcases List.mem_cons.1 h with rfl | h
    · exact .here ..
    · exact .later _ _ _ (ih h)

theorem spreads_field {sels sub : List Sel} {n : String} {a : Option String} {args : List (String × Value)}
    {f : String} (h : Sel.field n a args sub ∈ sels) (hs : Spreads sub f) : Spreads sels f := by
  induction sels with
  | nil => cases h
  | cons x l ih =>
    rcases List.mem_cons.1 h with rfl | h
    · exact .field _ _ _ _ _ _ hs
    · exact .later _ _ _ (ih h)

theorem spreads_inline {sels sub : List Sel} {t : Option String} {f : String} (h : Sel.inline t sub ∈ sels)
    (hs : Spreads sub f) : Spreads sels f := by
  induction sels with
  | nil => cases h
  | cons x l ih =>
    rcases List.mem_cons.1 h with rfl | h
    · exact .inline _ _ _ _ hs
    · exact .later _ _ _ (ih h)

theorem _root_.Turms.Spec.Supported.restrict {s : Schema} {K K' : String → Prop} {t : TypeNode} {sels : List Sel}
    (h : Supported s defs K t sels) : (∀ f, Spreads sels f → K' f) → Supported s defs K' t sels := by
  induction h with
  | leaf hl => exact fun _ => .leaf hl
  | object hl hs hf ih =>
    intro hk
    exact .object hl (fun f hm => ⟨hk f (spreads_mem hm), (hs f hm).2⟩)
      (fun n a g s fd hm hn hfd e => ih n a g s fd hm hn hfd e fun f hf => hk f (spreads_field hm hf))
  | interface hl ht hs hf hi ih1 ih2 =>
    intro hk
    exact .interface hl ht (fun f hm => hk f (spreads_mem hm))
      (fun n a g s fd hm hn hfd e => ih1 n a g s fd hm hn hfd e fun f hf => hk f (spreads_field hm hf))
      (fun o i n a g s t' hm hm' hn ht' => ih2 o i n a g s t' hm hm' hn ht' fun f hf =>
        hk f (spreads_inline hm (spreads_field hm' hf)))
  | union hl h2 hc hs hi hf ih =>
    intro hk
    exact .union hl h2 hc (fun f hm => ⟨hk f (spreads_mem hm), (hs f hm).2⟩)
      (fun o i f hm hm' => ⟨hk f (spreads_inline hm (spreads_mem hm')), (hi o i f hm hm').2⟩)
      (fun o i n a g s t' hm hm' hn ht' => ih o i n a g s t' hm hm' hn ht' fun f hf =>
        hk f (spreads_inline hm (spreads_field hm' hf)))

theorem _root_.Turms.Spec.SupportedFragment.restrict {K K' : String → Prop} {d : FragDef}
    (h : SupportedFragment c defs K d) (hk : ∀ f, Spreads d.sels f → K' f) : SupportedFragment c defs K' d := by
  cases h with
  | interface hl hs hf ho hi =>
    exact .interface hl (fun f hm => hk f (spreads_mem hm))
      (fun n a g s fd hm hn hfd e => (hf n a g s fd hm hn hfd e).restrict fun f hf => hk f (spreads_field hm hf)) ho
      (fun o i n a g s t' hm hm' hn ht' => (hi o i n a g s t' hm hm' hn ht').restrict fun f hf =>
        hk f (spreads_inline hm (spreads_field hm' hf)))
  | object ho hs hf =>
    exact .object ho (fun f hm => ⟨hk f (spreads_mem hm), (hs f hm).2⟩)
      (fun n a g s t hm hn ht => (hf n a g s t hm hn ht).restrict fun f hf => hk f (spreads_field hm hf))
  | union hl hms hs ho hi hf =>
    exact .union hl hms (fun f hm => hk f (spreads_mem hm)) ho
      (fun o i f hm hm' => ⟨hk f (spreads_inline hm (spreads_mem hm')), (hi o i f hm hm').2⟩)
      (fun o i n a g s t' hm hm' hn ht' => (hf o i n a g s t' hm hm' hn ht').restrict fun f hf =>
        hk f (spreads_inline hm (spreads_field hm' hf)))

end
end Turms
