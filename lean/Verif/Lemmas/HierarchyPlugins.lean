import Verif.Lemmas.HierarchyWalk
import Verif.Lemmas.KeptPlugins

/-! # The bases of generated classes: the two plugins -/

namespace Turms
open Spec

section
variable {c : Ctx} {defs : Dict FragDef} {G : String → String → Prop} {K : String → Prop} {r : Reg}

/-- the statement is among the classes -/
def ClassIn (ss : List Stmt) (n : String) : Prop := ∃ bases body ds, Stmt.classDef n bases body ds ∈ ss

/-- the class statements of the fragment `f` itself -/
def OwnClasses (c : Ctx) (defs : Dict FragDef) (G : String → String → Prop) (K : String → Prop) (f : String)
    (tops : List Stmt) : Prop :=
  Steps (BaseShape defs G (fun g => K g ∧ Inherits defs f g) (ClassIn tops) (common c) (fun _ => False)) tops

theorem inherits_spread {d : FragDef} {g : String} (hd : defs.get? d.name = some d) (hg : g ∈ spreadsOf d.sels) :
    Inherits defs d.name g := .spread hd (mem_spreadsOf.1 hg) .refl

theorem foldl_set_nodup {α : Type} (key val : α → String) (l : List α) : ∀ (m : Dict String), m.keys.Nodup →
    (l.foldl (fun m x => m.set (key x) (val x)) m).keys.Nodup := by
  induction l with
  | nil => exact fun m h => h
  | cons x l ih => exact fun m h => ih _ (Dict.nodup_keys_set _ _ _ h)

/-! ## fragments on interfaces -/

theorem fragInterfaceSel_good (x : Sel) (fs : List FieldDef) (name : String)
    (h : StateH c defs G K r) (hk : ∀ f, Spreads [x] f → K f)
    (hf : FieldHypH c defs (declaredIn fs) [x]) (hi : InnerH c defs [x])
    (ho : ∀ o inner, Sel.inline (some o) inner ∈ [x] → IsObject c.schema o) :
    Quietly (fragInterfaceSel c fs name x) r (IfcH c defs G K fun _ => spreadsOf [x]) := by
  unfold fragInterfaceSel
  split
  · rename_i t sub
    have hm : Sel.inline (some t) sub ∈ [Sel.inline (some t) sub] := List.mem_singleton.2 rfl
    exact (inlineSels_good c defs G K sub r t name h (ho t sub hm) (fun f hf => hk f (spreads_inline hm hf))
      (hi t sub hm)).bind fun x r2 _ hx => .pure (.noBases hx rfl)
  · exact interfaceSel_good c defs G K _ r fs name h hk hf hi

theorem fragInterfaceSels_good (fs : List FieldDef) (name : String) (sels : List Sel) : ∀ {r : Reg},
    StateH c defs G K r → (∀ f, Spreads sels f → K f) → FieldHypH c defs (declaredIn fs) sels → InnerH c defs sels →
    (∀ o inner, Sel.inline (some o) inner ∈ sels → IsObject c.schema o) →
    Quietly (fragInterfaceSels c fs name sels) r (IfcH c defs G K fun _ => spreadsOf sels) := by
  induction sels with
  | nil => exact fun _ _ _ _ _ => .pure (.noBases .nil rfl)
  | cons x rest ih =>
    intro r h hk hf hi ho
    have m1 : ∀ y ∈ [x], y ∈ x :: rest := fun y hy => by rw [List.mem_singleton.1 hy]; exact List.mem_cons_self ..
    have m2 : ∀ y ∈ rest, y ∈ x :: rest := fun y hy => List.mem_cons_of_mem _ hy
    unfold fragInterfaceSels
    refine (fragInterfaceSel_good x fs name h (fun f hm => hk f (spreads_head hm)) (hf.mono m1) (hi.mono m1)
      (fun o i hm => ho o i (m1 _ hm))).bind fun a r1 q1 ha => ?_
    exact (ih (h.quiet q1) (fun f hm => hk f (.later _ _ _ hm)) (hf.mono m2) (hi.mono m2)
      (fun o i hm => ho o i (m2 _ hm))).bind fun p r2 q2 hp => .pure (ha.append hp fun _ => spreadsOf_cons x rest)

theorem fragImplementingClasses_eq {name : String} {p : InterfaceParts} {is : List Implementation} : ∀ {r : Reg},
    StateH c defs G K r → Quietly (fragImplementingClasses c name p is) r fun ss => ss = is.map fun i =>
      Stmt.classDef (name ++ i.name) (names (p.basesFor i.name) ++ [.name (name ++ "Base")] ++ common c)
        (docStmt i.description :: typenameStmt c i.name :: p.bodyFor i.name) [] := by
  induction is with
  | nil => exact fun _ => .pure rfl
  | cons i is ih =>
    intro r h
    unfold fragImplementingClasses
    have h1 : Quietly (fragImplementingClass c name p i) r fun s => s =
        Stmt.classDef (name ++ i.name) (names (p.basesFor i.name) ++ [.name (name ++ "Base")] ++ common c)
        (docStmt i.description :: typenameStmt c i.name :: p.bodyFor i.name) [] := by
      unfold fragImplementingClass
      refine quietly_additionalBasesFor.bind fun e1 _ _ h1 => ?_
      refine quietly_interfaceBasesOf.bind fun e2 _ _ h2 => ?_
      refine quietly_typenameField.bind fun e3 _ _ h3 => .pure ?_
      rw [h1, h2, h3, h.additional, h.interfaces]
      simp [baseNames]
    refine h1.bind fun s r1 q hs => (ih (h.quiet q)).bind fun rest r2 _ hrest => .pure ?_
    rw [hs, hrest]
    rfl

theorem interfaceFragment_own {p : FragmentsConfig} {f : FragDef} {name : String} {desc : Option String}
    {fs : List FieldDef} {is : List String} {ss : List Stmt} {r' : Reg} (h : StateH c defs G K r)
    (hd : defs.get? f.name = some f)
    (hl : c.schema.lookup f.typeCondition = some (.interface fs is)) (hk : ∀ g, Spreads f.sels g → K g)
    (hu : Unrelated defs (spreadsOf f.sels))
    (hf : FieldHypH c defs (declaredIn fs) f.sels) (hi : InnerH c defs f.sels)
    (ho : ∀ o inner, Sel.inline (some o) inner ∈ f.sels → IsObject c.schema o)
    (hg : interfaceFragment c p f name desc fs r = .ok (ss, r')) :
    ∃ nested tops, ss = nested ++ tops ∧ Good c defs G K nested ∧ OwnClasses c defs G K f.name tops ∧
    ∃ m r1, Quiet r r1 ∧ r' = { r1 with interfaceFragmentImpl := r1.interfaceFragmentImpl.set f.name m } ∧
      m.keys.Nodup ∧ (∀ o cls, (o, cls) ∈ m → ClassIn tops cls) ∧
      ∀ o, Possible c.schema f.typeCondition o → ∃ cls, m.get? o = some cls := by
  unfold interfaceFragment at hg
  obtain ⟨extra, r1, h1, hg⟩ := Gen.bind_ok.1 hg
  obtain ⟨q1, hextra⟩ := quietly_additionalBasesFor _ _ h1
  obtain ⟨q, r2, h2, hg⟩ := Gen.bind_ok.1 hg
  obtain ⟨q2, hq⟩ := fragInterfaceSels_good fs name f.sels (h.quiet q1) hk hf hi ho _ _ h2
  obtain ⟨ib, r3, h3, hg⟩ := Gen.bind_ok.1 hg
  obtain ⟨q3, hib⟩ := quietly_interfaceBasesOf _ _ h3
  obtain ⟨tn, r4, h4, hg⟩ := Gen.bind_ok.1 hg
  obtain ⟨q4, htn⟩ := quietly_genericTypenameField _ _ h4
  obtain ⟨impls, r5, h5, hg⟩ := Gen.bind_ok.1 hg
  obtain ⟨q5, himpls⟩ := fragImplementingClasses_eq (h.quiet ((q1.trans q2).trans (q3.trans q4))) _ _ h5
  obtain ⟨u, r6, h6, hg⟩ := Gen.bind_ok.1 hg
  unfold registerImplementations at h6
  cases h6
  obtain ⟨rfl, rfl⟩ := Gen.pure_ok.1 hg
  have hin : IsInterface c.schema f.typeCondition := ⟨_, _, hl⟩
  have hbs : extra ++ ib = common c := by
    rw [hextra, hib, h.additional, h.interfaces]; rfl
  rw [hbs]
  refine ⟨q.classes, [.classDef (name ++ "Base") (common c) (fragmentDoc p desc :: q.body) []] ++
    ([.classDef (name ++ "Catch") [.name (name ++ "Base")]
        (.expr (.str ("Catch all class for " ++ name ++ "Base")) :: tn :: fragmentDoc p desc :: q.body) []] ++ impls),
    by simp, hq.1, ?_, _, r5, ((q1.trans q2).trans q3).trans (q4.trans q5), rfl, ?_, ?_, ?_⟩
  · have hmother : ClassIn ([Stmt.classDef (name ++ "Base") (common c) (fragmentDoc p desc :: q.body) []] ++
      ([.classDef (name ++ "Catch") [.name (name ++ "Base")]
        (.expr (.str ("Catch all class for " ++ name ++ "Base")) :: tn :: fragmentDoc p desc :: q.body) []] ++ impls))
      (name ++ "Base") := ⟨_, _, _, List.mem_append_left _ (List.mem_singleton.2 rfl)⟩
    refine Steps.append (steps_singleton (BaseShape.derived [] [] [] (by rfl) .nil (by simp) .nil (.inl rfl))) ?_
    refine Steps.append (steps_singleton (BaseShape.caught (name ++ "Base") _ _ rfl hmother
      (List.mem_append_left _ (List.mem_singleton.2 rfl)))) ?_
    rw [himpls]
    have := steps_implementing (c := c) (defs := defs) (G := G) (name := name)
      (R := fun g => K g ∧ Inherits defs f.name g) (M := ClassIn _) (sp := fun _ => spreadsOf f.sels) (p := q)
      (is := implementations c.schema f.typeCondition)
      (pre0 := [Stmt.classDef (name ++ "Base") (common c) (fragmentDoc p desc :: q.body) []])
      (List.mem_singleton.2 rfl) hmother hq.2
      (fun i hi => possible_isObject (possible_of_implementation hin h.nodup hi))
      (fun _ _ g hg => ⟨hk g (spreads_mem (mem_spreadsOf.1 hg)), inherits_spread hd hg⟩) fun _ _ => hu
    rw [himpls] at this
    refine this.mono fun pre bases hb => hb.mono (fun _ _ _ h => h) (fun _ h => h) (fun _ h => h) fun st hst => ?_
    rcases List.mem_append.1 hst with hst | hst
    · exact List.mem_append_left _ hst
    · exact List.mem_append_right _ (List.mem_append_right _ hst)
  · exact foldl_set_nodup (α := Implementation) (·.name) (fun i => name ++ i.name) _ [] .nil
  · intro o cls hm
    obtain ⟨e1, _⟩ := foldl_set_entries (α := Implementation) (·.name) (fun i => name ++ i.name)
      (implementations c.schema f.typeCondition) []
    rcases e1 o cls hm with hm | ⟨i, hi, rfl, rfl⟩
    · cases hm
    · rw [himpls]
      exact ⟨_, _, _, List.mem_append_right _ (List.mem_append_right _ (List.mem_map.2 ⟨i, hi, rfl⟩))⟩
  · intro o hpo
    obtain ⟨_, e2⟩ := foldl_set_entries (α := Implementation) (·.name) (fun i => name ++ i.name)
      (implementations c.schema f.typeCondition) []
    obtain ⟨i, hi, rfl⟩ := mem_implementations hin hpo
    exact Option.isSome_iff_exists.1 (e2 i.name (.inr ⟨i, hi, rfl⟩))

/-! ## fragments on objects -/

theorem fragSpreadBase_owned {f o : String} (h : StateH c defs G K r) (hk : K f) (ho : IsObject c.schema o)
    (hs : ∃ d, defs.get? f = some d ∧
      (d.typeCondition = o ∨ (IsInterface c.schema d.typeCondition ∧ Possible c.schema d.typeCondition o))) :
    Quietly (fragSpreadBase f o) r fun b => G f b := by
  obtain ⟨d, hd, hc⟩ := hs
  have hf := h.frag hk hd
  intro b r' hb
  unfold fragSpreadBase at hb
  rcases hc with rfl | ⟨hi, hp⟩
  · rw [hf.other (not_interface_of_object ho)] at hb
    obtain ⟨q, hcl⟩ := quietly_inheritFragment _ _ hb
    exact ⟨q, hf.object ho _ hcl⟩
  · obtain ⟨m, hm, ht, hall⟩ := hf.interface hi
    obtain ⟨cls, hcls⟩ := hall o hp
    rw [hm] at hb
    dsimp only at hb
    rw [hcls] at hb
    cases hb
    exact ⟨.refl _, ht.owned _ _ (Dict.mem_of_get? hcls)⟩

theorem fragObjectSel_good (x : Sel) (o name : String) (h : StateH c defs G K r)
    (ho : IsObject c.schema o) (hk : ∀ f, Spreads [x] f → K f) (hs : ObjSpreadsK c.schema defs o [x])
    (hf : FieldHypH c defs (FieldType c.schema o) [x]) :
    Quietly (fragObjectSel c o name x) r (ObjH c defs G K [x]) := by
  unfold fragObjectSel
  split
  · rename_i f
    have hm : Sel.spread f ∈ [Sel.spread f] := List.mem_singleton.2 rfl
    exact (fragSpreadBase_owned h (hk f (spreads_mem hm)) ho (hs f hm)).bind fun b _ _ hb =>
      .pure ⟨.nil, .cons hb .nil⟩
  · exact .pure ⟨.nil, .nil⟩
  · rename_i fname al args sub
    split
    · exact .pure ⟨.nil, .nil⟩
    · rename_i hn
      refine (quietly_assertFieldDef ho).bind fun fd r1 q1 hfd => ?_
      have hsup := hf fname al args sub fd.type (List.mem_singleton.2 rfl) (by simpa using hn) hfd
      exact (typeFieldNode_good c defs G K (h.quiet q1)
        (fun f hf => hk f (spreads_field (List.mem_singleton.2 rfl) hf)) hsup).bind fun x r2 _ hx => .pure ⟨hx, .nil⟩

theorem fragObjectSels_good (o name : String) (ho : IsObject c.schema o) (sels : List Sel) : ∀ {r : Reg},
    StateH c defs G K r → (∀ f, Spreads sels f → K f) → ObjSpreadsK c.schema defs o sels →
    FieldHypH c defs (FieldType c.schema o) sels →
    Quietly (fragObjectSels c o name sels) r (ObjH c defs G K sels) := by
  induction sels with
  | nil => exact fun _ _ _ _ => .pure ⟨.nil, .nil⟩
  | cons x rest ih =>
    intro r h hk hs hf
    have m1 : ∀ y ∈ [x], y ∈ x :: rest := fun y hy => by rw [List.mem_singleton.1 hy]; exact List.mem_cons_self ..
    have m2 : ∀ y ∈ rest, y ∈ x :: rest := fun y hy => List.mem_cons_of_mem _ hy
    unfold fragObjectSels
    refine (fragObjectSel_good x o name h ho (fun f hm => hk f (spreads_head hm)) (fun f hm => hs f (m1 _ hm))
      (hf.mono m1)).bind fun a r1 q1 ha => ?_
    exact (ih (h.quiet q1) (fun f hm => hk f (.later _ _ _ hm)) (fun f hm => hs f (m2 _ hm))
      (hf.mono m2)).bind fun p r2 q2 hp => .pure (ha.append hp)

/-- the fragments plugin adds no bases of its own -/
def PlainFragments (p : FragmentsConfig) : Prop := p.fragmentBases = [] ∧ p.objectBases = []

theorem fragmentBases_plain {p : FragmentsConfig} {b : Bool} (hp : PlainFragments p) :
    baseNames p.fragmentBases ++ baseNames (if b then p.objectBases else []) ++ baseNames c.config.objectBases =
      common c := by
  rw [hp.1, hp.2]
  cases b <;> rfl

theorem unrelated_reverse {fs : List String} (h : Unrelated defs fs) : Unrelated defs fs.reverse := by
  unfold Unrelated at h ⊢
  rw [List.pairwise_reverse]
  exact h.imp fun hab x h1 h2 => hab x h2 h1

theorem objectFragment_own {prep : List Char → List Char} {p : FragmentsConfig} {f : FragDef} {name : String}
    {desc : Option String} (h : StateH c defs G K r) (hp : PlainFragments p) (hd : defs.get? f.name = some f)
    (ho : IsObject c.schema f.typeCondition) (hk : ∀ g, Spreads f.sels g → K g)
    (hs : ObjSpreadsK c.schema defs f.typeCondition f.sels) (hu : Unrelated defs (spreadsOf f.sels))
    (hf : FieldHypH c defs (FieldType c.schema f.typeCondition) f.sels) :
    Quietly (objectFragment prep c p f name desc) r fun ss => ∃ nested tops, ss = nested ++ tops ∧
      Good c defs G K nested ∧ OwnClasses c defs G K f.name tops ∧ ClassIn tops name := by
  unfold objectFragment
  refine quietly_additionalBasesFor.bind fun extra r1 q1 hextra => ?_
  refine quietly_typenameField.bind fun tn r2 q2 htn => ?_
  refine (fragObjectSels_good f.typeCondition name ho f.sels (h.quiet (q1.trans q2)) hk hs hf).bind
    fun q r3 q3 hq => ?_
  refine quietly_fragmentMeta.bind fun meta_ r4 q4 hmeta => ?_
  refine quietly_fragmentBasesOf.bind fun fb r5 q5 hfb => ?_
  refine quietly_generatePydanticConfig.bind fun cfg r6 q6 hcfg => .pure ?_
  refine ⟨_, _, rfl, hq.1, steps_singleton (BaseShape.derived (spreadsOf f.sels).reverse q.bases.reverse [] ?_
    (forall₂_reverse hq.2) ?_ (unrelated_reverse hu) (.inl rfl)), _, _, _, List.mem_singleton.2 rfl⟩
  · rw [hextra, hfb, fragmentBases_plain hp, h.additional]
    simp [baseNames]
  · intro g hg
    rw [List.mem_reverse] at hg
    exact ⟨hk g (spreads_mem (mem_spreadsOf.1 hg)), inherits_spread hd hg⟩

/-! ## fragments on unions -/

/-- as `IfcH`, for all types -/
def UfH (c : Ctx) (defs : Dict FragDef) (G : String → String → Prop) (K : String → Prop) (sp : String → List String)
    (p : InterfaceParts) : Prop :=
  Good c defs G K p.classes ∧ ∀ o, ∃ fs, List.Sublist fs (sp o) ∧ List.Forall₂ G fs (p.basesFor o)

theorem UfH.append {sp sp1 sp2 : String → List String} {a b : InterfaceParts}
    (h1 : UfH c defs G K sp1 a) (h2 : UfH c defs G K sp2 b) (hsp : ∀ o, sp o = sp1 o ++ sp2 o) :
    UfH c defs G K sp (a.append b) := by
  refine ⟨h1.1.append h2.1, fun o => ?_⟩
  obtain ⟨f1, s1, g1⟩ := h1.2 o
  obtain ⟨f2, s2, g2⟩ := h2.2 o
  refine ⟨f1 ++ f2, ?_, ?_⟩
  · rw [hsp]; exact s1.append s2
  · rw [basesFor_append]; exact forall₂_append g1 g2

theorem fragUnionInlineSel_good (x : Sel) (o name : String) (h : StateH c defs G K r) (ho : IsObject c.schema o)
    (hk : ∀ f, Spreads [x] f → K f)
    (hs : ∀ f, Sel.spread f ∈ [x] → styled c.env.stylers Styler.fragmentName f = .ok f ∧
      ∃ d, defs.get? f = some d ∧ IsObject c.schema d.typeCondition)
    (hf : FieldHypH c defs (FieldType c.schema o) [x]) :
    Quietly (fragUnionInlineSel c o name x) r (ObjH c defs G K [x]) := by
  unfold fragUnionInlineSel
  split
  · rename_i f
    have hm : Sel.spread f ∈ [Sel.spread f] := List.mem_singleton.2 rfl
    obtain ⟨hst, d, hd, hdo⟩ := hs f hm
    have hfr := h.frag (hk f (spreads_mem hm)) hd
    obtain ⟨cls, hcl, hst'⟩ := hfr.named
    have : cls = f := by
      have : Kind.fragment.style c.env f = .ok f := hst
      rw [this] at hst'; cases hst'; rfl
    subst this
    exact .pure ⟨.nil, .cons (hfr.object hdo _ hcl) .nil⟩
  · exact .pure ⟨.nil, .nil⟩
  · rename_i fname al args sub
    split
    · exact .pure ⟨.nil, .nil⟩
    · rename_i hn
      refine (quietly_assertFieldDef ho).bind fun fd r1 q1 hfd => ?_
      have hsup := hf fname al args sub fd.type (List.mem_singleton.2 rfl) (by simpa using hn) hfd
      exact (typeFieldNode_good c defs G K (h.quiet q1)
        (fun f hf => hk f (spreads_field (List.mem_singleton.2 rfl) hf)) hsup).bind fun x r2 _ hx => .pure ⟨hx, .nil⟩

theorem fragUnionInlineSels_good (o name : String) (ho : IsObject c.schema o) (sels : List Sel) : ∀ {r : Reg},
    StateH c defs G K r → (∀ f, Spreads sels f → K f) →
    (∀ f, Sel.spread f ∈ sels → styled c.env.stylers Styler.fragmentName f = .ok f ∧
      ∃ d, defs.get? f = some d ∧ IsObject c.schema d.typeCondition) →
    FieldHypH c defs (FieldType c.schema o) sels →
    Quietly (fragUnionInlineSels c o name sels) r (ObjH c defs G K sels) := by
  induction sels with
  | nil => exact fun _ _ _ _ => .pure ⟨.nil, .nil⟩
  | cons x rest ih =>
    intro r h hk hs hf
    have m1 : ∀ y ∈ [x], y ∈ x :: rest := fun y hy => by rw [List.mem_singleton.1 hy]; exact List.mem_cons_self ..
    have m2 : ∀ y ∈ rest, y ∈ x :: rest := fun y hy => List.mem_cons_of_mem _ hy
    unfold fragUnionInlineSels
    refine (fragUnionInlineSel_good x o name h ho (fun f hm => hk f (spreads_head hm)) (fun f hm => hs f (m1 _ hm))
      (hf.mono m1)).bind fun a r1 q1 ha => ?_
    exact (ih (h.quiet q1) (fun f hm => hk f (.later _ _ _ hm)) (fun f hm => hs f (m2 _ hm))
      (hf.mono m2)).bind fun p r2 q2 hp => .pure (ha.append hp)

/-- hypotheses on the selections of a fragment on a union -/
structure FragUnHypH (c : Ctx) (defs : Dict FragDef) (sels : List Sel) : Prop where
  objects : ∀ o inner, Sel.inline (some o) inner ∈ sels → IsObject c.schema o
  bases : ∀ o inner f, Sel.inline (some o) inner ∈ sels → Sel.spread f ∈ inner →
    styled c.env.stylers Styler.fragmentName f = .ok f ∧ ∃ d', defs.get? f = some d' ∧ IsObject c.schema d'.typeCondition
  inner : InnerH c defs sels

theorem FragUnHypH.mono {a b : List Sel} (h : FragUnHypH c defs b) (hs : ∀ x ∈ a, x ∈ b) : FragUnHypH c defs a :=
  ⟨fun o i hm => h.objects o i (hs _ hm), fun o i f hm => h.bases o i f (hs _ hm), h.inner.mono hs⟩

theorem fragUnionSel_good (x : Sel) (name : String) (h : StateH c defs G K r) (hk : ∀ f, Spreads [x] f → K f)
    (hu : FragUnHypH c defs [x]) :
    Quietly (fragUnionSel c name x) r (UfH c defs G K fun o => spreadsFor o [x]) := by
  unfold fragUnionSel
  split
  · rename_i f
    have hmem : Sel.spread f ∈ [Sel.spread f] := List.mem_singleton.2 rfl
    obtain ⟨d, hf⟩ := h.frags f (hk f (spreads_mem hmem))
    have hm : Quietly (unionMembersOf f) r fun bs => r.unionFragmentMembers.get? f = some bs := by
      intro a r' h
      unfold unionMembersOf at h
      split at h
      · rename_i m hm; cases h; exact ⟨.refl _, hm⟩
      · cases h
    refine hm.bind fun bs _ _ hbs => .pure ⟨.nil, fun o => ?_⟩
    exact (hf.members bs hbs).bases o
  · exact .fail
  · rename_i t sub
    have hm : Sel.inline (some t) sub ∈ [Sel.inline (some t) sub] := List.mem_singleton.2 rfl
    refine (fragUnionInlineSels_good t name (hu.objects t sub hm) sub h (fun f hf => hk f (spreads_inline hm hf))
      (fun f hf => hu.bases t sub f hm hf) (hu.inner t sub hm)).bind fun q r1 q1 hq => .pure ⟨hq.1, fun o => ?_⟩
    by_cases he : t = o
    · subst he
      refine ⟨spreadsOf sub, by simp [spreadsFor], ?_⟩
      have h2 : InterfaceParts.basesFor ⟨[], q.bases.map fun b => (t, b), [(t, q.body)], q.classes⟩ t = q.bases := by
        simp only [InterfaceParts.basesFor]
        rw [List.filter_map, List.map_map]
        have : q.bases.filter ((fun q : String × String => q.1 == t) ∘ fun b => (t, b)) = q.bases := by
          rw [List.filter_eq_self]; intro a _; simp
        rw [this]
        have h3 : ((fun x : String × String => x.2) ∘ fun b : String => (t, b)) = id := rfl
        rw [h3, List.map_id]
      rw [h2]
      exact hq.2
    · refine ⟨[], List.nil_sublist _, ?_⟩
      have hbeq : (t == o) = false := by simpa using he
      have h2 : InterfaceParts.basesFor ⟨[], q.bases.map fun b => (t, b), [(t, q.body)], q.classes⟩ o = [] := by
        simp [InterfaceParts.basesFor, List.filter_map, Function.comp_def, hbeq]
      rw [h2]
      exact .nil
  · split
    · exact .pure ⟨.nil, fun o => ⟨[], List.nil_sublist _, .nil⟩⟩
    · exact .fail

theorem spreadsFor_cons (o : String) (x : Sel) (rest : List Sel) :
    spreadsFor o (x :: rest) = spreadsFor o [x] ++ spreadsFor o rest := by
  unfold spreadsFor
  simp

theorem fragUnionSels_good (name : String) (sels : List Sel) : ∀ {r : Reg}, StateH c defs G K r →
    (∀ f, Spreads sels f → K f) → FragUnHypH c defs sels →
    Quietly (fragUnionSels c name sels) r (UfH c defs G K fun o => spreadsFor o sels) := by
  induction sels with
  | nil => exact fun _ _ _ => .pure ⟨.nil, fun o => ⟨[], List.nil_sublist _, .nil⟩⟩
  | cons x rest ih =>
    intro r h hk hu
    have m1 : ∀ y ∈ [x], y ∈ x :: rest := fun y hy => by rw [List.mem_singleton.1 hy]; exact List.mem_cons_self ..
    have m2 : ∀ y ∈ rest, y ∈ x :: rest := fun y hy => List.mem_cons_of_mem _ hy
    unfold fragUnionSels
    refine (fragUnionSel_good x name h (fun f hm => hk f (spreads_head hm)) (hu.mono m1)).bind fun a r1 q1 ha => ?_
    exact (ih (h.quiet q1) (fun f hm => hk f (.later _ _ _ hm)) (hu.mono m2)).bind
      fun p r2 q2 hp => .pure (ha.append hp fun o => spreadsFor_cons o x rest)

theorem fragMemberClasses_eq {p : FragmentsConfig} {name : String} {q : InterfaceParts} {ms : List String}
    (hp : PlainFragments p) : ∀ {r : Reg}, Quietly (fragMemberClasses c p name q ms) r fun ss => ss = ms.map fun o =>
      Stmt.classDef (name ++ o) (names (q.basesFor o) ++ common c) (typenameStmt c o :: q.bodyFor o) [] := by
  induction ms with
  | nil => exact .pure rfl
  | cons o ms ih =>
    intro r
    unfold fragMemberClasses
    have h1 : Quietly (fragMemberClass c p name q o) r fun s => s =
        Stmt.classDef (name ++ o) (names (q.basesFor o) ++ common c) (typenameStmt c o :: q.bodyFor o) [] := by
      unfold fragMemberClass
      refine quietly_fragmentBasesOf.bind fun e1 _ _ h1 => ?_
      refine quietly_typenameField.bind fun e2 _ _ h2 => .pure ?_
      rw [h1, h2, fragmentBases_plain hp]
    refine h1.bind fun s r1 _ hs => ih.bind fun rest r2 _ hrest => .pure ?_
    rw [hs, hrest]
    rfl

/-- statements that are not class statements change nothing -/
theorem steps_noClass {P : List Stmt → List Expr → Prop} {ss : List Stmt} (h : ∀ n, ¬ ClassIn ss n) : Steps P ss :=
  fun _ n bases body ds _ e => (h n ⟨bases, body, ds, by rw [e]; simp⟩).elim

theorem mem_spreadsFor {o f : String} {sels : List Sel} (h : f ∈ spreadsFor o sels) :
    Sel.spread f ∈ sels ∨ ∃ inner, Sel.inline (some o) inner ∈ sels ∧ Sel.spread f ∈ inner := by
  unfold spreadsFor at h
  obtain ⟨x, hx, hf⟩ := List.mem_flatMap.1 h
  split at hf
  · rw [List.mem_singleton.1 hf]; exact .inl hx
  · split at hf
    · rename_i t inner he
      subst he
      exact .inr ⟨_, hx, mem_spreadsOf.1 hf⟩
    · cases hf
  · cases hf

theorem unionFragment_own {p : FragmentsConfig} {f : FragDef} {name : String} {desc : Option String}
    {ms : List String} {ss : List Stmt} {r' : Reg} (h : StateH c defs G K r) (hp : PlainFragments p)
    (hd : defs.get? f.name = some f) (hk : ∀ g, Spreads f.sels g → K g) (hu : FragUnHypH c defs f.sels)
    (ha : ∀ o ∈ ms, Unrelated defs (spreadsFor o f.sels))
    (hg : unionFragment c p f name desc ms r = .ok (ss, r')) :
    ∃ nested tops, ss = nested ++ tops ∧ Good c defs G K nested ∧ OwnClasses c defs G K f.name tops ∧
    ∃ m r1 r2, Quiet r r1 ∧ Quiet { r1 with unionFragmentMembers := r1.unionFragmentMembers.set f.name m } r2 ∧
      r' = r2 ∧ m.keys.Nodup ∧ ∀ o cls, (o, cls) ∈ m → ClassIn tops cls := by
  unfold unionFragment at hg
  obtain ⟨extra, r1, h1, hg⟩ := Gen.bind_ok.1 hg
  obtain ⟨q1, hextra⟩ := quietly_additionalBasesFor _ _ h1
  obtain ⟨q, r2, h2, hg⟩ := Gen.bind_ok.1 hg
  obtain ⟨q2, hq⟩ := fragUnionSels_good name f.sels (h.quiet q1) hk hu _ _ h2
  obtain ⟨cs, r3, h3, hg⟩ := Gen.bind_ok.1 hg
  obtain ⟨q3, hcs⟩ := fragMemberClasses_eq hp _ _ h3
  obtain ⟨u, r4, h4, hg⟩ := Gen.bind_ok.1 hg
  unfold registerUnionMembers at h4
  cases h4
  obtain ⟨u, r5, h5, hg⟩ := Gen.bind_ok.1 hg
  obtain ⟨q5, _⟩ := quietly_registerImport _ _ h5
  obtain ⟨rfl, rfl⟩ := Gen.pure_ok.1 hg
  rw [List.append_assoc, List.append_assoc]
  refine ⟨q.classes, _, rfl, hq.1, ?_, _, r3, _, (q1.trans q2).trans q3, q5, rfl,
    foldl_set_nodup (α := String) id (fun i => name ++ i) ms [] .nil, ?_⟩
  · refine Steps.append ?_ (steps_noClass fun n hn => ?_)
    · rw [hcs]
      refine steps_map fun pre o n bases body ds ho e => ?_
      cases e
      obtain ⟨fs, hs, hg⟩ := hq.2 o
      refine .derived fs (q.basesFor o) [] (by simp) hg (fun g hf => ?_) ((ha o ho).sublist hs) (.inl rfl)
      rcases mem_spreadsFor (hs.subset hf) with hg | ⟨inner, hi, hg⟩
      · exact ⟨hk g (spreads_mem hg), .spread hd hg .refl⟩
      · exact ⟨hk g (spreads_inline hi (spreads_mem hg)), .inline hd hi hg .refl⟩
    · obtain ⟨bases, body, ds, hm⟩ := hn
      rcases List.mem_append.1 hm with hm | hm
      · cases List.mem_singleton.1 hm
      · split at hm
        · cases List.mem_singleton.1 hm
        · cases hm
  · intro o cls hm
    obtain ⟨e1, _⟩ := foldl_set_entries (α := String) id (fun i => name ++ i) ms []
    rcases e1 o cls hm with hm | ⟨i, hi, hk, hv⟩
    · cases hm
    · subst hv
      rw [hcs]
      exact ⟨_, _, _, List.mem_append_left _ (List.mem_map.2 ⟨i, hi, rfl⟩)⟩

/-! ## one fragment, all fragments -/

theorem FragH.owner {G' : String → String → Prop} {f : String} {d : FragDef} (h : FragH c defs G r f d)
    (hG : ∀ b, G f b → G' f b) : FragH c defs G' r f d := by
  refine ⟨h.defined, h.typed, h.named, fun m hm => ⟨(h.members m hm).nodup, fun o cls hx => hG _ ((h.members m hm).owned o cls hx)⟩,
    fun hi => ?_, h.other, fun ho cls hc => hG _ (h.object ho cls hc)⟩
  obtain ⟨m, h1, h2, h3⟩ := h.interface hi
  exact ⟨m, h1, ⟨h2.nodup, fun o cls hx => hG _ (h2.owned o cls hx)⟩, h3⟩

theorem StateH.registered {d : FragDef} {cls : String} {docs : Dict String}
    (h : StateH c defs G K r) (hK : ∀ f, K f → f ≠ d.name) :
    StateH c defs G K { r.setClass .fragment d.name cls with
      fragmentDocumentMap := docs, fragmentTypeMap := r.fragmentTypeMap.set d.name d.typeCondition } := by
  refine ⟨h.additional, h.interfaces, h.nodup, fun f hf => ?_⟩
  obtain ⟨d', hd'⟩ := h.frags f hf
  have hne := hK f hf
  exact ⟨d', hd'.of_tables (Dict.get?_set_ne _ _ hne.symm) (Dict.get?_set_ne _ _ hne.symm) rfl rfl⟩

/-- the classes of the fragments, after those of `f` have been added -/
def withOwn (G : String → String → Prop) (f : String) (tops : List Stmt) : String → String → Prop :=
  fun g b => G g b ∨ (g = f ∧ ClassIn tops b)

/-- Generating one fragment extends the set of fragments the registry is right about. -/
theorem generateFragment_own {prep : List Char → List Char} {p : FragmentsConfig} {d : FragDef} {ss : List Stmt}
    {r' : Reg} (h : StateH c defs G K r) (hp : PlainFragments p)
    (hd : defs.get? d.name = some d) (hk : ∀ g, Spreads d.sels g → K g) (hs : InheritableFragment c defs d)
    (hni : r.interfaceFragmentImpl.get? d.name = none) (hnu : r.unionFragmentMembers.get? d.name = none)
    (hg : generateFragment prep c p d r = .ok (ss, r')) :
    (∀ f, K f → f ≠ d.name) ∧
    (∃ nested tops, ss = nested ++ tops ∧ Good c defs G K nested ∧ OwnClasses c defs G K d.name tops ∧
      StateH c defs (withOwn G d.name tops) (fun f => K f ∨ f = d.name) r') ∧
      ∀ f, f ≠ d.name → r'.interfaceFragmentImpl.get? f = r.interfaceFragmentImpl.get? f ∧
        r'.unionFragmentMembers.get? f = r.unionFragmentMembers.get? f := by
  unfold generateFragment at hg
  cases he : c.schema.types.get? d.typeCondition with
  | none => rw [he] at hg; exact (Gen.fail_ok.1 hg).elim
  | some e =>
  rw [he] at hg
  dsimp only at hg
  have hlk := lookup_entry he
  obtain ⟨name, r1, h1, hg⟩ := Gen.bind_ok.1 hg
  obtain ⟨hnc, hsty, rfl⟩ := generateClass_ok h1
  obtain ⟨u, r2, h2, hg⟩ := Gen.bind_ok.1 hg
  unfold registerFragmentDocument at h2
  split at h2
  · cases h2
  cases h2
  obtain ⟨u, r3, h3, hg⟩ := Gen.bind_ok.1 hg
  unfold registerFragmentType at h3
  cases h3
  have hK : ∀ f, K f → f ≠ d.name := by
    rintro f hf rfl
    obtain ⟨d', hd'⟩ := h.frags _ hf
    obtain ⟨cls, hc, _⟩ := hd'.named
    have : r.fragmentMap.contains d.name = true := by rw [Dict.contains_eq_isSome, hc]; rfl
    have hnc' : r.fragmentMap.contains d.name = false := hnc
    rw [this] at hnc'; cases hnc'
  refine ⟨hK, ?_⟩
  have h0 := h.registered (cls := name) (docs := (r.setClass .fragment d.name name).fragmentDocumentMap.set d.name
    (String.ofList (Documents.printFragment d))) hK
  obtain ⟨r0, hr0⟩ : ∃ r0, r0 = { r.setClass .fragment d.name name with
      fragmentDocumentMap := (r.setClass .fragment d.name name).fragmentDocumentMap.set d.name
        (String.ofList (Documents.printFragment d))
      fragmentTypeMap := r.fragmentTypeMap.set d.name d.typeCondition } := ⟨_, rfl⟩
  rw [← hr0] at h0
  have t1 : r0.fragmentMap.get? d.name = some name := by rw [hr0]; exact Dict.get?_set_self ..
  have t2 : r0.fragmentTypeMap.get? d.name = some d.typeCondition := by rw [hr0]; exact Dict.get?_set_self ..
  have t3 : r0.interfaceFragmentImpl = r.interfaceFragmentImpl := by rw [hr0]; rfl
  have t4 : r0.unionFragmentMembers = r.unionFragmentMembers := by rw [hr0]; rfl
  have hg' : fragmentBody prep c p d name e r0 = .ok (ss, r') := by rw [hr0]; exact hg
  clear hg hr0 h1
  have key : ∀ (tops : List Stmt) (hm : ∀ f, K f → ∃ d', FragH c defs G r' f d')
      (hnew : FragH c defs (withOwn G d.name tops) r' d.name d),
      StateH c defs (withOwn G d.name tops) (fun f => K f ∨ f = d.name) r' := by
    intro tops hm hnew
    refine ⟨h.additional, h.interfaces, h.nodup, ?_⟩
    rintro f (hf | rfl)
    · obtain ⟨d', hd'⟩ := hm f hf
      exact ⟨d', hd'.owner fun b hb => .inl hb⟩
    · exact ⟨d, hnew⟩
  have cls_eq : ∀ {x : Reg}, x.fragmentMap = r0.fragmentMap → ∀ cls, x.fragmentMap.get? d.name = some cls →
      cls = name := by
    intro x hx cls hc
    rw [hx, t1] at hc
    cases hc
    rfl
  cases hs with
  | @interface fs is hl hu hf ho hi =>
    obtain ⟨ek, ed⟩ := e
    cases hl.symm.trans hlk
    unfold fragmentBody at hg'
    obtain ⟨nested, tops, rfl, hn, htop, m, r1, q, rfl, hmn, hmo, hall⟩ := interfaceFragment_own h0 hd hl hk hu
      (fun n a g s t hm hn ⟨fd, hfd, e1, e2⟩ => e2 ▸ hf n a g s fd hm hn hfd e1)
      (fun o i hm n a g s t hm' hn ht => hi o i n a g s t hm hm' hn ht) ho hg'
    obtain ⟨q0, q1, q2, q3, q4, _⟩ := q.tables
    have hin : IsInterface c.schema d.typeCondition := ⟨_, _, hl⟩
    refine ⟨⟨nested, tops, rfl, hn, htop, key tops ?_ ?_⟩, fun f hne => ⟨?_, ?_⟩⟩
    · intro f hf
      obtain ⟨d', hd'⟩ := (h0.quiet q).frags f hf
      exact ⟨d', hd'.of_tables rfl rfl (Dict.get?_set_ne _ _ (hK f hf).symm) rfl⟩
    · refine ⟨hd, ?_, ⟨name, ?_, hsty⟩, ?_, fun _ => ⟨m, Dict.get?_set_self .., ⟨hmn, fun o cls hx => .inr ⟨rfl, hmo o cls hx⟩⟩, hall⟩,
        fun hn => (hn hin).elim, fun hobj => (not_interface_of_object hobj hin).elim⟩
      · rw [← t2]; exact congrArg (·.get? d.name) q2
      · rw [← t1]; exact congrArg (·.get? d.name) q1
      · intro m' hm'
        have : r1.unionFragmentMembers.get? d.name = some m' := hm'
        rw [q4, t4, hnu] at this
        cases this
    · show (r1.interfaceFragmentImpl.set d.name m).get? f = _
      rw [Dict.get?_set_ne _ _ hne.symm, q3, t3]
    · show r1.unionFragmentMembers.get? f = _
      rw [q4, t4]
  | object ho hsp hu hf =>
    obtain ⟨fs, is, hl⟩ := ho
    have ho : IsObject c.schema d.typeCondition := ⟨fs, is, hl⟩
    obtain ⟨ek, ed⟩ := e
    cases hl.symm.trans hlk
    unfold fragmentBody at hg'
    obtain ⟨q, nested, tops, rfl, hn, htop, hcls⟩ := objectFragment_own (prep := prep) (name := name) (desc := ed) h0 hp hd
      ho hk (fun f hm => hsp f hm) hu (fun n a g s t hm hn ht => hf n a g s t hm hn ht) _ _ hg'
    obtain ⟨q0, q1, q2, q3, q4, _⟩ := q.tables
    refine ⟨⟨nested, tops, rfl, hn, htop, key tops (h0.quiet q).frags ?_⟩, fun f hne => ⟨by rw [q3, t3], by rw [q4, t4]⟩⟩
    refine ⟨hd, by rw [q2, t2], ⟨name, by rw [q1, t1], hsty⟩, ?_,
      fun hin => (not_interface_of_object ho hin).elim, fun _ => by rw [q3, t3, hni], ?_⟩
    · intro m hm; rw [q4, t4, hnu] at hm; cases hm
    · intro _ cls hc
      rw [cls_eq q1 cls hc]
      exact .inr ⟨rfl, hcls⟩
  | @union ms hl ho hin hu hfs =>
    obtain ⟨ek, ed⟩ := e
    cases hl.symm.trans hlk
    unfold fragmentBody at hg'
    obtain ⟨nested, tops, rfl, hn, htop, m, r1, r2, q, q', rfl, hmn, hmo⟩ := unionFragment_own h0 hp hd hk
      ⟨ho, hin, fun o i hm n a g s t hm' hn ht => hfs o i n a g s t hm hm' hn ht⟩ hu hg'
    obtain ⟨q0, q1, q2, q3, q4, _⟩ := q.tables
    obtain ⟨p0, p1, p2, p3, p4, _⟩ := q'.tables
    have e1 : r'.fragmentMap = r0.fragmentMap := p1.trans q1
    have e2 : r'.fragmentTypeMap = r0.fragmentTypeMap := p2.trans q2
    have e3 : r'.interfaceFragmentImpl = r0.interfaceFragmentImpl := p3.trans q3
    have e4 : r'.unionFragmentMembers = r0.unionFragmentMembers.set d.name m := by rw [p4]; show _ = _; rw [← q4]
    refine ⟨⟨nested, tops, rfl, hn, htop, key tops ?_ ?_⟩,
      fun f hne => ⟨by rw [e3, t3], by rw [e4, Dict.get?_set_ne _ _ hne.symm, t4]⟩⟩
    · intro f hf
      obtain ⟨d', hd'⟩ := h0.frags f hf
      exact ⟨d', hd'.of_tables (by rw [e1]) (by rw [e2]) (by rw [e3]) (by rw [e4, Dict.get?_set_ne _ _ (hK f hf).symm])⟩
    · refine ⟨hd, by rw [e2, t2], ⟨name, by rw [e1, t1], hsty⟩, ?_,
        fun hi => (not_interface_of_union hl hi).elim, fun _ => by rw [e3, t3, hni],
        fun hobj => (not_object_of_union hl hobj).elim⟩
      intro m' hm'
      rw [e4, Dict.get?_set_self] at hm'
      cases hm'
      exact ⟨hmn, fun o cls hx => .inr ⟨rfl, hmo o cls hx⟩⟩

variable {A : List Expr → Prop} {O : List String} {X : List (List String)}

theorem FreshNames.later {E : List Expr} {taken a b : List String} (h : FreshNames E A O X taken (a ++ b))
    (hnd : (a ++ b).Nodup) : FreshNames E A O X (taken ++ a) b := by
  intro x hx
  obtain ⟨h1, h2⟩ := h x (List.mem_append.2 (.inr hx))
  refine ⟨fun hm => ?_, h2⟩
  rcases List.mem_append.1 hm with hm | hm
  · exact h1 hm
  · exact (List.nodup_append.1 hnd).2.2 x hm x hx rfl

theorem Good.withOwn {f : String} {nested tops : List Stmt} (h : Good c defs G K nested) :
    Good c defs (withOwn G f tops) K nested :=
  Steps.mono h fun _ _ hb => hb.mono (fun _ _ _ hg => .inl hg) (fun _ h => h) (fun _ h => h) fun _ h => h

/-- Generating fragments, each after the ones it spreads, gives statements that can be executed. -/
theorem generateFragments_run {prep : List Char → List Char} {p : FragmentsConfig} (fs : List FragDef) :
    ∀ {G : String → String → Prop} {K : String → Prop} {r r' : Reg} {ss : List Stmt} {taken : List String}
      {env : Classes}, StateH c defs G K r → (∀ f b, G f b → K f) → PlainFragments p →
    (∀ d ∈ fs, defs.get? d.name = some d) → (fs.map (·.name)).Nodup →
    (∀ d ∈ fs, InheritableFragment c defs d) →
    (∀ before d after, fs = before ++ d :: after → ∀ g, Spreads d.sels g → K g ∨ g ∈ before.map (·.name)) →
    (∀ d ∈ fs, r.interfaceFragmentImpl.get? d.name = none ∧ r.unionFragmentMembers.get? d.name = none) →
    generateFragments prep c p fs r = .ok (ss, r') →
    Before defs G K (common c) A O X taken env → (boundNames ss).Nodup →
    FreshNames (common c) A O X taken (boundNames ss) →
    ∃ G' env', runClasses env ss = some env' ∧ StateH c defs G' (fun f => K f ∨ f ∈ fs.map (·.name)) r' ∧
      Before defs G' (fun f => K f ∨ f ∈ fs.map (·.name)) (common c) A O X (taken ++ boundNames ss) env' := by
  induction fs with
  | nil =>
    intro G K r r' ss taken env h _ _ _ _ _ _ _ hg hb _ _
    obtain ⟨rfl, rfl⟩ := Gen.pure_ok.1 hg
    have : (fun f => K f ∨ f ∈ ([] : List FragDef).map (·.name)) = K := by funext f; simp
    rw [this]
    refine ⟨G, env, rfl, h, ?_⟩
    have : taken ++ boundNames [] = taken := by simp [boundNames]
    rw [this]
    exact hb
  | cons d fs ih =>
    intro G K r r' ss taken env h hGK hp hd hn hkf hs hf hg hb hnd hfresh
    unfold generateFragments at hg
    obtain ⟨s1, r1, h1, hg⟩ := Gen.bind_ok.1 hg
    obtain ⟨s2, r2, h2, hg⟩ := Gen.bind_ok.1 hg
    obtain ⟨rfl, rfl⟩ := Gen.pure_ok.1 hg
    have hs0 : ∀ g, Spreads d.sels g → K g := fun g hg => (hs [] d fs rfl g hg).elim id fun h => by cases h
    obtain ⟨hf1, hf2⟩ := hf d (List.mem_cons_self ..)
    obtain ⟨hK, ⟨nested, tops, rfl, hgood, hown, hst⟩, hrest⟩ := generateFragment_own h hp (hd d (List.mem_cons_self ..))
      hs0 (hkf d (List.mem_cons_self ..)) hf1 hf2 h1
    rw [List.map_cons, List.nodup_cons] at hn
    rw [boundNames_append] at hnd hfresh
    -- the first fragment
    have hb' : Before defs (withOwn G d.name tops) K (common c) A O X taken env := by
      have hG' : ∀ f b, K f → withOwn G d.name tops f b → G f b := by
        rintro f b hf (hg | ⟨rfl, _⟩)
        · exact hg
        · exact (hK _ hf rfl).elim
      refine ⟨hb.nonempty, hb.common, hb.merged, hb.allowed, fun f b hf hg => ?_,
        fun f g m hf hg h1 h2 => hb.functional f g m hf hg (hG' f m hf h1) (hG' g m hg h2), hb.apart⟩
      obtain ⟨l, h1, h2, h3⟩ := hb.classes f b hf (hG' f b hf hg)
      refine ⟨l, h1, h2, fun m hm => ⟨(h3 m hm).1, ?_⟩⟩
      obtain ⟨g, a1, a2, a3⟩ := (h3 m hm).2
      exact ⟨g, a1, a2, .inl a3⟩
    have hGd : ∀ b, withOwn G d.name tops d.name b ↔ ClassIn tops b := by
      intro b
      constructor
      · rintro (hg | ⟨_, hc⟩)
        · exact (hK _ (hGK _ _ hg) rfl).elim
        · exact hc
      · exact fun hc => .inr ⟨rfl, hc⟩
    obtain ⟨env1, hrun1, hb1⟩ := run_fragment (f := d.name) hb' hGd (List.nodup_append.1 hnd).1
      (hfresh.mono fun x hx => List.mem_append_left _ hx) hgood.withOwn
      (hown.mono fun _ _ hx => hx.mono (fun _ _ _ hg => .inl hg) (fun _ h => h) (fun m hm => (hGd m).2 hm) fun _ h => h)
      (fun _ _ => Inherits.trans)
    -- the others
    have e1 : (fun f => K f ∨ f ∈ (d :: fs).map (·.name)) =
        (fun f => (K f ∨ f = d.name) ∨ f ∈ fs.map (·.name)) := by
      funext f; simp [or_assoc]
    rw [e1]
    have a1 : ∀ f b, withOwn G d.name tops f b → K f ∨ f = d.name := by
      rintro f b (hg | ⟨rfl, _⟩)
      · exact .inl (hGK f b hg)
      · exact .inr rfl
    have a2 : ∀ before x after, fs = before ++ x :: after → ∀ g, Spreads x.sels g →
        (K g ∨ g = d.name) ∨ g ∈ before.map (·.name) := by
      intro before x after e g hg
      rcases hs (d :: before) x after (by rw [e]; rfl) g hg with h | h
      · exact .inl (.inl h)
      · rw [List.map_cons] at h
        rcases List.mem_cons.1 h with h | h
        · exact .inl (.inr h)
        · exact .inr h
    have a3 : ∀ x ∈ fs, r1.interfaceFragmentImpl.get? x.name = none ∧ r1.unionFragmentMembers.get? x.name = none := by
      intro x hx
      have hne : x.name ≠ d.name := by
        intro he
        exact hn.1 (he ▸ List.mem_map_of_mem hx)
      obtain ⟨a, b⟩ := hrest x.name hne
      rw [a, b]
      exact hf x (List.mem_cons_of_mem _ hx)
    obtain ⟨G', env', hrun2, hst2, hb2⟩ := ih hst a1 hp (fun x hx => hd x (List.mem_cons_of_mem _ hx)) hn.2
      (fun x hx => hkf x (List.mem_cons_of_mem _ hx)) a2 a3 h2 hb1 (List.nodup_append.1 hnd).2.1 (hfresh.later hnd)
    refine ⟨G', env', ?_, hst2, ?_⟩
    · rw [runClasses_append, hrun1]; exact hrun2
    · rw [boundNames_append, ← List.append_assoc]; exact hb2

/-! ## operations -/

theorem operationSels_good (root cls : String) (ho : IsObject c.schema root) (sels : List Sel) : ∀ {r : Reg},
    StateH c defs G K r → (∀ f, Spreads sels f → K f) →
    (∀ name al args sub t, Sel.field name al args sub ∈ sels → FieldType c.schema root name t →
      Inheritable c defs t sub) →
    Quietly (operationSels c root cls sels) r fun x => Good c defs G K x.2 := by
  induction sels with
  | nil => exact fun _ _ _ => .pure .nil
  | cons x rest ih =>
    intro r h hk hf
    unfold operationSels
    have hx : Quietly (operationSel c root cls x) r fun y => Good c defs G K y.2 := by
      unfold operationSel
      split
      · rename_i name al args sub
        refine (quietly_assertFieldDef ho).bind fun fd r1 q1 hfd => ?_
        have hsup := hf name al args sub fd.type (List.mem_cons_self ..) hfd
        exact typeFieldNode_good c defs G K (h.quiet q1)
          (fun f hf => hk f (spreads_field (List.mem_cons_self ..) hf)) hsup
      · exact .fail
    refine hx.bind fun a r1 q1 ha => ?_
    exact (ih (h.quiet q1) (fun f hm => hk f (.later _ _ _ hm))
      (fun n a g s t hm ht => hf n a g s t (List.mem_cons_of_mem _ hm) ht)).bind fun p r2 _ hp => .pure (ha.append hp)

/-- what is needed of an operation -/
structure OpHypH (c : Ctx) (defs : Dict FragDef) (K : String → Prop) (o : OpDef) : Prop where
  object : ∀ root, c.schema.root o.kind = some root → IsObject c.schema root
  spreads : ∀ f, Spreads o.sels f → K f
  fields : ∀ root, c.schema.root o.kind = some root → ∀ name al args sub t,
    Sel.field name al args sub ∈ o.sels → FieldType c.schema root name t → Inheritable c defs t sub

/-- the configured bases of operation classes -/
def operationBases (c : Ctx) (p : OperationsConfig) (k : OpKind) : List Expr :=
  baseNames (if (p.basesFor k).isEmpty then c.config.objectBases else p.basesFor k)

/-- the class statements of operations -/
def GoodO (c : Ctx) (p : OperationsConfig) (defs : Dict FragDef) (G : String → String → Prop) (K : String → Prop)
    (ss : List Stmt) : Prop :=
  Steps (BaseShape defs G K (fun _ => True) (common c) (fun bs => ∃ k, bs = operationBases c p k)) ss

theorem Good.operation {p : OperationsConfig} {ss : List Stmt} (h : Good c defs G K ss) : GoodO c p defs G K ss :=
  Steps.mono h fun _ _ hb => by
    cases hb with
    | plain h => exact h.elim
    | derived fs Bs ms e h1 h2 h3 h4 => exact .derived fs Bs ms e h1 h2 h3 h4
    | caught m body ds e h1 h2 => exact .caught m body ds e h1 h2

theorem generateOperation_good {prep : List Char → List Char} {p : OperationsConfig} {o : OpDef} {ss : List Stmt}
    {r' : Reg} (h : StateH c defs G K r) (ho : OpHypH c defs K o)
    (hg : generateOperation prep c p o r = .ok (ss, r')) : SameFragments r r' ∧ GoodO c p defs G K ss := by
  have hsel : ∀ root cls r0 x r1, SameFragments r r0 → c.schema.root o.kind = some root →
      operationSels c root cls o.sels r0 = .ok (x, r1) → Quiet r0 r1 ∧ Good c defs G K x.2 :=
    fun root cls r0 x r1 hs hr he => operationSels_good root cls (ho.object root hr) o.sels (h.same hs)
      ho.spreads (ho.fields root hr) _ _ he
  refine ⟨generateOperation_same hg fun root cls r0 x r1 a b e => (hsel root cls r0 x r1 a b e).1, ?_⟩
  unfold generateOperation at hg
  cases hname : o.name with
  | none => rw [hname] at hg; exact (Gen.fail_ok.1 hg).elim
  | some name =>
  rw [hname] at hg
  dsimp only at hg
  obtain ⟨cls, r1, h1, hg⟩ := Gen.bind_ok.1 hg
  obtain ⟨_, hsty, rfl⟩ := generateClass_ok h1
  obtain ⟨bs, r2, h2, hg⟩ := Gen.bind_ok.1 hg
  obtain ⟨q2, hbs⟩ := quietly_basesOrObject _ _ h2
  obtain ⟨root, r3, h3, hg⟩ := Gen.bind_ok.1 hg
  obtain ⟨x, r4, h4, hg⟩ := Gen.bind_ok.1 hg
  obtain ⟨q3, hroot⟩ := quietly_rootTypeOf _ _ h3
  obtain ⟨q4, hfit⟩ := hsel root cls r3 x r4 (sameFragments_setClass.trans (.of_quiet (q2.trans q3))) hroot h4
  obtain ⟨u, r5, h5, hg⟩ := Gen.bind_ok.1 hg
  obtain ⟨d, r6, h6, hg⟩ := Gen.bind_ok.1 hg
  obtain ⟨a, r7, h7, hg⟩ := Gen.bind_ok.1 hg
  obtain ⟨rfl, rfl⟩ := Gen.pure_ok.1 hg
  exact hfit.operation.join (steps_singleton (.plain ⟨o.kind, hbs⟩))

theorem generateOperations_good {prep : List Char → List Char} {p : OperationsConfig} (os : List OpDef) :
    ∀ {r r' : Reg} {ss : List Stmt}, StateH c defs G K r → (∀ o ∈ os, OpHypH c defs K o) →
    generateOperations prep c p os r = .ok (ss, r') → GoodO c p defs G K ss := by
  induction os with
  | nil =>
    intro r r' ss _ _ hg
    obtain ⟨rfl, rfl⟩ := Gen.pure_ok.1 hg
    exact Steps.nil
  | cons x os ih =>
    intro r r' ss h ho hg
    unfold generateOperations at hg
    obtain ⟨s1, r1, h1, hg⟩ := Gen.bind_ok.1 hg
    obtain ⟨s2, r2, h2, hg⟩ := Gen.bind_ok.1 hg
    obtain ⟨rfl, rfl⟩ := Gen.pure_ok.1 hg
    obtain ⟨hs, hx⟩ := generateOperation_good h (ho x (List.mem_cons_self ..)) h1
    exact Steps.join hx (ih (h.same hs) (fun y hy => ho y (List.mem_cons_of_mem _ hy)) h2)

end
end Turms
