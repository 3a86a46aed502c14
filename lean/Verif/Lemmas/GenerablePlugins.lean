import Verif.Lemmas.Generable
import Verif.Lemmas.Embed
import Verif.Lemmas.ResponsePlugins

/-! # The fragments and operations plugins succeed -/

namespace Turms
open Spec Fragments Documents

section
variable {c : Ctx} {defs : Dict FragDef} {K : String → Prop} {r : Reg}

/-! ## Only the fragments actually spread have to be generated before -/

theorem _root_.Turms.Spec.Generable.restrict {K' : String → Prop} {n : String} {sels : List Sel}
    (h : Generable c defs K n sels) : (∀ f, Spreads sels f → K' f) → Generable c defs K' n sels := by
  induction h with
  | scalar hl hk => exact fun _ => .scalar hl hk
  | enum hl => exact fun _ => .enum hl
  | object hl h1 h2 h3 _ ih =>
    intro hk
    exact .object hl h1 (fun f hm => ⟨hk f (spreads_mem hm), (h2 f hm).2⟩) h3
      (fun n a g s fd hm hn hfd e => ih n a g s fd hm hn hfd e fun f hf => hk f (spreads_field hm hf))
  | interface hl h1 h2 h3 _ h5 h6 _ ih1 ih2 =>
    intro hk
    exact .interface hl h1 (fun f hm => hk f (spreads_mem hm)) h3
      (fun n a g s fd hm hn hfd e => ih1 n a g s fd hm hn hfd e fun f hf => hk f (spreads_field hm hf)) h5 h6
      (fun o i n a g s t' hm hm' hn ht' => ih2 o i n a g s t' hm hm' hn ht' fun f hf =>
        hk f (spreads_inline hm (spreads_field hm' hf)))
  | union hl h0 h1 h2 h3 h4 _ ih =>
    intro hk
    exact .union hl h0 h1 (fun f hm => hk f (spreads_mem hm))
      (fun o i f hm hm' => hk f (spreads_inline hm (spreads_mem hm'))) h4
      (fun o i n a g s fs is fd hm hm' hn hl' hfd e => ih o i n a g s fs is fd hm hm' hn hl' hfd e fun f hf =>
        hk f (spreads_inline hm (spreads_field hm' hf)))

theorem _root_.Turms.Spec.FieldsGenerable.restrict {K' : String → Prop} {t : String} {sels : List Sel}
    (h : FieldsGenerable c defs K t sels) (hk : ∀ f, Spreads sels f → K' f) : FieldsGenerable c defs K' t sels :=
  ⟨h.exist, fun n a g s ty hm hn ht => (h.nested n a g s ty hm hn ht).restrict fun f hf => hk f (spreads_field hm hf)⟩

theorem _root_.Turms.Spec.GenerableFragment.restrict {K' : String → Prop} {d : FragDef}
    (h : GenerableFragment c defs K d) (hk : ∀ f, Spreads d.sels f → K' f) : GenerableFragment c defs K' d := by
  cases h with
  | object ho h1 h2 => exact .object ho (fun f hm => ⟨hk f (spreads_mem hm), (h1 f hm).2⟩) (h2.restrict hk)
  | interface hl h1 h2 h3 h4 h5 =>
    exact .interface hl (fun f hm => hk f (spreads_mem hm)) h2 h3
      (fun n a g s fd hm hn hfd e => (h4 n a g s fd hm hn hfd e).restrict fun f hf => hk f (spreads_field hm hf))
      (fun o i hm => (h5 o i hm).restrict fun f hf => hk f (spreads_inline hm hf))
  | union hl h1 h2 h3 h4 =>
    exact .union hl (fun f hm => ⟨hk f (spreads_mem hm), (h1 f hm).2⟩) h2 h3
      (fun o i hm => (h4 o i hm).restrict fun f hf => hk f (spreads_inline hm hf))

/-! ## Embedding the fragments in the document -/

theorem lookup_append_ne {a : List FragDef} {d : FragDef} {n : String} (h : d.name ≠ n) :
    lookup (a ++ [d]) n = lookup a n := by
  unfold lookup
  simp [List.find?_cons, h]

theorem lookup_append_self {a : List FragDef} {d : FragDef} : lookup (a ++ [d]) d.name = some d := by
  unfold lookup
  simp

theorem lookup_isSome {a : List FragDef} {n : String} (h : n ∈ a.map (·.name)) : ∃ d, lookup a n = some d := by
  obtain ⟨f, hf, hn⟩ := List.mem_map.1 h
  refine Option.isSome_iff_exists.1 ?_
  unfold lookup
  rw [List.find?_isSome]
  exact ⟨f, List.mem_reverse.2 hf, by simpa using hn⟩

theorem needs_mono {a b : List FragDef} (h : ∀ n d, lookup a n = some d → lookup b n = some d) {sels : List Sel}
    {f : String} (hn : Needs a sels f) : Needs b sels f := by
  induction hn with
  | direct f hf => exact .direct f hf
  | through g d f _ hl hs ih => exact .through g d f ih (h g d hl) hs

/-- every fragment needed is registered, so the document can be assembled -/
theorem go_mergedDocument {prep : List Char → List Char} {frags : List FragDef} {text : List Char} {sels : List Sel}
    (hd : documentTexts r = docsOf frags)
    (ho : Outcome frags text sels (embedDocument prep (docsOf frags) text))
    (hn : ∀ k, Needs frags sels k → k ∈ frags.map (·.name)) : Go (mergedDocument prep text) r := by
  unfold mergedDocument Go
  dsimp only
  rw [hd]
  rcases ho with ⟨k, hk, hl, _⟩ | ⟨fs, _, _, _, he⟩
  · obtain ⟨d, hd'⟩ := lookup_isSome (hn k hk)
    rw [hd'] at hl; cases hl
  · rw [he]; exact ⟨_, _, rfl, .refl, trivial⟩

/-! ## The bodies of fragments -/

theorem go_assertFieldDef {s : Schema} {t name : String} (h : ∃ ty, FieldOn s t name ty) :
    Go (assertFieldDef s t name) r fun fd => FieldOn s t name fd.type := by
  obtain ⟨ty, h⟩ := h
  obtain ⟨fd, hf, ho⟩ := getFieldDef_on h
  unfold assertFieldDef
  rw [hf]
  exact .pure ho

/-- `FieldsGenerable`, in terms of the walk -/
structure FieldsWalk (c : Ctx) (defs : Dict FragDef) (K : String → Prop) (t : String) (sels : List Sel) : Prop where
  exist : ∀ name al args sub, Sel.field name al args sub ∈ sels → name ≠ "__typename" → ∃ ty, FieldOn c.schema t name ty
  nested : ∀ name al args sub ty, Sel.field name al args sub ∈ sels → name ≠ "__typename" →
    FieldOn c.schema t name ty → Walks c defs K ty.base sub

theorem fieldsWalk (hs : Stylable c.env) (hne : "" ∉ c.schema.types.keys) {t : String} {sels : List Sel}
    (h : FieldsGenerable c defs K t sels) : FieldsWalk c defs K t sels :=
  ⟨h.exist, fun n a g s ty hm hn ht => walks_of_generable hs hne (h.nested n a g s ty hm hn ht)⟩

theorem FieldsWalk.tail {t : String} {x : Sel} {sels : List Sel} (h : FieldsWalk c defs K t (x :: sels)) :
    FieldsWalk c defs K t sels :=
  ⟨fun n a g s hm => h.exist n a g s (List.mem_cons_of_mem _ hm),
    fun n a g s ty hm => h.nested n a g s ty (List.mem_cons_of_mem _ hm)⟩

theorem WalkReady.fragSpreadBase (h : WalkReady c defs K r) {o f : String} (hf : SpreadFits c.schema defs K o f) :
    Go (fragSpreadBase f o) r := by
  have hk := hf.1
  have hi := h.ofFrag hk
  unfold Turms.fragSpreadBase Go
  cases hm : r.interfaceFragmentImpl.get? f with
  | none => simp only [hm]; exact hi
  | some m =>
    obtain ⟨_, d, hd, hpos⟩ := hf
    obtain ⟨h1, h2, _⟩ := h.impl f d m hk hd hm
    obtain ⟨cl, hcl⟩ := h2 o (hpos h1)
    simp only [hm, hcl]
    exact ⟨_, _, rfl, .refl, trivial⟩

theorem go_fragObjectSels (hs : Stylable c.env) {t name : String} (sels : List Sel) : ∀ {r : Reg}, WalkReady c defs K r →
    (∀ f, Sel.spread f ∈ sels → SpreadFits c.schema defs K t f) → FieldsWalk c defs K t sels →
    Go (fragObjectSels c t name sels) r := by
  induction sels with
  | nil => intros; unfold fragObjectSels; exact .ret
  | cons s rest ih =>
    intro r h h2 h3
    unfold fragObjectSels
    refine Go.bind (P := fun _ => True) ?_ fun _ r1 m _ => (ih (h.mild m)
      (fun f hm => h2 f (List.mem_cons_of_mem _ hm)) h3.tail).bind fun _ _ _ _ => .ret
    cases s with
    | spread f =>
      unfold fragObjectSel
      exact (h.fragSpreadBase (h2 f List.mem_cons_self)).bind fun _ _ _ _ => .ret
    | inline o inner => unfold fragObjectSel; exact .ret
    | field n al args sub =>
      unfold fragObjectSel
      dsimp only
      split
      · exact .ret
      · rename_i hn
        have hn : n ≠ "__typename" := by simpa using hn
        refine (go_assertFieldDef (h3.exist _ _ _ _ List.mem_cons_self hn)).bind fun fd r1 m hfd => ?_
        exact (go_field hs (h.mild m) (h3.nested _ _ _ _ _ List.mem_cons_self hn hfd)).bind fun _ _ _ _ => .ret

theorem go_fragUnionInlineSels (hs : Stylable c.env) {t name : String} (sels : List Sel) :
    ∀ {r : Reg}, WalkReady c defs K r → FieldsWalk c defs K t sels → Go (fragUnionInlineSels c t name sels) r := by
  induction sels with
  | nil => intros; unfold fragUnionInlineSels; exact .ret
  | cons s rest ih =>
    intro r h h3
    unfold fragUnionInlineSels
    refine Go.bind (P := fun _ => True) ?_ fun _ r1 m _ => (ih (h.mild m) h3.tail).bind fun _ _ _ _ => .ret
    cases s with
    | spread f => unfold fragUnionInlineSel; exact .ret
    | inline o inner => unfold fragUnionInlineSel; exact .ret
    | field n al args sub =>
      unfold fragUnionInlineSel
      dsimp only
      split
      · exact .ret
      · rename_i hn
        have hn : n ≠ "__typename" := by simpa using hn
        refine (go_assertFieldDef (h3.exist _ _ _ _ List.mem_cons_self hn)).bind fun fd r1 m hfd => ?_
        exact (go_field hs (h.mild m) (h3.nested _ _ _ _ _ List.mem_cons_self hn hfd)).bind fun _ _ _ _ => .ret

theorem go_fragUnionSels (hs : Stylable c.env) {name : String} (sels : List Sel) : ∀ {r : Reg}, WalkReady c defs K r →
    (∀ f, Sel.spread f ∈ sels → K f ∧ ∃ d' ms', defs.get? f = some d' ∧
      c.schema.lookup d'.typeCondition = some (.union ms')) →
    (∀ inner, Sel.inline none inner ∉ sels) →
    (∀ n al args sub, Sel.field n al args sub ∈ sels → n = "__typename") →
    (∀ o inner, Sel.inline (some o) inner ∈ sels → FieldsWalk c defs K o inner) →
    Go (fragUnionSels c name sels) r := by
  induction sels with
  | nil => intros; unfold fragUnionSels; exact .ret
  | cons s rest ih =>
    intro r h h1 h2 h3 h4
    unfold fragUnionSels
    refine Go.bind (P := fun _ => True) ?_ fun _ r1 m _ => (ih (h.mild m)
      (fun f hm => h1 f (List.mem_cons_of_mem _ hm)) (fun i hm => h2 i (List.mem_cons_of_mem _ hm))
      (fun a b d e hm => h3 a b d e (List.mem_cons_of_mem _ hm))
      (fun o i hm => h4 o i (List.mem_cons_of_mem _ hm))).bind fun _ _ _ _ => .ret
    cases s with
    | spread f =>
      unfold fragUnionSel
      obtain ⟨hk, d', ms', hd, hl⟩ := h1 f List.mem_cons_self
      obtain ⟨m, hm⟩ := h.members f d' ms' hk hd hl
      refine Go.bind (P := fun _ => True) ?_ fun _ _ _ _ => .ret
      unfold unionMembersOf Go
      simp only [hm]
      exact ⟨_, _, rfl, .refl, trivial⟩
    | inline o inner =>
      cases o with
      | none => exact absurd List.mem_cons_self (h2 inner)
      | some o =>
        unfold fragUnionSel
        exact (go_fragUnionInlineSels hs inner h (h4 o inner List.mem_cons_self)).bind fun _ _ _ _ => .ret
    | field n al args sub =>
      unfold fragUnionSel
      dsimp only
      rw [if_pos (by simpa using h3 _ _ _ _ List.mem_cons_self)]
      exact .ret

theorem go_fragInterfaceSels (hs : Stylable c.env) {fs : List FieldDef} {name : String} (sels : List Sel) :
    ∀ {r : Reg}, WalkReady c defs K r → (∀ f, Sel.spread f ∈ sels → K f) →
    (∀ inner, Sel.inline none inner ∉ sels) →
    (∀ name al args sub, Sel.field name al args sub ∈ sels → name ≠ "__typename" → ∃ fd ∈ fs, fd.name = name) →
    (∀ name al args sub fd, Sel.field name al args sub ∈ sels → name ≠ "__typename" →
      fd ∈ fs → fd.name = name → Walks c defs K fd.type.base sub) →
    (∀ o inner, Sel.inline (some o) inner ∈ sels → FieldsWalk c defs K o inner) →
    Go (fragInterfaceSels c fs name sels) r := by
  induction sels with
  | nil => intros; unfold fragInterfaceSels; exact .ret
  | cons s rest ih =>
    intro r h h1 h2 h3 h4 h5
    unfold fragInterfaceSels
    refine Go.bind (P := fun _ => True) ?_ fun _ r1 m _ => (ih (h.mild m)
      (fun f hm => h1 f (List.mem_cons_of_mem _ hm)) (fun i hm => h2 i (List.mem_cons_of_mem _ hm))
      (fun a b d e hm => h3 a b d e (List.mem_cons_of_mem _ hm))
      (fun a b d e fd hm => h4 a b d e fd (List.mem_cons_of_mem _ hm))
      (fun o i hm => h5 o i (List.mem_cons_of_mem _ hm))).bind fun _ _ _ _ => .ret
    cases s with
    | spread f =>
      unfold fragInterfaceSel interfaceSel
      exact (h.spreadImplementations (h1 f List.mem_cons_self)).bind fun _ _ _ _ => .ret
    | inline o inner =>
      cases o with
      | none => exact absurd List.mem_cons_self (h2 inner)
      | some o =>
        unfold fragInterfaceSel
        have hw := h5 o inner List.mem_cons_self
        exact (go_inlineSels hs inner h hw.exist hw.nested).bind fun _ _ _ _ => .ret
    | field n al args sub =>
      unfold fragInterfaceSel interfaceSel
      dsimp only
      split
      · exact .ret
      · rename_i hn
        have hn : n ≠ "__typename" := by simpa using hn
        refine (go_fieldNamed (h3 _ _ _ _ List.mem_cons_self hn)).bind fun fd r1 m hfd => ?_
        exact (go_field hs (h.mild m) (h4 _ _ _ _ fd List.mem_cons_self hn hfd.1 hfd.2)).bind fun _ _ _ _ => .ret

theorem go_fragImplementingClasses {name : String} {p : InterfaceParts} (is : List Implementation) :
    ∀ {r : Reg}, Go (fragImplementingClasses c name p is) r := by
  induction is with
  | nil => exact .ret
  | cons i is ih =>
    intro r
    unfold fragImplementingClasses fragImplementingClass
    exact (go_additionalBasesFor.bind fun _ _ _ _ => go_interfaceBasesOf.bind fun _ _ _ _ =>
      go_typenameField.bind (Q := fun _ => True) fun _ _ _ _ => .ret).bind fun _ _ _ _ => ih.bind fun _ _ _ _ => .ret

theorem go_fragmentBasesOf {p : FragmentsConfig} {b : Bool} : Go (fragmentBasesOf c p b) r :=
  go_registerImports.bind fun _ _ _ _ => go_registerImports.bind fun _ _ _ _ => go_registerImports.bind fun _ _ _ _ => .ret

theorem go_fragMemberClasses {p : FragmentsConfig} {name : String} {q : InterfaceParts} (ms : List String) :
    ∀ {r : Reg}, Go (fragMemberClasses c p name q ms) r := by
  induction ms with
  | nil => exact .ret
  | cons i is ih =>
    intro r
    unfold fragMemberClasses fragMemberClass
    exact (go_fragmentBasesOf.bind fun _ _ _ _ =>
      go_typenameField.bind (Q := fun _ => True) fun _ _ _ _ => .ret).bind fun _ _ _ _ => ih.bind fun _ _ _ _ => .ret

/-- what registering a fragment leaves behind -/
structure FragAfter (c : Ctx) (d : FragDef) (r r' : Reg) : Prop where
  scalar : r'.scalarMap = r.scalarMap
  classes : ∀ k, r'.classMap k = r.classMap k
  types : r'.fragmentTypeMap = r.fragmentTypeMap
  ifrags : r'.interfaceFragments = r.interfaceFragments
  documents : r'.fragmentDocumentMap = r.fragmentDocumentMap
  helpers : (∀ b ∈ r.builtins, b ∈ builtinNames) → ∀ b ∈ r'.builtins, b ∈ builtinNames
  implOther : ∀ f, f ≠ d.name → r'.interfaceFragmentImpl.get? f = r.interfaceFragmentImpl.get? f
  impl : r.interfaceFragmentImpl.get? d.name = none → ∀ m, r'.interfaceFragmentImpl.get? d.name = some m →
    IsInterface c.schema d.typeCondition ∧ (∀ o, Possible c.schema d.typeCondition o → ∃ cl, m.get? o = some cl) ∧
      ∀ o cl, m.get? o = some cl → cl ≠ ""
  membersOther : ∀ f, f ≠ d.name → r'.unionFragmentMembers.get? f = r.unionFragmentMembers.get? f
  members : ∀ ms, c.schema.lookup d.typeCondition = some (.union ms) → ∃ m, r'.unionFragmentMembers.get? d.name = some m

theorem go_objectFragment (hs : Stylable c.env) (hne : "" ∉ c.schema.types.keys) {prep : List Char → List Char}
    {p : FragmentsConfig} {d : FragDef} {name : String} {desc : Option String} (h : WalkReady c defs K r)
    (ho : IsObject c.schema d.typeCondition)
    (h1 : ∀ f, Sel.spread f ∈ d.sels → SpreadFits c.schema defs K d.typeCondition f)
    (h2 : FieldsGenerable c defs K d.typeCondition d.sels)
    (hdoc : ∀ r1, Mild r r1 → Go (mergedDocument prep (printFragment d)) r1) :
    ∃ ss r', objectFragment prep c p d name desc r = .ok (ss, r') ∧ FragAfter c d r r' := by
  have hg : Go (objectFragment prep c p d name desc) r := by
    unfold objectFragment
    refine go_additionalBasesFor.bind fun _ r1 m1 _ => go_typenameField.bind fun _ r2 m2 _ => ?_
    refine (go_fragObjectSels hs d.sels ((h.mild m1).mild m2) h1 (fieldsWalk hs hne h2)).bind fun _ r3 m3 _ => ?_
    refine Go.bind (P := fun _ => True) ?_ fun _ _ _ _ => go_fragmentBasesOf.bind fun _ _ _ _ =>
      go_generatePydanticConfig.bind fun _ _ _ _ => .ret
    unfold fragmentMeta
    split
    · exact (hdoc r3 ((m1.trans m2).trans m3)).bind fun _ _ _ _ => .ret
    · exact .ret
  obtain ⟨ss, r', hr, m, _⟩ := hg
  refine ⟨ss, r', hr, m.scalar, m.classes, m.types, m.ifrags, m.documents, m.helpers, fun _ _ => by rw [m.impl], ?_,
    fun _ _ => by rw [m.members], ?_⟩
  · intro hn mm hm
    rw [m.impl, hn] at hm; cases hm
  · intro ms hl
    exact absurd ho (not_object_of_union hl)

theorem go_interfaceFragment (hs : Stylable c.env) (hne : "" ∉ c.schema.types.keys)
    {p : FragmentsConfig} {d : FragDef} {name : String} {desc : Option String} (hname : name ≠ "") (h : WalkReady c defs K r)
    {fs : List FieldDef} {is : List String} (hl : c.schema.lookup d.typeCondition = some (.interface fs is))
    (h1 : ∀ f, Sel.spread f ∈ d.sels → K f) (h2 : ∀ inner, Sel.inline none inner ∉ d.sels)
    (h3 : ∀ name al args sub, Sel.field name al args sub ∈ d.sels → name ≠ "__typename" → ∃ fd ∈ fs, fd.name = name)
    (h4 : ∀ name al args sub fd, Sel.field name al args sub ∈ d.sels → name ≠ "__typename" →
      fd ∈ fs → fd.name = name → Generable c defs K fd.type.base sub)
    (h5 : ∀ o inner, Sel.inline (some o) inner ∈ d.sels → FieldsGenerable c defs K o inner) :
    ∃ ss r', interfaceFragment c p d name desc fs r = .ok (ss, r') ∧ FragAfter c d r r' := by
  obtain ⟨extra, r1, e1, m1, _⟩ := go_additionalBasesFor (c := c) (n := d.typeCondition) (r := r)
  obtain ⟨q, r2, e2, m2, _⟩ := go_fragInterfaceSels hs (fs := fs) (name := name) d.sels (h.mild m1) h1 h2 h3
    (fun n a g s fd hm hn hfd e => walks_of_generable hs hne (h4 n a g s fd hm hn hfd e))
    (fun o i hm => fieldsWalk hs hne (h5 o i hm))
  obtain ⟨ib, r3, e3, m3, _⟩ := go_interfaceBasesOf (c := c) (r := r2)
  obtain ⟨tn, r4, e4, m4, _⟩ := go_genericTypenameField (c := c) (r := r3)
  obtain ⟨impls, r5, e5, m5, _⟩ := go_fragImplementingClasses (c := c) (name := name) (p := q)
    (implementations c.schema d.typeCondition) (r := r4)
  have m := (((m1.trans m2).trans m3).trans m4).trans m5
  have hin : IsInterface c.schema d.typeCondition := ⟨_, _, hl⟩
  obtain ⟨e5', e6⟩ := foldl_set_entries (α := Implementation) (·.name) (fun i => name ++ i.name)
    (implementations c.schema d.typeCondition) []
  refine ⟨_, _, Gen.bind_ok.2 ⟨_, _, e1, Gen.bind_ok.2 ⟨_, _, e2, Gen.bind_ok.2 ⟨_, _, e3, Gen.bind_ok.2 ⟨_, _, e4,
    Gen.bind_ok.2 ⟨_, _, e5, Gen.bind_ok.2 ⟨(), _, rfl, rfl⟩⟩⟩⟩⟩⟩, m.scalar, fun k => ?_, m.types, m.ifrags, m.documents,
    m.helpers, fun f hf => ?_, fun _ mm hm => ?_, fun f _ => ?_, fun ms hu => ?_⟩
  · rw [← m.classes k]; cases k <;> rfl
  · rw [← m.impl]; exact Dict.get?_set_ne _ _ hf.symm
  · rw [Dict.get?_set_self] at hm
    cases hm
    refine ⟨hin, fun o hpo => ?_, fun o cl hcl h0 => ?_⟩
    · obtain ⟨i, hi, rfl⟩ := mem_implementations hin hpo
      exact Option.isSome_iff_exists.1 (e6 i.name (.inr ⟨i, hi, rfl⟩))
    · rcases e5' o cl (Dict.mem_of_get? hcl) with hm | ⟨i, hi, _, rfl⟩
      · cases hm
      · exact hname (String.append_eq_empty_iff.1 h0).1
  · rw [← m.members]
  · exact absurd hin (not_interface_of_union hu)

theorem go_unionFragment (hs : Stylable c.env) (hne : "" ∉ c.schema.types.keys)
    {p : FragmentsConfig} {d : FragDef} {name : String} {desc : Option String} (h : WalkReady c defs K r)
    {ms : List String} (hl : c.schema.lookup d.typeCondition = some (.union ms))
    (h1 : ∀ f, Sel.spread f ∈ d.sels → K f ∧ ∃ d' ms', defs.get? f = some d' ∧
      c.schema.lookup d'.typeCondition = some (.union ms'))
    (h2 : ∀ inner, Sel.inline none inner ∉ d.sels)
    (h3 : ∀ name al args sub, Sel.field name al args sub ∈ d.sels → name = "__typename")
    (h4 : ∀ o inner, Sel.inline (some o) inner ∈ d.sels → FieldsGenerable c defs K o inner) :
    ∃ ss r', unionFragment c p d name desc ms r = .ok (ss, r') ∧ FragAfter c d r r' := by
  obtain ⟨extra, r1, e1, m1, _⟩ := go_additionalBasesFor (c := c) (n := d.typeCondition) (r := r)
  obtain ⟨q, r2, e2, m2, _⟩ := go_fragUnionSels hs (name := name) d.sels (h.mild m1) h1 h2 h3
    (fun o i hm => fieldsWalk hs hne (h4 o i hm))
  obtain ⟨mcs, r3, e3, m3, _⟩ := go_fragMemberClasses (c := c) (p := p) (name := name) (q := q) ms (r := r2)
  have m := (m1.trans m2).trans m3
  obtain ⟨u, r5, e5, m5, _⟩ := go_registerImport (n := "typing.Union")
    (r := { r3 with unionFragmentMembers := r3.unionFragmentMembers.set d.name (ms.foldl (fun m i => m.set i (name ++ i)) []) })
  refine ⟨_, _, Gen.bind_ok.2 ⟨_, _, e1, Gen.bind_ok.2 ⟨_, _, e2, Gen.bind_ok.2 ⟨_, _, e3, Gen.bind_ok.2 ⟨(), _, rfl,
    Gen.bind_ok.2 ⟨_, _, e5, rfl⟩⟩⟩⟩⟩, m5.scalar.trans m.scalar, fun k => ?_, m5.types.trans m.types, m5.ifrags.trans m.ifrags,
    m5.documents.trans m.documents, fun hb => m5.helpers (m.helpers hb), fun f hf => ?_, fun hn mm hm => ?_, fun f hf => ?_,
    fun _ _ => ?_⟩
  · rw [m5.classes k, ← m.classes k]; cases k <;> rfl
  · rw [m5.impl, ← m.impl]
  · rw [m5.impl] at hm
    have : r3.interfaceFragmentImpl.get? d.name = some mm := hm
    rw [m.impl, hn] at this; cases this
  · rw [m5.members, ← m.members]; exact Dict.get?_set_ne _ _ hf.symm
  · rw [m5.members]; exact ⟨_, Dict.get?_set_self _ _ _⟩

/-! ## The loop over the fragments -/

/-- The registry after the fragments `done`, which started at `r0`. -/
structure FragState (c : Ctx) (defs : Dict FragDef) (r0 : Reg) (done : List FragDef) (r : Reg) : Prop where
  ready : WalkReady c defs (fun f => f ∈ done.map (·.name)) r
  documents : documentTexts r = docsOf done
  keys : ∀ f, r.fragmentMap.contains f = true → f ∈ done.map (·.name)
  impls : ∀ f, f ∉ done.map (·.name) → r.interfaceFragmentImpl.get? f = none
  other : ∀ k, k ≠ .fragment → r.classMap k = r0.classMap k
  helpers : ∀ b ∈ r.builtins, b ∈ builtinNames

theorem FragState.mild {r0 r' : Reg} {done : List FragDef} (h : FragState c defs r0 done r) (m : Mild r r') :
    FragState c defs r0 done r' := by
  have hk := m.classes .fragment
  simp only [Reg.classMap] at hk
  exact ⟨h.ready.mild m, by unfold documentTexts; rw [m.documents]; exact h.documents, fun f hf => h.keys f (by rw [← hk]; exact hf),
    fun f hf => by rw [m.impl]; exact h.impls f hf, fun k hk => (m.classes k).trans (h.other k hk), m.helpers h.helpers⟩

theorem documentTexts_keys {frags : List FragDef} (h : documentTexts r = docsOf frags) (f : String) :
    r.fragmentDocumentMap.contains f = true → f ∈ frags.map (·.name) := by
  intro hf
  rw [Dict.contains_iff] at hf
  have : (documentTexts r).keys = (docsOf frags).keys := by rw [h]
  simp only [documentTexts, docsOf, Dict.keys, List.map_map] at this hf
  have e : (List.map ((fun x : String × List Char => x.1) ∘ fun p : String × String => (p.1, p.2.toList)) r.fragmentDocumentMap) =
      r.fragmentDocumentMap.map (·.1) := rfl
  rw [e] at this
  rw [this] at hf
  exact hf

theorem dict_set_fresh {α : Type} {d : Dict α} {k : String} {v : α} (h : d.contains k = false) : d.set k v = d ++ [(k, v)] := by
  induction d with
  | nil => rfl
  | cons p d ih =>
    obtain ⟨k', v'⟩ := p
    have h1 : k' ≠ k := by
      rintro rfl
      have : Dict.contains ((k', v') :: d) k' = true := (Dict.contains_iff _ _).2 List.mem_cons_self
      rw [this] at h; cases h
    have h2 : Dict.contains d k = false := by
      cases hc : Dict.contains d k with
      | false => rfl
      | true =>
        have : Dict.contains ((k', v') :: d) k = true :=
          (Dict.contains_iff _ _).2 (List.mem_cons_of_mem _ ((Dict.contains_iff _ _).1 hc))
        rw [this] at h; cases h
    simp only [Dict.set, h1, if_false, List.cons_append]
    rw [show Dict.set d k v = d ++ [(k, v)] from ih h2]

theorem generateFragment_go (hs : Stylable c.env) (hne : "" ∉ c.schema.types.keys) {prep : List Char → List Char}
    {p : FragmentsConfig} {d : FragDef} {r0 : Reg} {done : List FragDef} (h : FragState c defs r0 done r)
    (hd : defs.get? d.name = some d) (hn : d.name ∉ done.map (·.name)) (hn0 : d.name ≠ "")
    (hg : GenerableFragment c defs (fun f => f ∈ done.map (·.name)) d)
    (hdoc : ∀ r1, documentTexts r1 = docsOf (done ++ [d]) → Go (mergedDocument prep (printFragment d)) r1) :
    ∃ ss r', generateFragment prep c p d r = .ok (ss, r') ∧ FragState c defs r0 (done ++ [d]) r' := by
  obtain ⟨cls, hcls0, hcls⟩ := hs.classes .fragment d.name hn0
  have hf1 : r.fragmentMap.contains d.name = false := by
    cases hc : r.fragmentMap.contains d.name with
    | false => rfl
    | true => exact absurd (h.keys _ hc) hn
  have hf2 : r.fragmentDocumentMap.contains d.name = false := by
    cases hc : r.fragmentDocumentMap.contains d.name with
    | false => rfl
    | true => exact absurd (documentTexts_keys h.documents _ hc) hn
  let r1 : Reg := { r with
    fragmentMap := r.fragmentMap.set d.name cls
    fragmentDocumentMap := r.fragmentDocumentMap.set d.name (String.ofList (printFragment d))
    fragmentTypeMap := r.fragmentTypeMap.set d.name d.typeCondition }
  have hne' : ∀ f, f ∈ done.map (·.name) → d.name ≠ f := fun f hf he => hn (he ▸ hf)
  have hr1 : WalkReady c defs (fun f => f ∈ done.map (·.name)) r1 := by
    refine ⟨h.ready.scalar, h.ready.named, fun f hf => ?_, fun f d' hf hd' => ?_, h.ready.defined, h.ready.impl,
      h.ready.members, h.ready.ifrags⟩
    · show ∃ cl, (r.fragmentMap.set d.name cls).get? f = some cl
      rw [Dict.get?_set_ne _ _ (hne' f hf)]
      exact h.ready.frag f hf
    · show (r.fragmentTypeMap.set d.name d.typeCondition).get? f = _
      rw [Dict.get?_set_ne _ _ (hne' f hf)]
      exact h.ready.type f d' hf hd'
  have hdocs : documentTexts r1 = docsOf (done ++ [d]) := by
    show (r.fragmentDocumentMap.set d.name (String.ofList (printFragment d))).map _ = _
    rw [dict_set_fresh hf2, List.map_append]
    have := h.documents
    unfold documentTexts at this
    rw [this]
    simp [docsOf]
  have hlook : ∃ e, c.schema.types.get? d.typeCondition = some e ∧
      ∃ ss r', fragmentBody prep c p d cls e r1 = .ok (ss, r') ∧ FragAfter c d r1 r' := by
    cases hg with
    | object ho h1 h2 =>
      obtain ⟨fs, is, hl⟩ := ho
      obtain ⟨desc, he⟩ := types_of_lookup hl
      refine ⟨_, he, ?_⟩
      exact go_objectFragment hs hne hr1 ⟨fs, is, hl⟩ h1 h2 fun r2 m => hdoc r2 (by
        unfold documentTexts; rw [m.documents]; exact hdocs)
    | interface hl h1 h2 h3 h4 h5 =>
      obtain ⟨desc, he⟩ := types_of_lookup hl
      exact ⟨_, he, go_interfaceFragment hs hne hcls0 hr1 hl h1 h2 h3 h4 h5⟩
    | union hl h1 h2 h3 h4 =>
      obtain ⟨desc, he⟩ := types_of_lookup hl
      exact ⟨_, he, go_unionFragment hs hne hr1 hl h1 h2 h3 h4⟩
  obtain ⟨e, he, ss, r', hb, ha⟩ := hlook
  refine ⟨ss, r', ?_, ?_⟩
  · unfold generateFragment
    simp only [he]
    refine Gen.bind_ok.2 ⟨cls, r.setClass .fragment d.name cls, ?_, Gen.bind_ok.2 ⟨(),
      { r with fragmentMap := r.fragmentMap.set d.name cls,
               fragmentDocumentMap := r.fragmentDocumentMap.set d.name (String.ofList (printFragment d)) }, ?_,
      Gen.bind_ok.2 ⟨(), r1, rfl, hb⟩⟩⟩
    · unfold generateClass
      simp only [Reg.classMap, hf1, hcls, Bool.false_eq_true, if_false]
    · unfold registerFragmentDocument
      simp only [Reg.setClass, hf2, Bool.false_eq_true, if_false]
  · have hfm : r'.fragmentMap = r.fragmentMap.set d.name cls := ha.classes .fragment
    have hmem : ∀ f, f ∈ (done ++ [d]).map (·.name) ↔ f ∈ done.map (·.name) ∨ f = d.name := by
      intro f; simp only [List.map_append, List.map_cons, List.map_nil, List.mem_append, List.mem_singleton]
    have hself : r1.interfaceFragmentImpl.get? d.name = none := h.impls _ hn
    refine ⟨⟨?_, ?_, ?_, ?_, ?_, ?_, ?_, ?_⟩, ?_, ?_, ?_, ?_, ha.helpers h.helpers⟩
    · intro n hk; rw [ha.scalar]; exact h.ready.scalar n hk
    · intro f hf
      rcases (hmem f).1 hf with hf | rfl
      · exact h.ready.named f hf
      · exact hn0
    · intro f hf
      rw [hfm]
      rcases (hmem f).1 hf with hf | rfl
      · rw [Dict.get?_set_ne _ _ (hne' f hf)]; exact h.ready.frag f hf
      · exact ⟨cls, Dict.get?_set_self _ _ _⟩
    · intro f d' hf hd'
      rw [ha.types]
      rcases (hmem f).1 hf with hf | rfl
      · exact hr1.type f d' hf hd'
      · rw [hd] at hd'; cases hd'
        exact Dict.get?_set_self _ _ _
    · intro f hf
      rcases (hmem f).1 hf with hf | rfl
      · exact h.ready.defined f hf
      · exact ⟨d, hd⟩
    · intro f d' m hf hd' hm
      rcases (hmem f).1 hf with hf | rfl
      · rw [ha.implOther f (hne' f hf).symm] at hm
        exact h.ready.impl f d' m hf hd' hm
      · rw [hd] at hd'; cases hd'
        exact ha.impl hself m hm
    · intro f d' ms hf hd' hl
      rcases (hmem f).1 hf with hf | rfl
      · rw [ha.membersOther f (hne' f hf).symm]
        exact h.ready.members f d' ms hf hd' hl
      · rw [hd] at hd'; cases hd'
        exact ha.members ms hl
    · exact ha.ifrags.trans h.ready.ifrags
    · unfold documentTexts; rw [ha.documents]; exact hdocs
    · intro f hf
      rw [hfm, Dict.contains_iff, Dict.mem_keys_set] at hf
      rw [hmem]
      rcases hf with hf | hf
      · first
          | exact .inr hf
          | exact .inl (h.keys f ((Dict.contains_iff _ _).2 hf))
      · first
          | exact .inr hf
          | exact .inl (h.keys f ((Dict.contains_iff _ _).2 hf))
    · intro f hf
      rw [hmem] at hf
      rw [ha.implOther f (fun he => hf (.inr he))]
      exact h.impls f (fun hm => hf (.inl hm))
    · intro k hk
      rw [ha.classes k, ← h.other k hk]
      cases k <;> first | rfl | exact absurd rfl hk

theorem generateFragments_go (hs : Stylable c.env) (hne : "" ∉ c.schema.types.keys) {prep : List Char → List Char}
    {p : FragmentsConfig} {r0 : Reg} (all : List FragDef) (hu : (all.map (·.name)).Nodup)
    (h0 : ∀ d ∈ all, d.name ≠ "" ∧ defs.get? d.name = some d)
    (hg : ∀ before d after, all = before ++ d :: after → GenerableFragment c defs (fun f => f ∈ before.map (·.name)) d)
    (hdoc : ∀ before d after r1, all = before ++ d :: after → documentTexts r1 = docsOf (before ++ [d]) →
      Go (mergedDocument prep (printFragment d)) r1) (todo : List FragDef) :
    ∀ (done : List FragDef) {r : Reg}, all = done ++ todo → FragState c defs r0 done r →
      ∃ ss r', generateFragments prep c p todo r = .ok (ss, r') ∧ FragState c defs r0 all r' := by
  induction todo with
  | nil =>
    intro done r he h
    rw [List.append_nil] at he
    subst he
    exact ⟨[], r, rfl, h⟩
  | cons d todo ih =>
    intro done r he h
    have hd : d ∈ all := by rw [he]; simp
    have hn : d.name ∉ done.map (·.name) := by
      rw [he, List.map_append, List.nodup_append] at hu
      intro hm
      exact hu.2.2 _ hm d.name (by simp) rfl
    obtain ⟨ss, r1, e1, h1⟩ := generateFragment_go hs hne (p := p) h (h0 d hd).2 hn (h0 d hd).1 (hg done d todo he)
      (fun r1 => hdoc done d todo r1 he)
    obtain ⟨ss2, r2, e2, h2⟩ := ih (done ++ [d]) (by rw [he]; simp) h1
    exact ⟨ss ++ ss2, r2, Gen.bind_ok.2 ⟨_, _, e1, Gen.bind_ok.2 ⟨_, _, e2, rfl⟩⟩, h2⟩

end
end Turms
