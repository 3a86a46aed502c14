import Verif.Lemmas.ModuleNames
import Verif.Lemmas.RebuildTypes
import Verif.Model.Enums

/-! # Which statements of a module are classes -/

namespace Turms
open Spec

/-- every statement defines a class -/
def Classes (ss : List Stmt) : Prop := ∀ s ∈ ss, ∃ n bs body ds, s = .classDef n bs body ds

theorem Classes.nil : Classes [] := fun _ h => by cases h
theorem Classes.append {a b : List Stmt} (ha : Classes a) (hb : Classes b) : Classes (a ++ b) := fun s hs =>
  (List.mem_append.1 hs).elim (ha s) (hb s)
theorem Classes.cons {n : String} {bs ds : List Expr} {body ss : List Stmt} (h : Classes ss) :
    Classes (.classDef n bs body ds :: ss) := by
  intro s hs
  rcases List.mem_cons.1 hs with rfl | hs
  · exact ⟨_, _, _, _, rfl⟩
  · exact h s hs
theorem Classes.one {n : String} {bs ds : List Expr} {body : List Stmt} : Classes [.classDef n bs body ds] := .cons .nil

theorem classes_implementingClasses {c : Ctx} {mother : String} {p : InterfaceParts} (is : List Implementation) :
    Yields (implementingClasses c mother p is) Classes := by
  induction is with
  | nil => exact .pure .nil
  | cons i is ih =>
    unfold implementingClasses
    refine Yields.bind (Q := fun s => Classes [s]) ?_ fun s hs => ih.bind fun ss hss => .pure (hs.append hss)
    unfold implementingClass
    exact .then fun _ => .then fun _ => .then fun _ => .pure .one

theorem classes_catchAll {c : Ctx} {mother : String} {e : Expr} :
    Yields (catchAll c mother e) fun x => Classes x.2 := by
  unfold catchAll
  exact .ite (fun _ => .then fun _ => .then fun _ => .then fun _ => .pure .one) fun _ => .pure .nil

theorem classes_namedNode {c : Ctx} {parent target : String} {sub : List Sel}
    {objs : String → List FieldDef → String → Gen ObjectParts} {ifcs : List FieldDef → String → Gen InterfaceParts}
    {uns : Gen (List String × List Stmt)}
    (hobj : ∀ n fs k, Yields (objs n fs k) fun p => Classes p.classes)
    (hifc : ∀ fs k, Yields (ifcs fs k) fun p => Classes p.classes)
    (huns : Yields uns fun x => Classes x.2) (n : String) (opt : Bool) :
    Yields (namedNode c parent target sub objs ifcs uns n opt) fun x => Classes x.2 := by
  unfold namedNode
  split
  · exact .then fun _ => .then fun _ => .pure .nil
  · exact .then fun _ => .then fun _ => .pure .nil
  · unfold objectNode
    refine .then fun tn => ?_
    split
    · exact .then fun _ => .then fun _ => .pure .nil
    · refine (hobj _ _ _).bind fun p hp => ?_
      unfold finishObject
      exact .then fun _ => .then fun _ => .then fun _ => .pure (hp.append .one)
  · unfold interfaceNode
    refine (hifc _ _).bind fun p hp => ?_
    exact .then fun _ => .then fun _ => .then fun _ => (classes_implementingClasses _).bind fun impls himpls =>
      .then fun _ => .then fun _ => classes_catchAll.bind fun x hx => .then fun _ => .pure
        (hp.append (.cons (himpls.append hx)))
  · unfold unionNode
    exact huns.bind fun p hp => .then fun _ => .pure hp
  · exact .fail

theorem classes_inlineClass {c : Ctx} {cls t : String} {p : ObjectParts} (hp : Classes p.classes) :
    Yields (inlineClass c cls t p) Classes := by
  unfold inlineClass
  exact .then fun _ => .then fun _ => .then fun _ => .pure (hp.append .one)

mutual
theorem classes_objectSel {c : Ctx} (s : Sel) : ∀ (t : String) (fs : List FieldDef) (cls : String),
    Yields (objectSel c t fs cls s) fun p => Classes p.classes := by
  intro t fs cls
  cases s with
  | spread f => unfold objectSel; exact .then fun _ => .pure .nil
  | inline t sub => unfold objectSel; exact .fail
  | field n a as sub =>
    unfold objectSel
    refine .ite (fun _ => .pure .nil) fun _ => .then fun fd => ?_
    exact (yields_typeField (P := Classes) fun opt => classes_namedNode
      (fun n fs k => classes_objectSels sub n fs k) (fun fs k => classes_interfaceSels sub fs k)
      (classes_unionSels sub _) _ opt).bind fun x hx => .pure hx
theorem classes_objectSels {c : Ctx} (ss : List Sel) : ∀ (t : String) (fs : List FieldDef) (cls : String),
    Yields (objectSels c t fs cls ss) fun p => Classes p.classes := by
  intro t fs cls
  cases ss with
  | nil => unfold objectSels; exact .pure .nil
  | cons s rest =>
    unfold objectSels
    exact (classes_objectSel s t fs cls).bind fun _ ha => (classes_objectSels rest t fs cls).bind fun _ hb =>
      .pure (ha.append hb)
theorem classes_interfaceSel {c : Ctx} (s : Sel) : ∀ (fs : List FieldDef) (base : String),
    Yields (interfaceSel c fs base s) fun p => Classes p.classes := by
  intro fs base
  cases s with
  | spread f => unfold interfaceSel; exact .then fun _ => .pure .nil
  | inline t sub =>
    cases t with
    | none => unfold interfaceSel; exact .fail
    | some t =>
      unfold interfaceSel
      exact .then fun _ => (classes_inlineSels sub t base).bind fun x hx => .pure hx
  | field n a as sub =>
    unfold interfaceSel
    refine .ite (fun _ => .pure .nil) fun _ => .then fun fd => ?_
    exact (yields_typeField (P := Classes) fun opt => classes_namedNode
      (fun n fs k => classes_objectSels sub n fs k) (fun fs k => classes_interfaceSels sub fs k)
      (classes_unionSels sub _) _ opt).bind fun x hx => .pure hx
theorem classes_interfaceSels {c : Ctx} (ss : List Sel) : ∀ (fs : List FieldDef) (base : String),
    Yields (interfaceSels c fs base ss) fun p => Classes p.classes := by
  intro fs base
  cases ss with
  | nil => unfold interfaceSels; exact .pure .nil
  | cons s rest =>
    unfold interfaceSels
    exact (classes_interfaceSel s fs base).bind fun _ ha => (classes_interfaceSels rest fs base).bind fun _ hb =>
      .pure (ha.append hb)
theorem classes_inlineSel {c : Ctx} (s : Sel) : ∀ (t parent : String),
    Yields (inlineSel c t parent s) fun p => Classes p.2 := by
  intro t parent
  cases s with
  | spread f => unfold inlineSel; exact .pure .nil
  | inline t sub => unfold inlineSel; exact .pure .nil
  | field n a as sub =>
    unfold inlineSel
    refine .ite (fun _ => .pure .nil) fun _ => .then fun fd => ?_
    exact yields_typeField (P := Classes) fun opt => classes_namedNode
      (fun n fs k => classes_objectSels sub n fs k) (fun fs k => classes_interfaceSels sub fs k)
      (classes_unionSels sub _) _ opt
theorem classes_inlineSels {c : Ctx} (ss : List Sel) : ∀ (t parent : String),
    Yields (inlineSels c t parent ss) fun p => Classes p.2 := by
  intro t parent
  cases ss with
  | nil => unfold inlineSels; exact .pure .nil
  | cons s rest =>
    unfold inlineSels
    exact (classes_inlineSel s t parent).bind fun _ ha => (classes_inlineSels rest t parent).bind fun _ hb =>
      .pure (ha.append hb)
theorem classes_unionSel {c : Ctx} (s : Sel) : ∀ (parent : String),
    Yields (unionSel c parent s) fun x => Classes x.2 := by
  intro parent
  cases s with
  | spread f => unfold unionSel; exact .then fun _ => .pure .nil
  | field n a as sub => unfold unionSel; exact .pure .nil
  | inline t sub =>
    cases t with
    | none => unfold unionSel; exact .fail
    | some t =>
      unfold unionSel
      exact (classes_unionInlineSels sub t _).bind fun p hp => (classes_inlineClass hp).bind fun ss hss => .pure hss
theorem classes_unionSels {c : Ctx} (ss : List Sel) : ∀ (parent : String),
    Yields (unionSels c parent ss) fun x => Classes x.2 := by
  intro parent
  cases ss with
  | nil => unfold unionSels; exact .pure .nil
  | cons s rest =>
    unfold unionSels
    exact (classes_unionSel s parent).bind fun _ ha => (classes_unionSels rest parent).bind fun _ hb => .pure (ha.append hb)
theorem classes_unionInlineSel {c : Ctx} (s : Sel) : ∀ (t cls : String),
    Yields (unionInlineSel c t cls s) fun p => Classes p.classes := by
  intro t cls
  cases s with
  | spread f => unfold unionInlineSel; exact .then fun _ => .pure .nil
  | inline t sub => unfold unionInlineSel; exact .pure .nil
  | field n a as sub =>
    unfold unionInlineSel
    refine .ite (fun _ => .pure .nil) fun _ => .then fun fd => ?_
    exact (yields_typeField (P := Classes) fun opt => classes_namedNode
      (fun n fs k => classes_objectSels sub n fs k) (fun fs k => classes_interfaceSels sub fs k)
      (classes_unionSels sub _) _ opt).bind fun x hx => .pure hx
theorem classes_unionInlineSels {c : Ctx} (ss : List Sel) : ∀ (t cls : String),
    Yields (unionInlineSels c t cls ss) fun p => Classes p.classes := by
  intro t cls
  cases ss with
  | nil => unfold unionInlineSels; exact .pure .nil
  | cons s rest =>
    unfold unionInlineSels
    exact (classes_unionInlineSel s t cls).bind fun _ ha => (classes_unionInlineSels rest t cls).bind fun _ hb =>
      .pure (ha.append hb)
end

theorem classes_typeFieldNode {c : Ctx} {cls n : String} {fd : FieldDef} {a : Option String} {sub : List Sel} :
    Yields (typeFieldNode c cls fd n a sub) fun x => Classes x.2 := by
  unfold typeFieldNode recurseNamed
  exact yields_typeField (P := Classes) fun opt => classes_namedNode
    (fun n fs k => classes_objectSels sub n fs k) (fun fs k => classes_interfaceSels sub fs k)
    (classes_unionSels sub _) _ opt

theorem classes_operationSels {c : Ctx} {root cls : String} (ss : List Sel) :
    Yields (operationSels c root cls ss) fun x => Classes x.2 := by
  induction ss with
  | nil => exact .pure .nil
  | cons s rest ih =>
    unfold operationSels
    refine Yields.bind (Q := fun x => Classes x.2) ?_ fun _ ha => ih.bind fun _ hb => .pure (ha.append hb)
    cases s with
    | spread f => unfold operationSel; exact .fail
    | inline t sub => unfold operationSel; exact .fail
    | field n a as sub => unfold operationSel; exact .then fun fd => classes_typeFieldNode

theorem classes_generateOperations {prep : List Char → List Char} {c : Ctx} {p : OperationsConfig} (os : List OpDef) :
    Yields (generateOperations prep c p os) Classes := by
  induction os with
  | nil => exact .pure .nil
  | cons o os ih =>
    unfold generateOperations
    refine Yields.bind (Q := Classes) ?_ fun _ ha => ih.bind fun _ hb => .pure (ha.append hb)
    unfold generateOperation
    split
    · exact .fail
    · exact .then fun _ => .then fun _ => .then fun _ => (classes_operationSels _).bind fun x hx => .then fun _ =>
        .then fun _ => .then fun _ => .pure (hx.append .one)

/-! ## fragments -/

/-- the statements that define no class define the alias of a fragment on a union, or nothing -/
def AliasOnly (c : Ctx) (fs : List FragDef) (ss : List Stmt) : Prop := ∀ s ∈ ss, ∀ n ∈ bound s,
  (∃ bs body ds, s = .classDef n bs body ds) ∨
  ∃ f ∈ fs, IsUnion c.schema f.typeCondition ∧ Kind.fragment.style c.env f.name = .ok n

theorem Classes.aliasOnly {c : Ctx} {fs : List FragDef} {ss : List Stmt} (h : Classes ss) : AliasOnly c fs ss := by
  intro s hs n hn
  obtain ⟨m, bs, body, ds, rfl⟩ := h s hs
  simp only [bound, List.mem_singleton] at hn
  subst hn
  exact .inl ⟨_, _, _, rfl⟩

theorem classes_fragImplementingClasses {c : Ctx} {name : String} {p : InterfaceParts} (is : List Implementation) :
    Yields (fragImplementingClasses c name p is) Classes := by
  induction is with
  | nil => exact .pure .nil
  | cons i is ih =>
    unfold fragImplementingClasses
    refine Yields.bind (Q := fun s => Classes [s]) ?_ fun s hs => ih.bind fun ss hss => .pure (hs.append hss)
    unfold fragImplementingClass
    exact .then fun _ => .then fun _ => .then fun _ => .pure .one

theorem classes_fragMemberClasses {c : Ctx} {p : FragmentsConfig} {name : String} {q : InterfaceParts} (ms : List String) :
    Yields (fragMemberClasses c p name q ms) Classes := by
  induction ms with
  | nil => exact .pure .nil
  | cons m ms ih =>
    unfold fragMemberClasses
    refine Yields.bind (Q := fun s => Classes [s]) ?_ fun s hs => ih.bind fun ss hss => .pure (hs.append hss)
    unfold fragMemberClass
    exact .then fun _ => .then fun _ => .pure .one

theorem classes_fragObjectSels {c : Ctx} {t name : String} (ss : List Sel) :
    Yields (fragObjectSels c t name ss) fun p => Classes p.classes := by
  induction ss with
  | nil => exact .pure .nil
  | cons s rest ih =>
    unfold fragObjectSels
    refine Yields.bind (Q := fun p => Classes p.classes) ?_
      fun x ha => ih.bind fun y hb => .pure (Classes.append (a := x.classes) (b := y.classes) ha hb)
    cases s with
    | spread f => unfold fragObjectSel; exact .then fun _ => .pure .nil
    | inline t sub => unfold fragObjectSel; exact .pure .nil
    | field n a as sub =>
      unfold fragObjectSel
      exact .ite (fun _ => .pure .nil) fun _ => .then fun fd => classes_typeFieldNode.bind fun x hx => .pure hx

theorem classes_fragInterfaceSels {c : Ctx} {name : String} {fs : List FieldDef} (ss : List Sel) :
    Yields (fragInterfaceSels c fs name ss) fun p => Classes p.classes := by
  induction ss with
  | nil => exact .pure .nil
  | cons s rest ih =>
    unfold fragInterfaceSels
    refine Yields.bind (Q := fun p => Classes p.classes) ?_
      fun x ha => ih.bind fun y hb => .pure (Classes.append (a := x.classes) (b := y.classes) ha hb)
    cases s with
    | spread f => exact classes_interfaceSel _ fs name
    | field n a as sub => exact classes_interfaceSel _ fs name
    | inline t' sub =>
      cases t' with
      | none => exact classes_interfaceSel _ fs name
      | some t' =>
        unfold fragInterfaceSel
        exact (classes_inlineSels sub t' name).bind fun x hx => .pure hx

theorem classes_fragUnionInlineSels {c : Ctx} {t name : String} (ss : List Sel) :
    Yields (fragUnionInlineSels c t name ss) fun p => Classes p.classes := by
  induction ss with
  | nil => exact .pure .nil
  | cons s rest ih =>
    unfold fragUnionInlineSels
    refine Yields.bind (Q := fun p => Classes p.classes) ?_
      fun x ha => ih.bind fun y hb => .pure (Classes.append (a := x.classes) (b := y.classes) ha hb)
    cases s with
    | spread f => unfold fragUnionInlineSel; exact .pure .nil
    | inline t sub => unfold fragUnionInlineSel; exact .pure .nil
    | field n a as sub =>
      unfold fragUnionInlineSel
      exact .ite (fun _ => .pure .nil) fun _ => .then fun fd => classes_typeFieldNode.bind fun x hx => .pure hx

theorem classes_fragUnionSels {c : Ctx} {name : String} (ss : List Sel) :
    Yields (fragUnionSels c name ss) fun p => Classes p.classes := by
  induction ss with
  | nil => exact .pure .nil
  | cons s rest ih =>
    unfold fragUnionSels
    refine Yields.bind (Q := fun p => Classes p.classes) ?_
      fun x ha => ih.bind fun y hb => .pure (Classes.append (a := x.classes) (b := y.classes) ha hb)
    cases s with
    | spread f => unfold fragUnionSel; exact .then fun _ => .pure .nil
    | field n a as sub => unfold fragUnionSel; exact .ite (fun _ => .pure .nil) fun _ => .fail
    | inline t sub =>
      cases t with
      | none => unfold fragUnionSel; exact .fail
      | some t =>
        unfold fragUnionSel
        exact (classes_fragUnionInlineSels sub).bind fun x hx => .pure hx

theorem AliasOnly.append {c : Ctx} {fs : List FragDef} {a b : List Stmt} (ha : AliasOnly c fs a) (hb : AliasOnly c fs b) :
    AliasOnly c fs (a ++ b) := fun s hs => (List.mem_append.1 hs).elim (ha s) (hb s)

theorem aliasOnly_fragmentBody {prep : List Char → List Char} {c : Ctx} {p : FragmentsConfig} {f : FragDef} {name : String}
    {e : TypeEntry} {fs : List FragDef} (hf : f ∈ fs) (he : c.schema.types.get? f.typeCondition = some e)
    (hn : Kind.fragment.style c.env f.name = .ok name) : Yields (fragmentBody prep c p f name e) (AliasOnly c fs) := by
  unfold fragmentBody
  split
  · unfold interfaceFragment
    exact .then fun _ => (classes_fragInterfaceSels f.sels).bind fun q hq => .then fun _ => .then fun _ =>
      (classes_fragImplementingClasses _).bind fun impls himpls => .then fun _ => .pure
        (Classes.aliasOnly ((hq.append (.cons .one)).append himpls))
  · unfold objectFragment
    exact .then fun _ => .then fun _ => (classes_fragObjectSels f.sels).bind fun q hq =>
      .then fun _ => .then fun _ => .then fun _ => .pure (Classes.aliasOnly (hq.append .one))
  · rename_i ms d
    unfold unionFragment
    refine .then fun _ => (classes_fragUnionSels f.sels).bind fun q hq => (classes_fragMemberClasses _).bind fun cs hcs =>
      .then fun _ => .then fun _ => .pure ?_
    refine AliasOnly.append (AliasOnly.append (Classes.aliasOnly (hq.append hcs)) ?_) ?_
    · intro s hs n hb
      obtain rfl := List.mem_singleton.1 hs
      simp only [bound, List.mem_singleton] at hb
      subst hb
      exact .inr ⟨f, hf, ⟨ms, by unfold Schema.lookup; rw [he]; rfl⟩, hn⟩
    · intro s hs n hb
      split at hs
      · obtain rfl := List.mem_singleton.1 hs
        simp [bound] at hb
      · cases hs
  · exact .fail

theorem aliasOnly_generateFragments {prep : List Char → List Char} {c : Ctx} {p : FragmentsConfig} {all : List FragDef}
    (fs : List FragDef) (h : ∀ f ∈ fs, f ∈ all) : Yields (generateFragments prep c p fs) (AliasOnly c all) := by
  induction fs with
  | nil => exact .pure fun _ h => by cases h
  | cons f fs ih =>
    unfold generateFragments
    refine Yields.bind (Q := AliasOnly c all) ?_ fun _ ha => (ih fun g hg => h g (List.mem_cons_of_mem _ hg)).bind fun _ hb =>
      .pure (ha.append hb)
    unfold generateFragment
    split
    · exact .fail
    · rename_i e he
      refine Yields.bind (Q := fun n => Kind.fragment.style c.env f.name = .ok n)
        (fun r a r' h => (generateClass_ok h).2.1) fun n hn => .then fun _ => .then fun _ =>
        aliasOnly_fragmentBody (h f (List.mem_cons_self ..)) he hn

theorem fragmentBody_class {prep : List Char → List Char} {c : Ctx} {p : FragmentsConfig} {f : FragDef} {name : String}
    {e : TypeEntry} (he : c.schema.types.get? f.typeCondition = some e) : Yields (fragmentBody prep c p f name e) fun ss =>
      IsInterface c.schema f.typeCondition ∨ IsUnion c.schema f.typeCondition ∨
      ∃ bs body ds, Stmt.classDef name bs body ds ∈ ss := by
  have hl : ∀ d, e.defn = d → c.schema.lookup f.typeCondition = some d := by
    rintro d rfl
    unfold Schema.lookup
    rw [he]
    rfl
  unfold fragmentBody
  split
  · exact fun r a r' _ => .inl ⟨_, _, hl _ rfl⟩
  · unfold objectFragment
    exact .then fun _ => .then fun _ => .then fun _ => .then fun _ => .then fun _ => .then fun _ => .pure
      (.inr (.inr ⟨_, _, _, List.mem_append_right _ (List.mem_singleton.2 rfl)⟩))
  · exact fun r a r' _ => .inr (.inl ⟨_, hl _ rfl⟩)
  · exact .fail

theorem generateFragments_class {prep : List Char → List Char} {c : Ctx} {p : FragmentsConfig} (fs : List FragDef) :
    Yields (generateFragments prep c p fs) fun ss => ∀ f ∈ fs, ∀ m, Kind.fragment.style c.env f.name = .ok m →
      IsInterface c.schema f.typeCondition ∨ IsUnion c.schema f.typeCondition ∨
      ∃ bs body ds, Stmt.classDef m bs body ds ∈ ss := by
  induction fs with
  | nil => exact .pure fun _ h => by cases h
  | cons f fs ih =>
    unfold generateFragments
    refine Yields.bind (Q := fun ss => ∀ m, Kind.fragment.style c.env f.name = .ok m →
      IsInterface c.schema f.typeCondition ∨ IsUnion c.schema f.typeCondition ∨
      ∃ bs body ds, Stmt.classDef m bs body ds ∈ ss) ?_ fun a ha => ih.bind fun b hb => .pure ?_
    · unfold generateFragment
      split
      · exact .fail
      · rename_i e he
        refine Yields.bind (Q := fun n => Kind.fragment.style c.env f.name = .ok n)
          (fun r a r' h => (generateClass_ok h).2.1) fun n hn => .then fun _ => .then fun _ =>
          (fragmentBody_class he).mono fun ss h m hm => ?_
        rw [hn] at hm
        cases hm
        exact h
    · intro g hg m hm
      rcases List.mem_cons.1 hg with rfl | hg
      · rcases ha m hm with h | h | ⟨x, y, z, h⟩
        · exact .inl h
        · exact .inr (.inl h)
        · exact .inr (.inr ⟨x, y, z, List.mem_append_left _ h⟩)
      · rcases hb g hg m hm with h | h | ⟨x, y, z, h⟩
        · exact .inl h
        · exact .inr (.inl h)
        · exact .inr (.inr ⟨x, y, z, List.mem_append_right _ h⟩)

/-! ## enums -/

theorem classes_generateEnums {c : Ctx} {p : EnumsConfig} : Yields (generateEnums c p) Classes := by
  unfold generateEnums
  refine .then fun _ => ?_
  generalize enumTypes c.schema = ts
  induction ts with
  | nil => exact .pure .nil
  | cons t ts ih =>
    unfold enumLoop
    refine Yields.bind (Q := Classes) ?_ fun _ ha => ih.bind fun _ hb => .pure (ha.append hb)
    unfold enumStep
    refine .ite (fun _ => .pure .nil) fun _ => .ite (fun _ => .pure .nil) fun _ => .ite (fun _ => .pure .nil) fun _ =>
      .then fun _ => .pure .one

theorem Classes.bound {ss : List Stmt} (h : Classes ss) {n : String} (hn : n ∈ boundL ss) : IsClass ss n := by
  obtain ⟨s, hs, hn⟩ := List.mem_flatMap.1 hn
  obtain ⟨m, bs, body, ds, rfl⟩ := h s hs
  simp only [Spec.bound, List.mem_singleton] at hn
  subst hn
  exact ⟨_, _, _, hs⟩

end Turms
