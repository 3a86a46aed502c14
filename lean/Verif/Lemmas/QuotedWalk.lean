import Verif.Lemmas.Quoted

/-! # Walking selections: which names the generated classes quote -/

namespace Turms
open Spec

/-- an annotation and classes -/
def QNode (E : String → Prop) (x : Expr × List Stmt) : Prop := QIn E x.1 ∧ QBody E x.2
/-- declarations and classes -/
def QPair (E : String → Prop) (x : List Stmt × List Stmt) : Prop := QBody E x.1 ∧ QBody E x.2
/-- the parts of an object class -/
def QParts (E : String → Prop) (p : ObjectParts) : Prop := QBody E p.body ∧ QBody E p.classes
/-- the parts of the classes of an interface -/
def QIParts (E : String → Prop) (p : InterfaceParts) : Prop :=
  QBody E p.body ∧ QBody E p.classes ∧ ∀ q ∈ p.inlineBodies, QBody E q.2

/-- What may be quoted: the classes of the enums of the schema, registered helper classes, the classes of the
fragments in `S`. -/
structure Quotable (c : Ctx) (S B E : String → Prop) : Prop where
  builtin : ∀ b, B b → b ∈ builtinNames → E b
  enum : ∀ t m, IsEnum c.schema t → t ∉ builtinNames → Kind.enum.style c.env t = .ok m → E m
  fragment : ∀ f m, S f → Kind.fragment.style c.env f = .ok m → E m

section
variable {B E S : String → Prop} {c : Ctx}

theorem QParts.empty : QParts E {} := ⟨.nil, .nil⟩
theorem QIParts.empty : QIParts E {} := ⟨.nil, .nil, fun _ h => by cases h⟩
theorem QParts.append {a b : ObjectParts} (ha : QParts E a) (hb : QParts E b) : QParts E (a.append b) :=
  ⟨ha.1.append hb.1, ha.2.append hb.2⟩
theorem QIParts.append {a b : InterfaceParts} (ha : QIParts E a) (hb : QIParts E b) : QIParts E (a.append b) :=
  ⟨ha.1.append hb.1, ha.2.1.append hb.2.1, fun q hq => (List.mem_append.1 hq).elim (ha.2.2 q) (hb.2.2 q)⟩
theorem QIParts.bodyFor {p : InterfaceParts} (h : QIParts E p) (t : String) : QBody E (p.bodyFor t) := by
  unfold InterfaceParts.bodyFor
  refine QBody.flatten fun b hb => ?_
  obtain ⟨q, hq, rfl⟩ := List.mem_map.1 hb
  exact h.2.2 q (List.mem_filter.1 hq).1

theorem q_typenameImports : Quotes B typenameImports fun _ => True := by
  unfold typenameImports
  exact q_registerImport.then fun _ => q_registerImport.then fun _ => q_registerImport

theorem q_typenameField {t : String} : Quotes B (typenameField c t) fun s => ∀ m ∈ quotedIn s, E m := by
  unfold typenameField
  exact q_typenameImports.then fun _ => .pure (qb_ann qin_literal)

theorem q_genericTypenameField : Quotes B (genericTypenameField c) fun s => ∀ m ∈ quotedIn s, E m := by
  unfold genericTypenameField
  exact q_typenameImports.then fun _ => .pure (qb_ann qin_name)

theorem q_fieldNamed {n : String} {fs : List FieldDef} : Quotes B (fieldNamed n fs) fun _ => True := by
  unfold fieldNamed
  split
  · exact .pure trivial
  · exact .fail

theorem q_wrapOutput {leaf : String → Bool → Gen (Expr × List Stmt)} (hl : ∀ n o, Quotes B (leaf n o) (QNode E))
    (t : TypeNode) : ∀ {o : Bool}, Quotes B (wrapOutput c leaf t o) (QNode E) := by
  induction t with
  | named n => intro o; unfold wrapOutput; exact hl n o
  | nonNull t ih => intro o; unfold wrapOutput; exact ih
  | list t ih =>
    intro o
    unfold wrapOutput
    exact q_listImport.then fun _ => ih.bind fun x => (q_optionalWrap (E := E)).bind fun e =>
      .pure fun he hx => ⟨he (q_listBuilder hx.1), hx.2⟩

theorem q_finishField {n t : String} {fd : FieldDef} {a : Expr} :
    Quotes B (finishField c n t fd a) fun s => QIn E a → QBody E s := by
  unfold finishField
  refine (q_annotateFieldMetadata (E := E)).bind fun a' => q_objectFieldValue.then fun v => .pure fun ha' ha => ?_
  refine .cons (qb_ann (ha' ha)) ?_
  split
  · exact .one qb_expr
  · exact .nil

theorem q_typeField {fd : FieldDef} {t : String} {leaf : String → Bool → Gen (Expr × List Stmt)}
    (hl : ∀ n o, Quotes B (leaf n o) (QNode E)) : Quotes B (typeField c fd t leaf) (QPair E) := by
  unfold typeField
  exact q_nodeName.then fun _ => (q_wrapOutput hl _).bind fun x => (q_finishField (E := E)).bind fun s =>
    .pure fun hs hx => ⟨hs hx.1, hx.2⟩

theorem q_getImpl {f t : String} : Quotes B (getInterfaceFragmentImplementationOrNone f t) fun _ => True :=
  .of_same fun r a r' h => by
    unfold getInterfaceFragmentImplementationOrNone at h
    repeat' (split at h)
    all_goals first | (cases h; rfl) | cases h

theorem q_inheritFragment {f : String} : Quotes B (inheritFragment f) fun _ => True :=
  .of_same fun r a r' h => by
    unfold inheritFragment at h
    split at h <;> first | (cases h; rfl) | cases h

theorem q_spreadBase {f t : String} : Quotes B (spreadBase f t) fun _ => True := by
  unfold spreadBase
  refine q_getImpl.then fun i => ?_
  split
  · exact .pure trivial
  · exact q_inheritFragment

theorem q_collapseReference (hQ : Quotable c S B E) {p f t : String} (hf : S f) :
    Quotes B (collapseReference c p f t) (QIn E) := by
  unfold collapseReference
  refine q_getImpl.then fun i => ?_
  split
  · exact .pure qin_name
  · exact q_referenceGeneric fun m hm => hQ.fragment f m hf hm

theorem q_spreadImplementations {f : String} : Quotes B (spreadImplementations f) fun _ => True :=
  .of_same fun r a r' h => by
    unfold spreadImplementations at h
    split at h
    · cases h; rfl
    · split at h
      · cases h
      · split at h
        · cases h
        · rename_i hi
          cases h
          unfold inheritFragment at hi
          split at hi <;> first | (cases hi; rfl) | cases hi

theorem q_spreadOrAdditional {t : String} {bs : List String} : Quotes B (spreadOrAdditional c t bs) fun _ => True := by
  unfold spreadOrAdditional
  exact .ite (fun _ => q_additionalBasesFor) fun _ => .pure trivial

theorem q_finishObject {cls t : String} {d : Option String} {tn : Stmt} {p : ObjectParts} {o : Bool} :
    Quotes B (finishObject c cls t d tn p o) fun x => (∀ m ∈ quotedIn tn, E m) → QParts E p → QNode E x := by
  unfold finishObject
  refine q_spreadOrAdditional.then fun bs => (q_config (E := E)).bind fun cfg => (q_optionalWrap (E := E)).bind fun e =>
    .pure fun he hc ht hp => ⟨he qin_name, hp.2.append (.one (qb_class (.cons qb_docStmt (.cons ht (hp.1.append hc)))))⟩

theorem q_objectNode (hQ : Quotable c S B E) {parent target t : String} {d : Option String} {sub : List Sel}
    {walk : String → Gen ObjectParts} {o : Bool} (hS : ∀ f, Sel.spread f ∈ sub → S f)
    (hw : ∀ cls, Quotes B (walk cls) (QParts E)) :
    Quotes B (objectNode c parent target t d sub walk o) (QNode E) := by
  unfold objectNode
  refine (q_typenameField (E := E)).bind fun tn => ?_
  split
  · rename_i f heq
    have hf : S f := hS f (by
      have : Sel.spread f ∈ nonTypenameFields sub := by rw [heq]; exact List.mem_singleton.2 rfl
      exact (List.mem_filter.1 this).1)
    exact (q_collapseReference hQ hf).bind fun x => (q_optionalWrap (E := E)).bind fun e =>
      .pure fun he hx _ => ⟨he hx, .nil⟩
  · exact (hw _).bind fun p => (q_finishObject (E := E)).mono fun x h hp ht => h ht hp

theorem q_implementingClass {m : String} {p : InterfaceParts} {i : Implementation} :
    Quotes B (implementingClass c m p i) fun s => QIParts E p → ∀ m ∈ quotedIn s, E m := by
  unfold implementingClass
  exact q_additionalBasesFor.then fun _ => q_interfaceBasesOf.then fun _ => (q_typenameField (E := E)).bind fun tn =>
    .pure fun ht hp => qb_class (.cons qb_docStmt (.cons ht (hp.bodyFor _)))

theorem q_implementingClasses {m : String} {p : InterfaceParts} (is : List Implementation) :
    Quotes B (implementingClasses c m p is) fun s => QIParts E p → QBody E s := by
  induction is with
  | nil => exact .pure fun _ => .nil
  | cons i is ih =>
    unfold implementingClasses
    exact (q_implementingClass (E := E)).bind fun s => ih.bind fun rest => .pure fun hr hs hp => .cons (hs hp) (hr hp)

theorem qin_taggedUnion {l : List String} : QIn E (taggedUnion l) :=
  qin_sub (qin_tuple (qinL_cons (qin_sub (qin_tuple qinL_names)) (qinL_cons qin_call qinL_nil)))

theorem q_catchAll {m : String} {e : Expr} (he : QIn E e) : Quotes B (catchAll c m e) (QNode E) := by
  unfold catchAll
  refine .ite (fun _ => ?_) fun _ => .pure ⟨he, .nil⟩
  exact q_interfaceBasesOf.then fun _ => (q_genericTypenameField (E := E)).bind fun tn => q_registerImport.then fun _ =>
    .pure fun ht => ⟨qin_sub (qin_tuple (qinL_cons he (qinL_cons qin_name qinL_nil))),
      .one (qb_class (.cons qb_expr (.one ht)))⟩

theorem q_interfaceNode {parent target t : String} {d : Option String} {walk : String → Gen InterfaceParts} {o : Bool}
    (hw : ∀ cls, Quotes B (walk cls) (QIParts E)) : Quotes B (interfaceNode c parent target t d walk o) (QNode E) := by
  unfold interfaceNode
  refine (hw _).bind fun p => q_additionalBasesFor.then fun _ => q_interfaceBasesOf.then fun _ =>
    (q_config (E := E)).bind fun cfg => (q_implementingClasses (E := E) _).bind fun impls => q_registerImport.then fun _ =>
    q_registerImport.then fun _ => (q_catchAll qin_taggedUnion).bind fun x => (q_optionalWrap (E := E)).bind fun e =>
    .pure fun he hx hi hc hp => ⟨he hx.1, hp.2.1.append (.cons (qb_class (.cons qb_docStmt (hp.1.append hc)))
      ((hi hp).append hx.2))⟩

theorem q_inlineTypename {t : String} {bs : List String} : Quotes B (inlineTypename c t bs) (QBody E) := by
  unfold inlineTypename
  exact .ite (fun _ => (q_typenameField (E := E)).bind fun t => .pure fun h => .one h) fun _ => .pure .nil

theorem q_inlineClass {cls t : String} {p : ObjectParts} :
    Quotes B (inlineClass c cls t p) fun s => QParts E p → QBody E s := by
  unfold inlineClass
  refine (q_inlineTypename (E := E)).bind fun tn => q_spreadOrAdditional.then fun _ => (q_config (E := E)).bind fun cfg =>
    .pure fun hc ht hp => hp.2.append (.one (qb_class ?_))
  split
  · exact .one (by intro m hm; simp [quotedIn] at hm)
  · exact (ht.append hp.1).append hc

theorem q_unionReference {l : List String} {o : Bool} : Quotes B (unionReference l o) (QIn E) := by
  unfold unionReference
  split
  · exact .fail
  · exact .pure qin_name
  · exact q_registerImport.then fun _ => (q_optionalWrap (E := E)).mono fun e h => h (qin_sub (qin_tuple qinL_names))

theorem q_unionNode {walk : Gen (List String × List Stmt)} {o : Bool} (hw : Quotes B walk fun x => QBody E x.2) :
    Quotes B (unionNode walk o) (QNode E) := by
  unfold unionNode
  exact hw.bind fun p => (q_unionReference (E := E)).bind fun e => .pure fun he hp => ⟨he, hp⟩

theorem q_namedNode (hQ : Quotable c S B E) {parent target : String} {sub : List Sel}
    {objs : String → List FieldDef → String → Gen ObjectParts}
    {ifcs : List FieldDef → String → Gen InterfaceParts} {uns : Gen (List String × List Stmt)}
    (hS : ∀ f, Sel.spread f ∈ sub → S f)
    (ho : ∀ n fs k, Quotes B (objs n fs k) (QParts E)) (hi : ∀ fs k, Quotes B (ifcs fs k) (QIParts E))
    (hu : Quotes B uns fun x => QBody E x.2) (n : String) (o : Bool) :
    Quotes B (namedNode c parent target sub objs ifcs uns n o) (QNode E) := by
  unfold namedNode
  split
  · exact (q_referenceScalar (E := E)).bind fun x => (q_optionalWrap (E := E)).bind fun e => .pure fun he hx => ⟨he hx, .nil⟩
  · rename_i vs d ht
    refine (q_referenceEnum (E := E) hQ.builtin fun _ hb m hm => hQ.enum n m ⟨vs, ?_⟩ hb hm).bind fun x =>
      (q_optionalWrap (E := E)).bind fun e => .pure fun he hx => ⟨he hx, .nil⟩
    unfold Schema.lookup
    rw [ht]
    rfl
  · exact q_objectNode hQ hS (ho _ _)
  · exact q_interfaceNode (hi _)
  · exact q_unionNode hu
  · exact .fail

theorem q_inlineSpreadBase {f : String} : Quotes B (inlineSpreadBase f) fun _ => True :=
  .of_same fun r a r' h => by
    unfold inlineSpreadBase inheritFragment at h
    split at h
    · cases h
    · split at h <;> first | (cases h; rfl) | cases h

theorem q_objectFieldNamed {s : Schema} {t n : String} : Quotes B (objectFieldNamed s t n) fun _ => True := by
  unfold objectFieldNamed
  split
  · exact q_fieldNamed
  · exact .fail

theorem q_fieldDefOf {s : Schema} {t n : String} : Quotes B (fieldDefOf s t n) fun _ => True := by
  unfold fieldDefOf
  split
  · exact .pure trivial
  · exact .fail

theorem q_assertFieldDef {s : Schema} {t n : String} : Quotes B (assertFieldDef s t n) fun _ => True := by
  unfold assertFieldDef
  split
  · exact .pure trivial
  · exact .fail

theorem q_requireObject {s : Schema} {t : String} : Quotes B (requireObject s t) fun _ => True := by
  unfold requireObject
  split
  · exact .pure trivial
  · exact .fail
end

section
variable {B E S : String → Prop} {c : Ctx} (hQ : Quotable c S B E)
include hQ

mutual
theorem q_objectSel (s : Sel) : SpreadsIn S [s] → ∀ (t : String) (fs : List FieldDef) (cls : String),
    Quotes B (objectSel c t fs cls s) (QParts E) := by
  intro h t fs cls
  cases s with
  | spread f => unfold objectSel; exact q_spreadBase.then fun _ => .pure .empty
  | inline t sub => unfold objectSel; exact .fail
  | field n a as sub =>
    unfold objectSel
    refine .ite (fun _ => .pure .empty) fun _ => ?_
    exact q_fieldNamed.then fun fd => (q_typeField (E := E) (q_namedNode hQ h.field.mem
      (fun n fs k => q_objectSels sub h.field n fs k) (fun fs k => q_interfaceSels sub h.field fs k)
      (q_unionSels sub h.field _))).bind fun x => .pure fun hx => ⟨hx.1, hx.2⟩
theorem q_objectSels (ss : List Sel) : SpreadsIn S ss → ∀ (t : String) (fs : List FieldDef) (cls : String),
    Quotes B (objectSels c t fs cls ss) (QParts E) := by
  intro h t fs cls
  cases ss with
  | nil => unfold objectSels; exact .pure .empty
  | cons s rest =>
    unfold objectSels
    exact (q_objectSel s h.head t fs cls).bind fun _ => (q_objectSels rest h.tail t fs cls).bind fun _ =>
      .pure fun hb ha => ha.append hb
theorem q_interfaceSel (s : Sel) : SpreadsIn S [s] → ∀ (fs : List FieldDef) (base : String),
    Quotes B (interfaceSel c fs base s) (QIParts E) := by
  intro h fs base
  cases s with
  | spread f =>
    unfold interfaceSel
    exact q_spreadImplementations.then fun _ => .pure ⟨.nil, .nil, fun _ h => by cases h⟩
  | inline t sub =>
    cases t with
    | none => unfold interfaceSel; exact .fail
    | some t =>
      unfold interfaceSel
      refine q_requireObject.then fun _ => (q_inlineSels sub h.inline t base).bind fun x => .pure fun hx => ⟨.nil, hx.2, ?_⟩
      intro q hq
      rw [List.mem_singleton.1 hq]
      exact hx.1
  | field n a as sub =>
    unfold interfaceSel
    refine .ite (fun _ => .pure .empty) fun _ => ?_
    exact q_fieldNamed.then fun fd => (q_typeField (E := E) (q_namedNode hQ h.field.mem
      (fun n fs k => q_objectSels sub h.field n fs k) (fun fs k => q_interfaceSels sub h.field fs k)
      (q_unionSels sub h.field _))).bind fun x => .pure fun hx => ⟨hx.1, hx.2, fun _ h => by cases h⟩
theorem q_interfaceSels (ss : List Sel) : SpreadsIn S ss → ∀ (fs : List FieldDef) (base : String),
    Quotes B (interfaceSels c fs base ss) (QIParts E) := by
  intro h fs base
  cases ss with
  | nil => unfold interfaceSels; exact .pure .empty
  | cons s rest =>
    unfold interfaceSels
    exact (q_interfaceSel s h.head fs base).bind fun _ => (q_interfaceSels rest h.tail fs base).bind fun _ =>
      .pure fun hb ha => ha.append hb
theorem q_inlineSel (s : Sel) : SpreadsIn S [s] → ∀ (t parent : String),
    Quotes B (inlineSel c t parent s) (QPair E) := by
  intro h t parent
  cases s with
  | spread f => unfold inlineSel; exact .pure ⟨.nil, .nil⟩
  | inline t sub => unfold inlineSel; exact .pure ⟨.nil, .nil⟩
  | field n a as sub =>
    unfold inlineSel
    refine .ite (fun _ => .pure ⟨.nil, .nil⟩) fun _ => ?_
    exact q_fieldDefOf.then fun fd => q_typeField (E := E) (q_namedNode hQ h.field.mem
      (fun n fs k => q_objectSels sub h.field n fs k) (fun fs k => q_interfaceSels sub h.field fs k)
      (q_unionSels sub h.field _))
theorem q_inlineSels (ss : List Sel) : SpreadsIn S ss → ∀ (t parent : String),
    Quotes B (inlineSels c t parent ss) (QPair E) := by
  intro h t parent
  cases ss with
  | nil => unfold inlineSels; exact .pure ⟨.nil, .nil⟩
  | cons s rest =>
    unfold inlineSels
    exact (q_inlineSel s h.head t parent).bind fun _ => (q_inlineSels rest h.tail t parent).bind fun _ =>
      .pure fun hb ha => ⟨ha.1.append hb.1, ha.2.append hb.2⟩
theorem q_unionSel (s : Sel) : SpreadsIn S [s] → ∀ (parent : String),
    Quotes B (unionSel c parent s) fun x => QBody E x.2 := by
  intro h parent
  cases s with
  | spread f => unfold unionSel; exact q_inheritFragment.then fun _ => .pure .nil
  | inline t sub =>
    cases t with
    | none => unfold unionSel; exact .fail
    | some t =>
      unfold unionSel
      exact (q_unionInlineSels sub h.inline t _).bind fun p => (q_inlineClass (E := E)).bind fun s =>
        .pure fun hs hp => hs hp
  | field n a as sub => unfold unionSel; exact .pure .nil
theorem q_unionSels (ss : List Sel) : SpreadsIn S ss → ∀ (parent : String),
    Quotes B (unionSels c parent ss) fun x => QBody E x.2 := by
  intro h parent
  cases ss with
  | nil => unfold unionSels; exact .pure .nil
  | cons s rest =>
    unfold unionSels
    exact (q_unionSel s h.head parent).bind fun _ => (q_unionSels rest h.tail parent).bind fun _ =>
      .pure fun hb ha => ha.append hb
theorem q_unionInlineSel (s : Sel) : SpreadsIn S [s] → ∀ (t cls : String),
    Quotes B (unionInlineSel c t cls s) (QParts E) := by
  intro h t cls
  cases s with
  | spread f => unfold unionInlineSel; exact q_inlineSpreadBase.then fun _ => .pure .empty
  | inline t sub => unfold unionInlineSel; exact .pure .empty
  | field n a as sub =>
    unfold unionInlineSel
    refine .ite (fun _ => .pure .empty) fun _ => ?_
    exact q_objectFieldNamed.then fun fd => (q_typeField (E := E) (q_namedNode hQ h.field.mem
      (fun n fs k => q_objectSels sub h.field n fs k) (fun fs k => q_interfaceSels sub h.field fs k)
      (q_unionSels sub h.field _))).bind fun x => .pure fun hx => ⟨hx.1, hx.2⟩
theorem q_unionInlineSels (ss : List Sel) : SpreadsIn S ss → ∀ (t cls : String),
    Quotes B (unionInlineSels c t cls ss) (QParts E) := by
  intro h t cls
  cases ss with
  | nil => unfold unionInlineSels; exact .pure .empty
  | cons s rest =>
    unfold unionInlineSels
    exact (q_unionInlineSel s h.head t cls).bind fun _ => (q_unionInlineSels rest h.tail t cls).bind fun _ =>
      .pure fun hb ha => ha.append hb
end

theorem q_typeFieldNode {parent n : String} {fd : FieldDef} {a : Option String} {sub : List Sel} (h : SpreadsIn S sub) :
    Quotes B (typeFieldNode c parent fd n a sub) (QPair E) := by
  unfold typeFieldNode recurseNamed
  exact q_typeField (E := E) (q_namedNode hQ h.mem
    (fun n fs k => q_objectSels hQ sub h n fs k) (fun fs k => q_interfaceSels hQ sub h fs k)
    (q_unionSels hQ sub h _))

/-! ## fragments -/

theorem q_fragInterfaceSels {fs : List FieldDef} {name : String} (ss : List Sel) (h : SpreadsIn S ss) :
    Quotes B (fragInterfaceSels c fs name ss) (QIParts E) := by
  induction ss with
  | nil => exact .pure .empty
  | cons s rest ih =>
    unfold fragInterfaceSels
    have hs : Quotes B (fragInterfaceSel c fs name s) (QIParts E) := by
      unfold fragInterfaceSel
      split
      · rename_i t sub
        refine (q_inlineSels hQ sub h.inline t name).bind fun x => .pure fun hx => ⟨.nil, hx.2, ?_⟩
        intro q hq
        rw [List.mem_singleton.1 hq]
        exact hx.1
      · exact q_interfaceSel hQ s h.head fs name
    exact hs.bind fun _ => (ih h.tail).bind fun _ => .pure fun hb ha => ha.append hb

theorem q_fragObjectSels {t name : String} (ss : List Sel) (h : SpreadsIn S ss) :
    Quotes B (fragObjectSels c t name ss) (QParts E) := by
  induction ss with
  | nil => exact .pure .empty
  | cons s rest ih =>
    unfold fragObjectSels
    have hs : Quotes B (fragObjectSel c t name s) (QParts E) := by
      unfold fragObjectSel
      split
      · refine Quotes.then (P := fun _ => True) (.of_same fun r a r' e => ?_) fun _ => .pure .empty
        unfold fragSpreadBase inheritFragment at e
        repeat' (split at e)
        all_goals first | (cases e; rfl) | cases e
      · exact .pure .empty
      · refine .ite (fun _ => .pure .empty) fun _ => ?_
        exact q_assertFieldDef.then fun fd => (q_typeFieldNode hQ h.field).bind fun x => .pure fun hx => ⟨hx.1, hx.2⟩
    exact hs.bind fun _ => (ih h.tail).bind fun _ => .pure fun hb ha => ha.append hb

theorem q_fragUnionInlineSels {t name : String} (ss : List Sel) (h : SpreadsIn S ss) :
    Quotes B (fragUnionInlineSels c t name ss) (QParts E) := by
  induction ss with
  | nil => exact .pure .empty
  | cons s rest ih =>
    unfold fragUnionInlineSels
    have hs : Quotes B (fragUnionInlineSel c t name s) (QParts E) := by
      unfold fragUnionInlineSel
      split
      · exact .pure .empty
      · exact .pure .empty
      · refine .ite (fun _ => .pure .empty) fun _ => ?_
        exact q_assertFieldDef.then fun fd => (q_typeFieldNode hQ h.field).bind fun x => .pure fun hx => ⟨hx.1, hx.2⟩
    exact hs.bind fun _ => (ih h.tail).bind fun _ => .pure fun hb ha => ha.append hb

theorem q_fragUnionSels {name : String} (ss : List Sel) (h : SpreadsIn S ss) :
    Quotes B (fragUnionSels c name ss) (QIParts E) := by
  induction ss with
  | nil => exact .pure .empty
  | cons s rest ih =>
    unfold fragUnionSels
    have hs : Quotes B (fragUnionSel c name s) (QIParts E) := by
      unfold fragUnionSel
      split
      · refine Quotes.then (P := fun _ => True) (.of_same fun r a r' e => ?_) fun _ => .pure ⟨.nil, .nil, fun _ h => by cases h⟩
        unfold unionMembersOf at e
        split at e <;> first | (cases e; rfl) | cases e
      · exact .fail
      · refine (q_fragUnionInlineSels hQ _ h.inline).bind fun x => .pure fun hx => ⟨.nil, hx.2, ?_⟩
        intro q hq
        rw [List.mem_singleton.1 hq]
        exact hx.1
      · exact .ite (fun _ => .pure .empty) fun _ => .fail
    exact hs.bind fun _ => (ih h.tail).bind fun _ => .pure fun hb ha => ha.append hb

omit hQ in
theorem q_fragImplementingClasses {m : String} {p : InterfaceParts} (is : List Implementation) :
    Quotes B (fragImplementingClasses c m p is) fun s => QIParts E p → QBody E s := by
  induction is with
  | nil => exact .pure fun _ => .nil
  | cons i is ih =>
    unfold fragImplementingClasses
    have hs : Quotes B (fragImplementingClass c m p i) fun s => QIParts E p → ∀ m ∈ quotedIn s, E m := by
      unfold fragImplementingClass
      exact q_additionalBasesFor.then fun _ => q_interfaceBasesOf.then fun _ => (q_typenameField (E := E)).bind fun tn =>
        .pure fun ht hp => qb_class (.cons qb_docStmt (.cons ht (hp.bodyFor _)))
    exact hs.bind fun s => ih.bind fun rest => .pure fun hr hs hp => .cons (hs hp) (hr hp)

omit hQ in
theorem q_fragmentBasesOf {p : FragmentsConfig} {b : Bool} : Quotes B (fragmentBasesOf c p b) fun _ => True := by
  unfold fragmentBasesOf
  exact (q_registerImports _).then fun _ => (q_registerImports _).then fun _ => (q_registerImports _).then fun _ =>
    .pure trivial

omit hQ in
theorem q_fragMemberClasses {p : FragmentsConfig} {n : String} {q : InterfaceParts} (ms : List String) :
    Quotes B (fragMemberClasses c p n q ms) fun s => QIParts E q → QBody E s := by
  induction ms with
  | nil => exact .pure fun _ => .nil
  | cons i is ih =>
    unfold fragMemberClasses
    have hs : Quotes B (fragMemberClass c p n q i) fun s => QIParts E q → ∀ m ∈ quotedIn s, E m := by
      unfold fragMemberClass
      exact q_fragmentBasesOf.then fun _ => (q_typenameField (E := E)).bind fun tn =>
        .pure fun ht hp => qb_class (.cons ht (hp.bodyFor _))
    exact hs.bind fun s => ih.bind fun rest => .pure fun hr hs hp => .cons (hs hp) (hr hp)

omit hQ in
theorem q_mergedDocument {prep : List Char → List Char} {t : List Char} :
    Quotes B (mergedDocument prep t) fun _ => True :=
  .of_same fun r a r' e => by
    unfold mergedDocument at e
    split at e <;> first | (cases e; rfl) | cases e

omit hQ in
theorem q_fragmentMeta {prep : List Char → List Char} {p : FragmentsConfig} {f : FragDef} :
    Quotes B (fragmentMeta prep p f) (QBody E) := by
  unfold fragmentMeta
  exact .ite (fun _ => q_mergedDocument.then fun _ => .pure (.one (qb_class (.cons qb_expr (.cons qb_str (.cons qb_str (.one qb_str)))))))
    fun _ => .pure .nil

theorem q_interfaceFragment {p : FragmentsConfig} {f : FragDef} {name : String} {d : Option String} {fs : List FieldDef}
    (h : SpreadsIn S f.sels) : Quotes B (interfaceFragment c p f name d fs) (QBody E) := by
  unfold interfaceFragment
  refine q_additionalBasesFor.then fun _ => (q_fragInterfaceSels hQ _ h).bind fun q => q_interfaceBasesOf.then fun _ =>
    (q_genericTypenameField (E := E)).bind fun tn => (q_fragImplementingClasses (E := E) _).bind fun impls =>
    Quotes.then (P := fun _ => True) (.of_same fun r a r' e => by cases e; rfl) fun _ => .pure fun hi ht hq => ?_
  have hm : QBody E (fragmentDoc p d :: q.body) := .cons qb_docStmt hq.1
  exact (hq.2.1.append (.cons (qb_class hm) (.one (qb_class (.cons qb_expr (.cons ht hm)))))).append (hi hq)

theorem q_objectFragment {prep : List Char → List Char} {p : FragmentsConfig} {f : FragDef} {name : String}
    {d : Option String} (h : SpreadsIn S f.sels) : Quotes B (objectFragment prep c p f name d) (QBody E) := by
  unfold objectFragment
  exact q_additionalBasesFor.then fun _ => (q_typenameField (E := E)).bind fun tn => (q_fragObjectSels hQ _ h).bind fun q =>
    (q_fragmentMeta (E := E)).bind fun mt => q_fragmentBasesOf.then fun _ => (q_config (E := E)).bind fun cfg =>
    .pure fun hc hm hq ht => hq.2.append (.one (qb_class (.cons qb_docStmt (.cons ht ((hq.1.append hc).append hm)))))

theorem q_unionFragment {p : FragmentsConfig} {f : FragDef} {name : String} {d : Option String} {ms : List String}
    (h : SpreadsIn S f.sels) : Quotes B (unionFragment c p f name d ms) (QBody E) := by
  unfold unionFragment
  refine q_additionalBasesFor.then fun _ => (q_fragUnionSels hQ _ h).bind fun q => (q_fragMemberClasses (E := E) _).bind fun ms =>
    Quotes.then (P := fun _ => True) (.of_same fun r a r' e => by cases e; rfl) fun _ => q_registerImport.then fun _ =>
    .pure fun hm hq => ?_
  refine ((hq.2.1.append (hm hq)).append (.one (qb_sub (qin_tuple qinL_names)))).append ?_
  split
  · exact .one qb_expr
  · exact .nil

theorem q_generateFragment {prep : List Char → List Char} {p : FragmentsConfig} {f : FragDef}
    (h : SpreadsIn S f.sels) : Quotes B (generateFragment prep c p f) (QBody E) := by
  unfold generateFragment
  split
  · exact .fail
  · refine q_generateClass.then fun name => Quotes.then (P := fun _ => True) (.of_same fun r a r' e => ?_) fun _ =>
      Quotes.then (P := fun _ => True) (.of_same fun r a r' e => by cases e; rfl) fun _ => ?_
    · unfold registerFragmentDocument at e
      split at e <;> first | (cases e; rfl) | cases e
    · unfold fragmentBody
      split
      · exact q_interfaceFragment hQ h
      · exact q_objectFragment hQ h
      · exact q_unionFragment hQ h
      · exact .fail

theorem q_generateFragments {prep : List Char → List Char} {p : FragmentsConfig} (fs : List FragDef)
    (h : ∀ f ∈ fs, SpreadsIn S f.sels) : Quotes B (generateFragments prep c p fs) (QBody E) := by
  induction fs with
  | nil => exact .pure .nil
  | cons f fs ih =>
    unfold generateFragments
    exact (q_generateFragment hQ (h f (List.mem_cons_self ..))).bind fun s =>
      (ih fun g hg => h g (List.mem_cons_of_mem _ hg)).bind fun rest => .pure fun hr hs => hs.append hr

/-! ## operations -/

theorem q_operationSels {root cls : String} (ss : List Sel) (h : SpreadsIn S ss) :
    Quotes B (operationSels c root cls ss) fun x => QBody E x.1.flatten ∧ QBody E x.2 := by
  induction ss with
  | nil => exact .pure ⟨.nil, .nil⟩
  | cons s rest ih =>
    unfold operationSels
    have hs : Quotes B (operationSel c root cls s) (QPair E) := by
      unfold operationSel
      split
      · exact q_assertFieldDef.then fun fd => q_typeFieldNode hQ h.field
      · exact .fail
    exact hs.bind fun a => (ih h.tail).bind fun p => .pure fun hp ha => ⟨ha.1.append hp.1, ha.2.append hp.2⟩

theorem q_referenceNamed {n : String} : Quotes B (referenceNamed c.env n) (QIn E) := by
  constructor
  intro r a r' h
  unfold referenceNamed at h
  split at h
  · split at h
    · split at h
      · cases h
      · exact (q_referenceEnum (c := c) hQ.builtin (fun hf => by cases hf)).run r a r' h
    · exact (q_referenceInput (c := c) (fun hf => by cases hf)).run r a r' h
  · exact q_referenceScalar.run r a r' h

theorem q_recurseTypeAnnotation (t : TypeNode) : ∀ {o : Bool},
    Quotes B (recurseTypeAnnotation c.env none t o) (QIn E) := by
  induction t with
  | named n =>
    intro o
    unfold recurseTypeAnnotation namedOr
    exact (q_referenceNamed hQ).bind fun x => q_optionalWrap
  | list t ih =>
    intro o
    unfold recurseTypeAnnotation
    exact q_registerImport.then fun _ => ih.bind fun x => (q_optionalWrap (E := E)).mono fun e he hx => he (qin_sub hx)
  | nonNull t ih => intro o; unfold recurseTypeAnnotation; exact ih

omit hQ in
theorem q_defaultMarker {d : Option Value} : Quotes B (defaultMarker d) fun _ => True := by
  unfold defaultMarker
  split
  · exact .pure trivial
  · refine Quotes.then (P := fun _ => True) ?_ fun _ => .pure trivial
    unfold variableDefault
    split <;> first | exact .fail | exact .pure trivial

omit hQ in
theorem q_argumentValue {n t : String} {o : Bool} : Quotes B (argumentValue n t o) fun _ => True := by
  unfold argumentValue
  exact .ite (fun _ => q_registerImport.then fun _ => .pure trivial) fun _ => .pure trivial

theorem q_argumentStmts (vs : List VarDef) : Quotes B (argumentStmts c vs) (QBody E) := by
  induction vs with
  | nil => exact .pure .nil
  | cons v vs ih =>
    unfold argumentStmts
    have hs : Quotes B (argumentStmt c v) fun s => ∀ m ∈ quotedIn s, E m := by
      unfold argumentStmt
      exact (q_recurseTypeAnnotation hQ _).bind fun a => (q_optionalWrap (E := E)).bind fun a' => q_defaultMarker.then fun d =>
        (q_annotateFieldMetadata (E := E)).bind fun a'' => q_parameterName.then fun _ => q_argumentValue.then fun _ =>
        .pure fun h3 h2 h1 => qb_ann (h3 (h2 h1))
    exact hs.bind fun s => ih.bind fun rest => .pure fun hr hs => .cons hs hr

omit hQ in
theorem q_basesOrObject {bs : List String} : Quotes B (basesOrObject c bs) fun _ => True := by
  unfold basesOrObject
  exact (q_registerImports _).then fun _ => .pure trivial

theorem q_argumentsClass {p : OperationsConfig} {o : OpDef} {name : String} :
    Quotes B (argumentsClass c p o name) (QBody E) := by
  unfold argumentsClass
  refine .ite (fun _ => ?_) fun _ => .pure .nil
  refine (q_argumentStmts hQ _).bind fun body => Quotes.bind (P := QBody E) ?_ fun cfg => q_basesOrObject.then fun _ =>
    .pure fun hc hb => .one (qb_class (.cons qb_expr (hb.append hc)))
  unfold argumentsConfig
  exact q_registerImport.then fun _ => .pure (.one qb_call)

omit hQ in
theorem qb_operationMeta {p : OperationsConfig} {n d : String} : ∀ m ∈ quotedIn (operationMeta p n d), E m := by
  unfold operationMeta
  refine qb_class (QBody.append (.cons qb_expr (.one qb_str)) ?_)
  split
  · exact .one qb_str
  · exact .nil

theorem q_generateOperation {prep : List Char → List Char} {p : OperationsConfig} {o : OpDef}
    (h : SpreadsIn S o.sels) : Quotes B (generateOperation prep c p o) (QBody E) := by
  unfold generateOperation
  split
  · exact .fail
  · refine q_generateClass.then fun cls => q_basesOrObject.then fun _ => Quotes.then (P := fun _ => True) ?_ fun root =>
      (q_operationSels hQ _ h).bind fun x => Quotes.then (P := fun _ => True) (.of_same fun r a r' e => ?_) fun _ =>
      q_mergedDocument.then fun _ => (q_argumentsClass hQ).bind fun args => .pure fun ha hx => ?_
    · unfold rootTypeOf
      split
      · exact .pure trivial
      · exact .fail
    · unfold registerSingle at e
      repeat' (split at e)
      all_goals (cases e; rfl)
    · exact hx.2.append (.one (qb_class (.cons qb_expr ((hx.1.append ha).append (.one qb_operationMeta)))))

theorem q_generateOperations {prep : List Char → List Char} {p : OperationsConfig} (os : List OpDef)
    (h : ∀ o ∈ os, SpreadsIn S o.sels) : Quotes B (generateOperations prep c p os) (QBody E) := by
  induction os with
  | nil => exact .pure .nil
  | cons f fs ih =>
    unfold generateOperations
    exact (q_generateOperation hQ (h f (List.mem_cons_self ..))).bind fun s =>
      (ih fun g hg => h g (List.mem_cons_of_mem _ hg)).bind fun rest => .pure fun hr hs => hs.append hr

end
end Turms
