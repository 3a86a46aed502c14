import Verif.Lemmas.ClassNames
import Verif.Lemmas.ResponsePlugins
import Verif.Spec.Attributes
import Verif.Model.Enums
import Verif.Model.Objects
import Verif.Model.FragmentsPlugin

/-! # The attributes the generated classes declare -/

namespace Turms
open Spec

/-! ## blocks -/

/-- every declaration in the statement has the property -/
def DOne (D : Stmt → Prop) (s : Stmt) : Prop := ∀ d ∈ declsIn s, D d
/-- of a block -/
def DBody (D : Stmt → Prop) (ss : List Stmt) : Prop := ∀ d ∈ declsInL ss, D d

section
variable {D : Stmt → Prop}

theorem declsInL_append (a b : List Stmt) : declsInL (a ++ b) = declsInL a ++ declsInL b := by
  induction a with
  | nil => simp [declsInL]
  | cons s ss ih => simp [declsInL, ih, List.append_assoc]

theorem DBody.nil : DBody D [] := by intro m hm; simp [declsInL] at hm
theorem DBody.cons {s : Stmt} {ss : List Stmt} (h : DOne D s) (hs : DBody D ss) : DBody D (s :: ss) := by
  intro m hm
  rw [declsInL] at hm
  rcases List.mem_append.1 hm with hm | hm
  · exact h m hm
  · exact hs m hm
theorem DBody.append {a b : List Stmt} (ha : DBody D a) (hb : DBody D b) : DBody D (a ++ b) := by
  intro m hm
  rw [declsInL_append] at hm
  rcases List.mem_append.1 hm with hm | hm
  · exact ha m hm
  · exact hb m hm
theorem DBody.one {s : Stmt} (h : DOne D s) : DBody D [s] := .cons h .nil
theorem DBody.flatten {l : List (List Stmt)} (h : ∀ b ∈ l, DBody D b) : DBody D l.flatten := by
  induction l with
  | nil => exact .nil
  | cons a l ih => exact (h a (List.mem_cons_self ..)).append (ih fun b hb => h b (List.mem_cons_of_mem _ hb))
theorem d_class {n : String} {bs ds : List Expr} {body : List Stmt} (h : DBody D body) :
    DOne D (.classDef n bs body ds) := by
  intro m hm
  rw [declsIn] at hm
  exact h m hm
theorem d_ann {n : String} {a : Expr} {v : Option Expr} (h : D (.annAssign n a v)) : DOne D (.annAssign n a v) := by
  intro m hm
  rw [declsIn, List.mem_singleton] at hm
  exact hm ▸ h
theorem d_expr {e : Expr} : DOne D (.expr e) := by intro m hm; simp [declsIn] at hm
theorem d_assign {t e : Expr} : DOne D (.assign t e) := by intro m hm; simp [declsIn] at hm
theorem d_pass : DOne D .pass_ := by intro m hm; simp [declsIn] at hm
theorem d_assigns {α : Type} {f : α → Expr} {g : α → Expr} (l : List α) :
    DBody D (l.map fun x => .assign (f x) (g x)) := by
  induction l with
  | nil => exact .nil
  | cons a l ih => exact .cons d_assign ih
theorem d_docs {b : Prop} [Decidable b] {s : String} : DBody D (if b then [.expr (.str s)] else []) := by
  split
  · exact .one d_expr
  · exact .nil
end

/-! ## the values of declarations -/

/-- how the declared value relates the attribute to the wire name -/
theorem keyed_objectFieldValue {env : Env} {attr : String} {f : FieldDef}
    (hn : generateNodeName env.stylers f.name = .ok attr) (a : Expr) :
    Yields (objectFieldValue attr f) fun v => Keyed env (.annAssign attr a v) := by
  unfold objectFieldValue
  refine .ite (fun h => .then fun _ => .pure ?_) fun h => .ite (fun h' => .then fun _ => .pure ?_) fun _ => .pure ?_
  · have hne : attr ≠ f.name := by simpa using h
    have hk : ∀ b, kwarg "alias" (nullableDefault f.type ++ [(some "alias", b)]) = some b := by
      intro b; unfold nullableDefault; split <;> simp [kwarg]
    refine ⟨_, attr, rfl, rfl, ?_, .inl ?_⟩
    · simp [hasAlias, aliasOf, hk, Expr.str, hne]
    · simpa [aliasOf, hk, Expr.str] using hn
  · have he : attr = f.name := by simpa using h
    have hk : kwarg "alias" (nullableDefault f.type) = none := by
      unfold nullableDefault; split <;> simp [kwarg]
    refine ⟨_, attr, rfl, rfl, ?_, .inl ?_⟩
    · simp [hasAlias, aliasOf, hk]
    · simpa [aliasOf, hk, he] using (he ▸ hn)
  · have he : attr = f.name := by simpa using h
    refine ⟨_, attr, rfl, rfl, by simp [hasAlias], .inl ?_⟩
    show generateNodeName env.stylers attr = _
    rw [he] at hn ⊢
    exact hn

theorem keyed_inputFieldValue {env : Env} {attr key : String} {o : Bool} {d : Option String}
    (hn : generateNodeName env.stylers key = .ok attr) (a : Expr) :
    Yields (inputFieldValue attr key o d) fun v => Keyed env (.annAssign attr a v) := by
  unfold inputFieldValue
  dsimp only
  refine .ite (fun h => .pure ?_) fun h => .then fun _ => .pure ?_
  · have he : attr = key := by
      simp only [Bool.and_eq_true, Bool.not_eq_true', bne_eq_false_iff_eq] at h
      exact h.1
    rw [he] at hn ⊢
    cases o
    · exact ⟨_, key, rfl, rfl, by simp [hasAlias], .inl hn⟩
    · exact ⟨_, key, rfl, rfl, by simp [hasAlias], .inl hn⟩
  · have hk0 : kwarg "alias" ((if o = true then [(some "default", Expr.const .none)] else []) ++
        (if truthy d = true then [(some "description", Expr.str (d.getD ""))] else [])) = none := by
      split <;> split <;> simp [kwarg]
    by_cases he : attr = key
    · have hb : (attr != key) = false := by simp [he]
      simp only [hb, if_false, List.nil_append, Bool.false_eq_true]
      refine ⟨_, attr, rfl, rfl, ?_, .inl ?_⟩
      · simp [hasAlias, aliasOf, hk0]
      · simpa [aliasOf, hk0] using (show generateNodeName env.stylers attr = _ from he ▸ hn)
    · have hb : (attr != key) = true := by simp [he]
      simp only [hb, if_true, List.cons_append, List.nil_append]
      refine ⟨_, attr, rfl, rfl, ?_, .inl ?_⟩
      · simp [hasAlias, aliasOf, kwarg, Expr.str, he]
      · simpa [aliasOf, kwarg, Expr.str] using hn

theorem keyed_argumentValue {env : Env} {attr key : String} {o : Bool}
    (hn : generateParameterName env.stylers key = .ok attr) (a : Expr) :
    Yields (argumentValue attr key o) fun v => Keyed env (.annAssign attr a v) := by
  unfold argumentValue
  refine .ite (fun h => .then fun _ => .pure ?_) fun h => .pure ?_
  · have hne : attr ≠ key := fun e => by simp [e] at h
    refine ⟨_, attr, rfl, rfl, ?_, .inr ?_⟩
    · simp [hasAlias, aliasOf, kwarg, Expr.str, hne]
    · simpa [aliasOf, kwarg, Expr.str] using hn
  · have he : attr = key := by
      have : key = attr := by simpa using h
      exact this.symm
    rw [he] at hn ⊢
    cases o
    · exact ⟨_, key, rfl, rfl, by simp [hasAlias], .inr hn⟩
    · exact ⟨_, key, rfl, rfl, by simp [hasAlias, kwarg, aliasOf], .inr hn⟩

/-! ## selections -/

/-- what the classes of a selection may declare -/
def SelDecl (env : Env) (d : Stmt) : Prop := Keyed env d ∨ TypenameDecl d

section
variable {c : Ctx}

local notation "D" => SelDecl c.env

/-- the parts of an object class -/
def DParts (X : Stmt → Prop) (p : ObjectParts) : Prop := DBody X p.body ∧ DBody X p.classes
/-- the parts of the classes of an interface -/
def DIParts (X : Stmt → Prop) (p : InterfaceParts) : Prop :=
  DBody X p.body ∧ DBody X p.classes ∧ ∀ q ∈ p.inlineBodies, DBody X q.2
/-- declarations and classes -/
def DPair (X : Stmt → Prop) (x : List Stmt × List Stmt) : Prop := DBody X x.1 ∧ DBody X x.2

theorem DParts.empty {X : Stmt → Prop} : DParts X {} := ⟨.nil, .nil⟩
theorem DIParts.empty {X : Stmt → Prop} : DIParts X {} := ⟨.nil, .nil, fun _ h => by cases h⟩
theorem DParts.append {X : Stmt → Prop} {a b : ObjectParts} (ha : DParts X a) (hb : DParts X b) : DParts X (a.append b) :=
  ⟨ha.1.append hb.1, ha.2.append hb.2⟩
theorem DIParts.append {X : Stmt → Prop} {a b : InterfaceParts} (ha : DIParts X a) (hb : DIParts X b) : DIParts X (a.append b) :=
  ⟨ha.1.append hb.1, ha.2.1.append hb.2.1, fun q hq => (List.mem_append.1 hq).elim (ha.2.2 q) (hb.2.2 q)⟩
theorem DIParts.bodyFor {X : Stmt → Prop} {p : InterfaceParts} (h : DIParts X p) (t : String) : DBody X (p.bodyFor t) := by
  unfold InterfaceParts.bodyFor
  refine DBody.flatten fun b hb => ?_
  obtain ⟨q, hq, rfl⟩ := List.mem_map.1 hb
  exact h.2.2 q (List.mem_filter.1 hq).1

theorem y_nodeName {env : Env} {n : String} : Yields (nodeName env n) fun a => generateNodeName env.stylers n = .ok a :=
  fun _ _ _ h => (Gen.lift_ok.1 h).1
theorem y_parameterName {env : Env} {n : String} :
    Yields (parameterName env n) fun a => generateParameterName env.stylers n = .ok a :=
  fun _ _ _ h => (Gen.lift_ok.1 h).1

theorem y_typenameField {t : String} : Yields (typenameField c t) (DOne D) := by
  unfold typenameField
  exact .then fun _ => .pure (d_ann (.inr ⟨rfl, rfl, rfl⟩))
theorem y_genericTypenameField : Yields (genericTypenameField c) (DOne D) := by
  unfold genericTypenameField
  exact .then fun _ => .pure (d_ann (.inr ⟨rfl, rfl, rfl⟩))

theorem y_config {X : Stmt → Prop} {g : GQLType} {t : Option String} : Yields (generatePydanticConfig c g t) (DBody X) := by
  unfold generatePydanticConfig
  refine .ite (fun _ => ?_) fun _ => ?_
  · unfold generateConfigDict
    exact .ite (fun _ => .pure .nil) fun _ => .then fun _ => .pure (.one d_assign)
  · unfold generateConfigClass
    dsimp only
    split
    · exact .pure .nil
    · exact .pure (.one (d_class (.cons d_expr (d_assigns _))))

theorem y_finishField {n t : String} {fd : FieldDef} {a : Expr} (hn : generateNodeName c.env.stylers t = .ok n) :
    Yields (finishField c n t fd a) (DBody D) := by
  unfold finishField
  exact .then fun a' => (keyed_objectFieldValue (f := { fd with name := t }) hn a').bind fun v hv =>
    .pure (.cons (d_ann (.inl hv)) d_docs)

theorem y_wrapOutput {leaf : String → Bool → Gen (Expr × List Stmt)} {P : List Stmt → Prop}
    (hl : ∀ n o, Yields (leaf n o) fun x => P x.2)
    (t : TypeNode) : ∀ {o : Bool}, Yields (wrapOutput c leaf t o) fun x => P x.2 := by
  induction t with
  | named n => intro o; unfold wrapOutput; exact hl n o
  | nonNull t ih => intro o; unfold wrapOutput; exact ih
  | list t ih =>
    intro o
    unfold wrapOutput
    exact .then fun _ => ih.bind fun x hx => .then fun e => .pure hx

theorem y_typeField {fd : FieldDef} {t : String} {leaf : String → Bool → Gen (Expr × List Stmt)}
    (hl : ∀ n o, Yields (leaf n o) fun x => DBody D x.2) : Yields (typeField c fd t leaf) (DPair D) := by
  unfold typeField
  exact y_nodeName.bind fun _ hn => (y_wrapOutput hl _).bind fun x hx => (y_finishField hn).bind fun s hs =>
    .pure ⟨hs, hx⟩

theorem y_finishObject {cls t : String} {d : Option String} {tn : Stmt} {p : ObjectParts} {o : Bool}
    (ht : DOne D tn) (hp : DParts D p) : Yields (finishObject c cls t d tn p o) fun x => DBody D x.2 := by
  unfold finishObject
  exact .then fun bs => y_config.bind fun cfg hc => .then fun e =>
    .pure (hp.2.append (.one (d_class (.cons d_expr (.cons ht (hp.1.append hc))))))

theorem y_objectNode {parent target t : String} {d : Option String} {sub : List Sel}
    {walk : String → Gen ObjectParts} {o : Bool} (hw : ∀ cls, Yields (walk cls) (DParts D)) :
    Yields (objectNode c parent target t d sub walk o) fun x => DBody D x.2 := by
  unfold objectNode
  refine y_typenameField.bind fun tn ht => ?_
  split
  · exact .then fun x => .then fun e => .pure .nil
  · exact (hw _).bind fun p hp => y_finishObject ht hp

theorem y_implementingClasses {m : String} {p : InterfaceParts} (hp : DIParts D p) (is : List Implementation) :
    Yields (implementingClasses c m p is) (DBody D) := by
  induction is with
  | nil => exact .pure .nil
  | cons i is ih =>
    unfold implementingClasses
    refine Yields.bind (Q := DOne D) ?_ fun s hs => ih.bind fun rest hr => .pure (.cons hs hr)
    unfold implementingClass
    exact .then fun _ => .then fun _ => y_typenameField.bind fun tn ht =>
      .pure (d_class (.cons d_expr (.cons ht (hp.bodyFor _))))

theorem y_catchAll {m : String} {e : Expr} : Yields (catchAll c m e) fun x => DBody D x.2 := by
  unfold catchAll
  exact .ite (fun _ => .then fun _ => y_genericTypenameField.bind fun tn ht => .then fun _ =>
    .pure (.one (d_class (.cons d_expr (.one ht))))) fun _ => .pure .nil

theorem y_interfaceNode {parent target t : String} {d : Option String} {walk : String → Gen InterfaceParts} {o : Bool}
    (hw : ∀ cls, Yields (walk cls) (DIParts D)) :
    Yields (interfaceNode c parent target t d walk o) fun x => DBody D x.2 := by
  unfold interfaceNode
  exact (hw _).bind fun p hp => .then fun _ => .then fun _ => y_config.bind fun cfg hc =>
    (y_implementingClasses hp _).bind fun impls hi => .then fun _ => .then fun _ => y_catchAll.bind fun x hx =>
    .then fun e => .pure (hp.2.1.append (.cons (d_class (.cons d_expr (hp.1.append hc))) (hi.append hx)))

theorem y_inlineClass {cls t : String} {p : ObjectParts} (hp : DParts D p) : Yields (inlineClass c cls t p) (DBody D) := by
  unfold inlineClass
  refine Yields.bind (Q := DBody D) ?_ fun tn ht => .then fun _ => (y_config (X := SelDecl c.env)).bind fun cfg hc =>
    .pure (hp.2.append (.one (d_class ?_)))
  · unfold inlineTypename
    exact .ite (fun _ => y_typenameField.bind fun t h => .pure (.one h)) fun _ => .pure .nil
  · split
    · exact .one d_pass
    · exact (ht.append hp.1).append hc

theorem y_namedNode {parent target : String} {sub : List Sel}
    {objs : String → List FieldDef → String → Gen ObjectParts}
    {ifcs : List FieldDef → String → Gen InterfaceParts} {uns : Gen (List String × List Stmt)}
    (ho : ∀ n fs k, Yields (objs n fs k) (DParts D)) (hi : ∀ fs k, Yields (ifcs fs k) (DIParts D))
    (hu : Yields uns fun x => DBody D x.2) (n : String) (o : Bool) :
    Yields (namedNode c parent target sub objs ifcs uns n o) fun x => DBody D x.2 := by
  unfold namedNode
  split
  · exact .then fun x => .then fun e => .pure .nil
  · exact .then fun x => .then fun e => .pure .nil
  · exact y_objectNode (ho _ _)
  · exact y_interfaceNode (hi _)
  · unfold unionNode
    exact hu.bind fun p hp => .then fun e => .pure hp
  · exact .fail

mutual
theorem y_objectSel (s : Sel) : ∀ (t : String) (fs : List FieldDef) (cls : String),
    Yields (objectSel c t fs cls s) (DParts D) := by
  intro t fs cls
  cases s with
  | spread f => unfold objectSel; exact .then fun _ => .pure .empty
  | inline t sub => unfold objectSel; exact .fail
  | field n a as sub =>
    unfold objectSel
    refine .ite (fun _ => .pure .empty) fun _ => ?_
    exact .then fun fd => (y_typeField (y_namedNode
      (fun n fs k => y_objectSels sub n fs k) (fun fs k => y_interfaceSels sub fs k)
      (y_unionSels sub _))).bind fun x hx => .pure ⟨hx.1, hx.2⟩
theorem y_objectSels (ss : List Sel) : ∀ (t : String) (fs : List FieldDef) (cls : String),
    Yields (objectSels c t fs cls ss) (DParts D) := by
  intro t fs cls
  cases ss with
  | nil => unfold objectSels; exact .pure .empty
  | cons s rest =>
    unfold objectSels
    exact (y_objectSel s t fs cls).bind fun _ ha => (y_objectSels rest t fs cls).bind fun _ hb =>
      .pure (ha.append hb)
theorem y_interfaceSel (s : Sel) : ∀ (fs : List FieldDef) (base : String),
    Yields (interfaceSel c fs base s) (DIParts D) := by
  intro fs base
  cases s with
  | spread f =>
    unfold interfaceSel
    exact .then fun _ => .pure ⟨.nil, .nil, fun _ h => by cases h⟩
  | inline t sub =>
    cases t with
    | none => unfold interfaceSel; exact .fail
    | some t =>
      unfold interfaceSel
      refine .then fun _ => (y_inlineSels sub t base).bind fun x hx => .pure ⟨.nil, hx.2, ?_⟩
      intro q hq
      rw [List.mem_singleton.1 hq]
      exact hx.1
  | field n a as sub =>
    unfold interfaceSel
    refine .ite (fun _ => .pure .empty) fun _ => ?_
    exact .then fun fd => (y_typeField (y_namedNode
      (fun n fs k => y_objectSels sub n fs k) (fun fs k => y_interfaceSels sub fs k)
      (y_unionSels sub _))).bind fun x hx => .pure ⟨hx.1, hx.2, fun _ h => by cases h⟩
theorem y_interfaceSels (ss : List Sel) : ∀ (fs : List FieldDef) (base : String),
    Yields (interfaceSels c fs base ss) (DIParts D) := by
  intro fs base
  cases ss with
  | nil => unfold interfaceSels; exact .pure .empty
  | cons s rest =>
    unfold interfaceSels
    exact (y_interfaceSel s fs base).bind fun _ ha => (y_interfaceSels rest fs base).bind fun _ hb =>
      .pure (ha.append hb)
theorem y_inlineSel (s : Sel) : ∀ (t parent : String), Yields (inlineSel c t parent s) (DPair D) := by
  intro t parent
  cases s with
  | spread f => unfold inlineSel; exact .pure ⟨.nil, .nil⟩
  | inline t sub => unfold inlineSel; exact .pure ⟨.nil, .nil⟩
  | field n a as sub =>
    unfold inlineSel
    refine .ite (fun _ => .pure ⟨.nil, .nil⟩) fun _ => ?_
    exact .then fun fd => y_typeField (y_namedNode
      (fun n fs k => y_objectSels sub n fs k) (fun fs k => y_interfaceSels sub fs k)
      (y_unionSels sub _))
theorem y_inlineSels (ss : List Sel) : ∀ (t parent : String), Yields (inlineSels c t parent ss) (DPair D) := by
  intro t parent
  cases ss with
  | nil => unfold inlineSels; exact .pure ⟨.nil, .nil⟩
  | cons s rest =>
    unfold inlineSels
    exact (y_inlineSel s t parent).bind fun _ ha => (y_inlineSels rest t parent).bind fun _ hb =>
      .pure ⟨ha.1.append hb.1, ha.2.append hb.2⟩
theorem y_unionSel (s : Sel) : ∀ (parent : String), Yields (unionSel c parent s) fun x => DBody D x.2 := by
  intro parent
  cases s with
  | spread f => unfold unionSel; exact .then fun _ => .pure .nil
  | inline t sub =>
    cases t with
    | none => unfold unionSel; exact .fail
    | some t =>
      unfold unionSel
      exact (y_unionInlineSels sub t _).bind fun p hp => (y_inlineClass hp).bind fun s hs => .pure hs
  | field n a as sub => unfold unionSel; exact .pure .nil
theorem y_unionSels (ss : List Sel) : ∀ (parent : String), Yields (unionSels c parent ss) fun x => DBody D x.2 := by
  intro parent
  cases ss with
  | nil => unfold unionSels; exact .pure .nil
  | cons s rest =>
    unfold unionSels
    exact (y_unionSel s parent).bind fun _ ha => (y_unionSels rest parent).bind fun _ hb => .pure (ha.append hb)
theorem y_unionInlineSel (s : Sel) : ∀ (t cls : String), Yields (unionInlineSel c t cls s) (DParts D) := by
  intro t cls
  cases s with
  | spread f => unfold unionInlineSel; exact .then fun _ => .pure .empty
  | inline t sub => unfold unionInlineSel; exact .pure .empty
  | field n a as sub =>
    unfold unionInlineSel
    refine .ite (fun _ => .pure .empty) fun _ => ?_
    exact .then fun fd => (y_typeField (y_namedNode
      (fun n fs k => y_objectSels sub n fs k) (fun fs k => y_interfaceSels sub fs k)
      (y_unionSels sub _))).bind fun x hx => .pure ⟨hx.1, hx.2⟩
theorem y_unionInlineSels (ss : List Sel) : ∀ (t cls : String), Yields (unionInlineSels c t cls ss) (DParts D) := by
  intro t cls
  cases ss with
  | nil => unfold unionInlineSels; exact .pure .empty
  | cons s rest =>
    unfold unionInlineSels
    exact (y_unionInlineSel s t cls).bind fun _ ha => (y_unionInlineSels rest t cls).bind fun _ hb =>
      .pure (ha.append hb)
end

theorem y_typeFieldNode {parent n : String} {fd : FieldDef} {a : Option String} {sub : List Sel} :
    Yields (typeFieldNode c parent fd n a sub) (DPair D) := by
  unfold typeFieldNode recurseNamed
  exact y_typeField (y_namedNode
    (fun n fs k => y_objectSels sub n fs k) (fun fs k => y_interfaceSels sub fs k) (y_unionSels sub _))

/-! ## fragments -/

theorem y_fragInterfaceSels {fs : List FieldDef} {name : String} (ss : List Sel) :
    Yields (fragInterfaceSels c fs name ss) (DIParts D) := by
  induction ss with
  | nil => exact .pure .empty
  | cons s rest ih =>
    unfold fragInterfaceSels
    refine Yields.bind (Q := DIParts D) ?_ fun _ ha => ih.bind fun _ hb => .pure (ha.append hb)
    unfold fragInterfaceSel
    split
    · rename_i t sub
      refine (y_inlineSels sub t name).bind fun x hx => .pure ⟨.nil, hx.2, ?_⟩
      intro q hq
      rw [List.mem_singleton.1 hq]
      exact hx.1
    · exact y_interfaceSel s fs name

theorem y_fragObjectSels {t name : String} (ss : List Sel) : Yields (fragObjectSels c t name ss) (DParts D) := by
  induction ss with
  | nil => exact .pure .empty
  | cons s rest ih =>
    unfold fragObjectSels
    refine Yields.bind (Q := DParts D) ?_ fun _ ha => ih.bind fun _ hb => .pure (ha.append hb)
    unfold fragObjectSel
    split
    · exact .then fun _ => .pure .empty
    · exact .pure .empty
    · exact .ite (fun _ => .pure .empty) fun _ => .then fun fd => y_typeFieldNode.bind fun x hx => .pure ⟨hx.1, hx.2⟩

theorem y_fragUnionInlineSels {t name : String} (ss : List Sel) :
    Yields (fragUnionInlineSels c t name ss) (DParts D) := by
  induction ss with
  | nil => exact .pure .empty
  | cons s rest ih =>
    unfold fragUnionInlineSels
    refine Yields.bind (Q := DParts D) ?_ fun _ ha => ih.bind fun _ hb => .pure (ha.append hb)
    unfold fragUnionInlineSel
    split
    · exact .pure .empty
    · exact .pure .empty
    · exact .ite (fun _ => .pure .empty) fun _ => .then fun fd => y_typeFieldNode.bind fun x hx => .pure ⟨hx.1, hx.2⟩

theorem y_fragUnionSels {name : String} (ss : List Sel) : Yields (fragUnionSels c name ss) (DIParts D) := by
  induction ss with
  | nil => exact .pure .empty
  | cons s rest ih =>
    unfold fragUnionSels
    refine Yields.bind (Q := DIParts D) ?_ fun _ ha => ih.bind fun _ hb => .pure (ha.append hb)
    unfold fragUnionSel
    split
    · exact .then fun _ => .pure ⟨.nil, .nil, fun _ h => by cases h⟩
    · exact .fail
    · refine (y_fragUnionInlineSels _).bind fun x hx => .pure ⟨.nil, hx.2, ?_⟩
      intro q hq
      rw [List.mem_singleton.1 hq]
      exact hx.1
    · exact .ite (fun _ => .pure .empty) fun _ => .fail

theorem y_fragImplementingClasses {m : String} {p : InterfaceParts} (hp : DIParts D p) (is : List Implementation) :
    Yields (fragImplementingClasses c m p is) (DBody D) := by
  induction is with
  | nil => exact .pure .nil
  | cons i is ih =>
    unfold fragImplementingClasses
    refine Yields.bind (Q := DOne D) ?_ fun s hs => ih.bind fun rest hr => .pure (.cons hs hr)
    unfold fragImplementingClass
    exact .then fun _ => .then fun _ => y_typenameField.bind fun tn ht =>
      .pure (d_class (.cons d_expr (.cons ht (hp.bodyFor _))))

theorem y_fragMemberClasses {p : FragmentsConfig} {n : String} {q : InterfaceParts} (hp : DIParts D q) (ms : List String) :
    Yields (fragMemberClasses c p n q ms) (DBody D) := by
  induction ms with
  | nil => exact .pure .nil
  | cons i is ih =>
    unfold fragMemberClasses
    refine Yields.bind (Q := DOne D) ?_ fun s hs => ih.bind fun rest hr => .pure (.cons hs hr)
    unfold fragMemberClass
    exact .then fun _ => y_typenameField.bind fun tn ht => .pure (d_class (.cons ht (hp.bodyFor _)))

theorem y_fragmentMeta {X : Stmt → Prop} {prep : List Char → List Char} {p : FragmentsConfig} {f : FragDef} :
    Yields (fragmentMeta prep p f) (DBody X) := by
  unfold fragmentMeta
  exact .ite (fun _ => .then fun _ => .pure (.one (d_class (.cons d_expr (.cons d_assign (.cons d_assign (.one d_assign)))))))
    fun _ => .pure .nil

theorem y_generateFragment {prep : List Char → List Char} {p : FragmentsConfig} {f : FragDef} :
    Yields (generateFragment prep c p f) (DBody D) := by
  unfold generateFragment
  split
  · exact .fail
  · refine .then fun name => .then fun _ => .then fun _ => ?_
    unfold fragmentBody
    split
    · unfold interfaceFragment
      refine .then fun _ => (y_fragInterfaceSels _).bind fun q hq => .then fun _ =>
        y_genericTypenameField.bind fun tn ht => (y_fragImplementingClasses hq _).bind fun impls hi =>
        .then fun _ => .pure ?_
      exact (hq.2.1.append (.cons (d_class (.cons d_expr hq.1)) (.one (d_class (.cons d_expr (.cons ht (.cons d_expr hq.1))))))).append hi
    · unfold objectFragment
      exact .then fun _ => y_typenameField.bind fun tn ht => (y_fragObjectSels _).bind fun q hq =>
        y_fragmentMeta.bind fun mt hm => .then fun _ => y_config.bind fun cfg hc =>
        .pure (hq.2.append (.one (d_class (.cons d_expr (.cons ht ((hq.1.append hc).append hm))))))
    · unfold unionFragment
      refine .then fun _ => (y_fragUnionSels _).bind fun q hq => (y_fragMemberClasses hq _).bind fun ms hm =>
        .then fun _ => .then fun _ => .pure ?_
      refine ((hq.2.1.append hm).append (.one d_assign)).append ?_
      split
      · exact .one d_expr
      · exact .nil
    · exact .fail

theorem y_generateFragments {prep : List Char → List Char} {p : FragmentsConfig} (fs : List FragDef) :
    Yields (generateFragments prep c p fs) (DBody D) := by
  induction fs with
  | nil => exact .pure .nil
  | cons f fs ih =>
    unfold generateFragments
    exact y_generateFragment.bind fun s hs => ih.bind fun rest hr => .pure (hs.append hr)

theorem y_fragmentsPlugin {prep : List Char → List Char} {p : FragmentsConfig} {doc : Document} :
    Yields (fragmentsPlugin prep c p doc) (DBody D) := by
  unfold fragmentsPlugin
  exact .then fun fs => y_generateFragments fs

/-! ## operations -/

theorem y_operationSels {root cls : String} (ss : List Sel) :
    Yields (operationSels c root cls ss) fun x => DBody D x.1.flatten ∧ DBody D x.2 := by
  induction ss with
  | nil => exact .pure ⟨.nil, .nil⟩
  | cons s rest ih =>
    unfold operationSels
    refine Yields.bind (Q := DPair D) ?_ fun a ha => ih.bind fun p hp => .pure ⟨ha.1.append hp.1, ha.2.append hp.2⟩
    unfold operationSel
    split
    · exact .then fun fd => y_typeFieldNode
    · exact .fail

theorem y_argumentStmts (vs : List VarDef) : Yields (argumentStmts c vs) (DBody D) := by
  induction vs with
  | nil => exact .pure .nil
  | cons v vs ih =>
    unfold argumentStmts
    refine Yields.bind (Q := DOne D) ?_ fun s hs => ih.bind fun rest hr => .pure (.cons hs hr)
    unfold argumentStmt
    exact .then fun a => .then fun a' => .then fun d => .then fun a'' => y_parameterName.bind fun n hn =>
      (keyed_argumentValue hn a'').bind fun v hv => .pure (d_ann (.inl hv))

theorem y_generateOperation {prep : List Char → List Char} {p : OperationsConfig} {o : OpDef} :
    Yields (generateOperation prep c p o) (DBody D) := by
  unfold generateOperation
  split
  · exact .fail
  · refine .then fun cls => .then fun _ => .then fun root => (y_operationSels _).bind fun x hx => .then fun _ =>
      .then fun _ => Yields.bind (Q := DBody D) ?_ fun args ha =>
      .pure (hx.2.append (.one (d_class (.cons d_expr ((hx.1.append ha).append (.one ?_))))))
    · unfold argumentsClass
      refine .ite (fun _ => ?_) fun _ => .pure .nil
      refine (y_argumentStmts _).bind fun body hb => Yields.bind (Q := DBody D) ?_ fun cfg hc => .then fun _ =>
        .pure (.one (d_class (.cons d_expr (hb.append hc))))
      unfold argumentsConfig
      exact .then fun _ => .pure (.one d_assign)
    · unfold operationMeta
      refine d_class (DBody.append (.cons d_expr (.one d_assign)) ?_)
      split
      · exact .one d_assign
      · exact .nil

theorem y_generateOperations {prep : List Char → List Char} {p : OperationsConfig} (os : List OpDef) :
    Yields (generateOperations prep c p os) (DBody D) := by
  induction os with
  | nil => exact .pure .nil
  | cons f fs ih =>
    unfold generateOperations
    exact y_generateOperation.bind fun s hs => ih.bind fun rest hr => .pure (hs.append hr)

theorem y_operationsPlugin {prep : List Char → List Char} {p : OperationsConfig} {doc : Document} :
    Yields (operationsPlugin prep c p doc) (DBody D) := by
  unfold operationsPlugin
  exact y_generateOperations _
end

/-! ## enums, objects -/

theorem y_generateEnums {D : Stmt → Prop} {c : Ctx} {p : EnumsConfig} : Yields (generateEnums c p) (DBody D) := by
  unfold generateEnums
  refine .then fun _ => ?_
  have hv : ∀ vs : List EnumValueDef, DBody D (vs.flatMap enumValueStmts) := by
    intro vs
    induction vs with
    | nil => exact .nil
    | cons v vs ih =>
      rw [List.flatMap_cons]
      refine DBody.append ?_ ih
      unfold enumValueStmts
      refine .cons d_assign ?_
      split
      · exact .one d_expr
      · exact .nil
  have hl : ∀ ts, Yields (enumLoop c p ts) (DBody D) := by
    intro ts
    induction ts with
    | nil => exact .pure .nil
    | cons t ts ih =>
      unfold enumLoop
      refine Yields.bind (Q := DBody D) ?_ fun s hs => ih.bind fun ss hr => .pure (hs.append hr)
      unfold enumStep
      exact .ite (fun _ => .pure .nil) fun _ => .ite (fun _ => .pure .nil) fun _ => .ite (fun _ => .pure .nil) fun _ =>
        .then fun n => .pure (.one (d_class (.cons d_expr (hv _))))
  exact hl _

theorem y_objectFields {c : Ctx} {cls : String} (fs : List FieldDef) :
    Yields (objectFields c cls fs) (DBody (Keyed c.env)) := by
  induction fs with
  | nil => exact .pure .nil
  | cons f fs ih =>
    unfold objectFields
    refine Yields.bind (Q := DBody (Keyed c.env)) ?_ fun s hs => ih.bind fun ss hr => .pure (hs.append hr)
    unfold objectFieldStmts
    exact y_nodeName.bind fun n hn => .then fun a => .then fun a' => (keyed_objectFieldValue hn a').bind fun v hv =>
      .pure (.cons (d_ann hv) d_docs)

theorem y_generateTypes {c : Ctx} {p : ObjectsConfig} : Yields (generateTypes c p) (DBody (Keyed c.env)) := by
  unfold generateTypes
  have hl : ∀ ts acc, DBody (Keyed c.env) acc.tree → Yields (objectLoop c p ts acc) fun x => DBody (Keyed c.env) x.tree := by
    intro ts
    induction ts with
    | nil => intro acc h; exact .pure h
    | cons t ts ih =>
      intro acc h
      unfold objectLoop
      refine Yields.bind (Q := fun x => DBody (Keyed c.env) x.tree) ?_ fun a ha => ih a ha
      unfold objectStep
      refine .then fun _ => .ite (fun _ => .pure h) fun _ => .ite (fun _ => .pure h) fun _ =>
        .then fun cls => .then fun x => (y_objectFields _).bind fun fs hf =>
        y_config.bind fun cfg hc => .pure (h.append (.one (d_class (DBody.append (DBody.append ?_ hf) hc))))
      split
      · exact .one d_expr
      · exact .nil
  have hi : ∀ m : Dict (List String), DBody (Keyed c.env) (m.map interfaceUnion) := by
    intro m
    induction m with
    | nil => exact .nil
    | cons p m ih => exact .cons d_assign ih
  exact .then fun _ => (hl _ _ .nil).bind fun acc h => .then fun _ => .ite (fun _ => .fail) fun _ =>
    .pure ((h.append (hi _)).append (d_assigns _))

/-! ## inputs -/

/-- what the classes of input types may declare -/
def InputDecl (c : Ctx) (d : Stmt) : Prop := Keyed c.env d ∨ DiscriminatorDecl c.schema d

section
variable {c : Ctx} {p : InputsConfig}

theorem y_inputFields {cls : String} {skip : List String} (fs : List InputFieldDef) :
    Yields (inputFields c cls skip fs) (DBody (InputDecl c)) := by
  induction fs with
  | nil => exact .pure .nil
  | cons f fs ih =>
    unfold inputFields
    refine .then fun n => .ite (fun _ => ih) fun _ => ?_
    refine Yields.bind (Q := DBody (InputDecl c)) ?_ fun s hs => ih.bind fun ss hr => .pure (hs.append hr)
    unfold inputFieldStmts
    exact y_nodeName.bind fun n hn => .then fun a => .then fun a' => (keyed_inputFieldValue hn a').bind fun v hv =>
      .ite (fun _ => .pure (.cons (d_ann (.inl hv)) (.one d_expr))) fun _ => .pure (.one (d_ann (.inl hv)))

theorem y_discriminatorStmts (ds : List Discriminator) (hd : ∀ d ∈ ds, InputDecl c (discriminatorStmt d)) :
    Yields (discriminatorStmts ds) (DBody (InputDecl c)) := by
  induction ds with
  | nil => exact .pure .nil
  | cons d ds ih =>
    unfold discriminatorStmts
    exact .then fun _ => .then fun _ => (ih fun e he => hd e (List.mem_cons_of_mem _ he)).bind fun rest hr =>
      .pure (.cons (d_ann (hd d (List.mem_cons_self ..))) hr)

theorem y_generateInputType {n t : String} {d : Option String} {fs : List InputFieldDef} {ds : List Discriminator}
    (hd : ∀ d ∈ ds, InputDecl c (discriminatorStmt d)) :
    Yields (generateInputType c p n t d fs ds) (DOne (InputDecl c)) := by
  unfold generateInputType
  refine .then fun _ => (y_discriminatorStmts ds hd).bind fun lits hl => (y_inputFields _).bind fun fs hf =>
    y_config.bind fun cfg hc => .pure (d_class (DBody.append (.cons d_expr ((hl.append hf).append ?_)) hc))
  split
  · exact .one (by intro m hm; simp [postInit, declsIn] at hm)
  · exact .nil

theorem y_oneofWrappers {t : String} {ex : List Expr} (fs : List InputFieldDef) :
    Yields (oneofWrappers c p t ex fs) fun l => DBody (InputDecl c) (l.map (·.2)) := by
  induction fs with
  | nil => exact .pure .nil
  | cons f fs ih =>
    unfold oneofWrappers
    refine Yields.bind (Q := fun x => DOne (InputDecl c) x.2) ?_ fun w hw => ih.bind fun ws hs => .pure (.cons hw hs)
    intro r a r' h
    unfold oneofWrapper at h
    split at h
    · cases h
    · cases h
    · exact (show Yields _ fun x : String × Stmt => DOne (InputDecl c) x.2 from
        y_nodeName.bind fun n hn => .then fun a => .then fun a' => (keyed_inputFieldValue hn a').bind fun v hv =>
          y_config.bind fun cfg hc => .pure (d_class (DBody.append (.cons d_expr (.one (d_ann (.inl hv)))) hc))) _ _ _ h

theorem membershipsOf_mem {ref : Option (List String)} {t : String} (us : List DirectiveUse) : ∀ {discr discr' : Dict String}
    {ms : List Membership}, membershipsOf ref t us discr = .ok (ms, discr') → ∀ m ∈ ms, ∃ u ∈ us,
      u.name = "unionElementOf" ∧ u.args.get? "discriminator" = some m.discriminator := by
  induction us with
  | nil => intro discr discr' ms h m hm; cases h; cases hm
  | cons u us ih =>
    intro discr discr' ms h m hm
    have tail : ∀ {d d' : Dict String} {l : List Membership}, membershipsOf ref t us d = .ok (l, d') → m ∈ l →
        ∃ v ∈ u :: us, v.name = "unionElementOf" ∧ v.args.get? "discriminator" = some m.discriminator := by
      intro d d' l h hm
      obtain ⟨v, hv, hn, hd⟩ := ih h m hm
      exact ⟨v, List.mem_cons_of_mem _ hv, hn, hd⟩
    unfold membershipsOf at h
    split at h
    · exact tail h hm
    · rename_i hu
      have hu : u.name = "unionElementOf" := by simpa using hu
      split at h
      · rename_i _ _ _ _ hdisc _
        split at h
        · exact tail h hm
        · split at h
          · split at h
            · cases h
            · split at h
              · cases h
              · rename_i ht
                cases h
                rcases List.mem_cons.1 hm with rfl | hm
                · exact ⟨u, List.mem_cons_self .., hu, hdisc⟩
                · exact tail ht hm
          · split at h
            · cases h
            · rename_i ht
              cases h
              rcases List.mem_cons.1 hm with rfl | hm
              · exact ⟨u, List.mem_cons_self .., hu, hdisc⟩
              · exact tail ht hm
      · cases h

theorem collectDiscriminators_mem {t : String} (ms : List Membership) : ∀ {acc ds : Dict String},
    collectDiscriminators t ms acc = .ok ds → ∀ d ∈ ds, d ∈ acc ∨ ∃ m ∈ ms, m.discriminator = d.1 := by
  induction ms with
  | nil => intro acc ds h d hd; cases h; exact .inl hd
  | cons m ms ih =>
    intro acc ds h d hd
    have step : ∀ {l : Dict String}, collectDiscriminators t ms (acc.set m.discriminator m.key) = .ok l → d ∈ l →
        d ∈ acc ∨ ∃ x ∈ m :: ms, x.discriminator = d.1 := by
      intro l h hd
      rcases ih h d hd with h | ⟨x, hx, hn⟩
      · rcases Dict.mem_set (k := d.1) (v := d.2) h with h | h
        · exact .inr ⟨m, List.mem_cons_self .., h.1.symm⟩
        · exact .inl h
      · exact .inr ⟨x, List.mem_cons_of_mem _ hx, hn⟩
    unfold collectDiscriminators at h
    split at h
    · split at h
      · cases h
      · exact step h hd
    · exact step h hd

theorem y_prePass (ts : List InputType) : ∀ (acc : PrePass), (∀ t ∈ ts, InputOf c.schema t) →
    DBody (InputDecl c) acc.tree → Yields (prePass c p ts acc) fun x => DBody (InputDecl c) x.tree := by
  induction ts with
  | nil => intro acc _ h; exact .pure h
  | cons t ts ih =>
    intro acc ht h
    unfold prePass
    refine Yields.bind (Q := fun x => DBody (InputDecl c) x.tree) ?_ fun a ha => ih a (fun t h => ht t (List.mem_cons_of_mem _ h)) ha
    unfold prePassStep
    refine Yields.bind (Q := fun x => membershipsOf p.refInputs t.name t.directives acc.discriminators = .ok x)
      (fun _ _ _ h => (Gen.lift_ok.1 h).1) fun x hx => ?_
    refine .ite (fun _ => .pure h) fun _ => ?_
    refine Yields.bind (Q := fun ds => collectDiscriminators t.name x.1 [] = .ok ds) (fun _ _ _ h => (Gen.lift_ok.1 h).1)
      fun ds hds => .then fun n => (y_generateInputType ?_).bind fun cls hc => .pure (h.append (.one hc))
    intro d hd
    obtain ⟨q, hq, rfl⟩ := List.mem_map.1 hd
    rcases collectDiscriminators_mem _ hds q hq with h | ⟨m, hm, hmn⟩
    · cases h
    · obtain ⟨u, hu, hun, hud⟩ := membershipsOf_mem _ hx m hm
      exact .inr ⟨q.1, rfl, rfl, rfl, t, ht t (List.mem_cons_self ..), u, hu, hun, by rw [hud, hmn]⟩

theorem y_mainLoop {pre : PrePass} (ts : List InputType) :
    Yields (mainLoop c p pre ts) fun x => DBody (InputDecl c) x.1 := by
  induction ts with
  | nil => exact .pure .nil
  | cons t ts ih =>
    unfold mainLoop
    refine Yields.bind (Q := fun x => DBody (InputDecl c) x.1) ?_ fun x hx => ih.bind fun y hy => .pure (hx.append hy)
    unfold mainStep
    refine .ite (fun _ => .pure .nil) fun _ => .ite (fun _ => .pure .nil) fun _ => .ite (fun _ => .pure .nil) fun _ =>
      .ite (fun _ => ?_) fun _ => ?_
    · refine .then fun _ => ?_
      split
      · exact .pure .nil
      · refine Yields.bind (Q := DBody (InputDecl c)) ?_ fun s hs => .pure hs
        unfold generateOneofWrapperInput
        refine .then fun _ => (y_oneofWrappers _).bind fun ws hw => .then fun al =>
          Yields.bind (Q := DOne (InputDecl c)) ?_ fun a ha => .pure (hw.append (.one ha))
        unfold generateUnionAlias
        split
        · exact .pure d_assign
        · exact .then fun _ => .pure d_assign
    · split
      · exact .then fun _ => .then fun n => .pure (.one d_assign)
      · exact .then fun n => (y_generateInputType fun d h => by cases h).bind fun cls h => .pure (.one h)

theorem y_generateInputs : Yields (generateInputs c p) (DBody (InputDecl c)) := by
  unfold generateInputs
  have hu : ∀ l, Yields (deferredUnions c l) (DBody (InputDecl c)) := by
    intro l
    induction l with
    | nil => exact .pure .nil
    | cons q l ih =>
      unfold deferredUnions
      refine Yields.bind (Q := DBody (InputDecl c)) ?_ fun s hs => ih.bind fun ss hr => .pure (hs.append hr)
      unfold generateOneofDirectUnion
      exact .then fun n => .then fun mcs => .then fun _ => .then fun _ => .then fun _ =>
        .pure (.cons (by intro m hm; simp [declsIn] at hm) (.one d_assign))
  refine .then fun _ => (y_prePass _ _ (fun t ht => ?_) .nil).bind fun pre hp => (y_mainLoop _).bind fun x hx =>
    (hu _).bind fun us hus => .pure ((hp.append hx).append hus)
  unfold inputTypes at ht
  obtain ⟨q, hq, h⟩ := List.mem_filterMap.1 ht
  split at h
  · rename_i hd
    cases h
    exact ⟨q.2, hq, hd, rfl⟩
  · cases h
end

end Turms
