import Verif.Lemmas.Twin

/-! # The walk over selections under two settings of the generated models -/

namespace Turms
open Spec

/-- an annotation and the classes it needs -/
def viewE (x : Expr × List Stmt) : Expr × List Stmt := (annotationShape x.1, shapes x.2)
/-- the declaration of a field -/
def viewD (l : List Stmt) : List Stmt × Option Expr := (bodyShape l, (annotationOf l).map annotationShape)
/-- the declaration of a field, and classes -/
def viewF (x : List Stmt × List Stmt) : (List Stmt × Option Expr) × List Stmt := (viewD x.1, shapes x.2)
/-- part of a class body, and classes -/
def viewB (x : List Stmt × List Stmt) : List Stmt × List Stmt := (bodyShape x.1, shapes x.2)
/-- what a selection set contributes to a class -/
def viewO (p : ObjectParts) : List String × List Stmt × List Stmt := (p.bases, bodyShape p.body, shapes p.classes)
/-- what a selection set contributes to the classes of an interface -/
def viewI (p : InterfaceParts) : List Stmt × List (String × String) × List (String × List Stmt) × List Stmt :=
  (bodyShape p.body, p.implBases, p.inlineBodies.map (fun q => (q.1, bodyShape q.2)), shapes p.classes)
/-- names of classes, and classes -/
def viewU (x : List String × List Stmt) : List String × List Stmt := (x.1, shapes x.2)

theorem viewO_append {a b a' b' : ObjectParts} (h : viewO a = viewO a') (h' : viewO b = viewO b') :
    viewO (a.append b) = viewO (a'.append b') := by
  simp only [viewO, Prod.mk.injEq, ObjectParts.append, bodyShape_append, shapes_append] at *
  obtain ⟨h1, h2, h3⟩ := h
  obtain ⟨h4, h5, h6⟩ := h'
  rw [h1, h2, h3, h4, h5, h6]
  exact ⟨rfl, rfl, rfl⟩

theorem viewI_append {a b a' b' : InterfaceParts} (h : viewI a = viewI a') (h' : viewI b = viewI b') :
    viewI (a.append b) = viewI (a'.append b') := by
  simp only [viewI, Prod.mk.injEq, InterfaceParts.append, bodyShape_append, shapes_append, List.map_append] at *
  obtain ⟨h1, h2, h3, h4⟩ := h
  obtain ⟨h5, h6, h7, h8⟩ := h'
  rw [h1, h2, h3, h4, h5, h6, h7, h8]
  exact ⟨rfl, rfl, rfl, rfl⟩

theorem bodyShape_flatten (l : List (List Stmt)) : bodyShape l.flatten = (l.map bodyShape).flatten := by
  induction l with
  | nil => exact bodyShape_nil
  | cons a l ih => simp only [List.flatten_cons, List.map_cons, bodyShape_append, ih]

theorem bodyFor_view {p p' : InterfaceParts} (h : viewI p = viewI p') (t : String) :
    bodyShape (p.bodyFor t) = bodyShape (p'.bodyFor t) := by
  have key : ∀ q : InterfaceParts, bodyShape (q.bodyFor t) =
      (((q.inlineBodies.map fun q => (q.1, bodyShape q.2)).filter fun q => q.1 == t).map (·.2)).flatten := by
    intro q
    unfold InterfaceParts.bodyFor
    rw [bodyShape_flatten]
    congr 1
    induction q.inlineBodies with
    | nil => rfl
    | cons x l ih =>
      simp only [List.filter_cons, List.map_cons]
      split
      · simp only [List.map_cons, ih]
      · exact ih
  simp only [viewI, Prod.mk.injEq] at h
  rw [key, key, h.2.2.1]

theorem basesFor_view {p p' : InterfaceParts} (h : viewI p = viewI p') (t : String) : p.basesFor t = p'.basesFor t := by
  simp only [viewI, Prod.mk.injEq] at h
  unfold InterfaceParts.basesFor
  rw [h.2.1]

theorem bodyShape_ann {n : String} {a : Expr} {v : Option Expr} {ss : List Stmt} :
    bodyShape (.annAssign n a v :: ss) = .annAssign n (annotationShape a) v :: bodyShape ss := by
  simp only [bodyShape, configures, shape, Bool.false_eq_true, if_false]

theorem bodyShape_congr {s : Stmt} {ss ss' : List Stmt} (h : bodyShape ss = bodyShape ss') :
    bodyShape (s :: ss) = bodyShape (s :: ss') := by
  rw [bodyShape_cons, h, ← bodyShape_cons]

theorem shape_class {n : String} {bs ds : List Expr} {body body' : List Stmt} (h : bodyShape body = bodyShape body') :
    shape (.classDef n bs body ds) = shape (.classDef n bs body' ds) := by
  simp only [shape, h]

section
variable {c : Ctx} {m : ModelOptions}

local notation "c°" => withOptions c m

/-- the configuration of a class is not seen -/
theorem seen_config {c : Ctx} {g : GQLType} {n : Option String} {r : Reg} :
    seen bodyShape (generatePydanticConfig c g n r) = .ok ([], core r) := by
  unfold generatePydanticConfig
  split
  · unfold generateConfigDict
    split
    · exact congrArg (fun l => Except.ok (l, core r)) bodyShape_nil
    · rw [bind_run]
      have h := (Prod.mk.inj (Except.ok.inj (seen_configDict (r := r)))).2
      show Except.ok (bodyShape _, core _) = _
      rw [h]
      simp [bodyShape, configures]
  · show Except.ok (bodyShape _, core r) = _
    unfold generateConfigClass
    dsimp only
    split
    · rw [bodyShape_nil]
    · simp [bodyShape, configures, Expr.str]

theorem twin_config {c c' : Ctx} {g g' : GQLType} {n n' : Option String} :
    Twin bodyShape (generatePydanticConfig c g n) (generatePydanticConfig c' g' n') :=
  ⟨fun r r' h => by rw [seen_config, seen_config, h]⟩

theorem twin_optionalWrap {o : Bool} {a a' : Expr} (h : annotationShape a = annotationShape a') :
    Twin annotationShape (optionalWrap o a) (optionalWrap o a') := by
  unfold optionalWrap
  refine .ite (blind_registerImport.then fun _ => .pure ?_) (.pure h)
  rw [annotationShape_sub (by decide), annotationShape_sub (by decide), h]

theorem blind_optionalWrap {o : Bool} {a : Expr} : Blind (optionalWrap o a) := by
  unfold optionalWrap
  exact .ite (blind_registerImport.then fun _ => Twin.pure rfl) (Twin.pure rfl)

theorem blind_registerImports (l : List String) : Blind (registerImports l) := by
  induction l with
  | nil => exact Twin.pure rfl
  | cons a l ih => exact blind_registerImport.then fun _ => ih

theorem twin_additionalBasesFor {n : String} : Twin id (additionalBasesFor c n) (additionalBasesFor c° n) := by
  show Blind (additionalBasesFor c n)
  unfold additionalBasesFor
  split
  · exact (blind_registerImports _).then fun _ => Twin.pure rfl
  · exact Twin.pure rfl

theorem twin_interfaceBasesOf : Twin id (interfaceBasesOf c) (interfaceBasesOf c°) :=
  (blind_registerImports _).then fun _ => .pure rfl

theorem blind_typenameImports : Blind typenameImports :=
  blind_registerImport.then fun _ => blind_registerImport.then fun _ => blind_registerImport

theorem twin_typenameField {n : String} : Twin id (typenameField c n) (typenameField c° n) :=
  blind_typenameImports.then fun _ => .pure rfl

theorem twin_genericTypenameField : Twin id (genericTypenameField c) (genericTypenameField c°) :=
  blind_typenameImports.then fun _ => .pure rfl

theorem twin_nodeName {n : String} : Twin id (nodeName c.env n) (nodeName (c°).env n) := Twin.lift
theorem twin_parameterName {n : String} : Twin id (parameterName c.env n) (parameterName (c°).env n) := Twin.lift

theorem blind_markerCall {g : Gen Expr} (hg : Blind g) {a : Option Expr} : Blind (markerCall g a) := by
  unfold markerCall
  split
  · exact hg.then fun _ => Twin.pure rfl
  · exact Twin.pure rfl

theorem annotated_shape {a a' : Expr} {ms : List Expr} (h : annotationShape a = annotationShape a') :
    annotationShape (sub "Annotated" (.tuple (a :: ms))) = annotationShape (sub "Annotated" (.tuple (a' :: ms))) := by
  rw [annotationShape_sub (by decide), annotationShape_sub (by decide)]
  simp only [annotationShape, annotationShapes, h]

theorem twin_annotateFieldMetadata {a a' : Expr} {d : Option Expr} {s : Option String}
    (h : annotationShape a = annotationShape a') :
    Twin annotationShape (annotateFieldMetadata c.env a d s) (annotateFieldMetadata (c°).env a' d s) := by
  unfold annotateFieldMetadata
  refine Twin.then (blind_markerCall blind_referenceMarker) fun m1 => ?_
  refine Twin.then (blind_markerCall blind_referenceMarker) fun m2 => ?_
  refine .ite (.pure h) (blind_registerImport.then fun _ => .pure ?_)
  exact annotated_shape h

theorem blind_annotateFieldMetadata {a : Expr} {d : Option Expr} {s : Option String} :
    Twin id (annotateFieldMetadata c.env a d s) (annotateFieldMetadata (c°).env a d s) := by
  unfold annotateFieldMetadata
  refine Twin.then (blind_markerCall blind_referenceMarker) fun m1 => ?_
  refine Twin.then (blind_markerCall blind_referenceMarker) fun m2 => ?_
  exact .ite (.pure rfl) (blind_registerImport.then fun _ => .pure rfl)

theorem blind_objectFieldValue {n : String} {f : FieldDef} : Blind (objectFieldValue n f) := by
  unfold objectFieldValue
  exact .ite (blind_registerImport.then fun _ => Twin.pure rfl) (.ite (blind_registerImport.then fun _ => Twin.pure rfl) (Twin.pure rfl))

theorem blind_spreadBase {f t : String} : Blind (spreadBase f t) := by
  unfold spreadBase
  refine blind_interfaceImpl.then fun i => ?_
  split
  · exact Twin.pure rfl
  · exact blind_inheritFragment

theorem twin_collapseReference {p f t : String} : Twin id (collapseReference c p f t) (collapseReference c° p f t) := by
  unfold collapseReference
  refine blind_interfaceImpl.then fun i => ?_
  split
  · exact .pure rfl
  · exact blind_referenceGeneric

theorem twin_wrapOutput {leaf leaf' : String → Bool → Gen (Expr × List Stmt)} (h : ∀ n o, Twin viewE (leaf n o) (leaf' n o))
    (t : TypeNode) : ∀ {o : Bool}, Twin viewE (wrapOutput c leaf t o) (wrapOutput c° leaf' t o) := by
  induction t with
  | named n => intro o; unfold wrapOutput; exact h n o
  | list t ih =>
    intro o; unfold wrapOutput
    refine twin_listImport.then fun _ => Twin.bind ih fun a a' ha => ?_
    obtain ⟨h1, h2⟩ := Prod.mk.inj ha
    refine Twin.bind (twin_optionalWrap ?_) fun b b' hb => .pure ?_
    · rw [annotationShape_list, annotationShape_list, h1]
    · simp only [viewE, hb, h2]
  | nonNull t ih => intro o; unfold wrapOutput; exact ih

theorem twin_finishField {n t : String} {fd : FieldDef} {a a' : Expr} (h : annotationShape a = annotationShape a') :
    Twin viewD (finishField c n t fd a) (finishField c° n t fd a') := by
  unfold finishField
  refine Twin.bind (twin_annotateFieldMetadata h) fun b b' hb => blind_objectFieldValue.then fun v => .pure ?_
  simp only [viewD, bodyShape_ann, annotationOf, hb, Option.map_some]
  rfl

theorem twin_typeField {fd : FieldDef} {t : String} {leaf leaf' : String → Bool → Gen (Expr × List Stmt)}
    (h : ∀ n o, Twin viewE (leaf n o) (leaf' n o)) : Twin viewF (typeField c fd t leaf) (typeField c° fd t leaf') := by
  unfold typeField
  refine twin_nodeName.then fun _ => Twin.bind (twin_wrapOutput h _) fun x x' hx => ?_
  obtain ⟨h1, h2⟩ := Prod.mk.inj hx
  refine Twin.bind (twin_finishField h1) fun s s' hs => .pure ?_
  simp only [viewF, hs, h2]

theorem twin_spreadOrAdditional {t : String} {bs : List String} :
    Twin id (spreadOrAdditional c t bs) (spreadOrAdditional c° t bs) := by
  unfold spreadOrAdditional
  exact .ite twin_additionalBasesFor (.pure rfl)

theorem twin_implementingClasses {mo : String} {p p' : InterfaceParts} (hp : viewI p = viewI p') (is : List Implementation) :
    Twin shapes (implementingClasses c mo p is) (implementingClasses c° mo p' is) := by
  induction is with
  | nil => exact .pure rfl
  | cons i is ih =>
    unfold implementingClasses implementingClass
    refine Twin.bind (φ := shape) (twin_additionalBasesFor.then fun _ => twin_interfaceBasesOf.then fun _ =>
      twin_typenameField.then fun _ => .pure ?_) fun s s' hs => Twin.bind ih fun l l' hl => .pure ?_
    · rw [basesFor_view hp]
      exact shape_class (bodyShape_congr (bodyShape_congr (bodyFor_view hp _)))
    · rw [shapes_cons, shapes_cons, hs, hl]

theorem blind_unionReference {cs : List String} {o : Bool} : Blind (unionReference cs o) := by
  unfold unionReference
  split
  · exact Twin.fail
  · exact Twin.pure rfl
  · exact blind_registerImport.then fun _ => blind_optionalWrap

theorem twin_catchAll {mo : String} {t : Expr} : Twin id (catchAll c mo t) (catchAll c° mo t) := by
  unfold catchAll
  refine .ite ?_ (.pure rfl)
  exact twin_interfaceBasesOf.then fun _ => twin_genericTypenameField.then fun _ => blind_registerImport.then fun _ => .pure rfl

theorem twin_namedNode {parent target : String} {sub : List Sel}
    {objs objs' : String → List FieldDef → String → Gen ObjectParts} {ifcs ifcs' : List FieldDef → String → Gen InterfaceParts}
    {uns uns' : Gen (List String × List Stmt)} (ho : ∀ n fs k, Twin viewO (objs n fs k) (objs' n fs k))
    (hi : ∀ fs k, Twin viewI (ifcs fs k) (ifcs' fs k))
    (hu : Twin viewU uns uns') (n : String) (opt : Bool) : Twin viewE (namedNode c parent target sub objs ifcs uns n opt)
      (namedNode c° parent target sub objs' ifcs' uns' n opt) := by
  unfold namedNode
  have hs : (withOptions c m).schema = c.schema := rfl
  simp only [hs]
  cases hg : c.schema.types.get? n with
  | none => exact .fail
  | some e =>
    obtain ⟨d, desc⟩ := e
    cases d with
    | scalar => exact blind_referenceScalar.then fun _ => blind_optionalWrap.then fun _ => .pure rfl
    | enum vs => exact Twin.then blind_referenceEnum fun _ => blind_optionalWrap.then fun _ => .pure rfl
    | input a b => exact .fail
    | object fs is =>
      dsimp only
      unfold objectNode
      dsimp only
      refine twin_typenameField.then fun tn => ?_
      split
      · exact twin_collapseReference.then fun _ => blind_optionalWrap.then fun _ => .pure rfl
      · refine (ho _ _ _).bind fun p p' hp => ?_
        unfold finishObject
        simp only [viewO, Prod.mk.injEq] at hp
        rw [hp.1]
        refine twin_spreadOrAdditional.then fun _ => twin_config.bind fun cfg cfg' hcfg =>
          blind_optionalWrap.then fun _ => .pure ?_
        simp only [viewE, shapes_append, hp.2.2]
        congr 2
        refine congrArg (fun x => [x]) (shape_class (bodyShape_congr (bodyShape_congr ?_)))
        rw [bodyShape_append, bodyShape_append, hp.2.1, hcfg]
    | interface fs is =>
      dsimp only
      unfold interfaceNode
      dsimp only
      simp only [hs]
      refine (hi _ _).bind fun p p' hp => twin_additionalBasesFor.then fun _ => twin_interfaceBasesOf.then fun _ =>
        twin_config.bind fun cfg cfg' hcfg => (twin_implementingClasses hp _).bind fun is is' his =>
        blind_registerImport.then fun _ => blind_registerImport.then fun _ => twin_catchAll.then fun _ =>
        blind_optionalWrap.then fun _ => .pure ?_
      simp only [viewI, Prod.mk.injEq] at hp
      simp only [viewE, shapes_append, shapes_cons, hp.2.2.2, his]
      congr 3
      refine shape_class (bodyShape_congr ?_)
      rw [bodyShape_append, bodyShape_append, hp.1, hcfg]
    | union ms =>
      dsimp only
      unfold unionNode
      refine hu.bind fun p p' hp => ?_
      obtain ⟨h1, h2⟩ := Prod.mk.inj hp
      rw [show p.1 = p'.1 from h1]
      exact blind_unionReference.then fun e => .pure (by simp only [viewE, h2])

theorem twin_inlineClass {cls t : String} {p p' : ObjectParts} (hp : viewO p = viewO p') :
    Twin shapes (inlineClass c cls t p) (inlineClass c° cls t p') := by
  unfold inlineClass
  simp only [viewO, Prod.mk.injEq] at hp
  rw [hp.1]
  refine Twin.then ?_ fun tn => twin_spreadOrAdditional.then fun bs => twin_config.bind fun cfg cfg' hcfg => .pure ?_
  · unfold inlineTypename
    exact .ite (twin_typenameField.then fun _ => .pure rfl) (.pure rfl)
  · rw [shapes_append, shapes_append, hp.2.2]
    congr 1
    refine congrArg (fun x => [x]) (shape_class ?_)
    have key : ∀ l : List Stmt, bodyShape (if l.isEmpty then [.pass_] else l) = bodyShape l := by
      intro l
      cases l with
      | nil => simp [bodyShape, configures]
      | cons => rfl
    rw [key, key]
    simp only [bodyShape_append, hp.2.1, hcfg]
end

section
variable {c : Ctx} {m : ModelOptions}
local notation "c°" => withOptions c m

theorem viewF_body {x x' : List Stmt × List Stmt} (h : viewF x = viewF x') :
    bodyShape x.1 = bodyShape x'.1 ∧ shapes x.2 = shapes x'.2 := by
  simp only [viewF, viewD, Prod.mk.injEq] at h
  exact ⟨h.1.1, h.2⟩

theorem blind_fieldNamed {n : String} {fs : List FieldDef} : Blind (fieldNamed n fs) := by
  unfold fieldNamed
  split
  · exact Twin.pure rfl
  · exact Twin.fail
theorem blind_fieldDefOf {s : Schema} {t n : String} : Blind (fieldDefOf s t n) := by
  unfold fieldDefOf
  split
  · exact Twin.pure rfl
  · exact Twin.fail
theorem blind_assertFieldDef {s : Schema} {t n : String} : Blind (assertFieldDef s t n) := by
  unfold assertFieldDef
  split
  · exact Twin.pure rfl
  · exact Twin.fail
theorem blind_requireObject {s : Schema} {t : String} : Blind (requireObject s t) := by
  unfold requireObject
  split
  · exact Twin.pure rfl
  · exact Twin.fail
theorem blind_objectFieldNamed {s : Schema} {t n : String} : Blind (objectFieldNamed s t n) := by
  unfold objectFieldNamed
  split
  · exact blind_fieldNamed
  · exact Twin.fail

mutual
theorem twin_objectSel (s : Sel) : ∀ (t : String) (fs : List FieldDef) (cls : String),
    Twin viewO (objectSel c t fs cls s) (objectSel c° t fs cls s) := by
  intro t fs cls
  cases s with
  | spread f => unfold objectSel; exact blind_spreadBase.then fun _ => .pure rfl
  | inline t sub => unfold objectSel; exact .fail
  | field n a as sub =>
    unfold objectSel
    refine .ite (.pure rfl) (blind_fieldNamed.then fun _ => (twin_typeField (twin_namedNode
      (fun n fs k => twin_objectSels sub n fs k) (fun fs k => twin_interfaceSels sub fs k)
      (twin_unionSels sub _))).bind fun x x' hx => .pure ?_)
    simp only [viewO, viewF_body hx]
theorem twin_objectSels (ss : List Sel) : ∀ (t : String) (fs : List FieldDef) (cls : String),
    Twin viewO (objectSels c t fs cls ss) (objectSels c° t fs cls ss) := by
  intro t fs cls
  cases ss with
  | nil => unfold objectSels; exact .pure rfl
  | cons s ss =>
    unfold objectSels
    exact (twin_objectSel s _ _ _).bind fun _ _ h => (twin_objectSels ss _ _ _).bind fun _ _ h' => .pure (viewO_append h h')
theorem twin_interfaceSel (s : Sel) : ∀ (fs : List FieldDef) (cls : String),
    Twin viewI (interfaceSel c fs cls s) (interfaceSel c° fs cls s) := by
  intro fs cls
  cases s with
  | spread f => unfold interfaceSel; exact blind_spreadImplementations.then fun _ => .pure rfl
  | inline t sub =>
    cases t with
    | none => unfold interfaceSel; exact .fail
    | some t =>
      unfold interfaceSel
      refine Twin.then blind_requireObject fun _ => (twin_inlineSels sub _ _).bind fun x x' hx => .pure ?_
      obtain ⟨h1, h2⟩ := Prod.mk.inj hx
      simp only [viewI, h2, List.map_cons, h1, List.map_nil]
  | field n a as sub =>
    unfold interfaceSel
    refine .ite (.pure rfl) (blind_fieldNamed.then fun _ => (twin_typeField (twin_namedNode
      (fun n fs k => twin_objectSels sub n fs k) (fun fs k => twin_interfaceSels sub fs k)
      (twin_unionSels sub _))).bind fun x x' hx => .pure ?_)
    simp only [viewI, viewF_body hx]
theorem twin_interfaceSels (ss : List Sel) : ∀ (fs : List FieldDef) (cls : String),
    Twin viewI (interfaceSels c fs cls ss) (interfaceSels c° fs cls ss) := by
  intro fs cls
  cases ss with
  | nil => unfold interfaceSels; exact .pure rfl
  | cons s ss =>
    unfold interfaceSels
    exact (twin_interfaceSel s _ _).bind fun _ _ h => (twin_interfaceSels ss _ _).bind fun _ _ h' => .pure (viewI_append h h')
theorem twin_inlineSel (s : Sel) : ∀ (t p : String), Twin viewB (inlineSel c t p s) (inlineSel c° t p s) := by
  intro t p
  cases s with
  | spread f => unfold inlineSel; exact .pure rfl
  | inline t sub => unfold inlineSel; exact .pure rfl
  | field n a as sub =>
    unfold inlineSel
    refine .ite (.pure rfl) (Twin.then blind_fieldDefOf fun _ => ?_)
    refine Twin.weaken (twin_typeField (twin_namedNode
      (fun n fs k => twin_objectSels sub n fs k) (fun fs k => twin_interfaceSels sub fs k) (twin_unionSels sub _))) ?_
    intro x x' hx
    obtain ⟨h1, h2⟩ := viewF_body hx
    simp only [viewB, h1, h2]
theorem twin_inlineSels (ss : List Sel) : ∀ (t p : String), Twin viewB (inlineSels c t p ss) (inlineSels c° t p ss) := by
  intro t p
  cases ss with
  | nil => unfold inlineSels; exact .pure rfl
  | cons s ss =>
    unfold inlineSels
    refine (twin_inlineSel s _ _).bind fun x x' hx => (twin_inlineSels ss _ _).bind fun y y' hy => .pure ?_
    obtain ⟨h1, h2⟩ := Prod.mk.inj hx
    obtain ⟨h3, h4⟩ := Prod.mk.inj hy
    simp only [viewB, bodyShape_append, shapes_append, h1, h2, h3, h4]
theorem twin_unionSel (s : Sel) : ∀ (p : String), Twin viewU (unionSel c p s) (unionSel c° p s) := by
  intro p
  cases s with
  | spread f => unfold unionSel; exact blind_inheritFragment.then fun _ => .pure rfl
  | inline t sub =>
    cases t with
    | none => unfold unionSel; exact .fail
    | some t =>
      unfold unionSel
      refine (twin_unionInlineSels sub _ _).bind fun x x' hx => (twin_inlineClass hx).bind fun s s' hs => .pure ?_
      simp only [viewU, hs]
  | field n a as sub => unfold unionSel; exact .pure rfl
theorem twin_unionSels (ss : List Sel) : ∀ (p : String), Twin viewU (unionSels c p ss) (unionSels c° p ss) := by
  intro p
  cases ss with
  | nil => unfold unionSels; exact .pure rfl
  | cons s ss =>
    unfold unionSels
    refine (twin_unionSel s _).bind fun x x' hx => (twin_unionSels ss _).bind fun y y' hy => .pure ?_
    obtain ⟨h1, h2⟩ := Prod.mk.inj hx
    obtain ⟨h3, h4⟩ := Prod.mk.inj hy
    simp only [viewU, shapes_append, h1, h2, h3, h4]
theorem twin_unionInlineSel (s : Sel) : ∀ (t cls : String),
    Twin viewO (unionInlineSel c t cls s) (unionInlineSel c° t cls s) := by
  intro t cls
  cases s with
  | spread f => unfold unionInlineSel; exact blind_inlineSpreadBase.then fun _ => .pure rfl
  | inline t sub => unfold unionInlineSel; exact .pure rfl
  | field n a as sub =>
    unfold unionInlineSel
    refine .ite (.pure rfl) (Twin.then blind_objectFieldNamed fun _ => (twin_typeField (twin_namedNode
      (fun n fs k => twin_objectSels sub n fs k) (fun fs k => twin_interfaceSels sub fs k)
      (twin_unionSels sub _))).bind fun x x' hx => .pure ?_)
    simp only [viewO, viewF_body hx]
theorem twin_unionInlineSels (ss : List Sel) : ∀ (t cls : String),
    Twin viewO (unionInlineSels c t cls ss) (unionInlineSels c° t cls ss) := by
  intro t cls
  cases ss with
  | nil => unfold unionInlineSels; exact .pure rfl
  | cons s ss =>
    unfold unionInlineSels
    exact (twin_unionInlineSel s _ _).bind fun _ _ h => (twin_unionInlineSels ss _ _).bind fun _ _ h' =>
      .pure (viewO_append h h')
end

theorem twin_typeFieldNode {p : String} {fd : FieldDef} {n : String} {a : Option String} {sub : List Sel} :
    Twin viewF (typeFieldNode c p fd n a sub) (typeFieldNode c° p fd n a sub) :=
  twin_typeField (twin_namedNode (fun n fs k => twin_objectSels sub n fs k) (fun fs k => twin_interfaceSels sub fs k)
    (twin_unionSels sub _))
end

end Turms
