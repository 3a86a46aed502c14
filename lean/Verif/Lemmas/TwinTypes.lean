import Verif.Lemmas.TwinPlugins

/-! # The plugins that read only the schema under two settings of the generated models -/

namespace Turms
open Spec

section
variable {c : Ctx} {m : ModelOptions}

local notation "c°" => withOptions c m

/-! ## enums -/

theorem twin_generateEnums {p : EnumsConfig} : Twin shapes (generateEnums c p) (generateEnums c° p) := by
  unfold generateEnums
  refine blind_registerImport.then fun _ => ?_
  show Twin shapes _ (enumLoop c° p (enumTypes c.schema))
  generalize enumTypes c.schema = ts
  induction ts with
  | nil => exact .pure rfl
  | cons t ts ih =>
    unfold enumLoop
    refine Twin.then ?_ fun _ => ih.bind fun _ _ h => .pure (by rw [shapes_append, shapes_append, h])
    unfold enumStep
    exact .ite (.pure rfl) (.ite (.pure rfl) (.ite (.pure rfl) (Twin.then blind_generateClass fun _ => .pure rfl)))

/-! ## inputs -/

theorem twin_inputLeaf {p n : String} : Twin id (inputLeaf c p n) (inputLeaf c° p n) := by
  unfold inputLeaf
  have hs : (withOptions c m).schema = c.schema := rfl
  simp only [hs]
  split
  · exact blind_referenceScalar
  · exact blind_referenceInput
  · exact blind_referenceEnum
  · exact .fail

theorem twin_inputAnnotation {p : String} (t : TypeNode) : ∀ {o : Bool},
    Twin annotationShape (inputAnnotation c p t o) (inputAnnotation c° p t o) := by
  induction t with
  | named n => intro o; unfold inputAnnotation; exact twin_inputLeaf.then fun _ => twin_optionalWrap rfl
  | list t ih =>
    intro o; unfold inputAnnotation
    refine twin_listImport.then fun _ => ih.bind fun x x' hx => twin_optionalWrap ?_
    rw [annotationShape_list, annotationShape_list, hx]
  | nonNull t ih => intro o; unfold inputAnnotation; exact ih

theorem blind_inputFieldValue {a b : String} {o : Bool} {d : Option String} : Blind (inputFieldValue a b o d) := by
  unfold inputFieldValue
  exact .ite (Twin.pure rfl) (blind_registerImport.then fun _ => .pure rfl)

theorem twin_inputFieldStmts {cls : String} {f : InputFieldDef} :
    Twin bodyShape (inputFieldStmts c cls f) (inputFieldStmts c° cls f) := by
  unfold inputFieldStmts inputFieldAnnotation
  refine twin_nodeName.then fun _ => ((twin_inputAnnotation _).bind fun x x' hx => twin_optionalWrap hx).bind fun a a' ha =>
    (twin_annotateFieldMetadata ha).bind fun b b' hb => blind_inputFieldValue.then fun _ => .ite (.pure ?_) (.pure ?_)
  · rw [bodyShape_ann, bodyShape_ann, hb]; rfl
  · rw [bodyShape_ann, bodyShape_ann, hb]

theorem twin_inputFields {cls : String} {skip : List String} (fs : List InputFieldDef) :
    Twin bodyShape (inputFields c cls skip fs) (inputFields c° cls skip fs) := by
  induction fs with
  | nil => exact .pure rfl
  | cons f fs ih =>
    unfold inputFields
    exact twin_nodeName.then fun _ => .ite ih (twin_inputFieldStmts.bind fun _ _ h => ih.bind fun _ _ h' =>
      .pure (by rw [bodyShape_append, bodyShape_append, h, h']))

theorem blind_discriminatorStmts (ds : List Discriminator) : Blind (discriminatorStmts ds) := by
  induction ds with
  | nil => exact Twin.pure rfl
  | cons d ds ih => exact blind_registerImport.then fun _ => blind_registerImport.then fun _ => ih.then fun _ => .pure rfl

theorem postInit_shape {ds : List Discriminator} {b : Bool} : bodyShape (if b then [postInit ds] else []) = [] := by
  cases b
  · exact bodyShape_nil
  · simp [bodyShape, configures, postInit]

theorem twin_generateInputType {p : InputsConfig} {n t : String} {d : Option String} {fs : List InputFieldDef}
    {ds : List Discriminator} : Twin shape (generateInputType c p n t d fs ds) (generateInputType c° p n t d fs ds) := by
  unfold generateInputType
  refine twin_additionalBasesFor.then fun _ => (blind_discriminatorStmts _).then fun _ => (twin_inputFields _).bind fun f f' hf =>
    twin_config.bind fun cfg cfg' hcfg => .pure ?_
  refine shape_class ?_
  rw [bodyShape_append, bodyShape_append, hcfg]
  congr 1
  refine bodyShape_congr ?_
  simp only [bodyShape_append, hf, postInit_shape]

theorem blind_memberClasses (ms : Dict String) : Blind (memberClasses ms) := by
  induction ms with
  | nil => exact Twin.pure rfl
  | cons p ms ih => obtain ⟨k, x⟩ := p; unfold memberClasses; exact blind_getClass.then fun _ => ih.then fun _ => .pure rfl

theorem blind_generateUnionAlias {a : String} {l : List String} : Blind (generateUnionAlias a l) := by
  unfold generateUnionAlias
  split
  · exact Twin.pure rfl
  · exact blind_registerImport.then fun _ => .pure rfl

/-- a class name and its class -/
def viewW (x : String × Stmt) : String × Stmt := (x.1, shape x.2)

theorem twin_oneofWrapper {p : InputsConfig} {t : String} {ex : List Expr} {f : InputFieldDef} :
    Twin viewW (oneofWrapper c p t ex f) (oneofWrapper c° p t ex f) := ⟨fun r r' hr => by
  have hrest : ∀ cls, Twin viewW (do
      let fieldName ← nodeName c.env f.name
      let a ← inputAnnotation c cls f.type false
      let a ← annotateFieldMetadata c.env a none f.deprecation
      let v ← inputFieldValue fieldName f.name false f.description
      let cfg ← generatePydanticConfig c .input (some t)
      pure (cls, Stmt.classDef cls (ex ++ baseNames p.bases)
        ([.expr (.str (if truthy f.description then f.description.getD ""
            else "'" ++ f.name ++ "' variant of the @oneOf input '" ++ t ++ "'")),
          .annAssign fieldName a v] ++ cfg) [])) (do
      let fieldName ← nodeName (c°).env f.name
      let a ← inputAnnotation c° cls f.type false
      let a ← annotateFieldMetadata (c°).env a none f.deprecation
      let v ← inputFieldValue fieldName f.name false f.description
      let cfg ← generatePydanticConfig c° .input (some t)
      pure (cls, Stmt.classDef cls (ex ++ baseNames p.bases)
        ([.expr (.str (if truthy f.description then f.description.getD ""
            else "'" ++ f.name ++ "' variant of the @oneOf input '" ++ t ++ "'")),
          .annAssign fieldName a v] ++ cfg) [])) := by
    intro cls
    refine twin_nodeName.then fun _ => (twin_inputAnnotation _).bind fun x x' hx => (twin_annotateFieldMetadata hx).bind
      fun a a' ha => blind_inputFieldValue.then fun _ => twin_config.bind fun cfg cfg' hcfg => .pure ?_
    refine Prod.ext rfl (shape_class ?_)
    rw [bodyShape_append, bodyShape_append, hcfg]
    congr 1
    refine bodyShape_congr ?_
    rw [bodyShape_ann, bodyShape_ann, ha]
  have hcls : Twin id (generateClass c.env .input (t ++ pascal f.name)) (generateClass (c°).env .input (t ++ pascal f.name)) :=
    blind_generateClass
  have h := hcls.run r r' hr
  unfold oneofWrapper
  cases h1 : generateClass c.env .input (t ++ pascal f.name) r with
  | error e =>
    cases h2 : generateClass (c°).env .input (t ++ pascal f.name) r' with
    | error e' => rw [h1, h2] at h; cases h; cases e <;> rfl
    | ok y => obtain ⟨a', s'⟩ := y; rw [h1, h2] at h; cases h
  | ok y =>
    obtain ⟨a, s⟩ := y
    cases h2 : generateClass (c°).env .input (t ++ pascal f.name) r' with
    | error e' => rw [h1, h2] at h; cases h
    | ok y =>
      obtain ⟨a', s'⟩ := y
      rw [h1, h2] at h
      have h := Prod.mk.inj (Except.ok.inj h)
      cases (show a = a' from h.1)
      exact (hrest a).run s s' h.2⟩

theorem twin_oneofWrappers {p : InputsConfig} {t : String} {ex : List Expr} (fs : List InputFieldDef) :
    Twin (List.map viewW) (oneofWrappers c p t ex fs) (oneofWrappers c° p t ex fs) := by
  induction fs with
  | nil => exact .pure rfl
  | cons f fs ih =>
    unfold oneofWrappers
    exact twin_oneofWrapper.bind fun _ _ h => ih.bind fun _ _ h' => .pure (by rw [List.map_cons, List.map_cons, h, h'])

theorem twin_generateOneofWrapperInput {p : InputsConfig} {t : String} {fs : List InputFieldDef} :
    Twin shapes (generateOneofWrapperInput c p t fs) (generateOneofWrapperInput c° p t fs) := by
  unfold generateOneofWrapperInput
  refine twin_additionalBasesFor.then fun _ => (twin_oneofWrappers _).bind fun ws ws' hw => ?_
  have h1 : ∀ l : List (String × Stmt), l.map (·.1) = (l.map viewW).map (·.1) := by intro l; rw [List.map_map]; rfl
  have h2 : ∀ l : List (String × Stmt), shapes (l.map (·.2)) = (l.map viewW).map (·.2) := by
    intro l; unfold shapes; rw [List.map_map, List.map_map]; rfl
  rw [h1 ws, h1 ws', hw]
  exact Twin.then blind_generateClass fun _ => blind_generateUnionAlias.then fun _ =>
    .pure (by rw [shapes_append, shapes_append, h2, h2, hw])

theorem twin_generateOneofDirectUnion {t : String} {ms : Dict String} :
    Twin id (generateOneofDirectUnion c t ms) (generateOneofDirectUnion c° t ms) := by
  unfold generateOneofDirectUnion
  exact Twin.then blind_generateClass fun _ => (blind_memberClasses _).then fun _ =>
    Twin.then (.ite blind_registerImport (Twin.pure rfl)) fun _ => blind_registerImport.then fun _ =>
    blind_registerImport.then fun _ => .pure rfl

/-- what the pre-pass has collected -/
def viewP (a : PrePass) : Dict (List String) × Dict String × List String × List Stmt :=
  (a.unionTypes, a.discriminators, a.memberTypes, shapes a.tree)

theorem twin_prePass {p : InputsConfig} (ts : List InputType) : ∀ {a a' : PrePass}, viewP a = viewP a' →
    Twin viewP (prePass c p ts a) (prePass c° p ts a') := by
  induction ts with
  | nil => intro a a' h; exact .pure h
  | cons t ts ih =>
    intro a a' h
    unfold prePass
    refine Twin.bind (φ := viewP) ?_ fun _ _ h => ih h
    unfold prePassStep
    simp only [viewP, Prod.mk.injEq] at h
    obtain ⟨h1, h2, h3, h4⟩ := h
    rw [h2]
    refine Twin.lift.then fun x => ?_
    obtain ⟨ms, discr⟩ := x
    refine .ite (.pure ?_) (Twin.lift.then fun _ => Twin.then blind_generateClass fun _ =>
      twin_generateInputType.bind fun s s' hs => .pure ?_)
    · simp only [viewP, h1, h3, h4]
    · simp only [viewP, h1, h3, shapes_append, h4, shapes_cons, hs]

/-- statements, and the unions to be emitted later -/
def viewM {α : Type} (x : List Stmt × α) : List Stmt × α := (shapes x.1, x.2)

theorem twin_mainStep {p : InputsConfig} {a a' : PrePass} (h : viewP a = viewP a') {t : InputType}
    (hv : m.pydanticV2 = c.env.config.pydanticV2 ∨ isOneof t.directives = false) :
    Twin viewM (mainStep c p a t) (mainStep c° p a' t) := by
  simp only [viewP, Prod.mk.injEq] at h
  obtain ⟨h1, h2, h3, h4⟩ := h
  unfold mainStep
  rw [h1, h2, h3]
  refine .ite (.pure rfl) (.ite (.pure rfl) (.ite (.pure rfl) ?_))
  cases ho : isOneof t.directives with
  | false =>
    simp only [Bool.false_eq_true, if_false]
    split
    · exact (blind_registerImports _).then fun _ => Twin.then blind_generateClass fun _ => .pure rfl
    · exact Twin.then blind_generateClass fun _ => twin_generateInputType.bind fun s s' hs =>
        .pure (by simp only [viewM, shapes_cons, hs])
  | true =>
    have hv := hv.resolve_right (by rw [ho]; decide)
    have hd : directMembers c° p t = directMembers c p t := by
      unfold directMembers
      show (if m.pydanticV2 then _ else _) = _
      rw [hv]
      rfl
    simp only [if_true, hd]
    refine Twin.lift.then fun _ => ?_
    split
    · exact .pure rfl
    · exact twin_generateOneofWrapperInput.bind fun s s' hs => .pure (by simp only [viewM, hs])

theorem twin_mainLoop {p : InputsConfig} {a a' : PrePass} (h : viewP a = viewP a') (ts : List InputType)
    (hv : ∀ t ∈ ts, m.pydanticV2 = c.env.config.pydanticV2 ∨ isOneof t.directives = false) :
    Twin viewM (mainLoop c p a ts) (mainLoop c° p a' ts) := by
  induction ts with
  | nil => exact .pure rfl
  | cons t ts ih =>
    unfold mainLoop
    refine (twin_mainStep h (hv t (by simp))).bind fun x x' hx => (ih fun t ht => hv t (by simp [ht])).bind fun y y' hy => .pure ?_
    obtain ⟨h1, h2⟩ := Prod.mk.inj hx
    obtain ⟨h3, h4⟩ := Prod.mk.inj hy
    simp only [viewM, shapes_append, h1, h2, h3, h4]

theorem twin_deferredUnions (ds : List (String × Dict String)) : Twin id (deferredUnions c ds) (deferredUnions c° ds) := by
  induction ds with
  | nil => exact .pure rfl
  | cons d ds ih =>
    obtain ⟨n, ms⟩ := d
    unfold deferredUnions
    exact twin_generateOneofDirectUnion.then fun _ => ih.then fun _ => .pure rfl

theorem NoOneOf_inputTypes {s : Schema} (h : NoOneOf s) : ∀ t ∈ inputTypes s, isOneof t.directives = false := by
  intro t ht
  obtain ⟨p, hp, he⟩ := List.mem_filterMap.1 ht
  obtain ⟨n, e⟩ := p
  obtain ⟨d, desc⟩ := e
  cases d <;> simp only [Option.some.injEq, reduceCtorEq] at he
  subst he
  unfold isOneof
  cases hany : List.any _ _ with
  | false => rfl
  | true =>
    obtain ⟨x, hx, hn⟩ := List.any_eq_true.1 hany
    exact absurd (by simpa using hn) (h n _ _ _ hp rfl x hx)

theorem twin_generateInputs {p : InputsConfig} (hv : m.pydanticV2 = c.env.config.pydanticV2 ∨ NoOneOf c.schema) :
    Twin shapes (generateInputs c p) (generateInputs c° p) := by
  unfold generateInputs
  have hs : (withOptions c m).schema = c.schema := rfl
  simp only [hs]
  refine (blind_registerImports _).then fun _ => (twin_prePass _ rfl).bind fun a a' ha =>
    (twin_mainLoop ha _ ?_).bind fun x x' hx => ?_
  · intro t ht
    rcases hv with hv | hv
    · exact .inl hv
    · exact .inr (NoOneOf_inputTypes hv t ht)
  · obtain ⟨h1, h2⟩ := Prod.mk.inj hx
    obtain ⟨x1, x2⟩ := x
    obtain ⟨y1, y2⟩ := x'
    dsimp only at h1 h2 ⊢
    subst h2
    refine (twin_deferredUnions _).then fun _ => .pure ?_
    simp only [viewP, Prod.mk.injEq] at ha
    simp only [shapes_append, ha.2.2.2, h1]

/-! ## objects -/

theorem twin_objectLeaf {p n : String} : Twin id (objectLeaf c p n) (objectLeaf c° p n) := by
  unfold objectLeaf
  have hs : (withOptions c m).schema = c.schema := rfl
  simp only [hs]
  split
  · exact blind_referenceScalar
  · exact blind_referenceInterface
  · exact blind_referenceGeneric
  · exact blind_referenceEnum
  · exact .fail

theorem twin_objectMembers {p : String} (ms : List String) : Twin id (objectMembers c p ms) (objectMembers c° p ms) := by
  induction ms with
  | nil => exact .pure rfl
  | cons x ms ih => unfold objectMembers; exact twin_objectLeaf.then fun _ => ih.then fun _ => .pure rfl

theorem twin_objectNamed {p n : String} : Twin id (objectNamed c p n) (objectNamed c° p n) := by
  unfold objectNamed
  have hs : (withOptions c m).schema = c.schema := rfl
  simp only [hs]
  split
  · exact blind_registerImport.then fun _ => (twin_objectMembers _).then fun _ => .pure rfl
  · exact twin_objectLeaf

theorem twin_objectAnnotation {p : String} (t : TypeNode) : ∀ {o : Bool},
    Twin annotationShape (objectAnnotation c p t o) (objectAnnotation c° p t o) := by
  induction t with
  | named n => intro o; unfold objectAnnotation; exact twin_objectNamed.then fun _ => twin_optionalWrap rfl
  | list t ih =>
    intro o; unfold objectAnnotation
    refine twin_listImport.then fun _ => ih.bind fun x x' hx => .ite (twin_optionalWrap ?_)
      (blind_registerImport.then fun _ => .pure ?_)
    · rw [annotationShape_list, annotationShape_list, hx]
    · rw [annotationShape_list, annotationShape_list, hx]
  | nonNull t ih => intro o; unfold objectAnnotation; exact ih

theorem twin_objectFields {cls : String} (fs : List FieldDef) :
    Twin bodyShape (objectFields c cls fs) (objectFields c° cls fs) := by
  induction fs with
  | nil => exact .pure rfl
  | cons f fs ih =>
    unfold objectFields
    refine Twin.bind (φ := bodyShape) ?_ fun _ _ h => ih.bind fun _ _ h' =>
      .pure (by rw [bodyShape_append, bodyShape_append, h, h'])
    unfold objectFieldStmts
    refine twin_nodeName.then fun _ => (twin_objectAnnotation _).bind fun x x' hx =>
      (twin_annotateFieldMetadata hx).bind fun b b' hb => blind_objectFieldValue.then fun _ => .pure ?_
    rw [bodyShape_ann, bodyShape_ann, hb]; rfl

theorem twin_interfaceLoop {cls : String} {all : List String} (is : List String) : ∀ {d : Dict (List String)},
    Twin id (interfaceLoop c cls all is d) (interfaceLoop c° cls all is d) := by
  induction is with
  | nil => intro d; exact .pure rfl
  | cons i is ih =>
    intro d
    unfold interfaceLoop
    exact .ite (blind_inheritInterface.then fun _ => ih.then fun _ => .pure rfl) ih

/-- what the loop over the types has collected -/
def viewA (a : ObjAcc) : Dict (List String) × Dict String × List Stmt := (a.interfaceMap, a.interfaceBaseMap, shapes a.tree)

theorem twin_objectLoop {p : ObjectsConfig} (ts : List CompositeType) : ∀ {a a' : ObjAcc}, viewA a = viewA a' →
    Twin viewA (objectLoop c p ts a) (objectLoop c° p ts a') := by
  induction ts with
  | nil => intro a a' h; exact .pure h
  | cons t ts ih =>
    intro a a' h
    unfold objectLoop
    refine Twin.bind (φ := viewA) ?_ fun _ _ h => ih h
    unfold objectStep
    refine twin_additionalBasesFor.then fun _ => .ite (.pure h) (.ite (.pure h) ?_)
    simp only [viewA, Prod.mk.injEq] at h
    obtain ⟨h1, h2, h3⟩ := h
    rw [h1, h2]
    refine Twin.then ?_ fun _ => (twin_interfaceLoop _).then fun x => (twin_objectFields _).bind fun f f' hf =>
      twin_config.bind fun cfg cfg' hcfg => .pure ?_
    · unfold generateComposite
      exact .ite blind_generateInterface blind_generateClass
    · simp only [viewA, shapes_append, h3, shapes_cons]
      rw [shape_class (body' := _) (show bodyShape _ = bodyShape _ from ?_)]
      simp only [bodyShape_append, hf, hcfg]

theorem blind_registerUnions (l : Dict (List String)) : Blind (registerUnions l) := by
  induction l with
  | nil => exact Twin.pure rfl
  | cons a l ih => exact blind_registerImport.then fun _ => ih

theorem twin_generateTypes {p : ObjectsConfig} : Twin shapes (generateTypes c p) (generateTypes c° p) := by
  unfold generateTypes
  refine (blind_registerImports _).then fun _ => (twin_objectLoop _ rfl).bind fun a a' h => ?_
  simp only [viewA, Prod.mk.injEq] at h
  obtain ⟨h1, h2, h3⟩ := h
  rw [h1, h2]
  refine (blind_registerUnions _).then fun _ => ?_
  exact .ite .fail (.pure (by simp only [shapes_append, h3]))
end

end Turms
