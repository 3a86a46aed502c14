import Verif.Lemmas.Still

/-! # Walking selections only touches imports, helper classes and forward references -/

namespace Turms
open Spec

theorem still_listImport {b : Bool} : Still (listImport b) := by unfold listImport; still
theorem still_additionalBasesFor {c : Ctx} {n : String} : Still (additionalBasesFor c n) :=
  Quietly.still fun _ => quietly_additionalBasesFor
theorem still_interfaceBasesOf {c : Ctx} : Still (interfaceBasesOf c) := Quietly.still fun _ => quietly_interfaceBasesOf
theorem still_generatePydanticConfig {c : Ctx} {g : GQLType} {n : Option String} : Still (generatePydanticConfig c g n) :=
  Quietly.still fun _ => quietly_generatePydanticConfig
theorem still_annotateFieldMetadata {env : Env} {a : Expr} {d : Option Expr} {dep : Option String} :
    Still (annotateFieldMetadata env a d dep) := Quietly.still fun _ => quietly_annotateFieldMetadata
theorem still_objectFieldValue {attr : String} {f : FieldDef} : Still (objectFieldValue attr f) :=
  Quietly.still fun _ => quietly_objectFieldValue
theorem still_inheritFragment {n : String} : Still (inheritFragment n) := Quietly.still fun _ => quietly_inheritFragment
theorem still_typenameField {c : Ctx} {n : String} : Still (typenameField c n) := by
  unfold typenameField typenameImports; still
theorem still_genericTypenameField {c : Ctx} : Still (genericTypenameField c) := by
  unfold genericTypenameField typenameImports; still
theorem still_fieldNamed {n : String} {fs : List FieldDef} : Still (fieldNamed n fs) := by unfold fieldNamed; still
theorem still_fieldDefOf {s : Schema} {t n : String} : Still (fieldDefOf s t n) := by unfold fieldDefOf; still
theorem still_requireObject {s : Schema} {t : String} : Still (requireObject s t) := by unfold requireObject; still
theorem still_objectFieldNamed {s : Schema} {t n : String} : Still (objectFieldNamed s t n) := by
  have := @still_fieldNamed
  unfold objectFieldNamed; still
  exact this

theorem still_spreadBase {f t : String} : Still (spreadBase f t) := by
  have := @still_inheritFragment
  unfold spreadBase; still
  exact this

theorem still_collapseReference {c : Ctx} {p f t : String} : Still (collapseReference c p f t) := by
  unfold collapseReference; still

theorem still_inlineSpreadBase {f : String} : Still (inlineSpreadBase f) := by
  constructor
  intro r a r' h
  unfold inlineSpreadBase at h
  split at h
  · cases h
  · exact still_inheritFragment.run _ _ _ h

theorem still_spreadImplementations {f : String} : Still (spreadImplementations f) := by
  constructor
  intro r a r' h
  unfold spreadImplementations at h
  split at h
  · cases h; exact ⟨.refl _, trivial⟩
  · split at h
    · cases h
    · split at h
      · cases h
      · rename_i hi
        cases h
        exact ⟨(still_inheritFragment.run _ _ _ hi).1, trivial⟩

theorem still_wrapOutput {c : Ctx} {leaf : String → Bool → Gen (Expr × List Stmt)} (h : ∀ n o, Still (leaf n o))
    (t : TypeNode) : ∀ {o : Bool}, Still (wrapOutput c leaf t o) := by
  induction t with
  | named n => intro o; unfold wrapOutput; exact h n o
  | list t ih =>
    intro o; unfold wrapOutput
    exact still_listImport.bind fun _ => ih.bind fun _ => still_optionalWrap.bind fun _ => .pure
  | nonNull t ih => intro o; unfold wrapOutput; exact ih

theorem still_typeField {c : Ctx} {fd : FieldDef} {t : String} {leaf : String → Bool → Gen (Expr × List Stmt)}
    (h : ∀ n o, Still (leaf n o)) : Still (typeField c fd t leaf) := by
  unfold typeField
  refine still_nodeName.bind fun _ => (still_wrapOutput h _).bind fun _ => Still.bind ?_ fun _ => .pure
  unfold finishField
  exact still_annotateFieldMetadata.bind fun _ => still_objectFieldValue.bind fun _ => .pure

theorem still_spreadOrAdditional {c : Ctx} {t : String} {bs : List String} : Still (spreadOrAdditional c t bs) := by
  unfold spreadOrAdditional
  exact .ite still_additionalBasesFor .pure

theorem still_implementingClasses {c : Ctx} {m : String} {p : InterfaceParts} (is : List Implementation) :
    Still (implementingClasses c m p is) := by
  induction is with
  | nil => exact .pure
  | cons i is ih =>
    unfold implementingClasses implementingClass
    exact (still_additionalBasesFor.bind fun _ => still_interfaceBasesOf.bind fun _ =>
      still_typenameField.bind fun _ => .pure).bind fun _ => ih.bind fun _ => .pure

theorem still_namedNode {c : Ctx} {parent target : String} {sub : List Sel}
    {objs : String → List FieldDef → String → Gen ObjectParts} {ifcs : List FieldDef → String → Gen InterfaceParts}
    {uns : Gen (List String × List Stmt)} (ho : ∀ n fs k, Still (objs n fs k)) (hi : ∀ fs k, Still (ifcs fs k))
    (hu : Still uns) (n : String) (opt : Bool) : Still (namedNode c parent target sub objs ifcs uns n opt) := by
  unfold namedNode
  split
  · exact still_referenceScalar.bind fun _ => still_optionalWrap.bind fun _ => .pure
  · exact still_referenceEnum.bind fun _ => still_optionalWrap.bind fun _ => .pure
  · unfold objectNode
    refine still_typenameField.bind fun _ => ?_
    split
    · exact still_collapseReference.bind fun _ => still_optionalWrap.bind fun _ => .pure
    · refine (ho _ _ _).bind fun _ => ?_
      unfold finishObject
      exact still_spreadOrAdditional.bind fun _ => still_generatePydanticConfig.bind fun _ =>
        still_optionalWrap.bind fun _ => .pure
  · unfold interfaceNode
    refine (hi _ _).bind fun _ => still_additionalBasesFor.bind fun _ => still_interfaceBasesOf.bind fun _ =>
      still_generatePydanticConfig.bind fun _ => (still_implementingClasses _).bind fun _ =>
      still_registerImport.bind fun _ => still_registerImport.bind fun _ => Still.bind ?_ fun _ =>
      still_optionalWrap.bind fun _ => .pure
    unfold catchAll
    refine .ite ?_ .pure
    exact still_interfaceBasesOf.bind fun _ => still_genericTypenameField.bind fun _ =>
      still_registerImport.bind fun _ => .pure
  · unfold unionNode
    refine hu.bind fun _ => Still.bind ?_ fun _ => .pure
    unfold unionReference
    still
  · exact .fail

theorem still_inlineClass {c : Ctx} {cls t : String} {p : ObjectParts} : Still (inlineClass c cls t p) := by
  unfold inlineClass
  refine Still.bind ?_ fun _ => still_spreadOrAdditional.bind fun _ => still_generatePydanticConfig.bind fun _ => .pure
  unfold inlineTypename
  exact .ite (still_typenameField.bind fun _ => .pure) .pure

mutual
theorem still_objectSel {c : Ctx} (s : Sel) : ∀ (t : String) (fs : List FieldDef) (cls : String),
    Still (objectSel c t fs cls s) := by
  intro t fs cls
  cases s with
  | spread f => unfold objectSel; exact still_spreadBase.bind fun _ => .pure
  | inline t sub => unfold objectSel; exact .fail
  | field n a as sub =>
    unfold objectSel
    refine .ite .pure (still_fieldNamed.bind fun _ => (still_typeField (still_namedNode
      (fun n fs k => still_objectSels sub n fs k) (fun fs k => still_interfaceSels sub fs k)
      (still_unionSels sub _))).bind fun _ => .pure)
theorem still_objectSels {c : Ctx} (ss : List Sel) : ∀ (t : String) (fs : List FieldDef) (cls : String),
    Still (objectSels c t fs cls ss) := by
  intro t fs cls
  cases ss with
  | nil => unfold objectSels; exact .pure
  | cons s ss =>
    unfold objectSels
    exact (still_objectSel s _ _ _).bind fun _ => (still_objectSels ss _ _ _).bind fun _ => .pure
theorem still_interfaceSel {c : Ctx} (s : Sel) : ∀ (fs : List FieldDef) (cls : String),
    Still (interfaceSel c fs cls s) := by
  intro fs cls
  cases s with
  | spread f => unfold interfaceSel; exact still_spreadImplementations.bind fun _ => .pure
  | inline t sub =>
    cases t with
    | none => unfold interfaceSel; exact .fail
    | some t =>
      unfold interfaceSel
      exact still_requireObject.bind fun _ => (still_inlineSels sub _ _).bind fun _ => .pure
  | field n a as sub =>
    unfold interfaceSel
    refine .ite .pure (still_fieldNamed.bind fun _ => (still_typeField (still_namedNode
      (fun n fs k => still_objectSels sub n fs k) (fun fs k => still_interfaceSels sub fs k)
      (still_unionSels sub _))).bind fun _ => .pure)
theorem still_interfaceSels {c : Ctx} (ss : List Sel) : ∀ (fs : List FieldDef) (cls : String),
    Still (interfaceSels c fs cls ss) := by
  intro fs cls
  cases ss with
  | nil => unfold interfaceSels; exact .pure
  | cons s ss =>
    unfold interfaceSels
    exact (still_interfaceSel s _ _).bind fun _ => (still_interfaceSels ss _ _).bind fun _ => .pure
theorem still_inlineSel {c : Ctx} (s : Sel) : ∀ (t p : String), Still (inlineSel c t p s) := by
  intro t p
  cases s with
  | spread f => unfold inlineSel; exact .pure
  | inline t sub => unfold inlineSel; exact .pure
  | field n a as sub =>
    unfold inlineSel
    refine .ite .pure (still_fieldDefOf.bind fun _ => still_typeField (still_namedNode
      (fun n fs k => still_objectSels sub n fs k) (fun fs k => still_interfaceSels sub fs k)
      (still_unionSels sub _)))
theorem still_inlineSels {c : Ctx} (ss : List Sel) : ∀ (t p : String), Still (inlineSels c t p ss) := by
  intro t p
  cases ss with
  | nil => unfold inlineSels; exact .pure
  | cons s ss =>
    unfold inlineSels
    exact (still_inlineSel s _ _).bind fun _ => (still_inlineSels ss _ _).bind fun _ => .pure
theorem still_unionSel {c : Ctx} (s : Sel) : ∀ (p : String), Still (unionSel c p s) := by
  intro p
  cases s with
  | spread f => unfold unionSel; exact still_inheritFragment.bind fun _ => .pure
  | inline t sub =>
    cases t with
    | none => unfold unionSel; exact .fail
    | some t =>
      unfold unionSel
      exact (still_unionInlineSels sub _ _).bind fun _ => still_inlineClass.bind fun _ => .pure
  | field n a as sub => unfold unionSel; exact .pure
theorem still_unionSels {c : Ctx} (ss : List Sel) : ∀ (p : String), Still (unionSels c p ss) := by
  intro p
  cases ss with
  | nil => unfold unionSels; exact .pure
  | cons s ss =>
    unfold unionSels
    exact (still_unionSel s _).bind fun _ => (still_unionSels ss _).bind fun _ => .pure
theorem still_unionInlineSel {c : Ctx} (s : Sel) : ∀ (t cls : String), Still (unionInlineSel c t cls s) := by
  intro t cls
  cases s with
  | spread f => unfold unionInlineSel; exact still_inlineSpreadBase.bind fun _ => .pure
  | inline t sub => unfold unionInlineSel; exact .pure
  | field n a as sub =>
    unfold unionInlineSel
    refine .ite .pure (still_objectFieldNamed.bind fun _ => (still_typeField (still_namedNode
      (fun n fs k => still_objectSels sub n fs k) (fun fs k => still_interfaceSels sub fs k)
      (still_unionSels sub _))).bind fun _ => .pure)
theorem still_unionInlineSels {c : Ctx} (ss : List Sel) : ∀ (t cls : String), Still (unionInlineSels c t cls ss) := by
  intro t cls
  cases ss with
  | nil => unfold unionInlineSels; exact .pure
  | cons s ss =>
    unfold unionInlineSels
    exact (still_unionInlineSel s _ _).bind fun _ => (still_unionInlineSels ss _ _).bind fun _ => .pure
end

theorem still_typeFieldNode {c : Ctx} {parent : String} {fd : FieldDef} {name : String} {al : Option String}
    {sub : List Sel} : Still (typeFieldNode c parent fd name al sub) := by
  unfold typeFieldNode recurseNamed
  exact still_typeField (still_namedNode (fun n fs k => still_objectSels sub n fs k)
    (fun fs k => still_interfaceSels sub fs k) (still_unionSels sub _))

theorem still_basesOrObject {c : Ctx} {bs : List String} : Still (basesOrObject c bs) := by
  unfold basesOrObject; exact still_registerImports.bind fun _ => .pure

theorem still_mergedDocument {prep : List Char → List Char} {t : List Char} : Still (mergedDocument prep t) :=
  Quietly.still fun _ => quietly_mergedDocument

theorem still_argumentsClass {c : Ctx} {p : OperationsConfig} {o : OpDef} {n : String} :
    Still (argumentsClass c p o n) := Quietly.still fun _ => quietly_argumentsClass

theorem still_operationSels {c : Ctx} {root cls : String} (ss : List Sel) : Still (operationSels c root cls ss) := by
  induction ss with
  | nil => exact .pure
  | cons s ss ih =>
    unfold operationSels
    refine Still.bind ?_ fun _ => ih.bind fun _ => .pure
    unfold operationSel
    split
    · refine Still.bind ?_ fun _ => still_typeFieldNode
      unfold assertFieldDef; still
    · exact .fail

/-- what a single root selection declares -/
theorem operationSels_single {c : Ctx} {root cls : String} {s : Sel} {x : List (List Stmt) × List Stmt} {r r' : Reg}
    (h : operationSels c root cls [s] r = .ok (x, r')) : ∃ n al as sub attr A v rest, s = .field n al as sub ∧
      generateNodeName c.env.stylers (al.getD n) = .ok attr ∧ x.1 = [.annAssign attr A v :: rest] := by
  unfold operationSels at h
  obtain ⟨a, r1, ha, h⟩ := Gen.bind_ok.1 h
  obtain ⟨p, r2, hp, h⟩ := Gen.bind_ok.1 h
  obtain ⟨rfl, rfl⟩ := Gen.pure_ok.1 h
  unfold operationSels at hp
  obtain ⟨rfl, rfl⟩ := Gen.pure_ok.1 hp
  cases s with
  | field n al as sub =>
    unfold operationSel at ha
    obtain ⟨fd, r3, _, ha⟩ := Gen.bind_ok.1 ha
    unfold typeFieldNode typeField at ha
    obtain ⟨attr, r4, hattr, ha⟩ := Gen.bind_ok.1 ha
    obtain ⟨y, r5, _, ha⟩ := Gen.bind_ok.1 ha
    obtain ⟨st, r6, hst, ha⟩ := Gen.bind_ok.1 ha
    obtain ⟨rfl, rfl⟩ := Gen.pure_ok.1 ha
    unfold finishField at hst
    obtain ⟨A, r7, _, hst⟩ := Gen.bind_ok.1 hst
    obtain ⟨v, r8, _, hst⟩ := Gen.bind_ok.1 hst
    obtain ⟨rfl, rfl⟩ := Gen.pure_ok.1 hst
    exact ⟨n, al, as, sub, attr, A, v, _, rfl, (Gen.lift_ok.1 hattr).1, rfl⟩
  | spread f => unfold operationSel at ha; exact (Gen.fail_ok.1 ha).elim
  | inline t sub => unfold operationSel at ha; exact (Gen.fail_ok.1 ha).elim

theorem generateOperation_single {prep : List Char → List Char} {c : Ctx} {q : OperationsConfig} {o : OpDef}
    {ss : List Stmt} {r r' : Reg} (h : generateOperation prep c q o r = .ok (ss, r')) :
    ∃ n, o.name = some n ∧ (∀ m, m ≠ n → r'.operationSingle.get? m = r.operationSingle.get? m) ∧
      (o.sels.length = 1 → ∃ A, r'.operationSingle.get? n = some A ∧ DeclaresOnly c o ss A) := by
  unfold generateOperation at h
  cases hn : o.name with
  | none => rw [hn] at h; exact (Gen.fail_ok.1 h).elim
  | some n =>
  rw [hn] at h
  dsimp only at h
  obtain ⟨cls, r1, h1, h⟩ := Gen.bind_ok.1 h
  obtain ⟨_, hsty, rfl⟩ := generateClass_ok h1
  obtain ⟨bs, r2, h2, h⟩ := Gen.bind_ok.1 h
  obtain ⟨root, r3, h3, h⟩ := Gen.bind_ok.1 h
  obtain ⟨x, r4, h4, h⟩ := Gen.bind_ok.1 h
  obtain ⟨u, r5, h5, h⟩ := Gen.bind_ok.1 h
  obtain ⟨doc, r6, h6, h⟩ := Gen.bind_ok.1 h
  obtain ⟨args, r7, h7, h⟩ := Gen.bind_ok.1 h
  obtain ⟨rfl, rfl⟩ := Gen.pure_ok.1 h
  have e4 : r4.operationSingle = r.operationSingle := by
    obtain ⟨_, _, _, e, _⟩ := ((still_basesOrObject.quiet h2).trans (still_rootTypeOf.quiet h3)).trans
      ((still_operationSels _).quiet h4)
    rw [e]
    cases o.kind <;> rfl
  have e7 : r7.operationSingle = r5.operationSingle := by
    obtain ⟨_, _, _, e, _⟩ := (still_mergedDocument.quiet h6).trans (still_argumentsClass.quiet h7)
    rw [e]
  refine ⟨n, rfl, ?_, ?_⟩
  · intro m hm
    rw [e7, ← e4]
    unfold registerSingle at h5
    split at h5
    · split at h5
      · cases h5; exact Dict.get?_set_ne _ _ (Ne.symm hm)
      · cases h5; rfl
    · cases h5; rfl
  · intro hl
    obtain ⟨s, hs⟩ : ∃ s, o.sels = [s] := by
      cases ho : o.sels with
      | nil => rw [ho] at hl; cases hl
      | cons s l =>
        cases l with
        | nil => exact ⟨s, rfl⟩
        | cons _ _ => rw [ho] at hl; simp at hl
    rw [hs] at h4
    obtain ⟨m, al, as, sub, attr, A, v, rest, rfl, hattr, hx⟩ := operationSels_single h4
    refine ⟨A, ?_, cls, _, _, [], attr, v, ⟨n, hn, hsty⟩, List.mem_append_right _ (List.mem_singleton.2 rfl),
      ⟨m, al, as, sub, hs, hattr⟩, ?_⟩
    · rw [e7]
      rw [hx] at h5
      unfold registerSingle at h5
      dsimp only [annotationOf] at h5
      cases h5
      exact Dict.get?_set_self _ _ _
    · rw [hx]; simp

theorem _root_.Turms.Spec.DeclaresOnly.mono {c : Ctx} {o : OpDef} {ss ts : List Stmt} {A : Expr} (h : DeclaresOnly c o ss A)
    (hs : ∀ s ∈ ss, s ∈ ts) : DeclaresOnly c o ts A := by
  obtain ⟨cls, bs, body, ds, attr, v, h1, h2, h3⟩ := h
  exact ⟨cls, bs, body, ds, attr, v, h1, hs _ h2, h3⟩

theorem generateOperations_single {prep : List Char → List Char} {c : Ctx} {q : OperationsConfig} :
    ∀ {os : List OpDef} {ss : List Stmt} {r r' : Reg}, generateOperations prep c q os r = .ok (ss, r') →
    (∀ m, (∀ o ∈ os, o.name ≠ some m) → r'.operationSingle.get? m = r.operationSingle.get? m) ∧
    ((os.map (·.name)).Nodup → ∀ o ∈ os, o.sels.length = 1 →
      ∃ n A, o.name = some n ∧ r'.operationSingle.get? n = some A ∧ DeclaresOnly c o ss A) := by
  intro os
  induction os with
  | nil =>
    intro ss r r' h
    unfold generateOperations at h
    obtain ⟨rfl, rfl⟩ := Gen.pure_ok.1 h
    exact ⟨fun _ _ => rfl, by simp⟩
  | cons o os ih =>
    intro ss r r' h
    unfold generateOperations at h
    obtain ⟨s, r1, h1, h⟩ := Gen.bind_ok.1 h
    obtain ⟨rest, r2, h2, h⟩ := Gen.bind_ok.1 h
    obtain ⟨rfl, rfl⟩ := Gen.pure_ok.1 h
    obtain ⟨n, hn, hkeep, hset⟩ := generateOperation_single h1
    obtain ⟨ihk, ihs⟩ := ih h2
    refine ⟨?_, ?_⟩
    · intro m hm
      rw [ihk m fun o' ho' => hm o' (List.mem_cons_of_mem _ ho')]
      exact hkeep m fun e => hm o (List.mem_cons_self ..) (by rw [hn, e])
    · intro hnd o' ho' hl
      rw [List.map_cons, List.nodup_cons] at hnd
      rcases List.mem_cons.1 ho' with rfl | ho'
      · obtain ⟨A, hA, hd⟩ := hset hl
        refine ⟨n, A, hn, ?_, hd.mono fun s hs => List.mem_append_left _ hs⟩
        rw [ihk n, hA]
        intro o2 ho2 e
        exact hnd.1 (by rw [hn, ← e]; exact List.mem_map_of_mem ho2)
      · obtain ⟨m, A, hm, hA, hd⟩ := ihs hnd.2 o' ho' hl
        exact ⟨m, A, hm, hA, hd.mono fun s hs => List.mem_append_right _ hs⟩

/-- the collapsed return annotation is the registered one -/
theorem returnAnnotation_registered {c : Ctx} {o : OpDef} {n : String} {A e : Expr} {r r' : Reg}
    (h : returnAnnotation c o true r = .ok (e, r')) (hn : o.name = some n)
    (hA : r.operationSingle.get? n = some A) : e = A := by
  unfold returnAnnotation at h
  obtain ⟨cls, r1, h1, h⟩ := Gen.bind_ok.1 h
  obtain ⟨root, r2, h2, h⟩ := Gen.bind_ok.1 h
  rw [if_pos rfl] at h
  unfold collapsedReturn operationSingleOf at h
  obtain ⟨s, r3, h3, h⟩ := Gen.bind_ok.1 h
  cases h3
  have : r2.operationSingle = r.operationSingle := by
    obtain ⟨_, _, _, e, _⟩ := (still_operationClassName.quiet h1).trans (still_rootTypeOf.quiet h2)
    rw [e]
  rw [this, hn, Option.getD_some, hA] at h
  exact (Gen.pure_ok.1 h).1.symm

theorem returnAnnotation_whole {c : Ctx} {o : OpDef} {e : Expr} {r r' : Reg}
    (h : returnAnnotation c o false r = .ok (e, r')) : ∃ cls, OperationClass c o cls ∧ e = .name cls := by
  unfold returnAnnotation at h
  obtain ⟨cls, r1, h1, h⟩ := Gen.bind_ok.1 h
  obtain ⟨root, r2, h2, h⟩ := Gen.bind_ok.1 h
  simp only [Bool.false_eq_true, if_false] at h
  exact ⟨cls, operationClassName_ok h1, (Gen.pure_ok.1 h).1.symm⟩

/-! ## The plugin -/

theorem operationFuncs_ok {c : Ctx} {p : FuncsConfig} {o : OpDef} : ∀ {ds : List FuncDefinition} {ss : List Stmt}
    {r r' : Reg}, operationFuncs c p o ds r = .ok (ss, r') →
    List.Forall₂ (fun x f => ∃ r1 r', Quiet r r1 ∧ operationFunc c p x.2 x.1 r1 = .ok (f, r')) (ds.map fun d => (o, d)) ss := by
  intro ds
  induction ds with
  | nil =>
    intro ss r r' h
    unfold operationFuncs at h
    obtain ⟨rfl, rfl⟩ := Gen.pure_ok.1 h
    exact .nil
  | cons d ds ih =>
    intro ss r r' h
    unfold operationFuncs at h
    obtain ⟨s, r1, h1, h⟩ := Gen.bind_ok.1 h
    obtain ⟨rest, r2, h2, h⟩ := Gen.bind_ok.1 h
    obtain ⟨rfl, rfl⟩ := Gen.pure_ok.1 h
    exact .cons ⟨_, _, .refl _, h1⟩ (forall₂_mem_imp (ih h2) fun _ _ _ ⟨a, b, q, e⟩ =>
      ⟨a, b, (still_operationFunc.quiet h1).trans q, e⟩)

theorem allOperationFuncs_ok {c : Ctx} {p : FuncsConfig} : ∀ {os : List OpDef} {ss : List Stmt}
    {r r' : Reg}, allOperationFuncs c p os r = .ok (ss, r') →
    List.Forall₂ (fun x f => ∃ r1 r', Quiet r r1 ∧ operationFunc c p x.2 x.1 r1 = .ok (f, r'))
      (os.flatMap fun o => (p.definitions.filter fun d => d.kind == o.kind).map fun d => (o, d)) ss := by
  intro os
  induction os with
  | nil =>
    intro ss r r' h
    unfold allOperationFuncs at h
    obtain ⟨rfl, rfl⟩ := Gen.pure_ok.1 h
    exact .nil
  | cons o os ih =>
    intro ss r r' h
    unfold allOperationFuncs at h
    obtain ⟨s, r1, h1, h⟩ := Gen.bind_ok.1 h
    obtain ⟨rest, r2, h2, h⟩ := Gen.bind_ok.1 h
    obtain ⟨rfl, rfl⟩ := Gen.pure_ok.1 h
    exact List.rel_append (operationFuncs_ok h1) (forall₂_mem_imp (ih h2) fun _ _ _ ⟨a, b, q, e⟩ =>
      ⟨a, b, ((still_operationFuncs _).quiet h1).trans q, e⟩)

/-! ## The factories -/

theorem factoryName_ne (a b cls : String) : factoryName a b cls ≠ cls := by
  unfold factoryName
  split
  · rename_i h
    have h : a ++ b = cls := by simpa using h
    intro e
    have := congrArg String.length (e.trans h.symm)
    simp at this
  · rename_i h
    simpa using h

theorem inputFunc_faithful {c : Ctx} {p : InputFuncsConfig} {n : String} {fs : List InputFieldDef} {f : Stmt}
    {r r' : Reg} (h : inputFunc c p n fs r = .ok (f, r')) (hnd : (fs.map (·.name)).Nodup) :
    ∃ cls, r.inputMap.get? n = some cls ∧ FaithfulFactory c fs cls f := by
  unfold inputFunc at h
  obtain ⟨cls, r1, h1, h⟩ := Gen.bind_ok.1 h
  obtain ⟨param, r2, h2, h⟩ := Gen.bind_ok.1 h
  obtain ⟨P, r3, h3, h⟩ := Gen.bind_ok.1 h
  obtain ⟨doc, r4, h4, h⟩ := Gen.bind_ok.1 h
  obtain ⟨d, r5, h5, h⟩ := Gen.bind_ok.1 h
  obtain ⟨ss, r6, h6, h⟩ := Gen.bind_ok.1 h
  obtain ⟨rfl, rfl⟩ := Gen.pure_ok.1 h
  have hcls : r.inputMap.get? n = some cls := by
    unfold getClass Dict.get at h1
    dsimp only [Reg.classMap] at h1
    cases hg : r.inputMap.get? n with
    | none => rw [hg] at h1; cases h1
    | some k => rw [hg] at h1; cases h1; rfl
  have hP := inputTypeParams_ok h3
  refine ⟨cls, hcls, _, _, _, _, rfl, factoryName_ne _ _ _, ?_, ?_, fun m e => by rw [mem_signature hP.1, hP.2], ?_⟩
  · have := hP.1
    unfold Params.Good at this
    simp [this]
  · exact signature_pairwise hP.1
  intro M pos kw L hdata hg hunset hclsM hb
  obtain ⟨_, hnames⟩ := bindCall_some hb
  have hglob : ∀ g ∈ [unsetName c.env, cls], g ≠ "data" ∧ L.find g = none := by
    intro g hm
    obtain ⟨a1, a2⟩ := hg g hm
    exact ⟨a1, find_none.2 (by rw [hnames]; exact a2)⟩
  have hfld : ∀ g ∈ fs, ∀ q, FieldParamOf c.env g.name q → q ≠ "data" ∧ ∃ x, L.find q = some x := by
    intro g hgm q hq
    have hm : q ∈ (P.pos ++ P.kw).map (·.arg) := by
      by_cases hr : RequiredField g
      · exact params_mem ((hP.2 q none).2 ⟨g, hgm, hq, .inl ⟨hr, rfl⟩⟩)
      · exact params_mem ((hP.2 q _).2 ⟨g, hgm, hq, .inr ⟨hr, rfl⟩⟩)
    exact ⟨fun e => hdata (e ▸ hm), find_some_of_mem (by rw [hnames]; exact hm)⟩
  obtain ⟨u1, u2⟩ := hglob (unsetName c.env) (by simp)
  obtain ⟨k1, k2⟩ := hglob cls (by simp)
  obtain ⟨L', sent, e1, e2, e3, e4, e5⟩ := fieldEntries_exec (M := M) (L := ("data", .dict []) :: L) (kvs := []) h6 hnd
    (by simp) (find_cons_self ..)
    (by
      intro g hgm q hq
      obtain ⟨b1, x, b2⟩ := hfld g hgm q hq
      exact ⟨b1, x, by rw [find_cons_ne _ _ b1]; exact b2⟩)
    (by rw [find_cons_ne _ _ u1]; exact u2) u1 hunset
  simp only [List.nil_append] at e2
  have hdoc : execBody M L doc = some (L, none) := by
    unfold factoryDoc at h4
    split at h4
    · obtain ⟨t, _, _, h4⟩ := Gen.bind_ok.1 h4
      obtain ⟨rfl, rfl⟩ := Gen.pure_ok.1 h4
      simp [execBody, execStmt]
    · obtain ⟨rfl, rfl⟩ := Gen.pure_ok.1 h4
      rfl
  refine ⟨⟨⟨cls, [], sent⟩, false, false, none⟩, ?_, rfl, rfl, ⟨e4.nodup hnd, fun k x => ?_⟩, rfl, rfl, rfl⟩
  · unfold callFunc
    dsimp only
    rw [hb]
    dsimp only
    have hk : L'.find cls = none := by rw [e3 _ k1, find_cons_ne _ _ k1]; exact k2
    rw [execBody_append hdoc, execBody_cons (emptyDict_exec h5), execBody_append e1]
    simp [execBody, execStmt, evalResult, evalAwait, evalCall, eval_global hk hclsM, evalArgs, evalKwargs,
      eval_local e2]
  · rw [e5]
    constructor
    · rintro ⟨g, hgm, hk, q, hq, hs⟩
      exact ⟨g, hgm, hk, q, hq, (supplied_congr (find_cons_ne _ _ (hfld g hgm q hq).1)).1 hs⟩
    · rintro ⟨g, hgm, hk, q, hq, hs⟩
      exact ⟨g, hgm, hk, q, hq, (supplied_congr (find_cons_ne _ _ (hfld g hgm q hq).1)).2 hs⟩

theorem skipsFactory_iff {p : InputFuncsConfig} {r : Reg} {n : String} :
    skipsFactory p r n = false ↔ WantsFactory p r n := by
  unfold skipsFactory WantsFactory unreferenced underscored
  rw [Dict.contains_eq_isSome]
  cases hr : p.refInputs with
  | none => cases p.skipUnderscore <;> simp [Bool.or_eq_false_iff]
  | some l => cases p.skipUnderscore <;> simp [Bool.or_eq_false_iff, and_assoc]

theorem factories_ok {c : Ctx} {p : InputFuncsConfig} : ∀ {ts : List InputType} {ss : List Stmt} {r r' : Reg},
    factories c p ts r = .ok (ss, r') → (∀ t ∈ ts, (t.fields.map (·.name)).Nodup) →
    List.Forall₂ (fun t f => ∃ cls, r.inputMap.get? t.name = some cls ∧ FaithfulFactory c t.fields cls f)
      (ts.filter fun t => !skipsFactory p r t.name) ss := by
  intro ts
  induction ts with
  | nil =>
    intro ss r r' h _
    unfold factories at h
    obtain ⟨rfl, rfl⟩ := Gen.pure_ok.1 h
    exact .nil
  | cons t ts ih =>
    intro ss r r' h hnd
    unfold factories at h
    obtain ⟨a, r1, h1, h⟩ := Gen.bind_ok.1 h
    obtain ⟨b, r2, h2, h⟩ := Gen.bind_ok.1 h
    obtain ⟨rfl, rfl⟩ := Gen.pure_ok.1 h
    have hrest := ih h2 fun t' ht' => hnd t' (List.mem_cons_of_mem _ ht')
    unfold factoryStep at h1
    split at h1
    · rename_i hs
      cases h1
      rw [List.filter_cons_of_neg (by simp [hs])]
      exact hrest
    · rename_i hs
      split at h1
      · cases h1
      · rename_i s r3 hf
        cases h1
        rw [List.filter_cons_of_pos (by simpa using hs)]
        have hm : r1.inputMap = r.inputMap := by
          obtain ⟨_, _, _, e, _⟩ := still_inputFunc.quiet hf
          rw [e]
        have hsk : (fun t : InputType => !skipsFactory p r1 t.name) = fun t => !skipsFactory p r t.name := by
          funext t'
          unfold skipsFactory
          rw [hm]
        rw [hsk, hm] at hrest
        exact .cons (inputFunc_faithful hf (hnd t (List.mem_cons_self ..))) hrest

end Turms
