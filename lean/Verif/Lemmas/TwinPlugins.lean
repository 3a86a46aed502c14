import Verif.Lemmas.TwinWalk

/-! # The plugins that read documents under two settings of the generated models -/

namespace Turms
open Spec

section
variable {c : Ctx} {m : ModelOptions} {prep : List Char → List Char}

local notation "c°" => withOptions c m

/-! ## fragments -/

theorem twin_fragmentBasesOf {p : FragmentsConfig} {b : Bool} : Twin id (fragmentBasesOf c p b) (fragmentBasesOf c° p b) := by
  unfold fragmentBasesOf
  exact (blind_registerImports _).then fun _ => (blind_registerImports _).then fun _ =>
    (blind_registerImports _).then fun _ => .pure rfl

theorem twin_fragImplementingClasses {mo : String} {p p' : InterfaceParts} (hp : viewI p = viewI p') (is : List Implementation) :
    Twin shapes (fragImplementingClasses c mo p is) (fragImplementingClasses c° mo p' is) := by
  induction is with
  | nil => exact .pure rfl
  | cons i is ih =>
    unfold fragImplementingClasses fragImplementingClass
    refine Twin.bind (φ := shape) (twin_additionalBasesFor.then fun _ => twin_interfaceBasesOf.then fun _ =>
      twin_typenameField.then fun _ => .pure ?_) fun s s' hs => Twin.bind ih fun l l' hl => .pure ?_
    · rw [basesFor_view hp]
      exact shape_class (bodyShape_congr (bodyShape_congr (bodyFor_view hp _)))
    · rw [shapes_cons, shapes_cons, hs, hl]

theorem twin_fragMemberClasses {q : FragmentsConfig} {mo : String} {p p' : InterfaceParts} (hp : viewI p = viewI p')
    (ms : List String) : Twin shapes (fragMemberClasses c q mo p ms) (fragMemberClasses c° q mo p' ms) := by
  induction ms with
  | nil => exact .pure rfl
  | cons i is ih =>
    unfold fragMemberClasses fragMemberClass
    refine Twin.bind (φ := shape) (twin_fragmentBasesOf.then fun _ =>
      twin_typenameField.then fun _ => .pure ?_) fun s s' hs => Twin.bind ih fun l l' hl => .pure ?_
    · rw [basesFor_view hp]
      exact shape_class (bodyShape_congr (bodyFor_view hp _))
    · rw [shapes_cons, shapes_cons, hs, hl]

theorem blind_fragmentMeta {p : FragmentsConfig} {f : FragDef} : Blind (fragmentMeta prep p f) := by
  unfold fragmentMeta
  exact .ite (blind_mergedDocument.then fun _ => .pure rfl) (Twin.pure rfl)

theorem twin_fragInterfaceSels (ss : List Sel) : ∀ {fs : List FieldDef} {n : String},
    Twin viewI (fragInterfaceSels c fs n ss) (fragInterfaceSels c° fs n ss) := by
  induction ss with
  | nil => intro fs n; exact .pure rfl
  | cons s ss ih =>
    intro fs n
    unfold fragInterfaceSels
    refine Twin.bind (φ := viewI) ?_ fun a a' h => ih.bind fun b b' h' => .pure (viewI_append h h')
    unfold fragInterfaceSel
    split
    · refine (twin_inlineSels _ _ _).bind fun x x' hx => .pure ?_
      obtain ⟨h1, h2⟩ := Prod.mk.inj hx
      simp only [viewI, h2, List.map_cons, h1, List.map_nil]
    · exact twin_interfaceSel _ _ _

theorem twin_partsOfField {t n a : String} {b : Option String} {sub : List Sel} :
    Twin viewO (do let fd ← assertFieldDef c.schema t a; let x ← typeFieldNode c n fd a b sub; pure ⟨[], x.1, x.2⟩)
      (do let fd ← assertFieldDef (c°).schema t a; let x ← typeFieldNode c° n fd a b sub; pure ⟨[], x.1, x.2⟩) :=
  Twin.then blind_assertFieldDef fun _ => twin_typeFieldNode.bind fun x x' hx => .pure (by simp only [viewO, viewF_body hx])

theorem twin_fragObjectSels {t n : String} (ss : List Sel) : Twin viewO (fragObjectSels c t n ss) (fragObjectSels c° t n ss) := by
  induction ss with
  | nil => exact .pure rfl
  | cons s ss ih =>
    unfold fragObjectSels
    refine Twin.bind (φ := viewO) ?_ fun a a' h => ih.bind fun b b' h' => .pure (viewO_append h h')
    cases s with
    | spread f => exact blind_fragSpreadBase.then fun _ => .pure rfl
    | inline t sub => exact .pure rfl
    | field a b d e => unfold fragObjectSel; exact .ite (.pure rfl) twin_partsOfField

theorem twin_fragUnionInlineSels {t n : String} (ss : List Sel) :
    Twin viewO (fragUnionInlineSels c t n ss) (fragUnionInlineSels c° t n ss) := by
  induction ss with
  | nil => exact .pure rfl
  | cons s ss ih =>
    unfold fragUnionInlineSels
    refine Twin.bind (φ := viewO) ?_ fun a a' h => ih.bind fun b b' h' => .pure (viewO_append h h')
    cases s with
    | spread f => exact .pure rfl
    | inline t sub => exact .pure rfl
    | field a b d e => unfold fragUnionInlineSel; exact .ite (.pure rfl) twin_partsOfField

theorem twin_fragUnionSels {n : String} (ss : List Sel) : Twin viewI (fragUnionSels c n ss) (fragUnionSels c° n ss) := by
  induction ss with
  | nil => exact .pure rfl
  | cons s ss ih =>
    unfold fragUnionSels
    refine Twin.bind (φ := viewI) ?_ fun a a' h => ih.bind fun b b' h' => .pure (viewI_append h h')
    cases s with
    | spread f => exact blind_unionMembersOf.then fun _ => .pure rfl
    | inline t sub =>
      cases t with
      | none => exact .fail
      | some t =>
        refine (twin_fragUnionInlineSels _).bind fun p p' hp => .pure ?_
        simp only [viewO, Prod.mk.injEq] at hp
        simp only [viewI, hp, List.map_cons, List.map_nil]
    | field a b d e =>
      unfold fragUnionSel
      exact .ite (.pure rfl) .fail

theorem twin_generateFragment {p : FragmentsConfig} {f : FragDef} :
    Twin shapes (generateFragment prep c p f) (generateFragment prep c° p f) := by
  unfold generateFragment
  have hs : (withOptions c m).schema = c.schema := rfl
  simp only [hs]
  cases hg : c.schema.types.get? f.typeCondition with
  | none => exact .fail
  | some e =>
    refine Twin.then blind_generateClass fun _ => blind_registerFragmentDocument.then fun _ =>
      blind_registerFragmentType.then fun _ => ?_
    obtain ⟨d, desc⟩ := e
    cases d with
    | scalar => exact .fail
    | enum vs => exact .fail
    | input a b => exact .fail
    | object fs is =>
      unfold fragmentBody objectFragment
      refine twin_additionalBasesFor.then fun _ => twin_typenameField.then fun _ => (twin_fragObjectSels _).bind fun q q' hq =>
        blind_fragmentMeta.then fun _ => twin_fragmentBasesOf.then fun _ => twin_config.bind fun cfg cfg' hcfg => .pure ?_
      simp only [viewO, Prod.mk.injEq] at hq
      rw [shapes_append, shapes_append, hq.2.2, hq.1]
      congr 1
      refine congrArg (fun x => [x]) (shape_class (bodyShape_congr (bodyShape_congr ?_)))
      simp only [bodyShape_append, hq.2.1, hcfg]
    | interface fs is =>
      unfold fragmentBody interfaceFragment
      simp only [hs]
      refine twin_additionalBasesFor.then fun _ => (twin_fragInterfaceSels _).bind fun q q' hq =>
        twin_interfaceBasesOf.then fun _ => twin_genericTypenameField.then fun _ =>
        (twin_fragImplementingClasses hq _).bind fun is is' his => blind_registerImplementations.then fun _ => .pure ?_
      simp only [viewI, Prod.mk.injEq] at hq
      simp only [shapes_append, shapes_cons, hq.2.2.2, his]
      congr 3
      · exact shape_class (bodyShape_congr hq.1)
      · congr 1
        exact shape_class (bodyShape_congr (bodyShape_congr (bodyShape_congr hq.1)))
    | union ms =>
      unfold fragmentBody unionFragment
      refine twin_additionalBasesFor.then fun _ => (twin_fragUnionSels _).bind fun q q' hq =>
        (twin_fragMemberClasses hq _).bind fun is is' his => blind_registerUnionMembers.then fun _ =>
        blind_registerImport.then fun _ => .pure ?_
      simp only [viewI, Prod.mk.injEq] at hq
      simp only [shapes_append, hq.2.2.2, his]

theorem twin_fragmentsPlugin {p : FragmentsConfig} {d : Document} :
    Twin shapes (fragmentsPlugin prep c p d) (fragmentsPlugin prep c° p d) := by
  unfold fragmentsPlugin
  refine Twin.lift.then fun fs => ?_
  induction fs with
  | nil => exact .pure rfl
  | cons f fs ih =>
    unfold generateFragments
    exact twin_generateFragment.bind fun _ _ h => ih.bind fun _ _ h' => .pure (by rw [shapes_append, shapes_append, h, h'])

/-! ## operations -/

theorem twin_basesOrObject {bs : List String} : Twin id (basesOrObject c bs) (basesOrObject c° bs) := by
  unfold basesOrObject
  exact Twin.then (blind_registerImports _) fun _ => .pure rfl

theorem blind_rootTypeOf {s : Schema} {k : OpKind} : Blind (rootTypeOf s k) := by
  unfold rootTypeOf
  split
  · exact Twin.pure rfl
  · exact Twin.fail

/-- the declarations of root fields, and classes -/
def viewN (x : List (List Stmt) × List Stmt) : List (List Stmt × Option Expr) × List Stmt := (x.1.map viewD, shapes x.2)

theorem twin_operationSels {root cls : String} (ss : List Sel) :
    Twin viewN (operationSels c root cls ss) (operationSels c° root cls ss) := by
  induction ss with
  | nil => exact .pure rfl
  | cons s ss ih =>
    unfold operationSels
    refine Twin.bind (φ := viewF) ?_ fun a a' h => ih.bind fun b b' h' => .pure ?_
    · cases s with
      | spread f => exact .fail
      | inline t sub => exact .fail
      | field a b d e => exact Twin.then blind_assertFieldDef fun _ => twin_typeFieldNode
    · obtain ⟨h1, h2⟩ := Prod.mk.inj h
      obtain ⟨h3, h4⟩ := Prod.mk.inj h'
      simp only [viewN, List.map_cons, shapes_append, h1, h2, h3, h4]

theorem set_map {α β : Type} (f : α → β) (l : Dict α) (k : String) (v : α) :
    (l.set k v).map (fun p => (p.1, f p.2)) = Dict.set (l.map fun p => (p.1, f p.2)) k (f v) := by
  induction l with
  | nil => rfl
  | cons p l ih =>
    obtain ⟨k', v'⟩ := p
    simp only [Dict.set, List.map_cons]
    split
    · rfl
    · simp only [List.map_cons, ih]

theorem twin_registerSingle {n : String} {l l' : List (List Stmt)} (h : l.map viewD = l'.map viewD) :
    Twin (id : Unit → Unit) (registerSingle n l) (registerSingle n l') := ⟨fun r r' hr => by
  have keep : seen (id : Unit → Unit) (.ok ((), r)) = seen id (.ok ((), r')) := by
    show Except.ok ((), core r) = .ok ((), core r'); rw [hr]
  match l, l', h with
  | [], [], _ => exact keep
  | a :: b :: l, a' :: b' :: l', _ => exact keep
  | [a], a' :: b' :: l', h => cases (List.cons.inj h).2
  | a :: b :: l, [a'], h => cases (List.cons.inj h).2
  | [a], [a'], h =>
    have h : viewD a = viewD a' := (List.cons.inj h).1
    have h := (Prod.mk.inj h).2
    simp only [registerSingle]
    cases h1 : annotationOf a with
    | none =>
      cases h2 : annotationOf a' with
      | none => exact keep
      | some y => rw [h1, h2] at h; cases h
    | some x =>
      cases h2 : annotationOf a' with
      | none => rw [h1, h2] at h; cases h
      | some y =>
        rw [h1, h2] at h
        have h : annotationShape x = annotationShape y := Option.some.inj h
        obtain ⟨i, o, rfl, hi, ho⟩ := core_cases hr
        simp only [seen, core, set_map, ho, hi, h]⟩

theorem blind_recurseTypeAnnotation {env : Env} {x : Option Expr} (t : TypeNode) : ∀ {o : Bool},
    Blind (recurseTypeAnnotation env x t o) := by
  induction t with
  | named n =>
    intro o; unfold recurseTypeAnnotation namedOr
    refine Twin.then ?_ fun _ => blind_optionalWrap
    split
    · exact Twin.pure rfl
    · exact blind_referenceNamed
  | nonNull t ih => intro o; unfold recurseTypeAnnotation; exact ih
  | list t ih =>
    intro o; unfold recurseTypeAnnotation
    exact blind_registerImport.then fun _ => ih.then fun _ => blind_optionalWrap

theorem recurse_version {x : Option Expr} (t : TypeNode) : ∀ {o : Bool},
    recurseTypeAnnotation (onVersion c.env m) x t o = recurseTypeAnnotation c.env x t o := by
  induction t with
  | named n => intro o; rfl
  | nonNull t ih => intro o; unfold recurseTypeAnnotation; exact ih
  | list t ih => intro o; unfold recurseTypeAnnotation; simp only [ih]

theorem twin_recurse {x : Option Expr} {t : TypeNode} {o : Bool} :
    Twin id (recurseTypeAnnotation c.env x t o) (recurseTypeAnnotation (c°).env x t o) := by
  show Twin id _ (recurseTypeAnnotation (onVersion c.env m) x t o)
  rw [recurse_version]
  exact blind_recurseTypeAnnotation t

theorem blind_defaultMarker {v : Option Value} : Blind (defaultMarker v) := by
  unfold defaultMarker
  split
  · exact Twin.pure rfl
  · refine Twin.then ?_ fun _ => Twin.pure rfl
    unfold variableDefault
    split <;> first | exact Twin.pure rfl | exact Twin.fail

theorem twin_argumentStmts (vs : List VarDef) : Twin id (argumentStmts c vs) (argumentStmts c° vs) := by
  induction vs with
  | nil => exact .pure rfl
  | cons v vs ih =>
    unfold argumentStmts argumentStmt
    refine Twin.then ?_ fun _ => ih.then fun _ => .pure rfl
    refine twin_recurse.then fun _ => blind_optionalWrap.then fun _ => blind_defaultMarker.then fun _ =>
      blind_annotateFieldMetadata.then fun _ => twin_parameterName.then fun _ => Twin.then ?_ fun _ => .pure rfl
    unfold argumentValue
    exact .ite (blind_registerImport.then fun _ => .pure rfl) (Twin.pure rfl)

theorem twin_argumentsConfig : Twin bodyShape (argumentsConfig c) (argumentsConfig c°) := by
  unfold argumentsConfig
  exact blind_registerImport.then fun _ => .pure (by simp [bodyShape, configures])

theorem twin_argumentsClass {p : OperationsConfig} {o : OpDef} {n : String} :
    Twin bodyShape (argumentsClass c p o n) (argumentsClass c° p o n) := by
  unfold argumentsClass
  refine .ite ((twin_argumentStmts _).then fun body => twin_argumentsConfig.bind fun cfg cfg' hcfg =>
    twin_basesOrObject.then fun _ => .pure ?_) (.pure rfl)
  have hb : bodyShape (body ++ cfg) = bodyShape (body ++ cfg') := by rw [bodyShape_append, bodyShape_append, hcfg]
  have hne : ∀ bs b, configures (.classDef "Arguments" bs b []) = false := by
    intro bs b
    unfold configures
    split
    · rename_i h; cases h
    · rename_i h; rw [← (Stmt.classDef.inj h).1]; rfl
    · rename_i h; cases h
    · rename_i h; cases h
    · rfl
  simp only [bodyShape, hne, Bool.false_eq_true, if_false]
  rw [shape_class (bodyShape_congr hb)]

theorem flatten_view {l l' : List (List Stmt)} (h : l.map viewD = l'.map viewD) : bodyShape l.flatten = bodyShape l'.flatten := by
  have : ∀ l : List (List Stmt), l.map bodyShape = (l.map viewD).map (·.1) := by
    intro l; rw [List.map_map]; rfl
  rw [bodyShape_flatten, bodyShape_flatten, this, this, h]

theorem twin_generateOperation {p : OperationsConfig} {o : OpDef} :
    Twin shapes (generateOperation prep c p o) (generateOperation prep c° p o) := by
  unfold generateOperation
  split
  · exact .fail
  · refine Twin.then blind_generateClass fun _ => twin_basesOrObject.then fun _ => Twin.then blind_rootTypeOf fun _ =>
      (twin_operationSels _).bind fun x x' hx => ?_
    obtain ⟨h1, h2⟩ := Prod.mk.inj hx
    refine (twin_registerSingle h1).then fun _ => blind_mergedDocument.then fun _ => twin_argumentsClass.bind fun a a' ha =>
      .pure ?_
    rw [shapes_append, shapes_append, h2]
    congr 1
    refine congrArg (fun x => [x]) (shape_class (bodyShape_congr ?_))
    rw [bodyShape_append, bodyShape_append, bodyShape_append, bodyShape_append, flatten_view h1, ha]

theorem twin_operationsPlugin {p : OperationsConfig} {d : Document} :
    Twin shapes (operationsPlugin prep c p d) (operationsPlugin prep c° p d) := by
  unfold operationsPlugin
  generalize operationsOf d = os
  induction os with
  | nil => exact .pure rfl
  | cons o os ih =>
    unfold generateOperations
    exact twin_generateOperation.bind fun _ _ h => ih.bind fun _ _ h' => .pure (by rw [shapes_append, shapes_append, h, h'])
end

end Turms
