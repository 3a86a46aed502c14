import Verif.Lemmas.QuotedWalk

/-! # Which names the classes of enums, inputs and objects quote; which fragments are bound -/

namespace Turms
open Spec

section
variable {B E : String → Prop} {c : Ctx}

/-- What the classes of input types may quote. -/
structure InputQuotable (c : Ctx) (B E : String → Prop) : Prop where
  builtin : ∀ b, B b → b ∈ builtinNames → E b
  enum : ∀ t m, IsEnum c.schema t → t ∉ builtinNames → Kind.enum.style c.env t = .ok m → E m
  input : ∀ t m, IsInput c.schema t → Kind.input.style c.env t = .ok m → E m

/-- What the classes of object types may quote. -/
structure ObjectQuotable (c : Ctx) (B E : String → Prop) : Prop where
  builtin : ∀ b, B b → b ∈ builtinNames → E b
  enum : ∀ t m, IsEnum c.schema t → t ∉ builtinNames → Kind.enum.style c.env t = .ok m → E m
  object : ∀ t m fs is, c.schema.lookup t = some (.object fs is) → Kind.object.style c.env t = .ok m → E m
  iface : ∀ t m, IsInterface c.schema t → styleInterface c.env t = .ok m → E m

/-! ## enums -/

theorem q_enumLoop {p : EnumsConfig} (ts : List EnumType) : Quotes B (enumLoop c p ts) (QBody E) := by
  induction ts with
  | nil => exact .pure .nil
  | cons t ts ih =>
    unfold enumLoop
    have hv : ∀ vs : List EnumValueDef, QBody E (vs.flatMap enumValueStmts) := by
      intro vs
      induction vs with
      | nil => exact .nil
      | cons v vs ih =>
        rw [List.flatMap_cons]
        refine QBody.append ?_ ih
        unfold enumValueStmts
        refine .cons qb_str ?_
        split
        · exact .one qb_expr
        · exact .nil
    have hs : Quotes B (enumStep c p t) (QBody E) := by
      unfold enumStep
      refine .ite (fun _ => .pure .nil) fun _ => .ite (fun _ => .pure .nil) fun _ => .ite (fun _ => .pure .nil) fun _ => ?_
      exact q_generateClass.then fun n => .pure (.one (qb_class (.cons qb_expr (hv _))))
    exact hs.bind fun s => ih.bind fun ss => .pure fun hr hs => hs.append hr

theorem q_generateEnums {p : EnumsConfig} : Quotes B (generateEnums c p) (QBody E) := by
  unfold generateEnums
  exact q_registerImport.then fun _ => q_enumLoop _

/-! ## inputs -/

theorem q_inputAnnotation (hI : InputQuotable c B E) {parent : String} (t : TypeNode) : ∀ {o : Bool},
    Quotes B (inputAnnotation c parent t o) (QIn E) := by
  induction t with
  | named n =>
    intro o
    unfold inputAnnotation
    refine Quotes.bind (P := QIn E) ?_ fun x => q_optionalWrap
    unfold inputLeaf
    split
    · exact q_referenceScalar
    · rename_i fs ds hl
      exact q_referenceInput fun _ m hm => hI.input n m ⟨fs, ds, hl⟩ hm
    · rename_i vs hl
      exact q_referenceEnum hI.builtin fun _ hb m hm => hI.enum n m ⟨vs, hl⟩ hb hm
    · exact .fail
  | nonNull t ih => intro o; unfold inputAnnotation; exact ih
  | list t ih =>
    intro o
    unfold inputAnnotation
    exact q_listImport.then fun _ => ih.bind fun x => (q_optionalWrap (E := E)).mono fun e he hx => he (q_listBuilder hx)

theorem q_inputFieldValue {n k : String} {o : Bool} {d : Option String} :
    Quotes B (inputFieldValue n k o d) fun _ => True := by
  unfold inputFieldValue
  dsimp only
  exact .ite (fun _ => .pure trivial) fun _ => q_registerImport.then fun _ => .pure trivial

theorem q_inputFieldStmts (hI : InputQuotable c B E) {cls : String} {f : InputFieldDef} :
    Quotes B (inputFieldStmts c cls f) (QBody E) := by
  unfold inputFieldStmts
  refine q_nodeName.then fun n => Quotes.bind (P := QIn E) ?_ fun a => (q_annotateFieldMetadata (E := E)).bind fun a' =>
    q_inputFieldValue.then fun v => ?_
  · unfold inputFieldAnnotation
    exact (q_inputAnnotation hI _).bind fun x => q_optionalWrap
  · exact .ite (fun _ => .pure fun h' h => .cons (qb_ann (h' h)) (.one qb_expr)) fun _ =>
      .pure fun h' h => .one (qb_ann (h' h))

theorem q_inputFields (hI : InputQuotable c B E) {cls : String} {skip : List String} (fs : List InputFieldDef) :
    Quotes B (inputFields c cls skip fs) (QBody E) := by
  induction fs with
  | nil => exact .pure .nil
  | cons f fs ih =>
    unfold inputFields
    exact q_nodeName.then fun n => .ite (fun _ => ih) fun _ => (q_inputFieldStmts hI).bind fun s => ih.bind fun rest =>
      .pure fun hr hs => hs.append hr

theorem q_discriminatorStmts (ds : List Discriminator) : Quotes B (discriminatorStmts ds) (QBody E) := by
  induction ds with
  | nil => exact .pure .nil
  | cons d ds ih =>
    unfold discriminatorStmts
    exact q_registerImport.then fun _ => q_registerImport.then fun _ => ih.bind fun rest =>
      .pure fun hr => .cons (qb_ann qin_literal) hr

theorem qb_postInit {ds : List Discriminator} : ∀ m ∈ quotedIn (postInit ds), E m := by
  intro m hm
  simp [postInit, quotedIn, quotedO] at hm

theorem q_generateInputType (hI : InputQuotable c B E) {p : InputsConfig} {n t : String} {d : Option String}
    {fs : List InputFieldDef} {ds : List Discriminator} :
    Quotes B (generateInputType c p n t d fs ds) fun s => ∀ m ∈ quotedIn s, E m := by
  unfold generateInputType
  refine q_additionalBasesFor.then fun _ => (q_discriminatorStmts (E := E) _).bind fun lits => (q_inputFields hI _).bind fun fs =>
    (q_config (E := E)).bind fun cfg => .pure fun hc hf hl => qb_class (QBody.append (.cons qb_expr ((hl.append hf).append ?_)) hc)
  split
  · exact .one qb_postInit
  · exact .nil

theorem q_generateUnionAlias {n : String} {ms : List String} :
    Quotes B (generateUnionAlias n ms) fun s => ∀ m ∈ quotedIn s, E m := by
  unfold generateUnionAlias
  split
  · exact .pure qb_alias
  · exact q_registerImport.then fun _ => .pure (qb_sub (qin_tuple qinL_names))

theorem q_oneofWrapper (hI : InputQuotable c B E) {p : InputsConfig} {t : String} {ex : List Expr} {f : InputFieldDef} :
    Quotes B (oneofWrapper c p t ex f) fun x => ∀ m ∈ quotedIn x.2, E m := by
  constructor
  intro r a r' h
  unfold oneofWrapper at h
  split at h
  · cases h
  · cases h
  · rename_i cls r1 hg
    have g1 := (q_generateClass (B := B)).run _ _ _ hg
    have g2 := Quotes.run (B := B) (Q := fun x : String × Stmt => ∀ m ∈ quotedIn x.2, E m) (by
      exact q_nodeName.then fun fieldName => (q_inputAnnotation hI f.type).bind fun a =>
        (q_annotateFieldMetadata (E := E)).bind fun a' => q_inputFieldValue.then fun v => (q_config (E := E)).bind fun cfg =>
        .pure fun hc ha' ha => qb_class (QBody.append (.cons qb_expr (.one (qb_ann (ha' ha)))) hc)) _ _ _ h
    exact ⟨fun b hb => g2.1 b (g1.1 b hb), g2.2⟩

theorem q_oneofWrappers (hI : InputQuotable c B E) {p : InputsConfig} {t : String} {ex : List Expr}
    (fs : List InputFieldDef) : Quotes B (oneofWrappers c p t ex fs) fun l => QBody E (l.map (·.2)) := by
  induction fs with
  | nil => exact .pure .nil
  | cons f fs ih =>
    unfold oneofWrappers
    exact (q_oneofWrapper hI).bind fun w => ih.bind fun ws => .pure fun hs h => .cons h hs

theorem q_generateOneofWrapperInput (hI : InputQuotable c B E) {p : InputsConfig} {t : String}
    {fs : List InputFieldDef} : Quotes B (generateOneofWrapperInput c p t fs) (QBody E) := by
  unfold generateOneofWrapperInput
  exact q_additionalBasesFor.then fun _ => (q_oneofWrappers hI _).bind fun ws => q_generateClass.then fun al =>
    (q_generateUnionAlias (E := E)).bind fun a => .pure fun ha hw => hw.append (.one ha)

theorem q_prePass (hI : InputQuotable c B E) {p : InputsConfig} (ts : List InputType) : ∀ {acc : PrePass},
    Quotes B (prePass c p ts acc) fun x => QBody E acc.tree → QBody E x.tree := by
  induction ts with
  | nil => intro acc; exact .pure id
  | cons t ts ih =>
    intro acc
    unfold prePass
    have hs : Quotes B (prePassStep c p t acc) fun x => QBody E acc.tree → QBody E x.tree := by
      unfold prePassStep
      refine Quotes.then (P := fun _ => True) (.lift fun _ _ => trivial) fun x => ?_
      refine .ite (fun _ => .pure id) fun _ => Quotes.then (P := fun _ => True) (.lift fun _ _ => trivial) fun ds =>
        q_generateClass.then fun n => (q_generateInputType hI).bind fun cls => .pure fun hc ha => ha.append (.one hc)
    exact hs.bind fun a => ih.mono fun b hb ha h => hb (ha h)

theorem q_mainStep (hI : InputQuotable c B E) {p : InputsConfig} {pre : PrePass} {t : InputType} :
    Quotes B (mainStep c p pre t) fun x => QBody E x.1 := by
  unfold mainStep
  refine .ite (fun _ => .pure .nil) fun _ => .ite (fun _ => .pure .nil) fun _ => .ite (fun _ => .pure .nil) fun _ =>
    .ite (fun _ => ?_) fun _ => ?_
  · refine Quotes.then (P := fun _ => True) (.lift fun _ _ => trivial) fun _ => ?_
    split
    · exact .pure .nil
    · exact (q_generateOneofWrapperInput hI).bind fun s => .pure fun h => h
  · split
    · refine (q_registerImports _).then fun _ => q_generateClass.then fun n => .pure (.one ?_)
      exact qb_sub (qin_tuple (qinL_cons (qin_sub (qin_tuple qinL_names)) (qinL_cons qin_call qinL_nil)))
    · exact q_generateClass.then fun n => (q_generateInputType hI).bind fun cls => .pure fun h => .one h

theorem q_mainLoop (hI : InputQuotable c B E) {p : InputsConfig} {pre : PrePass} (ts : List InputType) :
    Quotes B (mainLoop c p pre ts) fun x => QBody E x.1 := by
  induction ts with
  | nil => exact .pure .nil
  | cons t ts ih =>
    unfold mainLoop
    exact (q_mainStep hI).bind fun x => ih.bind fun y => .pure fun hy hx => hx.append hy

theorem q_generateOneofDirectUnion {t : String} {ms : Dict String} :
    Quotes B (generateOneofDirectUnion c t ms) (QBody E) := by
  unfold generateOneofDirectUnion
  have hm : ∀ ms : Dict String, Quotes B (memberClasses ms) fun _ => True := by
    intro ms
    induction ms with
    | nil => exact .pure trivial
    | cons p ms ih =>
      unfold memberClasses
      refine Quotes.then (P := fun _ => True) (.of_same fun r a r' h => ?_) fun _ => ih.then fun _ => .pure trivial
      unfold getClass at h
      split at h <;> first | (cases h; rfl) | cases h
  refine q_generateClass.then fun n => (hm ms).then fun mcs => Quotes.then (P := fun _ => True) ?_ fun _ =>
    q_registerImport.then fun _ => q_registerImport.then fun _ => .pure (.cons ?_ (.one (qb_sub (qin_tuple
      (qinL_cons ?_ (qinL_cons qin_call qinL_nil))))))
  · unfold importIf
    exact .ite (fun _ => q_registerImport) fun _ => .pure trivial
  · intro m hm
    simp [quotedIn, quotedO] at hm
  · split
    · exact qin_sub (qin_tuple qinL_names)
    · exact qin_name

theorem q_deferredUnions (l : List (String × Dict String)) : Quotes B (deferredUnions c l) (QBody E) := by
  induction l with
  | nil => exact .pure .nil
  | cons p l ih =>
    unfold deferredUnions
    exact (q_generateOneofDirectUnion (E := E)).bind fun s => ih.bind fun ss => .pure fun hr hs => hs.append hr

theorem q_generateInputs (hI : InputQuotable c B E) {p : InputsConfig} : Quotes B (generateInputs c p) (QBody E) := by
  unfold generateInputs
  exact (q_registerImports _).then fun _ => (q_prePass hI _).bind fun pre => (q_mainLoop hI _).bind fun x =>
    (q_deferredUnions (E := E) _).bind fun us => .pure fun hu hx hp => ((hp .nil).append hx).append hu

/-! ## objects -/

theorem q_objectLeaf (hO : ObjectQuotable c B E) {parent n : String} : Quotes B (objectLeaf c parent n) (QIn E) := by
  unfold objectLeaf
  split
  · exact q_referenceScalar
  · rename_i fs is hl
    exact q_referenceInterface fun m hm => hO.iface n m ⟨fs, is, hl⟩ hm
  · rename_i fs is hl
    exact q_referenceGeneric fun m hm => hO.object n m fs is hl hm
  · rename_i vs hl
    exact q_referenceEnum hO.builtin fun _ hb m hm => hO.enum n m ⟨vs, hl⟩ hb hm
  · exact .fail

theorem q_objectMembers (hO : ObjectQuotable c B E) {parent : String} (ms : List String) :
    Quotes B (objectMembers c parent ms) (QInL E) := by
  induction ms with
  | nil => exact .pure qinL_nil
  | cons m ms ih =>
    unfold objectMembers
    exact (q_objectLeaf hO).bind fun x => ih.bind fun xs => .pure fun hs h => qinL_cons h hs

theorem q_objectAnnotation (hO : ObjectQuotable c B E) {parent : String} (t : TypeNode) : ∀ {o : Bool},
    Quotes B (objectAnnotation c parent t o) (QIn E) := by
  induction t with
  | named n =>
    intro o
    unfold objectAnnotation
    refine Quotes.bind (P := QIn E) ?_ fun x => q_optionalWrap
    unfold objectNamed
    split
    · exact q_registerImport.then fun _ => (q_objectMembers hO _).bind fun xs => .pure fun h => qin_sub (qin_tuple h)
    · exact q_objectLeaf hO
  | nonNull t ih => intro o; unfold objectAnnotation; exact ih
  | list t ih =>
    intro o
    unfold objectAnnotation
    refine q_listImport.then fun _ => ih.bind fun x => .ite (fun _ => ?_) fun _ => q_registerImport.then fun _ =>
      .pure fun hx => q_listBuilder hx
    exact (q_optionalWrap (E := E)).mono fun e he hx => he (q_listBuilder hx)

theorem q_objectFields (hO : ObjectQuotable c B E) {cls : String} (fs : List FieldDef) :
    Quotes B (objectFields c cls fs) (QBody E) := by
  induction fs with
  | nil => exact .pure .nil
  | cons f fs ih =>
    unfold objectFields
    have hs : Quotes B (objectFieldStmts c cls f) (QBody E) := by
      unfold objectFieldStmts
      refine q_nodeName.then fun n => (q_objectAnnotation hO _).bind fun a => (q_annotateFieldMetadata (E := E)).bind fun a' =>
        q_objectFieldValue.then fun v => .pure fun ha' ha => .cons (qb_ann (ha' ha)) ?_
      split
      · exact .one qb_expr
      · exact .nil
    exact hs.bind fun s => ih.bind fun ss => .pure fun hr hs => hs.append hr

theorem q_interfaceLoop {cls : String} {all : List String} (is : List String) : ∀ {m : Dict (List String)},
    Quotes B (interfaceLoop c cls all is m) fun _ => True := by
  induction is with
  | nil => intro m; exact .pure trivial
  | cons i is ih =>
    intro m
    unfold interfaceLoop
    dsimp only
    refine .ite (fun _ => Quotes.then (P := fun _ => True) (.of_same fun r a r' h => ?_) fun _ => ih.then fun _ => .pure trivial)
      fun _ => ih
    unfold inheritInterface at h
    split at h <;> first | (cases h; rfl) | cases h

theorem q_generateComposite {t : CompositeType} {env : Env} : Quotes B (generateComposite env t) fun _ => True := by
  unfold generateComposite
  refine .ite (fun _ => .of_same fun r a r' h => ?_) fun _ => q_generateClass.mono fun _ _ => trivial
  unfold generateInterface at h
  split at h
  · cases h
  · split at h
    · cases h
    · cases h; rfl

theorem q_objectLoop (hO : ObjectQuotable c B E) {p : ObjectsConfig} (ts : List CompositeType) : ∀ {acc : ObjAcc},
    Quotes B (objectLoop c p ts acc) fun x => QBody E acc.tree → QBody E x.tree := by
  induction ts with
  | nil => intro acc; exact .pure id
  | cons t ts ih =>
    intro acc
    unfold objectLoop
    have hs : Quotes B (objectStep c p t acc) fun x => QBody E acc.tree → QBody E x.tree := by
      unfold objectStep
      refine q_additionalBasesFor.then fun _ => .ite (fun _ => .pure id) fun _ => .ite (fun _ => .pure id) fun _ =>
        q_generateComposite.then fun cls => (q_interfaceLoop _).then fun x => (q_objectFields hO _).bind fun fs =>
        (q_config (E := E)).bind fun cfg => .pure fun hc hf ha => ha.append (.one (qb_class (QBody.append (QBody.append ?_ hf) hc)))
      split
      · exact .one qb_expr
      · exact .nil
    exact hs.bind fun a => ih.mono fun b hb ha h => hb (ha h)

theorem q_generateTypes (hO : ObjectQuotable c B E) {p : ObjectsConfig} : Quotes B (generateTypes c p) (QBody E) := by
  unfold generateTypes
  have hu : ∀ m : Dict (List String), Quotes B (registerUnions m) fun _ => True := by
    intro m
    induction m with
    | nil => exact .pure trivial
    | cons p m ih => unfold registerUnions; exact q_registerImport.then fun _ => ih
  have hi : ∀ m : Dict (List String), QBody E (m.map interfaceUnion) := by
    intro m
    induction m with
    | nil => exact .nil
    | cons p m ih => exact .cons (qb_sub (qin_tuple qinL_names)) ih
  have ha : ∀ m : Dict String, QBody E (m.map fun q => Stmt.assign (.name q.1) (.name q.2)) := by
    intro m
    induction m with
    | nil => exact .nil
    | cons p m ih => exact .cons qb_alias ih
  exact (q_registerImports _).then fun _ => (q_objectLoop hO _).bind fun acc => (hu _).then fun _ =>
    .ite (fun _ => .fail) fun _ => .pure fun h => ((h .nil).append (hi _)).append (ha _)
end

/-! ## fragments are bound -/

theorem generateFragment_bound {prep : List Char → List Char} {c : Ctx} {p : FragmentsConfig} {f : FragDef} {r r' : Reg}
    {ss : List Stmt} (h : generateFragment prep c p f r = .ok (ss, r')) :
    ∃ n, Kind.fragment.style c.env f.name = .ok n ∧ (IsInterface c.schema f.typeCondition ∨ n ∈ boundL ss) := by
  unfold generateFragment at h
  cases he : c.schema.types.get? f.typeCondition with
  | none => rw [he] at h; cases h
  | some e =>
    rw [he] at h
    dsimp only at h
    obtain ⟨n, r1, h1, ht⟩ := Gen.bind_ok.1 h
    clear h
    obtain ⟨_, r2, _, ht⟩ := Gen.bind_ok.1 ht
    obtain ⟨_, r3, _, ht⟩ := Gen.bind_ok.1 ht
    rename' ht => h
    refine ⟨n, (generateClass_ok h1).2.1, ?_⟩
    unfold fragmentBody at h
    split at h
    · rename_i fs is d _
      refine .inl ⟨fs, is, ?_⟩
      unfold Schema.lookup
      rw [he]
      rfl
    · right
      unfold objectFragment at h
      iterate 6 (obtain ⟨_, _, _, h⟩ := Gen.bind_ok.1 h)
      obtain ⟨rfl, rfl⟩ := Gen.pure_ok.1 h
      unfold boundL
      rw [List.flatMap_append]
      exact List.mem_append_right _ (by simp [bound])
    · right
      unfold unionFragment at h
      iterate 5 (obtain ⟨_, _, _, h⟩ := Gen.bind_ok.1 h)
      obtain ⟨rfl, rfl⟩ := Gen.pure_ok.1 h
      unfold boundL
      rw [List.flatMap_append, List.flatMap_append]
      exact List.mem_append_left _ (List.mem_append_right _ (by simp [bound]))
    · cases h

theorem generateFragments_bound {prep : List Char → List Char} {c : Ctx} {p : FragmentsConfig} (fs : List FragDef) :
    ∀ {r r' : Reg} {ss : List Stmt}, generateFragments prep c p fs r = .ok (ss, r') → ∀ f ∈ fs,
    ∃ n, Kind.fragment.style c.env f.name = .ok n ∧ (IsInterface c.schema f.typeCondition ∨ n ∈ boundL ss) := by
  induction fs with
  | nil => intro r r' ss _ f hf; cases hf
  | cons g fs ih =>
    intro r r' ss h f hf
    unfold generateFragments at h
    obtain ⟨s1, r1, h1, h⟩ := Gen.bind_ok.1 h
    obtain ⟨s2, r2, h2, h⟩ := Gen.bind_ok.1 h
    obtain ⟨rfl, rfl⟩ := Gen.pure_ok.1 h
    rw [boundL_append]
    rcases List.mem_cons.1 hf with rfl | hf
    · obtain ⟨n, hn, hb⟩ := generateFragment_bound h1
      exact ⟨n, hn, hb.imp id fun h => List.mem_append_left _ h⟩
    · obtain ⟨n, hn, hb⟩ := ih h2 f hf
      exact ⟨n, hn, hb.imp id fun h => List.mem_append_right _ h⟩

end Turms
