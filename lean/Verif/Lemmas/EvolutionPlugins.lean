import Verif.Lemmas.EvolutionWalk

/-! # The plugins that read documents over a schema that has grown -/

namespace Turms
open Spec

variable {c : Ctx} {s' : Schema} {N : Old}

local notation "S" => Sim N

/-! ## fragments -/

theorem sim_fragmentBasesOf {p : FragmentsConfig} {b : Bool} :
    S (fragmentBasesOf c p b) (fragmentBasesOf (c.on s') p b) := by
  unfold fragmentBasesOf
  exact sim_registerImports.bind fun _ => sim_registerImports.bind fun _ => sim_registerImports.bind fun _ => .pure

theorem sim_fragImplementingClasses {m : String} {p : InterfaceParts} (is : List Implementation) :
    S (fragImplementingClasses c m p is) (fragImplementingClasses (c.on s') m p is) := by
  induction is with
  | nil => exact .pure
  | cons i is ih =>
    unfold fragImplementingClasses fragImplementingClass
    exact (sim_additionalBasesFor.bind fun _ => sim_interfaceBasesOf.bind fun _ =>
      sim_typenameField.bind fun _ => .pure).bind fun _ => ih.bind fun _ => .pure

theorem sim_fragMemberClasses {p : FragmentsConfig} {m : String} {q : InterfaceParts} (ms : List String) :
    S (fragMemberClasses c p m q ms) (fragMemberClasses (c.on s') p m q ms) := by
  induction ms with
  | nil => exact .pure
  | cons i is ih =>
    unfold fragMemberClasses fragMemberClass
    exact (sim_fragmentBasesOf.bind fun _ => sim_typenameField.bind fun _ => .pure).bind fun _ =>
      ih.bind fun _ => .pure

/-- the fragment itself, the fragments it spreads and the fragments found in its text are known to both -/
structure FragIn (N : Old) (f : FragDef) : Prop where
  self : N.frags f.name
  spreads : SpreadsIn N.frags f.sels
  found : ∀ x, FoundIn (Documents.printFragment f) x → N.frags x
  prepared : ∀ x, FoundIn (N.prep (Documents.printFragment f)) x → N.frags x

/-- the fragments the operation spreads and the fragments found in its text are known to both -/
structure OpIn (N : Old) (o : OpDef) : Prop where
  fresh : ∀ n, o.name = some n → N.fresh n
  spreads : SpreadsIn N.frags o.sels
  found : ∀ n, o.name = some n → ∀ x, FoundIn (Documents.printOperation n o) x → N.frags x

/-- the variable's type is a name both know the same about, or the first registry knows no other names -/
def VarIn (N : Old) (n : String) : Prop := N.names n ∨ N.only ∧ ∀ n ∈ builtinNames, N.names n

theorem operationsOf_mem {d : Document} {o : OpDef} (h : o ∈ operationsOf d) : Defn.operation o ∈ d := by
  obtain ⟨x, hx, he⟩ := List.mem_filterMap.1 h
  cases x with
  | operation o' => cases he; exact hx
  | fragment f => cases he

theorem fragmentDefinitions_mem {d : Document} : ∀ {acc : Dict FragDef} {n : String} {f : FragDef},
    (Fragments.fragmentDefinitions d acc).get? n = some f → Defn.fragment f ∈ d ∨ acc.get? n = some f := by
  induction d with
  | nil => intro acc n f h; exact .inr h
  | cons x d ih =>
    intro acc n f h
    cases x with
    | operation o =>
      rcases ih h with h | h
      · exact .inl (List.mem_cons_of_mem _ h)
      · exact .inr h
    | fragment g =>
      rcases ih h with h | h
      · exact .inl (List.mem_cons_of_mem _ h)
      · rw [Dict.get?_set] at h
        split at h
        · cases h; exact .inl List.mem_cons_self
        · exact .inr h

theorem ordered_in_document {d : Document} {fs : List FragDef} {f : FragDef} (h : Fragments.orderedFragments d = .ok fs)
    (hf : f ∈ fs) : Defn.fragment f ∈ d := by
  unfold Fragments.orderedFragments at h
  split at h
  · cases h
  · split at h
    · cases h
    · cases h
      unfold Fragments.reorderDefinitions at hf
      obtain ⟨n, _, hn⟩ := List.mem_filterMap.1 hf
      exact (fragmentDefinitions_mem hn).resolve_right fun h => by cases h

/-- both registries know the same about the types the document mentions -/
structure SeesDoc (N : Old) (s : Schema) (doc : Document) : Prop where
  fragments : ∀ f, Defn.fragment f ∈ doc → Sees N s f.typeCondition f.sels
  operations : ∀ o, Defn.operation o ∈ doc → ∀ root, s.root o.kind = some root → Sees N s root o.sels
  vars : ∀ o, Defn.operation o ∈ doc → ∀ v ∈ o.vars, VarIn N v.type.base

theorem Grown.sees {s s' : Schema} (h : Grown N s s') (p : String) (sels : List Sel) : Sees N s p sels :=
  .inl fun x ⟨vs, hl⟩ => h.known x (.inl (by
    unfold Schema.lookup at hl
    cases hg : s.types.get? x with
    | none => rw [hg] at hl; cases hl
    | some e => rfl))
theorem Grown.seesDoc {s s' : Schema} (h : Grown N s s') (ho : N.only) (doc : Document) : SeesDoc N s doc :=
  ⟨fun _ _ => h.sees _ _, fun _ _ _ _ => h.sees _ _, fun _ _ _ _ => .inr ⟨ho, fun n hn => h.known n (.inr hn)⟩⟩

theorem Whole.frag {prep : List Char → List Char} (h : Whole N prep) (f : FragDef) : FragIn N f :=
  ⟨h.frags _, fun x _ => h.frags x, fun x _ => h.frags x, fun x _ => h.frags x⟩
theorem Whole.op {prep : List Char → List Char} (h : Whole N prep) (o : OpDef) : OpIn N o :=
  ⟨fun n _ => h.fresh n, fun x _ => h.frags x, fun _ _ x _ => h.frags x⟩

theorem sim_fragmentMeta {p : FragmentsConfig} {f : FragDef} (hf : FragIn N f) :
    S (fragmentMeta N.prep p f) (fragmentMeta N.prep p f) := by
  unfold fragmentMeta
  exact .ite ((sim_mergedDocument hf.found).bind fun _ => .pure) .pure

section
variable (hE : Extends c.schema s')
include hE

theorem sim_fragInterfaceSels (ss : List Sel) : SpreadsIn N.frags ss → ∀ {t : String} {fs : List FieldDef} {is : List String}
    {fs' : List FieldDef} {n : String}, FieldsAt c.schema t fs is → Sees N c.schema t ss → KeepsFields fs fs' →
    S (fragInterfaceSels c fs n ss) (fragInterfaceSels (c.on s') fs' n ss) := by
  induction ss with
  | nil => intro _ t fs is fs' n _ _ _; exact .pure
  | cons s ss ih =>
    intro hs t fs is fs' n hl hv hf
    unfold fragInterfaceSels
    refine Sim.bind ?_ fun _ => (ih hs.tail hl hv.tail hf).bind fun _ => .pure
    unfold fragInterfaceSel
    split
    · exact (sim_inlineSels hE _ hs.inline _ _ hv.head.inline).bind fun _ => .pure
    · exact sim_interfaceSel hE _ hs.head _ _ _ _ _ hl hv.head hf

theorem sim_fragObjectSels {t n : String} (ss : List Sel) (hs : SpreadsIn N.frags ss) (hv : Sees N c.schema t ss) :
    S (fragObjectSels c t n ss) (fragObjectSels (c.on s') t n ss) := by
  induction ss with
  | nil => exact .pure
  | cons s ss ih =>
    unfold fragObjectSels
    refine Sim.bind ?_ fun _ => (ih hs.tail hv.tail).bind fun _ => .pure
    cases s with
    | spread f => exact (sim_fragSpreadBase hs.head.spread).bind fun _ => .pure
    | inline t sub => exact .pure
    | field a b d e =>
      unfold fragObjectSel
      exact .ite .pure ((sim_assertFieldDef hE).bindOf fun _ h => (sim_typeFieldNode hE hs.head.field (under_assertFieldDef hv.head h)).bind fun _ => .pure)

theorem sim_fragUnionInlineSels {t n : String} (ss : List Sel) (hs : SpreadsIn N.frags ss) (hv : Sees N c.schema t ss) :
    S (fragUnionInlineSels c t n ss) (fragUnionInlineSels (c.on s') t n ss) := by
  induction ss with
  | nil => exact .pure
  | cons s ss ih =>
    unfold fragUnionInlineSels
    refine Sim.bind ?_ fun _ => (ih hs.tail hv.tail).bind fun _ => .pure
    cases s with
    | spread f => exact .pure
    | inline t sub => exact .pure
    | field a b d e =>
      unfold fragUnionInlineSel
      exact .ite .pure ((sim_assertFieldDef hE).bindOf fun _ h => (sim_typeFieldNode hE hs.head.field (under_assertFieldDef hv.head h)).bind fun _ => .pure)

theorem sim_fragUnionSels {t n : String} (ss : List Sel) (hs : SpreadsIn N.frags ss) (hv : Sees N c.schema t ss) :
    S (fragUnionSels c n ss) (fragUnionSels (c.on s') n ss) := by
  induction ss with
  | nil => exact .pure
  | cons s ss ih =>
    unfold fragUnionSels
    refine Sim.bind ?_ fun _ => (ih hs.tail hv.tail).bind fun _ => .pure
    cases s with
    | spread f => exact (sim_unionMembersOf hs.head.spread).bind fun _ => .pure
    | inline t sub =>
      cases t with
      | none => exact .fail
      | some t => exact (sim_fragUnionInlineSels hE _ hs.head.inline hv.head.inline).bind fun _ => .pure
    | field a b d e =>
      unfold fragUnionSel
      exact .ite .pure .fail

theorem sim_generateFragment {p : FragmentsConfig} {f : FragDef} (hF : FragIn N f)
    (hv : Sees N c.schema f.typeCondition f.sels) : S (generateFragment N.prep c p f) (generateFragment N.prep (c.on s') p f) := by
  unfold generateFragment
  cases hg : c.schema.types.get? f.typeCondition with
  | none => exact .fail
  | some e =>
    obtain ⟨e', h1, h2, h3⟩ := hE.types _ e hg
    simp only [h1]
    refine (sim_generateFragmentClass hF.self).bind fun _ => (sim_registerFragmentDocument hF.self
      (by rw [String.toList_ofList]; exact hF.prepared)).bind fun _ =>
      sim_registerFragmentType.bind fun _ => ?_
    obtain ⟨d, desc⟩ := e
    obtain ⟨d', desc'⟩ := e'
    cases h2
    cases d with
    | scalar => exact .fail
    | enum vs => exact .fail
    | input a b => exact .fail
    | object fs is =>
      obtain ⟨fs', is', rfl, hf⟩ := Grows.object h3
      unfold fragmentBody objectFragment
      exact sim_additionalBasesFor.bind fun _ => sim_typenameField.bind fun _ => (sim_fragObjectSels hE _ hF.spreads hv).bind fun _ =>
        (sim_fragmentMeta hF).bind fun _ => sim_fragmentBasesOf.bind fun _ => sim_generatePydanticConfig.bind fun _ => .pure
    | interface fs is =>
      obtain ⟨fs', is', rfl, hf⟩ := Grows.interface h3
      unfold fragmentBody interfaceFragment
      have himp : implementations s' f.typeCondition = implementations c.schema f.typeCondition := by
        rw [implementations_eq, implementations_eq, hE.implementers _ _ fs is hg rfl]
      simp only [himp]
      exact sim_additionalBasesFor.bind fun _ => (sim_fragInterfaceSels hE _ hF.spreads (.inr (by unfold Schema.lookup; rw [hg]; rfl)) hv hf).bind fun _ =>
        sim_interfaceBasesOf.bind fun _ => sim_genericTypenameField.bind fun _ =>
        (sim_fragImplementingClasses _).bind fun _ => sim_registerImplementations.bind fun _ => .pure
    | union ms =>
      cases d' <;> try exact h3.elim
      cases h3
      unfold fragmentBody unionFragment
      exact sim_additionalBasesFor.bind fun _ => (sim_fragUnionSels hE _ hF.spreads hv).bind fun _ =>
        (sim_fragMemberClasses _).bind fun _ => sim_registerUnionMembers.bind fun _ =>
        sim_registerImport.bind fun _ => .pure

theorem sim_fragmentsPlugin {prep : List Char → List Char} {p : FragmentsConfig} {d : Document} (hW : Whole N prep)
    (hv : SeesDoc N c.schema d) : S (fragmentsPlugin prep c p d) (fragmentsPlugin prep (c.on s') p d) := by
  rw [hW.prep]
  unfold fragmentsPlugin
  refine Sim.lift.bindOf fun fs hfs => ?_
  have hv : ∀ f ∈ fs, Sees N c.schema f.typeCondition f.sels := fun f hf =>
    have ⟨_, _, h⟩ := hfs
    hv.fragments f (ordered_in_document (Gen.lift_ok.1 h).1 hf)
  clear hfs
  induction fs with
  | nil => exact .pure
  | cons f fs ih =>
    unfold generateFragments
    exact (sim_generateFragment hE (hW.frag f) (hv f (by simp))).bind fun _ => (ih fun f hf => hv f (by simp [hf])).bind fun _ => .pure

/-! ## operations -/

theorem sim_rootTypeOf {k : OpKind} : S (rootTypeOf c.schema k) (rootTypeOf s' k) := by
  unfold rootTypeOf
  split
  · rename_i h; rw [hE.roots _ _ h]; exact .pure
  · exact .fail

omit hE in
theorem rootTypeOf_is {s : Schema} {k : OpKind} {x : String} (h : ∃ r r', rootTypeOf s k r = .ok (x, r')) :
    s.root k = some x := by
  obtain ⟨r, r', h⟩ := h
  unfold rootTypeOf at h
  cases hg : s.root k with
  | none => rw [hg] at h; exact (Gen.fail_ok.1 h).elim
  | some y => rw [hg] at h; obtain ⟨rfl, _⟩ := Gen.pure_ok.1 h; rfl

theorem sim_operationSels {root cls : String} (ss : List Sel) (hs : SpreadsIn N.frags ss) (hv : Sees N c.schema root ss) :
    S (operationSels c root cls ss) (operationSels (c.on s') root cls ss) := by
  induction ss with
  | nil => exact .pure
  | cons s ss ih =>
    unfold operationSels
    refine Sim.bind ?_ fun _ => (ih hs.tail hv.tail).bind fun _ => .pure
    cases s with
    | spread f => exact .fail
    | inline t sub => exact .fail
    | field a b d e => exact (sim_assertFieldDef hE).bindOf fun _ h => sim_typeFieldNode hE hs.head.field (under_assertFieldDef hv.head h)

theorem sim_recurseTypeAnnotation {x : Option Expr} (t : TypeNode) (hv : VarIn N t.base) : ∀ {o : Bool},
    S (recurseTypeAnnotation c.env x t o) (recurseTypeAnnotation c.env x t o) := by
  induction t with
  | named n =>
    intro o; unfold recurseTypeAnnotation namedOr
    refine Sim.bind ?_ fun _ => sim_optionalWrap
    split
    · exact .pure
    · exact sim_referenceNamed hv
  | nonNull t ih => intro o; unfold recurseTypeAnnotation; exact ih hv
  | list t ih =>
    intro o; unfold recurseTypeAnnotation
    exact sim_registerImport.bind fun _ => (ih hv).bind fun _ => sim_optionalWrap

theorem sim_argumentStmts (vs : List VarDef) (hv : ∀ v ∈ vs, VarIn N v.type.base) : S (argumentStmts c vs) (argumentStmts (c.on s') vs) := by
  induction vs with
  | nil => exact .pure
  | cons v vs ih =>
    unfold argumentStmts argumentStmt
    refine Sim.bind ?_ fun _ => (ih fun v h => hv v (by simp [h])).bind fun _ => .pure
    refine (sim_recurseTypeAnnotation hE _ (hv v (by simp))).bind fun _ => sim_optionalWrap.bind fun _ => Sim.bind ?_ fun _ =>
      sim_annotateFieldMetadata.bind fun _ => Sim.lift.bind fun _ => Sim.bind ?_ fun _ => .pure
    · unfold defaultMarker
      split
      · exact .pure
      · refine Sim.bind ?_ fun _ => .pure
        unfold variableDefault
        split <;> first | exact .pure | exact .fail
    · unfold argumentValue
      exact .ite (sim_registerImport.bind fun _ => .pure) .pure

theorem sim_argumentsClass {p : OperationsConfig} {o : OpDef} {n : String} (hv : ∀ v ∈ o.vars, VarIn N v.type.base) :
    S (argumentsClass c p o n) (argumentsClass (c.on s') p o n) := by
  unfold argumentsClass
  refine .ite ((sim_argumentStmts hE _ hv).bind fun _ => Sim.bind ?_ fun _ => Sim.bind ?_ fun _ => .pure) .pure
  · exact sim_registerImport.bind fun _ => .pure
  · exact sim_registerImports.bind fun _ => .pure

theorem sim_generateOperation {p : OperationsConfig} {o : OpDef} (hO : OpIn N o)
    (hv : ∀ root, c.schema.root o.kind = some root → Sees N c.schema root o.sels) (hw : ∀ v ∈ o.vars, VarIn N v.type.base) :
    S (generateOperation N.prep c p o) (generateOperation N.prep (c.on s') p o) := by
  unfold generateOperation
  split
  · exact .fail
  · rename_i n hn
    refine (sim_generateOpClass (hO.fresh n hn)).bind fun _ =>
      Sim.bind ?_ fun _ => (sim_rootTypeOf hE).bindOf fun _ h => (sim_operationSels hE _ hO.spreads (hv _ (rootTypeOf_is h))).bind fun _ =>
      sim_registerSingle.bind fun _ => (sim_mergedDocument (hO.found n hn)).bind fun _ => (sim_argumentsClass hE hw).bind fun _ => .pure
    exact sim_registerImports.bind fun _ => .pure

theorem sim_operationsPlugin {prep : List Char → List Char} {p : OperationsConfig} {d : Document} (hW : Whole N prep)
    (hv : SeesDoc N c.schema d) : S (operationsPlugin prep c p d) (operationsPlugin prep (c.on s') p d) := by
  rw [hW.prep]
  unfold operationsPlugin
  have hv : ∀ o ∈ operationsOf d, (∀ root, c.schema.root o.kind = some root → Sees N c.schema root o.sels) ∧
      ∀ v ∈ o.vars, VarIn N v.type.base := fun o ho =>
    ⟨hv.operations o (operationsOf_mem ho), hv.vars o (operationsOf_mem ho)⟩
  revert hv
  generalize operationsOf d = os
  intro hv
  induction os with
  | nil => exact .pure
  | cons o os ih =>
    unfold generateOperations
    exact (sim_generateOperation hE (hW.op o) (hv o (by simp)).1 (hv o (by simp)).2).bind fun _ =>
      (ih fun o h => hv o (by simp [h])).bind fun _ => .pure
end

end Turms
