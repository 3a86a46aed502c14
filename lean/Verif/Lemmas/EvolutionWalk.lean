import Verif.Lemmas.EvolutionSees
import Verif.Lemmas.ScopeWalk

/-! # Walking selections over a schema that has grown -/

namespace Turms
open Spec

/-- the same settings, another schema -/
abbrev Ctx.on (c : Ctx) (s : Schema) : Ctx := { c with schema := s }

variable {c : Ctx} {s' : Schema}
variable {N : Old}

local notation "S" => Sim N

theorem sim_optionalWrap {o : Bool} {e : Expr} : Sim N (optionalWrap o e) (optionalWrap o e) := by
  unfold optionalWrap; exact .ite (sim_registerImport.bind fun _ => .pure) .pure
theorem sim_listImport {b : Bool} : Sim N (listImport b) (listImport b) := sim_registerImport
theorem sim_additionalBasesFor {n : String} : S (additionalBasesFor c n) (additionalBasesFor (c.on s') n) := by
  unfold additionalBasesFor
  split
  · rename_i h; simp only [h]; exact sim_registerImports.bind fun _ => .pure
  · rename_i h; simp only [h]; exact .pure
theorem sim_interfaceBasesOf : S (interfaceBasesOf c) (interfaceBasesOf (c.on s')) :=
  sim_registerImports.bind fun _ => .pure
theorem sim_generatePydanticConfig {g : GQLType} {n : Option String} :
    S (generatePydanticConfig c g n) (generatePydanticConfig (c.on s') g n) := by
  unfold generatePydanticConfig
  refine .ite ?_ .pure
  unfold generateConfigDict
  exact .ite .pure (sim_registerImport.bind fun _ => .pure)
theorem sim_markerCall {ref : Gen Expr} (h : Sim N ref ref) {a : Option Expr} :
    Sim N (markerCall ref a) (markerCall ref a) := by
  unfold markerCall
  split
  · exact h.bind fun _ => .pure
  · exact .pure
theorem sim_annotateFieldMetadata {env : Env} {a : Expr} {d : Option Expr} {dep : Option String} :
    Sim N (annotateFieldMetadata env a d dep) (annotateFieldMetadata env a d dep) := by
  unfold annotateFieldMetadata
  refine (sim_markerCall sim_referenceMarker).bind fun _ => (sim_markerCall sim_referenceMarker).bind fun _ =>
    .ite .pure (sim_registerImport.bind fun _ => .pure)
theorem sim_objectFieldValue {n : String} {f : FieldDef} :
    Sim N (objectFieldValue n f) (objectFieldValue n f) := by
  unfold objectFieldValue
  exact .ite (sim_registerImport.bind fun _ => .pure) (.ite (sim_registerImport.bind fun _ => .pure) .pure)
theorem sim_typenameImports : Sim N typenameImports typenameImports :=
  sim_registerImport.bind fun _ => sim_registerImport.bind fun _ => sim_registerImport
theorem sim_typenameField {n : String} : S (typenameField c n) (typenameField (c.on s') n) :=
  sim_typenameImports.bind fun _ => .pure
theorem sim_genericTypenameField : S (genericTypenameField c) (genericTypenameField (c.on s')) :=
  sim_typenameImports.bind fun _ => .pure

theorem sim_fieldNamed {fs fs' : List FieldDef} (h : KeepsFields fs fs') {n : String} :
    Sim N (fieldNamed n fs) (fieldNamed n fs') := by
  unfold fieldNamed
  split
  · rename_i he
    simp only [h _ _ he]
    exact .pure
  · exact .fail

theorem Grows.object {fs : List FieldDef} {is : List String} {d : TypeDef} (h : Grows (.object fs is) d) :
    ∃ fs' is', d = .object fs' is' ∧ KeepsFields fs fs' := by
  cases d <;> first | exact h.elim | exact ⟨_, _, rfl, h⟩
theorem Grows.interface {fs : List FieldDef} {is : List String} {d : TypeDef} (h : Grows (.interface fs is) d) :
    ∃ fs' is', d = .interface fs' is' ∧ KeepsFields fs fs' := by
  cases d <;> first | exact h.elim | exact ⟨_, _, rfl, h⟩

theorem _root_.Turms.Spec.Extends.lookup {s s' : Schema} (hE : Extends s s') {n : String} {d : TypeDef} (h : s.lookup n = some d) :
    ∃ d', s'.lookup n = some d' ∧ Grows d d' := by
  unfold Schema.lookup at h ⊢
  cases he : s.types.get? n with
  | none => rw [he] at h; cases h
  | some e =>
    rw [he] at h
    cases h
    obtain ⟨e', h1, _, h2⟩ := hE.types n e he
    exact ⟨e'.defn, by rw [h1]; rfl, h2⟩

theorem _root_.Turms.Spec.Extends.fieldsOf {s s' : Schema} (hE : Extends s s') {n : String} {fs : List FieldDef} (h : s.fieldsOf n = some fs) :
    ∃ fs', s'.fieldsOf n = some fs' ∧ KeepsFields fs fs' := by
  unfold Schema.fieldsOf at h ⊢
  split at h
  · rename_i hl
    cases h
    obtain ⟨d', h1, h2⟩ := hE.lookup hl
    obtain ⟨fs', is', rfl, hk⟩ := Grows.object h2
    rw [h1]
    exact ⟨fs', rfl, hk⟩
  · rename_i hl
    cases h
    obtain ⟨d', h1, h2⟩ := hE.lookup hl
    obtain ⟨fs', is', rfl, hk⟩ := Grows.interface h2
    rw [h1]
    exact ⟨fs', rfl, hk⟩
  · cases h

theorem _root_.Turms.Spec.Extends.getFieldDef {s s' : Schema} (hE : Extends s s') {t n : String} {f : FieldDef}
    (h : getFieldDef s t n = some f) : getFieldDef s' t n = some f := by
  unfold Turms.getFieldDef at h ⊢
  rw [hE.query]
  split at h
  · rename_i hc; rw [if_pos hc]; exact h
  rename_i hc
  rw [if_neg hc]
  split at h
  · rename_i hc; rw [if_pos hc]; exact h
  rename_i hc
  rw [if_neg hc]
  split at h
  · rename_i hc; rw [if_pos hc]; exact h
  rename_i hc
  rw [if_neg hc]
  cases hf : s.fieldsOf t with
  | none => rw [hf] at h; cases h
  | some fs =>
    rw [hf] at h
    obtain ⟨fs', h1, h2⟩ := hE.fieldsOf hf
    rw [h1]
    exact h2 _ _ h

theorem implementations_eq {s : Schema} {i : String} : implementations s i = (implementers s i).map fun p => ⟨p.1, p.2⟩ := by
  unfold implementations implementers
  rw [List.map_filterMap]
  congr 1
  funext t
  split
  · rename_i hd
    simp only [hd]
    by_cases hc : i ∈ ‹List String› <;> simp [hc]
  · rename_i hd
    split
    · exact absurd ‹_› (hd _ _)
    · rfl

section
variable (hE : Extends c.schema s')
include hE

theorem sim_fieldDefOf {t n : String} : S (fieldDefOf c.schema t n) (fieldDefOf s' t n) := by
  unfold fieldDefOf
  split
  · rename_i h; rw [hE.getFieldDef h]; exact .pure
  · exact .fail
theorem sim_assertFieldDef {t n : String} : S (assertFieldDef c.schema t n) (assertFieldDef s' t n) := by
  unfold assertFieldDef
  split
  · rename_i h; rw [hE.getFieldDef h]; exact .pure
  · exact .fail
theorem sim_requireObject {t : String} : S (requireObject c.schema t) (requireObject s' t) := by
  unfold requireObject
  split
  · rename_i h
    obtain ⟨d', h1, h2⟩ := hE.lookup h
    obtain ⟨fs', is', rfl, _⟩ := Grows.object h2
    rw [h1]; exact .pure
  · exact .fail
theorem sim_objectFieldNamed {t n : String} : S (objectFieldNamed c.schema t n) (objectFieldNamed s' t n) := by
  unfold objectFieldNamed
  split
  · rename_i h
    obtain ⟨d', h1, h2⟩ := hE.lookup h
    obtain ⟨fs', is', rfl, hk⟩ := Grows.object h2
    rw [h1]; exact sim_fieldNamed hk
  · exact .fail
omit hE

theorem sim_spreadBase {f t : String} (hf : N.frags f) : Sim N (spreadBase f t) (spreadBase f t) := by
  unfold spreadBase
  refine (sim_interfaceImpl hf).bind fun i => ?_
  split
  · exact .pure
  · exact sim_inheritFragment hf

theorem sim_collapseReference {p f t : String} (hf : N.frags f) : S (collapseReference c p f t) (collapseReference (c.on s') p f t) := by
  unfold collapseReference
  refine (sim_interfaceImpl hf).bind fun i => ?_
  split
  · exact .pure
  · exact sim_referenceGeneric hf

theorem sim_wrapOutput {leaf leaf' : String → Bool → Gen (Expr × List Stmt)} (t : TypeNode)
    (h : ∀ o, S (leaf t.base o) (leaf' t.base o)) : ∀ {o : Bool}, S (wrapOutput c leaf t o) (wrapOutput (c.on s') leaf' t o) := by
  induction t with
  | named n => intro o; unfold wrapOutput; exact h o
  | list t ih =>
    intro o; unfold wrapOutput
    exact sim_listImport.bind fun _ => (ih h).bind fun _ => sim_optionalWrap.bind fun _ => .pure
  | nonNull t ih => intro o; unfold wrapOutput; exact ih h

theorem sim_typeField {fd : FieldDef} {t : String} {leaf leaf' : String → Bool → Gen (Expr × List Stmt)}
    (h : ∀ o, S (leaf fd.type.base o) (leaf' fd.type.base o)) : S (typeField c fd t leaf) (typeField (c.on s') fd t leaf') := by
  unfold typeField
  refine Sim.lift.bind fun _ => (sim_wrapOutput _ h).bind fun _ => Sim.bind ?_ fun _ => .pure
  unfold finishField
  exact sim_annotateFieldMetadata.bind fun _ => sim_objectFieldValue.bind fun _ => .pure

theorem sim_spreadOrAdditional {t : String} {bs : List String} :
    S (spreadOrAdditional c t bs) (spreadOrAdditional (c.on s') t bs) := by
  unfold spreadOrAdditional
  exact .ite sim_additionalBasesFor .pure

theorem sim_implementingClasses {m : String} {p : InterfaceParts} (is : List Implementation) :
    S (implementingClasses c m p is) (implementingClasses (c.on s') m p is) := by
  induction is with
  | nil => exact .pure
  | cons i is ih =>
    unfold implementingClasses implementingClass
    exact (sim_additionalBasesFor.bind fun _ => sim_interfaceBasesOf.bind fun _ =>
      sim_typenameField.bind fun _ => .pure).bind fun _ => ih.bind fun _ => .pure

theorem sim_unionReference {cs : List String} {o : Bool} :
    Sim N (unionReference cs o) (unionReference cs o) := by
  unfold unionReference
  split
  · exact .fail
  · exact .pure
  · exact sim_registerImport.bind fun _ => sim_optionalWrap

theorem sim_catchAll {m : String} {t : Expr} : S (catchAll c m t) (catchAll (c.on s') m t) := by
  unfold catchAll
  refine .ite ?_ .pure
  exact sim_interfaceBasesOf.bind fun _ => sim_genericTypenameField.bind fun _ => sim_registerImport.bind fun _ => .pure

include hE in
theorem sim_namedNode {parent target : String} {sub : List Sel}
    {objs objs' : String → List FieldDef → String → Gen ObjectParts} {ifcs ifcs' : List FieldDef → String → Gen InterfaceParts}
    {uns uns' : Gen (List String × List Stmt)} (hsp : ∀ f, Sel.spread f ∈ sub → N.frags f) {n : String} (hb : Under N c.schema n sub)
    (ho : Sees N c.schema n sub → ∀ fs is fs' k, c.schema.lookup n = some (.object fs is) → KeepsFields fs fs' →
      S (objs n fs k) (objs' n fs' k))
    (hi : Sees N c.schema n sub → ∀ fs is fs' k, c.schema.lookup n = some (.interface fs is) → KeepsFields fs fs' →
      S (ifcs fs k) (ifcs' fs' k))
    (hu : Sees N c.schema n sub → S uns uns') (opt : Bool) : S (namedNode c parent target sub objs ifcs uns n opt)
      (namedNode (c.on s') parent target sub objs' ifcs' uns' n opt) := by
  unfold namedNode
  cases hg : c.schema.types.get? n with
  | none => exact .fail
  | some e =>
    obtain ⟨e', h1, h2, h3⟩ := hE.types n e hg
    have hl : c.schema.lookup n = some e.defn := by unfold Schema.lookup; rw [hg]; rfl
    simp only [h1]
    obtain ⟨d, desc⟩ := e
    obtain ⟨d', desc'⟩ := e'
    cases h2
    cases d with
    | scalar =>
      cases d' <;> try exact h3.elim
      exact sim_referenceScalar.bind fun _ => sim_optionalWrap.bind fun _ => .pure
    | enum vs =>
      cases d' <;> try exact h3.elim
      exact (sim_referenceEnum (hb.enum ⟨_, hl⟩)).bind fun _ => sim_optionalWrap.bind fun _ => .pure
    | input a b => exact .fail
    | object fs is =>
      obtain ⟨fs', is', rfl, hf⟩ := Grows.object h3
      dsimp only
      unfold objectNode
      refine sim_typenameField.bind fun _ => ?_
      split
      · rename_i f hc
        have hf : N.frags f := hsp f (by
          have : Sel.spread f ∈ nonTypenameFields sub := by rw [hc]; exact List.mem_singleton.2 rfl
          exact (List.mem_filter.1 this).1)
        exact (sim_collapseReference hf).bind fun _ => sim_optionalWrap.bind fun _ => .pure
      · refine (ho (hb.below (.inl ⟨_, _, hl⟩)) _ _ _ _ hl hf).bind fun _ => ?_
        unfold finishObject
        exact sim_spreadOrAdditional.bind fun _ => sim_generatePydanticConfig.bind fun _ =>
          sim_optionalWrap.bind fun _ => .pure
    | interface fs is =>
      obtain ⟨fs', is', rfl, hf⟩ := Grows.interface h3
      dsimp only
      unfold interfaceNode
      have himp : implementations s' n = implementations c.schema n := by
        rw [implementations_eq, implementations_eq, hE.implementers n _ fs is hg rfl]
      simp only [himp]
      exact (hi (hb.below (.inr (.inl ⟨_, _, hl⟩))) _ _ _ _ hl hf).bind fun _ => sim_additionalBasesFor.bind fun _ => sim_interfaceBasesOf.bind fun _ =>
        sim_generatePydanticConfig.bind fun _ => (sim_implementingClasses _).bind fun _ =>
        sim_registerImport.bind fun _ => sim_registerImport.bind fun _ => sim_catchAll.bind fun _ =>
        sim_optionalWrap.bind fun _ => .pure
    | union ms =>
      cases d' <;> try exact h3.elim
      exact (hu (hb.below (.inr (.inr ⟨_, hl⟩)))).bind fun _ => sim_unionReference.bind fun _ => .pure

theorem sim_inlineClass {cls t : String} {p : ObjectParts} : S (inlineClass c cls t p) (inlineClass (c.on s') cls t p) := by
  unfold inlineClass
  refine Sim.bind ?_ fun _ => sim_spreadOrAdditional.bind fun _ => sim_generatePydanticConfig.bind fun _ => .pure
  unfold inlineTypename
  exact .ite (sim_typenameField.bind fun _ => .pure) .pure
end

/-- fields of the object or interface `t` -/
def FieldsAt (s : Schema) (t : String) (fs : List FieldDef) (is : List String) : Prop :=
  s.lookup t = some (.object fs is) ∨ s.lookup t = some (.interface fs is)

theorem under_fieldNamed {t n : String} {fs : List FieldDef} {is : List String} {a : Option String} {as : List (String × Value)}
    {sub : List Sel} {fd : FieldDef} (hv : Sees N c.schema t [.field n a as sub]) (hl : FieldsAt c.schema t fs is)
    (hn : ¬ (n == "__typename") = true) (h : ∃ r r', fieldNamed n fs r = .ok (fd, r')) : Under N c.schema fd.type.base sub := by
  obtain ⟨r, r', h⟩ := h
  unfold fieldNamed at h
  cases hf : fs.find? (·.name == n) with
  | none => rw [hf] at h; exact (Gen.fail_ok.1 h).elim
  | some g =>
    rw [hf] at h
    obtain ⟨rfl, _⟩ := Gen.pure_ok.1 h
    exact hv.has (by simpa using hn) (hasField_object hl hf)
theorem under_objectFieldNamed {t n : String} {a : Option String} {as : List (String × Value)}
    {sub : List Sel} {fd : FieldDef} (hv : Sees N c.schema t [.field n a as sub])
    (hn : ¬ (n == "__typename") = true) (h : ∃ r r', objectFieldNamed c.schema t n r = .ok (fd, r')) :
    Under N c.schema fd.type.base sub := by
  obtain ⟨r, r', h⟩ := h
  unfold objectFieldNamed at h
  cases hl : c.schema.lookup t with
  | none => rw [hl] at h; exact (Gen.fail_ok.1 h).elim
  | some d =>
    rw [hl] at h
    cases d <;> first
      | exact (Gen.fail_ok.1 h).elim
      | exact under_fieldNamed hv (.inl hl) hn ⟨_, _, h⟩
theorem under_fieldDefOf {t n : String} {a : Option String} {as : List (String × Value)}
    {sub : List Sel} {fd : FieldDef} (hv : Sees N c.schema t [.field n a as sub])
    (h : ∃ r r', fieldDefOf c.schema t n r = .ok (fd, r')) : Under N c.schema fd.type.base sub := by
  obtain ⟨r, r', h⟩ := h
  unfold fieldDefOf at h
  cases hg : getFieldDef c.schema t n with
  | some g =>
    rw [hg] at h
    obtain ⟨rfl, _⟩ := Gen.pure_ok.1 h
    exact hv.get hg
  | none => rw [hg] at h; exact (Gen.fail_ok.1 h).elim
theorem under_assertFieldDef {t n : String} {a : Option String} {as : List (String × Value)}
    {sub : List Sel} {fd : FieldDef} (hv : Sees N c.schema t [.field n a as sub])
    (h : ∃ r r', assertFieldDef c.schema t n r = .ok (fd, r')) : Under N c.schema fd.type.base sub := by
  obtain ⟨r, r', h⟩ := h
  unfold assertFieldDef at h
  cases hg : getFieldDef c.schema t n with
  | some g =>
    rw [hg] at h
    obtain ⟨rfl, _⟩ := Gen.pure_ok.1 h
    exact hv.get hg
  | none => rw [hg] at h; exact (Gen.fail_ok.1 h).elim

mutual
theorem sim_objectSel (hE : Extends c.schema s') (s : Sel) (hs : SpreadsIn N.frags [s]) (t : String) (fs : List FieldDef)
    (is : List String) (fs' : List FieldDef) (cls : String) (hl : FieldsAt c.schema t fs is) (hv : Sees N c.schema t [s])
    (hf : KeepsFields fs fs') : S (objectSel c t fs cls s) (objectSel (c.on s') t fs' cls s) := by
  cases s with
  | spread f => unfold objectSel; exact (sim_spreadBase hs.spread).bind fun _ => .pure
  | inline t sub => unfold objectSel; exact .fail
  | field n a as sub =>
    unfold objectSel
    refine .iteOf .pure fun hn => ((sim_fieldNamed hf).bindOf fun _ h => (sim_typeField fun o =>
      sim_namedNode hE hs.field.mem (under_fieldNamed hv hl hn h)
        (fun hv fs is fs' k hl h => sim_objectSels hE sub hs.field _ fs is fs' k (.inl hl) hv h)
        (fun hv fs is fs' k hl h => sim_interfaceSels hE sub hs.field _ fs is fs' k (.inr hl) hv h)
        (fun hv => sim_unionSels hE sub hs.field _ hv _) o).bind fun _ => .pure)
theorem sim_objectSels (hE : Extends c.schema s') (ss : List Sel) (hs : SpreadsIn N.frags ss) (t : String) (fs : List FieldDef)
    (is : List String) (fs' : List FieldDef) (cls : String) (hl : FieldsAt c.schema t fs is) (hv : Sees N c.schema t ss)
    (hf : KeepsFields fs fs') : S (objectSels c t fs cls ss) (objectSels (c.on s') t fs' cls ss) := by
  cases ss with
  | nil => unfold objectSels; exact .pure
  | cons s ss =>
    unfold objectSels
    exact (sim_objectSel hE s hs.head _ _ _ _ _ hl hv.head hf).bind fun _ =>
      (sim_objectSels hE ss hs.tail _ _ _ _ _ hl hv.tail hf).bind fun _ => .pure
theorem sim_interfaceSel (hE : Extends c.schema s') (s : Sel) (hs : SpreadsIn N.frags [s]) (t : String) (fs : List FieldDef)
    (is : List String) (fs' : List FieldDef) (cls : String) (hl : FieldsAt c.schema t fs is) (hv : Sees N c.schema t [s])
    (hf : KeepsFields fs fs') : S (interfaceSel c fs cls s) (interfaceSel (c.on s') fs' cls s) := by
  cases s with
  | spread f => unfold interfaceSel; exact (sim_spreadImplementations hs.spread).bind fun _ => .pure
  | inline t sub =>
    cases t with
    | none => unfold interfaceSel; exact .fail
    | some t =>
      unfold interfaceSel
      exact (sim_requireObject hE).bind fun _ => (sim_inlineSels hE sub hs.inline _ _ hv.inline).bind fun _ => .pure
  | field n a as sub =>
    unfold interfaceSel
    refine .iteOf .pure fun hn => ((sim_fieldNamed hf).bindOf fun _ h => (sim_typeField fun o =>
      sim_namedNode hE hs.field.mem (under_fieldNamed hv hl hn h)
        (fun hv fs is fs' k hl h => sim_objectSels hE sub hs.field _ fs is fs' k (.inl hl) hv h)
        (fun hv fs is fs' k hl h => sim_interfaceSels hE sub hs.field _ fs is fs' k (.inr hl) hv h)
        (fun hv => sim_unionSels hE sub hs.field _ hv _) o).bind fun _ => .pure)
theorem sim_interfaceSels (hE : Extends c.schema s') (ss : List Sel) (hs : SpreadsIn N.frags ss) (t : String) (fs : List FieldDef)
    (is : List String) (fs' : List FieldDef) (cls : String) (hl : FieldsAt c.schema t fs is) (hv : Sees N c.schema t ss)
    (hf : KeepsFields fs fs') : S (interfaceSels c fs cls ss) (interfaceSels (c.on s') fs' cls ss) := by
  cases ss with
  | nil => unfold interfaceSels; exact .pure
  | cons s ss =>
    unfold interfaceSels
    exact (sim_interfaceSel hE s hs.head _ _ _ _ _ hl hv.head hf).bind fun _ =>
      (sim_interfaceSels hE ss hs.tail _ _ _ _ _ hl hv.tail hf).bind fun _ => .pure
theorem sim_inlineSel (hE : Extends c.schema s') (s : Sel) (hs : SpreadsIn N.frags [s]) (t p : String)
    (hv : Sees N c.schema t [s]) : S (inlineSel c t p s) (inlineSel (c.on s') t p s) := by
  cases s with
  | spread f => unfold inlineSel; exact .pure
  | inline t sub => unfold inlineSel; exact .pure
  | field n a as sub =>
    unfold inlineSel
    refine .ite .pure ((sim_fieldDefOf hE).bindOf fun _ h => sim_typeField fun o =>
      sim_namedNode hE hs.field.mem (under_fieldDefOf hv h)
        (fun hv fs is fs' k hl h => sim_objectSels hE sub hs.field _ fs is fs' k (.inl hl) hv h)
        (fun hv fs is fs' k hl h => sim_interfaceSels hE sub hs.field _ fs is fs' k (.inr hl) hv h)
        (fun hv => sim_unionSels hE sub hs.field _ hv _) o)
theorem sim_inlineSels (hE : Extends c.schema s') (ss : List Sel) (hs : SpreadsIn N.frags ss) (t p : String)
    (hv : Sees N c.schema t ss) : S (inlineSels c t p ss) (inlineSels (c.on s') t p ss) := by
  cases ss with
  | nil => unfold inlineSels; exact .pure
  | cons s ss =>
    unfold inlineSels
    exact (sim_inlineSel hE s hs.head _ _ hv.head).bind fun _ => (sim_inlineSels hE ss hs.tail _ _ hv.tail).bind fun _ => .pure
theorem sim_unionSel (hE : Extends c.schema s') (s : Sel) (hs : SpreadsIn N.frags [s]) (t : String) (hv : Sees N c.schema t [s])
    (p : String) : S (unionSel c p s) (unionSel (c.on s') p s) := by
  cases s with
  | spread f => unfold unionSel; exact (sim_inheritFragment hs.spread).bind fun _ => .pure
  | inline t sub =>
    cases t with
    | none => unfold unionSel; exact .fail
    | some t =>
      unfold unionSel
      exact (sim_unionInlineSels hE sub hs.inline _ _ hv.inline).bind fun _ => sim_inlineClass.bind fun _ => .pure
  | field n a as sub => unfold unionSel; exact .pure
theorem sim_unionSels (hE : Extends c.schema s') (ss : List Sel) (hs : SpreadsIn N.frags ss) (t : String) (hv : Sees N c.schema t ss)
    (p : String) : S (unionSels c p ss) (unionSels (c.on s') p ss) := by
  cases ss with
  | nil => unfold unionSels; exact .pure
  | cons s ss =>
    unfold unionSels
    exact (sim_unionSel hE s hs.head _ hv.head _).bind fun _ => (sim_unionSels hE ss hs.tail _ hv.tail _).bind fun _ => .pure
theorem sim_unionInlineSel (hE : Extends c.schema s') (s : Sel) (hs : SpreadsIn N.frags [s]) (t cls : String)
    (hv : Sees N c.schema t [s]) : S (unionInlineSel c t cls s) (unionInlineSel (c.on s') t cls s) := by
  cases s with
  | spread f => unfold unionInlineSel; exact (sim_inlineSpreadBase hs.spread).bind fun _ => .pure
  | inline t sub => unfold unionInlineSel; exact .pure
  | field n a as sub =>
    unfold unionInlineSel
    refine .iteOf .pure fun hn => ((sim_objectFieldNamed hE).bindOf fun _ h => (sim_typeField fun o =>
      sim_namedNode hE hs.field.mem (under_objectFieldNamed hv hn h)
        (fun hv fs is fs' k hl h => sim_objectSels hE sub hs.field _ fs is fs' k (.inl hl) hv h)
        (fun hv fs is fs' k hl h => sim_interfaceSels hE sub hs.field _ fs is fs' k (.inr hl) hv h)
        (fun hv => sim_unionSels hE sub hs.field _ hv _) o).bind fun _ => .pure)
theorem sim_unionInlineSels (hE : Extends c.schema s') (ss : List Sel) (hs : SpreadsIn N.frags ss) (t cls : String)
    (hv : Sees N c.schema t ss) : S (unionInlineSels c t cls ss) (unionInlineSels (c.on s') t cls ss) := by
  cases ss with
  | nil => unfold unionInlineSels; exact .pure
  | cons s ss =>
    unfold unionInlineSels
    exact (sim_unionInlineSel hE s hs.head _ _ hv.head).bind fun _ =>
      (sim_unionInlineSels hE ss hs.tail _ _ hv.tail).bind fun _ => .pure
end

theorem sim_typeFieldNode (hE : Extends c.schema s') {p : String} {fd : FieldDef} {n : String} {a : Option String}
    {sub : List Sel} (hs : SpreadsIn N.frags sub) (hb : Under N c.schema fd.type.base sub) :
    S (typeFieldNode c p fd n a sub) (typeFieldNode (c.on s') p fd n a sub) :=
  sim_typeField fun o => sim_namedNode hE hs.mem hb
    (fun hv fs is fs' k hl h => sim_objectSels hE sub hs _ fs is fs' k (.inl hl) hv h)
    (fun hv fs is fs' k hl h => sim_interfaceSels hE sub hs _ fs is fs' k (.inr hl) hv h)
    (fun hv => sim_unionSels hE sub hs _ hv _) o

end Turms
