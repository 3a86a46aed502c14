import Verif.Lemmas.InputsClass
import Verif.Lemmas.Config
import Verif.Lemmas.ObjectFields
import Verif.Spec.Objects

namespace Turms
open Spec

theorem soft_objectLeaf {c : Ctx} {parent n : String} {r r' : Reg} {x : Expr} (hs : Styled c.env r)
    (h : objectLeaf c parent n r = .ok (x, r')) : Soft r r' ∧ Uses r r' parent x := by
  unfold objectLeaf at h
  cases hl : c.schema.lookup n with
  | none => simp [hl, Gen.fail] at h
  | some d =>
    rw [hl] at h
    cases d with
    | scalar =>
      obtain ⟨h1, n, rfl, h2⟩ := soft_scalar h
      exact ⟨h1, uses_name (.inl h2)⟩
    | enum => exact soft_reference (k := .enum) hs h
    | object => exact soft_reference (k := .object) hs h
    | interface =>
      dsimp only at h
      unfold referenceInterface at h
      split at h
      · cases h
      · cases h
        exact ⟨soft_addForward _ _, uses_str _ _ _ _⟩
    | input | union => simp [Gen.fail] at h

theorem soft_objectMembers {c : Ctx} {parent : String} {ms : List String} : ∀ {r r' : Reg} {xs : List Expr},
    Styled c.env r → objectMembers c parent ms r = .ok (xs, r') →
    Soft r r' ∧ ∀ x ∈ xs, Uses r r' parent x := by
  induction ms with
  | nil =>
    intro r r' xs _ h
    obtain ⟨rfl, rfl⟩ := Gen.pure_ok.1 h
    exact ⟨Soft.refl _, by simp⟩
  | cons m ms ih =>
    intro r r' xs hs h
    unfold objectMembers at h
    obtain ⟨x, r1, h1, h⟩ := Gen.bind_ok.1 h
    obtain ⟨ys, r2, h2, h⟩ := Gen.bind_ok.1 h
    obtain ⟨rfl, rfl⟩ := Gen.pure_ok.1 h
    obtain ⟨s1, u1⟩ := soft_objectLeaf hs h1
    obtain ⟨s2, u2⟩ := ih (hs.soft s1) h2
    refine ⟨s1.trans s2, ?_⟩
    intro y hy
    rcases List.mem_cons.1 hy with rfl | hy
    · exact u1.mono (Soft.refl _) s2
    · exact (u2 y hy).mono s1 (Soft.refl _)

theorem soft_objectNamed {c : Ctx} {parent n : String} {r r' : Reg} {x : Expr} (hs : Styled c.env r)
    (h : objectNamed c parent n r = .ok (x, r')) : Soft r r' ∧ Uses r r' parent x := by
  unfold objectNamed at h
  cases hl : c.schema.lookup n with
  | none => rw [hl] at h; exact soft_objectLeaf hs h
  | some d =>
    rw [hl] at h
    cases d with
    | union ms =>
      dsimp only at h
      obtain ⟨_, r1, h1, h⟩ := Gen.bind_ok.1 h
      obtain ⟨xs, r2, h2, h⟩ := Gen.bind_ok.1 h
      obtain ⟨rfl, rfl⟩ := Gen.pure_ok.1 h
      obtain ⟨s1, e1⟩ := soft_registerImport h1
      obtain ⟨s2, u2⟩ := soft_objectMembers (hs.soft s1) h2
      refine ⟨s1.trans s2, uses_sub (s2.external (e1.at (by decide +kernel))) (uses_tuple ?_)⟩
      exact fun e he => (u2 e he).mono s1 (Soft.refl _)
    | _ => exact soft_objectLeaf hs h

theorem soft_objectAnnotation {c : Ctx} {parent : String} (t : TypeNode) : ∀ {b : Bool} {r r' : Reg} {e : Expr},
    Styled c.env r → objectAnnotation c parent t b r = .ok (e, r') → Soft r r' ∧ Uses r r' parent e := by
  induction t with
  | named n =>
    intro b r r' e hs h
    unfold objectAnnotation at h
    obtain ⟨x, r1, h1, h⟩ := Gen.bind_ok.1 h
    obtain ⟨s1, u1⟩ := soft_objectNamed hs h1
    obtain ⟨s2, u2⟩ := soft_optionalWrap h u1
    exact ⟨s1.trans s2, u2⟩
  | nonNull t ih =>
    intro b r r' e hs h
    unfold objectAnnotation at h
    exact ih hs h
  | list t ih =>
    intro b r r' e hs h
    unfold objectAnnotation at h
    obtain ⟨_, r1, h1, h⟩ := Gen.bind_ok.1 h
    obtain ⟨x, r2, h2, h⟩ := Gen.bind_ok.1 h
    obtain ⟨s1, e1⟩ := soft_listImport h1
    obtain ⟨s2, u2⟩ := ih (hs.soft s1) h2
    split at h
    · obtain ⟨s3, u3⟩ := soft_optionalWrap h
        (uses_listBuilder (s2.external e1) (u2.mono s1 (Soft.refl _)))
      exact ⟨s1.trans (s2.trans s3), u3⟩
    · obtain ⟨_, r3, h3, h⟩ := Gen.bind_ok.1 h
      obtain ⟨rfl, rfl⟩ := Gen.pure_ok.1 h
      obtain ⟨s3, _⟩ := soft_registerImport h3
      exact ⟨s1.trans (s2.trans s3), uses_listBuilder ((s2.trans s3).external e1) (u2.mono s1 s3)⟩

theorem soft_objectFieldValue {fieldName : String} {f : FieldDef} {v : Option Expr}
    {r r' : Reg} (h : objectFieldValue fieldName f r = .ok (v, r')) :
    Soft r r' ∧ ∀ n ∈ freeNamesO v, External r' n := by
  have hd : ∀ n, n ∉ freeNamesK (nullableDefault f.type) := by
    intro n
    unfold nullableDefault
    split <;> simp [freeNamesK, freeNames]
  unfold objectFieldValue at h
  split at h
  · obtain ⟨_, r1, h1, h⟩ := Gen.bind_ok.1 h
    obtain ⟨rfl, rfl⟩ := Gen.pure_ok.1 h
    obtain ⟨s1, e1⟩ := soft_registerImport h1
    refine ⟨s1, ?_⟩
    intro n hn
    simp only [freeNamesO, freeNames, freeNamesL, List.cons_append, List.nil_append, List.mem_cons,
      mem_freeNamesK] at hn
    rcases hn with rfl | ⟨k, hk, hn⟩
    · exact e1.at (by decide +kernel)
    · rcases List.mem_append.1 hk with hk | hk
      · exact absurd (mem_freeNamesK.2 ⟨k, hk, hn⟩) (hd n)
      · simp at hk; subst hk; simp [Expr.str, freeNames] at hn
  · split at h
    · obtain ⟨_, r1, h1, h⟩ := Gen.bind_ok.1 h
      obtain ⟨rfl, rfl⟩ := Gen.pure_ok.1 h
      obtain ⟨s1, e1⟩ := soft_registerImport h1
      refine ⟨s1, ?_⟩
      intro n hn
      simp only [freeNamesO, freeNames, freeNamesL, List.cons_append, List.nil_append, List.mem_cons] at hn
      rcases hn with rfl | hn
      · exact e1.at (by decide +kernel)
      · exact absurd hn (hd n)
    · obtain ⟨rfl, rfl⟩ := Gen.pure_ok.1 h
      exact ⟨Soft.refl _, by simp [freeNamesO]⟩

theorem soft_objectFieldStmts {c : Ctx} {cls : String} {f : FieldDef} {ss : List Stmt} {r r' : Reg}
    (hs : Styled c.env r) (h : objectFieldStmts c cls f r = .ok (ss, r')) : Soft r r' ∧ UsesL r r' cls ss := by
  unfold objectFieldStmts at h
  obtain ⟨attr, r1, h1, h⟩ := Gen.bind_ok.1 h
  obtain ⟨a, r2, h2, h⟩ := Gen.bind_ok.1 h
  obtain ⟨a', r3, h3, h⟩ := Gen.bind_ok.1 h
  obtain ⟨v, r4, h4, h⟩ := Gen.bind_ok.1 h
  have s1 := soft_lift h1
  obtain ⟨s2, u2⟩ := soft_objectAnnotation f.type (hs.soft s1) h2
  obtain ⟨s3, u3⟩ := soft_annotateFieldMetadata (d := none) h3 u2
  obtain ⟨s4, u4⟩ := soft_objectFieldValue h4
  have key := usesL_annAssign (t := attr) (u3.mono s1 s4) u4
  obtain ⟨rfl, rfl⟩ := Gen.pure_ok.1 h
  have hdoc : ∀ (b : Bool) (d : String), UsesL r r4 cls (if b then [.expr (.str d)] else []) := by
    intro b d
    cases b
    · exact usesL_nil _ _ _
    · exact usesL_comment _ _ _ _
  exact ⟨s1.trans (s2.trans (s3.trans s4)), key.append (hdoc _ _)⟩

theorem soft_objectFields {c : Ctx} {cls : String} {fs : List FieldDef} :
    ∀ {ss : List Stmt} {r r' : Reg}, Styled c.env r → objectFields c cls fs r = .ok (ss, r') →
    Soft r r' ∧ UsesL r r' cls ss := by
  induction fs with
  | nil =>
    intro ss r r' hs h
    obtain ⟨rfl, rfl⟩ := Gen.pure_ok.1 h
    exact ⟨Soft.refl _, usesL_nil _ _ _⟩
  | cons f fs ih =>
    intro ss r r' hs h
    unfold objectFields at h
    obtain ⟨s, r2, h2, h⟩ := Gen.bind_ok.1 h
    obtain ⟨rest, r3, h3, h⟩ := Gen.bind_ok.1 h
    obtain ⟨rfl, rfl⟩ := Gen.pure_ok.1 h
    obtain ⟨s2, u2⟩ := soft_objectFieldStmts hs h2
    obtain ⟨s3, u3⟩ := ih (hs.soft s2) h3
    exact ⟨s2.trans s3, (u2.mono (Soft.refl _) s3).append (u3.mono s2 (Soft.refl _))⟩

/-- `OutputInst` depends on the registry through the scalar map only -/
theorem outputInst_congr {W : World} {c : Ctx} {r r' : Reg} (h : r.scalarMap = r'.scalarMap) :
    OutputInst W c r = OutputInst W c r' := by
  funext n v
  unfold OutputInst
  have : outputSideClass c r = outputSideClass c r' := by
    funext n
    unfold outputSideClass scalarClass
    rw [h]
  rw [this]

/-- the meaning of one declared output field -/
def OutputFieldMeans (W : World) (c : Ctx) (sm : Reg) (f : FieldDef) (m : MField) : Prop :=
  m.key = f.name ∧ (m.hasDefault = true ↔ f.type.isNonNull = false) ∧
  ∀ v, Accepts W m.ann v ↔ Legal (OutputInst W c sm) f.type v

theorem objectFields_fields {W : World} {c : Ctx} {cls : String} {r0 : Reg} {fs : List FieldDef} :
    ∀ {ss : List Stmt} {r r' : Reg}, Styled c.env r → r.scalarMap = r0.scalarMap →
    objectFields c cls fs r = .ok (ss, r') → (∀ f ∈ fs, ¬ OutputInst W c r0 f.type.base .null) →
    List.Forall₂ (OutputFieldMeans W c r0) fs (ss.filterMap fieldOf) := by
  induction fs with
  | nil =>
    intro ss r r' hs h0 h _
    obtain ⟨rfl, rfl⟩ := Gen.pure_ok.1 h
    exact .nil
  | cons f fs ih =>
    intro ss r r' hs h0 h hl
    unfold objectFields at h
    obtain ⟨s, r2, h2, h⟩ := Gen.bind_ok.1 h
    obtain ⟨rest, r3, h3, h⟩ := Gen.bind_ok.1 h
    obtain ⟨rfl, rfl⟩ := Gen.pure_ok.1 h
    have hlf := hl f (by simp)
    rw [← outputInst_congr h0] at hlf
    obtain ⟨fr, attr, ann, v, doc, hn, rfl, hdoc, hf, hd, ha, hacc⟩ := objectFieldStmts_ok hs h2 hlf
    have hm : List.filterMap fieldOf (Stmt.annAssign attr ann v :: doc) = [⟨f.name, !f.type.isNonNull, ann⟩] := by
      rcases hdoc with rfl | ⟨e, rfl⟩
      · rw [List.filterMap_cons_some hf]; rfl
      · rw [List.filterMap_cons_some hf]; simp [fieldOf]
    rw [List.filterMap_append, hm]
    refine .cons ⟨rfl, by simp, fun x => ?_⟩ (ih (hs.frame fr) (fr.1.trans h0) h3 (fun g hg => hl g (by simp [hg])))
    rw [← outputInst_congr h0]
    exact hacc x

theorem extendedByOthers_iff {s : Schema} {i : String} {all : List String} :
    extendedByOthers s i (all.filter (· != i)) = true ↔ ExtendedWithin s i all := by
  unfold extendedByOthers ExtendedWithin Schema.interfacesOf
  simp only [List.contains_iff_mem, List.mem_flatMap, List.mem_filter, bne_iff_ne, ne_eq]
  constructor
  · rintro ⟨j, ⟨hj, hne⟩, hi⟩
    refine ⟨j, hj, hne, ?_⟩
    split at hi
    · rename_i fs is hl; exact ⟨fs, is, .inr hl, hi⟩
    · rename_i fs is hl; exact ⟨fs, is, .inl hl, hi⟩
    · simp at hi
  · rintro ⟨j, hj, hne, fs, is, hl, hi⟩
    refine ⟨j, ⟨hj, hne⟩, ?_⟩
    rcases hl with hl | hl <;> rw [hl] <;> exact hi

/-- what the interface loop does: the registry is unchanged, bases are the registered base classes of the
interfaces not extended by another listed one, and the class is appended to the list of every interface -/
theorem interfaceLoop_ok {c : Ctx} {cls : String} {all is : List String} : ∀ {m m' : Dict (List String)} {bs : List Expr}
    {r r' : Reg}, interfaceLoop c cls all is m r = .ok ((bs, m'), r') →
    r' = r ∧ List.Forall₂ (fun i b => ∃ n, b = Expr.name n ∧ r.interfaceBaseclassMap.get? i = some n)
      (is.filter fun i => !extendedByOthers c.schema i (all.filter (· != i))) bs ∧
    (∀ i, (m'.get? i).getD [] = (m.get? i).getD [] ++ List.replicate (is.count i) cls) ∧
    (∀ i, i ∈ m'.keys ↔ i ∈ m.keys ∨ i ∈ is) := by
  induction is with
  | nil =>
    intro m m' bs r r' h
    obtain ⟨he, rfl⟩ := Gen.pure_ok.1 h
    cases he
    exact ⟨rfl, .nil, by simp, by simp⟩
  | cons i is ih =>
    intro m m' bs r r' h
    unfold interfaceLoop at h
    dsimp only at h
    have hmap : ∀ j, ((m.set i ((m.get? i).getD [] ++ [cls])).get? j).getD [] ++ List.replicate (is.count j) cls =
        (m.get? j).getD [] ++ List.replicate ((i :: is).count j) cls := by
      intro j
      rw [Dict.get?_set, List.count_cons]
      by_cases hij : i = j
      · subst hij
        simp [List.replicate_succ]
      · simp [hij]
    have hkey : ∀ j, j ∈ (m.set i ((m.get? i).getD [] ++ [cls])).keys ∨ j ∈ is ↔ j ∈ m.keys ∨ j ∈ i :: is := by
      intro j
      rw [Dict.mem_keys_set]
      simp only [List.mem_cons]
      grind
    by_cases hx : extendedByOthers c.schema i (all.filter (· != i)) = true
    · rw [hx] at h
      simp only [Bool.not_true, Bool.false_eq_true, if_false] at h
      obtain ⟨h1, h2, h3, h4⟩ := ih h
      refine ⟨h1, ?_, ?_, ?_⟩
      · rw [List.filter_cons_of_neg (by simp [hx])]; exact h2
      · intro j; rw [h3, hmap]
      · intro j; rw [h4, hkey]
    · rw [if_pos (by simpa using hx)] at h
      obtain ⟨b, r1, h1, h⟩ := Gen.bind_ok.1 h
      obtain ⟨⟨bs', m''⟩, r2, h2, h⟩ := Gen.bind_ok.1 h
      dsimp only at h
      obtain ⟨he, rfl⟩ := Gen.pure_ok.1 h
      cases he
      unfold inheritInterface at h1
      cases hg : r.interfaceBaseclassMap.get? i with
      | none => rw [hg] at h1; cases h1
      | some n =>
        rw [hg] at h1
        cases h1
        obtain ⟨h1, h2, h3, h4⟩ := ih h2
        refine ⟨h1, ?_, ?_, ?_⟩
        · rw [List.filter_cons_of_pos (by simpa using hx)]
          exact .cons ⟨_, rfl, hg⟩ h2
        · intro j; rw [h3, hmap]
        · intro j; rw [h4, hkey]

end Turms
