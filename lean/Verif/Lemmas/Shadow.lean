import Verif.Spec.Shadow
import Verif.Lemmas.ScopeWalk
import Verif.Lemmas.InputsLoop

namespace Turms
open Turms.Spec

theorem clear_mono {s : Stmt} {held held' : List String} (h : Clear held s) (hs : ∀ x ∈ held', x ∈ held) : Clear held' s := by
  unfold Clear at h ⊢
  split at h
  · refine ⟨fun x hx hm => h.1 x hx (hs x hm), fun x hx hm => h.2 x hx ?_⟩
    rcases List.mem_cons.1 hm with rfl | hm
    · exact List.mem_cons_self
    · exact List.mem_cons_of_mem _ (hs x hm)
  · exact fun x hx hm => h x hx (hs x hm)

theorem unshadowed_mono {ss : List Stmt} : ∀ {held held' : List String}, Unshadowed held ss → (∀ x ∈ held', x ∈ held) →
    Unshadowed held' ss := by
  induction ss with
  | nil => intros; trivial
  | cons s ss ih =>
    intro held held' h hs
    refine ⟨clear_mono h.1 hs, ih h.2 ?_⟩
    intro x hx
    rcases List.mem_append.1 hx with hx | hx
    · exact List.mem_append_left _ hx
    · exact List.mem_append_right _ (hs x hx)

theorem unshadowed_append {a b : List Stmt} : ∀ {held : List String}, Unshadowed held (a ++ b) →
    Unshadowed held a ∧ Unshadowed (storedL a ++ held) b := by
  induction a with
  | nil => intro held h; exact ⟨trivial, h⟩
  | cons s a ih =>
    intro held h
    obtain ⟨h1, h2⟩ := ih h.2
    refine ⟨⟨h.1, h1⟩, unshadowed_mono h2 ?_⟩
    intro x hx
    simp only [storedL, List.flatMap_cons, List.mem_append] at hx ⊢
    tauto

theorem unshadowed_mem {ss : List Stmt} {s : Stmt} (hs : s ∈ ss) {held : List String} (h : Unshadowed held ss) : Clear [] s := by
  obtain ⟨a, b, rfl⟩ := List.append_of_mem hs
  exact clear_mono (unshadowed_append h).2.1 (by simp)

theorem evaluated_annAssign {n : String} {a v : Expr} : evaluated (.annAssign n a (some v)) = freeNames a ++ freeNames v := rfl

/-- no stored name is evaluated: nothing is hidden -/
theorem unshadowed_of_disjoint {body : List Stmt} : ∀ {held : List String}, (∀ x ∈ evaluatedL body, x ∉ storedL body) →
    (∀ x ∈ evaluatedL body, x ∉ held) → Unshadowed held body := by
  induction body with
  | nil => intros; trivial
  | cons s ss ih =>
    intro held h1 h2
    have e : ∀ x, x ∈ evaluatedL (s :: ss) ↔ x ∈ evaluated s ∨ x ∈ evaluatedL ss := fun x => List.mem_append
    have t : ∀ x, x ∈ storedL (s :: ss) ↔ x ∈ stored s ∨ x ∈ storedL ss := fun x => by
      simp [storedL]
    refine ⟨?_, ih (fun x hx hm => h1 x ((e x).2 (.inr hx)) ((t x).2 (.inr hm))) ?_⟩
    · unfold Clear
      split
      · rename_i n a v
        refine ⟨fun x hx => h2 x ((e x).2 (.inl (List.mem_append_right _ hx))), fun x hx hm => ?_⟩
        rcases List.mem_cons.1 hm with rfl | hm
        · exact h1 _ ((e _).2 (.inl (List.mem_append_left _ hx))) ((t _).2 (.inl (by simp [stored])))
        · exact h2 _ ((e _).2 (.inl (List.mem_append_left _ hx))) hm
      · exact fun x hx => h2 x ((e x).2 (.inl hx))
    · intro x hx hm
      rcases List.mem_append.1 hm with hm | hm
      · exact h1 x ((e x).2 (.inr hx)) ((t x).2 (.inl hm))
      · exact h2 x ((e x).2 (.inr hx)) hm

/-- what an annotated assignment with a value needs -/
theorem not_clear {n : String} {a v : Expr} (h : n ∈ freeNames a) : ¬ Clear [] (.annAssign n a (some v)) :=
  fun hc => hc.2 n h List.mem_cons_self

/-- the base annotation stays inside the annotation with metadata -/
theorem annotateFieldMetadata_free {env : Env} {a a' : Expr} {d : Option Expr} {dep : Option String} {r r' : Reg}
    (h : annotateFieldMetadata env a d dep r = .ok (a', r')) {x : String} (hx : x ∈ freeNames a) : x ∈ freeNames a' := by
  unfold annotateFieldMetadata at h
  obtain ⟨m1, r1, _, h⟩ := Gen.bind_ok.1 h
  obtain ⟨m2, r2, _, h⟩ := Gen.bind_ok.1 h
  split at h
  · obtain ⟨rfl, _⟩ := Gen.pure_ok.1 h; exact hx
  · obtain ⟨_, r3, _, h⟩ := Gen.bind_ok.1 h
    obtain ⟨rfl, _⟩ := Gen.pure_ok.1 h
    simp [sub, freeNames, freeNamesL, hx]

theorem optionalWrap_free {opt : Bool} {e e' : Expr} {r r' : Reg} (h : optionalWrap opt e r = .ok (e', r')) {x : String}
    (hx : x ∈ freeNames e) : x ∈ freeNames e' := by
  obtain ⟨rfl, _⟩ := optionalWrap_ok h
  cases opt
  · exact hx
  · simp [sub, freeNames, hx]

/-- the annotation of an input field mentions the Python type of its scalar -/
theorem inputAnnotation_free {c : Ctx} {parent py : String} {t : TypeNode} : ∀ {opt : Bool} {e : Expr} {r r' : Reg},
    inputAnnotation c parent t opt r = .ok (e, r') → c.schema.lookup t.base = some .scalar → r.scalarMap.get? t.base = some py →
    lastComponent py ∈ freeNames e := by
  induction t with
  | named n =>
    intro opt e r r' h hl hs
    unfold inputAnnotation at h
    obtain ⟨x, r1, h1, h⟩ := Gen.bind_ok.1 h
    refine optionalWrap_free h ?_
    simp only [TypeNode.base] at hl hs
    unfold inputLeaf at h1
    simp only [hl] at h1
    unfold referenceScalar at h1
    simp only [hs] at h1
    split at h1
    · split at h1
      · cases h1
      · cases h1; simp [freeNames]
    · cases h1; simp [freeNames]
  | list t ih =>
    intro opt e r r' h hl hs
    unfold inputAnnotation at h
    obtain ⟨_, r1, h1, h⟩ := Gen.bind_ok.1 h
    obtain ⟨x, r2, h2, h⟩ := Gen.bind_ok.1 h
    refine optionalWrap_free h ?_
    have := ih h2 hl (by rw [(frame_registerImport h1).1]; exact hs)
    unfold listBuilder
    split <;> simp [sub, freeNames, freeNamesL, this]
  | nonNull t ih =>
    intro opt e r r' h hl hs
    unfold inputAnnotation at h
    exact ih h hl hs

theorem inputFieldValue_some {fieldName key : String} {desc : Option String} {v : Option Expr} {r r' : Reg}
    (h : inputFieldValue fieldName key true desc r = .ok (v, r')) : ∃ x, v = some x := by
  unfold inputFieldValue at h
  split at h
  · obtain ⟨rfl, _⟩ := Gen.pure_ok.1 h; exact ⟨_, rfl⟩
  · obtain ⟨_, _, _, h⟩ := Gen.bind_ok.1 h
    obtain ⟨rfl, _⟩ := Gen.pure_ok.1 h; exact ⟨_, rfl⟩

/-- a field that may be omitted and is called like the Python type of its scalar hides it -/
theorem inputFieldStmts_hides {c : Ctx} {cls py : String} {f : InputFieldDef} {ss : List Stmt} {r r' : Reg}
    (h : inputFieldStmts c cls f r = .ok (ss, r')) (hl : c.schema.lookup f.type.base = some .scalar)
    (hs : r.scalarMap.get? f.type.base = some py) (hn : generateNodeName c.env.stylers f.name = .ok (lastComponent py))
    (ho : omittableField f = true) : ∃ s ∈ ss, ¬ Clear [] s := by
  unfold inputFieldStmts at h
  obtain ⟨attr, r1, h1, h⟩ := Gen.bind_ok.1 h
  obtain ⟨hname, rfl⟩ := Gen.lift_ok.1 h1
  obtain ⟨a, r2, h2, h⟩ := Gen.bind_ok.1 h
  obtain ⟨a', r3, h3, h⟩ := Gen.bind_ok.1 h
  obtain ⟨v, r4, h4, h⟩ := Gen.bind_ok.1 h
  rw [hn] at hname
  cases hname
  rw [ho] at h4 h2
  obtain ⟨v, rfl⟩ := inputFieldValue_some h4
  unfold inputFieldAnnotation at h2
  obtain ⟨b, r5, h5, h6⟩ := Gen.bind_ok.1 h2
  have := annotateFieldMetadata_free h3 (optionalWrap_free h6 (inputAnnotation_free h5 hl hs))
  refine ⟨.annAssign (lastComponent py) a' (some v), ?_, not_clear this⟩
  split at h
  · obtain ⟨rfl, _⟩ := Gen.pure_ok.1 h; simp
  · obtain ⟨rfl, _⟩ := Gen.pure_ok.1 h; simp

theorem inputFields_hides {c : Ctx} {cls py : String} {f : InputFieldDef} (hl : c.schema.lookup f.type.base = some .scalar)
    (hn : generateNodeName c.env.stylers f.name = .ok (lastComponent py)) (ho : omittableField f = true)
    {fs : List InputFieldDef} (hf : f ∈ fs) : ∀ {ss : List Stmt} {r r' : Reg}, Styled c.env r →
    inputFields c cls [] fs r = .ok (ss, r') → r.scalarMap.get? f.type.base = some py → ∃ s ∈ ss, ¬ Clear [] s := by
  induction fs with
  | nil => cases hf
  | cons g fs ih =>
    intro ss r r' hst h hs
    unfold inputFields at h
    obtain ⟨_, r1, h1, h⟩ := Gen.bind_ok.1 h
    obtain ⟨_, rfl⟩ := Gen.lift_ok.1 h1
    simp only [List.contains_nil, Bool.false_eq_true, if_false] at h
    obtain ⟨s1, r2, h2, h⟩ := Gen.bind_ok.1 h
    obtain ⟨s2, r3, h3, h⟩ := Gen.bind_ok.1 h
    obtain ⟨rfl, _⟩ := Gen.pure_ok.1 h
    rcases List.mem_cons.1 hf with rfl | hf
    · obtain ⟨s, hm, hc⟩ := inputFieldStmts_hides h2 hl hs hn ho
      exact ⟨s, List.mem_append_left _ hm, hc⟩
    · obtain ⟨soft, _⟩ := soft_inputFieldStmts hst h2
      obtain ⟨s, hm, hc⟩ := ih hf (hst.soft soft) h3 (by rw [soft.frame.1]; exact hs)
      exact ⟨s, List.mem_append_right _ hm, hc⟩

end Turms
