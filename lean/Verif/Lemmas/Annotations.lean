import Verif.Spec.Annotations
import Verif.Lemmas.Registry

namespace Turms
open Spec

/-! ## sequencing in the generator monad -/

theorem Gen.bind_ok {α β : Type} {x : Gen α} {f : α → Gen β} {r r' : Reg} {b : β} :
    (x >>= f) r = .ok (b, r') ↔ ∃ a r1, x r = .ok (a, r1) ∧ f a r1 = .ok (b, r') := by
  change (StateT.bind x f) r = _ ↔ _
  unfold StateT.bind
  cases h : x r with
  | error e => simp [bind, Except.bind]
  | ok p =>
    obtain ⟨a, r1⟩ := p
    simp only [bind, Except.bind, Except.ok.injEq, Prod.mk.injEq]
    constructor
    · exact fun h => ⟨a, r1, ⟨rfl, rfl⟩, h⟩
    · rintro ⟨_, _, ⟨rfl, rfl⟩, h⟩; exact h

theorem Gen.pure_ok {α : Type} {a b : α} {r r' : Reg} :
    (pure a : Gen α) r = .ok (b, r') ↔ a = b ∧ r = r' := by
  change (Except.ok (a, r) : Except Err (α × Reg)) = _ ↔ _
  simp

theorem Gen.fail_ok {α : Type} {e : Err} {b : α} {r r' : Reg} :
    (Gen.fail e : Gen α) r = .ok (b, r') ↔ False := by
  simp [Gen.fail]

/-- nothing but imports, builtins and forward references changes -/
def Frame (r r' : Reg) : Prop :=
  r'.scalarMap = r.scalarMap ∧ ∀ k, r'.classMap k = r.classMap k

theorem Frame.refl (r : Reg) : Frame r r := ⟨rfl, fun _ => rfl⟩
theorem Frame.trans {a b c : Reg} (h1 : Frame a b) (h2 : Frame b c) : Frame a c :=
  ⟨h2.1.trans h1.1, fun k => (h2.2 k).trans (h1.2 k)⟩
theorem Frame.symm {a b : Reg} (h : Frame a b) : Frame b a := ⟨h.1.symm, fun k => (h.2 k).symm⟩

theorem frame_registerImport {d : String} {r r' : Reg} {u : Unit} (h : registerImport d r = .ok (u, r')) :
    Frame r r' := by
  unfold registerImport at h
  split at h <;> cases h
  · exact Frame.refl _
  · exact ⟨rfl, fun k => by cases k <;> rfl⟩

theorem frame_registerBuiltin {d : String} {r r' : Reg} {u : Unit} (h : registerBuiltin d r = .ok (u, r')) :
    Frame r r' := by
  unfold registerBuiltin at h
  cases h
  exact ⟨rfl, fun k => by cases k <;> rfl⟩

theorem registerImport_total (d : String) (r : Reg) : ∃ r', registerImport d r = .ok ((), r') := by
  unfold registerImport; split <;> exact ⟨_, rfl⟩

theorem frame_addForward (r : Reg) (p : String) : Frame r (r.addForward p) :=
  ⟨rfl, fun k => classMap_addForward r p k⟩

theorem frame_reference {env : Env} {k : Kind} {n p : String} {f : Bool} {r r' : Reg} {e : Expr}
    (h : reference env k n p f r = .ok (e, r')) : Frame r r' := by
  rcases reference_ok h with ⟨_, _, _, rfl, _⟩ | ⟨_, _, _, _, rfl, _⟩ | ⟨_, _, _, rfl⟩
  · exact Frame.refl _
  · exact frame_addForward _ _
  · exact ⟨rfl, fun k => by cases k <;> rfl⟩

theorem frame_marker {o : Option String} {b l : String} {r r' : Reg} {e : Expr}
    (h : referenceMarker o b l r = .ok (e, r')) : Frame r r' := by
  unfold referenceMarker at h
  split at h
  · split at h
    · split at h
      · cases h
      · rename_i hb; cases h; exact frame_registerBuiltin hb
    · split at h
      · cases h
      · rename_i hb; cases h; exact frame_registerImport hb
  · split at h
    · cases h
    · rename_i hb; cases h; exact frame_registerBuiltin hb

theorem referenceScalar_ok {n : String} {r r' : Reg} {e : Expr} (h : referenceScalar n r = .ok (e, r')) :
    ∃ c, scalarClass r n = some c ∧ e = .name c ∧ Frame r r' := by
  unfold referenceScalar at h
  split at h
  · cases h
  · rename_i p hp
    refine ⟨lastComponent p, by simp [scalarClass, hp], ?_⟩
    split at h
    · split at h
      · cases h
      · rename_i hi; cases h; exact ⟨rfl, frame_registerImport hi⟩
    · cases h; exact ⟨rfl, Frame.refl _⟩

theorem optionalWrap_ok {b : Bool} {x e : Expr} {r r' : Reg} (h : optionalWrap b x r = .ok (e, r')) :
    e = (if b then sub "Optional" x else x) ∧ Frame r r' := by
  unfold optionalWrap at h
  cases b with
  | false =>
    rw [if_neg (by simp)] at h
    obtain ⟨h1, h2⟩ := Gen.pure_ok.1 h
    subst h1 h2
    exact ⟨by simp, Frame.refl _⟩
  | true =>
    rw [if_pos rfl] at h
    obtain ⟨a, r1, h1, h2⟩ := Gen.bind_ok.1 h
    obtain ⟨h3, h4⟩ := Gen.pure_ok.1 h2
    subst h3 h4
    exact ⟨by simp, frame_registerImport h1⟩

/-! ## inversion of `Accepts` -/

section accepts
variable {W : World}

theorem accepts_optional {t : Expr} {v : Val} :
    Accepts W (sub "Optional" t) v ↔ v = .null ∨ Accepts W t v := by
  constructor
  · intro h
    unfold sub at h
    generalize hf : "Optional" = f at h
    cases h <;> first | exact .inl rfl | (rename_i h; exact .inr h) | (exact absurd hf (by decide))
  · rintro (rfl | h)
    · exact .optionalNone
    · exact .optionalSome h

theorem accepts_list {t : Expr} {v : Val} :
    Accepts W (sub "List" t) v ↔ ∃ l, v = .list l ∧ ∀ x ∈ l, Accepts W t x := by
  constructor
  · intro h
    unfold sub at h
    generalize hf : "List" = f at h
    cases h <;> first | (rename_i h; exact ⟨_, rfl, h⟩) | (exact absurd hf (by decide))
  · rintro ⟨l, rfl, h⟩
    exact .list h

theorem accepts_iterable {t : Expr} {v : Val} :
    Accepts W (sub "Iterable" t) v ↔ ∃ l, v = .list l ∧ ∀ x ∈ l, Accepts W t x := by
  constructor
  · intro h
    unfold sub at h
    generalize hf : "Iterable" = f at h
    cases h <;> first | (rename_i h; exact ⟨_, rfl, h⟩) | (exact absurd hf (by decide))
  · rintro ⟨l, rfl, h⟩
    exact .iterable h

theorem accepts_tuple {t : Expr} {v : Val} :
    Accepts W (sub "Tuple" (.tuple [t, .const .ellipsis])) v ↔ ∃ l, v = .list l ∧ ∀ x ∈ l, Accepts W t x := by
  constructor
  · intro h
    unfold sub at h
    generalize hf : "Tuple" = f at h
    cases h <;> first | (rename_i h; exact ⟨_, rfl, h⟩) | (exact absurd hf (by decide))
  · rintro ⟨l, rfl, h⟩
    exact .tuple h

theorem accepts_union {ts : List Expr} {v : Val} :
    Accepts W (sub "Union" (.tuple ts)) v ↔ ∃ t ∈ ts, Accepts W t v := by
  constructor
  · intro h
    unfold sub at h
    generalize hf : "Union" = f at h
    cases h <;> first | (rename_i h1 h2; exact ⟨_, h1, h2⟩) | (exact absurd hf (by decide))
  · rintro ⟨t, h1, h2⟩
    exact .union h1 h2

theorem accepts_annotated {t : Expr} {ms : List Expr} {v : Val} :
    Accepts W (sub "Annotated" (.tuple (t :: ms))) v ↔ Accepts W t v := by
  constructor
  · intro h
    unfold sub at h
    generalize hf : "Annotated" = f at h
    cases h <;> first | assumption | (exact absurd hf (by decide))
  · exact .annotated

theorem accepts_forward {n : String} {v : Val} :
    Accepts W (.str n) v ↔ Accepts W (.name n) v := by
  constructor
  · intro h
    unfold Expr.str at h
    cases h
    assumption
  · exact .forward

theorem accepts_listBuilder {b : Bool} {t : Expr} {v : Val} :
    Accepts W (listBuilder b t) v ↔ ∃ l, v = .list l ∧ ∀ x ∈ l, Accepts W t x := by
  cases b
  · exact accepts_list
  · exact accepts_tuple

end accepts

/-! ## the generic shape of all annotation functions -/

/-- A function that follows the recursion shared by all annotation generators. -/
structure Shape (W : World) (Inv : Reg → Prop) (N : String → Prop) (F : TypeNode → Bool → Gen Expr) (leaf : Reg → String → Val → Prop) : Prop where
  nonNull : ∀ t b, F (.nonNull t) b = F t false
  inv : ∀ r r', Inv r → Frame r r' → Inv r'
  list : ∀ t b r e r', Inv r → F (.list t) b r = .ok (e, r') → ∃ x y r1 r2, F t true r1 = .ok (x, r2) ∧
    Frame r r1 ∧ Frame r2 r' ∧ e = (if b then sub "Optional" y else y) ∧
    ∀ v, Accepts W y v ↔ ∃ l, v = .list l ∧ ∀ z ∈ l, Accepts W x z
  named : ∀ n b r e r', N n → Inv r → F (.named n) b r = .ok (e, r') → ∃ x, Frame r r' ∧
    e = (if b then sub "Optional" x else x) ∧ ∀ v, Accepts W x v ↔ leaf r n v
  stable : ∀ r r' n v, Frame r r' → (leaf r' n v ↔ leaf r n v)

theorem wrapped_accepts {W : World} {x : Expr} {P : Val → Prop} (hP : ¬ P .null)
    (h : ∀ v, Accepts W x v ↔ P v) (b : Bool) (v : Val) :
    Accepts W (if b then sub "Optional" x else x) v ↔
      (if b then v = .null ∨ P v else v ≠ .null ∧ (v = .null ∨ P v)) := by
  cases b
  · simp only [Bool.false_eq_true, if_false, h]
    constructor
    · intro hv
      exact ⟨fun e => hP (e ▸ hv), .inr hv⟩
    · rintro ⟨h1, h2 | h2⟩
      · exact absurd h2 h1
      · exact h2
  · simp [accepts_optional, h]

theorem Shape.sound {W : World} {Inv : Reg → Prop} {N : String → Prop} {F : TypeNode → Bool → Gen Expr}
    {leaf : Reg → String → Val → Prop} (S : Shape W Inv N F leaf) (t : TypeNode) (hN : N t.base) : ∀ (b : Bool) (r r' : Reg) (e : Expr), Inv r →
    F t b r = .ok (e, r') → ¬ leaf r t.base .null →
    Frame r r' ∧ ∀ v, Accepts W e v ↔
      (if b then Legal (leaf r) t v else v ≠ .null ∧ Legal (leaf r) t v) := by
  induction t with
  | named n =>
    intro b r r' e hi h hn
    obtain ⟨x, hf, rfl, hx⟩ := S.named _ _ _ _ _ hN hi h
    refine ⟨hf, fun v => ?_⟩
    rw [wrapped_accepts (P := leaf r n) hn hx]
    rfl
  | nonNull t ih =>
    intro b r r' e hi h hn
    rw [S.nonNull] at h
    obtain ⟨hf, hx⟩ := ih hN _ _ _ _ hi h hn
    refine ⟨hf, fun v => ?_⟩
    rw [hx]
    simp only [Bool.false_eq_true, if_false, Legal]
    cases b <;> simp
  | list t ih =>
    intro b r r' e hi h hn
    obtain ⟨x, y, r1, r2, hx, f1, f2, rfl, hy⟩ := S.list _ _ _ _ _ hi h
    have hn1 : ¬ leaf r1 t.base .null := fun hh => hn ((S.stable _ _ _ _ f1).1 hh)
    obtain ⟨f3, hx⟩ := ih hN _ _ _ _ (S.inv _ _ hi f1) hx hn1
    refine ⟨(f1.trans f3).trans f2, fun v => ?_⟩
    have hleaf : leaf r1 = leaf r := by
      funext n v; exact propext (S.stable _ _ _ _ f1)
    rw [wrapped_accepts (P := fun v => ∃ l, v = .list l ∧ ∀ z ∈ l, Legal (leaf r) t z)]
    · rfl
    · rintro ⟨l, h, _⟩; cases h
    · intro v
      rw [hy]
      simp only [hx, if_true, hleaf]

/-! ## leaves -/

/-- registered classes carry their styled name -/
def Styled (env : Env) (r : Reg) : Prop := ∀ k n c, (r.classMap k).get? n = some c → k.style env n = .ok c

theorem styled_stateAfter (env : Env) (ops : List Op) : Styled env (stateAfter env ops) :=
  fun k n c h => classMap_styled env ops k n c h

theorem Styled.frame {env : Env} {r r' : Reg} (h : Styled env r) (f : Frame r r') : Styled env r' :=
  fun k n c hc => h k n c (by rw [← f.2 k]; exact hc)

theorem reference_accepts {env : Env} {k : Kind} {n p : String} {f : Bool} {r r' : Reg} {e : Expr}
    (hs : Styled env r) (hk : k ≠ .enum) (h : reference env k n p f r = .ok (e, r')) :
    ∃ c, styledName env k n = some c ∧ (e = .name c ∨ e = .str c) ∧ Frame r r' := by
  have hf := frame_reference h
  rcases reference_ok h with ⟨c, s, rfl, rfl, hc, hst, _, hcs, _⟩ | ⟨c, rfl, _, hst, _⟩ | ⟨h1, _⟩
  · rcases hcs with ⟨rfl, hm⟩ | ⟨_, rfl⟩
    · have := hs .input n c hm
      exact ⟨c, by simp [styledName, this, Except.toOption], .inl rfl, hf⟩
    · exact ⟨c, by simp [styledName, hst, Except.toOption], .inl rfl, hf⟩
  · exact ⟨c, by simp [styledName, hst, Except.toOption], .inr rfl, hf⟩
  · exact absurd h1 hk

theorem referenceEnum_accepts {env : Env} {n p : String} {f : Bool} {r r' : Reg} {e : Expr}
    (h : referenceEnum env n p f r = .ok (e, r')) :
    ∃ c, enumClass env n = some c ∧ (e = .name c ∨ e = .str c) ∧ Frame r r' := by
  have h : reference env .enum n p f r = .ok (e, r') := h
  have hf := frame_reference h
  rcases reference_ok h with ⟨c, s, rfl, rfl, hc, hst, _, hcs, hb⟩ | ⟨c, rfl, _, hst, _, _, hb⟩ | ⟨_, hb, rfl, _⟩
  · rcases hcs with ⟨h1, _⟩ | ⟨_, rfl⟩
    · cases h1
    · refine ⟨c, ?_, .inl rfl, hf⟩
      have : n ∉ builtinNames := fun hh => hb ⟨rfl, hh⟩
      simp [enumClass, this, styledName, hst, Except.toOption]
  · refine ⟨c, ?_, .inr rfl, hf⟩
    have : n ∉ builtinNames := fun hh => hb ⟨rfl, hh⟩
    simp [enumClass, this, styledName, hst, Except.toOption]
  · exact ⟨n, by simp [enumClass, hb], .inr rfl, hf⟩

theorem referenceInterface_accepts {env : Env} {n p : String} {r r' : Reg} {e : Expr}
    (h : referenceInterface env n p r = .ok (e, r')) :
    ∃ c, styledName env .object n = some c ∧ (e = .name c ∨ e = .str c) ∧ Frame r r' := by
  unfold referenceInterface at h
  split at h
  · cases h
  · rename_i c hc
    cases h
    refine ⟨c, ?_, .inr rfl, frame_addForward _ _⟩
    have : Kind.style .object env n = .ok c := hc
    simp [styledName, this, Except.toOption]

theorem named_or_str {W : World} {e : Expr} {c : String} (h : e = .name c ∨ e = .str c) (v : Val) :
    Accepts W e v ↔ Accepts W (.name c) v := by
  rcases h with rfl | rfl
  · rfl
  · exact accepts_forward

theorem inst_iff {W : World} {cls : String → Option String} {n c : String} (h : cls n = some c) (v : Val) :
    Inst W cls n v ↔ Accepts W (.name c) v := by
  unfold Inst
  rw [h]
  constructor
  · rintro ⟨_, hc, hv⟩; cases hc; exact hv
  · exact fun hv => ⟨c, rfl, hv⟩

/-! ## the inputs plugin -/

theorem inputLeaf_ok {c : Ctx} {parent n : String} {r r' : Reg} {x : Expr} (hs : Styled c.env r)
    (h : inputLeaf c parent n r = .ok (x, r')) :
    ∃ cl, inputSideClass c r n = some cl ∧ (x = .name cl ∨ x = .str cl) ∧ Frame r r' := by
  unfold inputLeaf at h
  unfold inputSideClass
  cases hl : c.schema.lookup n with
  | none => simp [hl, Gen.fail] at h
  | some d =>
    rw [hl] at h
    cases d with
    | scalar =>
      obtain ⟨cl, h1, h2, h3⟩ := referenceScalar_ok h
      exact ⟨cl, h1, .inl h2, h3⟩
    | input => exact reference_accepts (k := .input) hs (by simp) h
    | enum => exact referenceEnum_accepts h
    | _ => simp [Gen.fail] at h

theorem scalarClass_frame {r r' : Reg} (f : Frame r r') (n : String) : scalarClass r' n = scalarClass r n := by
  unfold scalarClass; rw [f.1]

theorem inputSideClass_frame {c : Ctx} {r r' : Reg} (f : Frame r r') : inputSideClass c r' = inputSideClass c r := by
  funext n
  unfold inputSideClass
  split <;> simp [scalarClass_frame f]

theorem inputAnnotation_shape (W : World) (c : Ctx) (parent : String) :
    Shape W (Styled c.env) (fun _ => True) (inputAnnotation c parent) (fun r => Inst W (inputSideClass c r)) where
  nonNull t b := by funext r; rfl
  inv _ _ h f := h.frame f
  list t b r e r' hs h := by
    simp only [inputAnnotation] at h
    obtain ⟨u, r1, h1, h⟩ := Gen.bind_ok.1 h
    obtain ⟨x, r2, h2, h⟩ := Gen.bind_ok.1 h
    obtain ⟨he, hf⟩ := optionalWrap_ok h
    exact ⟨x, _, r1, r2, h2, frame_registerImport h1, hf, he, fun v => accepts_listBuilder⟩
  named n b r e r' hN hs h := by
    simp only [inputAnnotation] at h
    obtain ⟨x, r2, h2, h⟩ := Gen.bind_ok.1 h
    obtain ⟨he, hf⟩ := optionalWrap_ok h
    obtain ⟨cl, hc, hx, f1⟩ := inputLeaf_ok hs h2
    exact ⟨x, f1.trans hf, he, fun v => by rw [inst_iff hc, named_or_str hx]⟩
  stable r r' n v f := by
    rw [inputSideClass_frame f]

/-! ## variables -/

theorem registeredClass_frame {env : Env} {r r' : Reg} (f : Frame r r') :
    registeredClass env r' = registeredClass env r := by
  funext n
  unfold registeredClass
  rw [scalarClass_frame f, show r'.inputMap = r.inputMap from f.2 .input]

theorem referenceInput_noInput {env : Env} {n p s : String} {r : Reg}
    (h : referenceInput env n p false r = .error (.noInputTypeFound s)) :
    (r.inputMap.contains n = false ∨ Kind.input.style env n = .ok p) ∨
      Kind.input.style env n = .error (.noInputTypeFound s) := by
  unfold referenceInput at h
  split at h
  · rename_i e he
    cases h
    exact .inr he
  · rename_i c hc
    split at h
    · rename_i hcond
      left
      simp at hcond
      rcases hcond with hcond | rfl
      · exact .inl (by simpa using hcond)
      · exact .inr hc
    · split at h
      · rename_i hh hg
        simp only [Dict.get] at hg
        split at hg <;> cases hg
        cases h
      · cases h

theorem referenceNamed_ok {env : Env} {n : String} {r r' : Reg} {e : Expr} (hs : Styled env r)
    (hempty : Kind.input.style env n ≠ .ok "")
    (hno : ∀ s, Kind.input.style env n ≠ .error (.noInputTypeFound s))
    (h : referenceNamed env n r = .ok (e, r')) :
    ∃ c, registeredClass env r n = some c ∧ (e = .name c ∨ e = .str c) ∧ Frame r r' := by
  unfold referenceNamed at h
  split at h
  · rename_i s hsc
    have hns : scalarClass r n = none := by
      unfold referenceScalar at hsc
      split at hsc
      · rename_i hg; simp [scalarClass, hg]
      · split at hsc
        · split at hsc
          · rename_i hi
            obtain ⟨_, h2⟩ := registerImport_total _ r
            rw [h2] at hi
            cases hi
          · cases hsc
        · cases hsc
    split at h
    · rename_i s2 hin
      rcases referenceInput_noInput hin with (hni | hp) | hp
      · split at h
        · cases h
        · obtain ⟨c, hc, he, hf⟩ := referenceEnum_accepts h
          exact ⟨c, by simp [registeredClass, hns, hni, hc], he, hf⟩
      · exact absurd hp hempty
      · exact absurd hp (hno _)
    · obtain ⟨c, hc, he, hf⟩ := reference_accepts (k := .input) hs (by simp) h
      refine ⟨c, ?_, he, hf⟩
      have : r.inputMap.contains n = true := by
        rcases reference_ok (k := .input) h with ⟨_, _, _, _, hc, _⟩ | ⟨_, _, hff, _⟩ | ⟨h1, _⟩
        · exact hc
        · cases hff
        · cases h1
      simp [registeredClass, hns, this, hc]
  · rename_i hnn
    obtain ⟨c, hc, he, hf⟩ := referenceScalar_ok h
    exact ⟨c, by simp [registeredClass, hc], .inl he, hf⟩


theorem typeAnnotation_shape (W : World) (env : Env) :
    Shape W (Styled env) (fun n => Kind.input.style env n ≠ .ok "" ∧
      ∀ s, Kind.input.style env n ≠ .error (.noInputTypeFound s)) (recurseTypeAnnotation env none) (fun r => Inst W (registeredClass env r)) where
  nonNull t b := by funext r; rfl
  inv _ _ h f := h.frame f
  list t b r e r' hs h := by
    simp only [recurseTypeAnnotation] at h
    obtain ⟨u, r1, h1, h⟩ := Gen.bind_ok.1 h
    obtain ⟨x, r2, h2, h⟩ := Gen.bind_ok.1 h
    obtain ⟨he, hf⟩ := optionalWrap_ok h
    exact ⟨x, _, r1, r2, h2, frame_registerImport h1, hf, he, fun v => accepts_list⟩
  named n b r e r' hN hs h := by
    simp only [recurseTypeAnnotation, namedOr] at h
    obtain ⟨x, r2, h2, h⟩ := Gen.bind_ok.1 h
    obtain ⟨he, hf⟩ := optionalWrap_ok h
    obtain ⟨cl, hc, hx, f1⟩ := referenceNamed_ok hs hN.1 hN.2 h2
    exact ⟨x, f1.trans hf, he, fun v => by rw [inst_iff hc, named_or_str hx]⟩
  stable r r' n v f := by
    rw [registeredClass_frame f]

/-- with an override, the leaf is the override whatever the name -/
theorem overrideAnnotation_shape (W : World) (env : Env) (o : Expr) :
    Shape W (fun _ => True) (fun _ => True) (recurseTypeAnnotation env (some o)) (fun _ _ v => Accepts W o v) where
  nonNull t b := by funext r; rfl
  inv _ _ _ _ := trivial
  list t b r e r' hs h := by
    simp only [recurseTypeAnnotation] at h
    obtain ⟨u, r1, h1, h⟩ := Gen.bind_ok.1 h
    obtain ⟨x, r2, h2, h⟩ := Gen.bind_ok.1 h
    obtain ⟨he, hf⟩ := optionalWrap_ok h
    exact ⟨x, _, r1, r2, h2, frame_registerImport h1, hf, he, fun v => accepts_list⟩
  named n b r e r' hN hs h := by
    simp only [recurseTypeAnnotation, namedOr] at h
    obtain ⟨x, r2, h2, h⟩ := Gen.bind_ok.1 h
    obtain ⟨he, hf⟩ := optionalWrap_ok h
    obtain ⟨h3, h4⟩ := Gen.pure_ok.1 h2
    subst h3 h4
    exact ⟨_, hf, he, fun v => Iff.rfl⟩
  stable r r' n v f := Iff.rfl

/-! ## objects -/

theorem outputSideClass_frame {c : Ctx} {r r' : Reg} (f : Frame r r') :
    outputSideClass c r' = outputSideClass c r := by
  funext n
  unfold outputSideClass
  split <;> simp [scalarClass_frame f]

theorem objectLeaf_ok {c : Ctx} {parent n : String} {r r' : Reg} {x : Expr} (hs : Styled c.env r)
    (h : objectLeaf c parent n r = .ok (x, r')) :
    ∃ cl, outputSideClass c r n = some cl ∧ (x = .name cl ∨ x = .str cl) ∧ Frame r r' := by
  unfold objectLeaf at h
  unfold outputSideClass
  cases hl : c.schema.lookup n with
  | none => simp [hl, Gen.fail] at h
  | some d =>
    rw [hl] at h
    cases d with
    | scalar =>
      obtain ⟨cl, h1, h2, h3⟩ := referenceScalar_ok h
      exact ⟨cl, h1, .inl h2, h3⟩
    | interface => exact referenceInterface_accepts h
    | object => exact reference_accepts (k := .object) hs (by simp) h
    | enum => exact referenceEnum_accepts h
    | _ => simp [Gen.fail] at h

theorem objectMembers_ok {W : World} {c : Ctx} {parent : String} (ms : List String) : ∀ {r r' : Reg} {xs : List Expr},
    Styled c.env r → objectMembers c parent ms r = .ok (xs, r') →
    Frame r r' ∧ ∀ v, (∃ x ∈ xs, Accepts W x v) ↔ ∃ m ∈ ms, Inst W (outputSideClass c r) m v := by
  induction ms with
  | nil =>
    intro r r' xs hs h
    obtain ⟨rfl, rfl⟩ := Gen.pure_ok.1 h
    exact ⟨Frame.refl _, by simp⟩
  | cons m ms ih =>
    intro r r' xs hs h
    simp only [objectMembers] at h
    obtain ⟨x, r1, h1, h⟩ := Gen.bind_ok.1 h
    obtain ⟨ys, r2, h2, h⟩ := Gen.bind_ok.1 h
    obtain ⟨rfl, rfl⟩ := Gen.pure_ok.1 h
    obtain ⟨cl, hc, hx, f1⟩ := objectLeaf_ok hs h1
    obtain ⟨f2, hy⟩ := ih (hs.frame f1) h2
    refine ⟨f1.trans f2, fun v => ?_⟩
    rw [outputSideClass_frame f1] at hy
    simp only [List.mem_cons, exists_eq_or_imp, hy, named_or_str hx, inst_iff hc]

theorem outputInst_frame {W : World} {c : Ctx} {r r' : Reg} (f : Frame r r') :
    OutputInst W c r' = OutputInst W c r := by
  funext n v
  unfold OutputInst
  rw [outputSideClass_frame f]

theorem objectNamed_ok {W : World} {c : Ctx} {parent n : String} {r r' : Reg} {x : Expr} (hs : Styled c.env r)
    (h : objectNamed c parent n r = .ok (x, r')) :
    Frame r r' ∧ ∀ v, Accepts W x v ↔ OutputInst W c r n v := by
  have leafCase : objectLeaf c parent n r = .ok (x, r') →
      Frame r r' ∧ ∀ v, Accepts W x v ↔ Inst W (outputSideClass c r) n v := by
    intro h
    obtain ⟨cl, hc, hx, f1⟩ := objectLeaf_ok hs h
    exact ⟨f1, fun v => by rw [inst_iff hc, named_or_str hx]⟩
  unfold objectNamed at h
  unfold OutputInst
  cases hl : c.schema.lookup n with
  | none => rw [hl] at h; exact leafCase h
  | some d =>
    rw [hl] at h
    cases d with
    | union ms =>
      obtain ⟨u, r1, h1, h⟩ := Gen.bind_ok.1 h
      obtain ⟨xs, r2, h2, h⟩ := Gen.bind_ok.1 h
      obtain ⟨rfl, rfl⟩ := Gen.pure_ok.1 h
      have f1 := frame_registerImport h1
      obtain ⟨f2, hx⟩ := objectMembers_ok (W := W) ms (hs.frame f1) h2
      rw [outputSideClass_frame f1] at hx
      exact ⟨f1.trans f2, fun v => by rw [accepts_union, hx]⟩
    | _ => exact leafCase h

theorem objectAnnotation_shape (W : World) (c : Ctx) (parent : String) :
    Shape W (Styled c.env) (fun _ => True) (objectAnnotation c parent) (fun r => OutputInst W c r) where
  nonNull t b := by funext r; rfl
  inv _ _ h f := h.frame f
  list t b r e r' hs h := by
    simp only [objectAnnotation] at h
    obtain ⟨u, r1, h1, h⟩ := Gen.bind_ok.1 h
    obtain ⟨x, r2, h2, h⟩ := Gen.bind_ok.1 h
    cases b with
    | true =>
      rw [if_pos rfl] at h
      obtain ⟨he, hf⟩ := optionalWrap_ok h
      exact ⟨x, _, r1, r2, h2, frame_registerImport h1, hf, he, fun v => accepts_listBuilder⟩
    | false =>
      rw [if_neg (by simp)] at h
      obtain ⟨u, r3, h3, h⟩ := Gen.bind_ok.1 h
      obtain ⟨he, rfl⟩ := Gen.pure_ok.1 h
      exact ⟨x, _, r1, r2, h2, frame_registerImport h1, frame_registerImport h3, he.symm,
        fun v => accepts_listBuilder⟩
  named n b r e r' hN hs h := by
    simp only [objectAnnotation] at h
    obtain ⟨x, r2, h2, h⟩ := Gen.bind_ok.1 h
    obtain ⟨he, hf⟩ := optionalWrap_ok h
    obtain ⟨f1, hx⟩ := objectNamed_ok (W := W) hs h2
    exact ⟨x, f1.trans hf, he, hx⟩
  stable r r' n v f := by
    rw [outputInst_frame f]

/-! ## function parameters -/

theorem paramInst_frame {W : World} {c : Ctx} {co : Coercions} {r r' : Reg} (f : Frame r r') :
    ParamInst W c r' co = ParamInst W c r co := by
  funext n v
  unfold ParamInst
  rw [inputSideClass_frame f]

theorem coercibleInputUnion_ok {W : World} {x e : Expr} {p : String} {r r' : Reg}
    (h : coercibleInputUnion x p r = .ok (e, r')) :
    Frame r r' ∧ ∀ v, Accepts W e v ↔ Accepts W x v ∨ Accepts W (.name (lastComponent p)) v := by
  unfold coercibleInputUnion at h
  obtain ⟨_, r1, h1, h⟩ := Gen.bind_ok.1 h
  obtain ⟨_, r2, h2, h⟩ := Gen.bind_ok.1 h
  obtain ⟨rfl, rfl⟩ := Gen.pure_ok.1 h
  refine ⟨(frame_registerImport h1).trans (frame_registerImport h2), fun v => ?_⟩
  rw [accepts_union]
  simp

theorem paramLeaf_ok {W : World} {c : Ctx} {co : Coercions} {n : String} {r r' : Reg} {x : Expr}
    (hs : Styled c.env r) (h : paramLeaf c co n r = .ok (x, r')) :
    Frame r r' ∧ ∀ v, Accepts W x v ↔ ParamInst W c r co n v := by
  unfold paramLeaf at h
  unfold ParamInst
  cases hl : c.schema.lookup n with
  | none => simp [hl, Gen.fail] at h
  | some d =>
    rw [hl] at h
    cases d with
    | scalar =>
      dsimp only at h ⊢
      cases hp : co.scalars.get? n with
      | some p =>
        rw [hp] at h
        obtain ⟨_, r1, h1, h⟩ := Gen.bind_ok.1 h
        obtain ⟨rfl, rfl⟩ := Gen.pure_ok.1 h
        exact ⟨frame_registerImport h1, fun v => Iff.rfl⟩
      | none =>
        rw [hp] at h
        obtain ⟨cl, h1, rfl, h3⟩ := referenceScalar_ok h
        have hc : inputSideClass c r n = some cl := by simp [inputSideClass, hl, h1]
        exact ⟨h3, fun v => by dsimp only; rw [inst_iff hc]⟩
    | input =>
      obtain ⟨y, r1, h1, h⟩ := Gen.bind_ok.1 h
      obtain ⟨cl, hc, hy, f1⟩ := reference_accepts (k := .input) hs (by simp) h1
      have hc : inputSideClass c r n = some cl := by simp [inputSideClass, hl, hc]
      cases hp : co.inputs.get? n with
      | some p =>
        rw [hp] at h
        obtain ⟨f2, hx⟩ := coercibleInputUnion_ok (W := W) h
        refine ⟨f1.trans f2, fun v => ?_⟩
        dsimp only
        rw [hx, inst_iff hc, named_or_str hy]
        simp
      | none =>
        rw [hp] at h
        obtain ⟨rfl, rfl⟩ := Gen.pure_ok.1 h
        refine ⟨f1, fun v => ?_⟩
        dsimp only
        rw [inst_iff hc, named_or_str hy]
        simp
    | enum =>
      obtain ⟨cl, hc, hy, f1⟩ := referenceEnum_accepts h
      have hc : inputSideClass c r n = some cl := by simp [inputSideClass, hl, hc]
      exact ⟨f1, fun v => by dsimp only; rw [inst_iff hc, named_or_str hy]⟩
    | _ => simp [Gen.fail] at h

theorem paramAnnotation_shape (W : World) (c : Ctx) (co : Coercions) :
    Shape W (Styled c.env) (fun _ => True) (paramAnnotation c co) (fun r => ParamInst W c r co) where
  nonNull t b := by funext r; rfl
  inv _ _ h f := h.frame f
  list t b r e r' hs h := by
    simp only [paramAnnotation] at h
    obtain ⟨u, r1, h1, h⟩ := Gen.bind_ok.1 h
    obtain ⟨x, r2, h2, h⟩ := Gen.bind_ok.1 h
    obtain ⟨he, hf⟩ := optionalWrap_ok h
    exact ⟨x, _, r1, r2, h2, frame_registerImport h1, hf, he, fun v => accepts_iterable⟩
  named n b r e r' hN hs h := by
    simp only [paramAnnotation] at h
    obtain ⟨x, r2, h2, h⟩ := Gen.bind_ok.1 h
    obtain ⟨he, hf⟩ := optionalWrap_ok h
    obtain ⟨f1, hx⟩ := paramLeaf_ok (W := W) hs h2
    exact ⟨x, f1.trans hf, he, hx⟩
  stable r r' n v f := by
    rw [paramInst_frame f]

end Turms
