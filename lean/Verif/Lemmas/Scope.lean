import Verif.Spec.Scope
import Verif.Lemmas.Config

namespace Turms
open Spec

/-- only imports, helper bundles and forward references grow -/
structure Soft (r r' : Reg) : Prop where
  same : r' = { r with imports := r'.imports, builtins := r'.builtins, forwardReferences := r'.forwardReferences }
  imports : ∀ d ∈ r.imports, d ∈ r'.imports
  builtins : ∀ d ∈ r.builtins, d ∈ r'.builtins
  forwards : ∀ d ∈ r.forwardReferences, d ∈ r'.forwardReferences

theorem Soft.refl (r : Reg) : Soft r r := ⟨rfl, fun _ h => h, fun _ h => h, fun _ h => h⟩

theorem Soft.trans {a b c : Reg} (h1 : Soft a b) (h2 : Soft b c) : Soft a c := by
  refine ⟨?_, fun d h => h2.imports d (h1.imports d h), fun d h => h2.builtins d (h1.builtins d h),
    fun d h => h2.forwards d (h1.forwards d h)⟩
  rw [h2.same, h1.same]

theorem Soft.frame {a b : Reg} (h : Soft a b) : Frame a b := by
  rw [h.same]
  exact ⟨rfl, fun k => by cases k <;> rfl⟩

theorem Soft.external {a b : Reg} (h : Soft a b) {n : String} (hn : External a n) : External b n := by
  rcases hn with ⟨d, hd, rfl⟩ | hn | ⟨d, hd, hn⟩ | ⟨s, hs, hd⟩
  · exact .inl ⟨d, h.imports d hd, rfl⟩
  · exact .inr (.inl hn)
  · exact .inr (.inr (.inl ⟨d, h.builtins d hd, hn⟩))
  · exact .inr (.inr (.inr ⟨s, by rw [h.frame.1]; exact hs, hd⟩))

theorem Soft.registered {a b : Reg} (h : Soft a b) {n : String} : Registered b n ↔ Registered a n := by
  unfold Registered
  constructor
  · rintro ⟨k, t, ht⟩; exact ⟨k, t, by rw [← h.frame.2 k]; exact ht⟩
  · rintro ⟨k, t, ht⟩; exact ⟨k, t, by rw [h.frame.2 k]; exact ht⟩

theorem soft_registerImport {d : String} {r r' : Reg} {u : Unit} (h : registerImport d r = .ok (u, r')) :
    Soft r r' ∧ External r' (lastComponent d) := by
  unfold registerImport at h
  split at h
  · rename_i hd
    cases h
    refine ⟨Soft.refl _, .inr (.inl ?_)⟩
    simp only [neverImported, List.contains_eq_mem, List.mem_cons, List.not_mem_nil, or_false,
      decide_eq_true_eq] at hd
    rcases hd with rfl | rfl | rfl | rfl | rfl | rfl | rfl <;> decide +kernel
  · cases h
    refine ⟨⟨rfl, fun x hx => ?_, fun _ h => h, fun _ h => h⟩, .inl ⟨d, ?_, rfl⟩⟩
    · exact (mem_setAdd _ _ _).2 (.inl hx)
    · exact (mem_setAdd _ _ _).2 (.inr rfl)

theorem _root_.Turms.Spec.External.at {r : Reg} {a b : String} (h : External r a) (hab : a = b) : External r b := hab ▸ h

theorem soft_registerBuiltin {d : String} {r r' : Reg} {u : Unit} (h : registerBuiltin d r = .ok (u, r')) :
    Soft r r' ∧ ∀ n ∈ helperNames d, External r' n := by
  unfold registerBuiltin at h
  cases h
  exact ⟨⟨rfl, fun _ h => h, fun x hx => (mem_setAdd _ _ _).2 (.inl hx), fun _ h => h⟩,
    fun n hn => .inr (.inr (.inl ⟨d, (mem_setAdd _ _ _).2 (.inr rfl), hn⟩))⟩

theorem soft_addForward (r : Reg) (p : String) : Soft r (r.addForward p) :=
  ⟨rfl, fun _ h => h, fun _ h => h, fun _ h => (mem_setAdd _ _ _).2 (.inl h)⟩

theorem soft_lift {α : Type} {x : Except Err α} {a : α} {r r' : Reg} (h : Gen.lift x r = .ok (a, r')) : Soft r r' := by
  obtain ⟨_, rfl⟩ := Gen.lift_ok.1 h
  exact Soft.refl _

/-- every name of the expression can be evaluated by a class named `p` being defined now -/
def Uses (r r' : Reg) (p : String) (e : Expr) : Prop :=
  ∀ n ∈ freeNames e, External r' n ∨ (Registered r n ∧ n ≠ p)

theorem Uses.mono {r r1 r2 r3 : Reg} {p : String} {e : Expr} (h : Uses r1 r2 p e) (h1 : Soft r r1) (h2 : Soft r2 r3) :
    Uses r r3 p e := by
  intro n hn
  rcases h n hn with h | ⟨h, hp⟩
  · exact .inl (h2.external h)
  · exact .inr ⟨h1.registered.1 h, hp⟩

theorem uses_str (r r' : Reg) (p s : String) : Uses r r' p (.str s) := by
  intro n hn; simp [Expr.str, freeNames] at hn

theorem uses_name {r r' : Reg} {p n : String} (h : External r' n ∨ (Registered r n ∧ n ≠ p)) : Uses r r' p (.name n) := by
  intro m hm; simp [freeNames] at hm; subst hm; exact h

theorem uses_sub {r r' : Reg} {p f : String} {e : Expr} (hf : External r' f) (h : Uses r r' p e) :
    Uses r r' p (sub f e) := by
  intro n hn
  simp only [sub, freeNames, List.cons_append, List.nil_append, List.mem_cons] at hn
  rcases hn with rfl | hn
  · exact .inl hf
  · exact h n hn

theorem mem_freeNamesL {es : List Expr} {n : String} : n ∈ freeNamesL es ↔ ∃ e ∈ es, n ∈ freeNames e := by
  induction es with
  | nil => simp [freeNamesL]
  | cons e es ih => simp [freeNamesL, ih]

theorem mem_freeNamesK {ks : List (Option String × Expr)} {n : String} :
    n ∈ freeNamesK ks ↔ ∃ k ∈ ks, n ∈ freeNames k.2 := by
  induction ks with
  | nil => simp [freeNamesK]
  | cons e es ih => obtain ⟨k, e⟩ := e; simp [freeNamesK, ih]

theorem uses_tuple {r r' : Reg} {p : String} {es : List Expr} (h : ∀ e ∈ es, Uses r r' p e) : Uses r r' p (.tuple es) := by
  intro n hn
  simp only [freeNames, mem_freeNamesL] at hn
  obtain ⟨e, he, hn⟩ := hn
  exact h e he n hn

theorem soft_reference {env : Env} {k : Kind} {n p : String} {f : Bool} {r r' : Reg} {e : Expr}
    (hs : Styled env r) (h : reference env k n p f r = .ok (e, r')) : Soft r r' ∧ Uses r r' p e := by
  rcases reference_ok h with ⟨c, s, rfl, rfl, hc, hst, hp, hcs, _⟩ | ⟨_, rfl, _, _, rfl, _⟩ | ⟨_, _, rfl, rfl⟩
  · refine ⟨Soft.refl _, uses_name (.inr ?_)⟩
    rcases hcs with ⟨rfl, hm⟩ | ⟨_, rfl⟩
    · have := hs .input n c hm
      rw [hst] at this
      cases this
      exact ⟨⟨.input, n, hm⟩, hp.symm⟩
    · rw [Dict.contains_eq_isSome, Option.isSome_iff_exists] at hc
      obtain ⟨c', hc'⟩ := hc
      have := hs k n c' hc'
      rw [hst] at this
      cases this
      exact ⟨⟨k, n, hc'⟩, hp.symm⟩
  · exact ⟨soft_addForward _ _, uses_str _ _ _ _⟩
  · refine ⟨?_, uses_str _ _ _ _⟩
    have := (soft_addForward r p).trans (soft_registerBuiltin (d := n) (u := ()) rfl).1
    exact this

theorem soft_marker {o : Option String} {b l : String} {r r' : Reg} {e : Expr} (hb : l ∈ helperNames b)
    (h : referenceMarker o b l r = .ok (e, r')) : Soft r r' ∧ ∃ n, e = .name n ∧ External r' n := by
  rcases marker_ok h with ⟨_, rfl, rfl⟩ | ⟨d, _, _, rfl, hi⟩
  · obtain ⟨h1, h2⟩ := soft_registerBuiltin (d := b) (r := r) (u := ()) rfl
    exact ⟨h1, l, rfl, h2 l hb⟩
  · obtain ⟨h1, h2⟩ := soft_registerImport hi
    exact ⟨h1, _, rfl, h2⟩

theorem lastComponent_noDot {p : String} (h : hasDot p = false) : lastComponent p = p := by
  have key : ∀ l : List Char, '.' ∉ l → splitOnChar '.' l = [l] := by
    intro l
    induction l with
    | nil => intro _; rfl
    | cons c cs ih =>
      intro hn
      simp only [List.mem_cons, not_or] at hn
      rw [splitOnChar, if_neg (fun hh => hn.1 hh.symm), ih hn.2]
  unfold lastComponent
  rw [key p.toList (by simpa [hasDot] using h)]
  simp

theorem soft_scalar {n : String} {r r' : Reg} {e : Expr} (h : referenceScalar n r = .ok (e, r')) :
    Soft r r' ∧ ∃ x, e = .name x ∧ External r' x := by
  unfold referenceScalar at h
  split at h
  · cases h
  · rename_i p hp
    split at h
    · split at h
      · cases h
      · rename_i hi; cases h
        obtain ⟨h1, h2⟩ := soft_registerImport hi
        exact ⟨h1, _, rfl, h2⟩
    · rename_i hd
      cases h
      simp only [Bool.not_eq_true] at hd
      exact ⟨Soft.refl _, _, rfl, .inr (.inr (.inr ⟨n, by rw [lastComponent_noDot hd]; exact hp,
        by rw [lastComponent_noDot hd]; exact hd⟩))⟩

theorem soft_optionalWrap {b : Bool} {x e : Expr} {r0 r r' : Reg} {p : String} (h : optionalWrap b x r = .ok (e, r'))
    (hx : Uses r0 r p x) : Soft r r' ∧ Uses r0 r' p e := by
  unfold optionalWrap at h
  cases b with
  | false =>
    rw [if_neg (by simp)] at h
    obtain ⟨rfl, rfl⟩ := Gen.pure_ok.1 h
    exact ⟨Soft.refl _, hx⟩
  | true =>
    rw [if_pos rfl] at h
    obtain ⟨a, r1, h1, h2⟩ := Gen.bind_ok.1 h
    obtain ⟨rfl, rfl⟩ := Gen.pure_ok.1 h2
    obtain ⟨s1, s2⟩ := soft_registerImport h1
    exact ⟨s1, uses_sub (s2.at (by decide +kernel)) (hx.mono (Soft.refl _) s1)⟩


theorem soft_listImport {b : Bool} {r r' : Reg} {u : Unit} (h : listImport b r = .ok (u, r')) :
    Soft r r' ∧ External r' (if b then "Tuple" else "List") := by
  obtain ⟨h1, h2⟩ := soft_registerImport h
  refine ⟨h1, h2.at ?_⟩
  cases b <;> decide +kernel

theorem uses_listBuilder {b : Bool} {x : Expr} {r r' : Reg} {p : String}
    (hb : External r' (if b then "Tuple" else "List")) (hx : Uses r r' p x) : Uses r r' p (listBuilder b x) := by
  cases b
  · exact uses_sub hb hx
  · refine uses_sub hb (uses_tuple ?_)
    intro e he
    simp only [List.mem_cons, List.not_mem_nil, or_false] at he
    rcases he with rfl | rfl
    · exact hx
    · intro n hn; simp [freeNames] at hn

theorem Styled.soft {env : Env} {r r' : Reg} (h : Styled env r) (s : Soft r r') : Styled env r' := h.frame s.frame

theorem soft_inputLeaf {c : Ctx} {parent n : String} {r r' : Reg} {x : Expr} (hs : Styled c.env r)
    (h : inputLeaf c parent n r = .ok (x, r')) : Soft r r' ∧ Uses r r' parent x := by
  unfold inputLeaf at h
  cases hl : c.schema.lookup n with
  | none => simp [hl, Gen.fail] at h
  | some d =>
    rw [hl] at h
    cases d with
    | scalar => 
      obtain ⟨h1, n, rfl, h2⟩ := soft_scalar h
      exact ⟨h1, uses_name (.inl h2)⟩
    | enum => exact soft_reference (k := .enum) hs h
    | input => exact soft_reference (k := .input) hs h
    | object | interface | union => simp [Gen.fail] at h

theorem soft_inputAnnotation {c : Ctx} {parent : String} (t : TypeNode) : ∀ {b : Bool} {r r' : Reg} {e : Expr},
    Styled c.env r → inputAnnotation c parent t b r = .ok (e, r') → Soft r r' ∧ Uses r r' parent e := by
  induction t with
  | named n =>
    intro b r r' e hs h
    unfold inputAnnotation at h
    obtain ⟨x, r1, h1, h⟩ := Gen.bind_ok.1 h
    obtain ⟨s1, u1⟩ := soft_inputLeaf hs h1
    obtain ⟨s2, u2⟩ := soft_optionalWrap h u1
    exact ⟨s1.trans s2, u2⟩
  | nonNull t ih =>
    intro b r r' e hs h
    unfold inputAnnotation at h
    exact ih hs h
  | list t ih =>
    intro b r r' e hs h
    unfold inputAnnotation at h
    obtain ⟨_, r1, h1, h⟩ := Gen.bind_ok.1 h
    obtain ⟨x, r2, h2, h⟩ := Gen.bind_ok.1 h
    obtain ⟨s1, e1⟩ := soft_listImport h1
    obtain ⟨s2, u2⟩ := ih (hs.soft s1) h2
    obtain ⟨s3, u3⟩ := soft_optionalWrap h
      (uses_listBuilder (s2.external e1) (u2.mono s1 (Soft.refl _)))
    exact ⟨s1.trans (s2.trans s3), u3⟩

theorem soft_inputFieldAnnotation {c : Ctx} {parent : String} {t : TypeNode} {om : Bool} {r r' : Reg} {e : Expr}
    (hs : Styled c.env r) (h : inputFieldAnnotation c parent t om r = .ok (e, r')) :
    Soft r r' ∧ Uses r r' parent e := by
  unfold inputFieldAnnotation at h
  obtain ⟨x, r1, h1, h⟩ := Gen.bind_ok.1 h
  obtain ⟨s1, u1⟩ := soft_inputAnnotation t hs h1
  obtain ⟨s2, u2⟩ := soft_optionalWrap h u1
  exact ⟨s1.trans s2, u2⟩

theorem soft_markerCall {ref : Gen Expr} {o : Option Expr} {l : List Expr} {r r' : Reg}
    (href : ∀ {r r' e}, ref r = .ok (e, r') → Soft r r' ∧ ∃ n, e = .name n ∧ External r' n)
    (ho : ∀ e, o = some e → freeNames e = [])
    (h : markerCall ref o r = .ok (l, r')) : Soft r r' ∧ ∀ e ∈ l, ∀ n ∈ freeNames e, External r' n := by
  unfold markerCall at h
  cases o with
  | none =>
    obtain ⟨rfl, rfl⟩ := Gen.pure_ok.1 h
    exact ⟨Soft.refl _, by simp⟩
  | some d =>
    obtain ⟨f, r1, h1, h⟩ := Gen.bind_ok.1 h
    obtain ⟨rfl, rfl⟩ := Gen.pure_ok.1 h
    obtain ⟨s, n, rfl, hn⟩ := href h1
    refine ⟨s, ?_⟩
    intro e he m hm
    simp only [List.mem_cons, List.not_mem_nil, or_false] at he
    subst he
    simp [freeNames, freeNamesL, freeNamesK, ho d rfl] at hm
    exact hm ▸ hn

theorem soft_annotateFieldMetadata {env : Env} {a e : Expr} {d dep : Option String} {r0 r r' : Reg} {p : String}
    (h : annotateFieldMetadata env a (d.map Expr.str) dep r = .ok (e, r')) (ha : Uses r0 r p a) :
    Soft r r' ∧ Uses r0 r' p e := by
  unfold annotateFieldMetadata at h
  obtain ⟨m1, r1, h1, h⟩ := Gen.bind_ok.1 h
  obtain ⟨m2, r2, h2, h⟩ := Gen.bind_ok.1 h
  have hlit : ∀ (o : Option String) e, o.map Expr.str = some e → freeNames e = [] := by
    intro o e he
    cases o with
    | none => cases he
    | some o => cases he; simp [Expr.str, freeNames]
  obtain ⟨s1, e1⟩ := soft_markerCall (fun hh => soft_marker (by decide) hh) (hlit d) h1
  obtain ⟨s2, e2⟩ := soft_markerCall (fun hh => soft_marker (by decide) hh) (hlit dep) h2
  by_cases hm : (m1 ++ m2).isEmpty
  · rw [if_pos hm] at h
    obtain ⟨rfl, rfl⟩ := Gen.pure_ok.1 h
    exact ⟨s1.trans s2, ha.mono (Soft.refl _) (s1.trans s2)⟩
  · rw [if_neg hm] at h
    obtain ⟨_, r3, h3, h⟩ := Gen.bind_ok.1 h
    obtain ⟨rfl, rfl⟩ := Gen.pure_ok.1 h
    obtain ⟨s3, e3⟩ := soft_registerImport h3
    refine ⟨s1.trans (s2.trans s3), uses_sub (e3.at (by decide +kernel)) (uses_tuple ?_)⟩
    intro x hx
    rcases List.mem_cons.1 hx with rfl | hx
    · exact ha.mono (Soft.refl _) (s1.trans (s2.trans s3))
    · intro n hn
      rcases List.mem_append.1 hx with hx | hx
      · exact .inl ((s2.trans s3).external (e1 x hx n hn))
      · exact .inl (s3.external (e2 x hx n hn))

theorem soft_inputFieldValue {fieldName key : String} {om : Bool} {desc : Option String} {v : Option Expr}
    {r r' : Reg} (h : inputFieldValue fieldName key om desc r = .ok (v, r')) :
    Soft r r' ∧ ∀ n ∈ freeNamesO v, External r' n := by
  unfold inputFieldValue at h
  split at h
  · obtain ⟨rfl, rfl⟩ := Gen.pure_ok.1 h
    refine ⟨Soft.refl _, ?_⟩
    split <;> simp [freeNamesO, freeNames]
  · obtain ⟨_, r1, h1, h⟩ := Gen.bind_ok.1 h
    obtain ⟨rfl, rfl⟩ := Gen.pure_ok.1 h
    obtain ⟨s1, e1⟩ := soft_registerImport h1
    refine ⟨s1, ?_⟩
    intro n hn
    simp only [freeNamesO, freeNames, freeNamesL, List.cons_append, List.nil_append, List.mem_cons,
      mem_freeNamesK] at hn
    rcases hn with rfl | ⟨k, hk, hn⟩
    · exact e1.at (by decide +kernel)
    · exfalso
      simp only [List.mem_append] at hk
      rcases hk with (hk | hk) | hk <;> split at hk <;> simp at hk <;> subst hk <;>
        simp [Expr.str, freeNames] at hn

/-- names evaluated by a block of statements in a class being defined -/
def UsesL (r r' : Reg) (p : String) (ss : List Stmt) : Prop :=
  ∀ n ∈ evaluatedL ss, External r' n ∨ (Registered r n ∧ n ≠ p)

theorem evaluatedL_append (a b : List Stmt) : evaluatedL (a ++ b) = evaluatedL a ++ evaluatedL b := by
  induction a with
  | nil => rfl
  | cons s a ih => simp [evaluatedL, ih]

theorem UsesL.append {r r' : Reg} {p : String} {a b : List Stmt} (ha : UsesL r r' p a) (hb : UsesL r r' p b) :
    UsesL r r' p (a ++ b) := by
  intro n hn
  rw [evaluatedL_append] at hn
  rcases List.mem_append.1 hn with hn | hn
  · exact ha n hn
  · exact hb n hn

theorem UsesL.mono {r r1 r2 r3 : Reg} {p : String} {e : List Stmt} (h : UsesL r1 r2 p e) (h1 : Soft r r1) (h2 : Soft r2 r3) :
    UsesL r r3 p e := by
  intro n hn
  rcases h n hn with h | ⟨h, hp⟩
  · exact .inl (h2.external h)
  · exact .inr ⟨h1.registered.1 h, hp⟩

theorem usesL_nil (r r' : Reg) (p : String) : UsesL r r' p [] := by intro n hn; simp [evaluatedL] at hn

theorem usesL_comment (r r' : Reg) (p : String) (k : Const) : UsesL r r' p [.expr (.const k)] := by
  intro n hn; simp [evaluatedL, evaluated, freeNames] at hn

theorem usesL_annAssign {r r' : Reg} {p t : String} {a : Expr} {v : Option Expr} (ha : Uses r r' p a)
    (hv : ∀ n ∈ freeNamesO v, External r' n) : UsesL r r' p [.annAssign t a v] := by
  intro n hn
  simp only [evaluatedL, evaluated, List.append_nil, List.mem_append] at hn
  rcases hn with hn | hn
  · exact ha n hn
  · exact .inl (hv n hn)

theorem soft_inputFieldStmts {c : Ctx} {cls : String} {f : InputFieldDef} {ss : List Stmt} {r r' : Reg}
    (hs : Styled c.env r) (h : inputFieldStmts c cls f r = .ok (ss, r')) : Soft r r' ∧ UsesL r r' cls ss := by
  unfold inputFieldStmts at h
  obtain ⟨attr, r1, h1, h⟩ := Gen.bind_ok.1 h
  obtain ⟨a, r2, h2, h⟩ := Gen.bind_ok.1 h
  obtain ⟨a', r3, h3, h⟩ := Gen.bind_ok.1 h
  obtain ⟨v, r4, h4, h⟩ := Gen.bind_ok.1 h
  have s1 := soft_lift h1
  obtain ⟨s2, u2⟩ := soft_inputFieldAnnotation (hs.soft s1) h2
  obtain ⟨s3, u3⟩ := soft_annotateFieldMetadata h3 u2
  obtain ⟨s4, u4⟩ := soft_inputFieldValue h4
  have sall := s1.trans (s2.trans (s3.trans s4))
  have key := usesL_annAssign (t := attr) (u3.mono s1 s4) u4
  split at h <;> obtain ⟨rfl, rfl⟩ := Gen.pure_ok.1 h
  · refine ⟨sall, key.append ?_⟩
    split <;> exact usesL_comment _ _ _ _
  · exact ⟨sall, key⟩

theorem soft_inputFields {c : Ctx} {cls : String} {skip : List String} {fs : List InputFieldDef} :
    ∀ {ss : List Stmt} {r r' : Reg}, Styled c.env r → inputFields c cls skip fs r = .ok (ss, r') →
    Soft r r' ∧ UsesL r r' cls ss := by
  induction fs with
  | nil =>
    intro ss r r' hs h
    obtain ⟨rfl, rfl⟩ := Gen.pure_ok.1 h
    exact ⟨Soft.refl _, usesL_nil _ _ _⟩
  | cons f fs ih =>
    intro ss r r' hs h
    unfold inputFields at h
    obtain ⟨fieldName, r1, h1, h⟩ := Gen.bind_ok.1 h
    have s1 := soft_lift h1
    split at h
    · obtain ⟨s2, u2⟩ := ih (hs.soft s1) h
      exact ⟨s1.trans s2, u2.mono s1 (Soft.refl _)⟩
    · obtain ⟨s, r2, h2, h⟩ := Gen.bind_ok.1 h
      obtain ⟨rest, r3, h3, h⟩ := Gen.bind_ok.1 h
      obtain ⟨rfl, rfl⟩ := Gen.pure_ok.1 h
      obtain ⟨s2, u2⟩ := soft_inputFieldStmts (hs.soft s1) h2
      obtain ⟨s3, u3⟩ := ih (hs.soft (s1.trans s2)) h3
      exact ⟨s1.trans (s2.trans s3), (u2.mono s1 s3).append (u3.mono (s1.trans s2) (Soft.refl _))⟩

theorem soft_registerImports {bases : List String} : ∀ {r r' : Reg} {u : Unit},
    registerImports bases r = .ok (u, r') → Soft r r' ∧ ∀ b ∈ bases, External r' (lastComponent b) := by
  induction bases with
  | nil =>
    intro r r' u h
    obtain ⟨_, rfl⟩ := Gen.pure_ok.1 h
    exact ⟨Soft.refl _, by simp⟩
  | cons b bs ih =>
    intro r r' u h
    unfold registerImports at h
    obtain ⟨_, r1, h1, h⟩ := Gen.bind_ok.1 h
    obtain ⟨s1, e1⟩ := soft_registerImport h1
    obtain ⟨s2, e2⟩ := ih h
    refine ⟨s1.trans s2, ?_⟩
    intro x hx
    rcases List.mem_cons.1 hx with rfl | hx
    · exact s2.external e1
    · exact e2 x hx

theorem mem_baseNames {bases : List String} {n : String} (h : n ∈ freeNamesL (baseNames bases)) :
    ∃ b ∈ bases, n = lastComponent b := by
  obtain ⟨e, he, hn⟩ := mem_freeNamesL.1 h
  obtain ⟨b, hb, rfl⟩ := List.mem_map.1 he
  simp [freeNames] at hn
  exact ⟨b, hb, hn⟩

theorem soft_additionalBasesFor {c : Ctx} {tn : String} {r r' : Reg} {es : List Expr}
    (h : additionalBasesFor c tn r = .ok (es, r')) : Soft r r' ∧ ∀ n ∈ freeNamesL es, External r' n := by
  unfold additionalBasesFor at h
  cases hl : c.config.additionalBases.get? tn with
  | some bases =>
    rw [hl] at h
    obtain ⟨_, r1, h1, h⟩ := Gen.bind_ok.1 h
    obtain ⟨rfl, rfl⟩ := Gen.pure_ok.1 h
    obtain ⟨s1, e1⟩ := soft_registerImports h1
    refine ⟨s1, fun n hn => ?_⟩
    obtain ⟨b, hb, rfl⟩ := mem_baseNames hn
    exact e1 b hb
  | none =>
    rw [hl] at h
    obtain ⟨rfl, rfl⟩ := Gen.pure_ok.1 h
    exact ⟨Soft.refl _, by simp [freeNamesL]⟩

theorem soft_discriminatorStmts {ds : List Discriminator} :
    ∀ {ss : List Stmt} {r r' : Reg}, discriminatorStmts ds r = .ok (ss, r') →
    Soft r r' ∧ ∀ n ∈ evaluatedL ss, External r' n := by
  induction ds with
  | nil =>
    intro ss r r' h
    obtain ⟨rfl, rfl⟩ := Gen.pure_ok.1 h
    exact ⟨Soft.refl _, by simp [evaluatedL]⟩
  | cons f fs ih =>
    intro ss r r' h
    unfold discriminatorStmts at h
    obtain ⟨_, r1, h1, h⟩ := Gen.bind_ok.1 h
    obtain ⟨_, r2, h2, h⟩ := Gen.bind_ok.1 h
    obtain ⟨rest, r3, h3, h⟩ := Gen.bind_ok.1 h
    obtain ⟨rfl, rfl⟩ := Gen.pure_ok.1 h
    obtain ⟨s1, e1⟩ := soft_registerImport h1
    obtain ⟨s2, e2⟩ := soft_registerImport h2
    obtain ⟨s3, e3⟩ := ih h3
    refine ⟨s1.trans (s2.trans s3), fun n hn => ?_⟩
    rw [evaluatedL, List.mem_append] at hn
    rcases hn with hn | hn
    · simp [discriminatorStmt, evaluated, freeNames, freeNamesO, freeNamesK, freeNamesL, sub, Expr.str] at hn
      rcases hn with rfl | rfl
      · exact (s2.trans s3).external (e1.at (by decide +kernel))
      · exact s3.external (e2.at (by decide +kernel))
    · exact e3 n hn

mutual
theorem closed_expr : (d : PyDefault) → d.closed = true → freeNames d.expr = []
  | .none, _ => by simp [PyDefault.expr, freeNames]
  | .bool b, _ => by simp [PyDefault.expr, freeNames]
  | .str s, _ => by simp [PyDefault.expr, freeNames, Expr.str]
  | .int i, _ => by simp [PyDefault.expr, freeNames]
  | .float s, _ => by simp [PyDefault.expr, freeNames]
  | .list l, h => by
    simp only [PyDefault.expr, freeNames]
    exact closed_exprs l (by simpa [PyDefault.closed] using h)
  | .dict d, h => by
    have := closed_entries d (by simpa [PyDefault.closed] using h)
    simp [PyDefault.expr, freeNames, this.1, this.2]
  | .opaque s, h => by simp [PyDefault.closed] at h
theorem closed_exprs : (l : List PyDefault) → PyDefault.closedL l = true → freeNamesL (PyDefault.exprs l) = []
  | [], _ => by simp [PyDefault.exprs, freeNamesL]
  | x :: xs, h => by
    simp only [PyDefault.closedL, Bool.and_eq_true] at h
    simp [PyDefault.exprs, freeNamesL, closed_expr x h.1, closed_exprs xs h.2]
theorem closed_entries : (l : List (String × PyDefault)) → PyDefault.closedD l = true →
    freeNamesL (PyDefault.keyExprs l) = [] ∧ freeNamesL (PyDefault.valExprs l) = []
  | [], _ => by simp [PyDefault.keyExprs, PyDefault.valExprs, freeNamesL]
  | (k, x) :: xs, h => by
    simp only [PyDefault.closedD, Bool.and_eq_true] at h
    have := closed_entries xs h.2
    simp [PyDefault.keyExprs, PyDefault.valExprs, freeNamesL, freeNames, Expr.str, closed_expr x h.1, this.1, this.2]
end

theorem entries_closed {config : GenConfig} {g : GQLType} {tn : Option String} {k : String} {e : Expr} (v2 : Bool)
    (hp : PlainConfig config)
    (h : (k, e) ∈ (if v2 then configDictEntries config g tn else configClassEntries config g tn)) : freeNames e = [] := by
  rcases (mem_entries v2).1 h with ⟨_, rfl, _⟩ | ⟨ho, _⟩ | ⟨t, l, v, _, _, hl, hm, rfl⟩
  · simp [freeNames]
  · rcases ho with ⟨_, _, _, rfl⟩ | ⟨_, _, _, rfl⟩ | ⟨_, _, _, rfl⟩ | ⟨_, _, _, rfl⟩ | ⟨_, _, _, rfl⟩ |
      ⟨_, _, _, rfl⟩ <;> simp [freeNames]
  · exact closed_expr v (hp t l hl _ hm)

theorem soft_generatePydanticConfig {c : Ctx} {g : GQLType} {tn : Option String} {ss : List Stmt}
    {r r' : Reg} (hp : PlainConfig c.config) (h : generatePydanticConfig c g tn r = .ok (ss, r')) :
    Soft r r' ∧ ∀ n ∈ evaluatedL ss, External r' n := by
  unfold generatePydanticConfig at h
  split at h
  · unfold generateConfigDict at h
    split at h
    · obtain ⟨rfl, rfl⟩ := Gen.pure_ok.1 h
      exact ⟨Soft.refl _, by simp [evaluatedL]⟩
    · obtain ⟨_, r1, h1, h⟩ := Gen.bind_ok.1 h
      obtain ⟨rfl, rfl⟩ := Gen.pure_ok.1 h
      obtain ⟨s1, e1⟩ := soft_registerImport h1
      refine ⟨s1, fun n hn => ?_⟩
      simp only [evaluatedL, evaluated, freeNames, freeNamesL, List.append_nil, List.mem_append,
        List.mem_cons, List.not_mem_nil, or_false, mem_freeNamesK] at hn
      rcases hn with rfl | ⟨k, hk, hn⟩
      · exact e1.at (by decide +kernel)
      · obtain ⟨p, hpm, rfl⟩ := List.mem_map.1 hk
        have := entries_closed (k := p.1) (e := p.2) (g := g) (tn := tn) true hp (by simpa using hpm)
        simp [this] at hn
  · obtain ⟨rfl, rfl⟩ := Gen.pure_ok.1 h
    refine ⟨Soft.refl _, fun n hn => ?_⟩
    unfold generateConfigClass at hn
    dsimp only at hn
    split at hn
    · simp [evaluatedL] at hn
    · exfalso
      simp only [evaluatedL, evaluated, freeNamesL, List.append_nil, List.nil_append, Expr.str, freeNames] at hn
      have key : ∀ l : List (String × Expr), (∀ p ∈ l, freeNames p.2 = []) →
          evaluatedL (l.map fun p => Stmt.assign (.name p.1) p.2) = [] := by
        intro l
        induction l with
        | nil => intro _; rfl
        | cons p l ih =>
          intro hh
          simp only [List.map_cons, evaluatedL, evaluated]
          rw [hh p (by simp), ih (fun q hq => hh q (by simp [hq]))]
          rfl
      rw [key _ (fun p hpm => entries_closed (k := p.1) (e := p.2) (g := g) (tn := tn) false hp (by simpa using hpm))] at hn
      simp at hn

/-- a generated input class evaluates only known names -/
theorem soft_generateInputType {c : Ctx} {p : InputsConfig} {name tn : String} {desc : Option String}
    {fields : List InputFieldDef} {ds : List Discriminator} {s : Stmt} {r r' : Reg}
    (hs : Styled c.env r) (hp : PlainConfig c.config) (hb : ∀ b ∈ p.bases, External r (lastComponent b))
    (h : generateInputType c p name tn desc fields ds r = .ok (s, r')) :
    Soft r r' ∧ bound s = [name] ∧ (∀ n ∈ evaluated s, External r' n ∨ (Registered r n ∧ n ≠ name)) := by
  unfold generateInputType at h
  obtain ⟨extra, r1, h1, h⟩ := Gen.bind_ok.1 h
  obtain ⟨lits, r2, h2, h⟩ := Gen.bind_ok.1 h
  obtain ⟨fs, r3, h3, h⟩ := Gen.bind_ok.1 h
  obtain ⟨cfg, r4, h4, h⟩ := Gen.bind_ok.1 h
  obtain ⟨he, rfl⟩ := Gen.pure_ok.1 h
  subst he
  obtain ⟨s1, e1⟩ := soft_additionalBasesFor h1
  obtain ⟨s2, e2⟩ := soft_discriminatorStmts h2
  obtain ⟨s3, u3⟩ := soft_inputFields (hs.soft (s1.trans s2)) h3
  obtain ⟨s4, e4⟩ := soft_generatePydanticConfig hp h4
  have sall := s1.trans (s2.trans (s3.trans s4))
  refine ⟨sall, rfl, fun n hn => ?_⟩
  simp only [evaluated, freeNamesL, List.nil_append, List.mem_append, List.cons_append, evaluatedL, docOrDefault,
    Expr.str, freeNames, evaluatedL_append] at hn
  rcases hn with hn | ((hn | hn) | hn) | hn
  · obtain ⟨e, he, hn⟩ := mem_freeNamesL.1 hn
    rcases List.mem_append.1 he with he | he
    · exact .inl ((s2.trans (s3.trans s4)).external (e1 n (mem_freeNamesL.2 ⟨e, he, hn⟩)))
    · obtain ⟨b, hbm, rfl⟩ := mem_baseNames (mem_freeNamesL.2 ⟨e, he, hn⟩)
      exact .inl (sall.external (hb b hbm))
  · exact .inl ((s3.trans s4).external (e2 n hn))
  · exact (u3.mono (s1.trans s2) s4) n hn
  · exfalso
    split at hn <;> simp [evaluatedL, postInit, evaluated, freeNamesL, freeNamesO] at hn
  · exact .inl (e4 n hn)

end Turms
