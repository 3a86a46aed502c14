import Verif.Lemmas.StillWalk
import Verif.Lemmas.ObjectsLoop
import Verif.Spec.UnionSpread

/-! # Walking selections: which names the generated classes evaluate -/

namespace Turms
open Spec

/-- the fragments that are spread, and those spread at a union of the schema -/
structure Places where
  schema : Schema
  spread : String → Prop
  union : String → Prop

/-- A class a spread of the fragment `f` can stand for: one generated for a type it applies to, or its own — unless it is
a registered fragment on an interface that is not spread at a union. -/
def UsableClass (S : Places) (r : Reg) (f n : String) : Prop :=
  (r.fragmentMap.get? f = some n ∧ (r.interfaceFragmentImpl.get? f = none ∨ S.union f ∨
    ∃ t, r.fragmentTypeMap.get? f = some t ∧ ¬ IsInterface S.schema t)) ∨
  (∃ m t, r.interfaceFragmentImpl.get? f = some m ∧ (t, n) ∈ m) ∨
  ∃ m t, r.unionFragmentMembers.get? f = some m ∧ (t, n) ∈ m

/-- names that can be evaluated by what a generator call from `r` to `r'` returns, if it spreads the
fragments `S` only; the names `X` are assumed to be available -/
def Avail (S : Places) (X : String → Prop) (r r' : Reg) (n : String) : Prop :=
  External r' n ∨ RegisteredType r n ∨ (∃ f, S.spread f ∧ UsableClass S r f n) ∨ X n

theorem Soft.usableClass {S : Places} {a b : Reg} (h : Soft a b) {f n : String} :
    UsableClass S b f n ↔ UsableClass S a f n := by
  rw [h.same]
  rfl

theorem Soft.fragmentClass {a b : Reg} (h : Soft a b) {f n : String} : FragmentClass b f n ↔ FragmentClass a f n := by
  rw [h.same]
  rfl

theorem Soft.registeredType {a b : Reg} (h : Soft a b) {n : String} : RegisteredType b n ↔ RegisteredType a n := by
  unfold RegisteredType
  simp only [h.frame.2]

theorem Avail.mono {S : Places} {X : String → Prop} {r r1 r2 r3 : Reg} {n : String} (h : Avail S X r1 r2 n) (h1 : Soft r r1)
    (h2 : Soft r2 r3) : Avail S X r r3 n := by
  rcases h with h | h | ⟨f, hf, h⟩ | h
  · exact .inl (h2.external h)
  · exact .inr (.inl (h1.registeredType.1 h))
  · exact .inr (.inr (.inl ⟨f, hf, h1.usableClass.1 h⟩))
  · exact .inr (.inr (.inr h))

/-- the result has the property for every environment that contains the available names -/
structure Scoped {α : Type} (env : Env) (S : Places) (X : String → Prop) (g : Gen α) (Q : (String → Prop) → α → Prop) : Prop where
  run : ∀ r a r', Styled env r → g r = .ok (a, r') → Soft r r' ∧ ∀ E : String → Prop, (∀ n, Avail S X r r' n → E n) → Q E a

section
variable {α β : Type} {env : Env} {S : Places} {X : String → Prop}

theorem Scoped.pure {a : α} {Q : (String → Prop) → α → Prop} (h : ∀ E, Q E a) : Scoped env S X (pure a : Gen α) Q := by
  constructor
  intro r b r' _ e
  obtain ⟨rfl, rfl⟩ := Gen.pure_ok.1 e
  exact ⟨Soft.refl _, fun E _ => h E⟩

theorem Scoped.fail {e : Err} {Q : (String → Prop) → α → Prop} : Scoped env S X (Gen.fail e : Gen α) Q :=
  ⟨fun _ _ _ _ h => (Gen.fail_ok.1 h).elim⟩

theorem Scoped.lift {x : Except Err α} {Q : (String → Prop) → α → Prop} (h : ∀ a E, x = .ok a → Q E a) :
    Scoped env S X (Gen.lift x) Q := by
  constructor
  intro r a r' _ e
  obtain ⟨hx, rfl⟩ := Gen.lift_ok.1 e
  exact ⟨Soft.refl _, fun E _ => h a E hx⟩

theorem Scoped.bind {x : Gen α} {f : α → Gen β} {P : (String → Prop) → α → Prop} {Q : (String → Prop) → β → Prop}
    (hx : Scoped env S X x P) (hf : ∀ a, Scoped env S X (f a) fun E b => P E a → Q E b) : Scoped env S X (x >>= f) Q := by
  constructor
  intro r b r' hs h
  obtain ⟨a, r1, h1, h2⟩ := Gen.bind_ok.1 h
  obtain ⟨s1, hp⟩ := hx.run r a r1 hs h1
  obtain ⟨s2, hq⟩ := (hf a).run r1 b r' (hs.soft s1) h2
  refine ⟨s1.trans s2, fun E hE => hq E (fun n hn => hE n (hn.mono s1 (Soft.refl _))) (hp E fun n hn => ?_)⟩
  exact hE n (hn.mono (Soft.refl _) s2)

theorem Scoped.mono {x : Gen α} {P Q : (String → Prop) → α → Prop} (hx : Scoped env S X x P)
    (h : ∀ E a, P E a → Q E a) : Scoped env S X x Q :=
  ⟨fun r a r' hs e => ⟨(hx.run r a r' hs e).1, fun E hE => h E a ((hx.run r a r' hs e).2 E hE)⟩⟩

theorem Scoped.ite {p : Prop} [Decidable p] {x y : Gen α} {Q : (String → Prop) → α → Prop}
    (hx : p → Scoped env S X x Q) (hy : ¬ p → Scoped env S X y Q) : Scoped env S X (if p then x else y) Q := by
  split
  · exact hx ‹_›
  · exact hy ‹_›

/-- from a lemma about one run -/
theorem Scoped.of {g : Gen α} {Q : (String → Prop) → α → Prop} {P : Reg → Reg → α → Prop}
    (h : ∀ {r a r'}, Styled env r → g r = .ok (a, r') → Soft r r' ∧ P r r' a)
    (hq : ∀ r r' a (E : String → Prop), P r r' a → (∀ n, Avail S X r r' n → E n) → Q E a) : Scoped env S X g Q :=
  ⟨fun r a r' hs e => ⟨(h hs e).1, fun E hE => hq r r' a E (h hs e).2 hE⟩⟩

/-! ## names, bodies, statements -/

/-- all names of the expression are in the environment -/
def NamesIn (E : String → Prop) (e : Expr) : Prop := ∀ n ∈ freeNames e, E n
/-- of a list -/
def NamesInL (E : String → Prop) (es : List Expr) : Prop := ∀ n ∈ freeNamesL es, E n
/-- all names a block evaluates are in the environment -/
def BodyIn (E : String → Prop) (ss : List Stmt) : Prop := ∀ n ∈ evaluatedL ss, E n

theorem NamesInL.append {E : String → Prop} {a b : List Expr} (ha : NamesInL E a) (hb : NamesInL E b) :
    NamesInL E (a ++ b) := by
  intro n hn
  obtain ⟨e, he, hn⟩ := mem_freeNamesL.1 hn
  rcases List.mem_append.1 he with he | he
  · exact ha n (mem_freeNamesL.2 ⟨e, he, hn⟩)
  · exact hb n (mem_freeNamesL.2 ⟨e, he, hn⟩)

theorem namesInL_names {E : String → Prop} {l : List String} (h : ∀ n ∈ l, E n) : NamesInL E (names l) := by
  intro n hn
  obtain ⟨e, he, hn⟩ := mem_freeNamesL.1 hn
  obtain ⟨m, hm, rfl⟩ := List.mem_map.1 he
  simp only [freeNames, List.mem_singleton] at hn
  exact hn ▸ h m hm

theorem namesIn_sub {E : String → Prop} {f : String} {e : Expr} (hf : E f) (h : NamesIn E e) : NamesIn E (sub f e) := by
  intro n hn
  simp only [sub, freeNames, List.cons_append, List.nil_append, List.mem_cons] at hn
  rcases hn with rfl | hn
  · exact hf
  · exact h n hn

theorem namesIn_name {E : String → Prop} {n : String} (h : E n) : NamesIn E (.name n) := by
  intro m hm
  simp only [freeNames, List.mem_singleton] at hm
  exact hm ▸ h

theorem NamesIn.mono {E E' : String → Prop} {e : Expr} (h : NamesIn E e) (hE : ∀ n, E n → E' n) : NamesIn E' e :=
  fun n hn => hE n (h n hn)

theorem BodyIn.append {E : String → Prop} {a b : List Stmt} (ha : BodyIn E a) (hb : BodyIn E b) : BodyIn E (a ++ b) := by
  intro n hn
  rw [evaluatedL_append] at hn
  rcases List.mem_append.1 hn with hn | hn
  · exact ha n hn
  · exact hb n hn

theorem BodyIn.nil {E : String → Prop} : BodyIn E [] := by intro n hn; simp [evaluatedL] at hn

theorem BodyIn.cons {E : String → Prop} {s : Stmt} {b : List Stmt} (ha : ∀ n ∈ evaluated s, E n) (hb : BodyIn E b) :
    BodyIn E (s :: b) := by
  intro n hn
  rw [evaluatedL] at hn
  rcases List.mem_append.1 hn with hn | hn
  · exact ha n hn
  · exact hb n hn

theorem BodyIn.mono {E E' : String → Prop} {e : List Stmt} (h : BodyIn E e) (hE : ∀ n, E n → E' n) : BodyIn E' e :=
  fun n hn => hE n (h n hn)

theorem mem_evaluatedL {ss : List Stmt} {n : String} : n ∈ evaluatedL ss ↔ ∃ s ∈ ss, n ∈ evaluated s := by
  induction ss with
  | nil => simp [evaluatedL]
  | cons s ss ih => simp [evaluatedL, ih]

theorem bodyIn_flatten {E : String → Prop} {l : List (List Stmt)} (h : ∀ b ∈ l, BodyIn E b) : BodyIn E l.flatten := by
  intro n hn
  obtain ⟨s, hs, hn⟩ := mem_evaluatedL.1 hn
  obtain ⟨b, hb, hs⟩ := List.mem_flatten.1 hs
  exact h b hb n (mem_evaluatedL.2 ⟨s, hs, hn⟩)

theorem classDef_in {E : String → Prop} {n : String} {bs : List Expr} {body : List Stmt} (hb : NamesInL E bs)
    (hbody : BodyIn E body) : ∀ m ∈ evaluated (.classDef n bs body []), E m := by
  intro m hm
  simp only [evaluated, freeNamesL, List.nil_append, List.mem_append] at hm
  rcases hm with hm | hm
  · exact hb m hm
  · exact hbody m hm

theorem docStmt_in {E : String → Prop} (d : Option String) : ∀ n ∈ evaluated (docStmt d), E n := by
  intro n hn; simp [docStmt, evaluated, Expr.str, freeNames] at hn

/-- the environment extended by what the statements bind -/
def Plus (E : String → Prop) (ss : List Stmt) (n : String) : Prop := E n ∨ n ∈ boundL ss

theorem _root_.Turms.Spec.Resolves.mono {E E' : String → Prop} {ss : List Stmt} (h : Resolves E ss)
    (hE : ∀ n, E n → E' n) : Resolves E' ss := by
  induction ss generalizing E E' with
  | nil => trivial
  | cons s ss ih =>
    refine ⟨fun n hn => hE n (h.1 n hn), ih h.2 fun n hn => ?_⟩
    rcases hn with hn | hn
    · exact .inl (hE n hn)
    · exact .inr hn

theorem mem_boundL {ss : List Stmt} {n : String} : n ∈ boundL ss ↔ ∃ s ∈ ss, n ∈ bound s := by
  unfold boundL; rw [List.mem_flatMap]

theorem boundL_append (a b : List Stmt) : boundL (a ++ b) = boundL a ++ boundL b := by simp [boundL]

theorem resolves_join {E : String → Prop} {a b : List Stmt} :
    Resolves E (a ++ b) ↔ Resolves E a ∧ Resolves (Plus E a) b := by
  rw [resolves_append]
  have : (fun n => E n ∨ ∃ s ∈ a, n ∈ bound s) = Plus E a := by
    funext n
    simp [Plus, mem_boundL]
  rw [this]

theorem resolves_single {E : String → Prop} {s : Stmt} (h : ∀ n ∈ evaluated s, E n) : Resolves E [s] := ⟨h, trivial⟩

theorem Plus.left {E : String → Prop} {ss : List Stmt} {n : String} (h : E n) : Plus E ss n := .inl h
theorem Plus.append_left {E : String → Prop} {a b : List Stmt} {n : String} (h : Plus E a n) : Plus E (a ++ b) n := by
  rcases h with h | h
  · exact .inl h
  · exact .inr (by rw [boundL_append]; exact List.mem_append_left _ h)
theorem Plus.append_right {E : String → Prop} {a b : List Stmt} {n : String} (h : Plus E b n) : Plus E (a ++ b) n := by
  rcases h with h | h
  · exact .inl h
  · exact .inr (by rw [boundL_append]; exact List.mem_append_right _ h)

theorem Resolves.join {E : String → Prop} {a b : List Stmt} (ha : Resolves E a) (hb : Resolves E b) : Resolves E (a ++ b) :=
  resolves_join.2 ⟨ha, hb.mono fun _ h => .inl h⟩

/-! ## leaves -/

theorem scoped_registerImport {d n : String} (hn : lastComponent d = n) :
    Scoped env S X (registerImport d) fun E _ => E n :=
  Scoped.of (P := fun _ r' _ => External r' n) (fun _ h => by
      obtain ⟨s, e⟩ := soft_registerImport h
      exact ⟨s, e.at hn⟩)
    fun _ _ _ _ h hE => hE _ (.inl h)

theorem scoped_registerImports {bs : List String} :
    Scoped env S X (registerImports bs) fun E _ => NamesInL E (baseNames bs) :=
  Scoped.of (P := fun _ r' _ => ∀ b ∈ bs, External r' (lastComponent b)) (fun _ h => soft_registerImports h)
    fun _ _ _ _ h hE n hn => by
      obtain ⟨b, hb, rfl⟩ := mem_baseNames hn
      exact hE _ (.inl (h b hb))

theorem scoped_optionalWrap {o : Bool} {x : Expr} :
    Scoped env S X (optionalWrap o x) fun E e => NamesIn E x → NamesIn E e := by
  unfold optionalWrap
  refine .ite (fun _ => ?_) (fun _ => .pure fun _ h => h)
  refine (scoped_registerImport (n := "Optional") (by decide +kernel)).bind fun _ => .pure fun _ h hx => namesIn_sub h hx

/-- `optionalWrap` when the names may also be bound by classes emitted before -/
theorem scoped_optionalWrap' {o : Bool} {x : Expr} {ss : List Stmt} :
    Scoped env S X (optionalWrap o x) fun E e => NamesIn (Plus E ss) x → NamesIn (Plus E ss) e := by
  unfold optionalWrap
  refine .ite (fun _ => ?_) (fun _ => .pure fun _ h => h)
  refine (scoped_registerImport (n := "Optional") (by decide +kernel)).bind fun _ => .pure fun _ h hx =>
    namesIn_sub (.inl h) hx

theorem scoped_additionalBasesFor {c : Ctx} {t : String} : Scoped env S X (additionalBasesFor c t) NamesInL :=
  Scoped.of (P := fun _ r' es => ∀ n ∈ freeNamesL es, External r' n) (fun _ h => soft_additionalBasesFor h)
    fun _ _ _ _ h hE n hn => hE n (.inl (h n hn))

theorem scoped_interfaceBasesOf {c : Ctx} : Scoped env S X (interfaceBasesOf c) NamesInL := by
  unfold interfaceBasesOf
  exact scoped_registerImports.bind fun _ => .pure fun _ h => h

theorem scoped_generatePydanticConfig {c : Ctx} {g : GQLType} {t : Option String} (hp : PlainConfig c.config) :
    Scoped env S X (generatePydanticConfig c g t) BodyIn :=
  Scoped.of (P := fun _ r' ss => ∀ n ∈ evaluatedL ss, External r' n) (fun _ h => soft_generatePydanticConfig hp h)
    fun _ _ _ _ h hE n hn => hE n (.inl (h n hn))

theorem scoped_referenceScalar {n : String} : Scoped env S X (referenceScalar n) NamesIn :=
  Scoped.of (P := fun _ r' e => ∃ x, e = .name x ∧ External r' x) (fun _ h => soft_scalar h)
    fun _ _ _ _ h hE => by
      obtain ⟨x, rfl, h⟩ := h
      exact namesIn_name (hE x (.inl h))

theorem soft_referenceType {k : Kind} {n p : String} {f : Bool} {r r' : Reg} {e : Expr} (hk : k = .enum ∨ k = .input)
    (hs : Styled env r) (h : reference env k n p f r = .ok (e, r')) :
    Soft r r' ∧ ∀ m ∈ freeNames e, RegisteredType r m := by
  refine ⟨(soft_reference hs h).1, ?_⟩
  rcases reference_ok h with ⟨c, s, rfl, rfl, hc, hst, hp, hcs, _⟩ | ⟨_, rfl, _⟩ | ⟨_, _, rfl, rfl⟩
  · intro m hm
    simp only [freeNames, List.mem_singleton] at hm
    subst hm
    rcases hcs with ⟨rfl, hm⟩ | ⟨_, rfl⟩
    · exact ⟨.input, n, hk, hm⟩
    · rw [Dict.contains_eq_isSome, Option.isSome_iff_exists] at hc
      obtain ⟨c', hc'⟩ := hc
      have := hs k n c' hc'
      rw [hst] at this
      cases this
      exact ⟨k, n, hk, hc'⟩
  · intro m hm; simp [Expr.str, freeNames] at hm
  · intro m hm; simp [Expr.str, freeNames] at hm

theorem scoped_referenceEnum {n p : String} {f : Bool} : Scoped env S X (referenceEnum env n p f) NamesIn :=
  Scoped.of (P := fun r _ e => ∀ m ∈ freeNames e, RegisteredType r m)
    (fun hs h => soft_referenceType (k := .enum) (by simp) hs h)
    fun _ _ _ _ h hE m hm => hE m (.inr (.inl (h m hm)))

theorem scoped_referenceInput {n p : String} {f : Bool} : Scoped env S X (referenceInput env n p f) NamesIn :=
  Scoped.of (P := fun r _ e => ∀ m ∈ freeNames e, RegisteredType r m)
    (fun hs h => soft_referenceType (k := .input) (by simp) hs h)
    fun _ _ _ _ h hE m hm => hE m (.inr (.inl (h m hm)))

/-- the own class of a fragment may be used -/
def OwnUsable (S : Places) (r : Reg) (f : String) : Prop :=
  r.interfaceFragmentImpl.get? f = none ∨ S.union f ∨ ∃ t, r.fragmentTypeMap.get? f = some t ∧ ¬ IsInterface S.schema t

theorem run_referenceFragment {f p : String} {b : Bool} {r r' : Reg} {e : Expr} (hs : Styled env r)
    (ho : OwnUsable S r f) (h : referenceGeneric env .fragment f p b r = .ok (e, r')) :
    Soft r r' ∧ ∀ m ∈ freeNames e, UsableClass S r f m := by
  have h' : reference env .fragment f p b r = .ok (e, r') := h
  refine ⟨(soft_reference hs h').1, ?_⟩
  rcases reference_ok h' with ⟨c, s, rfl, rfl, hc, hst, hp, hcs, _⟩ | ⟨_, rfl, _⟩ | ⟨h, _⟩
  · intro m hm
    simp only [freeNames, List.mem_singleton] at hm
    subst hm
    rcases hcs with ⟨h, _⟩ | ⟨_, rfl⟩
    · cases h
    · rw [Dict.contains_eq_isSome, Option.isSome_iff_exists] at hc
      obtain ⟨c', hc'⟩ := hc
      have := hs .fragment f c' hc'
      rw [hst] at this
      cases this
      exact .inl ⟨hc', ho⟩
  · intro m hm; simp [Expr.str, freeNames] at hm
  · cases h

theorem run_inheritFragment {f : String} {r r' : Reg} {n : String} (ho : OwnUsable S r f)
    (h : inheritFragment f r = .ok (n, r')) : r' = r ∧ UsableClass S r f n := by
  unfold inheritFragment at h
  cases hg : r.fragmentMap.get? f with
  | none => rw [hg] at h; cases h
  | some c => rw [hg] at h; cases h; exact ⟨rfl, .inl ⟨hg, ho⟩⟩

theorem scoped_inheritFragment {f : String} (hf : S.spread f) (hu : S.union f) :
    Scoped env S X (inheritFragment f) fun E n => E n :=
  Scoped.of (P := fun r _ n => UsableClass S r f n)
    (fun {r e r'} _ h => by
      obtain ⟨rfl, h⟩ := run_inheritFragment (.inr (.inl hu)) h
      exact ⟨Soft.refl _, h⟩)
    fun _ _ _ _ h hE => hE _ (.inr (.inr (.inl ⟨f, hf, h⟩)))

theorem run_interfaceImpl {f t : String} {r r' : Reg} {o : Option String} (ht : ¬ IsInterface S.schema t)
    (h : getInterfaceFragmentImplementationOrNone f t r = .ok (o, r')) :
    r' = r ∧ ((∃ n, o = some n ∧ UsableClass S r f n) ∨ (o = none ∧ OwnUsable S r f)) := by
  unfold getInterfaceFragmentImplementationOrNone at h
  cases hg : r.interfaceFragmentImpl.get? f with
  | none => rw [hg] at h; cases h; exact ⟨rfl, .inr ⟨rfl, .inl hg⟩⟩
  | some m =>
    rw [hg] at h
    dsimp only at h
    cases hm : m.get? t with
    | some cl =>
      rw [hm] at h
      cases h
      exact ⟨rfl, .inl ⟨cl, rfl, .inr (.inl ⟨m, t, hg, Dict.mem_of_get? hm⟩)⟩⟩
    | none =>
      rw [hm] at h
      dsimp only at h
      cases hy : r.fragmentTypeMap.get? f with
      | none => rw [hy] at h; cases h
      | some t' =>
        rw [hy] at h
        dsimp only at h
        split at h
        · rename_i he
          cases h
          exact ⟨rfl, .inr ⟨rfl, .inr (.inr ⟨t', hy, he ▸ ht⟩)⟩⟩
        · cases h

theorem scoped_spreadBase {f t : String} (hf : S.spread f) (ht : ¬ IsInterface S.schema t) :
    Scoped env S X (spreadBase f t) fun E n => E n := by
  constructor
  intro r a r' hs h
  unfold spreadBase at h
  obtain ⟨o, r1, h1, h⟩ := Gen.bind_ok.1 h
  obtain ⟨rfl, ⟨n, rfl, hn⟩ | ⟨rfl, ho⟩⟩ := run_interfaceImpl ht h1
  · obtain ⟨rfl, rfl⟩ := Gen.pure_ok.1 h
    exact ⟨Soft.refl _, fun E hE => hE _ (.inr (.inr (.inl ⟨f, hf, hn⟩)))⟩
  · obtain ⟨rfl, hn⟩ := run_inheritFragment ho h
    exact ⟨Soft.refl _, fun E hE => hE _ (.inr (.inr (.inl ⟨f, hf, hn⟩)))⟩

theorem scoped_collapseReference {c : Ctx} {p f t : String} (hf : S.spread f) (ht : ¬ IsInterface S.schema t) :
    Scoped c.env S X (collapseReference c p f t) NamesIn := by
  constructor
  intro r a r' hs h
  unfold collapseReference at h
  obtain ⟨o, r1, h1, h⟩ := Gen.bind_ok.1 h
  obtain ⟨rfl, ⟨n, rfl, hn⟩ | ⟨rfl, ho⟩⟩ := run_interfaceImpl ht h1
  · obtain ⟨rfl, rfl⟩ := Gen.pure_ok.1 h
    exact ⟨Soft.refl _, fun E hE => namesIn_name (hE _ (.inr (.inr (.inl ⟨f, hf, hn⟩))))⟩
  · obtain ⟨hs, hn⟩ := run_referenceFragment hs ho h
    exact ⟨hs, fun E hE m hm => hE _ (.inr (.inr (.inl ⟨f, hf, hn m hm⟩)))⟩

theorem scoped_inlineSpreadBase {f : String} (hf : S.spread f) (hu : S.union f) :
    Scoped env S X (inlineSpreadBase f) fun E n => E n := by
  constructor
  intro r a r' hs h
  unfold inlineSpreadBase at h
  split at h
  · cases h
  · exact (scoped_inheritFragment hf hu).run r a r' hs h

theorem scoped_spreadImplementations {f : String} (hf : S.spread f) :
    Scoped env S X (spreadImplementations f) fun E l => ∀ q ∈ l, E q.2 := by
  constructor
  intro r a r' hs h
  unfold spreadImplementations at h
  cases hg : r.interfaceFragmentImpl.get? f with
  | some m =>
    rw [hg] at h
    cases h
    exact ⟨Soft.refl _, fun E hE q hq => hE _ (.inr (.inr (.inl ⟨f, hf, .inr (.inl ⟨_, q.1, hg, hq⟩)⟩)))⟩
  | none =>
    rw [hg] at h
    dsimp only at h
    split at h
    · cases h
    · split at h
      · cases h
      · rename_i hi
        cases h
        obtain ⟨rfl, hq⟩ := run_inheritFragment (S := S) (.inl hg) hi
        refine ⟨Soft.refl _, fun E hE q hm => ?_⟩
        rw [List.mem_singleton] at hm
        subst hm
        exact hE _ (.inr (.inr (.inl ⟨f, hf, hq⟩)))

theorem typenameStmt_in {c : Ctx} {t : String} {E : String → Prop} (h1 : E "Field") (h2 : E "Literal") :
    ∀ n ∈ evaluated (typenameStmt c t), E n := by
  intro n hn
  unfold typenameStmt excludeKeyword at hn
  simp only [evaluated, sub, Expr.str, freeNames, freeNamesO, freeNamesL, List.mem_append, List.mem_singleton,
    List.append_nil] at hn
  rcases hn with rfl | rfl | hn
  · exact h2
  · exact h1
  · exfalso
    split at hn <;> simp [freeNamesK, freeNames] at hn

theorem genericTypenameStmt_in {c : Ctx} {E : String → Prop} (h1 : E "Field") (h2 : E "str") :
    ∀ n ∈ evaluated (genericTypenameStmt c), E n := by
  intro n hn
  unfold genericTypenameStmt excludeKeyword at hn
  simp only [evaluated, Expr.str, freeNames, freeNamesO, freeNamesL, List.mem_append, List.mem_singleton,
    List.append_nil] at hn
  rcases hn with rfl | rfl | hn
  · exact h2
  · exact h1
  · exfalso
    split at hn <;> simp [freeNamesK, freeNames] at hn

theorem scoped_typenameImports : Scoped env S X typenameImports fun E _ => E "Field" ∧ E "Literal" := by
  unfold typenameImports
  exact (scoped_registerImport (n := "Field") (by decide +kernel)).bind fun _ =>
    (scoped_registerImport (n := "Optional") (by decide +kernel)).bind fun _ =>
    (scoped_registerImport (n := "Literal") (by decide +kernel)).mono fun _ _ h _ h' => ⟨h', h⟩

theorem scoped_typenameField {c : Ctx} {t : String} :
    Scoped env S X (typenameField c t) fun E s => ∀ n ∈ evaluated s, E n := by
  unfold typenameField
  exact scoped_typenameImports.bind fun _ => .pure fun _ h => typenameStmt_in h.1 h.2

/-- the typename fields import `Field` -/
theorem scoped_typenameField_field {c : Ctx} {t : String} :
    Scoped env S X (typenameField c t) fun E s => (∀ n ∈ evaluated s, E n) ∧ E "Field" := by
  unfold typenameField
  exact scoped_typenameImports.bind fun _ => .pure fun _ h => ⟨typenameStmt_in h.1 h.2, h.1⟩

theorem scoped_builtin {n : String} (h : n ∈ neverImported) {g : Gen α} {Q : (String → Prop) → α → Prop}
    (hg : Scoped env S X g fun E a => E n → Q E a) : Scoped env S X g Q :=
  ⟨fun r a r' hs e => ⟨(hg.run r a r' hs e).1, fun E hE => (hg.run r a r' hs e).2 E hE (hE n (.inl (.inr (.inl h))))⟩⟩

theorem scoped_assume {n : String} (h : X n) {g : Gen α} {Q : (String → Prop) → α → Prop}
    (hg : Scoped env S X g fun E a => E n → Q E a) : Scoped env S X g Q :=
  ⟨fun r a r' hs e => ⟨(hg.run r a r' hs e).1, fun E hE =>
    (hg.run r a r' hs e).2 E hE (hE n (.inr (.inr (.inr h))))⟩⟩

theorem scoped_genericTypenameField {c : Ctx} :
    Scoped env S X (genericTypenameField c) fun E s => ∀ n ∈ evaluated s, E n := by
  unfold genericTypenameField
  refine scoped_builtin (n := "str") (by decide) ?_
  exact scoped_typenameImports.bind fun _ => .pure fun _ h hs => genericTypenameStmt_in h.1 hs

theorem scoped_genericTypenameField_field {c : Ctx} :
    Scoped env S X (genericTypenameField c) fun E s => (∀ n ∈ evaluated s, E n) ∧ E "Field" := by
  unfold genericTypenameField
  refine scoped_builtin (n := "str") (by decide) ?_
  exact scoped_typenameImports.bind fun _ => .pure fun _ h hs => ⟨genericTypenameStmt_in h.1 hs, h.1⟩

theorem scoped_still {g : Gen α} (h : ∀ r, Quietly g r fun _ => True) (hs : ∀ r a r', g r = .ok (a, r') → r' = r) :
    Scoped env S X g fun _ _ => True :=
  ⟨fun r a r' _ e => by rw [hs r a r' e]; exact ⟨Soft.refl _, fun _ _ => trivial⟩⟩

theorem scoped_nodeName {n : String} : Scoped env S X (nodeName env n) fun _ _ => True := .lift fun _ _ _ => trivial
theorem scoped_parameterName {n : String} : Scoped env S X (parameterName env n) fun _ _ => True := .lift fun _ _ _ => trivial

theorem scoped_listImport {b : Bool} :
    Scoped env S X (listImport b) fun E _ => E (if b then "Tuple" else "List") :=
  Scoped.of (P := fun _ r' _ => External r' (if b then "Tuple" else "List")) (fun _ h => soft_listImport h)
    fun _ _ _ _ h hE => hE _ (.inl h)

theorem namesIn_listBuilder {E : String → Prop} {b : Bool} {x : Expr} (hb : E (if b then "Tuple" else "List"))
    (hx : NamesIn E x) : NamesIn E (listBuilder b x) := by
  cases b
  · exact namesIn_sub hb hx
  · refine namesIn_sub hb fun n hn => ?_
    simp only [freeNames, freeNamesL, List.append_nil] at hn
    exact hx n hn

/-- a node: the classes resolve, and then the annotation -/
def NodeIn (E : String → Prop) (x : Expr × List Stmt) : Prop := Resolves E x.2 ∧ NamesIn (Plus E x.2) x.1

theorem scoped_wrapOutput {c : Ctx} {leaf : String → Bool → Gen (Expr × List Stmt)}
    (t : TypeNode) : (∀ o, Scoped env S X (leaf t.base o) NodeIn) → ∀ {o : Bool}, Scoped env S X (wrapOutput c leaf t o) NodeIn := by
  induction t with
  | named n => intro h o; unfold wrapOutput; exact h o
  | nonNull t ih => intro h o; unfold wrapOutput; exact ih h
  | list t ih =>
    intro h o
    unfold wrapOutput
    refine scoped_listImport.bind fun _ => (ih h).bind fun x => (scoped_optionalWrap' (ss := x.2)).bind fun e => .pure ?_
    intro E he hx hl
    exact ⟨hx.1, he (namesIn_listBuilder (.inl hl) hx.2)⟩

/-- declarations and the classes they need -/
def PartsIn (E : String → Prop) (x : List Stmt × List Stmt) : Prop := Resolves E x.2 ∧ BodyIn (Plus E x.2) x.1

theorem scoped_annotateFieldMetadata {a : Expr} {d dep : Option String} {ss : List Stmt} :
    Scoped env S X (annotateFieldMetadata env a (d.map Expr.str) dep) fun E e =>
      NamesIn (Plus E ss) a → NamesIn (Plus E ss) e := by
  constructor
  intro r e r' hs h
  unfold annotateFieldMetadata at h
  obtain ⟨m1, r1, h1, h⟩ := Gen.bind_ok.1 h
  obtain ⟨m2, r2, h2, h⟩ := Gen.bind_ok.1 h
  have hlit : ∀ (o : Option String) e, o.map Expr.str = some e → freeNames e = [] := by
    intro o e he
    cases o with
    | none => cases he
    | some o => cases he; simp [Expr.str, freeNames]
  obtain ⟨s1, e1⟩ := soft_markerCall (fun hh => soft_marker (by decide) hh) (hlit d) h1
  obtain ⟨s2, e2⟩ := soft_markerCall (fun hh => soft_marker (by decide) hh) (hlit dep) h2
  by_cases hm : (m1 ++ m2).isEmpty
  · rw [if_pos hm] at h
    obtain ⟨rfl, rfl⟩ := Gen.pure_ok.1 h
    exact ⟨s1.trans s2, fun _ _ h => h⟩
  · rw [if_neg hm] at h
    obtain ⟨_, r3, h3, h⟩ := Gen.bind_ok.1 h
    obtain ⟨rfl, rfl⟩ := Gen.pure_ok.1 h
    obtain ⟨s3, e3⟩ := soft_registerImport h3
    refine ⟨s1.trans (s2.trans s3), fun E hE ha => namesIn_sub (.inl (hE _ (.inl (e3.at (by decide +kernel))))) ?_⟩
    intro n hn
    simp only [freeNames, mem_freeNamesL] at hn
    obtain ⟨x, hx, hn⟩ := hn
    rcases List.mem_cons.1 hx with rfl | hx
    · exact ha n hn
    · rcases List.mem_append.1 hx with hx | hx
      · exact .inl (hE _ (.inl ((s2.trans s3).external (e1 x hx n hn))))
      · exact .inl (hE _ (.inl (s3.external (e2 x hx n hn))))

theorem scoped_objectFieldValue {fieldName : String} {f : FieldDef} :
    Scoped env S X (objectFieldValue fieldName f) fun E v => ∀ n ∈ freeNamesO v, E n :=
  Scoped.of (P := fun _ r' v => ∀ n ∈ freeNamesO v, External r' n) (fun _ h => soft_objectFieldValue h)
    fun _ _ _ _ h hE n hn => hE n (.inl (h n hn))

theorem scoped_finishField {c : Ctx} {fieldName target : String} {fd : FieldDef} {a : Expr} {ss : List Stmt} :
    Scoped c.env S X (finishField c fieldName target fd a) fun E b => NamesIn (Plus E ss) a → BodyIn (Plus E ss) b := by
  unfold finishField
  refine (scoped_annotateFieldMetadata (d := none) (ss := ss)).bind fun e => scoped_objectFieldValue.bind fun v => .pure ?_
  intro E hv he ha
  refine .cons ?_ ?_
  · intro n hn
    simp only [evaluated, List.mem_append] at hn
    rcases hn with hn | hn
    · exact he ha n hn
    · exact .inl (hv n hn)
  · intro n hn
    split at hn <;> simp [evaluatedL, evaluated, Expr.str, freeNames] at hn

theorem scoped_typeField {c : Ctx} {fd : FieldDef} {target : String} {leaf : String → Bool → Gen (Expr × List Stmt)}
    (h : ∀ o, Scoped c.env S X (leaf fd.type.base o) NodeIn) : Scoped c.env S X (typeField c fd target leaf) PartsIn := by
  unfold typeField
  refine scoped_nodeName.bind fun n => (scoped_wrapOutput _ h).bind fun x =>
    (scoped_finishField (ss := x.2)).bind fun s => .pure ?_
  intro E hs hx _
  exact ⟨hx.1, hs hx.2⟩

theorem scoped_fieldNamed {n : String} {fs : List FieldDef} : Scoped env S X (fieldNamed n fs) fun _ _ => True := by
  unfold fieldNamed; split
  · exact .pure fun _ => trivial
  · exact .fail
theorem scoped_fieldDefOf {s : Schema} {t n : String} : Scoped env S X (fieldDefOf s t n) fun _ _ => True := by
  unfold fieldDefOf; split
  · exact .pure fun _ => trivial
  · exact .fail
theorem scoped_requireObject {s : Schema} {t : String} : Scoped env S X (requireObject s t) fun _ _ => True := by
  unfold requireObject; split
  · exact .pure fun _ => trivial
  · exact .fail
theorem scoped_objectFieldNamed {s : Schema} {t n : String} : Scoped env S X (objectFieldNamed s t n) fun _ _ => True := by
  unfold objectFieldNamed; split
  · exact scoped_fieldNamed
  · exact .fail

/-! ## the composite cases -/

/-- what the selections of an object contribute -/
def ObjectIn (E : String → Prop) (p : ObjectParts) : Prop :=
  Resolves E p.classes ∧ BodyIn (Plus E p.classes) p.body ∧ ∀ b ∈ p.bases, E b

/-- what the selections of an interface contribute -/
def InterfaceIn (E : String → Prop) (p : InterfaceParts) : Prop :=
  Resolves E p.classes ∧ BodyIn (Plus E p.classes) p.body ∧ (∀ q ∈ p.implBases, E q.2) ∧
  ∀ q ∈ p.inlineBodies, BodyIn (Plus E p.classes) q.2

/-- what the selections of a union contribute -/
def UnionIn (E : String → Prop) (p : List String × List Stmt) : Prop :=
  Resolves E p.2 ∧ ∀ n ∈ p.1, Plus E p.2 n

theorem ObjectIn.append {E : String → Prop} {a b : ObjectParts} (ha : ObjectIn E a) (hb : ObjectIn E b) :
    ObjectIn E (a.append b) := by
  refine ⟨Resolves.join ha.1 hb.1, ?_, ?_⟩
  · exact (ha.2.1.mono fun _ h => h.append_left).append (hb.2.1.mono fun _ h => h.append_right)
  · intro n hn
    rcases List.mem_append.1 hn with hn | hn
    · exact ha.2.2 n hn
    · exact hb.2.2 n hn

theorem objectIn_empty {E : String → Prop} : ObjectIn E {} := ⟨trivial, .nil, by simp⟩

theorem InterfaceIn.append {E : String → Prop} {a b : InterfaceParts} (ha : InterfaceIn E a) (hb : InterfaceIn E b) :
    InterfaceIn E (a.append b) := by
  refine ⟨Resolves.join ha.1 hb.1, ?_, ?_, ?_⟩
  · exact (ha.2.1.mono fun _ h => h.append_left).append (hb.2.1.mono fun _ h => h.append_right)
  · intro n hn
    rcases List.mem_append.1 hn with hn | hn
    · exact ha.2.2.1 n hn
    · exact hb.2.2.1 n hn
  · intro n hn
    rcases List.mem_append.1 hn with hn | hn
    · exact (ha.2.2.2 n hn).mono fun _ h => h.append_left
    · exact (hb.2.2.2 n hn).mono fun _ h => h.append_right

theorem interfaceIn_empty {E : String → Prop} : InterfaceIn E {} := ⟨trivial, .nil, by simp, by simp⟩

theorem UnionIn.append {E : String → Prop} {a b : List String × List Stmt} (ha : UnionIn E a) (hb : UnionIn E b) :
    UnionIn E (a.1 ++ b.1, a.2 ++ b.2) := by
  refine ⟨Resolves.join ha.1 hb.1, ?_⟩
  intro n hn
  rcases List.mem_append.1 hn with hn | hn
  · exact (ha.2 n hn).append_left
  · exact (hb.2 n hn).append_right

theorem PartsIn.append {E : String → Prop} {a b : List Stmt × List Stmt} (ha : PartsIn E a) (hb : PartsIn E b) :
    PartsIn E (a.1 ++ b.1, a.2 ++ b.2) :=
  ⟨Resolves.join ha.1 hb.1, (ha.2.mono fun _ h => h.append_left).append (hb.2.mono fun _ h => h.append_right)⟩

theorem partsIn_empty {E : String → Prop} : PartsIn E ([], []) := ⟨trivial, .nil⟩

theorem scoped_spreadOrAdditional {c : Ctx} {t : String} {bs : List String} :
    Scoped env S X (spreadOrAdditional c t bs) fun E es => (∀ b ∈ bs, E b) → NamesInL E es := by
  unfold spreadOrAdditional
  exact .ite (fun _ => scoped_additionalBasesFor.mono fun _ _ h _ => h) (fun _ => .pure fun _ h => namesInL_names h)

/-- the configured base classes of objects are imported by the call -/
theorem namesInL_mono {E E' : String → Prop} {es : List Expr} (h : NamesInL E es) (hE : ∀ n, E n → E' n) : NamesInL E' es :=
  fun n hn => hE n (h n hn)

theorem scoped_assumeL {es : List Expr} (h : ∀ n ∈ freeNamesL es, X n) {g : Gen α} {Q : (String → Prop) → α → Prop}
    (hg : Scoped env S X g fun E a => NamesInL E es → Q E a) : Scoped env S X g Q :=
  ⟨fun r a r' hs e => ⟨(hg.run r a r' hs e).1, fun E hE =>
    (hg.run r a r' hs e).2 E hE (fun n hn => hE n (.inr (.inr (.inr (h n hn)))))⟩⟩

/-- the class names of the configured object bases are assumed to be available -/
def BasesIn (X : String → Prop) (c : Ctx) : Prop := ∀ b ∈ c.config.objectBases, X (lastComponent b)

theorem BasesIn.names {c : Ctx} (h : BasesIn X c) : ∀ n ∈ freeNamesL (baseNames c.config.objectBases), X n := by
  intro n hn
  obtain ⟨b, hb, rfl⟩ := mem_baseNames hn
  exact h b hb

/-- a class after the classes it needs -/
theorem resolves_class {E : String → Prop} {before : List Stmt} {cls : String} {bs : List Expr} {body : List Stmt}
    (hb : Resolves E before) (hbs : NamesInL E bs) (hbody : BodyIn (Plus E before) body) :
    Resolves E (before ++ [.classDef cls bs body []]) :=
  resolves_join.2 ⟨hb, resolves_single (classDef_in (namesInL_mono hbs fun _ => .inl) hbody)⟩

theorem plus_class {E : String → Prop} {before : List Stmt} {cls : String} {bs : List Expr} {body : List Stmt} :
    Plus E (before ++ [.classDef cls bs body []]) cls :=
  .inr (by rw [boundL_append]; exact List.mem_append_right _ (by simp [boundL, bound]))

theorem scoped_finishObject {c : Ctx} {cls t : String} {d : Option String} {tn : Stmt} {p : ObjectParts} {o : Bool}
    (hp : PlainConfig c.config) (hX : BasesIn X c) :
    Scoped env S X (finishObject c cls t d tn p o) fun E x => ObjectIn E p → (∀ n ∈ evaluated tn, E n) → NodeIn E x := by
  unfold finishObject
  refine scoped_assumeL hX.names ?_
  refine scoped_spreadOrAdditional.bind fun bs => (scoped_generatePydanticConfig hp).bind fun cfg => ?_
  refine (scoped_optionalWrap' (ss := p.classes ++ [.classDef cls (bs ++ baseNames c.config.objectBases)
    (docStmt d :: tn :: (p.body ++ cfg)) []])).bind fun e => .pure ?_
  intro E he hcfg hbs hob hpi htn
  refine ⟨resolves_class hpi.1 ((hbs hpi.2.2).append hob) ?_, he (namesIn_name plus_class)⟩
  exact .cons (docStmt_in d) (.cons (fun n hn => .inl (htn n hn)) (hpi.2.1.append (hcfg.mono fun _ => .inl)))

theorem scoped_objectNode {c : Ctx} {parent target t : String} {d : Option String} {sub : List Sel}
    {walk : String → Gen ObjectParts} {o : Bool} (hp : PlainConfig c.config) (hX : BasesIn X c)
    (ht : ¬ IsInterface S.schema t)
    (hS : ∀ f, Sel.spread f ∈ sub → S.spread f) (hw : ∀ k, Scoped c.env S X (walk k) ObjectIn) :
    Scoped c.env S X (objectNode c parent target t d sub walk o) NodeIn := by
  unfold objectNode
  dsimp only
  refine scoped_typenameField.bind fun tn => ?_
  split
  · rename_i f hf
    have hm : Sel.spread f ∈ sub := by
      have : Sel.spread f ∈ nonTypenameFields sub := by rw [hf]; simp
      exact (List.mem_filter.1 this).1
    refine (scoped_collapseReference (hS f hm) ht).bind fun x => scoped_optionalWrap.bind fun e => .pure ?_
    intro E he hx _
    exact ⟨trivial, (he hx).mono fun _ => .inl⟩
  · refine (hw _).bind fun p => ?_
    exact scoped_finishObject hp hX

theorem mem_basesFor {p : InterfaceParts} {t b : String} (h : b ∈ p.basesFor t) : ∃ q ∈ p.implBases, q.2 = b := by
  obtain ⟨q, hq, rfl⟩ := List.mem_map.1 h
  exact ⟨q, (List.mem_filter.1 hq).1, rfl⟩

theorem InterfaceIn.basesFor {E : String → Prop} {p : InterfaceParts} (h : InterfaceIn E p) (t : String) :
    ∀ b ∈ p.basesFor t, E b := by
  intro b hb
  obtain ⟨q, hq, rfl⟩ := mem_basesFor hb
  exact h.2.2.1 q hq

theorem InterfaceIn.bodyFor {E : String → Prop} {p : InterfaceParts} (h : InterfaceIn E p) (t : String) :
    BodyIn (Plus E p.classes) (p.bodyFor t) := by
  refine bodyIn_flatten fun b hb => ?_
  obtain ⟨q, hq, rfl⟩ := List.mem_map.1 hb
  exact h.2.2.2 q (List.mem_filter.1 hq).1

/-- an implementing class: it needs the classes of the selections and the mother class -/
theorem scoped_implementingClass {c : Ctx} {mother : String} {p : InterfaceParts} {i : Implementation} :
    Scoped env S X (implementingClass c mother p i) fun E s => InterfaceIn E p →
      bound s = [mother ++ i.name] ∧ E "Field" ∧ ∀ n ∈ evaluated s, Plus E p.classes n ∨ n = mother := by
  unfold implementingClass
  refine scoped_additionalBasesFor.bind fun extra => scoped_interfaceBasesOf.bind fun ib =>
    scoped_typenameField_field.bind fun tn => .pure ?_
  intro E ⟨htn, hfld⟩ hib hex hpi
  refine ⟨rfl, hfld, classDef_in (E := fun n => Plus E p.classes n ∨ n = mother) ?_ ?_⟩
  · refine (((namesInL_names fun b hb => .inl (.inl (hpi.basesFor _ b hb))).append ?_).append
      (namesInL_mono hex fun _ h => .inl (.inl h))).append (namesInL_mono hib fun _ h => .inl (.inl h))
    intro n hn
    simp [freeNamesL, freeNames] at hn
    exact .inr hn
  · exact .cons (docStmt_in _) (.cons (fun n hn => .inl (.inl (htn n hn))) ((hpi.bodyFor _).mono fun _ => .inl))

theorem scoped_implementingClasses {c : Ctx} {mother : String} {p : InterfaceParts} (is : List Implementation) :
    Scoped env S X (implementingClasses c mother p is) fun E ss => InterfaceIn E p →
      boundL ss = is.map (fun i => mother ++ i.name) ∧ (is ≠ [] → E "Field") ∧
      ∀ s ∈ ss, ∀ n ∈ evaluated s, Plus E p.classes n ∨ n = mother := by
  induction is with
  | nil => exact .pure fun E _ => ⟨rfl, by simp, by simp⟩
  | cons i is ih =>
    unfold implementingClasses
    refine scoped_implementingClass.bind fun s => ih.bind fun ss => .pure ?_
    intro E hss hs hp
    obtain ⟨h1, _, h2⟩ := hss hp
    obtain ⟨h3, h5, h4⟩ := hs hp
    refine ⟨by simp [boundL, h3] at h1 ⊢; rw [h1], fun _ => h5, ?_⟩
    intro t ht
    rcases List.mem_cons.1 ht with rfl | ht
    · exact h4
    · exact h2 t ht

theorem namesIn_taggedUnion {E : String → Prop} {l : List String} (h1 : E "Annotated") (h2 : E "Union") (h3 : E "Field")
    (hl : ∀ n ∈ l, E n) : NamesIn E (taggedUnion l) := by
  intro n hn
  simp only [taggedUnion, sub, freeNames, freeNamesL, freeNamesK, Expr.str, List.append_nil, List.nil_append, List.cons_append,
    List.mem_cons, List.mem_append, List.not_mem_nil, or_false] at hn
  rcases hn with rfl | rfl | hn | rfl
  · exact h1
  · exact h2
  · exact namesInL_names hl n hn
  · exact h3

theorem scoped_catchAll {c : Ctx} {mother : String} {tagged : Expr} {before : List Stmt} :
    Scoped env S X (catchAll c mother tagged) fun E x => (c.config.createCatchall = true → E "Field") ∧
      (NamesIn (Plus E before) tagged → mother ∈ boundL before →
      Resolves (Plus E before) x.2 ∧ NamesIn (Plus E (before ++ x.2)) x.1) := by
  unfold catchAll
  refine .ite (fun _ => ?_) (fun hf => .pure fun E => ⟨fun h => (hf h).elim, fun h _ => ⟨trivial, by simpa using h⟩⟩)
  refine scoped_interfaceBasesOf.bind fun ib => scoped_genericTypenameField_field.bind fun tn =>
    (scoped_registerImport (n := "Union") (by decide +kernel)).bind fun _ => .pure ?_
  intro E hu ⟨htn, hfd⟩ hib
  refine ⟨fun _ => hfd, fun ht hm => ?_⟩
  have hev : ∀ n ∈ evaluated (.classDef (mother ++ "CatchAll") (.name mother :: ib)
      [.expr (.str ("Catch all class for " ++ mother)), tn] []), Plus E before n := by
    refine classDef_in ?_ ?_
    · intro n hn
      simp only [freeNamesL, freeNames, List.cons_append, List.nil_append, List.mem_cons] at hn
      rcases hn with rfl | hn
      · exact .inr hm
      · exact .inl (hib n hn)
    · refine .cons (by intro n hn; simp [evaluated, Expr.str, freeNames] at hn) (.cons (fun n hn => .inl (htn n hn)) .nil)
  refine ⟨resolves_single hev, namesIn_sub (.inl hu) ?_⟩
  intro n hn
  simp only [freeNames, freeNamesL, List.append_nil, List.mem_append, List.mem_singleton] at hn
  rcases hn with hn | rfl
  · exact (ht n hn).append_left
  · exact plus_class

/-- `Field` is assumed to be available if some interface has no implementing type and there are no catch-all classes -/
def LonelyField (X : String → Prop) (c : Ctx) : Prop :=
  ¬ c.config.createCatchall = true → ∀ t fs is d, c.schema.types.get? t = some ⟨.interface fs is, d⟩ → implementations c.schema t = [] → X "Field"

theorem scoped_assumeIf {p : Prop} {n : String} (h : p → X n) {g : Gen α} {Q : (String → Prop) → α → Prop}
    (hg : Scoped env S X g fun E a => (p → E n) → Q E a) : Scoped env S X g Q :=
  ⟨fun r a r' hs e => ⟨(hg.run r a r' hs e).1, fun E hE =>
    (hg.run r a r' hs e).2 E hE (fun hp => hE n (.inr (.inr (.inr (h hp)))))⟩⟩

theorem scoped_interfaceNode {c : Ctx} {parent target t : String} {d : Option String}
    {walk : String → Gen InterfaceParts} {o : Bool} (hp : PlainConfig c.config)
    (hw : ∀ k, Scoped env S X (walk k) InterfaceIn) (hF : ¬ c.config.createCatchall = true → implementations c.schema t = [] → X "Field") :
    Scoped env S X (interfaceNode c parent target t d walk o) NodeIn := by
  unfold interfaceNode
  dsimp only
  refine scoped_assumeIf (p := ¬ c.config.createCatchall = true ∧ implementations c.schema t = []) (fun h => hF h.1 h.2) ?_
  refine (hw _).bind fun p => scoped_additionalBasesFor.bind fun extra => scoped_interfaceBasesOf.bind fun ib =>
    (scoped_generatePydanticConfig hp).bind fun cfg => (scoped_implementingClasses _).bind fun impls =>
    (scoped_registerImport (n := "Annotated") (by decide +kernel)).bind fun _ =>
    (scoped_registerImport (n := "Union") (by decide +kernel)).bind fun _ => ?_
  refine (scoped_catchAll (before := p.classes ++ (.classDef (parent ++ pyCapitalize target ++ "Base") (extra ++ ib)
    (docStmt d :: (p.body ++ cfg)) [] :: impls))).bind fun x => ?_
  refine (scoped_optionalWrap' (ss := p.classes ++ (.classDef (parent ++ pyCapitalize target ++ "Base") (extra ++ ib)
    (docStmt d :: (p.body ++ cfg)) [] :: (impls ++ x.2)))).bind fun e => .pure ?_
  intro E he hx hu ha himpl hcfg hib hex hpi hfld
  obtain ⟨hbound, hfld', hev⟩ := himpl hpi
  have hfld : E "Field" := (Classical.em (implementations c.schema t = [])).elim
    (fun hl => (Classical.em (c.config.createCatchall = true)).elim hx.1 fun hc => hfld ⟨hc, hl⟩) hfld'
  have hmother : (parent ++ pyCapitalize target ++ "Base") ∈ boundL (p.classes ++
      (.classDef (parent ++ pyCapitalize target ++ "Base") (extra ++ ib) (docStmt d :: (p.body ++ cfg)) [] :: impls)) := by
    rw [boundL_append]
    exact List.mem_append_right _ (by simp [boundL, bound])
  have himplb : ∀ n ∈ (implementations c.schema t).map (fun i => parent ++ pyCapitalize target ++ "Base" ++ i.name),
      n ∈ boundL (p.classes ++
        (.classDef (parent ++ pyCapitalize target ++ "Base") (extra ++ ib) (docStmt d :: (p.body ++ cfg)) [] :: impls)) := by
    intro n hn
    rw [boundL_append]
    refine List.mem_append_right _ ?_
    rw [← hbound] at hn
    exact List.mem_cons_of_mem _ hn
  obtain ⟨hxr, hxn⟩ := hx.2 (namesIn_taggedUnion (.inl ha) (.inl hu) (.inl hfld) fun n hn => .inr (himplb n hn)) hmother
  have e1 : p.classes ++ (.classDef (parent ++ pyCapitalize target ++ "Base") (extra ++ ib)
      (docStmt d :: (p.body ++ cfg)) [] :: (impls ++ x.2)) = (p.classes ++
      (.classDef (parent ++ pyCapitalize target ++ "Base") (extra ++ ib) (docStmt d :: (p.body ++ cfg)) [] :: impls)) ++ x.2 := by
    simp
  refine ⟨?_, ?_⟩
  · dsimp only
    rw [e1]
    refine resolves_join.2 ⟨?_, hxr⟩
    have e2 : p.classes ++ (.classDef (parent ++ pyCapitalize target ++ "Base") (extra ++ ib)
      (docStmt d :: (p.body ++ cfg)) [] :: impls) = (p.classes ++
      [.classDef (parent ++ pyCapitalize target ++ "Base") (extra ++ ib) (docStmt d :: (p.body ++ cfg)) []]) ++ impls := by simp
    rw [e2]
    refine resolves_join.2 ⟨resolves_class hpi.1 (hex.append hib) ?_, resolves_all fun s hs n hn => ?_⟩
    · exact .cons (docStmt_in d) (hpi.2.1.append (hcfg.mono fun _ => .inl))
    · rcases hev s hs n hn with h | rfl
      · exact h.append_left
      · exact plus_class
  · dsimp only
    refine he ?_
    rw [e1]
    exact hxn

theorem scoped_inlineTypename {c : Ctx} {t : String} {bs : List String} :
    Scoped env S X (inlineTypename c t bs) BodyIn := by
  unfold inlineTypename
  exact .ite (fun _ => scoped_typenameField.bind fun _ => .pure fun _ h => .cons h .nil) (fun _ => .pure fun _ => .nil)

theorem scoped_inlineClass {c : Ctx} {cls t : String} {p : ObjectParts} (hp : PlainConfig c.config) (hX : BasesIn X c) :
    Scoped env S X (inlineClass c cls t p) fun E ss => ObjectIn E p → UnionIn E ([cls], ss) := by
  unfold inlineClass
  dsimp only
  refine scoped_assumeL hX.names ?_
  refine scoped_inlineTypename.bind fun tn => scoped_spreadOrAdditional.bind fun bs =>
    (scoped_generatePydanticConfig hp).bind fun cfg => .pure ?_
  intro E hcfg hbs htn hob hpi
  refine ⟨resolves_class hpi.1 ((hbs hpi.2.2).append hob) ?_, fun n hn => ?_⟩
  · split
    · intro n hn; simp [evaluatedL, evaluated] at hn
    · exact ((htn.mono fun _ => .inl).append hpi.2.1).append (hcfg.mono fun _ => .inl)
  · rw [List.mem_singleton.1 hn]
    exact plus_class

theorem scoped_unionReference {l : List String} {o : Bool} {ss : List Stmt} :
    Scoped env S X (unionReference l o) fun E e => (∀ n ∈ l, Plus E ss n) → NamesIn (Plus E ss) e := by
  unfold unionReference
  split
  · exact .fail
  · exact .pure fun E h => namesIn_name (h _ (by simp))
  · refine (scoped_registerImport (n := "Union") (by decide +kernel)).bind fun _ => (scoped_optionalWrap' (ss := ss)).mono ?_
    intro E e he hu hl
    refine he (namesIn_sub (.inl hu) ?_)
    exact namesInL_names hl

theorem scoped_unionNode {walk : Gen (List String × List Stmt)} {o : Bool} (hw : Scoped env S X walk UnionIn) :
    Scoped env S X (unionNode walk o) NodeIn := by
  unfold unionNode
  refine hw.bind fun p => (scoped_unionReference (ss := p.2)).bind fun e => .pure ?_
  intro E he hp
  exact ⟨hp.1, he hp.2⟩

theorem lookup_of_types {s : Schema} {n : String} {d : TypeDef} {desc : Option String}
    (h : s.types.get? n = some ⟨d, desc⟩) : s.lookup n = some d := by
  unfold Schema.lookup
  rw [h]
  rfl

theorem scoped_namedNode {c : Ctx} {parent target : String} {sub : List Sel}
    {objs : String → List FieldDef → String → Gen ObjectParts} {ifcs : List FieldDef → String → Gen InterfaceParts}
    {uns : Gen (List String × List Stmt)} (hp : PlainConfig c.config) (hX : BasesIn X c) (hF : LonelyField X c)
    (hSc : S.schema = c.schema) (hS : ∀ f, Sel.spread f ∈ sub → S.spread f) {n : String}
    (ho : ∀ fs is k, S.schema.lookup n = some (.object fs is) → Scoped c.env S X (objs n fs k) ObjectIn)
    (hi : ∀ fs is k, S.schema.lookup n = some (.interface fs is) → Scoped c.env S X (ifcs fs k) InterfaceIn)
    (hu : ∀ ms, S.schema.lookup n = some (.union ms) → Scoped c.env S X uns UnionIn) (opt : Bool) :
    Scoped c.env S X (namedNode c parent target sub objs ifcs uns n opt) NodeIn := by
  unfold namedNode
  split
  · refine scoped_referenceScalar.bind fun _ => scoped_optionalWrap.bind fun _ => .pure fun E he hx => ?_
    exact ⟨trivial, (he hx).mono fun _ => .inl⟩
  · refine scoped_referenceEnum.bind fun _ => scoped_optionalWrap.bind fun _ => .pure fun E he hx => ?_
    exact ⟨trivial, (he hx).mono fun _ => .inl⟩
  · rename_i hg
    have hl := lookup_of_types hg
    rw [← hSc] at hl
    refine scoped_objectNode hp hX ?_ hS fun k => ho _ _ k hl
    rintro ⟨fs, is, h⟩
    rw [hl] at h
    cases h
  · rename_i hg
    have hl := lookup_of_types hg
    rw [← hSc] at hl
    exact scoped_interfaceNode hp (fun k => hi _ _ k hl) fun hc => hF hc _ _ _ _ hg
  · rename_i hg
    have hl := lookup_of_types hg
    rw [← hSc] at hl
    exact scoped_unionNode (hu _ hl)
  · exact .fail

/-! ## the walk -/

/-- all fragments spread in the selections belong to the set -/
def SpreadsIn (S : String → Prop) (sels : List Sel) : Prop := ∀ f, Spreads sels f → S f

theorem spreads_of_mem {sels : List Sel} {f : String} (h : Sel.spread f ∈ sels) : Spreads sels f := by
  induction sels with
  | nil => cases h
  | cons s sels ih =>
    rcases List.mem_cons.1 h with rfl | h
    · exact .here _ _
    · exact .later _ _ _ (ih h)

theorem SpreadsIn.tail {S : String → Prop} {s : Sel} {sels : List Sel} (h : SpreadsIn S (s :: sels)) : SpreadsIn S sels :=
  fun f hf => h f (.later _ _ _ hf)
theorem SpreadsIn.field {S : String → Prop} {n : String} {a : Option String} {as : List (String × Value)} {sub sels : List Sel}
    (h : SpreadsIn S (.field n a as sub :: sels)) : SpreadsIn S sub := fun f hf => h f (.field _ _ _ _ _ _ hf)
theorem SpreadsIn.inline {S : String → Prop} {t : Option String} {sub sels : List Sel}
    (h : SpreadsIn S (.inline t sub :: sels)) : SpreadsIn S sub := fun f hf => h f (.inline _ _ _ _ hf)
theorem SpreadsIn.head {S : String → Prop} {s : Sel} {sels : List Sel} (h : SpreadsIn S (s :: sels)) : SpreadsIn S [s] := by
  intro f hf
  cases hf with
  | here => exact h _ (.here _ _)
  | field _ _ _ _ _ _ hf => exact h _ (.field _ _ _ _ _ _ hf)
  | inline _ _ _ _ hf => exact h _ (.inline _ _ _ _ hf)
  | later _ _ _ hf => cases hf
theorem SpreadsIn.spread {S : String → Prop} {f : String} (h : SpreadsIn S [.spread f]) : S f := h f (.here _ _)
theorem SpreadsIn.mem {S : String → Prop} {sels : List Sel} (h : SpreadsIn S sels) (f : String) (hf : Sel.spread f ∈ sels) : S f :=
  h f (spreads_of_mem hf)

/-- all fragments spread in the selections, and those spread at a union, belong to the sets -/
structure WalkIn (S : Places) (t : String) (sels : List Sel) : Prop where
  spreads : SpreadsIn S.spread sels
  unions : ∀ f, AtUnion S.schema f t sels → S.union f

theorem _root_.Turms.Spec.AtUnion.sub {s : Schema} {f t : String} {a b : List Sel} (h : AtUnion s f t a)
    (hs : ∀ x ∈ a, x ∈ b) : AtUnion s f t b := by
  cases h with
  | here h1 h2 => exact .here h1 (hs _ h2)
  | member h1 h2 h3 => exact .member h1 (hs _ h2) h3
  | field h1 h2 h3 => exact .field (hs _ h1) h2 h3
  | inline h1 h2 => exact .inline (hs _ h1) h2

theorem WalkIn.tail {t : String} {s : Sel} {sels : List Sel} (h : WalkIn S t (s :: sels)) : WalkIn S t sels :=
  ⟨fun f hf => h.1 f (.later _ _ _ hf), fun f hf => h.2 f (hf.sub fun _ => List.mem_cons_of_mem _)⟩
theorem WalkIn.field {t n : String} {a : Option String} {as : List (String × Value)} {sub sels : List Sel} {ty : TypeNode}
    (h : WalkIn S t (.field n a as sub :: sels)) (hf : FieldOn S.schema t n ty) : WalkIn S ty.base sub :=
  ⟨fun f hf => h.1 f (.field _ _ _ _ _ _ hf), fun f h1 => h.2 f (.field (List.mem_cons_self ..) hf h1)⟩
theorem WalkIn.inline {t o : String} {sub sels : List Sel}
    (h : WalkIn S t (.inline (some o) sub :: sels)) : WalkIn S o sub :=
  ⟨fun f hf => h.1 f (.inline _ _ _ _ hf), fun f h1 => h.2 f (.inline (List.mem_cons_self ..) h1)⟩
theorem WalkIn.head {t : String} {s : Sel} {sels : List Sel} (h : WalkIn S t (s :: sels)) : WalkIn S t [s] := by
  refine ⟨fun f hf => ?_, fun f hf => h.2 f (hf.sub fun x hx => List.mem_singleton.1 hx ▸ List.mem_cons_self ..)⟩
  cases hf with
  | here => exact h.1 _ (.here _ _)
  | field _ _ _ _ _ _ hf => exact h.1 _ (.field _ _ _ _ _ _ hf)
  | inline _ _ _ _ hf => exact h.1 _ (.inline _ _ _ _ hf)
  | later _ _ _ hf => cases hf
theorem WalkIn.spread {t f : String} (h : WalkIn S t [.spread f]) : S.spread f := h.1 f (.here _ _)
theorem WalkIn.mem {t : String} {sels : List Sel} (h : WalkIn S t sels) (f : String) (hf : Sel.spread f ∈ sels) : S.spread f :=
  h.1 f (spreads_of_mem hf)

/-- sequential composition, with a fact about the value of the first part -/
theorem Scoped.bindP {x : Gen α} {f : α → Gen β} {V : α → Prop} {P : (String → Prop) → α → Prop}
    {Q : (String → Prop) → β → Prop} (hx : Scoped env S X x P) (hv : ∀ r a r', x r = .ok (a, r') → V a)
    (hf : ∀ a, V a → Scoped env S X (f a) fun E b => P E a → Q E b) : Scoped env S X (x >>= f) Q := by
  constructor
  intro r b r' hs h
  obtain ⟨a, r1, h1, h2⟩ := Gen.bind_ok.1 h
  obtain ⟨s1, hp⟩ := hx.run r a r1 hs h1
  obtain ⟨s2, hq⟩ := (hf a (hv _ _ _ h1)).run r1 b r' (hs.soft s1) h2
  refine ⟨s1.trans s2, fun E hE => hq E (fun n hn => hE n (hn.mono s1 (Soft.refl _))) (hp E fun n hn => ?_)⟩
  exact hE n (hn.mono (Soft.refl _) s2)

theorem fieldNamed_value {n : String} {fs : List FieldDef} {r r' : Reg} {fd : FieldDef}
    (h : fieldNamed n fs r = .ok (fd, r')) : fd ∈ fs ∧ fd.name = n := by
  unfold fieldNamed at h
  cases hf : fs.find? (·.name == n) with
  | none => rw [hf] at h; exact (Gen.fail_ok.1 h).elim
  | some g =>
    rw [hf] at h
    obtain ⟨rfl, _⟩ := Gen.pure_ok.1 h
    exact ⟨List.mem_of_find?_eq_some hf, by simpa using List.find?_some hf⟩

theorem getFieldDef_sound {s : Schema} {t n : String} {fd : FieldDef} (h : getFieldDef s t n = some fd) :
    FieldOn s t n fd.type := by
  unfold getFieldDef at h
  split at h
  · rename_i h1
    simp only [Bool.and_eq_true, beq_iff_eq] at h1
    obtain ⟨rfl, hq⟩ := h1
    cases h
    exact .schema hq
  · split at h
    · rename_i h1
      simp only [Bool.and_eq_true, beq_iff_eq] at h1
      obtain ⟨rfl, hq⟩ := h1
      cases h
      exact .type hq
    · split at h
      · rename_i h1
        have := beq_iff_eq.1 h1
        subst this
        cases h
        exact .typename
      · have hn : fd.name = n := by simpa using List.find?_some h
        have hm := List.mem_of_find?_eq_some h
        unfold Schema.fieldsOf at hm
        subst hn
        split at hm
        · exact .object ‹_› hm
        · exact .interface ‹_› hm
        · simp at hm

theorem fieldDefOf_value {s : Schema} {t n : String} {r r' : Reg} {fd : FieldDef}
    (h : fieldDefOf s t n r = .ok (fd, r')) : FieldOn s t n fd.type := by
  unfold fieldDefOf at h
  cases hf : getFieldDef s t n with
  | none => rw [hf] at h; exact (Gen.fail_ok.1 h).elim
  | some g =>
    rw [hf] at h
    obtain ⟨rfl, _⟩ := Gen.pure_ok.1 h
    exact getFieldDef_sound hf

theorem objectFieldNamed_value {s : Schema} {t n : String} {r r' : Reg} {fd : FieldDef}
    (h : objectFieldNamed s t n r = .ok (fd, r')) : FieldOn s t n fd.type := by
  unfold objectFieldNamed at h
  cases hl : s.lookup t with
  | none => rw [hl] at h; exact (Gen.fail_ok.1 h).elim
  | some d =>
    rw [hl] at h
    cases d with
    | object fs is =>
      obtain ⟨hm, rfl⟩ := fieldNamed_value h
      exact .object hl hm
    | _ => exact (Gen.fail_ok.1 h).elim

section
variable {c : Ctx} (hp : PlainConfig c.config) (hX : BasesIn X c) (hF : LonelyField X c) (hSc : S.schema = c.schema)
include hp hX hF hSc

mutual
theorem scoped_objectSel (s : Sel) : ∀ (t : String) (fs : List FieldDef) (is : List String) (cls : String),
    S.schema.lookup t = some (.object fs is) → WalkIn S t [s] →
    Scoped c.env S X (objectSel c t fs cls s) ObjectIn := by
  intro t fs is cls hl h
  cases s with
  | spread f =>
    unfold objectSel
    refine (scoped_spreadBase h.spread ?_).bind fun _ => .pure fun E hb => ⟨trivial, .nil, by simpa using hb⟩
    rintro ⟨fs', is', h'⟩
    rw [hl] at h'
    cases h'
  | inline t sub => unfold objectSel; exact .fail
  | field n a as sub =>
    unfold objectSel
    refine .ite (fun _ => .pure fun E => objectIn_empty) fun _ => ?_
    refine scoped_fieldNamed.bindP (V := fun fd => FieldOn S.schema t n fd.type)
      (fun r fd r' hv => (fieldNamed_value hv).2 ▸ .object hl (fieldNamed_value hv).1) fun fd hfd => ?_
    have hw := h.field hfd
    refine (scoped_typeField (scoped_namedNode hp hX hF hSc hw.mem
      (fun fs is k hl => scoped_objectSels sub _ fs is k hl hw) (fun fs is k hl => scoped_interfaceSels sub _ fs is k hl hw)
      (fun ms hl => scoped_unionSels sub _ ms _ hl hw))).bind fun x => .pure ?_
    intro E hx _
    exact ⟨hx.1, hx.2, by simp⟩
theorem scoped_objectSels (ss : List Sel) : ∀ (t : String) (fs : List FieldDef) (is : List String) (cls : String),
    S.schema.lookup t = some (.object fs is) → WalkIn S t ss →
    Scoped c.env S X (objectSels c t fs cls ss) ObjectIn := by
  intro t fs is cls hl h
  cases ss with
  | nil => unfold objectSels; exact .pure fun E => objectIn_empty
  | cons s rest =>
    unfold objectSels
    exact (scoped_objectSel s t fs is cls hl h.head).bind fun _ => (scoped_objectSels rest t fs is cls hl h.tail).bind fun _ =>
      .pure fun E hb ha => ha.append hb
theorem scoped_interfaceSel (s : Sel) : ∀ (t : String) (fs : List FieldDef) (is : List String) (base : String),
    S.schema.lookup t = some (.interface fs is) → WalkIn S t [s] →
    Scoped c.env S X (interfaceSel c fs base s) InterfaceIn := by
  intro t fs is base hl h
  cases s with
  | spread f =>
    unfold interfaceSel
    exact (scoped_spreadImplementations h.spread).bind fun _ => .pure fun E hb => ⟨trivial, .nil, hb, by simp⟩
  | inline o sub =>
    cases o with
    | none => unfold interfaceSel; exact .fail
    | some o =>
      unfold interfaceSel
      refine scoped_requireObject.bind fun _ => (scoped_inlineSels sub o base h.inline).bind fun x => .pure ?_
      intro E hx _
      refine ⟨hx.1, .nil, by simp, ?_⟩
      intro q hq
      rw [List.mem_singleton.1 hq]
      exact hx.2
  | field n a as sub =>
    unfold interfaceSel
    refine .ite (fun _ => .pure fun E => interfaceIn_empty) fun _ => ?_
    refine scoped_fieldNamed.bindP (V := fun fd => FieldOn S.schema t n fd.type)
      (fun r fd r' hv => (fieldNamed_value hv).2 ▸ .interface hl (fieldNamed_value hv).1) fun fd hfd => ?_
    have hw := h.field hfd
    refine (scoped_typeField (scoped_namedNode hp hX hF hSc hw.mem
      (fun fs is k hl => scoped_objectSels sub _ fs is k hl hw) (fun fs is k hl => scoped_interfaceSels sub _ fs is k hl hw)
      (fun ms hl => scoped_unionSels sub _ ms _ hl hw))).bind fun x => .pure ?_
    intro E hx _
    exact ⟨hx.1, hx.2, by simp, by simp⟩
theorem scoped_interfaceSels (ss : List Sel) : ∀ (t : String) (fs : List FieldDef) (is : List String) (base : String),
    S.schema.lookup t = some (.interface fs is) → WalkIn S t ss →
    Scoped c.env S X (interfaceSels c fs base ss) InterfaceIn := by
  intro t fs is base hl h
  cases ss with
  | nil => unfold interfaceSels; exact .pure fun E => interfaceIn_empty
  | cons s rest =>
    unfold interfaceSels
    exact (scoped_interfaceSel s t fs is base hl h.head).bind fun _ =>
      (scoped_interfaceSels rest t fs is base hl h.tail).bind fun _ => .pure fun E hb ha => ha.append hb
theorem scoped_inlineSel (s : Sel) : ∀ (t parent : String), WalkIn S t [s] →
    Scoped c.env S X (inlineSel c t parent s) PartsIn := by
  intro t parent h
  cases s with
  | spread f => unfold inlineSel; exact .pure fun E => partsIn_empty
  | inline t sub => unfold inlineSel; exact .pure fun E => partsIn_empty
  | field n a as sub =>
    unfold inlineSel
    refine .ite (fun _ => .pure fun E => partsIn_empty) fun _ => ?_
    refine scoped_fieldDefOf.bindP (V := fun fd => FieldOn S.schema t n fd.type)
      (fun r fd r' hv => by rw [hSc]; exact fieldDefOf_value hv) fun fd hfd => ?_
    have hw := h.field hfd
    exact (scoped_typeField (scoped_namedNode hp hX hF hSc hw.mem
      (fun fs is k hl => scoped_objectSels sub _ fs is k hl hw) (fun fs is k hl => scoped_interfaceSels sub _ fs is k hl hw)
      (fun ms hl => scoped_unionSels sub _ ms _ hl hw))).mono fun _ _ hx _ => hx
theorem scoped_inlineSels (ss : List Sel) : ∀ (t parent : String), WalkIn S t ss →
    Scoped c.env S X (inlineSels c t parent ss) PartsIn := by
  intro t parent h
  cases ss with
  | nil => unfold inlineSels; exact .pure fun E => partsIn_empty
  | cons s rest =>
    unfold inlineSels
    exact (scoped_inlineSel s t parent h.head).bind fun _ => (scoped_inlineSels rest t parent h.tail).bind fun _ =>
      .pure fun E hb ha => ha.append hb
theorem scoped_unionSel (s : Sel) : ∀ (t : String) (ms : List String) (parent : String),
    S.schema.lookup t = some (.union ms) → WalkIn S t [s] →
    Scoped c.env S X (unionSel c parent s) UnionIn := by
  intro t ms parent hl h
  cases s with
  | spread f =>
    unfold unionSel
    refine (scoped_inheritFragment h.spread (h.2 f (.here hl (List.mem_singleton.2 rfl)))).bind fun n =>
      .pure fun E hb => ⟨trivial, ?_⟩
    intro m hm
    rw [List.mem_singleton.1 hm]
    exact .inl hb
  | inline o sub =>
    cases o with
    | none => unfold unionSel; exact .fail
    | some o =>
      unfold unionSel
      refine (scoped_unionInlineSels sub o _ h.inline fun f hf => h.2 f (.member hl (List.mem_singleton.2 rfl) hf)).bind fun p =>
        (scoped_inlineClass hp hX).bind fun ss => .pure ?_
      intro E hs hpi
      exact hs hpi
  | field n a as sub => unfold unionSel; exact .pure fun E => ⟨trivial, by simp⟩
theorem scoped_unionSels (ss : List Sel) : ∀ (t : String) (ms : List String) (parent : String),
    S.schema.lookup t = some (.union ms) → WalkIn S t ss →
    Scoped c.env S X (unionSels c parent ss) UnionIn := by
  intro t ms parent hl h
  cases ss with
  | nil => unfold unionSels; exact .pure fun E => ⟨trivial, by simp⟩
  | cons s rest =>
    unfold unionSels
    exact (scoped_unionSel s t ms parent hl h.head).bind fun _ => (scoped_unionSels rest t ms parent hl h.tail).bind fun _ =>
      .pure fun E hb ha => ha.append hb
theorem scoped_unionInlineSel (s : Sel) : ∀ (t cls : String), WalkIn S t [s] → (∀ f, Sel.spread f ∈ [s] → S.union f) →
    Scoped c.env S X (unionInlineSel c t cls s) ObjectIn := by
  intro t cls h hu
  cases s with
  | spread f =>
    unfold unionInlineSel
    exact (scoped_inlineSpreadBase h.spread (hu f (List.mem_singleton.2 rfl))).bind fun _ =>
      .pure fun E hb => ⟨trivial, .nil, by simpa using hb⟩
  | inline t sub => unfold unionInlineSel; exact .pure fun E => objectIn_empty
  | field n a as sub =>
    unfold unionInlineSel
    refine .ite (fun _ => .pure fun E => objectIn_empty) fun _ => ?_
    refine scoped_objectFieldNamed.bindP (V := fun fd => FieldOn S.schema t n fd.type)
      (fun r fd r' hv => by rw [hSc]; exact objectFieldNamed_value hv) fun fd hfd => ?_
    have hw := h.field hfd
    refine (scoped_typeField (scoped_namedNode hp hX hF hSc hw.mem
      (fun fs is k hl => scoped_objectSels sub _ fs is k hl hw) (fun fs is k hl => scoped_interfaceSels sub _ fs is k hl hw)
      (fun ms hl => scoped_unionSels sub _ ms _ hl hw))).bind fun x => .pure ?_
    intro E hx _
    exact ⟨hx.1, hx.2, by simp⟩
theorem scoped_unionInlineSels (ss : List Sel) : ∀ (t cls : String), WalkIn S t ss →
    (∀ f, Sel.spread f ∈ ss → S.union f) → Scoped c.env S X (unionInlineSels c t cls ss) ObjectIn := by
  intro t cls h hu
  cases ss with
  | nil => unfold unionInlineSels; exact .pure fun E => objectIn_empty
  | cons s rest =>
    unfold unionInlineSels
    exact (scoped_unionInlineSel s t cls h.head fun f hf => hu f (by
        rw [← List.mem_singleton.1 hf]; exact List.mem_cons_self ..)).bind fun _ =>
      (scoped_unionInlineSels rest t cls h.tail fun f hf => hu f (List.mem_cons_of_mem _ hf)).bind fun _ =>
      .pure fun E hb ha => ha.append hb
end

theorem scoped_typeFieldNode {parent : String} {fd : FieldDef} {name : String} {al : Option String} {sub : List Sel}
    (h : WalkIn S fd.type.base sub) : Scoped c.env S X (typeFieldNode c parent fd name al sub) PartsIn := by
  unfold typeFieldNode recurseNamed
  exact scoped_typeField (scoped_namedNode hp hX hF hSc h.mem
    (fun fs is k hl => scoped_objectSels hp hX hF hSc sub _ fs is k hl h)
    (fun fs is k hl => scoped_interfaceSels hp hX hF hSc sub _ fs is k hl h)
    (fun ms hl => scoped_unionSels hp hX hF hSc sub _ ms _ hl h))

end
end
end Turms
