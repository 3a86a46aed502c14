import Verif.Model.Referencer
import Verif.Spec.Referencer
import Verif.Lemmas.Basic

/-! # Lemmas about the reference analysis -/

namespace Turms
open Spec

/-- nothing registered is forgotten -/
structure RefReg.Le (a b : RefReg) : Prop where
  enums : ∀ n ∈ a.enums, n ∈ b.enums
  inputs : ∀ n ∈ a.inputs, n ∈ b.inputs
  scalars : ∀ n ∈ a.scalars, n ∈ b.scalars

theorem RefReg.Le.rfl' (a : RefReg) : a.Le a := ⟨fun _ h => h, fun _ h => h, fun _ h => h⟩

theorem RefReg.Le.trans {a b c : RefReg} (h : a.Le b) (h' : b.Le c) : a.Le c :=
  ⟨fun _ x => h'.1 _ (h.1 _ x), fun _ x => h'.2 _ (h.2 _ x), fun _ x => h'.3 _ (h.3 _ x)⟩

/-- `n` is registered, if it is a type that gets registered -/
structure Covered (s : Schema) (r : RefReg) (n : String) : Prop where
  enums : IsEnum s n → n ∈ r.enums
  inputs : IsInput s n → n ∈ r.inputs
  scalars : IsScalar s n → n ∈ r.scalars

theorem Covered.mono {s : Schema} {a b : RefReg} {n : String} (h : Covered s a n) (hl : a.Le b) : Covered s b n :=
  ⟨fun x => hl.1 _ (h.1 x), fun x => hl.2 _ (h.2 x), fun x => hl.3 _ (h.3 x)⟩

/-- the types of all fields of the input `m` are registered -/
def ClosedAt (s : Schema) (r : RefReg) (m : String) : Prop :=
  ∀ fs ds, s.lookup m = some (.input fs ds) → ∀ f ∈ fs, Covered s r f.type.base

theorem ClosedAt.mono {s : Schema} {a b : RefReg} {n : String} (h : ClosedAt s a n) (hl : a.Le b) : ClosedAt s b n :=
  fun fs ds hx f hf => (h fs ds hx f hf).mono hl

/-- everything registered is in the given sets, and of its kind -/
structure Within (s : Schema) (qi q : String → Prop) (r : RefReg) : Prop where
  enums : ∀ n ∈ r.enums, q n ∧ IsEnum s n
  inputs : ∀ n ∈ r.inputs, qi n ∧ IsInput s n
  scalars : ∀ n ∈ r.scalars, q n ∧ IsScalar s n

/-- the set contains the field types of its input types -/
def FieldClosed (s : Schema) (q : String → Prop) : Prop :=
  ∀ m fs ds, q m → s.lookup m = some (.input fs ds) → ∀ f ∈ fs, q f.type.base

/-- What one step of the analysis does: it starts from the types `t` of variables and `l` of selected fields and
has to register `c`. -/
structure Step (s : Schema) (t l c : String → Prop) (r r' : RefReg) : Prop where
  le : r.Le r'
  cover : ∀ n, c n → Covered s r' n
  closed : ∀ m ∈ r'.inputs, m ∈ r.inputs ∨ ClosedAt s r' m
  sound : ∀ qi q : String → Prop, (∀ n, qi n → q n) → FieldClosed s qi → (∀ n, t n → qi n) → (∀ n, l n → q n) →
    Within s qi q r → Within s qi q r'

theorem Step.nothing {s : Schema} {t l : String → Prop} (r : RefReg) : Step s t l (fun _ => False) r r :=
  ⟨.rfl' r, fun _ h => h.elim, fun _ h => .inl h, fun _ _ _ _ _ _ h => h⟩

theorem Step.weaken {s : Schema} {t t' l l' c c' : String → Prop} {r r' : RefReg} (h : Step s t l c r r')
    (ht : ∀ n, t n → t' n) (hl : ∀ n, l n → l' n) (hc : ∀ n, c' n → c n) : Step s t' l' c' r r' :=
  ⟨h.le, fun n hn => h.cover n (hc n hn), h.closed,
    fun qi q h1 h2 h3 h4 => h.sound qi q h1 h2 (fun n hn => h3 n (ht n hn)) (fun n hn => h4 n (hl n hn))⟩

theorem Step.trans {s : Schema} {t l c c' : String → Prop} {r r1 r2 : RefReg} (h : Step s t l c r r1)
    (h' : Step s t l c' r1 r2) : Step s t l (fun n => c n ∨ c' n) r r2 := by
  refine ⟨h.le.trans h'.le, ?_, ?_, ?_⟩
  · rintro n (hn | hn)
    · exact (h.cover n hn).mono h'.le
    · exact h'.cover n hn
  · intro m hm
    rcases h'.closed m hm with h1 | h1
    · rcases h.closed m h1 with h2 | h2
      · exact .inl h2
      · exact .inr (h2.mono h'.le)
    · exact .inr h1
  · intro qi q h1 h2 h3 h4 h5
    exact h'.sound qi q h1 h2 h3 h4 (h.sound qi q h1 h2 h3 h4 h5)

theorem kinds_disjoint {s : Schema} {n : String} :
    ¬ (IsEnum s n ∧ IsScalar s n) ∧ ¬ (IsEnum s n ∧ IsInput s n) ∧ ¬ (IsScalar s n ∧ IsInput s n) := by
  refine ⟨?_, ?_, ?_⟩
  · rintro ⟨⟨_, h⟩, h'⟩; rw [IsScalar, h] at h'; cases h'
  · rintro ⟨⟨_, h⟩, ⟨_, _, h'⟩⟩; rw [h] at h'; cases h'
  · rintro ⟨h, ⟨_, _, h'⟩⟩; rw [IsScalar] at h; rw [h] at h'; cases h'

theorem addScalar_step {s : Schema} {t l : String → Prop} {n : String} (hs : IsScalar s n) (r : RefReg)
    (h : t n ∨ l n) : Step s t l (fun x => x = n) r (r.addScalar n) := by
  refine ⟨⟨fun _ h => h, fun _ h => h, fun _ h => (mem_setAdd _ _ _).2 (.inl h)⟩, ?_, fun _ h => .inl h, ?_⟩
  · rintro x rfl
    exact ⟨fun hx => absurd ⟨hx, hs⟩ kinds_disjoint.1, fun hx => absurd ⟨hs, hx⟩ kinds_disjoint.2.2,
      fun _ => (mem_setAdd _ _ _).2 (.inr rfl)⟩
  · intro qi q h1 h2 h3 h4 h5
    refine ⟨h5.1, h5.2, fun x hx => ?_⟩
    rcases (mem_setAdd _ _ _).1 hx with hx | rfl
    · exact h5.3 x hx
    · exact ⟨h.elim (fun a => h1 _ (h3 _ a)) (h4 _), hs⟩

theorem addEnum_step {s : Schema} {t l : String → Prop} {n : String} (hs : IsEnum s n) (r : RefReg)
    (h : t n ∨ l n) : Step s t l (fun x => x = n) r (r.addEnum n) := by
  refine ⟨⟨fun _ h => (mem_setAdd _ _ _).2 (.inl h), fun _ h => h, fun _ h => h⟩, ?_, fun _ h => .inl h, ?_⟩
  · rintro x rfl
    exact ⟨fun _ => (mem_setAdd _ _ _).2 (.inr rfl), fun hx => absurd ⟨hs, hx⟩ kinds_disjoint.2.1,
      fun hx => absurd ⟨hs, hx⟩ kinds_disjoint.1⟩
  · intro qi q h1 h2 h3 h4 h5
    refine ⟨fun x hx => ?_, h5.2, h5.3⟩
    rcases (mem_setAdd _ _ _).1 hx with hx | rfl
    · exact h5.1 x hx
    · exact ⟨h.elim (fun a => h1 _ (h3 _ a)) (h4 _), hs⟩

theorem refWrapped_eq (named : String → RefReg → Except Err RefReg) (t : TypeNode) (r : RefReg) :
    refWrapped named t r = named t.base r := by
  induction t with
  | named n => rfl
  | list t ih => exact ih
  | nonNull t ih => exact ih

/-! ## the types of variables -/

theorem refFields_step {s : Schema} {named : String → RefReg → Except Err RefReg} {l : String → Prop}
    (hn : ∀ n r r', named n r = .ok r' → Step s (fun x => x = n) l (fun x => x = n) r r')
    (fs : List InputFieldDef) (r r' : RefReg) (h : refFields named fs r = .ok r') :
    Step s (fun x => ∃ f ∈ fs, x = f.type.base) l (fun x => ∃ f ∈ fs, x = f.type.base) r r' := by
  induction fs generalizing r with
  | nil =>
    cases h
    exact (Step.nothing r').weaken (t := fun _ => False) (l := l) (fun _ h => h.elim) (fun _ h => h) (by simp)
  | cons f fs ih =>
    unfold refFields at h
    rw [refWrapped_eq] at h
    cases h1 : named f.type.base r with
    | error e => rw [h1] at h; cases h
    | ok r1 =>
      rw [h1] at h
      have s1 := (hn _ _ _ h1).weaken (t' := fun x => ∃ g ∈ f :: fs, x = g.type.base) (l' := l) (c' := fun x => x = f.type.base)
        (fun n hn => ⟨f, by simp, hn⟩) (fun _ h => h) (fun _ h => h)
      have s2 := (ih r1 h).weaken (t' := fun x => ∃ g ∈ f :: fs, x = g.type.base) (l' := l)
        (c' := fun x => ∃ g ∈ fs, x = g.type.base)
        (fun n ⟨g, hg, e⟩ => ⟨g, by simp [hg], e⟩) (fun _ h => h) (fun _ h => h)
      refine (s1.trans s2).weaken (fun _ h => h) (fun _ h => h) ?_
      rintro n ⟨g, hg, e⟩
      rcases List.mem_cons.1 hg with rfl | hg
      · exact .inl e
      · exact .inr ⟨g, hg, e⟩

theorem refNamed_step {s : Schema} {l : String → Prop} (k : Nat) (n : String) (r r' : RefReg) (h : refNamed s k n r = .ok r') :
    Step s (fun x => x = n) l (fun x => x = n) r r' := by
  induction k generalizing n r r' with
  | zero =>
    unfold refNamed at h
    split at h
    · cases h
    · rename_i hl; cases h; exact addScalar_step hl r (.inl rfl)
    · rename_i vs hl; cases h; exact addEnum_step ⟨vs, hl⟩ r (.inl rfl)
    · rename_i fs ds hl
      split at h
      · rename_i hc
        cases h
        have hi : IsInput s n := ⟨fs, ds, hl⟩
        refine ⟨.rfl' _, ?_, fun _ h => .inl h, fun _ _ _ _ _ _ h => h⟩
        rintro x rfl
        exact ⟨fun hx => absurd ⟨hx, hi⟩ kinds_disjoint.2.1, fun _ => by simpa using hc,
          fun hx => absurd ⟨hx, hi⟩ kinds_disjoint.2.2⟩
      · cases h
    · cases h
  | succ k ih =>
    unfold refNamed at h
    split at h
    · cases h
    · rename_i hl; cases h; exact addScalar_step hl r (.inl rfl)
    · rename_i vs hl; cases h; exact addEnum_step ⟨vs, hl⟩ r (.inl rfl)
    · rename_i fs ds hl
      have hi : IsInput s n := ⟨fs, ds, hl⟩
      split at h
      · rename_i hc
        cases h
        refine ⟨.rfl' _, ?_, fun _ h => .inl h, fun _ _ _ _ _ _ h => h⟩
        rintro x rfl
        exact ⟨fun hx => absurd ⟨hx, hi⟩ kinds_disjoint.2.1, fun _ => by simpa using hc,
          fun hx => absurd ⟨hx, hi⟩ kinds_disjoint.2.2⟩
      · have hs := refFields_step (l := l) (fun n r r' h => ih n r r' h) fs _ _ h
        have hle : r.Le (r.addInput n) := ⟨fun _ h => h, fun _ h => (mem_setAdd _ _ _).2 (.inl h), fun _ h => h⟩
        have hmem : n ∈ r'.inputs := hs.le.inputs _ ((mem_setAdd _ _ _).2 (.inr rfl))
        refine ⟨hle.trans hs.le, ?_, ?_, ?_⟩
        · rintro x rfl
          exact ⟨fun hx => absurd ⟨hx, hi⟩ kinds_disjoint.2.1, fun _ => hmem,
            fun hx => absurd ⟨hx, hi⟩ kinds_disjoint.2.2⟩
        · intro m hm
          rcases hs.closed m hm with h1 | h1
          · rcases (mem_setAdd _ _ _).1 h1 with h1 | rfl
            · exact .inl h1
            · right
              intro fs' ds' hl' f hf
              rw [hl] at hl'
              cases hl'
              exact hs.cover _ ⟨f, hf, rfl⟩
          · exact .inr h1
        · intro qi q h1 h2 h3 h4 h5
          refine hs.sound qi q h1 h2 ?_ h4 ⟨h5.1, ?_, h5.3⟩
          · rintro x ⟨f, hf, rfl⟩
            exact h2 n fs ds (h3 n rfl) hl f hf
          · intro x hx
            rcases (mem_setAdd _ _ _).1 hx with hx | rfl
            · exact h5.2 x hx
            · exact ⟨h3 _ rfl, hi⟩
    · cases h

theorem refType_step {s : Schema} {l : String → Prop} (t : TypeNode) (r r' : RefReg) (h : refType s t r = .ok r') :
    Step s (fun x => x = t.base) l (fun x => x = t.base) r r' := by
  unfold refType at h
  rw [refWrapped_eq] at h
  exact refNamed_step _ _ _ _ h

theorem refVariables_step {s : Schema} {l : String → Prop} (vs : List VarDef) (r r' : RefReg) (h : refVariables s vs r = .ok r') :
    Step s (fun x => ∃ v ∈ vs, x = v.type.base) l (fun x => ∃ v ∈ vs, x = v.type.base) r r' := by
  induction vs generalizing r with
  | nil =>
    cases h
    exact (Step.nothing r').weaken (t := fun _ => False) (l := l) (fun _ h => h.elim) (fun _ h => h) (by simp)
  | cons v vs ih =>
    unfold refVariables at h
    cases h1 : refType s v.type r with
    | error e => rw [h1] at h; cases h
    | ok r1 =>
      rw [h1] at h
      have s1 := (refType_step (l := l) _ _ _ h1).weaken (t' := fun x => ∃ g ∈ v :: vs, x = g.type.base) (l' := l) (c' := fun x => x = v.type.base)
        (fun n hn => ⟨v, by simp, hn⟩) (fun _ h => h) (fun _ h => h)
      have s2 := (ih r1 h).weaken (t' := fun x => ∃ g ∈ v :: vs, x = g.type.base) (l' := l)
        (c' := fun x => ∃ g ∈ vs, x = g.type.base)
        (fun n ⟨g, hg, e⟩ => ⟨g, by simp [hg], e⟩) (fun _ h => h) (fun _ h => h)
      refine (s1.trans s2).weaken (fun _ h => h) (fun _ h => h) ?_
      rintro n ⟨g, hg, e⟩
      rcases List.mem_cons.1 hg with rfl | hg
      · exact .inl e
      · exact .inr ⟨g, hg, e⟩

/-! ## selections -/

theorem Reaches.mono {s : Schema} {p : String} {a b : List Sel} {x : String} (h : Reaches s p a x) (hs : ∀ y ∈ a, y ∈ b) :
    Reaches s p b x := by
  cases h with
  | field h1 h2 h3 => exact .field (hs _ h1) h2 h3
  | deeper h1 h2 h3 h4 h5 => exact .deeper (hs _ h1) h2 h3 h4 h5
  | inline h1 h2 => exact .inline (hs _ h1) h2
  | bare h1 h2 => exact .bare (hs _ h1) h2

theorem Reaches.cons {s : Schema} {p : String} {a : Sel} {b : List Sel} {x : String} (h : Reaches s p (a :: b) x) :
    Reaches s p [a] x ∨ Reaches s p b x := by
  cases h with
  | field h1 h2 h3 =>
    rcases List.mem_cons.1 h1 with rfl | h1
    · exact .inl (.field (List.mem_singleton.2 rfl) h2 h3)
    · exact .inr (.field h1 h2 h3)
  | deeper h1 h2 h3 h4 h5 =>
    rcases List.mem_cons.1 h1 with rfl | h1
    · exact .inl (.deeper (List.mem_singleton.2 rfl) h2 h3 h4 h5)
    · exact .inr (.deeper h1 h2 h3 h4 h5)
  | inline h1 h2 =>
    rcases List.mem_cons.1 h1 with rfl | h1
    · exact .inl (.inline (by simp) h2)
    · exact .inr (.inline h1 h2)
  | bare h1 h2 =>
    rcases List.mem_cons.1 h1 with rfl | h1
    · exact .inl (.bare (by simp) h2)
    · exact .inr (.bare h1 h2)

theorem not_selects_nil {s : Schema} {p x : String} (h : Reaches s p [] x) : False := by
  cases h with
  | field h1 => cases h1
  | deeper h1 => cases h1
  | inline h1 => cases h1
  | bare h1 => cases h1

theorem not_selects_spread {s : Schema} {p x n : String} (h : Reaches s p [.spread n] x) : False := by
  cases h with
  | field h1 => simp at h1
  | deeper h1 => simp at h1
  | inline h1 => simp at h1
  | bare h1 => simp at h1

theorem refFieldType_hasField {s : Schema} {parent n : String} {t : TypeNode} (hf : hasFields (s.lookup parent) = true)
    (h : refFieldType (s.lookup parent) n = .ok t) : HasField s parent n t := by
  unfold refFieldType at h
  cases hl : s.lookup parent with
  | none => rw [hl] at hf; cases hf
  | some d =>
    rw [hl] at h hf
    cases d with
    | object fs is =>
      dsimp only at h
      split at h
      · rename_i f hf'; cases h; exact ⟨fs, is, f, .inl hl, hf', rfl⟩
      · cases h
    | interface fs is =>
      dsimp only at h
      split at h
      · rename_i f hf'; cases h; exact ⟨fs, is, f, .inr hl, hf', rfl⟩
      · cases h
    | scalar => cases hf
    | enum _ => cases hf
    | input _ _ => cases hf
    | union _ => cases hf

theorem HasField.unique {s : Schema} {parent n : String} {t t' : TypeNode} (h : HasField s parent n t) (h' : HasField s parent n t') :
    t = t' := by
  obtain ⟨fs, is, f, hl, hf, rfl⟩ := h
  obtain ⟨fs', is', f', hl', hf', rfl⟩ := h'
  have : fs = fs' := by
    rcases hl with hl | hl <;> rcases hl' with hl' | hl' <;> rw [hl] at hl' <;> cases hl' <;> rfl
  subst this
  rw [hf] at hf'
  cases hf'
  rfl

theorem selects_field {s : Schema} {p n x : String} {a : Option String} {args : List (String × Value)} {sub : List Sel}
    {t : TypeNode} (ht : HasField s p n t) (h : Reaches s p [.field n a args sub] x) : x = t.base ∨ IsComposite s t.base ∧ Reaches s t.base sub x := by
  cases h with
  | field h1 h2 h3 =>
    simp only [List.mem_singleton, Sel.field.injEq] at h1
    obtain ⟨rfl, -, -, rfl⟩ := h1
    rw [HasField.unique h3 ht]; exact .inl rfl
  | deeper h1 h2 h3 h4 h5 =>
    simp only [List.mem_singleton, Sel.field.injEq] at h1
    obtain ⟨rfl, -, -, rfl⟩ := h1
    rw [HasField.unique h3 ht] at h4 h5; exact .inr ⟨h4, h5⟩
  | inline h1 => simp at h1
  | bare h1 => simp at h1

theorem not_selects_typename {s : Schema} {p x : String} {a : Option String} {args : List (String × Value)} {sub : List Sel}
    (h : Reaches s p [.field "__typename" a args sub] x) : False := by
  cases h with
  | field h1 h2 => simp only [List.mem_singleton, Sel.field.injEq] at h1; exact h2 h1.1
  | deeper h1 h2 => simp only [List.mem_singleton, Sel.field.injEq] at h1; exact h2 h1.1
  | inline h1 => simp at h1
  | bare h1 => simp at h1

theorem selects_inline {s : Schema} {p c x : String} {sub : List Sel} (h : Reaches s p [.inline (some c) sub] x) :
    Reaches s c sub x := by
  cases h with
  | field h1 => simp at h1
  | deeper h1 => simp at h1
  | inline h1 h2 =>
    simp only [List.mem_singleton, Sel.inline.injEq, Option.some.injEq] at h1
    obtain ⟨rfl, rfl⟩ := h1
    exact h2
  | bare h1 => simp at h1

theorem _root_.Turms.Spec.Flat.sub {n : String} {a : Option String} {args : List (String × Value)} {sub : List Sel}
    (h : Flat (.field n a args sub)) : ∀ x ∈ sub, Flat x := by
  cases h with
  | field h => exact h

/-- what a field of the given type and sub-selections selects -/
def FieldSelects (s : Schema) (typename : String) (sub : List Sel) (x : String) : Prop :=
  x = typename ∨ IsComposite s typename ∧ Reaches s typename sub x

theorem selects_of_fieldSelects {s : Schema} {p n x : String} {a : Option String} {args : List (String × Value)}
    {sub : List Sel} {t : TypeNode} (hn : n ≠ "__typename") (ht : HasField s p n t) (h : FieldSelects s t.base sub x) :
    Reaches s p [.field n a args sub] x := by
  rcases h with rfl | ⟨h1, h2⟩
  · exact .field (List.mem_singleton.2 rfl) hn ht
  · exact .deeper (List.mem_singleton.2 rfl) hn ht h1 h2

theorem not_composite_of_leaf {s : Schema} {n : String} (h : IsScalar s n ∨ IsEnum s n) : ¬ IsComposite s n := by
  rintro (⟨_, _, h'⟩ | ⟨_, _, h'⟩ | ⟨_, h'⟩) <;> rcases h with h | ⟨_, h⟩ <;>
    (try rw [IsScalar] at h) <;> rw [h] at h' <;> cases h'

mutual
theorem findRefs_step (s : Schema) (t : String → Prop) (name typename : String) : (sub : List Sel) → (r r' : RefReg) →
    findRefs s name typename sub r = .ok r' →
    Step s t (FieldSelects s typename sub) (fun x => (∀ y ∈ sub, Flat y) ∧ FieldSelects s typename sub x) r r'
  | sub, r, r', h => by
    unfold findRefs at h
    split at h
    · rename_i hl
      cases h
      refine (addScalar_step hl r (.inr (.inl rfl))).weaken (fun _ h => h) (fun _ h => h) ?_
      rintro n ⟨-, hn | ⟨hn, -⟩⟩
      · exact hn
      · exact absurd hn (not_composite_of_leaf (.inl hl))
    · rename_i vs hl
      cases h
      refine (addEnum_step ⟨vs, hl⟩ r (.inr (.inl rfl))).weaken (fun _ h => h) (fun _ h => h) ?_
      rintro n ⟨-, hn | ⟨hn, -⟩⟩
      · exact hn
      · exact absurd hn (not_composite_of_leaf (.inr ⟨vs, hl⟩))
    · cases h
    · cases h
    · rename_i d h1 h2 h3 hl
      have hcomp : IsComposite s typename := by
        cases d with
        | scalar => exact absurd rfl h1
        | enum vs => exact absurd rfl (h2 vs)
        | input fs ds => exact absurd rfl (h3 fs ds)
        | object fs is => exact .inl ⟨fs, is, hl⟩
        | interface fs is => exact .inr (.inl ⟨fs, is, hl⟩)
        | union ms => exact .inr (.inr ⟨ms, hl⟩)
      have hself : Covered s r' typename := by
        refine ⟨fun h => absurd hcomp (not_composite_of_leaf (.inr h)), ?_, fun h => absurd hcomp (not_composite_of_leaf (.inl h))⟩
        rintro ⟨fs, ds, h⟩
        rw [hl] at h; cases h; exact absurd rfl (h3 fs ds)
      match sub, h with
      | x :: xs, h =>
        dsimp only at h
        cases hx : findSub s d x r with
        | error e => rw [hx] at h; cases h
        | ok r1 =>
          rw [hx] at h
          have s1 := findSub_step s t typename d hl x r r1 hx
          have s2 := findSubs_step s t typename d hl xs r1 r' h
          have s1' := s1.weaken (t' := t) (l' := FieldSelects s typename (x :: xs)) (c' := _) (fun _ h => h)
            (fun n hn => .inr ⟨hcomp, Reaches.mono hn (by simp)⟩) (fun _ h => h)
          have s2' := s2.weaken (t' := t) (l' := FieldSelects s typename (x :: xs)) (c' := _) (fun _ h => h)
            (fun n hn => .inr ⟨hcomp, Reaches.mono hn (fun y hy => by simp [hy])⟩) (fun _ h => h)
          have s3 := s1'.trans s2'
          refine ⟨s3.le, ?_, s3.closed, s3.sound⟩
          rintro n ⟨hflat, rfl | ⟨-, hn⟩⟩
          · exact hself
          · apply s3.cover
            rcases Reaches.cons hn with hn | hn
            · exact .inl ⟨hflat x (by simp), hn⟩
            · exact .inr ⟨fun y hy => hflat y (by simp [hy]), hn⟩
theorem findSub_step (s : Schema) (t : String → Prop) (parent : String) (d : TypeDef) (hl : s.lookup parent = some d) :
    (x : Sel) → (r r' : RefReg) → findSub s d x r = .ok r' →
    Step s t (Reaches s parent [x]) (fun n => Flat x ∧ Reaches s parent [x] n) r r'
  | .spread n, r, r', h => by
    unfold findSub at h
    cases h
    exact ⟨⟨fun _ h => h, fun _ h => h, fun _ h => h⟩, fun _ hn => (not_selects_spread hn.2).elim, fun _ h => .inl h,
      fun _ _ _ _ _ _ h => ⟨h.1, h.2, h.3⟩⟩
  | .inline c sub, r, r', h => by
    unfold findSub at h
    refine (findInline_step s t c sub r r' h).weaken (fun _ h => h) ?_ ?_
    · rintro n ⟨c', rfl, hn⟩
      exact .inline (by simp) hn
    · rintro n ⟨hf, hn⟩
      cases hf with
      | inline h1 h2 => exact ⟨h1, h2, _, rfl, selects_inline hn⟩
  | .field n a args sub, r, r', h => by
    unfold findSub at h
    split at h
    · rename_i hn
      rw [beq_iff_eq] at hn
      subst hn
      cases h
      exact (Step.nothing (l := fun _ => False) _).weaken (fun _ h => h) (fun _ h => h.elim) fun _ h => (not_selects_typename h.2).elim
    · rename_i hn
      split at h
      · cases h
      · rename_i hfs
        split at h
        · cases h
        · rename_i ty hty
          have hf : HasField s parent n ty := refFieldType_hasField (by rw [hl]; simpa using hfs) (by rw [hl]; exact hty)
          refine (findRefs_step s t n ty.base sub r r' h).weaken (fun _ h => h) ?_ ?_
          · intro x hx; exact selects_of_fieldSelects (by simpa using hn) hf hx
          · rintro x ⟨hx, hx'⟩
            exact ⟨hx.sub, selects_field hf hx'⟩
theorem findSubs_step (s : Schema) (t : String → Prop) (parent : String) (d : TypeDef) (hl : s.lookup parent = some d) :
    (xs : List Sel) → (r r' : RefReg) → findSubs s d xs r = .ok r' →
    Step s t (Reaches s parent xs) (fun n => (∀ y ∈ xs, Flat y) ∧ Reaches s parent xs n) r r'
  | [], r, r', h => by
    unfold findSubs at h
    cases h
    exact (Step.nothing (l := fun _ => False) _).weaken (fun _ h => h) (fun _ h => h.elim) fun _ h => (not_selects_nil h.2).elim
  | x :: xs, r, r', h => by
    unfold findSubs at h
    cases hx : findSub s d x r with
    | error e => rw [hx] at h; cases h
    | ok r1 =>
      rw [hx] at h
      have s1 := (findSub_step s t parent d hl x r r1 hx).weaken (t' := t) (l' := Reaches s parent (x :: xs)) (c' := _) (fun _ h => h)
        (fun n hn => Reaches.mono hn (by simp)) (fun _ h => h)
      have s2 := (findSubs_step s t parent d hl xs r1 r' h).weaken (t' := t) (l' := Reaches s parent (x :: xs)) (c' := _) (fun _ h => h)
        (fun n hn => Reaches.mono hn (fun y hy => by simp [hy])) (fun _ h => h)
      refine (s1.trans s2).weaken (fun _ h => h) (fun _ h => h) ?_
      rintro n ⟨hflat, hn⟩
      rcases Reaches.cons hn with hn | hn
      · exact .inl ⟨hflat x (by simp), hn⟩
      · exact .inr ⟨fun y hy => hflat y (by simp [hy]), hn⟩
theorem findInline_step (s : Schema) (t : String → Prop) (c : Option String) : (xs : List Sel) → (r r' : RefReg) →
    findInline s c xs r = .ok r' →
    Step s t (fun n => ∃ c', c = some c' ∧ Reaches s c' xs n)
      (fun n => (∀ y ∈ xs, Flat y) ∧ (∀ c' sub', Sel.inline c' sub' ∉ xs) ∧ ∃ c', c = some c' ∧ Reaches s c' xs n) r r'
  | [], r, r', h => by
    unfold findInline at h
    cases h
    exact (Step.nothing (l := fun _ => False) _).weaken (fun _ h => h) (fun _ h => h.elim) fun _ ⟨_, _, _, _, h⟩ => (not_selects_nil h).elim
  | .spread m :: xs, r, r', h => by
    unfold findInline at h
    refine (findInline_step s t c xs r r' h).weaken (fun _ h => h) ?_ ?_
    · rintro n ⟨c', rfl, hn⟩
      exact ⟨c', rfl, Reaches.mono hn (fun y hy => by simp [hy])⟩
    · rintro n ⟨h1, h2, c', rfl, hn⟩
      refine ⟨fun y hy => h1 y (by simp [hy]), fun a b hab => h2 a b (by simp [hab]), c', rfl, ?_⟩
      rcases Reaches.cons hn with hn | hn
      · exact (not_selects_spread hn).elim
      · exact hn
  | .inline a b :: xs, r, r', h => by
    unfold findInline at h
    refine (findInline_step s t c xs r r' h).weaken (fun _ h => h) ?_ ?_
    · rintro n ⟨c', rfl, hn⟩
      exact ⟨c', rfl, Reaches.mono hn (fun y hy => by simp [hy])⟩
    · rintro n ⟨h1, h2, c', rfl, hn⟩
      exact absurd (by simp) (h2 a b)
  | .field n a args sub :: xs, r, r', h => by
    unfold findInline at h
    cases c with
    | none => cases h
    | some c =>
      dsimp only at h
      split at h
      · rename_i hn
        rw [beq_iff_eq] at hn
        subst hn
        refine (findInline_step s t (some c) xs r r' h).weaken (fun _ h => h) ?_ ?_
        · rintro n ⟨c', hc, hn⟩
          exact ⟨c', hc, Reaches.mono hn (fun y hy => by simp [hy])⟩
        · rintro n ⟨h1, h2, c', hc, hn⟩
          refine ⟨fun y hy => h1 y (by simp [hy]), fun a b hab => h2 a b (by simp [hab]), c', hc, ?_⟩
          rcases Reaches.cons hn with hn | hn
          · exact (not_selects_typename hn).elim
          · exact hn
      · rename_i hn
        split at h
        · cases h
        · rename_i hfs
          cases hty : refFieldType (s.lookup c) n with
          | error e => rw [hty] at h; cases h
          | ok ty =>
            rw [hty] at h
            dsimp only at h
            have hf : HasField s c n ty := refFieldType_hasField (by simpa using hfs) hty
            cases hr : findRefs s n ty.base sub r with
            | error e => rw [hr] at h; cases h
            | ok r1 =>
              rw [hr] at h
              have s1 := (findRefs_step s t n ty.base sub r r1 hr).weaken (t' := t)
                (l' := fun n' => ∃ c', some c = some c' ∧ Reaches s c' (.field n a args sub :: xs) n') (c' := _) (fun _ h => h)
                (fun x hx => ⟨c, rfl, Reaches.mono (selects_of_fieldSelects (a := a) (args := args) (by simpa using hn) hf hx) (by simp)⟩) (fun _ h => h)
              have s2 := (findInline_step s t (some c) xs r1 r' h).weaken (t' := t)
                (l' := fun n' => ∃ c', some c = some c' ∧ Reaches s c' (.field n a args sub :: xs) n') (c' := _) (fun _ h => h)
                (fun x ⟨c', hc, hx⟩ => ⟨c', hc, Reaches.mono hx (fun y hy => by simp [hy])⟩) (fun _ h => h)
              refine (s1.trans s2).weaken (fun _ h => h) (fun _ h => h) ?_
              rintro x ⟨h1, h2, c', hc, hx⟩
              cases hc
              rcases Reaches.cons hx with hx | hx
              · exact .inl ⟨(h1 (.field n a args sub) (by simp)).sub, selects_field hf hx⟩
              · exact .inr ⟨fun y hy => h1 y (by simp [hy]), fun a b hab => h2 a b (by simp [hab]), c, rfl, hx⟩
end

/-! ## the recursion ends -/

/-- how many type names are not registered as inputs yet -/
def room (s : Schema) (r : RefReg) : Nat := (s.types.keys.filter (fun n => !decide (n ∈ r.inputs))).length

theorem room_le {s : Schema} {r r' : RefReg} (h : r.Le r') : room s r' ≤ room s r := by
  unfold room
  generalize s.types.keys = l
  induction l with
  | nil => simp
  | cons a l ih =>
    rw [List.filter_cons, List.filter_cons]
    have := h.inputs a
    by_cases h1 : a ∈ r.inputs <;> by_cases h2 : a ∈ r'.inputs <;> simp [h1, h2] <;> first | omega | exact absurd (this h1) h2 | exact ih

theorem room_lt {s : Schema} {r : RefReg} {n : String} (hk : n ∈ s.types.keys) (hn : n ∉ r.inputs) :
    room s (r.addInput n) < room s r := by
  unfold room
  revert hk
  generalize s.types.keys = l
  intro hk
  have hsub : ∀ l : List String, (l.filter (fun m => !decide (m ∈ (r.addInput n).inputs))).length ≤
      (l.filter (fun m => !decide (m ∈ r.inputs))).length := by
    intro l
    induction l with
    | nil => simp
    | cons a l ih =>
      rw [List.filter_cons, List.filter_cons]
      have : a ∈ r.inputs → a ∈ (r.addInput n).inputs := fun h => (mem_setAdd _ _ _).2 (.inl h)
      by_cases h1 : a ∈ r.inputs <;> by_cases h2 : a ∈ (r.addInput n).inputs <;> simp [h1, h2] <;>
        first | omega | exact absurd (this h1) h2 | exact ih
  induction l with
  | nil => cases hk
  | cons a l ih =>
    rw [List.filter_cons, List.filter_cons]
    by_cases ha : a = n
    · subst ha
      have h2 : a ∈ (r.addInput a).inputs := (mem_setAdd _ _ _).2 (.inr rfl)
      have := hsub l
      simp [hn, h2]; omega
    · have ih := ih ((List.mem_cons.1 hk).resolve_left (fun h => ha h.symm))
      have : a ∈ (r.addInput n).inputs ↔ a ∈ r.inputs := by
        unfold RefReg.addInput
        rw [mem_setAdd]; simp [ha]
      by_cases h1 : a ∈ r.inputs
      · simp [h1, this.2 h1]; simpa using ih
      · simp [h1, mt this.1 h1]; simpa using ih

theorem mem_keys_of_lookup {s : Schema} {n : String} {d : TypeDef} (h : s.lookup n = some d) : n ∈ s.types.keys := by
  unfold Schema.lookup at h
  cases hg : s.types.get? n with
  | none => rw [hg] at h; cases h
  | some e => exact (Dict.get?_isSome_iff _ _).1 (by rw [hg]; rfl)

/-- enough room: the bound of the recursion is not reached -/
theorem refNamed_bound {s : Schema} (k : Nat) (n : String) (r : RefReg) (hk : room s r ≤ k) :
    refNamed s k n r ≠ .error (.invalid "bound") ∧ ∀ j ≥ k, refNamed s j n r = refNamed s k n r := by
  induction k generalizing n r with
  | zero =>
    have hin : ∀ fs ds, s.lookup n = some (.input fs ds) → n ∈ r.inputs := by
      intro fs ds hl
      refine Classical.byContradiction fun hn => ?_
      have := room_lt (mem_keys_of_lookup hl) hn
      omega
    constructor
    · unfold refNamed
      split
      · simp
      · simp
      · simp
      · rename_i fs ds hl
        rw [if_pos (by simpa using hin fs ds hl)]; simp
      · simp
    · intro j _
      unfold refNamed
      split
      · rfl
      · rfl
      · rfl
      · rename_i fs ds hl
        rw [if_pos (by simpa using hin fs ds hl), if_pos (by simpa using hin fs ds hl)]
      · rfl
  | succ k ih =>
    have hfields : ∀ (fs : List InputFieldDef) (r : RefReg), room s r ≤ k →
        refFields (refNamed s k) fs r ≠ .error (.invalid "bound") ∧
        ∀ j ≥ k, refFields (refNamed s j) fs r = refFields (refNamed s k) fs r := by
      intro fs
      induction fs with
      | nil => intro r _; simp [refFields]
      | cons f fs ihf =>
        intro r hr
        have h0 := ih f.type.base r hr
        constructor
        · unfold refFields
          rw [refWrapped_eq]
          cases h1 : refNamed s k f.type.base r with
          | error e => dsimp only; rw [h1] at h0; exact h0.1
          | ok r1 =>
            dsimp only
            exact (ihf r1 (Nat.le_trans (room_le (refNamed_step (l := fun _ => False) _ _ _ _ h1).le) hr)).1
        · intro j hj
          unfold refFields
          rw [refWrapped_eq, refWrapped_eq, h0.2 j hj]
          cases h1 : refNamed s k f.type.base r with
          | error e => rfl
          | ok r1 =>
            dsimp only
            exact (ihf r1 (Nat.le_trans (room_le (refNamed_step (l := fun _ => False) _ _ _ _ h1).le) hr)).2 j hj
    constructor
    · unfold refNamed
      split
      · simp
      · simp
      · simp
      · rename_i fs ds hl
        split
        · simp
        · rename_i hn
          have := room_lt (r := r) (mem_keys_of_lookup hl) (by simpa using hn)
          exact (hfields fs (r.addInput n) (by omega)).1
      · simp
    · intro j hj
      obtain ⟨j, rfl⟩ : ∃ i, j = i + 1 := ⟨j - 1, by omega⟩
      unfold refNamed
      split
      · rfl
      · rfl
      · rfl
      · rename_i fs ds hl
        split
        · rfl
        · rename_i hn
          have := room_lt (r := r) (mem_keys_of_lookup hl) (by simpa using hn)
          exact (hfields fs (r.addInput n) (by omega)).2 j (by omega)
      · rfl

theorem room_le_types (s : Schema) (r : RefReg) : room s r ≤ s.types.length + 1 := by
  unfold room
  refine Nat.le_trans (List.length_filter_le _ _) ?_
  simp [Dict.keys]

/-! ## it succeeds on valid documents -/

theorem refNamed_ok {s : Schema} (hs : ∀ m fs ds, s.lookup m = some (.input fs ds) → ∀ f ∈ fs, InputLike s f.type.base)
    (k : Nat) (n : String) (hn : InputLike s n) (r : RefReg) (hk : room s r ≤ k) : ∃ r', refNamed s k n r = .ok r' := by
  induction k generalizing n r with
  | zero =>
    have hin : ∀ fs ds, s.lookup n = some (.input fs ds) → n ∈ r.inputs := by
      intro fs ds hl
      refine Classical.byContradiction fun hn => ?_
      have := room_lt (mem_keys_of_lookup hl) hn
      omega
    unfold refNamed
    rcases hn with hn | ⟨vs, hn⟩ | ⟨fs, ds, hn⟩
    · rw [show s.lookup n = _ from hn]; exact ⟨_, rfl⟩
    · rw [hn]; exact ⟨_, rfl⟩
    · rw [hn]; dsimp only; rw [if_pos (by simpa using hin fs ds hn)]; exact ⟨_, rfl⟩
  | succ k ih =>
    have hfields : ∀ (fs : List InputFieldDef) (r : RefReg), (∀ f ∈ fs, InputLike s f.type.base) → room s r ≤ k →
        ∃ r', refFields (refNamed s k) fs r = .ok r' := by
      intro fs
      induction fs with
      | nil => intro r _ _; exact ⟨_, rfl⟩
      | cons f fs ihf =>
        intro r hf hr
        obtain ⟨r1, h1⟩ := ih f.type.base (hf f (by simp)) r hr
        unfold refFields
        rw [refWrapped_eq, h1]
        exact ihf r1 (fun g hg => hf g (by simp [hg])) (Nat.le_trans (room_le (refNamed_step (l := fun _ => False) _ _ _ _ h1).le) hr)
    unfold refNamed
    rcases hn with hn | ⟨vs, hn⟩ | ⟨fs, ds, hn⟩
    · rw [show s.lookup n = _ from hn]; exact ⟨_, rfl⟩
    · rw [hn]; exact ⟨_, rfl⟩
    · rw [hn]
      dsimp only
      split
      · exact ⟨_, rfl⟩
      · rename_i h
        have := room_lt (r := r) (mem_keys_of_lookup hn) (by simpa using h)
        exact hfields fs _ (hs n fs ds hn) (by omega)

theorem HasField.fieldType {s : Schema} {parent n : String} {t : TypeNode} (h : HasField s parent n t) :
    hasFields (s.lookup parent) = true ∧ refFieldType (s.lookup parent) n = .ok t := by
  obtain ⟨fs, is, f, hl | hl, hf, rfl⟩ := h
  · rw [hl]; exact ⟨rfl, by unfold refFieldType; dsimp only; rw [hf]⟩
  · rw [hl]; exact ⟨rfl, by unfold refFieldType; dsimp only; rw [hf]⟩

theorem validOn_field {s : Schema} {parent n : String} {a : Option String} {args : List (String × Value)} {sub : List Sel}
    (h : ValidOn s parent (.field n a args sub)) : n = "__typename" ∨ n ≠ "__typename" ∧ ∃ t, HasField s parent n t ∧
      ((IsScalar s t.base ∨ IsEnum s t.base) ∨ IsComposite s t.base ∧ sub ≠ [] ∧ ∀ x ∈ sub, ValidOn s t.base x) := by
  cases h with
  | typename => exact .inl rfl
  | leaf hn hf ht => exact .inr ⟨hn, _, hf, .inl ht⟩
  | composite hn hf ht hne hv => exact .inr ⟨hn, _, hf, .inr ⟨ht, hne, hv⟩⟩

mutual
theorem findRefs_ok (s : Schema) (name typename : String) : (sub : List Sel) → (r : RefReg) →
    ((IsScalar s typename ∨ IsEnum s typename) ∨ IsComposite s typename ∧ sub ≠ [] ∧ ∀ x ∈ sub, ValidOn s typename x) →
    ∃ r', findRefs s name typename sub r = .ok r'
  | sub, r, h => by
    unfold findRefs
    rcases h with (h | ⟨vs, h⟩) | ⟨hc, hne, hv⟩
    · rw [show s.lookup typename = _ from h]; exact ⟨_, rfl⟩
    · rw [h]; exact ⟨_, rfl⟩
    · match sub, hne, hv with
      | x :: xs, _, hv =>
        have key : ∀ d, s.lookup typename = some d → ∃ r', (match findSub s d x r with
            | .error e => Except.error e
            | .ok r => findSubs s d xs r) = .ok r' := by
          intro d hd
          obtain ⟨r1, h1⟩ := findSub_ok s typename d hd x (hv x (by simp)) r
          rw [h1]
          exact findSubs_ok s typename d hd xs (fun y hy => hv y (by simp [hy])) r1
        rcases hc with ⟨fs, is, h⟩ | ⟨fs, is, h⟩ | ⟨ms, h⟩
        · rw [h]; exact key _ h
        · rw [h]; exact key _ h
        · rw [h]; exact key _ h
theorem findSub_ok (s : Schema) (parent : String) (d : TypeDef) (hl : s.lookup parent = some d) : (x : Sel) →
    ValidOn s parent x → (r : RefReg) → ∃ r', findSub s d x r = .ok r'
  | .spread n, _, r => by unfold findSub; exact ⟨_, rfl⟩
  | .inline c sub, h, r => by
    unfold findSub
    cases h with
    | inline h1 h2 => exact findInline_ok s _ sub h2 r
  | .field n a args sub, h, r => by
    unfold findSub
    rcases validOn_field h with rfl | ⟨hn, t, hf, ht⟩
    · exact ⟨_, rfl⟩
    · rw [if_neg (by simpa using hn)]
      have := HasField.fieldType hf
      rw [hl] at this
      rw [if_neg (by simp [this.1]), this.2]
      exact findRefs_ok s n t.base sub r ht
theorem findSubs_ok (s : Schema) (parent : String) (d : TypeDef) (hl : s.lookup parent = some d) : (xs : List Sel) →
    (∀ x ∈ xs, ValidOn s parent x) → (r : RefReg) → ∃ r', findSubs s d xs r = .ok r'
  | [], _, r => by unfold findSubs; exact ⟨_, rfl⟩
  | x :: xs, h, r => by
    unfold findSubs
    obtain ⟨r1, h1⟩ := findSub_ok s parent d hl x (h x (by simp)) r
    rw [h1]
    exact findSubs_ok s parent d hl xs (fun y hy => h y (by simp [hy])) r1
theorem findInline_ok (s : Schema) (c : String) : (xs : List Sel) → (∀ x ∈ xs, ValidOn s c x) → (r : RefReg) →
    ∃ r', findInline s (some c) xs r = .ok r'
  | [], _, r => by unfold findInline; exact ⟨_, rfl⟩
  | .spread _ :: xs, h, r => by
    unfold findInline
    exact findInline_ok s c xs (fun y hy => h y (by simp [hy])) r
  | .inline _ _ :: xs, h, r => by
    unfold findInline
    exact findInline_ok s c xs (fun y hy => h y (by simp [hy])) r
  | .field n a args sub :: xs, h, r => by
    unfold findInline
    dsimp only
    have hx := h (.field n a args sub) (by simp)
    have hrest := findInline_ok s c xs (fun y hy => h y (by simp [hy]))
    rcases validOn_field hx with rfl | ⟨hn, t, hf, ht⟩
    · rw [if_pos (by simp)]; exact hrest r
    · rw [if_neg (by simpa using hn)]
      have := HasField.fieldType hf
      rw [if_neg (by simp [this.1]), this.2]
      obtain ⟨r1, h1⟩ := findRefs_ok s n t.base sub r ht
      dsimp only
      rw [h1]
      exact hrest r1
end

/-! ## whole definitions -/

theorem refTopField_ok {s : Schema} {parent n : String} {a : Option String} {args : List (String × Value)} {sub : List Sel}
    (h : ValidOn s parent (.field n a args sub)) (r : RefReg) :
    ∃ r', refTopField s (s.lookup parent) n sub r = .ok r' ∧
      ∀ t, Step s t (Reaches s parent [.field n a args sub])
        (fun x => Flat (.field n a args sub) ∧ Reaches s parent [.field n a args sub] x) r r' := by
  have key : ∀ ty, n ≠ "__typename" → HasField s parent n ty →
      (∃ r', findRefs s n ty.base sub r = .ok r') → ∃ r', refTopField s (s.lookup parent) n sub r = .ok r' ∧
      ∀ t, Step s t (Reaches s parent [.field n a args sub])
        (fun x => Flat (.field n a args sub) ∧ Reaches s parent [.field n a args sub] x) r r' := by
    rintro ty hn hf ⟨r', hr⟩
    refine ⟨r', ?_, fun t => ?_⟩
    · unfold refTopField
      rw [if_neg (by simpa using hn), (HasField.fieldType hf).2]
      exact hr
    · refine (findRefs_step s t n ty.base sub r r' hr).weaken (fun _ h => h) ?_ ?_
      · intro x hx; exact selects_of_fieldSelects hn hf hx
      · rintro x ⟨hx, hx'⟩
        exact ⟨hx.sub, selects_field hf hx'⟩
  cases h with
  | typename =>
    refine ⟨r, ?_, fun t => ?_⟩
    · unfold refTopField; rw [if_pos (by simp)]
    · exact (Step.nothing (l := fun _ => False) _).weaken (fun _ h => h) (fun _ h => h.elim) fun _ h => (not_selects_typename h.2).elim
  | leaf hn hf ht => exact key _ hn hf (findRefs_ok s n _ [] r (.inl ht))
  | composite hn hf ht hne hv => exact key _ hn hf (findRefs_ok s n _ sub r (.inr ⟨ht, hne, hv⟩))

theorem refTopInline_ok {s : Schema} {c : String} (xs : List Sel) (h : ∀ x ∈ xs, ValidOn s c x) (r : RefReg) :
    ∃ r', refTopInline s (s.lookup c) xs r = .ok r' ∧
      ∀ t, Step s t (Reaches s c xs)
        (fun x => (∀ y ∈ xs, Flat y) ∧ (∀ c' sub', Sel.inline c' sub' ∉ xs) ∧ Reaches s c xs x) r r' := by
  induction xs generalizing r with
  | nil => exact ⟨r, rfl, fun t => (Step.nothing (l := fun _ => False) _).weaken (fun _ h => h) (fun _ h => h.elim)
      fun _ h => (not_selects_nil h.2.2).elim⟩
  | cons y xs ih =>
    have ih := ih (fun x hx => h x (by simp [hx]))
    cases y with
    | spread m =>
      obtain ⟨r', h1, h2⟩ := ih r
      refine ⟨r', h1, fun t => (h2 t).weaken (fun _ h => h) (fun n hn => Reaches.mono hn (fun y hy => by simp [hy])) ?_⟩
      rintro n ⟨h3, h4, hn⟩
      refine ⟨fun y hy => h3 y (by simp [hy]), fun a b hab => h4 a b (by simp [hab]), ?_⟩
      exact (Reaches.cons hn).resolve_left not_selects_spread
    | inline a b =>
      obtain ⟨r', h1, h2⟩ := ih r
      refine ⟨r', h1, fun t => (h2 t).weaken (fun _ h => h) (fun n hn => Reaches.mono hn (fun y hy => by simp [hy])) ?_⟩
      rintro n ⟨h3, h4, hn⟩
      exact absurd (by simp) (h4 a b)
    | field n a args sub =>
      obtain ⟨r1, h1, h2⟩ := refTopField_ok (h (.field n a args sub) (by simp)) r
      obtain ⟨r', h3, h4⟩ := ih r1
      refine ⟨r', by unfold refTopInline; rw [h1]; exact h3, fun t => ?_⟩
      have s1 := (h2 t).weaken (t' := t) (l' := Reaches s c (.field n a args sub :: xs)) (c' := _) (fun _ h => h)
        (fun n hn => Reaches.mono hn (by simp)) (fun _ h => h)
      have s2 := (h4 t).weaken (t' := t) (l' := Reaches s c (.field n a args sub :: xs)) (c' := _) (fun _ h => h)
        (fun n hn => Reaches.mono hn (fun y hy => by simp [hy])) (fun _ h => h)
      refine (s1.trans s2).weaken (fun _ h => h) (fun _ h => h) ?_
      rintro x ⟨h5, h6, hx⟩
      rcases Reaches.cons hx with hx | hx
      · exact .inl ⟨h5 _ (by simp), hx⟩
      · exact .inr ⟨fun y hy => h5 y (by simp [hy]), fun a b hab => h6 a b (by simp [hab]), hx⟩

theorem refOperationSels_eq (s : Schema) (d : Option TypeDef) (xs : List Sel) (r : RefReg) :
    refOperationSels s d xs r = refTopInline s d xs r := by
  induction xs generalizing r with
  | nil => rfl
  | cons y xs ih =>
    cases y with
    | spread m => exact ih r
    | inline a b => exact ih r
    | field n a args sub =>
      unfold refOperationSels refTopInline
      cases refTopField s d n sub r with
      | error e => rfl
      | ok r1 => exact ih r1

theorem refFragment_ok {s : Schema} {c : String} (xs : List Sel) (h : ∀ x ∈ xs, ValidOn s c x) (r : RefReg) :
    ∃ r', refFragment s (s.lookup c) xs r = .ok r' ∧
      ∀ t, Step s t (Reaches s c xs) (fun x => (∀ y ∈ xs, Flat y) ∧ Reaches s c xs x) r r' := by
  induction xs generalizing r with
  | nil => exact ⟨r, rfl, fun t => (Step.nothing (l := fun _ => False) _).weaken (fun _ h => h) (fun _ h => h.elim)
      fun _ h => (not_selects_nil h.2).elim⟩
  | cons y xs ih =>
    have ih := ih (fun x hx => h x (by simp [hx]))
    have glue : ∀ r1 r' (t : String → Prop), Step s t (Reaches s c [y]) (fun x => Flat y ∧ Reaches s c [y] x) r r1 →
        Step s t (Reaches s c xs) (fun x => (∀ y ∈ xs, Flat y) ∧ Reaches s c xs x) r1 r' →
        Step s t (Reaches s c (y :: xs)) (fun x => (∀ z ∈ y :: xs, Flat z) ∧ Reaches s c (y :: xs) x) r r' := by
      intro r1 r' t h2 h4
      have s1 := h2.weaken (t' := t) (l' := Reaches s c (y :: xs)) (c' := _) (fun _ h => h)
        (fun n hn => Reaches.mono hn (by simp)) (fun _ h => h)
      have s2 := h4.weaken (t' := t) (l' := Reaches s c (y :: xs)) (c' := _) (fun _ h => h)
        (fun n hn => Reaches.mono hn (fun y hy => by simp [hy])) (fun _ h => h)
      refine (s1.trans s2).weaken (fun _ h => h) (fun _ h => h) ?_
      rintro x ⟨h5, hx⟩
      rcases Reaches.cons hx with hx | hx
      · exact .inl ⟨h5 _ (by simp), hx⟩
      · exact .inr ⟨fun y hy => h5 y (by simp [hy]), hx⟩
    cases y with
    | spread m =>
      obtain ⟨r', h1, h2⟩ := ih r
      refine ⟨r', h1, fun t => glue r r' t ?_ (h2 t)⟩
      exact (Step.nothing (l := fun _ => False) _).weaken (fun _ h => h) (fun _ h => h.elim) fun _ h => (not_selects_spread h.2).elim
    | inline a b =>
      have hv := h (.inline a b) (by simp)
      cases hv with
      | @inline _ c' _ hc hb =>
        obtain ⟨r1, h1, h2⟩ := refTopInline_ok b hb r
        obtain ⟨r', h3, h4⟩ := ih r1
        refine ⟨r', by unfold refFragment; dsimp only; rw [h1]; exact h3, fun t => glue r1 r' t ?_ (h4 t)⟩
        refine (h2 t).weaken (fun _ h => h) (fun n hn => .inline (List.mem_singleton.2 rfl) hn) ?_
        rintro n ⟨hf, hn⟩
        cases hf with
        | inline h5 h6 => exact ⟨h5, h6, selects_inline hn⟩
    | field n a args sub =>
      obtain ⟨r1, h1, h2⟩ := refTopField_ok (h (.field n a args sub) (by simp)) r
      obtain ⟨r', h3, h4⟩ := ih r1
      exact ⟨r', by unfold refFragment; rw [h1]; exact h3, fun t => glue r1 r' t (h2 t) (h4 t)⟩

theorem refVariables_ok {s : Schema} (hs : ∀ m fs ds, s.lookup m = some (.input fs ds) → ∀ f ∈ fs, InputLike s f.type.base)
    (vs : List VarDef) (hv : ∀ v ∈ vs, InputLike s v.type.base) (r : RefReg) : ∃ r', refVariables s vs r = .ok r' := by
  induction vs generalizing r with
  | nil => exact ⟨_, rfl⟩
  | cons v vs ih =>
    unfold refVariables refType
    rw [refWrapped_eq]
    obtain ⟨r1, h1⟩ := refNamed_ok hs (s.types.length + 1) v.type.base (hv v (by simp)) r (room_le_types s r)
    rw [h1]
    exact ih (fun w hw => hv w (by simp [hw])) r1

end Turms
