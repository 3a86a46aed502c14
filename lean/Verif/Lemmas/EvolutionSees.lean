import Verif.Lemmas.Evolution
import Verif.Spec.Skip
import Verif.Model.Recurse

/-! # The enums a selection set mentions are among the names two registries agree on -/

namespace Turms
open Spec

/-- both registries know the same about every enum, or the selections are valid and they know the same about every enum
that a field selected somewhere below has -/
def Sees (N : Old) (s : Schema) (parent : String) (sels : List Sel) : Prop :=
  (∀ x, IsEnum s x → N.names x) ∨
  (NoMeta s ∧ (∀ x ∈ sels, ValidOn s parent x) ∧ ∀ x, Reaches s parent sels x → IsEnum s x → N.names x)

/-- what is below a field of type `b` -/
structure Under (N : Old) (s : Schema) (b : String) (sub : List Sel) : Prop where
  enum : IsEnum s b → N.names b
  below : IsComposite s b → Sees N s b sub

variable {N : Old} {s : Schema}

theorem _root_.Turms.Spec.Reaches.mono {p x : String} {a b : List Sel} (h : Reaches s p a x) : (∀ y ∈ a, y ∈ b) → Reaches s p b x := by
  intro hs
  cases h with
  | field h1 h2 h3 => exact .field (hs _ h1) h2 h3
  | deeper h1 h2 h3 h4 h5 => exact .deeper (hs _ h1) h2 h3 h4 h5
  | inline h1 h2 => exact .inline (hs _ h1) h2
  | bare h1 h2 => exact .bare (hs _ h1) h2

theorem Sees.sub {p : String} {a b : List Sel} (h : Sees N s p b) (hs : ∀ y ∈ a, y ∈ b) : Sees N s p a := by
  rcases h with h | ⟨hm, h1, h2⟩
  · exact .inl h
  · exact .inr ⟨hm, fun x hx => h1 x (hs x hx), fun x hx => h2 x (hx.mono hs)⟩
theorem Sees.head {p : String} {x : Sel} {b : List Sel} (h : Sees N s p (x :: b)) : Sees N s p [x] :=
  h.sub fun y hy => by rw [List.mem_singleton] at hy; subst hy; exact List.mem_cons_self
theorem Sees.tail {p : String} {x : Sel} {b : List Sel} (h : Sees N s p (x :: b)) : Sees N s p b :=
  h.sub fun _ hy => List.mem_cons_of_mem _ hy
theorem Sees.inline {p c : String} {sub : List Sel} (h : Sees N s p [.inline (some c) sub]) : Sees N s c sub := by
  rcases h with h | ⟨hm, h1, h2⟩
  · exact .inl h
  · refine .inr ⟨hm, ?_, fun x hx => h2 x (.inline List.mem_cons_self hx)⟩
    cases h1 _ List.mem_cons_self with
    | inline _ h => exact h

theorem Sees.has {p n : String} {a : Option String} {as : List (String × Value)} {sub : List Sel} {t : TypeNode}
    (h : Sees N s p [.field n a as sub]) (hn : n ≠ "__typename") (hf : HasField s p n t) : Under N s t.base sub := by
  rcases h with h | ⟨hm, h1, h2⟩
  · exact ⟨fun he => h _ he, fun _ => .inl h⟩
  · refine ⟨fun he => h2 _ (.field List.mem_cons_self hn hf) he, fun hc => .inr ⟨hm, ?_, fun x hx =>
      h2 x (.deeper List.mem_cons_self hn hf hc hx)⟩⟩
    have huniq : ∀ t', HasField s p n t' → t' = t := by
      rintro t' ⟨fs, is, f, hl, hg, rfl⟩
      obtain ⟨fs', is', f', hl', hg', rfl⟩ := hf
      have : fs = fs' := by rcases hl with hl | hl <;> rcases hl' with hl' | hl' <;> rw [hl] at hl' <;> cases hl' <;> rfl
      subst this
      rw [hg] at hg'
      cases hg'
      rfl
    cases h1 _ List.mem_cons_self with
    | typename => exact (hn rfl).elim
    | leaf _ h _ => intro x hx; cases hx
    | composite _ h _ _ hs => rw [← huniq _ h]; exact hs

theorem hasField_object {p n : String} {fs : List FieldDef} {is : List String} {f : FieldDef}
    (hl : s.lookup p = some (.object fs is) ∨ s.lookup p = some (.interface fs is))
    (hf : fs.find? (fun f => f.name == n) = some f) : HasField s p n f.type := ⟨fs, is, f, hl, hf, rfl⟩

theorem Sees.get {p n : String} {a : Option String} {as : List (String × Value)} {sub : List Sel} {f : FieldDef}
    (h : Sees N s p [.field n a as sub]) (hf : getFieldDef s p n = some f) : Under N s f.type.base sub := by
  by_cases hn : n = "__typename"
  · subst hn
    rcases h with h | ⟨hm, h1, h2⟩
    · exact ⟨fun he => h _ he, fun _ => .inl h⟩
    · have : f.type.base = "String" := by
        unfold getFieldDef at hf
        simp only [show ("__typename" == "__schema") = false from by decide +kernel,
          show ("__typename" == "__type") = false from by decide +kernel, Bool.false_and, Bool.false_eq_true, if_false,
          beq_self_eq_true, if_true, Option.some.injEq] at hf
        subst hf
        rfl
      rw [this]
      refine ⟨fun he => (hm.string he).elim, fun _ => .inr ⟨hm, ?_, ?_⟩⟩
      · cases h1 _ List.mem_cons_self with
        | typename => intro x hx; cases hx
        | leaf h => exact (h rfl).elim
        | composite h => exact (h rfl).elim
      · cases h1 _ List.mem_cons_self with
        | typename =>
          intro x hx
          cases hx with
          | field h => cases h
          | deeper h => cases h
          | inline h => cases h
          | bare h => cases h
        | leaf h => exact (h rfl).elim
        | composite h => exact (h rfl).elim
  · by_cases ha : ∀ x, IsEnum s x → N.names x
    · exact ⟨fun he => ha _ he, fun _ => .inl ha⟩
    · have h' := h
      rcases h with h | ⟨hm, h1, h2⟩
      · exact (ha h).elim
      · have hh : ∃ t, HasField s p n t := by
          cases h1 _ List.mem_cons_self with
          | typename => exact (hn rfl).elim
          | leaf _ h _ => exact ⟨_, h⟩
          | composite _ h _ _ hs => exact ⟨_, h⟩
        obtain ⟨t, fs, is, g, hl, hg, rfl⟩ := hh
        have hgn : g.name = n := by simpa using List.find?_some hg
        have hmem := List.mem_of_find?_eq_some hg
        have hno : n ≠ "__schema" ∧ n ≠ "__type" := by
          rw [← hgn]
          rcases hl with hl | hl
          · exact hm.objects _ _ _ _ hl hmem
          · exact hm.interfaces _ _ _ _ hl hmem
        have hfo : s.fieldsOf p = some fs := by
          unfold Schema.fieldsOf
          rcases hl with hl | hl <;> rw [hl]
        unfold getFieldDef at hf
        simp only [beq_eq_false_iff_ne.2 hno.1, beq_eq_false_iff_ne.2 hno.2, beq_eq_false_iff_ne.2 hn, Bool.false_and,
          Bool.false_eq_true, if_false, hfo, Option.getD_some] at hf
        exact h'.has hn (hasField_object hl hf)

/-- whatever is reached from every value the first generator may return -/
theorem Sim.bindOf {α β : Type} {x x' : Gen α} {f f' : α → Gen β} (hx : Sim N x x')
    (hf : ∀ a, (∃ r r', x r = .ok (a, r')) → Sim N (f a) (f' a)) : Sim N (x >>= f) (x' >>= f') := ⟨fun r r' b r1 hA h => by
  obtain ⟨a, r2, h1, h2⟩ := Gen.bind_ok.1 h
  obtain ⟨r2', e1, hA1⟩ := hx.run _ _ _ _ hA h1
  obtain ⟨r1', e2, hA2⟩ := (hf a ⟨_, _, h1⟩).run _ _ _ _ hA1 h2
  exact ⟨r1', Gen.bind_ok.2 ⟨a, r2', e1, e2⟩, hA2⟩⟩

theorem Sim.iteOf {α : Type} {p : Prop} [Decidable p] {x y x' y' : Gen α} (hx : Sim N x x') (hy : ¬ p → Sim N y y') :
    Sim N (if p then x else y) (if p then x' else y') := by
  split
  · exact hx
  · exact hy ‹_›

end Turms
