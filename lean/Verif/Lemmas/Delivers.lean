import Verif.Spec.Delivers
import Verif.Lemmas.ResponsePlugins

/-! # Which values annotations accept, read backwards -/

namespace Turms
open Spec

section
variable {s : Schema} {defs : Dict FragDef} {T : List Stmt} {isa : String → Val → Prop}

theorem picksAt_picks {o p : String} {sels : List Sel} {key name : String} {sub : List Sel} {t : TypeNode}
    (h : PicksAt s defs o p sels key name sub t) : Picks s defs o sels key name sub := by
  induction h with
  | field h => exact .field h
  | spread h1 h2 h3 _ ih => exact .spread h1 h2 h3 ih
  | inline h1 h2 _ ih => exact .inline h1 h2 ih
  | inlineAny h1 _ ih => exact .inlineAny h1 ih

theorem picksAt_mono {o p : String} {sels sels' : List Sel} {key name : String} {sub : List Sel} {t : TypeNode}
    (h : PicksAt s defs o p sels key name sub t) (hs : ∀ x ∈ sels, x ∈ sels') :
    PicksAt s defs o p sels' key name sub t := by
  cases h with
  | field h1 h2 => exact .field (hs _ h1) h2
  | spread h1 h2 h3 h4 => exact .spread (hs _ h1) h2 h3 h4
  | inline h1 h2 h3 => exact .inline (hs _ h1) h2 h3
  | inlineAny h1 h2 => exact .inlineAny (hs _ h1) h2

theorem mayAccept_optional {t : Expr} {v : Val} (h : MayAccept T isa (sub "Optional" t) v) :
    v = .null ∨ MayAccept T isa t v := by
  unfold sub at h
  generalize he : Expr.subscript (.name "Optional") t = e at h
  cases h with
  | «opaque» => cases he
  | model => cases he
  | alias => cases he
  | forward => cases he
  | optionalNone => exact .inl rfl
  | optionalSome h => injection he with _ h2; subst h2; exact .inr h
  | list h => injection he with h1 h2; injection h1 with h1; exact absurd h1 (by decide)
  | tuple h => injection he with h1 h2; injection h1 with h1; exact absurd h1 (by decide)
  | union h => injection he with h1 h2; injection h1 with h1; exact absurd h1 (by decide)
  | annotated h => injection he with h1 h2; injection h1 with h1; exact absurd h1 (by decide)
  | discriminated h => injection he with h1 h2; injection h1 with h1; exact absurd h1 (by decide)
  | literal => injection he with h1 h2; injection h1 with h1; exact absurd h1 (by decide)

theorem mayAccept_if {o : Bool} {e : Expr} {v : Val} (h : MayAccept T isa (if o then sub "Optional" e else e) v) :
    (o = true ∧ v = .null) ∨ MayAccept T isa e v := by
  cases o with
  | true => exact (mayAccept_optional h).imp (fun h => ⟨rfl, h⟩) id
  | false => exact .inr h

theorem mayAccept_listBuilder {b : Bool} {t : Expr} {v : Val} (h : MayAccept T isa (listBuilder b t) v) :
    ∃ l, v = .list l ∧ ∀ x ∈ l, MayAccept T isa t x := by
  unfold listBuilder sub at h
  split at h
  · generalize he : Expr.subscript (.name "Tuple") (.tuple [t, .const .ellipsis]) = e at h
    cases h with
    | «opaque» => cases he
    | model => cases he
    | alias => cases he
    | forward => cases he
    | tuple h =>
      injection he with _ h2; injection h2 with h2; injection h2 with h2; subst h2
      exact ⟨_, rfl, h⟩
    | optionalNone => injection he with h1 h2; injection h1 with h1; exact absurd h1 (by decide)
    | optionalSome h => injection he with h1 h2; injection h1 with h1; exact absurd h1 (by decide)
    | list h => injection he with h1 h2; injection h1 with h1; exact absurd h1 (by decide)
    | union h => injection he with h1 h2; injection h1 with h1; exact absurd h1 (by decide)
    | annotated h => injection he with h1 h2; injection h1 with h1; exact absurd h1 (by decide)
    | discriminated h => injection he with h1 h2; injection h1 with h1; exact absurd h1 (by decide)
    | literal => injection he with h1 h2; injection h1 with h1; exact absurd h1 (by decide)
  · generalize he : Expr.subscript (.name "List") t = e at h
    cases h with
    | «opaque» => cases he
    | model => cases he
    | alias => cases he
    | forward => cases he
    | list h => injection he with _ h2; subst h2; exact ⟨_, rfl, h⟩
    | optionalNone => injection he with h1 h2; injection h1 with h1; exact absurd h1 (by decide)
    | optionalSome h => injection he with h1 h2; injection h1 with h1; exact absurd h1 (by decide)
    | tuple h => injection he with h1 h2; injection h1 with h1; exact absurd h1 (by decide)
    | union h => injection he with h1 h2; injection h1 with h1; exact absurd h1 (by decide)
    | annotated h => injection he with h1 h2; injection h1 with h1; exact absurd h1 (by decide)
    | discriminated h => injection he with h1 h2; injection h1 with h1; exact absurd h1 (by decide)
    | literal => injection he with h1 h2; injection h1 with h1; exact absurd h1 (by decide)

theorem mayAccept_union {ts : List Expr} {v : Val} (h : MayAccept T isa (sub "Union" (.tuple ts)) v) :
    ∃ t ∈ ts, MayAccept T isa t v := by
  unfold sub at h
  generalize he : Expr.subscript (.name "Union") (.tuple ts) = e at h
  cases h with
  | «opaque» => cases he
  | model => cases he
  | alias => cases he
  | forward => cases he
  | union h1 h2 => injection he with _ h3; injection h3 with h3; subst h3; exact ⟨_, h1, h2⟩
  | optionalNone => injection he with h1 h2; injection h1 with h1; exact absurd h1 (by decide)
  | optionalSome h => injection he with h1 h2; injection h1 with h1; exact absurd h1 (by decide)
  | tuple h => injection he with h1 h2; injection h1 with h1; exact absurd h1 (by decide)
  | list h => injection he with h1 h2; injection h1 with h1; exact absurd h1 (by decide)
  | annotated h => injection he with h1 h2; injection h1 with h1; exact absurd h1 (by decide)
  | discriminated h => injection he with h1 h2; injection h1 with h1; exact absurd h1 (by decide)
  | literal => injection he with h1 h2; injection h1 with h1; exact absurd h1 (by decide)

/-- metadata without discriminator, or a discriminated union -/
theorem mayAccept_annotated {t : Expr} {ms : List Expr} {v : Val}
    (h : MayAccept T isa (sub "Annotated" (.tuple (t :: ms))) v) :
    ((∀ m ∈ ms, discriminatorOf m = none) ∧ MayAccept T isa t v) ∨
    ∃ ts m d n key tag kvs, t = sub "Union" (.tuple ts) ∧ ms = [m] ∧ v = .obj kvs ∧ discriminatorOf m = some d ∧
      Expr.name n ∈ ts ∧ Tagged T n d key tag ∧ Val.entry kvs key = some (.atom tag) ∧
      MayAccept T isa (.name n) (.obj kvs) := by
  unfold sub at h
  generalize he : Expr.subscript (.name "Annotated") (.tuple (t :: ms)) = e at h
  cases h with
  | «opaque» => cases he
  | model => cases he
  | alias => cases he
  | forward => cases he
  | annotated h1 h2 =>
    injection he with _ h3; injection h3 with h3; injection h3 with h3 h4; subst h3 h4; exact .inl ⟨h1, h2⟩
  | discriminated h1 h2 h3 h4 h5 =>
    injection he with _ h6; injection h6 with h6; injection h6 with h6 h7; subst h6 h7
    exact .inr ⟨_, _, _, _, _, _, _, rfl, rfl, rfl, h1, h2, h3, h4, h5⟩
  | union h => injection he with h1 h2; injection h1 with h1; exact absurd h1 (by decide)
  | optionalNone => injection he with h1 h2; injection h1 with h1; exact absurd h1 (by decide)
  | optionalSome h => injection he with h1 h2; injection h1 with h1; exact absurd h1 (by decide)
  | tuple h => injection he with h1 h2; injection h1 with h1; exact absurd h1 (by decide)
  | list h => injection he with h1 h2; injection h1 with h1; exact absurd h1 (by decide)
  | literal => injection he with h1 h2; injection h1 with h1; exact absurd h1 (by decide)

theorem mayAccept_plain {t : Expr} {ms : List Expr} {v : Val} (hn : ∀ m ∈ ms, discriminatorOf m = none)
    (h : MayAccept T isa (sub "Annotated" (.tuple (t :: ms))) v) : MayAccept T isa t v := by
  rcases mayAccept_annotated h with h | ⟨_, m, d, _, _, _, _, _, rfl, _, h, _⟩
  · exact h.2
  · rw [hn m (List.mem_singleton.2 rfl)] at h; cases h

theorem mayAccept_literal {x : String} {v : Val}
    (h : MayAccept T isa (.subscript (.name "Literal") (.const (.str x))) v) : v = .atom x := by
  generalize he : Expr.subscript (.name "Literal") (.const (.str x)) = e at h
  cases h with
  | «opaque» => cases he
  | model => cases he
  | alias => cases he
  | forward => cases he
  | literal => injection he with _ h2; injection h2 with h2; injection h2 with h2; rw [h2]
  | union h => injection he with h1 h2; injection h1 with h1; exact absurd h1 (by decide)
  | optionalNone => injection he with h1 h2; injection h1 with h1; exact absurd h1 (by decide)
  | optionalSome h => injection he with h1 h2; injection h1 with h1; exact absurd h1 (by decide)
  | tuple h => injection he with h1 h2; injection h1 with h1; exact absurd h1 (by decide)
  | list h => injection he with h1 h2; injection h1 with h1; exact absurd h1 (by decide)
  | annotated h => injection he with h1 h2; injection h1 with h1; exact absurd h1 (by decide)
  | discriminated h => injection he with h1 h2; injection h1 with h1; exact absurd h1 (by decide)

theorem mayAccept_forward {n : String} {v : Val} (h : MayAccept T isa (.const (.str n)) v) :
    MayAccept T isa (.name n) v := by
  cases h with
  | forward h => exact h

/-- what is accepted for a name from outside the module -/
theorem mayAccept_outside {n : String} {v : Val} (h1 : ¬ IsClass T n) (h2 : ∀ e, Stmt.assign (.name n) e ∉ T)
    (h : MayAccept T isa (.name n) v) : isa n v := by
  cases h with
  | «opaque» _ _ h => exact h
  | model _ h => exact (h1 h).elim
  | alias h => exact (h2 _ h).elim

theorem attrOf_fieldOf {st : Stmt} {attr : String} (h : attrOf st = some attr) : ∃ f, fieldOf st = some f := by
  cases st with
  | annAssign t a v =>
    cases v with
    | none => exact ⟨_, rfl⟩
    | some v =>
      unfold fieldOf
      split <;> first | exact ⟨_, rfl⟩ | (split <;> exact ⟨_, rfl⟩) | (rename_i hx; cases hx) | skip
      all_goals exact (by rename_i a b c d; exact absurd rfl (d _ _ _))
  | _ => cases h

/-- a value accepted for a class: for every attribute there is a declaration it satisfies -/
theorem mayAccept_class (ha : UniqueAliases T) {n : String} {v : Val} (hc : IsClass T n)
    (h : MayAccept T isa (.name n) v) : ∃ kvs, v = .obj kvs ∧ ∀ attr, HasAttr T n attr → ∃ st f, Declared T n st ∧
      attrOf st = some attr ∧ fieldOf st = some f ∧ (Val.entry kvs f.key = none → f.hasDefault = true) ∧
      ∀ x, Val.entry kvs f.key = some x → MayAccept T isa f.ann x := by
  cases h with
  | «opaque» h => exact (h hc).elim
  | alias h => exact ((ha _ _ h).1 hc).elim
  | model decl _ h1 h2 h3 =>
    refine ⟨_, rfl, fun attr hf => ?_⟩
    obtain ⟨g1, g2⟩ := h1 attr hf
    obtain ⟨f, g3⟩ := attrOf_fieldOf g2
    exact ⟨_, f, g1, g2, g3, h2 attr f hf g3, fun x => h3 attr f x hf g3⟩

theorem mayAccept_alias (ha : UniqueAliases T) {n : String} {e : Expr} {v : Val} (he : Stmt.assign (.name n) e ∈ T)
    (h : MayAccept T isa (.name n) v) : MayAccept T isa e v := by
  cases h with
  | «opaque» _ h => exact (h _ he).elim
  | alias h h' => rw [(ha _ _ he).2 _ h] at h'; exact h'
  | model _ h => exact ((ha _ _ he).1 h).elim

end
end Turms
