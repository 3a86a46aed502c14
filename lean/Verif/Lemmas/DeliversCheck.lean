import Verif.Lemmas.KeptFails
import Verif.Lemmas.Delivers

/-!
# A program that finds out that a value is accepted

Not part of the model.  It is proved right, so that `Takes` and `MayAccept` can be established for concrete modules by
running it.
-/

namespace Turms
open Spec

section
variable {T : List Stmt}

/-- whatever the stricter reading of a module accepts is possibly accepted -/
theorem takes_mayAccept {isa : String → Val → Prop}
    (hi : ∀ n v, isa n v → ¬ IsClass T n ∧ ∀ e, Stmt.assign (.name n) e ∉ T) {e : Expr} {v : Val}
    (h : Takes T isa e v) : MayAccept T isa e v := by
  induction h with
  | «opaque» h => exact .opaque (hi _ _ h).1 (hi _ _ h).2 h
  | @model n kvs hc hreq _ ih =>
    have hex : ∀ attr, ∃ st, HasAttr T n attr → Declared T n st ∧ attrOf st = some attr := by
      intro attr
      by_cases hf : HasAttr T n attr
      · obtain ⟨_, st, h1, h2⟩ := hf
        exact ⟨st, fun _ => ⟨h1, h2⟩⟩
      · exact ⟨.expr (.name ""), fun h => (hf h).elim⟩
    refine .model (fun attr => Classical.choose (hex attr)) hc (fun attr hf => Classical.choose_spec (hex attr) hf)
      (fun attr f hf hfo he => ?_) fun attr f x hf hfo he => ?_
    · exact hreq _ f (Classical.choose_spec (hex attr) hf).1 hfo he
    · exact ih _ f x (Classical.choose_spec (hex attr) hf).1 hfo he
  | alias h _ ih => exact .alias h ih
  | forward _ ih => exact .forward ih
  | optionalNone => exact .optionalNone
  | optionalSome _ ih => exact .optionalSome ih
  | list _ ih => exact .list ih
  | tuple _ ih => exact .tuple ih
  | union h _ ih => exact .union h ih
  | annotated h _ ih => exact .annotated h ih
  | discriminated h1 _ h3 h4 h5 _ ih => exact .discriminated h1 h3 h4 h5 ih
  | literal => exact .literal

/-- the entries of an object are accepted for the declarations -/
def entriesB (takes : Expr → Val → Bool) (kvs : List (String × Val)) (l : List Stmt) : Bool :=
  l.all fun st => match fieldOf st with
    | none => true
    | some f => match Val.entry kvs f.key with
      | none => f.hasDefault
      | some x => takes f.ann x

/-- the class is for some object type -/
def isTaggedB (T : List Stmt) (n : Nat) (tags : List String) : Expr → Bool
  | .name c => match declaredOf T n c with
    | some l => tags.any fun o => l.any (tagB o)
    | none => false
  | _ => false

/-- `Takes`, for scalars that accept what `isa` says; `false` if the fuel does not suffice, and for discriminated unions
with other tags -/
def takesB (T : List Stmt) (isa : String → Val → Bool) (tags : List String) : Nat → Expr → Val → Bool
  | 0, _, _ => false
  | n + 1, e, v =>
    match e with
    | .name c => isa c v || (match v with
        | .obj kvs => classNames' T c && (match declaredOf T n c with
          | some l => entriesB (takesB T isa tags n) kvs l
          | none => false)
        | _ => false) || (assignsOf T c).any fun e => takesB T isa tags n e v
    | .const (.str c) => takesB T isa tags n (.name c) v
    | .subscript (.name h) arg =>
      if h = "Optional" then (match v with | .null => true | _ => takesB T isa tags n arg v)
      else if h = "List" then (match v with | .list l => l.all (takesB T isa tags n arg) | _ => false)
      else if h = "Tuple" then (match arg, v with
        | .tuple [t, .const .ellipsis], .list l => l.all (takesB T isa tags n t)
        | _, _ => false)
      else if h = "Union" then (match arg with
        | .tuple ts => ts.any fun t => takesB T isa tags n t v
        | _ => false)
      else if h = "Annotated" then (match arg, v with
        | .tuple [.subscript (.name u) (.tuple ts), m], .obj kvs =>
          u == "Union" && discriminatorOf m == some "typename" && ts.all (isTaggedB T n tags) &&
            (match Val.entry kvs "__typename" with
              | some (.atom tag) => ts.any fun t => isTaggedB T n [tag] t && takesB T isa tags n t v
              | _ => false)
        | _, _ => false)
      else if h = "Literal" then (match arg, v with
        | .const (.str x), .atom y => x == y
        | _, _ => false)
      else false
    | _ => false
where
  /-- there is a class of this name -/
  classNames' (T : List Stmt) (c : String) : Bool := (Props.classNames T).contains c

theorem isTaggedB_ok {n : Nat} {tags : List String} {e : Expr} (h : isTaggedB T n tags e = true) :
    ∃ c o, e = .name c ∧ o ∈ tags ∧ Tagged T c "typename" "__typename" o := by
  unfold isTaggedB at h
  split at h
  · split at h
    · rename_i l hl
      obtain ⟨o, ho, h⟩ := List.any_eq_true.1 h
      exact ⟨_, o, rfl, ho, (tagB_iff (mem_declaredOf n hl)).1 h⟩
    · cases h
  · cases h

theorem takesB_ok {isa : String → Val → Bool} {tags : List String} (n : Nat) : ∀ {e v}, takesB T isa tags n e v = true →
    Takes T (fun c v => isa c v = true) e v := by
  induction n with
  | zero => intro e v h; cases h
  | succ n ih =>
    intro e v h
    unfold takesB at h
    split at h
    · rename_i c
      simp only [Bool.or_eq_true, List.any_eq_true] at h
      rcases h with (h | h) | ⟨e, he, h⟩
      · exact .opaque h
      · split at h
        · rename_i kvs
          rw [Bool.and_eq_true] at h
          obtain ⟨h1, h2⟩ := h
          have hc : IsClass T c := Props.mem_classNames.1 (by simpa [takesB.classNames'] using h1)
          split at h2
          · rename_i l hl
            unfold entriesB at h2
            rw [List.all_eq_true] at h2
            refine .model hc (fun st f hd hf he => ?_) fun st f x hd hf he => ?_
            · have := h2 st ((mem_declaredOf n hl).2 hd)
              rw [hf] at this
              dsimp only at this
              rw [he] at this
              exact this
            · have := h2 st ((mem_declaredOf n hl).2 hd)
              rw [hf] at this
              dsimp only at this
              rw [he] at this
              exact ih this
          · cases h2
        · cases h
      · exact .alias (mem_assignsOf.1 he) (ih h)
    · exact .forward (ih h)
    · rename_i hd arg
      split at h
      · rename_i e; subst e
        split at h
        · exact .optionalNone
        · exact .optionalSome (ih h)
      split at h
      · rename_i e; subst e
        split at h
        · exact .list fun x hx => ih (List.all_eq_true.1 h x hx)
        · cases h
      split at h
      · rename_i e; subst e
        split at h
        · exact .tuple fun x hx => ih (List.all_eq_true.1 h x hx)
        · cases h
      split at h
      · rename_i e; subst e
        split at h
        · obtain ⟨t, ht, h⟩ := List.any_eq_true.1 h
          exact .union ht (ih h)
        · cases h
      split at h
      · rename_i e; subst e
        split at h
        · rename_i u ts m kvs
          simp only [Bool.and_eq_true, beq_iff_eq, List.all_eq_true] at h
          obtain ⟨⟨⟨rfl, hd⟩, hall⟩, h⟩ := h
          split at h
          · rename_i tag he
            obtain ⟨t, ht, h⟩ := List.any_eq_true.1 h
            rw [Bool.and_eq_true] at h
            obtain ⟨c, o, rfl, ho, htag⟩ := isTaggedB_ok h.1
            rw [List.mem_singleton.1 ho] at htag
            refine .discriminated hd (fun e he => ?_) ht htag he (ih h.2)
            obtain ⟨c', o', rfl, _, ht'⟩ := isTaggedB_ok (hall e he)
            exact ⟨c', o', rfl, ht'⟩
          · cases h
        · cases h
      split at h
      · rename_i e; subst e
        split at h
        · rw [beq_iff_eq] at h; subst h; exact .literal
        · cases h
      · cases h
    · cases h

end
end Turms
