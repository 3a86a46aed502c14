import Verif.Spec.Kept
import Verif.Props.Responses

/-!
# A program that finds out that a path cannot be followed

Not part of the model.  It is proved right, so that `¬ Offers` can be established for concrete modules by running it.
-/

namespace Turms
open Spec Props

/-- all of the lists together; `none` if one is missing -/
def joinAll {α : Type} : List (Option (List α)) → Option (List α)
  | [] => some []
  | x :: l =>
    match x, joinAll l with
    | some a, some b => some (a ++ b)
    | _, _ => none

theorem mem_joinAll {α β : Type} {g : β → Option (List α)} {l : List β} :
    ∀ {r}, joinAll (l.map g) = some r → ∀ {x}, x ∈ r ↔ ∃ b ∈ l, ∃ s, g b = some s ∧ x ∈ s := by
  induction l with
  | nil => intro r h x; cases h; simp
  | cons y l ih =>
    intro r h x
    simp only [List.map_cons, joinAll] at h
    split at h
    · rename_i a b ha hb
      cases h
      rw [List.mem_append, ih hb]
      constructor
      · rintro (h | ⟨b, hb, h⟩)
        · exact ⟨y, List.mem_cons_self .., a, ha, h⟩
        · exact ⟨b, List.mem_cons_of_mem _ hb, h⟩
      · rintro ⟨b, hb, s, hs, hx⟩
        rcases List.mem_cons.1 hb with rfl | hb
        · rw [ha] at hs; cases hs; exact .inl hx
        · exact .inr ⟨b, hb, s, hs, hx⟩
    · cases h

theorem joinAll_all {α β : Type} {g : β → Option (List α)} {l : List β} :
    ∀ {r}, joinAll (l.map g) = some r → ∀ b ∈ l, ∃ s, g b = some s := by
  induction l with
  | nil => intro r h b hb; cases hb
  | cons y l ih =>
    intro r h b hb
    simp only [List.map_cons, joinAll] at h
    split at h
    · rename_i a b' ha hb'
      rcases List.mem_cons.1 hb with rfl | hb
      · exact ⟨a, ha⟩
      · exact ih hb' b hb
    · cases h

section
variable {T : List Stmt}

/-- the type expressions a name stands for -/
def assignsOf (T : List Stmt) (n : String) : List Expr :=
  T.filterMap fun
    | .assign (.name m) e => if m = n then some e else none
    | _ => none

theorem mem_assignsOf {n : String} {e : Expr} : e ∈ assignsOf T n ↔ Stmt.assign (.name n) e ∈ T := by
  unfold assignsOf
  rw [List.mem_filterMap]
  constructor
  · rintro ⟨st, hm, h⟩
    split at h
    · split at h
      · rename_i e; cases h; subst e; exact hm
      · cases h
    · cases h
  · intro h
    exact ⟨_, h, by simp⟩

/-- the annotations whose values are values of this annotation -/
def stepsOf (T : List Stmt) : Expr → List Expr
  | .name n => assignsOf T n
  | .const (.str n) => [.name n]
  | .subscript (.name h) arg =>
    if h = "Optional" ∨ h = "List" then [arg]
    else if h = "Tuple" then
      match arg with
      | .tuple [t, .const .ellipsis] => [t]
      | _ => []
    else if h = "Union" then
      match arg with
      | .tuple ts => ts
      | _ => []
    else if h = "Annotated" then
      match arg with
      | .tuple (t :: _) => [t]
      | _ => []
    else []
  | _ => []

theorem member_iff {e : Expr} {m : String} :
    Member T e m ↔ (e = .name m ∧ IsClass T m) ∨ ∃ e' ∈ stepsOf T e, Member T e' m := by
  constructor
  · intro h
    cases h with
    | cls h => exact .inl ⟨rfl, h⟩
    | alias h hm => exact .inr ⟨_, mem_assignsOf.2 h, hm⟩
    | forward hm => exact .inr ⟨_, List.mem_singleton.2 rfl, hm⟩
    | optional hm => exact .inr ⟨_, by simp [stepsOf], hm⟩
    | list hm => exact .inr ⟨_, by simp [stepsOf], hm⟩
    | tuple hm => exact .inr ⟨_, by simp [stepsOf], hm⟩
    | union ht hm => exact .inr ⟨_, by simp [stepsOf, ht], hm⟩
    | annotated hm => exact .inr ⟨_, by simp [stepsOf], hm⟩
  · rintro (⟨rfl, h⟩ | ⟨e', he, hm⟩)
    · exact .cls h
    · unfold stepsOf at he
      split at he
      · exact .alias (mem_assignsOf.1 he) hm
      · cases List.mem_singleton.1 he; exact .forward hm
      · split at he
        · rename_i h
          cases List.mem_singleton.1 he
          rcases h with rfl | rfl
          · exact .optional hm
          · exact .list hm
        · split at he
          · rename_i h
            subst h
            split at he
            · cases List.mem_singleton.1 he; exact .tuple hm
            · cases he
          · split at he
            · rename_i h
              subst h
              split at he
              · exact .union he hm
              · cases he
            · split at he
              · rename_i h
                subst h
                split at he
                · cases List.mem_singleton.1 he; exact .annotated hm
                · cases he
              · cases he
      · cases he

/-- the class an annotation names -/
def classAt (T : List Stmt) : Expr → List String
  | .name n => if n ∈ classNames T then [n] else []
  | _ => []

theorem mem_classAt {e : Expr} {m : String} : m ∈ classAt T e ↔ e = .name m ∧ IsClass T m := by
  unfold classAt
  split
  · rename_i n
    split
    · rename_i h
      rw [List.mem_singleton]
      constructor
      · rintro rfl; exact ⟨rfl, mem_classNames.1 h⟩
      · rintro ⟨h, _⟩; cases h; rfl
    · rename_i h
      constructor
      · intro h; cases h
      · rintro ⟨e, hc⟩; cases e; exact (h (mem_classNames.2 hc)).elim
  · rename_i h
    constructor
    · intro h; cases h
    · rintro ⟨rfl, _⟩; exact (h _ rfl).elim

/-- `Member` as a list; `none` if the fuel does not suffice -/
def membersOf (T : List Stmt) : Nat → Expr → Option (List String)
  | 0, _ => none
  | n + 1, e => joinAll ((stepsOf T e).map (membersOf T n)) |>.map (classAt T e ++ ·)

theorem mem_membersOf (n : Nat) : ∀ {e l}, membersOf T n e = some l → ∀ {m}, m ∈ l ↔ Member T e m := by
  induction n with
  | zero => intro e l h; cases h
  | succ n ih =>
    intro e l h m
    unfold membersOf at h
    cases hj : joinAll ((stepsOf T e).map (membersOf T n)) with
    | none => rw [hj] at h; cases h
    | some l' =>
      rw [hj] at h
      cases h
      rw [member_iff, List.mem_append, mem_classAt, mem_joinAll hj]
      refine or_congr_right ⟨?_, ?_⟩
      · rintro ⟨b, hb, s, hs, hx⟩; exact ⟨b, hb, (ih hs).1 hx⟩
      · rintro ⟨b, hb, hx⟩
        obtain ⟨s, hs⟩ := joinAll_all hj b hb
        exact ⟨b, hb, s, hs, (ih hs).2 hx⟩

/-- the statements in the bodies of the classes of this name -/
def bodiesOf (T : List Stmt) (n : String) : List Stmt :=
  T.flatMap fun
    | .classDef m _ body _ => if m = n then body else []
    | _ => []

/-- the named base classes of the classes of this name -/
def parentsOf (T : List Stmt) (n : String) : List String :=
  T.flatMap fun
    | .classDef m bs _ _ => if m = n then bs.filterMap (fun | .name b => some b | _ => none) else []
    | _ => []

/-- `Declared` as a list; `none` if the fuel does not suffice -/
def declaredOf (T : List Stmt) : Nat → String → Option (List Stmt)
  | 0, _ => none
  | n + 1, c => joinAll ((parentsOf T c).map (declaredOf T n)) |>.map (bodiesOf T c ++ ·)

theorem mem_bodiesOf {c : String} {st : Stmt} :
    st ∈ bodiesOf T c ↔ ∃ bs body ds, Stmt.classDef c bs body ds ∈ T ∧ st ∈ body := by
  unfold bodiesOf
  rw [List.mem_flatMap]
  constructor
  · rintro ⟨x, hx, h⟩
    split at h
    · split at h
      · rename_i e; subst e; exact ⟨_, _, _, hx, h⟩
      · cases h
    · cases h
  · rintro ⟨bs, body, ds, hx, h⟩
    exact ⟨_, hx, by simp [h]⟩

theorem mem_parentsOf {c b : String} :
    b ∈ parentsOf T c ↔ ∃ bs body ds, Stmt.classDef c bs body ds ∈ T ∧ Expr.name b ∈ bs := by
  unfold parentsOf
  rw [List.mem_flatMap]
  constructor
  · rintro ⟨x, hx, h⟩
    split at h
    · split at h
      · rename_i e
        subst e
        obtain ⟨y, hy, h⟩ := List.mem_filterMap.1 h
        split at h
        · cases h; exact ⟨_, _, _, hx, hy⟩
        · cases h
      · cases h
    · cases h
  · rintro ⟨bs, body, ds, hx, h⟩
    refine ⟨_, hx, ?_⟩
    dsimp only
    rw [if_pos rfl]
    exact List.mem_filterMap.2 ⟨_, h, rfl⟩

theorem mem_declaredOf (n : Nat) : ∀ {c l}, declaredOf T n c = some l → ∀ {st}, st ∈ l ↔ Declared T c st := by
  induction n with
  | zero => intro c l h; cases h
  | succ n ih =>
    intro c l h st
    unfold declaredOf at h
    cases hj : joinAll ((parentsOf T c).map (declaredOf T n)) with
    | none => rw [hj] at h; cases h
    | some l' =>
      rw [hj] at h
      cases h
      rw [List.mem_append, mem_bodiesOf, mem_joinAll hj]
      constructor
      · rintro (⟨bs, body, ds, hx, h⟩ | ⟨b, hb, s, hs, hx⟩)
        · exact .own hx h
        · obtain ⟨bs, body, ds, hx', h⟩ := mem_parentsOf.1 hb
          exact .inherited hx' h ((ih hs).1 hx)
      · intro h
        cases h with
        | own hx h => exact .inl ⟨_, _, _, hx, h⟩
        | inherited hx hb h =>
          have hb := mem_parentsOf.2 ⟨_, _, _, hx, hb⟩
          obtain ⟨s, hs⟩ := joinAll_all hj _ hb
          exact .inr ⟨_, hb, s, hs, (ih hs).2 h⟩

/-- the statement is `typename: Literal["o"]`, read from `__typename` -/
def tagB (o : String) (st : Stmt) : Bool :=
  attrOf st == some "typename" &&
    match fieldOf st with
    | some f => f.key == "__typename" && f.ann == .subscript (.name "Literal") (.const (.str o))
    | none => false

theorem tagB_iff {l : List Stmt} {n o : String} (h : ∀ {st}, st ∈ l ↔ Declared T n st) :
    l.any (tagB o) = true ↔ IsFor T n o := by
  rw [List.any_eq_true]
  constructor
  · rintro ⟨st, hm, ht⟩
    unfold tagB at ht
    rw [Bool.and_eq_true] at ht
    cases hf : fieldOf st with
    | none => rw [hf] at ht; cases ht.2
    | some f =>
      rw [hf] at ht
      have h2 := ht.2
      simp only [Bool.and_eq_true, beq_iff_eq] at h2
      exact ⟨st, f, h.1 hm, by simpa using ht.1, hf, h2.1, h2.2⟩
  · rintro ⟨st, f, hd, ha, hf, hk, han⟩
    exact ⟨st, h.2 hd, by simp [tagB, ha, hf, hk, han]⟩

/-- the class does not carry the entry, or in a declaration that fails the test -/
def uncarriedB (fails : Expr → Bool) (key : String) (l : List Stmt) : Bool :=
  let own := l.filter fun st => (fieldOf st).any (·.key == key)
  own.isEmpty || own.any fun st => (fieldOf st).any (fun f => fails f.ann) || (attrOf st).any privateName

theorem uncarriedB_ok {fails : Expr → Bool} {P : Expr → Prop} (hP : ∀ e, fails e = true → ¬ P e) {key n : String}
    {l : List Stmt} (hl : ∀ {st}, st ∈ l ↔ Declared T n st) (h : uncarriedB fails key l = true) :
    ¬ Carries T n key P := by
  rintro ⟨⟨st, f, hd, hf, hk⟩, hall⟩
  unfold uncarriedB at h
  simp only [Bool.or_eq_true, List.isEmpty_iff, List.any_eq_true] at h
  rcases h with h | ⟨st', hm, h⟩
  · have : st ∈ l.filter fun st => (fieldOf st).any (·.key == key) :=
      List.mem_filter.2 ⟨hl.2 hd, by simp [hf, hk]⟩
    rw [h] at this
    cases this
  · obtain ⟨hm, hk'⟩ := List.mem_filter.1 hm
    cases hf' : fieldOf st' with
    | none => rw [hf'] at hk'; cases hk'
    | some f' =>
      rw [hf'] at hk' h
      have hk' : f'.key = key := by simpa using hk'
      have ⟨attr, ha⟩ : ∃ attr, attrOf st' = some attr := by
        cases st' <;> first | exact ⟨_, rfl⟩ | cases hf'
      have := hall st' f' attr (hl.1 hm) hf' hk' ha
      rcases h with h | h
      · exact hP _ (by simpa using h) this.1
      · rw [ha] at h
        have h : privateName attr = true := by simpa using h
        rw [this.2.1] at h
        cases h

/-- the path cannot be followed -/
def failsB (T : List Stmt) (n : Nat) : List (String × String) → Expr → Bool
  | [], _ => false
  | (o, key) :: rest, e =>
    match membersOf T n e with
    | none => false
    | some ms =>
      let for_ := ms.filter fun m => match declaredOf T n m with
        | some l => l.any (tagB o)
        | none => true
      for_.isEmpty || for_.any fun m => match declaredOf T n m with
        | some l => uncarriedB (failsB T n rest) key l
        | none => false

theorem failsB_ok {n : Nat} : ∀ {path e}, failsB T n path e = true → ¬ Offers T e path := by
  intro path
  induction path with
  | nil => intro e h; cases h
  | cons x rest ih =>
    obtain ⟨o, key⟩ := x
    intro e h
    rintro ⟨⟨m, hm, hf⟩, hall⟩
    unfold failsB at h
    cases hms : membersOf T n e with
    | none => rw [hms] at h; cases h
    | some ms =>
      rw [hms] at h
      simp only [Bool.or_eq_true, List.isEmpty_iff, List.any_eq_true] at h
      rcases h with h | ⟨m', hm', h⟩
      · have : m ∈ ms.filter fun m => match declaredOf T n m with
            | some l => l.any (tagB o)
            | none => true := by
          refine List.mem_filter.2 ⟨(mem_membersOf n hms).2 hm, ?_⟩
          cases hd : declaredOf T n m with
          | none => rfl
          | some l => exact (tagB_iff (mem_declaredOf n hd)).2 hf
        rw [h] at this
        cases this
      · obtain ⟨hm1, hm2⟩ := List.mem_filter.1 hm'
        cases hd : declaredOf T n m' with
        | none => rw [hd] at h; cases h
        | some l =>
          rw [hd] at h hm2
          exact uncarriedB_ok (fun e => ih) (mem_declaredOf n hd) h
            (hall m' ((mem_membersOf n hms).1 hm1) ((tagB_iff (mem_declaredOf n hd)).1 hm2))

/-- the class does not carry the entry with the path below it -/
def losesB (T : List Stmt) (n : Nat) (cls key : String) (path : List (String × String)) : Bool :=
  match declaredOf T n cls with
  | some l => uncarriedB (failsB T n path) key l
  | none => false

theorem losesB_ok {n : Nat} {cls key : String} {path : List (String × String)} (h : losesB T n cls key path = true) :
    ¬ Carries T cls key fun ann => Offers T ann path := by
  unfold losesB at h
  cases hd : declaredOf T n cls with
  | none => rw [hd] at h; cases h
  | some l => rw [hd] at h; exact uncarriedB_ok (fun e => failsB_ok) (mem_declaredOf n hd) h

end
end Turms
