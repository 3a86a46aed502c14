import Verif.Lemmas.KeptCheck
import Verif.Lemmas.HierarchyPlugins

/-!
# Programs that check the hypotheses on documents

Not part of the model.  They are proved right, so that `Inheritable` and other hypotheses can be established for concrete
documents by running them.
-/

namespace Turms
open Spec Fragments

mutual
/-- the fragments spread anywhere in a selection -/
def spreadNamesSel : Sel → List String
  | .spread f => [f]
  | .field _ _ _ sub => spreadNames sub
  | .inline _ sub => spreadNames sub
/-- the fragments spread anywhere in a selection set -/
def spreadNames : List Sel → List String
  | [] => []
  | x :: rest => spreadNamesSel x ++ spreadNames rest
end

theorem mem_spreadNames {sels : List Sel} {f : String} (h : Spreads sels f) : f ∈ spreadNames sels := by
  induction h with
  | here => simp [spreadNames, spreadNamesSel]
  | field _ _ _ _ _ _ _ ih => simp [spreadNames, spreadNamesSel, ih]
  | inline _ _ _ _ _ ih => simp [spreadNames, spreadNamesSel, ih]
  | later _ _ _ _ ih => simp [spreadNames, ih]

mutual
/-- decides `NoInlineSpread` for one selection -/
def noInlineSpreadSelB : Sel → Bool
  | .spread _ => true
  | .field _ _ _ sub => noInlineSpreadB sub
  | .inline _ sub => (spreadNames sub).isEmpty
/-- decides `NoInlineSpread` -/
def noInlineSpreadB : List Sel → Bool
  | [] => true
  | x :: rest => noInlineSpreadSelB x && noInlineSpreadB rest
end

mutual
theorem noInlineSpreadSelB_ok : ∀ (x : Sel) (rest : List Sel), noInlineSpreadSelB x = true → NoInlineSpread rest →
    NoInlineSpread (x :: rest)
  | .spread f, rest, _, hr => .spread f rest hr
  | .field n a args sub, rest, h, hr => by
    unfold noInlineSpreadSelB at h
    exact .field n a args sub rest (noInlineSpreadB_ok sub h) hr
  | .inline t sub, rest, h, hr => by
    unfold noInlineSpreadSelB at h
    refine .inline t sub rest (fun f hf => ?_) hr
    have := mem_spreadNames hf
    rw [List.isEmpty_iff.1 h] at this
    cases this
theorem noInlineSpreadB_ok : ∀ sels : List Sel, noInlineSpreadB sels = true → NoInlineSpread sels
  | [], _ => .nil
  | x :: rest, h => by
    unfold noInlineSpreadB at h
    rw [Bool.and_eq_true] at h
    exact noInlineSpreadSelB_ok x rest h.1 (noInlineSpreadB_ok rest h.2)
end

/-- every fragment spreads only fragments defined before it, and hides none below an inline fragment -/
def fragmentsB (fs : List FragDef) : Bool :=
  fs.all fun d => noInlineSpreadB d.sels && (spreadNames d.sels).all fun g =>
    (fs.map (·.name)).contains g && decide ((fs.map (·.name)).idxOf g < (fs.map (·.name)).idxOf d.name)

theorem fragmentsB_ok {fs : List FragDef} (h : fragmentsB fs = true) :
    (∀ d ∈ fs, ∀ x, Spreads d.sels x → x ∈ fs.map (·.name)) ∧
    (∀ n d, lookup fs n = some d → ¬ Needs fs d.sels n) ∧ ∀ d ∈ fs, NoInlineSpread d.sels := by
  have key : ∀ d ∈ fs, NoInlineSpread d.sels ∧ ∀ x, Spreads d.sels x → x ∈ fs.map (·.name) ∧
      (fs.map (·.name)).idxOf x < (fs.map (·.name)).idxOf d.name := by
    intro d hd
    have := List.all_eq_true.1 h d hd
    rw [Bool.and_eq_true] at this
    refine ⟨noInlineSpreadB_ok _ this.1, fun x hx => ?_⟩
    have := List.all_eq_true.1 this.2 x (mem_spreadNames hx)
    rw [Bool.and_eq_true, decide_eq_true_eq] at this
    exact ⟨List.contains_iff_mem.1 this.1, this.2⟩
  refine ⟨fun d hd x hx => ((key d hd).2 x hx).1, fun n d hl hn => ?_, fun d hd => (key d hd).1⟩
  have hm := lookup_mem hl
  have : ∀ x, Needs fs d.sels x → (fs.map (·.name)).idxOf x < (fs.map (·.name)).idxOf n := by
    intro x hx
    induction hx with
    | direct f hf => rw [← hm.2]; exact ((key d hm.1).2 f hf).2
    | through g d' f _ hl' hf ih =>
      have hm' := lookup_mem hl'
      have := ((key d' hm'.1).2 f hf).2
      rw [hm'.2] at this
      omega
  exact Nat.lt_irrefl _ (this n hn)

section
variable {c : Ctx} {defs : Dict FragDef}

/-- the fragments spread in a selection, beside the fields or in an inline fragment -/
def directNames : Sel → List String
  | .spread f => [f]
  | .inline (some _) inner => spreadsOf inner
  | _ => []

/-- all fragments `f` inherits from; `none` if the fuel does not suffice -/
def ancestors (defs : Dict FragDef) : Nat → String → Option (List String)
  | 0, _ => none
  | n + 1, f =>
    match defs.get? f with
    | none => some [f]
    | some d =>
      if (d.sels.flatMap directNames).all fun g => (ancestors defs n g).isSome then
        some (f :: (d.sels.flatMap directNames).flatMap fun g => (ancestors defs n g).getD [])
      else none

theorem mem_ancestors {f g : String} (h : Inherits defs f g) : ∀ {n l}, ancestors defs n f = some l → g ∈ l := by
  have step : ∀ {f d m : String → Prop} {a b : String} {n l} {x : FragDef}, defs.get? a = some x →
      b ∈ x.sels.flatMap directNames → ancestors defs (n + 1) a = some l →
      ∃ l', ancestors defs n b = some l' ∧ ∀ y ∈ l', y ∈ l := by
    intro f d m a b n l x hx hb ha
    rw [ancestors, hx] at ha
    dsimp only at ha
    split at ha
    · rename_i hall
      cases ha
      obtain ⟨l', hl'⟩ := Option.isSome_iff_exists.1 (List.all_eq_true.1 hall b hb)
      refine ⟨l', hl', fun y hy => List.mem_cons_of_mem _ (List.mem_flatMap.2 ⟨b, hb, ?_⟩)⟩
      rw [hl']
      exact hy
    · cases ha
  induction h with
  | refl =>
    intro n l h
    cases n with
    | zero => cases h
    | succ n =>
      rw [ancestors] at h
      split at h
      · cases h; exact List.mem_cons_self ..
      · split at h
        · cases h; exact List.mem_cons_self ..
        · cases h
  | spread hd hm _ ih =>
    intro n l h
    cases n with
    | zero => cases h
    | succ n =>
      obtain ⟨l', h1, h2⟩ := step (f := fun _ => True) (d := fun _ => True) (m := fun _ => True) hd
        (List.mem_flatMap.2 ⟨_, hm, List.mem_singleton.2 rfl⟩) h
      exact h2 _ (ih h1)
  | inline hd hm hs _ ih =>
    intro n l h
    cases n with
    | zero => cases h
    | succ n =>
      obtain ⟨l', h1, h2⟩ := step (f := fun _ => True) (d := fun _ => True) (m := fun _ => True) hd
        (List.mem_flatMap.2 ⟨_, hm, mem_spreadsOf.2 hs⟩) h
      exact h2 _ (ih h1)

/-- the two fragments inherit from no common one -/
def apartFragmentsB (defs : Dict FragDef) (n : Nat) (f g : String) : Bool :=
  match ancestors defs n f, ancestors defs n g with
  | some a, some b => a.all fun x => !b.contains x
  | _, _ => false

/-- checks `Unrelated` -/
def unrelatedB (defs : Dict FragDef) (n : Nat) : List String → Bool
  | [] => true
  | f :: fs => fs.all (apartFragmentsB defs n f) && unrelatedB defs n fs

theorem unrelatedB_ok {n : Nat} {fs : List String} (h : unrelatedB defs n fs = true) : Unrelated defs fs := by
  induction fs with
  | nil => exact .nil
  | cons f fs ih =>
    rw [unrelatedB, Bool.and_eq_true] at h
    refine .cons (fun g hg x h1 h2 => ?_) (ih h.2)
    have := List.all_eq_true.1 h.1 g hg
    unfold apartFragmentsB at this
    split at this
    · rename_i a b ha hb
      have := List.all_eq_true.1 this x (mem_ancestors h1 ha)
      have hb' := List.contains_iff_mem.2 (mem_ancestors h2 hb)
      rw [hb'] at this
      cases this
    · cases this

/-- checks `Inheritable` -/
def inheritableB (c : Ctx) (defs : Dict FragDef) : Nat → TypeNode → List Sel → Bool
  | 0, _, _ => false
  | n + 1, t, sels =>
    match c.schema.lookup t.base with
    | some .scalar => true
    | some (.enum _) => true
    | some (.object fs _) => sels.all (spreadB defs (objectSpreadB c.schema t.base)) &&
        unrelatedB defs n (spreadsOf sels) && fieldsB (inheritableB c defs n) fs sels
    | some (.interface fs _) => unrelatedB defs n (spreadsOf sels) &&
        fieldsB (inheritableB c defs n) fs sels && sels.all (inlineB (typedB c.schema (inheritableB c defs n)))
    | some (.union _) =>
        sels.all (inlineB fun _ inner => inner.all (spreadB defs fun _ d => isObjectB c.schema d.typeCondition)) &&
        sels.all (inlineB fun _ inner => unrelatedB defs n (spreadsOf inner)) &&
        sels.all (inlineB (typedB c.schema (inheritableB c defs n)))
    | _ => false

theorem inheritableB_ok (n : Nat) : ∀ {t : TypeNode} {sels : List Sel}, inheritableB c defs n t sels = true →
    Inheritable c defs t sels := by
  induction n with
  | zero => intro t sels h; cases h
  | succ n ih =>
    intro t sels h
    unfold inheritableB at h
    split at h
    · rename_i hl; exact .leaf (.inl hl)
    · rename_i hl; exact .leaf (.inr ⟨_, hl⟩)
    · rename_i hl
      simp only [Bool.and_eq_true] at h
      obtain ⟨⟨h1, h2⟩, h3⟩ := h
      exact .object hl (fun f hf => (spreadB_ok h1 hf).imp fun d hd => ⟨hd.1, objectSpreadB_ok hd.2⟩) (unrelatedB_ok h2)
        fun name al args sub fd hm hn hfd e => ih (fieldsB_ok h3 name al args sub fd hm hn hfd e)
    · rename_i hl
      simp only [Bool.and_eq_true] at h
      obtain ⟨⟨h1, h2⟩, h3⟩ := h
      exact .interface hl (unrelatedB_ok h1)
        (fun name al args sub fd hm hn hfd e => ih (fieldsB_ok h2 name al args sub fd hm hn hfd e))
        fun o inner name al args sub t' hm hm' hn ht => ih (typedB_ok (inlineB_ok h3 hm) hm' hn ht)
    · rename_i hl
      simp only [Bool.and_eq_true] at h
      obtain ⟨⟨h1, h2⟩, h3⟩ := h
      exact .union hl (fun o inner f hm hf => (spreadB_ok (inlineB_ok h1 hm) hf).imp fun d hd => ⟨hd.1, isObjectB_iff.1 hd.2⟩)
        (fun o inner hm => unrelatedB_ok (inlineB_ok h2 hm))
        fun o inner name al args sub t' hm hm' hn ht => ih (typedB_ok (inlineB_ok h3 hm) hm' hn ht)
    · cases h

/-- checks `InheritableFragment` -/
def inheritableFragmentB (c : Ctx) (defs : Dict FragDef) (n : Nat) (d : FragDef) : Bool :=
  match c.schema.lookup d.typeCondition with
  | some (.object _ _) => d.sels.all (spreadB defs (objectSpreadB c.schema d.typeCondition)) &&
      unrelatedB defs n (spreadsOf d.sels) && typedB c.schema (inheritableB c defs n) d.typeCondition d.sels
  | some (.interface fs _) => unrelatedB defs n (spreadsOf d.sels) && fieldsB (inheritableB c defs n) fs d.sels &&
      d.sels.all (inlineB fun o _ => isObjectB c.schema o) &&
      d.sels.all (inlineB (typedB c.schema (inheritableB c defs n)))
  | some (.union ms) => d.sels.all (inlineB fun o _ => isObjectB c.schema o) &&
      d.sels.all (inlineB fun _ inner => inner.all (spreadB defs fun f d' =>
        (styled c.env.stylers Styler.fragmentName f).toOption == some f && isObjectB c.schema d'.typeCondition)) &&
      ms.all (fun o => unrelatedB defs n (spreadsFor o d.sels)) &&
      d.sels.all (inlineB (typedB c.schema (inheritableB c defs n)))
  | _ => false

theorem inheritableFragmentB_ok {n : Nat} {d : FragDef} (h : inheritableFragmentB c defs n d = true) :
    InheritableFragment c defs d := by
  unfold inheritableFragmentB at h
  split at h
  · rename_i hl
    simp only [Bool.and_eq_true] at h
    obtain ⟨⟨h1, h2⟩, h3⟩ := h
    exact .object ⟨_, _, hl⟩ (fun f hf => (spreadB_ok h1 hf).imp fun d hd => ⟨hd.1, objectSpreadB_ok hd.2⟩)
      (unrelatedB_ok h2) fun name al args sub t hm hn ht => inheritableB_ok n (typedB_ok h3 hm hn ht)
  · rename_i hl
    simp only [Bool.and_eq_true] at h
    obtain ⟨⟨⟨h1, h2⟩, h3⟩, h4⟩ := h
    exact .interface hl (unrelatedB_ok h1)
      (fun name al args sub fd hm hn hfd e => inheritableB_ok n (fieldsB_ok h2 name al args sub fd hm hn hfd e))
      (fun o inner hm => isObjectB_iff.1 (inlineB_ok h3 hm))
      fun o inner name al args sub t' hm hm' hn ht => inheritableB_ok n (typedB_ok (inlineB_ok h4 hm) hm' hn ht)
  · rename_i hl
    simp only [Bool.and_eq_true] at h
    obtain ⟨⟨⟨h1, h2⟩, h3⟩, h4⟩ := h
    refine .union hl (fun o inner hm => isObjectB_iff.1 (inlineB_ok h1 hm)) (fun o inner f hm hf => ?_)
      (fun o ho => unrelatedB_ok (List.all_eq_true.1 h3 o ho))
      fun o inner name al args sub t' hm hm' hn ht => inheritableB_ok n (typedB_ok (inlineB_ok h4 hm) hm' hn ht)
    obtain ⟨d', hd, ht⟩ := spreadB_ok (inlineB_ok h2 hm) hf
    simp only [Bool.and_eq_true, beq_iff_eq] at ht
    refine ⟨?_, d', hd, isObjectB_iff.1 ht.2⟩
    cases hs : styled c.env.stylers Styler.fragmentName f with
    | error e => rw [hs] at ht; cases ht.1
    | ok x => rw [hs] at ht; cases ht.1; rfl
  · cases h

end
end Turms
