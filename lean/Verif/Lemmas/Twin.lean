import Verif.Spec.Shape
import Verif.Lemmas.InputFields

/-! # The same generator under two settings of the generated models -/

namespace Turms
open Spec

/-! ## shapes -/

theorem annotationShape_sub {n : String} {x : Expr} (h : n ≠ "Tuple") :
    annotationShape (sub n x) = sub n (annotationShape x) := by
  have : ¬ (Expr.name n = .name "Tuple") := fun e => h (Expr.name.inj e)
  simp only [sub, annotationShape, asList, this, if_false]

theorem annotationShape_list {b : Bool} {x : Expr} : annotationShape (listBuilder b x) = sub "List" (annotationShape x) := by
  cases b
  · exact annotationShape_sub (by decide)
  · simp [listBuilder, sub, annotationShape, annotationShapes, asList]

theorem bodyShape_append (a b : List Stmt) : bodyShape (a ++ b) = bodyShape a ++ bodyShape b := by
  induction a with
  | nil => simp only [List.nil_append, bodyShape]
  | cons s a ih =>
    simp only [List.cons_append, bodyShape]
    split
    · exact ih
    · rw [ih, List.cons_append]

theorem bodyShape_cons {s : Stmt} {ss : List Stmt} : bodyShape (s :: ss) = bodyShape [s] ++ bodyShape ss :=
  bodyShape_append [s] ss

theorem shapes_append (a b : List Stmt) : shapes (a ++ b) = shapes a ++ shapes b := List.map_append
theorem shapes_cons {s : Stmt} {ss : List Stmt} : shapes (s :: ss) = shape s :: shapes ss := rfl
theorem shapes_nil : shapes [] = [] := rfl
theorem bodyShape_nil : bodyShape [] = [] := by simp only [bodyShape]

/-! ## registries that differ in what the settings change -/

/-- what is common: everything but three imports and the difference between `List` and `Tuple` in the registered
annotations -/
def core (r : Reg) : Reg :=
  { r with imports := r.imports.filter fun x => !varyingImports.contains x
           operationSingle := r.operationSingle.map fun p => (p.1, annotationShape p.2) }

/-- what is seen of a result -/
def seen {α β : Type} (φ : α → β) : Except Err (α × Reg) → Except Err (β × Reg)
  | .error e => .error e
  | .ok (a, r) => .ok (φ a, core r)

/-- both fail with the same exception, or return results that look the same -/
structure Twin {α β : Type} (φ : α → β) (g g' : Gen α) : Prop where
  run : ∀ r r', core r = core r' → seen φ (g r) = seen φ (g' r')

/-- the same for a generator that does not depend on the settings -/
abbrev Blind {α : Type} (g : Gen α) : Prop := Twin (id : α → α) g g

section
variable {α β γ δ : Type}

theorem bind_run {x : Gen α} {f : α → Gen γ} {r : Reg} :
    (x >>= f) r = match x r with | .error e => .error e | .ok (a, r) => f a r := by
  simp only [bind, StateT.bind, Except.bind]
  cases x r <;> rfl

theorem Twin.pure {φ : α → β} {a a' : α} (h : φ a = φ a') : Twin φ (pure a : Gen α) (pure a') := ⟨fun r r' hr => by
  show Except.ok (φ a, core r) = .ok (φ a', core r')
  rw [h, hr]⟩
theorem Blind.pure {a : α} : Blind (pure a : Gen α) := Twin.pure rfl
theorem Twin.fail {φ : α → β} {e : Err} : Twin φ (Gen.fail e : Gen α) (Gen.fail e) := ⟨fun _ _ _ => rfl⟩
theorem Twin.lift {φ : α → β} {x : Except Err α} : Twin φ (Gen.lift x) (Gen.lift x) := ⟨fun r r' hr => by
  unfold Gen.lift
  cases x with
  | error e => rfl
  | ok a => show Except.ok (φ a, core r) = .ok (φ a, core r'); rw [hr]⟩

theorem Twin.bind {φ : α → β} {ψ : γ → δ} {x x' : Gen α} {f f' : α → Gen γ} (hx : Twin φ x x')
    (hf : ∀ a a', φ a = φ a' → Twin ψ (f a) (f' a')) : Twin ψ (x >>= f) (x' >>= f') := ⟨fun r r' hr => by
  have h := hx.run r r' hr
  rw [bind_run, bind_run]
  cases h1 : x r with
  | error e =>
    cases h2 : x' r' with
    | error e' => rw [h1, h2] at h; cases h; rfl
    | ok y => obtain ⟨a', s'⟩ := y; rw [h1, h2] at h; cases h
  | ok y =>
    obtain ⟨a, s⟩ := y
    cases h2 : x' r' with
    | error e' => rw [h1, h2] at h; cases h
    | ok y =>
      obtain ⟨a', s'⟩ := y
      rw [h1, h2] at h
      have h := Except.ok.inj h
      exact (hf a a' (Prod.mk.inj h).1).run s s' (Prod.mk.inj h).2⟩

/-- the results are the same -/
theorem Twin.then {ψ : γ → δ} {x x' : Gen α} {f f' : α → Gen γ} (hx : Twin (id : α → α) x x')
    (hf : ∀ a, Twin ψ (f a) (f' a)) : Twin ψ (x >>= f) (x' >>= f') :=
  Twin.bind hx fun a a' h => by cases h; exact hf a

/-- seeing less -/
theorem Twin.weaken {φ : α → β} {ψ : α → δ} {x x' : Gen α} (hx : Twin φ x x') (h : ∀ a a', φ a = φ a' → ψ a = ψ a') :
    Twin ψ x x' := ⟨fun r r' hr => by
  have h0 := hx.run r r' hr
  rcases h1 : x r with e | ⟨a, s⟩ <;> rcases h2 : x' r' with e' | ⟨a', s'⟩ <;> rw [h1, h2] at h0
  · cases h0; rfl
  · cases h0
  · cases h0
  · have h0 := Prod.mk.inj (Except.ok.inj h0)
    show Except.ok (ψ a, core s) = .ok (ψ a', core s')
    rw [h a a' h0.1, h0.2]⟩

theorem Twin.ite {φ : α → β} {p : Prop} [Decidable p] {x y x' y' : Gen α} (hx : Twin φ x x') (hy : Twin φ y y') :
    Twin φ (if p then x else y) (if p then x' else y') := by split <;> assumption

/-- the same results look the same in whatever way -/
theorem Twin.see {φ : α → β} {g g' : Gen α} (h : Twin (id : α → α) g g') : Twin φ g g' := ⟨fun r r' hr => by
  have h := h.run r r' hr
  cases h1 : g r with
  | error e =>
    cases h2 : g' r' with
    | error e' => rw [h1, h2] at h; cases h; rfl
    | ok y => obtain ⟨a', s'⟩ := y; rw [h1, h2] at h; cases h
  | ok y =>
    obtain ⟨a, s⟩ := y
    cases h2 : g' r' with
    | error e' => rw [h1, h2] at h; cases h
    | ok y =>
      obtain ⟨a', s'⟩ := y
      rw [h1, h2] at h
      have h := Prod.mk.inj (Except.ok.inj h)
      show Except.ok (φ a, core s) = .ok (φ a', core s')
      rw [h.2, show a = a' from h.1]⟩

/-- a generator that only registers imports that may differ -/
theorem core_cases {r r' : Reg} (h : core r = core r') : ∃ i o, r' = { r with imports := i, operationSingle := o } ∧
    (i.filter fun x => !varyingImports.contains x) = (r.imports.filter fun x => !varyingImports.contains x) ∧
    (o.map fun p => (p.1, annotationShape p.2)) = (r.operationSingle.map fun p => (p.1, annotationShape p.2)) := by
  obtain ⟨i, a1, a2, a3, a4, a5, a6, a7, a8, a9, a10, a11, a12, a13, a14, a15, a16, a17, o⟩ := r
  obtain ⟨i', b1, b2, b3, b4, b5, b6, b7, b8, b9, b10, b11, b12, b13, b14, b15, b16, b17, o'⟩ := r'
  simp only [core, Reg.mk.injEq] at h
  obtain ⟨hi, rfl, rfl, rfl, rfl, rfl, rfl, rfl, rfl, rfl, rfl, rfl, rfl, rfl, rfl, rfl, rfl, rfl, ho⟩ := h
  exact ⟨i', o', rfl, hi.symm, ho.symm⟩

theorem core_of {r : Reg} {i : List String} {o : Dict Expr}
    (hi : (i.filter fun x => !varyingImports.contains x) = (r.imports.filter fun x => !varyingImports.contains x))
    (ho : (o.map fun p => (p.1, annotationShape p.2)) = (r.operationSingle.map fun p => (p.1, annotationShape p.2))) :
    core { r with imports := i, operationSingle := o } = core r := by
  simp only [core, hi, ho]

end

theorem filter_setAdd {p : String → Bool} {l : List String} {a : String} :
    (setAdd l a).filter p = if p a then setAdd (l.filter p) a else l.filter p := by
  unfold setAdd
  by_cases hp : p a
  · simp only [hp, if_true, List.mem_filter, and_true]
    split
    · rfl
    · simp [List.filter_append, hp]
  · simp only [hp, Bool.false_eq_true, if_false]
    split
    · rfl
    · simp [List.filter_append, hp]

theorem core_addImport {r r' : Reg} (h : core r = core r') (n : String) :
    core { r with imports := setAdd r.imports n } = core { r' with imports := setAdd r'.imports n } := by
  obtain ⟨i, o, rfl, hi, ho⟩ := core_cases h
  simp only [core, filter_setAdd, hi, ho]

theorem core_dropImport {r : Reg} {n : String} (hn : n ∈ varyingImports) :
    core { r with imports := setAdd r.imports n } = core r := by
  simp only [core, filter_setAdd, List.contains_iff_mem.2 hn]
  rfl

theorem blind_registerImport {n : String} : Blind (registerImport n) := ⟨fun r r' h => by
  unfold registerImport
  split
  · show Except.ok (_, core r) = .ok (_, core r'); rw [h]
  · show Except.ok (_, core _) = .ok (_, core _); rw [core_addImport h]⟩

/-- the two imports may be different ones -/
theorem twin_listImport {b b' : Bool} : Twin (id : Unit → Unit) (listImport b) (listImport b') := ⟨fun r r' h => by
  have key : ∀ b r, seen (id : Unit → Unit) (listImport b r) = .ok ((), core r) := by
    intro b r
    have hn : neverImported.contains (if b then "typing.Tuple" else "typing.List") = false := by
      cases b <;> decide +kernel
    unfold listImport registerImport
    rw [hn]
    show Except.ok (_, core _) = _
    rw [core_dropImport (by cases b <;> decide +kernel)]
  rw [key, key, h]⟩

/-- registering `pydantic.ConfigDict` is not seen -/
theorem seen_configDict {r : Reg} : seen (id : Unit → Unit) (registerImport "pydantic.ConfigDict" r) = .ok ((), core r) := by
  have hn : neverImported.contains "pydantic.ConfigDict" = false := by decide +kernel
  unfold registerImport
  rw [hn]
  show Except.ok (_, core _) = _
  rw [core_dropImport (by decide +kernel)]

/-! ## the registry -/

set_option hygiene false in
/-- reduce a statement about two registries to one whose imports and registered annotations were exchanged -/
macro "blind" : tactic => `(tactic| (constructor; intro r r' h; obtain ⟨i, o, rfl, hi, ho⟩ := core_cases h; clear h))

set_option hygiene false in
/-- the state is kept, or changed in the same way -/
macro "same" : tactic => `(tactic| (simp only [seen, core, hi, ho, Reg.addForward]))

/-- continue with what was returned -/
macro "follow" x:term "," y:term "," h:ident : tactic => `(tactic| (
  revert $h
  generalize $x = x
  generalize $y = y
  intro h
  rcases x with e | ⟨a, s⟩ <;> rcases y with e' | ⟨a', s'⟩ <;> simp_all [seen]))

theorem blind_registerBuiltin {n : String} : Blind (registerBuiltin n) := by
  blind; unfold registerBuiltin; same

theorem blind_referenceMarker {o : Option String} {b l : String} : Blind (referenceMarker o b l) := by
  constructor
  intro r r' h
  have h1 := (blind_registerBuiltin (n := b)).run r r' h
  unfold referenceMarker
  cases o with
  | none => exact congrArg (fun q => Except.ok (Expr.name l, q)) (Prod.mk.inj (Except.ok.inj h1)).2
  | some o =>
    have h2 := (blind_registerImport (n := o)).run r r' h
    dsimp only
    split
    · exact congrArg (fun q => Except.ok (Expr.name l, q)) (Prod.mk.inj (Except.ok.inj h1)).2
    · follow (registerImport o r), (registerImport o r'), h2

theorem blind_referenceScalar {n : String} : Blind (referenceScalar n) := ⟨fun r r' h => by
  have h2 := fun t => (blind_registerImport (n := t)).run r r' h
  have hs : r'.scalarMap = r.scalarMap := by obtain ⟨i, o, rfl, hi, ho⟩ := core_cases h; rfl
  unfold referenceScalar
  rw [hs]
  cases r.scalarMap.get? n with
  | none => rfl
  | some t =>
    have h2 := h2 t
    dsimp only
    split
    · follow (registerImport t r), (registerImport t r'), h2
    · show Except.ok (_, core r) = .ok (_, core r'); rw [h]⟩

theorem classMap_swap {r : Reg} {i : List String} {o : Dict Expr} {k : Kind} :
    Reg.classMap { r with imports := i, operationSingle := o } k = r.classMap k := by cases k <;> rfl

theorem blind_generateClass {env : Env} {k : Kind} {n : String} : Blind (generateClass env k n) := by
  blind
  unfold generateClass
  rw [classMap_swap (r := r) (i := i) (o := o)]
  split
  · rfl
  · cases k.style env n with
    | error e => rfl
    | ok c => cases k <;> simp only [Reg.setClass] <;> same

theorem blind_getClass {k : Kind} {n : String} : Blind (getClass k n) := by
  blind
  unfold getClass
  rw [classMap_swap (r := r) (i := i) (o := o)]
  split
  · rfl
  · same

theorem blind_referenceInput {env : Env} {n p : String} {f : Bool} : Blind (referenceInput env n p f) := by
  blind
  unfold referenceInput
  dsimp only
  repeat' split
  all_goals first | rfl | same

theorem blind_referenceEnum {env : Env} {n p : String} {f : Bool} : Blind (referenceEnum env n p f) := by
  blind
  unfold referenceEnum
  dsimp only
  repeat' split
  all_goals first | rfl | same

theorem blind_referenceGeneric {env : Env} {k : Kind} {n p : String} {f : Bool} : Blind (referenceGeneric env k n p f) := by
  blind
  unfold referenceGeneric
  rw [classMap_swap (r := r) (i := i) (o := o)]
  repeat' split
  all_goals first | rfl | same

theorem blind_generateInterface {env : Env} {n : String} {b : Bool} : Blind (generateInterface env n b) := by
  blind
  unfold generateInterface
  dsimp only
  repeat' split
  all_goals first | rfl | same

theorem blind_inheritInterface {n : String} : Blind (inheritInterface n) := by
  blind
  unfold inheritInterface
  dsimp only
  repeat' split
  all_goals first | rfl | same

theorem blind_referenceInterface {env : Env} {n p : String} : Blind (referenceInterface env n p) := by
  blind
  unfold referenceInterface
  repeat' split
  all_goals first | rfl | same

theorem blind_inheritFragment {n : String} : Blind (inheritFragment n) := by
  blind
  unfold inheritFragment
  dsimp only
  repeat' split
  all_goals first | rfl | same

theorem blind_inlineSpreadBase {n : String} : Blind (inlineSpreadBase n) := ⟨fun r r' h => by
  have hr := blind_inheritFragment (n := n) |>.run r r' h
  obtain ⟨i, o, rfl, hi, ho⟩ := core_cases h
  unfold inlineSpreadBase
  dsimp only
  split
  · rfl
  · exact hr⟩

theorem blind_registerFragmentDocument {n d : String} : Blind (registerFragmentDocument n d) := by
  blind
  unfold registerFragmentDocument
  dsimp only
  repeat' split
  all_goals first | rfl | same

theorem blind_registerFragmentType {n d : String} : Blind (registerFragmentType n d) := by
  blind; unfold registerFragmentType; same

theorem blind_registerImplementations {n : String} {d : Dict String} : Blind (registerImplementations n d) := by
  blind; unfold registerImplementations; same

theorem blind_registerUnionMembers {n : String} {d : Dict String} : Blind (registerUnionMembers n d) := by
  blind; unfold registerUnionMembers; same

theorem blind_unionMembersOf {n : String} : Blind (unionMembersOf n) := by
  blind
  unfold unionMembersOf
  dsimp only
  repeat' split
  all_goals first | rfl | same

theorem blind_interfaceImpl {f t : String} : Blind (getInterfaceFragmentImplementationOrNone f t) := by
  blind
  unfold getInterfaceFragmentImplementationOrNone
  dsimp only
  repeat' split
  all_goals first | rfl | same

theorem blind_fragSpreadBase {f t : String} : Blind (fragSpreadBase f t) := ⟨fun r r' h => by
  have hr := blind_inheritFragment (n := f) |>.run r r' h
  obtain ⟨i, o, rfl, hi, ho⟩ := core_cases h
  unfold fragSpreadBase
  dsimp only
  split
  · split
    · same
    · rfl
  · exact hr⟩

theorem blind_spreadImplementations {f : String} : Blind (spreadImplementations f) := ⟨fun r r' h => by
  have h2 := (blind_inheritFragment (n := f)).run r r' h
  have hs : r'.interfaceFragmentImpl = r.interfaceFragmentImpl ∧ r'.fragmentTypeMap = r.fragmentTypeMap := by
    obtain ⟨i, o, rfl, hi, ho⟩ := core_cases h; exact ⟨rfl, rfl⟩
  unfold spreadImplementations
  rw [hs.1, hs.2]
  split
  · show Except.ok (_, core r) = .ok (_, core r'); rw [h]
  · split
    · rfl
    · follow (inheritFragment f r), (inheritFragment f r'), h2⟩

theorem blind_mergedDocument {prep : List Char → List Char} {t : List Char} : Blind (mergedDocument prep t) := by
  blind
  unfold mergedDocument documentTexts
  dsimp only
  split
  · same
  · rfl

theorem blind_referenceNamed {env : Env} {n : String} : Blind (referenceNamed env n) := ⟨fun r r' h => by
  have h1 := blind_referenceScalar (n := n) |>.run r r' h
  have h2 := blind_referenceInput (env := env) (n := n) (p := "") (f := false) |>.run r r' h
  have h3 := blind_referenceEnum (env := env) (n := n) (p := "") (f := false) |>.run r r' h
  unfold referenceNamed
  have key : ∀ {x x' y y' : Except Err (Expr × Reg)} {P : Err → Bool}, seen (id : Expr → Expr) x = seen id x' →
      seen (id : Expr → Expr) y = seen id y' →
      seen (id : Expr → Expr) (match x with | .error e => if P e then y else .error e | .ok z => .ok z) =
      seen id (match x' with | .error e => if P e then y' else .error e | .ok z => .ok z) := by
    intro x x' y y' P hx hy
    cases x with
    | error e =>
      cases x' with
      | error e' =>
        cases hx
        dsimp only
        split
        · exact hy
        · rfl
      | ok z => cases hx
    | ok z =>
      cases x' with
      | error e' => cases hx
      | ok z' => exact hx
  have h4 := key (P := fun e => match e with | .noEnumFound _ => true | _ => false) h3
    (y := .error (.notImplemented n)) (y' := .error (.notImplemented n)) rfl
  have h5 := key (P := fun e => match e with | .noInputTypeFound _ => true | _ => false) h2 h4
  have h6 := key (P := fun e => match e with | .noScalarFound _ => true | _ => false) h1 h5
  have eq : ∀ r, (match referenceScalar n r with
      | .error e => if (match e with | .noScalarFound _ => true | _ => false) then
          (match referenceInput env n "" false r with
          | .error e => if (match e with | .noInputTypeFound _ => true | _ => false) then
            (match referenceEnum env n "" false r with
            | .error e => if (match e with | .noEnumFound _ => true | _ => false) then .error (.notImplemented n) else .error e
            | .ok z => .ok z) else .error e
          | .ok z => .ok z) else .error e
      | .ok z => .ok z) = referenceNamed env n r := by
    intro r
    unfold referenceNamed
    cases referenceScalar n r with
    | ok z => rfl
    | error e =>
      cases e <;> try rfl
      cases referenceInput env n "" false r with
      | ok z => rfl
      | error e =>
        cases e <;> try rfl
        cases referenceEnum env n "" false r with
        | ok z => rfl
        | error e => cases e <;> rfl
  have h7 := (congrArg (seen id) (eq r)).symm.trans (h6.trans (congrArg (seen id) (eq r')))
  exact h7⟩

end Turms
