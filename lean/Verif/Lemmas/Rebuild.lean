import Verif.Lemmas.QuotedTypes
import Verif.Lemmas.StillWalk

/-! # Which names are rebuilt at the end of a module: walking selections -/

namespace Turms
open Spec

/-! ## generators that add no forward reference -/

/-- only imports and helper classes may differ -/
structure Calm {α : Type} (g : Gen α) : Prop where
  run : ∀ r a r', g r = .ok (a, r') → Quiet r r' ∧ r'.forwardReferences = r.forwardReferences

section
variable {α β : Type}

theorem Calm.pure {a : α} : Calm (pure a : Gen α) := by
  constructor
  intro r b r' h
  obtain ⟨rfl, rfl⟩ := Gen.pure_ok.1 h
  exact ⟨.refl _, rfl⟩
theorem Calm.fail {e : Err} : Calm (Gen.fail e : Gen α) := ⟨fun _ _ _ h => (Gen.fail_ok.1 h).elim⟩
theorem Calm.lift {x : Except Err α} : Calm (Gen.lift x) := by
  constructor
  intro r b r' h
  obtain ⟨_, rfl⟩ := Gen.lift_ok.1 h
  exact ⟨.refl _, rfl⟩
theorem Calm.bind {x : Gen α} {f : α → Gen β} (hx : Calm x) (hf : ∀ a, Calm (f a)) : Calm (x >>= f) := by
  constructor
  intro r b r' h
  obtain ⟨a, r1, h1, h2⟩ := Gen.bind_ok.1 h
  obtain ⟨q1, e1⟩ := hx.run _ _ _ h1
  obtain ⟨q2, e2⟩ := (hf a).run _ _ _ h2
  exact ⟨q1.trans q2, e2.trans e1⟩
theorem Calm.ite {p : Prop} [Decidable p] {x y : Gen α} (hx : Calm x) (hy : Calm y) :
    Calm (if p then x else y) := by split <;> assumption

/-- a quiet generator that returns the registry it is given, or a part of it unchanged -/
theorem Calm.of_still {g : Gen α} (h : Still g) (hf : ∀ r a r', g r = .ok (a, r') →
    r'.forwardReferences = r.forwardReferences) : Calm g :=
  ⟨fun r a r' e => ⟨h.quiet e, hf r a r' e⟩⟩
end

theorem calm_registerImport {n : String} : Calm (registerImport n) :=
  .of_still still_registerImport fun r a r' h => by
    unfold registerImport at h
    split at h <;> · cases h; rfl
theorem calm_registerImports (l : List String) : Calm (registerImports l) := by
  induction l with
  | nil => exact .pure
  | cons a l ih => unfold registerImports; exact calm_registerImport.bind fun _ => ih
theorem calm_optionalWrap {o : Bool} {e : Expr} : Calm (optionalWrap o e) := by
  unfold optionalWrap
  exact .ite (calm_registerImport.bind fun _ => .pure) .pure
theorem calm_listImport {b : Bool} : Calm (listImport b) := calm_registerImport
theorem calm_nodeName {env : Env} {n : String} : Calm (nodeName env n) := .lift
theorem calm_parameterName {env : Env} {n : String} : Calm (parameterName env n) := .lift
theorem calm_referenceScalar {n : String} : Calm (referenceScalar n) :=
  .of_still still_referenceScalar fun r a r' h => by
    unfold referenceScalar at h
    split at h
    · cases h
    · split at h
      · split at h
        · cases h
        · rename_i hi
          cases h
          exact (calm_registerImport.run _ _ _ hi).2
      · cases h; rfl
theorem calm_referenceMarker {o : Option String} {b l : String} : Calm (referenceMarker o b l) :=
  .of_still (Quietly.still fun _ => quietly_referenceMarker) fun r a r' h => by
    unfold referenceMarker registerBuiltin at h
    split at h
    · split at h
      · cases h; rfl
      · split at h
        · cases h
        · rename_i hi
          cases h
          exact (calm_registerImport.run _ _ _ hi).2
    · cases h; rfl
theorem calm_markerCall {g : Gen Expr} {a : Option Expr} (hg : Calm g) : Calm (markerCall g a) := by
  unfold markerCall
  split
  · exact hg.bind fun _ => .pure
  · exact .pure
theorem calm_annotateFieldMetadata {env : Env} {a : Expr} {d : Option Expr} {dep : Option String} :
    Calm (annotateFieldMetadata env a d dep) := by
  unfold annotateFieldMetadata
  exact (calm_markerCall calm_referenceMarker).bind fun _ => (calm_markerCall calm_referenceMarker).bind fun _ =>
    .ite .pure (calm_registerImport.bind fun _ => .pure)
theorem calm_objectFieldValue {n : String} {f : FieldDef} : Calm (objectFieldValue n f) := by
  unfold objectFieldValue
  exact .ite (calm_registerImport.bind fun _ => .pure) (.ite (calm_registerImport.bind fun _ => .pure) .pure)
theorem calm_config {c : Ctx} {g : GQLType} {t : Option String} : Calm (generatePydanticConfig c g t) := by
  unfold generatePydanticConfig
  refine .ite ?_ ?_
  · unfold generateConfigDict
    exact .ite .pure (calm_registerImport.bind fun _ => .pure)
  · unfold generateConfigClass
    dsimp only
    split <;> exact .pure
theorem calm_additionalBasesFor {c : Ctx} {t : String} : Calm (additionalBasesFor c t) := by
  unfold additionalBasesFor
  split
  · exact (calm_registerImports _).bind fun _ => .pure
  · exact .pure
theorem calm_interfaceBasesOf {c : Ctx} : Calm (interfaceBasesOf c) := by
  unfold interfaceBasesOf
  exact (calm_registerImports _).bind fun _ => .pure
theorem calm_typenameImports : Calm typenameImports := by
  unfold typenameImports
  exact calm_registerImport.bind fun _ => calm_registerImport.bind fun _ => calm_registerImport
theorem calm_typenameField {c : Ctx} {t : String} : Calm (typenameField c t) := by
  unfold typenameField
  exact calm_typenameImports.bind fun _ => .pure
theorem calm_genericTypenameField {c : Ctx} : Calm (genericTypenameField c) := by
  unfold genericTypenameField
  exact calm_typenameImports.bind fun _ => .pure
theorem calm_fieldNamed {n : String} {fs : List FieldDef} : Calm (fieldNamed n fs) := by
  unfold fieldNamed
  split
  · exact .pure
  · exact .fail
theorem calm_getImpl {f t : String} : Calm (getInterfaceFragmentImplementationOrNone f t) :=
  .of_still still_interfaceImpl fun r a r' h => by
    unfold getInterfaceFragmentImplementationOrNone at h
    repeat' (split at h)
    all_goals first | (cases h; rfl) | cases h
theorem calm_inheritFragment {f : String} : Calm (inheritFragment f) :=
  .of_still still_inheritFragment fun r a r' h => by
    unfold inheritFragment at h
    split at h <;> first | (cases h; rfl) | cases h
theorem calm_spreadBase {f t : String} : Calm (spreadBase f t) := by
  unfold spreadBase
  refine calm_getImpl.bind fun i => ?_
  split
  · exact .pure
  · exact calm_inheritFragment
theorem calm_spreadImplementations {f : String} : Calm (spreadImplementations f) :=
  .of_still still_spreadImplementations fun r a r' h => by
    unfold spreadImplementations at h
    split at h
    · cases h; rfl
    · split at h
      · cases h
      · split at h
        · cases h
        · rename_i hi
          cases h
          exact (calm_inheritFragment.run _ _ _ hi).2
theorem calm_spreadOrAdditional {c : Ctx} {t : String} {bs : List String} : Calm (spreadOrAdditional c t bs) := by
  unfold spreadOrAdditional
  exact .ite calm_additionalBasesFor .pure
theorem calm_implementingClasses {c : Ctx} {m : String} {p : InterfaceParts} (is : List Implementation) :
    Calm (implementingClasses c m p is) := by
  induction is with
  | nil => exact .pure
  | cons i is ih =>
    unfold implementingClasses implementingClass
    exact (calm_additionalBasesFor.bind fun _ => calm_interfaceBasesOf.bind fun _ => calm_typenameField.bind fun _ =>
      .pure).bind fun _ => ih.bind fun _ => .pure
theorem calm_catchAll {c : Ctx} {m : String} {e : Expr} : Calm (catchAll c m e) := by
  unfold catchAll
  exact .ite (calm_interfaceBasesOf.bind fun _ => calm_genericTypenameField.bind fun _ =>
    calm_registerImport.bind fun _ => .pure) .pure
theorem calm_unionReference {l : List String} {o : Bool} : Calm (unionReference l o) := by
  unfold unionReference
  split
  · exact .fail
  · exact .pure
  · exact calm_registerImport.bind fun _ => calm_optionalWrap
theorem calm_inlineSpreadBase {f : String} : Calm (inlineSpreadBase f) :=
  .of_still still_inlineSpreadBase fun r a r' h => by
    unfold inlineSpreadBase at h
    split at h
    · cases h
    · exact (calm_inheritFragment.run _ _ _ h).2
theorem calm_objectFieldNamed {s : Schema} {t n : String} : Calm (objectFieldNamed s t n) := by
  unfold objectFieldNamed
  split
  · exact calm_fieldNamed
  · exact .fail
theorem calm_fieldDefOf {s : Schema} {t n : String} : Calm (fieldDefOf s t n) := by
  unfold fieldDefOf
  split
  · exact .pure
  · exact .fail
theorem calm_assertFieldDef {s : Schema} {t n : String} : Calm (assertFieldDef s t n) := by
  unfold assertFieldDef
  split
  · exact .pure
  · exact .fail
theorem calm_requireObject {s : Schema} {t : String} : Calm (requireObject s t) := by
  unfold requireObject
  split
  · exact .pure
  · exact .fail
theorem calm_finishField {c : Ctx} {n t : String} {fd : FieldDef} {a : Expr} : Calm (finishField c n t fd a) := by
  unfold finishField
  exact calm_annotateFieldMetadata.bind fun _ => calm_objectFieldValue.bind fun _ => .pure
theorem calm_inlineTypename {c : Ctx} {t : String} {bs : List String} : Calm (inlineTypename c t bs) := by
  unfold inlineTypename
  exact .ite (calm_typenameField.bind fun _ => .pure) .pure
theorem calm_inlineClass {c : Ctx} {cls t : String} {p : ObjectParts} : Calm (inlineClass c cls t p) := by
  unfold inlineClass
  exact calm_inlineTypename.bind fun _ => calm_spreadOrAdditional.bind fun _ => calm_config.bind fun _ => .pure
theorem calm_finishObject {c : Ctx} {cls t : String} {d : Option String} {tn : Stmt} {p : ObjectParts} {o : Bool} :
    Calm (finishObject c cls t d tn p o) := by
  unfold finishObject
  exact calm_spreadOrAdditional.bind fun _ => calm_config.bind fun _ => calm_optionalWrap.bind fun _ => .pure
theorem calm_mergedDocument {prep : List Char → List Char} {t : List Char} : Calm (mergedDocument prep t) :=
  .of_still still_mergedDocument fun r a r' h => by
    unfold mergedDocument at h
    split at h <;> first | (cases h; rfl) | cases h
theorem calm_basesOrObject {c : Ctx} {bs : List String} : Calm (basesOrObject c bs) := by
  unfold basesOrObject
  exact (calm_registerImports _).bind fun _ => .pure
theorem calm_rootTypeOf {s : Schema} {k : OpKind} : Calm (rootTypeOf s k) := by
  unfold rootTypeOf
  split
  · exact .pure
  · exact .fail
theorem calm_fragmentBasesOf {c : Ctx} {p : FragmentsConfig} {b : Bool} : Calm (fragmentBasesOf c p b) := by
  unfold fragmentBasesOf
  exact (calm_registerImports _).bind fun _ => (calm_registerImports _).bind fun _ => (calm_registerImports _).bind fun _ => .pure
theorem calm_fragmentMeta {prep : List Char → List Char} {p : FragmentsConfig} {f : FragDef} :
    Calm (fragmentMeta prep p f) := by
  unfold fragmentMeta
  exact .ite (calm_mergedDocument.bind fun _ => .pure) .pure
theorem calm_fragImplementingClasses {c : Ctx} {m : String} {p : InterfaceParts} (is : List Implementation) :
    Calm (fragImplementingClasses c m p is) := by
  induction is with
  | nil => exact .pure
  | cons i is ih =>
    unfold fragImplementingClasses fragImplementingClass
    exact (calm_additionalBasesFor.bind fun _ => calm_interfaceBasesOf.bind fun _ => calm_typenameField.bind fun _ =>
      .pure).bind fun _ => ih.bind fun _ => .pure
theorem calm_fragMemberClasses {c : Ctx} {p : FragmentsConfig} {n : String} {q : InterfaceParts} (ms : List String) :
    Calm (fragMemberClasses c p n q ms) := by
  induction ms with
  | nil => exact .pure
  | cons i is ih =>
    unfold fragMemberClasses fragMemberClass
    exact (calm_fragmentBasesOf.bind fun _ => calm_typenameField.bind fun _ => .pure).bind fun _ => ih.bind fun _ => .pure
theorem calm_unionMembersOf {f : String} : Calm (unionMembersOf f) := by
  constructor
  intro r a r' h
  unfold unionMembersOf at h
  split at h <;> first | (cases h; exact ⟨.refl _, rfl⟩) | cases h
theorem calm_fragSpreadBase {f t : String} : Calm (fragSpreadBase f t) := by
  constructor
  intro r a r' h
  unfold fragSpreadBase at h
  split at h
  · split at h
    · cases h; exact ⟨.refl _, rfl⟩
    · cases h
  · exact calm_inheritFragment.run _ _ _ h

/-! ## the logic -/

/-- `A` is kept; helper classes are only added; and if `Q` holds of the result and the helper classes registered in the
end are all in `B`, then `O` holds and the names added to the ones to be rebuilt are all in `E`. -/
structure Fwd {α : Type} (A : Reg → Prop) (B E : String → Prop) (O : Prop) (g : Gen α) (Q : α → Prop) : Prop where
  run : ∀ r a r', A r → g r = .ok (a, r') → A r' ∧ (∀ b ∈ r.builtins, b ∈ r'.builtins) ∧
    (Q a → O) ∧ (Q a → (∀ b ∈ r'.builtins, B b) → ∀ n ∈ r'.forwardReferences, n ∈ r.forwardReferences ∨ E n)

/-- `A` depends on nothing but what quiet generators leave alone -/
def Stable (A : Reg → Prop) : Prop := ∀ r r', Quiet r r' → A r → A r'

section
variable {α β : Type} {A : Reg → Prop} {B E : String → Prop} {O : Prop}

theorem Fwd.pure {a : α} {Q : α → Prop} (h : Q a → O) : Fwd A B E O (pure a : Gen α) Q := by
  constructor
  intro r b r' hA e
  obtain ⟨rfl, rfl⟩ := Gen.pure_ok.1 e
  exact ⟨hA, fun _ h => h, h, fun _ _ n hn => .inl hn⟩

theorem Fwd.fail {e : Err} {Q : α → Prop} : Fwd A B E O (Gen.fail e : Gen α) Q :=
  ⟨fun _ _ _ _ h => (Gen.fail_ok.1 h).elim⟩

theorem Fwd.bind {x : Gen α} {f : α → Gen β} {P : α → Prop} {Q : β → Prop}
    (hx : Fwd A B E True x P) (hf : ∀ a, Fwd A B E (O ∧ P a) (f a) Q) : Fwd A B E O (x >>= f) Q := by
  constructor
  intro r b r' hA h
  obtain ⟨a, r1, h1, h2⟩ := Gen.bind_ok.1 h
  obtain ⟨a1, b1, _, d1⟩ := hx.run r a r1 hA h1
  obtain ⟨a2, b2, c2, d2⟩ := (hf a).run r1 b r' a1 h2
  refine ⟨a2, fun b hb => b2 b (b1 b hb), fun hq => (c2 hq).1, fun hq hB n hn => ?_⟩
  rcases d2 hq hB n hn with hn | hn
  · exact d1 (c2 hq).2 (fun b hb => hB b (b2 b hb)) n hn
  · exact .inr hn

theorem Fwd.mono {x : Gen α} {P Q : α → Prop} {O' : Prop} (hx : Fwd A B E O x P) (h : ∀ a, Q a → P a) (ho : O → O') :
    Fwd A B E O' x Q := by
  constructor
  intro r a r' hA e
  obtain ⟨a1, b1, c1, d1⟩ := hx.run r a r' hA e
  exact ⟨a1, b1, fun hq => ho (c1 (h a hq)), fun hq => d1 (h a hq)⟩

theorem Fwd.calm {g : Gen α} (hs : Stable A) (h : Calm g) : Fwd A B E O g fun _ => O := by
  constructor
  intro r a r' hA e
  obtain ⟨q, ef⟩ := h.run r a r' e
  refine ⟨hs _ _ q hA, ?_, id, fun _ _ n hn => .inl (ef ▸ hn)⟩
  obtain ⟨_, _, _, rfl, _, hb, _⟩ := q
  exact hb

theorem Fwd.then {x : Gen α} {f : α → Gen β} {Q : β → Prop} (hs : Stable A) (hx : Calm x)
    (hf : ∀ a, Fwd A B E O (f a) Q) : Fwd A B E O (x >>= f) Q :=
  Fwd.bind (P := fun _ => True) ((Fwd.calm (O := True) hs hx).mono (fun _ _ => trivial) id)
    fun a => (hf a).mono (fun _ h => h) fun h => ⟨h, trivial⟩

theorem Fwd.ite {p : Prop} [Decidable p] {x y : Gen α} {Q : α → Prop}
    (hx : p → Fwd A B E O x Q) (hy : ¬ p → Fwd A B E O y Q) : Fwd A B E O (if p then x else y) Q := by
  split
  · exact hx ‹_›
  · exact hy ‹_›
end

/-! ## the names that may be rebuilt -/

/-- when anything may be left to rebuild (`T`): the names bound by `ss`, and what is left of them without a final `Base` -/
def Cov (T : Prop) (E : String → Prop) (ss : List Stmt) : Prop :=
  T → ∀ n, n ∈ boundL ss ∨ n ++ "Base" ∈ boundL ss → E n

section
variable {T : Prop} {E : String → Prop}

theorem cov_nil : Cov T E [] := by
  intro _ n h
  rcases h with h | h <;> cases h
theorem cov_append {a b : List Stmt} : Cov T E (a ++ b) ↔ Cov T E a ∧ Cov T E b := by
  unfold Cov
  simp only [boundL_append, List.mem_append]
  constructor
  · intro h
    exact ⟨fun ht n hn => h ht n (hn.imp .inl .inl), fun ht n hn => h ht n (hn.imp .inr .inr)⟩
  · rintro ⟨h1, h2⟩ ht n ((h | h) | (h | h))
    · exact h1 ht n (.inl h)
    · exact h2 ht n (.inl h)
    · exact h1 ht n (.inr h)
    · exact h2 ht n (.inr h)
theorem Cov.left {a b : List Stmt} (h : Cov T E (a ++ b)) : Cov T E a := (cov_append.1 h).1
theorem Cov.right {a b : List Stmt} (h : Cov T E (a ++ b)) : Cov T E b := (cov_append.1 h).2
theorem cov_class {n : String} {bs ds : List Expr} {body rest : List Stmt} (h : Cov T E (.classDef n bs body ds :: rest)) :
    T → E n := fun ht => h ht n (.inl (by simp [boundL, bound]))
theorem cov_base {n : String} {bs ds : List Expr} {body rest : List Stmt}
    (h : Cov T E (.classDef (n ++ "Base") bs body ds :: rest)) : T → E n :=
  fun ht => h ht n (.inr (by simp [boundL, bound]))
end

/-- `f` is registered as a fragment on an interface, with its classes for the implementing types -/
def Impl (c : Ctx) (r : Reg) (f : String) : Prop :=
  (∃ m, r.interfaceFragmentImpl.get? f = some m) ∧ ∃ t, r.fragmentTypeMap.get? f = some t ∧ IsInterface c.schema t

/-- When something is left to rebuild (`T` holds if it may be). -/
structure Rules (c : Ctx) (S : String → Prop) (A : Reg → Prop) (B E : String → Prop) (T : Prop) : Prop where
  stable : Stable A
  enum : ∀ t, IsEnum c.schema t → T ∨ (t ∈ builtinNames ∧ ¬ B t) ∨
    (t ∉ builtinNames ∧ (∀ r, A r → r.enumMap.contains t = true) ∧ ∀ m, Kind.enum.style c.env t = .ok m → E m)
  fragment : ∀ f, S f → T ∨ ∀ r, A r → r.fragmentMap.contains f = true ∧
    (Impl c r f ∨ ∀ m, Kind.fragment.style c.env f = .ok m → E m)

section
variable {S B E : String → Prop} {A : Reg → Prop} {T : Prop} {c : Ctx}

theorem fw_referenceEnum {n parent : String} {fw : Bool} (hs : Stable A)
    (hE : T ∨ (n ∈ builtinNames ∧ ¬ B n) ∨
      (n ∉ builtinNames ∧ (∀ r, A r → r.enumMap.contains n = true) ∧ ∀ m, Kind.enum.style c.env n = .ok m → E m)) :
    Fwd A B E True (referenceEnum c.env n parent fw) fun _ => T → E parent := by
  constructor
  intro r a r' hA h
  have q := still_referenceEnum.quiet h
  refine ⟨hs _ _ q hA, ?_, fun _ => trivial, fun hq hB x hx => ?_⟩
  · obtain ⟨_, _, _, rfl, _, hb, _⟩ := q
    exact hb
  unfold referenceEnum at h
  have key : x ∈ (r.addForward parent).forwardReferences → (T ∨ E parent) → x ∈ r.forwardReferences ∨ E x := by
    intro hx hp
    rcases (mem_setAdd _ _ _).1 hx with hx | rfl
    · exact .inl hx
    · exact .inr (hp.elim hq id)
  split at h
  · rename_i hb
    cases h
    have hb := List.contains_iff_mem.1 hb
    refine key hx ?_
    rcases hE with hT | ⟨_, hn⟩ | ⟨hn, _⟩
    · exact .inl hT
    · exact (hn (hB n ((mem_setAdd _ _ _).2 (.inr rfl)))).elim
    · exact (hn hb).elim
  · rename_i hb
    split at h
    · cases h
    · rename_i m hm
      split at h
      · rename_i hc
        split at h
        · cases h
        · cases h
          refine key hx ?_
          rcases hE with hT | ⟨hn, _⟩ | ⟨_, hn, hm'⟩
          · exact .inl hT
          · exact (hb (List.contains_iff_mem.2 hn)).elim
          · rw [hn r hA] at hc
            simp at hc
            exact .inr (hc ▸ hm' m hm)
      · cases h
        exact .inl hx

theorem fw_referenceInput {n parent : String} {fw : Bool} (hs : Stable A) :
    Fwd A B E True (referenceInput c.env n parent fw) fun _ => E parent := by
  constructor
  intro r a r' hA h
  unfold referenceInput at h
  split at h
  · cases h
  · split at h
    · split at h
      · cases h
      · cases h
        refine ⟨hs _ _ ⟨_, _, _, rfl, fun _ h => h, fun _ h => h, fun _ h => mem_setAdd_left h⟩ hA, fun _ h => h,
          fun _ => trivial, fun hq _ x hx => ?_⟩
        rcases (mem_setAdd _ _ _).1 hx with hx | rfl
        · exact .inl hx
        · exact .inr hq
    · split at h
      · cases h
      · cases h
        exact ⟨hA, fun _ h => h, fun _ => trivial, fun _ _ x hx => .inl hx⟩

theorem fw_referenceFragment {f parent : String} {fw : Bool} (hs : Stable A)
    (hE : T ∨ ∀ r, A r → r.fragmentMap.contains f = true ∧ ∀ m, Kind.fragment.style c.env f = .ok m → E m) :
    Fwd A B E True (referenceGeneric c.env .fragment f parent fw) fun _ => T → E parent := by
  constructor
  intro r a r' hA h
  unfold referenceGeneric at h
  split at h
  · cases h
  · rename_i m hm
    split at h
    · rename_i hc
      split at h
      · cases h
      · cases h
        refine ⟨hs _ _ ⟨_, _, _, rfl, fun _ h => h, fun _ h => h, fun _ h => mem_setAdd_left h⟩ hA, fun _ h => h,
          fun _ => trivial, fun hq _ x hx => ?_⟩
        rcases (mem_setAdd _ _ _).1 hx with hx | rfl
        · exact .inl hx
        · refine .inr ?_
          rcases hE with hT | hE
          · exact hq hT
          · obtain ⟨hn, hm'⟩ := hE r hA
            have : (r.classMap .fragment).contains f = true := hn
            rw [this] at hc
            simp at hc
            exact hc ▸ hm' m hm
    · cases h
      exact ⟨hA, fun _ h => h, fun _ => trivial, fun _ _ x hx => .inl hx⟩

theorem Impl.quiet {r r' : Reg} {f : String} (h : Quiet r r') : Impl c r' f ↔ Impl c r f := by
  obtain ⟨_, _, _, rfl, _⟩ := h
  exact Iff.rfl

theorem fw_collapseReference (hR : Rules c S A B E T) {p f t : String} (hf : S f) (ht : ¬ IsInterface c.schema t) :
    Fwd A B E True (collapseReference c p f t) fun _ => T → E p := by
  rcases hR.fragment f hf with hT | hn
  · unfold collapseReference
    refine .then hR.stable calm_getImpl fun i => ?_
    split
    · exact .pure fun _ => trivial
    · exact fw_referenceFragment hR.stable (.inl hT)
  · constructor
    intro r a r' hA h
    unfold collapseReference at h
    obtain ⟨o, r1, h1, h⟩ := Gen.bind_ok.1 h
    obtain ⟨rfl, ⟨n, rfl, _⟩ | ⟨rfl, ho⟩⟩ := run_interfaceImpl (S := ⟨c.schema, fun _ => False, fun _ => False⟩) ht h1
    · obtain ⟨rfl, rfl⟩ := Gen.pure_ok.1 h
      exact ⟨hA, fun _ h => h, fun _ => trivial, fun _ _ _ h => .inl h⟩
    · have hi : ¬ Impl c r1 f := by
        rintro ⟨⟨m, hm⟩, t', ht', hi⟩
        rcases ho with ho | ho | ⟨t'', ho, hno⟩
        · rw [hm] at ho; cases ho
        · exact ho
        · rw [ht'] at ho; cases ho; exact hno hi
      obtain ⟨a1, b1, _, d1⟩ := (fw_referenceFragment (T := T) (A := fun r => A r ∧ ¬ Impl c r f) (B := B) (E := E)
        (fun r r' q h => ⟨hR.stable r r' q h.1, fun hi => h.2 ((Impl.quiet q).1 hi)⟩)
        (.inr fun r h => ⟨(hn r h.1).1, (hn r h.1).2.resolve_left h.2⟩)).run r1 a r' ⟨hA, hi⟩ h
      exact ⟨a1.1, b1, fun _ => trivial, d1⟩

/-- annotation and classes of a node in the class `parent` -/
def FNode (T : Prop) (E : String → Prop) (parent : String) (ss : List Stmt) : Prop := (T → E parent) ∧ Cov T E ss

theorem fw_wrapOutput (hs : Stable A) {parent : String} {leaf : String → Bool → Gen (Expr × List Stmt)}
    (hl : ∀ n o, Fwd A B E True (leaf n o) fun x => FNode T E parent x.2) (t : TypeNode) : ∀ {o : Bool},
    Fwd A B E True (wrapOutput c leaf t o) fun x => FNode T E parent x.2 := by
  induction t with
  | named n => intro o; unfold wrapOutput; exact hl n o
  | nonNull t ih => intro o; unfold wrapOutput; exact ih
  | list t ih =>
    intro o
    unfold wrapOutput
    exact .then hs calm_listImport fun _ => ih.bind fun x => .then hs calm_optionalWrap fun e => .pure fun h => ⟨trivial, h⟩

theorem fw_typeField (hs : Stable A) {parent : String} {fd : FieldDef} {t : String}
    {leaf : String → Bool → Gen (Expr × List Stmt)}
    (hl : ∀ n o, Fwd A B E True (leaf n o) fun x => FNode T E parent x.2) :
    Fwd A B E True (typeField c fd t leaf) fun x => FNode T E parent x.2 := by
  unfold typeField
  exact .then hs calm_nodeName fun _ => (fw_wrapOutput hs hl _).bind fun x => .then hs calm_finishField fun s =>
    .pure fun h => ⟨trivial, h⟩

theorem fw_finishObject (hs : Stable A) {cls t : String} {d : Option String} {tn : Stmt} {p : ObjectParts} {o : Bool} :
    Fwd A B E (FNode T E cls p.classes) (finishObject c cls t d tn p o) fun x => Cov T E x.2 := by
  unfold finishObject
  exact .then hs calm_spreadOrAdditional fun bs => .then hs calm_config fun cfg => .then hs calm_optionalWrap fun e =>
    .pure fun h => ⟨cov_class h.right, h.left⟩

theorem fw_objectNode (hR : Rules c S A B E T) {parent target t : String} {d : Option String} {sub : List Sel}
    {walk : String → Gen ObjectParts} {o : Bool} (hS : ∀ f, Sel.spread f ∈ sub → S f) (ht : ¬ IsInterface c.schema t)
    (hw : ∀ cls, Fwd A B E True (walk cls) fun p => FNode T E cls p.classes) :
    Fwd A B E True (objectNode c parent target t d sub walk o) fun x => FNode T E parent x.2 := by
  unfold objectNode
  refine .then hR.stable calm_typenameField fun tn => ?_
  split
  · rename_i f heq
    have hf : S f := hS f (by
      have : Sel.spread f ∈ nonTypenameFields sub := by rw [heq]; exact List.mem_singleton.2 rfl
      exact (List.mem_filter.1 this).1)
    exact (fw_collapseReference hR hf ht).bind fun x => .then hR.stable calm_optionalWrap fun e => .pure fun h => ⟨trivial, h.1⟩
  · exact (hw _).bind fun p => (fw_finishObject hR.stable).mono (fun _ h => h.2) fun h => ⟨trivial, h⟩

theorem fw_interfaceNode (hs : Stable A) {parent target t : String} {d : Option String}
    {walk : String → Gen InterfaceParts} {o : Bool}
    (hw : ∀ cls, Fwd A B E True (walk cls) fun p => FNode T E cls p.classes) :
    Fwd A B E True (interfaceNode c parent target t d walk o) fun x => FNode T E parent x.2 := by
  unfold interfaceNode
  exact (hw _).bind fun p => .then hs calm_additionalBasesFor fun _ => .then hs calm_interfaceBasesOf fun _ =>
    .then hs calm_config fun cfg => .then hs (calm_implementingClasses _) fun impls => .then hs calm_registerImport fun _ =>
    .then hs calm_registerImport fun _ => .then hs calm_catchAll fun x => .then hs calm_optionalWrap fun e =>
    .pure fun h => ⟨trivial, cov_base h.2.right, h.2.left⟩

theorem fw_inlineClass (hs : Stable A) {cls t : String} {p : ObjectParts} :
    Fwd A B E (FNode T E cls p.classes) (do let s ← inlineClass c cls t p; pure ([cls], s)) fun x => Cov T E x.2 := by
  unfold inlineClass
  simp only [bind_assoc, pure_bind]
  exact .then hs calm_inlineTypename fun _ => .then hs calm_spreadOrAdditional fun _ => .then hs calm_config fun _ =>
    .pure fun h => ⟨cov_class h.right, h.left⟩

theorem fw_unionNode (hs : Stable A) {parent : String} {walk : Gen (List String × List Stmt)} {o : Bool}
    (hw : Fwd A B E True walk fun x => Cov T E x.2) : Fwd A B E True (unionNode walk o) fun x => FNode T E parent x.2 := by
  unfold unionNode
  exact hw.bind fun p => .then hs calm_unionReference fun e => .pure fun h => ⟨trivial, h.2⟩

theorem fw_namedNode (hR : Rules c S A B E T) {parent target : String} {sub : List Sel}
    {objs : String → List FieldDef → String → Gen ObjectParts}
    {ifcs : List FieldDef → String → Gen InterfaceParts} {uns : Gen (List String × List Stmt)}
    (hS : ∀ f, Sel.spread f ∈ sub → S f)
    (ho : ∀ n fs k, Fwd A B E True (objs n fs k) fun p => FNode T E k p.classes)
    (hi : ∀ fs k, Fwd A B E True (ifcs fs k) fun p => FNode T E k p.classes)
    (hu : Fwd A B E True uns fun x => Cov T E x.2) (n : String) (o : Bool) :
    Fwd A B E True (namedNode c parent target sub objs ifcs uns n o) fun x => FNode T E parent x.2 := by
  unfold namedNode
  split
  · exact .then hR.stable calm_referenceScalar fun _ => .then hR.stable calm_optionalWrap fun _ => .pure fun _ => trivial
  · rename_i vs d ht
    refine (fw_referenceEnum hR.stable (hR.enum n ⟨vs, ?_⟩)).bind fun x => .then hR.stable calm_optionalWrap fun e =>
      .pure fun h => ⟨trivial, h.1⟩
    unfold Schema.lookup
    rw [ht]
    rfl
  · rename_i ht
    refine fw_objectNode hR hS ?_ (ho _ _)
    rintro ⟨fs, is, hi⟩
    unfold Schema.lookup at hi
    rw [ht] at hi
    cases hi
  · exact fw_interfaceNode hR.stable (hi _)
  · exact fw_unionNode hR.stable hu
  · exact .fail
end

section
variable {S B E : String → Prop} {A : Reg → Prop} {T : Prop} {c : Ctx} (hR : Rules c S A B E T)
include hR

mutual
theorem fw_objectSel (s : Sel) : SpreadsIn S [s] → ∀ (t : String) (fs : List FieldDef) (cls : String),
    Fwd A B E True (objectSel c t fs cls s) fun p => FNode T E cls p.classes := by
  intro h t fs cls
  cases s with
  | spread f => unfold objectSel; exact .then hR.stable calm_spreadBase fun _ => .pure fun _ => trivial
  | inline t sub => unfold objectSel; exact .fail
  | field n a as sub =>
    unfold objectSel
    refine .ite (fun _ => .pure fun _ => trivial) fun _ => ?_
    exact .then hR.stable calm_fieldNamed fun fd => (fw_typeField hR.stable (fw_namedNode hR h.field.mem
      (fun n fs k => fw_objectSels sub h.field n fs k) (fun fs k => fw_interfaceSels sub h.field fs k)
      (fw_unionSels sub h.field _))).bind fun x => .pure fun hx => ⟨trivial, hx⟩
theorem fw_objectSels (ss : List Sel) : SpreadsIn S ss → ∀ (t : String) (fs : List FieldDef) (cls : String),
    Fwd A B E True (objectSels c t fs cls ss) fun p => FNode T E cls p.classes := by
  intro h t fs cls
  cases ss with
  | nil => unfold objectSels; exact .pure fun _ => trivial
  | cons s rest =>
    unfold objectSels
    exact (fw_objectSel s h.head t fs cls).bind fun _ => (fw_objectSels rest h.tail t fs cls).bind fun _ =>
      .pure fun hx => ⟨⟨trivial, hx.1, hx.2.left⟩, hx.1, hx.2.right⟩
theorem fw_interfaceSel (s : Sel) : SpreadsIn S [s] → ∀ (fs : List FieldDef) (base : String),
    Fwd A B E True (interfaceSel c fs base s) fun p => FNode T E base p.classes := by
  intro h fs base
  cases s with
  | spread f =>
    unfold interfaceSel
    exact .then hR.stable calm_spreadImplementations fun _ => .pure fun _ => trivial
  | inline t sub =>
    cases t with
    | none => unfold interfaceSel; exact .fail
    | some t =>
      unfold interfaceSel
      exact .then hR.stable calm_requireObject fun _ => (fw_inlineSels sub h.inline t base).bind fun x =>
        .pure fun hx => ⟨trivial, hx⟩
  | field n a as sub =>
    unfold interfaceSel
    refine .ite (fun _ => .pure fun _ => trivial) fun _ => ?_
    exact .then hR.stable calm_fieldNamed fun fd => (fw_typeField hR.stable (fw_namedNode hR h.field.mem
      (fun n fs k => fw_objectSels sub h.field n fs k) (fun fs k => fw_interfaceSels sub h.field fs k)
      (fw_unionSels sub h.field _))).bind fun x => .pure fun hx => ⟨trivial, hx⟩
theorem fw_interfaceSels (ss : List Sel) : SpreadsIn S ss → ∀ (fs : List FieldDef) (base : String),
    Fwd A B E True (interfaceSels c fs base ss) fun p => FNode T E base p.classes := by
  intro h fs base
  cases ss with
  | nil => unfold interfaceSels; exact .pure fun _ => trivial
  | cons s rest =>
    unfold interfaceSels
    exact (fw_interfaceSel s h.head fs base).bind fun _ => (fw_interfaceSels rest h.tail fs base).bind fun _ =>
      .pure fun hx => ⟨⟨trivial, hx.1, hx.2.left⟩, hx.1, hx.2.right⟩
theorem fw_inlineSel (s : Sel) : SpreadsIn S [s] → ∀ (t parent : String),
    Fwd A B E True (inlineSel c t parent s) fun x => FNode T E parent x.2 := by
  intro h t parent
  cases s with
  | spread f => unfold inlineSel; exact .pure fun _ => trivial
  | inline t sub => unfold inlineSel; exact .pure fun _ => trivial
  | field n a as sub =>
    unfold inlineSel
    refine .ite (fun _ => .pure fun _ => trivial) fun _ => ?_
    exact .then hR.stable calm_fieldDefOf fun fd => fw_typeField hR.stable (fw_namedNode hR h.field.mem
      (fun n fs k => fw_objectSels sub h.field n fs k) (fun fs k => fw_interfaceSels sub h.field fs k)
      (fw_unionSels sub h.field _))
theorem fw_inlineSels (ss : List Sel) : SpreadsIn S ss → ∀ (t parent : String),
    Fwd A B E True (inlineSels c t parent ss) fun x => FNode T E parent x.2 := by
  intro h t parent
  cases ss with
  | nil => unfold inlineSels; exact .pure fun _ => trivial
  | cons s rest =>
    unfold inlineSels
    exact (fw_inlineSel s h.head t parent).bind fun _ => (fw_inlineSels rest h.tail t parent).bind fun _ =>
      .pure fun hx => ⟨⟨trivial, hx.1, hx.2.left⟩, hx.1, hx.2.right⟩
theorem fw_unionSel (s : Sel) : SpreadsIn S [s] → ∀ (parent : String),
    Fwd A B E True (unionSel c parent s) fun x => Cov T E x.2 := by
  intro h parent
  cases s with
  | spread f => unfold unionSel; exact .then hR.stable calm_inheritFragment fun _ => .pure fun _ => trivial
  | inline t sub =>
    cases t with
    | none => unfold unionSel; exact .fail
    | some t =>
      unfold unionSel
      exact (fw_unionInlineSels sub h.inline t _).bind fun p => (fw_inlineClass hR.stable).mono (fun _ h => h)
        fun h => ⟨trivial, h⟩
  | field n a as sub => unfold unionSel; exact .pure fun _ => trivial
theorem fw_unionSels (ss : List Sel) : SpreadsIn S ss → ∀ (parent : String),
    Fwd A B E True (unionSels c parent ss) fun x => Cov T E x.2 := by
  intro h parent
  cases ss with
  | nil => unfold unionSels; exact .pure fun _ => trivial
  | cons s rest =>
    unfold unionSels
    exact (fw_unionSel s h.head parent).bind fun _ => (fw_unionSels rest h.tail parent).bind fun _ =>
      .pure fun hx => ⟨⟨trivial, hx.left⟩, hx.right⟩
theorem fw_unionInlineSel (s : Sel) : SpreadsIn S [s] → ∀ (t cls : String),
    Fwd A B E True (unionInlineSel c t cls s) fun p => FNode T E cls p.classes := by
  intro h t cls
  cases s with
  | spread f => unfold unionInlineSel; exact .then hR.stable calm_inlineSpreadBase fun _ => .pure fun _ => trivial
  | inline t sub => unfold unionInlineSel; exact .pure fun _ => trivial
  | field n a as sub =>
    unfold unionInlineSel
    refine .ite (fun _ => .pure fun _ => trivial) fun _ => ?_
    exact .then hR.stable calm_objectFieldNamed fun fd => (fw_typeField hR.stable (fw_namedNode hR h.field.mem
      (fun n fs k => fw_objectSels sub h.field n fs k) (fun fs k => fw_interfaceSels sub h.field fs k)
      (fw_unionSels sub h.field _))).bind fun x => .pure fun hx => ⟨trivial, hx⟩
theorem fw_unionInlineSels (ss : List Sel) : SpreadsIn S ss → ∀ (t cls : String),
    Fwd A B E True (unionInlineSels c t cls ss) fun p => FNode T E cls p.classes := by
  intro h t cls
  cases ss with
  | nil => unfold unionInlineSels; exact .pure fun _ => trivial
  | cons s rest =>
    unfold unionInlineSels
    exact (fw_unionInlineSel s h.head t cls).bind fun _ => (fw_unionInlineSels rest h.tail t cls).bind fun _ =>
      .pure fun hx => ⟨⟨trivial, hx.1, hx.2.left⟩, hx.1, hx.2.right⟩
end
end
end Turms
