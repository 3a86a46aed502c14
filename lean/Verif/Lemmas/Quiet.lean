import Verif.Lemmas.ObjectFields
import Verif.Spec.Responses

/-! # Generator calls that only touch imports, helper classes and forward references -/

namespace Turms
open Spec

/-- only imports, helper classes and forward references may differ, and only grow -/
def Quiet (r r' : Reg) : Prop :=
  ∃ i b f, r' = { r with imports := i, builtins := b, forwardReferences := f } ∧
    (∀ d ∈ r.imports, d ∈ i) ∧ (∀ d ∈ r.builtins, d ∈ b) ∧ ∀ d ∈ r.forwardReferences, d ∈ f

theorem Quiet.refl (r : Reg) : Quiet r r := ⟨_, _, _, rfl, fun _ h => h, fun _ h => h, fun _ h => h⟩
theorem Quiet.trans {a b c : Reg} (h1 : Quiet a b) (h2 : Quiet b c) : Quiet a c := by
  obtain ⟨_, _, _, rfl, a1, a2, a3⟩ := h1
  obtain ⟨_, _, _, rfl, b1, b2, b3⟩ := h2
  exact ⟨_, _, _, rfl, fun d h => b1 d (a1 d h), fun d h => b2 d (a2 d h), fun d h => b3 d (a3 d h)⟩

theorem Quiet.frame {r r' : Reg} (h : Quiet r r') : Frame r r' := by
  obtain ⟨_, _, _, rfl, _⟩ := h
  exact ⟨rfl, fun k => by cases k <;> rfl⟩

theorem Quiet.tables {r r' : Reg} (h : Quiet r r') :
    r'.scalarMap = r.scalarMap ∧ r'.fragmentMap = r.fragmentMap ∧ r'.fragmentTypeMap = r.fragmentTypeMap ∧
    r'.interfaceFragmentImpl = r.interfaceFragmentImpl ∧ r'.unionFragmentMembers = r.unionFragmentMembers ∧
    r'.interfaceFragments = r.interfaceFragments ∧ r'.enumMap = r.enumMap ∧
    r'.fragmentDocumentMap = r.fragmentDocumentMap ∧ r'.inputMap = r.inputMap := by
  obtain ⟨_, _, _, rfl, _⟩ := h
  exact ⟨rfl, rfl, rfl, rfl, rfl, rfl, rfl, rfl, rfl⟩

/-- if the call returns, it only touched imports, helper classes and forward references, and its result has
the property -/
def Quietly {α : Type} (g : Gen α) (r : Reg) (Q : α → Prop) : Prop :=
  ∀ a r', g r = .ok (a, r') → Quiet r r' ∧ Q a

section
variable {α β : Type} {r : Reg}

theorem Quietly.pure {a : α} {Q : α → Prop} (h : Q a) : Quietly (pure a : Gen α) r Q := by
  intro b r' e
  obtain ⟨rfl, rfl⟩ := Gen.pure_ok.1 e
  exact ⟨.refl _, h⟩

theorem Quietly.fail {e : Err} {Q : α → Prop} : Quietly (Gen.fail e : Gen α) r Q :=
  fun _ _ h => (Gen.fail_ok.1 h).elim

theorem Quietly.bind {x : Gen α} {f : α → Gen β} {P : α → Prop} {Q : β → Prop} (hx : Quietly x r P)
    (hf : ∀ a r1, Quiet r r1 → P a → Quietly (f a) r1 Q) : Quietly (x >>= f) r Q := by
  intro b r' h
  obtain ⟨a, r1, h1, h2⟩ := Gen.bind_ok.1 h
  obtain ⟨q1, hp⟩ := hx a r1 h1
  obtain ⟨q2, hq⟩ := hf a r1 q1 hp b r' h2
  exact ⟨q1.trans q2, hq⟩

theorem Quietly.mono {x : Gen α} {P Q : α → Prop} (hx : Quietly x r P) (h : ∀ a, P a → Q a) :
    Quietly x r Q := fun a r' e => ⟨(hx a r' e).1, h a (hx a r' e).2⟩

theorem Quietly.lift {x : Except Err α} {Q : α → Prop} (h : ∀ a, x = .ok a → Q a) :
    Quietly (Gen.lift x) r Q := by
  intro a r' e
  obtain ⟨hx, rfl⟩ := Gen.lift_ok.1 e
  exact ⟨.refl _, h a hx⟩

end

theorem quietly_registerImport {n : String} {r : Reg} : Quietly (registerImport n) r fun _ => True := by
  intro u r' h
  unfold registerImport at h
  split at h <;> cases h
  · exact ⟨.refl _, trivial⟩
  · exact ⟨⟨_, _, _, rfl, fun _ h => (mem_setAdd _ _ _).2 (.inl h), fun _ h => h, fun _ h => h⟩, trivial⟩

theorem quietly_registerBuiltin {n : String} {r : Reg} : Quietly (registerBuiltin n) r fun _ => True := by
  intro u r' h
  unfold registerBuiltin at h
  cases h
  exact ⟨⟨_, _, _, rfl, fun _ h => h, fun _ h => (mem_setAdd _ _ _).2 (.inl h), fun _ h => h⟩, trivial⟩

theorem quietly_registerImports {l : List String} : ∀ {r : Reg}, Quietly (registerImports l) r fun _ => True := by
  induction l with
  | nil => exact .pure trivial
  | cons b l ih => exact quietly_registerImport.bind fun _ _ _ _ => ih

theorem quietly_optionalWrap {o : Bool} {e : Expr} {r : Reg} :
    Quietly (optionalWrap o e) r fun x => x = if o then sub "Optional" e else e := by
  unfold optionalWrap
  split
  · exact quietly_registerImport.bind fun _ _ _ _ => .pure rfl
  · exact .pure rfl

theorem quietly_additionalBasesFor {c : Ctx} {n : String} {r : Reg} :
    Quietly (additionalBasesFor c n) r fun bs =>
      bs = baseNames ((c.config.additionalBases.get? n).getD []) := by
  unfold additionalBasesFor
  split
  · rename_i l h
    exact quietly_registerImports.bind fun _ _ _ _ => .pure (by rw [h]; rfl)
  · rename_i h
    exact .pure (by rw [h]; rfl)

/-- the bases of interface classes -/
def interfaceBaseList (c : Ctx) : List String :=
  if (c.config.interfaceBases.getD []).isEmpty then c.config.objectBases else c.config.interfaceBases.getD []

theorem quietly_interfaceBasesOf {c : Ctx} {r : Reg} :
    Quietly (interfaceBasesOf c) r fun bs => bs = baseNames (interfaceBaseList c) := by
  unfold interfaceBasesOf
  exact quietly_registerImports.bind fun _ _ _ _ => .pure rfl

theorem quietly_generatePydanticConfig {c : Ctx} {g : GQLType} {n : Option String} {r : Reg} :
    Quietly (generatePydanticConfig c g n) r fun ss => ∀ st ∈ ss, fieldOf st = none := by
  unfold generatePydanticConfig
  split
  · unfold generateConfigDict
    dsimp only
    split
    · exact .pure (by simp)
    · exact quietly_registerImport.bind fun _ _ _ _ => .pure (by simp [fieldOf])
  · refine .pure ?_
    unfold generateConfigClass
    dsimp only
    split <;> simp [fieldOf]

theorem quietly_referenceMarker {o : Option String} {b l : String} {r : Reg} :
    Quietly (referenceMarker o b l) r fun e => ∃ n, e = .name n := by
  intro e r' h
  unfold referenceMarker at h
  split at h
  · split at h
    · split at h
      · cases h
      · rename_i hb; cases h; exact ⟨(quietly_registerBuiltin _ _ hb).1, _, rfl⟩
    · split at h
      · cases h
      · rename_i hb; cases h; exact ⟨(quietly_registerImport _ _ hb).1, _, rfl⟩
  · split at h
    · cases h
    · rename_i hb; cases h; exact ⟨(quietly_registerBuiltin _ _ hb).1, _, rfl⟩

theorem quietly_markerCall {ref : Gen Expr} {o : Option Expr} {r : Reg}
    (href : ∀ r, Quietly ref r fun e => ∃ n, e = .name n) :
    Quietly (markerCall ref o) r fun l => ∀ m ∈ l, ∃ n as, m = .call (.name n) as [] := by
  unfold markerCall
  split
  · refine (href _).bind fun e _ _ he => .pure ?_
    obtain ⟨n, rfl⟩ := he
    intro m hm
    exact ⟨n, _, List.mem_singleton.1 hm⟩
  · exact .pure (by simp)

theorem discriminatorOf_marker (n : String) (as : List Expr) : discriminatorOf (.call (.name n) as []) = none := by
  simp [discriminatorOf, kwarg]

/-- metadata wraps the annotation in `Annotated[..]` or leaves it -/
theorem quietly_annotateFieldMetadata {env : Env} {a : Expr} {d : Option Expr} {dep : Option String} {r : Reg} :
    Quietly (annotateFieldMetadata env a d dep) r fun e =>
      e = a ∨ ∃ ms, e = sub "Annotated" (.tuple (a :: ms)) ∧ ∀ m ∈ ms, discriminatorOf m = none := by
  unfold annotateFieldMetadata
  refine (quietly_markerCall fun _ => quietly_referenceMarker).bind fun m1 r1 _ h1 => ?_
  refine (quietly_markerCall fun _ => quietly_referenceMarker).bind fun m2 r2 _ h2 => ?_
  split
  · exact .pure (.inl rfl)
  · refine quietly_registerImport.bind fun _ _ _ _ => .pure (.inr ⟨_, rfl, ?_⟩)
    intro m hm
    rcases List.mem_append.1 hm with h | h
    · obtain ⟨n, as, rfl⟩ := h1 m h; exact discriminatorOf_marker n as
    · obtain ⟨n, as, rfl⟩ := h2 m h; exact discriminatorOf_marker n as

theorem quietly_nodeName {env : Env} {n : String} {r : Reg} :
    Quietly (nodeName env n) r fun x => generateNodeName env.stylers n = .ok x := .lift fun _ h => h

theorem quietly_parameterName {env : Env} {n : String} {r : Reg} :
    Quietly (parameterName env n) r fun x => generateParameterName env.stylers n = .ok x := .lift fun _ h => h

theorem quietly_objectFieldValue {attr : String} {f : FieldDef} {r : Reg} :
    Quietly (objectFieldValue attr f) r fun v => ∀ ann,
      fieldOf (.annAssign attr ann v) = some ⟨f.name, !f.type.isNonNull, ann⟩ ∧
      defaultOf (.annAssign attr ann v) = (if f.type.isNonNull then none else some (.const .none)) ∧
      hasAlias (.annAssign attr ann v) = (attr != f.name) := by
  intro v r' h
  refine ⟨?_, fun ann => (objectFieldValue_ok h ann).2⟩
  revert h
  have : Quietly (objectFieldValue attr f) r fun _ => True := by
    unfold objectFieldValue
    split
    · exact quietly_registerImport.bind fun _ _ _ _ => .pure trivial
    · split
      · exact quietly_registerImport.bind fun _ _ _ _ => .pure trivial
      · exact .pure trivial
  exact fun h => (this _ _ h).1

theorem quietly_referenceScalar {n : String} {r : Reg} :
    Quietly (referenceScalar n) r fun e => ∃ c, scalarClass r n = some c ∧ e = .name c := by
  intro e r' h
  obtain ⟨c, h1, h2, _⟩ := referenceScalar_ok h
  refine ⟨?_, c, h1, h2⟩
  unfold referenceScalar at h
  split at h
  · cases h
  · split at h
    · split at h
      · cases h
      · rename_i hi; cases h; exact (quietly_registerImport _ _ hi).1
    · cases h; exact .refl _

theorem quiet_addForward (r : Reg) (p : String) : Quiet r (r.addForward p) :=
  ⟨_, _, _, rfl, fun _ h => h, fun _ h => h, fun _ h => (mem_setAdd _ _ _).2 (.inl h)⟩

theorem quietly_reference {env : Env} {k : Kind} {n p : String} {f : Bool} {r : Reg} :
    Quietly (reference env k n p f) r fun _ => True := by
  intro e r' h
  refine ⟨?_, trivial⟩
  rcases reference_ok h with ⟨c, s, rfl, rfl, _⟩ | ⟨c, rfl, _, hst, rfl, _⟩ | ⟨_, hb, rfl, rfl⟩
  · exact .refl _
  · exact quiet_addForward _ _
  · exact ⟨_, _, _, rfl, fun _ h => h, fun _ h => (mem_setAdd _ _ _).2 (.inl h), fun _ h => (mem_setAdd _ _ _).2 (.inl h)⟩

theorem quietly_referenceEnum {env : Env} {n p : String} {f : Bool} {r : Reg} :
    Quietly (referenceEnum env n p f) r fun e => ∃ c, enumClass env n = some c ∧ (e = .name c ∨ e = .str c) := by
  intro e r' h
  have h' : reference env .enum n p f r = .ok (e, r') := h
  obtain ⟨c, h1, h2, _⟩ := referenceEnum_accepts h
  exact ⟨(quietly_reference _ _ h').1, c, h1, h2⟩

theorem quietly_referenceFragment {env : Env} {n p : String} {r : Reg} :
    Quietly (referenceGeneric env .fragment n p) r fun e =>
      ∃ c, Kind.fragment.style env n = .ok c ∧ (e = .name c ∨ e = .str c) := by
  intro e r' h
  have h' : reference env .fragment n p true r = .ok (e, r') := h
  refine ⟨(quietly_reference _ _ h').1, ?_⟩
  rcases reference_ok h' with ⟨c, s, rfl, rfl, _, hs, _, hcs, _⟩ | ⟨c, rfl, _, hst, _⟩ | ⟨hb, _⟩
  · rcases hcs with ⟨h1, _⟩ | ⟨_, rfl⟩
    · cases h1
    · exact ⟨_, hs, .inl rfl⟩
  · exact ⟨_, hst, .inr rfl⟩
  · cases hb

theorem quietly_inheritFragment {n : String} {r : Reg} :
    Quietly (inheritFragment n) r fun c => r.fragmentMap.get? n = some c := by
  intro c r' h
  unfold inheritFragment at h
  split at h
  · cases h
  · rename_i hc; cases h; exact ⟨.refl _, hc⟩

theorem quietly_typenameField {c : Ctx} {n : String} {r : Reg} :
    Quietly (typenameField c n) r fun s => s = typenameStmt c n := by
  unfold typenameField typenameImports
  exact (quietly_registerImport.bind fun _ _ _ _ => quietly_registerImport.bind fun _ _ _ _ =>
    quietly_registerImport).bind fun _ _ _ _ => .pure rfl

theorem quietly_genericTypenameField {c : Ctx} {r : Reg} :
    Quietly (genericTypenameField c) r fun s => s = genericTypenameStmt c := by
  unfold genericTypenameField typenameImports
  exact (quietly_registerImport.bind fun _ _ _ _ => quietly_registerImport.bind fun _ _ _ _ =>
    quietly_registerImport).bind fun _ _ _ _ => .pure rfl

theorem quietly_fieldNamed {n : String} {fs : List FieldDef} {r : Reg} :
    Quietly (fieldNamed n fs) r fun fd => fd ∈ fs ∧ fd.name = n := by
  unfold fieldNamed
  split
  · rename_i f h
    exact .pure ⟨List.mem_of_find?_eq_some h, by simpa using List.find?_some h⟩
  · exact .fail

end Turms
