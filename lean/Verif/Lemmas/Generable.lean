import Verif.Spec.Generable
import Verif.Lemmas.ObjectsProgress

/-! # The walk over a selection set succeeds -/

namespace Turms
open Spec

/-- The tables of the registry are the same; the helper classes asked for exist. -/
structure Mild (r r' : Reg) : Prop where
  scalar : r'.scalarMap = r.scalarMap
  classes : ∀ k, r'.classMap k = r.classMap k
  types : r'.fragmentTypeMap = r.fragmentTypeMap
  impl : r'.interfaceFragmentImpl = r.interfaceFragmentImpl
  members : r'.unionFragmentMembers = r.unionFragmentMembers
  ifrags : r'.interfaceFragments = r.interfaceFragments
  documents : r'.fragmentDocumentMap = r.fragmentDocumentMap
  helpers : (∀ b ∈ r.builtins, b ∈ builtinNames) → ∀ b ∈ r'.builtins, b ∈ builtinNames

theorem Mild.refl {r : Reg} : Mild r r := ⟨rfl, fun _ => rfl, rfl, rfl, rfl, rfl, rfl, id⟩

theorem Mild.trans {r r1 r2 : Reg} (h : Mild r r1) (h2 : Mild r1 r2) : Mild r r2 :=
  ⟨h2.scalar.trans h.scalar, fun k => (h2.classes k).trans (h.classes k), h2.types.trans h.types, h2.impl.trans h.impl,
    h2.members.trans h.members, h2.ifrags.trans h.ifrags, h2.documents.trans h.documents, fun hb => h2.helpers (h.helpers hb)⟩

/-- the call returns, with a mild effect on the registry -/
def Go {α : Type} (g : Gen α) (r : Reg) (Q : α → Prop := fun _ => True) : Prop :=
  ∃ a r', g r = .ok (a, r') ∧ Mild r r' ∧ Q a

section
variable {α β : Type} {r : Reg}

theorem Go.pure {a : α} {Q : α → Prop} (h : Q a) : Go (pure a : Gen α) r Q := ⟨a, r, rfl, .refl, h⟩

theorem Go.ret {a : α} : Go (Pure.pure a : Gen α) r := ⟨a, r, rfl, .refl, trivial⟩

theorem Go.bind {x : Gen α} {f : α → Gen β} {P : α → Prop} {Q : β → Prop} (hx : Go x r P)
    (hf : ∀ a r1, Mild r r1 → P a → Go (f a) r1 Q) : Go (x >>= f) r Q := by
  obtain ⟨a, r1, h, hm, hp⟩ := hx
  obtain ⟨b, r2, h2, hm2, hq⟩ := hf a r1 hm hp
  exact ⟨b, r2, Gen.bind_ok.2 ⟨a, r1, h, h2⟩, hm.trans hm2, hq⟩

theorem Go.mono {x : Gen α} {P Q : α → Prop} (hx : Go x r P) (h : ∀ a, P a → Q a) : Go x r Q := by
  obtain ⟨a, r1, h1, hm, hp⟩ := hx
  exact ⟨a, r1, h1, hm, h a hp⟩

theorem Go.lift {x : Except Err α} {a : α} (h : x = .ok a) : Go (Gen.lift x) r (· = a) :=
  ⟨a, r, by rw [h]; rfl, .refl, rfl⟩

theorem go_registerImport {n : String} : Go (registerImport n) r := by
  unfold registerImport Go
  split
  · exact ⟨(), r, rfl, .refl, trivial⟩
  · exact ⟨(), _, rfl, ⟨rfl, fun k => by cases k <;> rfl, rfl, rfl, rfl, rfl, rfl, id⟩, trivial⟩

theorem go_optionalWrap {o : Bool} {e : Expr} : Go (optionalWrap o e) r := by
  unfold optionalWrap
  split
  · exact go_registerImport.bind fun _ _ _ _ => .ret
  · exact .ret

theorem go_registerImports {l : List String} : ∀ {r : Reg}, Go (registerImports l) r := by
  induction l with
  | nil => exact .ret
  | cons b l ih => exact go_registerImport.bind fun _ _ _ _ => ih

theorem go_additionalBasesFor {c : Ctx} {n : String} : Go (additionalBasesFor c n) r := by
  unfold additionalBasesFor
  split
  · exact go_registerImports.bind fun _ _ _ _ => .ret
  · exact .ret

theorem go_interfaceBasesOf {c : Ctx} : Go (interfaceBasesOf c) r :=
  go_registerImports.bind fun _ _ _ _ => .ret

theorem go_generatePydanticConfig {c : Ctx} {g : GQLType} {n : Option String} : Go (generatePydanticConfig c g n) r := by
  unfold generatePydanticConfig
  split
  · unfold generateConfigDict
    dsimp only
    split
    · exact .ret
    · exact go_registerImport.bind fun _ _ _ _ => .ret
  · exact .ret

theorem go_registerBuiltin {n : String} (h : n ∈ builtinNames) : Go (registerBuiltin n) r :=
  ⟨_, _, rfl, ⟨rfl, fun k => by cases k <;> rfl, rfl, rfl, rfl, rfl, rfl, fun hb b hm => by
    rcases (mem_setAdd _ _ _).1 hm with hm | rfl
    · exact hb b hm
    · exact h⟩, trivial⟩

theorem go_referenceMarker {o : Option String} {b l : String} (h : b ∈ builtinNames) : Go (referenceMarker o b l) r := by
  unfold referenceMarker Go
  dsimp only
  obtain ⟨_, r1, h1, m1, _⟩ := go_registerBuiltin (r := r) h
  split
  · rename_i o
    obtain ⟨_, r2, h2, m2, _⟩ := go_registerImport (n := o) (r := r)
    rw [h1, h2]
    split
    · exact ⟨_, _, rfl, m1, trivial⟩
    · exact ⟨_, _, rfl, m2, trivial⟩
  · rw [h1]; exact ⟨_, _, rfl, m1, trivial⟩

theorem go_markerCall {g : Gen Expr} (hg : ∀ r, Go g r) {a : Option Expr} : Go (markerCall g a) r := by
  unfold markerCall
  split
  · exact (hg r).bind fun _ _ _ _ => .ret
  · exact .ret

theorem go_annotateFieldMetadata {env : Env} {a : Expr} {d : Option Expr} {s : Option String} :
    Go (annotateFieldMetadata env a d s) r := by
  unfold annotateFieldMetadata
  refine (go_markerCall fun _ => go_referenceMarker (by decide +kernel)).bind fun _ _ _ _ => ?_
  refine (go_markerCall fun _ => go_referenceMarker (by decide +kernel)).bind fun _ _ _ _ => ?_
  split
  · exact .ret
  · exact go_registerImport.bind fun _ _ _ _ => .ret

theorem go_objectFieldValue {n : String} {f : FieldDef} : Go (objectFieldValue n f) r := by
  unfold objectFieldValue
  split
  · exact go_registerImport.bind fun _ _ _ _ => .ret
  · split
    · exact go_registerImport.bind fun _ _ _ _ => .ret
    · exact .ret

theorem go_referenceScalar {n p : String} (h : r.scalarMap.get? n = some p) : Go (referenceScalar n) r := by
  unfold referenceScalar Go
  simp only [h]
  split
  · obtain ⟨_, r2, h2, m2, _⟩ := go_registerImport (n := p) (r := r)
    rw [h2]; exact ⟨_, _, rfl, m2, trivial⟩
  · exact ⟨_, _, rfl, .refl, trivial⟩

theorem Mild.addForward {p : String} : Mild r (r.addForward p) :=
  ⟨rfl, fun k => by cases k <;> rfl, rfl, rfl, rfl, rfl, rfl, id⟩

theorem go_referenceEnum {env : Env} (hs : Stylable env) {n parent : String} (hn : n ≠ "") {allow : Bool}
    (h : allow = true ∨ n ∈ builtinNames ∨ (r.enumMap.contains n = true ∧ ∀ m, Kind.style .enum env n = .ok m → parent ≠ m)) :
    Go (referenceEnum env n parent allow) r := by
  unfold referenceEnum Go
  by_cases hb : n ∈ builtinNames
  · simp only [show builtinNames.contains n = true by simpa using hb, if_true]
    refine ⟨_, _, rfl, ⟨rfl, fun k => by cases k <;> rfl, rfl, rfl, rfl, rfl, rfl, fun hk b hm => ?_⟩, trivial⟩
    rcases (mem_setAdd _ _ _).1 hm with hm | rfl
    · exact hk b hm
    · exact hb
  · simp only [show builtinNames.contains n = false by simpa using hb]
    obtain ⟨m, _, hm⟩ := hs.classes .enum n hn
    simp only [hm]
    rcases h with rfl | h | ⟨h, hp⟩
    · simp only [Bool.not_true, Bool.false_eq_true, if_false]
      split
      · exact ⟨_, _, rfl, .addForward, trivial⟩
      · exact ⟨_, _, rfl, .refl, trivial⟩
    · exact absurd h hb
    · have : (parent == m) = false := by simpa using hp m hm
      simp [h, this, Mild.refl]

theorem go_referenceInput {env : Env} (hs : Stylable env) {n parent : String} (hn : n ≠ "") :
    Go (referenceInput env n parent) r := by
  unfold referenceInput Go
  obtain ⟨m, _, hm⟩ := hs.classes .input n hn
  simp only [hm, Bool.not_true, Bool.false_eq_true, if_false]
  split
  · exact ⟨_, _, rfl, .addForward, trivial⟩
  · rename_i h
    have hc : r.inputMap.contains n = true := by
      cases hc : r.inputMap.contains n with
      | true => rfl
      | false => simp [hc] at h
    rw [Dict.contains_eq_isSome] at hc
    obtain ⟨cl, hcl⟩ := Option.isSome_iff_exists.1 hc
    refine ⟨.name cl, r, ?_, .refl, trivial⟩
    simp [Dict.get, hcl]

theorem go_referenceGeneric {env : Env} (hs : Stylable env) {k : Kind} {n parent : String} (hn : n ≠ "") :
    Go (referenceGeneric env k n parent) r := by
  unfold referenceGeneric Go
  obtain ⟨m, _, hm⟩ := hs.classes k n hn
  simp only [hm, Bool.not_true, Bool.false_eq_true, if_false]
  split
  · exact ⟨_, _, rfl, .addForward, trivial⟩
  · exact ⟨_, _, rfl, .refl, trivial⟩

theorem go_inheritFragment {n cl : String} (h : r.fragmentMap.get? n = some cl) : Go (inheritFragment n) r := by
  unfold inheritFragment Go
  simp only [h]
  exact ⟨_, _, rfl, .refl, trivial⟩

theorem go_nodeName {env : Env} (hs : Stylable env) {n : String} : Go (nodeName env n) r := by
  obtain ⟨m, hm⟩ := hs.nodes n
  exact (Go.lift hm).mono fun _ _ => trivial

theorem go_typenameImports : Go typenameImports r :=
  go_registerImport.bind fun _ _ _ _ => go_registerImport.bind fun _ _ _ _ => go_registerImport

theorem go_typenameField {c : Ctx} {t : String} : Go (typenameField c t) r := go_typenameImports.bind fun _ _ _ _ => .ret

theorem go_genericTypenameField {c : Ctx} : Go (genericTypenameField c) r :=
  go_typenameImports.bind fun _ _ _ _ => .ret

theorem go_wrapOutput {c : Ctx} {leaf : String → Bool → Gen (Expr × List Stmt)} (t : TypeNode) :
    ∀ {o : Bool} {r : Reg}, (∀ r1 o, Mild r r1 → Go (leaf t.base o) r1) → Go (wrapOutput c leaf t o) r := by
  induction t with
  | named n => intro o r h; unfold wrapOutput; exact h r o .refl
  | list t ih =>
    intro o r h; unfold wrapOutput
    exact go_registerImport.bind fun _ _ m _ => (ih fun r1 o m1 => h r1 o (m.trans m1)).bind fun _ _ _ _ =>
      go_optionalWrap.bind fun _ _ _ _ => .ret
  | nonNull t ih => intro o r h; unfold wrapOutput; exact ih h

theorem go_typeField {c : Ctx} (hs : Stylable c.env) {fd : FieldDef} {t : String}
    {leaf : String → Bool → Gen (Expr × List Stmt)} (h : ∀ r1 o, Mild r r1 → Go (leaf fd.type.base o) r1) :
    Go (typeField c fd t leaf) r := by
  unfold typeField
  refine (go_nodeName hs).bind fun _ _ m _ => (go_wrapOutput _ fun r1 o m1 => h r1 o (m.trans m1)).bind fun _ _ _ _ =>
    Go.bind (P := fun _ => True) ?_ fun _ _ _ _ => .ret
  unfold finishField
  exact go_annotateFieldMetadata.bind fun _ _ _ _ => go_objectFieldValue.bind fun _ _ _ _ => .ret

theorem go_spreadOrAdditional {c : Ctx} {t : String} {bs : List String} : Go (spreadOrAdditional c t bs) r := by
  unfold spreadOrAdditional
  split
  · exact go_additionalBasesFor
  · exact .ret

theorem go_finishObject {c : Ctx} {cls t : String} {d : Option String} {tn : Stmt} {p : ObjectParts} {opt : Bool} :
    Go (finishObject c cls t d tn p opt) r := by
  unfold finishObject
  exact go_spreadOrAdditional.bind fun _ _ _ _ => go_generatePydanticConfig.bind fun _ _ _ _ =>
    go_optionalWrap.bind fun _ _ _ _ => .ret

theorem go_implementingClasses {c : Ctx} {m : String} {p : InterfaceParts} (is : List Implementation) :
    ∀ {r : Reg}, Go (implementingClasses c m p is) r := by
  induction is with
  | nil => exact .ret
  | cons i is ih =>
    intro r
    unfold implementingClasses implementingClass
    exact (go_additionalBasesFor.bind fun _ _ _ _ => go_interfaceBasesOf.bind fun _ _ _ _ =>
      go_typenameField.bind (Q := fun _ => True) fun _ _ _ _ => .ret).bind fun _ _ _ _ => ih.bind fun _ _ _ _ => .ret

theorem go_catchAll {c : Ctx} {m : String} {e : Expr} : Go (catchAll c m e) r := by
  unfold catchAll
  split
  · exact go_interfaceBasesOf.bind fun _ _ _ _ => go_genericTypenameField.bind fun _ _ _ _ =>
      go_registerImport.bind fun _ _ _ _ => .ret
  · exact .ret

theorem go_inlineClass {c : Ctx} {cls t : String} {p : ObjectParts} : Go (inlineClass c cls t p) r := by
  unfold inlineClass
  refine Go.bind (P := fun _ => True) ?_ fun _ _ _ _ => go_spreadOrAdditional.bind fun _ _ _ _ =>
    go_generatePydanticConfig.bind fun _ _ _ _ => .ret
  unfold inlineTypename
  split
  · exact go_typenameField.bind fun _ _ _ _ => .ret
  · exact .ret

theorem go_unionReference {ns : List String} {opt : Bool} (h : ns ≠ []) : Go (unionReference ns opt) r := by
  unfold unionReference
  split
  · exact absurd rfl h
  · exact .ret
  · exact go_registerImport.bind fun _ _ _ _ => go_optionalWrap
end

/-! ## Fields -/

theorem go_fieldNamed {name : String} {fs : List FieldDef} {r : Reg} (h : ∃ fd ∈ fs, fd.name = name) :
    Go (fieldNamed name fs) r fun fd => fd ∈ fs ∧ fd.name = name := by
  unfold fieldNamed
  obtain ⟨fd, hm, hn⟩ := h
  cases hf : fs.find? (·.name == name) with
  | none => exact absurd (List.find?_eq_none.1 hf fd hm) (by simpa using hn)
  | some fd' => exact .pure ⟨List.mem_of_find?_eq_some hf, by simpa using List.find?_some hf⟩

theorem getFieldDef_on {s : Schema} {t name : String} {ty : TypeNode} (h : FieldOn s t name ty) :
    ∃ fd, getFieldDef s t name = some fd ∧ FieldOn s t name fd.type := by
  unfold getFieldDef
  by_cases h1 : name = "__schema" ∧ s.query = some t
  · obtain ⟨rfl, hq⟩ := h1
    simp only [hq, beq_self_eq_true, Bool.and_self, if_true]
    exact ⟨_, rfl, .schema hq⟩
  rw [if_neg (by simpa using h1)]
  by_cases h2 : name = "__type" ∧ s.query = some t
  · obtain ⟨rfl, hq⟩ := h2
    simp only [hq, beq_self_eq_true, Bool.and_self, if_true]
    exact ⟨_, rfl, .type hq⟩
  rw [if_neg (by simpa using h2)]
  by_cases h3 : name = "__typename"
  · subst h3
    exact ⟨_, rfl, .typename⟩
  rw [if_neg (by simpa using h3)]
  unfold Schema.fieldsOf
  have key : ∀ fs : List FieldDef, (∃ fd ∈ fs, fd.name = name) →
      ∃ fd, fs.find? (·.name == name) = some fd ∧ fd ∈ fs ∧ fd.name = name := by
    intro fs ⟨fd, hm, hn⟩
    cases hf : fs.find? (·.name == name) with
    | none => exact absurd (List.find?_eq_none.1 hf fd hm) (by simpa using hn)
    | some fd' => exact ⟨fd', rfl, List.mem_of_find?_eq_some hf, by simpa using List.find?_some hf⟩
  cases h with
  | object hl hm =>
    obtain ⟨fd, hf, hm2, hn⟩ := key _ ⟨_, hm, rfl⟩
    rw [hl]
    exact ⟨fd, hf, hn ▸ .object hl hm2⟩
  | interface hl hm =>
    obtain ⟨fd, hf, hm2, hn⟩ := key _ ⟨_, hm, rfl⟩
    rw [hl]
    exact ⟨fd, hf, hn ▸ .interface hl hm2⟩
  | typename => exact absurd rfl h3
  | schema hq => exact absurd ⟨rfl, hq⟩ h1
  | type hq => exact absurd ⟨rfl, hq⟩ h2

theorem go_fieldDefOf {s : Schema} {t name : String} {r : Reg} (h : ∃ ty, FieldOn s t name ty) :
    Go (fieldDefOf s t name) r fun fd => FieldOn s t name fd.type := by
  obtain ⟨ty, h⟩ := h
  obtain ⟨fd, hf, ho⟩ := getFieldDef_on h
  unfold fieldDefOf
  rw [hf]
  exact .pure ho

theorem types_of_lookup {s : Schema} {n : String} {d : TypeDef} (h : s.lookup n = some d) :
    ∃ desc, s.types.get? n = some ⟨d, desc⟩ := by
  unfold Schema.lookup at h
  cases hg : s.types.get? n with
  | none => rw [hg] at h; cases h
  | some e =>
    rw [hg] at h
    obtain ⟨d', desc⟩ := e
    cases h
    exact ⟨desc, rfl⟩

/-! ## What the registry must know -/

/-- The scalars, and the classes of the fragments in `K`, are registered. -/
structure WalkReady (c : Ctx) (defs : Dict FragDef) (K : String → Prop) (r : Reg) : Prop where
  scalar : ∀ n, ScalarKnown c.env n → ∃ p, r.scalarMap.get? n = some p
  named : ∀ f, K f → f ≠ ""
  frag : ∀ f, K f → ∃ cl, r.fragmentMap.get? f = some cl
  type : ∀ f d, K f → defs.get? f = some d → r.fragmentTypeMap.get? f = some d.typeCondition
  defined : ∀ f, K f → ∃ d, defs.get? f = some d
  impl : ∀ f d m, K f → defs.get? f = some d → r.interfaceFragmentImpl.get? f = some m →
    IsInterface c.schema d.typeCondition ∧ (∀ o, Possible c.schema d.typeCondition o → ∃ cl, m.get? o = some cl) ∧
      ∀ o cl, m.get? o = some cl → cl ≠ ""
  members : ∀ f d ms, K f → defs.get? f = some d → c.schema.lookup d.typeCondition = some (.union ms) →
    ∃ m, r.unionFragmentMembers.get? f = some m
  ifrags : r.interfaceFragments = []

theorem WalkReady.mild {c : Ctx} {defs : Dict FragDef} {K : String → Prop} {r r' : Reg} (h : WalkReady c defs K r) (m : Mild r r') :
    WalkReady c defs K r' :=
  ⟨fun n hn => by rw [m.scalar]; exact h.scalar n hn, h.named,
    fun f hf => by have := m.classes .fragment; simp only [Reg.classMap] at this; rw [this]; exact h.frag f hf,
    fun f d hf hd => by rw [m.types]; exact h.type f d hf hd, h.defined,
    fun f d mm hf hd hm => h.impl f d mm hf hd (by rw [← m.impl]; exact hm),
    fun f d ms hf hd hl => by rw [m.members]; exact h.members f d ms hf hd hl,
    m.ifrags.trans h.ifrags⟩

section
variable {c : Ctx} {defs : Dict FragDef} {K : String → Prop} {r : Reg}

theorem WalkReady.ofFrag (h : WalkReady c defs K r) {f : String} (hf : K f) : Go (inheritFragment f) r := by
  obtain ⟨cl, hcl⟩ := h.frag f hf
  exact go_inheritFragment hcl

theorem WalkReady.implementation (h : WalkReady c defs K r) {o f : String} (hf : SpreadFits c.schema defs K o f) :
    Go (getInterfaceFragmentImplementationOrNone f o) r := by
  obtain ⟨hk, d, hd, hi⟩ := hf
  unfold getInterfaceFragmentImplementationOrNone Go
  cases hm : r.interfaceFragmentImpl.get? f with
  | none => simp only [hm]; exact ⟨_, _, rfl, .refl, trivial⟩
  | some m =>
    obtain ⟨h1, h2, _⟩ := h.impl f d m hk hd hm
    obtain ⟨cl, hcl⟩ := h2 o (hi h1)
    simp only [hm, hcl]
    exact ⟨_, _, rfl, .refl, trivial⟩

theorem WalkReady.spreadBase (h : WalkReady c defs K r) {o f : String} (hf : SpreadFits c.schema defs K o f) :
    Go (spreadBase f o) r := by
  unfold Turms.spreadBase
  refine (h.implementation hf).bind fun i r1 m _ => ?_
  cases i with
  | some i => exact .ret
  | none => exact (h.mild m).ofFrag hf.1

theorem WalkReady.collapse (hs : Stylable c.env) (h : WalkReady c defs K r) {o f parent : String}
    (hf : SpreadFits c.schema defs K o f) : Go (collapseReference c parent f o) r := by
  unfold collapseReference
  refine (h.implementation hf).bind fun i r1 m _ => ?_
  cases i with
  | some i => exact .ret
  | none => exact go_referenceGeneric hs (h.named f hf.1)

theorem WalkReady.spreadImplementations (h : WalkReady c defs K r) {f : String} (hf : K f) :
    Go (spreadImplementations f) r := by
  unfold Turms.spreadImplementations Go
  cases hm : r.interfaceFragmentImpl.get? f with
  | some m => simp only [hm]; exact ⟨_, _, rfl, .refl, trivial⟩
  | none =>
    obtain ⟨d, hd⟩ := h.defined f hf
    obtain ⟨cl, r1, hi, m, _⟩ := h.ofFrag hf
    simp only [hm, h.type f d hf hd, hi]
    exact ⟨_, _, rfl, m, trivial⟩

/-! ## The walk -/

/-- the annotation of a field of the type `n`, with the selection set `sels`, can be generated -/
def Walks (c : Ctx) (defs : Dict FragDef) (K : String → Prop) (n : String) (sels : List Sel) : Prop :=
  ∀ parent target opt r, WalkReady c defs K r → Go (recurseNamed c parent target sels n opt) r

theorem go_field (hs : Stylable c.env) (h : WalkReady c defs K r) {fd : FieldDef} {cls target : String} {sels : List Sel}
    (hw : Walks c defs K fd.type.base sels) : Go (typeField c fd target (recurseNamed c cls target sels)) r :=
  go_typeField hs fun r1 o m => hw cls target o r1 (h.mild m)

theorem go_objectSels (hs : Stylable c.env) {t : String} {fs : List FieldDef} {cls : String} (sels : List Sel) :
    ∀ {r : Reg}, WalkReady c defs K r → (∀ t inner, Sel.inline t inner ∉ sels) →
      (∀ f, Sel.spread f ∈ sels → SpreadFits c.schema defs K t f) →
      (∀ name al args sub, Sel.field name al args sub ∈ sels → name ≠ "__typename" → ∃ fd ∈ fs, fd.name = name) →
      (∀ name al args sub fd, Sel.field name al args sub ∈ sels → name ≠ "__typename" →
        fd ∈ fs → fd.name = name → Walks c defs K fd.type.base sub) →
      Go (objectSels c t fs cls sels) r := by
  induction sels with
  | nil => intro r _ _ _ _ _; unfold objectSels; exact .ret
  | cons s rest ih =>
    intro r h h1 h2 h3 h4
    unfold objectSels
    refine Go.bind (P := fun _ => True) ?_ fun _ r1 m _ => (ih (h.mild m)
      (fun t i hm => h1 t i (List.mem_cons_of_mem _ hm)) (fun f hm => h2 f (List.mem_cons_of_mem _ hm))
      (fun a b d e hm => h3 a b d e (List.mem_cons_of_mem _ hm))
      (fun a b d e fd hm => h4 a b d e fd (List.mem_cons_of_mem _ hm))).bind fun _ _ _ _ => .ret
    cases s with
    | spread f =>
      unfold objectSel
      exact (h.spreadBase (h2 f List.mem_cons_self)).bind fun _ _ _ _ => .ret
    | inline o inner => exact absurd List.mem_cons_self (h1 o inner)
    | field name al args sub =>
      unfold objectSel
      split
      · exact .ret
      · rename_i hn
        have hn : name ≠ "__typename" := by simpa using hn
        refine (go_fieldNamed (h3 _ _ _ _ List.mem_cons_self hn)).bind fun fd r1 m hfd => ?_
        exact (go_field hs (h.mild m) (h4 _ _ _ _ fd List.mem_cons_self hn hfd.1 hfd.2)).bind fun _ _ _ _ => .ret

theorem go_inlineSels (hs : Stylable c.env) {o base : String} (sels : List Sel) :
    ∀ {r : Reg}, WalkReady c defs K r →
      (∀ name al args sub, Sel.field name al args sub ∈ sels → name ≠ "__typename" → ∃ ty, FieldOn c.schema o name ty) →
      (∀ name al args sub ty, Sel.field name al args sub ∈ sels → name ≠ "__typename" →
        FieldOn c.schema o name ty → Walks c defs K ty.base sub) →
      Go (inlineSels c o base sels) r := by
  induction sels with
  | nil => intro r _ _ _; unfold inlineSels; exact .ret
  | cons s rest ih =>
    intro r h h3 h4
    unfold inlineSels
    refine Go.bind (P := fun _ => True) ?_ fun _ r1 m _ => (ih (h.mild m)
      (fun a b d e hm => h3 a b d e (List.mem_cons_of_mem _ hm))
      (fun a b d e fd hm => h4 a b d e fd (List.mem_cons_of_mem _ hm))).bind fun _ _ _ _ => .ret
    cases s with
    | spread f => unfold inlineSel; exact .ret
    | inline o inner => unfold inlineSel; exact .ret
    | field name al args sub =>
      unfold inlineSel
      split
      · exact .ret
      · rename_i hn
        have hn : name ≠ "__typename" := by simpa using hn
        refine (go_fieldDefOf (h3 _ _ _ _ List.mem_cons_self hn)).bind fun fd r1 m hfd => ?_
        exact go_field hs (h.mild m) (h4 _ _ _ _ _ List.mem_cons_self hn hfd)

theorem go_requireObject {s : Schema} {o : String} (h : IsObject s o) : Go (requireObject s o) r := by
  obtain ⟨fs, is, h⟩ := h
  unfold requireObject
  rw [h]
  exact .ret

theorem go_interfaceSels (hs : Stylable c.env) {fs : List FieldDef} {base : String} (sels : List Sel) :
    ∀ {r : Reg}, WalkReady c defs K r → (∀ inner, Sel.inline none inner ∉ sels) →
      (∀ f, Sel.spread f ∈ sels → K f) →
      (∀ name al args sub, Sel.field name al args sub ∈ sels → name ≠ "__typename" → ∃ fd ∈ fs, fd.name = name) →
      (∀ name al args sub fd, Sel.field name al args sub ∈ sels → name ≠ "__typename" →
        fd ∈ fs → fd.name = name → Walks c defs K fd.type.base sub) →
      (∀ o inner, Sel.inline (some o) inner ∈ sels → IsObject c.schema o) →
      (∀ o inner name al args sub, Sel.inline (some o) inner ∈ sels →
        Sel.field name al args sub ∈ inner → name ≠ "__typename" → ∃ ty, FieldOn c.schema o name ty) →
      (∀ o inner name al args sub ty, Sel.inline (some o) inner ∈ sels →
        Sel.field name al args sub ∈ inner → name ≠ "__typename" → FieldOn c.schema o name ty →
        Walks c defs K ty.base sub) →
      Go (interfaceSels c fs base sels) r := by
  induction sels with
  | nil => intros; unfold interfaceSels; exact .ret
  | cons s rest ih =>
    intro r h h1 h2 h3 h4 h5 h6 h7
    unfold interfaceSels
    refine Go.bind (P := fun _ => True) ?_ fun _ r1 m _ => (ih (h.mild m)
      (fun i hm => h1 i (List.mem_cons_of_mem _ hm)) (fun f hm => h2 f (List.mem_cons_of_mem _ hm))
      (fun a b d e hm => h3 a b d e (List.mem_cons_of_mem _ hm))
      (fun a b d e fd hm => h4 a b d e fd (List.mem_cons_of_mem _ hm))
      (fun o i hm => h5 o i (List.mem_cons_of_mem _ hm))
      (fun o i a b d e hm => h6 o i a b d e (List.mem_cons_of_mem _ hm))
      (fun o i a b d e ty hm => h7 o i a b d e ty (List.mem_cons_of_mem _ hm))).bind fun _ _ _ _ => .ret
    cases s with
    | spread f =>
      unfold interfaceSel
      exact (h.spreadImplementations (h2 f List.mem_cons_self)).bind fun _ _ _ _ => .ret
    | inline o inner =>
      cases o with
      | none => exact absurd List.mem_cons_self (h1 inner)
      | some o =>
        unfold interfaceSel
        refine (go_requireObject (h5 o inner List.mem_cons_self)).bind fun _ r1 m _ => ?_
        exact (go_inlineSels hs inner (h.mild m) (fun a b d e => h6 o inner a b d e List.mem_cons_self)
          (fun a b d e ty => h7 o inner a b d e ty List.mem_cons_self)).bind fun _ _ _ _ => .ret
    | field name al args sub =>
      unfold interfaceSel
      split
      · exact .ret
      · rename_i hn
        have hn : name ≠ "__typename" := by simpa using hn
        refine (go_fieldNamed (h3 _ _ _ _ List.mem_cons_self hn)).bind fun fd r1 m hfd => ?_
        exact (go_field hs (h.mild m) (h4 _ _ _ _ fd List.mem_cons_self hn hfd.1 hfd.2)).bind fun _ _ _ _ => .ret

theorem WalkReady.inlineSpreadBase (h : WalkReady c defs K r) {f : String} (hf : K f) : Go (inlineSpreadBase f) r := by
  have : Go (inheritFragment f) r := h.ofFrag hf
  unfold Turms.inlineSpreadBase Go
  dsimp only
  rw [h.ifrags]
  exact this

theorem go_unionInlineSels (hs : Stylable c.env) {o cls : String} (sels : List Sel) :
    ∀ {r : Reg}, WalkReady c defs K r → (∀ f, Sel.spread f ∈ sels → K f) →
      (∀ name al args sub, Sel.field name al args sub ∈ sels → name ≠ "__typename" →
        ∃ fs is fd, c.schema.lookup o = some (.object fs is) ∧ fd ∈ fs ∧ fd.name = name) →
      (∀ name al args sub fs is fd, Sel.field name al args sub ∈ sels → name ≠ "__typename" →
        c.schema.lookup o = some (.object fs is) → fd ∈ fs → fd.name = name → Walks c defs K fd.type.base sub) →
      Go (unionInlineSels c o cls sels) r := by
  induction sels with
  | nil => intros; unfold unionInlineSels; exact .ret
  | cons s rest ih =>
    intro r h h2 h3 h4
    unfold unionInlineSels
    refine Go.bind (P := fun _ => True) ?_ fun _ r1 m _ => (ih (h.mild m)
      (fun f hm => h2 f (List.mem_cons_of_mem _ hm))
      (fun a b d e hm => h3 a b d e (List.mem_cons_of_mem _ hm))
      (fun a b d e x y z hm => h4 a b d e x y z (List.mem_cons_of_mem _ hm))).bind fun _ _ _ _ => .ret
    cases s with
    | spread f =>
      unfold unionInlineSel
      exact (h.inlineSpreadBase (h2 f List.mem_cons_self)).bind fun _ _ _ _ => .ret
    | inline o inner => unfold unionInlineSel; exact .ret
    | field name al args sub =>
      unfold unionInlineSel
      split
      · exact .ret
      · rename_i hn
        have hn : name ≠ "__typename" := by simpa using hn
        obtain ⟨fs, is, fd, hl, hm, he⟩ := h3 _ _ _ _ List.mem_cons_self hn
        unfold objectFieldNamed
        rw [hl]
        refine (go_fieldNamed ⟨fd, hm, he⟩).bind fun fd r1 m hfd => ?_
        exact (go_field hs (h.mild m) (h4 _ _ _ _ fs is fd List.mem_cons_self hn hl hfd.1 hfd.2)).bind fun _ _ _ _ => .ret

theorem go_unionSels (hs : Stylable c.env) {parent : String} (sels : List Sel) :
    ∀ {r : Reg}, WalkReady c defs K r → (∀ inner, Sel.inline none inner ∉ sels) →
      (∀ f, Sel.spread f ∈ sels → K f) →
      (∀ o inner f, Sel.inline (some o) inner ∈ sels → Sel.spread f ∈ inner → K f) →
      (∀ o inner name al args sub, Sel.inline (some o) inner ∈ sels →
        Sel.field name al args sub ∈ inner → name ≠ "__typename" →
        ∃ fs is fd, c.schema.lookup o = some (.object fs is) ∧ fd ∈ fs ∧ fd.name = name) →
      (∀ o inner name al args sub fs is fd, Sel.inline (some o) inner ∈ sels →
        Sel.field name al args sub ∈ inner → name ≠ "__typename" →
        c.schema.lookup o = some (.object fs is) → fd ∈ fs → fd.name = name → Walks c defs K fd.type.base sub) →
      Go (unionSels c parent sels) r fun p => (∃ s ∈ sels, Sel.isFragment s = true) → p.1 ≠ [] := by
  induction sels with
  | nil => intros; unfold unionSels; exact .pure fun ⟨s, hm, _⟩ => by cases hm
  | cons s rest ih =>
    intro r h h1 h2 h3 h4 h5
    unfold unionSels
    refine Go.bind (P := fun p => Sel.isFragment s = true → p.1 ≠ []) ?_ fun a r1 m ha => (ih (h.mild m)
      (fun i hm => h1 i (List.mem_cons_of_mem _ hm)) (fun f hm => h2 f (List.mem_cons_of_mem _ hm))
      (fun o i f hm => h3 o i f (List.mem_cons_of_mem _ hm))
      (fun o i a b d e hm => h4 o i a b d e (List.mem_cons_of_mem _ hm))
      (fun o i a b d e x y z hm => h5 o i a b d e x y z (List.mem_cons_of_mem _ hm))).bind fun p _ _ hp => .pure ?_
    · cases s with
      | spread f =>
        unfold unionSel
        exact (h.ofFrag (h2 f List.mem_cons_self)).bind fun _ _ _ _ => .pure (by simp)
      | inline o inner =>
        cases o with
        | none => exact absurd List.mem_cons_self (h1 inner)
        | some o =>
          unfold unionSel
          refine (go_unionInlineSels hs inner h (fun f => h3 o inner f List.mem_cons_self)
            (fun a b d e => h4 o inner a b d e List.mem_cons_self)
            (fun a b d e x y z => h5 o inner a b d e x y z List.mem_cons_self)).bind fun _ _ _ _ => ?_
          exact go_inlineClass.bind fun _ _ _ _ => .pure (by simp)
      | field name al args sub => unfold unionSel; exact .pure (fun hf => by simp [Sel.isFragment] at hf)
    · rintro ⟨x, hm, hx⟩ he
      rw [List.append_eq_nil_iff] at he
      rcases List.mem_cons.1 hm with rfl | hm
      · exact ha hx he.1
      · exact hp ⟨x, hm, hx⟩ he.2

theorem walks_of_generable (hs : Stylable c.env) (hne : "" ∉ c.schema.types.keys) {n : String} {sels : List Sel}
    (h : Generable c defs K n sels) : Walks c defs K n sels := by
  induction h with
  | scalar hl hk =>
    intro parent target opt r hr
    obtain ⟨d, hd⟩ := types_of_lookup hl
    unfold recurseNamed namedNode
    rw [hd]
    obtain ⟨p, hp⟩ := hr.scalar _ hk
    exact (go_referenceScalar hp).bind fun _ _ _ _ => go_optionalWrap.bind fun _ _ _ _ => .ret
  | @enum n _ _ hl =>
    intro parent target opt r hr
    obtain ⟨d, hd⟩ := types_of_lookup hl
    unfold recurseNamed namedNode
    rw [hd]
    have hn : n ≠ "" := by
      rintro rfl
      exact hne ((Dict.get?_isSome_iff _ _).1 (by rw [hd]; rfl))
    exact (go_referenceEnum hs hn (.inl rfl)).bind fun _ _ _ _ => go_optionalWrap.bind fun _ _ _ _ => .ret
  | @object n sels fs is hl h1 h2 h3 _ ih =>
    intro parent target opt r hr
    obtain ⟨d, hd⟩ := types_of_lookup hl
    unfold recurseNamed namedNode
    rw [hd]
    dsimp only
    unfold objectNode
    refine go_typenameField.bind fun tn r1 m _ => ?_
    split
    · rename_i f hf
      have hmem : Sel.spread f ∈ sels := by
        have : Sel.spread f ∈ nonTypenameFields sels := by rw [hf]; exact List.mem_cons_self
        exact (List.mem_filter.1 this).1
      exact ((hr.mild m).collapse hs (h2 f hmem)).bind fun _ _ _ _ => go_optionalWrap.bind fun _ _ _ _ => .ret
    · exact (go_objectSels hs sels (hr.mild m) h1 h2 h3 ih).bind fun _ _ _ _ => go_finishObject
  | @interface n sels fs is hl h1 h2 h3 _ h5 h6 _ ih1 ih2 =>
    intro parent target opt r hr
    obtain ⟨d, hd⟩ := types_of_lookup hl
    unfold recurseNamed namedNode
    rw [hd]
    dsimp only
    unfold interfaceNode
    refine (go_interfaceSels hs sels hr h1 h2 h3 ih1 h5 h6 ih2).bind fun _ _ _ _ => ?_
    exact go_additionalBasesFor.bind fun _ _ _ _ => go_interfaceBasesOf.bind fun _ _ _ _ =>
      go_generatePydanticConfig.bind fun _ _ _ _ => (go_implementingClasses _).bind fun _ _ _ _ =>
      go_registerImport.bind fun _ _ _ _ => go_registerImport.bind fun _ _ _ _ => go_catchAll.bind fun _ _ _ _ =>
      go_optionalWrap.bind fun _ _ _ _ => .ret
  | @union n sels ms hl h0 h1 h2 h3 h4 _ ih =>
    intro parent target opt r hr
    obtain ⟨d, hd⟩ := types_of_lookup hl
    unfold recurseNamed namedNode
    rw [hd]
    dsimp only
    unfold unionNode
    refine (go_unionSels hs sels hr h1 h2 h3 h4 ih).bind fun p _ _ hp => ?_
    exact (go_unionReference (hp h0)).bind fun _ _ _ _ => .ret
end

end Turms
