import Verif.Lemmas.Responses

/-! # Generated response models accept what a server may answer: the selections -/

namespace Turms
open Spec

/-- the standing assumptions about the schema and the module -/
structure ModuleOk (c : Ctx) (leaf : String → Val → Prop) (T : List Stmt) (isa : String → Val → Prop)
    (r : Reg) : Prop where
  unique : UniqueClasses T
  bases : ∀ b, ConfiguredBase c b → ¬ IsClass T (lastComponent b)
  valid : ValidImplementations c.schema
  nodup : c.schema.types.keys.Nodup
  leafs : ∀ n v cls, IsLeaf c.schema n → leaf n v → outputSideClass c r n = some cls → isa cls v

/-- the class `cls` accepts the results of the fragment for objects of type `o` -/
def FragFits (s : Schema) (defs : Dict FragDef) (leaf : String → Val → Prop) (T : List Stmt)
    (isa : String → Val → Prop) (d : FragDef) (o cls : String) : Prop :=
  IsClass T cls ∧ ∀ kvs, SparseResult s defs leaf o d.sels kvs → Fits T isa kvs cls

/-- what the registry knows about the generated fragment `f` is right -/
structure FragOk (c : Ctx) (defs : Dict FragDef) (leaf : String → Val → Prop) (T : List Stmt)
    (isa : String → Val → Prop) (r : Reg) (f : String) (d : FragDef) : Prop where
  defined : defs.get? f = some d
  typed : r.fragmentTypeMap.get? f = some d.typeCondition
  named : ∃ cls, r.fragmentMap.get? f = some cls ∧ Kind.fragment.style c.env f = .ok cls
  members : ∀ m, r.unionFragmentMembers.get? f = some m → ∀ o cls, (o, cls) ∈ m →
    Possible c.schema d.typeCondition o ∧ FragFits c.schema defs leaf T isa d o cls
  interface : IsInterface c.schema d.typeCondition → ∃ m, r.interfaceFragmentImpl.get? f = some m ∧
    (∀ o, Possible c.schema d.typeCondition o → ∃ cls, m.get? o = some cls) ∧
    ∀ o cls, (o, cls) ∈ m → Possible c.schema d.typeCondition o ∧ FragFits c.schema defs leaf T isa d o cls
  other : ¬ IsInterface c.schema d.typeCondition → r.interfaceFragmentImpl.get? f = none
  object : IsObject c.schema d.typeCondition → ∀ cls, r.fragmentMap.get? f = some cls →
    FragFits c.schema defs leaf T isa d d.typeCondition cls
  single : ¬ IsInterface c.schema d.typeCondition → ∀ cls, r.fragmentMap.get? f = some cls →
    ∀ o, Possible c.schema d.typeCondition o → ∀ kvs, SparseResult c.schema defs leaf o d.sels kvs →
      Takes T isa (.name cls) (.obj kvs)

/-- everything known about the state in which a selection is generated; `K` are the fragments generated
before -/
structure StateOk (c : Ctx) (defs : Dict FragDef) (leaf : String → Val → Prop) (T : List Stmt)
    (isa : String → Val → Prop) (K : String → Prop) (r : Reg) : Prop where
  module_ : ModuleOk c leaf T isa r
  frags : ∀ f, K f → ∃ d, FragOk c defs leaf T isa r f d

section
variable {c : Ctx} {defs : Dict FragDef} {leaf : String → Val → Prop} {T : List Stmt}
  {isa : String → Val → Prop} {K : String → Prop} {r : Reg}

theorem ModuleOk.of_scalars {r' : Reg} (h : ModuleOk c leaf T isa r) (hq : r'.scalarMap = r.scalarMap) :
    ModuleOk c leaf T isa r' := by
  have he : outputSideClass c r' = outputSideClass c r := by
    funext n; unfold outputSideClass scalarClass; rw [hq]
  exact ⟨h.unique, h.bases, h.valid, h.nodup, by rw [he]; exact h.leafs⟩

theorem FragOk.of_tables {r' : Reg} {f : String} {d : FragDef} (h : FragOk c defs leaf T isa r f d)
    (h1 : r'.fragmentMap.get? f = r.fragmentMap.get? f)
    (h2 : r'.fragmentTypeMap.get? f = r.fragmentTypeMap.get? f)
    (h3 : r'.interfaceFragmentImpl.get? f = r.interfaceFragmentImpl.get? f)
    (h4 : r'.unionFragmentMembers.get? f = r.unionFragmentMembers.get? f) : FragOk c defs leaf T isa r' f d := by
  refine ⟨h.defined, ?_, ?_, ?_, ?_, ?_, ?_, ?_⟩
  · rw [h2]; exact h.typed
  · rw [h1]; exact h.named
  · rw [h4]; exact h.members
  · rw [h3]; exact h.interface
  · rw [h3]; exact h.other
  · rw [h1]; exact h.object
  · rw [h1]; exact h.single

theorem StateOk.quiet {r' : Reg} (h : StateOk c defs leaf T isa K r) (q : Quiet r r') :
    StateOk c defs leaf T isa K r' := by
  obtain ⟨h0, h1, h2, h3, h4, _⟩ := q.tables
  refine ⟨h.module_.of_scalars h0, fun f hf => ?_⟩
  obtain ⟨d, hd⟩ := h.frags f hf
  exact ⟨d, hd.of_tables (by rw [h1]) (by rw [h2]) (by rw [h3]) (by rw [h4])⟩

theorem StateOk.frag {f : String} {d : FragDef} (h : StateOk c defs leaf T isa K r) (hk : K f)
    (hd : defs.get? f = some d) : FragOk c defs leaf T isa r f d := by
  obtain ⟨d', hd'⟩ := h.frags f hk
  have := hd'.defined
  rw [hd] at this
  cases this
  exact hd'

theorem fits_baseNames {l : List String} {kvs : List (String × Val)} {b : String}
    (hl : ∀ x ∈ l, ¬ IsClass T (lastComponent x)) (hb : Expr.name b ∈ baseNames l) : Fits T isa kvs b := by
  unfold baseNames at hb
  obtain ⟨x, hx, he⟩ := List.mem_map.1 hb
  cases he
  exact fits_external (hl x hx)

theorem ModuleOk.additional (h : ModuleOk c leaf T isa r) {n : String} :
    ∀ x ∈ (c.config.additionalBases.get? n).getD [], ¬ IsClass T (lastComponent x) := by
  intro x hx
  cases ha : c.config.additionalBases.get? n with
  | none => rw [ha] at hx; cases hx
  | some l => rw [ha] at hx; exact h.bases x (.inr (.inr ⟨n, l, ha, hx⟩))

theorem ModuleOk.objectBases (h : ModuleOk c leaf T isa r) :
    ∀ x ∈ c.config.objectBases, ¬ IsClass T (lastComponent x) := fun x hx => h.bases x (.inl hx)

theorem ModuleOk.interfaceBases (h : ModuleOk c leaf T isa r) :
    ∀ x ∈ interfaceBaseList c, ¬ IsClass T (lastComponent x) := by
  intro x hx
  unfold interfaceBaseList at hx
  split at hx
  · exact h.bases x (.inl hx)
  · exact h.bases x (.inr (.inl hx))

theorem mem_names {l : List String} {b : String} : Expr.name b ∈ names l ↔ b ∈ l := by
  unfold names
  constructor
  · intro h; obtain ⟨x, hx, he⟩ := List.mem_map.1 h; cases he; exact hx
  · intro h; exact List.mem_map.2 ⟨b, h, rfl⟩

/-! ## what the walkers are to establish -/

/-- for the selections of an object -/
def ObjQ (c : Ctx) (defs : Dict FragDef) (leaf : String → Val → Prop) (T : List Stmt)
    (isa : String → Val → Prop) (o : String) (sels : List Sel) (p : ObjectParts) : Prop :=
  (∀ st ∈ p.classes, st ∈ T) → ∀ kvs, SparseResult c.schema defs leaf o sels kvs →
    (∀ st ∈ p.body, FitsStmt T isa kvs st) ∧ ∀ b ∈ p.bases, Fits T isa kvs b

/-- for the selections of an interface -/
def IfcQ (c : Ctx) (defs : Dict FragDef) (leaf : String → Val → Prop) (T : List Stmt)
    (isa : String → Val → Prop) (n : String) (sels : List Sel) (p : InterfaceParts) : Prop :=
  (∀ st ∈ p.classes, st ∈ T) → ∀ o, Possible c.schema n o → ∀ kvs, SparseResult c.schema defs leaf o sels kvs →
    (∀ st ∈ p.body, FitsStmt T isa kvs st) ∧ (∀ b ∈ p.basesFor o, Fits T isa kvs b) ∧
      ∀ st ∈ p.bodyFor o, FitsStmt T isa kvs st

/-- for the selections of an inline fragment on an interface -/
def InlQ (c : Ctx) (defs : Dict FragDef) (leaf : String → Val → Prop) (T : List Stmt)
    (isa : String → Val → Prop) (o : String) (sels : List Sel) (x : List Stmt × List Stmt) : Prop :=
  (∀ st ∈ x.2, st ∈ T) → ∀ kvs, SparseResult c.schema defs leaf o sels kvs → ∀ st ∈ x.1, FitsStmt T isa kvs st

/-- the selections have a fragment that applies to objects of type `o` -/
def Covers (s : Schema) (defs : Dict FragDef) (sels : List Sel) (o : String) : Prop :=
  (∃ inner, Sel.inline (some o) inner ∈ sels) ∨
    ∃ f d, Sel.spread f ∈ sels ∧ defs.get? f = some d ∧ Possible s d.typeCondition o

/-- for the selections of a union -/
def UnQ (c : Ctx) (defs : Dict FragDef) (leaf : String → Val → Prop) (T : List Stmt)
    (isa : String → Val → Prop) (sels : List Sel) (x : List String × List Stmt) : Prop :=
  x.1.length = (sels.filter Sel.isFragment).length ∧
  ((∀ st ∈ x.2, st ∈ T) → ∀ o, IsObject c.schema o → Covers c.schema defs sels o →
    ∀ kvs, SparseResult c.schema defs leaf o sels kvs → ∃ n ∈ x.1, Takes T isa (.name n) (.obj kvs))

/-! ## hypotheses on the selections -/

/-- the fields selected are supported; `ft name t` says that `name` has type `t` -/
def FieldHyp (s : Schema) (defs : Dict FragDef) (K : String → Prop) (ft : String → TypeNode → Prop)
    (sels : List Sel) : Prop :=
  ∀ name alias args sub t, Sel.field name alias args sub ∈ sels → name ≠ "__typename" → ft name t →
    Supported s defs K t sub

/-- the fields of a type -/
def declaredIn (fs : List FieldDef) (name : String) (t : TypeNode) : Prop :=
  ∃ fd ∈ fs, fd.name = name ∧ fd.type = t

/-- the spreads in an object -/
def ObjSpreads (s : Schema) (defs : Dict FragDef) (K : String → Prop) (o : String) (sels : List Sel) : Prop :=
  ∀ f, Sel.spread f ∈ sels → K f ∧ ∃ d, defs.get? f = some d ∧
    (d.typeCondition = o ∨ (IsInterface s d.typeCondition ∧ Possible s d.typeCondition o))

/-- the inline fragments in an interface -/
def IfcInlines (s : Schema) (defs : Dict FragDef) (K : String → Prop) (sels : List Sel) : Prop :=
  ∀ o inner, Sel.inline (some o) inner ∈ sels → FieldHyp s defs K (FieldType s o) inner

/-- the fragments in a union -/
def UnHyp (s : Schema) (defs : Dict FragDef) (K : String → Prop) (sels : List Sel) : Prop :=
  (∀ f, Sel.spread f ∈ sels → K f ∧ ∃ d, defs.get? f = some d ∧ ¬ IsInterface s d.typeCondition) ∧
  (∀ o inner f, Sel.inline (some o) inner ∈ sels → Sel.spread f ∈ inner →
    K f ∧ ∃ d, defs.get? f = some d ∧ d.typeCondition = o) ∧
  IfcInlines s defs K sels

theorem supported_object {t : TypeNode} {sels : List Sel} {fs is}
    (h : Supported c.schema defs K t sels) (hl : c.schema.lookup t.base = some (.object fs is)) :
    ObjSpreads c.schema defs K t.base sels ∧ FieldHyp c.schema defs K (declaredIn fs) sels := by
  cases h with
  | leaf h => rcases h with h | ⟨_, h⟩ <;> rw [h] at hl <;> cases hl
  | object h1 h2 h3 =>
    rw [h1] at hl; cases hl
    refine ⟨h2, ?_⟩
    rintro name alias args sub t hm hn ⟨fd, h4, h5, rfl⟩
    exact h3 name alias args sub fd hm hn h4 h5
  | interface h1 => rw [h1] at hl; cases hl
  | union h1 => rw [h1] at hl; cases hl

theorem supported_interface {t : TypeNode} {sels : List Sel} {fs is}
    (h : Supported c.schema defs K t sels) (hl : c.schema.lookup t.base = some (.interface fs is)) :
    (∃ args sub, Sel.field "__typename" none args sub ∈ sels) ∧ (∀ f, Sel.spread f ∈ sels → K f) ∧
      FieldHyp c.schema defs K (declaredIn fs) sels ∧ IfcInlines c.schema defs K sels := by
  cases h with
  | leaf h => rcases h with h | ⟨_, h⟩ <;> rw [h] at hl <;> cases hl
  | object h1 => rw [h1] at hl; cases hl
  | interface h1 h2 h3 h4 h5 =>
    rw [h1] at hl; cases hl
    refine ⟨h2, h3, ?_, ?_⟩
    · rintro name alias args sub t hm hn ⟨fd, h6, h7, rfl⟩
      exact h4 name alias args sub fd hm hn h6 h7
    · intro o inner hm name alias args sub t hi hn ht
      exact h5 o inner name alias args sub t hm hi hn ht
  | union h1 => rw [h1] at hl; cases hl

theorem supported_union {t : TypeNode} {sels : List Sel} {ms}
    (h : Supported c.schema defs K t sels) (hl : c.schema.lookup t.base = some (.union ms)) :
    (innerNullable t = true → 2 ≤ (sels.filter Sel.isFragment).length) ∧
      (∀ o ∈ ms, Covers c.schema defs sels o) ∧ UnHyp c.schema defs K sels := by
  cases h with
  | leaf h => rcases h with h | ⟨_, h⟩ <;> rw [h] at hl <;> cases hl
  | object h1 => rw [h1] at hl; cases hl
  | interface h1 => rw [h1] at hl; cases hl
  | union h1 h2 h3 h4 h5 h6 =>
    rw [h1] at hl; cases hl
    refine ⟨h2, h3, h4, h5, ?_⟩
    intro o inner hm name alias args sub t hi hn ht
    exact h6 o inner name alias args sub t hm hi hn ht

/-! ## single spreads -/

/-- `spreadBase`: the base class a spread contributes to an object class -/
theorem spreadBase_ok {f o : String} (h : StateOk c defs leaf T isa K r)
    (hs : K f ∧ ∃ d, defs.get? f = some d ∧
      (d.typeCondition = o ∨ (IsInterface c.schema d.typeCondition ∧ Possible c.schema d.typeCondition o)))
    (ho : IsObject c.schema o) :
    Quietly (spreadBase f o) r fun b => IsClass T b ∧ ∀ kvs, SparseResult c.schema defs leaf o [.spread f] kvs →
      Fits T isa kvs b := by
  obtain ⟨hk, d, hd, hc⟩ := hs
  have hf := h.frag hk hd
  have hp : Possible c.schema d.typeCondition o := by
    rcases hc with rfl | hc
    · exact .object ho
    · exact hc.2
  intro b r' hb
  unfold spreadBase at hb
  obtain ⟨i, r1, h1, h2⟩ := Gen.bind_ok.1 hb
  unfold getInterfaceFragmentImplementationOrNone at h1
  rcases hc with rfl | ⟨hi, _⟩
  · have hni : ¬ IsInterface c.schema d.typeCondition := by
      rintro ⟨_, _, hi⟩; obtain ⟨_, _, ho⟩ := ho; rw [ho] at hi; cases hi
    rw [hf.other hni] at h1
    cases h1
    obtain ⟨q, hcl⟩ := quietly_inheritFragment _ _ h2
    obtain ⟨hic, hfit⟩ := hf.object ho _ hcl
    exact ⟨q, hic, fun kvs hr => hfit kvs (hr.spread (List.mem_singleton.2 rfl) hd hp)⟩
  · obtain ⟨m, hm, hm1, hm2⟩ := hf.interface hi
    obtain ⟨cls, hcls⟩ := hm1 o hp
    rw [hm] at h1
    dsimp only at h1
    rw [hcls] at h1
    cases h1
    obtain ⟨rfl, rfl⟩ := Gen.pure_ok.1 h2
    obtain ⟨_, hic, hfit⟩ := hm2 o _ (Dict.mem_of_get? hcls)
    exact ⟨.refl _, hic, fun kvs hr => hfit kvs (hr.spread (List.mem_singleton.2 rfl) hd hp)⟩

/-- `collapseReference`: the class a selection set with one spread collapses to -/
theorem collapseReference_ok {parent f o : String} (h : StateOk c defs leaf T isa K r)
    (hs : K f ∧ ∃ d, defs.get? f = some d ∧
      (d.typeCondition = o ∨ (IsInterface c.schema d.typeCondition ∧ Possible c.schema d.typeCondition o)))
    (ho : IsObject c.schema o) :
    Quietly (collapseReference c parent f o) r fun e =>
      ∀ kvs, SparseResult c.schema defs leaf o [.spread f] kvs → Takes T isa e (.obj kvs) := by
  obtain ⟨hk, d, hd, hc⟩ := hs
  have hf := h.frag hk hd
  have hp : Possible c.schema d.typeCondition o := by
    rcases hc with rfl | hc
    · exact .object ho
    · exact hc.2
  intro e r' hb
  unfold collapseReference at hb
  obtain ⟨i, r1, h1, h2⟩ := Gen.bind_ok.1 hb
  unfold getInterfaceFragmentImplementationOrNone at h1
  rcases hc with rfl | ⟨hi, _⟩
  · have hni : ¬ IsInterface c.schema d.typeCondition := by
      rintro ⟨_, _, hi⟩; obtain ⟨_, _, ho⟩ := ho; rw [ho] at hi; cases hi
    rw [hf.other hni] at h1
    cases h1
    obtain ⟨q, cl, hst, he⟩ := quietly_referenceFragment _ _ h2
    obtain ⟨cls, hcl, hst'⟩ := hf.named
    rw [hst] at hst'
    cases hst'
    have ht : ∀ kvs, SparseResult c.schema defs leaf d.typeCondition [.spread f] kvs →
        Takes T isa (.name cl) (.obj kvs) := fun kvs hr =>
      hf.single hni cl hcl _ hp kvs (hr.spread (List.mem_singleton.2 rfl) hd hp)
    refine ⟨q, fun kvs hr => ?_⟩
    rcases he with rfl | rfl
    · exact ht kvs hr
    · exact .forward (ht kvs hr)
  · obtain ⟨m, hm, hm1, hm2⟩ := hf.interface hi
    obtain ⟨cls, hcls⟩ := hm1 o hp
    rw [hm] at h1
    dsimp only at h1
    rw [hcls] at h1
    cases h1
    obtain ⟨rfl, rfl⟩ := Gen.pure_ok.1 h2
    obtain ⟨_, hic, hfit⟩ := hm2 o _ (Dict.mem_of_get? hcls)
    exact ⟨.refl _, fun kvs hr => (hfit kvs (hr.spread (List.mem_singleton.2 rfl) hd hp)).takes hic⟩

/-- `spreadImplementations`: the classes a spread contributes to the implementing types of an interface -/
theorem spreadImplementations_ok {f : String} (h : StateOk c defs leaf T isa K r) (hk : K f) :
    Quietly (spreadImplementations f) r fun bs => ∀ o b, IsObject c.schema o → (o, b) ∈ bs →
      IsClass T b ∧ ∀ kvs, SparseResult c.schema defs leaf o [.spread f] kvs → Fits T isa kvs b := by
  obtain ⟨d, hf⟩ := h.frags f hk
  have hd := hf.defined
  intro bs r' hb
  unfold spreadImplementations at hb
  split at hb
  · rename_i m hm
    cases hb
    refine ⟨.refl _, fun o b _ hob => ?_⟩
    have hi : IsInterface c.schema d.typeCondition := Classical.byContradiction fun hi => by
      rw [hf.other hi] at hm; cases hm
    obtain ⟨m', hm', _, hm2⟩ := hf.interface hi
    rw [hm] at hm'
    cases hm'
    obtain ⟨hp, hic, hfit⟩ := hm2 o b hob
    exact ⟨hic, fun kvs hr => hfit kvs (hr.spread (List.mem_singleton.2 rfl) hd hp)⟩
  · rename_i hm
    split at hb
    · cases hb
    · rename_i t ht
      rw [hf.typed] at ht
      cases ht
      split at hb
      · cases hb
      · rename_i cls r1 hi
        cases hb
        obtain ⟨q, hcl⟩ := quietly_inheritFragment _ _ hi
        refine ⟨q, fun o b ho hob => ?_⟩
        cases List.mem_singleton.1 hob
        obtain ⟨hic, hfit⟩ := hf.object ho _ hcl
        exact ⟨hic, fun kvs hr => hfit kvs (hr.spread (List.mem_singleton.2 rfl) hd (.object ho))⟩

/-- `inlineSpreadBase`: the base class a spread contributes to an inline fragment on a union -/
theorem inlineSpreadBase_ok {f o : String} (h : StateOk c defs leaf T isa K r)
    (hs : K f ∧ ∃ d, defs.get? f = some d ∧ d.typeCondition = o) (ho : IsObject c.schema o) :
    Quietly (inlineSpreadBase f) r fun b =>
      ∀ kvs, SparseResult c.schema defs leaf o [.spread f] kvs → Fits T isa kvs b := by
  obtain ⟨hk, d, hd, rfl⟩ := hs
  have hf := h.frag hk hd
  intro b r' hb
  unfold inlineSpreadBase at hb
  split at hb
  · cases hb
  · obtain ⟨q, hcl⟩ := quietly_inheritFragment _ _ hb
    obtain ⟨hic, hfit⟩ := hf.object ho _ hcl
    exact ⟨q, fun kvs hr => hfit kvs (hr.spread (List.mem_singleton.2 rfl) hd (.object ho))⟩

/-! ## composite nodes -/

theorem finishObject_ok {cls o : String} {desc : Option String} {p : ObjectParts} {opt : Bool} {sub : List Sel}
    (h : StateOk c defs leaf T isa K r) (ho : IsObject c.schema o) (hp : ObjQ c defs leaf T isa o sub p) :
    Quietly (finishObject c cls o desc (typenameStmt c o) p opt) r fun x => (∀ st ∈ x.2, st ∈ T) →
      SoundAt c.schema defs leaf T isa (.named o) sub opt x.1 := by
  unfold finishObject
  have hb : Quietly (spreadOrAdditional c o p.bases) r fun bs =>
      bs = baseNames ((c.config.additionalBases.get? o).getD []) ∨ bs = names p.bases := by
    unfold spreadOrAdditional
    split
    · exact quietly_additionalBasesFor.mono fun _ h => .inl h
    · exact .pure (.inr rfl)
  refine hb.bind fun bases r1 q1 hbs => ?_
  refine quietly_generatePydanticConfig.bind fun cfg r2 q2 hcfg => ?_
  refine quietly_optionalWrap.bind fun e r3 q3 he => .pure ?_
  intro hT v hv hn
  dsimp only
  rw [he]
  refine takes_optional (fun hnull => ?_) hn
  have hnl : ¬ IsLeaf c.schema o := possible_not_leaf (.object ho)
  rcases conforms_composite hnl hv with rfl | ⟨o', kvs, rfl, hpo, hr⟩
  · exact (hnull rfl).elim
  · cases possible_object ho hpo
    have hcT : Stmt.classDef cls (bases ++ baseNames c.config.objectBases)
        (docStmt desc :: typenameStmt c o :: (p.body ++ cfg)) [] ∈ T := hT _ (by simp)
    obtain ⟨hbody, hbase⟩ := hp (fun st hst => hT st (by simp [hst])) kvs hr
    refine Fits.takes (fits_class h.module_.unique hcT ?_ ?_) ⟨_, _, _, hcT⟩
    · intro b hb
      rcases List.mem_append.1 hb with hb | hb
      · rcases hbs with rfl | rfl
        · exact fits_baseNames h.module_.additional hb
        · exact hbase b (mem_names.1 hb)
      · exact fits_baseNames h.module_.objectBases hb
    · intro st hst
      rcases List.mem_cons.1 hst with rfl | hst
      · exact fitsStmt_none rfl
      · rcases List.mem_cons.1 hst with rfl | hst
        · exact fitsStmt_typename hr.reserved
        · rcases List.mem_append.1 hst with hst | hst
          · exact hbody st hst
          · exact fitsStmt_none (hcfg st hst)

theorem mem_nonTypename {sels : List Sel} {f : String} (h : nonTypenameFields sels = [.spread f]) :
    Sel.spread f ∈ sels := by
  have : Sel.spread f ∈ nonTypenameFields sels := by rw [h]; exact List.mem_singleton.2 rfl
  exact (List.mem_filter.1 this).1

theorem objectNode_ok {parent target o : String} {desc : Option String} {sub : List Sel}
    {walk : String → Gen ObjectParts} {opt : Bool} (h : StateOk c defs leaf T isa K r)
    (ho : IsObject c.schema o) (hs : ObjSpreads c.schema defs K o sub)
    (hw : ∀ k r1, Quiet r r1 → Quietly (walk k) r1 (ObjQ c defs leaf T isa o sub)) :
    Quietly (objectNode c parent target o desc sub walk opt) r fun x => (∀ st ∈ x.2, st ∈ T) →
      SoundAt c.schema defs leaf T isa (.named o) sub opt x.1 := by
  unfold objectNode
  refine quietly_typenameField.bind fun tn r1 q1 htn => ?_
  split
  · rename_i f hf
    have hm := mem_nonTypename hf
    refine (collapseReference_ok (h.quiet q1) (hs f hm) ho).bind fun x r2 q2 hx => ?_
    refine quietly_optionalWrap.bind fun e r3 q3 he => .pure ?_
    intro hT v hv hn
    dsimp only
    rw [he]
    refine takes_optional (fun hnull => ?_) hn
    rcases conforms_composite (possible_not_leaf (.object ho)) hv with rfl | ⟨o', kvs, rfl, hpo, hr⟩
    · exact (hnull rfl).elim
    · cases possible_object ho hpo
      exact hx kvs (hr.mono fun y hy => by rw [List.mem_singleton.1 hy]; exact hm)
  · refine (hw _ _ q1).bind fun p r2 q2 hp => ?_
    rw [htn]
    exact finishObject_ok (h.quiet (q1.trans q2)) ho hp

theorem implementingClasses_ok {mother : String} {p : InterfaceParts} {is : List Implementation} : ∀ {r : Reg},
    Quietly (implementingClasses c mother p is) r fun ss => ∀ i ∈ is,
      Stmt.classDef (mother ++ i.name) (names (p.basesFor i.name) ++ [.name mother] ++
        baseNames ((c.config.additionalBases.get? i.name).getD []) ++ baseNames (interfaceBaseList c))
        (docStmt i.description :: typenameStmt c i.name :: p.bodyFor i.name) [] ∈ ss := by
  induction is with
  | nil => exact .pure (by simp)
  | cons i is ih =>
    intro r
    unfold implementingClasses
    have h1 : Quietly (implementingClass c mother p i) r fun s => s =
        Stmt.classDef (mother ++ i.name) (names (p.basesFor i.name) ++ [.name mother] ++
        baseNames ((c.config.additionalBases.get? i.name).getD []) ++ baseNames (interfaceBaseList c))
        (docStmt i.description :: typenameStmt c i.name :: p.bodyFor i.name) [] := by
      unfold implementingClass
      refine quietly_additionalBasesFor.bind fun e1 _ _ h1 => ?_
      refine quietly_interfaceBasesOf.bind fun e2 _ _ h2 => ?_
      refine quietly_typenameField.bind fun e3 _ _ h3 => .pure ?_
      rw [h1, h2, h3]
    refine h1.bind fun s r1 _ hs => ih.bind fun rest r2 _ hrest => .pure ?_
    intro j hj
    rcases List.mem_cons.1 hj with rfl | hj
    · rw [hs]; exact List.mem_cons_self ..
    · exact List.mem_cons_of_mem _ (hrest j hj)

theorem mem_implementations {s : Schema} {n o : String} (hn : IsInterface s n) (h : Possible s n o) :
    ∃ i ∈ implementations s n, i.name = o := by
  obtain ⟨fs, is, hl, hm⟩ := possible_interface hn h
  unfold Schema.lookup at hl
  cases hg : s.types.get? o with
  | none => rw [hg] at hl; cases hl
  | some e =>
    rw [hg] at hl
    have he : e.defn = .object fs is := by simpa using hl
    refine ⟨⟨o, e.description⟩, List.mem_filterMap.2 ⟨(o, e), Dict.mem_of_get? hg, ?_⟩, rfl⟩
    simp only [he]
    rw [if_pos (by simpa using hm)]

theorem possible_of_implementation {s : Schema} {n : String} {i : Implementation} (hn : IsInterface s n)
    (hnd : s.types.keys.Nodup) (h : i ∈ implementations s n) : Possible s n i.name := by
  obtain ⟨⟨o, e⟩, he, hi⟩ := List.mem_filterMap.1 h
  have hg := Dict.get?_of_mem_nodup hnd he
  dsimp only at hi
  split at hi
  · rename_i fs is hd
    split at hi
    · rename_i hc
      cases hi
      refine .interface hn (fs := fs) (is := is) ?_ (by simpa using hc)
      unfold Schema.lookup
      rw [hg]
      exact congrArg some hd
    · cases hi
  · cases hi

theorem quietly_catchAll {mother : String} {tagged : Expr} : Quietly (catchAll c mother tagged) r fun x =>
    x.1 = tagged ∨ ∃ e, x.1 = Turms.sub "Union" (.tuple [tagged, e]) := by
  unfold catchAll
  split
  · refine quietly_interfaceBasesOf.bind fun _ _ _ _ => quietly_genericTypenameField.bind fun _ _ _ _ => ?_
    exact quietly_registerImport.bind fun _ _ _ _ => .pure (.inr ⟨_, rfl⟩)
  · exact .pure (.inl rfl)

/-- an implementing class fits if mother class, inherited fragments and inline fragments do -/
theorem implementing_fits (hm : ModuleOk c leaf T isa r) {cls mother o : String} {p : InterfaceParts}
    {desc : Option String} {kvs : List (String × Val)}
    (hcT : Stmt.classDef cls (names (p.basesFor o) ++ [.name mother] ++
        baseNames ((c.config.additionalBases.get? o).getD []) ++ baseNames (interfaceBaseList c))
        (docStmt desc :: typenameStmt c o :: p.bodyFor o) [] ∈ T)
    (hmother : Fits T isa kvs mother) (hbases : ∀ b ∈ p.basesFor o, Fits T isa kvs b)
    (hbody : ∀ st ∈ p.bodyFor o, FitsStmt T isa kvs st)
    (hres : ∀ x, Val.entry kvs "__typename" = some x → x = .atom o) : Fits T isa kvs cls := by
  refine fits_class hm.unique hcT ?_ ?_
  · intro b hb
    rcases List.mem_append.1 hb with hb | hb
    · rcases List.mem_append.1 hb with hb | hb
      · rcases List.mem_append.1 hb with hb | hb
        · exact hbases b (mem_names.1 hb)
        · cases List.mem_singleton.1 hb; exact hmother
      · exact fits_baseNames hm.additional hb
    · exact fits_baseNames hm.interfaceBases hb
  · intro st hst
    rcases List.mem_cons.1 hst with rfl | hst
    · exact fitsStmt_none rfl
    · rcases List.mem_cons.1 hst with rfl | hst
      · exact fitsStmt_typename hres
      · exact hbody st hst

theorem interfaceNode_ok {parent target n : String} {desc : Option String} {sub : List Sel}
    {walk : String → Gen InterfaceParts} {opt : Bool} (h : StateOk c defs leaf T isa K r)
    (hn : IsInterface c.schema n) (htn : ∃ args sub', Sel.field "__typename" none args sub' ∈ sub)
    (hw : ∀ k r1, Quiet r r1 → Quietly (walk k) r1 (IfcQ c defs leaf T isa n sub)) :
    Quietly (interfaceNode c parent target n desc walk opt) r fun x => (∀ st ∈ x.2, st ∈ T) →
      SoundAt c.schema defs leaf T isa (.named n) sub opt x.1 := by
  unfold interfaceNode
  dsimp only
  generalize parent ++ pyCapitalize target = base
  refine (hw _ _ (.refl _)).bind fun p r1 q1 hp => ?_
  refine quietly_additionalBasesFor.bind fun extra r2 q2 hextra => ?_
  refine quietly_interfaceBasesOf.bind fun ib r3 q3 hib => ?_
  refine quietly_generatePydanticConfig.bind fun cfg r4 q4 hcfg => ?_
  refine implementingClasses_ok.bind fun impls r5 q5 himpls => ?_
  refine quietly_registerImport.bind fun _ r6 q6 _ => ?_
  refine quietly_registerImport.bind fun _ r7 q7 _ => ?_
  refine quietly_catchAll.bind fun x r8 q8 hx => ?_
  refine quietly_optionalWrap.bind fun e r9 q9 he => .pure ?_
  intro hT v hv hnn
  dsimp only at hT ⊢
  rw [he]
  refine takes_optional (fun hnull => ?_) hnn
  have hnl : ¬ IsLeaf c.schema n := by
    obtain ⟨_, _, hn⟩ := hn
    rintro (h | ⟨_, h⟩) <;> rw [hn] at h <;> cases h
  rcases conforms_composite hnl hv with rfl | ⟨o, kvs, rfl, hpo, hr⟩
  · exact (hnull rfl).elim
  have hmT : Stmt.classDef (base ++ "Base") (extra ++ ib) (docStmt desc :: (p.body ++ cfg)) [] ∈ T :=
    hT _ (by simp)
  have hiT : ∀ st ∈ impls, st ∈ T := fun st hst => hT st (by simp [hst])
  obtain ⟨h1, h2, h3⟩ := hp (fun st hst => hT st (by simp [hst])) o hpo kvs hr
  have hmother : Fits T isa kvs (base ++ "Base") := by
    refine fits_class h.module_.unique hmT ?_ ?_
    · intro b hb
      rcases List.mem_append.1 hb with hb | hb
      · rw [hextra] at hb; exact fits_baseNames h.module_.additional hb
      · rw [hib] at hb; exact fits_baseNames h.module_.interfaceBases hb
    · intro st hst
      rcases List.mem_cons.1 hst with rfl | hst
      · exact fitsStmt_none rfl
      · rcases List.mem_append.1 hst with hst | hst
        · exact h1 st hst
        · exact fitsStmt_none (hcfg st hst)
  obtain ⟨i, hi, rfl⟩ := mem_implementations hn hpo
  have hcT := hiT _ (himpls i hi)
  have hfit := implementing_fits h.module_ hcT hmother h2 h3 hr.reserved
  have htag : Val.entry kvs "__typename" = some (.atom i.name) := by
    obtain ⟨args, sub', hm⟩ := htn
    exact hr.typename _ sub' (.field hm)
  have ht : Takes T isa (taggedUnion ((implementations c.schema n).map fun i => base ++ "Base" ++ i.name))
      (.obj kvs) := by
    have hdecl : ∀ j ∈ implementations c.schema n,
        Tagged T (base ++ "Base" ++ j.name) "typename" "__typename" j.name := fun j hj =>
      tagged_typename (c := c) (.own (hiT _ (himpls j hj)) (by simp))
    refine .discriminated (d := "typename") (n := base ++ "Base" ++ i.name) (key := "__typename")
      (tag := i.name) rfl ?_ ?_ (hdecl i hi) htag (hfit.takes ⟨_, _, _, hcT⟩)
    · intro e' he'
      obtain ⟨nm, hnm, rfl⟩ := List.mem_map.1 he'
      obtain ⟨j, hj, rfl⟩ := List.mem_map.1 hnm
      exact ⟨_, _, rfl, hdecl j hj⟩
    · exact mem_names.2 (List.mem_map.2 ⟨i, hi, rfl⟩)
  rcases hx with hx | ⟨e', hx⟩
  · rw [hx]; exact ht
  · rw [hx]; exact .union (List.mem_cons_self ..) ht

theorem unionNode_ok {n : String} {ms : List String} {sub : List Sel} {walk : Gen (List String × List Stmt)}
    {opt : Bool} (hn : c.schema.lookup n = some (.union ms))
    (hopt : opt = true → 2 ≤ (sub.filter Sel.isFragment).length) (hcov : ∀ o ∈ ms, Covers c.schema defs sub o)
    (hw : Quietly walk r (UnQ c defs leaf T isa sub)) :
    Quietly (unionNode walk opt) r fun x => (∀ st ∈ x.2, st ∈ T) →
      SoundAt c.schema defs leaf T isa (.named n) sub opt x.1 := by
  unfold unionNode
  refine hw.bind fun p r1 q1 hp => ?_
  obtain ⟨hlen, hp⟩ := hp
  have hu : Quietly (unionReference p.1 opt) r1 fun e => (∃ a, p.1 = [a] ∧ e = .name a) ∨
      e = if opt then Turms.sub "Optional" (Turms.sub "Union" (.tuple (names p.1)))
        else Turms.sub "Union" (.tuple (names p.1)) := by
    generalize p.1 = l
    unfold unionReference
    split
    · exact .fail
    · exact .pure (.inl ⟨_, rfl, rfl⟩)
    · exact quietly_registerImport.bind fun _ _ _ _ => quietly_optionalWrap.mono fun _ h => .inr h
  refine hu.bind fun e r2 q2 he => .pure ?_
  intro hT v hv hnn
  dsimp only
  have hnl : ¬ IsLeaf c.schema n := by rintro (h | ⟨_, h⟩) <;> rw [hn] at h <;> cases h
  rcases he with ⟨a, ha, rfl⟩ | rfl
  · have hv' : v ≠ .null := by
      rcases hnn with h | h
      · exact h
      · have := hopt h
        rw [← hlen, ha] at this
        simp at this
    rcases conforms_composite hnl hv with rfl | ⟨o, kvs, rfl, hpo, hr⟩
    · exact (hv' rfl).elim
    · obtain ⟨ho, hom⟩ := possible_union hn hpo
      obtain ⟨k, hk, ht⟩ := hp hT o ho (hcov o hom) kvs hr
      rw [ha] at hk
      cases List.mem_singleton.1 hk
      exact ht
  · refine takes_optional (fun hnull => ?_) hnn
    rcases conforms_composite hnl hv with rfl | ⟨o, kvs, rfl, hpo, hr⟩
    · exact (hnull rfl).elim
    · obtain ⟨ho, hom⟩ := possible_union hn hpo
      obtain ⟨k, hk, ht⟩ := hp hT o ho (hcov o hom) kvs hr
      exact .union (mem_names.2 hk) ht

theorem inlineClass_ok {cls o : String} {p : ObjectParts} {sub : List Sel}
    (h : StateOk c defs leaf T isa K r) (hp : ObjQ c defs leaf T isa o sub p) :
    Quietly (inlineClass c cls o p) r fun ss => (∀ st ∈ ss, st ∈ T) →
      ∀ kvs, SparseResult c.schema defs leaf o sub kvs → Takes T isa (.name cls) (.obj kvs) := by
  unfold inlineClass
  have htn : Quietly (inlineTypename c o p.bases) r fun tn => ∀ st ∈ tn, st = typenameStmt c o := by
    unfold inlineTypename
    split
    · exact quietly_typenameField.bind fun t _ _ ht => .pure fun st hst => by
        rw [List.mem_singleton.1 hst, ht]
    · exact .pure (by simp)
  refine htn.bind fun tn r1 q1 htn => ?_
  have hb : Quietly (spreadOrAdditional c o p.bases) r1 fun bs =>
      bs = baseNames ((c.config.additionalBases.get? o).getD []) ∨ bs = names p.bases := by
    unfold spreadOrAdditional
    split
    · exact quietly_additionalBasesFor.mono fun _ h => .inl h
    · exact .pure (.inr rfl)
  refine hb.bind fun bases r2 q2 hbs => ?_
  refine quietly_generatePydanticConfig.bind fun cfg r3 q3 hcfg => .pure ?_
  intro hT kvs hr
  have hcT := hT _ (List.mem_append_right _ (List.mem_singleton.2 rfl))
  obtain ⟨hbody, hbase⟩ := hp (fun st hst => hT st (List.mem_append_left _ hst)) kvs hr
  refine Fits.takes (fits_class h.module_.unique hcT ?_ ?_) ⟨_, _, _, hcT⟩
  · intro b hb
    rcases List.mem_append.1 hb with hb | hb
    · rcases hbs with rfl | rfl
      · exact fits_baseNames h.module_.additional hb
      · exact hbase b (mem_names.1 hb)
    · exact fits_baseNames h.module_.objectBases hb
  · intro st hst
    split at hst
    · rw [List.mem_singleton.1 hst]; exact fitsStmt_none rfl
    · rcases List.mem_append.1 hst with hst | hst
      · rcases List.mem_append.1 hst with hst | hst
        · rw [htn st hst]; exact fitsStmt_typename hr.reserved
        · exact hbody st hst
      · exact fitsStmt_none (hcfg st hst)

theorem quietly_inlineClass {cls o : String} {p : ObjectParts} :
    Quietly (inlineClass c cls o p) r fun _ => True := by
  unfold inlineClass
  have htn : ∀ {r : Reg}, Quietly (inlineTypename c o p.bases) r fun _ => True := by
    intro r
    unfold inlineTypename
    split
    · exact quietly_typenameField.bind fun t _ _ ht => .pure trivial
    · exact .pure trivial
  have hb : ∀ {r : Reg}, Quietly (spreadOrAdditional c o p.bases) r fun _ => True := by
    intro r
    unfold spreadOrAdditional
    split
    · exact quietly_additionalBasesFor.mono fun _ _ => trivial
    · exact .pure trivial
  exact htn.bind fun _ _ _ _ => hb.bind fun _ _ _ _ =>
    quietly_generatePydanticConfig.bind fun _ _ _ _ => .pure trivial

theorem quietly_inlineSpreadBase {f : String} : Quietly (inlineSpreadBase f) r fun _ => True := by
  intro b r' hb
  unfold inlineSpreadBase at hb
  split at hb
  · cases hb
  · exact ⟨(quietly_inheritFragment _ _ hb).1, trivial⟩

/-! ## named types -/

/-- `recurse_annotation` on a named type, given the walkers for its selection set -/
theorem namedNode_ok {parent target : String} {sub : List Sel} {t : TypeNode}
    {objs : String → List FieldDef → String → Gen ObjectParts} {ifcs : List FieldDef → String → Gen InterfaceParts}
    {uns : Gen (List String × List Stmt)} (h : StateOk c defs leaf T isa K r)
    (hs : Supported c.schema defs K t sub)
    (hobj : ∀ n fs is k r1, StateOk c defs leaf T isa K r1 → c.schema.lookup n = some (.object fs is) →
      ObjSpreads c.schema defs K n sub → FieldHyp c.schema defs K (declaredIn fs) sub →
      Quietly (objs n fs k) r1 (ObjQ c defs leaf T isa n sub))
    (hifc : ∀ n fs is k r1, StateOk c defs leaf T isa K r1 → c.schema.lookup n = some (.interface fs is) →
      (∀ f, Sel.spread f ∈ sub → K f) → FieldHyp c.schema defs K (declaredIn fs) sub →
      IfcInlines c.schema defs K sub → Quietly (ifcs fs k) r1 (IfcQ c defs leaf T isa n sub))
    (hun : ∀ r1, StateOk c defs leaf T isa K r1 → UnHyp c.schema defs K sub →
      Quietly uns r1 (UnQ c defs leaf T isa sub)) :
    Quietly (namedNode c parent target sub objs ifcs uns t.base (innerNullable t)) r fun x =>
      (∀ st ∈ x.2, st ∈ T) →
      SoundAt c.schema defs leaf T isa (.named t.base) sub (innerNullable t) x.1 := by
  unfold namedNode
  have hl : ∀ {e}, c.schema.types.get? t.base = some e → c.schema.lookup t.base = some e.defn := by
    intro e he; unfold Schema.lookup; rw [he]; rfl
  split
  · rename_i _ hg
    have hk : IsLeaf c.schema t.base := .inl (hl hg)
    refine quietly_referenceScalar.bind fun x r1 _ hx => ?_
    obtain ⟨cl, hcl, rfl⟩ := hx
    refine quietly_optionalWrap.bind fun e r2 _ he => .pure ?_
    intro _ v hv hn
    dsimp only
    rw [he]
    refine takes_optional (fun hnull => ?_) hn
    rcases conforms_leaf hk hv with rfl | hv
    · exact (hnull rfl).elim
    · refine .opaque (h.module_.leafs _ _ _ hk hv ?_)
      unfold outputSideClass
      rw [hl hg]
      exact hcl
  · rename_i vs _ hg
    have hk : IsLeaf c.schema t.base := .inr ⟨_, hl hg⟩
    refine quietly_referenceEnum.bind fun x r1 _ hx => ?_
    obtain ⟨cl, hcl, hx⟩ := hx
    refine quietly_optionalWrap.bind fun e r2 _ he => .pure ?_
    intro _ v hv hn
    dsimp only
    rw [he]
    refine takes_optional (fun hnull => ?_) hn
    rcases conforms_leaf hk hv with rfl | hv
    · exact (hnull rfl).elim
    · have : isa cl v := by
        refine h.module_.leafs _ _ _ hk hv ?_
        unfold outputSideClass
        rw [hl hg]
        exact hcl
      rcases hx with rfl | rfl
      · exact .opaque this
      · exact .forward (.opaque this)
  · rename_i fs is d hg
    obtain ⟨h1, h2⟩ := supported_object hs (hl hg)
    exact objectNode_ok h ⟨_, _, hl hg⟩ h1 fun k r1 q => hobj _ _ _ _ _ (h.quiet q) (hl hg) h1 h2
  · rename_i fs is d hg
    obtain ⟨h1, h2, h3, h4⟩ := supported_interface hs (hl hg)
    exact interfaceNode_ok h ⟨_, _, hl hg⟩ h1 fun k r1 q => hifc _ _ _ _ _ (h.quiet q) (hl hg) h2 h3 h4
  · rename_i ms _ hg
    obtain ⟨h1, h2, h3⟩ := supported_union hs (hl hg)
    exact unionNode_ok (hl hg) h1 h2 (hun _ h h3)
  · exact .fail

end
end Turms
