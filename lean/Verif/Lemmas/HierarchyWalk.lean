import Verif.Lemmas.HierarchyRun
import Verif.Lemmas.KeptSels

/-! # The bases of generated classes: walking the selections -/

namespace Turms
open Spec

/-- a table of classes of the fragment `f` -/
structure TableH (G : String → String → Prop) (f : String) (m : Dict String) : Prop where
  nodup : m.keys.Nodup
  owned : ∀ o cls, (o, cls) ∈ m → G f cls

/-- what the registry knows about the classes of the generated fragment `f` -/
structure FragH (c : Ctx) (defs : Dict FragDef) (G : String → String → Prop) (r : Reg) (f : String) (d : FragDef) :
    Prop where
  defined : defs.get? f = some d
  typed : r.fragmentTypeMap.get? f = some d.typeCondition
  named : ∃ cls, r.fragmentMap.get? f = some cls ∧ Kind.fragment.style c.env f = .ok cls
  members : ∀ m, r.unionFragmentMembers.get? f = some m → TableH G f m
  interface : IsInterface c.schema d.typeCondition → ∃ m, r.interfaceFragmentImpl.get? f = some m ∧ TableH G f m ∧
    ∀ o, Possible c.schema d.typeCondition o → ∃ cls, m.get? o = some cls
  other : ¬ IsInterface c.schema d.typeCondition → r.interfaceFragmentImpl.get? f = none
  object : IsObject c.schema d.typeCondition → ∀ cls, r.fragmentMap.get? f = some cls → G f cls

/-- everything known about the state in which a selection is generated -/
structure StateH (c : Ctx) (defs : Dict FragDef) (G : String → String → Prop) (K : String → Prop) (r : Reg) : Prop where
  additional : ∀ n, (c.config.additionalBases.get? n).getD [] = []
  interfaces : interfaceBaseList c = c.config.objectBases
  nodup : c.schema.types.keys.Nodup
  frags : ∀ f, K f → ∃ d, FragH c defs G r f d

/-- the common bases -/
abbrev common (c : Ctx) : List Expr := baseNames c.config.objectBases

/-- the class statements of sub-selections -/
def Good (c : Ctx) (defs : Dict FragDef) (G : String → String → Prop) (K : String → Prop) (ss : List Stmt) : Prop :=
  Steps (BaseShape defs G K (fun _ => True) (common c) (fun _ => False)) ss

section
variable {c : Ctx} {defs : Dict FragDef} {G : String → String → Prop} {K : String → Prop} {r : Reg}

theorem FragH.of_tables {r' : Reg} {f : String} {d : FragDef} (h : FragH c defs G r f d)
    (h1 : r'.fragmentMap.get? f = r.fragmentMap.get? f)
    (h2 : r'.fragmentTypeMap.get? f = r.fragmentTypeMap.get? f)
    (h3 : r'.interfaceFragmentImpl.get? f = r.interfaceFragmentImpl.get? f)
    (h4 : r'.unionFragmentMembers.get? f = r.unionFragmentMembers.get? f) : FragH c defs G r' f d := by
  refine ⟨h.defined, ?_, ?_, ?_, ?_, ?_, ?_⟩
  · rw [h2]; exact h.typed
  · rw [h1]; exact h.named
  · rw [h4]; exact h.members
  · rw [h3]; exact h.interface
  · rw [h3]; exact h.other
  · rw [h1]; exact h.object

theorem StateH.same {r' : Reg} (h : StateH c defs G K r) (q : SameFragments r r') : StateH c defs G K r' := by
  obtain ⟨_, h1, h2, h3, h4⟩ := q
  refine ⟨h.additional, h.interfaces, h.nodup, fun f hf => ?_⟩
  obtain ⟨d, hd⟩ := h.frags f hf
  exact ⟨d, hd.of_tables (by rw [h1]) (by rw [h2]) (by rw [h3]) (by rw [h4])⟩

theorem StateH.quiet {r' : Reg} (h : StateH c defs G K r) (q : Quiet r r') : StateH c defs G K r' :=
  h.same (.of_quiet q)

theorem StateH.frag {f : String} {d : FragDef} (h : StateH c defs G K r) (hk : K f) (hd : defs.get? f = some d) :
    FragH c defs G r f d := by
  obtain ⟨d', hd'⟩ := h.frags f hk
  have := hd'.defined
  rw [hd] at this
  cases this
  exact hd'

theorem Good.nil : Good c defs G K [] := Steps.nil

theorem Good.append {a b : List Stmt} (ha : Good c defs G K a) (hb : Good c defs G K b) : Good c defs G K (a ++ b) :=
  Steps.join ha hb

theorem steps_singleton {P : List Stmt → List Expr → Prop} {n : String} {bases : List Expr} {body : List Stmt}
    {ds : List Expr} (h : P [] bases) : Steps P [.classDef n bases body ds] := by
  intro pre n' bases' body' ds' post e
  cases pre with
  | nil => cases e; exact h
  | cons x pre => cases pre <;> cases e

/-- the class of an object: the classes of the spread fragments and the common bases -/
theorem good_object {n : String} {fs bs : List String} {body : List Stmt} {ds : List Expr}
    (hb : List.Forall₂ G fs bs) (hk : ∀ f ∈ fs, K f) (hu : Unrelated defs fs) :
    Good c defs G K [.classDef n (names bs ++ common c) body ds] :=
  steps_singleton (.derived fs bs [] (by simp) hb hk hu (.inl rfl))

/-! ## what the walkers establish -/

/-- for the selections of an object -/
def ObjH (c : Ctx) (defs : Dict FragDef) (G : String → String → Prop) (K : String → Prop) (sels : List Sel)
    (p : ObjectParts) : Prop :=
  Good c defs G K p.classes ∧ List.Forall₂ G (spreadsOf sels) p.bases

/-- for selections with classes for several types; `sp o` are the fragments spread for `o` -/
def IfcH (c : Ctx) (defs : Dict FragDef) (G : String → String → Prop) (K : String → Prop) (sp : String → List String)
    (p : InterfaceParts) : Prop :=
  Good c defs G K p.classes ∧
    ∀ o, IsObject c.schema o → ∃ fs, List.Sublist fs (sp o) ∧ List.Forall₂ G fs (p.basesFor o)

theorem spreadsOf_cons (x : Sel) (rest : List Sel) : spreadsOf (x :: rest) = spreadsOf [x] ++ spreadsOf rest := by
  unfold spreadsOf
  rw [← List.singleton_append, List.filterMap_append]

theorem mem_spreadsOf {f : String} {sels : List Sel} : f ∈ spreadsOf sels ↔ Sel.spread f ∈ sels := by
  unfold spreadsOf
  rw [List.mem_filterMap]
  constructor
  · rintro ⟨x, hx, h⟩
    split at h
    · cases h; exact hx
    · cases h
  · intro h; exact ⟨_, h, rfl⟩

theorem forall₂_append {α β : Type} {P : α → β → Prop} {a a' : List α} {b b' : List β} (h : List.Forall₂ P a b)
    (h' : List.Forall₂ P a' b') : List.Forall₂ P (a ++ a') (b ++ b') := by
  induction h with
  | nil => exact h'
  | cons h _ ih => exact .cons h ih

theorem forall₂_reverse {α β : Type} {P : α → β → Prop} {a : List α} {b : List β} (h : List.Forall₂ P a b) :
    List.Forall₂ P a.reverse b.reverse := by
  induction h with
  | nil => exact .nil
  | cons h _ ih =>
    rw [List.reverse_cons, List.reverse_cons]
    exact forall₂_append ih (.cons h .nil)

theorem ObjH.append {x : Sel} {rest : List Sel} {a b : ObjectParts}
    (h1 : ObjH c defs G K [x] a) (h2 : ObjH c defs G K rest b) : ObjH c defs G K (x :: rest) (a.append b) := by
  refine ⟨h1.1.append h2.1, ?_⟩
  rw [spreadsOf_cons]
  exact forall₂_append h1.2 h2.2

theorem basesFor_append {a b : InterfaceParts} {o : String} :
    (a.append b).basesFor o = a.basesFor o ++ b.basesFor o := by
  unfold InterfaceParts.basesFor InterfaceParts.append
  rw [List.filter_append, List.map_append]

theorem IfcH.append {sp sp1 sp2 : String → List String} {a b : InterfaceParts}
    (h1 : IfcH c defs G K sp1 a) (h2 : IfcH c defs G K sp2 b) (hsp : ∀ o, sp o = sp1 o ++ sp2 o) :
    IfcH c defs G K sp (a.append b) := by
  refine ⟨h1.1.append h2.1, fun o ho => ?_⟩
  obtain ⟨f1, s1, g1⟩ := h1.2 o ho
  obtain ⟨f2, s2, g2⟩ := h2.2 o ho
  refine ⟨f1 ++ f2, ?_, ?_⟩
  · rw [hsp]; exact s1.append s2
  · rw [basesFor_append]; exact forall₂_append g1 g2

/-- selections that contribute classes of sub-selections only -/
theorem IfcH.noBases {sp : String → List String} {p : InterfaceParts} (h : Good c defs G K p.classes)
    (hb : p.implBases = []) : IfcH c defs G K sp p := by
  refine ⟨h, fun o _ => ⟨[], List.nil_sublist _, ?_⟩⟩
  unfold InterfaceParts.basesFor
  rw [hb]
  exact .nil

/-! ## hypotheses on the selections -/

/-- the fields selected; `ft name t` says that `name` has type `t` -/
def FieldHypH (c : Ctx) (defs : Dict FragDef) (ft : String → TypeNode → Prop) (sels : List Sel) : Prop :=
  ∀ name al args sub t, Sel.field name al args sub ∈ sels → name ≠ "__typename" → ft name t →
    Inheritable c defs t sub

theorem FieldHypH.mono {ft : String → TypeNode → Prop} {a b : List Sel}
    (h : FieldHypH c defs ft b) (hs : ∀ x ∈ a, x ∈ b) : FieldHypH c defs ft a :=
  fun name al args sub t hm hn ht => h name al args sub t (hs _ hm) hn ht

/-- the inline fragments -/
def InnerH (c : Ctx) (defs : Dict FragDef) (sels : List Sel) : Prop :=
  ∀ o inner, Sel.inline (some o) inner ∈ sels → FieldHypH c defs (FieldType c.schema o) inner

theorem InnerH.mono {a b : List Sel} (h : InnerH c defs b) (hs : ∀ x ∈ a, x ∈ b) : InnerH c defs a :=
  fun o inner hm => h o inner (hs _ hm)

/-- the inline fragments of a union -/
structure UnHypH (c : Ctx) (defs : Dict FragDef) (sels : List Sel) : Prop where
  bases : ∀ o inner f, Sel.inline (some o) inner ∈ sels → Sel.spread f ∈ inner →
    ∃ d, defs.get? f = some d ∧ IsObject c.schema d.typeCondition
  unrelated : ∀ o inner, Sel.inline (some o) inner ∈ sels → Unrelated defs (spreadsOf inner)
  inner : InnerH c defs sels

theorem UnHypH.mono {a b : List Sel} (h : UnHypH c defs b) (hs : ∀ x ∈ a, x ∈ b) : UnHypH c defs a :=
  ⟨fun o inner f hm => h.bases o inner f (hs _ hm), fun o inner hm => h.unrelated o inner (hs _ hm), h.inner.mono hs⟩

theorem inheritable_object {t : TypeNode} {sels : List Sel} {fs is} (h : Inheritable c defs t sels)
    (hl : c.schema.lookup t.base = some (.object fs is)) :
    ObjSpreadsK c.schema defs t.base sels ∧ Unrelated defs (spreadsOf sels) ∧ FieldHypH c defs (declaredIn fs) sels := by
  cases h with
  | leaf h => rcases h with h | ⟨_, h⟩ <;> rw [h] at hl <;> cases hl
  | object h1 h2 h3 h4 =>
    rw [h1] at hl; cases hl
    refine ⟨h2, h3, ?_⟩
    rintro name al args sub t hm hn ⟨fd, h5, h6, rfl⟩
    exact h4 name al args sub fd hm hn h5 h6
  | interface h1 => rw [h1] at hl; cases hl
  | union h1 => rw [h1] at hl; cases hl

theorem inheritable_interface {t : TypeNode} {sels : List Sel} {fs is} (h : Inheritable c defs t sels)
    (hl : c.schema.lookup t.base = some (.interface fs is)) :
    Unrelated defs (spreadsOf sels) ∧ FieldHypH c defs (declaredIn fs) sels ∧ InnerH c defs sels := by
  cases h with
  | leaf h => rcases h with h | ⟨_, h⟩ <;> rw [h] at hl <;> cases hl
  | object h1 => rw [h1] at hl; cases hl
  | interface h1 h2 h3 h4 =>
    rw [h1] at hl; cases hl
    refine ⟨h2, ?_, ?_⟩
    · rintro name al args sub t hm hn ⟨fd, h7, h8, rfl⟩
      exact h3 name al args sub fd hm hn h7 h8
    · intro o inner hm name al args sub t hi hn ht
      exact h4 o inner name al args sub t hm hi hn ht
  | union h1 => rw [h1] at hl; cases hl

theorem inheritable_union {t : TypeNode} {sels : List Sel} {ms} (h : Inheritable c defs t sels)
    (hl : c.schema.lookup t.base = some (.union ms)) : UnHypH c defs sels := by
  cases h with
  | leaf h => rcases h with h | ⟨_, h⟩ <;> rw [h] at hl <;> cases hl
  | object h1 => rw [h1] at hl; cases hl
  | interface h1 => rw [h1] at hl; cases hl
  | union h1 h2 h3 h4 =>
    refine ⟨h2, h3, ?_⟩
    intro o inner hm name al args sub t hi hn ht
    exact h4 o inner name al args sub t hm hi hn ht

/-! ## single spreads -/

theorem spreadBase_owned {f o : String} (h : StateH c defs G K r) (hk : K f) (ho : IsObject c.schema o)
    (hs : ∃ d, defs.get? f = some d ∧
      (d.typeCondition = o ∨ (IsInterface c.schema d.typeCondition ∧ Possible c.schema d.typeCondition o))) :
    Quietly (spreadBase f o) r fun b => G f b := by
  obtain ⟨d, hd, hc⟩ := hs
  have hf := h.frag hk hd
  intro b r' hb
  unfold spreadBase at hb
  obtain ⟨i, r1, h1, h2⟩ := Gen.bind_ok.1 hb
  unfold getInterfaceFragmentImplementationOrNone at h1
  rcases hc with rfl | ⟨hi, hp⟩
  · rw [hf.other (not_interface_of_object ho)] at h1
    cases h1
    obtain ⟨q, hcl⟩ := quietly_inheritFragment _ _ h2
    exact ⟨q, hf.object ho _ hcl⟩
  · obtain ⟨m, hm, ht, hall⟩ := hf.interface hi
    obtain ⟨cls, hcls⟩ := hall o hp
    rw [hm] at h1
    dsimp only at h1
    rw [hcls] at h1
    cases h1
    obtain ⟨rfl, rfl⟩ := Gen.pure_ok.1 h2
    exact ⟨.refl _, ht.owned _ _ (Dict.mem_of_get? hcls)⟩

/-- a table contributes at most one class for each type -/
theorem TableH.bases {f : String} {m : Dict String} (h : TableH G f m) (o : String) :
    ∃ fs, List.Sublist fs [f] ∧ List.Forall₂ G fs ((List.filter (fun q => q.1 == o) m).map (·.2)) := by
  obtain ⟨hnd, hown⟩ := h
  induction m with
  | nil => exact ⟨[], List.nil_sublist _, .nil⟩
  | cons x m ih =>
    obtain ⟨k, v⟩ := x
    have hnd' : k ∉ Dict.keys m ∧ (Dict.keys m).Nodup := List.nodup_cons.1 hnd
    by_cases he : k = o
    · subst he
      refine ⟨[f], List.Sublist.refl _, ?_⟩
      have hrest : List.filter (fun q => q.1 == k) m = [] := by
        rw [List.filter_eq_nil_iff]
        rintro ⟨k', v'⟩ hm he
        rw [show k' = k from eq_of_beq he] at hm
        exact hnd'.1 (List.mem_map.2 ⟨_, hm, rfl⟩)
      have : List.filter (fun q => q.1 == k) ((k, v) :: m) = [(k, v)] := by
        rw [List.filter_cons_of_pos (by simp)]
        exact congrArg _ hrest
      rw [this]
      exact .cons (hown k v (List.mem_cons_self ..)) .nil
    · have : List.filter (fun q => q.1 == o) ((k, v) :: m) = List.filter (fun q => q.1 == o) m :=
        List.filter_cons_of_neg (by simpa using he)
      rw [this]
      exact ih hnd'.2 fun o' cls' hm => hown o' cls' (List.mem_cons_of_mem _ hm)

theorem spreadImplementations_owned {f : String} (h : StateH c defs G K r) (hk : K f) :
    Quietly (spreadImplementations f) r fun bs => ∀ o, IsObject c.schema o →
      ∃ fs, List.Sublist fs [f] ∧ List.Forall₂ G fs ((bs.filter fun q => q.1 == o).map (·.2)) := by
  obtain ⟨d, hf⟩ := h.frags f hk
  intro bs r' hb
  unfold spreadImplementations at hb
  split at hb
  · rename_i m hm
    cases hb
    refine ⟨.refl _, fun o _ => ?_⟩
    have hi : IsInterface c.schema d.typeCondition := Classical.byContradiction fun hi => by
      rw [hf.other hi] at hm; cases hm
    obtain ⟨m', hm', ht, _⟩ := hf.interface hi
    rw [hm] at hm'
    cases hm'
    exact ht.bases o
  · split at hb
    · cases hb
    · rename_i t ht
      rw [hf.typed] at ht
      cases ht
      split at hb
      · cases hb
      · rename_i cls r1 hi
        cases hb
        obtain ⟨q, hcl⟩ := quietly_inheritFragment _ _ hi
        refine ⟨q, fun o ho => ?_⟩
        by_cases he : d.typeCondition = o
        · subst he
          have : (List.filter (fun q => q.1 == d.typeCondition) [(d.typeCondition, cls)]).map (·.2) = [cls] := by simp
          rw [this]
          exact ⟨[f], List.Sublist.refl _, .cons (hf.object ho _ hcl) .nil⟩
        · have : (List.filter (fun q => q.1 == o) [(d.typeCondition, cls)]).map (·.2) = [] := by
            have : (d.typeCondition == o) = false := by simpa using he
            simp [this]
          rw [this]
          exact ⟨[], List.nil_sublist _, .nil⟩

theorem inlineSpreadBase_owned {f : String} (h : StateH c defs G K r) (hk : K f)
    (hs : ∃ d, defs.get? f = some d ∧ IsObject c.schema d.typeCondition) :
    Quietly (inlineSpreadBase f) r fun b => G f b := by
  obtain ⟨d, hd, ho⟩ := hs
  have hf := h.frag hk hd
  intro b r' hb
  unfold inlineSpreadBase at hb
  split at hb
  · cases hb
  · obtain ⟨q, hcl⟩ := quietly_inheritFragment _ _ hb
    exact ⟨q, hf.object ho _ hcl⟩

/-! ## composite nodes -/

theorem spreadOrAdditional_plain {o : String} {bases : List String} (h : StateH c defs G K r) :
    Quietly (spreadOrAdditional c o bases) r fun bs => bs = names bases := by
  refine quietly_spreadOrAdditional.mono fun bs hbs => ?_
  rcases hbs with ⟨rfl, rfl⟩ | rfl
  · rw [h.additional]; rfl
  · rfl

theorem finishObject_good {cls o : String} {desc : Option String} {p : ObjectParts} {opt : Bool} {sub : List Sel}
    {tn : Stmt} (h : StateH c defs G K r) (hk : ∀ f ∈ spreadsOf sub, K f) (hu : Unrelated defs (spreadsOf sub))
    (hp : ObjH c defs G K sub p) :
    Quietly (finishObject c cls o desc tn p opt) r fun x => Good c defs G K x.2 := by
  unfold finishObject
  refine (spreadOrAdditional_plain h).bind fun bases r1 q1 hbs => ?_
  refine quietly_generatePydanticConfig.bind fun cfg r2 q2 hcfg => ?_
  refine quietly_optionalWrap.bind fun e r3 q3 he => .pure ?_
  rw [hbs]
  exact hp.1.append (good_object hp.2 hk hu)

theorem quietly_collapseReference {parent f o : String} :
    Quietly (collapseReference c parent f o) r fun _ => True := by
  intro e r' hb
  unfold collapseReference at hb
  obtain ⟨i, r1, h1, h2⟩ := Gen.bind_ok.1 hb
  have hr : r1 = r := by
    unfold getInterfaceFragmentImplementationOrNone at h1
    repeat' split at h1
    all_goals first | (cases h1; rfl) | cases h1
  subst hr
  cases i with
  | some i => obtain ⟨_, rfl⟩ := Gen.pure_ok.1 h2; exact ⟨.refl _, trivial⟩
  | none => exact ⟨(quietly_referenceFragment _ _ h2).1, trivial⟩

theorem objectNode_good {parent target o : String} {desc : Option String} {sub : List Sel}
    {walk : String → Gen ObjectParts} {opt : Bool} (h : StateH c defs G K r)
    (hk : ∀ f ∈ spreadsOf sub, K f) (hu : Unrelated defs (spreadsOf sub))
    (hw : ∀ k r1, Quiet r r1 → Quietly (walk k) r1 (ObjH c defs G K sub)) :
    Quietly (objectNode c parent target o desc sub walk opt) r fun x => Good c defs G K x.2 := by
  unfold objectNode
  refine quietly_typenameField.bind fun tn r1 q1 htn => ?_
  split
  · refine quietly_collapseReference.bind fun x r2 q2 hx => ?_
    exact quietly_optionalWrap.bind fun e r3 q3 he => .pure .nil
  · refine (hw _ _ q1).bind fun p r2 q2 hp => ?_
    exact finishObject_good (h.quiet (q1.trans q2)) hk hu hp

theorem implementingClasses_eq {mother : String} {p : InterfaceParts} {is : List Implementation} : ∀ {r : Reg},
    StateH c defs G K r → Quietly (implementingClasses c mother p is) r fun ss => ss = is.map fun i =>
      Stmt.classDef (mother ++ i.name) (names (p.basesFor i.name) ++ [.name mother] ++ common c)
        (docStmt i.description :: typenameStmt c i.name :: p.bodyFor i.name) [] := by
  induction is with
  | nil => exact fun _ => .pure rfl
  | cons i is ih =>
    intro r h
    unfold implementingClasses
    have h1 : Quietly (implementingClass c mother p i) r fun s => s =
        Stmt.classDef (mother ++ i.name) (names (p.basesFor i.name) ++ [.name mother] ++ common c)
        (docStmt i.description :: typenameStmt c i.name :: p.bodyFor i.name) [] := by
      unfold implementingClass
      refine quietly_additionalBasesFor.bind fun e1 _ _ h1 => ?_
      refine quietly_interfaceBasesOf.bind fun e2 _ _ h2 => ?_
      refine quietly_typenameField.bind fun e3 _ _ h3 => .pure ?_
      rw [h1, h2, h3, h.additional, h.interfaces]
      simp [baseNames]
    refine h1.bind fun s r1 q hs => (ih (h.quiet q)).bind fun rest r2 _ hrest => .pure ?_
    rw [hs, hrest]
    rfl

/-- class statements that all have the property, given what is before them -/
theorem steps_map {α : Type} {P : List Stmt → List Expr → Prop} {l : List α} {g : α → Stmt}
    (h : ∀ pre x n bases body ds, x ∈ l → g x = .classDef n bases body ds → P pre bases) : Steps P (l.map g) := by
  intro pre n bases body ds post e
  have : Stmt.classDef n bases body ds ∈ l.map g := by rw [e]; simp
  obtain ⟨x, hx, he⟩ := List.mem_map.1 this
  exact h pre x n bases body ds hx he

/-- the implementing classes of an interface, after the mother class -/
theorem steps_implementing {R M : String → Prop} {mother : String} {sp : String → List String} {p : InterfaceParts}
    {is : List Implementation} {pre0 : List Stmt} {mbody : List Stmt} {mds : List Expr} {name : String}
    (hmother : Stmt.classDef mother (common c) mbody mds ∈ pre0) (hM : M mother)
    (hp : ∀ o, IsObject c.schema o → ∃ fs, List.Sublist fs (sp o) ∧ List.Forall₂ G fs (p.basesFor o))
    (ho : ∀ i ∈ is, IsObject c.schema i.name) (hR : ∀ i ∈ is, ∀ f ∈ sp i.name, R f)
    (hu : ∀ i ∈ is, Unrelated defs (sp i.name)) :
    Steps (fun pre => BaseShape defs G R M (common c) (fun _ => False) (pre0 ++ pre)) (is.map fun i =>
      Stmt.classDef (name ++ i.name) (names (p.basesFor i.name) ++ [.name mother] ++ common c)
        (docStmt i.description :: typenameStmt c i.name :: p.bodyFor i.name) []) := by
  refine steps_map fun pre i n bases body ds hi e => ?_
  cases e
  obtain ⟨fs, hs, hg⟩ := hp i.name (ho i hi)
  refine .derived fs (p.basesFor i.name) [mother] (by simp [names]) hg (fun f hf => hR i hi f (hs.subset hf))
    ((hu i hi).sublist hs) (.inr ⟨mother, mbody, mds, rfl, hM, List.mem_append.2 (.inl hmother)⟩)

theorem interfaceNode_good {parent target n : String} {desc : Option String} {sub : List Sel}
    {walk : String → Gen InterfaceParts} {opt : Bool} (h : StateH c defs G K r) (hn : IsInterface c.schema n)
    (hk : ∀ f ∈ spreadsOf sub, K f) (hu : Unrelated defs (spreadsOf sub))
    (hw : ∀ k r1, Quiet r r1 → Quietly (walk k) r1 (IfcH c defs G K fun _ => spreadsOf sub)) :
    Quietly (interfaceNode c parent target n desc walk opt) r fun x => Good c defs G K x.2 := by
  unfold interfaceNode
  dsimp only
  generalize parent ++ pyCapitalize target = base
  refine (hw _ _ (.refl _)).bind fun p r1 q1 hp => ?_
  refine quietly_additionalBasesFor.bind fun extra r2 q2 hextra => ?_
  refine quietly_interfaceBasesOf.bind fun ib r3 q3 hib => ?_
  refine quietly_generatePydanticConfig.bind fun cfg r4 q4 hcfg => ?_
  refine (implementingClasses_eq (h.quiet ((q1.trans q2).trans (q3.trans q4)))).bind fun impls r5 q5 himpls => ?_
  refine quietly_registerImport.bind fun _ r6 q6 _ => ?_
  refine quietly_registerImport.bind fun _ r7 q7 _ => ?_
  have hcatch : ∀ tagged, Quietly (catchAll c (base ++ "Base") tagged) r7 fun x => x.2 = [] ∨ ∃ body,
      x.2 = [Stmt.classDef (base ++ "Base" ++ "CatchAll") (names [base ++ "Base"] ++ common c) body []] := by
    intro tagged
    unfold catchAll
    split
    · refine quietly_interfaceBasesOf.bind fun e1 _ _ h1 => quietly_genericTypenameField.bind fun e2 _ _ h2 => ?_
      refine quietly_registerImport.bind fun _ _ _ _ => .pure (.inr ?_)
      rw [h1, h.interfaces]
      exact ⟨_, rfl⟩
    · exact .pure (.inl rfl)
  refine (hcatch _).bind fun x r8 q8 hx => ?_
  refine quietly_optionalWrap.bind fun e r9 q9 he => .pure ?_
  dsimp only
  have hbs : extra ++ ib = common c := by
    rw [hextra, hib, h.additional, h.interfaces]; rfl
  rw [hbs]
  refine hp.1.append ?_
  have hmother : ∀ pre : List Stmt, Stmt.classDef (base ++ "Base") (common c) (docStmt desc :: (p.body ++ cfg)) [] ∈
      [Stmt.classDef (base ++ "Base") (common c) (docStmt desc :: (p.body ++ cfg)) []] ++ pre :=
    fun pre => List.mem_append.2 (.inl (List.mem_singleton.2 rfl))
  refine Steps.append (a := [_]) (good_object (fs := []) (bs := []) .nil (by simp) .nil) ?_
  refine Steps.append ?_ ?_
  · rw [himpls]
    exact steps_implementing (sp := fun _ => spreadsOf sub) (List.mem_singleton.2 rfl) trivial hp.2
      (fun i hi => possible_isObject (possible_of_implementation hn h.nodup hi)) (fun _ _ => hk) fun _ _ => hu
  · rcases hx with hx | ⟨body, hx⟩
    · rw [hx]; exact Steps.nil
    · rw [hx]
      exact steps_singleton (.derived [] [] [base ++ "Base"] (by simp) .nil (by simp) .nil
        (.inr ⟨_, _, _, rfl, trivial, hmother _⟩))

theorem unionNode_good {walk : Gen (List String × List Stmt)} {opt : Bool}
    (hw : Quietly walk r fun x => Good c defs G K x.2) :
    Quietly (unionNode walk opt) r fun x => Good c defs G K x.2 := by
  unfold unionNode
  refine hw.bind fun p r1 q1 hp => ?_
  have hur : Quietly (unionReference p.1 opt) r1 fun _ => True := by
    unfold unionReference
    split
    · exact .fail
    · exact .pure trivial
    · exact quietly_registerImport.bind fun _ _ _ _ => quietly_optionalWrap.mono fun _ _ => trivial
  exact hur.bind fun e r2 q2 he => .pure hp

theorem inlineClass_good {cls o : String} {p : ObjectParts} {sub : List Sel} (h : StateH c defs G K r)
    (hk : ∀ f ∈ spreadsOf sub, K f) (hu : Unrelated defs (spreadsOf sub)) (hp : ObjH c defs G K sub p) :
    Quietly (inlineClass c cls o p) r fun ss => Good c defs G K ss := by
  unfold inlineClass
  have htn : Quietly (inlineTypename c o p.bases) r fun _ => True := by
    unfold inlineTypename
    split
    · exact quietly_typenameField.bind fun t _ _ ht => .pure trivial
    · exact .pure trivial
  refine htn.bind fun tn r1 q1 _ => ?_
  refine (spreadOrAdditional_plain (h.quiet q1)).bind fun bases r2 q2 hbs => ?_
  refine quietly_generatePydanticConfig.bind fun cfg r3 q3 hcfg => .pure ?_
  rw [hbs]
  exact hp.1.append (good_object hp.2 hk hu)

/-! ## fields and named types -/

theorem wrapOutput_classes {P : List Stmt → Prop} {leafG : String → Bool → Gen (Expr × List Stmt)} {t : TypeNode} :
    ∀ {opt : Bool} {r : Reg},
    (∀ opt r1, Quiet r r1 → Quietly (leafG t.base opt) r1 fun x => P x.2) →
    Quietly (wrapOutput c leafG t opt) r fun x => P x.2 := by
  induction t with
  | named n => intro opt r h; exact h opt r (.refl _)
  | nonNull t ih => intro opt r h; exact ih (opt := false) h
  | list t ih =>
    intro opt r h
    unfold wrapOutput
    refine quietly_listImport.bind fun _ r1 q1 _ => ?_
    refine (ih (opt := true) fun o r2 q2 => h o r2 (q1.trans q2)).bind fun x r2 _ hx => ?_
    exact quietly_optionalWrap.bind fun e r3 _ he => .pure hx

theorem typeField_classes {P : List Stmt → Prop} {fd : FieldDef} {target : String}
    {leafG : String → Bool → Gen (Expr × List Stmt)} {r : Reg}
    (h : ∀ opt r1, Quiet r r1 → Quietly (leafG fd.type.base opt) r1 fun x => P x.2) :
    Quietly (typeField c fd target leafG) r fun x => P x.2 := by
  unfold typeField
  refine quietly_nodeName.bind fun fieldName r1 q1 hname => ?_
  refine (wrapOutput_classes fun o r2 q2 => h o r2 (q1.trans q2)).bind fun x r2 _ hx => ?_
  have hf : Quietly (finishField c fieldName target fd x.1) r2 fun _ => True := by
    unfold finishField
    refine quietly_annotateFieldMetadata.bind fun a r3 _ ha => ?_
    exact quietly_objectFieldValue.bind fun v r4 _ hv => .pure trivial
  exact hf.bind fun ss r3 _ hss => .pure hx

/-- `recurse_annotation` on a named type, given the walkers for its selection set -/
theorem namedNode_good {parent target : String} {sub : List Sel} {t : TypeNode} {opt : Bool}
    {objs : String → List FieldDef → String → Gen ObjectParts} {ifcs : List FieldDef → String → Gen InterfaceParts}
    {uns : Gen (List String × List Stmt)} (h : StateH c defs G K r) (hs : Inheritable c defs t sub)
    (hk : ∀ f, Spreads sub f → K f)
    (hobj : ∀ n fs is k r1, StateH c defs G K r1 → c.schema.lookup n = some (.object fs is) →
      ObjSpreadsK c.schema defs n sub → FieldHypH c defs (declaredIn fs) sub →
      Quietly (objs n fs k) r1 (ObjH c defs G K sub))
    (hifc : ∀ n fs is k r1, StateH c defs G K r1 → c.schema.lookup n = some (.interface fs is) →
      FieldHypH c defs (declaredIn fs) sub → InnerH c defs sub →
      Quietly (ifcs fs k) r1 (IfcH c defs G K fun _ => spreadsOf sub))
    (hun : ∀ r1, StateH c defs G K r1 → UnHypH c defs sub → Quietly uns r1 fun x => Good c defs G K x.2) :
    Quietly (namedNode c parent target sub objs ifcs uns t.base opt) r fun x => Good c defs G K x.2 := by
  unfold namedNode
  have hl : ∀ {e}, c.schema.types.get? t.base = some e → c.schema.lookup t.base = some e.defn := by
    intro e he; unfold Schema.lookup; rw [he]; rfl
  have hk' : ∀ f ∈ spreadsOf sub, K f := fun f hf => hk f (spreads_mem (mem_spreadsOf.1 hf))
  split
  · refine quietly_referenceScalar.bind fun x r1 _ hx => ?_
    exact quietly_optionalWrap.bind fun e r2 _ he => .pure .nil
  · refine quietly_referenceEnum.bind fun x r1 _ hx => ?_
    exact quietly_optionalWrap.bind fun e r2 _ he => .pure .nil
  · rename_i fs is d hg
    obtain ⟨h1, h2, h3⟩ := inheritable_object hs (hl hg)
    exact objectNode_good h hk' h2 fun k r1 q => hobj _ _ _ _ _ (h.quiet q) (hl hg) h1 h3
  · rename_i fs is d hg
    obtain ⟨h1, h2, h3⟩ := inheritable_interface hs (hl hg)
    exact interfaceNode_good h ⟨_, _, hl hg⟩ hk' h1 fun k r1 q => hifc _ _ _ _ _ (h.quiet q) (hl hg) h2 h3
  · rename_i ms _ hg
    exact unionNode_good (hun _ h (inheritable_union hs (hl hg)))
  · exact .fail

end

section
variable (c : Ctx) (defs : Dict FragDef) (G : String → String → Prop) (K : String → Prop)

mutual
theorem objectSel_good : ∀ (x : Sel) (r : Reg) (o : String) (fs : List FieldDef) (is : List String) (cls : String),
    StateH c defs G K r → c.schema.lookup o = some (.object fs is) → (∀ f, Spreads [x] f → K f) →
    ObjSpreadsK c.schema defs o [x] → FieldHypH c defs (declaredIn fs) [x] →
    Quietly (objectSel c o fs cls x) r (ObjH c defs G K [x])
  | .spread f, r, o, fs, is, cls, h, hl, hk, hs, _ => by
    unfold objectSel
    have hm : Sel.spread f ∈ [Sel.spread f] := List.mem_singleton.2 rfl
    exact (spreadBase_owned h (hk f (spreads_mem hm)) ⟨_, _, hl⟩ (hs f hm)).bind fun b _ _ hb =>
      .pure ⟨.nil, .cons hb .nil⟩
  | .inline _ _, r, o, fs, is, cls, _, _, _, _, _ => by
    unfold objectSel
    exact .fail
  | .field name al args sub, r, o, fs, is, cls, h, hl, hk, hs, hf => by
    unfold objectSel
    split
    · exact .pure ⟨.nil, .nil⟩
    · rename_i hn
      refine quietly_fieldNamed.bind fun fd r1 q1 hfd => ?_
      have hsup : Inheritable c defs fd.type sub :=
        hf name al args sub fd.type (List.mem_singleton.2 rfl) (by simpa using hn) ⟨fd, hfd.1, hfd.2, rfl⟩
      have hk' : ∀ f, Spreads sub f → K f := fun f hf => hk f (spreads_field (List.mem_singleton.2 rfl) hf)
      exact (typeField_classes fun opt r2 q2 => namedNode_good ((h.quiet q1).quiet q2) hsup hk'
        (fun n fs is k r3 h3 hl3 hs3 hf3 => objectSels_good sub r3 n fs is k h3 hl3 hk' hs3 hf3)
        (fun n fs is k r3 h3 hl3 hf3 hi3 => interfaceSels_good sub r3 fs k h3 hk' hf3 hi3)
        (fun r3 h3 hu3 => unionSels_good sub r3 cls h3 hk' hu3)).bind fun x r2 _ hx => .pure ⟨hx, .nil⟩
theorem objectSels_good : ∀ (sels : List Sel) (r : Reg) (o : String) (fs : List FieldDef) (is : List String)
    (cls : String), StateH c defs G K r → c.schema.lookup o = some (.object fs is) → (∀ f, Spreads sels f → K f) →
    ObjSpreadsK c.schema defs o sels → FieldHypH c defs (declaredIn fs) sels →
    Quietly (objectSels c o fs cls sels) r (ObjH c defs G K sels)
  | [], r, o, fs, is, cls, _, _, _, _, _ => by
    unfold objectSels
    exact .pure ⟨.nil, .nil⟩
  | x :: rest, r, o, fs, is, cls, h, hl, hk, hs, hf => by
    unfold objectSels
    have m1 : ∀ y ∈ [x], y ∈ x :: rest := fun y hy => by rw [List.mem_singleton.1 hy]; exact List.mem_cons_self ..
    have m2 : ∀ y ∈ rest, y ∈ x :: rest := fun y hy => List.mem_cons_of_mem _ hy
    refine (objectSel_good x r o fs is cls h hl (fun f hm => hk f (spreads_head hm)) (fun f hm => hs f (m1 _ hm))
      (hf.mono m1)).bind fun a r1 q1 ha => ?_
    refine (objectSels_good rest r1 o fs is cls (h.quiet q1) hl (fun f hm => hk f (.later _ _ _ hm))
      (fun f hm => hs f (m2 _ hm)) (hf.mono m2)).bind fun p r2 q2 hp => .pure (ha.append hp)
theorem interfaceSel_good : ∀ (x : Sel) (r : Reg) (fs : List FieldDef) (base : String), StateH c defs G K r →
    (∀ f, Spreads [x] f → K f) → FieldHypH c defs (declaredIn fs) [x] → InnerH c defs [x] →
    Quietly (interfaceSel c fs base x) r (IfcH c defs G K fun _ => spreadsOf [x])
  | .spread f, r, fs, base, h, hk, _, hi => by
    unfold interfaceSel
    have hm : Sel.spread f ∈ [Sel.spread f] := List.mem_singleton.2 rfl
    exact (spreadImplementations_owned h (hk f (spreads_mem hm))).bind fun bs _ _ hb => .pure ⟨.nil, hb⟩
  | .inline none _, r, fs, base, _, _, _, _ => by
    unfold interfaceSel
    exact .fail
  | .inline (some t) sub, r, fs, base, h, hk, _, hi => by
    unfold interfaceSel
    have hm : Sel.inline (some t) sub ∈ [Sel.inline (some t) sub] := List.mem_singleton.2 rfl
    have hreq : Quietly (requireObject c.schema t) r fun _ => IsObject c.schema t := by
      unfold requireObject
      split
      · rename_i fs' is' ht; exact .pure ⟨_, _, ht⟩
      · exact .fail
    refine hreq.bind fun _ r1 q1 ht => ?_
    exact (inlineSels_good sub r1 t base (h.quiet q1) ht (fun f hf => hk f (spreads_inline hm hf))
      (hi t sub hm)).bind fun x r2 _ hx => .pure (.noBases hx rfl)
  | .field name al args sub, r, fs, base, h, hk, hf, _ => by
    unfold interfaceSel
    split
    · exact .pure (.noBases .nil rfl)
    · rename_i hn
      refine quietly_fieldNamed.bind fun fd r1 q1 hfd => ?_
      have hsup : Inheritable c defs fd.type sub :=
        hf name al args sub fd.type (List.mem_singleton.2 rfl) (by simpa using hn) ⟨fd, hfd.1, hfd.2, rfl⟩
      have hk' : ∀ f, Spreads sub f → K f := fun f hf => hk f (spreads_field (List.mem_singleton.2 rfl) hf)
      exact (typeField_classes fun opt r2 q2 => namedNode_good ((h.quiet q1).quiet q2) hsup hk'
        (fun n fs is k r3 h3 hl3 hs3 hf3 => objectSels_good sub r3 n fs is k h3 hl3 hk' hs3 hf3)
        (fun n fs is k r3 h3 hl3 hf3 hi3 => interfaceSels_good sub r3 fs k h3 hk' hf3 hi3)
        (fun r3 h3 hu3 => unionSels_good sub r3 base h3 hk' hu3)).bind fun x r2 _ hx => .pure (.noBases hx rfl)
theorem interfaceSels_good : ∀ (sels : List Sel) (r : Reg) (fs : List FieldDef) (base : String),
    StateH c defs G K r → (∀ f, Spreads sels f → K f) → FieldHypH c defs (declaredIn fs) sels → InnerH c defs sels →
    Quietly (interfaceSels c fs base sels) r (IfcH c defs G K fun _ => spreadsOf sels)
  | [], r, fs, base, _, _, _, _ => by
    unfold interfaceSels
    exact .pure (.noBases .nil rfl)
  | x :: rest, r, fs, base, h, hk, hf, hi => by
    unfold interfaceSels
    have m1 : ∀ y ∈ [x], y ∈ x :: rest := fun y hy => by rw [List.mem_singleton.1 hy]; exact List.mem_cons_self ..
    have m2 : ∀ y ∈ rest, y ∈ x :: rest := fun y hy => List.mem_cons_of_mem _ hy
    refine (interfaceSel_good x r fs base h (fun f hm => hk f (spreads_head hm)) (hf.mono m1) (hi.mono m1)).bind
      fun a r1 q1 ha => ?_
    refine (interfaceSels_good rest r1 fs base (h.quiet q1) (fun f hm => hk f (.later _ _ _ hm)) (hf.mono m2)
      (hi.mono m2)).bind fun p r2 q2 hp => .pure (ha.append hp fun _ => spreadsOf_cons x rest)
theorem inlineSel_good : ∀ (x : Sel) (r : Reg) (o parent : String), StateH c defs G K r →
    IsObject c.schema o → (∀ f, Spreads [x] f → K f) → FieldHypH c defs (FieldType c.schema o) [x] →
    Quietly (inlineSel c o parent x) r fun x => Good c defs G K x.2
  | .spread f, r, o, parent, _, _, _, _ => by
    unfold inlineSel
    exact .pure .nil
  | .inline _ _, r, o, parent, _, _, _, _ => by
    unfold inlineSel
    exact .pure .nil
  | .field name al args sub, r, o, parent, h, ho, hk, hf => by
    unfold inlineSel
    split
    · exact .pure .nil
    · rename_i hn
      have hfd : Quietly (fieldDefOf c.schema o name) r fun fd => FieldType c.schema o name fd.type := by
        unfold fieldDefOf
        split
        · rename_i fd hg; exact .pure (getFieldDef_type ho hg)
        · exact .fail
      refine hfd.bind fun fd r1 q1 hfd => ?_
      have hsup : Inheritable c defs fd.type sub :=
        hf name al args sub fd.type (List.mem_singleton.2 rfl) (by simpa using hn) hfd
      have hk' : ∀ f, Spreads sub f → K f := fun f hf => hk f (spreads_field (List.mem_singleton.2 rfl) hf)
      exact typeField_classes fun opt r2 q2 => namedNode_good ((h.quiet q1).quiet q2) hsup hk'
        (fun n fs is k r3 h3 hl3 hs3 hf3 => objectSels_good sub r3 n fs is k h3 hl3 hk' hs3 hf3)
        (fun n fs is k r3 h3 hl3 hf3 hi3 => interfaceSels_good sub r3 fs k h3 hk' hf3 hi3)
        (fun r3 h3 hu3 => unionSels_good sub r3 parent h3 hk' hu3)
theorem inlineSels_good : ∀ (sels : List Sel) (r : Reg) (o parent : String), StateH c defs G K r →
    IsObject c.schema o → (∀ f, Spreads sels f → K f) → FieldHypH c defs (FieldType c.schema o) sels →
    Quietly (inlineSels c o parent sels) r fun x => Good c defs G K x.2
  | [], r, o, parent, _, _, _, _ => by
    unfold inlineSels
    exact .pure .nil
  | x :: rest, r, o, parent, h, ho, hk, hf => by
    unfold inlineSels
    have m1 : ∀ y ∈ [x], y ∈ x :: rest := fun y hy => by rw [List.mem_singleton.1 hy]; exact List.mem_cons_self ..
    have m2 : ∀ y ∈ rest, y ∈ x :: rest := fun y hy => List.mem_cons_of_mem _ hy
    refine (inlineSel_good x r o parent h ho (fun f hm => hk f (spreads_head hm)) (hf.mono m1)).bind
      fun a r1 q1 ha => ?_
    refine (inlineSels_good rest r1 o parent (h.quiet q1) ho (fun f hm => hk f (.later _ _ _ hm))
      (hf.mono m2)).bind fun p r2 q2 hp => .pure (ha.append hp)
theorem unionSel_good : ∀ (x : Sel) (r : Reg) (parent : String), StateH c defs G K r →
    (∀ f, Spreads [x] f → K f) → UnHypH c defs [x] → Quietly (unionSel c parent x) r fun x => Good c defs G K x.2
  | .spread f, r, parent, h, hk, hu => by
    unfold unionSel
    exact quietly_inheritFragment.bind fun n _ _ hn => .pure .nil
  | .inline none _, r, parent, _, _, _ => by
    unfold unionSel
    exact .fail
  | .inline (some t) sub, r, parent, h, hk, hu => by
    unfold unionSel
    have hmem : Sel.inline (some t) sub ∈ [Sel.inline (some t) sub] := List.mem_singleton.2 rfl
    have hk' : ∀ f, Spreads sub f → K f := fun f hf => hk f (spreads_inline hmem hf)
    refine (unionInlineSels_good sub r t (inlineClassName parent t) h hk'
      (fun f hm => hu.bases t sub f hmem hm) (hu.inner t sub hmem)).bind fun p r1 q1 hp => ?_
    exact (inlineClass_good (h.quiet q1) (fun f hf => hk' f (spreads_mem (mem_spreadsOf.1 hf)))
      (hu.unrelated t sub hmem) hp).bind fun ss r2 _ hss => .pure hss
  | .field _ _ _ _, r, parent, _, _, _ => by
    unfold unionSel
    exact .pure .nil
theorem unionSels_good : ∀ (sels : List Sel) (r : Reg) (parent : String), StateH c defs G K r →
    (∀ f, Spreads sels f → K f) → UnHypH c defs sels → Quietly (unionSels c parent sels) r fun x => Good c defs G K x.2
  | [], r, parent, _, _, _ => by
    unfold unionSels
    exact .pure .nil
  | x :: rest, r, parent, h, hk, hu => by
    unfold unionSels
    have m1 : ∀ y ∈ [x], y ∈ x :: rest := fun y hy => by rw [List.mem_singleton.1 hy]; exact List.mem_cons_self ..
    have m2 : ∀ y ∈ rest, y ∈ x :: rest := fun y hy => List.mem_cons_of_mem _ hy
    refine (unionSel_good x r parent h (fun f hm => hk f (spreads_head hm)) (hu.mono m1)).bind fun a r1 q1 ha => ?_
    refine (unionSels_good rest r1 parent (h.quiet q1) (fun f hm => hk f (.later _ _ _ hm)) (hu.mono m2)).bind
      fun p r2 q2 hp => .pure (ha.append hp)
theorem unionInlineSel_good : ∀ (x : Sel) (r : Reg) (o cls : String), StateH c defs G K r →
    (∀ f, Spreads [x] f → K f) →
    (∀ f, Sel.spread f ∈ [x] → ∃ d, defs.get? f = some d ∧ IsObject c.schema d.typeCondition) →
    FieldHypH c defs (FieldType c.schema o) [x] →
    Quietly (unionInlineSel c o cls x) r (ObjH c defs G K [x])
  | .spread f, r, o, cls, h, hk, hs, _ => by
    unfold unionInlineSel
    have hm : Sel.spread f ∈ [Sel.spread f] := List.mem_singleton.2 rfl
    exact (inlineSpreadBase_owned h (hk f (spreads_mem hm)) (hs f hm)).bind fun b _ _ hb =>
      .pure ⟨.nil, .cons hb .nil⟩
  | .inline _ _, r, o, cls, _, _, _, _ => by
    unfold unionInlineSel
    exact .pure ⟨.nil, .nil⟩
  | .field name al args sub, r, o, cls, h, hk, _, hf => by
    unfold unionInlineSel
    split
    · exact .pure ⟨.nil, .nil⟩
    · rename_i hn
      have hfd : Quietly (objectFieldNamed c.schema o name) r fun fd => FieldType c.schema o name fd.type := by
        unfold objectFieldNamed
        split
        · rename_i fs is hl
          refine quietly_fieldNamed.mono fun fd hfd => ?_
          rw [← hfd.2]
          exact .declared hl hfd.1
        · exact .fail
      refine hfd.bind fun fd r1 q1 hfd => ?_
      have hsup : Inheritable c defs fd.type sub :=
        hf name al args sub fd.type (List.mem_singleton.2 rfl) (by simpa using hn) hfd
      have hk' : ∀ f, Spreads sub f → K f := fun f hf => hk f (spreads_field (List.mem_singleton.2 rfl) hf)
      exact (typeField_classes fun opt r2 q2 => namedNode_good ((h.quiet q1).quiet q2) hsup hk'
        (fun n fs is k r3 h3 hl3 hs3 hf3 => objectSels_good sub r3 n fs is k h3 hl3 hk' hs3 hf3)
        (fun n fs is k r3 h3 hl3 hf3 hi3 => interfaceSels_good sub r3 fs k h3 hk' hf3 hi3)
        (fun r3 h3 hu3 => unionSels_good sub r3 cls h3 hk' hu3)).bind fun x r2 _ hx => .pure ⟨hx, .nil⟩
theorem unionInlineSels_good : ∀ (sels : List Sel) (r : Reg) (o cls : String), StateH c defs G K r →
    (∀ f, Spreads sels f → K f) →
    (∀ f, Sel.spread f ∈ sels → ∃ d, defs.get? f = some d ∧ IsObject c.schema d.typeCondition) →
    FieldHypH c defs (FieldType c.schema o) sels →
    Quietly (unionInlineSels c o cls sels) r (ObjH c defs G K sels)
  | [], r, o, cls, _, _, _, _ => by
    unfold unionInlineSels
    exact .pure ⟨.nil, .nil⟩
  | x :: rest, r, o, cls, h, hk, hs, hf => by
    unfold unionInlineSels
    have m1 : ∀ y ∈ [x], y ∈ x :: rest := fun y hy => by rw [List.mem_singleton.1 hy]; exact List.mem_cons_self ..
    have m2 : ∀ y ∈ rest, y ∈ x :: rest := fun y hy => List.mem_cons_of_mem _ hy
    refine (unionInlineSel_good x r o cls h (fun f hm => hk f (spreads_head hm)) (fun f hm => hs f (m1 _ hm))
      (hf.mono m1)).bind fun a r1 q1 ha => ?_
    refine (unionInlineSels_good rest r1 o cls (h.quiet q1) (fun f hm => hk f (.later _ _ _ hm))
      (fun f hm => hs f (m2 _ hm)) (hf.mono m2)).bind fun p r2 q2 hp => .pure (ha.append hp)
end

/-- `type_field_node` -/
theorem typeFieldNode_good {r : Reg} {parent name : String} {al : Option String} {fd : FieldDef} {sub : List Sel}
    (h : StateH c defs G K r) (hk : ∀ f, Spreads sub f → K f) (hs : Inheritable c defs fd.type sub) :
    Quietly (typeFieldNode c parent fd name al sub) r fun x => Good c defs G K x.2 := by
  unfold typeFieldNode recurseNamed
  exact typeField_classes fun opt r2 q2 => namedNode_good (h.quiet q2) hs hk
    (fun n fs is k r3 h3 hl3 hs3 hf3 => objectSels_good c defs G K sub r3 n fs is k h3 hl3 hk hs3 hf3)
    (fun n fs is k r3 h3 hl3 hf3 hi3 => interfaceSels_good c defs G K sub r3 fs k h3 hk hf3 hi3)
    (fun r3 h3 hu3 => unionSels_good c defs G K sub r3 parent h3 hk hu3)

end
end Turms
