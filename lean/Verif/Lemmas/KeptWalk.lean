import Verif.Lemmas.Kept

/-! # Generated response models keep what is asked for: spreads and composite nodes -/

namespace Turms
open Spec

/-- the standing assumptions about the schema and the module -/
structure ModuleK (c : Ctx) (T : List Stmt) : Prop where
  unique : UniqueClasses T
  aliases : UniqueAliases T
  bases : ∀ b, ConfiguredBase c b → ¬ IsClass T (lastComponent b)
  valid : ValidImplementations c.schema
  nodup : c.schema.types.keys.Nodup
  once : FieldsOnce c.schema

/-- a table with a class for every possible type -/
structure TableK (c : Ctx) (defs : Dict FragDef) (T : List Stmt) (W : Reading) (d : FragDef) (m : Dict String) : Prop where
  all : ∀ o, Possible c.schema d.typeCondition o → ∃ cls, m.get? o = some cls
  models : ∀ o cls, (o, cls) ∈ m → Possible c.schema d.typeCondition o ∧ Models c defs T W o d.typeCondition d.sels cls

/-- what the registry knows about the generated fragment `f` is right -/
structure FragK (c : Ctx) (defs : Dict FragDef) (T : List Stmt) (W : Reading) (r : Reg) (f : String) (d : FragDef) : Prop where
  defined : defs.get? f = some d
  typed : r.fragmentTypeMap.get? f = some d.typeCondition
  named : ∃ cls, r.fragmentMap.get? f = some cls ∧ Kind.fragment.style c.env f = .ok cls
  members : ∀ m, r.unionFragmentMembers.get? f = some m → TableK c defs T W d m
  interface : IsInterface c.schema d.typeCondition → ∃ m, r.interfaceFragmentImpl.get? f = some m ∧ TableK c defs T W d m
  other : ¬ IsInterface c.schema d.typeCondition → r.interfaceFragmentImpl.get? f = none
  object : IsObject c.schema d.typeCondition → ∀ cls, r.fragmentMap.get? f = some cls →
    Models c defs T W d.typeCondition d.typeCondition d.sels cls
  single : ¬ IsInterface c.schema d.typeCondition → ∀ cls, r.fragmentMap.get? f = some cls →
    (∀ o, Possible c.schema d.typeCondition o → ∃ m, Member T (.name cls) m ∧ IsFor T m o) ∧
    ∀ m o, Member T (.name cls) m → IsFor T m o →
      Possible c.schema d.typeCondition o ∧ Models c defs T W o d.typeCondition d.sels m
  classes : ¬ IsInterface c.schema d.typeCondition → ∀ cls, r.fragmentMap.get? f = some cls →
    ByClass T (.name cls) ∧ ∀ m, Member T (.name cls) m → ∃ o, IsFor T m o
  apart : ∀ o, Possible c.schema d.typeCondition o → Apart c defs o d.sels

/-- everything known about the state in which a selection is generated; `K` are the fragments generated before -/
structure StateK (c : Ctx) (defs : Dict FragDef) (T : List Stmt) (W : Reading) (K : String → Prop) (r : Reg) : Prop where
  module_ : ModuleK c T
  scalars : r.scalarMap = W.scalars
  frags : ∀ f, K f → ∃ d, FragK c defs T W r f d

section
variable {c : Ctx} {defs : Dict FragDef} {T : List Stmt} {W : Reading} {pt : String} {K : String → Prop} {r : Reg}

theorem FragK.of_tables {r' : Reg} {f : String} {d : FragDef} (h : FragK c defs T W r f d)
    (h1 : r'.fragmentMap.get? f = r.fragmentMap.get? f)
    (h2 : r'.fragmentTypeMap.get? f = r.fragmentTypeMap.get? f)
    (h3 : r'.interfaceFragmentImpl.get? f = r.interfaceFragmentImpl.get? f)
    (h4 : r'.unionFragmentMembers.get? f = r.unionFragmentMembers.get? f) : FragK c defs T W r' f d := by
  refine ⟨h.defined, ?_, ?_, ?_, ?_, ?_, ?_, ?_, ?_, h.apart⟩
  · rw [h2]; exact h.typed
  · rw [h1]; exact h.named
  · rw [h4]; exact h.members
  · rw [h3]; exact h.interface
  · rw [h3]; exact h.other
  · rw [h1]; exact h.object
  · rw [h1]; exact h.single
  · rw [h1]; exact h.classes

theorem StateK.same {r' : Reg} (h : StateK c defs T W K r) (q : SameFragments r r') : StateK c defs T W K r' := by
  obtain ⟨h0, h1, h2, h3, h4⟩ := q
  refine ⟨h.module_, h0.trans h.scalars, fun f hf => ?_⟩
  obtain ⟨d, hd⟩ := h.frags f hf
  exact ⟨d, hd.of_tables (by rw [h1]) (by rw [h2]) (by rw [h3]) (by rw [h4])⟩

theorem StateK.quiet {r' : Reg} (h : StateK c defs T W K r) (q : Quiet r r') : StateK c defs T W K r' :=
  h.same (.of_quiet q)

theorem StateK.frag {f : String} {d : FragDef} (h : StateK c defs T W K r) (hk : K f) (hd : defs.get? f = some d) :
    FragK c defs T W r f d := by
  obtain ⟨d', hd'⟩ := h.frags f hk
  have := hd'.defined
  rw [hd] at this
  cases this
  exact hd'

theorem ModuleK.additional (h : ModuleK c T) {n : String} :
    ∀ x ∈ (c.config.additionalBases.get? n).getD [], ¬ IsClass T (lastComponent x) := by
  intro x hx
  cases ha : c.config.additionalBases.get? n with
  | none => rw [ha] at hx; cases hx
  | some l => rw [ha] at hx; exact h.bases x (.inr (.inr ⟨n, l, ha, hx⟩))

theorem ModuleK.objectBases (h : ModuleK c T) :
    ∀ x ∈ c.config.objectBases, ¬ IsClass T (lastComponent x) := fun x hx => h.bases x (.inl hx)

theorem ModuleK.interfaceBases (h : ModuleK c T) :
    ∀ x ∈ interfaceBaseList c, ¬ IsClass T (lastComponent x) := by
  intro x hx
  unfold interfaceBaseList at hx
  split at hx
  · exact h.bases x (.inl hx)
  · exact h.bases x (.inr (.inl hx))

theorem declared_baseNames {l : List String} {b : String} {st : Stmt}
    (hl : ∀ x ∈ l, ¬ IsClass T (lastComponent x)) (hb : Expr.name b ∈ baseNames l) : ¬ Declared T b st := by
  unfold baseNames at hb
  obtain ⟨x, hx, he⟩ := List.mem_map.1 hb
  cases he
  exact declared_external (hl x hx)

/-! ## parts of classes -/

/-- body and bases contributed by selections on objects of type `o` -/
structure PartsK (c : Ctx) (defs : Dict FragDef) (T : List Stmt) (W : Reading) (o pt : String) (sels : List Sel)
    (body : List Stmt) (bases : List String) : Prop where
  own : ∀ st ∈ body, Own c defs T W o pt sels st
  tagged : ∀ b ∈ bases, Declared T b (typenameStmt c o)
  only : ∀ b ∈ bases, ∀ st, Declared T b st → Src c defs T W o pt sels st
  all : ∀ key name sub, Picks c.schema defs o sels key name sub → name ≠ "__typename" →
    (∃ st ∈ body, Keys st key) ∨ ∃ b ∈ bases, ∃ st, Declared T b st ∧ Keys st key

theorem PartsK.append {o : String} {x : Sel} {rest : List Sel} {b1 b2 body : List Stmt} {l1 l2 bases : List String}
    (h1 : PartsK c defs T W o pt [x] b1 l1) (h2 : PartsK c defs T W o pt rest b2 l2)
    (hb : ∀ st, st ∈ body ↔ st ∈ b1 ∨ st ∈ b2) (hl : ∀ b, b ∈ bases ↔ b ∈ l1 ∨ b ∈ l2) :
    PartsK c defs T W o pt (x :: rest) body bases := by
  have m1 : ∀ key name sub t, PicksAt c.schema defs o pt [x] key name sub t →
      PicksAt c.schema defs o pt (x :: rest) key name sub t :=
    fun _ _ _ _ p => picksAt_mono p fun y hy => by rw [List.mem_singleton.1 hy]; exact List.mem_cons_self ..
  have m2 : ∀ key name sub t, PicksAt c.schema defs o pt rest key name sub t →
      PicksAt c.schema defs o pt (x :: rest) key name sub t :=
    fun _ _ _ _ p => picksAt_mono p fun y hy => List.mem_cons_of_mem _ hy
  refine ⟨fun st hst => ?_, fun b hb' => ?_, fun b hb' st hd => ?_, fun key name sub hp hn => ?_⟩
  · exact ((hb st).1 hst).elim (fun h => (h1.own st h).imp m1) fun h => (h2.own st h).imp m2
  · exact ((hl b).1 hb').elim (h1.tagged b) (h2.tagged b)
  · exact ((hl b).1 hb').elim (fun h => (h1.only b h st hd).imp m1) fun h => (h2.only b h st hd).imp m2
  · rcases picks_cons hp with hp | hp
    · rcases h1.all key name sub hp hn with ⟨st, g1, g2⟩ | ⟨b, g1, g2⟩
      · exact .inl ⟨st, (hb st).2 (.inl g1), g2⟩
      · exact .inr ⟨b, (hl b).2 (.inl g1), g2⟩
    · rcases h2.all key name sub hp hn with ⟨st, g1, g2⟩ | ⟨b, g1, g2⟩
      · exact .inl ⟨st, (hb st).2 (.inr g1), g2⟩
      · exact .inr ⟨b, (hl b).2 (.inr g1), g2⟩

/-- nothing is contributed where nothing is selected -/
theorem PartsK.empty {o : String} {sels : List Sel}
    (h : ∀ key name sub, Picks c.schema defs o sels key name sub → name = "__typename") :
    PartsK c defs T W o pt sels [] [] :=
  ⟨by simp, by simp, by simp, fun key name sub hp hn => (hn (h key name sub hp)).elim⟩

theorem PartsK.nil {o : String} : PartsK c defs T W o pt [] [] [] := .empty fun _ _ _ h => (picks_nil h).elim

theorem PartsK.typename {o : String} {al : Option String} {args : List (String × Value)} {sub : List Sel} {name : String}
    (hn : (name == "__typename") = true) : PartsK c defs T W o pt [.field name al args sub] [] [] :=
  .empty fun _ _ _ h => by rw [(picks_single_field h).2.1]; simpa using hn

/-- a fragment class contributes the fragment's fields -/
theorem PartsK.of_models {o f cls : String} {d : FragDef} (hm : Models c defs T W o d.typeCondition d.sels cls)
    (hd : defs.get? f = some d) (hp : Possible c.schema d.typeCondition o) :
    PartsK c defs T W o pt [.spread f] [] [cls] := by
  refine ⟨by simp, fun b hb => ?_, fun b hb st hs => ?_, fun key name sub hpk hn => ?_⟩
  · rw [List.mem_singleton.1 hb]; exact hm.tag
  · rw [List.mem_singleton.1 hb] at hs
    exact (hm.only st hs).imp fun _ _ _ _ p => .spread (List.mem_singleton.2 rfl) hd hp p
  · obtain ⟨d', hd', _, hp'⟩ := picks_single_spread hpk
    rw [hd] at hd'
    cases hd'
    exact .inr ⟨cls, List.mem_singleton.2 rfl, hm.all _ _ _ hp' hn⟩

/-- the statements of one field -/
theorem FieldStmts.parts {name : String} {al : Option String} {args : List (String × Value)} {sub : List Sel}
    {t t' : TypeNode} {ss : List Stmt} {o : String} (h : FieldStmts c defs T W (al.getD name) t sub ss)
    (hn : name ≠ "__typename") (hp : FieldAt c.schema pt name t) (ht : FieldType c.schema o name t')
    (hsub : ∀ o', Possible c.schema t'.base o' → Possible c.schema t.base o') :
    PartsK c defs T W o pt [.field name al args sub] ss [] :=
  ⟨h.own hn hp ht hsub, by simp, by simp, fun _ _ _ hp _ => .inl (h.all hp)⟩

/-- parts of an inline fragment that applies -/
theorem PartsK.inline {o : String} {inner : List Sel} {body : List Stmt} {bases : List String}
    (h : PartsK c defs T W o o inner body bases) (ho : IsObject c.schema o) :
    PartsK c defs T W o pt [.inline (some o) inner] body bases := by
  have hm : ∀ key name sub t, PicksAt c.schema defs o o inner key name sub t →
      PicksAt c.schema defs o pt [.inline (some o) inner] key name sub t :=
    fun _ _ _ _ p => .inline (List.mem_singleton.2 rfl) (.object ho) p
  exact ⟨fun st hst => (h.own st hst).imp hm, h.tagged, fun b hb st hd => (h.only b hb st hd).imp hm,
    fun key name sub hp hn => h.all key name sub (picks_single_inline hp).2 hn⟩

/-- a class with such parts models the selections -/
theorem PartsK.models (hu : UniqueClasses T) {o n : String} {sels : List Sel} {body body' : List Stmt}
    {bases : List String} {bs : List Expr} {ds : List Expr} (h : PartsK c defs T W o pt sels body bases)
    (hc : Stmt.classDef n bs body' ds ∈ T)
    (hbs : ∀ b, Expr.name b ∈ bs → b ∈ bases ∨ ∀ st, Declared T b st → Src c defs T W o pt sels st)
    (hbs' : ∀ b ∈ bases, Expr.name b ∈ bs)
    (hbody : ∀ st ∈ body', st ∈ body ∨ st = typenameStmt c o ∨ fieldOf st = none)
    (hbody' : ∀ st ∈ body, st ∈ body' ∨ ∃ b, Expr.name b ∈ bs ∧ Declared T b st)
    (ht : typenameStmt c o ∈ body' ∨ bases ≠ []) : Models c defs T W o pt sels n := by
  refine models_class hu hc ?_ ?_ ?_ ?_
  · rcases ht with ht | ht
    · exact .inl ht
    · cases hb : bases with
      | nil => exact (ht hb).elim
      | cons b l =>
        have : b ∈ bases := by rw [hb]; exact List.mem_cons_self ..
        exact .inr ⟨b, hbs' b this, h.tagged b this⟩
  · intro b hb st hd
    rcases hbs b hb with hb | hb
    · exact h.only b hb st hd
    · exact hb st hd
  · intro st hst
    rcases hbody st hst with h1 | h1 | h1
    · exact .inr (h.own st h1)
    · exact .inl h1
    · exact .inr (own_none h1)
  · intro key name sub hp hn
    rcases h.all key name sub hp hn with ⟨st, h1, h2⟩ | ⟨b, h1, st, h2, h3⟩
    · rcases hbody' st h1 with h1 | ⟨b, h1, h3⟩
      · exact .inl ⟨st, h1, h2⟩
      · exact .inr ⟨b, st, h1, h3, h2⟩
    · exact .inr ⟨b, st, hbs' b h1, h2, h3⟩

/-! ## what the walkers are to establish -/

/-- for the selections of an object -/
def ObjK (c : Ctx) (defs : Dict FragDef) (T : List Stmt) (W : Reading) (o : String) (sels : List Sel) (p : ObjectParts) : Prop :=
  (∀ st ∈ p.classes, st ∈ T) → PartsK c defs T W o o sels p.body p.bases

/-- the declarations for the fields selected on an interface itself -/
structure BodyK (c : Ctx) (defs : Dict FragDef) (T : List Stmt) (W : Reading) (n : String) (sels : List Sel)
    (body : List Stmt) : Prop where
  only : ∀ st ∈ body, ∀ f, fieldOf st = some f → ∃ name al args sub t attr, Sel.field name al args sub ∈ sels ∧
    name ≠ "__typename" ∧ FieldAt c.schema n name t ∧ f.key = al.getD name ∧ attrOf st = some attr ∧
    generateNodeName c.env.stylers f.key = .ok attr ∧ Fitting c defs T W t sub f
  all : ∀ name al args sub, Sel.field name al args sub ∈ sels → name ≠ "__typename" →
    ∃ st ∈ body, Keys st (al.getD name)

/-- for the selections of an interface -/
def IfcK (c : Ctx) (defs : Dict FragDef) (T : List Stmt) (W : Reading) (n : String) (sels : List Sel) (p : InterfaceParts) : Prop :=
  (∀ st ∈ p.classes, st ∈ T) → (∀ o, Possible c.schema n o →
    PartsK c defs T W o n sels (p.body ++ p.bodyFor o) (p.basesFor o)) ∧ BodyK c defs T W n sels p.body

/-- for the selections of an inline fragment on an interface -/
def InlK (c : Ctx) (defs : Dict FragDef) (T : List Stmt) (W : Reading) (o : String) (sels : List Sel) (x : List Stmt × List Stmt) :
    Prop := (∀ st ∈ x.2, st ∈ T) → PartsK c defs T W o o sels x.1 []

/-- for the selections of a union -/
def UnK (c : Ctx) (defs : Dict FragDef) (T : List Stmt) (W : Reading) (sels : List Sel) (x : List String × List Stmt) : Prop :=
  (∀ st ∈ x.2, st ∈ T) →
    (∀ o y, IsObject c.schema o → y ∈ sels → Applies c.schema defs o y →
      ∃ n ∈ x.1, ∃ m, Member T (.name n) m ∧ IsFor T m o) ∧
    (∀ n m o, n ∈ x.1 → Member T (.name n) m → IsFor T m o →
      ∃ y ∈ sels, Applies c.schema defs o y ∧ Apart c defs o [y] ∧ ∀ pt, Models c defs T W o pt [y] m) ∧
    ∀ n ∈ x.1, ByClass T (.name n) ∧ ∀ m, Member T (.name n) m → ∃ o, IsFor T m o

/-! ## hypotheses on the selections -/

/-- the fields selected; `ft name t` says that `name` has type `t` -/
def FieldHypK (c : Ctx) (defs : Dict FragDef) (ft : String → TypeNode → Prop) (sels : List Sel) : Prop :=
  ∀ name alias args sub t, Sel.field name alias args sub ∈ sels → name ≠ "__typename" → ft name t →
    Keepable c defs t sub

/-- the spreads in an object -/
def ObjSpreadsK (s : Schema) (defs : Dict FragDef) (o : String) (sels : List Sel) : Prop :=
  ∀ f, Sel.spread f ∈ sels → ∃ d, defs.get? f = some d ∧
    (d.typeCondition = o ∨ (IsInterface s d.typeCondition ∧ Possible s d.typeCondition o))

/-- the spreads and inline fragments in an interface -/
structure IfcHypK (c : Ctx) (defs : Dict FragDef) (sels : List Sel) : Prop where
  spreads : ∀ f, Sel.spread f ∈ sels → ∃ d, defs.get? f = some d ∧
    (IsObject c.schema d.typeCondition ∨ IsInterface c.schema d.typeCondition)
  plain : ∀ o inner x, Sel.inline (some o) inner ∈ sels → x ∈ inner → IsField x
  inner : ∀ o inner, Sel.inline (some o) inner ∈ sels → FieldHypK c defs (FieldType c.schema o) inner

/-- the fragments in a union -/
structure UnHypK (c : Ctx) (defs : Dict FragDef) (sels : List Sel) : Prop where
  spreads : ∀ f, Sel.spread f ∈ sels → ∃ d, defs.get? f = some d ∧ ¬ IsInterface c.schema d.typeCondition
  objects : ∀ o inner, Sel.inline (some o) inner ∈ sels → IsObject c.schema o
  bases : ∀ o inner f, Sel.inline (some o) inner ∈ sels → Sel.spread f ∈ inner →
    ∃ d, defs.get? f = some d ∧ d.typeCondition = o
  flat : ∀ o inner x, Sel.inline (some o) inner ∈ sels → x ∈ inner → ¬ IsInline x
  apart : ∀ o inner, Sel.inline (some o) inner ∈ sels → Apart c defs o inner
  inner : ∀ o inner, Sel.inline (some o) inner ∈ sels → FieldHypK c defs (FieldType c.schema o) inner

theorem keepable_object {t : TypeNode} {sels : List Sel} {fs is} (h : Keepable c defs t sels)
    (hl : c.schema.lookup t.base = some (.object fs is)) :
    ObjSpreadsK c.schema defs t.base sels ∧ Apart c defs t.base sels ∧ FieldHypK c defs (declaredIn fs) sels := by
  cases h with
  | leaf h => rcases h with h | ⟨_, h⟩ <;> rw [h] at hl <;> cases hl
  | object h1 h2 h3 h4 =>
    rw [h1] at hl; cases hl
    refine ⟨h2, h3, ?_⟩
    rintro name alias args sub t hm hn ⟨fd, h5, h6, rfl⟩
    exact h4 name alias args sub fd hm hn h5 h6
  | interface h1 => rw [h1] at hl; cases hl
  | union h1 => rw [h1] at hl; cases hl

theorem keepable_interface {t : TypeNode} {sels : List Sel} {fs is} (h : Keepable c defs t sels)
    (hl : c.schema.lookup t.base = some (.interface fs is)) :
    (∀ o, Possible c.schema t.base o → Apart c defs o sels) ∧
      FieldHypK c defs (declaredIn fs) sels ∧ IfcHypK c defs sels := by
  cases h with
  | leaf h => rcases h with h | ⟨_, h⟩ <;> rw [h] at hl <;> cases hl
  | object h1 => rw [h1] at hl; cases hl
  | interface h1 h2 h3 h4 h5 h6 =>
    rw [h1] at hl; cases hl
    refine ⟨h4, ?_, h2, h3, ?_⟩
    · rintro name alias args sub t hm hn ⟨fd, h7, h8, rfl⟩
      exact h5 name alias args sub fd hm hn h7 h8
    · intro o inner hm name alias args sub t hi hn ht
      exact h6 o inner name alias args sub t hm hi hn ht
  | union h1 => rw [h1] at hl; cases hl

/-- what is needed of the selections of a union as a whole -/
structure UnWhole (c : Ctx) (defs : Dict FragDef) (n : String) (ms : List String) (sels : List Sel) : Prop where
  typename : ∀ name alias args sub, Sel.field name alias args sub ∈ sels → name = "__typename"
  covered : ∀ o ∈ ms, ∃ x ∈ sels, Applies c.schema defs o x
  single : ∀ o ∈ ms, ∀ x ∈ sels, ∀ y ∈ sels, Applies c.schema defs o x → Applies c.schema defs o y → x = y
  apart : ∀ o, Possible c.schema n o → Apart c defs o sels

theorem keepable_union {t : TypeNode} {sels : List Sel} {ms} (h : Keepable c defs t sels)
    (hl : c.schema.lookup t.base = some (.union ms)) :
    UnWhole c defs t.base ms sels ∧ UnHypK c defs sels := by
  cases h with
  | leaf h => rcases h with h | ⟨_, h⟩ <;> rw [h] at hl <;> cases hl
  | object h1 => rw [h1] at hl; cases hl
  | interface h1 => rw [h1] at hl; cases hl
  | union h1 h2 h3 h4 h5 h6 h7 h8 h9 h10 =>
    rw [h1] at hl; cases hl
    refine ⟨⟨h2, h3, h4, h9⟩, h5, fun o inner hm => possible_isObject (h6 o inner hm), h7, h8, fun o inner hm =>
      (h9 o (h6 o inner hm)).imp fun _ _ _ p => .inline hm (.object (possible_isObject (h6 o inner hm))) p, ?_⟩
    intro o inner hm name alias args sub t hi hn ht
    exact h10 o inner name alias args sub t hm hi hn ht

/-! ## single spreads -/

/-- the class of a fragment that applies to the object type -/
theorem object_or_interface {f o : String} {d : FragDef} (hf : FragK c defs T W r f d) (ho : IsObject c.schema o)
    (hc : d.typeCondition = o ∨ (IsInterface c.schema d.typeCondition ∧ Possible c.schema d.typeCondition o)) :
    Possible c.schema d.typeCondition o ∧
    ((r.interfaceFragmentImpl.get? f = none ∧ ¬ IsInterface c.schema d.typeCondition ∧
      ∀ cls, r.fragmentMap.get? f = some cls → Models c defs T W o d.typeCondition d.sels cls) ∨
    ∃ m cls, r.interfaceFragmentImpl.get? f = some m ∧ m.get? o = some cls ∧ Models c defs T W o d.typeCondition d.sels cls) := by
  rcases hc with rfl | ⟨hi, hp⟩
  · have hni := not_interface_of_object ho
    exact ⟨.object ho, .inl ⟨hf.other hni, hni, hf.object ho⟩⟩
  · obtain ⟨m, hm, ht⟩ := hf.interface hi
    obtain ⟨cls, hcls⟩ := ht.all o hp
    exact ⟨hp, .inr ⟨m, cls, hm, hcls, (ht.models o cls (Dict.mem_of_get? hcls)).2⟩⟩

theorem spreadBase_keeps {f o : String} (h : StateK c defs T W K r) (hk : K f) (ho : IsObject c.schema o)
    (hs : ∃ d, defs.get? f = some d ∧
      (d.typeCondition = o ∨ (IsInterface c.schema d.typeCondition ∧ Possible c.schema d.typeCondition o))) :
    Quietly (spreadBase f o) r fun b => PartsK c defs T W o pt [.spread f] [] [b] := by
  obtain ⟨d, hd, hc⟩ := hs
  have hf := h.frag hk hd
  obtain ⟨hp, hc⟩ := object_or_interface hf ho hc
  intro b r' hb
  unfold spreadBase at hb
  obtain ⟨i, r1, h1, h2⟩ := Gen.bind_ok.1 hb
  unfold getInterfaceFragmentImplementationOrNone at h1
  rcases hc with ⟨hno, _, hm⟩ | ⟨m, cls, hm, hcls, hmod⟩
  · rw [hno] at h1
    cases h1
    obtain ⟨q, hcl⟩ := quietly_inheritFragment _ _ h2
    exact ⟨q, .of_models (hm _ hcl) hd hp⟩
  · rw [hm] at h1
    dsimp only at h1
    rw [hcls] at h1
    cases h1
    obtain ⟨rfl, rfl⟩ := Gen.pure_ok.1 h2
    exact ⟨.refl _, .of_models hmod hd hp⟩

/-- a selection set that consists of one spread and `__typename` -/
theorem picks_collapsed {o f key name : String} {sub sels : List Sel} (h : nonTypenameFields sels = [.spread f])
    (hp : Picks c.schema defs o sels key name sub) (hn : name ≠ "__typename") :
    Picks c.schema defs o [.spread f] key name sub := by
  obtain ⟨x, hx, hp⟩ := picks_from hp
  have : x ∈ nonTypenameFields sels := by
    refine List.mem_filter.2 ⟨hx, ?_⟩
    cases x with
    | spread => rfl
    | inline => rfl
    | field n a g s =>
      have := (picks_single_field hp).2.1
      subst this
      simpa [Sel.isTypenameField] using hn
  rw [h] at this
  rw [List.mem_singleton.1 this] at hp
  exact hp

/-- a class for a fragment is one for the selections that collapse to it -/
theorem Models.collapse {o f cls : String} {d : FragDef} {sels : List Sel} (hm : Models c defs T W o d.typeCondition d.sels cls)
    (hd : defs.get? f = some d) (hp : Possible c.schema d.typeCondition o)
    (h : nonTypenameFields sels = [.spread f]) : Models c defs T W o pt sels cls := by
  refine ⟨hm.cls, hm.tag, fun st hs => (hm.only st hs).imp fun _ _ _ _ p => .spread (mem_nonTypename h) hd hp p, ?_⟩
  intro key name sub hpk hn
  obtain ⟨d', hd', _, hp'⟩ := picks_single_spread (picks_collapsed h hpk hn)
  rw [hd] at hd'
  cases hd'
  exact hm.all _ _ _ hp' hn

theorem collapseReference_keeps {parent f o : String} {sels : List Sel} (h : StateK c defs T W K r) (hk : K f)
    (ho : IsObject c.schema o) (hs : ∃ d, defs.get? f = some d ∧
      (d.typeCondition = o ∨ (IsInterface c.schema d.typeCondition ∧ Possible c.schema d.typeCondition o)))
    (hcol : nonTypenameFields sels = [.spread f]) :
    Quietly (collapseReference c parent f o) r fun e =>
      ∃ cls, Models c defs T W o pt sels cls ∧ (e = .name cls ∨ e = .const (.str cls)) := by
  obtain ⟨d, hd, hc⟩ := hs
  have hf := h.frag hk hd
  obtain ⟨hp, hc⟩ := object_or_interface hf ho hc
  intro e r' hb
  unfold collapseReference at hb
  obtain ⟨i, r1, h1, h2⟩ := Gen.bind_ok.1 hb
  unfold getInterfaceFragmentImplementationOrNone at h1
  rcases hc with ⟨hno, hni, hm⟩ | ⟨m, cls, hm, hcls, hmod⟩
  · rw [hno] at h1
    cases h1
    obtain ⟨q, cl, hst, he⟩ := quietly_referenceFragment _ _ h2
    obtain ⟨cls, hcl, hst'⟩ := hf.named
    rw [hst] at hst'
    cases hst'
    have hmod := hm _ hcl
    exact ⟨q, cl, hmod.collapse hd hp hcol, he⟩
  · rw [hm] at h1
    dsimp only at h1
    rw [hcls] at h1
    cases h1
    obtain ⟨rfl, rfl⟩ := Gen.pure_ok.1 h2
    exact ⟨.refl _, _, hmod.collapse hd hp hcol, .inl rfl⟩

theorem mem_basesOf {bs : List (String × String)} {o b : String} :
    b ∈ (bs.filter fun q => q.1 == o).map (·.2) ↔ (o, b) ∈ bs := by
  constructor
  · intro h
    obtain ⟨⟨o', b'⟩, h1, rfl⟩ := List.mem_map.1 h
    obtain ⟨h2, he⟩ := List.mem_filter.1 h1
    cases eq_of_beq he
    exact h2
  · intro h
    exact List.mem_map.2 ⟨(o, b), List.mem_filter.2 ⟨h, by simp⟩, rfl⟩

/-- a table of classes contributes the fragment's fields to every type -/
theorem TableK.parts {f o : String} {d : FragDef} {m : Dict String} (h : TableK c defs T W d m)
    (hd : defs.get? f = some d) :
    PartsK c defs T W o pt [.spread f] [] ((List.filter (fun q => q.1 == o) m).map (·.2)) := by
  refine ⟨by simp, fun b hb => ?_, fun b hb st hs => ?_, fun key name sub hp hn => ?_⟩
  · exact (h.models o b (mem_basesOf.1 hb)).2.tag
  · obtain ⟨h1, h2⟩ := h.models o b (mem_basesOf.1 hb)
    exact (h2.only st hs).imp fun _ _ _ _ p => .spread (List.mem_singleton.2 rfl) hd h1 p
  · obtain ⟨d', hd', h1, h2⟩ := picks_single_spread hp
    rw [hd] at hd'
    cases hd'
    obtain ⟨cls, hcls⟩ := h.all o h1
    have := Dict.mem_of_get? hcls
    exact .inr ⟨cls, mem_basesOf.2 this, (h.models o cls this).2.all _ _ _ h2 hn⟩

theorem spreadImplementations_keeps {f : String} (h : StateK c defs T W K r) (hk : K f)
    (hs : ∃ d, defs.get? f = some d ∧ (IsObject c.schema d.typeCondition ∨ IsInterface c.schema d.typeCondition)) :
    Quietly (spreadImplementations f) r fun bs => ∀ o, IsObject c.schema o →
      PartsK c defs T W o pt [.spread f] [] ((bs.filter fun q => q.1 == o).map (·.2)) := by
  obtain ⟨d, hd, hc⟩ := hs
  have hf := h.frag hk hd
  intro bs r' hb
  unfold spreadImplementations at hb
  split at hb
  · rename_i m hm
    cases hb
    refine ⟨.refl _, fun o _ => ?_⟩
    have hi : IsInterface c.schema d.typeCondition := Classical.byContradiction fun hi => by
      rw [hf.other hi] at hm; cases hm
    obtain ⟨m', hm', ht⟩ := hf.interface hi
    rw [hm] at hm'
    cases hm'
    exact ht.parts hd
  · rename_i hm
    split at hb
    · cases hb
    · rename_i t ht
      rw [hf.typed] at ht
      cases ht
      split at hb
      · cases hb
      · rename_i cls r1 hi
        cases hb
        obtain ⟨q, hcl⟩ := quietly_inheritFragment _ _ hi
        refine ⟨q, fun o ho => ?_⟩
        have hobj : IsObject c.schema d.typeCondition := by
          rcases hc with hc | hc
          · exact hc
          · obtain ⟨m, hm', _⟩ := hf.interface hc
            rw [hm] at hm'; cases hm'
        by_cases he : d.typeCondition = o
        · subst he
          have : (List.filter (fun q => q.1 == d.typeCondition) [(d.typeCondition, cls)]).map (·.2) = [cls] := by simp
          rw [this]
          exact .of_models (hf.object hobj _ hcl) hd (.object hobj)
        · have : (List.filter (fun q => q.1 == o) [(d.typeCondition, cls)]).map (·.2) = [] := by
            have : (d.typeCondition == o) = false := by simpa using he
            simp [this]
          rw [this]
          refine ⟨by simp, by simp, by simp, fun key name sub hp _ => ?_⟩
          obtain ⟨d', hd', h1, _⟩ := picks_single_spread hp
          rw [hd] at hd'
          cases hd'
          exact (he (possible_of_object hobj h1).symm).elim

theorem inlineSpreadBase_keeps {f o : String} (h : StateK c defs T W K r) (hk : K f) (ho : IsObject c.schema o)
    (hs : ∃ d, defs.get? f = some d ∧ d.typeCondition = o) :
    Quietly (inlineSpreadBase f) r fun b => PartsK c defs T W o pt [.spread f] [] [b] := by
  obtain ⟨d, hd, rfl⟩ := hs
  have hf := h.frag hk hd
  intro b r' hb
  unfold inlineSpreadBase at hb
  split at hb
  · cases hb
  · obtain ⟨q, hcl⟩ := quietly_inheritFragment _ _ hb
    exact ⟨q, .of_models (hf.object ho _ hcl) hd (.object ho)⟩

/-! ## composite nodes -/

theorem quietly_spreadOrAdditional {o : String} {bases : List String} :
    Quietly (spreadOrAdditional c o bases) r fun bs =>
      (bases = [] ∧ bs = baseNames ((c.config.additionalBases.get? o).getD [])) ∨ bs = names bases := by
  unfold spreadOrAdditional
  split
  · rename_i he
    exact quietly_additionalBasesFor.mono fun _ h => .inl ⟨by simpa using he, h⟩
  · exact .pure (.inr rfl)

/-- a class for the selections on an object type as annotation -/
theorem nodeK_object (hm : ModuleK c T) {cls o : String} {sub : List Sel} {opt : Bool} {e : Expr}
    (ho : IsObject c.schema o) (ha : Apart c defs o sub) (hmod : Models c defs T W o o sub cls)
    (he : e = .name cls ∨ e = .const (.str cls)) :
    NodeK c defs T W opt (.named o) sub (if opt then Turms.sub "Optional" e else e) := by
  have hmem : ∀ m, Member T e m ↔ m = cls := by
    intro m
    rcases he with rfl | rfl
    · exact member_class hm.aliases hmod.cls
    · exact member_forward.trans (member_class hm.aliases hmod.cls)
  refine ⟨Keeps.congr (keeps_of_models (W := W) (p := o) hm.once (e := e) ?_ ?_ ?_) fun _ => member_if,
    guards_optional rfl fun hA v hv => ?_⟩
  · intro o' hp; rw [possible_of_object ho hp]; exact ha
  · intro o' hp; rw [possible_of_object ho hp]; exact ⟨cls, (hmem cls).2 rfl, hmod.isFor⟩
  · intro o' m hp hm' _
    rw [possible_of_object ho hp, (hmem m).1 hm']
    exact hmod
  · have hv' : MayAccept T W.isa (.name cls) v := by
      rcases he with rfl | rfl
      · exact hv
      · exact mayAccept_forward hv
    obtain ⟨kvs, rfl, h1, h2⟩ := hmod.delivers ha hm.aliases hA hv'
    obtain ⟨ty, h3, h4⟩ := deliversFields_types ha h2
    exact ⟨fun e => (by cases e), .object ty (.inl ho) (.object ho) h1
      (fun hi => (not_interface_of_object ho hi).elim) h3 h4⟩

/-- the class of an object node: bases from spreads or configuration -/
theorem objectClass_models (hm : ModuleK c T) {cls o : String} {sels : List Sel} {body body' : List Stmt}
    {bases : List String} {bs : List Expr} (hp : PartsK c defs T W o pt sels body bases)
    (hbs : (bases = [] ∧ bs = baseNames ((c.config.additionalBases.get? o).getD [])) ∨ bs = names bases)
    (hc : Stmt.classDef cls (bs ++ baseNames c.config.objectBases) body' [] ∈ T)
    (hbody : ∀ st ∈ body', st ∈ body ∨ st = typenameStmt c o ∨ fieldOf st = none) (hbody' : ∀ st ∈ body, st ∈ body')
    (ht : typenameStmt c o ∈ body' ∨ bases ≠ []) : Models c defs T W o pt sels cls := by
  refine hp.models hm.unique hc ?_ ?_ hbody (fun st h => .inl (hbody' st h)) ht
  · intro b hb
    rcases List.mem_append.1 hb with hb | hb
    · rcases hbs with ⟨_, rfl⟩ | rfl
      · exact .inr fun st hd => (declared_baseNames hm.additional hb hd).elim
      · exact .inl (mem_names.1 hb)
    · exact .inr fun st hd => (declared_baseNames hm.objectBases hb hd).elim
  · intro b hb
    rcases hbs with ⟨rfl, _⟩ | rfl
    · cases hb
    · exact List.mem_append_left _ (mem_names.2 hb)

theorem finishObject_keeps {cls o : String} {desc : Option String} {p : ObjectParts} {opt : Bool} {sub : List Sel}
    (h : StateK c defs T W K r) (ho : IsObject c.schema o) (ha : Apart c defs o sub) (hp : ObjK c defs T W o sub p) :
    Quietly (finishObject c cls o desc (typenameStmt c o) p opt) r fun x => (∀ st ∈ x.2, st ∈ T) →
      NodeK c defs T W opt (.named o) sub x.1 := by
  unfold finishObject
  refine quietly_spreadOrAdditional.bind fun bases r1 q1 hbs => ?_
  refine quietly_generatePydanticConfig.bind fun cfg r2 q2 hcfg => ?_
  refine quietly_optionalWrap.bind fun e r3 q3 he => .pure ?_
  intro hT
  dsimp only
  rw [he]
  have hcT : Stmt.classDef cls (bases ++ baseNames c.config.objectBases)
      (docStmt desc :: typenameStmt c o :: (p.body ++ cfg)) [] ∈ T := hT _ (by simp)
  have hparts := hp fun st hst => hT st (by simp [hst])
  have hmod : Models c defs T W o o sub cls := by
    refine objectClass_models h.module_ hparts hbs hcT ?_ ?_ (.inl (by simp))
    · intro st hst
      rcases List.mem_cons.1 hst with rfl | hst
      · exact .inr (.inr rfl)
      · rcases List.mem_cons.1 hst with rfl | hst
        · exact .inr (.inl rfl)
        · rcases List.mem_append.1 hst with hst | hst
          · exact .inl hst
          · exact .inr (.inr (hcfg st hst))
    · intro st hst; simp [hst]
  exact nodeK_object h.module_ ho ha hmod (.inl rfl)

theorem objectNode_keeps {parent target o : String} {desc : Option String} {sub : List Sel}
    {walk : String → Gen ObjectParts} {opt : Bool} (h : StateK c defs T W K r) (ho : IsObject c.schema o)
    (hk : ∀ f, Spreads sub f → K f) (hs : ObjSpreadsK c.schema defs o sub) (ha : Apart c defs o sub)
    (hw : ∀ k r1, Quiet r r1 → Quietly (walk k) r1 (ObjK c defs T W o sub)) :
    Quietly (objectNode c parent target o desc sub walk opt) r fun x => (∀ st ∈ x.2, st ∈ T) →
      NodeK c defs T W opt (.named o) sub x.1 := by
  unfold objectNode
  refine quietly_typenameField.bind fun tn r1 q1 htn => ?_
  split
  · rename_i f hf
    have hm := mem_nonTypename hf
    refine (collapseReference_keeps (pt := o) (h.quiet q1) (hk f (spreads_mem hm)) ho (hs f hm) hf).bind fun x r2 q2 hx => ?_
    refine quietly_optionalWrap.bind fun e r3 q3 he => .pure ?_
    intro _
    dsimp only
    rw [he]
    obtain ⟨cls, hmod, hx⟩ := hx
    exact nodeK_object h.module_ ho ha hmod hx
  · refine (hw _ _ q1).bind fun p r2 q2 hp => ?_
    rw [htn]
    exact finishObject_keeps (h.quiet (q1.trans q2)) ho ha hp

/-- an implementing class models the selections if the mother class has the common declarations -/
theorem implementing_models (hm : ModuleK c T) {cls mother o : String} {p : InterfaceParts} {sels : List Sel}
    {desc : Option String} {mbases : List Expr} {cfg : List Stmt} {doc : Stmt}
    (hp : PartsK c defs T W o pt sels (p.body ++ p.bodyFor o) (p.basesFor o))
    (hmT : Stmt.classDef mother mbases (doc :: (p.body ++ cfg)) [] ∈ T) (hdoc : fieldOf doc = none)
    (hmb : ∀ b st, Expr.name b ∈ mbases → ¬ Declared T b st) (hcfg : ∀ st ∈ cfg, fieldOf st = none)
    (hcT : Stmt.classDef cls (names (p.basesFor o) ++ [.name mother] ++
        baseNames ((c.config.additionalBases.get? o).getD []) ++ baseNames (interfaceBaseList c))
        (docStmt desc :: typenameStmt c o :: p.bodyFor o) [] ∈ T) : Models c defs T W o pt sels cls := by
  refine hp.models hm.unique hcT ?_ ?_ ?_ ?_ (.inl (by simp))
  · intro b hb
    rcases List.mem_append.1 hb with hb | hb
    · rcases List.mem_append.1 hb with hb | hb
      · rcases List.mem_append.1 hb with hb | hb
        · exact .inl (mem_names.1 hb)
        · cases List.mem_singleton.1 hb
          refine .inr fun st hd => ?_
          cases hd with
          | own h1 h2 =>
            obtain ⟨_, rfl, _⟩ := hm.unique _ _ _ _ _ _ _ h1 hmT
            rcases List.mem_cons.1 h2 with rfl | h2
            · exact .inr (own_none hdoc)
            · rcases List.mem_append.1 h2 with h2 | h2
              · exact .inr (hp.own st (List.mem_append_left _ h2))
              · exact .inr (own_none (hcfg st h2))
          | inherited h1 h2 h3 =>
            obtain ⟨rfl, _, _⟩ := hm.unique _ _ _ _ _ _ _ h1 hmT
            exact (hmb _ _ h2 h3).elim
      · exact .inr fun st hd => (declared_baseNames hm.additional hb hd).elim
    · exact .inr fun st hd => (declared_baseNames hm.interfaceBases hb hd).elim
  · intro b hb
    exact List.mem_append_left _ (List.mem_append_left _ (List.mem_append_left _ (mem_names.2 hb)))
  · intro st hst
    rcases List.mem_cons.1 hst with rfl | hst
    · exact .inr (.inr rfl)
    · rcases List.mem_cons.1 hst with rfl | hst
      · exact .inr (.inl rfl)
      · exact .inl (List.mem_append_right _ hst)
  · intro st hst
    rcases List.mem_append.1 hst with hst | hst
    · refine .inr ⟨mother, ?_, .own hmT (by simp [hst])⟩
      exact List.mem_append_left _ (List.mem_append_left _ (List.mem_append_right _ (List.mem_singleton.2 rfl)))
    · exact .inl (by simp [hst])

theorem fieldOf_genericTypenameStmt (c : Ctx) :
    fieldOf (genericTypenameStmt c) = some ⟨"__typename", false, .name "str"⟩ := by
  unfold genericTypenameStmt excludeKeyword
  split <;> rfl

theorem quietly_catchAllClass {mother : String} {tagged : Expr} : Quietly (catchAll c mother tagged) r fun x =>
    x.1 = tagged ∨ (c.config.createCatchall = true ∧ x.1 = sub "Union" (.tuple [tagged, .name (mother ++ "CatchAll")]) ∧
      Stmt.classDef (mother ++ "CatchAll") (.name mother :: baseNames (interfaceBaseList c))
        [.expr (.str ("Catch all class for " ++ mother)), genericTypenameStmt c] [] ∈ x.2) := by
  unfold catchAll
  split
  · rename_i hc
    refine quietly_interfaceBasesOf.bind fun e1 _ _ h1 => quietly_genericTypenameField.bind fun e2 _ _ h2 => ?_
    refine quietly_registerImport.bind fun _ _ _ _ => .pure (.inr ⟨hc, rfl, ?_⟩)
    rw [h1, h2]
    exact List.mem_singleton.2 rfl
  · exact .pure (.inl rfl)

/-- what a union with discriminator `typename` accepts is accepted by the class that is named in `__typename` -/
theorem mayAccept_tagged {isa : String → Val → Prop} {l : List String} {v : Val}
    (h : MayAccept T isa (taggedUnion l) v) : ∃ n ∈ l, ∃ kvs key tag, v = .obj kvs ∧ Tagged T n "typename" key tag ∧
      Val.entry kvs key = some (.atom tag) ∧ MayAccept T isa (.name n) (.obj kvs) := by
  rcases mayAccept_annotated h with ⟨h, _⟩ | ⟨ts, m, d, n, key, tag, kvs, e1, e2, e3, h1, h2, h3, h4, h5⟩
  · have := h _ (List.mem_singleton.2 rfl)
    exact absurd this (by decide)
  · cases e1
    cases e2
    have hd : d = "typename" := by
      have : discriminatorOf (.call (.name "Field") [] [(some "discriminator", .str "typename")]) = some "typename" := by
        decide
      rw [this] at h1
      exact (Option.some.inj h1).symm
    subst hd
    exact ⟨n, mem_names.1 h2, kvs, key, tag, e3, h3, h4, h5⟩

theorem Models.tagged_eq {o p n key tag : String} {sels : List Sel} (h : Models c defs T W o p sels n)
    (ha : Apart c defs o sels) (ht : Tagged T n "typename" key tag) : key = "__typename" ∧ tag = o := by
  obtain ⟨st, f, hd, hat, hf, hk, he⟩ := ht
  rcases h.only st hd with rfl | hown
  · rw [fieldOf_typenameStmt] at hf
    cases hf
    injection he with _ he
    injection he with he
    injection he with he
    exact ⟨hk.symm, he.symm⟩
  · obtain ⟨name, sub, t, t0, attr, h1, h2, _, h4, h5, _⟩ := hown f hf
    rw [hat] at h4
    cases h4
    exact (((ha.reserved _ _ _ (picksAt_picks h2) h1).2 _ h5).1 rfl).elim

/-- what the class for the other types of an interface accepts has the fields selected on the interface -/
theorem catchAll_delivers (hm : ModuleK c T) {mother n o : String} {mbases : List Expr} {doc doc' : Stmt}
    {body cfg : List Stmt} {sub : List Sel} {v : Val} (hn : IsInterface c.schema n) (ha : Apart c defs o sub)
    (hcatch : c.config.createCatchall = true) (hbody : BodyK c defs T W n sub body)
    (hmT : Stmt.classDef mother mbases (doc :: (body ++ cfg)) [] ∈ T) (hdoc : fieldOf doc = none)
    (hmb : ∀ b st, Expr.name b ∈ mbases → ¬ Declared T b st) (hcfg : ∀ st ∈ cfg, fieldOf st = none)
    (hcT : Stmt.classDef (mother ++ "CatchAll") (.name mother :: baseNames (interfaceBaseList c))
        [doc', genericTypenameStmt c] [] ∈ T) (hdoc' : fieldOf doc' = none) (hA : Assumed c T W)
    (hv : MayAccept T W.isa (.name (mother ++ "CatchAll")) v) :
    ∃ kvs, v = .obj kvs ∧ Delivers c.schema defs W.leaf c.config.createCatchall (.named n) sub (.obj kvs) := by
  have hpick : ∀ {name al args u}, Sel.field name al args u ∈ sub →
      Picks c.schema defs o sub (al.getD name) name u := fun h => .field h
  obtain ⟨kvs, rfl, hall⟩ := mayAccept_class hm.aliases ⟨_, _, _, hcT⟩ hv
  have honly : ∀ st f, Declared T (mother ++ "CatchAll") st → fieldOf st = some f →
      st = genericTypenameStmt c ∨ st ∈ body := by
    intro st f hd hf
    cases hd with
    | own h1 h2 =>
      obtain ⟨_, rfl, _⟩ := hm.unique _ _ _ _ _ _ _ h1 hcT
      rcases List.mem_cons.1 h2 with rfl | h2
      · rw [hdoc'] at hf; cases hf
      · exact .inl (List.mem_singleton.1 h2)
    | inherited h1 h2 h3 =>
      obtain ⟨rfl, _, _⟩ := hm.unique _ _ _ _ _ _ _ h1 hcT
      rcases List.mem_cons.1 h2 with h2 | h2
      · cases h2
        cases h3 with
        | own g1 g2 =>
          obtain ⟨_, rfl, _⟩ := hm.unique _ _ _ _ _ _ _ g1 hmT
          rcases List.mem_cons.1 g2 with rfl | g2
          · rw [hdoc] at hf; cases hf
          · rcases List.mem_append.1 g2 with g2 | g2
            · exact .inr g2
            · rw [hcfg st g2] at hf; cases hf
        | inherited g1 g2 g3 =>
          obtain ⟨rfl, _, _⟩ := hm.unique _ _ _ _ _ _ _ g1 hmT
          exact (hmb _ _ g2 g3).elim
      · exact (declared_baseNames hm.interfaceBases h2 h3).elim
  have hgen : attrOf (genericTypenameStmt c) = some "typename" := rfl
  have hfield : ∀ name al args u, Sel.field name al args u ∈ sub → name ≠ "__typename" → ∃ t,
      FieldAt c.schema n name t ∧ (Val.entry kvs (al.getD name) = none → t.isNonNull = false) ∧
      ∀ x, Val.entry kvs (al.getD name) = some x → Delivers c.schema defs W.leaf c.config.createCatchall t u x := by
    intro name al args u hs hname
    obtain ⟨hkey, hattr⟩ := ha.reserved _ _ _ (hpick hs) hname
    obtain ⟨st, hst, f, hf, hk⟩ := hbody.all name al args u hs hname
    obtain ⟨_, _, _, _, _, attr, _, _, _, _, h3, h4, _⟩ := hbody.only st hst f hf
    rw [hk] at h4
    have hd : Declared T (mother ++ "CatchAll") st :=
      .inherited hcT (List.mem_cons_self ..) (.own hmT (by simp [hst]))
    obtain ⟨st', f', hd', hat', hf', hreq, hval⟩ := hall attr ⟨(hattr attr h4).2, _, hd, h3⟩
    rcases honly st' f' hd' hf' with rfl | hst'
    · rw [hgen] at hat'
      cases hat'
      exact ((hattr _ h4).1 rfl).elim
    obtain ⟨name', al', args', u', t, attr', g1, g2, g3, g4, g5, g6, g7⟩ := hbody.only st' hst' f' hf'
    rw [hat'] at g5
    cases g5
    have hk' : al'.getD name' = al.getD name :=
      ha.attrs _ _ _ _ _ _ _ (hpick g1) (hpick hs) (by rw [← g4]; exact g6) h4
    have hp' : Picks c.schema defs o sub (al.getD name) name' u' := by rw [← hk']; exact hpick g1
    obtain ⟨rfl, rfl⟩ := ha.once _ _ _ _ _ (hpick hs) hp'
    rw [g4, hk'] at hreq hval
    exact ⟨t, g3, fun e => g7.required (hreq e), fun x hx => g7.guards hA x (hval x hx)⟩
  have hk : ∀ key, ∃ t : TypeNode, ∀ name al args u, Sel.field name al args u ∈ sub → name ≠ "__typename" →
      al.getD name = key → FieldAt c.schema n name t ∧ (Val.entry kvs key = none → t.isNonNull = false) ∧
      ∀ x, Val.entry kvs key = some x → Delivers c.schema defs W.leaf c.config.createCatchall t u x := by
    intro key
    by_cases he : ∃ name al args u, Sel.field name al args u ∈ sub ∧ name ≠ "__typename" ∧ al.getD name = key
    · obtain ⟨name, al, args, u, h1, h2, rfl⟩ := he
      obtain ⟨t, h3⟩ := hfield name al args u h1 h2
      refine ⟨t, fun name' al' args' u' g1 g2 g3 => ?_⟩
      have hp' : Picks c.schema defs o sub (al.getD name) name' u' := by rw [← g3]; exact hpick g1
      obtain ⟨rfl, rfl⟩ := ha.once _ _ _ _ _ (hpick h1) hp'
      exact h3
    · exact ⟨.named "", fun name al args u h1 h2 h3 => (he ⟨name, al, args, u, h1, h2, h3⟩).elim⟩
  refine ⟨kvs, rfl, .other (fun key => Classical.choose (hk key)) hcatch hn ?_ ?_ ?_⟩
  · intro e
    obtain ⟨st, f, hd, hat, hf, hreq, _⟩ := hall "typename" ⟨by decide, _, .own hcT (by simp), hgen⟩
    rcases honly st f hd hf with rfl | hst
    · rw [fieldOf_genericTypenameStmt] at hf
      cases hf
      exact absurd (hreq e) (by decide)
    · obtain ⟨name', al', args', u', t, attr', g1, g2, g3, g4, g5, g6, g7⟩ := hbody.only st hst f hf
      rw [hat] at g5
      cases g5
      rw [g4] at g6
      exact (((ha.reserved _ _ _ (hpick g1) g2).2 _ g6).1 rfl).elim
  · intro name al args u h1 h2
    obtain ⟨g1, g2, _⟩ := Classical.choose_spec (hk (al.getD name)) name al args u h1 h2 rfl
    exact ⟨g1, g2⟩
  · intro name al args u x h1 h2
    exact (Classical.choose_spec (hk (al.getD name)) name al args u h1 h2 rfl).2.2 x

theorem interfaceNode_keeps {parent target n : String} {desc : Option String} {sub : List Sel}
    {walk : String → Gen InterfaceParts} {opt : Bool} (h : StateK c defs T W K r) (hn : IsInterface c.schema n)
    (ha : ∀ o, Possible c.schema n o → Apart c defs o sub)
    (hw : ∀ k r1, Quiet r r1 → Quietly (walk k) r1 (IfcK c defs T W n sub)) :
    Quietly (interfaceNode c parent target n desc walk opt) r fun x => (∀ st ∈ x.2, st ∈ T) →
      NodeK c defs T W opt (.named n) sub x.1 := by
  unfold interfaceNode
  dsimp only
  generalize parent ++ pyCapitalize target = base
  refine (hw _ _ (.refl _)).bind fun p r1 q1 hp => ?_
  refine quietly_additionalBasesFor.bind fun extra r2 q2 hextra => ?_
  refine quietly_interfaceBasesOf.bind fun ib r3 q3 hib => ?_
  refine quietly_generatePydanticConfig.bind fun cfg r4 q4 hcfg => ?_
  refine implementingClasses_ok.bind fun impls r5 q5 himpls => ?_
  refine quietly_registerImport.bind fun _ r6 q6 _ => ?_
  refine quietly_registerImport.bind fun _ r7 q7 _ => ?_
  refine quietly_catchAllClass.bind fun x r8 q8 hx => ?_
  refine quietly_optionalWrap.bind fun e r9 q9 he => .pure ?_
  intro hT
  dsimp only at hT ⊢
  rw [he]
  have hmT : Stmt.classDef (base ++ "Base") (extra ++ ib) (docStmt desc :: (p.body ++ cfg)) [] ∈ T :=
    hT _ (by simp)
  have hmb : ∀ b st, Expr.name b ∈ extra ++ ib → ¬ Declared T b st := by
    intro b st hb
    rcases List.mem_append.1 hb with hb | hb
    · rw [hextra] at hb; exact declared_baseNames h.module_.additional hb
    · rw [hib] at hb; exact declared_baseNames h.module_.interfaceBases hb
  obtain ⟨hparts, hbody⟩ := hp fun st hst => hT st (by simp [hst])
  have hmod : ∀ i ∈ implementations c.schema n, Models c defs T W i.name n sub (base ++ "Base" ++ i.name) := by
    intro i hi
    exact implementing_models h.module_ (hparts i.name (possible_of_implementation hn h.module_.nodup hi)) hmT rfl hmb
      hcfg (hT _ (List.mem_append_right _ (List.mem_cons_of_mem _ (List.mem_append_left _ (himpls i hi)))))
  have htag : ∀ m, Member T (taggedUnion ((implementations c.schema n).map fun i => base ++ "Base" ++ i.name)) m ↔
      ∃ i ∈ implementations c.schema n, m = base ++ "Base" ++ i.name := by
    intro m
    refine member_annotated.trans (member_union.trans ⟨?_, ?_⟩)
    · rintro ⟨t, ht, hm⟩
      obtain ⟨nm, hnm, rfl⟩ := List.mem_map.1 ht
      obtain ⟨i, hi, rfl⟩ := List.mem_map.1 hnm
      exact ⟨i, hi, (member_class h.module_.aliases (hmod i hi).cls).1 hm⟩
    · rintro ⟨i, hi, rfl⟩
      exact ⟨_, mem_names.2 (List.mem_map.2 ⟨i, hi, rfl⟩), .cls (hmod i hi).cls⟩
  refine ⟨Keeps.congr (keeps_of_models (W := W) (p := n) h.module_.once (e := x.1) ha ?_ ?_) fun _ => member_if,
    guards_optional rfl fun hA v hv => ?_⟩
  · intro o hpo
    obtain ⟨i, hi, rfl⟩ := mem_implementations hn hpo
    have hmem := (htag _).2 ⟨i, hi, rfl⟩
    refine ⟨_, ?_, (hmod i hi).isFor⟩
    rcases hx with hx | ⟨_, hx, _⟩
    · rw [hx]; exact hmem
    · rw [hx]; exact .union (List.mem_cons_self ..) hmem
  · intro o m hpo hm hfor
    have hcase : Member T (taggedUnion ((implementations c.schema n).map fun i => base ++ "Base" ++ i.name)) m := by
      rcases hx with hx | ⟨_, hx, hcl⟩
      · rw [hx] at hm; exact hm
      · rw [hx] at hm
        obtain ⟨t, ht, hm⟩ := member_union.1 hm
        rcases List.mem_cons.1 ht with rfl | ht
        · exact hm
        cases List.mem_singleton.1 ht
        exfalso
        have hcT := hT _ (List.mem_append_right _ (List.mem_cons_of_mem _ (List.mem_append_right _ hcl)))
        have := (member_class h.module_.aliases ⟨_, _, _, hcT⟩).1 hm
        subst this
        obtain ⟨st, f, hd, _, hf, hk, hann⟩ := hfor
        cases hd with
        | own h1 h2 =>
          obtain ⟨_, rfl, _⟩ := h.module_.unique _ _ _ _ _ _ _ h1 hcT
          rcases List.mem_cons.1 h2 with rfl | h2
          · cases hf
          · rw [List.mem_singleton.1 h2, fieldOf_genericTypenameStmt] at hf
            cases hf
            cases hann
        | inherited h1 h2 h3 =>
          obtain ⟨rfl, _, _⟩ := h.module_.unique _ _ _ _ _ _ _ h1 hcT
          rcases List.mem_cons.1 h2 with h2 | h2
          · cases h2
            cases h3 with
            | own g1 g2 =>
              obtain ⟨_, rfl, _⟩ := h.module_.unique _ _ _ _ _ _ _ g1 hmT
              rcases List.mem_cons.1 g2 with rfl | g2
              · cases hf
              · rcases List.mem_append.1 g2 with g2 | g2
                · obtain ⟨name, u, t, t0, attr, e1, e2, _⟩ := (hparts o hpo).own st (List.mem_append_left _ g2) f hf
                  exact ((ha o hpo).reserved _ _ _ (picksAt_picks e2) e1).1 hk
                · rw [hcfg st g2] at hf; cases hf
            | inherited g1 g2 g3 =>
              obtain ⟨rfl, _, _⟩ := h.module_.unique _ _ _ _ _ _ _ g1 hmT
              exact hmb _ _ g2 g3
          · exact declared_baseNames h.module_.interfaceBases h2 h3
    obtain ⟨i, hi, rfl⟩ := (htag m).1 hcase
    have hpi := possible_of_implementation hn h.module_.nodup hi
    rw [(hmod i hi).tag_eq (ha _ hpi) hfor]
    exact hmod i hi
  · have htagged : MayAccept T W.isa (taggedUnion ((implementations c.schema n).map fun i => base ++ "Base" ++ i.name)) v →
        ∃ kvs, v = .obj kvs ∧
          Delivers c.schema defs W.leaf c.config.createCatchall (.named n) sub (.obj kvs) := by
      intro hv
      obtain ⟨nm, hnm, kvs, key, tag, rfl, h1, h2, h3⟩ := mayAccept_tagged hv
      obtain ⟨i, hi, rfl⟩ := List.mem_map.1 hnm
      have hpi := possible_of_implementation hn h.module_.nodup hi
      obtain ⟨rfl, rfl⟩ := (hmod i hi).tagged_eq (ha _ hpi) h1
      obtain ⟨kvs', e, h4, h5⟩ := (hmod i hi).delivers (ha _ hpi) h.module_.aliases hA h3
      cases e
      obtain ⟨ty, h6, h7⟩ := deliversFields_types (ha _ hpi) h5
      exact ⟨kvs, rfl, .object ty (.inr hn) hpi h4 (fun _ e => by rw [h2] at e; cases e) h6 h7⟩
    have hany : ∃ kvs, v = .obj kvs ∧
        Delivers c.schema defs W.leaf c.config.createCatchall (.named n) sub (.obj kvs) := by
      rcases hx with hx | ⟨hcatch, hx, hcl⟩
      · rw [hx] at hv; exact htagged hv
      · rw [hx] at hv
        obtain ⟨t, ht, hv⟩ := mayAccept_union hv
        rcases List.mem_cons.1 ht with rfl | ht
        · exact htagged hv
        cases List.mem_singleton.1 ht
        have hcT := hT _ (List.mem_append_right _ (List.mem_cons_of_mem _ (List.mem_append_right _ hcl)))
        obtain ⟨o, ho⟩ := hA.inhabited n hn
        exact catchAll_delivers h.module_ hn (ha o ho) hcatch hbody hmT rfl hmb hcfg hcT rfl hA hv
    obtain ⟨kvs, rfl, hd⟩ := hany
    exact ⟨fun e => (by cases e), hd⟩

theorem unionNode_keeps {n : String} {ms : List String} {sub : List Sel} {walk : Gen (List String × List Stmt)}
    {opt : Bool} (h : StateK c defs T W K r) (hn : c.schema.lookup n = some (.union ms)) (hu : UnWhole c defs n ms sub)
    (hw : Quietly walk r (UnK c defs T W sub)) :
    Quietly (unionNode walk opt) r fun x => (∀ st ∈ x.2, st ∈ T) →
      NodeK c defs T W opt (.named n) sub x.1 := by
  unfold unionNode
  refine hw.bind fun p r1 q1 hp => ?_
  have hur : Quietly (unionReference p.1 opt) r1 fun e => (∀ m, Member T e m ↔ ∃ k ∈ p.1, Member T (.name k) m) ∧
      ∀ isa v, MayAccept T isa e v → (opt = true ∧ v = .null) ∨ ∃ k ∈ p.1, MayAccept T isa (.name k) v := by
    generalize p.1 = l
    have hmem : ∀ m, Member T (Turms.sub "Union" (.tuple (names l))) m ↔ ∃ k ∈ l, Member T (.name k) m := by
      intro m
      refine member_union.trans ⟨?_, ?_⟩
      · rintro ⟨t, ht, hm⟩
        obtain ⟨k, hk, rfl⟩ := List.mem_map.1 ht
        exact ⟨k, hk, hm⟩
      · rintro ⟨k, hk, hm⟩
        exact ⟨_, mem_names.2 hk, hm⟩
    unfold unionReference
    split
    · exact .fail
    · exact .pure ⟨fun m => by simp, fun isa v hv => .inr ⟨_, List.mem_singleton.2 rfl, hv⟩⟩
    · refine quietly_registerImport.bind fun _ _ _ _ => quietly_optionalWrap.mono fun e he => ?_
      rw [he]
      refine ⟨fun m => member_if.trans (hmem m), fun isa v hv => (mayAccept_if hv).imp id fun hv => ?_⟩
      obtain ⟨t, ht, hv⟩ := mayAccept_union hv
      obtain ⟨k, hk, rfl⟩ := List.mem_map.1 ht
      exact ⟨k, hk, hv⟩
  refine hur.bind fun e r2 q2 he => .pure ?_
  intro hT
  obtain ⟨h1, h2, h2'⟩ := hp hT
  obtain ⟨he, he'⟩ := he
  have hmodels : ∀ k m o, Possible c.schema n o → k ∈ p.1 → Member T (.name k) m → IsFor T m o →
      Models c defs T W o n sub m := by
    intro k m o hpo hk hm hfor
    obtain ⟨ho, hom⟩ := possible_union hn hpo
    obtain ⟨y, hy, hay, _, hmod⟩ := h2 k m o hk hm hfor
    replace hmod := hmod n
    refine ⟨hmod.cls, hmod.tag, fun st hd => (hmod.only st hd).imp fun _ _ _ _ p => picksAt_mono p fun z hz => by
      rw [List.mem_singleton.1 hz]; exact hy, ?_⟩
    intro key name sub' hpk hname
    obtain ⟨x, hx, hpx⟩ := picks_from hpk
    have hax : Applies c.schema defs o x := by
      cases x with
      | field nm al args sb =>
        have := hu.typename nm al args sb hx
        rw [(picks_single_field hpx).2.1] at hname
        exact (hname this).elim
      | spread f =>
        obtain ⟨d, hd, hpd, _⟩ := picks_single_spread hpx
        exact ⟨d, hd, hpd⟩
      | inline t inner =>
        cases t with
        | none => trivial
        | some t => exact (picks_single_inline hpx).1
    rw [hu.single o hom x hx y hy hax hay] at hpx
    exact hmod.all _ _ _ hpx hname
  refine ⟨keeps_of_models (W := W) (p := n) h.module_.once hu.apart ?_ ?_, fun hA v hv => ?_⟩
  · intro o hpo
    obtain ⟨ho, hom⟩ := possible_union hn hpo
    obtain ⟨x, hx, hax⟩ := hu.covered o hom
    obtain ⟨k, hk, m, hm, hfor⟩ := h1 o x ho hx hax
    exact ⟨m, (he m).2 ⟨k, hk, hm⟩, hfor⟩
  · intro o m hpo hm hfor
    obtain ⟨k, hk, hm⟩ := (he m).1 hm
    exact hmodels k m o hpo hk hm hfor
  · unfold optType
    rcases he' _ _ hv with ⟨rfl, rfl⟩ | ⟨k, hk, hv⟩
    · exact .null rfl
    · obtain ⟨hb, htag⟩ := h2' k hk
      obtain ⟨m, hm, hv⟩ := hb _ _ hv
      obtain ⟨o, hfor⟩ := htag m hm
      obtain ⟨y, hy, hay, hap, hmod⟩ := h2 k m o hk hm hfor
      have hd : ∃ kvs, v = .obj kvs ∧
          Delivers c.schema defs W.leaf c.config.createCatchall (.named n) sub (.obj kvs) := by
        by_cases hpo : Possible c.schema n o
        · obtain ⟨kvs, rfl, h4, h5⟩ := (hmodels k m o hpo hk hm hfor).delivers (hu.apart o hpo) h.module_.aliases hA hv
          obtain ⟨ty, h6, h7⟩ := deliversFields_types (hu.apart o hpo) h5
          exact ⟨kvs, rfl, .member ty hn hy hay (.inl rfl) h4 h6 h7⟩
        · obtain ⟨kvs, rfl, h4, h5⟩ := (hmod n).delivers hap h.module_.aliases hA hv
          obtain ⟨ty, h6, h7⟩ := deliversFields_types hap h5
          exact ⟨kvs, rfl, .member ty hn hy hay (.inr ⟨hpo, rfl⟩) h4 h6 h7⟩
      obtain ⟨kvs, rfl, hd⟩ := hd
      cases opt with
      | true => exact hd
      | false => exact .nonNull (fun e => by cases e) hd

theorem inlineClass_keeps {cls o : String} {p : ObjectParts} {sub : List Sel} (h : StateK c defs T W K r)
    (hp : ObjK c defs T W o sub p) :
    Quietly (inlineClass c cls o p) r fun ss => (∀ st ∈ ss, st ∈ T) → Models c defs T W o o sub cls := by
  unfold inlineClass
  have htn : Quietly (inlineTypename c o p.bases) r fun tn =>
      (tn = [typenameStmt c o]) ∨ (tn = [] ∧ p.bases ≠ []) := by
    unfold inlineTypename
    split
    · exact quietly_typenameField.bind fun t _ _ ht => .pure (.inl (by rw [ht]))
    · rename_i hb
      exact .pure (.inr ⟨rfl, by simpa using hb⟩)
  refine htn.bind fun tn r1 q1 htn => ?_
  refine quietly_spreadOrAdditional.bind fun bases r2 q2 hbs => ?_
  refine quietly_generatePydanticConfig.bind fun cfg r3 q3 hcfg => .pure ?_
  intro hT
  have hcT := hT _ (List.mem_append_right _ (List.mem_singleton.2 rfl))
  have hparts := hp fun st hst => hT st (List.mem_append_left _ hst)
  refine objectClass_models h.module_ hparts hbs hcT ?_ ?_ ?_
  · intro st hst
    split at hst
    · rw [List.mem_singleton.1 hst]; exact .inr (.inr rfl)
    · rcases List.mem_append.1 hst with hst | hst
      · rcases List.mem_append.1 hst with hst | hst
        · rcases htn with rfl | ⟨rfl, _⟩
          · exact .inr (.inl (List.mem_singleton.1 hst))
          · cases hst
        · exact .inl hst
      · exact .inr (.inr (hcfg st hst))
  · intro st hst
    split
    · rename_i he
      have : tn ++ p.body ++ cfg = [] := by simpa using he
      have hmem : st ∈ tn ++ p.body ++ cfg := by simp [hst]
      rw [this] at hmem
      cases hmem
    · simp [hst]
  · rcases htn with rfl | ⟨_, hb⟩
    · exact .inl (by simp)
    · exact .inr hb

/-! ## named types -/

theorem leaf_delivers {n cls : String} {e : Expr} {sels : List Sel} {v : Val} (hn : IsLeaf c.schema n)
    (hcls : W.classOf c n = some cls) (hA : Assumed c T W) (he : e = .name cls ∨ e = .str cls)
    (hv : MayAccept T W.isa e v) :
    (v = .null → ∃ n', namedOf (.named n) = some n' ∧ IsLeaf c.schema n' ∧ W.leaf n' .null) ∧
      Delivers c.schema defs W.leaf c.config.createCatchall (.named n) sels v := by
  have hv' : MayAccept T W.isa (.name cls) v := by
    rcases he with rfl | rfl
    · exact hv
    · exact mayAccept_forward hv
  obtain ⟨h1, h2⟩ := hA.outside n cls hn hcls
  have := hA.leafs n cls v hn hcls (mayAccept_outside h1 h2 hv')
  exact ⟨fun e => ⟨n, rfl, hn, e ▸ this⟩, .leaf hn this⟩

/-- `recurse_annotation` on a named type, given the walkers for its selection set -/
theorem namedNode_keeps {parent target : String} {sub : List Sel} {t : TypeNode} {opt : Bool}
    {objs : String → List FieldDef → String → Gen ObjectParts} {ifcs : List FieldDef → String → Gen InterfaceParts}
    {uns : Gen (List String × List Stmt)} (h : StateK c defs T W K r) (hs : Keepable c defs t sub)
    (hk : ∀ f, Spreads sub f → K f)
    (hobj : ∀ n fs is k r1, StateK c defs T W K r1 → c.schema.lookup n = some (.object fs is) →
      ObjSpreadsK c.schema defs n sub → FieldHypK c defs (declaredIn fs) sub →
      Quietly (objs n fs k) r1 (ObjK c defs T W n sub))
    (hifc : ∀ n fs is k r1, StateK c defs T W K r1 → c.schema.lookup n = some (.interface fs is) →
      FieldHypK c defs (declaredIn fs) sub → IfcHypK c defs sub → Quietly (ifcs fs k) r1 (IfcK c defs T W n sub))
    (hun : ∀ r1, StateK c defs T W K r1 → UnHypK c defs sub → Quietly uns r1 (UnK c defs T W sub)) :
    Quietly (namedNode c parent target sub objs ifcs uns t.base opt) r fun x =>
      (∀ st ∈ x.2, st ∈ T) → NodeK c defs T W opt (.named t.base) sub x.1 := by
  unfold namedNode
  have hl : ∀ {e}, c.schema.types.get? t.base = some e → c.schema.lookup t.base = some e.defn := by
    intro e he; unfold Schema.lookup; rw [he]; rfl
  split
  · rename_i _ hg
    refine quietly_referenceScalar.bind fun x r1 _ hx => ?_
    refine quietly_optionalWrap.bind fun e r2 _ he => .pure fun _ => ?_
    dsimp only
    obtain ⟨cls, hcls, rfl⟩ := hx
    rw [he]
    refine ⟨keeps_leaf (.inl (hl hg)), guards_optional rfl fun hA v hv => ?_⟩
    refine leaf_delivers (.inl (hl hg)) ?_ hA (.inl rfl) hv
    unfold Reading.classOf
    rw [hl hg, ← h.scalars]
    exact hcls
  · rename_i vs _ hg
    refine quietly_referenceEnum.bind fun x r1 _ hx => ?_
    refine quietly_optionalWrap.bind fun e r2 _ he => .pure fun _ => ?_
    dsimp only
    obtain ⟨cls, hcls, hx⟩ := hx
    rw [he]
    refine ⟨keeps_leaf (.inr ⟨_, hl hg⟩), guards_optional rfl fun hA v hv => ?_⟩
    refine leaf_delivers (.inr ⟨_, hl hg⟩) ?_ hA hx hv
    unfold Reading.classOf
    rw [hl hg]
    exact hcls
  · rename_i fs is d hg
    obtain ⟨h1, h2, h3⟩ := keepable_object hs (hl hg)
    exact objectNode_keeps h ⟨_, _, hl hg⟩ hk h1 h2 fun k r1 q => hobj _ _ _ _ _ (h.quiet q) (hl hg) h1 h3
  · rename_i fs is d hg
    obtain ⟨h1, h2, h3⟩ := keepable_interface hs (hl hg)
    exact interfaceNode_keeps h ⟨_, _, hl hg⟩ h1 fun k r1 q => hifc _ _ _ _ _ (h.quiet q) (hl hg) h2 h3
  · rename_i ms _ hg
    obtain ⟨h1, h2⟩ := keepable_union hs (hl hg)
    exact unionNode_keeps h (hl hg) h1 (hun _ h h2)
  · exact .fail

end
end Turms
