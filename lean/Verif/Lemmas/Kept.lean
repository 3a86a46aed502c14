import Verif.Lemmas.Delivers

/-! # Generated response models keep what is asked for: the semantic part -/

namespace Turms
open Spec

/-- how the values of scalars and enums are read: which values the Python classes accept (`isa`), which values that
makes possible for the GraphQL types (`leaf`), and the classes of the scalars -/
structure Reading where
  isa : String → Val → Prop
  leaf : String → Val → Prop
  scalars : Dict String

/-- the class of a scalar or enum -/
def Reading.classOf (W : Reading) (c : Ctx) (n : String) : Option String :=
  match c.schema.lookup n with
  | some .scalar => (W.scalars.get? n).map lastComponent
  | some (.enum _) => enumClass c.env n
  | _ => none

/-- what is assumed when responses are read -/
structure Assumed (c : Ctx) (T : List Stmt) (W : Reading) : Prop where
  inhabited : ∀ n, IsInterface c.schema n → ∃ o, Possible c.schema n o
  outside : ∀ n cls, IsLeaf c.schema n → W.classOf c n = some cls →
    ¬ IsClass T cls ∧ ∀ e, Stmt.assign (.name cls) e ∉ T
  leafs : ∀ n cls v, IsLeaf c.schema n → W.classOf c n = some cls → W.isa cls v → W.leaf n v

section
variable {c : Ctx} {s : Schema} {defs : Dict FragDef} {T : List Stmt} {W : Reading}

/-! ## paths asked for -/

theorem asks_of_base {t t' : TypeNode} {sels : List Sel} {path : List (String × String)}
    (h : Asks s defs t sels path) (hb : ∀ o, Possible s t.base o → Possible s t'.base o) :
    Asks s defs t' sels path := by
  cases h with
  | done => exact .done
  | step h1 h2 h3 h4 h5 => exact .step (hb _ h1) h2 h3 h4 h5

theorem subType_possible {a b : TypeNode} (h : SubType s a b) : ∀ o, Possible s a.base o → Possible s b.base o := by
  induction h with
  | refl => exact fun _ h => h
  | named _ h => exact h
  | list _ ih => exact ih
  | nonNull _ ih => exact ih
  | strict _ _ ih => exact ih

theorem picks_cons {o : String} {x : Sel} {rest : List Sel} {key name : String} {sub : List Sel}
    (h : Picks s defs o (x :: rest) key name sub) :
    Picks s defs o [x] key name sub ∨ Picks s defs o rest key name sub := by
  cases h with
  | field h => exact (List.mem_cons.1 h).imp (fun h => .field (List.mem_singleton.2 h)) .field
  | spread h1 h2 h3 h4 =>
    exact (List.mem_cons.1 h1).imp (fun h => .spread (List.mem_singleton.2 h) h2 h3 h4) fun h => .spread h h2 h3 h4
  | inline h1 h2 h3 =>
    exact (List.mem_cons.1 h1).imp (fun h => .inline (List.mem_singleton.2 h) h2 h3) fun h => .inline h h2 h3
  | inlineAny h1 h2 =>
    exact (List.mem_cons.1 h1).imp (fun h => .inlineAny (List.mem_singleton.2 h) h2) fun h => .inlineAny h h2

theorem picks_nil {o key name : String} {sub : List Sel} (h : Picks s defs o [] key name sub) : False := by
  cases h with
  | field h => cases h
  | spread h => cases h
  | inline h => cases h
  | inlineAny h => cases h

theorem picks_single_field {o n key name : String} {al : Option String} {args : List (String × Value)}
    {sub sub' : List Sel} (h : Picks s defs o [.field n al args sub'] key name sub) :
    key = al.getD n ∧ name = n ∧ sub = sub' := by
  cases h with
  | field h => cases List.mem_singleton.1 h; exact ⟨rfl, rfl, rfl⟩
  | spread h => cases List.mem_singleton.1 h
  | inline h => cases List.mem_singleton.1 h
  | inlineAny h => cases List.mem_singleton.1 h

theorem picks_single_spread {o f key name : String} {sub : List Sel} (h : Picks s defs o [.spread f] key name sub) :
    ∃ d, defs.get? f = some d ∧ Possible s d.typeCondition o ∧ Picks s defs o d.sels key name sub := by
  cases h with
  | field h => cases List.mem_singleton.1 h
  | spread h h2 h3 h4 => cases List.mem_singleton.1 h; exact ⟨_, h2, h3, h4⟩
  | inline h => cases List.mem_singleton.1 h
  | inlineAny h => cases List.mem_singleton.1 h

theorem picks_single_inline {o t key name : String} {inner sub : List Sel}
    (h : Picks s defs o [.inline (some t) inner] key name sub) :
    Possible s t o ∧ Picks s defs o inner key name sub := by
  cases h with
  | field h => cases List.mem_singleton.1 h
  | spread h => cases List.mem_singleton.1 h
  | inline h h2 h3 => cases List.mem_singleton.1 h; exact ⟨h2, h3⟩
  | inlineAny h => cases List.mem_singleton.1 h

/-- a field comes from one of the selections -/
theorem picks_from {o : String} {sels : List Sel} {key name : String} {sub : List Sel}
    (h : Picks s defs o sels key name sub) : ∃ x ∈ sels, Picks s defs o [x] key name sub := by
  induction sels with
  | nil => exact (picks_nil h).elim
  | cons x rest ih =>
    rcases picks_cons h with h | h
    · exact ⟨x, List.mem_cons_self .., h⟩
    · obtain ⟨y, hy, h⟩ := ih h
      exact ⟨y, List.mem_cons_of_mem _ hy, h⟩

theorem _root_.Turms.Spec.Apart.imp {o : String} {a b : List Sel} (h : Apart c defs o b)
    (hp : ∀ key name sub, Picks c.schema defs o a key name sub → Picks c.schema defs o b key name sub) :
    Apart c defs o a :=
  ⟨fun k n u n' u' p p' => h.once k n u n' u' (hp _ _ _ p) (hp _ _ _ p'),
    fun k n u k' n' u' x p p' => h.attrs k n u k' n' u' x (hp _ _ _ p) (hp _ _ _ p'),
    fun k n u p => h.reserved k n u (hp _ _ _ p)⟩

/-! ## the classes of an annotation -/

theorem member_subscript {x : String} {t : Expr} {m : String} (h : Member T (.subscript (.name x) t) m) :
    (x = "Optional" ∧ Member T t m) ∨ (x = "List" ∧ Member T t m) ∨
    (x = "Tuple" ∧ ∃ a, t = .tuple [a, .const .ellipsis] ∧ Member T a m) ∨
    (x = "Union" ∧ ∃ ts, t = .tuple ts ∧ ∃ a ∈ ts, Member T a m) ∨
    (x = "Annotated" ∧ ∃ a ms, t = .tuple (a :: ms) ∧ Member T a m) := by
  generalize he : Expr.subscript (.name x) t = e at h
  cases h with
  | cls => cases he
  | alias => cases he
  | forward => cases he
  | optional h => injection he with h1 h2; injection h1 with h1; subst h2; exact .inl ⟨h1, h⟩
  | list h => injection he with h1 h2; injection h1 with h1; subst h2; exact .inr (.inl ⟨h1, h⟩)
  | tuple h =>
    injection he with h1 h2; injection h1 with h1; exact .inr (.inr (.inl ⟨h1, _, h2, h⟩))
  | union h h' =>
    injection he with h1 h2; injection h1 with h1; exact .inr (.inr (.inr (.inl ⟨h1, _, h2, _, h, h'⟩)))
  | annotated h =>
    injection he with h1 h2; injection h1 with h1; exact .inr (.inr (.inr (.inr ⟨h1, _, _, h2, h⟩)))

theorem member_optional {t : Expr} {m : String} : Member T (sub "Optional" t) m ↔ Member T t m := by
  constructor
  · intro h
    rcases member_subscript h with ⟨_, h⟩ | ⟨e, _⟩ | ⟨e, _⟩ | ⟨e, _⟩ | ⟨e, _⟩
    · exact h
    all_goals exact absurd e (by decide)
  · exact .optional

theorem member_listBuilder {b : Bool} {t : Expr} {m : String} : Member T (listBuilder b t) m ↔ Member T t m := by
  unfold listBuilder
  split
  · constructor
    · intro h
      rcases member_subscript h with ⟨e, _⟩ | ⟨e, _⟩ | ⟨_, a, e, h⟩ | ⟨e, _⟩ | ⟨e, _⟩
      · exact absurd e (by decide)
      · exact absurd e (by decide)
      · injection e with e; injection e with e; rw [e]; exact h
      · exact absurd e (by decide)
      · exact absurd e (by decide)
    · exact .tuple
  · constructor
    · intro h
      rcases member_subscript h with ⟨e, _⟩ | ⟨_, h⟩ | ⟨e, _⟩ | ⟨e, _⟩ | ⟨e, _⟩
      · exact absurd e (by decide)
      · exact h
      all_goals exact absurd e (by decide)
    · exact .list

theorem member_union {ts : List Expr} {m : String} :
    Member T (sub "Union" (.tuple ts)) m ↔ ∃ t ∈ ts, Member T t m := by
  constructor
  · intro h
    rcases member_subscript h with ⟨e, _⟩ | ⟨e, _⟩ | ⟨e, _⟩ | ⟨_, ts', e, h⟩ | ⟨e, _⟩
    · exact absurd e (by decide)
    · exact absurd e (by decide)
    · exact absurd e (by decide)
    · injection e with e; rw [e]; exact h
    · exact absurd e (by decide)
  · rintro ⟨t, h1, h2⟩; exact .union h1 h2

theorem member_annotated {t : Expr} {ms : List Expr} {m : String} :
    Member T (sub "Annotated" (.tuple (t :: ms))) m ↔ Member T t m := by
  constructor
  · intro h
    rcases member_subscript h with ⟨e, _⟩ | ⟨e, _⟩ | ⟨e, _⟩ | ⟨e, _⟩ | ⟨_, a, ms', e, h⟩
    · exact absurd e (by decide)
    · exact absurd e (by decide)
    · exact absurd e (by decide)
    · exact absurd e (by decide)
    · injection e with e; injection e with e; rw [e]; exact h
  · exact .annotated

theorem member_forward {n m : String} : Member T (.const (.str n)) m ↔ Member T (.name n) m := by
  constructor
  · intro h; cases h with
    | forward h => exact h
  · exact .forward

theorem member_if {o : Bool} {e : Expr} {m : String} :
    Member T (if o then sub "Optional" e else e) m ↔ Member T e m := by
  cases o with
  | true => exact member_optional
  | false => exact Iff.rfl

/-- the name of a class stands for that class only -/
theorem member_class (ha : UniqueAliases T) {n m : String} (hc : IsClass T n) : Member T (.name n) m ↔ m = n := by
  constructor
  · intro h
    cases h with
    | cls => rfl
    | alias h => exact ((ha _ _ h).1 hc).elim
  · rintro rfl; exact .cls hc

theorem member_alias (ha : UniqueAliases T) {n m : String} {e : Expr} (he : Stmt.assign (.name n) e ∈ T) :
    Member T (.name n) m ↔ Member T e m := by
  constructor
  · intro h
    cases h with
    | cls h => exact ((ha _ _ he).1 h).elim
    | alias h h' => rw [(ha _ _ he).2 _ h] at h'; exact h'
  · exact .alias he

/-- what an annotation offers depends on its classes only -/
theorem offers_congr {e e' : Expr} {path : List (String × String)} (h : ∀ m, Member T e' m ↔ Member T e m)
    (ho : Offers T e path) : Offers T e' path := by
  cases path with
  | nil => trivial
  | cons p rest =>
    obtain ⟨o, key⟩ := p
    obtain ⟨⟨n, h1, h2⟩, h3⟩ := ho
    exact ⟨⟨n, (h n).2 h1, h2⟩, fun m hm => h3 m ((h m).1 hm)⟩

/-- the annotation offers everything a field with these sub-selections asks for -/
def Keeps (s : Schema) (defs : Dict FragDef) (T : List Stmt) (t : TypeNode) (sels : List Sel) (e : Expr) : Prop :=
  ∀ path, Asks s defs t sels path → Offers T e path

theorem Keeps.congr {t : TypeNode} {sels : List Sel} {e e' : Expr} (h : Keeps s defs T t sels e)
    (hm : ∀ m, Member T e' m ↔ Member T e m) : Keeps s defs T t sels e' :=
  fun path hp => offers_congr hm (h path hp)

theorem Keeps.of_base {t t' : TypeNode} {sels : List Sel} {e : Expr} (h : Keeps s defs T t sels e)
    (hb : ∀ o, Possible s t'.base o → Possible s t.base o) : Keeps s defs T t' sels e :=
  fun path hp => h path (asks_of_base hp hb)

theorem keeps_leaf {t : TypeNode} {sels : List Sel} {e : Expr} (h : IsLeaf s t.base) : Keeps s defs T t sels e := by
  intro path hp
  cases hp with
  | done => trivial
  | step h1 => exact (possible_not_leaf h1 h).elim

/-! ## values accepted -/

/-- values accepted for the annotation deliver what a field with these sub-selections promises -/
def Guards (c : Ctx) (defs : Dict FragDef) (T : List Stmt) (W : Reading) (t : TypeNode) (sels : List Sel) (e : Expr) :
    Prop :=
  Assumed c T W → ∀ v, MayAccept T W.isa e v → Delivers c.schema defs W.leaf c.config.createCatchall t sels v

/-- the type a node stands for: without `Optional[...]` null is not accepted -/
def optType (opt : Bool) (t : TypeNode) : TypeNode := if opt then t else .nonNull t

/-- whatever is accepted for the annotation is accepted by one of its classes -/
def ByClass (T : List Stmt) (e : Expr) : Prop :=
  ∀ isa v, MayAccept T isa e v → ∃ m, Member T e m ∧ MayAccept T isa (.name m) v

theorem byClass_class {n : String} (hc : IsClass T n) : ByClass T (.name n) := by
  intro isa v h
  exact ⟨n, .cls hc, h⟩

/-- what holds of an annotation for a node -/
structure NodeK (c : Ctx) (defs : Dict FragDef) (T : List Stmt) (W : Reading) (opt : Bool) (t : TypeNode)
    (sels : List Sel) (e : Expr) : Prop where
  keeps : Keeps c.schema defs T (.named t.base) sels e
  guards : Guards c defs T W (optType opt t) sels e

theorem delivers_nonNull {t : TypeNode} {sels : List Sel} {v : Val} {leaf : String → Val → Prop} {b : Bool}
    (h : Delivers s defs leaf b (.nonNull t) sels v) : Delivers s defs leaf b (.nonNull (.nonNull t)) sels v := by
  cases h with
  | null h => cases h
  | nonNull h1 h2 => exact .nonNull h1 (.nonNull h1 h2)

/-- an object or list is not null -/
theorem guards_optional {opt : Bool} {t : TypeNode} {sels : List Sel} {e : Expr} (hn : t.isNonNull = false)
    (h : Assumed c T W → ∀ v, MayAccept T W.isa e v →
      (v = .null → ∃ n, namedOf t = some n ∧ IsLeaf c.schema n ∧ W.leaf n .null) ∧
      Delivers c.schema defs W.leaf c.config.createCatchall t sels v) :
    Guards c defs T W (optType opt t) sels (if opt then sub "Optional" e else e) := by
  intro hA v hv
  unfold optType
  rcases mayAccept_if hv with ⟨rfl, rfl⟩ | hv
  · exact .null hn
  · obtain ⟨h1, h2⟩ := h hA v hv
    cases opt with
    | true => exact h2
    | false => exact .nonNull h1 h2

/-! ## declarations -/

/-- a declaration for a field of this type: it may be left out only if the field is nullable -/
structure Fitting (c : Ctx) (defs : Dict FragDef) (T : List Stmt) (W : Reading) (t : TypeNode) (sels : List Sel)
    (f : MField) : Prop where
  required : f.hasDefault = true → t.isNonNull = false
  guards : Guards c defs T W t sels f.ann

/-- the declaration is for a selected field and offers what the field asks for -/
def OwnAny (c : Ctx) (defs : Dict FragDef) (T : List Stmt) (W : Reading) (o p : String) (sels : List Sel) (st : Stmt) :
    Prop :=
  ∀ f, fieldOf st = some f → ∃ name sub t t0 attr, PicksAt c.schema defs o p sels f.key name sub t0 ∧
    FieldType c.schema o name t ∧ attrOf st = some attr ∧ generateNodeName c.env.stylers f.key = .ok attr ∧
    Keeps c.schema defs T t sub f.ann ∧ Fitting c defs T W t0 sub f

/-- the same, and the field is not `__typename` -/
def Own (c : Ctx) (defs : Dict FragDef) (T : List Stmt) (W : Reading) (o p : String) (sels : List Sel) (st : Stmt) :
    Prop :=
  ∀ f, fieldOf st = some f → ∃ name sub t t0 attr, name ≠ "__typename" ∧
    PicksAt c.schema defs o p sels f.key name sub t0 ∧
    FieldType c.schema o name t ∧ attrOf st = some attr ∧ generateNodeName c.env.stylers f.key = .ok attr ∧
    Keeps c.schema defs T t sub f.ann ∧ Fitting c defs T W t0 sub f

/-- a declaration of a class for objects of type `o` -/
def Src (c : Ctx) (defs : Dict FragDef) (T : List Stmt) (W : Reading) (o p : String) (sels : List Sel) (st : Stmt) :
    Prop :=
  st = typenameStmt c o ∨ Own c defs T W o p sels st

/-- the statement declares the response key -/
def Keys (st : Stmt) (key : String) : Prop := ∃ f, fieldOf st = some f ∧ f.key = key

theorem Own.imp {o p q : String} {a b : List Sel} {st : Stmt} (h : Own c defs T W o p a st)
    (hp : ∀ key name sub t, PicksAt c.schema defs o p a key name sub t → PicksAt c.schema defs o q b key name sub t) :
    Own c defs T W o q b st := by
  intro f hf
  obtain ⟨n, u, t, t0, x, h1, h2, h3⟩ := h f hf
  exact ⟨n, u, t, t0, x, h1, hp _ _ _ _ h2, h3⟩

theorem own_none {o p : String} {sels : List Sel} {st : Stmt} (h : fieldOf st = none) : Own c defs T W o p sels st :=
  fun f hf => by rw [h] at hf; cases hf

theorem Src.imp {o p q : String} {a b : List Sel} {st : Stmt} (h : Src c defs T W o p a st)
    (hp : ∀ key name sub t, PicksAt c.schema defs o p a key name sub t → PicksAt c.schema defs o q b key name sub t) :
    Src c defs T W o q b st := Or.imp id (fun h => Own.imp h hp) h

/-- `n` is a class for the selections (on the type `p`) on objects of type `o`: it is tagged, declares nothing else and
declares everything selected -/
structure Models (c : Ctx) (defs : Dict FragDef) (T : List Stmt) (W : Reading) (o p : String) (sels : List Sel)
    (n : String) : Prop where
  cls : IsClass T n
  tag : Declared T n (typenameStmt c o)
  only : ∀ st, Declared T n st → Src c defs T W o p sels st
  all : ∀ key name sub, Picks c.schema defs o sels key name sub → name ≠ "__typename" →
    ∃ st, Declared T n st ∧ Keys st key

theorem Models.isFor {o p n : String} {sels : List Sel} (h : Models c defs T W o p sels n) : IsFor T n o :=
  tagged_typename h.tag

/-- no other tag -/
theorem Models.tag_eq {o o' p n : String} {sels : List Sel} (h : Models c defs T W o p sels n)
    (ha : Apart c defs o sels) (ht : IsFor T n o') : o' = o := by
  obtain ⟨st, f, hd, _, hf, hk, he⟩ := ht
  rcases h.only st hd with rfl | hown
  · rw [fieldOf_typenameStmt] at hf
    cases hf
    injection he with _ he
    injection he with he
    injection he with he
    exact he.symm
  · obtain ⟨name, sub, t, t0, attr, h1, h2, _⟩ := hown f hf
    exact ((ha.reserved _ _ _ (picksAt_picks h2) h1).1 hk).elim

theorem Models.carries (hf : FieldsOnce c.schema) {o p n : String} {sels : List Sel}
    (h : Models c defs T W o p sels n)
    (ha : Apart c defs o sels) {key name : String} {sub : List Sel} {t : TypeNode} {rest : List (String × String)}
    (hp : Picks c.schema defs o sels key name sub) (hn : name ≠ "__typename") (ht : FieldType c.schema o name t)
    (hr : Asks c.schema defs t sub rest) : Carries T n key fun ann => Offers T ann rest := by
  obtain ⟨st, hd, f, h1, h2⟩ := h.all key name sub hp hn
  obtain ⟨hkey, hattr⟩ := ha.reserved _ _ _ hp hn
  refine ⟨⟨st, f, hd, h1, h2⟩, ?_⟩
  intro st f attr hd hf1 hk hat
  rcases h.only st hd with rfl | hown
  · rw [fieldOf_typenameStmt] at hf1
    cases hf1
    exact (hkey hk.symm).elim
  · obtain ⟨name', sub', t', t0, attr', h3, h4, h5, h6, h7, h8, _⟩ := hown f hf1
    replace h4 := picksAt_picks h4
    rw [hk] at h4 h7
    rw [hat] at h6
    cases h6
    obtain ⟨rfl, rfl⟩ := ha.once _ _ _ _ _ hp h4
    cases hf _ _ _ _ ht h5
    refine ⟨h8 rest hr, (hattr attr h7).2, ?_⟩
    intro st' f' hd' hf' hat'
    rcases h.only st' hd' with rfl | hown'
    · cases hat'
      exact ((hattr _ h7).1 rfl).elim
    · obtain ⟨n2, u2, t2, _, a2, _, g2, _, g4, g5, _⟩ := hown' f' hf'
      rw [hat'] at g4
      cases g4
      exact ha.attrs _ _ _ _ _ _ _ (picksAt_picks g2) hp g5 h7

/-- what such a class accepts delivers what the selections promise -/
theorem Models.delivers {o p n : String} {sels : List Sel} {v : Val} (h : Models c defs T W o p sels n)
    (ha : Apart c defs o sels) (hu : UniqueAliases T) (hA : Assumed c T W) (hv : MayAccept T W.isa (.name n) v) :
    ∃ kvs, v = .obj kvs ∧ (∀ x, Val.entry kvs "__typename" = some x → x = .atom o) ∧
      DeliversFields c.schema defs W.leaf c.config.createCatchall o p sels kvs := by
  obtain ⟨kvs, rfl, hall⟩ := mayAccept_class hu h.cls hv
  refine ⟨kvs, rfl, ?_, ?_⟩
  · intro x hx
    obtain ⟨st, f, hd, hat, hf, _, hk⟩ := hall "typename" ⟨by decide, _, h.tag, rfl⟩
    rcases h.only st hd with rfl | hown
    · rw [fieldOf_typenameStmt] at hf
      cases hf
      exact mayAccept_literal (hk x hx)
    · obtain ⟨name, sub, t, t0, attr, h1, h2, _, h4, h5, _⟩ := hown f hf
      rw [hat] at h4
      cases h4
      exact (((ha.reserved _ _ _ (picksAt_picks h2) h1).2 _ h5).1 rfl).elim
  · intro key name sub hp hn
    obtain ⟨hkey, hattr⟩ := ha.reserved _ _ _ hp hn
    obtain ⟨st, hd, f, h1, h2⟩ := h.all key name sub hp hn
    rcases h.only st hd with rfl | hown
    · rw [fieldOf_typenameStmt] at h1
      cases h1
      exact (hkey h2.symm).elim
    obtain ⟨_, _, _, _, attr, _, _, _, h3, h4, _⟩ := hown f h1
    rw [h2] at h4
    obtain ⟨st', f', hd', hat', hf', hreq, hval⟩ := hall attr ⟨(hattr attr h4).2, _, hd, h3⟩
    rcases h.only st' hd' with rfl | hown'
    · cases hat'
      exact ((hattr _ h4).1 rfl).elim
    obtain ⟨name', sub', _, t0, attr', _, g2, _, g4, g5, _, g7⟩ := hown' f' hf'
    rw [hat'] at g4
    cases g4
    have hk : f'.key = key := ha.attrs _ _ _ _ _ _ _ (picksAt_picks g2) hp g5 h4
    rw [hk] at g2 hreq hval
    obtain ⟨rfl, rfl⟩ := ha.once _ _ _ _ _ hp (picksAt_picks g2)
    exact ⟨t0, g2, fun e => g7.required (hreq e), fun x hx => g7.guards hA x (hval x hx)⟩

/-- one type for each key -/
theorem deliversFields_types {leaf : String → Val → Prop} {b : Bool} {o p : String} {sels : List Sel}
    {kvs : List (String × Val)} (ha : Apart c defs o sels) (h : DeliversFields c.schema defs leaf b o p sels kvs) :
    ∃ ty : String → TypeNode,
      (∀ key name sub, Picks c.schema defs o sels key name sub → name ≠ "__typename" →
        PicksAt c.schema defs o p sels key name sub (ty key) ∧
          (Val.entry kvs key = none → (ty key).isNonNull = false)) ∧
      ∀ key name sub x, Picks c.schema defs o sels key name sub → name ≠ "__typename" → Val.entry kvs key = some x →
        Delivers c.schema defs leaf b (ty key) sub x := by
  have hk : ∀ key, ∃ t : TypeNode, ∀ name sub, Picks c.schema defs o sels key name sub → name ≠ "__typename" →
      PicksAt c.schema defs o p sels key name sub t ∧ (Val.entry kvs key = none → t.isNonNull = false) ∧
      ∀ x, Val.entry kvs key = some x → Delivers c.schema defs leaf b t sub x := by
    intro key
    by_cases he : ∃ name sub, Picks c.schema defs o sels key name sub ∧ name ≠ "__typename"
    · obtain ⟨name, sub, hp, hn⟩ := he
      obtain ⟨t, h1⟩ := h key name sub hp hn
      refine ⟨t, fun name' sub' hp' _ => ?_⟩
      obtain ⟨rfl, rfl⟩ := ha.once _ _ _ _ _ hp hp'
      exact h1
    · exact ⟨.named "", fun name sub hp hn => (he ⟨name, sub, hp, hn⟩).elim⟩
  refine ⟨fun key => Classical.choose (hk key), fun key name sub hp hn => ?_, fun key name sub x hp hn => ?_⟩
  · obtain ⟨h1, h2, _⟩ := Classical.choose_spec (hk key) name sub hp hn
    exact ⟨h1, h2⟩
  · exact (Classical.choose_spec (hk key) name sub hp hn).2.2 x

/-- an annotation keeps everything if it has, for every possible object type, a class, and all its classes are for
the selections -/
theorem keeps_of_models (hf : FieldsOnce c.schema) {n p : String} {sels : List Sel} {e : Expr}
    (ha : ∀ o, Possible c.schema n o → Apart c defs o sels)
    (h1 : ∀ o, Possible c.schema n o → ∃ m, Member T e m ∧ IsFor T m o)
    (h2 : ∀ o m, Possible c.schema n o → Member T e m → IsFor T m o → Models c defs T W o p sels m) :
    Keeps c.schema defs T (.named n) sels e := by
  intro path hp
  cases hp with
  | done => trivial
  | step g1 g2 g3 g4 g5 =>
    exact ⟨h1 _ g1, fun m hm hm' => (h2 _ m g1 hm hm').carries hf (ha _ g1) g2 g3 g4 g5⟩

/-- a class is a model of the selections if its own declarations and its bases are -/
theorem models_class (hu : UniqueClasses T) {o p n : String} {sels : List Sel} {bases : List Expr} {body : List Stmt}
    {ds : List Expr} (hc : Stmt.classDef n bases body ds ∈ T)
    (ht : typenameStmt c o ∈ body ∨ ∃ b, Expr.name b ∈ bases ∧ Declared T b (typenameStmt c o))
    (hb : ∀ b, Expr.name b ∈ bases → ∀ st, Declared T b st → Src c defs T W o p sels st)
    (hs : ∀ st ∈ body, Src c defs T W o p sels st)
    (ha : ∀ key name sub, Picks c.schema defs o sels key name sub → name ≠ "__typename" →
      (∃ st ∈ body, Keys st key) ∨ ∃ b st, Expr.name b ∈ bases ∧ Declared T b st ∧ Keys st key) :
    Models c defs T W o p sels n := by
  refine ⟨⟨_, _, _, hc⟩, ?_, ?_, ?_⟩
  · rcases ht with ht | ⟨b, h1, h2⟩
    · exact .own hc ht
    · exact .inherited hc h1 h2
  · intro st hd
    cases hd with
    | own h1 h2 =>
      obtain ⟨_, rfl, _⟩ := hu _ _ _ _ _ _ _ h1 hc
      exact hs _ h2
    | inherited h1 h2 h3 =>
      obtain ⟨rfl, _, _⟩ := hu _ _ _ _ _ _ _ h1 hc
      exact hb _ h2 _ h3
  · intro key name sub hp hn
    rcases ha key name sub hp hn with ⟨st, h1, h2⟩ | ⟨b, st, h1, h2, h3⟩
    · exact ⟨st, .own hc h1, h2⟩
    · exact ⟨st, .inherited hc h1 h2, h3⟩

theorem declared_external {n : String} {st : Stmt} (h : ¬ IsClass T n) : ¬ Declared T n st := by
  intro hd
  cases hd with
  | own h1 => exact h ⟨_, _, _, h1⟩
  | inherited h1 => exact h ⟨_, _, _, h1⟩

/-! ## fields -/

/-- wrapping does not change the classes, and adds what the type says -/
theorem wrapOutput_keeps {leafG : String → Bool → Gen (Expr × List Stmt)} {sels : List Sel} {t : TypeNode} :
    ∀ {opt : Bool} {r : Reg},
    (∀ opt r1, Quiet r r1 → Quietly (leafG t.base opt) r1 fun x => (∀ st ∈ x.2, st ∈ T) →
      NodeK c defs T W opt (.named t.base) sels x.1) →
    Quietly (wrapOutput c leafG t opt) r fun x => (∀ st ∈ x.2, st ∈ T) → NodeK c defs T W opt t sels x.1 := by
  induction t with
  | named n => intro opt r h; exact h opt r (.refl _)
  | nonNull t ih =>
    intro opt r h
    refine (ih (opt := false) h).mono fun x hx hT => ?_
    obtain ⟨h1, h2⟩ := hx hT
    refine ⟨h1, fun hA v hv => ?_⟩
    have := h2 hA v hv
    cases opt with
    | true => exact this
    | false => exact delivers_nonNull this
  | list t ih =>
    intro opt r h
    unfold wrapOutput
    refine quietly_listImport.bind fun _ r1 q1 _ => ?_
    refine (ih (opt := true) fun o r2 q2 => h o r2 (q1.trans q2)).bind fun x r2 _ hx => ?_
    refine quietly_optionalWrap.bind fun e r3 _ he => .pure ?_
    intro hT
    dsimp only
    rw [he]
    refine ⟨((hx hT).keeps.congr fun _ => member_listBuilder).congr fun _ => member_if, ?_⟩
    refine guards_optional rfl fun hA v hv => ?_
    obtain ⟨l, rfl, hl⟩ := mayAccept_listBuilder hv
    exact ⟨fun e => (by cases e), .list fun y hy => (hx hT).guards hA y (hl y hy)⟩

/-- the statements of a field declaration -/
structure FieldStmts (c : Ctx) (defs : Dict FragDef) (T : List Stmt) (W : Reading) (target : String) (t : TypeNode)
    (sels : List Sel) (ss : List Stmt) : Prop where
  only : ∀ st ∈ ss, ∀ f, fieldOf st = some f → f.key = target ∧
    (∃ attr, attrOf st = some attr ∧ generateNodeName c.env.stylers target = .ok attr) ∧
    Keeps c.schema defs T t sels f.ann ∧ Fitting c defs T W t sels f
  has : ∃ st ∈ ss, Keys st target

theorem typeField_keeps {fd : FieldDef} {target : String} {leafG : String → Bool → Gen (Expr × List Stmt)}
    {sels : List Sel} {r : Reg}
    (h : ∀ opt r1, Quiet r r1 → Quietly (leafG fd.type.base opt) r1 fun x => (∀ st ∈ x.2, st ∈ T) →
      NodeK c defs T W opt (.named fd.type.base) sels x.1) :
    Quietly (typeField c fd target leafG) r fun x => (∀ st ∈ x.2, st ∈ T) →
      FieldStmts c defs T W target fd.type sels x.1 := by
  unfold typeField
  refine quietly_nodeName.bind fun fieldName r1 q1 hname => ?_
  have hw : Quietly (wrapOutput c leafG fd.type true) r1 fun x => (∀ st ∈ x.2, st ∈ T) →
      NodeK c defs T W true fd.type sels x.1 :=
    wrapOutput_keeps fun o r2 q2 => h o r2 (q1.trans q2)
  refine hw.bind fun x r2 _ hx => ?_
  have hf : Quietly (finishField c fieldName target fd x.1) r2 fun ss =>
      NodeK c defs T W true fd.type sels x.1 → FieldStmts c defs T W target fd.type sels ss := by
    unfold finishField
    refine quietly_annotateFieldMetadata.bind fun a r3 _ ha => ?_
    refine quietly_objectFieldValue.bind fun v r4 _ hv => .pure ?_
    intro hk
    refine ⟨?_, ⟨_, List.mem_cons_self .., _, (hv a).1, rfl⟩⟩
    intro st hst f hf
    rcases List.mem_cons.1 hst with rfl | hst
    · rw [(hv a).1] at hf
      cases hf
      refine ⟨rfl, ⟨fieldName, rfl, hname⟩, ?_, ?_, ?_⟩
      · have hk' := hk.keeps.of_base (t' := fd.type) fun _ h => h
        rcases ha with rfl | ⟨ms, rfl, _⟩
        · exact hk'
        · exact hk'.congr fun _ => member_annotated
      · intro e; simpa using e
      · rcases ha with rfl | ⟨ms, rfl, hms⟩
        · exact hk.guards
        · exact fun hA v hv => hk.guards hA v (mayAccept_plain hms hv)
    · revert hst
      split
      · intro hst; rw [List.mem_singleton.1 hst] at hf; cases hf
      · intro hst; cases hst
  exact hf.bind fun ss r3 _ hss => .pure fun hT => hss (hx hT)

/-- the statements of a selected field -/
theorem FieldStmts.own {name : String} {al : Option String} {args : List (String × Value)} {sub : List Sel}
    {t t' : TypeNode} {ss : List Stmt} {o p : String} (h : FieldStmts c defs T W (al.getD name) t sub ss)
    (hn : name ≠ "__typename") (hp : FieldAt c.schema p name t) (ht : FieldType c.schema o name t')
    (hsub : ∀ o', Possible c.schema t'.base o' → Possible c.schema t.base o') :
    ∀ st ∈ ss, Own c defs T W o p [.field name al args sub] st := by
  intro st hst f hf
  obtain ⟨h1, ⟨attr, h2, h3⟩, h4, h5⟩ := h.only st hst f hf
  refine ⟨name, sub, t', t, attr, hn, ?_, ht, h2, by rw [h1]; exact h3, h4.of_base hsub, h5⟩
  rw [h1]
  exact .field (List.mem_singleton.2 rfl) hp

theorem FieldStmts.all {name : String} {al : Option String} {args : List (String × Value)} {sub sub' : List Sel}
    {t : TypeNode} {ss : List Stmt} {o key name' : String} (h : FieldStmts c defs T W (al.getD name) t sub ss)
    (hp : Picks c.schema defs o [.field name al args sub] key name' sub') : ∃ st ∈ ss, Keys st key := by
  obtain ⟨rfl, _, _⟩ := picks_single_field hp
  exact h.has

end
end Turms
