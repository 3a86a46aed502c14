import Verif.Lemmas.Quiet

/-! # Generated response models accept what a server may answer: the semantic part -/

namespace Turms
open Spec

section
variable {s : Schema} {defs : Dict FragDef} {leaf : String → Val → Prop} {T : List Stmt} {isa : String → Val → Prop}

/-! ## GraphQL results -/

theorem Picks.mono {o : String} {a b : List Sel} {key name : String} {sub : List Sel}
    (h : Picks s defs o a key name sub) (hs : ∀ x ∈ a, x ∈ b) : Picks s defs o b key name sub := by
  cases h with
  | field h => exact .field (hs _ h)
  | spread h1 h2 h3 h4 => exact .spread (hs _ h1) h2 h3 h4
  | inline h1 h2 h3 => exact .inline (hs _ h1) h2 h3
  | inlineAny h1 h2 => exact .inlineAny (hs _ h1) h2

theorem _root_.Turms.Spec.SparseResult.imp {o : String} {a b : List Sel} {kvs : List (String × Val)}
    (h : SparseResult s defs leaf o b kvs)
    (hp : ∀ key name sub, Picks s defs o a key name sub → Picks s defs o b key name sub) :
    SparseResult s defs leaf o a kvs :=
  ⟨fun k n u p => h.present k n u (hp _ _ _ p), fun k n u t x p => h.conforms k n u t x (hp _ _ _ p),
    fun k u p => h.typename k u (hp _ _ _ p), h.reserved⟩

theorem _root_.Turms.Spec.SparseResult.mono {o : String} {a b : List Sel} {kvs : List (String × Val)}
    (h : SparseResult s defs leaf o b kvs) (hs : ∀ x ∈ a, x ∈ b) : SparseResult s defs leaf o a kvs :=
  h.imp fun _ _ _ p => Picks.mono p hs

theorem _root_.Turms.Spec.SparseResult.spread {o f : String} {d : FragDef} {sels : List Sel} {kvs : List (String × Val)}
    (h : SparseResult s defs leaf o sels kvs) (hf : Sel.spread f ∈ sels) (hd : defs.get? f = some d)
    (hp : Possible s d.typeCondition o) : SparseResult s defs leaf o d.sels kvs :=
  h.imp fun _ _ _ p => .spread hf hd hp p

theorem _root_.Turms.Spec.SparseResult.inline {o t : String} {inner sels : List Sel} {kvs : List (String × Val)}
    (h : SparseResult s defs leaf o sels kvs) (hf : Sel.inline (some t) inner ∈ sels)
    (hp : Possible s t o) : SparseResult s defs leaf o inner kvs :=
  h.imp fun _ _ _ p => .inline hf hp p

theorem possible_object {n o : String} (hn : IsObject s n) (h : Possible s n o) : o = n := by
  obtain ⟨fs, is, hn⟩ := hn
  cases h with
  | object => rfl
  | interface h1 h2 h3 => obtain ⟨_, _, h1⟩ := h1; rw [h1] at hn; cases hn
  | union h1 h2 h3 => rw [h1] at hn; cases hn

theorem possible_isObject {n o : String} (h : Possible s n o) : IsObject s o := by
  cases h with
  | object h => exact h
  | interface h1 h2 h3 => exact ⟨_, _, h2⟩
  | union h1 h2 h3 => exact h2

theorem possible_interface {n o : String} (hn : IsInterface s n) (h : Possible s n o) :
    ∃ fs is, s.lookup o = some (.object fs is) ∧ n ∈ is := by
  obtain ⟨fs, is, hn⟩ := hn
  cases h with
  | object h => obtain ⟨_, _, h⟩ := h; rw [h] at hn; cases hn
  | interface h1 h2 h3 => exact ⟨_, _, h2, h3⟩
  | union h1 h2 h3 => rw [h1] at hn; cases hn

theorem possible_union {n o : String} {ms : List String} (hn : s.lookup n = some (.union ms))
    (h : Possible s n o) : IsObject s o ∧ o ∈ ms := by
  cases h with
  | object h => obtain ⟨_, _, h⟩ := h; rw [h] at hn; cases hn
  | interface h1 h2 h3 => obtain ⟨_, _, h1⟩ := h1; rw [h1] at hn; cases hn
  | union h1 h2 h3 => rw [h1] at hn; cases hn; exact ⟨h2, h3⟩

theorem possible_not_leaf {n o : String} (h : Possible s n o) : ¬ IsLeaf s n := by
  intro hl
  cases h with
  | object h => obtain ⟨_, _, h⟩ := h; rcases hl with hl | ⟨_, hl⟩ <;> rw [hl] at h <;> cases h
  | interface h1 h2 h3 => obtain ⟨_, _, h⟩ := h1; rcases hl with hl | ⟨_, hl⟩ <;> rw [hl] at h <;> cases h
  | union h1 h2 h3 => rcases hl with hl | ⟨_, hl⟩ <;> rw [hl] at h1 <;> cases h1

/-- a possible result of a composite type is `null` or the result of an object -/
theorem conforms_composite {n : String} {sels : List Sel} {v : Val} (hn : ¬ IsLeaf s n)
    (h : SparseConforms s defs leaf (.named n) sels v) :
    v = .null ∨ ∃ o kvs, v = .obj kvs ∧ Possible s n o ∧ SparseResult s defs leaf o sels kvs := by
  cases h with
  | null => exact .inl rfl
  | leaf h => exact (hn h).elim
  | object h1 h2 h3 h4 h5 => exact .inr ⟨_, _, rfl, h1, h2, h3, h4, h5⟩

theorem conforms_leaf {n : String} {sels : List Sel} {v : Val} (hn : IsLeaf s n)
    (h : SparseConforms s defs leaf (.named n) sels v) : v = .null ∨ leaf n v := by
  cases h with
  | null => exact .inl rfl
  | leaf _ h => exact .inr h
  | object h1 => exact (possible_not_leaf h1 hn).elim

theorem conforms_nonNull {t : TypeNode} {sels : List Sel} {v : Val}
    (h : SparseConforms s defs leaf (.nonNull t) sels v) : v ≠ .null ∧ SparseConforms s defs leaf t sels v := by
  cases h with
  | null h => cases h
  | nonNull h1 h2 => exact ⟨h1, h2⟩

theorem conforms_list {t : TypeNode} {sels : List Sel} {v : Val} (h : SparseConforms s defs leaf (.list t) sels v) :
    v = .null ∨ ∃ l, v = .list l ∧ ∀ x ∈ l, SparseConforms s defs leaf t sels x := by
  cases h with
  | null => exact .inl rfl
  | list h => exact .inr ⟨_, rfl, h⟩

/-- a result for the more specific type is one for the less specific type -/
theorem conforms_sub {a b : TypeNode} (hs : SubType s a b) : ∀ {sels : List Sel} {v : Val},
    SparseConforms s defs leaf a sels v → SparseConforms s defs leaf b sels v := by
  induction hs with
  | refl => exact fun h => h
  | named hl hp =>
    intro sels v h
    rcases conforms_composite hl h with rfl | ⟨o, kvs, rfl, hpo, ho⟩
    · exact .null rfl
    · exact .object (hp _ hpo) ho.present ho.conforms ho.typename ho.reserved
  | list _ ih =>
    intro sels v h
    rcases conforms_list h with rfl | ⟨l, rfl, hl⟩
    · exact .null rfl
    · exact .list fun x hx => ih (hl x hx)
  | nonNull _ ih =>
    intro sels v h
    obtain ⟨h1, h2⟩ := conforms_nonNull h
    exact .nonNull h1 (ih h2)
  | strict _ _ ih =>
    intro sels v h
    exact ih (conforms_nonNull h).2

theorem subType_nullable {a b : TypeNode} (h : SubType s a b) (ha : a.isNonNull = false) : b.isNonNull = false := by
  cases h with
  | refl => rfl
  | named => rfl
  | list => rfl
  | nonNull => cases ha
  | strict => cases ha

theorem sparse_of_conforms {t : TypeNode} {sels : List Sel} {v : Val} (h : Conforms s defs leaf t sels v) :
    SparseConforms s defs leaf t sels v := by
  induction h with
  | null h => exact .null h
  | nonNull h _ ih => exact .nonNull h ih
  | list _ ih => exact .list ih
  | leaf h1 h2 => exact .leaf h1 h2
  | object h1 h2 _ h4 h5 ih => exact .object h1 (fun k n u p => .inr (h2 k n u p)) ih h4 h5

theorem _root_.Turms.Spec.ObjectResult.sparse {o : String} {sels : List Sel} {kvs : List (String × Val)}
    (h : ObjectResult s defs leaf o sels kvs) : SparseResult s defs leaf o sels kvs :=
  ⟨fun k n u p => .inr (h.present k n u p), fun k n u t x p ht hx => sparse_of_conforms (h.conforms k n u t x p ht hx),
    h.typename, h.reserved⟩

/-! ## Python models -/

/-- what the declaration asks of an object's entries -/
def FitsStmt (T : List Stmt) (isa : String → Val → Prop) (kvs : List (String × Val)) (st : Stmt) : Prop :=
  ∀ f, fieldOf st = some f → (Val.entry kvs f.key = none → f.hasDefault = true) ∧
    ∀ x, Val.entry kvs f.key = some x → Takes T isa f.ann x

/-- the object satisfies all declarations of the class -/
def Fits (T : List Stmt) (isa : String → Val → Prop) (kvs : List (String × Val)) (n : String) : Prop :=
  ∀ st, Declared T n st → FitsStmt T isa kvs st

theorem Fits.takes {kvs : List (String × Val)} {n : String} (h : Fits T isa kvs n) (hc : IsClass T n) :
    Takes T isa (.name n) (.obj kvs) :=
  .model hc (fun st f hd hf => (h st hd f hf).1) (fun st f x hd hf => (h st hd f hf).2 x)

theorem fits_external {kvs : List (String × Val)} {n : String} (h : ¬ IsClass T n) : Fits T isa kvs n := by
  intro st hd
  cases hd with
  | own h1 => exact (h ⟨_, _, _, h1⟩).elim
  | inherited h1 => exact (h ⟨_, _, _, h1⟩).elim

/-- a class fits if its own declarations and its bases do -/
theorem fits_class (hu : UniqueClasses T) {kvs : List (String × Val)} {n : String} {bases : List Expr}
    {body : List Stmt} {ds : List Expr} (hc : Stmt.classDef n bases body ds ∈ T)
    (hb : ∀ b, Expr.name b ∈ bases → Fits T isa kvs b) (hs : ∀ st ∈ body, FitsStmt T isa kvs st) :
    Fits T isa kvs n := by
  intro st hd
  cases hd with
  | own h1 h2 =>
    obtain ⟨_, rfl, _⟩ := hu _ _ _ _ _ _ _ h1 hc
    exact hs _ h2
  | inherited h1 h2 h3 =>
    obtain ⟨rfl, _, _⟩ := hu _ _ _ _ _ _ _ h1 hc
    exact hb _ h2 _ h3

theorem fitsStmt_none {kvs : List (String × Val)} {st : Stmt} (h : fieldOf st = none) :
    FitsStmt T isa kvs st := fun f hf => by rw [h] at hf; cases hf

theorem fieldOf_docStmt (d : Option String) : fieldOf (docStmt d) = none := rfl

theorem fieldOf_typenameStmt (c : Ctx) (n : String) :
    fieldOf (typenameStmt c n) = some ⟨"__typename", true, .subscript (.name "Literal") (.const (.str n))⟩ := by
  unfold typenameStmt excludeKeyword
  split <;> rfl

theorem fitsStmt_typename {c : Ctx} {o : String} {kvs : List (String × Val)}
    (h : ∀ x, Val.entry kvs "__typename" = some x → x = .atom o) :
    FitsStmt T isa kvs (typenameStmt c o) := by
  intro f hf
  rw [fieldOf_typenameStmt] at hf
  cases hf
  refine ⟨fun _ => rfl, fun x hx => ?_⟩
  rw [h x hx]
  exact .literal

theorem tagged_typename {c : Ctx} {n o : String} (h : Declared T n (typenameStmt c o)) :
    Tagged T n "typename" "__typename" o := ⟨_, _, h, rfl, fieldOf_typenameStmt c o, rfl, rfl⟩

theorem takes_optional {o : Bool} {e : Expr} {v : Val} (h : v ≠ .null → Takes T isa e v)
    (hv : v ≠ .null ∨ o = true) : Takes T isa (if o then sub "Optional" e else e) v := by
  cases o with
  | true =>
    cases v with
    | null => exact .optionalNone
    | atom => exact .optionalSome (h (by simp))
    | list => exact .optionalSome (h (by simp))
    | obj => exact .optionalSome (h (by simp))
  | false =>
    rcases hv with hv | hv
    · exact h hv
    · cases hv

/-! ## Fields -/

/-- `innerNullable` for a position that is optional or not -/
def innerOptional : TypeNode → Bool → Bool
  | .named _, o => o
  | .list t, _ => innerOptional t true
  | .nonNull t, _ => innerOptional t false

theorem innerOptional_eq : ∀ t : TypeNode, innerOptional t true = innerNullable t ∧
    innerOptional t false = innerNullable (.nonNull t) := by
  intro t
  induction t with
  | named n => exact ⟨rfl, rfl⟩
  | list t ih => exact ⟨ih.1, by show innerOptional t true = innerNullable t; exact ih.1⟩
  | nonNull t ih => exact ⟨ih.2, ih.2⟩

/-- the annotation accepts every possible result except, if the position is not optional, `null` -/
def SoundAt (s : Schema) (defs : Dict FragDef) (leaf : String → Val → Prop) (T : List Stmt)
    (isa : String → Val → Prop) (t : TypeNode) (sels : List Sel) (opt : Bool) (e : Expr) : Prop :=
  ∀ v, SparseConforms s defs leaf t sels v → v ≠ .null ∨ opt = true → Takes T isa e v

theorem quietly_listImport {b : Bool} {r : Reg} : Quietly (listImport b) r fun _ => True := by
  unfold listImport
  split <;> exact quietly_registerImport

theorem takes_listBuilder {b : Bool} {e : Expr} {l : List Val} (h : ∀ x ∈ l, Takes T isa e x) :
    Takes T isa (listBuilder b e) (.list l) := by
  unfold listBuilder
  split
  · exact .tuple h
  · exact .list h

/-- wrapping: if the annotation of the named type is sound, that of the wrapped type is -/
theorem wrapOutput_ok {c : Ctx} {leafG : String → Bool → Gen (Expr × List Stmt)} {sels : List Sel}
    {t : TypeNode} : ∀ {opt : Bool} {r : Reg},
    (∀ r1, Quiet r r1 → Quietly (leafG t.base (innerOptional t opt)) r1 fun x => (∀ st ∈ x.2, st ∈ T) →
      SoundAt s defs leaf T isa (.named t.base) sels (innerOptional t opt) x.1) →
    Quietly (wrapOutput c leafG t opt) r fun x => (∀ st ∈ x.2, st ∈ T) →
      SoundAt s defs leaf T isa t sels (opt && !t.isNonNull) x.1 := by
  induction t with
  | named n =>
    intro opt r h
    refine (h r (.refl _)).mono fun x hx hT v hv hn => hx hT v hv ?_
    rcases hn with hn | hn
    · exact .inl hn
    · exact .inr (by simpa [TypeNode.isNonNull, innerOptional] using hn)
  | nonNull t ih =>
    intro opt r h
    refine (ih (opt := false) h).mono fun x hx hT v hv _ => ?_
    obtain ⟨h1, h2⟩ := conforms_nonNull hv
    exact hx hT v h2 (.inl h1)
  | list t ih =>
    intro opt r h
    unfold wrapOutput
    refine quietly_listImport.bind fun _ r1 q1 _ => ?_
    refine (ih (opt := true) fun r2 q2 => h r2 (q1.trans q2)).bind fun x r2 _ hx => ?_
    refine quietly_optionalWrap.bind fun e r3 _ he => .pure ?_
    intro hT v hv hn
    dsimp only
    rw [he]
    refine takes_optional (fun hnull => ?_) (hn.imp id fun h => by simpa [TypeNode.isNonNull] using h)
    rcases conforms_list hv with rfl | ⟨l, rfl, hl⟩
    · exact (hnull rfl).elim
    · refine takes_listBuilder fun y hy => hx hT y (hl y hy) ?_
      cases t with
      | nonNull t => exact .inl (conforms_nonNull (hl y hy)).1
      | named n => exact .inr rfl
      | list t => exact .inr rfl

/-- a field declaration fits if its annotation is sound -/
theorem typeField_ok {c : Ctx} {fd : FieldDef} {target : String}
    {leafG : String → Bool → Gen (Expr × List Stmt)} {sels : List Sel} {r : Reg}
    (h : ∀ r1, Quiet r r1 → Quietly (leafG fd.type.base (innerNullable fd.type)) r1 fun x =>
      (∀ st ∈ x.2, st ∈ T) →
      SoundAt s defs leaf T isa (.named fd.type.base) sels (innerNullable fd.type) x.1) :
    Quietly (typeField c fd target leafG) r fun x => (∀ st ∈ x.2, st ∈ T) →
      ∀ kvs, (fd.type.isNonNull = false ∨ Val.entry kvs target ≠ none) →
        (∀ y, Val.entry kvs target = some y → SparseConforms s defs leaf fd.type sels y) →
        ∀ st ∈ x.1, FitsStmt T isa kvs st := by
  unfold typeField
  refine quietly_nodeName.bind fun fieldName r1 q1 _ => ?_
  have hw : Quietly (wrapOutput c leafG fd.type true) r1 fun x => (∀ st ∈ x.2, st ∈ T) →
      SoundAt s defs leaf T isa fd.type sels (true && !fd.type.isNonNull) x.1 :=
    wrapOutput_ok fun r2 q2 => by rw [(innerOptional_eq fd.type).1]; exact h r2 (q1.trans q2)
  refine hw.bind fun x r2 _ hx => ?_
  have hf : Quietly (finishField c fieldName target fd x.1) r2 fun ss =>
      (∀ v, SparseConforms s defs leaf fd.type sels v → Takes T isa x.1 v) →
        ∀ kvs, (fd.type.isNonNull = false ∨ Val.entry kvs target ≠ none) →
        (∀ y, Val.entry kvs target = some y → SparseConforms s defs leaf fd.type sels y) →
        ∀ st ∈ ss, FitsStmt T isa kvs st := by
    unfold finishField
    refine quietly_annotateFieldMetadata.bind fun a r3 _ ha => ?_
    refine quietly_objectFieldValue.bind fun v r4 _ hv => .pure ?_
    intro hsound kvs hpres hconf st hst
    rcases List.mem_cons.1 hst with rfl | hst
    · intro f hf
      rw [(hv a).1] at hf
      cases hf
      refine ⟨fun hn => hpres.elim (fun h => by simp [h]) fun h => (h hn).elim, fun y hy => ?_⟩
      have ht := hsound y (hconf y hy)
      rcases ha with rfl | ⟨ms, rfl, hms⟩
      · exact ht
      · exact .annotated hms ht
    · refine fitsStmt_none ?_
      revert hst
      split
      · intro hst; rw [List.mem_singleton.1 hst]; rfl
      · intro hst; cases hst
  refine hf.bind fun ss r3 _ hss => .pure ?_
  intro hT
  refine hss fun v hv => hx hT v hv ?_
  cases hnn : fd.type.isNonNull with
  | false => exact .inr rfl
  | true =>
    cases ht : fd.type with
    | nonNull t => rw [ht] at hv; exact .inl (conforms_nonNull hv).1
    | named n => rw [ht] at hnn; cases hnn
    | list t => rw [ht] at hnn; cases hnn

end
end Turms
