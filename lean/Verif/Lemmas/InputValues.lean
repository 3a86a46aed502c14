import Verif.Spec.InputValues
import Verif.Lemmas.InputsClass
import Verif.Lemmas.ModuleNames
import Verif.Lemmas.Topo

/-! # What the classes of the inputs plugin send -/

namespace Turms
open Spec

/-! ## lists -/

theorem flatMap_unique {α : Type} {f : α → List String} {l : List α} (h : (l.flatMap f).Nodup) {a b : α} {x : String}
    (ha : a ∈ l) (hb : b ∈ l) (hxa : x ∈ f a) (hxb : x ∈ f b) : a = b := by
  induction l with
  | nil => cases ha
  | cons c l ih =>
    rw [List.flatMap_cons, List.nodup_append] at h
    rcases List.mem_cons.1 ha with rfl | ha <;> rcases List.mem_cons.1 hb with rfl | hb
    · rfl
    · exact absurd rfl (h.2.2 x hxa x (List.mem_flatMap.2 ⟨_, hb, hxb⟩))
    · exact absurd rfl (h.2.2 x hxb x (List.mem_flatMap.2 ⟨_, by assumption, hxa⟩))
    · exact ih h.2.1 ha hb

/-! ## annotations of fields -/

/-- the annotations the plugin gives to fields -/
inductive PlainAnn : Expr → Prop
  | name {n} : PlainAnn (.name n)
  | str {n} : PlainAnn (.const (.str n))
  | optional {t} : PlainAnn t → PlainAnn (sub "Optional" t)
  | list {t} : PlainAnn t → PlainAnn (sub "List" t)
  | tuple {t} : PlainAnn t → PlainAnn (sub "Tuple" (.tuple [t, .const .ellipsis]))
  | annotated {t ms} : PlainAnn t → (∀ m ∈ ms, serializerOf m = none ∧ discriminatorOf m = none) →
      PlainAnn (sub "Annotated" (.tuple (t :: ms)))

/-- what the names of the module stand for -/
def worldOf (T : List Stmt) (isa : String → Val → Prop) : World where
  isa n v := Sends T isa (.name n) v

theorem sends_optional {T : List Stmt} {isa : String → Val → Prop} {t : Expr} {v : Val} :
    Sends T isa (sub "Optional" t) v ↔ v = .null ∨ Sends T isa t v := by
  constructor
  · intro h
    generalize he : sub "Optional" t = e at h
    unfold sub at he
    cases h <;> simp at he <;> first | exact .inl rfl | (obtain rfl := he; rename_i h; exact .inr h)
  · rintro (rfl | h)
    · exact .optionalNone
    · exact .optionalSome h

theorem sends_list {T : List Stmt} {isa : String → Val → Prop} {t : Expr} {v : Val} :
    Sends T isa (sub "List" t) v ↔ ∃ l, v = .list l ∧ ∀ x ∈ l, Sends T isa t x := by
  constructor
  · intro h
    generalize he : sub "List" t = e at h
    unfold sub at he
    cases h <;> simp at he
    obtain rfl := he; rename_i h; exact ⟨_, rfl, h⟩
  · rintro ⟨l, rfl, h⟩
    exact .list h

theorem sends_tuple {T : List Stmt} {isa : String → Val → Prop} {t : Expr} {v : Val} :
    Sends T isa (sub "Tuple" (.tuple [t, .const .ellipsis])) v ↔ ∃ l, v = .list l ∧ ∀ x ∈ l, Sends T isa t x := by
  constructor
  · intro h
    generalize he : sub "Tuple" (.tuple [t, .const .ellipsis]) = e at h
    unfold sub at he
    cases h <;> simp at he
    obtain rfl := he; rename_i h; exact ⟨_, rfl, h⟩
  · rintro ⟨l, rfl, h⟩
    exact .tuple h

theorem sends_union {T : List Stmt} {isa : String → Val → Prop} {ts : List Expr} {v : Val} :
    Sends T isa (sub "Union" (.tuple ts)) v ↔ ∃ t ∈ ts, Sends T isa t v := by
  constructor
  · intro h
    generalize he : sub "Union" (.tuple ts) = e at h
    unfold sub at he
    cases h with
    | union h1 h2 => simp at he; obtain rfl := he; exact ⟨_, h1, h2⟩
    | _ => simp at he
  · rintro ⟨t, h1, h2⟩
    exact .union h1 h2

theorem sends_annotated {T : List Stmt} {isa : String → Val → Prop} {t : Expr} {ms : List Expr} {v : Val}
    (hm : ∀ m ∈ ms, serializerOf m = none ∧ discriminatorOf m = none) :
    Sends T isa (sub "Annotated" (.tuple (t :: ms))) v ↔ Sends T isa t v := by
  constructor
  · intro h
    generalize he : sub "Annotated" (.tuple (t :: ms)) = e at h
    unfold sub at he
    cases h with
    | annotated _ h => simp at he; obtain ⟨rfl, rfl⟩ := he; exact h
    | serialized hs =>
      simp at he
      obtain ⟨rfl, rfl⟩ := he
      rw [(hm _ (by simp)).1] at hs
      cases hs
    | _ => simp at he
  · exact .annotated hm

theorem sends_serialized {T : List Stmt} {isa : String → Val → Prop} {u : Expr} {g : String} {w : Val} :
    Sends T isa (sub "Annotated" (.tuple [u, .call (.name "WrapSerializer") [.name g] []])) w ↔
      ∃ fn tags n v out, n ∈ membersOf u ∧ Sends T isa (.name n) v ∧ fn ∈ T ∧ bound fn = [g] ∧ tagTable fn = some tags ∧
        oneofSerialize tags [n] v = .ok out ∧ w = .obj out := by
  have hg : serializerOf (.call (.name "WrapSerializer") [.name g] []) = some g := by simp [serializerOf]
  constructor
  · intro h
    generalize he : sub "Annotated" (.tuple [u, .call (.name "WrapSerializer") [.name g] []]) = e at h
    unfold sub at he
    cases h with
    | annotated hm h =>
      simp at he
      obtain ⟨rfl, rfl⟩ := he
      have := (hm _ (List.mem_singleton.2 rfl)).1
      rw [hg] at this
      cases this
    | serialized hs h1 h2 h3 h4 h5 h6 =>
      simp at he
      obtain ⟨rfl, rfl⟩ := he
      rw [hg] at hs
      cases hs
      exact ⟨_, _, _, _, _, h1, h2, h3, h4, h5, h6, rfl⟩
    | _ => simp at he
  · rintro ⟨fn, tags, n, v, out, h1, h2, h3, h4, h5, h6, rfl⟩
    exact .serialized hg h1 h2 h3 h4 h5 h6

theorem worldOf_name {T : List Stmt} {isa : String → Val → Prop} {n : String} {v : Val} :
    Accepts (worldOf T isa) (.name n) v ↔ Sends T isa (.name n) v := by
  constructor
  · intro h
    cases h with
    | leaf h => exact h
    | model h => cases h
  · intro h; exact .leaf h

theorem plain_accepts {T : List Stmt} {isa : String → Val → Prop} {e : Expr} (h : PlainAnn e) :
    ∀ {v : Val}, Accepts (worldOf T isa) e v ↔ Sends T isa e v := by
  induction h with
  | name => exact worldOf_name
  | str =>
    intro v
    constructor
    · intro h
      cases h with
      | forward h => exact .forward (worldOf_name.1 h)
    · intro h
      cases h with
      | forward h => exact .forward (worldOf_name.2 h)
  | optional _ ih => intro v; rw [accepts_optional, sends_optional, ih]
  | list _ ih => intro v; simp only [accepts_list, sends_list, ih]
  | tuple _ ih => intro v; simp only [accepts_tuple, sends_tuple, ih]
  | annotated _ hm ih => intro v; rw [accepts_annotated, sends_annotated hm, ih]

theorem plain_optionalWrap {o : Bool} {x e : Expr} {r r' : Reg} (hx : PlainAnn x) (h : optionalWrap o x r = .ok (e, r')) :
    PlainAnn e := by
  unfold optionalWrap at h
  cases o
  · obtain ⟨rfl, _⟩ := Gen.pure_ok.1 h; exact hx
  · obtain ⟨_, _, _, h⟩ := Gen.bind_ok.1 h
    obtain ⟨rfl, _⟩ := Gen.pure_ok.1 h
    exact .optional hx

theorem plain_inputAnnotation {c : Ctx} {p : String} (t : TypeNode) : ∀ {o : Bool} {e : Expr} {r r' : Reg}, Styled c.env r →
    inputAnnotation c p t o r = .ok (e, r') →
    Frame r r' ∧ PlainAnn e ∧ ∃ cl, inputSideClass c r t.base = some cl := by
  induction t with
  | named n =>
    intro o e r r' hs h
    unfold inputAnnotation at h
    obtain ⟨x, r2, h2, h⟩ := Gen.bind_ok.1 h
    obtain ⟨cl, hc, hx, f1⟩ := inputLeaf_ok hs h2
    obtain ⟨_, f2⟩ := optionalWrap_ok h
    refine ⟨f1.trans f2, plain_optionalWrap ?_ h, cl, hc⟩
    rcases hx with rfl | rfl
    · exact .name
    · exact .str
  | list t ih =>
    intro o e r r' hs h
    unfold inputAnnotation at h
    obtain ⟨_, r1, h1, h⟩ := Gen.bind_ok.1 h
    obtain ⟨x, r2, h2, h⟩ := Gen.bind_ok.1 h
    have f1 := frame_registerImport h1
    obtain ⟨f2, hx, cl, hc⟩ := ih (hs.frame f1) h2
    rw [inputSideClass_congr (c := c) f1.1] at hc
    obtain ⟨_, f3⟩ := optionalWrap_ok h
    refine ⟨f1.trans (f2.trans f3), plain_optionalWrap ?_ h, cl, hc⟩
    unfold listBuilder
    split
    · exact .tuple hx
    · exact .list hx
  | nonNull t ih =>
    intro o e r r' hs h
    unfold inputAnnotation at h
    exact ih hs h

theorem plain_recurseTypeAnnotation {env : Env} (t : TypeNode) : ∀ {o : Bool} {e : Expr} {r r' : Reg}, Styled env r →
    Kind.input.style env t.base ≠ .ok "" ∧ (∀ s, Kind.input.style env t.base ≠ .error (.noInputTypeFound s)) →
    recurseTypeAnnotation env none t o r = .ok (e, r') →
    Frame r r' ∧ PlainAnn e ∧ ∃ cl, registeredClass env r t.base = some cl := by
  induction t with
  | named n =>
    intro o e r r' hs hN h
    simp only [recurseTypeAnnotation, namedOr] at h
    obtain ⟨x, r2, h2, h⟩ := Gen.bind_ok.1 h
    obtain ⟨cl, hc, hx, f1⟩ := referenceNamed_ok hs hN.1 hN.2 h2
    obtain ⟨_, f2⟩ := optionalWrap_ok h
    refine ⟨f1.trans f2, plain_optionalWrap ?_ h, cl, hc⟩
    rcases hx with rfl | rfl
    · exact .name
    · exact .str
  | list t ih =>
    intro o e r r' hs hN h
    simp only [recurseTypeAnnotation] at h
    obtain ⟨_, r1, h1, h⟩ := Gen.bind_ok.1 h
    obtain ⟨x, r2, h2, h⟩ := Gen.bind_ok.1 h
    have f1 := frame_registerImport h1
    obtain ⟨f2, hx, cl, hc⟩ := ih (hs.frame f1) hN h2
    rw [registeredClass_frame f1] at hc
    obtain ⟨_, f3⟩ := optionalWrap_ok h
    exact ⟨f1.trans (f2.trans f3), plain_optionalWrap (.list hx) h, cl, hc⟩
  | nonNull t ih =>
    intro o e r r' hs hN h
    simp only [recurseTypeAnnotation] at h
    exact ih hs hN h

theorem markerCall_plain {g : Gen Expr} {s : Option String} {ms : List Expr} {r r' : Reg}
    (h : markerCall g (s.map Expr.str) r = .ok (ms, r')) : ∀ m ∈ ms, serializerOf m = none ∧ discriminatorOf m = none := by
  unfold markerCall at h
  cases s with
  | none => obtain ⟨rfl, _⟩ := Gen.pure_ok.1 h; simp
  | some s =>
    obtain ⟨f, _, _, h⟩ := Gen.bind_ok.1 h
    obtain ⟨rfl, _⟩ := Gen.pure_ok.1 h
    intro m hm
    cases List.mem_singleton.1 hm
    constructor
    · cases f <;> rfl
    · cases f <;> simp [discriminatorOf, kwarg]

theorem plain_annotateFieldMetadata {env : Env} {a e : Expr} {d s : Option String} {r r' : Reg} (ha : PlainAnn a)
    (h : annotateFieldMetadata env a (d.map Expr.str) s r = .ok (e, r')) : PlainAnn e := by
  unfold annotateFieldMetadata at h
  obtain ⟨m1, _, h1, h⟩ := Gen.bind_ok.1 h
  obtain ⟨m2, _, h2, h⟩ := Gen.bind_ok.1 h
  split at h
  · obtain ⟨rfl, _⟩ := Gen.pure_ok.1 h; exact ha
  · obtain ⟨_, _, _, h⟩ := Gen.bind_ok.1 h
    obtain ⟨rfl, _⟩ := Gen.pure_ok.1 h
    refine .annotated ha fun m hm => ?_
    rcases List.mem_append.1 hm with hm | hm
    · exact markerCall_plain h1 m hm
    · exact markerCall_plain h2 m hm

theorem plain_fieldOf {n : String} {a : Expr} {v : Option Expr} {m : MField} (ha : PlainAnn a)
    (h : fieldOf (.annAssign n a v) = some m) : PlainAnn m.ann := by
  unfold fieldOf at h
  split at h
  · cases h; rename_i he; cases he; exact ha
  · rename_i he
    cases he
    split at h <;> cases h <;> exact ha
  · rename_i he; cases he; cases h; exact ha
  · cases h

theorem plain_inputFieldStmts {c : Ctx} {cls : String} {f : InputFieldDef} {ss : List Stmt} {r r' : Reg} (hs : Styled c.env r)
    (h : inputFieldStmts c cls f r = .ok (ss, r')) :
    Frame r r' ∧ (∃ cl, inputSideClass c r f.type.base = some cl) ∧
      ∀ st ∈ ss, ∀ m, fieldOf st = some m → PlainAnn m.ann := by
  unfold inputFieldStmts inputFieldAnnotation at h
  obtain ⟨nm, r1, h1, h⟩ := Gen.bind_ok.1 h
  obtain ⟨_, rfl⟩ := Gen.lift_ok.1 h1
  obtain ⟨a, r2, h2, h⟩ := Gen.bind_ok.1 h
  obtain ⟨x, r3, h3, h2⟩ := Gen.bind_ok.1 h2
  obtain ⟨b, r4, h4, h⟩ := Gen.bind_ok.1 h
  obtain ⟨v, r5, h5, h⟩ := Gen.bind_ok.1 h
  obtain ⟨f3, hx, hcl⟩ := plain_inputAnnotation _ hs h3
  have hb := plain_annotateFieldMetadata (plain_optionalWrap hx h2) h4
  have f2 := (optionalWrap_ok h2).2
  have f4 := (annotateFieldMetadata_ok (W := ⟨fun _ _ => True, fun _ => none⟩) h4).1
  have f5 := (inputFieldValue_ok h5 b).1
  have fr : r' = r5 := by split at h <;> exact (Gen.pure_ok.1 h).2.symm
  refine ⟨fr ▸ f3.trans (f2.trans (f4.trans f5)), hcl, ?_⟩
  intro st hst m hm
  split at h <;> obtain ⟨rfl, _⟩ := Gen.pure_ok.1 h
  · rcases List.mem_cons.1 hst with rfl | hst
    · exact plain_fieldOf hb hm
    · cases List.mem_singleton.1 hst; cases hm
  · cases List.mem_singleton.1 hst
    exact plain_fieldOf hb hm

/-! ## classes -/

/-- `ClassOf T cls fields`: the module has the class `cls` with these fields, and its base classes come from elsewhere -/
def ClassOf (T : List Stmt) (cls : String) (fields : List MField) : Prop :=
  ∃ bs body, Stmt.classDef cls bs body [] ∈ T ∧ body.filterMap fieldOf = fields ∧
    ∀ b, Expr.name b ∈ bs → b ∉ T.flatMap bound

theorem ClassOf.isBound {T : List Stmt} {cls : String} {fields : List MField} (h : ClassOf T cls fields) :
    cls ∈ T.flatMap bound := by
  obtain ⟨bs, body, hm, _⟩ := h
  exact List.mem_flatMap.2 ⟨_, hm, by simp [Spec.bound]⟩

theorem ClassOf.declared {T : List Stmt} {cls : String} {fields : List MField} (hd : (T.flatMap bound).Nodup)
    (h : ClassOf T cls fields) (m : MField) : (∃ st, Declared T cls st ∧ fieldOf st = some m) ↔ m ∈ fields := by
  obtain ⟨bs, body, hm, rfl, hb⟩ := h
  constructor
  · rintro ⟨st, hst, hf⟩
    cases hst with
    | own h1 h2 =>
      cases flatMap_unique hd hm h1 (x := cls) (by simp [Spec.bound]) (by simp [Spec.bound])
      exact List.mem_filterMap.2 ⟨_, h2, hf⟩
    | inherited h1 h2 h3 =>
      cases flatMap_unique hd hm h1 (x := cls) (by simp [Spec.bound]) (by simp [Spec.bound])
      refine absurd ?_ (hb _ h2)
      cases h3 with
      | own h _ => exact List.mem_flatMap.2 ⟨_, h, by simp [Spec.bound]⟩
      | inherited h _ _ => exact List.mem_flatMap.2 ⟨_, h, by simp [Spec.bound]⟩
  · intro hf
    obtain ⟨st, h1, h2⟩ := List.mem_filterMap.1 hf
    exact ⟨st, .own hm h1, h2⟩

theorem ClassOf.sends {T : List Stmt} {isa : String → Val → Prop} {cls : String} {fields : List MField}
    (hd : (T.flatMap Spec.bound).Nodup) (he : ∀ n v, isa n v → n ∉ T.flatMap Spec.bound) (h : ClassOf T cls fields)
    {w : Val} : Sends T isa (.name cls) w ↔ ∃ kvs, w = .obj kvs ∧ (kvs.map (·.1)).Nodup ∧
      (∀ k x, (k, x) ∈ kvs → ∃ m ∈ fields, m.key = k) ∧
      (∀ m ∈ fields, m.hasDefault = false → ∃ x, (m.key, x) ∈ kvs) ∧
      ∀ m ∈ fields, ∀ x, (m.key, x) ∈ kvs → Sends T isa m.ann x := by
  constructor
  · intro hs
    cases hs with
    | «opaque» hi => exact absurd h.isBound (he _ _ hi)
    | model _ h1 h2 h3 h4 =>
      refine ⟨_, rfl, h1, ?_, ?_, ?_⟩
      · intro k x hx
        obtain ⟨st, f, hst, hf, rfl⟩ := h2 k x hx
        exact ⟨f, (h.declared hd f).1 ⟨st, hst, hf⟩, rfl⟩
      · intro m hm hdef
        obtain ⟨st, hst, hf⟩ := (h.declared hd m).2 hm
        exact h3 st m hst hf hdef
      · intro m hm x hx
        obtain ⟨st, hst, hf⟩ := (h.declared hd m).2 hm
        exact h4 st m x hst hf hx
    | «alias» ha _ =>
      obtain ⟨bs, body, hm, _⟩ := h
      cases flatMap_unique hd hm ha (x := cls) (by simp [Spec.bound]) (by simp [Spec.bound])
  · rintro ⟨kvs, rfl, h1, h2, h3, h4⟩
    refine .model ?_ h1 ?_ ?_ ?_
    · obtain ⟨bs, body, hm, _⟩ := h
      exact ⟨_, _, _, hm⟩
    · intro k x hx
      obtain ⟨m, hm, rfl⟩ := h2 k x hx
      obtain ⟨st, hst, hf⟩ := (h.declared hd m).2 hm
      exact ⟨st, m, hst, hf, rfl⟩
    · intro st f hst hf hdef
      exact h3 f ((h.declared hd f).1 ⟨st, hst, hf⟩) hdef
    · intro st f x hst hf hx
      exact h4 f ((h.declared hd f).1 ⟨st, hst, hf⟩) x hx

/-- the meaning of an alias statement -/
theorem sends_alias {T : List Stmt} {isa : String → Val → Prop} {cls : String} {e : Expr}
    (hd : (T.flatMap Spec.bound).Nodup) (he : ∀ n v, isa n v → n ∉ T.flatMap Spec.bound)
    (h : Stmt.assign (.name cls) e ∈ T) {w : Val} : Sends T isa (.name cls) w ↔ Sends T isa e w := by
  constructor
  · intro hs
    cases hs with
    | «opaque» hi => exact absurd (List.mem_flatMap.2 ⟨_, h, by simp [Spec.bound]⟩) (he _ _ hi)
    | model hc _ _ _ _ =>
      obtain ⟨_, _, _, hm⟩ := hc
      cases flatMap_unique hd hm h (x := cls) (by simp [Spec.bound]) (by simp [Spec.bound])
    | «alias» ha hs =>
      cases flatMap_unique hd h ha (x := cls) (by simp [Spec.bound]) (by simp [Spec.bound])
      exact hs
  · exact .alias h

/-! ## what the plugin emits -/

/-- the last component of a configured base class -/
def ConfiguredBase (c : Ctx) (p : InputsConfig) (b : String) : Prop :=
  ∃ q, (q ∈ p.bases ∨ ∃ n l, c.config.additionalBases.get? n = some l ∧ q ∈ l) ∧ lastComponent q = b

theorem additionalBases_configured {c : Ctx} {p : InputsConfig} {tn : String} {es : List Expr} {r r' : Reg}
    (h : additionalBasesFor c tn r = .ok (es, r')) {b : String} (hb : Expr.name b ∈ es ++ baseNames p.bases) :
    ConfiguredBase c p b := by
  have hbase : ∀ {l : List String}, Expr.name b ∈ baseNames l → ∃ q ∈ l, lastComponent q = b := by
    intro l hl
    obtain ⟨q, hq, he⟩ := List.mem_map.1 hl
    exact ⟨q, hq, by simpa using he⟩
  rcases List.mem_append.1 hb with hb | hb
  · unfold additionalBasesFor at h
    cases hl : c.config.additionalBases.get? tn with
    | some bases =>
      rw [hl] at h
      obtain ⟨_, _, _, h⟩ := Gen.bind_ok.1 h
      obtain ⟨rfl, _⟩ := Gen.pure_ok.1 h
      obtain ⟨q, hq, he⟩ := hbase hb
      exact ⟨q, .inr ⟨tn, bases, hl, hq⟩, he⟩
    | none =>
      rw [hl] at h
      obtain ⟨rfl, _⟩ := Gen.pure_ok.1 h
      cases hb
  · obtain ⟨q, hq, he⟩ := hbase hb
    exact ⟨q, .inl hq, he⟩

theorem plain_inputFields {c : Ctx} {cls : String} {r0 : Reg} {fs : List InputFieldDef} : ∀ {ss : List Stmt} {r r' : Reg},
    Styled c.env r → r.scalarMap = r0.scalarMap → inputFields c cls [] fs r = .ok (ss, r') →
    (∀ m ∈ ss.filterMap fieldOf, PlainAnn m.ann) ∧ ∀ f ∈ fs, ∃ cl, inputSideClass c r0 f.type.base = some cl := by
  induction fs with
  | nil =>
    intro ss r r' hs h0 h
    obtain ⟨rfl, rfl⟩ := Gen.pure_ok.1 h
    simp
  | cons f fs ih =>
    intro ss r r' hs h0 h
    unfold inputFields at h
    obtain ⟨fieldName, r1, h1, h⟩ := Gen.bind_ok.1 h
    obtain ⟨_, rfl⟩ := Gen.lift_ok.1 h1
    simp only [List.contains_nil, Bool.false_eq_true] at h
    obtain ⟨s, r2, h2, h⟩ := Gen.bind_ok.1 h
    obtain ⟨rest, r3, h3, h⟩ := Gen.bind_ok.1 h
    obtain ⟨rfl, rfl⟩ := Gen.pure_ok.1 h
    obtain ⟨fr, hcl, hpl⟩ := plain_inputFieldStmts hs h2
    rw [inputSideClass_congr (c := c) h0] at hcl
    obtain ⟨i1, i2⟩ := ih (hs.frame fr) (fr.1.trans h0) h3
    constructor
    · intro m hm
      rw [List.filterMap_append] at hm
      rcases List.mem_append.1 hm with hm | hm
      · obtain ⟨st, hst, hf⟩ := List.mem_filterMap.1 hm
        exact hpl st hst m hf
      · exact i1 m hm
    · intro g hg
      rcases List.mem_cons.1 hg with rfl | hg
      · exact hcl
      · exact i2 g hg

theorem generateInputType_class {c : Ctx} {p : InputsConfig} {name tn : String} {desc : Option String}
    {fields : List InputFieldDef} {s : Stmt} {r r' r0 : Reg} (hs : Styled c.env r) (h0 : r.scalarMap = r0.scalarMap)
    (h : generateInputType c p name tn desc fields [] r = .ok (s, r')) :
    ∃ bs body, s = .classDef name bs body [] ∧ (∀ b, Expr.name b ∈ bs → ConfiguredBase c p b) ∧
      (∀ m ∈ body.filterMap fieldOf, PlainAnn m.ann) ∧
      ∀ f ∈ fields, ∃ cl, inputSideClass c r0 f.type.base = some cl := by
  unfold generateInputType at h
  obtain ⟨extra, r1, h1, h⟩ := Gen.bind_ok.1 h
  obtain ⟨lits, r2, h2, h⟩ := Gen.bind_ok.1 h
  obtain ⟨fs, r3, h3, h⟩ := Gen.bind_ok.1 h
  obtain ⟨cfg, r4, h4, h⟩ := Gen.bind_ok.1 h
  obtain ⟨rfl, rfl⟩ := Gen.pure_ok.1 h
  obtain ⟨rfl, rfl⟩ := Gen.pure_ok.1 h2
  obtain ⟨s1, _⟩ := soft_additionalBasesFor h1
  obtain ⟨i1, i2⟩ := plain_inputFields (hs.soft s1) (s1.frame.1.trans h0) h3
  refine ⟨_, _, rfl, fun b hb => additionalBases_configured h1 hb, ?_, i2⟩
  have hdoc : fieldOf (docOrDefault desc) = none := rfl
  simp only [List.nil_append, List.isEmpty_nil, Bool.not_true, Bool.false_and, Bool.false_eq_true, if_false,
    List.append_nil, List.cons_append, List.filterMap_cons_none hdoc, List.filterMap_append, config_no_fields h4]
  exact i1

theorem oneofWrapper_class {c : Ctx} {p : InputsConfig} {tn cn : String} {extra : List Expr} {f : InputFieldDef}
    {s : Stmt} {r r' r0 : Reg} (hs : Styled c.env r) (h0 : r.scalarMap = r0.scalarMap)
    (h : oneofWrapper c p tn extra f r = .ok ((cn, s), r')) :
    Styled c.env r' ∧ r'.scalarMap = r0.scalarMap ∧
    (∃ cl, inputSideClass c r0 f.type.base = some cl) ∧
    ∃ body, s = .classDef cn (extra ++ baseNames p.bases) body [] ∧ ∀ m ∈ body.filterMap fieldOf, PlainAnn m.ann := by
  have hh := h
  unfold oneofWrapper at h
  cases hg : generateClass c.env .input (tn ++ pascal f.name) r with
  | error e => rw [hg] at h; cases e <;> simp at h
  | ok q =>
    obtain ⟨classname, r1⟩ := q
    rw [hg] at h
    dsimp only at h
    obtain ⟨attr, r2, h2, h⟩ := Gen.bind_ok.1 h
    obtain ⟨a, r3, h3, h⟩ := Gen.bind_ok.1 h
    obtain ⟨a', r4, h4, h⟩ := Gen.bind_ok.1 h
    obtain ⟨v, r5, h5, h⟩ := Gen.bind_ok.1 h
    obtain ⟨cfg, r6, h6, h⟩ := Gen.bind_ok.1 h
    obtain ⟨he, rfl⟩ := Gen.pure_ok.1 h
    obtain ⟨rfl, rfl⟩ := Prod.mk.injEq .. ▸ he
    have hs1 := styled_generateClass hs hg
    obtain ⟨_, rfl⟩ := Gen.lift_ok.1 h2
    have hsm1 : r1.scalarMap = r0.scalarMap := by
      obtain ⟨_, _, rfl⟩ := generateClass_ok hg; exact h0
    obtain ⟨f3, hp, hcl⟩ := plain_inputAnnotation _ hs1 h3
    rw [inputSideClass_congr (c := c) hsm1] at hcl
    obtain ⟨k1, k2, _⟩ := oneofWrapper_fields (W := ⟨fun _ _ => False, fun _ => none⟩) hs h0
      (by rintro ⟨_, _, hh⟩; cases hh with | leaf h => exact h) hh
    refine ⟨k1, k2, hcl, _, rfl, ?_⟩
    have hb := plain_annotateFieldMetadata (d := none) hp h4
    intro m hm
    simp only [List.cons_append, List.nil_append] at hm
    rw [List.filterMap_cons_none (by rfl)] at hm
    obtain ⟨_, hv, _, _⟩ := inputFieldValue_ok h5 a'
    rw [List.filterMap_cons_some hv, config_no_fields h6, List.mem_singleton] at hm
    subst hm
    exact hb

theorem oneofWrappers_class {c : Ctx} {p : InputsConfig} {tn : String} {extra : List Expr} {r0 : Reg}
    {fs : List InputFieldDef} : ∀ {ws : List (String × Stmt)} {r r' : Reg}, Styled c.env r → r.scalarMap = r0.scalarMap →
    oneofWrappers c p tn extra fs r = .ok (ws, r') →
    (∀ f ∈ fs, ∃ cl, inputSideClass c r0 f.type.base = some cl) ∧
    ∀ q ∈ ws, ∃ body, q.2 = .classDef q.1 (extra ++ baseNames p.bases) body [] ∧
      ∀ m ∈ body.filterMap fieldOf, PlainAnn m.ann := by
  induction fs with
  | nil =>
    intro ws r r' _ _ h
    obtain ⟨rfl, rfl⟩ := Gen.pure_ok.1 h
    simp
  | cons f fs ih =>
    intro ws r r' hs h0 h
    unfold oneofWrappers at h
    obtain ⟨⟨cn, s⟩, r1, h1, h⟩ := Gen.bind_ok.1 h
    obtain ⟨ws', r2, h2, h⟩ := Gen.bind_ok.1 h
    obtain ⟨rfl, rfl⟩ := Gen.pure_ok.1 h
    obtain ⟨hs1, hsm, hcl, hb⟩ := oneofWrapper_class hs h0 h1
    obtain ⟨i1, i2⟩ := ih hs1 hsm h2
    simp only [List.forall_mem_cons]
    exact ⟨⟨hcl, i1⟩, hb, i2⟩

theorem unionAlias_sends {al : String} {ms : List String} {s : Stmt} {r r' : Reg}
    (h : generateUnionAlias al ms r = .ok (s, r')) :
    ∃ e, s = .assign (.name al) e ∧ ∀ T isa w, Sends T isa e w ↔ ∃ m ∈ ms, Sends T isa (.name m) w := by
  unfold generateUnionAlias at h
  split at h
  · obtain ⟨rfl, _⟩ := Gen.pure_ok.1 h
    exact ⟨_, rfl, by simp⟩
  · obtain ⟨_, _, _, h⟩ := Gen.bind_ok.1 h
    obtain ⟨rfl, _⟩ := Gen.pure_ok.1 h
    refine ⟨_, rfl, fun T isa w => ?_⟩
    rw [sends_union]
    simp

theorem wrapperInput_class {c : Ctx} {p : InputsConfig} {tn : String} {r0 : Reg}
    {fs : List InputFieldDef} {ss : List Stmt} {r r' : Reg} (hs : Styled c.env r) (h0 : r.scalarMap = r0.scalarMap)
    (h : generateOneofWrapperInput c p tn fs r = .ok (ss, r')) :
    ∃ (cls : String) (ws : List (String × Stmt)) (e : Expr), Kind.input.style c.env tn = .ok cls ∧ ss = ws.map (·.2) ++ [.assign (.name cls) e] ∧
      (∀ T isa w, Sends T isa e w ↔ ∃ q ∈ ws, Sends T isa (.name q.1) w) ∧
      (∀ f ∈ fs, ∃ cl, inputSideClass c r0 f.type.base = some cl) ∧
      (∀ q ∈ ws, ∃ bs body, q.2 = .classDef q.1 bs body [] ∧ (∀ b, Expr.name b ∈ bs → ConfiguredBase c p b) ∧
        ∀ m ∈ body.filterMap fieldOf, PlainAnn m.ann) ∧
      ∀ W : World, (∀ f ∈ fs, ¬ Inst W (inputSideClass c r0) f.type.base .null) →
        List.Forall₂ (fun f w => ∃ m, fieldsOf w.2 = [m] ∧ m.key = f.name ∧ m.hasDefault = false ∧
          ∀ v, Accepts W m.ann v ↔ v ≠ .null ∧ Legal (Inst W (inputSideClass c r0)) f.type v) fs ws := by
  unfold generateOneofWrapperInput at h
  obtain ⟨extra, r1, h1, h⟩ := Gen.bind_ok.1 h
  obtain ⟨ws, r2, h2, h⟩ := Gen.bind_ok.1 h
  obtain ⟨cls, r3, h3, h⟩ := Gen.bind_ok.1 h
  obtain ⟨a, r4, h4, h⟩ := Gen.bind_ok.1 h
  obtain ⟨rfl, rfl⟩ := Gen.pure_ok.1 h
  obtain ⟨s1, _⟩ := soft_additionalBasesFor h1
  obtain ⟨_, hcls, _⟩ := generateClass_ok h3
  obtain ⟨e, rfl, he⟩ := unionAlias_sends h4
  obtain ⟨i1, i2⟩ := oneofWrappers_class (hs.soft s1) (s1.frame.1.trans h0) h2
  refine ⟨cls, ws, e, hcls, rfl, ?_, i1, ?_, ?_⟩
  · intro T isa w
    rw [he]
    simp
  · intro q hq
    obtain ⟨body, hb, hm⟩ := i2 q hq
    exact ⟨_, body, hb, fun b hb => additionalBases_configured h1 hb, hm⟩
  · intro W hl
    exact (oneofWrappers_fields (hs.soft s1) (s1.frame.1.trans h0) hl h2).imp fun _ _ h => h.2

theorem directUnion_sends {c : Ctx} {tn : String} {ms : Dict String} {us : List Stmt} {r r' : Reg}
    (hs : Styled c.env r) (hne : ms ≠ []) (h : generateOneofDirectUnion c tn ms r = .ok (us, r')) :
    ∃ cls fn u tags, Kind.input.style c.env tn = .ok cls ∧
      us = [fn, .assign (.name cls) (sub "Annotated" (.tuple [u, .call (.name "WrapSerializer")
        [.name ("_serialize_" ++ camelToSnake cls)] []]))] ∧
      bound fn = ["_serialize_" ++ camelToSnake cls] ∧ tagTable fn = some tags ∧
      (∀ n, n ∈ membersOf u ↔ n ∈ tags.map (·.1)) ∧
      List.Forall₂ (fun m q => q.2 = m.1 ∧ Kind.input.style c.env m.2 = .ok q.1) ms tags := by
  unfold generateOneofDirectUnion at h
  obtain ⟨cls, r1, h1, h⟩ := Gen.bind_ok.1 h
  obtain ⟨mcs, r2, h2, h⟩ := Gen.bind_ok.1 h
  obtain ⟨_, r3, h3, h⟩ := Gen.bind_ok.1 h
  obtain ⟨_, r4, h4, h⟩ := Gen.bind_ok.1 h
  obtain ⟨_, r5, h5, h⟩ := Gen.bind_ok.1 h
  obtain ⟨rfl, rfl⟩ := Gen.pure_ok.1 h
  have hs1 := styled_generateClass hs h1
  obtain ⟨_, hst, _⟩ := generateClass_ok h1
  obtain ⟨rfl, hf⟩ := memberClasses_ok h2
  have hlen := hf.length_eq
  refine ⟨cls, _, _, mcs.map fun q => (q.2, q.1), hst, rfl, rfl, ?_, ?_, ?_⟩
  · simp only [tagTable, tagPairs]
  · intro n
    simp only [List.map_map, Function.comp_def]
    split
    · have hmap : ∀ l : List String, (l.map Expr.name).flatMap freeNames = l := by
        intro l
        induction l with
        | nil => rfl
        | cons m l ih => rw [List.map_cons, List.flatMap_cons, ih]; rfl
      simp [sub, membersOf, hmap, mem_dedupKeepFirst]
    · rename_i hl
      match mcs, hlen, hl with
      | [], hlen, _ => exact absurd (List.length_eq_zero_iff.1 hlen) hne
      | [q], hlen, _ => simp [membersOf, dedupKeepFirst, setAdd]
      | _ :: _ :: _, _, hl => simp at hl
  · rw [List.forall₂_map_right_iff]
    exact hf.imp fun m q hq => ⟨hq.1, hs1 .input _ _ hq.2⟩

/-! ## the three kinds of inputs -/

/-- what the module has for an input with the fields `fs` and the directives `ds` -/
inductive InputShape (c : Ctx) (r0 : Reg) (T : List Stmt) (fs : List InputFieldDef) (ds : List DirectiveUse) (cls : String) : Prop
  | plain (fields : List MField) : ¬ OneOf ds → ClassOf T cls fields → (∀ m ∈ fields, PlainAnn m.ann) →
      (∀ f ∈ fs, ∃ cl, inputSideClass c r0 f.type.base = some cl) →
      (∀ W : World, (∀ f ∈ fs, ¬ Inst W (inputSideClass c r0) f.type.base .null) →
        List.Forall₂ (FieldMeans W c r0) fs fields) → InputShape c r0 T fs ds cls
  | wrappers (e : Expr) (ws : List (String × Stmt)) : OneOf ds → Stmt.assign (.name cls) e ∈ T →
      (∀ isa w, Sends T isa e w ↔ ∃ q ∈ ws, Sends T isa (.name q.1) w) →
      (∀ f ∈ fs, ∃ cl, inputSideClass c r0 f.type.base = some cl) →
      (∀ q ∈ ws, ClassOf T q.1 (fieldsOf q.2) ∧ ∀ m ∈ fieldsOf q.2, PlainAnn m.ann) →
      (∀ W : World, (∀ f ∈ fs, ¬ Inst W (inputSideClass c r0) f.type.base .null) →
        List.Forall₂ (fun f w => ∃ m, fieldsOf w.2 = [m] ∧ m.key = f.name ∧ m.hasDefault = false ∧
          ∀ v, Accepts W m.ann v ↔ v ≠ .null ∧ Legal (Inst W (inputSideClass c r0)) f.type v) fs ws) →
      InputShape c r0 T fs ds cls
  | direct (g : String) (u : Expr) (fn : Stmt) (tags : List (String × String)) : OneOf ds →
      (∀ f ∈ fs, ∃ m, f.type = .named m) →
      Stmt.assign (.name cls) (sub "Annotated" (.tuple [u, .call (.name "WrapSerializer") [.name g] []])) ∈ T →
      fn ∈ T → bound fn = [g] → tagTable fn = some tags → (∀ n, n ∈ membersOf u ↔ n ∈ tags.map (·.1)) →
      (tags.map (·.1)).Nodup →
      List.Forall₂ (fun f q => q.2 = f.name ∧ inputSideClass c r0 f.type.base = some q.1) fs tags →
      InputShape c r0 T fs ds cls

theorem tags_nodup {fs : List InputFieldDef} {tags : List (String × String)} {R : String → String → Prop}
    (hinj : ∀ a ∈ fs.map (·.type.base), ∀ b ∈ fs.map (·.type.base), ∀ x, R a x → R b x → a = b)
    (hf : List.Forall₂ (fun (f : InputFieldDef) (q : String × String) => R f.type.base q.1) fs tags)
    (hn : (fs.map (·.type.base)).Nodup) : (tags.map (·.1)).Nodup := by
  induction hf with
  | nil => simp
  | @cons f q fs tags hr hrest ih =>
    rw [List.map_cons, List.nodup_cons] at hn ⊢
    refine ⟨fun hmem => ?_, ih (fun a ha b hb => hinj a (by simp [ha]) b (by simp [hb])) hn.2⟩
    obtain ⟨q', hq', he⟩ := List.mem_map.1 hmem
    obtain ⟨f', hf', hr'⟩ := forall₂_mem_right hrest hq'
    rw [he] at hr'
    have := hinj _ (by simp) f'.type.base (by simp; exact .inr ⟨f', hf', rfl⟩) _ hr hr'
    exact hn.1 (by rw [this]; exact List.mem_map.2 ⟨f', hf', rfl⟩)

theorem lookup_inputOf {s : Schema} {n : String} {fs : List InputFieldDef} {ds : List DirectiveUse}
    (h : s.lookup n = some (.input fs ds)) : ∃ d, InputOf s ⟨n, d, fs, ds⟩ := by
  unfold Schema.lookup at h
  cases he : s.types.get? n with
  | none => rw [he] at h; cases h
  | some e =>
    rw [he] at h
    exact ⟨e.description, e, mem_of_get? he, by simpa using h, rfl⟩

theorem shape_of {c : Ctx} {p : InputsConfig} {r0 : Reg} {ss : List Stmt} {r' : Reg} {isa : String → Val → Prop}
    {S : String → Prop} (hs : Styled c.env r0) (hp : PlainConfig c.config) (hn : c.schema.types.keys.Nodup)
    (h : generateInputs c p r0 = .ok (ss, r')) (hS : ClosedInputs c p S) (hU : Unambiguous c p r0 ss isa) {n cls : String}
    {fs : List InputFieldDef} {ds : List DirectiveUse} (hSn : S n) (hl : c.schema.lookup n = some (.input fs ds))
    (hc : inputSideClass c r0 n = some cls) : InputShape c r0 ss fs ds cls := by
  obtain ⟨⟨K, eK, hK⟩, _, hvalid, hplain, _, hwrap, hdirect⟩ := generateInputs_ok hs hp hn h
  obtain ⟨d, ht⟩ := lookup_inputOf hl
  have hstyle : Kind.input.style c.env n = .ok cls := by
    unfold inputSideClass styledName at hc
    rw [hl] at hc
    cases hx : Kind.input.style c.env n with
    | error e => rw [hx] at hc; cases hc
    | ok x => rw [hx] at hc; cases hc; rfl
  have hmem := hS.noMember _ ht hSn
  have hkept := hS.kept _ ht hSn
  have hbase : ∀ b, ConfiguredBase c p b → b ∉ ss.flatMap bound := by
    rintro b ⟨q, hq, rfl⟩
    exact hU.bases q hq
  by_cases ho : OneOf ds
  · by_cases hdu : DirectUnion c p ⟨n, d, fs, ds⟩
    · obtain ⟨r1, r2, us, hs1, hg, hsub⟩ := hdirect _ ht hmem hkept ho hdu
      dsimp only at hg
      obtain ⟨cls', fn, u, tags, hst, rfl, hb, htt, hu, hf⟩ := directUnion_sends hs1 (by simpa using hdu.2.1) hg
      rw [hstyle] at hst
      cases hst
      rw [List.forall₂_map_left_iff] at hf
      have hside : ∀ f ∈ fs, ∀ x, Kind.input.style c.env f.type.base = .ok x → inputSideClass c r0 f.type.base = some x := by
        intro f hf x hx
        obtain ⟨m, gs, dirs, hty, hlm, hno, hkm⟩ := hdu.2.2.1 f hf
        unfold inputSideClass styledName
        rw [hty] at hx ⊢
        simp only [TypeNode.base] at hx ⊢
        rw [hlm, hx]
        rfl
      have hf' : List.Forall₂ (fun (f : InputFieldDef) (q : String × String) => q.2 = f.name ∧
          inputSideClass c r0 f.type.base = some q.1) fs tags := by
        have aux : ∀ {l : List InputFieldDef} {tags : List (String × String)}, (∀ f ∈ l, f ∈ fs) →
            List.Forall₂ (fun (f : InputFieldDef) (q : String × String) => q.2 = f.name ∧
              Kind.input.style c.env f.type.base = .ok q.1) l tags →
            List.Forall₂ (fun (f : InputFieldDef) (q : String × String) => q.2 = f.name ∧
              inputSideClass c r0 f.type.base = some q.1) l tags := by
          intro l tags hl hh
          induction hh with
          | nil => exact .nil
          | cons hr _ ih => exact .cons ⟨hr.1, hside _ (hl _ (by simp)) _ hr.2⟩ (ih fun f hf => hl f (by simp [hf]))
        exact aux (fun _ h => h) hf
      refine .direct _ u fn tags ho (fun f hf => ?_) (hsub _ (by simp)) (hsub _ (by simp)) hb htt hu ?_ hf'
      · obtain ⟨m, _, _, hty, _⟩ := hdu.2.2.1 f hf
        exact ⟨m, hty⟩
      · refine tags_nodup (R := fun a x => Kind.input.style c.env a = .ok x) ?_ (hf.imp fun _ _ h => h.2) hdu.2.2.2
        obtain ⟨L, hL, hLK, hLd, hLs⟩ := eK.map
        have hLn : (L.map (·.2)).Nodup := by
          rw [hLd]
          exact (definedNames_sublist ss).nodup hU.distinct
        have hin : ∀ a ∈ fs.map (·.type.base), ∀ x, Kind.input.style c.env a = .ok x → (a, x) ∈ L := by
          intro a ha x hx
          obtain ⟨f, hf, rfl⟩ := List.mem_map.1 ha
          obtain ⟨m, gs, dirs, hty, hlm, hno, hkm⟩ := hdu.2.2.1 f hf
          obtain ⟨dm, htm⟩ := lookup_inputOf hlm
          have : m ∈ K := (hK m).2 (.inl ⟨_, htm, .inr hkm, rfl⟩)
          rw [← hLK] at this
          obtain ⟨q, hq, rfl⟩ := List.mem_map.1 this
          have hqs := hLs q hq
          rw [hty, TypeNode.base, hqs] at hx
          cases hx
          rw [hty, TypeNode.base]
          exact hq
        intro a ha b hb x hax hbx
        have := List.inj_on_of_nodup_map' hLn (hin a ha x hax) (hin b hb x hbx) rfl
        exact congrArg Prod.fst this
    · obtain ⟨rw, rw', ws, hsw, hsm, hg, hsub⟩ := hwrap _ ht hmem hkept ho hdu
      obtain ⟨cls', ws, e, hst, rfl, he, hside, hcl, hW⟩ := wrapperInput_class hsw hsm hg
      rw [hstyle] at hst
      cases hst
      refine .wrappers e ws ho (hsub _ (by simp)) (he ss) hside ?_ hW
      intro q hq
      obtain ⟨bs, body, hb, hbs, hpl⟩ := hcl q hq
      have hqm : q.2 ∈ ss := hsub _ (List.mem_append_left _ (List.mem_map.2 ⟨q, hq, rfl⟩))
      rw [hb] at hqm ⊢
      exact ⟨⟨bs, body, hqm, rfl, fun b hb => hbase b (hbs b hb)⟩, hpl⟩
  · obtain ⟨s, hsm, r1, r2, cls', hs1, hsc, hst, hg⟩ := hplain _ ht hmem hkept ho (fun t' ht' => hS.noUnion _ t' ht hSn ht')
    dsimp only at hst hg
    rw [hstyle] at hst
    cases hst
    obtain ⟨bs, body, rfl, hbs, hpl, hside⟩ := generateInputType_class hs1 hsc hg
    refine .plain _ ho ⟨bs, body, hsm, rfl, fun b hb => hbase b (hbs b hb)⟩ hpl hside fun W hl => ?_
    exact (generateInputType_fields hs1 hsc hl hg).2

/-! ## both directions -/

/-- the assumptions of the main lemmas -/
structure InputsRun (c : Ctx) (p : InputsConfig) (r0 : Reg) (ss : List Stmt) (isa : String → Val → Prop)
    (S : String → Prop) : Prop where
  closed : ClosedInputs c p S
  names : Unambiguous c p r0 ss isa
  shape : ∀ n cls fs ds, S n → c.schema.lookup n = some (.input fs ds) → inputSideClass c r0 n = some cls →
    InputShape c r0 ss fs ds cls

section
variable {c : Ctx} {p : InputsConfig} {r0 : Reg} {ss : List Stmt} {isa : String → Val → Prop} {S : String → Prop}

theorem sends_unbound {n : String} (hn : n ∉ ss.flatMap bound) {w : Val} : Sends ss isa (.name n) w ↔ isa n w := by
  constructor
  · intro h
    cases h with
    | «opaque» h => exact h
    | model h =>
      obtain ⟨_, _, _, hm⟩ := h
      exact absurd (List.mem_flatMap.2 ⟨_, hm, by simp [bound]⟩) hn
    | «alias» h => exact absurd (List.mem_flatMap.2 ⟨_, h, by simp [bound]⟩) hn
  · exact .opaque

theorem sideClass_kind {n cls : String} (h : inputSideClass c r0 n = some cls) :
    IsLeaf c.schema n ∨ ∃ fs ds, c.schema.lookup n = some (.input fs ds) := by
  unfold inputSideClass at h
  split at h
  · rename_i hl; exact .inl (.inl hl)
  · rename_i hl; exact .inl (.inr ⟨_, hl⟩)
  · rename_i hl; exact .inr ⟨_, _, hl⟩
  · cases h

theorem InputsRun.notNull (H : InputsRun c p r0 ss isa S) {n cls : String} (hS : S n)
    (hc : inputSideClass c r0 n = some cls) : ¬ Sends ss isa (.name cls) .null := by
  rcases sideClass_kind hc with hl | ⟨fs, ds, hl⟩
  · obtain ⟨h1, h2⟩ := H.names.leaves n cls hl hc
    rwa [sends_unbound h1]
  · cases H.shape n cls fs ds hS hl hc with
    | plain fields _ hcl =>
      rw [hcl.sends H.names.distinct H.names.elsewhere]
      rintro ⟨_, hh, _⟩
      cases hh
    | wrappers e ws _ ha he _ hw =>
      rw [sends_alias H.names.distinct H.names.elsewhere ha, he]
      rintro ⟨q, hq, hh⟩
      rw [(hw q hq).1.sends H.names.distinct H.names.elsewhere] at hh
      obtain ⟨_, hh, _⟩ := hh
      cases hh
    | direct g u fn tags _ _ ha =>
      rw [sends_alias H.names.distinct H.names.elsewhere ha, sends_serialized]
      rintro ⟨_, _, _, _, _, _, _, _, _, _, _, hh⟩
      cases hh

theorem InputsRun.noNull (H : InputsRun c p r0 ss isa S) {n : String} (hS : S n) :
    ¬ Inst (worldOf ss isa) (inputSideClass c r0) n .null := by
  rintro ⟨cl, hc, ha⟩
  exact H.notNull hS hc (worldOf_name.1 ha)

/-- sent values of a type are legal, if those of its named type are -/
theorem legal_inputValue (t : TypeNode) : ∀ {x : Val},
    (∀ y, sizeOf y ≤ sizeOf x → ∀ n cls, S n → inputSideClass c r0 n = some cls → Sends ss isa (.name cls) y →
      InputValue c.schema (LeafValue c r0 isa) (.named n) y) →
    S t.base → Legal (Inst (worldOf ss isa) (inputSideClass c r0)) t x → InputValue c.schema (LeafValue c r0 isa) t x := by
  induction t with
  | named n =>
    rintro x H hS (rfl | ⟨cls, hc, ha⟩)
    · exact .null rfl
    · exact H x (Nat.le_refl _) n cls hS hc (worldOf_name.1 ha)
  | list t ih =>
    rintro x H hS (rfl | ⟨l, rfl, hl⟩)
    · exact .null rfl
    · refine .list fun y hy => ih (fun z hz => H z ?_) hS (hl y hy)
      have := List.sizeOf_lt_of_mem hy
      simp only [Val.list.sizeOf_spec]
      omega
  | nonNull t ih =>
    rintro x H hS ⟨hx, hl⟩
    exact .nonNull hx (ih H hS hl)

/-- legal values of a type can be sent, if those of its named type can -/
theorem inputValue_legal (t : TypeNode) : ∀ {x : Val},
    (∀ y, sizeOf y ≤ sizeOf x → ∀ n cls, S n → inputSideClass c r0 n = some cls → y ≠ .null →
      InputValue c.schema (LeafValue c r0 isa) (.named n) y → Sends ss isa (.name cls) y) →
    S t.base → (∃ cl, inputSideClass c r0 t.base = some cl) → InputValue c.schema (LeafValue c r0 isa) t x →
    Legal (Inst (worldOf ss isa) (inputSideClass c r0)) t x := by
  induction t with
  | named n =>
    rintro x H hS ⟨cl, hc⟩ hv
    by_cases hx : x = .null
    · exact .inl hx
    · exact .inr ⟨cl, hc, worldOf_name.2 (H x (Nat.le_refl _) n cl hS hc hx hv)⟩
  | list t ih =>
    intro x H hS hc hv
    cases hv with
    | null => exact .inl rfl
    | list hl =>
      refine .inr ⟨_, rfl, fun y hy => ih (fun z hz => H z ?_) hS hc (hl y hy)⟩
      have := List.sizeOf_lt_of_mem hy
      simp only [Val.list.sizeOf_spec]
      omega
  | nonNull t ih =>
    intro x H hS hc hv
    cases hv with
    | null h => cases h
    | nonNull hx hv => exact ⟨hx, ih H hS hc hv⟩

theorem entry_size {kvs : List (String × Val)} {k : String} {x : Val} (h : (k, x) ∈ kvs) :
    sizeOf x < sizeOf (Val.obj kvs) := by
  have := List.sizeOf_lt_of_mem h
  simp only [Val.obj.sizeOf_spec, Prod.mk.sizeOf_spec] at this ⊢
  omega

theorem fields_size {f : InputFieldDef} {kvs : List (String × Val)} {x : Val} (h : (f.name, x) ∈ kvs) :
    ∀ y : Val, sizeOf y ≤ sizeOf x → sizeOf y < sizeOf (Val.obj kvs) := fun _ hy =>
  Nat.lt_of_le_of_lt hy (entry_size h)

theorem sent_legal (H : InputsRun c p r0 ss isa S) (hd : NoOptionalNonNull c.schema) (k : Nat) : ∀ (w : Val), sizeOf w < k →
    ∀ n cls, S n → inputSideClass c r0 n = some cls → Sends ss isa (.name cls) w →
      InputValue c.schema (LeafValue c r0 isa) (.named n) w := by
  induction k with
  | zero => intro w hw; omega
  | succ k ih =>
    intro w hw n cls hS hc hs
    rcases sideClass_kind hc with hl | ⟨fs, ds, hl⟩
    · obtain ⟨h1, _⟩ := H.names.leaves n cls hl hc
      exact .leaf hl ⟨cls, hc, (sends_unbound h1).1 hs⟩
    · have hSf := fun f hf => H.closed.fields n fs ds hS hl f hf
      have hnull : ∀ f ∈ fs, ¬ Inst (worldOf ss isa) (inputSideClass c r0) f.type.base .null := fun f hf => H.noNull (hSf f hf)
      cases H.shape n cls fs ds hS hl hc with
      | plain fields ho hcl hpl hside hW =>
        rw [hcl.sends H.names.distinct H.names.elsewhere] at hs
        obtain ⟨kvs, rfl, h1, h2, h3, h4⟩ := hs
        have hF := hW (worldOf ss isa) hnull
        refine .object hl ho h1 ?_ ?_ ?_
        · intro key x hx
          obtain ⟨m, hm, rfl⟩ := h2 key x hx
          obtain ⟨f, hf, hmk, _⟩ := forall₂_mem_right hF hm
          exact ⟨f, hf, hmk.symm⟩
        · intro f hf hn hdef
          obtain ⟨m, hm, hmk, hreq, _⟩ := forall₂_mem_left hF hf
          rw [← hmk]
          exact h3 m hm (hreq.2 ⟨hn, hdef⟩)
        · intro f hf x hx
          obtain ⟨m, hm, hmk, hreq, hacc⟩ := forall₂_mem_left hF hf
          rw [← hmk] at hx
          have hsx := (plain_accepts (hpl m hm)).2 (h4 m hm x hx)
          rcases (hacc x).1 hsx with hleg | ⟨hdef, rfl⟩
          · exact legal_inputValue _ (fun y hy => ih y (by
              have := entry_size hx
              omega)) (hSf f hf) hleg
          · refine .null ?_
            cases hnn : f.type.isNonNull with
            | false => rfl
            | true =>
              have := hreq.2 ⟨hnn, hd n fs ds hl f hf hnn⟩
              rw [hdef] at this
              cases this
      | wrappers e ws ho ha he hside hcl hW =>
        rw [sends_alias H.names.distinct H.names.elsewhere ha, he] at hs
        obtain ⟨q, hq, hs⟩ := hs
        obtain ⟨hc1, hpl⟩ := hcl q hq
        rw [hc1.sends H.names.distinct H.names.elsewhere] at hs
        obtain ⟨kvs, rfl, h1, h2, h3, h4⟩ := hs
        obtain ⟨f, hf, m, hm, hmk, hreq, hacc⟩ := forall₂_mem_right (hW (worldOf ss isa) hnull) hq
        rw [hm] at h2 h3 h4 hpl
        obtain ⟨x, hx⟩ := h3 m (by simp) hreq
        have hkvs : kvs = [(m.key, x)] := by
          have hall : ∀ e ∈ kvs, e.1 = m.key := by
            rintro ⟨k', x'⟩ hx'
            obtain ⟨m', hm', rfl⟩ := h2 k' x' hx'
            rw [List.mem_singleton.1 hm']
          match kvs, h1, hall, hx with
          | [e], _, _, hx => rw [List.mem_singleton.1 hx]
          | e1 :: e2 :: l, h1, hall, _ =>
            have a := hall e1 (by simp)
            have b := hall e2 (by simp)
            simp [a, b] at h1
        obtain ⟨hx0, hleg⟩ := (hacc x).1 ((plain_accepts (hpl m (by simp))).2 (h4 m (by simp) x hx))
        have hsz := entry_size hx
        rw [hkvs, hmk]
        exact .oneOf hl ho hf hx0 (legal_inputValue _ (fun y hy => ih y (by omega)) (hSf f hf) hleg)
      | direct g u fn tags ho hnamed ha hfn hb ht hu hnd hf =>
        rw [sends_alias H.names.distinct H.names.elsewhere ha, sends_serialized] at hs
        obtain ⟨fn', tags', n', v, out, hn', hv, hfn', hb', ht', hout, rfl⟩ := hs
        cases flatMap_unique H.names.distinct hfn hfn' (x := g) (by simp [hb]) (by simp [hb'])
        rw [ht] at ht'
        cases ht'
        obtain ⟨q, hq, rfl⟩ := List.mem_map.1 ((hu n').1 hn')
        rw [oneofSerialize_own (tag := q.2) hnd hq] at hout
        cases hout
        obtain ⟨f, hff, hq2, hside⟩ := forall₂_mem_right hf hq
        rw [hq2] at hw ⊢
        refine .oneOf hl ho hff (fun h0 => ?_) ?_
        · rw [h0] at hv
          exact H.notNull (hSf f hff) hside hv
        · obtain ⟨m, hm⟩ := hnamed f hff
          have hsz := entry_size (kvs := [(f.name, v)]) (k := f.name) (x := v) (by simp)
          have := ih v (by omega) _ q.1 (hSf f hff) hside hv
          rw [hm] at this ⊢
          exact this

theorem legal_sent (H : InputsRun c p r0 ss isa S) (k : Nat) : ∀ (w : Val), sizeOf w < k →
    ∀ n cls, S n → inputSideClass c r0 n = some cls → w ≠ .null →
      InputValue c.schema (LeafValue c r0 isa) (.named n) w → Sends ss isa (.name cls) w := by
  induction k with
  | zero => intro w hw; omega
  | succ k ih =>
    intro w hw n cls hS hc h0 hv
    cases hv with
    | null => exact absurd rfl h0
    | leaf hl hv =>
      obtain ⟨cl, hcl, hi⟩ := hv
      rw [hc] at hcl
      cases hcl
      exact .opaque hi
    | @object _ fs ds kvs hl ho h1 h2 h3 h4 =>
      have hSf := fun f hf => H.closed.fields n fs ds hS hl f hf
      have hnull : ∀ f ∈ fs, ¬ Inst (worldOf ss isa) (inputSideClass c r0) f.type.base .null := fun f hf => H.noNull (hSf f hf)
      cases H.shape n cls fs ds hS hl hc with
      | wrappers _ _ ho' => exact absurd ho' ho
      | direct _ _ _ _ ho' => exact absurd ho' ho
      | plain fields _ hcl hpl hside hW =>
        have hF := hW (worldOf ss isa) hnull
        rw [hcl.sends H.names.distinct H.names.elsewhere]
        refine ⟨kvs, rfl, h1, ?_, ?_, ?_⟩
        · intro key x hx
          obtain ⟨f, hf, rfl⟩ := h2 key x hx
          obtain ⟨m, hm, hmk, _⟩ := forall₂_mem_left hF hf
          exact ⟨m, hm, hmk⟩
        · intro m hm hdef
          obtain ⟨f, hf, hmk, hreq, _⟩ := forall₂_mem_right hF hm
          rw [hmk]
          exact h3 f hf (hreq.1 hdef).1 (hreq.1 hdef).2
        · intro m hm x hx
          obtain ⟨f, hf, hmk, hreq, hacc⟩ := forall₂_mem_right hF hm
          rw [hmk] at hx
          have hsz := entry_size hx
          exact (plain_accepts (hpl m hm)).1 ((hacc x).2 (.inl
            (inputValue_legal _ (fun y hy => ih y (by omega)) (hSf f hf) (hside f hf) (h4 f hf x hx))))
    | @oneOf _ fs ds f x hl ho hf hx hvx =>
      have hSf := fun f hf => H.closed.fields n fs ds hS hl f hf
      have hnull : ∀ f ∈ fs, ¬ Inst (worldOf ss isa) (inputSideClass c r0) f.type.base .null := fun f hf => H.noNull (hSf f hf)
      have hsz := entry_size (kvs := [(f.name, x)]) (k := f.name) (x := x) (by simp)
      cases H.shape n cls fs ds hS hl hc with
      | plain _ ho' => exact absurd ho ho'
      | wrappers e ws _ ha he hside hcl hW =>
        rw [sends_alias H.names.distinct H.names.elsewhere ha, he]
        obtain ⟨q, hq, m, hm, hmk, hreq, hacc⟩ := forall₂_mem_left (hW (worldOf ss isa) hnull) hf
        obtain ⟨hc1, hpl⟩ := hcl q hq
        refine ⟨q, hq, ?_⟩
        rw [hc1.sends H.names.distinct H.names.elsewhere, hm]
        refine ⟨_, rfl, by simp, ?_, ?_, ?_⟩
        · intro key y hy
          simp only [List.mem_singleton, Prod.mk.injEq] at hy
          exact ⟨m, by simp, by rw [hmk, hy.1]⟩
        · intro m' hm' _
          cases List.mem_singleton.1 hm'
          exact ⟨x, by simp [hmk]⟩
        · intro m' hm' y hy
          cases List.mem_singleton.1 hm'
          simp only [List.mem_singleton, Prod.mk.injEq] at hy
          rw [hy.2]
          exact (plain_accepts (hpl m (by simp [hm]))).1 ((hacc x).2 ⟨hx,
            inputValue_legal _ (fun y hy => ih y (by omega)) (hSf f hf) (hside f hf) hvx⟩)
      | direct g u fn tags _ hnamed ha hfn hb ht hu hnd hF =>
        rw [sends_alias H.names.distinct H.names.elsewhere ha, sends_serialized]
        obtain ⟨q, hq, hq2, hside⟩ := forall₂_mem_left hF hf
        obtain ⟨m, hm⟩ := hnamed f hf
        refine ⟨fn, tags, q.1, x, [(f.name, x)], (hu _).2 (List.mem_map.2 ⟨q, hq, rfl⟩), ?_, hfn, hb, ht, ?_, rfl⟩
        · refine ih x (by omega) _ _ (hSf f hf) hside hx ?_
          rw [hm] at hvx ⊢
          exact hvx
        · rw [← hq2]
          exact oneofSerialize_own hnd hq

end

end Turms
