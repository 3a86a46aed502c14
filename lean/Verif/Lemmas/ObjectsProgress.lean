import Verif.Lemmas.ObjectsLoop
import Mathlib.Data.List.Nodup

/-! # When the objects plugin succeeds -/

namespace Turms
open Spec

/-- the call returns -/
def Runs {α : Type} (g : Gen α) (r : Reg) : Prop := ∃ a r', g r = .ok (a, r')

theorem Runs.bind {α β : Type} {x : Gen α} {f : α → Gen β} {r : Reg} (hx : Runs x r)
    (hf : ∀ a r1, x r = .ok (a, r1) → Runs (f a) r1) : Runs (x >>= f) r := by
  obtain ⟨a, r1, h⟩ := hx
  obtain ⟨b, r2, h2⟩ := hf a r1 h
  exact ⟨b, r2, Gen.bind_ok.2 ⟨a, r1, h, h2⟩⟩

theorem Runs.pure {α : Type} {a : α} {r : Reg} : Runs (pure a : Gen α) r := ⟨a, r, rfl⟩

theorem runs_registerImport {n : String} {r : Reg} : Runs (registerImport n) r := by
  unfold registerImport Runs
  split
  · exact ⟨(), r, rfl⟩
  · exact ⟨(), _, rfl⟩

theorem runs_optionalWrap {o : Bool} {e : Expr} {r : Reg} : Runs (optionalWrap o e) r := by
  unfold optionalWrap
  split
  · exact runs_registerImport.bind fun _ _ _ => .pure
  · exact .pure

theorem runs_registerImports {l : List String} : ∀ {r : Reg}, Runs (registerImports l) r := by
  induction l with
  | nil => exact .pure
  | cons b l ih => exact runs_registerImport.bind fun _ _ _ => ih

theorem runs_additionalBasesFor {c : Ctx} {n : String} {r : Reg} : Runs (additionalBasesFor c n) r := by
  unfold additionalBasesFor
  split
  · exact runs_registerImports.bind fun _ _ _ => .pure
  · exact .pure

theorem runs_generatePydanticConfig {c : Ctx} {g : GQLType} {n : Option String} {r : Reg} :
    Runs (generatePydanticConfig c g n) r := by
  unfold generatePydanticConfig
  split
  · unfold generateConfigDict
    dsimp only
    split
    · exact .pure
    · exact runs_registerImport.bind fun _ _ _ => .pure
  · exact .pure

theorem runs_registerBuiltin {n : String} {r : Reg} : Runs (registerBuiltin n) r := ⟨_, _, rfl⟩

theorem runs_referenceMarker {o : Option String} {b l : String} {r : Reg} : Runs (referenceMarker o b l) r := by
  unfold referenceMarker Runs
  dsimp only
  obtain ⟨_, r1, h1⟩ := @runs_registerBuiltin b r
  split
  · rename_i o
    obtain ⟨_, r2, h2⟩ := @runs_registerImport o r
    rw [h1, h2]
    split
    · exact ⟨_, _, rfl⟩
    · exact ⟨_, _, rfl⟩
  · rw [h1]; exact ⟨_, _, rfl⟩

theorem runs_markerCall {g : Gen Expr} (hg : ∀ r, Runs g r) {a : Option Expr} {r : Reg} : Runs (markerCall g a) r := by
  unfold markerCall
  split
  · exact (hg r).bind fun _ _ _ => .pure
  · exact .pure

theorem runs_annotateFieldMetadata {env : Env} {a : Expr} {d : Option Expr} {s : Option String} {r : Reg} :
    Runs (annotateFieldMetadata env a d s) r := by
  unfold annotateFieldMetadata
  refine (runs_markerCall fun _ => runs_referenceMarker).bind fun _ _ _ => ?_
  refine (runs_markerCall fun _ => runs_referenceMarker).bind fun _ _ _ => ?_
  split
  · exact .pure
  · exact runs_registerImport.bind fun _ _ _ => .pure

theorem runs_objectFieldValue {n : String} {f : FieldDef} {r : Reg} : Runs (objectFieldValue n f) r := by
  unfold objectFieldValue
  split
  · exact runs_registerImport.bind fun _ _ _ => .pure
  · split
    · exact runs_registerImport.bind fun _ _ _ => .pure
    · exact .pure

theorem _root_.Turms.Spec.LeafReady.grow {c : Ctx} {r r' : Reg} {parent n : String} (g : Grow r r') (h : LeafReady c r parent n) :
    LeafReady c r' parent n := by
  unfold LeafReady at h ⊢
  split at h
  · obtain ⟨p, hp⟩ := h
    exact ⟨p, by rw [g.scalar]; exact hp⟩
  · exact h
  · exact h
  · rcases h with h | ⟨m, hm, h⟩
    · exact .inl h
    · refine .inr ⟨m, hm, h.imp id fun h => ⟨?_, h.2⟩⟩
      obtain ⟨cl, hcl⟩ := h.1
      exact ⟨cl, g.classes .enum n cl hcl⟩
  · exact h

theorem runs_objectLeaf {c : Ctx} {parent n : String} {r : Reg} (h : LeafReady c r parent n) :
    Runs (objectLeaf c parent n) r := by
  unfold LeafReady at h
  unfold objectLeaf Runs
  cases hl : c.schema.lookup n with
  | none => rw [hl] at h; exact h.elim
  | some d =>
    rw [hl] at h
    cases d with
    | scalar =>
      obtain ⟨p, hp⟩ := h
      simp only [referenceScalar, hp]
      split
      · obtain ⟨_, r2, h2⟩ := @runs_registerImport p r
        rw [h2]; exact ⟨_, _, rfl⟩
      · exact ⟨_, _, rfl⟩
    | interface fs is =>
      obtain ⟨m, hm⟩ := h
      exact ⟨.str m, r.addForward parent, by simp [referenceInterface, styleInterface, hm]⟩
    | object fs is =>
      obtain ⟨m, hm⟩ := h
      simp only [referenceGeneric, Kind.style, Kind.method, hm]
      split
      · exact ⟨_, _, rfl⟩
      · exact ⟨_, _, rfl⟩
    | enum vs =>
      dsimp only at h ⊢
      unfold referenceEnum
      by_cases hb : n ∈ builtinNames
      · rw [if_pos (by simpa using hb)]; exact ⟨_, _, rfl⟩
      · rw [if_neg (by simpa using hb)]
        obtain ⟨m, hm, h⟩ := h.resolve_left hb
        simp only [Kind.style, Kind.method, hm]
        rcases h with h | ⟨⟨cl, hcl⟩, hne⟩
        · rw [h]
          split
          · exact ⟨_, _, rfl⟩
          · exact ⟨_, _, rfl⟩
        · have : r.enumMap.contains n = true := by rw [Dict.contains_eq_isSome, hcl]; rfl
          simp only [this, Bool.not_true, Bool.false_or, beq_iff_eq, if_neg hne]
          exact ⟨_, _, rfl⟩
    | union ms => exact h.elim
    | input a b => exact h.elim

theorem runs_objectMembers {c : Ctx} {parent : String} {ms : List String} :
    ∀ {r : Reg}, Styled c.env r → (∀ m ∈ ms, LeafReady c r parent m) → Runs (objectMembers c parent ms) r := by
  induction ms with
  | nil => exact fun _ _ => .pure
  | cons m ms ih =>
    intro r hs h
    refine (runs_objectLeaf (h m (by simp))).bind fun a r1 h1 => ?_
    have s1 := (soft_objectLeaf hs h1).1
    exact (ih (hs.soft s1) fun m hm => (h m (by simp [hm])).grow s1.grow).bind fun _ _ _ => .pure

theorem runs_objectNamed {c : Ctx} {parent n : String} {r : Reg} (hs : Styled c.env r) (h : FieldReady c r parent n) :
    Runs (objectNamed c parent n) r := by
  unfold FieldReady at h
  unfold objectNamed
  cases hl : c.schema.lookup n with
  | none => rw [hl] at h; exact runs_objectLeaf h
  | some d =>
    rw [hl] at h
    cases d with
    | union ms =>
      refine runs_registerImport.bind fun a r1 h1 => ?_
      have s1 := (soft_registerImport h1).1
      exact (runs_objectMembers (hs.soft s1) fun m hm => (h m hm).grow s1.grow).bind fun _ _ _ => .pure
    | _ => exact runs_objectLeaf h

theorem _root_.Turms.Spec.FieldReady.grow {c : Ctx} {r r' : Reg} {parent n : String} (g : Grow r r') (h : FieldReady c r parent n) :
    FieldReady c r' parent n := by
  unfold FieldReady at h ⊢
  split at h
  · exact fun m hm => (h m hm).grow g
  · exact h.grow g

theorem runs_objectAnnotation {c : Ctx} {parent : String} {t : TypeNode} :
    ∀ {o : Bool} {r : Reg}, Styled c.env r → FieldReady c r parent t.base → Runs (objectAnnotation c parent t o) r := by
  induction t with
  | named n => exact fun hs h => (runs_objectNamed hs h).bind fun _ _ _ => runs_optionalWrap
  | nonNull t ih => exact fun hs h => ih hs h
  | list t ih =>
    intro o r hs h
    unfold objectAnnotation
    refine runs_registerImport.bind fun a r1 h1 => ?_
    refine (ih (hs.soft (soft_registerImport h1).1) (h.grow (soft_registerImport h1).1.grow)).bind fun a r2 h2 => ?_
    split
    · exact runs_optionalWrap
    · exact runs_registerImport.bind fun _ _ _ => .pure

theorem runs_objectFieldStmts {c : Ctx} {cls : String} {f : FieldDef} {r : Reg} (hs : Styled c.env r) (h : FieldReady c r cls f.type.base)
    (hn : ∃ m, styled c.env.stylers Styler.nodeName f.name = .ok m) : Runs (objectFieldStmts c cls f) r := by
  obtain ⟨m, hm⟩ := hn
  unfold objectFieldStmts
  refine Runs.bind ⟨m, r, Gen.lift_ok.2 ⟨hm, rfl⟩⟩ fun a r1 h1 => ?_
  obtain ⟨_, rfl⟩ := Gen.lift_ok.1 h1
  refine (runs_objectAnnotation hs h).bind fun _ _ _ => runs_annotateFieldMetadata.bind fun _ _ _ => ?_
  exact runs_objectFieldValue.bind fun _ _ _ => .pure

theorem runs_objectFields {c : Ctx} {cls : String} {fs : List FieldDef} :
    ∀ {r : Reg}, Styled c.env r → (∀ f ∈ fs, FieldReady c r cls f.type.base ∧ ∃ m, styled c.env.stylers Styler.nodeName f.name = .ok m) →
    Runs (objectFields c cls fs) r := by
  induction fs with
  | nil => exact fun _ _ => .pure
  | cons f fs ih =>
    intro r hs h
    refine (runs_objectFieldStmts hs (h f (by simp)).1 (h f (by simp)).2).bind fun a r1 h1 => ?_
    have s1 := (soft_objectFieldStmts hs h1).1
    exact (ih (hs.soft s1) fun f hf => ⟨(h f (by simp [hf])).1.grow s1.grow, (h f (by simp [hf])).2⟩).bind
      fun _ _ _ => .pure

theorem runs_interfaceLoop {c : Ctx} {cls : String} {all is : List String} : ∀ {m : Dict (List String)} {r : Reg},
    (∀ i ∈ is, extendedByOthers c.schema i (all.filter (· != i)) = false → ∃ n, r.interfaceBaseclassMap.get? i = some n) →
    Runs (interfaceLoop c cls all is m) r := by
  induction is with
  | nil => exact fun _ => .pure
  | cons i is ih =>
    intro m r h
    unfold interfaceLoop
    dsimp only
    split
    · rename_i hx
      obtain ⟨n, hn⟩ := h i (by simp) (by simpa using hx)
      have hi : inheritInterface i r = .ok (n, r) := by simp [inheritInterface, hn]
      refine Runs.bind ⟨n, r, hi⟩ fun b r1 h1 => ?_
      rw [hi] at h1
      cases h1
      exact (ih fun j hj => h j (by simp [hj])).bind fun _ _ _ => .pure
    · exact ih fun j hj => h j (by simp [hj])

theorem runs_generateComposite {c : Ctx} {r : Reg} {t : CompositeType} (h : TypeReady c r t) :
    Runs (generateComposite c.env t) r := by
  obtain ⟨m, hm⟩ := h.named
  have hf := h.fresh
  unfold generateComposite Runs
  split
  · rename_i hi
    rw [if_pos hi] at hf
    unfold generateInterface
    rw [if_neg (by rw [Dict.contains_eq_isSome, hf]; simp)]
    simp only [styleInterface, hm]
    exact ⟨_, _, rfl⟩
  · rename_i hi
    rw [if_neg hi] at hf
    unfold generateClass
    have : (r.classMap .object).contains t.name = false := by
      rw [Dict.contains_eq_isSome]; show (r.objectMap.get? t.name).isSome = false; rw [hf]; rfl
    rw [this]
    simp only [Kind.style, Kind.method, hm]
    exact ⟨_, _, rfl⟩

theorem objectMap_generateComposite {env : Env} {t : CompositeType} {cls : String} {r r' : Reg}
    (h : generateComposite env t r = .ok (cls, r')) (n : String) (hn : n ≠ t.name) :
    r'.objectMap.get? n = r.objectMap.get? n ∧ r'.interfaceBaseclassMap.get? n = r.interfaceBaseclassMap.get? n := by
  unfold generateComposite at h
  split at h
  · unfold generateInterface at h
    split at h
    · cases h
    · split at h
      · cases h
      · cases h
        exact ⟨rfl, Dict.get?_set_ne _ _ (Ne.symm hn)⟩
  · obtain ⟨_, _, rfl⟩ := generateClass_ok h
    exact ⟨Dict.get?_set_ne _ _ (Ne.symm hn), rfl⟩

theorem soft_objectMap {a b : Reg} (h : Soft a b) : b.objectMap = a.objectMap := by rw [h.same]

/-- one round -/
theorem runs_objectStep {c : Ctx} {p : ObjectsConfig} {t : CompositeType} {acc : ObjAcc} {r : Reg}
    (hs : Styled c.env r) (hp : PlainConfig c.config)
    (h : KeptObject p t.name → TypeReady c r t ∧ ∀ i ∈ t.interfaces,
      extendedByOthers c.schema i (t.interfaces.filter (· != i)) = false → ∃ n, r.interfaceBaseclassMap.get? i = some n) :
    ∃ acc' r', objectStep c p t acc r = .ok (acc', r') ∧ Grow r r' ∧ Styled c.env r' ∧
      (∀ n, n ≠ t.name → r'.objectMap.get? n = r.objectMap.get? n ∧
        r'.interfaceBaseclassMap.get? n = r.interfaceBaseclassMap.get? n) ∧
      (KeptObject p t.name → t.isInterface = true → ∃ n, r'.interfaceBaseclassMap.get? t.name = some n) := by
  obtain ⟨extra, r1, h1⟩ := @runs_additionalBasesFor c t.name r
  obtain ⟨s1, _⟩ := soft_additionalBasesFor h1
  have hs1 := hs.soft s1
  have frame1 : ∀ n, n ≠ t.name → r1.objectMap.get? n = r.objectMap.get? n ∧
        r1.interfaceBaseclassMap.get? n = r.interfaceBaseclassMap.get? n := by
    intro n _; rw [soft_objectMap s1, s1.bases]; exact ⟨rfl, rfl⟩
  by_cases hk : KeptObject p t.name
  swap
  · refine ⟨acc, r1, ?_, s1.grow, hs1, frame1, fun hk' => absurd hk' hk⟩
    unfold objectStep
    refine Gen.bind_ok.2 ⟨extra, r1, h1, ?_⟩
    rw [← keptObject_iff] at hk
    simp only [Bool.not_eq_false, Bool.or_eq_true] at hk
    by_cases hk1 : (p.skipUnderscore && underscored t.name) = true
    · rw [if_pos hk1]; rfl
    · rw [if_neg hk1, if_pos (hk.resolve_left hk1)]; rfl
  · obtain ⟨ht, hi⟩ := h hk
    have ht1 : TypeReady c r1 t := by
      refine ⟨?_, ht.named, fun cls hc f hf => ⟨(ht.fields cls hc f hf).1.grow s1.grow, (ht.fields cls hc f hf).2⟩⟩
      rw [soft_objectMap s1, s1.bases]; exact ht.fresh
    obtain ⟨cls, r2, h2⟩ := runs_generateComposite ht1
    obtain ⟨hcc, g2, hs2, _, _, _, _, hself⟩ := generateComposite_ok hs1 h2
    have h3 : Runs (interfaceLoop c cls t.interfaces t.interfaces acc.interfaceMap) r2 := by
      refine runs_interfaceLoop fun i hm hx => ?_
      obtain ⟨n, hn⟩ := hi i hm hx
      exact ⟨n, g2.bases i n (s1.grow.bases i n hn)⟩
    obtain ⟨⟨bs, im⟩, r3, h3⟩ := h3
    obtain ⟨rfl, _⟩ := interfaceLoop_ok h3
    obtain ⟨fs, r4, h4⟩ := runs_objectFields (cls := cls) (fs := t.fields) hs2 fun f hf =>
      ⟨(ht1.fields cls hcc f hf).1.grow g2, (ht1.fields cls hcc f hf).2⟩
    have s4 := (soft_objectFields hs2 h4).1
    obtain ⟨cfg, r5, h5⟩ := @runs_generatePydanticConfig c .object (some t.name) r4
    have s5 := (soft_generatePydanticConfig hp h5).1
    have hrun : ∃ acc', objectStep c p t acc r = .ok (acc', r5) := by
      unfold objectStep
      rw [← keptObject_iff, Bool.or_eq_false_iff] at hk
      have key : ∃ acc', (if (p.skipUnderscore && underscored t.name) = true then pure acc
          else if (p.skipDoubleUnderscore && doubleUnderscored t.name) = true then pure acc
          else do
            let classname ← generateComposite c.env t
            let ib := if t.isInterface then acc.interfaceBaseMap.set t.name classname else acc.interfaceBaseMap
            let (bs, im) ← interfaceLoop c classname t.interfaces t.interfaces acc.interfaceMap
            let fs ← objectFields c classname t.fields
            let cfg ← generatePydanticConfig c .object (some t.name)
            pure { interfaceMap := im
                   interfaceBaseMap := ib
                   tree := acc.tree ++ [.classDef classname (extra ++ bs ++ baseNames p.bases)
                     ((if truthy t.description then [.expr (.str (t.description.getD ""))] else []) ++ fs ++ cfg) []] } :
          Gen ObjAcc) r1 = .ok (acc', r5) := by
        rw [if_neg (by simp [hk.1]), if_neg (by simp [hk.2])]
        exact ⟨_, Gen.bind_ok.2 ⟨cls, _, h2, Gen.bind_ok.2 ⟨(bs, im), _, h3, Gen.bind_ok.2 ⟨fs, r4, h4,
          Gen.bind_ok.2 ⟨cfg, r5, h5, rfl⟩⟩⟩⟩⟩
      obtain ⟨acc', ha⟩ := key
      exact ⟨acc', Gen.bind_ok.2 ⟨extra, r1, h1, ha⟩⟩
    obtain ⟨acc', hrun⟩ := hrun
    refine ⟨acc', r5, hrun, s1.grow.trans (g2.trans (s4.trans s5).grow), hs2.soft (s4.trans s5), ?_, ?_⟩
    · intro n hn
      have h := objectMap_generateComposite h2 n hn
      rw [soft_objectMap (s4.trans s5), (s4.trans s5).bases]
      exact ⟨h.1.trans (frame1 n hn).1, h.2.trans (frame1 n hn).2⟩
    · intro _ hint
      rw [if_pos hint] at hself
      exact ⟨cls, by rw [(s4.trans s5).bases]; exact hself.1⟩

/-- the loop -/
theorem runs_objectLoop {c : Ctx} {p : ObjectsConfig} (hp : PlainConfig c.config) {ts : List CompositeType} :
    ∀ {acc : ObjAcc} {r : Reg}, Styled c.env r → (ts.map (·.name)).Nodup →
    (∀ pre t post, ts = pre ++ t :: post → KeptObject p t.name → TypeReady c r t ∧ ∀ i ∈ t.interfaces,
      extendedByOthers c.schema i (t.interfaces.filter (· != i)) = false →
      (∃ n, r.interfaceBaseclassMap.get? i = some n) ∨ ∃ u ∈ pre, u.isInterface = true ∧ u.name = i ∧ KeptObject p i) →
    Runs (objectLoop c p ts acc) r := by
  induction ts with
  | nil => exact fun _ _ _ => .pure
  | cons t ts ih =>
    intro acc r hs hnd h
    obtain ⟨acc1, r1, h1, g1, hs1, hf1, hi1⟩ := runs_objectStep (acc := acc) hs hp fun hk => by
      obtain ⟨ht, hi⟩ := h [] t ts rfl hk
      exact ⟨ht, fun i hm hx => (hi i hm hx).resolve_right (by simp)⟩
    rw [List.map_cons, List.nodup_cons] at hnd
    unfold objectLoop
    refine Runs.bind ⟨acc1, r1, h1⟩ fun a r2 h2 => ?_
    rw [h1] at h2
    cases h2
    refine ih hs1 hnd.2 fun pre u post he hk => ?_
    obtain ⟨ht, hi⟩ := h (t :: pre) u post (by rw [he]; rfl) hk
    have hne : u.name ≠ t.name := by
      rintro heq
      exact hnd.1 (List.mem_map.2 ⟨u, by rw [he]; simp, heq⟩)
    refine ⟨⟨?_, ht.named, fun cls hc f hf => ⟨(ht.fields cls hc f hf).1.grow g1, (ht.fields cls hc f hf).2⟩⟩, ?_⟩
    · rw [(hf1 _ hne).1, (hf1 _ hne).2]; exact ht.fresh
    · intro i hm hx
      rcases hi i hm hx with ⟨n, hn⟩ | ⟨w, hw, hwi, hwn, hwk⟩
      · exact .inl ⟨n, g1.bases i n hn⟩
      · rcases List.mem_cons.1 hw with rfl | hw
        · subst hwn
          exact .inl (hi1 hwk hwi)
        · exact .inr ⟨w, hw, hwi, hwn, hwk⟩

theorem runs_registerUnions {m : Dict (List String)} : ∀ {r : Reg}, Runs (registerUnions m) r := by
  induction m with
  | nil => exact .pure
  | cons q m ih => exact runs_registerImport.bind fun _ _ _ => ih

theorem stable_insert {α : Type} {f : α → Bool} {a : α} {l : List α} :
    (insertSorted (fun a b => f a || !f b) a l).filter f = if f a then a :: l.filter f else l.filter f := by
  induction l with
  | nil => cases h : f a <;> simp [insertSorted, h]
  | cons b l ih =>
    unfold insertSorted
    cases ha : f a
    · cases hb : f b
      · simp [ha, hb]
      · have ih' := ih
        rw [ha] at ih'
        simp only [Bool.false_or, Bool.not_true, Bool.false_eq_true, if_false]
        rw [List.filter_cons, if_pos hb, List.filter_cons, if_pos hb]
        congr 1
    · simp [ha]

/-- the sort keeps the interfaces in schema order -/
theorem stable_sort {α : Type} {f : α → Bool} {l : List α} :
    (pySorted (fun a b => f a || !f b) l).filter f = l.filter f := by
  induction l with
  | nil => rfl
  | cons a l ih =>
    show (insertSorted _ a (pySorted _ l)).filter f = _
    rw [stable_insert, ih, List.filter_cons]

/-- the composite type a schema entry stands for -/
def compositeOfEntry (p : String × TypeEntry) : Option CompositeType :=
  match p.2.defn with
  | .object fs is => some ⟨p.1, false, p.2.description, fs, is⟩
  | .interface fs is => some ⟨p.1, true, p.2.description, fs, is⟩
  | _ => none

theorem compositeOfEntry_eq {s : Schema} {t : CompositeType} {e : TypeEntry} (hn : s.types.keys.Nodup)
    (ht : CompositeOf s t) (he : (t.name, e) ∈ s.types) : compositeOfEntry (t.name, e) = some t := by
  obtain ⟨e', he', hd, hdef⟩ := ht
  have : e = e' := by
    have h1 := Dict.get?_of_mem_nodup hn he
    have h2 := Dict.get?_of_mem_nodup hn he'
    rw [h1] at h2; cases h2; rfl
  subst this
  unfold compositeOfEntry
  dsimp only
  obtain ⟨n, i, d, fs, is⟩ := t
  cases i <;> simp_all

theorem before_in_sorted {s : Schema} {t u : CompositeType} {pre post : List CompositeType} (hn : s.types.keys.Nodup)
    (hu : CompositeOf s u) (hui : u.isInterface = true) (h : sortedComposites s = pre ++ t :: post)
    (hb : t.isInterface = true → [u.name, t.name].Sublist s.types.keys) : u ∈ pre := by
  have hmem : u ∈ sortedComposites s := mem_sortedComposites.2 hu
  have ht : CompositeOf s t := mem_sortedComposites.1 (by rw [h]; simp)
  cases hti : t.isInterface
  · rw [h] at hmem
    rcases List.mem_append.1 hmem with hm | hm
    · exact hm
    · exfalso
      rcases List.mem_cons.1 hm with rfl | hm
      · rw [hui] at hti; cases hti
      · have hp : (sortedComposites s).Pairwise fun x y => (x.isInterface || !y.isInterface) = true := by
          refine pySorted_pairwise _ ?_ ?_ _
          · intro a b; cases a.isInterface <;> cases b.isInterface <;> simp
          · intro a b c; cases a.isInterface <;> cases b.isInterface <;> cases c.isInterface <;> simp
        rw [h, List.pairwise_append] at hp
        have := (List.pairwise_cons.1 hp.2.1).1 u hm
        rw [hti, hui] at this
        cases this
  · have hsub := hb hti
    obtain ⟨l, hl, hle⟩ := List.sublist_map_iff.1 hsub
    have hent : ∀ q ∈ l, q ∈ s.types := fun q hq => hl.subset hq
    match l, hle with
    | [(n1, e1), (n2, e2)], hle =>
      simp only [List.map_cons, List.map_nil, List.cons.injEq, and_true] at hle
      obtain ⟨rfl, rfl⟩ := hle
      have hc : [u, t].Sublist (compositeTypes s) := by
        have := hl.filterMap compositeOfEntry
        rw [List.filterMap_cons_some (compositeOfEntry_eq hn hu (hent _ (by simp))),
          List.filterMap_cons_some (compositeOfEntry_eq hn ht (hent _ (by simp))), List.filterMap_nil] at this
        exact this
      have hc2 : [u, t].Sublist (sortedComposites s) := by
        have h1 := hc.filter (·.isInterface)
        rw [List.filter_cons, if_pos hui, List.filter_cons, if_pos hti, List.filter_nil] at h1
        have h2 : (sortedComposites s).filter (·.isInterface) = (compositeTypes s).filter (·.isInterface) := stable_sort
        rw [← h2] at h1
        exact h1.trans List.filter_sublist
      have hnd : (sortedComposites s).Nodup := by
        have : ((sortedComposites s).map (·.name)).Nodup :=
          ((pySorted_perm _ _).map _).nodup_iff.2 (compositeTypes_nodup hn)
        exact List.Nodup.of_map _ this
      rw [h] at hc2 hnd
      have htp : t ∉ post := (List.nodup_cons.1 (List.nodup_append.1 hnd).2.1).1
      obtain ⟨l1, l2, he, h1, h2⟩ := List.sublist_append_iff.1 hc2
      match l1, he with
      | [], he =>
        exfalso
        simp only [List.nil_append] at he
        subst he
        rcases List.cons_sublist_cons'.1 h2 with h2 | ⟨_, h2⟩
        · exact htp (h2.subset (by simp))
        · exact htp (h2.subset (by simp))
      | x :: l1, he =>
        simp only [List.cons_append, List.cons.injEq] at he
        obtain ⟨rfl, _⟩ := he
        exact h1.subset (by simp)

end Turms
