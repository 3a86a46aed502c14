import Verif.Lemmas.ObjectsPlugin
import Verif.Lemmas.Sort

namespace Turms
open Spec

/-- a state change that keeps everything already known -/
structure Grow (r r' : Reg) : Prop where
  scalar : r'.scalarMap = r.scalarMap
  ext : ∀ n, External r n → External r' n
  classes : ∀ k n c, (r.classMap k).get? n = some c → (r'.classMap k).get? n = some c
  bases : ∀ i n, r.interfaceBaseclassMap.get? i = some n → r'.interfaceBaseclassMap.get? i = some n

theorem Grow.refl (r : Reg) : Grow r r := ⟨rfl, fun _ h => h, fun _ _ _ h => h, fun _ _ h => h⟩

theorem Grow.trans {a b c : Reg} (h1 : Grow a b) (h2 : Grow b c) : Grow a c :=
  ⟨h2.scalar.trans h1.scalar, fun n h => h2.ext n (h1.ext n h), fun k n c h => h2.classes k n c (h1.classes k n c h),
    fun i n h => h2.bases i n (h1.bases i n h)⟩

theorem Soft.bases {a b : Reg} (h : Soft a b) : b.interfaceBaseclassMap = a.interfaceBaseclassMap := by
  rw [h.same]

theorem Soft.grow {a b : Reg} (h : Soft a b) : Grow a b :=
  ⟨h.frame.1, fun _ => h.external, fun k n c hc => by rw [h.frame.2 k]; exact hc, fun i n hn => by rw [h.bases]; exact hn⟩

theorem Soft.known {a b : Reg} (h : Soft a b) {n : String} : Known b n ↔ Known a n := by
  unfold Known
  rw [h.registered, h.bases]

theorem Grow.known {a b : Reg} (h : Grow a b) {n : String} (hn : Known a n) : Known b n := by
  rcases hn with ⟨k, t, hn⟩ | ⟨i, hn⟩
  · exact .inl ⟨k, t, h.classes _ _ _ hn⟩
  · exact .inr ⟨i, h.bases _ _ hn⟩

theorem keptObject_iff {p : ObjectsConfig} {n : String} :
    ((p.skipUnderscore && underscored n) || (p.skipDoubleUnderscore && doubleUnderscored n)) = false ↔ KeptObject p n := by
  unfold KeptObject underscored doubleUnderscored
  simp only [Bool.or_eq_false_iff, Bool.and_eq_false_iff, not_and]
  constructor
  · rintro ⟨h1, h2⟩
    refine ⟨fun h => ?_, fun h => ?_⟩
    · rcases h1 with h1 | h1
      · rw [h] at h1; cases h1
      · simpa using h1
    · rcases h2 with h2 | h2
      · rw [h] at h2; cases h2
      · simpa using h2
  · rintro ⟨h1, h2⟩
    refine ⟨?_, ?_⟩
    · cases hs : p.skipUnderscore
      · exact .inl rfl
      · right; simpa using h1 hs
    · cases hs : p.skipDoubleUnderscore
      · exact .inl rfl
      · right; simpa using h2 hs

/-- registering the class of a composite type -/
theorem generateComposite_ok {env : Env} {t : CompositeType} {cls : String} {r r' : Reg} (hs : Styled env r)
    (h : generateComposite env t r = .ok (cls, r')) :
    CompositeClass env t cls ∧ Grow r r' ∧ Styled env r' ∧ (∀ n, External r' n → External r n) ∧
    (∀ n, Known r' n ↔ Known r n ∨ n = cls) ∧ (∀ n, Registered r' n → Registered r n ∨ n = cls) ∧
    (∀ i n, r'.interfaceBaseclassMap.get? i = some n → r.interfaceBaseclassMap.get? i = some n ∨ (t.isInterface = true ∧ i = t.name)) ∧
    (if t.isInterface then r'.interfaceBaseclassMap.get? t.name = some cls ∧ r.interfaceBaseclassMap.get? t.name = none
      else (r'.classMap .object).get? t.name = some cls ∧ (r.classMap .object).get? t.name = none) := by
  unfold generateComposite at h
  cases hi : t.isInterface
  · rw [hi, if_neg (by simp)] at h
    have hst' := styled_generateClass hs h
    obtain ⟨hc, hst, rfl⟩ := generateClass_ok h
    have hnone : (r.classMap .object).get? t.name = none := by
      rw [Dict.get?_eq_none_iff, ← Dict.contains_iff]; simp [hc]
    have hg : Grow r (r.setClass .object t.name cls) := by
      refine ⟨rfl, fun n => external_setClass.2, ?_, fun _ _ h => h⟩
      intro k n c hk
      rw [classMap_setClass]
      split
      · rename_i hkk
        subst hkk
        rw [Dict.get?_set_ne _ _ (by rintro rfl; rw [hnone] at hk; cases hk)]
        exact hk
      · exact hk
    have hself : ((r.setClass .object t.name cls).classMap .object).get? t.name = some cls := by
      rw [classMap_setClass, if_pos rfl, Dict.get?_set_self]
    refine ⟨⟨cls, hst, by simp [hi]⟩, hg, hst', fun n => external_setClass.1, ?_, fun n => registered_setClass,
      fun i n h => .inl h, by simp [hself, hnone]⟩
    intro n
    constructor
    · rintro (h | ⟨i, h⟩)
      · exact (registered_setClass h).imp .inl id
      · exact .inl (.inr ⟨i, h⟩)
    · rintro (h | rfl)
      · exact hg.known h
      · exact .inl ⟨.object, t.name, hself⟩
  · rw [hi, if_pos rfl] at h
    unfold generateInterface at h
    split at h
    · cases h
    · rename_i hc
      unfold styleInterface at h
      cases hst : styled env.stylers Styler.objectName t.name with
      | error e => rw [hst] at h; cases h
      | ok n =>
        rw [hst] at h
        cases h
        have hnone : r.interfaceBaseclassMap.get? t.name = none := by
          rw [Dict.get?_eq_none_iff, ← Dict.contains_iff]; exact hc
        refine ⟨⟨n, hst, by simp [hi]⟩, ⟨rfl, fun _ h => h, fun k _ _ h => by cases k <;> exact h, ?_⟩,
          fun k m cl h => hs k m cl (by cases k <;> exact h), fun _ h => h, ?_, ?_, ?_, ?_⟩
        · intro i m him
          show (Dict.set _ _ _).get? i = _
          rw [Dict.get?_set_ne _ _ (by rintro rfl; rw [hnone] at him; cases him)]
          exact him
        · intro m
          constructor
          · rintro (⟨k, u, h⟩ | ⟨i, h⟩)
            · exact .inl (.inl ⟨k, u, by cases k <;> exact h⟩)
            · change (Dict.set _ _ _).get? i = _ at h
              rw [Dict.get?_set] at h
              split at h
              · cases h; exact .inr rfl
              · exact .inl (.inr ⟨i, h⟩)
          · rintro ((⟨k, u, h⟩ | ⟨i, h⟩) | rfl)
            · exact .inl ⟨k, u, by cases k <;> exact h⟩
            · refine .inr ⟨i, ?_⟩
              show (Dict.set _ _ _).get? i = _
              rw [Dict.get?_set_ne _ _ (by rintro rfl; rw [hnone] at h; cases h)]
              exact h
            · refine .inr ⟨t.name, ?_⟩
              show (Dict.set _ _ _).get? _ = _
              rw [Dict.get?_set_self]
        · rintro m ⟨k, u, h⟩
          exact .inl ⟨k, u, by cases k <;> exact h⟩
        · intro i m h
          change (Dict.set _ _ _).get? i = _ at h
          rw [Dict.get?_set] at h
          split at h
          · rename_i he; exact .inr ⟨rfl, he.symm⟩
          · exact .inl h
        · rw [if_pos rfl]
          refine ⟨?_, hnone⟩
          show (Dict.set _ _ _).get? _ = _
          rw [Dict.get?_set_self]

/-- the class statement generated for `t`; `rf` is the registry at the end of the run -/
def ObjectClass (c : Ctx) (p : ObjectsConfig) (sm : Dict String) (rf : Reg) (t : CompositeType) (s : Stmt) : Prop :=
  ∃ cls extra bs body r1 r2 fs, CompositeClass c.env t cls ∧ s = .classDef cls (extra ++ bs ++ baseNames p.bases) body [] ∧
    additionalBasesFor c t.name r1 = .ok (extra, r2) ∧ (∀ n ∈ freeNamesL extra, External rf n) ∧
    List.Forall₂ (fun i b => ∃ n, b = Expr.name n ∧ rf.interfaceBaseclassMap.get? i = some n)
      (t.interfaces.filter fun i => !extendedByOthers c.schema i (t.interfaces.filter (· != i))) bs ∧
    (∃ r3 r4, Styled c.env r3 ∧ r3.scalarMap = sm ∧ objectFields c cls t.fields r3 = .ok (fs, r4)) ∧
    fieldsOf s = fs.filterMap fieldOf

theorem ObjectClass.mono {c : Ctx} {p : ObjectsConfig} {sm : Dict String} {rf rf' : Reg} {t : CompositeType} {s : Stmt}
    (h : ObjectClass c p sm rf t s) (g : Grow rf rf') : ObjectClass c p sm rf' t s := by
  obtain ⟨cls, extra, bs, body, r1, r2, fs, h1, h2, h3, hx, h4, h5⟩ := h
  exact ⟨cls, extra, bs, body, r1, r2, fs, h1, h2, h3, fun n hn => g.ext n (hx n hn), h4.imp fun i b ⟨n, hb, hn⟩ => ⟨n, hb, g.bases _ _ hn⟩, h5⟩

/-- one kept type -/
theorem objectStep_emits {c : Ctx} {p : ObjectsConfig} {t : CompositeType} {acc acc' : ObjAcc} {r r' : Reg}
    (hs : Styled c.env r) (hp : PlainConfig c.config) (hb : ∀ b ∈ p.bases, External r (lastComponent b))
    (hself : t.name ∉ t.interfaces)
    (h : objectStep c p t acc r = .ok (acc', r')) :
    (¬ KeptObject p t.name ∧ acc' = acc ∧ Soft r r') ∨
    (KeptObject p t.name ∧ ∃ cls s, CompositeClass c.env t cls ∧ acc'.tree = acc.tree ++ [s] ∧
      definedNames [s] = [cls] ∧ bound s = [cls] ∧ ObjectClass c p r.scalarMap r' t s ∧ Grow r r' ∧ Styled c.env r' ∧
      (∀ n, Known r' n ↔ Known r n ∨ n = cls) ∧
      (∀ n ∈ evaluated s, External r' n ∨ Known r n) ∧
      (∀ i n, r'.interfaceBaseclassMap.get? i = some n → r.interfaceBaseclassMap.get? i = some n ∨
        (t.isInterface = true ∧ i = t.name)) ∧
      acc'.interfaceBaseMap = (if t.isInterface then acc.interfaceBaseMap.set t.name cls else acc.interfaceBaseMap) ∧
      (∀ i, (acc'.interfaceMap.get? i).getD [] = (acc.interfaceMap.get? i).getD [] ++ List.replicate (t.interfaces.count i) cls) ∧
      (∀ i, i ∈ acc'.interfaceMap.keys ↔ i ∈ acc.interfaceMap.keys ∨ i ∈ t.interfaces)) := by
  unfold objectStep at h
  obtain ⟨extra, r1, h1, h⟩ := Gen.bind_ok.1 h
  obtain ⟨s1, e1⟩ := soft_additionalBasesFor h1
  by_cases hk : KeptObject p t.name
  swap
  · refine .inl ⟨hk, ?_⟩
    rw [← keptObject_iff] at hk
    simp only [Bool.not_eq_false, Bool.or_eq_true] at hk
    by_cases hk1 : (p.skipUnderscore && underscored t.name) = true
    · rw [if_pos hk1] at h
      obtain ⟨rfl, rfl⟩ := Gen.pure_ok.1 h
      exact ⟨rfl, s1⟩
    · rw [if_neg hk1, if_pos (hk.resolve_left hk1)] at h
      obtain ⟨rfl, rfl⟩ := Gen.pure_ok.1 h
      exact ⟨rfl, s1⟩
  · refine .inr ⟨hk, ?_⟩
    rw [← keptObject_iff, Bool.or_eq_false_iff] at hk
    rw [if_neg (by simp [hk.1]), if_neg (by simp [hk.2])] at h
    obtain ⟨cls, r2, h2, h⟩ := Gen.bind_ok.1 h
    dsimp only at h
    obtain ⟨⟨bs, im⟩, r3, h3, h⟩ := Gen.bind_ok.1 h
    obtain ⟨fs, r4, h4, h⟩ := Gen.bind_ok.1 h
    obtain ⟨cfg, r5, h5, h⟩ := Gen.bind_ok.1 h
    obtain ⟨rfl, rfl⟩ := Gen.pure_ok.1 h
    have hs1 := hs.soft s1
    obtain ⟨hcc, g2, hs2, x2, k2, rg2, b2, _⟩ := generateComposite_ok hs1 h2
    obtain ⟨rfl, hbs, him, hik⟩ := interfaceLoop_ok h3
    obtain ⟨s4, u4⟩ := soft_objectFields hs2 h4
    obtain ⟨s5, e5⟩ := soft_generatePydanticConfig hp h5
    have gall : Grow r r5 := s1.grow.trans (g2.trans (s4.trans s5).grow)
    refine ⟨cls, _, hcc, rfl, rfl, rfl, ?_, gall, hs2.soft (s4.trans s5), ?_, ?_, ?_, rfl, him, hik⟩
    · refine ⟨cls, extra, bs, _, r, r1, fs, hcc, rfl, h1, ?_, ?_, ⟨_, r4, hs2, ?_, h4⟩, ?_⟩
      · exact fun n hn => (s4.trans s5).external (g2.ext _ (e1 n hn))
      · exact hbs.imp fun i b ⟨n, hb, hn⟩ => ⟨n, hb, (s4.trans s5).grow.bases _ _ hn⟩
      · rw [g2.scalar, s1.frame.1]
      · simp only [fieldsOf, List.filterMap_append, config_no_fields h5, List.append_nil]
        split <;> rfl
    · intro n
      rw [(s4.trans s5).known, k2, s1.known]
    · intro n hn
      simp only [evaluated, freeNamesL, List.nil_append, List.mem_append, evaluatedL_append] at hn
      rcases hn with hn | (hn | hn) | hn
      · obtain ⟨e, he, hn⟩ := mem_freeNamesL.1 hn
        rcases List.mem_append.1 he with he | he
        · rcases List.mem_append.1 he with he | he
          · exact .inl ((s4.trans s5).external (g2.ext _ (e1 n (mem_freeNamesL.2 ⟨e, he, hn⟩))))
          · obtain ⟨i, hi, m, rfl, hm⟩ := forall₂_mem_right hbs he
            simp [freeNames] at hn
            subst hn
            rcases b2 i n hm with hm | ⟨_, rfl⟩
            · right
              rw [← s1.known]
              exact .inr ⟨i, hm⟩
            · exact absurd (List.mem_of_mem_filter hi) hself
        · obtain ⟨b, hbm, rfl⟩ := mem_baseNames (mem_freeNamesL.2 ⟨e, he, hn⟩)
          exact .inl (gall.ext _ (hb b hbm))
      · exfalso
        split at hn <;> simp [evaluatedL, evaluated, freeNames, Expr.str] at hn
      · rcases u4 n hn with hn | ⟨hn, hne⟩
        · exact .inl (s5.external hn)
        · right
          rcases rg2 n hn with hn | hn
          · rw [← s1.known]; exact .inl hn
          · exact absurd hn hne
      · exact .inl (e5 n hn)
    · intro i n hn
      rw [(s4.trans s5).bases] at hn
      rcases b2 i n hn with hn | hn
      · rw [s1.bases] at hn; exact .inl hn
      · exact .inr hn

/-- the types the loop does not skip -/
def keptTypes (p : ObjectsConfig) (ts : List CompositeType) : List CompositeType :=
  ts.filter fun t => !((p.skipUnderscore && underscored t.name) || (p.skipDoubleUnderscore && doubleUnderscored t.name))

theorem mem_keptTypes {p : ObjectsConfig} {ts : List CompositeType} {t : CompositeType} :
    t ∈ keptTypes p ts ↔ t ∈ ts ∧ KeptObject p t.name := by
  rw [keptTypes, List.mem_filter, ← keptObject_iff, Bool.not_eq_true']

theorem keptTypes_pos {p : ObjectsConfig} {ts : List CompositeType} {t : CompositeType} (h : KeptObject p t.name) :
    keptTypes p (t :: ts) = t :: keptTypes p ts := by
  rw [keptTypes, List.filter_cons_of_pos (by simp only [keptObject_iff.2 h, Bool.not_false])]
  rfl

theorem keptTypes_neg {p : ObjectsConfig} {ts : List CompositeType} {t : CompositeType} (h : ¬ KeptObject p t.name) :
    keptTypes p (t :: ts) = keptTypes p ts := by
  rw [keptTypes, List.filter_cons_of_neg]
  · rfl
  · intro hh
    exact h (keptObject_iff.1 (by rwa [Bool.not_eq_true'] at hh))

theorem Dict.mem_set' {α : Type} {d : Dict α} {k : String} {v : α} {q : String × α} (h : q ∈ Dict.set d k v) :
    q ∈ d ∨ q = (k, v) := by
  induction d with
  | nil => simp [Dict.set] at h; exact .inr h
  | cons e d ih =>
    unfold Dict.set at h
    split at h
    · rcases List.mem_cons.1 h with rfl | h
      · exact .inr (by simp_all)
      · exact .inl (by simp [h])
    · rcases List.mem_cons.1 h with rfl | h
      · exact .inl (by simp)
      · rcases ih h with h | h
        · exact .inl (by simp [h])
        · exact .inr h

theorem compositeClass_unique {env : Env} {t : CompositeType} {a b : String} (ha : CompositeClass env t a)
    (hb : CompositeClass env t b) : a = b := by
  obtain ⟨n, h1, rfl⟩ := ha
  obtain ⟨m, h2, rfl⟩ := hb
  rw [h1] at h2
  cases h2
  rfl

theorem objectLoop_ok {c : Ctx} {p : ObjectsConfig} (hp : PlainConfig c.config) {ts : List CompositeType} :
    ∀ {acc acc' : ObjAcc} {r r' : Reg}, Styled c.env r → (∀ b ∈ p.bases, External r (lastComponent b)) →
    (∀ t ∈ ts, t.name ∉ t.interfaces ∧ t.interfaces.Nodup) →
    objectLoop c p ts acc r = .ok (acc', r') →
    ∃ ss, acc'.tree = acc.tree ++ ss ∧
      List.Forall₂ (fun t s => ObjectClass c p r.scalarMap r' t s ∧ ∃ cls, CompositeClass c.env t cls ∧
        definedNames [s] = [cls]) (keptTypes p ts) ss ∧
      Grow r r' ∧ Styled c.env r' ∧ (∀ n, Known r' n ↔ Known r n ∨ n ∈ definedNames ss) ∧
      (∀ ext : String → Prop, (∀ n, External r' n → ext n) → (∀ n, Known r n → ext n) → Resolves ext ss) ∧
      (∀ i, ∃ L, (acc'.interfaceMap.get? i).getD [] = (acc.interfaceMap.get? i).getD [] ++ L ∧
        List.Forall₂ (CompositeClass c.env) ((keptTypes p ts).filter (·.interfaces.contains i)) L) ∧
      (∀ i, i ∈ acc'.interfaceMap.keys ↔ i ∈ acc.interfaceMap.keys ∨ ∃ t ∈ keptTypes p ts, i ∈ t.interfaces) ∧
      (∀ n, n ∈ acc'.interfaceBaseMap.keys ↔ n ∈ acc.interfaceBaseMap.keys ∨
        ∃ t ∈ keptTypes p ts, t.isInterface = true ∧ t.name = n) ∧
      (∀ q ∈ acc'.interfaceBaseMap, q ∈ acc.interfaceBaseMap ∨
        ∃ t ∈ keptTypes p ts, t.isInterface = true ∧ t.name = q.1 ∧ CompositeClass c.env t q.2) ∧
      (∀ i n, r'.interfaceBaseclassMap.get? i = some n → r.interfaceBaseclassMap.get? i = some n ∨
        ∃ t ∈ keptTypes p ts, t.isInterface = true ∧ t.name = i) := by
  induction ts with
  | nil =>
    intro acc acc' r r' hs hb _ h
    obtain ⟨rfl, rfl⟩ := Gen.pure_ok.1 h
    refine ⟨[], by simp, .nil, Grow.refl _, hs, by simp [definedNames], fun _ _ _ => trivial, ?_, ?_, ?_, ?_, fun _ _ h => .inl h⟩
    · intro i; exact ⟨[], by simp, .nil⟩
    · simp [keptTypes]
    · simp [keptTypes]
    · exact fun q hq => .inl hq
  | cons t ts ih =>
    intro acc acc' r r' hs hb hv h
    unfold objectLoop at h
    obtain ⟨acc1, r1, h1, hrest⟩ := Gen.bind_ok.1 h
    clear h
    obtain ⟨hvt, hvn⟩ := hv t (by simp)
    rcases objectStep_emits hs hp hb hvt h1 with ⟨hk, rfl, s1⟩ |
      ⟨hk, cls, s, hcc, ht, hd, hbd, hcl, g1, hs1, k1, e1, o1, ib1, im1, ik1⟩
    · obtain ⟨ss, a1, a2, a3, a4, a5, a6, a7⟩ := ih (hs.soft s1) (fun b hbm => s1.external (hb b hbm))
        (fun u hu => hv u (by simp [hu])) hrest
      rw [keptTypes_neg hk]
      obtain ⟨a7, a8, a9, a10, a11⟩ := a7
      refine ⟨ss, a1, ?_, s1.grow.trans a3, a4, ?_, ?_, a7, a8, a9, a10, ?_⟩
      · rw [s1.frame.1] at a2; exact a2
      · intro n; rw [a5, s1.known]
      · intro ext he hr; exact a6 ext he (fun n hn => hr n (s1.known.1 hn))
      · intro i n hn
        rcases a11 i n hn with hn | hn
        · rw [s1.bases] at hn; exact .inl hn
        · exact .inr hn
    · obtain ⟨ss, a1, a2, a3, a4, a5, a6, a7, a8, a9, a10, a11⟩ := ih hs1 (fun b hbm => g1.ext _ (hb b hbm))
        (fun u hu => hv u (by simp [hu])) hrest
      rw [keptTypes_pos hk]
      have hdn : definedNames (s :: ss) = cls :: definedNames ss := by
        have : s :: ss = [s] ++ ss := rfl
        rw [this, definedNames_append, hd]; rfl
      refine ⟨s :: ss, ?_, ?_, g1.trans a3, a4, ?_, ?_, ?_, ?_, ?_, ?_, ?_⟩
      · rw [a1, ht]; simp
      · refine .cons ⟨hcl.mono a3, cls, hcc, hd⟩ ?_
        rw [g1.scalar] at a2; exact a2
      · intro n
        rw [a5, k1, hdn, List.mem_cons, or_assoc]
      · intro ext he hr
        refine ⟨fun n hn => ?_, ?_⟩
        · rcases e1 n hn with hn | hn
          · exact he n (a3.ext n hn)
          · exact hr n hn
        · refine a6 _ (fun n hn => .inl (he n hn)) ?_
          intro n hn
          rcases (k1 n).1 hn with hn | rfl
          · exact .inl (hr n hn)
          · exact .inr (by rw [hbd]; simp)
      · intro i
        obtain ⟨L, hL, hf⟩ := a7 i
        by_cases hi : i ∈ t.interfaces
        · refine ⟨cls :: L, ?_, ?_⟩
          · rw [hL, im1, List.Nodup.count hvn, if_pos hi]; simp
          · rw [List.filter_cons_of_pos (by simpa using hi)]
            exact .cons hcc hf
        · refine ⟨L, ?_, ?_⟩
          · rw [hL, im1, List.count_eq_zero_of_not_mem hi]; simp
          · rw [List.filter_cons_of_neg (by simpa using hi)]
            exact hf
      · intro i
        rw [a8, ik1]
        simp only [List.mem_cons, exists_eq_or_imp, or_assoc]
      · intro n
        rw [a9, ib1]
        simp only [List.mem_cons, exists_eq_or_imp]
        cases ht' : t.isInterface
        · simp
        · simp only [if_true, Dict.mem_keys_set, true_and]
          grind
      · intro q hq
        rcases a10 q hq with hq | ⟨u, hu, hr⟩
        · rw [ib1] at hq
          cases ht' : t.isInterface
          · rw [ht'] at hq; exact .inl (by simpa using hq)
          · rw [ht', if_pos rfl] at hq
            rcases Dict.mem_set' hq with hq | rfl
            · exact .inl hq
            · exact .inr ⟨t, by simp, ht', rfl, hcc⟩
        · exact .inr ⟨u, by simp [hu], hr⟩
      · intro i n hn
        rcases a11 i n hn with hn | ⟨u, hu, hr⟩
        · rcases o1 i n hn with hn | ⟨h1', h2'⟩
          · exact .inl hn
          · exact .inr ⟨t, by simp, h1', h2'.symm⟩
        · exact .inr ⟨u, by simp [hu], hr⟩

theorem interfaceLoop_keys_nodup {c : Ctx} {cls : String} {all is : List String} : ∀ {m m' : Dict (List String)} {bs : List Expr}
    {r r' : Reg}, interfaceLoop c cls all is m r = .ok ((bs, m'), r') → m.keys.Nodup → m'.keys.Nodup := by
  induction is with
  | nil =>
    intro m m' bs r r' h hn
    obtain ⟨he, rfl⟩ := Gen.pure_ok.1 h
    cases he
    exact hn
  | cons i is ih =>
    intro m m' bs r r' h hn
    unfold interfaceLoop at h
    dsimp only at h
    split at h
    · obtain ⟨b, r1, h1, h⟩ := Gen.bind_ok.1 h
      obtain ⟨⟨bs', m''⟩, r2, h2, h⟩ := Gen.bind_ok.1 h
      dsimp only at h
      obtain ⟨he, rfl⟩ := Gen.pure_ok.1 h
      cases he
      exact ih h2 (Dict.nodup_keys_set _ _ _ hn)
    · exact ih h (Dict.nodup_keys_set _ _ _ hn)

theorem objectLoop_keys_nodup {c : Ctx} {p : ObjectsConfig} {ts : List CompositeType} :
    ∀ {acc acc' : ObjAcc} {r r' : Reg}, objectLoop c p ts acc r = .ok (acc', r') → acc.interfaceMap.keys.Nodup →
    acc'.interfaceMap.keys.Nodup := by
  induction ts with
  | nil =>
    intro acc acc' r r' h hn
    obtain ⟨rfl, rfl⟩ := Gen.pure_ok.1 h
    exact hn
  | cons t ts ih =>
    intro acc acc' r r' h hn
    unfold objectLoop at h
    obtain ⟨acc1, r1, h1, h⟩ := Gen.bind_ok.1 h
    refine ih h ?_
    rcases objectStep_ok h1 with ⟨rfl, _⟩ | ⟨cn, extra, bs, body, cfg, r1, r2, r3, r4, _, _, _, hl, _⟩
    · exact hn
    · exact interfaceLoop_keys_nodup hl hn

theorem registerUnions_ok {m : Dict (List String)} : ∀ {r r' : Reg} {u : Unit}, registerUnions m r = .ok (u, r') →
    Soft r r' ∧ (m ≠ [] → External r' "Union") := by
  induction m with
  | nil =>
    intro r r' u h
    obtain ⟨_, rfl⟩ := Gen.pure_ok.1 h
    exact ⟨Soft.refl _, by simp⟩
  | cons q m ih =>
    intro r r' u h
    unfold registerUnions at h
    obtain ⟨_, r1, h1, h⟩ := Gen.bind_ok.1 h
    obtain ⟨s1, e1⟩ := soft_registerImport h1
    obtain ⟨s2, _⟩ := ih h
    exact ⟨s1.trans s2, fun _ => s2.external (e1.at (by decide +kernel))⟩

theorem resolves_all {ext : String → Prop} {ss : List Stmt} (h : ∀ s ∈ ss, ∀ n ∈ evaluated s, ext n) : Resolves ext ss := by
  induction ss generalizing ext with
  | nil => trivial
  | cons s ss ih =>
    exact ⟨h s (by simp), ih fun u hu n hn => .inl (h u (by simp [hu]) n hn)⟩

theorem mem_compositeTypes {s : Schema} {t : CompositeType} : t ∈ compositeTypes s ↔ CompositeOf s t := by
  unfold compositeTypes CompositeOf
  rw [List.mem_filterMap]
  constructor
  · rintro ⟨⟨n, e⟩, hm, h⟩
    dsimp only at h
    split at h
    · rename_i he; cases h; exact ⟨e, hm, rfl, by simp [he]⟩
    · rename_i he; cases h; exact ⟨e, hm, rfl, by simp [he]⟩
    · cases h
  · rintro ⟨e, hm, hd, he⟩
    refine ⟨(t.name, e), hm, ?_⟩
    cases t with
    | mk n i d f is =>
      dsimp only at hd he ⊢
      cases i <;> simp at he <;> simp [he, hd]

theorem mem_sortedComposites {s : Schema} {t : CompositeType} : t ∈ sortedComposites s ↔ CompositeOf s t := by
  rw [sortedComposites, mem_pySorted, mem_compositeTypes]

theorem definedNames_unions (m : Dict (List String)) : definedNames (m.map interfaceUnion) = m.keys := by
  induction m with
  | nil => rfl
  | cons q m ih => simp only [List.map_cons, interfaceUnion, definedNames, ih, Dict.keys]

theorem definedNames_aliases (m : Dict String) :
    definedNames (m.map fun q => Stmt.assign (.name q.1) (.name q.2)) = m.keys := by
  induction m with
  | nil => rfl
  | cons q m ih => simp only [List.map_cons, definedNames, ih, Dict.keys]

/-- everything the objects plugin guarantees -/
theorem generateTypes_ok {c : Ctx} {p : ObjectsConfig} {ss : List Stmt} {r r' : Reg}
    (hs : Styled c.env r) (hp : PlainConfig c.config)
    (hv : ∀ t, CompositeOf c.schema t → t.name ∉ t.interfaces ∧ t.interfaces.Nodup)
    (h : generateTypes c p r = .ok (ss, r')) :
    ∃ cs us, ss = cs ++ us ∧
      List.Forall₂ (fun t s => ObjectClass c p r.scalarMap r' t s ∧ ∃ cls, CompositeClass c.env t cls ∧
        definedNames [s] = [cls]) (keptTypes p (sortedComposites c.schema)) cs ∧
      Grow r r' ∧ Styled c.env r' ∧ (∀ n, Known r' n ↔ Known r n ∨ n ∈ definedNames cs) ∧
      Resolves (fun n => External r' n ∨ Known r n) ss ∧
      (∀ i, (∃ t ∈ keptTypes p (sortedComposites c.schema), i ∈ t.interfaces) → ∃ L, interfaceUnion (i, L) ∈ us ∧
        List.Forall₂ (CompositeClass c.env) ((keptTypes p (sortedComposites c.schema)).filter (·.interfaces.contains i)) L) ∧
      (∀ t ∈ keptTypes p (sortedComposites c.schema), t.isInterface = true →
        (∀ u ∈ keptTypes p (sortedComposites c.schema), t.name ∉ u.interfaces) →
        c.config.alwaysResolveInterfaces = false ∧ ∃ cls, CompositeClass c.env t cls ∧
          .assign (.name t.name) (.name cls) ∈ us) ∧
      (∀ n, n ∈ definedNames us ↔ ∃ t ∈ keptTypes p (sortedComposites c.schema),
        n ∈ t.interfaces ∨ (t.isInterface = true ∧ t.name = n)) ∧
      (∀ i n, r'.interfaceBaseclassMap.get? i = some n → r.interfaceBaseclassMap.get? i = some n ∨
        ∃ t ∈ keptTypes p (sortedComposites c.schema), t.isInterface = true ∧ t.name = i) := by
  unfold generateTypes at h
  obtain ⟨_, r1, h1, h⟩ := Gen.bind_ok.1 h
  obtain ⟨acc, r2, h2, h⟩ := Gen.bind_ok.1 h
  obtain ⟨_, r3, h3, h⟩ := Gen.bind_ok.1 h
  obtain ⟨s1, b1⟩ := soft_registerImports h1
  obtain ⟨cs, a1, a2, a3, a4, a5, a6, a7, a8, a9, a10, a11⟩ := objectLoop_ok hp (hs.soft s1) b1
    (fun t ht => hv t (mem_sortedComposites.1 ht)) h2
  rw [List.nil_append] at a1
  obtain ⟨s3, e3⟩ := registerUnions_ok h3
  have hnil : ∀ i : String, ¬ i ∈ Dict.keys ([] : Dict (List String)) := by simp [Dict.keys]
  have hnil' : ∀ i : String, ¬ i ∈ Dict.keys ([] : Dict String) := by simp [Dict.keys]
  simp only [hnil, hnil', false_or] at a8 a9
  have gall : Grow r r3 := s1.grow.trans (a3.trans s3.grow)
  split at h
  · cases h
  · rename_i hcond
    obtain ⟨rfl, rfl⟩ := Gen.pure_ok.1 h
    rw [a1, List.append_assoc]
    refine ⟨cs, _, rfl, ?_, gall, a4.soft s3, ?_, ?_, ?_, ?_, ?_, ?_⟩
    · rw [s1.frame.1] at a2
      exact a2.imp fun t s ⟨h1, h2⟩ => ⟨h1.mono s3.grow, h2⟩
    · intro n; rw [s3.known, a5, s1.known]
    · rw [resolves_append]
      refine ⟨a6 _ (fun n hn => .inl (s3.external hn)) (fun n hn => .inr (s1.known.1 hn)), ?_⟩
      have hcls : ∀ t ∈ keptTypes p (sortedComposites c.schema), ∀ cls, CompositeClass c.env t cls →
          ∃ s ∈ cs, cls ∈ bound s := by
        intro t ht cls hcc
        obtain ⟨s, hsm, _, cls', hcc', hd⟩ := forall₂_mem_left a2 ht
        obtain ⟨s', hs', hb'⟩ := definedNames_bound (ss := [s]) (n := cls) (by rw [hd, compositeClass_unique hcc hcc']; simp)
        simp at hs'
        subst hs'
        exact ⟨_, hsm, hb'⟩
      apply resolves_all
      intro s hsm n hn
      rcases List.mem_append.1 hsm with hsm | hsm
      · obtain ⟨⟨i, l⟩, hq, rfl⟩ := List.mem_map.1 hsm
        have hmap : ∀ l : List String, freeNamesL (l.map Expr.name) = l := by
          intro l
          induction l with
          | nil => rfl
          | cons m l ih => simp [freeNamesL, freeNames, ih]
        simp only [interfaceUnion, evaluated, sub, freeNames, hmap, List.cons_append, List.nil_append, List.mem_cons] at hn
        rcases hn with rfl | hn
        · exact .inl (.inl (e3 (by intro hh; rw [hh] at hq; simp at hq)))
        · refine .inr ?_
          obtain ⟨L, hL, hf⟩ := a7 i
          have hkn : acc.interfaceMap.keys.Nodup := objectLoop_keys_nodup h2 (by simp [Dict.keys])
          rw [Dict.get?_of_mem_nodup hkn hq] at hL
          simp only [Option.getD_some, Dict.get?, Option.getD_none, List.nil_append] at hL
          rw [hL] at hn
          obtain ⟨t, ht, hcc⟩ := forall₂_mem_right hf hn
          exact hcls t (List.mem_of_mem_filter ht) n hcc
      · obtain ⟨q, hq, rfl⟩ := List.mem_map.1 hsm
        simp only [evaluated, freeNames, List.mem_singleton] at hn
        subst hn
        rcases a10 q (List.mem_of_mem_filter hq) with hh | ⟨t, ht, _, _, hcc⟩
        · simp at hh
        · exact .inr (hcls t ht _ hcc)
    · intro i hi
      have hk := (a8 i).2 hi
      rw [← Dict.get?_isSome_iff] at hk
      obtain ⟨l, hl⟩ := Option.isSome_iff_exists.1 hk
      obtain ⟨L, hL, hf⟩ := a7 i
      rw [hl] at hL
      simp only [Option.getD_some, Dict.get?, Option.getD_none, List.nil_append] at hL
      subst hL
      exact ⟨l, List.mem_append_left _ (List.mem_map.2 ⟨_, Dict.mem_of_get? hl, rfl⟩), hf⟩
    · intro t ht hti hno
      have hk := (a9 t.name).2 ⟨t, ht, hti, rfl⟩
      obtain ⟨q, hq, hqn⟩ := List.mem_map.1 hk
      have hnot : acc.interfaceMap.contains q.1 = false := by
        rw [← Bool.not_eq_true, Dict.contains_iff, a8, hqn]
        rintro ⟨u, hu, hui⟩
        exact hno u hu hui
      have hqm : q ∈ acc.interfaceBaseMap.filter fun q => !acc.interfaceMap.contains q.1 :=
        List.mem_filter.2 ⟨hq, by simp [hnot]⟩
      refine ⟨?_, ?_⟩
      · cases ha : c.config.alwaysResolveInterfaces
        · rfl
        · exfalso
          apply hcond
          rw [ha, Bool.and_true, Bool.not_eq_true', List.isEmpty_eq_false_iff]
          exact List.ne_nil_of_mem hqm
      · rcases a10 q hq with hh | ⟨u, hu, hui, hun, hcc⟩
        · simp at hh
        · refine ⟨q.2, ?_, ?_⟩
          · obtain ⟨n, hn, he⟩ := hcc
            exact ⟨n, by rw [← hqn, ← hun]; exact hn, by rw [he, hui, hti]⟩
          · rw [← hqn]
            exact List.mem_append_right _ (List.mem_map.2 ⟨q, hqm, rfl⟩)
    · intro n
      rw [definedNames_append, definedNames_unions, definedNames_aliases, List.mem_append, a8]
      constructor
      · rintro (⟨t, ht, hi⟩ | hn)
        · exact ⟨t, ht, .inl hi⟩
        · obtain ⟨q, hq, rfl⟩ := List.mem_map.1 hn
          obtain ⟨t, ht, hh⟩ := (a9 q.1).1 (List.mem_map.2 ⟨q, List.mem_of_mem_filter hq, rfl⟩)
          exact ⟨t, ht, .inr hh⟩
      · rintro ⟨t, ht, hi | ⟨hti, rfl⟩⟩
        · exact .inl ⟨t, ht, hi⟩
        · by_cases hx : ∃ u ∈ keptTypes p (sortedComposites c.schema), t.name ∈ u.interfaces
          · exact .inl hx
          · right
            have hk := (a9 t.name).2 ⟨t, ht, hti, rfl⟩
            obtain ⟨q, hq, hqn⟩ := List.mem_map.1 hk
            have hnot : acc.interfaceMap.contains q.1 = false := by
              rw [← Bool.not_eq_true, Dict.contains_iff, a8, hqn]
              exact hx
            exact List.mem_map.2 ⟨q, List.mem_filter.2 ⟨hq, by simp [hnot]⟩, hqn⟩

    · intro i n hn
      rw [s3.bases] at hn
      rcases a11 i n hn with hn | hn
      · rw [s1.bases] at hn; exact .inl hn
      · exact .inr hn

theorem compositeTypes_nodup {s : Schema} (h : s.types.keys.Nodup) : ((compositeTypes s).map (·.name)).Nodup := by
  unfold compositeTypes
  generalize s.types = l at h
  induction l with
  | nil => simp
  | cons q l ih =>
    simp only [Dict.keys, List.map_cons, List.nodup_cons] at h
    have hsub : ∀ (t : CompositeType), t ∈ List.filterMap (fun p : String × TypeEntry => match p.2.defn with
        | .object fs is => some (⟨p.1, false, p.2.description, fs, is⟩ : CompositeType)
        | .interface fs is => some ⟨p.1, true, p.2.description, fs, is⟩
        | _ => none) l → t.name ∈ l.map (·.1) := by
      intro t ht
      obtain ⟨p, hp, he⟩ := List.mem_filterMap.1 ht
      have : t.name = p.1 := by split at he <;> cases he <;> rfl
      rw [this]
      exact List.mem_map.2 ⟨p, hp, rfl⟩
    have ih := ih h.2
    rw [List.filterMap_cons]
    split
    · exact ih
    · rename_i t ht
      have hn : t.name = q.1 := by split at ht <;> cases ht <;> rfl
      rw [List.map_cons, List.nodup_cons]
      refine ⟨?_, ih⟩
      intro hm
      obtain ⟨u, hu, he⟩ := List.mem_map.1 hm
      exact h.1 (by rw [← hn, ← he]; exact hsub u hu)

theorem keptTypes_nodup {p : ObjectsConfig} {s : Schema} (h : s.types.keys.Nodup) :
    ((keptTypes p (sortedComposites s)).map (·.name)).Nodup := by
  refine List.Nodup.sublist (List.filter_sublist.map _) ?_
  exact ((pySorted_perm _ _).map _).nodup_iff.2 (compositeTypes_nodup h)

end Turms
