import Mathlib.Data.List.Forall2
import Verif.Lemmas.Scope
import Verif.Spec.Inputs

namespace Turms
open Spec

namespace Dict
variable {α : Type}

theorem set_fresh (d : Dict α) (k : String) (v : α) (h : k ∉ d.keys) : d.set k v = d ++ [(k, v)] := by
  induction d with
  | nil => rfl
  | cons p d ih =>
    obtain ⟨k', v'⟩ := p
    simp only [keys, List.map_cons, List.mem_cons, not_or] at h
    simp only [set, if_neg (Ne.symm h.1), List.cons_append]
    rw [ih (by simpa [keys] using h.2)]

theorem get?_append (a b : Dict α) (k : String) :
    get? (a ++ b) k = match get? a k with
      | some v => some v
      | none => get? b k := by
  induction a with
  | nil => rfl
  | cons p a ih =>
    obtain ⟨k', v'⟩ := p
    simp only [List.cons_append, get?]
    split
    · rfl
    · exact ih

end Dict

theorem forall₂_mem_right {α β : Type} {R : α → β → Prop} {as : List α} {bs : List β} (h : List.Forall₂ R as bs) {b : β}
    (hb : b ∈ bs) : ∃ a ∈ as, R a b := by
  induction h with
  | nil => simp at hb
  | cons h _ ih =>
    rcases List.mem_cons.1 hb with rfl | hb
    · exact ⟨_, List.mem_cons_self .., h⟩
    · obtain ⟨a, ha, hr⟩ := ih hb; exact ⟨a, List.mem_cons_of_mem _ ha, hr⟩

/-- The effect of a piece of a plugin that registers the types `K` of kind `kind` and emits `ss`. -/
structure Emits (env : Env) (kind : Kind) (r r' : Reg) (K : List String) (ss : List Stmt) : Prop where
  map : ∃ L : Dict String, r'.classMap kind = r.classMap kind ++ L ∧ L.map (·.1) = K ∧
    L.map (·.2) = definedNames ss ∧ ∀ p ∈ L, kind.style env p.1 = .ok p.2
  fresh : K.Nodup ∧ ∀ k ∈ K, k ∉ (r.classMap kind).keys
  other : ∀ k, k ≠ kind → r'.classMap k = r.classMap k
  scalar : r'.scalarMap = r.scalarMap
  impl : r'.interfaceFragmentImpl = r.interfaceFragmentImpl ∧ r'.unionFragmentMembers = r.unionFragmentMembers
  ext : ∀ n, External r n → External r' n
  resolves : ∀ ext : String → Prop, (∀ n, External r' n → ext n) → (∀ n, Registered r n → ext n) → Resolves ext ss

theorem resolves_append (a b : List Stmt) : ∀ ext : String → Prop,
    Resolves ext (a ++ b) ↔ Resolves ext a ∧ Resolves (fun n => ext n ∨ ∃ s ∈ a, n ∈ bound s) b := by
  induction a with
  | nil => intro ext; simp [Resolves]
  | cons s a ih =>
    intro ext
    simp only [List.cons_append, Resolves, ih, and_assoc, List.mem_cons, exists_eq_or_imp, or_assoc]

theorem Resolves.mono {ss : List Stmt} : ∀ {e1 e2 : String → Prop}, (∀ n, e1 n → e2 n) → Resolves e1 ss → Resolves e2 ss := by
  induction ss with
  | nil => intros; trivial
  | cons s ss ih =>
    intro e1 e2 h hr
    exact ⟨fun n hn => h n (hr.1 n hn), ih (fun n hn => hn.imp (h n) id) hr.2⟩

theorem definedNames_append (a b : List Stmt) : definedNames (a ++ b) = definedNames a ++ definedNames b := by
  fun_induction definedNames a <;> simp_all [definedNames]

theorem definedNames_bound {ss : List Stmt} {n : String} (h : n ∈ definedNames ss) : ∃ s ∈ ss, n ∈ bound s := by
  fun_induction definedNames ss with
  | case1 => simp at h
  | case2 m _ _ _ rest ih =>
    rcases List.mem_cons.1 h with rfl | h
    · exact ⟨_, List.mem_cons_self .., by simp [bound]⟩
    · obtain ⟨s, hs, hn⟩ := ih h; exact ⟨s, List.mem_cons_of_mem _ hs, hn⟩
  | case3 m _ rest ih =>
    rcases List.mem_cons.1 h with rfl | h
    · exact ⟨_, List.mem_cons_self .., by simp [bound]⟩
    · obtain ⟨s, hs, hn⟩ := ih h; exact ⟨s, List.mem_cons_of_mem _ hs, hn⟩
  | case4 _ rest _ _ ih =>
    obtain ⟨s, hs, hn⟩ := ih h; exact ⟨s, List.mem_cons_of_mem _ hs, hn⟩

theorem Emits.registered {env : Env} {kind : Kind} {r r' : Reg} {K : List String} {ss : List Stmt}
    (h : Emits env kind r r' K ss) {n : String} : Registered r' n ↔ Registered r n ∨ n ∈ definedNames ss := by
  obtain ⟨L, hm, hk, hd, _⟩ := h.map
  constructor
  · rintro ⟨k, t, ht⟩
    by_cases hkk : k = kind
    · subst hkk
      rw [hm, Dict.get?_append] at ht
      cases hg : (r.classMap k).get? t with
      | some v => rw [hg] at ht; cases ht; exact .inl ⟨k, t, hg⟩
      | none =>
        rw [hg] at ht
        refine .inr ?_
        rw [← hd]
        exact List.mem_map.2 ⟨_, Dict.mem_of_get? ht, rfl⟩
    · rw [h.other k hkk] at ht
      exact .inl ⟨k, t, ht⟩
  · rintro (⟨k, t, ht⟩ | hn)
    · by_cases hkk : k = kind
      · subst hkk
        refine ⟨k, t, ?_⟩
        rw [hm, Dict.get?_append, ht]
      · exact ⟨k, t, by rw [h.other k hkk]; exact ht⟩
    · rw [← hd] at hn
      obtain ⟨p, hp, rfl⟩ := List.mem_map.1 hn
      refine ⟨kind, p.1, ?_⟩
      have hpK : p.1 ∈ K := by rw [← hk]; exact List.mem_map.2 ⟨p, hp, rfl⟩
      rw [hm, Dict.get?_append, (Dict.get?_eq_none_iff _ _).2 (h.fresh.2 _ hpK)]
      exact Dict.get?_of_mem_nodup (by rw [Dict.keys, hk]; exact h.fresh.1) hp

theorem Emits.styled {env : Env} {kind : Kind} {r r' : Reg} {K : List String} {ss : List Stmt}
    (h : Emits env kind r r' K ss) (hs : Styled env r) : Styled env r' := by
  obtain ⟨L, hm, hk, hd, hst⟩ := h.map
  intro k n cl hc
  by_cases hkk : k = kind
  · subst hkk
    rw [hm, Dict.get?_append] at hc
    cases hg : (r.classMap k).get? n with
    | some v => rw [hg] at hc; cases hc; exact hs _ _ _ hg
    | none => rw [hg] at hc; exact hst _ (Dict.mem_of_get? hc)
  · rw [h.other k hkk] at hc
    exact hs _ _ _ hc

theorem Emits.append {env : Env} {kind : Kind} {r r1 r2 : Reg} {K1 K2 : List String} {a b : List Stmt}
    (h1 : Emits env kind r r1 K1 a) (h2 : Emits env kind r1 r2 K2 b) : Emits env kind r r2 (K1 ++ K2) (a ++ b) := by
  obtain ⟨L1, hm1, hk1, hd1, hst1⟩ := h1.map
  obtain ⟨L2, hm2, hk2, hd2, hst2⟩ := h2.map
  refine ⟨⟨L1 ++ L2, ?_, ?_, ?_, ?_⟩, ⟨?_, ?_⟩, ?_, ?_, ⟨h2.impl.1.trans h1.impl.1, h2.impl.2.trans h1.impl.2⟩, ?_, ?_⟩
  · rw [hm2, hm1, List.append_assoc]
  · rw [List.map_append, hk1, hk2]
  · rw [List.map_append, hd1, hd2, definedNames_append]
  · intro p hp
    rcases List.mem_append.1 hp with hp | hp
    · exact hst1 p hp
    · exact hst2 p hp
  · refine List.nodup_append.2 ⟨h1.fresh.1, h2.fresh.1, ?_⟩
    rintro x hx y hy rfl
    refine h2.fresh.2 x hy ?_
    rw [hm1, Dict.keys, List.map_append, hk1]
    exact List.mem_append_right _ hx
  · intro k hk
    rcases List.mem_append.1 hk with hk | hk
    · exact h1.fresh.2 k hk
    · intro hc
      refine h2.fresh.2 k hk ?_
      rw [hm1, Dict.keys, List.map_append]
      exact List.mem_append_left _ hc
  · intro k hk; rw [h2.other k hk, h1.other k hk]
  · rw [h2.scalar, h1.scalar]
  · exact fun n hn => h2.ext n (h1.ext n hn)
  · intro ext he hr
    rw [resolves_append]
    refine ⟨h1.resolves ext (fun n hn => he n (h2.ext n hn)) hr, h2.resolves _ (fun n hn => .inl (he n hn)) ?_⟩
    intro n hn
    rcases h1.registered.1 hn with hn | hn
    · exact .inl (hr n hn)
    · exact .inr (definedNames_bound hn)

theorem Emits.nil {env : Env} {kind : Kind} {r r' : Reg} (h : Soft r r') : Emits env kind r r' [] [] where
  map := ⟨[], by rw [h.frame.2 kind]; simp, rfl, rfl, by simp⟩
  fresh := ⟨List.nodup_nil, by simp⟩
  other := fun k _ => h.frame.2 k
  scalar := h.frame.1
  impl := by rw [h.same]; exact ⟨rfl, rfl⟩
  ext := fun n hn => h.external hn
  resolves := fun _ _ _ => trivial

theorem external_setClass {r : Reg} {kind : Kind} {t n x : String} :
    External (r.setClass kind t n) x ↔ External r x := by cases kind <;> rfl

/-- registering one type, then emitting one definition of it -/
theorem Emits.define {env : Env} {kind : Kind} {r r1 r' : Reg} {t name : String} {ss : List Stmt}
    (h1 : generateClass env kind t r = .ok (name, r1)) (h2 : Soft r1 r') (hd : definedNames ss = [name])
    (hr : ∀ ext : String → Prop, (∀ n, External r' n → ext n) → (∀ n, Registered r n → ext n) → Resolves ext ss) :
    Emits env kind r r' [t] ss := by
  obtain ⟨hc, hst, rfl⟩ := generateClass_ok h1
  have hfresh : t ∉ (r.classMap kind).keys := by
    rw [← Dict.contains_iff]; simp [hc]
  refine ⟨⟨[(t, name)], ?_, rfl, hd.symm, ?_⟩, ⟨by simp, ?_⟩, ?_, ?_, by rw [h2.same]; cases kind <;> exact ⟨rfl, rfl⟩, ?_, hr⟩
  · rw [h2.frame.2 kind, classMap_setClass, if_pos rfl, Dict.set_fresh _ _ _ hfresh]
  · intro p hp; simp at hp; subst hp; exact hst
  · intro k hk; simp at hk; subst hk; exact hfresh
  · intro k hk
    rw [h2.frame.2 k, classMap_setClass, if_neg (Ne.symm hk)]
  · rw [h2.frame.1]; cases kind <;> rfl
  · intro n hn
    exact h2.external (external_setClass.2 hn)

theorem registered_setClass {r : Reg} {kind : Kind} {t n x : String} (h : Registered (r.setClass kind t n) x) :
    Registered r x ∨ x = n := by
  obtain ⟨k, t', ht⟩ := h
  rw [classMap_setClass] at ht
  split at ht
  · rw [Dict.get?_set] at ht
    split at ht
    · cases ht; exact .inr rfl
    · exact .inl ⟨k, t', ht⟩
  · exact .inl ⟨k, t', ht⟩

/-- a class statement whose names are external or registered under a different class name -/
theorem Emits.defineClass {env : Env} {kind : Kind} {r r1 r' : Reg} {t name : String} {s : Stmt}
    (h1 : generateClass env kind t r = .ok (name, r1)) (h2 : Soft r1 r') (hb : definedNames [s] = [name])
    (hu : ∀ n ∈ evaluated s, External r' n ∨ (Registered r1 n ∧ n ≠ name)) :
    Emits env kind r r' [t] [s] := by
  refine Emits.define h1 h2 hb ?_
  intro ext he hr
  refine ⟨fun n hn => ?_, trivial⟩
  obtain ⟨_, _, rfl⟩ := generateClass_ok h1
  rcases hu n hn with h | ⟨h, hne⟩
  · exact he n h
  · rcases registered_setClass h with h | h
    · exact hr n h
    · exact absurd h hne

/-- a step that changes only imports, helpers and forward references before or after -/
theorem Emits.softLeft {env : Env} {kind : Kind} {r r1 r' : Reg} {K : List String} {ss : List Stmt} (s : Soft r r1)
    (h : Emits env kind r1 r' K ss) : Emits env kind r r' K ss := by
  simpa using (Emits.nil s).append h

theorem Emits.softRight {env : Env} {kind : Kind} {r r1 r' : Reg} {K : List String} {ss : List Stmt}
    (h : Emits env kind r r1 K ss) (s : Soft r1 r') : Emits env kind r r' K ss := by
  simpa using h.append (Emits.nil s)


theorem oneofWrapper_emits {c : Ctx} {p : InputsConfig} {tn cn : String} {extra : List Expr} {f : InputFieldDef}
    {s : Stmt} {r r' : Reg} (hs : Styled c.env r) (hp : PlainConfig c.config)
    (hb : ∀ b ∈ p.bases, External r (lastComponent b)) (hx : ∀ n ∈ freeNamesL extra, External r n)
    (h : oneofWrapper c p tn extra f r = .ok ((cn, s), r')) :
    Emits c.env .input r r' [tn ++ pascal f.name] [s] ∧ definedNames [s] = [cn] := by
  unfold oneofWrapper at h
  cases hg : generateClass c.env .input (tn ++ pascal f.name) r with
  | error e => rw [hg] at h; cases e <;> simp at h
  | ok q =>
    obtain ⟨classname, r1⟩ := q
    rw [hg] at h
    dsimp only at h
    obtain ⟨attr, r2, h2, h⟩ := Gen.bind_ok.1 h
    obtain ⟨a, r3, h3, h⟩ := Gen.bind_ok.1 h
    obtain ⟨a', r4, h4, h⟩ := Gen.bind_ok.1 h
    obtain ⟨v, r5, h5, h⟩ := Gen.bind_ok.1 h
    obtain ⟨cfg, r6, h6, h⟩ := Gen.bind_ok.1 h
    obtain ⟨he, rfl⟩ := Gen.pure_ok.1 h
    obtain ⟨rfl, rfl⟩ := Prod.mk.injEq .. ▸ he
    have hs1 : Styled c.env r1 := by
      have := (Emits.define (ss := [.assign (.name classname) (.const .none)]) hg (Soft.refl _) rfl
        (fun ext _ _ => ⟨by simp [evaluated, freeNames], trivial⟩))
      exact this.styled hs
    have e01 : ∀ n, External r n → External r1 n := by
      intro n hn; obtain ⟨_, _, rfl⟩ := generateClass_ok hg; exact external_setClass.2 hn
    have s2 := soft_lift h2
    obtain ⟨s3, u3⟩ := soft_inputAnnotation f.type (hs1.soft s2) h3
    obtain ⟨s4, u4⟩ := soft_annotateFieldMetadata (d := none) h4 u3
    obtain ⟨s5, u5⟩ := soft_inputFieldValue h5
    obtain ⟨s6, u6⟩ := soft_generatePydanticConfig hp h6
    have sall := s2.trans (s3.trans (s4.trans (s5.trans s6)))
    refine ⟨Emits.defineClass hg sall rfl ?_, rfl⟩
    intro n hn
    simp only [evaluated, freeNamesL, List.nil_append, List.mem_append, List.cons_append, evaluatedL,
      Expr.str, freeNames] at hn
    rcases hn with hn | hn
    · obtain ⟨e, he, hn⟩ := mem_freeNamesL.1 hn
      rcases List.mem_append.1 he with he | he
      · exact .inl (sall.external (e01 n (hx n (mem_freeNamesL.2 ⟨e, he, hn⟩))))
      · obtain ⟨b, hbm, rfl⟩ := mem_baseNames (mem_freeNamesL.2 ⟨e, he, hn⟩)
        exact .inl (sall.external (e01 _ (hb b hbm)))
    · rcases hn with (hn | hn) | hn
      · exact (u4.mono s2 (s5.trans s6)) n hn
      · exact .inl (s6.external (u5 n hn))
      · exact .inl (u6 n hn)

theorem oneofWrappers_emits {c : Ctx} {p : InputsConfig} {tn : String} {extra : List Expr} {fs : List InputFieldDef}
    (hp : PlainConfig c.config) :
    ∀ {ws : List (String × Stmt)} {r r' : Reg}, Styled c.env r →
    (∀ b ∈ p.bases, External r (lastComponent b)) → (∀ n ∈ freeNamesL extra, External r n) →
    oneofWrappers c p tn extra fs r = .ok (ws, r') →
    Emits c.env .input r r' (fs.map fun f => tn ++ pascal f.name) (ws.map (·.2)) ∧
      definedNames (ws.map (·.2)) = ws.map (·.1) := by
  induction fs with
  | nil =>
    intro ws r r' hs hb hx h
    obtain ⟨rfl, rfl⟩ := Gen.pure_ok.1 h
    exact ⟨Emits.nil (Soft.refl _), rfl⟩
  | cons f fs ih =>
    intro ws r r' hs hb hx h
    unfold oneofWrappers at h
    obtain ⟨⟨cn, s⟩, r1, h1, h⟩ := Gen.bind_ok.1 h
    obtain ⟨ws', r2, h2, h⟩ := Gen.bind_ok.1 h
    obtain ⟨rfl, rfl⟩ := Gen.pure_ok.1 h
    obtain ⟨e1, d1⟩ := oneofWrapper_emits hs hp hb hx h1
    obtain ⟨e2, d2⟩ := ih (e1.styled hs) (fun b hbm => e1.ext _ (hb b hbm)) (fun n hn => e1.ext _ (hx n hn)) h2
    refine ⟨e1.append e2, ?_⟩
    change definedNames ([s] ++ ws'.map (·.2)) = _
    rw [definedNames_append, d1, d2]; rfl

theorem generateUnionAlias_ok {al : String} {ms : List String} {s : Stmt} {r r' : Reg}
    (h : generateUnionAlias al ms r = .ok (s, r')) :
    Soft r r' ∧ definedNames [s] = [al] ∧ ∀ n ∈ evaluated s, External r' n ∨ n ∈ ms := by
  have hmap : ∀ ms : List String, freeNamesL (ms.map Expr.name) = ms := by
    intro ms
    induction ms with
    | nil => rfl
    | cons m ms ih => simp [freeNamesL, freeNames, ih]
  unfold generateUnionAlias at h
  split at h
  · obtain ⟨rfl, rfl⟩ := Gen.pure_ok.1 h
    refine ⟨Soft.refl _, rfl, fun n hn => .inr ?_⟩
    simpa [evaluated, freeNames] using hn
  · obtain ⟨_, r1, h1, h⟩ := Gen.bind_ok.1 h
    obtain ⟨rfl, rfl⟩ := Gen.pure_ok.1 h
    obtain ⟨s1, e1⟩ := soft_registerImport h1
    refine ⟨s1, rfl, fun n hn => ?_⟩
    simp only [evaluated, sub, freeNames, hmap, List.cons_append, List.nil_append, List.mem_cons] at hn
    rcases hn with rfl | hn
    · exact .inl (e1.at (by decide +kernel))
    · exact .inr hn

theorem generateOneofWrapperInput_emits {c : Ctx} {p : InputsConfig} {tn : String} {fs : List InputFieldDef}
    {ss : List Stmt} {r r' : Reg} (hs : Styled c.env r) (hp : PlainConfig c.config)
    (hb : ∀ b ∈ p.bases, External r (lastComponent b))
    (h : generateOneofWrapperInput c p tn fs r = .ok (ss, r')) :
    Emits c.env .input r r' (fs.map (fun f => tn ++ pascal f.name) ++ [tn]) ss := by
  unfold generateOneofWrapperInput at h
  obtain ⟨extra, r1, h1, h⟩ := Gen.bind_ok.1 h
  obtain ⟨ws, r2, h2, h⟩ := Gen.bind_ok.1 h
  obtain ⟨al, r3, h3, h⟩ := Gen.bind_ok.1 h
  obtain ⟨a, r4, h4, h⟩ := Gen.bind_ok.1 h
  obtain ⟨rfl, rfl⟩ := Gen.pure_ok.1 h
  obtain ⟨s1, x1⟩ := soft_additionalBasesFor h1
  obtain ⟨e2, d2⟩ := oneofWrappers_emits hp (hs.soft s1) (fun b hbm => s1.external (hb b hbm)) x1 h2
  obtain ⟨s4, d4, u4⟩ := generateUnionAlias_ok h4
  refine (e2.append (Emits.define h3 s4 d4 ?_)).softLeft s1
  intro ext he hr
  refine ⟨fun n hn => ?_, trivial⟩
  rcases u4 n hn with hn | hn
  · exact he n hn
  · exact hr n (e2.registered.2 (.inr (by rw [d2]; exact hn)))

theorem memberClasses_ok {ms : Dict String} : ∀ {mcs : Dict String} {r r' : Reg}, memberClasses ms r = .ok (mcs, r') →
    r' = r ∧ List.Forall₂ (fun m q => q.1 = m.1 ∧ r.inputMap.get? m.2 = some q.2) ms mcs := by
  induction ms with
  | nil =>
    intro mcs r r' h
    obtain ⟨rfl, rfl⟩ := Gen.pure_ok.1 h
    exact ⟨rfl, .nil⟩
  | cons m ms ih =>
    obtain ⟨k, m⟩ := m
    intro mcs r r' h
    unfold memberClasses at h
    obtain ⟨cl, r1, h1, h⟩ := Gen.bind_ok.1 h
    obtain ⟨rest, r2, h2, h⟩ := Gen.bind_ok.1 h
    obtain ⟨rfl, rfl⟩ := Gen.pure_ok.1 h
    unfold getClass Dict.get at h1
    cases hg : (r.classMap .input).get? m with
    | none => simp [hg] at h1
    | some v =>
      simp only [hg, Except.ok.injEq, Prod.mk.injEq] at h1
      obtain ⟨rfl, rfl⟩ := h1
      obtain ⟨rfl, hf⟩ := ih h2
      exact ⟨rfl, .cons ⟨rfl, hg⟩ hf⟩

theorem mem_dedupKeepFirst {l : List String} {x : String} : x ∈ dedupKeepFirst l ↔ x ∈ l := by
  have : ∀ (l acc : List String), x ∈ l.foldl setAdd acc ↔ x ∈ acc ∨ x ∈ l := by
    intro l
    induction l with
    | nil => simp
    | cons a l ih => intro acc; rw [List.foldl_cons, ih]; simp [mem_setAdd, or_assoc]
  simp [dedupKeepFirst, this]

theorem softIf {b : Bool} {d : String} {r r' : Reg} {u : Unit}
    (h : importIf b d r = .ok (u, r')) :
    Soft r r' ∧ (b = true → External r' (lastComponent d)) := by
  unfold importIf at h
  split at h
  · obtain ⟨s, e⟩ := soft_registerImport h
    exact ⟨s, fun _ => e⟩
  · rename_i hb
    obtain ⟨_, rfl⟩ := Gen.pure_ok.1 h
    exact ⟨Soft.refl _, fun hh => absurd hh hb⟩

theorem generateOneofDirectUnion_emits {c : Ctx} {tn : String} {ms : Dict String} {ss : List Stmt} {r r' : Reg}
    (hne : ∀ m ∈ ms, m.2 ≠ tn) (hms : ms ≠ [])
    (h : generateOneofDirectUnion c tn ms r = .ok (ss, r')) : Emits c.env .input r r' [tn] ss := by
  unfold generateOneofDirectUnion at h
  obtain ⟨al, r1, h1, h⟩ := Gen.bind_ok.1 h
  obtain ⟨mcs, r2, h2, h⟩ := Gen.bind_ok.1 h
  obtain ⟨_, r3, h3, h⟩ := Gen.bind_ok.1 h
  obtain ⟨_, r4, h4, h⟩ := Gen.bind_ok.1 h
  obtain ⟨_, r5, h5, h⟩ := Gen.bind_ok.1 h
  obtain ⟨rfl, rfl⟩ := Gen.pure_ok.1 h
  obtain ⟨rfl, hf⟩ := memberClasses_ok h2
  obtain ⟨s3, e3⟩ := softIf h3
  obtain ⟨s4, e4⟩ := soft_registerImport h4
  obtain ⟨s5, e5⟩ := soft_registerImport h5
  refine Emits.define h1 (s3.trans (s4.trans s5)) rfl ?_
  intro ext he hr
  have hreg : ∀ n ∈ mcs.map (·.2), ext n := by
    intro n hn
    obtain ⟨q, hq, rfl⟩ := List.mem_map.1 hn
    obtain ⟨m, hm, _, hg⟩ := forall₂_mem_right hf hq
    obtain ⟨_, _, rfl⟩ := generateClass_ok h1
    refine hr _ ⟨.input, m.2, ?_⟩
    have := hne m hm
    simp only [Reg.setClass] at hg
    rw [Dict.get?_set_ne _ _ (Ne.symm this)] at hg
    exact hg
  have hmcs : mcs ≠ [] := by
    rintro rfl
    cases hf
    exact hms rfl
  have hmap : ∀ ms : List String, freeNamesL (ms.map Expr.name) = ms := by
    intro ms
    induction ms with
    | nil => rfl
    | cons m ms ih => simp [freeNamesL, freeNames, ih]
  refine ⟨by simp [evaluated, freeNamesL, freeNamesO], ⟨fun n hn => ?_, trivial⟩⟩
  simp only [evaluated, sub, freeNames, freeNamesL, freeNamesK, List.cons_append, List.nil_append, List.mem_cons,
    List.append_nil, List.mem_append] at hn
  rcases hn with rfl | hn | rfl | rfl | hn
  · exact .inl (he _ (s5.external (e4.at (by decide +kernel))))
  · split at hn
    · rename_i hlen
      simp only [freeNames, hmap, List.cons_append, List.nil_append, List.mem_cons] at hn
      rcases hn with rfl | hn
      · exact .inl (he _ ((s4.trans s5).external ((e3 (by simpa using hlen)).at (by decide +kernel))))
      · exact .inl (hreg n (mem_dedupKeepFirst.1 hn))
    · simp only [freeNames, List.mem_cons, List.not_mem_nil, or_false] at hn
      subst hn
      refine .inl (hreg _ ?_)
      obtain ⟨q, rest, rfl⟩ := List.exists_cons_of_ne_nil hmcs
      refine mem_dedupKeepFirst.1 ?_
      have hmem : q.2 ∈ dedupKeepFirst (List.map (·.2) (q :: rest)) := mem_dedupKeepFirst.2 (by simp)
      revert hmem
      cases dedupKeepFirst (List.map (·.2) (q :: rest)) <;> simp
  · exact .inl (he _ (e5.at (by decide +kernel)))
  · exact .inr (by simp [bound])
  · simp at hn

end Turms
