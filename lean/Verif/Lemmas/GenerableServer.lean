import Verif.Spec.GenerableServer
import Verif.Lemmas.GenerableInputs
import Verif.Lemmas.GenerableFuncs
import Verif.Lemmas.ObjectsProgress
import Verif.Lemmas.StrawberryMarks

/-! # When the strawberry plugin succeeds -/

namespace Turms
open Spec Props

theorem Go.runs {α : Type} {g : Gen α} {r : Reg} {Q : α → Prop} (h : Go g r Q) : Runs g r := by
  obtain ⟨a, r', h, _⟩ := h
  exact ⟨a, r', h⟩

/-- sequencing after a call that keeps the tables -/
theorem Runs.still {α β : Type} {x : Gen α} {f : α → Gen β} {r : Reg} (hx : Runs x r) (hq : Still x)
    (hf : ∀ a r1, Quiet r r1 → Runs (f a) r1) : Runs (x >>= f) r :=
  hx.bind fun a r1 h => hf a r1 (hq.quiet h)

theorem runs_lift {α : Type} {x : Except Err α} {a : α} {r : Reg} (h : x = .ok a) : Runs (Gen.lift x) r :=
  ⟨a, r, Gen.lift_ok.2 ⟨h, rfl⟩⟩

/-! ## directives -/

theorem convertValueNodes_of {l : List Value} (h : ∀ v ∈ l, ∃ e, convertValueNode v = .ok e) :
    ∃ es, convertValueNodes l = .ok es := by
  induction l with
  | nil => exact ⟨[], rfl⟩
  | cons v l ih =>
    obtain ⟨e, he⟩ := h v (by simp)
    obtain ⟨es, hes⟩ := ih fun v hv => h v (by simp [hv])
    exact ⟨e :: es, by rw [convertValueNodes, he]; dsimp only; rw [hes]⟩

theorem convertValueNode_passable {v : Value} (h : Passable v) : ∃ e, convertValueNode v = .ok e := by
  induction h with
  | list _ ih =>
    obtain ⟨es, hes⟩ := convertValueNodes_of ih
    exact ⟨.list es, by rw [convertValueNode, hes]⟩
  | _ => exact ⟨_, rfl⟩

theorem directiveArgs_passable : ∀ {as : List (String × Value)}, (∀ q ∈ as, Passable q.2) → ∃ kws, directiveArgs as = .ok kws := by
  intro as
  induction as with
  | nil => exact fun _ => ⟨[], rfl⟩
  | cons q as ih =>
    intro h
    obtain ⟨k, v⟩ := q
    obtain ⟨e, he⟩ := convertValueNode_passable (h (k, v) (by simp))
    obtain ⟨kws, hk⟩ := ih fun q hq => h q (by simp [hq])
    exact ⟨_, by rw [directiveArgs, he]; dsimp only; rw [hk]⟩

theorem directiveCalls_passable : ∀ {ds : List DirectiveApp}, (∀ d ∈ ds, ∀ q ∈ d.args, Passable q.2) →
    ∃ cs, directiveCalls ds = .ok cs := by
  intro ds
  induction ds with
  | nil => exact fun _ => ⟨[], rfl⟩
  | cons d ds ih =>
    intro h
    obtain ⟨kws, hk⟩ := directiveArgs_passable (h d (by simp))
    obtain ⟨cs, hc⟩ := ih fun d hd => h d (by simp [hd])
    exact ⟨_, by rw [directiveCalls, hk]; dsimp only; rw [hc]⟩

theorem runs_directiveKeywords {p : StrawberryConfig} {ds : List DirectiveApp} {r : Reg}
    (h : ∀ d ∈ ds, d.name ∉ p.builtinDirectives → ∀ q ∈ d.args, Passable q.2) : Runs (directiveKeywords p ds) r := by
  have key : ∀ d ∈ ds.filter (fun d => !p.builtinDirectives.contains d.name), ∀ q ∈ d.args, Passable q.2 := by
    intro d hd
    obtain ⟨hd, hn⟩ := List.mem_filter.1 hd
    exact h d hd (by simpa using hn)
  unfold directiveKeywords
  split
  · exact .pure
  · rename_i heq
    rw [heq] at key
    obtain ⟨cs, hc⟩ := directiveCalls_passable key
    exact (runs_lift hc).bind fun _ _ _ => .pure

section
variable {c : Ctx} {p : StrawberryConfig} {sd : SchemaDirectives}

theorem runs_directiveAnnotation (t : TypeNode) : ∀ {o : Bool} {r : Reg}, c.schema.lookup t.base = some .scalar →
    (∃ x, r.scalarMap.get? t.base = some x) → Runs (directiveAnnotation c t o) r := by
  induction t with
  | named n =>
    intro o r hl ⟨x, hx⟩
    refine Runs.bind ?_ fun _ _ _ => runs_optionalWrap
    unfold directiveLeaf
    have hl : c.schema.lookup n = some .scalar := hl
    rw [hl]
    exact (go_referenceScalar hx).runs
  | list t ih =>
    intro o r hl hx
    refine runs_registerImport.still still_registerImport fun _ r1 q => ?_
    exact (ih hl (by rw [q.scalar]; exact hx)).bind fun _ _ _ => runs_optionalWrap
  | nonNull t ih => exact fun hl hx => ih hl hx

theorem runs_directiveFieldValue {d : Option PyDefault} {r : Reg} (h : ∀ v, d = some v → v.Proper) :
    Runs (directiveFieldValue d) r := by
  unfold directiveFieldValue
  split
  · exact .pure
  · exact .pure
  · exact (runs_lift (convertDefault_expr _ (h _ rfl))).bind fun _ _ _ => .pure

theorem runs_directiveFields (hs : Stylable c.env) : ∀ {as : List ArgDef} {r : Reg},
    (∀ a ∈ as, (c.schema.lookup a.type.base = some .scalar ∧ ∃ x, r.scalarMap.get? a.type.base = some x) ∧
      ∀ v, a.default = some v → v.Proper) → Runs (directiveFields c as) r := by
  intro as
  induction as with
  | nil => exact fun _ => .pure
  | cons a as ih =>
    intro r h
    obtain ⟨⟨hl, hx⟩, hd⟩ := h a (by simp)
    have h1 : Runs (directiveField c a) r := by
      refine (runs_directiveFieldValue hd).still still_directiveFieldValue fun _ _ q => ?_
      refine (go_nodeName hs).runs.still still_nodeName fun _ _ q1 => ?_
      exact (runs_directiveAnnotation _ hl (by rw [q1.scalar, q.scalar]; exact hx)).bind fun _ _ _ => .pure
    refine h1.still still_directiveField fun _ _ q => ?_
    exact (ih fun a ha => by rw [q.scalar]; exact h a (by simp [ha])).bind fun _ _ _ => .pure

theorem runs_directiveClass (hs : Stylable c.env) {d : DirectiveDef} {r : Reg}
    (h : KeptType p d.name → ∀ a ∈ d.args,
      (c.schema.lookup a.type.base = some .scalar ∧ ∃ x, r.scalarMap.get? a.type.base = some x) ∧
      ∀ v, a.default = some v → v.Proper) : Runs (directiveClass c p d) r := by
  unfold directiveClass
  by_cases h1 : (p.skipUnderscore && underscored d.name) = true
  · rw [if_pos h1]; exact .pure
  · rw [if_neg h1]
    by_cases h2 : (p.skipDoubleUnderscore && doubleUnderscored d.name) = true
    · rw [if_pos h2]; exact .pure
    · rw [if_neg h2]
      have hk : KeptType p d.name := keptType_iff.1 (by rw [Bool.or_eq_false_iff]; exact ⟨by simpa using h1, by simpa using h2⟩)
      exact (runs_directiveFields hs (h hk)).bind fun _ _ _ => runs_generatePydanticConfig.bind fun _ _ _ => .pure

theorem runs_directiveClasses (hs : Stylable c.env) : ∀ {ds : List DirectiveDef} {r : Reg},
    (∀ d ∈ ds, KeptType p d.name → ∀ a ∈ d.args,
      (c.schema.lookup a.type.base = some .scalar ∧ ∃ x, r.scalarMap.get? a.type.base = some x) ∧
      ∀ v, a.default = some v → v.Proper) → Runs (directiveClasses c p ds) r := by
  intro ds
  induction ds with
  | nil => exact fun _ => .pure
  | cons d ds ih =>
    intro r h
    refine (runs_directiveClass hs (h d (by simp))).still still_directiveClass fun _ _ q => ?_
    exact (ih fun d hd => by rw [q.scalar]; exact h d (by simp [hd])).bind fun _ _ _ => .pure

theorem runs_strawberryDirectives (hs : Stylable c.env) {ds : List DirectiveDef} {r : Reg}
    (h : ∀ d ∈ ds, d.name ∉ p.builtinDirectives → KeptType p d.name → ∀ a ∈ d.args,
      (c.schema.lookup a.type.base = some .scalar ∧ ∃ x, r.scalarMap.get? a.type.base = some x) ∧
      ∀ v, a.default = some v → v.Proper) : Runs (strawberryDirectives c p ds) r := by
  have key : ∀ d ∈ ds.filter (fun d => !p.builtinDirectives.contains d.name), KeptType p d.name → ∀ a ∈ d.args,
      (c.schema.lookup a.type.base = some .scalar ∧ ∃ x, r.scalarMap.get? a.type.base = some x) ∧
      ∀ v, a.default = some v → v.Proper := by
    intro d hd
    obtain ⟨hd, hn⟩ := List.mem_filter.1 hd
    exact h d hd (by simpa using hn)
  unfold strawberryDirectives
  split
  · exact .pure
  · rename_i heq
    rw [heq] at key
    refine runs_registerImport.still still_registerImport fun _ _ q => ?_
    exact runs_directiveClasses hs fun d hd => by rw [q.scalar]; exact key d hd

/-! ## scalars -/

theorem runs_strawberryScalar {t : ScalarType} {r : Reg}
    (h : ∀ t, ∀ d ∈ sd.onType t, d.name ∉ p.builtinDirectives → ∀ q ∈ d.args, Passable q.2) :
    Runs (strawberryScalar p sd t) r :=
  (runs_directiveKeywords (h t.name)).bind fun _ _ _ => Runs.bind ⟨_, _, rfl⟩ fun _ _ _ => .pure

theorem runs_strawberryScalars {r : Reg}
    (h : ∀ t, ∀ d ∈ sd.onType t, d.name ∉ p.builtinDirectives → ∀ q ∈ d.args, Passable q.2) :
    Runs (strawberryScalars c p sd) r := by
  have loop : ∀ (ts : List ScalarType) {r : Reg}, Runs (strawberryScalarLoop p sd ts) r := by
    intro ts
    induction ts with
    | nil => exact .pure
    | cons t ts ih => exact (runs_strawberryScalar h).bind fun _ _ _ => ih.bind fun _ _ _ => .pure
  unfold strawberryScalars
  split
  · exact .pure
  · exact runs_registerImport.bind fun _ _ _ => loop _

theorem strawberryScalar_same {t : ScalarType} {s : Stmt} {r r' : Reg} (h : strawberryScalar p sd t r = .ok (s, r')) :
    (∀ k, r'.classMap k = r.classMap k) ∧ r'.interfaceBaseclassMap = r.interfaceBaseclassMap := by
  unfold strawberryScalar at h
  obtain ⟨kws, r1, h1, h⟩ := Gen.bind_ok.1 h
  obtain ⟨_, r2, h2, h⟩ := Gen.bind_ok.1 h
  obtain ⟨rfl, rfl⟩ := Gen.pure_ok.1 h
  have q1 := still_directiveKeywords.quiet h1
  cases h2
  exact ⟨fun k => by rw [← q1.frame.2 k]; cases k <;> rfl, q1.bases⟩

theorem strawberryScalars_same {ss : List Stmt} {r r' : Reg} (h : strawberryScalars c p sd r = .ok (ss, r')) :
    (∀ k, r'.classMap k = r.classMap k) ∧ r'.interfaceBaseclassMap = r.interfaceBaseclassMap := by
  have loop : ∀ (ts : List ScalarType) {ss : List Stmt} {r r' : Reg}, strawberryScalarLoop p sd ts r = .ok (ss, r') →
      (∀ k, r'.classMap k = r.classMap k) ∧ r'.interfaceBaseclassMap = r.interfaceBaseclassMap := by
    intro ts
    induction ts with
    | nil => intro ss r r' h; obtain ⟨_, rfl⟩ := Gen.pure_ok.1 h; exact ⟨fun _ => rfl, rfl⟩
    | cons t ts ih =>
      intro ss r r' h
      obtain ⟨_, r1, h1, h⟩ := Gen.bind_ok.1 h
      obtain ⟨_, r2, h2, h⟩ := Gen.bind_ok.1 h
      obtain ⟨_, rfl⟩ := Gen.pure_ok.1 h
      obtain ⟨a1, b1⟩ := strawberryScalar_same h1
      obtain ⟨a2, b2⟩ := ih h2
      exact ⟨fun k => (a2 k).trans (a1 k), b2.trans b1⟩
  unfold strawberryScalars at h
  cases hc : customScalars p c.schema with
  | nil => rw [hc] at h; obtain ⟨_, rfl⟩ := Gen.pure_ok.1 h; exact ⟨fun _ => rfl, rfl⟩
  | cons t ts =>
    rw [hc] at h
    obtain ⟨_, r1, h1, h⟩ := Gen.bind_ok.1 h
    have q := still_registerImport.quiet h1
    obtain ⟨a, b⟩ := loop _ h
    exact ⟨fun k => (a k).trans (q.frame.2 k), b.trans q.bases⟩

/-! ## enums -/

/-- one enum: a class is registered for it if it is kept -/
theorem strawberryEnum_runs (hs : Stylable c.env)
    (hd : ∀ t, ∀ d ∈ sd.onType t, d.name ∉ p.builtinDirectives → ∀ q ∈ d.args, Passable q.2)
    {t : EnumType} (hn : t.name ≠ "") {r : Reg} (hf : t.name ∉ r.enumMap.keys) :
    ∃ ss r', strawberryEnum c p sd t r = .ok (ss, r') ∧ r'.scalarMap = r.scalarMap ∧
      (∀ k, k ≠ .enum → r'.classMap k = r.classMap k) ∧ r'.interfaceBaseclassMap = r.interfaceBaseclassMap ∧
      (∀ n, n ∈ r'.enumMap.keys ↔ n ∈ r.enumMap.keys ∨ (KeptType p t.name ∧ n = t.name)) := by
  obtain ⟨kws, r1, h1⟩ := @runs_directiveKeywords p (sd.onType t.name) r (hd t.name)
  have q1 := still_directiveKeywords.quiet h1
  unfold strawberryEnum
  by_cases hk : KeptType p t.name
  · have hf1 : t.name ∉ (r1.classMap .enum).keys := by rw [q1.frame.2]; exact hf
    obtain ⟨cls, _, hg, a⟩ := generateClass_go hs hn hf1
    obtain ⟨_, r3, h3⟩ := @runs_registerImport "enum.Enum" (r1.setClass .enum t.name cls)
    have q3 := still_registerImport.quiet h3
    have hk' := hk
    rw [← keptType_iff, Bool.or_eq_false_iff] at hk'
    refine ⟨_, r3, Gen.bind_ok.2 ⟨kws, r1, h1, by
      rw [if_neg (by simp [hk'.1]), if_neg (by simp [hk'.2])]
      exact Gen.bind_ok.2 ⟨cls, _, hg, Gen.bind_ok.2 ⟨_, _, h3, rfl⟩⟩⟩, ?_, ?_, ?_, ?_⟩
    · rw [q3.scalar, a.scalar, q1.scalar]
    · intro k hk; rw [q3.frame.2, a.other k hk, q1.frame.2]
    · rw [q3.bases]; show r1.interfaceBaseclassMap = _; rw [q1.bases]
    · intro n
      have h1 := a.keys n
      rw [← q3.frame.2, q1.frame.2] at h1
      rw [show (r3.enumMap.keys) = (r3.classMap .enum).keys from rfl, h1]
      simp [hk]; rfl
  · refine ⟨[], r1, Gen.bind_ok.2 ⟨kws, r1, h1, ?_⟩, q1.scalar, fun k _ => q1.frame.2 k, q1.bases, fun n => ?_⟩
    · have hk' := hk
      rw [← keptType_iff] at hk'
      simp only [Bool.not_eq_false, Bool.or_eq_true] at hk'
      by_cases hk1 : (p.skipUnderscore && underscored t.name) = true
      · rw [if_pos hk1]; rfl
      · rw [if_neg hk1, if_pos (hk'.resolve_left hk1)]; rfl
    · rw [q1.tables.2.2.2.2.2.2.1]; simp [hk]

theorem strawberryEnums_runs (hs : Stylable c.env)
    (hd : ∀ t, ∀ d ∈ sd.onType t, d.name ∉ p.builtinDirectives → ∀ q ∈ d.args, Passable q.2) :
    ∀ {ts : List EnumType} {r : Reg}, (ts.map (·.name)).Nodup → (∀ t ∈ ts, t.name ≠ "" ∧ t.name ∉ r.enumMap.keys) →
    ∃ ss r', strawberryEnums c p sd ts r = .ok (ss, r') ∧ r'.scalarMap = r.scalarMap ∧
      (∀ k, k ≠ .enum → r'.classMap k = r.classMap k) ∧ r'.interfaceBaseclassMap = r.interfaceBaseclassMap ∧
      (∀ n, n ∈ r'.enumMap.keys ↔ n ∈ r.enumMap.keys ∨ ∃ t ∈ ts, KeptType p t.name ∧ n = t.name) := by
  intro ts
  induction ts with
  | nil => intro r _ _; exact ⟨[], r, rfl, rfl, fun _ _ => rfl, rfl, by simp⟩
  | cons t ts ih =>
    intro r hnd h
    rw [List.map_cons, List.nodup_cons] at hnd
    obtain ⟨ss1, r1, h1, a1, b1, c1, d1⟩ := strawberryEnum_runs hs hd (h t (by simp)).1 (h t (by simp)).2
    obtain ⟨ss2, r2, h2, a2, b2, c2, d2⟩ := ih (r := r1) hnd.2 fun u hu => ⟨(h u (by simp [hu])).1, fun hm => by
      rcases (d1 _).1 hm with hm | ⟨_, he⟩
      · exact (h u (by simp [hu])).2 hm
      · exact hnd.1 (List.mem_map.2 ⟨u, hu, he⟩)⟩
    refine ⟨ss1 ++ ss2, r2, Gen.bind_ok.2 ⟨_, _, h1, Gen.bind_ok.2 ⟨_, _, h2, rfl⟩⟩, a2.trans a1,
      fun k hk => (b2 k hk).trans (b1 k hk), c2.trans c1, fun n => ?_⟩
    rw [d2, d1]
    simp only [List.mem_cons, exists_eq_or_imp, or_assoc]

/-! ## annotations -/

/-- the scalars and enums fields refer to are there -/
structure Served (c : Ctx) (p : StrawberryConfig) (r : Reg) : Prop where
  styled : Styled c.env r
  scalars : ∀ n, ServerScalar c p n → ∃ x, r.scalarMap.get? n = some x
  enums : p.generateEnums = true → ∀ n vs, c.schema.lookup n = some (.enum vs) → KeptType p n → ∃ cl, r.enumMap.get? n = some cl

theorem Served.quiet {r r' : Reg} (h : Served c p r) (q : Quiet r r') : Served c p r' :=
  ⟨h.styled.frame q.frame, fun n hn => by rw [q.scalar]; exact h.scalars n hn,
    fun he n vs hl hk => by rw [q.tables.2.2.2.2.2.2.1]; exact h.enums he n vs hl hk⟩

theorem Served.input {r : Reg} (h : Served c p r) {cls n : String} (hn : ServerInput c p cls n) :
    Turms.FieldReady c r cls n := by
  rcases hn with hn | ⟨⟨vs, hl⟩, hn⟩ | hn
  · exact .inl ⟨hn.1, h.scalars n hn⟩
  · refine .inr (.inr ⟨vs, hl, ?_⟩)
    rcases hn with hn | hn | ⟨he, hk, hne⟩
    · exact .inl hn
    · exact .inr (.inl hn)
    · obtain ⟨cl, hcl⟩ := h.enums he n vs hl hk
      refine .inr (.inr ⟨by rw [Dict.contains_eq_isSome, hcl]; rfl, fun m hm he => hne ?_⟩)
      rw [hm, he]
  · exact .inr (.inl hn)

theorem leafReady_enum (hs : Stylable c.env) (hne : "" ∉ c.schema.types.keys) {r : Reg} {cls n : String}
    {vs : List EnumValueDef} (hl : c.schema.lookup n = some (.enum vs))
    (h : c.config.forcePluginOrder = false ∨ n ∈ builtinNames ∨
      ((∃ cl, r.enumMap.get? n = some cl) ∧ Kind.style .enum c.env n ≠ .ok cls)) : LeafReady c r cls n := by
  obtain ⟨m, _, hm⟩ := hs.classes .enum n (lookup_ne_empty hne hl)
  unfold LeafReady
  rw [hl]
  rcases h with h | h | ⟨h, hne⟩
  · exact .inr ⟨m, hm, .inl h⟩
  · exact .inl h
  · exact .inr ⟨m, hm, .inr ⟨h, fun he => hne (by rw [hm, he])⟩⟩

theorem leafReady_object (hs : Stylable c.env) (hne : "" ∉ c.schema.types.keys) {r : Reg} {cls n : String}
    {fs : List FieldDef} {is : List String}
    (hl : c.schema.lookup n = some (.object fs is) ∨ c.schema.lookup n = some (.interface fs is)) : LeafReady c r cls n := by
  have hn : n ≠ "" := by rcases hl with hl | hl <;> exact lookup_ne_empty hne hl
  obtain ⟨m, _, hm⟩ := hs.classes .object n hn
  unfold LeafReady
  rcases hl with hl | hl <;> rw [hl] <;> exact ⟨m, hm⟩

theorem Spec.LeafReady.field {r : Reg} {cls n : String} (h : LeafReady c r cls n) : Spec.FieldReady c r cls n := by
  unfold Spec.FieldReady
  split
  · rename_i hl
    unfold LeafReady at h
    rw [hl] at h
    exact h.elim
  · exact h

theorem fieldReady_union (hs : Stylable c.env) (hne : "" ∉ c.schema.types.keys) {r : Reg} {cls n : String}
    {ms : List String} (hl : c.schema.lookup n = some (.union ms))
    (h : ∀ m ∈ ms, ∃ fs is, c.schema.lookup m = some (.object fs is)) : Spec.FieldReady c r cls n := by
  unfold Spec.FieldReady
  rw [hl]
  intro m hm
  obtain ⟨fs, is, h⟩ := h m hm
  exact leafReady_object hs hne (.inl h)

theorem Served.output (hs : Stylable c.env) (hne : "" ∉ c.schema.types.keys) {r : Reg} (h : Served c p r)
    {cls n : String} (hn : ServerOutput c p cls n) : Spec.FieldReady c r cls n := by
  rcases hn with hn | ⟨⟨vs, hl⟩, hn⟩ | ⟨fs, is, hn⟩ | ⟨ms, hl, hn⟩
  · refine Spec.LeafReady.field ?_
    unfold LeafReady
    rw [hn.1]
    exact h.scalars n hn
  · refine Spec.LeafReady.field (leafReady_enum hs hne hl ?_)
    rcases hn with hn | hn | ⟨he, hk, hne⟩
    · exact .inl hn
    · exact .inr (.inl hn)
    · exact .inr (.inr ⟨h.enums he n vs hl hk, hne⟩)
  · exact Spec.LeafReady.field (leafReady_object hs hne hn)
  · exact fieldReady_union hs hne hl hn

theorem runs_argAnnotation (hs : Stylable c.env) (hne : "" ∉ c.schema.types.keys) {cls : String} (t : TypeNode) :
    ∀ {o : Bool} {r : Reg}, Served c p r → ServerInput c p cls t.base → Runs (argAnnotation c cls t o) r := by
  induction t with
  | named n => exact fun h hn => (go_inputLeaf hs hne (h.input hn)).runs.bind fun _ _ _ => runs_optionalWrap
  | list t ih =>
    exact fun h hn => runs_registerImport.still still_registerImport fun _ _ q =>
      (ih (h.quiet q) hn).bind fun _ _ _ => runs_optionalWrap
  | nonNull t ih => exact fun h hn => ih h hn

theorem runs_resolverAnnotation (hs : Stylable c.env) (hne : "" ∉ c.schema.types.keys) {cls : String} (t : TypeNode) :
    ∀ {o : Bool} {r : Reg}, Served c p r → ServerOutput c p cls t.base → Runs (resolverAnnotation c cls t o) r := by
  induction t with
  | named n =>
    exact fun h hn => (runs_objectNamed h.styled (h.output hs hne hn)).bind fun _ _ _ => runs_optionalWrap
  | list t ih =>
    exact fun h hn => runs_registerImport.still still_registerImport fun _ _ q =>
      (ih (h.quiet q) hn).bind fun _ _ _ => runs_optionalWrap
  | nonNull t ih => exact fun h hn => ih h hn

/-! ## inputs -/

theorem runs_strawberryInputFields (hs : Stylable c.env) (hne : "" ∉ c.schema.types.keys) {cls : String} :
    ∀ {fs : List InputFieldDef} {r : Reg}, Served c p r → (∀ f ∈ fs, ServerInput c p cls f.type.base) →
    Runs (strawberryInputFields c cls fs) r := by
  intro fs
  induction fs with
  | nil => exact fun _ _ => .pure
  | cons f fs ih =>
    intro r h hf
    have h1 : Runs (strawberryInputField c cls f) r :=
      (go_nodeName hs).runs.still still_nodeName fun _ _ q =>
        (runs_argAnnotation hs hne _ (h.quiet q) (hf f (by simp))).bind fun _ _ _ => .pure
    exact h1.still still_strawberryInputField fun _ _ q =>
      (ih (h.quiet q) fun f hm => hf f (by simp [hm])).bind fun _ _ _ => .pure

/-- registering a class keeps what the fields refer to -/
theorem Served.setClass {r : Reg} (h : Served c p r) {k : Kind} {n cls : String} (hk : k ≠ .enum)
    (hg : generateClass c.env k n r = .ok (cls, r.setClass k n cls)) : Served c p (r.setClass k n cls) := by
  refine ⟨styled_generateClass h.styled hg, fun m hm => ?_, fun he m vs hl hkm => ?_⟩
  · have : (r.setClass k n cls).scalarMap = r.scalarMap := by cases k <;> rfl
    rw [this]; exact h.scalars m hm
  · have : (r.setClass k n cls).enumMap = r.enumMap := by
      have := classMap_setClass (r := r) (k := k) (n := n) (c := cls) (k' := .enum)
      rw [if_neg hk] at this
      exact this
    rw [this]; exact h.enums he m vs hl hkm

theorem strawberryInput_runs (hs : Stylable c.env) (hne : "" ∉ c.schema.types.keys)
    (hd : ∀ t, ∀ d ∈ sd.onType t, d.name ∉ p.builtinDirectives → ∀ q ∈ d.args, Passable q.2) {t : InputType}
    (hf : ¬ (p.skipUnderscore = true ∧ t.name.toList.head? = some '_') →
      ∀ cls, Kind.style .input c.env t.name = .ok cls → ∀ f ∈ t.fields, ServerInput c p cls f.type.base)
    (hn : t.name ≠ "") {r : Reg} (hfr : t.name ∉ r.inputMap.keys) (h : Served c p r) :
    ∃ ss r', strawberryInput c p sd t r = .ok (ss, r') ∧ Served c p r' ∧
      (∀ n, n ∈ r'.inputMap.keys → n ∈ r.inputMap.keys ∨ n = t.name) ∧
      r'.objectMap = r.objectMap ∧ r'.interfaceBaseclassMap = r.interfaceBaseclassMap := by
  unfold strawberryInput
  by_cases hk : (p.skipUnderscore && underscored t.name) = true
  · rw [if_pos hk]
    exact ⟨[], r, rfl, h, fun _ hm => .inl hm, rfl, rfl⟩
  · rw [if_neg hk]
    have hk' : ¬ (p.skipUnderscore = true ∧ t.name.toList.head? = some '_') := by
      rintro ⟨a, b⟩
      apply hk
      rw [a, underscored, b]; rfl
    obtain ⟨kws, r1, h1⟩ := @runs_directiveKeywords p (sd.onType t.name) r (hd t.name)
    have q1 := still_directiveKeywords.quiet h1
    obtain ⟨extra, r2, h2⟩ := @runs_additionalBasesFor c t.name r1
    have q2 := q1.trans (still_additionalBasesFor.quiet h2)
    have hf2 : t.name ∉ (r2.classMap .input).keys := by rw [q2.frame.2]; exact hfr
    obtain ⟨cls, hst, hg, a⟩ := generateClass_go hs hn hf2
    have hs3 := (h.quiet q2).setClass (k := .input) (by decide) hg
    obtain ⟨fs, r4, h4⟩ := runs_strawberryInputFields hs hne hs3 (hf hk' cls hst)
    have q4 : Quiet _ r4 := (Still.quiet (by
      have : ∀ fs : List InputFieldDef, Still (strawberryInputFields c cls fs) := by
        intro fs
        induction fs with
        | nil => exact .pure
        | cons f fs ih => exact still_strawberryInputField.bind fun _ => ih.bind fun _ => .pure
      exact this _) h4)
    obtain ⟨cfg, r5, h5⟩ := @runs_generatePydanticConfig c .input (some t.name) r4
    have q5 := q4.trans (still_generatePydanticConfig.quiet h5)
    refine ⟨_, r5, Gen.bind_ok.2 ⟨_, _, h1, Gen.bind_ok.2 ⟨_, _, h2, Gen.bind_ok.2 ⟨_, _, hg, Gen.bind_ok.2 ⟨_, _, h4,
      Gen.bind_ok.2 ⟨_, _, h5, rfl⟩⟩⟩⟩⟩, hs3.quiet q5, ?_, ?_, ?_⟩
    · intro n hm
      rw [q5.tables.2.2.2.2.2.2.2.2] at hm
      rcases (a.keys n).1 hm with hm | hm
      · rw [q2.frame.2] at hm; exact .inl hm
      · exact .inr (by simpa using hm)
    · exact (q5.frame.2 .object).trans ((a.other .object (by decide)).trans (q2.frame.2 .object))
    · rw [q5.bases]; show r2.interfaceBaseclassMap = _; rw [q2.bases]

theorem strawberryInputs_runs (hs : Stylable c.env) (hne : "" ∉ c.schema.types.keys)
    (hd : ∀ t, ∀ d ∈ sd.onType t, d.name ∉ p.builtinDirectives → ∀ q ∈ d.args, Passable q.2) :
    ∀ {ts : List InputType} {r : Reg}, (ts.map (·.name)).Nodup →
    (∀ t ∈ ts, (¬ (p.skipUnderscore = true ∧ t.name.toList.head? = some '_') →
      ∀ cls, Kind.style .input c.env t.name = .ok cls → ∀ f ∈ t.fields, ServerInput c p cls f.type.base) ∧
      t.name ≠ "" ∧ t.name ∉ r.inputMap.keys) → Served c p r →
    ∃ ss r', strawberryInputs c p sd ts r = .ok (ss, r') ∧ Served c p r' ∧
      r'.objectMap = r.objectMap ∧ r'.interfaceBaseclassMap = r.interfaceBaseclassMap := by
  intro ts
  induction ts with
  | nil => intro r _ _ h; exact ⟨[], r, rfl, h, rfl, rfl⟩
  | cons t ts ih =>
    intro r hnd h hsv
    rw [List.map_cons, List.nodup_cons] at hnd
    obtain ⟨a1, a2, a3⟩ := h t (by simp)
    obtain ⟨ss1, r1, h1, b1, c1, d1, e1⟩ := strawberryInput_runs hs hne hd a1 a2 a3 hsv
    obtain ⟨ss2, r2, h2, b2, d2, e2⟩ := ih (r := r1) hnd.2 (fun u hu => ⟨(h u (by simp [hu])).1, (h u (by simp [hu])).2.1,
      fun hm => by
        rcases c1 _ hm with hm | he
        · exact (h u (by simp [hu])).2.2 hm
        · exact hnd.1 (List.mem_map.2 ⟨u, hu, he⟩)⟩) b1
    exact ⟨ss1 ++ ss2, r2, Gen.bind_ok.2 ⟨_, _, h1, Gen.bind_ok.2 ⟨_, _, h2, rfl⟩⟩, b2, d2.trans d1, e2.trans e1⟩

/-! ## types -/

theorem runs_resolverArgs (hs : Stylable c.env) (hne : "" ∉ c.schema.types.keys) {cls : String} :
    ∀ {as : List ArgDef} {r : Reg}, Served c p r → (∀ a ∈ as, ServerInput c p cls a.type.base) →
    Runs (resolverArgs c cls as) r := by
  intro as
  induction as with
  | nil => exact fun _ _ => .pure
  | cons a as ih =>
    intro r h ha
    refine (go_parameterName hs).runs.still still_parameterName fun _ _ q => ?_
    refine (runs_argAnnotation hs hne _ (h.quiet q) (ha a (by simp))).still (still_argAnnotation _) fun _ _ q2 => ?_
    exact (ih ((h.quiet q).quiet q2) fun a hm => ha a (by simp [hm])).bind fun _ _ _ => .pure

theorem runs_fieldStmt (hs : Stylable c.env) {t : String} {f : FieldDef} {as : List Arg} {ds : List Expr} {ret : Expr}
    {kws : List (Option String × Expr)} {r : Reg} : Runs (fieldStmt c t f as ds ret kws) r := by
  unfold fieldStmt
  split
  · exact (go_nodeName hs).runs.bind fun _ _ _ => .pure
  · refine Runs.bind ?_ fun _ _ _ => (go_nodeName hs).runs.bind fun _ _ _ => .pure
    unfold resolverReturns
    split
    · exact runs_registerImport.bind fun _ _ _ => .pure
    · exact .pure

theorem runs_strawberryField (hs : Stylable c.env) (hne : "" ∉ c.schema.types.keys)
    (hd : ∀ t f, ∀ d ∈ sd.onField t f, d.name ∉ p.builtinDirectives → ∀ q ∈ d.args, Passable q.2) {t cls : String}
    {f : FieldDef} {r : Reg} (h : Served c p r) (ho : ServerOutput c p cls f.type.base)
    (ha : ∀ a ∈ f.args, ServerInput c p cls a.type.base) : Runs (strawberryField c p sd t cls f) r := by
  unfold strawberryField
  refine (runs_resolverArgs hs hne h fun a hm => ha a ?_).still (still_resolverArgs _) fun _ _ q => ?_
  · exact (mem_pySorted _).1 hm
  refine (runs_resolverAnnotation hs hne _ (h.quiet q) ho).bind fun _ _ _ => ?_
  exact (runs_directiveKeywords (hd _ _)).bind fun _ _ _ => runs_fieldStmt hs

theorem runs_strawberryFields (hs : Stylable c.env) (hne : "" ∉ c.schema.types.keys)
    (hd : ∀ t f, ∀ d ∈ sd.onField t f, d.name ∉ p.builtinDirectives → ∀ q ∈ d.args, Passable q.2) {t cls : String} :
    ∀ {fs : List FieldDef} {r : Reg}, Served c p r → (∀ f ∈ fs, ServerOutput c p cls f.type.base ∧
      ∀ a ∈ f.args, ServerInput c p cls a.type.base) → Runs (strawberryFields c p sd t cls fs) r := by
  intro fs
  induction fs with
  | nil => exact fun _ _ => .pure
  | cons f fs ih =>
    intro r h hf
    refine (runs_strawberryField hs hne hd h (hf f (by simp)).1 (hf f (by simp)).2).still still_strawberryField
      fun _ _ q => ?_
    exact (ih (h.quiet q) fun f hm => hf f (by simp [hm])).bind fun _ _ _ => .pure

theorem runs_strawberryBases {all is : List String} : ∀ {r : Reg},
    (∀ i ∈ is, extendedByOthers c.schema i (all.filter (· != i)) = false → ∃ n, r.interfaceBaseclassMap.get? i = some n) →
    Runs (strawberryBases c all is) r := by
  induction is with
  | nil => exact fun _ => .pure
  | cons i is ih =>
    intro r h
    unfold strawberryBases
    split
    · rename_i hx
      obtain ⟨n, hn⟩ := h i (by simp) (by simpa using hx)
      have hi : inheritInterface i r = .ok (n, r) := by simp [inheritInterface, hn]
      refine Runs.bind ⟨n, r, hi⟩ fun b r1 h1 => ?_
      rw [hi] at h1
      cases h1
      exact (ih fun j hj => h j (by simp [hj])).bind fun _ _ _ => .pure
    · exact ih fun j hj => h j (by simp [hj])

theorem strawberryClassName_runs (hs : Stylable c.env) {t : CompositeType} (hn : t.name ≠ "") {r : Reg} (h : Served c p r)
    (ho : t.isInterface = false → t.name ∉ r.objectMap.keys)
    (hb : t.isInterface = true → t.name ∉ r.interfaceBaseclassMap.keys) :
    ∃ cls r', strawberryClassName c.env t r = .ok (cls, r') ∧ styled c.env.stylers Styler.objectName t.name = .ok cls ∧
      Served c p r' ∧ (∀ n, n ∈ r'.objectMap.keys → n ∈ r.objectMap.keys ∨ n = t.name) ∧
      (∀ n, n ∈ r'.interfaceBaseclassMap.keys ↔ n ∈ r.interfaceBaseclassMap.keys ∨ (t.isInterface = true ∧ n = t.name)) := by
  unfold strawberryClassName
  by_cases hi : t.isInterface = true
  · rw [if_pos hi]
    obtain ⟨m, _, hm⟩ := hs.classes .object t.name hn
    have hm : styled c.env.stylers Styler.objectName t.name = .ok m := hm
    have hc : r.interfaceBaseclassMap.contains t.name = false := by
      cases hx : r.interfaceBaseclassMap.contains t.name with
      | false => rfl
      | true => exact absurd ((Dict.contains_iff _ _).1 hx) (hb hi)
    refine ⟨m, _, by
      unfold generateInterface styleInterface
      rw [hc, hm]
      rfl, hm, ?_, ?_, ?_⟩
    · exact ⟨fun k n cl hk => h.styled k n cl (by cases k <;> exact hk), h.scalars, h.enums⟩
    · exact fun n hn => .inl hn
    · intro n
      show n ∈ (Dict.set _ _ _).keys ↔ _
      rw [Dict.mem_keys_set]
      simp [hi, or_comm]
  · rw [if_neg hi]
    obtain ⟨cls, hst, hg, a⟩ := generateClass_go hs (kind := .object) hn (ho (by simpa using hi))
    refine ⟨cls, _, hg, hst, h.setClass (by decide) hg, fun n hm => ?_, fun n => ?_⟩
    · rcases (a.keys n).1 hm with hm | hm
      · exact .inl hm
      · exact .inr (by simpa using hm)
    · show n ∈ r.interfaceBaseclassMap.keys ↔ _
      simp [hi]

theorem strawberryType_runs (hs : Stylable c.env) (hne : "" ∉ c.schema.types.keys)
    (hd : ∀ t, ∀ d ∈ sd.onType t, d.name ∉ p.builtinDirectives → ∀ q ∈ d.args, Passable q.2)
    (hdf : ∀ t f, ∀ d ∈ sd.onField t f, d.name ∉ p.builtinDirectives → ∀ q ∈ d.args, Passable q.2) {t : CompositeType}
    (hf : KeptType p t.name → ∀ cls, styled c.env.stylers Styler.objectName t.name = .ok cls → ∀ f ∈ t.fields,
      ServerOutput c p cls f.type.base ∧ ∀ a ∈ f.args, ServerInput c p cls a.type.base)
    (hn : t.name ≠ "") {r : Reg} (h : Served c p r) (ho : t.name ∉ r.objectMap.keys)
    (hb : t.name ∉ r.interfaceBaseclassMap.keys)
    (hi : KeptType p t.name → ∀ i ∈ t.interfaces, extendedByOthers c.schema i (t.interfaces.filter (· != i)) = false →
      i ∈ r.interfaceBaseclassMap.keys) :
    ∃ ss r', strawberryType c p sd t r = .ok (ss, r') ∧ Served c p r' ∧
      (∀ n, n ∈ r'.objectMap.keys → n ∈ r.objectMap.keys ∨ n = t.name) ∧
      (∀ n, n ∈ r'.interfaceBaseclassMap.keys ↔ n ∈ r.interfaceBaseclassMap.keys ∨
        (KeptType p t.name ∧ t.isInterface = true ∧ n = t.name)) := by
  obtain ⟨extra, r1, h1⟩ := @runs_additionalBasesFor c t.name r
  have q1 := still_additionalBasesFor.quiet h1
  have o1 : r1.objectMap = r.objectMap := q1.frame.2 .object
  unfold strawberryType
  by_cases hk : KeptType p t.name
  · obtain ⟨kws, r2, h2⟩ := @runs_directiveKeywords p (sd.onType t.name) r1 (hd t.name)
    have q2 := q1.trans (still_directiveKeywords.quiet h2)
    have o2 : r2.objectMap = r.objectMap := q2.frame.2 .object
    obtain ⟨cls, r3, h3, hst, s3, k3, b3⟩ := strawberryClassName_runs hs hn (h.quiet q2) (fun _ => by rw [o2]; exact ho)
      (fun _ => by rw [q2.bases]; exact hb)
    obtain ⟨bs, r4, h4⟩ := @runs_strawberryBases c t.interfaces t.interfaces r3 (fun i hm hx => by
      have := (b3 i).2 (.inl (by rw [q2.bases]; exact hi hk i hm hx))
      exact Option.isSome_iff_exists.1 ((Dict.get?_isSome_iff _ _).2 this))
    have q4 := (still_strawberryBases _).quiet h4
    obtain ⟨fs, r5, h5⟩ := runs_strawberryFields (t := t.name) hs hne hdf (s3.quiet q4) (hf hk cls hst)
    have q5 := q4.trans ((still_strawberryFields _).quiet h5)
    obtain ⟨cfg, r6, h6⟩ := @runs_generatePydanticConfig c .object (some t.name) r5
    have q6 := q5.trans (still_generatePydanticConfig.quiet h6)
    have hk' := hk
    rw [← keptType_iff, Bool.or_eq_false_iff] at hk'
    refine ⟨_, r6, Gen.bind_ok.2 ⟨_, _, h1, by
      rw [if_neg (by simp [hk'.1]), if_neg (by simp [hk'.2])]
      exact Gen.bind_ok.2 ⟨_, _, h2, Gen.bind_ok.2 ⟨_, _, h3, Gen.bind_ok.2 ⟨_, _, h4, Gen.bind_ok.2 ⟨_, _, h5,
        Gen.bind_ok.2 ⟨_, _, h6, rfl⟩⟩⟩⟩⟩⟩, s3.quiet q6, fun n hm => ?_, fun n => ?_⟩
    · have o6 : r6.objectMap = r3.objectMap := q6.frame.2 .object
      rw [o6] at hm
      rw [← o2]
      exact k3 n hm
    · rw [q6.bases, b3, q2.bases]; simp [hk]
  · refine ⟨[], r1, Gen.bind_ok.2 ⟨_, _, h1, ?_⟩, h.quiet q1, fun n hm => .inl (by rw [← o1]; exact hm), fun n => ?_⟩
    · have hk' := hk
      rw [← keptType_iff] at hk'
      simp only [Bool.not_eq_false, Bool.or_eq_true] at hk'
      by_cases hk1 : (p.skipUnderscore && underscored t.name) = true
      · rw [if_pos hk1]; rfl
      · rw [if_neg hk1, if_pos (hk'.resolve_left hk1)]; rfl
    · rw [q1.bases]; simp [hk]

theorem strawberryTypeLoop_runs (hs : Stylable c.env) (hne : "" ∉ c.schema.types.keys)
    (hd : ∀ t, ∀ d ∈ sd.onType t, d.name ∉ p.builtinDirectives → ∀ q ∈ d.args, Passable q.2)
    (hdf : ∀ t f, ∀ d ∈ sd.onField t f, d.name ∉ p.builtinDirectives → ∀ q ∈ d.args, Passable q.2) :
    ∀ {ts : List CompositeType} {r : Reg}, (ts.map (·.name)).Nodup → Served c p r →
    (∀ pre t post, ts = pre ++ t :: post →
      (KeptType p t.name → ∀ cls, styled c.env.stylers Styler.objectName t.name = .ok cls → ∀ f ∈ t.fields,
        ServerOutput c p cls f.type.base ∧ ∀ a ∈ f.args, ServerInput c p cls a.type.base) ∧ t.name ≠ "" ∧
      t.name ∉ r.objectMap.keys ∧ t.name ∉ r.interfaceBaseclassMap.keys ∧
      (KeptType p t.name → ∀ i ∈ t.interfaces, extendedByOthers c.schema i (t.interfaces.filter (· != i)) = false →
        i ∈ r.interfaceBaseclassMap.keys ∨ ∃ u ∈ pre, u.isInterface = true ∧ u.name = i ∧ KeptType p i)) →
    Runs (strawberryTypeLoop c p sd ts) r := by
  intro ts
  induction ts with
  | nil => exact fun _ _ _ => .pure
  | cons t ts ih =>
    intro r hnd hsv h
    rw [List.map_cons, List.nodup_cons] at hnd
    obtain ⟨a1, a2, a3, a4, a5⟩ := h [] t ts rfl
    obtain ⟨ss1, r1, h1, s1, o1, b1⟩ := strawberryType_runs hs hne hd hdf a1 a2 hsv a3 a4
      (fun hk i hm hx => (a5 hk i hm hx).resolve_right (by simp))
    refine Runs.bind ⟨ss1, r1, h1⟩ fun s r2 h2 => ?_
    rw [h1] at h2
    cases h2
    refine Runs.bind (ih hnd.2 s1 fun pre u post he => ?_) fun _ _ _ => .pure
    obtain ⟨e1, e2, e3, e4, e5⟩ := h (t :: pre) u post (by rw [he]; rfl)
    have hut : u.name ≠ t.name := by
      intro hx
      exact hnd.1 (List.mem_map.2 ⟨u, by rw [he]; simp, hx⟩)
    refine ⟨e1, e2, fun hm => ?_, fun hm => ?_, fun hk i hm hx => ?_⟩
    · rcases o1 _ hm with hm | hm
      · exact e3 hm
      · exact hut hm
    · rcases (b1 _).1 hm with hm | hm
      · exact e4 hm
      · exact hut hm.2.2
    · rcases e5 hk i hm hx with hm | ⟨w, hw, hwi, hwn, hwk⟩
      · exact .inl ((b1 _).2 (.inl hm))
      · rcases List.mem_cons.1 hw with rfl | hw
        · exact .inl ((b1 _).2 (.inr ⟨hwn ▸ hwk, hwi, hwn.symm⟩))
        · exact .inr ⟨w, hw, hwi, hwn, hwk⟩
end

end Turms
