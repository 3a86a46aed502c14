import Verif.Lemmas.GenerableServer
import Verif.Lemmas.Helpers
import Verif.Props.Generable
import Verif.Props.GenerableLimits
import Verif.Props.Objects
import Verif.Props.StrawberryScope

/-!
# C77 for the plugins that generate the types of the schema
-/

namespace Turms.Props
open Turms Turms.Spec

theorem inputTypes_nodup {s : Schema} (hn : s.types.keys.Nodup) : ((inputTypes s).map (·.name)).Nodup := by
  have hsub : ((inputTypes s).map (·.name)).Sublist s.types.keys := by
    unfold inputTypes Dict.keys
    generalize s.types = l
    induction l with
    | nil => simp
    | cons p l ih =>
      rw [List.filterMap_cons]
      split
      · exact ih.cons _
      · rename_i t ht
        split at ht
        · cases ht; exact ih.cons_cons _
        · cases ht
  exact hsub.nodup hn

/-- the enums plugin leaves the interfaces alone -/
theorem generateEnums_bases {c : Ctx} {p : EnumsConfig} {ss : List Stmt} {r r' : Reg}
    (h : generateEnums c p r = .ok (ss, r')) : r'.interfaceBaseclassMap = r.interfaceBaseclassMap := by
  have loop : ∀ (ts : List EnumType) {ss : List Stmt} {r r' : Reg}, enumLoop c p ts r = .ok (ss, r') →
      r'.interfaceBaseclassMap = r.interfaceBaseclassMap := by
    intro ts
    induction ts with
    | nil => intro ss r r' h; obtain ⟨_, rfl⟩ := Gen.pure_ok.1 h; rfl
    | cons t ts ih =>
      intro ss r r' h
      obtain ⟨_, r1, h1, h⟩ := Gen.bind_ok.1 h
      obtain ⟨_, r2, h2, h⟩ := Gen.bind_ok.1 h
      obtain ⟨_, rfl⟩ := Gen.pure_ok.1 h
      rw [ih h2]
      unfold enumStep at h1
      repeat' split at h1
      · obtain ⟨_, rfl⟩ := Gen.pure_ok.1 h1; rfl
      · obtain ⟨_, rfl⟩ := Gen.pure_ok.1 h1; rfl
      · obtain ⟨_, rfl⟩ := Gen.pure_ok.1 h1; rfl
      · obtain ⟨_, r3, h3, h1⟩ := Gen.bind_ok.1 h1
        obtain ⟨_, rfl⟩ := Gen.pure_ok.1 h1
        obtain ⟨_, _, rfl⟩ := generateClass_ok h3
        rfl
  obtain ⟨_, r1, h1, h⟩ := Gen.bind_ok.1 h
  rw [loop _ h]
  exact (still_registerImport.quiet h1).bases

theorem composite_ne_empty {s : Schema} (hne : "" ∉ s.types.keys) {t : CompositeType} (h : CompositeOf s t) : t.name ≠ "" := by
  obtain ⟨e, he, _⟩ := h
  intro h0
  exact hne (h0 ▸ List.mem_map.2 ⟨_, he, rfl⟩)

/-- **C77** (the objects plugin, after the enums plugin). -/
theorem C77_objects_partial {c : Ctx} {pe : EnumsConfig} {p : ObjectsConfig} {iter : List String → List String}
    {skip : Bool} (hiter : ∀ l, (iter l).Perm l) (hs : Stylable c.env) (hne : "" ∉ c.schema.types.keys)
    (hp : PlainConfig c.config) (hv : ValidComposites c.schema) (hg : GenerableModels c pe p) :
    ∃ m, generateAst c.env iter [⟨"EnumsPlugin", generateEnums c pe⟩, ⟨"ObjectsPlugin", generateTypes c p⟩] skip
      = .ok m := by
  rw [C35_succeeds_iff _ _ hiter]
  obtain ⟨s1, r1, K1, h1, a1, e1⟩ := generateEnums_go hs hne hv.1 (p := pe) (r := Reg.init c.env) rfl
  have st1 : Styled c.env r1 := by
    intro k n cl hcl
    by_cases hk : k = .enum
    · subst hk
      obtain ⟨L, hL, _, _, hst⟩ := (generateEnums_ok h1).1.map
      rw [hL] at hcl
      exact hst (n, cl) ((List.mem_append.1 (Dict.mem_of_get? hcl)).resolve_left (by simp [Reg.init, Reg.classMap]))
    · rw [a1.other k hk] at hcl
      exact styled_stateAfter c.env [] k n cl hcl
  have leaf : ∀ cls n, ModelLeaf c pe cls n → LeafReady c r1 cls n := by
    intro cls n h
    rcases h with ⟨hl, hsc⟩ | ⟨fs, is, hl⟩ | ⟨vs, hl, h⟩
    · unfold LeafReady
      rw [hl]
      show ∃ x, r1.scalarMap.get? n = some x
      rw [a1.scalar]
      exact scalarKnown_init hsc
    · exact leafReady_object hs hne hl
    · refine leafReady_enum hs hne hl ?_
      rcases h with h | h | ⟨hk, hst⟩
      · exact .inl h
      · exact .inr (.inl h)
      · refine .inr (.inr ⟨?_, hst⟩)
        obtain ⟨t, ht, rfl⟩ := enum_of_lookup hl
        exact Option.isSome_iff_exists.1 ((Dict.get?_isSome_iff _ _).2 ((a1.keys _).2 (.inr (e1 t ht hk))))
  obtain ⟨s2, r2, h2⟩ := generateTypes_runs (c := c) (p := p) (r := r1) st1 hp hv (fun t ht hk => by
    have hn := composite_ne_empty hne ht
    refine ⟨?_, ?_, fun cls hcls f hf => ⟨?_, ?_⟩⟩
    · split
      · rw [generateEnums_bases h1]; rfl
      · have : r1.objectMap = (Reg.init c.env).objectMap := a1.other .object (by decide)
        rw [this]; rfl
    · obtain ⟨m, _, hm⟩ := hs.classes .object t.name hn
      exact ⟨m, hm⟩
    · rcases hg.fields t ht hk cls hcls f hf with h | ⟨ms, hl, h⟩
      · exact Spec.LeafReady.field (leaf cls _ h)
      · exact fieldReady_union hs hne hl h
    · exact hs.nodes f.name) hg.parents hg.implemented
  refine ⟨[s1, s2], r2, .cons h1 (.cons h2 (.nil _)), helps_generateTypes.run _ _ _ h2 (a1.helpers ?_)⟩
  intro b hb
  exact absurd hb (by simp [Reg.init])

theorem scalar_custom {c : Ctx} {p : StrawberryConfig} {n : String} (hl : c.schema.lookup n = some .scalar)
    (hb : n ∉ p.builtinScalars) : n ∈ (customScalars p c.schema).map (·.name) := by
  obtain ⟨desc, h⟩ := types_of_lookup hl
  refine List.mem_map.2 ⟨⟨n, desc⟩, List.mem_filterMap.2 ⟨_, Dict.mem_of_get? h, ?_⟩, rfl⟩
  dsimp only
  rw [if_neg (by simpa using hb)]

/-- **C77** (the strawberry plugin). -/
theorem C77_strawberry_partial {c : Ctx} {p : StrawberryConfig} {sd : SchemaDirectives} {iter : List String → List String}
    {skip : Bool} (hiter : ∀ l, (iter l).Perm l) (hs : Stylable c.env) (hne : "" ∉ c.schema.types.keys)
    (hn : c.schema.types.keys.Nodup) (hg : GenerableServer c p sd) :
    ∃ m, generateAst c.env iter [⟨"StrawberryPlugin", strawberryPlugin c p sd⟩] skip = .ok m := by
  rw [C35_succeeds_iff _ _ hiter]
  suffices h : Runs (strawberryPlugin c p sd) (Reg.init c.env) by
    obtain ⟨ss, r, h⟩ := h
    refine ⟨[ss], r, .cons h (.nil _), helps_strawberryPlugin.run _ _ _ h ?_⟩
    intro b hb
    exact absurd hb (by simp [Reg.init])
  have hst0 : Styled c.env (Reg.init c.env) := styled_stateAfter c.env []
  unfold strawberryPlugin
  refine runs_registerImport.still still_registerImport fun _ r1 q1 => ?_
  -- directives
  have k2 : Still (whenEnabled p.generateDirectives (strawberryDirectives c p sd.defined)) := by
    unfold whenEnabled; split
    · exact still_strawberryDirectives
    · exact .pure
  refine Runs.still ?_ k2 fun _ r2 q2 => ?_
  · unfold whenEnabled
    split
    · rename_i hd
      refine runs_strawberryDirectives hs fun d hdm hb hk a ha => ⟨⟨(hg.defined hd d hdm hb hk a ha).1.1, ?_⟩, (hg.defined hd d hdm hb hk a ha).2⟩
      rw [q1.scalar]
      exact scalarKnown_init (hg.defined hd d hdm hb hk a ha).1.2
    · exact .pure
  have q := q1.trans q2
  have st2 : Styled c.env r2 := hst0.frame q.frame
  -- scalars
  refine Runs.bind ?_ fun _ r3 h3 => ?_
  · unfold whenEnabled
    split
    · exact runs_strawberryScalars hg.onTypes
    · exact .pure
  obtain ⟨st3, sc3, cl3, ba3⟩ : Styled c.env r3 ∧ (∀ n, ServerScalar c p n → ∃ x, r3.scalarMap.get? n = some x) ∧
      (∀ k, r3.classMap k = r2.classMap k) ∧ r3.interfaceBaseclassMap = r2.interfaceBaseclassMap := by
    unfold whenEnabled at h3
    split at h3
    · rename_i hd
      obtain ⟨a, b, _⟩ := strawberryScalars_ok st2 h3
      obtain ⟨d, e⟩ := strawberryScalars_same h3
      refine ⟨a, fun n hsn => ?_, d, e⟩
      rw [b n]
      split
      · exact ⟨_, rfl⟩
      · rename_i hnc
        rcases hsn.2 with h | ⟨_, h⟩
        · rw [q.scalar]; exact scalarKnown_init h
        · exact absurd (scalar_custom hsn.1 h) hnc
    · rename_i hd
      obtain ⟨_, rfl⟩ := Gen.pure_ok.1 h3
      refine ⟨st2, fun n hsn => ?_, fun _ => rfl, rfl⟩
      rcases hsn.2 with h | ⟨h, _⟩
      · rw [q.scalar]; exact scalarKnown_init h
      · exact absurd h hd
  have cl3' : ∀ k, r3.classMap k = [] := by
    intro k
    rw [cl3 k, q.frame.2 k]
    cases k <;> rfl
  have ba3' : r3.interfaceBaseclassMap = [] := by rw [ba3, q.bases]; rfl
  -- enums
  have henum : ∃ es r4, whenEnabled p.generateEnums (strawberryEnums c p sd (enumTypes c.schema)) r3 = .ok (es, r4) ∧
      Served c p r4 ∧ (∀ k, k ≠ .enum → r4.classMap k = []) ∧ r4.interfaceBaseclassMap = [] := by
    unfold whenEnabled
    split
    · rename_i he
      obtain ⟨es, r4, h4, s4, c4, b4, e4⟩ := strawberryEnums_runs (p := p) (sd := sd) hs hg.onTypes (ts := enumTypes c.schema) (r := r3)
        (enumTypes_nodup hn) fun t ht => ⟨by
          obtain ⟨e, he, _⟩ := mem_enumTypes.1 ht
          intro h0
          exact hne (h0 ▸ List.mem_map.2 ⟨_, he, rfl⟩), by
          have : r3.enumMap = [] := cl3' .enum
          rw [this]; simp [Dict.keys]⟩
      refine ⟨es, r4, h4, ⟨(strawberryEnums_ok _ st3 h4).1, fun n hsn => by rw [s4]; exact sc3 n hsn, fun _ n vs hl hk => ?_⟩,
        fun k hk => (c4 k hk).trans (cl3' k), b4.trans ba3'⟩
      obtain ⟨t, ht, rfl⟩ := enum_of_lookup hl
      exact Option.isSome_iff_exists.1 ((Dict.get?_isSome_iff _ _).2 ((e4 _).2 (.inr ⟨t, mem_enumTypes.2 ht, hk, rfl⟩)))
    · rename_i he
      exact ⟨[], r3, rfl, ⟨st3, sc3, fun h => absurd h he⟩, fun k _ => cl3' k, ba3'⟩
  obtain ⟨es, r4, h4, sv4, c4, b4⟩ := henum
  refine Runs.bind ⟨es, r4, h4⟩ fun _ r4' h4' => ?_
  rw [h4] at h4'
  cases h4'
  -- inputs
  have hinput : ∃ is r5, whenEnabled p.generateInputs (strawberryInputs c p sd (inputTypes c.schema)) r4 = .ok (is, r5) ∧
      Served c p r5 ∧ r5.objectMap = [] ∧ r5.interfaceBaseclassMap = [] := by
    unfold whenEnabled
    split
    · rename_i hi
      obtain ⟨is, r5, h5, sv5, o5, b5⟩ := strawberryInputs_runs (p := p) (sd := sd) hs hne hg.onTypes (ts := inputTypes c.schema)
        (r := r4) (inputTypes_nodup hn) (fun t ht => ⟨hg.inputs hi t (mem_inputTypes.1 ht), by
          obtain ⟨e, he, _⟩ := mem_inputTypes.1 ht
          intro h0
          exact hne (h0 ▸ List.mem_map.2 ⟨_, he, rfl⟩), by
          have : r4.inputMap = [] := c4 .input (by decide)
          rw [this]; simp [Dict.keys]⟩) sv4
      exact ⟨is, r5, h5, sv5, o5.trans (c4 .object (by decide)), b5.trans b4⟩
    · exact ⟨[], r4, rfl, sv4, c4 .object (by decide), b4⟩
  obtain ⟨is, r5, h5, sv5, o5, b5⟩ := hinput
  refine Runs.bind ⟨is, r5, h5⟩ fun _ r5' h5' => ?_
  rw [h5] at h5'
  cases h5'
  -- types
  refine Runs.bind ?_ fun _ _ _ => .pure
  unfold whenEnabled
  split
  · rename_i ht
    unfold strawberryTypes
    refine runs_registerImport.still still_registerImport fun _ r6 q6 => ?_
    refine strawberryTypeLoop_runs hs hne hg.onTypes hg.onFields ?_ (sv5.quiet q6) fun pre t post he => ?_
    · unfold sortedComposites
      exact ((pySorted_perm _ _).map _).nodup_iff.2 (compositeTypes_nodup hn)
    · have hc : CompositeOf c.schema t := mem_sortedComposites.1 (by rw [he]; simp)
      refine ⟨fun hk => hg.types ht t hc hk, composite_ne_empty hne hc, ?_, ?_, fun hk i hi hx => .inr ?_⟩
      · have : r6.objectMap = [] := (q6.frame.2 .object).trans o5
        rw [this]; simp [Dict.keys]
      · rw [q6.bases, b5]; simp [Dict.keys]
      · obtain ⟨h1, ⟨u, hu, hui, rfl⟩, h3⟩ := hg.parents ht t hc hk i hi
          (fun hx' => by rw [extendedByOthers_iff.2 hx'] at hx; cases hx)
        exact ⟨u, before_in_sorted hn hu hui he h3, hui, rfl, h1⟩
  · exact .pure

/-! ## The hypotheses can be met -/

theorem no_stylers {env : Env} (h : env.stylers = []) : Stylable env :=
  C77_shipped_stylers (by rw [h]; intro s hs; cases hs)

theorem small_generable : GenerableModels smallObjects {} {} := by
  have hall : ∀ t, CompositeOf smallObjects.schema t → t = ⟨"Node", true, none, [], []⟩ ∨
      t = ⟨"Dog", false, none, [⟨"parent", .named "Dog", [], none, none⟩, ⟨"id", .nonNull (.named "ID"), [], none, none⟩], ["Node"]⟩ := by
    intro t ht
    rw [← mem_compositeTypes] at ht
    change t ∈ [(⟨"Node", true, none, [], []⟩ : CompositeType), _] at ht
    rcases List.mem_cons.1 ht with h | h
    · exact .inl h
    · exact .inr (List.mem_singleton.1 h)
  refine ⟨?_, ?_, ?_⟩
  · intro t ht _ cls _ f hf
    rcases hall t ht with rfl | rfl
    · cases hf
    · rcases List.mem_cons.1 hf with rfl | hf
      · exact .inl (.inr (.inl ⟨_, _, .inl rfl⟩))
      · obtain rfl := List.mem_singleton.1 hf
        exact .inl (.inl ⟨rfl, .inl ⟨"str", by decide +kernel⟩⟩)
  · intro t ht _ i hi _
    rcases hall t ht with rfl | rfl
    · cases hi
    · obtain rfl := List.mem_singleton.1 hi
      refine ⟨⟨by decide, by decide +kernel⟩, ⟨⟨"Node", true, none, [], []⟩, ⟨⟨.interface [] [], none⟩, ?_, rfl, rfl⟩, rfl, rfl⟩, ?_⟩
      · exact .tail _ (.head _)
      · intro h; cases h
  · intro _ t ht _ hi
    rcases hall t ht with rfl | rfl
    · exact ⟨_, mem_compositeTypes.1 (.tail _ (.head _)), ⟨by decide, by decide +kernel⟩, .head _⟩
    · cases hi

example : ∃ m, generateAst {} id [⟨"EnumsPlugin", generateEnums smallObjects {}⟩, ⟨"ObjectsPlugin", generateTypes smallObjects {}⟩]
    false = .ok m :=
  C77_objects_partial (c := smallObjects) (fun _ => .refl _) (no_stylers rfl) (by decide +kernel)
    (fun _ _ h => by cases h) ⟨by decide +kernel, fun t ht => by
      have h1 : ∀ t ∈ compositeTypes smallObjects.schema, t.name ∉ t.interfaces ∧ t.interfaces.Nodup := by decide +kernel
      exact h1 t (mem_compositeTypes.2 ht)⟩ small_generable

theorem berry_scalar {n : String} (h : n ∈ ["String", "ID", "Int", "Token"]) : ServerScalar berryCtx {} n := by
  simp only [List.mem_cons, List.not_mem_nil, or_false] at h
  rcases h with rfl | rfl | rfl | rfl
  · exact ⟨rfl, .inl (.inl ⟨"str", by decide +kernel⟩)⟩
  · exact ⟨rfl, .inl (.inl ⟨"str", by decide +kernel⟩)⟩
  · exact ⟨rfl, .inl (.inl ⟨"int", by decide +kernel⟩)⟩
  · exact ⟨rfl, .inr ⟨rfl, by decide +kernel⟩⟩

theorem berry_generable : GenerableServer berryCtx {} tagDirectives := by
  have colour : ∀ cls, cls ≠ "Colour" → ServerEnum berryCtx {} cls "Colour" := fun cls h =>
    ⟨⟨_, rfl⟩, .inr (.inr ⟨rfl, ⟨by decide +kernel, by decide +kernel⟩, fun h1 => h (Except.ok.inj h1).symm⟩)⟩
  refine ⟨fun _ d hd _ _ a ha => ?_, fun t d hd hb q hq => ?_, fun t f d hd hb q hq => ?_, fun _ t ht _ cls hcls f hf => ?_,
    fun _ t ht _ cls hcls f hf => ?_, fun _ t ht _ i hi _ => ?_⟩
  · obtain rfl := List.mem_singleton.1 hd
    simp only [List.mem_cons, List.not_mem_nil, or_false] at ha
    rcases ha with rfl | rfl
    · exact ⟨⟨rfl, .inl ⟨"str", by decide +kernel⟩⟩, fun v h => by cases h⟩
    · exact ⟨⟨rfl, .inl ⟨"str", by decide +kernel⟩⟩, fun v h => by cases h; trivial⟩
  · simp only [tagDirectives] at hd
    split at hd
    · obtain rfl := List.mem_singleton.1 hd
      obtain rfl := List.mem_singleton.1 hq
      exact .string
    · cases hd
  · simp only [tagDirectives] at hd
    split at hd
    · obtain rfl := List.mem_singleton.1 hd
      simp only [List.mem_cons, List.not_mem_nil, or_false] at hq
      rcases hq with rfl | rfl
      · exact .string
      · exact .null
    · cases hd
  · rw [← mem_inputTypes] at ht
    obtain rfl := List.mem_singleton.1 ht
    cases hcls
    simp only [List.mem_cons, List.not_mem_nil, or_false] at hf
    rcases hf with rfl | rfl
    · exact .inr (.inl (colour _ (by decide)))
    · exact .inl (berry_scalar (by decide))
  · rw [← mem_compositeTypes] at ht
    change t ∈ [(_ : CompositeType), _, _, _] at ht
    simp only [List.mem_cons, List.not_mem_nil, or_false] at ht
    rcases ht with rfl | rfl | rfl | rfl
    all_goals simp only [List.mem_cons, List.not_mem_nil, or_false] at hf
    · subst hf
      exact ⟨.inl (berry_scalar (by decide)), fun a ha => by cases ha⟩
    · rcases hf with rfl | rfl
      · exact ⟨.inl (berry_scalar (by decide)), fun a ha => by cases ha⟩
      · exact ⟨.inr (.inr (.inl ⟨_, _, .inr rfl⟩)), fun a ha => by cases ha⟩
    · rcases hf with rfl | rfl
      · refine ⟨.inr (.inr (.inl ⟨_, _, .inl rfl⟩)), fun a ha => ?_⟩
        simp only [List.mem_cons, List.not_mem_nil, or_false] at ha
        rcases ha with rfl | rfl | rfl | rfl
        · exact .inl (berry_scalar (by decide))
        · exact .inr (.inr ⟨_, _, rfl⟩)
        · exact .inl (berry_scalar (by decide))
        · exact .inl (berry_scalar (by decide))
      · exact ⟨.inl (berry_scalar (by decide)), fun a ha => by cases ha⟩
    · subst hf
      exact ⟨.inr (.inr (.inl ⟨_, _, .inl rfl⟩)), fun a ha => by cases ha⟩
  · rw [← mem_compositeTypes] at ht
    change t ∈ [(_ : CompositeType), _, _, _] at ht
    simp only [List.mem_cons, List.not_mem_nil, or_false] at ht
    rcases ht with rfl | rfl | rfl | rfl
    · cases hi
    · obtain rfl := List.mem_singleton.1 hi
      refine ⟨⟨by decide +kernel, by decide +kernel⟩, ⟨_, mem_compositeTypes.1 (List.mem_cons_self ..), rfl, rfl⟩, fun h => by cases h⟩
    · cases hi
    · cases hi

example : ∃ m, generateAst {} List.reverse [⟨"StrawberryPlugin", strawberryPlugin berryCtx {} tagDirectives⟩] true = .ok m :=
  C77_strawberry_partial (c := berryCtx) (fun l => List.reverse_perm l) (no_stylers rfl) (by decide +kernel) (by decide +kernel)
    berry_generable

/-! ## Valid schemas for which these plugins fail -/

/-- `interface Node { id: ID }`, implemented by no type yet: no module from the objects plugin, with the default
configuration. -/
theorem C77_unimplemented_interface_counterexample : ∀ iter skip, generateAst {} iter
    [⟨"EnumsPlugin", generateEnums { schema := { types := [("ID", ⟨.scalar, none⟩),
      ("Node", ⟨.interface [⟨"id", .named "ID", [], none, none⟩] [], none⟩)] } } {}⟩,
     ⟨"ObjectsPlugin", generateTypes { schema := { types := [("ID", ⟨.scalar, none⟩),
      ("Node", ⟨.interface [⟨"id", .named "ID", [], none, none⟩] [], none⟩)] } } {}⟩] skip =
    .error (.generationError "ObjectsPlugin") := by
  intro iter skip
  unfold generateAst
  rw [cause_fails (n := "ObjectsPlugin") (e := .generationError "unimplemented interfaces") (by decide +kernel)]

/-- No module is generated: the plugin raises the exception. -/
def ServerFails (c : Ctx) (sd : SchemaDirectives) (e : Err) (p : StrawberryConfig := {}) : Prop :=
  strawberryPlugin c p sd (Reg.init c.env) = .error e ∧
  ∀ iter skip, generateAst c.env iter [⟨"StrawberryPlugin", strawberryPlugin c p sd⟩] skip =
    .error (.generationError "StrawberryPlugin")

theorem serverFails_of {c : Ctx} {sd : SchemaDirectives} {e : Err} {p : StrawberryConfig}
    (h : (match strawberryPlugin c p sd (Reg.init c.env) with
      | .error e' => decide (e' = e)
      | .ok _ => false) = true) : ServerFails c sd e p := by
  have h1 : strawberryPlugin c p sd (Reg.init c.env) = .error e := by
    split at h
    · rename_i e' he
      rw [he, of_decide_eq_true h]
    · cases h
  refine ⟨h1, fun iter skip => ?_⟩
  unfold generateAst
  rw [cause_fails (n := "StrawberryPlugin") (e := e)]
  unfold cause
  dsimp only
  rw [h1]

/-- `directive @paint(colour: Colour) on OBJECT`, where `Colour` is an enum of the schema: no module. -/
theorem C77_directive_enum_counterexample :
    ServerFails berryCtx { defined := [⟨"paint", ["OBJECT"], [⟨"colour", .named "Colour", none, none, none⟩]⟩] }
      (.other "missing argument: parent") :=
  serverFails_of (by decide +kernel)

/-- `directive @sign(token: Token) on OBJECT`, where `Token` is a scalar of the schema: no module, as the classes of
directives are generated before the scalars. Without the directive the scalar is fine. -/
theorem C77_directive_scalar_counterexample :
    ServerFails berryCtx { defined := [⟨"sign", ["OBJECT"], [⟨"token", .named "Token", none, none, none⟩]⟩] }
      (.noScalarFound "Token") :=
  serverFails_of (by decide +kernel)

/-- `type Item @limit(range: {low: 1})`: no module. -/
theorem C77_directive_object_counterexample :
    ServerFails berryCtx
      { onType := fun t => if t = "Item" then [⟨"limit", [("range", .object [("low", .int "1")])]⟩] else [] }
      (.attributeError "_fields") :=
  serverFails_of (by decide +kernel)

/-- `interface Item implements Node` declared before `interface Node`: no module. -/
theorem C77_interface_order_counterexample :
    ServerFails { schema := { types := [("ID", ⟨.scalar, none⟩),
      ("Item", ⟨.interface [⟨"id", .named "ID", [], none, none⟩] ["Node"], none⟩),
      ("Node", ⟨.interface [⟨"id", .named "ID", [], none, none⟩] [], none⟩)] } } {} (.registryError "Node") :=
  serverFails_of (by decide +kernel)

/-- With `generate_directives: false` the scalars of the schema are not generated, and a field of such a type is an
error: the flag for the scalars is never read. -/
theorem C77_scalars_need_directives_counterexample :
    ServerFails { schema := { types := [("Token", ⟨.scalar, none⟩),
      ("Query", ⟨.object [⟨"token", .named "Token", [], none, none⟩] [], none⟩)] } } {} (.noScalarFound "Token")
      { generateDirectives := false, generateScalars := true } :=
  serverFails_of (by decide +kernel)

end Turms.Props
