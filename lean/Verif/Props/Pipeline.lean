import Verif.Lemmas.Pipeline
import Verif.Props.Registry
import Verif.Props.Annotations

/-!
# C28, C29, C35, C36: document rules, coercions, module assembly, parsers and processors
-/

namespace Turms.Props
open Turms Turms.Spec

/-! ## C28 -/

theorem specifiedRules_graphql (rule : String) : rule ∈ specifiedRules ↔ rule ∈ graphqlRules :=
  (by decide +kernel : specifiedRules.Perm graphqlRules).mem_iff

/-- C28: the rules used are exactly those of the GraphQL specification that are not omitted, … -/
theorem C28_rules_exact (omitted : List String) (rule : String) :
    rule ∈ documentRules omitted ↔ rule ∈ graphqlRules ∧ rule ∉ omitted := by
  rw [← specifiedRules_graphql]
  unfold documentRules
  rw [List.mem_filterMap]
  constructor
  · rintro ⟨k, hk, h⟩
    split at h
    · cases h
    · rename_i hno
      cases h
      exact ⟨hk, by simpa using hno⟩
  · rintro ⟨h1, h2⟩
    exact ⟨rule, h1, by simp [h2]⟩

/-- C28: … in specification order, none twice. -/
theorem C28_rules_in_order (omitted : List String) :
    (documentRules omitted).Sublist specifiedRules ∧ (documentRules omitted).Nodup := by
  have hs : ∀ l : List String, (l.filterMap fun key => if omitted.contains key then none else some key).Sublist l := by
    intro l
    induction l with
    | nil => exact .slnil
    | cons a l ih =>
      rw [List.filterMap_cons]
      cases h : (if omitted.contains a = true then none else some a : Option String) with
      | none => exact ih.cons _
      | some b =>
        split at h
        · cases h
        · cases h; exact ih.cons_cons _
  exact ⟨hs _, (by decide +kernel : specifiedRules.Nodup).sublist (hs _)⟩

/-- C28: a configuration is accepted exactly when every omitted rule is known, and is kept as it is; the error
names the offending rule. -/
theorem C28_unknown_rejected (omitted : List String) :
    (validateOmitted omitted = .ok omitted ↔ ∀ r ∈ omitted, r ∈ graphqlRules) ∧
    (∀ e, validateOmitted omitted = .error e → ∃ r ∈ omitted, r ∉ graphqlRules ∧ e = .invalid r) ∧
    (∀ l, validateOmitted omitted = .ok l → l = omitted) := by
  simp only [← specifiedRules_graphql]
  induction omitted with
  | nil => simp [validateOmitted]
  | cons a l ih =>
    obtain ⟨ih1, ih2, ih3⟩ := ih
    unfold validateOmitted
    by_cases ha : a ∈ specifiedRules
    · rw [if_neg (by simp [ha])]
      cases hv : validateOmitted l with
      | error e =>
        obtain ⟨r, hr, hno, rfl⟩ := ih2 e hv
        refine ⟨?_, ?_, by simp⟩
        · constructor
          · intro h; cases h
          · intro h; exact absurd (h r (by simp [hr])) hno
        · intro e he; cases he; exact ⟨r, by simp [hr], hno, rfl⟩
      | ok l' =>
        have := ih3 l' hv
        subst this
        refine ⟨?_, by simp, by simp⟩
        simp only [List.mem_cons, forall_eq_or_imp, true_iff]
        exact ⟨ha, ih1.1 hv⟩
    · rw [if_pos (by simp [ha])]
      refine ⟨?_, ?_, by simp⟩
      · constructor
        · intro h; cases h
        · intro h; exact absurd (h a (by simp)) ha
      · intro e he; cases he; exact ⟨a, by simp, ha, rfl⟩

example : documentRules ["no_unused_fragments"] = specifiedRules.filter (· != "no_unused_fragments") ∧
    validateOmitted ["no_unused_fragment"] = .error (.invalid "no_unused_fragment") := by decide +kernel

/-! ## C29 -/

/-- C29: where a parameter has a scalar type, at any nesting, its innermost type is the plugin's coercion if it
has one, otherwise the global one; that type is importable. Without either it is the scalar's own type. -/
theorem C29_scalar_parameters (c : Ctx) (gs ps gi pi : Dict String) (hn : ps.keys.Nodup) (t : TypeNode) (o : Bool)
    (e : Expr) (r r' : Reg) (hs : c.schema.lookup t.base = some .scalar)
    (h : paramAnnotation c ⟨mergedCoercions gs ps, mergedCoercions gi pi⟩ t o r = .ok (e, r')) :
    match coercionFor gs ps t.base with
    | some x => unwrapped e = .name (lastComponent x) ∧ (x ∈ neverImported ∨ x ∈ r'.imports)
    | none => ∃ y r1 r2, referenceScalar t.base r1 = .ok (y, r2) ∧ unwrapped e = unwrapped y := by
  obtain ⟨x, r1, r2, hx, hu, hi⟩ := paramAnnotation_leaf h
  unfold paramLeaf at hx
  rw [hs] at hx
  dsimp only at hx
  rw [coercionFor_merge hn] at hx
  cases hp : coercionFor gs ps t.base with
  | some p =>
    rw [hp] at hx
    obtain ⟨_, r3, h3, hx⟩ := Gen.bind_ok.1 hx
    obtain ⟨rfl, rfl⟩ := Gen.pure_ok.1 hx
    exact ⟨hu, (imports_registerImport h3).1.imp id (hi _)⟩
  | none =>
    rw [hp] at hx
    exact ⟨x, r1, r2, hx, hu⟩

/-- C29: where a parameter has an input type, a coercion is *added* to it: the innermost type is a union of the
input class and the coercion, the plugin's before the global one. Without either it is the input class. -/
theorem C29_input_parameters (c : Ctx) (gs ps gi pi : Dict String) (hn : pi.keys.Nodup) (t : TypeNode) (o : Bool)
    (e : Expr) (r r' : Reg) (fs : List InputFieldDef) (ds : List DirectiveUse)
    (hs : c.schema.lookup t.base = some (.input fs ds))
    (h : paramAnnotation c ⟨mergedCoercions gs ps, mergedCoercions gi pi⟩ t o r = .ok (e, r')) :
    ∃ cls r1 r2, referenceInput c.env t.base "SHOULD_NOT_BE_USED" true r1 = .ok (cls, r2) ∧
      match coercionFor gi pi t.base with
      | some x => unwrapped e = sub "Union" (.tuple [cls, .name (lastComponent x)]) ∧
          (x ∈ neverImported ∨ x ∈ r'.imports)
      | none => unwrapped e = unwrapped cls := by
  obtain ⟨x, r1, r2, hx, hu, hi⟩ := paramAnnotation_leaf h
  unfold paramLeaf at hx
  rw [hs] at hx
  dsimp only at hx
  obtain ⟨cls, r3, h3, hx⟩ := Gen.bind_ok.1 hx
  refine ⟨cls, r1, r3, h3, ?_⟩
  rw [coercionFor_merge hn] at hx
  cases hp : coercionFor gi pi t.base with
  | some p =>
    rw [hp] at hx
    obtain ⟨rfl, h4, _⟩ := coercibleUnion_imports hx
    refine ⟨hu.trans (by simp [sub, unwrapped]), h4.imp id (hi _)⟩
  | none =>
    rw [hp] at hx
    obtain ⟨rfl, rfl⟩ := Gen.pure_ok.1 hx
    exact hu

/-- C29, operation variables: a coerced scalar variable takes the plugin's coercion before the global one. -/
theorem C29_scalar_variables (env : Env) (gs ps gi pi : Dict String) (hn : ps.keys.Nodup) (t : TypeNode) (x : String)
    (hc : coercionFor gs ps t.base = some x) (hx : x ≠ "") (e : Expr) (r r' : Reg)
    (h : variableAnnotation env ⟨mergedCoercions gs ps, mergedCoercions gi pi⟩ t r = .ok (e, r')) :
    unwrapped e = .name (lastComponent x) ∧ (x ∈ neverImported ∨ x ∈ r'.imports) := by
  unfold variableAnnotation at h
  rw [coercionFor_merge hn, hc] at h
  rw [if_pos (by simp [truthy, hx])] at h
  obtain ⟨_, r1, h1, h⟩ := Gen.bind_ok.1 h
  obtain ⟨h2, h3⟩ := recurseTypeAnnotation_leaf h
  exact ⟨h2.trans (by simp [unwrapped]), (imports_registerImport h1).1.imp id (h3 _)⟩

/-- C29, operation variables: an input variable that is coerced still accepts the input class. -/
theorem C29_input_variables (env : Env) (gs ps gi pi : Dict String) (hns : ps.keys.Nodup) (hn : pi.keys.Nodup)
    (t : TypeNode) (x : String) (hno : coercionFor gs ps t.base = none)
    (hc : coercionFor gi pi t.base = some x) (hx : x ≠ "") (e : Expr) (r r' : Reg)
    (h : variableAnnotation env ⟨mergedCoercions gs ps, mergedCoercions gi pi⟩ t r = .ok (e, r')) :
    ∃ cls r1, referenceInput env t.base "SHOULD_NOT_BE_USED" true r = .ok (cls, r1) ∧
      unwrapped e = sub "Union" (.tuple [cls, .name (lastComponent x)]) ∧ (x ∈ neverImported ∨ x ∈ r'.imports) := by
  unfold variableAnnotation at h
  rw [coercionFor_merge hns, hno, coercionFor_merge hn, hc] at h
  rw [if_neg (by simp [truthy]), if_pos (by simp [truthy, hx])] at h
  obtain ⟨cls, r1, h1, h⟩ := Gen.bind_ok.1 h
  obtain ⟨u, r2, h2, h⟩ := Gen.bind_ok.1 h
  obtain ⟨rfl, h4, _⟩ := coercibleUnion_imports h2
  obtain ⟨h5, h6⟩ := recurseTypeAnnotation_leaf h
  exact ⟨cls, r1, h1, h5.trans (by simp [sub, unwrapped]), h4.imp id (h6 _)⟩

example : (paramAnnotation { schema := { types := [("ID", ⟨.scalar, none⟩)] } }
      ⟨mergedCoercions [("ID", "a.B")] [("ID", "c.D")], []⟩ (.list (.nonNull (.named "ID"))) true
      (stateAfter {} [])).toOption.map (fun x => (unwrapped x.1, x.2.imports)) =
    some (.name "D", ["typing.Iterable", "c.D", "typing.Optional"]) := by decide +kernel

/-- C29: an uncoerced scalar keeps its own mapping even if another scalar is coerced. -/
example : coercionFor [("ID", "a.B")] [("Date", "c.D")] "Int" = none ∧
    coercionFor [("ID", "a.B")] [("Date", "c.D")] "ID" = some "a.B" := by decide +kernel

/-! ## C36 -/

/-- C36: the pipeline succeeds exactly when every pass succeeds in turn, and then yields the composition. -/
theorem C36_composition {A W : Type} (ps : List (Pass A W)) (a b : A) (w w' : W) :
    runPasses ps a w = (.ok b, w') ↔ PassChain ps a w b w' := by
  induction ps generalizing a w with
  | nil =>
    constructor
    · intro h; cases h; exact .nil _ _
    · intro h; cases h; rfl
  | cons p ps ih =>
    unfold runPasses
    constructor
    · intro h
      split at h
      · cases h
      · rename_i c w1 hp
        exact .cons hp ((ih c w1).1 h)
    · intro h
      cases h with
      | cons hp hrest => rw [hp]; exact (ih _ _).2 hrest

/-- C36: when a pass fails, generation fails with an error naming that pass, and the world is as that pass left
it: no later pass runs. -/
theorem C36_first_failure {A W : Type} (before after : List (Pass A W)) (p : Pass A W) (a b : A) (w w1 w2 : W)
    (e : Err) (hb : PassChain before a w b w1) (hp : p.run b w1 = (.error e, w2)) :
    runPasses (before ++ p :: after) a w = (.error (.generationError p.className), w2) := by
  induction hb with
  | nil a w => unfold runPasses; rw [List.nil_append]; simp only [hp]
  | cons hq _ ih => rw [List.cons_append]; unfold runPasses; rw [hq]; exact ih hp

/-- C36: every failure is of that form. -/
theorem C36_failure_origin {A W : Type} (ps : List (Pass A W)) (a : A) (w w' : W) (e : Err)
    (h : runPasses ps a w = (.error e, w')) :
    ∃ before p after b w1 e1, ps = before ++ p :: after ∧ PassChain before a w b w1 ∧
      p.run b w1 = (.error e1, w') ∧ e = .generationError p.className := by
  induction ps generalizing a w with
  | nil => cases h
  | cons p ps ih =>
    unfold runPasses at h
    split at h
    · rename_i e1 w1 hp
      cases h
      exact ⟨[], p, ps, a, w, e1, rfl, .nil _ _, hp, rfl⟩
    · rename_i b w1 hp
      obtain ⟨bf, q, af, c, w2, e1, rfl, hc, hq, rfl⟩ := ih b w1 h
      exact ⟨p :: bf, q, af, c, w2, e1, rfl, .cons hp hc, hq, rfl⟩

/-- C36: the generated source is the processors' composition applied to the unparsed result of the parsers'
composition applied to the assembled module. -/
theorem C36_code {W : Type} (env : Env) (iter : List String → List String) (plugins : List Plugin) (skip : Bool)
    (parsers : List (Pass (List Stmt) W)) (unparse : List Stmt → Except Err String)
    (processors : List (Pass String W)) (w w' : W) (out : String) :
    generateCode env iter plugins skip parsers unparse processors w = (.ok out, w') ↔
    ∃ m m' code w1, generateAst env iter plugins skip = .ok m ∧ PassChain parsers m w m' w1 ∧
      unparse m' = .ok code ∧ PassChain processors code w1 out w' := by
  unfold generateCode
  constructor
  · intro h
    split at h
    · cases h
    · rename_i m hm
      split at h
      · cases h
      · rename_i m' w1 hp
        split at h
        · cases h
        · rename_i code hu
          exact ⟨m, m', code, w1, hm, (C36_composition _ _ _ _ _).1 hp, hu, (C36_composition _ _ _ _ _).1 h⟩
  · rintro ⟨m, m', code, w1, hm, hp, hu, hq⟩
    rw [hm]
    simp only [(C36_composition _ _ _ _ _).2 hp, hu]
    exact (C36_composition _ _ _ _ _).2 hq

/-- three processors, the second failing: the third leaves no trace -/
example : runPasses (W := List String) [⟨"A", fun c w => (.ok (c ++ "a"), w ++ ["A"])⟩,
      ⟨"B", fun _ w => (.error .indexError, w ++ ["B"])⟩, ⟨"C", fun c w => (.ok (c ++ "c"), w ++ ["C"])⟩] "x" [] =
    (.error (.generationError "B"), ["A", "B"]) := rfl

/-! ## C35 -/

theorem runPlugins_iff (ps : List Plugin) (r r' : Reg) (ss : List Stmt) :
    runPlugins ps r = .ok (ss, r') ↔ ∃ outs, PluginRuns ps r outs r' ∧ ss = outs.flatten := by
  induction ps generalizing r ss with
  | nil =>
    constructor
    · intro h; cases h; exact ⟨[], .nil _, rfl⟩
    · rintro ⟨outs, h, rfl⟩; cases h; rfl
  | cons p ps ih =>
    unfold runPlugins
    constructor
    · intro h
      split at h
      · cases h
      · rename_i s1 r1 hp
        split at h
        · cases h
        · rename_i rest r2 hr
          cases h
          obtain ⟨outs, ho, rfl⟩ := (ih r1 rest).1 hr
          exact ⟨s1 :: outs, .cons hp ho, rfl⟩
    · rintro ⟨outs, h, rfl⟩
      cases h with
      | cons hp ho =>
        simp only [hp, (ih _ _).2 ⟨_, ho, rfl⟩]
        rfl

theorem generateImports_isImport (order : List String) (inner : List String → List String) :
    ∀ s ∈ generateImports order inner, IsImport s := by
  intro s hs
  unfold generateImports at hs
  rcases List.mem_append.1 hs with hs | hs
  · obtain ⟨x, _, rfl⟩ := List.mem_map.1 hs; trivial
  · obtain ⟨x, _, rfl⟩ := List.mem_map.1 hs; trivial

/-- C35: a generated module is the import statements, then the helper definitions, then the plugins' output in
configuration order, then the rebuild statements unless they are skipped. The imports bind exactly what some
plugin registered, the helpers are exactly the ones some plugin asked for, and the rebuilt classes are exactly
the registered ones, sorted. -/
theorem C35_module_sections (env : Env) (iter : List String → List String) (hi : ∀ l, (iter l).Perm l)
    (plugins : List Plugin) (skip : Bool) (m : List Stmt) (h : generateAst env iter plugins skip = .ok m) :
    ∃ outs r imports helpers rebuilds, PluginRuns plugins (Reg.init env) outs r ∧
      m = imports ++ helpers ++ outs.flatten ++ rebuilds ∧
      (∀ s ∈ imports, IsImport s) ∧
      (∀ n, (none, n) ∈ binds imports ↔ n ∈ r.imports ∧ '.' ∉ n.toList) ∧
      (∀ d n, (some d, n) ∈ binds imports ↔ d ++ "." ++ n ∈ r.imports ∧ '.' ∉ n.toList) ∧
      (∀ x, x ∈ definedNames helpers ↔ ∃ b ∈ r.builtins, x ∈ helperNames b) ∧
      (skip = true → rebuilds = []) ∧
      (skip = false → rebuilt (rebuildMethod env) rebuilds = pySorted strLe r.forwardReferences ∧
        rebuilds.length = r.forwardReferences.length) := by
  unfold generateAst at h
  split at h
  · cases h
  · rename_i tree r hr
    split at h
    · cases h
    · rename_i helpers hh
      obtain ⟨outs, ho, rfl⟩ := (runPlugins_iff _ _ _ _).1 hr
      cases h
      refine ⟨outs, r, generateImports (iter r.imports) iter, helpers,
        if skip then [] else generateForwardRefs env r, ho, ?_, generateImports_isImport _ _, ?_, ?_, ?_, ?_, ?_⟩
      · cases skip <;> simp
      · exact fun n => C07_binds_exactly _ _ _ (hi _) hi none n
      · exact fun d n => C07_binds_exactly _ _ _ (hi _) hi (some d) n
      · intro x
        have := generateBuiltins_names hh x
        rw [this]
        exact ⟨fun ⟨b, hb, hx⟩ => ⟨b, (hi _).mem_iff.1 hb, hx⟩, fun ⟨b, hb, hx⟩ => ⟨b, (hi _).mem_iff.2 hb, hx⟩⟩
      · intro hs; simp [hs]
      · intro hs
        rw [hs, if_neg (by simp), rebuilt_generateForwardRefs]
        refine ⟨rfl, ?_⟩
        simp [generateForwardRefs, (pySorted_perm strLe r.forwardReferences).length_eq]

/-- C35: a failing plugin fails the whole generation with an error naming it; nothing is produced. -/
theorem C35_plugin_failure (env : Env) (iter : List String → List String) (before after : List Plugin) (p : Plugin)
    (skip : Bool) (outs : List (List Stmt)) (r : Reg) (e : Err)
    (hb : PluginRuns before (Reg.init env) outs r) (hp : p.run r = .error e) :
    generateAst env iter (before ++ p :: after) skip = .error (.generationError p.className) := by
  have key : ∀ r0, PluginRuns before r0 outs r → p.run r = .error e → runPlugins (before ++ p :: after) r0 = .error (.generationError p.className) := by
    clear hb hp
    intro r0 hb
    induction hb with
    | nil r => intro hp; unfold runPlugins; simp only [List.nil_append, hp]
    | cons hq _ ih => intro hp; rw [List.cons_append]; unfold runPlugins; simp only [hq, ih hp]
  unfold generateAst
  rw [key _ hb hp]

/-- C35: generation of the module succeeds exactly when every plugin does (and asked for helpers that exist). -/
theorem C35_succeeds_iff (env : Env) (iter : List String → List String) (hi : ∀ l, (iter l).Perm l)
    (plugins : List Plugin) (skip : Bool) :
    (∃ m, generateAst env iter plugins skip = .ok m) ↔
    ∃ outs r, PluginRuns plugins (Reg.init env) outs r ∧ ∀ b ∈ r.builtins, b ∈ builtinNames := by
  constructor
  · rintro ⟨m, h⟩
    unfold generateAst at h
    split at h
    · cases h
    · rename_i tree r hr
      split at h
      · cases h
      · rename_i helpers hh
        obtain ⟨outs, ho, rfl⟩ := (runPlugins_iff _ _ _ _).1 hr
        refine ⟨outs, r, ho, fun b hb => generateBuiltins_known hh b ((hi _).mem_iff.2 hb)⟩
  · rintro ⟨outs, r, ho, hb⟩
    obtain ⟨hs, hh⟩ := generateBuiltins_total (order := iter r.builtins) fun b hm => hb b ((hi _).mem_iff.1 hm)
    unfold generateAst
    rw [(runPlugins_iff _ _ _ _).2 ⟨outs, ho, rfl⟩]
    simp only [hh]
    exact ⟨_, rfl⟩

/-- two plugins, the second importing and referring forward -/
example : (generateAst {} id [⟨"A", do registerImport "typing.List"; pure [.pass_]⟩,
      ⟨"B", do let e ← referenceGeneric {} .object "X" "Y"; pure [.expr e]⟩] false).toOption.map
      (fun m => (binds m, rebuilt "model_rebuild" m, m.length)) =
    some ([(some "typing", "List")], ["Y"], 4) := by decide +kernel

end Turms.Props
