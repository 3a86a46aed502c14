import Verif.Props.GenerableLimits
import Verif.Props.FuncScope

/-!
# C77 for functions and factories: an example, and valid documents for which generation fails; whole modules
-/

namespace Turms.Props
open Turms Turms.Spec Turms.Documents Turms.Fragments

/-- **C77, C76**: for the schemas and documents described in `Spec/Generable.lean` and `Spec/GenerableFuncs.lean` a module
is generated, and that module executes from its first line.  The remaining hypotheses are those of `C76_module_partial`:
an accepted configuration, no type without a class, no fragments on interfaces that are spread at a union, configured names that are imported. -/
theorem C77_module_executes_partial {B : List String} {prep : List Char → List Char} {c : Ctx} {pe : EnumsConfig}
    {pi : InputsConfig} {pf : FragmentsConfig} {po : OperationsConfig} {p : FuncsConfig} {q : InputFuncsConfig}
    {doc : Document} {bases : Dict (List String)} {iter : List String → List String} {skip : Bool}
    (hB : PythonNames B) (haccepted : validateNames B c.env.config bases = .ok ()) (hiter : ∀ l, (iter l).Perm l)
    (hplain : PlainConfig c.config)
    (hs : Stylable c.env) (hne : "" ∉ c.schema.types.keys) (hn : c.schema.types.keys.Nodup)
    (hprep : ParsesBack prep (fragmentsOf doc)) (hg : GenerableDocument c pe pi doc) (hf : GenerableFunctions c pe p q doc)
    (hobj : ∀ d ∈ fragmentsOf doc, IsInterface c.schema d.typeCondition → ¬ SpreadAtUnion c.schema doc d.name)
    (hkeptE : ∀ t, EnumOf c.schema t → t.name ∉ builtinNames → EnumKept pe t.name)
    (hkeptI : ∀ t, InputOf c.schema t → SelectedInput pi t)
    (hvars : ∀ o ∈ operationsOf doc, ∀ v ∈ o.vars, v.type.base ∉ builtinNames ∧
      (truthy (p.co.inputs.get? v.type.base) = true → IsInput c.schema v.type.base))
    (hnames : ∀ t ∈ ["UNSET", "GraphQLDefault", "Deprecated"], ¬ IsEnum c.schema t)
    (hclasses : ∀ ss r, runPlugins (classPlugins prep c pe pi pf po doc) (Reg.init c.env) = .ok (ss, r) →
      (∀ b ∈ c.config.objectBases, External r (lastComponent b)) ∧ (NeedsField c po doc → External r "Field"))
    (hall : ∀ ss r, runPlugins (classPlugins prep c pe pi pf po doc ++ functionPlugins c p q doc) (Reg.init c.env)
      = .ok (ss, r) → (NeedsOptional p → External r "Optional") ∧ ∀ b ∈ r.builtins, b ∉ enumHelpers) :
    ∃ m, generateAst c.env iter (classPlugins prep c pe pi pf po doc ++ functionPlugins c p q doc) skip = .ok m ∧
      Executes (· ∈ B) m := by
  obtain ⟨m, hm⟩ := C77_generation_succeeds_partial (pf := pf) (po := po) (skip := skip) hiter hs hne hn hprep hg hf
  exact ⟨m, hm, C76_module_partial hB haccepted hiter hplain hn hg.defined hg.definedO hg.acyclic hg.inline hobj hf.names
    hkeptE hkeptI hvars hnames hclasses hall hm⟩

/-! ## The store -/

mutual
/-- is a variable used, as an argument of a field (not below a fragment)? -/
def usesVariable : Sel → Bool
  | .field _ _ args sub => args.any (fun a => a.2.isVariable) || useVariables sub
  | _ => false
/-- the loop -/
def useVariables : List Sel → Bool
  | [] => false
  | s :: ss => usesVariable s || useVariables ss
end

theorem useVariables_mem {s : Sel} {ss : List Sel} (h : s ∈ ss) (hs : usesVariable s = true) : useVariables ss = true := by
  induction ss with
  | nil => cases h
  | cons x ss ih =>
    unfold useVariables
    rcases List.mem_cons.1 h with rfl | h
    · rw [hs]; rfl
    · rw [ih h, Bool.or_true]

theorem variableAt_used {n : Nat} {ss : List Sel} (h : VariableAt n ss) : useVariables ss = true := by
  induction h with
  | here hm hv =>
    refine useVariables_mem hm ?_
    unfold usesVariable
    rw [List.any_eq_true.2 ⟨_, hv, rfl⟩]
    rfl
  | deeper hm _ ih =>
    refine useVariables_mem hm ?_
    unfold usesVariable
    rw [ih, Bool.or_true]

/-- Functions for `Look`, with its variable expanded, and the factory of `Filter`. -/
theorem store_functions : GenerableFunctions storeCtx {} storeFuncs {} storeDoc := by
  have hparam : ∀ co, ParamField storeCtx {} co ⟨"color", .named "Color", none, none, none⟩ := fun co =>
    .inr (.inr ⟨_, rfl, .inr ⟨(enumKept_iff _ _).2 (by decide +kernel), by decide +kernel⟩⟩)
  refine ⟨fun o ho _ => ?_, by decide +kernel, fun t ht _ _ f hf => ?_⟩
  · rw [store_look_op ho]
    refine ⟨fun n hn => ?_, ?_, ?_, ?_, ?_⟩
    · have := variableAt_used hn
      exact absurd this (by decide +kernel)
    · intro v hv
      rw [List.mem_singleton.1 hv]
      decide
    · intro v hv
      rw [List.mem_singleton.1 hv]
      decide
    · intro v hv _
      rw [List.mem_singleton.1 hv]
      refine ⟨"Filter", _, _, .inl rfl, rfl, fun f hf => ?_⟩
      rw [List.mem_singleton.1 hf]
      exact hparam _
    · intro _ name al args sub t ty h
      cases h
  · rw [store_inputs ht] at hf
    rw [List.mem_singleton.1 hf]
    exact hparam _

example (pf : FragmentsConfig) (po : OperationsConfig) (skip : Bool) : ∃ m, generateAst storeCtx.env List.reverse
    (classPlugins (fun _ => printFragment (withTypename userBits)) storeCtx {} {} pf po storeDoc ++
      functionPlugins storeCtx storeFuncs {} storeDoc) skip = .ok m :=
  C77_generation_succeeds_partial (fun l => List.reverse_perm l)
    (C77_shipped_stylers (by
      intro s hs
      simp only [storeCtx, List.mem_cons, List.not_mem_nil, or_false] at hs
      rcases hs with rfl | rfl
      · exact .default
      · exact .snake))
    (by decide +kernel) (by decide +kernel)
    (fun f hf => by rw [store_fragments hf]; rfl) store_generable store_functions

/-! ## A whole module -/

/-- the schema of `Rebuild.lean`, with the default configuration -/
def loopCtx : Ctx := { schema := loopSchema }

/-- its fragment -/
def loopBits : FragDef := ⟨"Bits", "Item", [ask "level"]⟩

/-- the operation of `loopDoc`: its functions return the item -/
def loopFind : OpDef := ⟨.query, some "Find", [⟨"filter", .named "Filter", none⟩],
  [ask "item" [.spread "Bits", ask "next" [.spread "Bits"]]]⟩

theorem loop_inputs {t : InputType} (h : InputOf loopSchema t) : t = ⟨"Filter", none,
    [⟨"level", .named "Level", none, none, none⟩, ⟨"any", .list (.nonNull (.named "Filter")), none, none, none⟩], []⟩ := by
  have h := mem_inputTypes.2 h
  simpa only [inputTypes, loopSchema, List.filterMap_cons, List.filterMap_nil, List.mem_singleton] using h

theorem loop_enums {t : EnumType} (h : EnumOf loopSchema t) : t.name = "Level" := by
  have h := mem_enumTypes.2 h
  simp only [enumTypes, loopSchema, List.filterMap_cons, List.filterMap_nil, List.mem_singleton] at h
  rw [h]

theorem loop_level : EnumKept {} "Level" := (enumKept_iff _ _).2 (by decide +kernel)

theorem loop_filter (t : InputType) (h : InputOf loopSchema t) : SelectedInput {} t := by
  rw [loop_inputs h]
  exact .inr ⟨by rintro l ⟨⟩, by decide +kernel⟩

theorem loop_spreads {x : String} (h : Spreads loopFind.sels x) : x = "Bits" := by
  have := mem_spreadNames h
  simpa [loopFind, ask, spreadNames, spreadNamesOf] using this

theorem loop_item : FieldsGenerable loopCtx (definitions loopDoc) (fun f => f ∈ (fragmentsOf loopDoc).map (·.name)) "Query"
    loopFind.sels := by
  have hfit : SpreadFits loopCtx.schema (definitions loopDoc) (fun f => f ∈ (fragmentsOf loopDoc).map (·.name)) "Item" "Bits" :=
    ⟨by decide +kernel, loopBits, rfl, by rintro ⟨_, _, h⟩; cases h⟩
  refine generable_fields (c := loopCtx) rfl (by decide +kernel) ?_
  intro s hs
  rw [List.mem_singleton.1 hs]
  refine .inr ⟨by decide +kernel, plainField "item" (.named "Item"), List.mem_cons_self, rfl, ?_⟩
  refine generable_object (c := loopCtx) rfl (by decide +kernel) ?_
  intro s hs
  simp only [List.mem_cons, List.not_mem_nil, or_false] at hs
  rcases hs with rfl | rfl
  · exact hfit
  · refine .inr ⟨plainField "next" (.named "Item"), by simp, rfl, ?_⟩
    refine generable_object (c := loopCtx) rfl (by decide +kernel) ?_
    intro s hs
    rw [List.mem_singleton.1 hs]
    exact hfit

theorem loop_generable : GenerableDocument loopCtx {} {} loopDoc := by
  refine ⟨⟨?_, ?_, ?_, ?_, ?_, ?_, by decide +kernel⟩, ?_, ?_, ?_, ?_, ?_, ?_, by decide +kernel, ?_, ?_, ?_⟩
  · intro t ht _ f hf
    rw [loop_inputs ht] at hf
    simp only [List.mem_cons, List.not_mem_nil, or_false] at hf
    rcases hf with rfl | rfl
    · exact .inr (.inr ⟨_, rfl, .inr (.inr loop_level)⟩)
    · exact .inr (.inl ⟨_, _, rfl⟩)
  · intro _ t ht _ f hf he k hk
    rw [loop_inputs ht] at hf hk
    simp only [List.mem_cons, List.not_mem_nil, or_false] at hf
    rcases hk with rfl | ⟨⟨d, hd, _⟩, _⟩
    · rcases hf with rfl | rfl
      · decide +kernel
      · obtain ⟨vs, h⟩ := he
        cases h
    · cases hd
  · intro t ht _ ho
    rw [loop_inputs ht] at ho
    obtain ⟨d, hd, _⟩ := ho
    cases hd
  · intro t ht d hd
    rw [loop_inputs ht] at hd
    cases hd
  · rintro t t' u dn dn' k k' ht _ _ ⟨d, hd, _⟩
    rw [loop_inputs ht] at hd
    cases hd
  · rintro t u u' dn k k' ht _ _ ⟨d, hd, _⟩
    rw [loop_inputs ht] at hd
    cases hd
  · intro d hd
    rw [loop_fragments hd]
    refine .object ⟨_, _, rfl⟩ (fun f hf => ?_) (generable_fields (c := loopCtx) rfl (by decide +kernel) ?_)
    · simp [ask] at hf
    · intro s hs
      rw [List.mem_singleton.1 hs]
      exact .inr ⟨by decide +kernel, plainField "level" (.named "Level"), List.mem_cons_self, rfl, .enum rfl⟩
  · intro o ho
    rw [loop_operations ho]
    have hroot : ∀ t, loopCtx.schema.root .query = some t → t = "Query" := by rintro t ⟨⟩; rfl
    have hnt : ∀ name al args sub, Sel.field name al args sub ∈ loopFind.sels → name ≠ "__typename" := by
      intro name al args sub hm
      simp only [loopFind, ask, List.mem_cons, List.not_mem_nil, or_false, Sel.field.injEq] at hm
      rw [hm.1]
      decide
    refine ⟨⟨"Find", rfl, by decide⟩, ⟨"Query", rfl⟩, ?_, ?_, ?_, ?_, ?_⟩
    · intro s hs
      rw [List.mem_singleton.1 hs]
      exact ⟨_, _, _, _, rfl⟩
    · intro t name al args sub ht hm
      rw [hroot t ht]
      exact loop_item.exist name al args sub hm (hnt name al args sub hm)
    · intro t name al args sub ty ht hm hty
      rw [hroot t ht] at hty
      exact loop_item.nested name al args sub ty hm (hnt name al args sub hm) hty
    · intro v hv
      rw [List.mem_singleton.1 hv]
      have hin : InputOf loopSchema ⟨"Filter", none, [⟨"level", .named "Level", none, none, none⟩,
          ⟨"any", .list (.nonNull (.named "Filter")), none, none, none⟩], []⟩ :=
        ⟨_, List.mem_cons_of_mem _ (List.mem_cons_of_mem _ List.mem_cons_self), rfl, rfl⟩
      exact .inr (.inl ⟨_, hin, loop_filter _ hin, rfl⟩)
    · intro v hv d hd
      rw [List.mem_singleton.1 hv] at hd
      cases hd
  · intro d hd x hx
    rw [loop_fragments hd] at hx
    exact (no_spread hx).elim
  · intro o ho x hx
    rw [loop_operations ho] at hx
    rw [loop_spreads hx]
    decide +kernel
  · intro n d hl hx
    rw [loop_fragments (lookup_mem hl).1] at hx
    clear hl
    induction hx with
    | direct f h => exact no_spread h
    | through g d f _ _ _ ih => exact ih
  · intro d hd
    rw [loop_fragments hd]
    exact .field _ _ _ _ _ .nil .nil
  · intro d hd
    rw [loop_fragments hd]
    decide
  · intro d hd
    rw [loop_fragments hd]
    decide +kernel
  · intro o ho n hn
    rw [loop_operations ho] at hn ⊢
    cases hn
    decide +kernel

theorem loop_functions : GenerableFunctions loopCtx {} storeFuncs {} loopDoc := by
  refine ⟨fun o ho _ => ?_, by decide +kernel, fun t ht _ _ f hf => ?_⟩
  · rw [loop_operations ho]
    refine ⟨fun n hn => absurd (variableAt_used hn) (by decide +kernel), ?_, ?_, ?_, ?_⟩
    · intro v hv
      rw [List.mem_singleton.1 hv]
      decide
    · intro v hv
      rw [List.mem_singleton.1 hv]
      decide
    · intro v hv h
      rw [List.mem_singleton.1 hv] at h
      exact absurd h (by decide +kernel)
    · intro _ name al args sub t ty hsel ht hty
      cases hsel
      cases ht
      have hty := fieldOn_unique (s := loopSchema) rfl (by decide +kernel) (fd := plainField "item" (.named "Item"))
        List.mem_cons_self rfl (by decide +kernel) hty
      subst hty
      refine ⟨(fun h => by cases h), (fun vs h => by cases h),
        fun _ _ => ⟨.spread "Bits", List.mem_cons_self, by rintro ⟨_, _, _, h⟩; cases h⟩, ?_⟩
      intro f d hf hall
      rcases hall (ask "next" [.spread "Bits"]) (List.mem_cons_of_mem _ List.mem_cons_self) with h | ⟨_, _, _, h⟩
      · cases h
      · have hn : "next" = "__typename" := (Sel.field.injEq .. ▸ h : _ ∧ _).1
        exact absurd hn (by decide)
  · rw [loop_inputs ht] at hf
    simp only [List.mem_cons, List.not_mem_nil, or_false] at hf
    rcases hf with rfl | rfl
    · exact .inr (.inr ⟨_, rfl, .inr ⟨loop_level, by decide +kernel⟩⟩)
    · exact .inr (.inl ⟨_, _, rfl⟩)

/-- `C77_module_executes_partial` applies, whatever the order of imports. -/
example (iter : List String → List String) (hiter : ∀ l, (iter l).Perm l) : ∃ m, generateAst loopCtx.env iter
    (classPlugins (fun _ => printFragment (withTypename loopBits)) loopCtx {} {} {} {} loopDoc ++
      functionPlugins loopCtx storeFuncs {} loopDoc) false = .ok m ∧ Executes (· ∈ someBuiltins) m := by
  obtain ⟨t1, r1, h1, ht1⟩ := run_ok (ps := classPlugins (fun _ => printFragment (withTypename loopBits)) loopCtx {} {} {} {} loopDoc)
    (r := Reg.init {}) (test := fun _ r => r.imports.contains "pydantic.BaseModel" && r.imports.contains "pydantic.Field")
    (by decide +kernel)
  obtain ⟨t2, r2, h2, ht2⟩ := run_ok (ps := classPlugins (fun _ => printFragment (withTypename loopBits)) loopCtx {} {} {} {} loopDoc ++
    functionPlugins loopCtx storeFuncs {} loopDoc) (r := Reg.init {})
    (test := fun _ r => r.builtins == ["UNSET"]) (by decide +kernel)
  simp only [Bool.and_eq_true, beq_iff_eq, List.contains_iff_mem] at ht1 ht2
  refine C77_module_executes_partial (bases := []) (fun n h => h) (by decide +kernel) hiter (fun t l h => by cases h)
    (C77_shipped_stylers (by intro s hs; cases hs)) (by decide +kernel) (by decide +kernel)
    (fun f hf => by rw [loop_fragments hf]; rfl) loop_generable loop_functions
    (fun d hd => by
      rw [loop_fragments hd]
      rintro ⟨fs, is, h⟩
      cases h)
    (fun t ht _ => by rw [loop_enums ht]; exact loop_level) loop_filter
    (fun o ho v hv => by
      rw [loop_operations ho] at hv
      rw [List.mem_singleton.1 hv]
      exact ⟨by decide +kernel, fun h => by cases h⟩)
    (fun t ht => by
      simp only [List.mem_cons, List.not_mem_nil, or_false] at ht
      rcases ht with rfl | rfl | rfl <;> (rintro ⟨vs, h⟩; cases h))
    (fun ss r h => by
      rw [show Reg.init loopCtx.env = Reg.init {} from rfl, h1] at h
      cases h
      exact ⟨fun b hb => by rw [List.mem_singleton.1 hb]; exact .inl ⟨_, ht1.1, by decide +kernel⟩,
        fun _ => .inl ⟨_, ht1.2, by decide +kernel⟩⟩)
    (fun ss r h => by
      rw [show Reg.init loopCtx.env = Reg.init {} from rfl, h2] at h
      cases h
      refine ⟨?_, fun b hb => by rw [ht2, List.mem_singleton] at hb; rw [hb]; decide +kernel⟩
      rintro ⟨d, hd, k, hk, hn⟩
      simp only [storeFuncs, List.mem_cons, List.not_mem_nil, or_false] at hd
      rcases hd with rfl | rfl
      · simp [storeFuncs] at hk
      · simp only [storeFuncs, List.nil_append, List.mem_singleton] at hk
        rw [hk] at hn
        cases hn)

/-! ## Valid documents for which generation fails -/

/-- No module is generated: the classes are, but the plugin for functions or the one for factories raises. -/
def FunctionsFail (c : Ctx) (doc : Document) (plugin : String) (e : Err) (p : FuncsConfig := {}) (pe : EnumsConfig := {}) :
    Prop :=
  ParsesBack id (fragmentsOf doc) ∧ (plugin = "FuncsPlugin" ∨ plugin = "InputFuncsPlugin") ∧
  cause (classPlugins id c pe {} {} {} doc ++ functionPlugins c p {} doc) (Reg.init c.env) = some (plugin, e) ∧
  ∀ iter skip, generateAst c.env iter (classPlugins id c pe {} {} {} doc ++ functionPlugins c p {} doc) skip =
    .error (.generationError plugin)

theorem functionsFail_of {c : Ctx} {doc : Document} {plugin : String} {e : Err} {p : FuncsConfig} {pe : EnumsConfig}
    (h : ((fragmentsOf doc).all fun f => decide (printFragment f = printFragment (withTypename f))) = true)
    (h1 : plugin = "FuncsPlugin" ∨ plugin = "InputFuncsPlugin")
    (h2 : cause (classPlugins id c pe {} {} {} doc ++ functionPlugins c p {} doc) (Reg.init c.env) = some (plugin, e)) :
    FunctionsFail c doc plugin e p pe := by
  refine ⟨fun f hf => of_decide_eq_true (List.all_eq_true.1 h f hf), h1, h2, fun iter skip => ?_⟩
  unfold generateAst
  rw [cause_fails h2]

/-- one function per query, otherwise the defaults -/
def oneFunction : FuncsConfig := { definitions := [{ kind := .query, use := "client.execute" }] }

/-- the store, with another type for queries -/
def storeQuery (fs : List FieldDef) (l : Dict TypeEntry) : Ctx := { storeCtx with schema := { storeSchema with
  query := some "Root", types := storeSchema.types ++ ("Root", ⟨.object fs [], none⟩) :: l } }

/-- `query A { user { __typename } }`: only the type of an object -/
theorem C77_typename_function_counterexample : FunctionsFail storeCtx [queryA [ask "user" [ask "__typename"]]] "FuncsPlugin"
    (.assertion "Needs to be set") oneFunction := functionsFail_of (by decide +kernel) (.inl rfl) (by decide +kernel)

/-- `query A($n: Int = null) { ping }` -/
theorem C77_null_default_counterexample : FunctionsFail storeCtx [queryA [ask "ping"] [⟨"n", .named "Int", some .null⟩]]
    "FuncsPlugin" (.attributeError "value") oneFunction := functionsFail_of (by decide +kernel) (.inl rfl) (by decide +kernel)

/-- `query A($u: String) { shelf { box { size(unit: $u) } } }`: a variable at depth three -/
theorem C77_deep_variable_counterexample : FunctionsFail
    (storeQuery [plainField "shelf" (.named "Shelf")] [
      ("Shelf", ⟨.object [plainField "box" (.named "Box")] [], none⟩),
      ("Box", ⟨.object [{ plainField "size" (.named "String") with args := [⟨"unit", .named "String", none, none, none⟩] }] [],
        none⟩)])
    [queryA [ask "shelf" [ask "box" [.field "size" none [("unit", .variable "u")] []]]] [⟨"u", .named "String", none⟩]]
    "FuncsPlugin" (.attributeError "args") oneFunction := functionsFail_of (by decide +kernel) (.inl rfl) (by decide +kernel)

/-- `query A($f: Filter) { ping }`, where `f` is to be expanded: only required variables can be -/
theorem C77_expand_optional_counterexample : FunctionsFail storeCtx [queryA [ask "ping"] [⟨"f", .named "Filter", none⟩]]
    "FuncsPlugin" (.attributeError "Filter") { oneFunction with expandInputTypes := ["f"] } :=
  functionsFail_of (by decide +kernel) (.inl rfl) (by decide +kernel)

/-- `query A($n: Int!) { ping }`, where `n` is to be expanded -/
theorem C77_expand_scalar_counterexample : FunctionsFail storeCtx [queryA [ask "ping"] [⟨"n", .nonNull (.named "Int"), none⟩]]
    "FuncsPlugin" (.attributeError "fields") { oneFunction with expandInputTypes := ["n"] } :=
  functionsFail_of (by decide +kernel) (.inl rfl) (by decide +kernel)

/-- `fragment Bits on Entity { … }  query A { node { ...Bits } }`, where `Node` implements the interface `Entity`: the
field is of another interface than the fragment -/
theorem C77_parent_interface_counterexample : FunctionsFail
    (storeQuery [plainField "named" (.named "Named")] [
      ("Entity", ⟨.interface [plainField "id" (.named "String")] [], none⟩),
      ("Named", ⟨.interface [plainField "id" (.named "String")] ["Entity"], none⟩),
      ("Shelf", ⟨.object [plainField "id" (.named "String")] ["Named", "Entity"], none⟩)])
    [.fragment ⟨"Bits", "Entity", [ask "id", ask "__typename"]⟩, queryA [ask "named" [.spread "Bits"]]]
    "FuncsPlugin" (.registryError "Bits") oneFunction := functionsFail_of (by decide +kernel) (.inl rfl) (by decide +kernel)

/-- `enum Deprecated { YES }  query A { status }`: an enum called like a helper of turms -/
theorem C77_helper_enum_counterexample : FunctionsFail
    (storeQuery [plainField "status" (.named "Deprecated")] [("Deprecated", ⟨.enum [⟨"YES", none, none⟩], none⟩)])
    [queryA [ask "status"]] "FuncsPlugin" (.attributeError "id") oneFunction :=
  functionsFail_of (by decide +kernel) (.inl rfl) (by decide +kernel)

/-- `input Paint { c: _Hue }`, without `force_plugin_order` and with the option to skip enums called like this: the class
of the input is generated, its factory is not -/
theorem C77_factory_counterexample : FunctionsFail
    { schema := { storeSchema with types := storeSchema.types ++ [("_Hue", ⟨.enum [⟨"RED", none, none⟩], none⟩),
        ("Paint", ⟨.input [⟨"c", .named "_Hue", none, none, none⟩] [], none⟩)] },
      env := storeCtx.env, config := { forcePluginOrder := false } }
    [queryA [ask "ping"]] "InputFuncsPlugin" (.noEnumFound "_Hue") {} { skipUnderscore := true } :=
  functionsFail_of (by decide +kernel) (.inr rfl) (by decide +kernel)

end Turms.Props
