import Verif.Lemmas.RegistryHistory

/-!
# C04 – C09: the class registry over arbitrary histories of calls

`trace env ops` is what a caller observes: the calls of the history `ops` (made on a fresh registry), each
with its result or exception.
-/

namespace Turms.Props
open Turms Turms.Spec

/-! ## C04 registration -/

/-- C04: once a definition has been registered, registering it again fails, at any later time. -/
theorem C04_second_registration_fails (env : Env) (ops later : List Op) (k : Kind) (n c : String)
    (h : (Op.generate k n, .ok (.cls c)) ∈ trace env ops) :
    (Op.generate k n).outcome env (stateAfter env (ops ++ later)) = .error (.assertion n) := by
  obtain ⟨t, ht⟩ := trace_append_prefix env ops later
  have h2 : (Op.generate k n, Except.ok (Ret.cls c)) ∈ trace env (ops ++ later) := by
    rw [ht]; simp [h]
  rw [← classMap_trace] at h2
  have hc : ((stateAfter env (ops ++ later)).classMap k).contains n = true := by
    rw [Dict.contains_eq_isSome, h2]; rfl
  simp [Op.outcome, Op.run, Gen.tag, generateClass, hc]

/-- C04: hence in every history a definition is registered successfully at most once. -/
theorem C04_at_most_once (env : Env) (ops : List Op) (k : Kind) (n : String) :
    ((trace env ops).filter (fun e => decide (e.1 = Op.generate k n) && e.2.isOk)).length ≤ 1 := by
  induction ops using list_snoc_induction with
  | h0 => simp [trace, traceFrom]
  | h1 ops op ih =>
    rw [trace_snoc, List.filter_append, List.length_append]
    by_cases hz : ((trace env ops).filter (fun e => decide (e.1 = Op.generate k n) && e.2.isOk)).length = 0
    · rw [hz]
      have := List.length_filter_le (fun e : Op × Except Err Ret => decide (e.1 = Op.generate k n) && e.2.isOk)
        [(op, Op.outcome env (stateAfter env ops) op)]
      simp at this ⊢
      omega
    · obtain ⟨e, he⟩ := List.exists_mem_of_length_pos (Nat.pos_of_ne_zero hz)
      rw [List.mem_filter] at he
      obtain ⟨o, res⟩ := e
      simp at he
      obtain ⟨hm, rfl, hok⟩ := he
      have : ∃ c, res = .ok (.cls c) := by
        obtain ⟨pre, post, _, ho⟩ := mem_trace_iff.1 hm
        unfold Op.outcome at ho
        split at ho
        · rename_i x r' hrun
          obtain ⟨c, _, hx⟩ := Gen.tag_ok hrun
          exact ⟨c, by rw [ho, hx]⟩
        · subst ho; simp [Except.isOk, Except.toBool] at hok
      obtain ⟨c, rfl⟩ := this
      have hlast := C04_second_registration_fails env ops [] k n c hm
      simp only [List.append_nil] at hlast
      have : List.filter (fun e : Op × Except Err Ret => decide (e.1 = Op.generate k n) && e.2.isOk)
          [(op, Op.outcome env (stateAfter env ops) op)] = [] := by
        simp only [List.filter_cons, List.filter_nil]
        split
        · rename_i hp
          simp at hp
          obtain ⟨rfl, hp⟩ := hp
          rw [hlast] at hp
          simp [Except.isOk, Except.toBool] at hp
        · rfl
      rw [this]
      simpa using ih

/-- C04: the class name stored at registration is the styled name, and it is what every later look-up
returns. -/
theorem C04_name_is_stable (env : Env) (ops later : List Op) (k : Kind) (n c : String)
    (h : (Op.generate k n, .ok (.cls c)) ∈ trace env ops) :
    k.style env n = .ok c ∧
    (Op.getClass k n).outcome env (stateAfter env (ops ++ later)) = .ok (.cls c) := by
  obtain ⟨t, ht⟩ := trace_append_prefix env ops later
  have h2 : (Op.generate k n, Except.ok (Ret.cls c)) ∈ trace env (ops ++ later) := by
    rw [ht]; simp [h]
  rw [← classMap_trace] at h2
  refine ⟨classMap_styled env _ k n c h2, ?_⟩
  simp [Op.outcome, Op.run, Gen.tag, getClass, Dict.get, h2]

/-- C04 for interfaces: a second registration fails at any later time, with or without base class, and the
base class handed to implementing types never changes. -/
theorem C04_interfaces (env : Env) (ops later : List Op) (n c : String) (b : Bool)
    (h : (Op.generateInterface n b, .ok (.cls c)) ∈ trace env ops) :
    (∀ b', (Op.generateInterface n b').outcome env (stateAfter env (ops ++ later)) = .error (.assertion n)) ∧
    (Op.inheritInterface n).outcome env (stateAfter env (ops ++ later)) = .ok (.cls c) := by
  obtain ⟨pre, post, hops, ho⟩ := mem_trace_iff.1 h
  have hc : (stateAfter env (pre ++ [.generateInterface n b])).interfaceBaseclassMap.get? n = some c := by
    rw [stateAfter_snoc]
    unfold Op.outcome at ho
    split at ho
    · rename_i x r' hrun
      have hstep : Op.step env (stateAfter env pre) (.generateInterface n b) = r' := by
        unfold Op.step; rw [hrun]
      rw [hstep]
      obtain ⟨c', hc, hx⟩ := Gen.tag_ok hrun
      subst hx
      cases ho
      unfold Turms.generateInterface at hc
      split at hc
      · cases hc
      · split at hc <;> cases hc
        exact Dict.get?_set_self _ _ _
    · cases ho
  have hall := interfaceBase_monotone env _ (post ++ later) n c hc
  have e : pre ++ [Op.generateInterface n b] ++ (post ++ later) = ops ++ later := by simp [hops]
  rw [e] at hall
  constructor
  · intro b'
    have : (stateAfter env (ops ++ later)).interfaceBaseclassMap.contains n = true := by
      rw [Dict.contains_eq_isSome, hall]; rfl
    simp [Op.outcome, Op.run, Gen.tag, generateInterface, this]
  · simp [Op.outcome, Op.run, Gen.tag, inheritInterface, hall]

example : trace {} [.generateInterface "Node" true, .generateInterface "Node" false, .inheritInterface "Node"] =
    [(.generateInterface "Node" true, .ok (.cls "NodeBase")),
     (.generateInterface "Node" false, .error (.assertion "Node")),
     (.inheritInterface "Node", .ok (.cls "NodeBase"))] := by decide +kernel

/-- a history that meets the hypotheses: register an input and an enum, refer to both -/
def demo : List Op :=
  [.generate .input "filter", .generate .enum "color", .reference .enum "color" "Filter" true,
   .reference .input "filter" "Filter" true, .reference .input "later" "Filter" true]

example : trace { stylers := [defaultStyler] } demo =
    [(.generate .input "filter", .ok (.cls "Filter")), (.generate .enum "color", .ok (.cls "Color")),
     (.reference .enum "color" "Filter" true, .ok (.expr (.name "Color"))),
     (.reference .input "filter" "Filter" true, .ok (.expr (.str "Filter"))),
     (.reference .input "later" "Filter" true, .ok (.expr (.str "Later")))] := by
  decide +kernel

/-- Limit of C04: uniqueness is per GraphQL name and kind, not per *class name*: two different input types
can be given the same class, silently. -/
theorem C04_class_names_collide_counterexample :
    trace { stylers := [defaultStyler] } [.generate .input "user", .generate .input "User"] =
      [(.generate .input "user", .ok (.cls "User")), (.generate .input "User", .ok (.cls "User"))] := by
  decide +kernel

/-- Limit of C04: a fragment and an object type of the same name get the same class. -/
theorem C04_kinds_collide_counterexample :
    trace {} [.generate .object "User", .generate .fragment "User"] =
      [(.generate .object "User", .ok (.cls "User")), (.generate .fragment "User", .ok (.cls "User"))] := by
  decide +kernel

/-! ## C05 references -/

/-- C05: a bare reference names a class that was registered earlier in the same history (under the name
that was returned then) and that is not the class being defined. -/
theorem C05_bare_reference_is_defined (env : Env) (ops : List Op) (k : Kind) (n p c : String) (f : Bool)
    (h : (Op.reference k n p f).outcome env (stateAfter env ops) = .ok (.expr (.name c))) :
    (Op.generate k n, .ok (.cls c)) ∈ trace env ops ∧ c ≠ p := by
  unfold Op.outcome at h
  split at h
  · rename_i x r' hrun
    cases h
    obtain ⟨e, he, hx⟩ := Gen.tag_ok hrun
    cases hx
    rcases reference_ok he with ⟨c', s, h1, rfl, hc, hs, hp, hcs, _⟩ | ⟨c', h1, _⟩ | ⟨_, _, h1, _⟩
    · cases h1
      have hsome : ∃ v, ((stateAfter env ops).classMap k).get? n = some v := by
        rw [Dict.contains_eq_isSome] at hc
        exact Option.isSome_iff_exists.1 hc
      obtain ⟨v, hv⟩ := hsome
      have hvs := classMap_styled env ops k n v hv
      have hvs' : v = s := by rw [hs] at hvs; cases hvs; rfl
      have hcv : c = v := by
        rcases hcs with ⟨rfl, hg⟩ | ⟨_, rfl⟩
        · have : (stateAfter env ops).inputMap.get? n = some v := hv
          rw [this] at hg; cases hg; rfl
        · exact hvs'.symm
      subst hcv
      exact ⟨(classMap_trace env ops k n c).1 hv, by rw [hvs']; exact fun e => hp e.symm⟩
    · exact absurd h1 (by simp [Expr.str])
    · exact absurd h1 (by simp [Expr.str])
  · cases h

/-- C05: every successful reference is either a bare name or a quoted one; a quoted one is the styled class
name (the helper's own name for the five helper enums), is only given if forward references are allowed,
and the referring class is then rebuilt at the end of the module — also if more calls follow. -/
theorem C05_quoted_reference_is_rebuilt (env : Env) (ops later : List Op) (k : Kind) (n p : String) (f : Bool)
    (e : Expr) (h : (Op.reference k n p f).outcome env (stateAfter env ops) = .ok (.expr e)) :
    (∃ c, e = .name c) ∨
    (∃ c, e = .str c ∧ (k.style env n = .ok c ∧ f = true ∨ k = .enum ∧ n ∈ builtinNames ∧ c = n) ∧
      p ∈ rebuilt (if env.config.pydanticV2 then "model_rebuild" else "update_forward_refs")
        (generateForwardRefs env (stateAfter env (ops ++ [.reference k n p f] ++ later)))) := by
  have hreb : ∀ r : Reg, p ∈ r.forwardReferences →
      p ∈ rebuilt (if env.config.pydanticV2 then "model_rebuild" else "update_forward_refs")
        (generateForwardRefs env r) := by
    intro r hp
    unfold generateForwardRefs
    rw [← mem_pySorted strLe] at hp
    generalize pySorted strLe r.forwardReferences = l at hp ⊢
    induction l with
    | nil => simp at hp
    | cons a l ih =>
      simp only [List.map_cons, rebuilt, if_true]
      rcases List.mem_cons.1 hp with rfl | hp
      · simp
      · exact List.mem_cons_of_mem _ (ih hp)
  have hfinal : (Op.reference k n p f, Except.ok (Ret.expr e)) ∈ trace env (ops ++ [.reference k n p f] ++ later) := by
    rw [mem_trace_iff]
    exact ⟨ops, later, by simp, h.symm⟩
  unfold Op.outcome at h
  split at h
  · rename_i x r' hrun
    cases h
    obtain ⟨e', he, hx⟩ := Gen.tag_ok hrun
    cases hx
    rcases reference_ok he with ⟨c', s, h1, rfl, hc, hs, hp, hcs, _⟩ | ⟨c', rfl, hf, hs, _⟩ | ⟨hk, hb, rfl, _⟩
    · exact .inl ⟨c', h1⟩
    · right
      refine ⟨c', rfl, .inl ⟨hs, hf⟩, hreb _ ?_⟩
      rw [forward_trace]
      exact ⟨_, _, hfinal, rfl, rfl⟩
    · right
      refine ⟨n, rfl, .inr ⟨hk, hb, rfl⟩, hreb _ ?_⟩
      rw [forward_trace]
      exact ⟨_, _, hfinal, rfl, rfl⟩
  · cases h

/-- C05: with forward references disallowed, referring to something not registered before (and not a helper
enum) always fails. -/
theorem C05_no_forward_fails (env : Env) (ops : List Op) (k : Kind) (n p : String)
    (hb : ¬ (k = .enum ∧ n ∈ builtinNames))
    (h : ∀ c, (Op.generate k n, .ok (.cls c)) ∉ trace env ops) :
    ∃ err, (Op.reference k n p false).outcome env (stateAfter env ops) = .error err := by
  cases ho : (Op.reference k n p false).outcome env (stateAfter env ops) with
  | error e => exact ⟨e, rfl⟩
  | ok x =>
    exfalso
    unfold Op.outcome at ho
    split at ho
    · rename_i y r' hrun
      cases ho
      obtain ⟨e', he, hx⟩ := Gen.tag_ok hrun
      rcases reference_ok he with ⟨c', s, h1, rfl, hc, hs, _⟩ | ⟨c', _, hf, _⟩ | ⟨hk, hb', _⟩
      · rw [Dict.contains_eq_isSome] at hc
        obtain ⟨v, hv⟩ := Option.isSome_iff_exists.1 hc
        exact h v ((classMap_trace env ops k n v).1 hv)
      · cases hf
      · exact hb ⟨hk, hb'⟩
    · cases ho

example : (Op.reference .fragment "User" "Query" false).outcome {} (stateAfter {} []) =
    .error (.registryError "User") := by decide +kernel

/-- Limit of C05: the call does not check that `parent` is a class.  `FuncsPlugin` passes the literal
`"SHOULD_NOT_BE_USED"` (`turms/plugins/funcs.py:186-275`); if the referenced input was not generated (e.g.
no `InputsPlugin`), the module ends with a rebuild of a class that does not exist. -/
theorem C05_parent_is_not_checked_counterexample :
    generateForwardRefs {} (stateAfter {} [.reference .input "Filter" "SHOULD_NOT_BE_USED" true]) =
      [.expr (.call (.attr (.name "SHOULD_NOT_BE_USED") "model_rebuild") [] [])] := rfl

/-- Limit of C05: an enum of the schema that happens to be called like a helper (`Deprecated`,
`GraphQLDefault`, `UNSET`) is never referred to: the reference points to the helper class and the helper is
emitted under the same name as the enum class. -/
theorem C05_helper_shadows_enum_counterexample :
    trace {} [.generate .enum "Deprecated", .reference .enum "Deprecated" "User" true] =
      [(.generate .enum "Deprecated", .ok (.cls "Deprecated")),
       (.reference .enum "Deprecated" "User" true, .ok (.expr (.str "Deprecated")))] ∧
    (stateAfter {} [.generate .enum "Deprecated", .reference .enum "Deprecated" "User" true]).builtins =
      ["Deprecated"] := by
  constructor
  · decide +kernel
  · decide +kernel

/-! ## C06 the rebuild section -/

/-- C06: in every history, the classes rebuilt are in strictly ascending order (so each occurs once), they
are exactly the classes for which some call returned a quoted reference, and the section contains nothing
but these rebuild calls. -/
theorem C06_rebuild_section (env : Env) (ops : List Op) :
    Ascending (rebuilt (rebuildMethod env) (generateForwardRefs env (stateAfter env ops))) ∧
    (∀ p, p ∈ rebuilt (rebuildMethod env) (generateForwardRefs env (stateAfter env ops)) ↔
      ∃ op x, (op, .ok x) ∈ trace env ops ∧ op.parent? = some p ∧ isQuoted x = true) ∧
    (rebuilt (rebuildMethod env) (generateForwardRefs env (stateAfter env ops))).length =
      (generateForwardRefs env (stateAfter env ops)).length := by
  rw [rebuilt_generateForwardRefs]
  refine ⟨?_, ?_, ?_⟩
  · have h1 := pySorted_pairwise strLe strLe_total strLe_trans (stateAfter env ops).forwardReferences
    have h2 : (pySorted strLe (stateAfter env ops).forwardReferences).Nodup :=
      (pySorted_perm strLe _).nodup_iff.2 (forward_nodup env ops)
    refine List.Pairwise.imp ?_ (List.Pairwise.and h1 h2)
    rintro a b ⟨hle, hne⟩
    simp [strLe] at hle
    have : ¬ b ≤ a := fun h => hne (String.le_antisymm hle h)
    simpa using this
  · intro p
    rw [mem_pySorted, forward_trace]
  · simp [generateForwardRefs]

/-- C06: pydantic v1 and v2 output differ only in the name of the method. -/
theorem C06_versions_agree (r : Reg) (s : List Styler) (c : RegConfig) :
    rebuilt "model_rebuild" (generateForwardRefs ⟨{ c with pydanticV2 := true }, s⟩ r) =
    rebuilt "update_forward_refs" (generateForwardRefs ⟨{ c with pydanticV2 := false }, s⟩ r) := by
  have h1 := rebuilt_generateForwardRefs ⟨{ c with pydanticV2 := true }, s⟩ r
  have h2 := rebuilt_generateForwardRefs ⟨{ c with pydanticV2 := false }, s⟩ r
  simp only [rebuildMethod, if_true, Bool.false_eq_true, if_false] at h1 h2
  rw [h1, h2]

example : rebuilt "model_rebuild" (generateForwardRefs {} (stateAfter {}
    [.reference .input "B" "Z" true, .reference .input "A" "Y" true, .reference .enum "C" "Z" true])) =
    ["Y", "Z"] := by decide +kernel

/-! ## C07 imports -/

/-- C07: whatever order Python iterates the sets in (`order` for the import set, `inner` for the sets built
while grouping), the import statements bind exactly the registered names: a dotted name `m.n` as `n` from
module `m`, a plain name as itself. -/
theorem C07_binds_exactly (imports order : List String) (inner : List String → List String)
    (ho : order.Perm imports) (hin : ∀ l, (inner l).Perm l) (m : Option String) (n : String) :
    (m, n) ∈ binds (generateImports order inner) ↔
      match m with
      | none => n ∈ imports ∧ '.' ∉ n.toList
      | some m => m ++ "." ++ n ∈ imports ∧ '.' ∉ n.toList := by
  rw [mem_binds_generateImports order inner hin]
  have hd : ∀ s, hasDot s = false ↔ '.' ∉ s.toList := by intro s; simp [hasDot]
  cases m with
  | none => simp [groupImports_lone, ho.mem_iff, hd]
  | some m =>
    simp only [reduceCtorEq, false_and, Option.some.injEq, false_or, groupImports_mods, ← hd]
    constructor
    · rintro ⟨m', rfl, d, hdm, h⟩
      rw [dotted_iff] at h
      rw [← h.1]
      exact ⟨ho.mem_iff.1 hdm, h.2⟩
    · rintro ⟨h1, h2⟩
      exact ⟨m, rfl, _, ho.mem_iff.2 h1, (dotted_iff _ m n).2 ⟨rfl, h2⟩⟩

/-- C07: nothing is imported twice and no module has two `from` statements. -/
theorem C07_no_duplicates (order : List String) (inner : List String → List String)
    (hin : ∀ l, (inner l).Perm l) :
    (binds (generateImports order inner)).Nodup ∧ (fromModules (generateImports order inner)).Nodup := by
  refine ⟨binds_generateImports_nodup order inner hin, ?_⟩
  rw [fromModules_generateImports]
  exact groupImports_keys_nodup order

/-- C07: two runs of the generator (two hash seeds) bind the same names, up to order. -/
theorem C07_hash_seed_independent (imports order1 order2 : List String)
    (inner1 inner2 : List String → List String)
    (h1 : order1.Perm imports) (h2 : order2.Perm imports)
    (hin1 : ∀ l, (inner1 l).Perm l) (hin2 : ∀ l, (inner2 l).Perm l) :
    (binds (generateImports order1 inner1)).Perm (binds (generateImports order2 inner2)) := by
  rw [List.perm_ext_iff_of_nodup (C07_no_duplicates order1 inner1 hin1).1
    (C07_no_duplicates order2 inner2 hin2).1]
  rintro ⟨m, n⟩
  rw [C07_binds_exactly imports order1 inner1 h1 hin1, C07_binds_exactly imports order2 inner2 h2 hin2]

example : generateImports ["typing.List", "os", "a.b.C", "typing.Dict"] id =
    [.import_ "os", .importFrom "typing" ["List", "Dict"], .importFrom "a.b" ["C"]] := rfl

/-- Limit of C07: the emitted *text* is not reproducible, because it follows set iteration order. -/
theorem C07_text_depends_on_order_counterexample :
    (["a.x", "b.y"]).Perm ["b.y", "a.x"] ∧
    generateImports ["a.x", "b.y"] id ≠ generateImports ["b.y", "a.x"] id := by
  constructor
  · exact List.Perm.swap _ _ _
  · intro h
    have : binds (generateImports ["a.x", "b.y"] id) = binds (generateImports ["b.y", "a.x"] id) := by rw [h]
    exact absurd this (by decide +kernel)

/-- C07: in every history the builtin types `bool, str, int, float, dict, list, tuple` are never imported,
and the import set has no duplicates. -/
theorem C07_never_imports_builtins (env : Env) (ops : List Op) :
    (∀ d ∈ (stateAfter env ops).imports, d ∉ ["bool", "str", "int", "float", "dict", "list", "tuple"]) ∧
    (stateAfter env ops).imports.Nodup := by
  induction ops using list_snoc_induction with
  | h0 => simp [stateAfter, Reg.init]
  | h1 ops op ih =>
    rw [stateAfter_snoc]
    unfold Op.step
    cases hrun : op.run env (stateAfter env ops) with
    | error e => exact ih
    | ok xr =>
      obtain ⟨x, r'⟩ := xr
      simp only
      rcases run_imports hrun with h | ⟨d, hd, h⟩
      · rw [h]; exact ih
      · rw [h]
        refine ⟨?_, nodup_setAdd _ _ ih.2⟩
        intro e he
        rw [mem_setAdd] at he
        rcases he with he | rfl
        · exact ih.1 e he
        · exact hd

/-- C07: every call of `register_import` with a dotted name is honoured in the emitted import statements,
whatever happens afterwards. -/
theorem C07_registered_is_imported (env : Env) (ops later : List Op) (m n : String)
    (hn : '.' ∉ n.toList) (order : List String) (inner : List String → List String)
    (ho : order.Perm (stateAfter env (ops ++ [.registerImport (m ++ "." ++ n)] ++ later)).imports)
    (hin : ∀ l, (inner l).Perm l) :
    (some m, n) ∈ binds (generateImports order inner) := by
  rw [C07_binds_exactly _ order inner ho hin]
  refine ⟨?_, hn⟩
  apply imports_monotone
  rw [stateAfter_snoc]
  have hdot : (m ++ "." ++ n) ∉ neverImported := by
    intro hmem
    have h1 : ∀ s ∈ neverImported, hasDot s = false := by decide +kernel
    have h2 := h1 _ hmem
    simp [hasDot] at h2
  simp only [Op.step, Op.run, Gen.tag, registerImport]
  rw [if_neg (by simpa using hdot)]
  simp [mem_setAdd]

/-- Limit of C07: a plain name outside the seven listed builtins is imported as a module, so e.g. a scalar
coerced to `bytes` (registered by the functions plugin without checking for a dot) yields `import bytes`. -/
theorem C07_builtin_bytes_imported_counterexample :
    generateImports (stateAfter {} [.registerImport "bytes"]).imports id = [.import_ "bytes"] := rfl

/-! ## C08 scalars -/

/-- C08: in every history that does not itself redefine the scalar, the configured type wins, then the
documented default, and otherwise the call fails naming the scalar.  The result is the last component of
the dotted Python type. -/
theorem C08_resolution (env : Env) (ops : List Op) (s : String)
    (hcfg : (Dict.keys env.config.scalarDefinitions).Nodup)
    (hops : ∀ op ∈ ops, registersScalar s op = false) :
    (Op.referenceScalar s).outcome env (stateAfter env ops) =
      match env.config.scalarDefinitions.get? s, scalarDefaults.get? s with
      | some t, _ => .ok (.expr (.name (lastComponent t)))
      | none, some t => .ok (.expr (.name (lastComponent t)))
      | none, none => .error (.noScalarFound s) := by
  have hmap : (stateAfter env ops).scalarMap.get? s =
      (env.config.scalarDefinitions.get? s).or (scalarDefaults.get? s) := by
    induction ops using list_snoc_induction with
    | h0 => simp [stateAfter, Reg.init, Dict.get?_merge _ _ _ hcfg]
    | h1 ops op ih =>
      rw [stateAfter_snoc, scalarMap_step env _ op s (hops op (by simp))]
      exact ih (fun o ho => hops o (by simp [ho]))
  have hgen : ∀ t, (stateAfter env ops).scalarMap.get? s = some t →
      (Op.referenceScalar s).outcome env (stateAfter env ops) = .ok (.expr (.name (lastComponent t))) := by
    intro t ht
    simp only [Op.outcome, Op.run, Gen.tag, referenceScalar, ht]
    by_cases hd : hasDot t = true
    · simp only [hd, if_true, registerImport]
      by_cases hn : neverImported.contains t = true
      · simp only [hn, if_true]
      · simp only [hn, Bool.false_eq_true, if_false]
    · simp [hd]
  cases h1 : env.config.scalarDefinitions.get? s with
  | some t => exact hgen t (by rw [hmap, h1]; rfl)
  | none =>
    cases h2 : scalarDefaults.get? s with
    | some t => exact hgen t (by rw [hmap, h1, h2]; rfl)
    | none =>
      rw [h1, h2] at hmap
      simp [Op.outcome, Op.run, Gen.tag, referenceScalar, hmap]

example : (Op.referenceScalar "Date").outcome
    { config := { scalarDefinitions := [("Date", "datetime.date"), ("Int", "decimal.Decimal")] } }
    (stateAfter { config := { scalarDefinitions := [("Date", "datetime.date"), ("Int", "decimal.Decimal")] } } [])
    = .ok (.expr (.name "date")) := by decide +kernel

/-- C08: a dotted Python type is importable: the name in the annotation is bound by the emitted imports, at
the end of any history, to the configured type. -/
theorem C08_annotation_is_imported (env : Env) (ops later : List Op) (s m n : String)
    (hcfg : (Dict.keys env.config.scalarDefinitions).Nodup)
    (hops : ∀ op ∈ ops, registersScalar s op = false)
    (hn : '.' ∉ n.toList)
    (hs : env.config.scalarDefinitions.get? s = some (m ++ "." ++ n))
    (order : List String) (inner : List String → List String)
    (ho : order.Perm (stateAfter env (ops ++ [.referenceScalar s] ++ later)).imports)
    (hin : ∀ l, (inner l).Perm l) :
    (Op.referenceScalar s).outcome env (stateAfter env ops) = .ok (.expr (.name n)) ∧
    (some m, n) ∈ binds (generateImports order inner) := by
  have hd : hasDot (m ++ "." ++ n) = true := by simp [hasDot]
  have hnd : hasDot n = false := by simpa [hasDot] using hn
  have hlast : lastComponent (m ++ "." ++ n) = n := ((dotted_iff _ m n).2 ⟨rfl, hnd⟩).2.2
  refine ⟨?_, ?_⟩
  · rw [C08_resolution env ops s hcfg hops, hs]
    simp only [hlast]
  · rw [C07_binds_exactly _ order inner ho hin]
    refine ⟨?_, hn⟩
    apply imports_monotone
    have hmap : (stateAfter env ops).scalarMap.get? s = some (m ++ "." ++ n) := by
      clear ho
      induction ops using list_snoc_induction with
      | h0 => simp [stateAfter, Reg.init, Dict.get?_merge _ _ _ hcfg, hs]
      | h1 ops op ih =>
        rw [stateAfter_snoc, scalarMap_step env _ op s (hops op (by simp))]
        exact ih (fun o ho => hops o (by simp [ho]))
    have hdot : (m ++ "." ++ n) ∉ neverImported := by
      intro hmem
      have h1 : ∀ s ∈ neverImported, hasDot s = false := by decide +kernel
      have h2 := h1 _ hmem
      rw [hd] at h2; cases h2
    rw [stateAfter_snoc]
    simp only [Op.step, Op.run, Gen.tag, referenceScalar, hmap, hd, if_true, registerImport]
    rw [if_neg (by simpa using hdot)]
    simp [mem_setAdd]

/-! ## C09 helper classes -/

/-- C09: in every history the helper section can be generated, and it defines exactly the helpers that
some successful call of the history needs, each name once — whatever the iteration order of the set.
Missing from the full property: "together with the imports their own definition needs", which is false, see
`C09_enum_import_missing_counterexample`. -/
theorem C09_helpers_exactly_used_partial (env : Env) (ops : List Op) (order : List String)
    (ho : order.Perm (stateAfter env ops).builtins) :
    ∃ stmts, generateBuiltins order = .ok stmts ∧ (definedNames stmts).Nodup ∧
      ∀ x, x ∈ definedNames stmts ↔
        ∃ op res b, (op, .ok res) ∈ trace env ops ∧ op.builtin? env = some b ∧ x ∈ helperNames b := by
  have hval : ∀ b ∈ order, b ∈ builtinNames := by
    intro b hb
    rw [ho.mem_iff, builtins_trace] at hb
    obtain ⟨op, x, _, hop⟩ := hb
    unfold Op.builtin? at hop
    split at hop
    · split at hop
      · rename_i hb; cases hop; simpa using hb
      · cases hop
    all_goals first
      | (split at hop <;> cases hop; decide)
      | cases hop
  have hnd : order.Nodup := ho.nodup_iff.2 (builtins_nodup env ops)
  have happ : ∀ a b, definedNames (a ++ b) = definedNames a ++ definedNames b := by
    intro a b
    induction a with
    | nil => rfl
    | cons s a ih =>
      cases s <;> simp [definedNames, ih]
      rename_i t v
      cases t <;> simp [definedNames, ih]
  have hone : ∀ b ∈ builtinNames, ∃ s, builtinStmts b = .ok s ∧ definedNames s = helperNames b := by
    intro b hb
    simp [builtinNames] at hb
    rcases hb with rfl | rfl | rfl | rfl | rfl <;> exact ⟨_, rfl, rfl⟩
  have hdisj : ∀ b ∈ builtinNames, ∀ b' ∈ builtinNames, b ≠ b' → ∀ x ∈ helperNames b, x ∉ helperNames b' := by
    decide +kernel
  have hself : ∀ b ∈ builtinNames, (helperNames b).Nodup := by decide +kernel
  have main : ∃ stmts, generateBuiltins order = .ok stmts ∧ (definedNames stmts).Nodup ∧
      ∀ x, x ∈ definedNames stmts ↔ ∃ b ∈ order, x ∈ helperNames b := by
    clear ho
    induction order with
    | nil => exact ⟨[], rfl, by simp [definedNames], by simp [definedNames]⟩
    | cons b order ih =>
      rw [List.nodup_cons] at hnd
      obtain ⟨st, h1, h2, h3⟩ := ih (fun b hb => hval b (by simp [hb])) hnd.2
      obtain ⟨s, hs1, hs2⟩ := hone b (hval b (by simp))
      refine ⟨s ++ st, by simp [generateBuiltins, hs1, h1], ?_, ?_⟩
      · rw [happ, hs2, List.nodup_append]
        refine ⟨hself b (hval b (by simp)), h2, ?_⟩
        intro x hx y hy e
        subst e
        obtain ⟨b', hb', hx'⟩ := (h3 x).1 hy
        exact hdisj b (hval b (by simp)) b' (hval b' (by simp [hb']))
          (by intro e; subst e; exact hnd.1 hb') x hx hx'
      · intro x
        rw [happ, hs2, List.mem_append, h3]
        simp
  obtain ⟨stmts, h1, h2, h3⟩ := main
  refine ⟨stmts, h1, h2, ?_⟩
  intro x
  rw [h3]
  constructor
  · rintro ⟨b, hb, hx⟩
    rw [ho.mem_iff, builtins_trace] at hb
    obtain ⟨op, res, h4, h5⟩ := hb
    exact ⟨op, res, b, h4, h5, hx⟩
  · rintro ⟨op, res, b, h4, h5, hx⟩
    refine ⟨b, ?_, hx⟩
    rw [ho.mem_iff, builtins_trace]
    exact ⟨op, res, h4, h5⟩

example : generateBuiltins (stateAfter {} [.referenceUnset, .referenceDeprecated, .referenceUnsetType]).builtins
    = .ok [.classDef "UnsetType" [] [.pass_] [], .assign (.name "UNSET") (.call (.name "UnsetType") [] []),
      .classDef "Deprecated" [] [.pass_] []] := rfl

/-- C09: the sentinel reference is the builtin name without override, and the override's last component
(imported) with one. -/
theorem C09_unset_override (env : Env) (r : Reg) :
    (Op.referenceUnset).outcome env r =
      .ok (.expr (.name (if env.config.unsetInstance.getD "" = "" then "UNSET"
        else lastComponent (env.config.unsetInstance.getD "")))) := by
  simp only [Op.outcome, Op.run, Gen.tag, referenceUnset, referenceMarker, registerBuiltin, registerImport]
  cases h : env.config.unsetInstance with
  | none => simp
  | some o =>
    by_cases ho : o = ""
    · simp [ho]
    · simp only [ho, if_false, Option.getD_some]
      by_cases hn : neverImported.contains o = true
      · simp only [hn, if_true]
      · simp only [hn, Bool.false_eq_true, if_false]

/-- Limit of C09: the helper enums derive from `Enum`, but referring to them does not import `enum.Enum`;
without `EnumsPlugin` the module uses an undefined name. -/
theorem C09_enum_import_missing_counterexample :
    let r := stateAfter {} [.reference .enum "__TypeKind" "Schema" true]
    r.builtins = ["__TypeKind"] ∧ binds (generateImports r.imports id) = [] ∧
    generateBuiltins r.builtins = .ok [strEnumClass "__TypeKind"
      ["OBJECT", "INTERFACE", "UNION", "ENUM", "INPUT_OBJECT"]] := by
  refine ⟨rfl, rfl, rfl⟩

/-- Limit of C09/C51: the helper enum for `__TypeKind` has no members `SCALAR`, `LIST` and `NON_NULL`,
although introspection results contain them. -/
theorem C09_type_kind_incomplete_counterexample :
    ∃ body, builtinStmts "__TypeKind" = .ok [.classDef "__TypeKind" [.name "str", .name "Enum"] body []] ∧
      "SCALAR" ∉ definedNames body ∧ "LIST" ∉ definedNames body ∧ "NON_NULL" ∉ definedNames body := by
  refine ⟨_, rfl, ?_, ?_, ?_⟩ <;> decide +kernel

end Turms.Props
