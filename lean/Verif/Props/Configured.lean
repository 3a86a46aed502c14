import Verif.Model.Validation
import Verif.Spec.Configured
import Verif.Props.Registry
import Verif.Lemmas.RegistryHistory
import Verif.Lemmas.Quiet
import Mathlib.Data.List.Forall2

/-! # C71: a configuration that is accepted gives modules whose configured names are bound -/

namespace Turms.Props
open Turms Turms.Spec

/-! ## the validators -/

theorem validatePythonType_iff {B : List String} {v : String} :
    (∃ x, validatePythonType B v = .ok x) ↔ KnownType B v := by
  unfold validatePythonType KnownType
  by_cases h1 : v ∈ B <;> by_cases h2 : '.' ∈ v.toList <;> simp [h1, h2]

theorem validateTypeMap_iff {B : List String} {d : Dict String} :
    validateTypeMap B d = .ok () ↔ ∀ p ∈ d, KnownType B p.2 := by
  induction d with
  | nil => simp [validateTypeMap]
  | cons p d ih =>
    obtain ⟨k, v⟩ := p
    unfold validateTypeMap
    have := validatePythonType_iff (B := B) (v := v)
    cases hv : validatePythonType B v with
    | error e => rw [hv] at this; simp at this; simp [this]
    | ok x => rw [hv] at this; simp at this; simp [this, ih]

theorem validateOptionalType_iff {B : List String} {o : Option String} :
    validateOptionalType B o = .ok () ↔ ∀ t, o = some t → KnownType B t := by
  cases o with
  | none => simp [validateOptionalType]
  | some v =>
    have := validatePythonType_iff (B := B) (v := v)
    unfold validateOptionalType
    cases hv : validatePythonType B v with
    | error e => rw [hv] at this; simp at this; simp [this, hv]
    | ok x => rw [hv] at this; simp at this; simp [this, hv]

theorem validateBaseList_iff {B : List String} {l : List String} :
    validateBaseList B l = .ok () ↔ ∀ t ∈ l, KnownType B t := by
  induction l with
  | nil => simp [validateBaseList]
  | cons v l ih =>
    unfold validateBaseList
    by_cases h1 : v ∈ B <;> by_cases h2 : '.' ∈ v.toList <;> simp [KnownType, h1, h2, ih]

theorem validateBases_iff {B : List String} {d : Dict (List String)} :
    validateBases B d = .ok () ↔ ∀ p ∈ d, ∀ t ∈ p.2, KnownType B t := by
  induction d with
  | nil => simp [validateBases]
  | cons p d ih =>
    obtain ⟨k, vs⟩ := p
    unfold validateBases
    have := validateBaseList_iff (B := B) (l := vs)
    cases hv : validateBaseList B vs with
    | error e =>
      rw [hv] at this
      simp only [reduceCtorEq, false_iff] at this ⊢
      exact fun h => this (h _ (List.mem_cons_self ..))
    | ok x =>
      rw [hv] at this
      simp only [true_iff] at this
      rw [ih]
      simp only [List.forall_mem_cons, this, implies_true, true_and]
      exact ⟨fun h => ⟨this, h⟩, fun h => h.2⟩

theorem validateUnset_iff {a b : Option String} : validateUnset a b = .ok () ↔ (a = none ↔ b = none) := by
  cases a <;> cases b <;> simp [validateUnset]

/-- C71: a configuration is accepted exactly if every Python type it names is a builtin or a path with a dot, and the
sentinel type and instance are replaced together. -/
theorem C71_accepted_iff (B : List String) (cfg : RegConfig) (bases : Dict (List String)) :
    validateNames B cfg bases = .ok () ↔ Configured B cfg bases := by
  unfold validateNames
  constructor
  · intro h
    split at h
    · cases h
    rename_i h1
    split at h
    · cases h
    rename_i h2
    split at h
    · cases h
    rename_i h3
    split at h
    · cases h
    rename_i h4
    split at h
    · cases h
    rename_i h5
    split at h
    · cases h
    rename_i h6
    exact ⟨validateTypeMap_iff.1 h1, validateOptionalType_iff.1 h2, validateOptionalType_iff.1 h3,
      validateOptionalType_iff.1 h4, validateOptionalType_iff.1 h5, validateBases_iff.1 h6, validateUnset_iff.1 h⟩
  · rintro ⟨h1, h2, h3, h4, h5, h6, h7⟩
    simp [validateTypeMap_iff.2 h1, validateOptionalType_iff.2 h2, validateOptionalType_iff.2 h3,
      validateOptionalType_iff.2 h4, validateOptionalType_iff.2 h5, validateBases_iff.2 h6, validateUnset_iff.2 h7]

/-- a configuration the theorems below apply to -/
def sampleConfig : RegConfig :=
  { scalarDefinitions := [("ID", "str"), ("Date", "datetime.date")], graphqlDefaultClass := some "lib.marks.Default",
    unsetTypeClass := some "lib.Unset", unsetInstance := some "lib.UNSET" }

example : validateNames ["str", "int", "object"] sampleConfig [("User", ["lib.mixins.Named", "object"])] = .ok () := by
  rw [C71_accepted_iff]
  refine ⟨?_, ?_, ?_, ?_, ?_, ?_, ?_⟩ <;>
    simp [sampleConfig, KnownType]

/-- C71: parsers, plugins, processors and stylers are accepted exactly if every one of them can be imported; otherwise
the error names the first that cannot. -/
theorem C71_importable {A : Type} (imports : String → Except Err A) (types : List String) :
    (validateImportable imports types = .ok () ↔ ∀ t ∈ types, ∃ a, imports t = .ok a) ∧
    ∀ e, validateImportable imports types = .error e →
      ∃ before t after x, types = before ++ t :: after ∧ e = .invalid t ∧ imports t = .error x ∧
        ∀ u ∈ before, ∃ a, imports u = .ok a := by
  induction types with
  | nil => simp [validateImportable]
  | cons t types ih =>
    unfold validateImportable
    cases ht : imports t with
    | error x =>
      refine ⟨by simp [ht], ?_⟩
      intro e he
      cases he
      exact ⟨[], t, types, x, rfl, rfl, ht, by simp⟩
    | ok a =>
      refine ⟨by simp [ht, ih.1], ?_⟩
      intro e he
      obtain ⟨before, u, after, x, rfl, h2, h3, h4⟩ := ih.2 e he
      refine ⟨t :: before, u, after, x, rfl, h2, h3, ?_⟩
      intro v hv
      rcases List.mem_cons.1 hv with rfl | hv
      · exact ⟨a, ht⟩
      · exact h4 v hv

example : validateImportable (fun t => if t = "a.B" then .ok () else .error (.importError t)) ["a.B", "c"] =
    .error (.invalid "c") := rfl

/-! ## the names in the module -/

theorem hasDot_iff {s : String} : hasDot s = true ↔ '.' ∈ s.toList := by simp [hasDot]

theorem never_no_dot : ∀ t ∈ neverImported, '.' ∉ t.toList := by
  intro t ht h
  have h1 : ∀ s ∈ neverImported, hasDot s = false := by decide +kernel
  have h2 := h1 t ht
  rw [hasDot_iff.2 h] at h2
  cases h2

/-- a registered path is bound by the imports of every later state -/
theorem bound_of_registered {env : Env} {ops later : List Op} {t : String}
    (ht : '.' ∈ t.toList) (hreg : t ∈ (stateAfter env ops).imports)
    {order : List String} {inner : List String → List String}
    (ho : order.Perm (stateAfter env (ops ++ later)).imports) (hin : ∀ l, (inner l).Perm l) :
    t = initComponents t ++ "." ++ lastComponent t ∧
      (some (initComponents t), lastComponent t) ∈ binds (generateImports order inner) := by
  obtain ⟨h1, h2⟩ := (dotted_iff t _ _).1 ⟨hasDot_iff.2 ht, rfl, rfl⟩
  refine ⟨h1, ?_⟩
  rw [C07_binds_exactly _ order inner ho hin]
  refine ⟨?_, by simpa [hasDot] using h2⟩
  rw [← h1]
  exact imports_monotone _ _ _ _ hreg

theorem registered_of_run {t : String} {r r' : Reg} (hd : '.' ∈ t.toList) (h : registerImport t r = .ok ((), r')) :
    t ∈ r'.imports := by
  rw [registerImport_ok h]
  split
  · rename_i hc
    exact absurd hd (never_no_dot t (by simpa using hc))
  · simp [mem_setAdd]

/-- C71: with an accepted configuration, wherever a configured scalar is used, the annotation is a name, and in the
finished module this name stands for the configured type. -/
theorem C71_scalars (B : List String) (hB : BuiltinNames B) (env : Env) (bases : Dict (List String))
    (hacc : validateNames B env.config bases = .ok ())
    (hcfg : (Dict.keys env.config.scalarDefinitions).Nodup)
    (ops later : List Op) (s t : String) (hops : ∀ op ∈ ops, registersScalar s op = false)
    (hs : env.config.scalarDefinitions.get? s = some t)
    (order : List String) (inner : List String → List String)
    (ho : order.Perm (stateAfter env (ops ++ [.referenceScalar s] ++ later)).imports)
    (hin : ∀ l, (inner l).Perm l) :
    ∃ n, (Op.referenceScalar s).outcome env (stateAfter env ops) = .ok (.expr (.name n)) ∧
      StandsFor B (generateImports order inner) t n := by
  have hk := ((C71_accepted_iff B env.config bases).1 hacc).scalars _ (Dict.mem_of_get? hs)
  by_cases hd : '.' ∈ t.toList
  · obtain ⟨h1, h2⟩ := (dotted_iff t _ _).1 ⟨hasDot_iff.2 hd, rfl, rfl⟩
    have hn : '.' ∉ (lastComponent t).toList := by simpa [hasDot] using h2
    obtain ⟨h3, h4⟩ := C08_annotation_is_imported env ops later s (initComponents t) (lastComponent t) hcfg hops hn
      (by rw [hs, ← h1]) order inner ho hin
    exact ⟨_, h3, .imported _ h1 h4⟩
  · have hb : t ∈ B := hk.resolve_right hd
    refine ⟨t, ?_, .builtin hb rfl⟩
    rw [C08_resolution env ops s hcfg hops, hs]
    simp only
    rw [lastComponent_of_no_dot t (by simpa [hasDot] using hd)]

/-- the hypotheses are met: two scalars of `sampleConfig`, one builtin and one imported, after other calls -/
example : BuiltinNames ["str", "int", "object"] ∧ (Dict.keys sampleConfig.scalarDefinitions).Nodup ∧
    sampleConfig.scalarDefinitions.get? "Date" = some "datetime.date" ∧
    binds (generateImports (stateAfter { config := sampleConfig }
      ([.referenceScalar "ID", .referenceUnset] ++ [.referenceScalar "Date"] ++ [.referenceUnsetType])).imports id) =
      [(some "lib", "UNSET"), (some "lib", "Unset"), (some "datetime", "date")] := by
  unfold BuiltinNames
  decide +kernel

theorem run_helper {env : Env} {op : Op} {o : Option String} {helper : String}
    (hm : helperOf env.config op = some (o, helper)) :
    ∃ b, helper ∈ helperNames b ∧ op.run env = (referenceMarker o b helper).tag .expr ∧
      op.builtin? env = (if o.getD "" = "" then some b else none) := by
  cases op <;> simp only [helperOf, Option.some.injEq, Prod.mk.injEq, reduceCtorEq] at hm <;>
    obtain ⟨rfl, rfl⟩ := hm
  · exact ⟨"UNSET", by decide +kernel, rfl, rfl⟩
  · exact ⟨"UNSET", by decide +kernel, rfl, rfl⟩
  · exact ⟨"GraphQLDefault", by decide +kernel, rfl, rfl⟩
  · exact ⟨"Deprecated", by decide +kernel, rfl, rfl⟩

theorem mem_traceFrom (env : Env) (r : Reg) (ops : List Op) (op : Op) (later : List Op) :
    (op, op.outcome env (ops.foldl (Op.step env) r)) ∈ traceFrom env r (ops ++ op :: later) := by
  induction ops generalizing r with
  | nil => exact List.mem_cons_self ..
  | cons o ops ih => exact List.mem_cons_of_mem _ (ih _)

/-- C71: with an accepted configuration, every use of a replaceable helper (the UNSET sentinel and its type, the
markers for defaults and deprecations) is a name; in the finished module it is the generated helper if no replacement
is configured, and stands for the replacement otherwise. -/
theorem C71_helpers (B : List String) (hB : BuiltinNames B) (env : Env) (bases : Dict (List String))
    (hacc : validateNames B env.config bases = .ok ())
    (ops later : List Op) (op : Op) (o : Option String) (helper : String)
    (hm : helperOf env.config op = some (o, helper))
    (order border : List String) (inner : List String → List String)
    (ho : order.Perm (stateAfter env (ops ++ [op] ++ later)).imports)
    (hbo : border.Perm (stateAfter env (ops ++ [op] ++ later)).builtins)
    (hin : ∀ l, (inner l).Perm l) :
    ∃ n helpers, op.outcome env (stateAfter env ops) = .ok (.expr (.name n)) ∧
      generateBuiltins border = .ok helpers ∧
      (o = none → n = helper ∧ n ∈ definedNames helpers) ∧
      (∀ t, o = some t → StandsFor B (generateImports order inner) t n) := by
  have hk : ∀ t, o = some t → KnownType B t := by
    have h := (C71_accepted_iff B env.config bases).1 hacc
    cases op <;> simp only [helperOf, Option.some.injEq, Prod.mk.injEq, reduceCtorEq] at hm <;>
      obtain ⟨rfl, _⟩ := hm
    · exact h.unsetInstance
    · exact h.unsetType
    · exact h.graphqlDefault
    · exact h.deprecated
  obtain ⟨b, hb, hrun, hbu⟩ := run_helper hm
  obtain ⟨helpers, hg, _, hdef⟩ := C09_helpers_exactly_used_partial env (ops ++ [op] ++ later) border hbo
  have htr := mem_traceFrom env (Reg.init env) ops op later
  rw [show ops ++ op :: later = ops ++ [op] ++ later by simp] at htr
  change (op, op.outcome env (stateAfter env ops)) ∈ trace env (ops ++ [op] ++ later) at htr
  cases o with
  | none =>
    have hout : op.outcome env (stateAfter env ops) = .ok (.expr (.name helper)) := by
      simp [Op.outcome, hrun, Gen.tag, referenceMarker, registerBuiltin]
    refine ⟨helper, helpers, hout, hg, fun _ => ⟨rfl, ?_⟩, by simp⟩
    rw [hdef]
    exact ⟨op, _, b, hout ▸ htr, by rw [hbu]; rfl, hb⟩
  | some t =>
    have hkt := hk t rfl
    have hne : t ≠ "" := by
      rintro rfl
      rcases hkt with h | h
      · exact (hB _ h).1 rfl
      · simp at h
    obtain ⟨x, hx⟩ : ∃ x, registerImport t (stateAfter env ops) = .ok ((), x) := by
      unfold registerImport; split <;> exact ⟨_, rfl⟩
    have hmk : op.run env (stateAfter env ops) = .ok (.expr (.name (lastComponent t)), x) := by
      simp [hrun, Gen.tag, referenceMarker, hne, hx]
    refine ⟨lastComponent t, helpers, by simp [Op.outcome, hmk], hg, by simp, ?_⟩
    intro t' e
    obtain rfl : t = t' := Option.some.inj e
    by_cases hd : '.' ∈ t.toList
    · have hreg : t ∈ (stateAfter env (ops ++ [op])).imports := by
        rw [stateAfter_snoc]
        simp only [Op.step, hmk]
        exact registered_of_run hd hx
      obtain ⟨h1, h2⟩ := bound_of_registered (later := later) hd hreg ho hin
      exact .imported _ h1 h2
    · exact .builtin (hkt.resolve_right hd) (lastComponent_of_no_dot t (by simpa [hasDot] using hd))

/-- the hypotheses are met with and without a replacement -/
example : helperOf sampleConfig .referenceUnset = some (some "lib.UNSET", "UNSET") ∧
    helperOf sampleConfig .referenceDeprecated = some (none, "Deprecated") := ⟨rfl, rfl⟩

/-- C71: with an accepted configuration the sentinel and its type come from the same place: both are the generated
ones, or both are configured. -/
theorem C71_sentinel_pair (B : List String) (hB : BuiltinNames B) (env : Env) (bases : Dict (List String))
    (hacc : validateNames B env.config bases = .ok ()) (r : Reg) :
    ((Op.referenceUnset).outcome env r = .ok (.expr (.name "UNSET")) ∧
      (Op.referenceUnsetType).outcome env r = .ok (.expr (.name "UnsetType")) ∧
      env.config.unsetInstance = none ∧ env.config.unsetTypeClass = none) ∨
    ∃ i t, env.config.unsetInstance = some i ∧ env.config.unsetTypeClass = some t ∧
      (Op.referenceUnset).outcome env r = .ok (.expr (.name (lastComponent i))) ∧
      (Op.referenceUnsetType).outcome env r = .ok (.expr (.name (lastComponent t))) ∧
      (Op.referenceUnset).builtin? env = none ∧ (Op.referenceUnsetType).builtin? env = none := by
  have h := (C71_accepted_iff B env.config bases).1 hacc
  have hne : ∀ t, KnownType B t → t ≠ "" := by
    rintro t hk rfl
    rcases hk with h | h
    · exact (hB _ h).1 rfl
    · simp at h
  have hrun : ∀ (t : String) (b l : String), t ≠ "" →
      ∃ r', referenceMarker (some t) b l r = .ok (.name (lastComponent t), r') := by
    intro t b l ht
    unfold referenceMarker registerImport
    simp only [ht, if_false]
    split
    · rename_i h2; split at h2 <;> cases h2
    · exact ⟨_, rfl⟩
  cases hi : env.config.unsetInstance with
  | none =>
    have ht := h.together.2 hi
    left
    refine ⟨?_, ?_, rfl, ht⟩ <;>
      simp [Op.outcome, Op.run, Gen.tag, referenceUnset, referenceUnsetType, referenceMarker, registerBuiltin, hi, ht]
  | some i =>
    cases ht : env.config.unsetTypeClass with
    | none => rw [h.together.1 ht] at hi; cases hi
    | some t =>
      right
      have hi' := hne i (h.unsetInstance i hi)
      have ht' := hne t (h.unsetType t ht)
      obtain ⟨r1, h1⟩ := hrun i "UNSET" "UNSET" hi'
      obtain ⟨r2, h2⟩ := hrun t "UNSET" "UnsetType" ht'
      refine ⟨i, t, rfl, rfl, ?_, ?_, ?_, ?_⟩
      · simp [Op.outcome, Op.run, Gen.tag, referenceUnset, hi, h1]
      · simp [Op.outcome, Op.run, Gen.tag, referenceUnsetType, ht, h2]
      · simp [Op.builtin?, hi, hi']
      · simp [Op.builtin?, ht, ht']

theorem registerImports_mem {l : List String} {r r' : Reg} (h : registerImports l r = .ok ((), r')) {t : String}
    (ht : t ∈ l ∨ t ∈ r.imports) (hd : '.' ∈ t.toList) : t ∈ r'.imports := by
  induction l generalizing r with
  | nil =>
    obtain ⟨_, rfl⟩ := Gen.pure_ok.1 h
    simpa using ht
  | cons b l ih =>
    obtain ⟨_, r1, h1, h2⟩ := Gen.bind_ok.1 h
    refine ih h2 ?_
    rcases ht with ht | ht
    · rcases List.mem_cons.1 ht with rfl | ht
      · exact .inr (registered_of_run hd h1)
      · exact .inl ht
    · right
      rw [registerImport_ok h1]
      split
      · exact ht
      · simp [mem_setAdd, ht]

/-- C71: with an accepted configuration, the additional bases of a type are the configured ones, in order; each is
written as a name that stands for it in every module whose import set contains what was registered. -/
theorem C71_bases (B : List String) (c : Ctx)
    (hacc : validateNames B c.env.config c.config.additionalBases = .ok ()) (typename : String)
    (r r' : Reg) (out : List Expr) (h : additionalBasesFor c typename r = .ok (out, r'))
    (imports order : List String) (inner : List String → List String)
    (hi : ∀ t ∈ r'.imports, t ∈ imports) (ho : order.Perm imports) (hin : ∀ l, (inner l).Perm l) :
    List.Forall₂ (fun e t => ∃ n, e = Expr.name n ∧ StandsFor B (generateImports order inner) t n)
      out ((c.config.additionalBases.get? typename).getD []) := by
  unfold additionalBasesFor at h
  cases hb : c.config.additionalBases.get? typename with
  | none =>
    rw [hb] at h
    obtain ⟨rfl, _⟩ := Gen.pure_ok.1 h
    exact .nil
  | some bs =>
    rw [hb] at h
    obtain ⟨_, r1, h1, h2⟩ := Gen.bind_ok.1 h
    obtain ⟨rfl, rfl⟩ := Gen.pure_ok.1 h2
    have hk := ((C71_accepted_iff B _ _).1 hacc).bases _ (Dict.mem_of_get? hb)
    simp only [Option.getD_some, baseNames, List.forall₂_map_left_iff]
    rw [List.forall₂_same]
    intro t ht
    refine ⟨_, rfl, ?_⟩
    by_cases hd : '.' ∈ t.toList
    · obtain ⟨e1, e2⟩ := (dotted_iff t _ _).1 ⟨hasDot_iff.2 hd, rfl, rfl⟩
      refine .imported (initComponents t) e1 ?_
      rw [C07_binds_exactly _ order inner ho hin]
      refine ⟨?_, by simpa [hasDot] using e2⟩
      rw [← e1]
      exact hi _ (registerImports_mem h1 (.inl ht) hd)
    · exact .builtin ((hk t ht).resolve_right hd) (lastComponent_of_no_dot t (by simpa [hasDot] using hd))

/-- the hypotheses are met: a path and a builtin as bases of `User` -/
example : (additionalBasesFor { schema := { types := [] }, config := { additionalBases := [("User", ["lib.mixins.Named", "str"])] } } "User"
      (Reg.init {})).toOption.map (fun x => (x.1, x.2.imports)) =
    some ([.name "Named", .name "str"], ["lib.mixins.Named"]) := by decide +kernel

/-! ## limits -/

/-- C71 fails for the other builtins: `object` as a base or a marker is accepted like every builtin, but only seven
builtins are exempt from imports. For all others the module contains `import object`, which fails when it is
executed. -/
theorem C71_builtin_import_counterexample (B : List String) (b : String) (hB : b ∈ B) (hd : '.' ∉ b.toList)
    (hb : b ∉ ["bool", "str", "int", "float", "dict", "list", "tuple"]) (hne : b ≠ "")
    (env : Env) (hcfg : env.config = { graphqlDefaultClass := some b })
    (ops later : List Op) (order : List String) (inner : List String → List String)
    (ho : order.Perm (stateAfter env (ops ++ [.referenceGraphqlDefault] ++ later)).imports)
    (hin : ∀ l, (inner l).Perm l) :
    validateNames B env.config [] = .ok () ∧ (none, b) ∈ binds (generateImports order inner) := by
  constructor
  · rw [C71_accepted_iff, hcfg]
    refine ⟨?_, ?_, ?_, ?_, ?_, ?_, ?_⟩ <;> simp [KnownType, hB]
  · rw [C07_binds_exactly _ order inner ho hin]
    refine ⟨imports_monotone _ _ _ _ ?_, hd⟩
    rw [stateAfter_snoc]
    have hn : neverImported.contains b = false := by
      cases h : neverImported.contains b
      · rfl
      · exact absurd (by simpa [neverImported] using h) (by simpa using hb)
    simp only [Op.step, Op.run, Gen.tag, referenceGraphqlDefault, referenceMarker, hcfg, registerImport, hn]
    simp [hne, mem_setAdd]

example : "object" ∉ ["bool", "str", "int", "float", "dict", "list", "tuple"] ∧ '.' ∉ "object".toList := by
  decide +kernel

/-- C71 fails for malformed paths: a path that ends in a dot is accepted, and the module then contains
`from m import ` with nothing behind it. -/
theorem C71_malformed_path_counterexample (B : List String) (m s : String)
    (env : Env) (hcfg : env.config = { scalarDefinitions := [(s, m ++ ".")] })
    (order : List String) (inner : List String → List String)
    (ho : order.Perm (stateAfter env [.referenceScalar s]).imports) (hin : ∀ l, (inner l).Perm l) :
    validateNames B env.config [] = .ok () ∧ (some m, "") ∈ binds (generateImports order inner) := by
  constructor
  · rw [C71_accepted_iff, hcfg]
    refine ⟨?_, ?_, ?_, ?_, ?_, ?_, ?_⟩ <;> simp [KnownType]
  · have := (C08_annotation_is_imported env [] [] s m "" (by rw [hcfg]; simp [Dict.keys]) (by simp) (by simp)
      (by rw [hcfg]; simp [Dict.get?]) order inner (by simpa using ho) hin).2
    exact this

end Turms.Props
