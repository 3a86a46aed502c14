import Verif.Lemmas.Config
import Verif.Model.Operations

/-!
# C26, C27, C56: class configuration and field documentation
-/

namespace Turms.Props
open Turms Turms.Spec

/-- the body of a class statement -/
def classBody : Stmt → List Stmt
  | .classDef _ _ body _ => body
  | _ => []

/-- the settings a class of kind `g` for type `tn` is supposed to carry -/
def Wanted (c : Ctx) (g : GQLType) (tn : String) (k : String) (e : Expr) : Prop :=
  (k = "frozen" ∧ e = .const (.bool true) ∧
    Selects c.config.freeze.enabled c.config.freeze.types c.config.freeze.exclude c.config.freeze.include_ g (some tn)) ∨
  (OptionSets (populationKey c.env.config.pydanticV2) c.config.options k e ∧
    Selects c.config.options.enabled c.config.options.types c.config.options.exclude c.config.options.include_ g (some tn)) ∨
  (∃ l v, c.config.additionalConfig.get? tn = some l ∧ (k, v) ∈ l ∧ e = v.expr)

/-- C26 for the settings block itself, any kind and any type name: frozen exactly when selected, each option
exactly when selected and set (with the configured value), additional entries always, nothing else. -/
theorem C26_settings_exact (c : Ctx) (g : GQLType) (tn : String) (hne : tn ≠ "") (ss : List Stmt) (r r' : Reg)
    (h : generatePydanticConfig c g (some tn) r = .ok (ss, r')) (k : String) (e : Expr) :
    (k, e) ∈ settings ss ↔ Wanted c g tn k e := by
  rw [(generatePydanticConfig_settings h).1, mem_entries, Wanted]
  simp [hne]

/-- C26 for the class generated for an input type (plain or member of a discriminated union). -/
theorem C26_input_class (c : Ctx) (p : InputsConfig) (name tn : String) (hne : tn ≠ "") (desc : Option String)
    (fields : List InputFieldDef) (ds : List Discriminator) (s : Stmt) (r r' : Reg)
    (h : generateInputType c p name tn desc fields ds r = .ok (s, r')) (k : String) (e : Expr) :
    (k, e) ∈ settings (classBody s) ↔ Wanted c .input tn k e := by
  obtain ⟨bases, body, cfg, r1, rfl, hb, hc⟩ := generateInputType_ok h
  simp only [classBody, settings_append, hb, List.nil_append]
  exact C26_settings_exact c .input tn hne cfg _ _ hc k e

/-- C26 for the class generated for an object or interface type: unless the type is skipped, exactly one
class is appended and it carries exactly the wanted settings. -/
theorem C26_object_class (c : Ctx) (p : ObjectsConfig) (t : CompositeType) (hne : t.name ≠ "")
    (acc acc' : ObjAcc) (r r' : Reg) (h : objectStep c p t acc r = .ok (acc', r'))
    (hskip : acc' ≠ acc) : ∃ s, acc'.tree = acc.tree ++ [s] ∧
      ∀ k e, (k, e) ∈ settings (classBody s) ↔ Wanted c .object t.name k e := by
  rcases objectStep_ok h with ⟨h1, _⟩ | ⟨cn, extra, bs, body, cfg, r1, r2, r3, r4, _, _, _, _, _, ht, hb, hc⟩
  · exact absurd h1 hskip
  · refine ⟨_, ht, fun k e => ?_⟩
    simp only [classBody, settings_append, hb, List.nil_append]
    exact C26_settings_exact c .object t.name hne cfg _ _ hc k e

/-- a frozen, option-carrying configuration with one excluded type -/
def demoConfig : GenConfig :=
  { freeze := { enabled := true, exclude := some ["Open"] },
    options := { enabled := true, extra := some "forbid", allowPopulationByFieldName := some true,
                 include_ := some ["Filter"] },
    additionalConfig := [("Open", [("title", .str "t")])] }

example : (generatePydanticConfig { schema := ⟨[], none, none, none⟩, config := demoConfig } .input
      (some "Filter") {}).toOption.map (fun x => settings x.1) =
    some [("frozen", .const (.bool true)), ("extra", .str "forbid"),
      ("populate_by_name", .const (.bool true))] := by decide +kernel

example : (generatePydanticConfig { schema := ⟨[], none, none, none⟩, config := demoConfig } .input
      (some "Open") {}).toOption.map (fun x => settings x.1) = some [("title", .str "t")] := by decide +kernel

/-- C26, negative: a type without a name never matches an include list (this is what fragment classes and
nested selection classes are called with, see `turms/plugins/fragments.py` and `turms/recurse.py`). -/
theorem C26_unnamed_class (c : Ctx) (g : GQLType) (ss : List Stmt) (r r' : Reg) (l : List String) (hl : l ≠ [])
    (hi : c.config.freeze.include_ = some l)
    (ho : c.config.options.enabled = false)
    (h : generatePydanticConfig c g none r = .ok (ss, r')) : settings ss = [] := by
  have key : ∀ k e, (k, e) ∉ settings ss := by
    intro k e hk
    rw [(generatePydanticConfig_settings h).1, mem_entries] at hk
    rcases hk with ⟨_, _, h1⟩ | ⟨_, h1⟩ | ⟨t, _, _, h1, _⟩
    · obtain ⟨t, ht, _⟩ := h1.2.2.2 l hi hl
      cases ht
    · have := h1.1
      rw [ho] at this
      cases this
    · cases h1
  cases hs : settings ss with
  | nil => rfl
  | cons x xs => exact absurd (by rw [hs]; simp) (key x.1 x.2)

/-- C26 counterexample: an `additional_config` entry that repeats a block setting yields a call with a
repeated keyword, which Python rejects as a syntax error. -/
theorem C26_duplicate_setting_counterexample :
    (generatePydanticConfig
      ⟨{}, ⟨[], none, none, none⟩,
        { freeze := { enabled := true }, additionalConfig := [("A", [("frozen", .bool false)])] }⟩
      .input (some "A") {}).toOption.map (fun x => (settings x.1).map (·.1)) =
    some ["frozen", "frozen"] := by decide +kernel

/-! ## C27 -/

/-- the documented renaming -/
def renameSetting (p : String × Expr) : String × Expr :=
  (if p.1 = "allow_population_by_field_name" then "populate_by_name" else p.1, p.2)

/-- the entries the user lists for a type under `additional_config` (a class without a type name has none) -/
def userSettings (config : GenConfig) (tn : Option String) : List (String × Expr) :=
  match tn with
  | none => []
  | some t => if t = "" then [] else ((config.additionalConfig.get? t).getD []).map fun p => (p.1, p.2.expr)

/-- C27: for every configuration the v1 class and the v2 dictionary carry the same settings, in the same
order, and one is absent exactly when the other is.  The settings turms derives from its options are the same
up to the renaming; the entries of `additional_config` come after them and are passed through unchanged in both. -/
theorem C27_versions_agree (s : Schema) (config : GenConfig) (stylers : List Styler) (rc : RegConfig) (g : GQLType)
    (tn : Option String) (r r1 r2 : Reg) (v1 v2 : List Stmt)
    (h1 : generatePydanticConfig ⟨⟨{ rc with pydanticV2 := false }, stylers⟩, s, config⟩ g tn r = .ok (v1, r1))
    (h2 : generatePydanticConfig ⟨⟨{ rc with pydanticV2 := true }, stylers⟩, s, config⟩ g tn r = .ok (v2, r2)) :
    (∃ derived, settings v1 = derived ++ userSettings config tn ∧
      settings v2 = derived.map renameSetting ++ userSettings config tn) ∧ (v1 = [] ↔ v2 = []) := by
  have e1 := generatePydanticConfig_settings h1
  have e2 := generatePydanticConfig_settings h2
  simp only [if_true, Bool.false_eq_true, if_false] at e1 e2
  have hopt : ∀ n o, n ≠ "allow_population_by_field_name" → (optEntry n o).map renameSetting = optEntry n o := by
    intro n o hn
    unfold optEntry
    cases o <;> simp [renameSetting, hn]
  have hopt2 : ∀ o, (optEntry "allow_population_by_field_name" o).map renameSetting =
      optEntry "populate_by_name" o := by
    intro o
    unfold optEntry
    cases o <;> simp [renameSetting]
  have hx : ∀ o, (extraEntry o).map renameSetting = extraEntry o := by
    intro o
    unfold extraEntry
    cases o <;> simp [renameSetting]
  have ha : additionalEntries config tn = userSettings config tn := by
    unfold additionalEntries userSettings
    cases tn with
    | none => rfl
    | some t =>
      by_cases ht : t = ""
      · subst ht; rfl
      · simp [truthy, ht]
  have hmain : ∃ derived, configClassEntries config g tn = derived ++ userSettings config tn ∧
      configDictEntries config g tn = derived.map renameSetting ++ userSettings config tn := by
    refine ⟨_, by simp only [configClassEntries, ha]; rfl, ?_⟩
    simp only [configDictEntries, List.map_append, ha]
    congr 2
    · split <;> simp [renameSetting]
    · split
      · simp only [List.map_append, hx, hopt2]
        rw [hopt _ _ (by decide), hopt _ _ (by decide), hopt _ _ (by decide), hopt _ _ (by decide)]
      · rfl
  obtain ⟨d, q1, q2⟩ := hmain
  refine ⟨⟨d, by rw [e1.1, q1], by rw [e2.1, q2]⟩, ?_⟩
  rw [e1.2, e2.2, e1.1, e2.1, q1, q2]
  simp

example : ∃ r, generatePydanticConfig ⟨⟨{ pydanticV2 := false }, []⟩, ⟨[], none, none, none⟩, demoConfig⟩ .input
      (some "Filter") {} =
    .ok ([.classDef "Config" [] [.expr (.str "A config class"), .assign (.name "frozen") (.const (.bool true)),
      .assign (.name "extra") (.str "forbid"),
      .assign (.name "allow_population_by_field_name") (.const (.bool true))] []], r) := ⟨_, rfl⟩

/-- C27, disagreement found: the v2 dictionary still uses the v1-only names `orm_mode` and `allow_mutation`,
which pydantic v2 does not know (there they are `from_attributes` and `frozen`). -/
theorem C27_v1_names_in_v2_counterexample :
    (generatePydanticConfig
      ⟨{}, ⟨[], none, none, none⟩,
        { options := { enabled := true, ormMode := some true, allowMutation := some false } }⟩
      .input (some "A") {}).toOption.map (fun x => (settings x.1).map (·.1)) =
    some ["allow_mutation", "orm_mode"] := by decide +kernel

/-- C27, disagreement found: the `Arguments` class of an operation does not follow the configured version; also for
pydantic v1 it ends in a v2 dictionary. -/
theorem C27_arguments_counterexample {c : Ctx} {p : OperationsConfig} {o : OpDef} {name : String} {r r' : Reg}
    {ss : List Stmt} (hp : p.createArguments = true) (h : argumentsClass c p o name r = .ok (ss, r')) :
    ∃ bases body, ss = [.classDef "Arguments" bases (body ++
      [.assign (.name "model_config") (.call (.name "ConfigDict") []
        [(some "populate_by_name", optBoolConst c.config.options.allowPopulationByFieldName)])]) []] := by
  rw [argumentsClass, if_pos hp] at h
  obtain ⟨body, r1, _, h⟩ := Gen.bind_ok.1 h
  obtain ⟨cfg, r2, hc, h⟩ := Gen.bind_ok.1 h
  obtain ⟨bases, r3, hb, h⟩ := Gen.bind_ok.1 h
  obtain ⟨rfl, rfl⟩ := Gen.pure_ok.1 h
  rw [argumentsConfig] at hc
  obtain ⟨_, r4, hi, hc⟩ := Gen.bind_ok.1 hc
  obtain ⟨rfl, rfl⟩ := Gen.pure_ok.1 hc
  exact ⟨bases, .expr (.str ("Arguments for " ++ name ++ " ")) :: body, by simp⟩

/-- with pydantic v1 -/
example : ∃ ss r, argumentsClass ⟨⟨{ pydanticV2 := false }, []⟩, ⟨[], none, none, none⟩, {}⟩ {} ⟨.query, some "Q", [], []⟩ "Q"
    (Reg.init {}) = .ok (ss, r) := ⟨_, _, rfl⟩

/-! ## C56 -/

/-- C56: the documentation text starts with the description, contains `DEPRECATED: reason` when the field is
deprecated (and metadata is on), and is nothing but the description when there is neither a deprecation nor a
default. -/
theorem C56_documentation (description deprecation default_ : Option String) (metadata : Bool) :
    (∀ d, description = some d → d ≠ "" →
      ∃ text, composeFieldDocumentation description deprecation default_ metadata = some text ∧
        d.toList <+: text.toList) ∧
    (∀ reason, deprecation = some reason → reason ≠ "" → metadata = true →
      ∃ text, composeFieldDocumentation description deprecation default_ metadata = some text ∧
        ("DEPRECATED: " ++ reason).toList <:+: text.toList) ∧
    (metadata = false ∨ (deprecation = none ∧ default_ = none) →
      composeFieldDocumentation description deprecation default_ metadata =
        if description = some "" then none else description) := by
  refine ⟨?_, ?_, ?_⟩
  · rintro d rfl hd
    cases metadata
    · exact ⟨d, by simp [composeFieldDocumentation, truthy, hd], List.prefix_refl _⟩
    · rcases deprecation with _ | r
      · cases default_ <;> simp [composeFieldDocumentation, truthy, hd]
      · by_cases hr : r = "" <;> cases default_ <;>
          simp [composeFieldDocumentation, truthy, hd, hr]
  · rintro reason rfl hd rfl
    rcases description with _ | d
    · cases default_ <;> simp [composeFieldDocumentation, truthy, hd]
      refine List.IsPrefix.isInfix ⟨_, rfl⟩
    · by_cases hr : d = "" <;> cases default_ <;>
        simp [composeFieldDocumentation, truthy, hd, hr]
      · exact List.IsPrefix.isInfix ⟨_, rfl⟩
      · exact ⟨d.toList ++ ['\n'], [], by simp⟩
      · exact ⟨d.toList ++ ['\n'], _, by simp; rfl⟩
  · intro h
    rcases description with _ | d
    · rcases h with rfl | ⟨rfl, rfl⟩
      · simp [composeFieldDocumentation, truthy]
      · cases metadata <;> simp [composeFieldDocumentation, truthy]
    · by_cases hd : d = ""
      · rcases h with rfl | ⟨rfl, rfl⟩
        · simp [composeFieldDocumentation, truthy, hd]
        · cases metadata <;> simp [composeFieldDocumentation, truthy, hd]
      · rcases h with rfl | ⟨rfl, rfl⟩
        · simp [composeFieldDocumentation, truthy, hd]
        · cases metadata
          · simp [composeFieldDocumentation, truthy, hd]
          · simp [composeFieldDocumentation, truthy, hd]

example : composeFieldDocumentation (some "The name") (some "use id") (some "3") true =
    some "The name\nDEPRECATED: use id\nDefault: 3" := by decide +kernel

/-- the class a configured or built-in marker is called by -/
def markerName (override : Option String) (builtin : String) : String :=
  if override.getD "" = "" then builtin else lastComponent (override.getD "")

/-- C56: the annotation of a field carries a `Deprecated(reason)` marker exactly when the field is deprecated
and a `GraphQLDefault(value)` marker exactly when there is a default to report; it is otherwise unchanged and
accepts the same values. -/
theorem C56_annotation_markers (W : World) (env : Env) (a e : Expr) (d : Option Expr) (dep : Option String)
    (r r' : Reg) (h : annotateFieldMetadata env a d dep r = .ok (e, r')) :
    (∃ ms, ms = (d.map fun x => Expr.call (.name (markerName env.config.graphqlDefaultClass "GraphQLDefault")) [x] []).toList ++
        (dep.map fun s => Expr.call (.name (markerName env.config.deprecatedClass "Deprecated")) [.str s] []).toList ∧
      e = if ms = [] then a else .subscript (.name "Annotated") (.tuple (a :: ms))) ∧
    ∀ v, Accepts W e v ↔ Accepts W a v := by
  refine ⟨?_, (annotateFieldMetadata_ok h).2⟩
  unfold annotateFieldMetadata at h
  obtain ⟨m1, r1, h1, h⟩ := Gen.bind_ok.1 h
  obtain ⟨m2, r2, h2, h⟩ := Gen.bind_ok.1 h
  have hm : ∀ {o : Option String} {b l : String} {x : Option Expr} {m : List Expr} {r r' : Reg},
      markerCall (referenceMarker o b l) x r = .ok (m, r') →
      m = (x.map fun y => Expr.call (.name (markerName o l)) [y] []).toList := by
    intro o b l x m r r' hh
    unfold markerCall at hh
    cases x with
    | none => obtain ⟨rfl, rfl⟩ := Gen.pure_ok.1 hh; rfl
    | some y =>
      obtain ⟨f, r1, hf, hh⟩ := Gen.bind_ok.1 hh
      obtain ⟨rfl, rfl⟩ := Gen.pure_ok.1 hh
      rw [referenceMarker_name hf]
      rfl
  have e1 := hm h1
  have e2 := hm h2
  refine ⟨m1 ++ m2, by rw [e1, e2]; cases dep <;> rfl, ?_⟩
  by_cases hem : (m1 ++ m2).isEmpty
  · rw [if_pos hem] at h
    obtain ⟨rfl, rfl⟩ := Gen.pure_ok.1 h
    rw [List.isEmpty_iff] at hem
    rw [if_pos hem]
  · rw [if_neg hem] at h
    obtain ⟨_, r3, h3, h⟩ := Gen.bind_ok.1 h
    obtain ⟨rfl, rfl⟩ := Gen.pure_ok.1 h
    rw [List.isEmpty_iff] at hem
    rw [if_neg hem]
    rfl

example : (annotateFieldMetadata {} (.name "int") none (some "old") {}).toOption.map (·.1) =
    some (sub "Annotated" (.tuple [.name "int", .call (.name "Deprecated") [.str "old"] []])) := by
  decide +kernel

/-- C56 for whole field declarations of object models: with documentation metadata on, a comment containing
the reason follows the declaration of every deprecated field, and no comment is emitted for a field with
neither description nor deprecation. -/
theorem C56_object_field_comment (c : Ctx) (cls : String) (f : FieldDef) (ss : List Stmt) (r r' : Reg)
    (hm : c.config.documentFieldMetadata = true) (h : objectFieldStmts c cls f r = .ok (ss, r')) :
    (∀ reason, f.deprecation = some reason → reason ≠ "" → ∃ decl text, ss = [decl, .expr (.str text)] ∧
      ("DEPRECATED: " ++ reason).toList <:+: text.toList) ∧
    (f.deprecation = none → f.description = none → ∃ decl, ss = [decl]) := by
  unfold objectFieldStmts at h
  obtain ⟨attr, r1, h1, h⟩ := Gen.bind_ok.1 h
  obtain ⟨a, r2, h2, h⟩ := Gen.bind_ok.1 h
  obtain ⟨a', r3, h3, h⟩ := Gen.bind_ok.1 h
  obtain ⟨v, r4, h4, h⟩ := Gen.bind_ok.1 h
  obtain ⟨rfl, rfl⟩ := Gen.pure_ok.1 h
  refine ⟨?_, ?_⟩
  · intro reason hr hne
    obtain ⟨text, ht, hi⟩ := (C56_documentation f.description f.deprecation none true).2.1 reason hr hne rfl
    have : text ≠ "" := by
      rintro rfl
      have := hi.length_le
      simp at this
    rw [hm, ht]
    have ht2 : truthy (some text) = true := by simp [truthy, this]
    exact ⟨.annAssign attr a' v, text, by rw [if_pos ht2]; rfl, hi⟩
  · intro hd hn
    rw [hm, hd, hn]
    exact ⟨.annAssign attr a' v, by simp [composeFieldDocumentation, truthy]⟩

end Turms.Props
