import Verif.Spec.Templates
import Verif.Props.Configured
import Verif.Props.FuncScope

/-!
# C75: what `turms init` writes can be used at once
-/

namespace Turms.Props
open Turms Turms.Spec Turms.Fragments

theorem own_imports {A : Type} {imports : String → Except Err A} {types : List String}
    (h : ∀ t ∈ types, ∃ a, imports t = .ok a) : validateImportable imports types = .ok () :=
  (C71_importable imports types).1.2 h

/-- reading a mapping with the keys in the order in which the templates write them -/
theorem readGenerator_ok {A : Type} {B : List String} {imports : String → Except Err A} {schema : String}
    {documents : Option String} {s : Setting} {outDir : String} {skip : Bool} {scalars : Dict String}
    {plugins processors stylers : List Component}
    (h0 : onlyKeys readFields s = .ok ())
    (h1 : (s.opt "out_dir").bind (readOr "api" Setting.text) = .ok outDir)
    (h2 : (s.opt "scalar_definitions").bind readTypeMap = .ok scalars)
    (h3 : validateNames B { scalarDefinitions := scalars } [] = .ok ())
    (h4 : (s.opt "skip_forwards").bind (readOr false Setting.flag) = .ok skip)
    (h5 : (s.opt "plugins").bind (readList readComponent) = .ok plugins)
    (h6 : (s.opt "processors").bind (readList readComponent) = .ok processors)
    (h7 : (s.opt "stylers").bind (readList readComponent) = .ok stylers)
    (i5 : ∀ t ∈ plugins.map (·.type), ∃ a, imports t = .ok a)
    (i6 : ∀ t ∈ processors.map (·.type), ∃ a, imports t = .ok a)
    (i7 : ∀ t ∈ stylers.map (·.type), ∃ a, imports t = .ok a) :
    readGenerator B imports schema documents s =
      .ok ⟨schema, documents, outDir, skip, stylers, plugins, processors, scalars⟩ := by
  have step : ∀ {X Y : Type} {x : Except Err X} {a : X} {f : X → Except Err Y}, x = .ok a → (x >>= f) = f a := by
    rintro X Y x a f rfl; rfl
  have join : ∀ {X Y Z : Type} {x : Except Err X} {g : X → Except Err Y} {a : Y} {f : Y → Except Err Z},
      x.bind g = .ok a → (x >>= fun v => g v >>= f) = f a := by
    intro X Y Z x g a f h
    cases x with
    | error e => cases h
    | ok v => exact step h
  unfold readGenerator
  rw [step h0, join h1, join h2, step h3, join h4, join h5, step (own_imports i5), join h6, step (own_imports i6), join h7,
    step (own_imports i7)]
  rfl

theorem validate_str {B : List String} (hB : "str" ∈ B) :
    validateNames B { scalarDefinitions := [("uuid", "str")] } [] = .ok () := by
  refine (C71_accepted_iff B _ _).2 ⟨fun p hp => ?_, fun _ h => ?_, fun _ h => ?_, fun _ h => ?_, fun _ h => ?_,
    fun _ h => ?_, Iff.rfl⟩
  · rw [List.mem_singleton.1 hp]; exact .inl hB
  all_goals cases h

/-- the three templates for documents -/
theorem documents_loads {A : Type} {installed : String → Bool} {imports : String → Except Err A} {B : List String}
    (hB : "str" ∈ B) (hw : TurmsWorks installed imports) {plugins : List Setting} {components : List Component}
    (hp : readEach readComponent plugins = .ok components) (ho : ∀ c ∈ components, c.type ∈ ownClasses) :
    ∃ p, readProjects B imports (documentsProject installed plugins) = .ok [("default", p)] ∧
      p.plugins = components ∧
      p.stylers.map (·.type) = ["turms.stylers.capitalize.CapitalizeStyler", "turms.stylers.snake_case.SnakeCaseStyler"] ∧
      processorsOf p = (if installed "black" then ["turms.processors.black.BlackProcessor"] else []) ++
        (if installed "isort" then ["turms.processors.isort.IsortProcessor"] else []) ∧
      p.documents = some "graphql/**.graphql" ∧ p.scalars = [("uuid", "str")] ∧ p.skipForwards = false ∧
      p.outDir = "api" := by
  have own : ∀ {l : List Component}, (∀ t ∈ l.map (·.type), t ∈ ownClasses) →
      ∀ t ∈ l.map (·.type), ∃ a, imports t = .ok a := fun h t ht => hw.1 t (h t ht)
  have hown : ∀ t ∈ components.map (·.type), t ∈ ownClasses := by
    intro t ht
    obtain ⟨c, hc, rfl⟩ := List.mem_map.1 ht
    exact ho c hc
  have fin : ∀ {s : Setting} {q : ProjectConfig}, readGenerator B imports "https://countries.trevorblades.com/"
      (some "graphql/**.graphql") s = .ok q →
      readProjects B imports (projectSetting s "https://countries.trevorblades.com/" (some "graphql/**.graphql")) =
        .ok [("default", q)] := by
    intro s q h
    have : readProject B imports (.dict [("schema", .str "https://countries.trevorblades.com/"),
        ("documents", .str "graphql/**.graphql"), ("extensions", .dict [("turms", s)])]) = .ok q := h
    show readProjectList B imports [("default", .dict [("schema", .str "https://countries.trevorblades.com/"),
        ("documents", .str "graphql/**.graphql"), ("extensions", .dict [("turms", s)])])] = _
    unfold readProjectList
    rw [this]
    rfl
  unfold documentsProject documentsSettings detectedProcessors optionalProcessors
  cases h1 : installed "black" <;> cases h2 : installed "isort" <;> simp only [List.filter, h1, h2] <;>
  · refine ⟨_, fin (readGenerator_ok (scalars := [("uuid", "str")]) rfl rfl rfl (validate_str hB) rfl hp rfl rfl
      (own hown) (own ?_) (own ?_)), rfl, rfl, rfl, rfl, rfl, rfl, rfl⟩ <;> decide +kernel

/-- the template for a strawberry server -/
theorem strawberry_loads {A : Type} {installed : String → Bool} {imports : String → Except Err A} {B : List String}
    (hB : "str" ∈ B) (hw : TurmsWorks installed imports) :
    ∃ p, readProjects B imports (strawberryTemplate installed) = .ok [("default", p)] ∧
      p.plugins.map (·.type) = ["turms.plugins.strawberry.StrawberryPlugin"] ∧
      p.stylers.map (·.type) = ["turms.stylers.capitalize.CapitalizeStyler", "turms.stylers.snake_case.SnakeCaseStyler"] ∧
      processorsOf p = ["turms.processors.disclaimer.DisclaimerProcessor"] ++
        ((if installed "black" then ["turms.processors.black.BlackProcessor"] else []) ++
        (if installed "isort" then ["turms.processors.isort.IsortProcessor"] else [])) ++
        (if true && installed "libcst" then ["turms.processors.merge.MergeProcessor"] else []) ∧
      p.documents = none ∧ p.skipForwards = true ∧ p.outDir = "api" := by
  have own : ∀ {l : List Component}, (∀ t ∈ l.map (·.type), t ∈ ownClasses) →
      ∀ t ∈ l.map (·.type), ∃ a, imports t = .ok a := fun h t ht => hw.1 t (h t ht)
  have fin : ∀ {s : Setting} {q : ProjectConfig}, readGenerator B imports "schema.graphql" none s = .ok q →
      readProjects B imports (projectSetting s "schema.graphql" none) = .ok [("default", q)] := by
    intro s q h
    have : readProject B imports (.dict [("schema", .str "schema.graphql"), ("extensions", .dict [("turms", s)])]) =
      .ok q := h
    show readProjectList B imports [("default", .dict [("schema", .str "schema.graphql"),
      ("extensions", .dict [("turms", s)])])] = _
    unfold readProjectList
    rw [this]
    rfl
  have ownM : ∀ {l : List Component}, installed "libcst" = true →
      (∀ t ∈ l.map (·.type), t ∈ ownClasses ∨ t = "turms.processors.merge.MergeProcessor") →
      ∀ t ∈ l.map (·.type), ∃ a, imports t = .ok a := by
    intro l hi h t ht
    rcases h t ht with h | rfl
    · exact hw.1 t h
    · exact hw.2 hi
  unfold strawberryTemplate detectedProcessors optionalProcessors
  cases h3 : installed "libcst" <;> cases h1 : installed "black" <;> cases h2 : installed "isort" <;>
    simp only [List.filter, h1, h2, if_true, if_false, Bool.false_eq_true] <;>
  first
  | (refine ⟨_, fin (readGenerator_ok (scalars := [("uuid", "str")]) rfl rfl rfl (validate_str hB) rfl rfl rfl rfl
      (own ?_) (own ?_) (own ?_)), rfl, rfl, rfl, rfl, rfl, rfl⟩ <;> decide +kernel)
  | (refine ⟨_, fin (readGenerator_ok (scalars := [("uuid", "str")]) rfl rfl rfl (validate_str hB) rfl rfl rfl rfl
      (own ?_) (ownM h3 ?_) (own ?_)), rfl, rfl, rfl, rfl, rfl, rfl⟩ <;> decide +kernel)

theorem merge_last {m : String} {xs before after : List String} (h : xs ++ [m] = before ++ m :: after) (hm : m ∉ xs) :
    after = [] := by
  rcases List.append_eq_append_iff.1 h with ⟨l, h1, h2⟩ | ⟨l, h1, h2⟩
  · cases l with
    | nil => simpa using h2.symm
    | cons x l => simp at h2
  · cases l with
    | nil => simpa using h2
    | cons x l =>
      simp only [List.cons_append, List.cons.injEq] at h2
      exact (hm (by rw [h1, h2.1]; simp)).elim

/-- what the lists of processors of the templates have in common -/
theorem initial_processors {installed : String → Bool} {first : List String} {merge : Bool} {ps : List String}
    (hf : first = [] ∨ first = ["turms.processors.disclaimer.DisclaimerProcessor"])
    (h : ps = first ++ ((if installed "black" then ["turms.processors.black.BlackProcessor"] else []) ++
        (if installed "isort" then ["turms.processors.isort.IsortProcessor"] else [])) ++
        (if merge && installed "libcst" then ["turms.processors.merge.MergeProcessor"] else [])) :
    (∀ t ∈ ps, ∀ m, (t, m) ∈ formatterOf → installed m = true) ∧
    (∀ t m, (t, m) ∈ formatterOf → m ≠ "libcst" → installed m = true → t ∈ ps) ∧ ps.Nodup ∧
    (∀ before after, ps = before ++ "turms.processors.merge.MergeProcessor" :: after → after = []) ∧
    (merge = true → installed "libcst" = true → "turms.processors.merge.MergeProcessor" ∈ ps) := by
  have none : ∀ {l : List String}, "turms.processors.merge.MergeProcessor" ∉ l → ∀ before after,
      l = before ++ "turms.processors.merge.MergeProcessor" :: after → after = [] := by
    rintro l hl b a rfl
    exact (hl (by simp)).elim
  have key : ∀ t m, (t, m) ∈ formatterOf → (t = "turms.processors.black.BlackProcessor" ∧ m = "black") ∨
      (t = "turms.processors.isort.IsortProcessor" ∧ m = "isort") ∨
      (t = "turms.processors.merge.MergeProcessor" ∧ m = "libcst") := by
    intro t m h
    simpa [formatterOf] using h
  rcases hf with rfl | rfl <;> cases h1 : installed "black" <;> cases h2 : installed "isort" <;>
    cases h3 : installed "libcst" <;> cases merge <;>
    simp only [h1, h2, h3, Bool.and_true, Bool.and_false, if_true, if_false, Bool.false_eq_true, List.nil_append,
      List.append_nil] at h <;> subst h <;>
  · refine ⟨?_, ?_, by decide +kernel, ?_, ?_⟩
    · intro t ht m hm
      rcases key t m hm with ⟨rfl, rfl⟩ | ⟨rfl, rfl⟩ | ⟨rfl, rfl⟩ <;> first
        | assumption
        | exact absurd ht (by decide +kernel)
    · intro t m hm hne hi
      rcases key t m hm with ⟨rfl, rfl⟩ | ⟨rfl, rfl⟩ | ⟨rfl, rfl⟩ <;> first
        | (rw [hi] at h1; cases h1; done)
        | (rw [hi] at h2; cases h2; done)
        | exact absurd rfl hne
        | decide +kernel
    · first
        | exact none (by decide +kernel)
        | exact fun b a e => merge_last (xs := []) e (by decide +kernel)
        | exact fun b a e => merge_last (xs := [_]) e (by decide +kernel)
        | exact fun b a e => merge_last (xs := [_, _]) e (by decide +kernel)
        | exact fun b a e => merge_last (xs := [_, _, _]) e (by decide +kernel)
    · first
        | (intro h; cases h; done)
        | (intro _ h; cases h; done)
        | (intro _ _; decide +kernel)

/-- `turms init` and then reading the file: whatever is installed, each of the templates is a valid configuration with
one project, `default`, that lists the plugins in the order they depend on each other, the stylers, and exactly the
processors that can run here. -/
theorem C75_init_loads {A : Type} (installed : String → Bool) (imports : String → Except Err A) (B : List String)
    (hB : "str" ∈ B) (hw : TurmsWorks installed imports) (name : String) :
    (name ∈ templateNames → ∃ s p, buildTemplate installed name = .ok s ∧
      readProjects B imports s = .ok [("default", p)] ∧ Initial installed name p) ∧
    (name ∉ templateNames → buildTemplate installed name = .error (.keyError name)) := by
  have docs : ∀ {plugins : List Setting} {components : List Component}, readEach readComponent plugins = .ok components →
      (∀ c ∈ components, c.type ∈ ownClasses) → name ≠ "strawberry" → components.map (·.type) = pluginsOf name →
      ∃ p, readProjects B imports (documentsProject installed plugins) = .ok [("default", p)] ∧ Initial installed name p := by
    intro plugins components hp ho hn hl
    obtain ⟨p, h1, h2, h3, h4, h5, _, h6, h7⟩ := documents_loads hB hw hp ho
    obtain ⟨i1, i2, i3, i4, _⟩ := initial_processors (installed := installed) (first := []) (merge := false) (.inl rfl)
      (h4.trans (by simp only [Bool.false_and, Bool.false_eq_true, if_false, List.nil_append, List.append_nil]))
    exact ⟨p, h1, ⟨by rw [h2, hl], h3, i1, i2, i3, i4, fun h => (hn h).elim, by rw [h5]; simp [hn],
      by rw [h6]; simp [hn], h7⟩⟩
  constructor
  · intro h
    simp only [templateNames, List.mem_cons, List.not_mem_nil, or_false] at h
    rcases h with rfl | rfl | rfl | rfl
    · obtain ⟨p, h⟩ := docs (plugins := documentPlugins) rfl (by decide +kernel) (by decide +kernel) rfl
      exact ⟨_, p, rfl, h⟩
    · obtain ⟨p, h⟩ := docs (plugins := documentPlugins ++ [rathFuncs]) rfl (by decide +kernel) (by decide +kernel) rfl
      exact ⟨_, p, rfl, h⟩
    · obtain ⟨p, h⟩ := docs (plugins := documentPlugins ++ [gqlFuncs]) rfl (by decide +kernel) (by decide +kernel) rfl
      exact ⟨_, p, rfl, h⟩
    · obtain ⟨p, h1, h2, h3, h4, h5, h6, h7⟩ := strawberry_loads hB hw
      obtain ⟨i1, i2, i3, i4, i5⟩ := initial_processors (first := ["turms.processors.disclaimer.DisclaimerProcessor"])
        (merge := true) (.inr rfl) h4
      exact ⟨_, p, rfl, h1, ⟨h2, h3, i1, i2, i3, i4, fun _ => i5 rfl, by rw [h5]; simp, by rw [h6]; simp, h7⟩⟩
  · intro h
    simp only [templateNames, List.mem_cons, List.not_mem_nil, or_false, not_or] at h
    unfold buildTemplate
    split <;> first | rfl | simp_all

/-- turms, black and libcst are installed, isort is not -/
def someInstalled (m : String) : Bool := m == "black" || m == "libcst"

/-- The hypotheses can be met, and the lists are what one expects. -/
example : ∃ s p, buildTemplate someInstalled "strawberry" = .ok s ∧
    readProjects ["int", "str"] (fun _ => Except.ok ()) s = .ok [("default", p)] ∧ Initial someInstalled "strawberry" p ∧
    "turms.processors.black.BlackProcessor" ∈ processorsOf p ∧ "turms.processors.isort.IsortProcessor" ∉ processorsOf p := by
  obtain ⟨s, p, h1, h2, h3⟩ := (C75_init_loads someInstalled (fun _ => Except.ok ()) ["int", "str"] (by decide +kernel)
    ⟨fun _ _ => ⟨(), rfl⟩, fun _ => ⟨(), rfl⟩⟩ "strawberry").1 (by decide +kernel)
  refine ⟨s, p, h1, h2, h3, h3.formatted _ "black" (by decide +kernel) (by decide +kernel) (by decide +kernel), fun h => ?_⟩
  exact absurd (h3.runnable _ h "isort" (by decide +kernel)) (by decide +kernel)

/-! ## generating from the templates with functions -/

theorem noFactories {c : Ctx} (ts : List InputType) (r : Reg) :
    factories c { refInputs := some [] } ts r = .ok ([], r) := by
  induction ts with
  | nil => rfl
  | cons t ts ih =>
    unfold factories
    exact Gen.bind_ok.2 ⟨[], r, rfl, Gen.bind_ok.2 ⟨[], r, ih, rfl⟩⟩

theorem functionProject {A : Type} {installed : String → Bool} {imports : String → Except Err A} {B : List String}
    (hB : "str" ∈ B) (hw : TurmsWorks installed imports) {name : String} (hname : name = "rath" ∨ name = "gql")
    {s : Setting} {p : ProjectConfig} (hs : buildTemplate installed name = .ok s)
    (hp : readProjects B imports s = .ok [("default", p)]) :
    ∃ fc, FunctionProject name p fc ∧ p.stylers.map (·.type) =
        ["turms.stylers.capitalize.CapitalizeStyler", "turms.stylers.snake_case.SnakeCaseStyler"] ∧
      p.scalars = [("uuid", "str")] ∧ (name = "rath" → readFuncs rathFuncs = .ok fc) := by
  rcases hname with rfl | rfl
  · obtain ⟨p', h1, h2, h3, _, _, h4, _⟩ := documents_loads hB hw (plugins := documentPlugins ++ [rathFuncs]) rfl (by decide +kernel)
    cases hs
    have e := hp.symm.trans h1
    cases e
    refine ⟨_, ⟨⟨[⟨_, _⟩, ⟨_, _⟩, ⟨_, _⟩, ⟨_, _⟩], ⟨_, rathFuncs⟩, h2, rfl, rfl⟩, rfl, ⟨rfl, rfl⟩, ?_, rfl⟩, h3, h4,
      fun _ => rfl⟩
    intro d hd
    simp only [List.mem_cons, List.not_mem_nil, or_false] at hd
    rcases hd with rfl | rfl | rfl | rfl | rfl | rfl <;> exact ⟨rfl, rfl⟩
  · obtain ⟨p', h1, h2, h3, _, _, h4, _⟩ := documents_loads hB hw (plugins := documentPlugins ++ [gqlFuncs]) rfl (by decide +kernel)
    cases hs
    have e := hp.symm.trans h1
    cases e
    refine ⟨_, ⟨⟨[⟨_, _⟩, ⟨_, _⟩, ⟨_, _⟩, ⟨_, _⟩], ⟨_, gqlFuncs⟩, h2, rfl, rfl⟩, rfl, ⟨rfl, rfl⟩, ?_, rfl⟩, h3, h4,
      fun h => absurd h (by decide +kernel)⟩
    intro d hd
    simp only [List.mem_cons, List.not_mem_nil, or_false] at hd
    rcases hd with rfl | rfl | rfl <;> exact ⟨rfl, rfl⟩

/-- Generate from a project made by `turms init --template rath` or `--template gql`, left as it is, for any schema and
any document under the assumptions of `C74_functions_resolve_partial`; for rath, assume also that something else in the
module needs `Optional`.  Then the module can be executed, every operation has the functions the template asks for, and
every call of one of them that Python accepts performs the operation with the client it is given. -/
theorem C75_functions_partial {A : Type} {installed : String → Bool} {imports : String → Except Err A} {B : List String}
    (hB : "str" ∈ B) (hw : TurmsWorks installed imports) {name : String} (hname : name = "rath" ∨ name = "gql")
    {s : Setting} {p : ProjectConfig} (hs : buildTemplate installed name = .ok s)
    (hp : readProjects B imports s = .ok [("default", p)]) :
    ∃ fc stylers, FunctionProject name p fc ∧ p.stylers.mapM (fun x => stylerOf x.type) = .ok stylers ∧
      ∀ {prep : List Char → List Char} {schema : Schema} {pe : EnumsConfig} {pi : InputsConfig} {pf : FragmentsConfig}
        {po : OperationsConfig} {doc : Document} {r1 r2 r3 r4 r5 : Reg} {ss1 ss2 ss3 ss4 ss5 : List Stmt},
        let c := projectCtx p stylers schema
        generateEnums c pe (Reg.init c.env) = .ok (ss1, r1) → generateInputs c pi r1 = .ok (ss2, r2) →
        fragmentsPlugin prep c pf doc r2 = .ok (ss3, r3) → operationsPlugin prep c po doc r3 = .ok (ss4, r4) →
        funcsPlugin c fc doc r4 = .ok (ss5, r5) →
        c.schema.types.keys.Nodup →
        (∀ d ∈ fragmentsOf doc, ∀ x, Spreads d.sels x → x ∈ (fragmentsOf doc).map (·.name)) →
        (∀ o ∈ operationsOf doc, ∀ x, Spreads o.sels x → x ∈ (fragmentsOf doc).map (·.name)) →
        (∀ n d, lookup (fragmentsOf doc) n = some d → ¬ Needs (fragmentsOf doc) d.sels n) →
        (∀ d ∈ fragmentsOf doc, NoInlineSpread d.sels) →
        External r4 "BaseModel" → (NeedsField c po doc → External r4 "Field") →
        ((operationsOf doc).map (·.name)).Nodup → (name = "rath" → External r5 "Optional") →
        (∀ o ∈ operationsOf doc, (o.vars.map (·.name)).Nodup) →
        (∀ t ∈ inputTypes c.schema, (t.fields.map (·.name)).Nodup) →
        let module_ := (ss1 ++ (ss2 ++ (ss3 ++ ss4))) ++ ss5
        Resolves (fun n => External r5 n ∨ InterfaceFragmentAtUnion c doc n) module_ ∧
        List.Forall₂ (fun x f => Callable c fc r5 module_ x.2 x.1 f) (functionsFor fc doc) ss5 ∧
        ∀ o ∈ operationsOf doc, (fc.definitionsFor o).map (fun d => (d.kind, d.isAsync, d.use)) =
          (wantedFunctions name).filter fun w => w.1 == o.kind := by
  obtain ⟨fc, hf, hst, _⟩ := functionProject hB hw hname hs hp
  refine ⟨fc, [capitalizeStyler, snakeCaseStyler], hf, ?_, ?_⟩
  · have : p.stylers.mapM (fun x => stylerOf x.type) = (p.stylers.map (·.type)).mapM stylerOf := by
      rw [List.mapM_map]; rfl
    rw [this, hst]
    rfl
  · intro prep schema pe pi pf po doc r1 r2 r3 r4 r5 ss1 ss2 ss3 ss4 ss5 c h1 h2 h3 h4 h5 hnodup hdef hdefO hcyc hinl hbase
      hfield huniq hopt hvars hfs
    have key := C74_functions_resolve_partial h1 h2 h3 h4 h5 (noFactories (inputTypes c.schema) r5)
      (fun t l hl => by cases hl) hnodup hdef hdefO hcyc hinl
      (fun b hb => by rw [List.mem_singleton.1 hb]; exact hbase) hfield huniq
      (fun ⟨d, hd, k, hk, hn⟩ => hopt (by
        rw [(hf.own d hd).2, List.append_nil] at hk
        rcases hname with h | h
        · exact h
        · have := hf.client.2
          rw [h, if_neg (by decide +kernel), List.map_eq_nil_iff] at this
          rw [this] at hk
          cases hk)) hvars
      (fun o _ v _ h => by rw [hf.plain] at h; cases h) hfs
    simp only [List.append_nil] at key
    refine ⟨key.1, key.2.1, fun o _ => ?_⟩
    rw [← hf.wanted, List.filter_map]
    rfl

/-- the plugins of a template with functions, one after the other: classes, functions -/
def initialModule (c : Ctx) (fc : FuncsConfig) (doc : Document) : Gen (List Stmt × List Stmt) := do
  let a ← moduleOf c {} doc
  let f ← funcsPlugin c fc doc
  pure (a, f)

/-- the context of an initial project -/
def initialCtx (schema : Schema) : Ctx :=
  { env := { config := { scalarDefinitions := [("uuid", "str")] }, stylers := [capitalizeStyler, snakeCaseStyler] },
    schema := schema }

/-- the document `query Ping { ping }` -/
def pingDoc : Document := [.operation ⟨.query, some "Ping", [], [ask "ping"]⟩]

/-- The theorem applies to the template for gql: the module for `query Ping { ping }` has one function. -/
example : ∃ s p, buildTemplate someInstalled "gql" = .ok s ∧
    readProjects ["str"] (fun _ => Except.ok ()) s = .ok [("default", p)] ∧ ∃ fc, FunctionProject "gql" p fc ∧
    ∃ a f r, initialModule (initialCtx pingSchema) fc pingDoc (Reg.init (initialCtx pingSchema).env) = .ok ((a, f), r) ∧
      (boundL a).length = 1 ∧ f.length = 1 ∧ Resolves (External r) (a ++ f) ∧
      List.Forall₂ (fun x g => Callable (initialCtx pingSchema) fc r (a ++ f) x.2 x.1 g) (functionsFor fc pingDoc) f := by
  have hw : TurmsWorks someInstalled (fun _ => Except.ok ()) := ⟨fun _ _ => ⟨(), rfl⟩, fun _ => ⟨(), rfl⟩⟩
  obtain ⟨s, p, hs, hp, _⟩ := (C75_init_loads someInstalled (fun _ => Except.ok ()) ["str"] (by decide +kernel) hw "gql").1
    (by decide +kernel)
  obtain ⟨fc, stylers, hf, hst, key⟩ := C75_functions_partial (by decide +kernel) hw (.inr rfl) hs hp
  obtain ⟨fc', hf', hst', hsc, hread⟩ := functionProject (by decide +kernel) hw (.inr rfl) hs hp
  have est : stylers = [capitalizeStyler, snakeCaseStyler] := by
    have : p.stylers.mapM (fun x => stylerOf x.type) = (p.stylers.map (·.type)).mapM stylerOf := by
      rw [List.mapM_map]; rfl
    rw [this, hst'] at hst
    cases hst
    rfl
  have efc : readFuncs gqlFuncs = .ok fc := by
    obtain ⟨p', h1, h2, _⟩ := documents_loads (B := ["str"]) (by decide +kernel) hw (plugins := documentPlugins ++ [gqlFuncs])
      rfl (by decide +kernel)
    cases hs
    have e := hp.symm.trans h1
    cases e
    obtain ⟨before, comp, h3, _, h4⟩ := hf.last
    rw [h3] at h2
    have := congrArg List.getLast? h2
    rw [List.getLast?_concat] at this
    cases this
    exact h4
  refine ⟨s, p, hs, hp, fc, hf, ?_⟩
  have test : (match readFuncs gqlFuncs with
    | .error _ => false
    | .ok fc => match initialModule (initialCtx pingSchema) fc pingDoc (Reg.init (initialCtx pingSchema).env) with
      | .error _ => false
      | .ok ((a, f), _) => (boundL a).length == 1 && f.length == 1) = true := by decide +kernel
  obtain ⟨ss, r', hm, hmt⟩ := module_ok (c := initialCtx pingSchema) (po := {}) (doc := pingDoc)
    (test := fun _ r => r.imports.contains "pydantic.BaseModel") (by decide +kernel)
  rw [efc] at test
  dsimp only at test
  split at test
  · cases test
  rename_i a f r e
  simp only [Bool.and_eq_true, beq_iff_eq, List.contains_iff_mem] at test hmt
  refine ⟨a, f, r, e, test.1, test.2, ?_⟩
  unfold initialModule at e
  obtain ⟨a', r4, h1, e⟩ := Gen.bind_ok.1 e
  obtain ⟨f', r5, h5, e⟩ := Gen.bind_ok.1 e
  obtain ⟨e, rfl⟩ := Gen.pure_ok.1 e
  cases e
  rw [h1] at hm
  cases hm
  obtain ⟨ss1, ss2, ss3, ss4, r1, r2, r3, k1, k2, k3, k4, rfl⟩ := moduleOf_ok h1
  have ectx : projectCtx p stylers pingSchema = initialCtx pingSchema := by
    unfold projectCtx initialCtx
    rw [hsc, est]
  have ops : ∀ o ∈ operationsOf pingDoc, o = ⟨.query, some "Ping", [], [ask "ping"]⟩ := fun o ho => List.mem_singleton.1 ho
  have := key (schema := pingSchema) (pe := {}) (pi := {}) (pf := {}) (po := {}) (doc := pingDoc)
    (by rw [ectx]; exact k1) (by rw [ectx]; exact k2) (by rw [ectx]; exact k3) (by rw [ectx]; exact k4)
    (by rw [ectx]; exact h5) (show pingSchema.types.keys.Nodup by decide +kernel) (fun d hd => by cases hd)
    (fun o ho x hx => by
      rw [ops o ho] at hx
      have := mem_spreadNames hx
      simp [ask, spreadNames, spreadNamesOf] at this)
    (fun n d h => by cases h) (fun d hd => by cases hd) (.inl ⟨_, hmt, by decide +kernel⟩)
    (by
      rintro (⟨_, o, ho, v, hv, _⟩ | ⟨h, _⟩)
      · rw [ops o ho] at hv; cases hv
      · cases h)
    (by decide +kernel) (fun h => absurd h (by decide +kernel))
    (fun o ho => by rw [ops o ho]; decide +kernel) (fun t ht => by cases ht)
  rw [ectx] at this
  refine ⟨this.1.mono ?_, this.2.1⟩
  rintro n (h | ⟨f, hf, _⟩)
  · exact h
  · cases hf

/-- The project made by `turms init --template rath`, left as it is, generates for the schema `type Query { ping: Int! }`
and the document `query Ping { ping }` a module that cannot be imported: the parameter `rath: Optional[Rath] = None` is
annotated with a name that nothing imports. -/
theorem C75_rath_counterexample {A : Type} {installed : String → Bool} {imports : String → Except Err A} {B : List String}
    (hB : "str" ∈ B) (hw : TurmsWorks installed imports) {s : Setting} {p : ProjectConfig}
    (hs : buildTemplate installed "rath" = .ok s) (hp : readProjects B imports s = .ok [("default", p)]) :
    let c := projectCtx p [capitalizeStyler, snakeCaseStyler] pingSchema
    ∃ fc, FunctionProject "rath" p fc ∧ ∃ a f r, initialModule c fc pingDoc (Reg.init c.env) = .ok ((a, f), r) ∧
      f.length = 2 ∧ "Optional" ∈ evaluatedL f ∧ ¬ Resolves (External r) (a ++ f) := by
  obtain ⟨fc, hf, _, hsc, hread⟩ := functionProject hB hw (.inl rfl) hs hp
  refine ⟨fc, hf, ?_⟩
  have hread := hread rfl
  unfold projectCtx
  rw [hsc]
  have test : (match readFuncs rathFuncs with
    | .error _ => false
    | .ok fc => match initialModule (initialCtx pingSchema) fc pingDoc (Reg.init (initialCtx pingSchema).env) with
      | .error _ => false
      | .ok ((a, f), r) => missingTest "Optional" a f r && f.length == 2) = true := by decide +kernel
  rw [hread] at test
  dsimp only at test
  split at test
  · cases test
  · rename_i a f r e
    simp only [Bool.and_eq_true, beq_iff_eq] at test
    refine ⟨a, f, r, e, test.2, ?_⟩
    have := missing (after := []) test.1
    rwa [List.append_nil] at this

end Turms.Props
