import Verif.Lemmas.Loading

/-!
# C40, C41, C54, C58, C59: loading schemas, documents, configurations and classes; the watch filter
-/

namespace Turms.Props
open Turms Turms.Spec

/-! ## C40 -/

/-- C40: the strings taken for URLs are exactly those that start with `http`. -/
theorem C40_urls (s : String) : isUrl s = true ↔ "http".toList <+: s.toList := by
  unfold isUrl
  rw [Bool.or_eq_true, String.startsWith_string_iff, String.startsWith_string_iff]
  refine ⟨fun h => h.elim id fun h => .trans ?_ h, .inl⟩
  exact ⟨['s'], by decide⟩

example : isUrl "https://example.org/graphql" = true ∧ isUrl "schemas/*.graphql" = false := by decide +kernel

/-- C40: a single source (string or mapping) is loaded as schema text; if that does not give a schema and
introspection is allowed, it is loaded as an introspection result; otherwise loading fails. -/
theorem C40_single_source {S I : Type} (w : World S I) (allow : Bool) (f : SchemaField) (s : S) :
    buildSchema w allow (.one f) = .ok s ↔
    (∃ t, SdlOf w f t ∧ builderFor w f t = .ok s) ∨
    (allow = true ∧ (¬ ∃ t s', SdlOf w f t ∧ builderFor w f t = .ok s') ∧
      ∃ i, IntrospectionOf w f i ∧ w.buildClient i = .ok s) := by
  show buildSingle w allow f = .ok s ↔ _
  unfold buildSingle
  split
  · rename_i url headers
    rw [withFallback_iff]
    simp only [builderFor, sdlOf_map, bind_ok_iff, ne_eq]
    have hf : ∀ t, (∃ parts, fetchAll w [(url, headers)] = .ok parts ∧ t = joinSpace parts) ↔ w.fetch url headers = .ok t := by
      intro t
      unfold fetchAll
      cases w.fetch url headers <;> simp [fetchAll, joinSpace, eq_comm]
    have hi : ∀ i, IntrospectionOf w (.map [(url, headers)]) i ↔ w.introspect url headers = .ok i := by
      intro i
      constructor
      · intro h; cases h; assumption
      · exact .mapping
    simp only [hf, hi]
    constructor
    · rintro (h | ⟨h1, h2, h3⟩)
      · exact .inl h
      · exact .inr ⟨h1, fun ⟨t, s', h⟩ => h2 s' ⟨t, h⟩, h3⟩
    · rintro (h | ⟨h1, h2, h3⟩)
      · exact .inl h
      · exact .inr ⟨h1, fun s' ⟨t, h⟩ => h2 ⟨t, s', h⟩, h3⟩
  · rename_i m hm
    simp only [builderFor, sdlOf_map, bind_ok_iff]
    constructor
    · rintro ⟨parts, h1, h2⟩; exact .inl ⟨_, ⟨parts, h1, rfl⟩, h2⟩
    · rintro (⟨t, ⟨parts, h1, rfl⟩, h2⟩ | ⟨_, _, i, hi, _⟩)
      · exact ⟨parts, h1, h2⟩
      · cases hi; exact absurd rfl (hm _ _)
  · rename_i str
    split
    · rename_i hu
      rw [withFallback_iff]
      simp only [builderFor, sdlOf_url _ _ hu, introspectionOf_url _ _ hu, bind_ok_iff, ne_eq]
      constructor
      · rintro (h | ⟨h1, h2, h3⟩)
        · exact .inl h
        · exact .inr ⟨h1, fun ⟨t, s', h⟩ => h2 s' ⟨t, h⟩, h3⟩
      · rintro (h | ⟨h1, h2, h3⟩)
        · exact .inl h
        · exact .inr ⟨h1, fun s' ⟨t, h⟩ => h2 ⟨t, s', h⟩, h3⟩
    · rename_i hu
      have hu : isUrl str = false := by simpa using hu
      rw [withFallback_iff]
      simp only [builderFor, sdlOf_glob _ _ hu, introspectionOf_glob _ _ hu, bind_ok_iff, ne_eq]
      constructor
      · rintro (h | ⟨h1, h2, h3⟩)
        · exact .inl h
        · exact .inr ⟨h1, fun ⟨t, s', h⟩ => h2 s' ⟨t, h⟩, h3⟩
      · rintro (h | ⟨h1, h2, h3⟩)
        · exact .inl h
        · exact .inr ⟨h1, fun s' ⟨t, h⟩ => h2 ⟨t, s', h⟩, h3⟩

/-- C40: a list with one source is that source. -/
theorem C40_singleton_list {S I : Type} (w : World S I) (allow : Bool) (f : SchemaField) :
    buildSchema w allow (.many [f]) = buildSchema w allow (.one f) := rfl

theorem listParts_globs {S I : Type} (w : World S I) (l : List SchemaField)
    (hl : ∀ f ∈ l, ∃ g, f = .str g ∧ isUrl g = false) (parts : List String) :
    listParts w l = .ok parts ↔ List.Forall₂ (SdlOf w) l parts := by
  induction l generalizing parts with
  | nil =>
    constructor
    · intro h; cases h; exact .nil
    · intro h; cases h; rfl
  | cons f l ih =>
    obtain ⟨g, rfl, hu⟩ := hl f (by simp)
    have ih := ih (fun f hf => hl f (by simp [hf]))
    unfold listParts
    rw [hu]
    simp only [Bool.false_eq_true, if_false, List.nil_append]
    constructor
    · intro h
      split at h
      · cases h
      · rename_i t ht
        split at h
        · cases h
        · rename_i rest hr
          cases h
          exact .cons ((sdlOf_glob _ _ hu).2 ht) ((ih rest).1 hr)
    · intro h
      cases h with
      | cons h1 h2 =>
        rw [(sdlOf_glob _ _ hu).1 h1]
        dsimp only
        rw [(ih _).2 h2]
        rfl

/-- C40, lists of file patterns: all parts are loaded and joined. (Missing for the full property: lists with URLs
or mappings, see the counterexamples.) -/
theorem C40_glob_lists_partial {S I : Type} (w : World S I) (allow : Bool) (l : List SchemaField) (hn : l.length ≠ 1)
    (hl : ∀ f ∈ l, ∃ g, f = .str g ∧ isUrl g = false) (s : S) :
    buildSchema w allow (.many l) = .ok s ↔
    ∃ parts, List.Forall₂ (SdlOf w) l parts ∧ w.build (joinSpace parts) = .ok s := by
  unfold buildSchema
  split
  · rename_i h; cases h
  · rename_i f h; cases h; exact absurd rfl hn
  · rename_i l' _ h
    cases h
    rw [bind_ok_iff]
    simp only [listParts_globs w l hl]

/-- C40 is false of the code for lists: a URL in a list of several sources is also treated as a file pattern, so
unless there happen to be matching files loading *always* fails. -/
theorem C40_url_in_list_counterexample {S I : Type} (w : World S I) (allow : Bool) (l : List SchemaField)
    (hn : l.length ≠ 1) (u : String) (hu : SchemaField.str u ∈ l) (hg : w.glob u = []) (s : S) :
    buildSchema w allow (.many l) ≠ .ok s := by
  have key : ∀ parts, listParts w l ≠ .ok parts := by
    clear hn
    induction l with
    | nil => cases hu
    | cons f l ih =>
      intro parts h
      unfold listParts at h
      split at h
      · rename_i heq; cases heq
      · cases h
      · rename_i s' l' heq
        cases heq
        split at h
        · cases h
        · split at h
          · cases h
          · rename_i t ht
            split at h
            · cases h
            · rename_i rest hr
              rcases List.mem_cons.1 hu with hu | hu
              · cases hu
                unfold loadDslFromGlob at ht
                rw [hg] at ht
                cases ht
              · exact ih hu rest hr
  intro h
  unfold buildSchema at h
  split at h
  · rename_i h'; cases h'
  · rename_i h'; cases h'; exact hn rfl
  · rename_i h'
    cases h'
    obtain ⟨parts, h1, _⟩ := bind_ok_iff.1 h
    exact key parts h1

/-- C40 is false of the code for lists: a mapping in a list of several sources *always* fails. -/
theorem C40_mapping_in_list_counterexample {S I : Type} (w : World S I) (allow : Bool) (l : List SchemaField)
    (hn : l.length ≠ 1) (m : Dict (Dict String)) (hm : SchemaField.map m ∈ l) (s : S) :
    buildSchema w allow (.many l) ≠ .ok s := by
  have key : ∀ parts, listParts w l ≠ .ok parts := by
    clear hn
    induction l with
    | nil => cases hm
    | cons f l ih =>
      intro parts h
      unfold listParts at h
      split at h
      · rename_i heq; cases heq
      · cases h
      · rename_i s' l' heq
        cases heq
        split at h
        · cases h
        · split at h
          · cases h
          · split at h
            · cases h
            · rename_i rest hr
              rcases List.mem_cons.1 hm with hm | hm
              · cases hm
              · exact ih hm rest hr
  intro h
  unfold buildSchema at h
  split at h
  · rename_i h'; cases h'
  · rename_i h'; cases h'; exact hn rfl
  · rename_i h'
    cases h'
    obtain ⟨parts, h1, _⟩ := bind_ok_iff.1 h
    exact key parts h1

/-- a world with two files, listed in the wrong order, and one URL; a schema is its text -/
def demoFiles : World String String :=
  { fetch := fun u _ => if u = "https://x/graphql" then .ok "type U" else .error (.generationError u),
    introspect := fun u _ => .ok ("intro " ++ u),
    glob := fun g => if g = "*.graphql" then ["b.graphql", "a.graphql"] else [],
    readText := fun f => .ok ("<" ++ f ++ ">"), readIntrospection := fun f => .ok ("json " ++ f),
    build := .ok, buildAssumeValid := fun t => if t = "type U" then .error (.other "syntax") else .ok t,
    buildClient := .ok }

example : buildSchema demoFiles false (.one (.str "*.graphql")) = .ok "<a.graphql><b.graphql>" ∧
    buildSchema demoFiles true (.one (.str "https://x/graphql")) = .ok "intro https://x/graphql" ∧
    buildSchema demoFiles false (.one (.str "https://x/graphql")) = .error (.other "syntax") ∧
    buildSchema demoFiles false (.many [.str "*.graphql", .str "*.graphql"]) =
      .ok "<a.graphql><b.graphql> <a.graphql><b.graphql>" ∧
    buildSchema demoFiles true (.many [.str "https://x/graphql", .str "*.graphql"]) =
      .error (.generationError "https://x/graphql") := by decide +kernel

/-! ## C54 -/

/-- C54: neither the schema nor the documents depend on the order in which directories list their files. -/
theorem C54_listing_order {S I : Type} (w : World S I) (glob' : String → List String)
    (h : ∀ g, (glob' g).Perm (w.glob g)) (allow : Bool) (src : SchemaType) (pattern : String) :
    buildSchema { w with glob := glob' } allow src = buildSchema w allow src ∧
    documentsText { w with glob := glob' } pattern = documentsText w pattern := by
  have hr : ∀ fs, readAll { w with glob := glob' } fs = readAll w fs := by
    intro fs
    induction fs with
    | nil => rfl
    | cons f fs ih => unfold readAll; rw [ih]
  have hd : ∀ g, loadDslFromGlob { w with glob := glob' } g = loadDslFromGlob w g := by
    intro g
    unfold loadDslFromGlob
    dsimp only
    rw [pySorted_str_eq_of_perm (h g), hr]
  have hi : ∀ g, loadIntrospectionFromGlob { w with glob := glob' } g = loadIntrospectionFromGlob w g := by
    intro g
    unfold loadIntrospectionFromGlob
    dsimp only
    rw [pySorted_str_eq_of_perm (h g)]
  have hf : ∀ m, fetchAll { w with glob := glob' } m = fetchAll w m := by
    intro m
    induction m with
    | nil => rfl
    | cons x m ih => unfold fetchAll; rw [ih]
  have hs : ∀ f, buildSingle { w with glob := glob' } allow f = buildSingle w allow f := by
    intro f
    unfold buildSingle
    split
    · rfl
    · rw [hf]
    · rw [hd, hi]
  have hp : ∀ l, listParts { w with glob := glob' } l = listParts w l := by
    intro l
    induction l with
    | nil => rfl
    | cons x l ih => cases x with
      | map m => rfl
      | str s => unfold listParts; rw [ih, hd]
  constructor
  · unfold buildSchema
    split
    · exact hs _
    · exact hs _
    · rw [hp]
  · unfold documentsText
    dsimp only
    rw [pySorted_str_eq_of_perm (h pattern), hr]

open Lex in
/-- C54, what does hold: if every file is lexically correct and ends in a newline, the tokens of the concatenated
text are the tokens of the files, one after the other. -/
theorem C54_tokens_partial (files : List String) (hn : ∀ f ∈ files, ∃ body, f.toList = body ++ ['\n'])
    (tokens : List Lex.Token) (h : lexEach (files.map String.toList) = some tokens) :
    lex (String.join files).toList = some tokens := by
  induction files generalizing tokens with
  | nil => simp only [List.map_nil, lexEach, Option.some.injEq] at h; subst h; rfl
  | cons f files ih =>
    obtain ⟨body, hb⟩ := hn f (by simp)
    simp only [List.map_cons, lexEach] at h
    split at h
    · rename_i ts us h1 h2
      cases h
      rw [hb] at h1
      have := lex_append_between (b := (String.join files).toList) (lex_newline h1)
      rw [ih (fun g hg => hn g (by simp [hg])) us h2] at this
      rw [String.join_cons, String.toList_append, hb, this]
      rfl
    · cases h

/-- C54 is false of the code: files are concatenated without a separator, so a name at the end of one file merges
with a keyword at the beginning of the next, and a comment on the last line swallows it. -/
theorem C54_concatenation_counterexample :
    Lex.lex (String.join ["scalar A", "scalar B"]).toList =
      some [.name "scalar".toList, .name "Ascalar".toList, .name "B".toList] ∧
    Lex.lexEach ["scalar A".toList, "scalar B".toList] =
      some [.name "scalar".toList, .name "A".toList, .name "scalar".toList, .name "B".toList] ∧
    Lex.lex (String.join ["scalar A # last", "scalar B"]).toList = some [.name "scalar".toList, .name "A".toList] := by
  decide +kernel

example : Lex.lexEach ["query { a(x: \"s\", y: -1.5) ...F }\n".toList, "\"\"\"doc\"\"\" fragment F on T { b } # end\n".toList] =
    some ([.name "query".toList, .punct '{', .name "a".toList, .punct '(', .name "x".toList, .punct ':', .str "s".toList,
      .name "y".toList, .punct ':', .number "-1.5".toList, .punct ')', .spread, .name "F".toList, .punct '}'] ++
      [.block "doc".toList, .name "fragment".toList, .name "F".toList, .name "on".toList, .name "T".toList, .punct '{',
       .name "b".toList, .punct '}']) := by decide +kernel

/-! ## C41 -/

/-- C41: a file can be loaded exactly if its extension is supported. -/
theorem C41_supported (name : String) : (∃ key, getFileLoader name = .ok key) ↔ SupportedFile name := by
  rw [supported_iff]
  unfold getFileLoader
  dsimp only
  split <;> simp_all

/-- C41 is false of the code: a file with an unsupported extension is rejected, but *never* with a
`GenerationError` — the lookup's `KeyError` escapes. -/
theorem C41_unsupported_error_counterexample (name : String) (h : ¬ SupportedFile name) :
    ∃ key, getFileLoader name = .error (.keyError key) := by
  rw [supported_iff] at h
  unfold getFileLoader
  dsimp only
  rw [if_neg h]
  exact ⟨_, rfl⟩

/-- C41: without a selection, exactly the projects of the file are loaded — under `projects`, or the single one
under the name `default`. -/
theorem C41_all_projects {P : Type} (openFile : String → Except Err Unit) (parse : String → String → Except Err (RawConfig P))
    (path : String) (ps : Dict P) :
    loadProjects openFile parse path none = .ok ps ↔
    openFile path = .ok () ∧ ∃ key, getFileLoader path = .ok key ∧
      (parse key path = .ok (.withProjects (some ps)) ∨
        ∃ p, parse key path = .ok (.withoutProjects (some p)) ∧ ps = [("default", p)]) := by
  unfold loadProjects
  cases openFile path with
  | error e => simp
  | ok u =>
    cases getFileLoader path with
    | error e => simp
    | ok key =>
      dsimp only
      cases hp : parse key path with
      | error e => simp [hp]
      | ok raw =>
        cases raw with
        | withProjects o => cases o <;> simp [hp]
        | withoutProjects o => cases o <;> simp [hp, eq_comm]

/-- C41: with a selection, exactly the selected project is loaded; there is an error if there is none of that name. -/
theorem C41_selection {P : Type} (openFile : String → Except Err Unit) (parse : String → String → Except Err (RawConfig P))
    (path : String) (all : Dict P) (hall : loadProjects openFile parse path none = .ok all) (hn : all.keys.Nodup)
    (name : String) (hne : name ≠ "") :
    match all.get? name with
    | some p => loadProjects openFile parse path (some name) = .ok [(name, p)]
    | none => ∃ e, loadProjects openFile parse path (some name) = .error e := by
  have hfilter : all.filter (fun kp => kp.1 == name) = match all.get? name with
      | some p => [(name, p)]
      | none => [] := by
    clear hall
    induction all with
    | nil => rfl
    | cons kp all ih =>
      obtain ⟨k, p⟩ := kp
      simp only [Dict.keys, List.map_cons, List.nodup_cons] at hn
      have ih := ih hn.2
      by_cases hk : k = name
      · subst hk
        simp only [List.filter_cons, beq_self_eq_true, if_true, Dict.get?]
        have : Dict.get? all k = none := (Dict.get?_eq_none_iff _ _).2 hn.1
        rw [this] at ih
        rw [ih]
      · simp only [List.filter_cons, Dict.get?, hk, beq_iff_eq, if_false]
        exact ih
  have hload : loadProjects openFile parse path (some name) =
      if (all.filter fun kp => kp.1 == name).length ≥ 1 then .ok (all.filter fun kp => kp.1 == name)
      else .error (.assertion "select") := by
    unfold loadProjects at hall ⊢
    cases ho : openFile path with
    | error e => rw [ho] at hall; cases hall
    | ok u =>
      rw [ho] at hall
      dsimp only at hall ⊢
      cases hl : getFileLoader path with
      | error e => rw [hl] at hall; cases hall
      | ok key =>
        rw [hl] at hall
        dsimp only at hall ⊢
        cases hp : parse key path with
        | error e => rw [hp] at hall; cases hall
        | ok raw =>
          rw [hp] at hall
          dsimp only at hall ⊢
          split at hall
          · cases hall
          · cases hall
            rw [if_neg (by simpa using hne)]
  rw [hload, hfilter]
  cases all.get? name with
  | some p => simp
  | none => exact ⟨_, rfl⟩

/-- C41: a configuration is found in a folder exactly when the folder has a single candidate. -/
theorem C41_discovery (join : String → String) (listing : List String) (c : String) :
    scanSingle join listing = .ok c ↔ ∃ before f after, listing = before ++ f :: after ∧
      lowerAscii f ∈ scannable ∧ (∀ g ∈ before ++ after, lowerAscii g ∉ scannable) ∧ c = join f := by
  unfold scanSingle scanFolder
  constructor
  · intro h
    split at h
    · cases h
    · rename_i x hx
      cases h
      obtain ⟨f, hf, rfl⟩ : ∃ f, listing.filter (fun f => scannable.contains (lowerAscii f)) = [f] ∧ join f = c := by
        cases hl : listing.filter (fun f => scannable.contains (lowerAscii f)) with
        | nil => rw [hl] at hx; cases hx
        | cons f l =>
          cases l with
          | nil => rw [hl] at hx; cases hx; exact ⟨f, rfl, rfl⟩
          | cons _ _ => rw [hl] at hx; cases hx
      clear hx
      induction listing with
      | nil => cases hf
      | cons a l ih =>
        by_cases ha : lowerAscii a ∈ scannable
        · rw [List.filter_cons_of_pos (by simpa using ha)] at hf
          obtain ⟨rfl, hnil⟩ := List.cons.inj hf
          refine ⟨[], a, l, rfl, ha, ?_, rfl⟩
          intro g hg
          have := List.filter_eq_nil_iff.1 hnil g (by simpa using hg)
          simpa using this
        · rw [List.filter_cons_of_neg (by simpa using ha)] at hf
          obtain ⟨before, f', after, rfl, h1, h2, h3⟩ := ih hf
          refine ⟨a :: before, f', after, rfl, h1, ?_, h3⟩
          intro g hg
          rw [List.cons_append] at hg
          rcases List.mem_cons.1 hg with rfl | hg
          · exact ha
          · exact h2 g hg
    · cases h
  · rintro ⟨before, f, after, rfl, h1, h2, rfl⟩
    have e : ∀ l : List String, (∀ g ∈ l, g ∈ before ++ after) → l.filter (fun f => scannable.contains (lowerAscii f)) = [] := by
      intro l hl
      refine List.filter_eq_nil_iff.2 fun g hg => ?_
      have := h2 g (hl g hg)
      simpa using this
    rw [List.filter_append, List.filter_cons_of_pos (by simpa using h1), e before (fun g hg => by simp [hg]),
      e after (fun g hg => by simp [hg])]
    rfl

/-- C41: a command runs on exactly the projects of the given file — or, if none is given, of the single one
discovered in the folder —, restricted to the one named, if one is. -/
theorem C41_command {P : Type} (openFile : String → Except Err Unit) (parse : String → String → Except Err (RawConfig P))
    (join : String → String) (listing : List String) (config project : Option String) (ps : Dict P) :
    commandProjects openFile parse join listing config project = .ok ps ↔
    ∃ path, path ≠ "" ∧
      ((config = some path) ∨ ((config = none ∨ config = some "") ∧ scanSingle join listing = .ok path)) ∧
      ∃ all, loadProjects openFile parse path none = .ok all ∧
        ((project = none ∨ project = some "") ∧ ps = all ∨
          ∃ name, name ≠ "" ∧ project = some name ∧ ps ≠ [] ∧ ps = all.filter fun (kp : String × P) => kp.1 = name) := by
  have hsel : ∀ all : Dict P, commandSelect project all = .ok ps ↔
      ((project = none ∨ project = some "") ∧ ps = all ∨
          ∃ name, name ≠ "" ∧ project = some name ∧ ps ≠ [] ∧ ps = all.filter fun (kp : String × P) => kp.1 = name) := by
    intro all
    unfold commandSelect
    cases project with
    | none => simp [eq_comm]
    | some key =>
      dsimp only
      by_cases hk : key = ""
      · subst hk
        rw [if_pos (by simp), Except.ok.injEq]
        constructor
        · intro h; exact .inl ⟨.inr rfl, h.symm⟩
        · rintro (⟨-, h⟩ | ⟨n, hn, h, -⟩)
          · exact h.symm
          · cases h; exact absurd rfl hn
      · rw [if_neg (by simpa using hk)]
        have hf : (all.filter fun (kp : String × P) => kp.1 == key) = all.filter fun (kp : String × P) => kp.1 = key := by
          congr 1
        rw [hf]
        constructor
        · intro h
          split at h
          · cases h
          · rename_i he
            cases h
            exact .inr ⟨key, hk, rfl, by simpa using he, rfl⟩
        · rintro (⟨h | h, -⟩ | ⟨n, hn, h, hne, rfl⟩)
          · cases h
          · cases h; exact absurd rfl hk
          · cases h
            rw [if_neg (by simpa using hne)]
  have hpath : ∀ path : String, commandPath join listing config = .ok path ∧ path ≠ "" ↔ path ≠ "" ∧
      ((config = some path) ∨ ((config = none ∨ config = some "") ∧ scanSingle join listing = .ok path)) := by
    intro path
    unfold commandPath
    cases config with
    | none => simp [and_comm]
    | some c =>
      dsimp only
      by_cases hc : c = ""
      · subst hc
        rw [if_pos (by simp)]
        constructor
        · rintro ⟨h, hp⟩; exact ⟨hp, .inr ⟨.inr rfl, h⟩⟩
        · rintro ⟨hp, h | ⟨-, h⟩⟩
          · cases h; exact absurd rfl hp
          · exact ⟨h, hp⟩
      · rw [if_neg (by simpa using hc)]
        constructor
        · rintro ⟨h, hp⟩; cases h; exact ⟨hp, .inl rfl⟩
        · rintro ⟨hp, h | ⟨h | h, -⟩⟩
          · cases h; exact ⟨rfl, hp⟩
          · cases h
          · cases h; exact absurd rfl hc
  unfold commandProjects
  constructor
  · intro h
    cases hr : commandPath join listing config with
    | error e => rw [hr] at h; cases h
    | ok path =>
      rw [hr] at h
      dsimp only at h
      split at h
      · cases h
      · rename_i hp
        have h0 := (hpath path).1 ⟨hr, by simpa using hp⟩
        cases hl : loadProjects openFile parse path none with
        | error e => rw [hl] at h; cases h
        | ok all =>
          rw [hl] at h
          dsimp only at h
          refine ⟨path, h0.1, h0.2, all, hl, (hsel all).1 ?_⟩
          cases hc : commandSelect project all with
          | error e => rw [hc] at h; cases h
          | ok c => rw [hc] at h; exact h
  · rintro ⟨path, h1, h2, all, hl, h3⟩
    rw [((hpath path).2 ⟨h1, h2⟩).1]
    dsimp only
    rw [if_neg (by simpa using h1), hl]
    dsimp only
    rw [(hsel all).2 h3]

/-- C41: and every other outcome is an error the command line reports (a `ClickException`), never a traceback. -/
theorem C41_command_errors {P : Type} (openFile : String → Except Err Unit) (parse : String → String → Except Err (RawConfig P))
    (join : String → String) (listing : List String) (config project : Option String) (e : Err)
    (h : commandProjects openFile parse join listing config project = .error e) : e = .other "ClickException" := by
  unfold commandProjects at h
  repeat' split at h
  all_goals first | (cases h; rfl) | cases h

example : commandProjects (P := Nat) (fun _ => .ok ()) (fun _ _ => .ok (.withProjects (some [("a", 1), ("b", 2)])))
    (fun f => "/w/" ++ f) ["x.txt", "graphql.config.yaml"] none (some "b") = .ok [("b", 2)] ∧
  commandProjects (P := Nat) (fun _ => .ok ()) (fun _ _ => .ok (.withProjects (some [("a", 1), ("b", 2)])))
    (fun f => "/w/" ++ f) [] none (some "b") = .error (.other "ClickException") := by decide +kernel

example : loadProjects (P := Nat) (fun _ => .ok ()) (fun _ _ => .ok (.withProjects (some [("a", 1), ("b", 2)]))) "x/G.YAML" (some "b")
      = .ok [("b", 2)] ∧
    scanSingle (fun f => "/w/" ++ f) ["README.md", "GraphQL.config.yaml"] = .ok "/w/GraphQL.config.yaml" ∧
    scanSingle id ["graphql.config.yaml", ".graphqlrc.toml"] = .error (.generationError "multiple") ∧
    getFileLoader "config.ini" = .error (.keyError "ini") := by decide +kernel

/-! ## C58 -/

/-- C58: `import_string` succeeds exactly on `module.attribute` — split at the last dot — where the module can be
imported and has the attribute, and then returns that attribute. -/
theorem C58_import_string {M A : Type} (importModule : String → Except Err M) (getAttr : M → String → Option A)
    (dotted : String) (a : A) :
    importString importModule getAttr dotted = .ok a ↔
    ∃ mod attr m, dotted = mod ++ "." ++ attr ∧ '.' ∉ attr.toList ∧
      importModule mod = .ok m ∧ getAttr m attr = some a := by
  unfold importString
  constructor
  · intro h
    split at h
    · cases h
    · rename_i hd
      have hd : hasDot dotted = true := by simpa using hd
      split at h
      · cases h
      · cases h
      · rename_i m hm
        split at h
        · cases h
        · rename_i x hx
          cases h
          obtain ⟨h1, h2⟩ := dotted_split dotted hd
          exact ⟨_, _, m, h1.symm, by simpa [hasDot] using h2, hm, hx⟩
  · rintro ⟨mo, at_, m, hd, hn, hm, hx⟩
    obtain ⟨h1, h2, h3⟩ := (dotted_iff dotted mo at_).2 ⟨hd, by simpa [hasDot] using hn⟩
    rw [h1]
    simp only [Bool.not_true, Bool.false_eq_true, if_false, h2, h3, hm, hx]

/-- C58: a string without a dot, and an attribute the module does not have, give an `ImportError`. -/
theorem C58_rejected {M A : Type} (importModule : String → Except Err M) (getAttr : M → String → Option A) :
    (∀ s : String, '.' ∉ s.toList → importString importModule getAttr s = .error (.importError s)) ∧
    (∀ (mod attr : String) (m : M), '.' ∉ attr.toList → importModule mod = .ok m →
      getAttr m attr = none → importString importModule getAttr (mod ++ "." ++ attr) =
        .error (.importError (mod ++ "." ++ attr))) := by
  constructor
  · intro s hs
    unfold importString
    rw [if_pos (by simpa [hasDot] using hs)]
  · intro mo at_ m hn hm hx
    obtain ⟨h1, h2, h3⟩ := (dotted_iff (mo ++ "." ++ at_) mo at_).2 ⟨rfl, by simpa [hasDot] using hn⟩
    unfold importString
    rw [h1]
    simp only [Bool.not_true, Bool.false_eq_true, if_false, h2, h3, hm, hx]

example : importString (fun m => if m = "a.b" then .ok 1 else .error (.importError m))
    (fun _ n => if n = "C" then some 7 else none) "a.b.C" = .ok 7 := by decide +kernel

/-! ## C59 -/

/-- C59 is false of the code: the filter looks at what follows the *first* dot of the file name. A document with
another dot in its name is ignored, a backup file is not, and a name without a dot raises an exception. -/
theorem C59_watch_filter_counterexample :
    watchFilter true "docs/user.fragments.graphql" = .ok false ∧
    watchFilter true "docs/user.graphql.bak" = .ok true ∧
    watchFilter true "docs/Makefile" = .error .indexError ∧
    watchFilter true ".graphql" = .ok true := by decide +kernel

theorem splitOnChar_append_dot {a : List Char} (ha : '.' ∉ a) (b : List Char) :
    splitOnChar '.' (a ++ '.' :: b) = a :: splitOnChar '.' b := by
  induction a with
  | nil => simp [splitOnChar]
  | cons c a ih =>
    have hc : c ≠ '.' := fun h => ha (by simp [h])
    rw [List.cons_append, splitOnChar, if_neg hc, ih (fun h => ha (by simp [h]))]

theorem splitOnChar_none {a : List Char} (ha : '.' ∉ a) : splitOnChar '.' a = [a] := by
  have h1 := (splitOnChar_single_iff '.' a).2 ha
  have hj := joinWith_split '.' a
  match hs : splitOnChar '.' a, h1 with
  | [x], _ => rw [hs] at hj; simp [joinWith] at hj; rw [hj]

theorem splitOnChar_append (c : Char) (a b : List Char) : splitOnChar c (a ++ c :: b) = splitOnChar c a ++ splitOnChar c b := by
  induction a with
  | nil => simp [splitOnChar]
  | cons d a ih =>
    rw [List.cons_append, splitOnChar, splitOnChar]
    by_cases hd : d = c
    · rw [if_pos hd, if_pos hd, ih]; rfl
    · rw [if_neg hd, if_neg hd, ih]
      cases hs : splitOnChar c a with
      | nil => exact absurd hs (splitOnChar_ne_nil c a)
      | cons w ws => rfl

theorem splitOnChar_alone {c : Char} {a : List Char} (ha : c ∉ a) : splitOnChar c a = [a] := by
  have h1 := (splitOnChar_single_iff c a).2 ha
  have hj := joinWith_split c a
  match hs : splitOnChar c a, h1 with
  | [x], _ => rw [hs] at hj; simp [joinWith] at hj; rw [hj]

/-- C59: the name of a file is what follows the last slash of its path, or the path if there is none. -/
theorem C59_file_name (path file : String) (hf : '/' ∉ file.toList)
    (hp : path = file ∨ ∃ folder, path = folder ++ "/" ++ file) : basename path = file := by
  unfold basename
  rcases hp with rfl | ⟨folder, rfl⟩
  · rw [splitOnChar_alone hf]; simp
  · rw [show (folder ++ "/" ++ file).toList = folder.toList ++ '/' :: file.toList by simp, splitOnChar_append,
      splitOnChar_alone hf]
    simp

/-- C59, what does hold: for a file, in whatever folder, whose name has exactly one dot the filter lets the change through
exactly if the file is a `.graphql` file (and watchfiles itself does not ignore it). -/
theorem C59_watch_filter_partial (base : Bool) (path stem ending : String)
    (hp : path = stem ++ "." ++ ending ∨ ∃ folder, path = folder ++ "/" ++ (stem ++ "." ++ ending))
    (h1 : '.' ∉ stem.toList) (h2 : '.' ∉ ending.toList) (h3 : '/' ∉ stem.toList) (h4 : '/' ∉ ending.toList) :
    watchFilter base path = .ok (base && ending == "graphql") := by
  unfold watchFilter
  rw [C59_file_name path _ (by simp [h3, h4]) hp]
  cases base with
  | false => rfl
  | true =>
    have : (stem ++ "." ++ ending).toList = stem.toList ++ '.' :: ending.toList := by simp
    rw [this, splitOnChar_append_dot h1, splitOnChar_none h2]
    simp only [Bool.not_true, Bool.false_eq_true, if_false, Bool.true_and, List.getElem?_cons_succ, List.getElem?_cons_zero]
    congr 1
    rw [Bool.eq_iff_iff, beq_iff_eq, beq_iff_eq]
    exact String.toList_inj

/-- C59, the other file names: if the name has further dots only the part between the first two of them matters, so what
the file really is does not count, and if it has no dot the filter raises an exception. -/
theorem C59_other_names (path : String) :
    (∀ stem middle rest : String,
      (path = stem ++ "." ++ middle ++ "." ++ rest ∨ ∃ folder, path = folder ++ "/" ++ (stem ++ "." ++ middle ++ "." ++ rest)) →
      '.' ∉ stem.toList → '.' ∉ middle.toList →
      '/' ∉ stem.toList → '/' ∉ middle.toList → '/' ∉ rest.toList →
      watchFilter true path = .ok (middle == "graphql")) ∧
    (∀ name : String, (path = name ∨ ∃ folder, path = folder ++ "/" ++ name) →
      '.' ∉ name.toList → '/' ∉ name.toList → watchFilter true path = .error .indexError) := by
  constructor
  · intro stem middle rest hp h1 h2 h3 h4 h5
    unfold watchFilter
    rw [C59_file_name path _ (by simp [h3, h4, h5]) hp]
    have : (stem ++ "." ++ middle ++ "." ++ rest).toList =
        stem.toList ++ '.' :: (middle.toList ++ '.' :: rest.toList) := by simp
    rw [this, splitOnChar_append_dot h1, splitOnChar_append_dot h2]
    simp only [Bool.not_true, Bool.false_eq_true, if_false, List.getElem?_cons_succ, List.getElem?_cons_zero]
    congr 1
    rw [Bool.eq_iff_iff, beq_iff_eq, beq_iff_eq]
    exact String.toList_inj
  · intro name hp h1 h2
    unfold watchFilter
    rw [C59_file_name path _ h2 hp, splitOnChar_none h1]
    rfl

example : watchFilter true "/w/a.graphql.orig.py" = .ok true ∧ watchFilter true "a.b/LICENSE" = .error .indexError := by
  decide +kernel

example : watchFilter true "/w/docs/user.graphql" = .ok true ∧ watchFilter true "/w.d/user.py" = .ok false := by
  decide +kernel

end Turms.Props
