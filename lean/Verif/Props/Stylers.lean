import Verif.Lemmas.Stylers

/-!
# C01, C03 and the keyword part of C02: names
-/

namespace Turms.Props
open Turms Turms.Spec

/-- C01 (exact): the two regular-expression substitutions compute snake_case as specified by word
boundaries: one underscore is inserted at every boundary and nowhere else, then everything is
lower-cased. -/
theorem C01_snake_exact (name : String) : (camelToSnake name).toList = Spec.snake name.toList := by
  simp [camelToSnake, camelToSnakeL_eq_snake]

example : camelToSnake "getHTTPResponseCode2Xx" = "get_http_response_code2_xx" := by decide +kernel

/-- C01: the styled name contains no upper-case letter. -/
theorem C01_no_upper (name : String) : ∀ c ∈ (camelToSnake name).toList, c.isUpper = false := by
  rw [C01_snake_exact]; exact snake_no_upper _

/-- C01: styling twice is styling once. -/
theorem C01_idempotent (name : String) : camelToSnake (camelToSnake name) = camelToSnake name := by
  have h : (camelToSnake (camelToSnake name)).toList = (camelToSnake name).toList := by
    rw [C01_snake_exact]
    exact snake_of_no_upper _ (C01_no_upper name)
  exact String.toList_inj.1 h

/-- C01: ignoring underscores, the styled name is the lower-cased input. -/
theorem C01_only_underscores_added (name : String) :
    (camelToSnake name).toList.filter (· != '_') =
      (name.toList.filter (· != '_')).map Char.toLower := by
  rw [C01_snake_exact]
  unfold snake
  rw [List.filter_map]
  have : ((fun x => x != '_') ∘ Char.toLower) = (fun x : Char => x != '_') := by
    funext c
    have := @toLower_eq_underscore c
    rw [Bool.eq_iff_iff]
    simp only [Function.comp, bne_iff_ne, ne_eq, this]
  rw [this, wordsFrom_filter]

/-- C01: nothing is dropped or reordered, also not the underscores already present. -/
theorem C01_keeps_input (name : String) :
    (name.toList.map Char.toLower).Sublist (camelToSnake name).toList := by
  rw [C01_snake_exact]
  exact (wordsFrom_sublist none name.toList).map _

/-- C01: the first character is the lower-cased first character of the input (so no leading underscore
is invented). -/
theorem C01_first_char (name : String) :
    (camelToSnake name).toList.head? = name.toList.head?.map Char.toLower := by
  rw [C01_snake_exact]
  unfold snake
  cases name.toList with
  | nil => simp [wordsFrom]
  | cons c r => simp [wordsFrom_none]

/-- C01: a valid GraphQL name is styled to a valid GraphQL (hence Python) name. -/
theorem C01_valid_identifier (name : String) (h : IsName name.toList) :
    IsName (camelToSnake name).toList := by
  rw [C01_snake_exact]
  unfold snake
  cases hn : name.toList with
  | nil => rw [hn] at h; exact h.elim
  | cons c r =>
    rw [hn] at h
    rw [wordsFrom_none]
    simp only [List.map_cons]
    refine ⟨⟨identChar_toLower h.1.1, ?_⟩, ?_⟩
    · rw [isDigit_toLower]; exact h.1.2
    · intro d hd
      simp only [List.mem_map] at hd
      obtain ⟨e, he, rfl⟩ := hd
      apply identChar_toLower
      rcases wordsFrom_mem he with he | he
      · exact h.2 e he
      · subst he; right; right; right; rfl

example : IsName "fooBar_2".toList := by
  simp [IsName, IdentChar]

/-- C01: a name that is already free of capitals is left alone (no alias is needed for it). -/
theorem C01_fixpoint (name : String) (h : ∀ c ∈ name.toList, c.isUpper = false) :
    camelToSnake name = name := by
  apply String.toList_inj.1
  rw [C01_snake_exact]; exact snake_of_no_upper _ h

example : ∀ c ∈ "created_at2".toList, c.isUpper = false := by decide +kernel

/-- Limit of C01: styling is *not* injective, so two different GraphQL fields of one type can be given
the same Python attribute (the code does not detect this). -/
theorem C01_not_injective_counterexample :
    "fooBar" ≠ "foo_bar" ∧ camelToSnake "fooBar" = camelToSnake "foo_bar" := by decide +kernel

/-- C02 (keyword part): whatever the stylers do, a generated attribute or class name is never a Python
keyword. -/
theorem C02_never_keyword (stylers : List Styler) (method : Styler → String → Except Err String)
    (name out : String) (h : styled stylers method name = .ok out) : out ∉ kwlist := by
  unfold styled at h
  split at h
  · cases h
  · rename_i n _
    cases h
    have := escapeKeyword_not_keyword n
    simpa [isKeyword] using this

example : generateNodeName [defaultStyler] "Class" = .ok "class_" := by decide +kernel
example : generateNodeName [defaultStyler] "fooBar" = .ok "foo_bar" := by decide +kernel

/-- C03: the capitalising stylers change only the first character, and give a result without leading
lower-case letter; the only failure is the empty name. -/
theorem C03_capitalize (name : String) :
    (name = "" ∧ capitalizeFirst name = .error .indexError) ∨
    ∃ c cs, name.toList = c :: cs ∧ capitalizeFirst name = .ok (String.ofList (c.toUpper :: cs)) ∧
      c.toUpper.isLower = false := by
  unfold capitalizeFirst
  cases h : name.toList with
  | nil =>
    left
    refine ⟨?_, rfl⟩
    apply String.toList_inj.1; rw [h]; rfl
  | cons c cs =>
    right
    refine ⟨c, cs, rfl, rfl, ?_⟩
    exact toUpper_not_lower c

/-- C03: capitalising twice is capitalising once. -/
theorem C03_capitalize_idempotent (name out : String) (h : capitalizeFirst name = .ok out) :
    capitalizeFirst out = .ok out := by
  rcases C03_capitalize name with ⟨_, h'⟩ | ⟨c, cs, _, h', hl⟩
  · rw [h'] at h; cases h
  · rw [h'] at h; cases h
    unfold capitalizeFirst
    simp only [String.toList_ofList]
    rw [toUpper_of_not_lower hl]

example : capitalizeFirst "fooBar" = .ok "FooBar" := by decide +kernel

/-- C03: appending a suffix never makes two names equal. -/
theorem C03_append_injective (c : AppenderConfig) (a b out : String)
    (ha : (appenderStyler c).fragmentName a = .ok out)
    (hb : (appenderStyler c).fragmentName b = .ok out) : a = b := by
  simp only [appenderStyler] at ha hb
  cases ha
  have hb : b ++ c.fragment = a ++ c.fragment := by injection hb
  have := congrArg String.toList hb
  simp at this
  exact (String.toList_inj.1 this).symm

example : (appenderStyler {}).fragmentName "user" = .ok "userFragment" := by decide +kernel

/-- C03: stylers are applied in configuration order, the output of each feeding the next. -/
theorem C03_chain_order (first rest : List Styler) (method : Styler → String → Except Err String)
    (name mid out : String) (h1 : styleChain first method name = .ok mid)
    (h2 : styleChain rest method mid = .ok out) :
    styleChain (first ++ rest) method name = .ok out := by
  induction first generalizing name with
  | nil => cases h1; exact h2
  | cons s first ih =>
    simp only [List.cons_append, styleChain] at h1 ⊢
    split at h1
    · cases h1
    · exact ih _ h1

/-- C03: a chain is exactly its first styler followed by the others, and a failing styler stops it. -/
theorem C03_chain_cons (s : Styler) (rest : List Styler) (method : Styler → String → Except Err String)
    (name : String) :
    styleChain (s :: rest) method name = (method s name).bind (styleChain rest method) := by
  rw [styleChain]; cases method s name <;> rfl

example : styleChain [capitalizeStyler, appenderStyler {}] Styler.queryName "search" = .ok "SearchQuery" := by
  decide +kernel
example : styleChain [appenderStyler {query := "q"}, capitalizeStyler] Styler.queryName "_" = .ok "_q" := by
  decide +kernel

end Turms.Props
