import Verif.Lemmas.Embed
import Verif.Lemmas.Typename

/-!
# Properties of generated documents (C13, C14, C15)
-/

namespace Turms.Props
open Turms.Documents Turms.Spec

/-- How the fragment documents get into the registry: every fragment's printed definition under its name. -/
def registered (frags : List FragDef) : Dict (List Char) := frags.map (fun f => (f.name, printFragment f))

/-- What is assumed of the third-party parser and printer: re-parsing a printed fragment gives it back, so that
re-printing it with `__typename` prints that fragment. -/
def ParsesBack (prep : List Char → List Char) (frags : List FragDef) : Prop :=
  ∀ f ∈ frags, prep (printFragment f) = printFragment (withTypename f)

theorem withTypename_eq (f : FragDef) : withTypename f = addTypenameToFragment f := by
  have : isTypenameField = isTypename := by funext s; cases s <;> rfl
  unfold withTypename addTypenameToFragment
  rw [this]
  rfl

/-! ## C13 -/

/-- For every operation and every set of registered fragments (any spread graph, cyclic or not; spreads below
fields and inline fragments): the embedded document, if it is built, consists of the printed definitions of
exactly the fragments the operation needs, each once, separated by blank lines, followed by the printed
operation.

Missing for the full property: fragment names with digits or underscores, and string constants containing
`...`; for both the property is false (`C13_digit_name_counterexample`,
`C13_string_constant_counterexample`). -/
theorem C13_self_contained_partial (prep : List Char → List Char) (frags : List FragDef)
    (hu : (frags.map (·.name)).Nodup) (hprep : ParsesBack prep frags)
    (hok : ∀ f ∈ frags, fragOk f = true) (name : String) (o : OpDef) (ho : opOk name o = true)
    (text : List Char) (h : embedDocument prep (registered frags) (printOperation name o) = .ok text) :
    ∃ used : List FragDef,
      (used.map (·.name)).Nodup ∧ (∀ f ∈ used, f ∈ frags) ∧
      (∀ n, n ∈ used.map (·.name) ↔ Needs frags o.sels n) ∧
      text = ['\n', '\n'].intercalate
        (used.map (fun f => printFragment (withTypename f)) ++ [printOperation name o]) := by
  have hs := embedOperation_spec (prep := prep) hu (fun f hf => by rw [hprep f hf, withTypename_eq]) hok ho
  rcases hs with ⟨k, _, _, he⟩ | ⟨fs, h1, h2, h3, h4⟩
  · have : embedDocument prep (registered frags) (printOperation name o) = _ := he
    rw [h] at this
    cases this
  · have : embedDocument prep (registered frags) (printOperation name o) = _ := h4
    rw [h] at this
    refine ⟨fs, h1, fun f hf => (Fragments.lookup_mem (h2 f hf)).1, h3, ?_⟩
    rw [← joinS_eq_intercalate]
    simp only [Except.ok.injEq] at this
    rw [this]
    simp only [withTypename_eq]

/-- an operation spreading `A` below a field and `B` below an inline fragment; `A` spreads `B`, `B` spreads `A`;
`C` is not needed -/
def embedFrags : List FragDef :=
  [⟨"A", "T", [.field "x" none [] [], .spread "B"]⟩, ⟨"B", "T", [.spread "A", .field "__typename" none [] []]⟩,
   ⟨"C", "T", [.field "y" none [] []]⟩]

def embedOp : OpDef :=
  ⟨.query, some "Get", [⟨"id", .nonNull (.named "ID"), none⟩],
   [.field "node" none [("id", .variable "id")] [.spread "A", .inline (some "T") [.spread "B"]]]⟩

/-- a parser-printer that satisfies `ParsesBack` for `embedFrags` -/
def embedPrep (s : List Char) : List Char :=
  match embedFrags.find? (fun f => printFragment f == s) with
  | some f => printFragment (withTypename f)
  | none => s

example : (embedFrags.map (·.name)).Nodup ∧ (∀ f ∈ embedFrags, fragOk f = true) ∧ opOk "Get" embedOp = true := by
  decide +kernel

example : ParsesBack embedPrep embedFrags := by
  unfold ParsesBack; decide +kernel

example : embedDocument embedPrep (registered embedFrags) (printOperation "Get" embedOp) = .ok
    ("fragment A on T {\n  x\n  ...B\n  __typename\n}\n\nfragment B on T {\n  ...A\n  __typename\n}\n\n" ++
     "query Get($id: ID!) {\n  node(id: $id) {\n    ...A\n    ... on T {\n      ...B\n    }\n  }\n}").toList := by
  decide +kernel

/-- A fragment whose name contains a digit is cut short by the search: although it is registered, building the
document fails. -/
theorem C13_digit_name_counterexample :
    ∃ (frags : List FragDef) (o : OpDef) (prep : List Char → List Char), ParsesBack prep frags ∧
      (∀ n, Needs frags o.sels n → n ∈ frags.map (·.name)) ∧
      embedDocument prep (registered frags) (printOperation "Get" o) = .error (.fragmentNotFound "User") := by
  refine ⟨[⟨"User2", "T", [.field "__typename" none [] []]⟩], ⟨.query, some "Get", [], [.spread "User2"]⟩, id,
    ?_, ?_, ?_⟩
  · unfold ParsesBack; decide +kernel
  · intro n hn
    cases hn with
    | direct _ h => rw [(spreads_spread _ _).1 h]; decide +kernel
    | through g d _ _ hl hs =>
      have := (Fragments.lookup_mem hl).1
      simp only [List.mem_singleton] at this
      subst this
      rw [spreads_field] at hs
      exact absurd hs (spreads_nil _)
  · decide +kernel

/-- The same cut can pick another fragment: `...User2` embeds the fragment `User` that nobody spreads, and leaves
out `User2`. -/
theorem C13_wrong_fragment_counterexample :
    embedDocument id (registered [⟨"User", "T", [.field "__typename" none [] []]⟩,
        ⟨"User2", "T", [.field "__typename" none [] []]⟩])
      (printOperation "Get" ⟨.query, some "Get", [], [.spread "User2"]⟩) =
      .ok "fragment User on T {\n  __typename\n}\n\nquery Get {\n  ...User2\n}".toList := by decide +kernel

/-- A string constant containing `...` is taken for a fragment spread. -/
theorem C13_string_constant_counterexample :
    embedDocument id [] (printOperation "Get" ⟨.query, some "Get", [],
        [.field "search" none [("text", .string "and so on...etc")] []]⟩) =
      .error (.fragmentNotFound "etc") := by decide +kernel

/-! ## C14 -/

/-- For every operation and registry content, also when fragments spread each other cyclically, building the
embedded document terminates (the model's bound on the number of rounds is never reached); it fails exactly
when a needed fragment is not registered, the error is always `FragmentNotFoundError`, and it names a needed and
missing fragment.

Same restriction on names and string constants as C13. -/
theorem C14_missing_iff_partial (prep : List Char → List Char) (frags : List FragDef)
    (hu : (frags.map (·.name)).Nodup) (hprep : ParsesBack prep frags)
    (hok : ∀ f ∈ frags, fragOk f = true) (name : String) (o : OpDef) (ho : opOk name o = true) :
    ((∃ text, embedDocument prep (registered frags) (printOperation name o) = .ok text) ↔
      ∀ n, Needs frags o.sels n → n ∈ frags.map (·.name)) ∧
    (∀ e, embedDocument prep (registered frags) (printOperation name o) = .error e →
      ∃ n, e = .fragmentNotFound n ∧ Needs frags o.sels n ∧ n ∉ frags.map (·.name)) := by
  have hnone : ∀ k, lookup frags k = none → k ∉ frags.map (·.name) := by
    intro k hl hm
    obtain ⟨f, hf, rfl⟩ := List.mem_map.1 hm
    unfold lookup at hl
    have := List.find?_eq_none.1 hl f (List.mem_reverse.2 hf)
    simp at this
  have hs := embedOperation_spec (prep := prep) hu (fun f hf => by rw [hprep f hf, withTypename_eq]) hok ho
  rcases hs with ⟨k, hk, hl, he⟩ | ⟨fs, h1, h2, h3, h4⟩
  · have he : embedDocument prep (registered frags) (printOperation name o) = _ := he
    rw [he]
    refine ⟨⟨?_, ?_⟩, ?_⟩
    · rintro ⟨t, ht⟩; cases ht
    · intro hall; exact absurd (hall k hk) (hnone k hl)
    · intro e hee
      cases hee
      exact ⟨k, rfl, hk, hnone k hl⟩
  · have h4 : embedDocument prep (registered frags) (printOperation name o) = _ := h4
    rw [h4]
    refine ⟨⟨?_, ?_⟩, ?_⟩
    · intro _ n hn
      obtain ⟨f, hf, rfl⟩ := List.mem_map.1 ((h3 n).2 hn)
      exact List.mem_map_of_mem (Fragments.lookup_mem (h2 f hf)).1
    · intro _; exact ⟨_, rfl⟩
    · intro e hee; cases hee

/-- a fragment missing two levels down -/
example : embedDocument id (registered [⟨"A", "T", [.spread "Gone", .field "__typename" none [] []]⟩])
    (printOperation "Get" ⟨.query, some "Get", [], [.spread "A"]⟩) = .error (.fragmentNotFound "Gone") := by
  decide +kernel

/-! ## C15 -/

/-- For every document: after the insertion, every selection set below an operation's root and every selection
set of a fragment requests `__typename`.

Missing for the full property: selection sets of fields inside inline fragments, and selection sets with an
aliased `__typename`; for both it is false (`C15_inline_counterexample`, `C15_alias_counterexample`). -/
theorem C15_typename_everywhere_partial (doc : Document) (h : ∀ d ∈ doc, simpleDefn d = true) :
    ∀ d ∈ autoAddTypename doc, typenameComplete d = true := by
  intro d hd
  obtain ⟨d0, hd0, rfl⟩ := List.mem_map.1 hd
  have hs := h d0 hd0
  cases d0 with
  | operation o => exact addTypenameEach_below o.sels hs
  | fragment f =>
    simp only [addTypenameDefn, typenameComplete, Bool.and_eq_true]
    exact ⟨addTypename_requests hs, addTypename_below f.sels hs⟩

/-- For every document, without restriction: definitions keep their kind, name, variables and type condition and
their order; in every selection set all original selections are kept in order, and `__typename` is appended at
most once and only where it was not selected. -/
theorem C15_nothing_else_changes (doc : Document) (i : Nat) :
    (∀ o, doc[i]? = some (.operation o) → ∃ sels, (autoAddTypename doc)[i]? = some (.operation { o with sels := sels }) ∧
      ExtendsEach o.sels sels) ∧
    (∀ f, doc[i]? = some (.fragment f) → ∃ sels, (autoAddTypename doc)[i]? = some (.fragment { f with sels := sels }) ∧
      ExtendsSet f.sels sels) ∧
    (autoAddTypename doc).length = doc.length := by
  refine ⟨?_, ?_, by simp [autoAddTypename]⟩
  · intro o h
    refine ⟨_, by simp only [autoAddTypename, List.getElem?_map, h]; rfl, addTypenameEach_extends o.sels⟩
  · intro f h
    refine ⟨_, by simp only [autoAddTypename, List.getElem?_map, h]; rfl, addTypename_extends f.sels⟩

/-- For every document: inserting a second time changes nothing. -/
theorem C15_idempotent (doc : Document) : autoAddTypename (autoAddTypename doc) = autoAddTypename doc := by
  unfold autoAddTypename
  rw [List.map_map]
  apply List.map_congr_left
  intro d _
  cases d with
  | operation o =>
    simp only [Function.comp, addTypenameDefn, addTypenameTop, if_true]
    rw [addTypenameEach_idem]
  | fragment f =>
    simp only [Function.comp, addTypenameDefn, addTypenameTop, Bool.false_eq_true, if_false]
    rw [addTypename_idem]

/-- The insertion into a fragment's document (when it is embedded) is also an extension, requests `__typename`
unless it is there under an alias, and is idempotent. -/
theorem C15_fragment_string (f : FragDef) :
    (∃ sels, addTypenameToFragment f = { f with sels := sels } ∧ ExtendsSet f.sels sels) ∧
    (∃ a args sub, .field "__typename" a args sub ∈ (addTypenameToFragment f).sels) ∧
    addTypenameToFragment (addTypenameToFragment f) = addTypenameToFragment f := by
  unfold addTypenameToFragment
  by_cases h : f.sels.any isTypename
  · simp only [h, if_true]
    refine ⟨⟨f.sels, rfl, .same _ _ (ExtendsEach_refl _)⟩, ?_, trivial⟩
    obtain ⟨s, hs, ht⟩ := List.any_eq_true.1 h
    cases s with
    | field n a args sub =>
      have : n = "__typename" := by simpa [isTypename] using ht
      subst this
      exact ⟨a, args, sub, hs⟩
    | spread n => cases ht
    | inline t sub => cases ht
  · simp only [h, Bool.false_eq_true, if_false]
    refine ⟨⟨_, rfl, .added _ _ (ExtendsEach_refl _) ?_⟩, ⟨none, [], [], by simp [typenameSel]⟩, ?_⟩
    · intro a args sub hm
      exact h (List.any_eq_true.2 ⟨_, hm, rfl⟩)
    · have : (f.sels ++ [typenameSel]).any isTypename = true := by simp [typenameSel, isTypename]
      simp [this]

/-- `query Q { a { b { c } ...F } }   fragment F on T { d { e } }` -/
def typenameDoc : Document :=
  [.operation ⟨.query, some "Q", [], [.field "a" none [] [.field "b" none [] [.field "c" none [] []], .spread "F"]]⟩,
   .fragment ⟨"F", "T", [.field "d" none [] [.field "e" none [] []]]⟩]

example : autoAddTypename typenameDoc =
    [.operation ⟨.query, some "Q", [], [.field "a" none []
       [.field "b" none [] [.field "c" none [] [], .field "__typename" none [] []], .spread "F",
        .field "__typename" none [] []]]⟩,
     .fragment ⟨"F", "T", [.field "d" none [] [.field "e" none [] [], .field "__typename" none [] []],
        .field "__typename" none [] []]⟩] := by rfl

example : typenameDoc.all simpleDefn = true := by rfl

/-- `query Q { a { ... on X { b { c } } } }`: the selection set of `b` gets no `__typename`. -/
theorem C15_inline_counterexample :
    ¬ ∀ doc : Document, ∀ d ∈ autoAddTypename doc, typenameComplete d = true := by
  intro h
  have := h [.operation ⟨.query, some "Q", [],
    [.field "a" none [] [.inline (some "X") [.field "b" none [] [.field "c" none [] []]]]]⟩] _ List.mem_cons_self
  exact absurd this (by decide +kernel)

/-- `query Q { a { t: __typename } }`: the selection set of `a` does not get the key `__typename`. -/
theorem C15_alias_counterexample :
    autoAddTypename [.operation ⟨.query, some "Q", [], [.field "a" none [] [.field "__typename" (some "t") [] []]]⟩] =
      [.operation ⟨.query, some "Q", [], [.field "a" none [] [.field "__typename" (some "t") [] []]]⟩] ∧
    typenameComplete
      (.operation ⟨.query, some "Q", [], [.field "a" none [] [.field "__typename" (some "t") [] []]]⟩) = false :=
  ⟨rfl, rfl⟩

end Turms.Props
