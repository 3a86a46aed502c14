import Verif.Lemmas.SentDocuments
import Verif.Props.Compose
import Verif.Props.Fragments

/-! # C91: the document that is sent is the document that was written -/

namespace Turms.Props
open Spec Documents Spec.Syntax

/-- Printing loses nothing: every list of definitions the grammar knows is read back from its printed text, whatever
its names, constants, nesting, and however the lines are broken. -/
theorem C91_reads_back (ds : List Defn) (hne : ds ≠ []) (hg : ∀ d ∈ ds, goodDefn d = true) :
    read (['\n', '\n'].intercalate (ds.map printDefn)) = some ds := Turms.Syntax.read_printed ds hne hg

/-- What C13, C14 and others assume of the third-party parser and printer holds of every parser that reads by the
grammar. -/
theorem C91_parses_back (frags : List FragDef) (hg : ∀ f ∈ frags, goodFrag f = true) : ParsesBack reparse frags := by
  intro f hf
  rw [Turms.Syntax.reparse_fragment (hg f hf), withTypename_eq]

/-- C91: run the fragments plugin on a registry without fragments, then the operations plugin.  Then for every operation
of the document a class is generated that says which text to send, and this text means exactly: the operation as it was
written — name, kind, variables with types and defaults, selections, aliases and arguments —, and the fragments it needs,
each once, with `__typename`.

`goodDefn`: what a parser returns.  Missing for the full property: documents that are not `searchable`, for which it is
false (`C13_digit_name_counterexample`, `C13_wrong_fragment_counterexample`, `C13_string_constant_counterexample`). -/
theorem C91_sent_documents_partial {c : Ctx} {pf : FragmentsConfig} {po : OperationsConfig} {doc : Document}
    {r0 r1 r2 : Reg} {fs os : List Stmt} (h0 : r0.fragmentDocumentMap = [])
    (hu : ((fragmentsOf doc).map (·.name)).Nodup) (hg : ∀ d ∈ doc, goodDefn d = true)
    (hs : ∀ d ∈ doc, searchable d = true)
    (hf : fragmentsPlugin reparse c pf doc r0 = .ok (fs, r1))
    (ho : operationsPlugin reparse c po doc r1 = .ok (os, r2)) :
    ∀ o ∈ operationsOf doc, ∃ s ∈ os, ∃ text sent, SaysDocument s text ∧ read text.toList = some sent ∧
      AsksFor (fragmentsOf doc) o sent := by
  obtain ⟨l, hl, lnod, _, hperm⟩ := C12_document_fragments doc
  have hperm := hperm hu
  unfold fragmentsPlugin at hf
  obtain ⟨fl, rx, e, hf⟩ := Gen.bind_ok.1 hf
  obtain ⟨e, rfl⟩ := Gen.lift_ok.1 e
  rw [hl] at e
  cases e
  rw [generateFragments_loop] at hf
  have hreg := fragments_registered lnod hperm h0 hf
  unfold operationsPlugin at ho
  rw [generateOperations_loop] at ho
  intro o hom
  obtain ⟨q, code, q1, hq, hgen, hcode⟩ := loop_each
    (P := fun r => ∀ n, r.fragmentDocumentMap.get? n = r1.fragmentDocumentMap.get? n)
    (fun x q s q1 hq hx n => by rw [(moves_generateOperation.run _ _ _ hx).docs n id, hq n]) _ (fun _ => rfl) ho o hom
  obtain ⟨name, s, text, rd, hname, hsm, hsays, hrd, hemb⟩ := generateOperation_document hgen
  have hod := mem_operationsOf.1 hom
  have hgf : ∀ f ∈ fragmentsOf doc, goodFrag f = true := fun f hf => hg _ (mem_fragmentsOf.1 hf)
  have hok : ∀ f ∈ fragmentsOf doc, fragOk f = true := fun f hf => hs _ (mem_fragmentsOf.1 hf)
  have hoo : opOk name o = true := by
    have := hs _ hod
    simp only [searchable, hname, Option.getD_some] at this
    exact this
  have hgo : goodDefn (.operation o) = true := hg _ hod
  have hemb' : embedDocument reparse (registered (fragmentsOf doc)) (printOperation name o) = .ok text :=
    embed_congr (fun n => by rw [documentTexts_get?, hrd n, hq n, ← documentTexts_get?, hreg n]; rfl) hemb
  obtain ⟨used, u1, u2, u3, u4⟩ := C13_self_contained_partial reparse (fragmentsOf doc) hu
    (C91_parses_back _ hgf) hok name o hoo text hemb'
  refine ⟨s, hcode s hsm, String.ofList text, _, hsays, ?_, used, u1, u2, u3, rfl⟩
  have hprint : used.map (fun f => printFragment (withTypename f)) ++ [printOperation name o] =
      (used.map (fun f => Defn.fragment (withTypename f)) ++ [Defn.operation o]).map printDefn := by
    simp [printDefn, hname, Function.comp_def]
  rw [String.toList_ofList, u4, hprint]
  refine C91_reads_back _ (by simp) ?_
  intro d hd
  simp only [List.mem_append, List.mem_map, List.mem_singleton] at hd
  rcases hd with ⟨f, hf, rfl⟩ | rfl
  · rw [withTypename_eq]
    exact Turms.Syntax.good_addTypename (hgf f (u2 f hf))
  · exact hgo

/-! ## examples -/

/-- variables with defaults, aliases, all kinds of constants, arguments that do not fit on a line -/
def busyDoc : List Defn := [
  .fragment ⟨"Bits", "User", [.field "name" (some "on") [] [], .inline none [.field "id" none [] []]]⟩,
  .operation ⟨.mutation, some "Write2", [⟨"ids", .nonNull (.list (.nonNull (.named "ID"))), some (.list [.int "-1", .enum "on"])⟩,
      ⟨"deep", .list (.list (.named "Int")), none⟩], [
    .field "write" (some "w") [("text", .string "say \\\"...\\\" # or, {not}"), ("empty", .string ""), ("size", .float "1.5e-3"),
        ("where", .object [("a", .list [.null, .bool true, .variable "ids"]), ("b", .object [])])] [
      .spread "Bits", .inline (some "Post") [.field "fragment" none [] [.field "true" none [] []]]]]⟩]

example : ∀ d ∈ busyDoc, goodDefn d = true := by decide +kernel

/-- The grammar is not that of the printer: layout, commas and comments do not matter, -/
example : (read "fragment F on User{name,id} # twice\n{a:b(c:[1 2]){...F ... on Post{d}}}".toList).map
    (·.map printDefn) = some ([
      .fragment ⟨"F", "User", [.field "name" none [] [], .field "id" none [] []]⟩,
      .operation ⟨.query, none, [], [.field "b" (some "a") [("c", .list [.int "1", .int "2"])] [
        .spread "F", .inline (some "Post") [.field "d" none [] []]]]⟩].map printDefn) := by
  decide +kernel

/-- and what is not a document is not read. -/
example : ∀ s ∈ ["query Q { }", "query Q { a( }", "fragment on on User { a }", "{ a", "{ ... on }", "{ a } b", ""],
    (read s.toList).isNone = true := by
  decide +kernel

/-- the classes of `fullDoc`, after those of the types, if no fragment is known before -/
def sentCode : Option (List Stmt) :=
  match runPlugins (typePlugins storeCtx {} {}) (Reg.init storeCtx.env) with
  | .error _ => none
  | .ok (_, r) =>
    if r.fragmentDocumentMap.isEmpty then
      match fragmentsPlugin reparse storeCtx {} fullDoc r with
      | .error _ => none
      | .ok (_, r1) =>
        match operationsPlugin reparse storeCtx {} fullDoc r1 with
        | .error _ => none
        | .ok (os, _) => some os
    else none

/-- The theorem applies to the two operations of `fullDoc`, one of which needs a fragment that spreads another. -/
example : ((fragmentsOf fullDoc).map (·.name)).Nodup ∧ (∀ d ∈ fullDoc, goodDefn d = true) ∧
    (∀ d ∈ fullDoc, searchable d = true) ∧ (operationsOf fullDoc).length = 2 ∧ sentCode.map List.length = some 8 := by
  decide +kernel

end Turms.Props
