import Verif.Props.SentDocuments
import Verif.Props.GenerableFuncs

/-! # C91 for whole modules -/

namespace Turms.Props
open Spec Documents Spec.Syntax

/-- no fragment is known after the enums and inputs -/
theorem typePlugins_documents {c : Ctx} {pe : EnumsConfig} {pi : InputsConfig} (hs : Stylable c.env)
    (hne : "" ∉ c.schema.types.keys) (hn : c.schema.types.keys.Nodup) (hi : GenerableInputs c pe pi)
    {s1 s2 : List Stmt} {r1 r2 : Reg} (h1 : generateEnums c pe (Reg.init c.env) = .ok (s1, r1))
    (h2 : generateInputs c pi r1 = .ok (s2, r2)) : r2.fragmentDocumentMap = [] := by
  obtain ⟨_, _, K1, e, a1, e1⟩ := generateEnums_go hs hne hn (p := pe) (r := Reg.init c.env) rfl
  rw [h1] at e
  cases e
  have hl1 : Leaves c pe r1 := by
    refine ⟨fun n h => by rw [a1.scalar]; exact scalarKnown_init h, fun n vs hlk hk => ?_⟩
    obtain ⟨t, ht, rfl⟩ := enum_of_lookup hlk
    exact (Dict.contains_iff _ _).2 ((a1.keys _).2 (.inr (e1 t ht hk)))
  have hi1 : r1.inputMap = [] := a1.other .input (by decide)
  obtain ⟨_, _, K2, e, a2, e2⟩ := generateInputs_go hs hne hi hn hi1 hl1
  rw [h2] at e
  cases e
  rw [a2.documents, a1.documents]
  rfl

/-- C91, C77: for the schemas and documents of C77 a module is generated, and it says for every operation which text to
send; read by the grammar, the text is the operation as it was written and the fragments it needs.  Nothing is assumed
of parsers but that they read by the grammar. -/
theorem C91_module_partial {c : Ctx} {pe : EnumsConfig} {pi : InputsConfig}
    {pf : FragmentsConfig} {po : OperationsConfig} {p : FuncsConfig} {q : InputFuncsConfig} {doc : Document}
    {iter : List String → List String} {skip : Bool}
    (hiter : ∀ l, (iter l).Perm l) (hs : Stylable c.env) (hne : "" ∉ c.schema.types.keys)
    (hn : c.schema.types.keys.Nodup) (hgood : ∀ d ∈ doc, goodDefn d = true)
    (hu : ((fragmentsOf doc).map (·.name)).Nodup)
    (hg : GenerableDocument c pe pi doc) (hf : GenerableFunctions c pe p q doc) :
    ∃ m, generateAst c.env iter (classPlugins reparse c pe pi pf po doc ++ functionPlugins c p q doc) skip = .ok m ∧
      ∀ o ∈ operationsOf doc, ∃ s ∈ m, ∃ text sent, SaysDocument s text ∧ read text.toList = some sent ∧
        AsksFor (fragmentsOf doc) o sent := by
  have hprep : ParsesBack reparse (fragmentsOf doc) :=
    C91_parses_back _ fun f hf => hgood _ (mem_fragmentsOf.1 hf)
  obtain ⟨m, hm⟩ := C77_generation_succeeds_partial (pf := pf) (po := po) (skip := skip) hiter hs hne hn hprep hg hf
  refine ⟨m, hm, ?_⟩
  obtain ⟨outs, r, imports, helpers, rebuilds, hrun, rfl, _⟩ := C35_module_sections _ _ hiter _ _ _ hm
  cases hrun with
  | cons h1 hrun =>
  cases hrun with
  | cons h2 hrun =>
  cases hrun with
  | cons h3 hrun =>
  cases hrun with
  | cons h4 hrun =>
  intro o ho
  obtain ⟨s, hs, text, sent, x⟩ := C91_sent_documents_partial (typePlugins_documents hs hne hn hg.inputs h1 h2) hu hgood
    (fun d hd => by
      cases d with
      | fragment f => exact hg.printable f (mem_fragmentsOf.2 hd)
      | operation o =>
        obtain ⟨n, hn, _⟩ := (hg.operations o (mem_operationsOf.2 hd)).named
        have := hg.printableO o (mem_operationsOf.2 hd) n hn
        simpa [searchable, hn] using this) h3 h4 o ho
  exact ⟨s, by simp [hs], text, sent, x⟩

/-- The theorem applies to the store, whatever the options of the plugins for fragments and operations are. -/
example (pf : FragmentsConfig) (po : OperationsConfig) (skip : Bool) : ∃ m, generateAst storeCtx.env List.reverse
    (classPlugins reparse storeCtx {} {} pf po storeDoc ++ functionPlugins storeCtx storeFuncs {} storeDoc) skip = .ok m ∧
      ∀ o ∈ operationsOf storeDoc, ∃ s ∈ m, ∃ text sent, SaysDocument s text ∧ read text.toList = some sent ∧
        AsksFor (fragmentsOf storeDoc) o sent :=
  C91_module_partial (fun l => List.reverse_perm l)
    (C77_shipped_stylers (by
      intro s hs
      simp only [storeCtx, List.mem_cons, List.not_mem_nil, or_false] at hs
      rcases hs with rfl | rfl
      · exact .default
      · exact .snake))
    (by decide +kernel) (by decide +kernel) (by decide +kernel) (by decide +kernel) store_generable store_functions

end Turms.Props
