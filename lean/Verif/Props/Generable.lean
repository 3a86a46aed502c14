import Verif.Spec.Generable
import Verif.Lemmas.GenerableInputs
import Verif.Lemmas.GenerableFuncs
import Verif.Props.Documents
import Verif.Props.Fragments
import Verif.Props.Responses
import Verif.Props.Pipeline
import Verif.Props.Rebuild

/-!
# C77: generation succeeds
-/

namespace Turms.Props
open Turms Turms.Spec Turms.Documents Turms.Fragments

/-- the tables of the scalars -/
theorem scalarKnown_init {env : Env} {n : String} (h : ScalarKnown env n) : ∃ p, (Reg.init env).scalarMap.get? n = some p := by
  have key : ∀ (b a : Dict String) , (n ∈ a.keys ∨ n ∈ b.keys) → n ∈ (Dict.merge a b).keys := by
    intro b
    induction b with
    | nil => intro a h; simpa [Dict.merge, Dict.keys] using h
    | cons q b ih =>
      intro a h
      have : Dict.merge a (q :: b) = Dict.merge (a.set q.1 q.2) b := rfl
      rw [this]
      refine ih _ ?_
      rw [Dict.mem_keys_set]
      rcases h with h | h
      · exact .inl (.inr h)
      · rcases List.mem_cons.1 h with h | h
        · exact .inl (.inl h)
        · exact .inr h
  have : n ∈ (Reg.init env).scalarMap.keys := by
    refine key _ _ ?_
    rcases h with ⟨p, hp⟩ | ⟨p, hp⟩
    · exact .inl (List.mem_map.2 ⟨_, hp, rfl⟩)
    · exact .inr (List.mem_map.2 ⟨_, hp, rfl⟩)
  exact Option.isSome_iff_exists.1 ((Dict.get?_isSome_iff _ _).2 this)

theorem enum_of_lookup {s : Schema} {n : String} {vs : List EnumValueDef} (h : s.lookup n = some (.enum vs)) :
    ∃ t, EnumOf s t ∧ t.name = n := by
  obtain ⟨desc, h⟩ := types_of_lookup h
  exact ⟨⟨n, desc, vs⟩, ⟨⟨.enum vs, desc⟩, Dict.mem_of_get? h, rfl, rfl⟩, rfl⟩

/-- The runs of the plugins that generate classes. -/
theorem classPlugins_run {prep : List Char → List Char} {c : Ctx} {pe : EnumsConfig} {pi : InputsConfig}
    {pf : FragmentsConfig} {po : OperationsConfig} {doc : Document}
    (hs : Stylable c.env) (hne : "" ∉ c.schema.types.keys)
    (hn : c.schema.types.keys.Nodup) (hprep : ParsesBack prep (fragmentsOf doc))
    (hg : GenerableDocument c pe pi doc) :
    ∃ s1 s2 s3 s4 r1 r2 r3 r4 l, generateEnums c pe (Reg.init c.env) = .ok (s1, r1) ∧ generateInputs c pi r1 = .ok (s2, r2) ∧
      fragmentsPlugin prep c pf doc r2 = .ok (s3, r3) ∧ operationsPlugin prep c po doc r3 = .ok (s4, r4) ∧
      OpState c (definitions doc) l r3 (operationsOf doc) r4 ∧ Leaves c pe r4 ∧
      (∀ n, VariableType c pe pi n → Available r4 n) ∧
      (∀ f, f ∈ (fragmentsOf doc).map (·.name) → f ∈ l.map (·.name)) := by
  -- enums
  obtain ⟨s1, r1, K1, h1, a1, e1⟩ := generateEnums_go hs hne hn (p := pe) (r := Reg.init c.env) rfl
  have hl1 : Leaves c pe r1 := by
    refine ⟨fun n h => by rw [a1.scalar]; exact scalarKnown_init h, fun n vs hlk hk => ?_⟩
    obtain ⟨t, ht, rfl⟩ := enum_of_lookup hlk
    exact (Dict.contains_iff _ _).2 ((a1.keys _).2 (.inr (e1 t ht hk)))
  have hi1 : r1.inputMap = [] := a1.other .input (by decide)
  -- inputs
  obtain ⟨s2, r2, K2, h2, a2, e2⟩ := generateInputs_go hs hne hg.inputs hn hi1 hl1
  have hl2 := hl1.adds a2
  have hh1 : ∀ b ∈ r1.builtins, b ∈ builtinNames := a1.helpers (by intro b hb; exact absurd hb (by simp [Reg.init]))
  -- fragments
  obtain ⟨l, ho, hnames, hu, hbefore⟩ := C11_document_order doc hg.inline hg.defined hg.acyclic
  obtain ⟨l', ho', _, hmem, _⟩ := C12_document_fragments doc
  rw [ho] at ho'
  cases ho'
  have hlk : ∀ d ∈ l, lookup (fragmentsOf doc) d.name = some d ∧ d ∈ fragmentsOf doc := by
    intro d hd
    obtain ⟨n, hl⟩ := (hmem d).1 hd
    obtain ⟨hm, hnm⟩ := lookup_mem hl
    rw [hnm]
    exact ⟨hl, hm⟩
  have hsub : ∀ (a : List FragDef), (∀ d ∈ a, d ∈ l) → ∀ n d, lookup a n = some d → lookup (fragmentsOf doc) n = some d := by
    intro a ha n d hl
    obtain ⟨hm, hnm⟩ := lookup_mem hl
    rw [← hnm]
    exact (hlk d (ha d hm)).1
  have hpre : ∀ f ∈ l, prep (printFragment f) = printFragment (addTypenameToFragment f) := by
    intro f hf
    rw [← withTypename_eq]
    exact hprep f (hlk f hf).2
  have hfok : ∀ f ∈ l, fragOk f = true := fun f hf => hg.printable f (hlk f hf).2
  have hst : FragState c (definitions doc) r2 [] r2 := by
    have hfm : r2.fragmentMap = [] := (a2.other .fragment (by decide)).trans (a1.other .fragment (by decide))
    refine ⟨⟨hl2.scalars, by simp, by simp, by simp, by simp, by simp, by simp, ?_⟩, ?_, ?_, ?_, fun _ _ => rfl, a2.helpers hh1⟩
    · exact a2.ifrags.trans a1.ifrags
    · unfold documentTexts; rw [a2.documents, a1.documents]; rfl
    · intro f hf; rw [hfm] at hf; cases hf
    · intro f _; rw [a2.impl, a1.impl]; rfl
  obtain ⟨s3, r3, h3, st3⟩ := generateFragments_go hs hne (prep := prep) (p := pf) l hu
    (fun d hd => ⟨hg.named d (hlk d hd).2, by rw [definitions_get?]; exact (hlk d hd).1⟩)
    (fun before d after he => (hg.fragments d (hlk d (by rw [he]; simp)).2).restrict fun f hf =>
      hbefore before after d he f (.direct f hf))
    (fun before d after r1 he hd => by
      have hin : ∀ x ∈ before ++ [d], x ∈ l := by
        intro x hx; rw [he]
        rcases List.mem_append.1 hx with hx | hx
        · simp [hx]
        · rw [List.mem_singleton] at hx; simp [hx]
      have hu' : ((before ++ [d]).map (·.name)).Nodup := by
        rw [he] at hu
        refine List.Sublist.nodup (List.Sublist.map _ ?_) hu
        exact List.Sublist.append (List.Sublist.refl _) (by simp)
      refine go_mergedDocument hd (embedFragment_spec hu' (fun f hf => hpre f (hin f hf)) (fun f hf => hfok f (hin f hf))
        (hfok d (hin d (by simp)))) fun k hk => ?_
      have := hbefore before after d he k (needs_mono (hsub _ hin) hk)
      rw [List.map_append]
      exact List.mem_append_left _ this)
    l [] rfl hst
  -- operations
  have hknown : ∀ f, f ∈ (fragmentsOf doc).map (·.name) → f ∈ l.map (·.name) := fun f hf => (hnames f).2 hf
  have hops : ∀ (k : OpKind), r3.classMap k.kind = [] := by
    intro k
    rw [st3.other _ (by cases k <;> decide), a2.other _ (by cases k <;> decide), a1.other _ (by cases k <;> decide)]
    cases k <;> rfl
  have hav : ∀ n, VariableType c pe pi n → Available r3 n := by
    intro n hv
    rcases hv with hv | ⟨t, ht, hsel, rfl⟩ | ⟨t, ht, hk, rfl⟩ | hv
    · exact .inl (st3.ready.scalar n hv)
    · refine .inr ⟨input_ne_empty hne ht, .inl ((Dict.contains_iff _ _).2 ?_)⟩
      have : r3.inputMap = r2.inputMap := st3.other .input (by decide)
      rw [this]
      exact (a2.keys _).2 (.inr (e2 t ht hsel))
    · refine .inr ⟨?_, .inr (.inl ((Dict.contains_iff _ _).2 ?_))⟩
      · obtain ⟨e, he, _⟩ := ht
        intro h0
        exact hne (h0 ▸ List.mem_map.2 ⟨_, he, rfl⟩)
      · have h32 : r3.enumMap = r2.enumMap := st3.other .enum (by decide)
        have h21 : r2.enumMap = r1.enumMap := a2.other .enum (by decide)
        rw [h32, h21]
        exact (a1.keys _).2 (.inr (e1 t ht hk))
    · refine .inr ⟨fun h0 => ?_, .inr (.inr hv)⟩
      rw [h0] at hv
      exact absurd hv (by decide +kernel)
  obtain ⟨s4, r4, h4, st4⟩ := generateOperations_go hs hne (prep := prep) (p := po) (pe := pe) (pi := pi) (frags := l) (r1 := r3)
    (defs := definitions doc) (operationsOf doc)
    (fun o ho => by
      have g := hg.operations o ho
      exact ⟨g.named, g.root, g.fields, g.exist, fun t n a ar s ty ht hm hty => (g.nested t n a ar s ty ht hm hty).restrict
        fun f hf => hknown f (hg.definedO o ho f (spreads_field hm hf)), g.variables, g.defaults⟩)
    (fun o ho v hv => hav _ ((hg.operations o ho).variables v hv))
    (fun o ho' n r2 hn' hd => by
      refine go_mergedDocument hd (embedOperation_spec hu hpre hfok (hg.printableO o ho' n hn')) fun k hk => ?_
      have hk := needs_mono (hsub l fun _ h => h) hk
      cases hk with
      | direct _ hf => exact hknown k (hg.definedO o ho' k hf)
      | through g d _ _ hl hf => exact hknown k (hg.defined d (lookup_mem hl).1 k hf))
    [] (r := r3) (by rw [List.nil_append]; exact hg.unique)
    ⟨st3.ready, st3.documents, rfl, rfl, rfl, (fun k n h => by rw [hops] at h; cases h), st3.helpers⟩
  rw [List.nil_append] at st4
  refine ⟨s1, s2, s3, s4, r1, r2, r3, r4, l, h1, h2, Gen.bind_ok.2 ⟨l, r2, by rw [ho]; rfl, h3⟩, h4, st4, ⟨st4.ready.scalar, ?_⟩,
    fun n hv => ?_, hknown⟩
  · intro n vs hlk hk
    have h32 : r3.enumMap = r2.enumMap := st3.other .enum (by decide)
    rw [st4.enum, h32]
    exact hl2.enums n vs hlk hk
  · have := hav n hv
    unfold Available at this ⊢
    rw [st4.scalar, st4.input, st4.enum]
    exact this

/-- **C77** (the plugins that generate classes). -/
theorem C77_classes_partial {prep : List Char → List Char} {c : Ctx} {pe : EnumsConfig} {pi : InputsConfig}
    {pf : FragmentsConfig} {po : OperationsConfig} {doc : Document} {iter : List String → List String} {skip : Bool}
    (hiter : ∀ l, (iter l).Perm l) (hs : Stylable c.env) (hne : "" ∉ c.schema.types.keys)
    (hn : c.schema.types.keys.Nodup) (hprep : ParsesBack prep (fragmentsOf doc))
    (hg : GenerableDocument c pe pi doc) :
    ∃ m, generateAst c.env iter (classPlugins prep c pe pi pf po doc) skip = .ok m := by
  rw [C35_succeeds_iff _ _ hiter]
  obtain ⟨s1, s2, s3, s4, r1, r2, r3, r4, l, h1, h2, h3, h4, st4, _⟩ :=
    classPlugins_run (prep := prep) (pf := pf) (po := po) hs hne hn hprep hg
  exact ⟨[s1, s2, s3, s4], r4, .cons h1 (.cons h2 (.cons h3 (.cons h4 (.nil _)))), st4.helpers⟩

/-- **C77** (all plugins that generate pydantic models, and the two that generate functions).  The full statement — for
every valid schema and document a module is generated — is false; `GenerableDocument` and `GenerableFunctions` say where
the code needs more, and the counterexamples of `GenerableLimits.lean` that it does. -/
theorem C77_generation_succeeds_partial {prep : List Char → List Char} {c : Ctx} {pe : EnumsConfig} {pi : InputsConfig}
    {pf : FragmentsConfig} {po : OperationsConfig} {p : FuncsConfig} {q : InputFuncsConfig} {doc : Document}
    {iter : List String → List String} {skip : Bool}
    (hiter : ∀ l, (iter l).Perm l) (hs : Stylable c.env) (hne : "" ∉ c.schema.types.keys)
    (hn : c.schema.types.keys.Nodup) (hprep : ParsesBack prep (fragmentsOf doc))
    (hg : GenerableDocument c pe pi doc) (hf : GenerableFunctions c pe p q doc) :
    ∃ m, generateAst c.env iter (classPlugins prep c pe pi pf po doc ++ functionPlugins c p q doc) skip = .ok m := by
  rw [C35_succeeds_iff _ _ hiter]
  obtain ⟨s1, s2, s3, s4, r1, r2, r3, r4, l, h1, h2, h3, h4, st4, hl4, hav, hknown⟩ :=
    classPlugins_run (prep := prep) (pf := pf) (po := po) hs hne hn hprep hg
  have hsingle := (generateOperations_single (show generateOperations prep c po (operationsOf doc) r3 = .ok (s4, r4) from h4)).2
    hf.names
  obtain ⟨s5, r5, h5, m5, _⟩ := go_allOperationFuncs hs hne (p := p) (operationsOf doc) st4.ready hl4 fun o ho hd => by
    have g := hg.operations o ho
    have f := hf.functions o ho hd
    obtain ⟨n, hn1, hn0⟩ := g.named
    obtain ⟨t, ht⟩ := g.root
    have hall : Documented c t o.sels := by
      intro s hs
      obtain ⟨name, al, args, sub, rfl⟩ := g.fields s hs
      obtain ⟨ty, hty⟩ := g.exist t name al args sub ht hs
      exact ⟨name, al, args, sub, ty, rfl, hty⟩
    refine ⟨n, t, hn1, hn0, ht, hall, f.depth, f.expanded, fun v hv => ⟨f.typed v hv, hav _ (g.variables v hv)⟩,
      fun v hv => ⟨g.defaults v hv, f.defaults v hv⟩, fun hcl hlen => ?_, fun hlen => ?_⟩
    · obtain ⟨s, hs1⟩ : ∃ s, o.sels = [s] := by
        cases hsel : o.sels with
        | nil => rw [hsel] at hlen; cases hlen
        | cons s l =>
          cases l with
          | nil => exact ⟨s, rfl⟩
          | cons _ _ => rw [hsel] at hlen; simp at hlen
      obtain ⟨name, al, args, sub, ty, rfl, hty⟩ := hall s (by rw [hs1]; exact List.mem_cons_self)
      refine ⟨name, al, args, sub, hs1, ⟨ty, hty⟩, fun ty hty => ⟨f.collapsed hcl name al args sub t ty hs1 ht hty, ?_⟩⟩
      have hm : Sel.field name al args sub ∈ o.sels := by rw [hs1]; exact List.mem_cons_self
      exact (g.nested t name al args sub ty ht hm hty).restrict fun x hx =>
        hknown x (hg.definedO o ho x (spreads_field hm hx))
    · obtain ⟨n', A, hn', hA, _⟩ := hsingle o ho hlen
      rw [hn1] at hn'
      cases hn'
      exact ⟨A, hA⟩
  obtain ⟨s6, r6, h6, m6, _⟩ := go_factories hs hne (q := q) (inputTypes c.schema) (hl4.mild m5) fun t ht hw =>
    hf.factories t (mem_inputTypes.1 ht) hw.1 hw.2.1
  refine ⟨[s1, s2, s3, s4, s5, s6], r6, .cons h1 (.cons h2 (.cons h3 (.cons h4 (.cons h5 (.cons h6 (.nil _)))))),
    m6.helpers (m5.helpers st4.helpers)⟩


/-! ## Stylers -/

theorem capitalizeFirst_total {n : String} (h : n ≠ "") : ∃ m, m ≠ "" ∧ capitalizeFirst n = .ok m := by
  unfold capitalizeFirst
  cases hl : n.toList with
  | nil => exact absurd (String.toList_eq_nil_iff.1 hl) h
  | cons ch cs =>
    refine ⟨_, ?_, rfl⟩
    intro h0
    have := congrArg String.toList h0
    simp at this

theorem append_ne {n a : String} (h : n ≠ "") : n ++ a ≠ "" := fun h0 => h (String.append_eq_empty_iff.1 h0).1

theorem shipped_class {s : Styler} (hs : Shipped s) (k : Kind) {n : String} (h : n ≠ "") :
    ∃ m, m ≠ "" ∧ Kind.method k s n = .ok m := by
  cases hs with
  | default => cases k <;> first | exact capitalizeFirst_total h | exact ⟨n, h, rfl⟩
  | capitalize => cases k <;> first | exact capitalizeFirst_total h | exact ⟨n, h, rfl⟩
  | appender a => cases k <;> first | exact ⟨_, append_ne h, rfl⟩ | exact ⟨n, h, rfl⟩
  | snake => cases k <;> exact ⟨n, h, rfl⟩

theorem shipped_node {s : Styler} (hs : Shipped s) (n : String) :
    (∃ m, s.nodeName n = .ok m) ∧ ∃ m, s.parameterName n = .ok m := by
  cases hs <;> exact ⟨⟨_, rfl⟩, ⟨_, rfl⟩⟩

theorem styleChain_total {method : Styler → String → Except Err String} {P : String → Prop} {stylers : List Styler}
    (h : ∀ s ∈ stylers, ∀ n, P n → ∃ m, P m ∧ method s n = .ok m) :
    ∀ {n : String}, P n → ∃ m, P m ∧ styleChain stylers method n = .ok m := by
  induction stylers with
  | nil => exact fun {n} hn => ⟨n, hn, rfl⟩
  | cons s ss ih =>
    intro n hn
    obtain ⟨m, hm, he⟩ := h s (by simp) n hn
    obtain ⟨m', hm', he'⟩ := ih (fun s hs => h s (by simp [hs])) hm
    refine ⟨m', hm', ?_⟩
    unfold styleChain
    rw [he]
    exact he'

theorem escape_ne {n : String} (h : n ≠ "") : escapeKeyword n ≠ "" := by
  unfold escapeKeyword
  split
  · exact append_ne h
  · exact h

/-- Whatever stylers of turms are configured, in whatever order, every name of a schema or document can be styled. -/
theorem C77_shipped_stylers {env : Env} (h : ∀ s ∈ env.stylers, Shipped s) : Stylable env := by
  refine ⟨fun k n hn => ?_, fun n => ?_, fun n => ?_⟩
  · obtain ⟨m, hm, he⟩ := styleChain_total (method := k.method) (P := (· ≠ "")) (stylers := env.stylers)
      (fun s hs n hn => shipped_class (h s hs) k hn) hn
    refine ⟨escapeKeyword m, escape_ne hm, ?_⟩
    unfold Kind.style styled
    rw [he]
  · obtain ⟨m, _, he⟩ := styleChain_total (method := Styler.nodeName) (P := fun _ => True) (stylers := env.stylers)
      (fun s hs n _ => (shipped_node (h s hs) n).1.imp fun _ h => ⟨trivial, h⟩) (n := n) trivial
    refine ⟨escapeKeyword m, ?_⟩
    unfold generateNodeName styled
    rw [he]
  · obtain ⟨m, _, he⟩ := styleChain_total (method := Styler.parameterName) (P := fun _ => True) (stylers := env.stylers)
      (fun s hs n _ => (shipped_node (h s hs) n).2.imp fun _ h => ⟨trivial, h⟩) (n := n) trivial
    refine ⟨escapeKeyword m, ?_⟩
    unfold generateParameterName styled
    rw [he]

end Turms.Props
