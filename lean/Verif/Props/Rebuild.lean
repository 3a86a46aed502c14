import Verif.Lemmas.RebuildFuncs
import Verif.Lemmas.OnlyClasses
import Verif.Props.ForwardNames
import Verif.Props.Module

/-!
# C76: the classes rebuilt at the end of a module exist

A module ends with `X.model_rebuild()` for every class `X` that was generated before a class it refers to.  Which classes
are these, and are they all there?
-/

namespace Turms.Props
open Turms Turms.Spec Turms.Fragments

theorem emits_contains {env : Env} {k : Kind} {r r' : Reg} {K : List String} {ss : List Stmt} (h : Emits env k r r' K ss)
    {t : String} (ht : t ∈ K) : (r'.classMap k).contains t = true := by
  obtain ⟨L, e, hK, _, _⟩ := h.map
  rw [e, Dict.contains_iff]
  rw [← hK] at ht
  obtain ⟨p, hp, rfl⟩ := List.mem_map.1 ht
  exact List.mem_map.2 ⟨p, List.mem_append_right _ hp, rfl⟩

/-- `n` is the name of a fragment on a union: not a class, but an alias for the union of the classes of its members -/
def NamesUnionFragment (c : Ctx) (doc : Document) (n : String) : Prop :=
  ∃ f ∈ fragmentsOf doc, IsUnion c.schema f.typeCondition ∧ Kind.fragment.style c.env f.name = .ok n

/-- all six plugins -/
theorem rebuilt_ok {prep : List Char → List Char} {c : Ctx} {pe : EnumsConfig} {pi : InputsConfig}
    {pf : FragmentsConfig} {po : OperationsConfig} {p : FuncsConfig} {q : InputFuncsConfig} {doc : Document}
    {r1 r2 r3 r4 r5 r6 : Reg} {ss1 ss2 ss3 ss4 ss5 ss6 : List Stmt}
    (henums : generateEnums c pe (Reg.init c.env) = .ok (ss1, r1))
    (hinputs : generateInputs c pi r1 = .ok (ss2, r2))
    (hfrag : fragmentsPlugin prep c pf doc r2 = .ok (ss3, r3))
    (hops : operationsPlugin prep c po doc r3 = .ok (ss4, r4))
    (hfun : funcsPlugin c p doc r4 = .ok (ss5, r5)) (hfac : inputFuncsPlugin c q r5 = .ok (ss6, r6))
    (hplain : PlainConfig c.config) (hnodup : c.schema.types.keys.Nodup)
    (hdef : ∀ d ∈ fragmentsOf doc, ∀ x, Spreads d.sels x → x ∈ (fragmentsOf doc).map (·.name))
    (hdefO : ∀ o ∈ operationsOf doc, ∀ x, Spreads o.sels x → x ∈ (fragmentsOf doc).map (·.name))
    (hcyc : ∀ n d, lookup (fragmentsOf doc) n = some d → ¬ Needs (fragmentsOf doc) d.sels n)
    (hinl : ∀ d ∈ fragmentsOf doc, NoInlineSpread d.sels)
    (hkeptE : ∀ t, EnumOf c.schema t → t.name ∉ builtinNames → EnumKept pe t.name)
    (hkeptI : ∀ t, InputOf c.schema t → SelectedInput pi t)
    (hhelper : ∀ t, IsEnum c.schema t → t ∈ builtinNames → t ∉ r6.builtins)
    (hvars : ∀ o ∈ operationsOf doc, ∀ v ∈ o.vars, v.type.base ∉ builtinNames ∧
      (truthy (p.co.inputs.get? v.type.base) = true → IsInput c.schema v.type.base)) :
    (∀ n ∈ r6.forwardReferences, n ∈ boundL (ss1 ++ (ss2 ++ (ss3 ++ ss4))) ∧
      (IsClass (ss1 ++ (ss2 ++ (ss3 ++ ss4))) n ∨ NamesUnionFragment c doc n ∨
        (n = "SHOULD_NOT_BE_USED" ∧ ∃ t, IsInput c.schema t ∧ Kind.input.style c.env t = .ok n))) ∧
    r6.scalarMap = (Reg.init c.env).scalarMap := by
  let B : String → Prop := fun b => b ∈ r6.builtins
  let E : String → Prop := fun n => n ∈ boundL (ss1 ++ (ss2 ++ (ss3 ++ ss4))) ∧
    (IsClass (ss1 ++ (ss2 ++ (ss3 ++ ss4))) n ∨ NamesUnionFragment c doc n ∨
      (n = "SHOULD_NOT_BE_USED" ∧ ∃ t, IsInput c.schema t ∧ Kind.input.style c.env t = .ok n))
  let D : String → Prop := fun f => f ∈ (fragmentsOf doc).map (·.name)
  have e1 := (generateEnums_ok henums).1
  have s1 := e1.styled (styled_stateAfter c.env [])
  obtain ⟨⟨K, e2, hK⟩, _⟩ := generateInputs_ok s1 hplain hnodup hinputs
  have hB : ¬ False → ∀ t, IsEnum c.schema t → t ∈ builtinNames → ¬ B t := fun _ => hhelper
  have hE : ¬ False → ∀ t m, IsEnum c.schema t → t ∉ builtinNames → Kind.enum.style c.env t = .ok m → E m := by
    intro _ t m ht hb hm
    rcases kept_enum_bound henums ht hb hm with h | ⟨t', ht', hb', hk, _⟩
    · refine ⟨by rw [boundL_append]; exact List.mem_append_left _ h, .inl ?_⟩
      obtain ⟨x, y, z, hc⟩ := (classes_generateEnums _ _ _ henums).bound h
      exact ⟨x, y, z, List.mem_append_left _ hc⟩
    · exact (hk (hkeptE t' ht' hb')).elim
  have hI : ∀ t m, m = "SHOULD_NOT_BE_USED" → IsInput c.schema t → Kind.input.style c.env t = .ok m → E m := by
    intro t m hmm ht hm
    rcases kept_input_bound s1 hplain hnodup hinputs ht hm with h | ⟨t', ht', hk, _⟩
    · exact ⟨by rw [boundL_append, boundL_append]; exact List.mem_append_right _ (List.mem_append_left _ h),
        .inr (.inr ⟨hmm, t, ht, hm⟩)⟩
    · exact (hk (hkeptI t' ht')).elim
  obtain ⟨l, hl, hnames, _, hbefore⟩ := C11_document_order doc hinl hdef hcyc
  obtain ⟨l', hl', _, hmem, _⟩ := C12_document_fragments doc
  rw [hl] at hl'
  cases hl'
  unfold fragmentsPlugin at hfrag
  obtain ⟨fs, r', hx, hfrag⟩ := Gen.bind_ok.1 hfrag
  obtain ⟨hx, rfl⟩ := Gen.lift_ok.1 hx
  rw [hl] at hx
  cases hx
  have hF : ¬ False → ∀ d ∈ l, ∀ m, ¬ IsInterface c.schema d.typeCondition → Kind.fragment.style c.env d.name = .ok m →
      E m := by
    intro _ d hd m hi hm
    obtain ⟨k, hk, hb⟩ := generateFragments_bound l hfrag d hd
    rw [hm] at hk
    cases hk
    rcases hb with hb | hb
    · exact (hi hb).elim
    · refine ⟨by
        rw [boundL_append, boundL_append, boundL_append]
        exact List.mem_append_right _ (List.mem_append_right _ (List.mem_append_left _ hb)), ?_⟩
      rcases generateFragments_class l _ _ _ hfrag d hd m hm with h | h | ⟨x, y, z, h⟩
      · exact (hi h).elim
      · exact .inr (.inl ⟨d, (lookup_mem ((hmem d).1 hd).choose_spec).1, h, hm⟩)
      · exact .inl ⟨x, y, z, List.mem_append_right _ (List.mem_append_right _ (List.mem_append_left _ h))⟩
  have prep2 : Prepared False c E (fun _ => False) r2 := by
    refine .inr ⟨e2.scalar.trans e1.scalar, fun t ht hb => ?_, fun t ht => ?_, fun _ h => h.elim⟩
    · obtain ⟨e, he, rfl⟩ := enumOf_isEnum ht
      have h1 : r2.enumMap = r1.enumMap := e2.other .enum (by decide)
      rw [h1]
      refine emits_contains e1 (List.mem_map_of_mem (List.mem_filter.2 ⟨mem_enumTypes.2 he, ?_⟩))
      simpa using hkeptE e he hb
    · obtain ⟨e, he, rfl⟩ := inputOf_isInput ht
      exact emits_contains e2 ((hK _).2 (.inl ⟨e, he, hkeptI e he, rfl⟩))
  obtain ⟨p3, g3, f3⟩ := generateFragments_forward (T := False) (D := fun _ => False) (B := B) (E := E) hB hE l
    hF
    (fun before d after e x hx => .inr (hbefore before after d e x (.direct x hx))) prep2 hfrag
  have p3 : Prepared False c E D r3 := by
    obtain ⟨a, b, d, f⟩ := p3.resolve_left id
    exact .inr ⟨a, b, d, fun g hg => f g (.inr ((hnames g).2 hg))⟩
  have hR : Rules c D (Prepared False c E D) B E False := Prepared.rules hB hE
  obtain ⟨p4, g4, _, f4⟩ := (fw_generateOperations hR _ (fun o ho x hx => hdefO o ho x hx)
    (fun o ho v hv => (hvars o ho v hv).1)).run _ _ _ p3 hops
  have hFn := hR.functions hI
  obtain ⟨p5, g5, _, f5⟩ := (fn_allOperationFuncs (p := p) (A := Prepared False c E D) (B := B) (E := E) (operationsOf doc)
    (fun o ho v hv => hvars o ho v hv)).run _ _ _ p4 hfun
  obtain ⟨p6, g6, _, f6⟩ := (fn_factories (q := q) (A := Prepared False c E D) (B := B) (E := E)
    (inputTypes c.schema)).run _ _ _ p5 hfac
  obtain ⟨_, g2, _, f2⟩ := (fi_generateInputs (B := B) (E := E)).run _ _ _ trivial hinputs
  obtain ⟨_, g1, _, f1⟩ := (fi_generateEnums (B := B) (E := E)).run _ _ _ trivial henums
  refine ⟨fun n hn => ?_, (p6.resolve_left id).1⟩
  have b5 : ∀ b ∈ r5.builtins, B b := fun b hb => g6 b hb
  have b4 : ∀ b ∈ r4.builtins, B b := fun b hb => b5 b (g5 b hb)
  have b3 : ∀ b ∈ r3.builtins, B b := fun b hb => b4 b (g4 b hb)
  have b2 : ∀ b ∈ r2.builtins, B b := fun b hb => b3 b (g3 b hb)
  have b1 : ∀ b ∈ r1.builtins, B b := fun b hb => b2 b (g2 b hb)
  rcases f6 trivial (fun b hb => hb) n hn with hn | hn
  · rcases f5 trivial b5 n hn with hn | hn
    · rcases f4 False.elim b4 n hn with hn | hn
      · rcases f3 False.elim b3 n hn with hn | hn
        · rcases f2 (fun m bs body ds hm => (by
            have hmem : Stmt.classDef m bs body ds ∈ ss1 ++ (ss2 ++ (ss3 ++ ss4)) :=
              List.mem_append_right _ (List.mem_append_left _ hm)
            exact ⟨List.mem_flatMap.2 ⟨_, hmem, List.mem_singleton.2 rfl⟩, .inl ⟨_, _, _, hmem⟩⟩)) b2 n hn with hn | hn
          · rcases f1 trivial b1 n hn with hn | hn
            · cases hn
            · exact hn
          · exact hn
        · exact hn
      · exact hn
    · exact hn
  · exact hn

/-- C76, the classes rebuilt by the documents' plugins, for every schema, document and registry (in particular, without
the enums or inputs plugin before them): each of them is a class of the module, or the class `nBase` is — the common
base of the classes for an interface, whose rebuilding fails (`C76_rebuild_counterexample`) —, or `n` is the name of a
fragment on a union, which is no class, so that rebuilding fails as well (`C76_union_alias_counterexample`).  Nothing else
is ever rebuilt unless a variable has the type of a helper class (`C76_variable_counterexample`). -/
theorem C76_documents_rebuilt_partial {prep : List Char → List Char} {c : Ctx} {pf : FragmentsConfig}
    {po : OperationsConfig} {doc : Document} {r0 r1 r2 : Reg} {ss1 ss2 : List Stmt}
    (hfrag : fragmentsPlugin prep c pf doc r0 = .ok (ss1, r1)) (hops : operationsPlugin prep c po doc r1 = .ok (ss2, r2))
    (hvars : ∀ o ∈ operationsOf doc, ∀ v ∈ o.vars, v.type.base ∉ builtinNames) :
    ∀ n ∈ r2.forwardReferences, n ∈ r0.forwardReferences ∨ IsClass (ss1 ++ ss2) n ∨ IsClass (ss1 ++ ss2) (n ++ "Base") ∨
      NamesUnionFragment c doc n ∨ NamesUnionFragment c doc (n ++ "Base") := by
  let E : String → Prop := fun n => IsClass (ss1 ++ ss2) n ∨ IsClass (ss1 ++ ss2) (n ++ "Base") ∨
      NamesUnionFragment c doc n ∨ NamesUnionFragment c doc (n ++ "Base")
  unfold fragmentsPlugin at hfrag
  obtain ⟨fs, r', hx, hfrag⟩ := Gen.bind_ok.1 hfrag
  obtain ⟨hx, rfl⟩ := Gen.lift_ok.1 hx
  obtain ⟨l, hl, _, hmem, _⟩ := C12_document_fragments doc
  rw [hl] at hx
  cases hx
  obtain ⟨_, g1, f1⟩ := generateFragments_forward (T := True) (D := fun _ => True) (B := fun _ => True) (E := E)
    (fun h => (h trivial).elim) (fun h => (h trivial).elim) _ (fun h => (h trivial).elim) (fun _ _ _ _ _ _ => .inl trivial)
    (.inl trivial) hfrag
  obtain ⟨_, g2, _, f2⟩ := (fw_generateOperations (T := True) (D := fun _ => True) (B := fun _ => True) (E := E)
    (Prepared.rules (fun h => (h trivial).elim) (fun h => (h trivial).elim))
    _ (fun _ _ _ _ => trivial) hvars).run _ _ _ (.inl trivial) hops
  have a1 : AliasOnly c (fragmentsOf doc) ss1 := aliasOnly_generateFragments _
    (fun f hf => (lookup_mem ((hmem f).1 hf).choose_spec).1) _ _ _ hfrag
  have a2 : AliasOnly c (fragmentsOf doc) ss2 := (classes_generateOperations _ _ _ _ hops).aliasOnly
  have hall := a1.append a2
  have key : ∀ {m}, m ∈ boundL (ss1 ++ ss2) → IsClass (ss1 ++ ss2) m ∨ NamesUnionFragment c doc m := by
    intro m hm
    obtain ⟨s, hs, hb⟩ := List.mem_flatMap.1 hm
    rcases hall s hs m hb with ⟨x, y, z, rfl⟩ | h
    · exact .inl ⟨x, y, z, hs⟩
    · exact .inr h
  have cov : ∀ {ss}, (∀ m, m ∈ boundL ss → m ∈ boundL (ss1 ++ ss2)) → Cov True E ss := by
    intro ss hsub _ m hm
    rcases hm with hm | hm
    · rcases key (hsub _ hm) with h | h
      · exact .inl h
      · exact .inr (.inr (.inl h))
    · rcases key (hsub _ hm) with h | h
      · exact .inr (.inl h)
      · exact .inr (.inr (.inr h))
  have c1 : Cov True E ss1 := cov fun m hm => by rw [boundL_append]; exact List.mem_append_left _ hm
  have c2 : Cov True E ss2 := cov fun m hm => by rw [boundL_append]; exact List.mem_append_right _ hm
  intro n hn
  rcases f2 c2 (fun _ _ => trivial) n hn with hn | hn
  · exact f1 c1 (fun _ _ => trivial) n hn
  · exact .inr hn

/-- C76, the classes rebuilt after all six plugins: if no enum or input is left out, no introspection enum (or enum named
like a helper class) is used, variables have types of the schema's own and only input types are coerced as inputs,
then each of them is defined by the module. -/
theorem C76_rebuilt_partial {prep : List Char → List Char} {c : Ctx} {pe : EnumsConfig} {pi : InputsConfig}
    {pf : FragmentsConfig} {po : OperationsConfig} {p : FuncsConfig} {q : InputFuncsConfig} {doc : Document}
    {r1 r2 r3 r4 r5 r6 : Reg} {ss1 ss2 ss3 ss4 ss5 ss6 : List Stmt}
    (henums : generateEnums c pe (Reg.init c.env) = .ok (ss1, r1))
    (hinputs : generateInputs c pi r1 = .ok (ss2, r2))
    (hfrag : fragmentsPlugin prep c pf doc r2 = .ok (ss3, r3))
    (hops : operationsPlugin prep c po doc r3 = .ok (ss4, r4))
    (hfun : funcsPlugin c p doc r4 = .ok (ss5, r5)) (hfac : inputFuncsPlugin c q r5 = .ok (ss6, r6))
    (hplain : PlainConfig c.config) (hnodup : c.schema.types.keys.Nodup)
    (hdef : ∀ d ∈ fragmentsOf doc, ∀ x, Spreads d.sels x → x ∈ (fragmentsOf doc).map (·.name))
    (hdefO : ∀ o ∈ operationsOf doc, ∀ x, Spreads o.sels x → x ∈ (fragmentsOf doc).map (·.name))
    (hcyc : ∀ n d, lookup (fragmentsOf doc) n = some d → ¬ Needs (fragmentsOf doc) d.sels n)
    (hinl : ∀ d ∈ fragmentsOf doc, NoInlineSpread d.sels)
    (hkeptE : ∀ t, EnumOf c.schema t → t.name ∉ builtinNames → EnumKept pe t.name)
    (hkeptI : ∀ t, InputOf c.schema t → SelectedInput pi t)
    (hhelper : ∀ t, IsEnum c.schema t → t ∈ builtinNames → t ∉ r6.builtins)
    (hvars : ∀ o ∈ operationsOf doc, ∀ v ∈ o.vars, v.type.base ∉ builtinNames ∧
      (truthy (p.co.inputs.get? v.type.base) = true → IsInput c.schema v.type.base)) :
    ∀ n ∈ r6.forwardReferences, n ∈ boundL (ss1 ++ (ss2 ++ (ss3 ++ ss4))) :=
  fun n hn => ((rebuilt_ok henums hinputs hfrag hops hfun hfac hplain hnodup hdef hdefO hcyc hinl hkeptE hkeptI hhelper
    hvars).1 n hn).1

/-- C76, what is rebuilt after all six plugins is a class: under the hypotheses of `C76_rebuilt_partial`, if no document
has a fragment on a union and no input type is called `SHOULD_NOT_BE_USED` (the name the functions plugin gives as the
referring class). -/
theorem C76_rebuilt_classes_partial {prep : List Char → List Char} {c : Ctx} {pe : EnumsConfig} {pi : InputsConfig}
    {pf : FragmentsConfig} {po : OperationsConfig} {p : FuncsConfig} {q : InputFuncsConfig} {doc : Document}
    {r1 r2 r3 r4 r5 r6 : Reg} {ss1 ss2 ss3 ss4 ss5 ss6 : List Stmt}
    (henums : generateEnums c pe (Reg.init c.env) = .ok (ss1, r1))
    (hinputs : generateInputs c pi r1 = .ok (ss2, r2))
    (hfrag : fragmentsPlugin prep c pf doc r2 = .ok (ss3, r3))
    (hops : operationsPlugin prep c po doc r3 = .ok (ss4, r4))
    (hfun : funcsPlugin c p doc r4 = .ok (ss5, r5)) (hfac : inputFuncsPlugin c q r5 = .ok (ss6, r6))
    (hplain : PlainConfig c.config) (hnodup : c.schema.types.keys.Nodup)
    (hdef : ∀ d ∈ fragmentsOf doc, ∀ x, Spreads d.sels x → x ∈ (fragmentsOf doc).map (·.name))
    (hdefO : ∀ o ∈ operationsOf doc, ∀ x, Spreads o.sels x → x ∈ (fragmentsOf doc).map (·.name))
    (hcyc : ∀ n d, lookup (fragmentsOf doc) n = some d → ¬ Needs (fragmentsOf doc) d.sels n)
    (hinl : ∀ d ∈ fragmentsOf doc, NoInlineSpread d.sels)
    (hkeptE : ∀ t, EnumOf c.schema t → t.name ∉ builtinNames → EnumKept pe t.name)
    (hkeptI : ∀ t, InputOf c.schema t → SelectedInput pi t)
    (hhelper : ∀ t, IsEnum c.schema t → t ∈ builtinNames → t ∉ r6.builtins)
    (hvars : ∀ o ∈ operationsOf doc, ∀ v ∈ o.vars, v.type.base ∉ builtinNames ∧
      (truthy (p.co.inputs.get? v.type.base) = true → IsInput c.schema v.type.base))
    (hunion : ∀ f ∈ fragmentsOf doc, ¬ IsUnion c.schema f.typeCondition)
    (hname : ∀ t, IsInput c.schema t → Kind.input.style c.env t ≠ .ok "SHOULD_NOT_BE_USED") :
    ∀ n ∈ r6.forwardReferences, IsClass (ss1 ++ (ss2 ++ (ss3 ++ ss4))) n := by
  intro n hn
  rcases ((rebuilt_ok henums hinputs hfrag hops hfun hfac hplain hnodup hdef hdefO hcyc hinl hkeptE hkeptI hhelper
    hvars).1 n hn).2 with h | ⟨f, hf, hu, _⟩ | ⟨rfl, t, ht, he⟩
  · exact h
  · exact (hunion f hf hu).elim
  · exact (hname t ht he).elim

/-! ## the whole module -/

/-- the plugins that generate classes, in the order of the init template -/
def classPlugins (prep : List Char → List Char) (c : Ctx) (pe : EnumsConfig) (pi : InputsConfig) (pf : FragmentsConfig)
    (po : OperationsConfig) (doc : Document) : List Plugin :=
  [⟨"EnumsPlugin", generateEnums c pe⟩, ⟨"InputsPlugin", generateInputs c pi⟩,
    ⟨"FragmentsPlugin", fragmentsPlugin prep c pf doc⟩, ⟨"OperationsPlugin", operationsPlugin prep c po doc⟩]

/-- … and the plugins that generate functions -/
def functionPlugins (c : Ctx) (p : FuncsConfig) (q : InputFuncsConfig) (doc : Document) : List Plugin :=
  [⟨"FuncsPlugin", funcsPlugin c p doc⟩, ⟨"InputFuncsPlugin", inputFuncsPlugin c q⟩]

theorem runPlugins_cons {x : Plugin} {ps : List Plugin} {r r' : Reg} {tree : List Stmt}
    (h : runPlugins (x :: ps) r = .ok (tree, r')) :
    ∃ s r1 rest, x.run r = .ok (s, r1) ∧ runPlugins ps r1 = .ok (rest, r') ∧ tree = s ++ rest := by
  unfold runPlugins at h
  split at h
  · cases h
  · rename_i s r1 h1
    split at h
    · cases h
    · rename_i rest r2 h2
      cases h
      exact ⟨s, r1, rest, h1, h2, rfl⟩

theorem runPlugins_cons_ok {x : Plugin} {ps : List Plugin} {r r1 r' : Reg} {s rest : List Stmt}
    (h1 : x.run r = .ok (s, r1)) (h2 : runPlugins ps r1 = .ok (rest, r')) :
    runPlugins (x :: ps) r = .ok (s ++ rest, r') := by
  unfold runPlugins
  rw [h1]
  dsimp only
  rw [h2]

theorem runPlugins_nil {r r' : Reg} {tree : List Stmt} (h : runPlugins [] r = .ok (tree, r')) : tree = [] ∧ r' = r := by
  unfold runPlugins at h
  cases h
  exact ⟨rfl, rfl⟩

/-- C76, for the pydantic plugins: the whole module generated with an accepted configuration — imports, helper classes,
enums, inputs, fragments, operations, functions, factories and the final `model_rebuild()`s — executes from its first
line.  The hypotheses are those of `C74_functions_resolve_partial` and `C76_rebuilt_partial`; fragments on interfaces that
are spread at a union and introspection enums are excluded. -/
theorem C76_module_partial {B : List String} {prep : List Char → List Char} {c : Ctx} {pe : EnumsConfig} {pi : InputsConfig}
    {pf : FragmentsConfig} {po : OperationsConfig} {p : FuncsConfig} {q : InputFuncsConfig} {doc : Document}
    {bases : Dict (List String)} {iter : List String → List String} {skip : Bool} {m : List Stmt}
    (hB : PythonNames B) (haccepted : validateNames B c.env.config bases = .ok ()) (hiter : ∀ l, (iter l).Perm l)
    (hplain : PlainConfig c.config) (hnodup : c.schema.types.keys.Nodup)
    (hdef : ∀ d ∈ fragmentsOf doc, ∀ x, Spreads d.sels x → x ∈ (fragmentsOf doc).map (·.name))
    (hdefO : ∀ o ∈ operationsOf doc, ∀ x, Spreads o.sels x → x ∈ (fragmentsOf doc).map (·.name))
    (hcyc : ∀ n d, lookup (fragmentsOf doc) n = some d → ¬ Needs (fragmentsOf doc) d.sels n)
    (hinl : ∀ d ∈ fragmentsOf doc, NoInlineSpread d.sels)
    (hobj : ∀ d ∈ fragmentsOf doc, IsInterface c.schema d.typeCondition → ¬ SpreadAtUnion c.schema doc d.name)
    (huniq : ((operationsOf doc).map (·.name)).Nodup)
    (hkeptE : ∀ t, EnumOf c.schema t → t.name ∉ builtinNames → EnumKept pe t.name)
    (hkeptI : ∀ t, InputOf c.schema t → SelectedInput pi t)
    (hvars : ∀ o ∈ operationsOf doc, ∀ v ∈ o.vars, v.type.base ∉ builtinNames ∧
      (truthy (p.co.inputs.get? v.type.base) = true → IsInput c.schema v.type.base))
    (hnames : ∀ t ∈ ["UNSET", "GraphQLDefault", "Deprecated"], ¬ IsEnum c.schema t)
    (hclasses : ∀ ss r, runPlugins (classPlugins prep c pe pi pf po doc) (Reg.init c.env) = .ok (ss, r) →
      (∀ b ∈ c.config.objectBases, External r (lastComponent b)) ∧ (NeedsField c po doc → External r "Field"))
    (hall : ∀ ss r, runPlugins (classPlugins prep c pe pi pf po doc ++ functionPlugins c p q doc) (Reg.init c.env)
      = .ok (ss, r) → (NeedsOptional p → External r "Optional") ∧ ∀ b ∈ r.builtins, b ∉ enumHelpers)
    (h : generateAst c.env iter (classPlugins prep c pe pi pf po doc ++ functionPlugins c p q doc) skip = .ok m) :
    Executes (· ∈ B) m := by
  have hr : ∃ tree r, runPlugins (classPlugins prep c pe pi pf po doc ++ functionPlugins c p q doc) (Reg.init c.env)
      = .ok (tree, r) := by
    unfold generateAst at h
    split at h
    · cases h
    · exact ⟨_, _, by assumption⟩
  obtain ⟨tree, r, hrun⟩ := hr
  obtain ⟨hopt, hnone⟩ := hall tree r hrun
  obtain ⟨ss1, r1, t1, h1, x1, e1⟩ := runPlugins_cons hrun
  obtain ⟨ss2, r2, t2, h2, x2, e2⟩ := runPlugins_cons x1
  obtain ⟨ss3, r3, t3, h3, x3, e3⟩ := runPlugins_cons x2
  obtain ⟨ss4, r4, t4, h4, x4, e4⟩ := runPlugins_cons x3
  obtain ⟨ss5, r5, t5, h5, x5, e5⟩ := runPlugins_cons x4
  obtain ⟨ss6, r6, t6, h6, x6, e6⟩ := runPlugins_cons x5
  obtain ⟨rfl, rfl⟩ := runPlugins_nil x6
  have hcl : runPlugins (classPlugins prep c pe pi pf po doc) (Reg.init c.env) = .ok (ss1 ++ (ss2 ++ (ss3 ++ (ss4 ++ []))), r4) :=
    runPlugins_cons_ok h1 (runPlugins_cons_ok h2 (runPlugins_cons_ok h3 (runPlugins_cons_ok h4 rfl)))
  obtain ⟨hbases, hfield⟩ := hclasses _ _ hcl
  have htree : tree = (ss1 ++ (ss2 ++ (ss3 ++ ss4))) ++ (ss5 ++ ss6) := by
    rw [e1, e2, e3, e4, e5, e6]
    simp only [List.append_nil, List.append_assoc]
  have nofrag : ∀ n, ¬ InterfaceFragmentAtUnion c doc n := fun n ⟨f, hf, hi, hu, _⟩ => hobj f hf hi hu
  obtain ⟨hre, hsc⟩ := rebuilt_ok h1 h2 h3 h4 h5 h6 hplain hnodup hdef hdefO hcyc hinl hkeptE hkeptI (by
    intro t ht hb hm
    simp only [builtinNames, List.mem_cons, List.not_mem_nil, or_false] at hb
    rcases hb with rfl | rfl | hb
    · exact hnone _ hm (by simp [enumHelpers])
    · exact hnone _ hm (by simp [enumHelpers])
    · exact hnames t (by simpa using hb) ht) hvars
  refine C76_assembly_partial hB haccepted hiter hrun ?_ (fun b hb he => (hnone b hb he).elim) (fun _ n hn => ?_) h
  · rw [htree]
    obtain ⟨hstyled, hreg, hcls⟩ := registeredTypes_bound h1 h2 h3 h4 hplain hnodup hdef hcyc hinl
    refine (functions_resolve h4 h5 h6 hstyled
      (fun s hs => List.mem_append_right _ (List.mem_append_right _ (List.mem_append_right _ hs)))
      (C60_module_resolves_partial h1 h2 h3 h4 hplain hnodup hdef hdefO hcyc hinl hbases hfield)
      hreg hcls huniq hopt).1.mono ?_
    rintro n (h | h)
    · refine .inl ?_
      rcases h with h | h | h | h
      · exact .inl h
      · exact .inr (.inl h)
      · exact .inr (.inr (.inl h))
      · exact .inr (.inr (.inr (hsc ▸ h)))
    · exact (nofrag n h).elim
  · rw [htree, boundL_append]
    exact List.mem_append_left _ (hre n hn).1

/-- C76, for the pydantic plugins: the module ends with the rebuild statements of classes it defines.  (`C76_module_partial`
says that the names are bound; a name that is bound may still be an alias for a union, which has no `model_rebuild`.) -/
theorem C76_module_rebuilds_classes_partial {prep : List Char → List Char} {c : Ctx} {pe : EnumsConfig} {pi : InputsConfig}
    {pf : FragmentsConfig} {po : OperationsConfig} {p : FuncsConfig} {q : InputFuncsConfig} {doc : Document}
    {iter : List String → List String} {skip : Bool} {m : List Stmt}
    (hplain : PlainConfig c.config) (hnodup : c.schema.types.keys.Nodup)
    (hdef : ∀ d ∈ fragmentsOf doc, ∀ x, Spreads d.sels x → x ∈ (fragmentsOf doc).map (·.name))
    (hdefO : ∀ o ∈ operationsOf doc, ∀ x, Spreads o.sels x → x ∈ (fragmentsOf doc).map (·.name))
    (hcyc : ∀ n d, lookup (fragmentsOf doc) n = some d → ¬ Needs (fragmentsOf doc) d.sels n)
    (hinl : ∀ d ∈ fragmentsOf doc, NoInlineSpread d.sels)
    (hkeptE : ∀ t, EnumOf c.schema t → t.name ∉ builtinNames → EnumKept pe t.name)
    (hkeptI : ∀ t, InputOf c.schema t → SelectedInput pi t)
    (hvars : ∀ o ∈ operationsOf doc, ∀ v ∈ o.vars, v.type.base ∉ builtinNames ∧
      (truthy (p.co.inputs.get? v.type.base) = true → IsInput c.schema v.type.base))
    (hnames : ∀ t ∈ ["UNSET", "GraphQLDefault", "Deprecated"], ¬ IsEnum c.schema t)
    (hhelpers : ∀ ss r, runPlugins (classPlugins prep c pe pi pf po doc ++ functionPlugins c p q doc) (Reg.init c.env)
      = .ok (ss, r) → ∀ b ∈ r.builtins, b ∉ enumHelpers)
    (hunion : ∀ f ∈ fragmentsOf doc, ¬ IsUnion c.schema f.typeCondition)
    (hname : ∀ t, IsInput c.schema t → Kind.input.style c.env t ≠ .ok "SHOULD_NOT_BE_USED")
    (h : generateAst c.env iter (classPlugins prep c pe pi pf po doc ++ functionPlugins c p q doc) skip = .ok m) :
    ∃ (front : List Stmt) (rebuilt : List String), m = front ++ rebuilt.map (rebuildStmt c.env.config.pydanticV2) ∧ ∀ n ∈ rebuilt, IsClass front n := by
  unfold generateAst at h
  split at h
  · cases h
  rename_i tree r hrun
  have hnone := hhelpers tree r hrun
  split at h
  · cases h
  rename_i helpers hh
  dsimp only at h
  obtain ⟨ss1, r1, t1, h1, x1, e1⟩ := runPlugins_cons hrun
  obtain ⟨ss2, r2, t2, h2, x2, e2⟩ := runPlugins_cons x1
  obtain ⟨ss3, r3, t3, h3, x3, e3⟩ := runPlugins_cons x2
  obtain ⟨ss4, r4, t4, h4, x4, e4⟩ := runPlugins_cons x3
  obtain ⟨ss5, r5, t5, h5, x5, e5⟩ := runPlugins_cons x4
  obtain ⟨ss6, r6, t6, h6, x6, e6⟩ := runPlugins_cons x5
  obtain ⟨rfl, rfl⟩ := runPlugins_nil x6
  have htree : tree = (ss1 ++ (ss2 ++ (ss3 ++ ss4))) ++ (ss5 ++ ss6) := by
    rw [e1, e2, e3, e4, e5, e6]
    simp only [List.append_nil, List.append_assoc]
  have key := C76_rebuilt_classes_partial h1 h2 h3 h4 h5 h6 hplain hnodup hdef hdefO hcyc hinl hkeptE hkeptI (by
    intro t ht hb hm
    simp only [builtinNames, List.mem_cons, List.not_mem_nil, or_false] at hb
    rcases hb with rfl | rfl | hb
    · exact hnone _ hm (by simp [enumHelpers])
    · exact hnone _ hm (by simp [enumHelpers])
    · exact hnames t (by simpa using hb) ht) hvars hunion hname
  cases skip with
  | true =>
    cases h
    exact ⟨_, [], (List.append_nil _).symm, fun _ h => by cases h⟩
  | false =>
    cases h
    refine ⟨_, _, rfl, fun n hn => ?_⟩
    obtain ⟨x, y, z, hc⟩ := key n ((mem_pySorted _).1 hn)
    exact ⟨x, y, z, List.mem_append_right _ (by rw [htree]; exact List.mem_append_left _ hc)⟩

/-! ## The hypotheses can be met -/

theorem run_ok {ps : List Plugin} {r : Reg} {test : List Stmt → Reg → Bool} (h : (match runPlugins ps r with
      | .ok (t, r') => test t r'
      | .error _ => false) = true) : ∃ t r', runPlugins ps r = .ok (t, r') ∧ test t r' = true := by
  split at h
  · rename_i t r' e
    exact ⟨t, r', e, h⟩
  · cases h

/-- `input Filter { level: Level, any: [Filter!] }`: the class refers to itself and is rebuilt -/
def loopSchema : Schema := { query := some "Query", types := [("String", ⟨.scalar, none⟩),
  ("Level", ⟨.enum [⟨"LOW", none, none⟩], none⟩),
  ("Filter", ⟨.input [⟨"level", .named "Level", none, none, none⟩,
    ⟨"any", .list (.nonNull (.named "Filter")), none, none, none⟩] [], none⟩),
  ("Item", ⟨.object [plainField "level" (.named "Level"), plainField "next" (.named "Item")] [], none⟩),
  ("Query", ⟨.object [plainField "item" (.named "Item")] [], none⟩)] }

/-- ```
fragment Bits on Item { level }
query Find($filter: Filter) { item { ...Bits next { ...Bits } } }
``` -/
def loopDoc : Document := [.fragment ⟨"Bits", "Item", [ask "level"]⟩,
  .operation ⟨.query, some "Find", [⟨"filter", .named "Filter", none⟩],
    [ask "item" [.spread "Bits", ask "next" [.spread "Bits"]]]⟩]

theorem loop_fragments {d : FragDef} (h : d ∈ fragmentsOf loopDoc) : d = ⟨"Bits", "Item", [ask "level"]⟩ := by
  simpa only [loopDoc, fragmentsOf, List.filterMap_cons, List.filterMap_nil, List.mem_singleton] using h

theorem loop_operations {o : OpDef} (h : o ∈ operationsOf loopDoc) : o = ⟨.query, some "Find",
    [⟨"filter", .named "Filter", none⟩], [ask "item" [.spread "Bits", ask "next" [.spread "Bits"]]]⟩ := by
  simpa only [loopDoc, operationsOf, List.filterMap_cons, List.filterMap_nil, List.mem_singleton] using h

theorem no_spread {n x : String} : ¬ Spreads [ask n] x := by
  intro h
  have := mem_spreadNames h
  simp [ask, spreadNames, spreadNamesOf] at this

/-- A module with a rebuilt class: fifteen statements, executed with Python's builtins only. -/
example : ∃ m, generateAst {} List.reverse (classPlugins id { schema := loopSchema } {} {} {} {} loopDoc ++
      functionPlugins { schema := loopSchema } storeFuncs {} loopDoc) false = .ok m ∧ m.length = 15 ∧
    (∃ t r, runPlugins (classPlugins id { schema := loopSchema } {} {} {} {} loopDoc ++
      functionPlugins { schema := loopSchema } storeFuncs {} loopDoc) (Reg.init {}) = .ok (t, r) ∧
      r.forwardReferences = ["Filter"]) ∧
    Executes (· ∈ someBuiltins) m := by
  obtain ⟨m, hm, ht⟩ := ast_ok (env := {}) (iter := List.reverse) (plugins := classPlugins id { schema := loopSchema } {} {} {} {}
    loopDoc ++ functionPlugins { schema := loopSchema } storeFuncs {} loopDoc) (skip := false)
    (test := fun m => m.length == 15) (by decide +kernel)
  obtain ⟨t1, r1, h1, ht1⟩ := run_ok (ps := classPlugins id { schema := loopSchema } {} {} {} {} loopDoc) (r := Reg.init {})
    (test := fun _ r => r.imports.contains "pydantic.BaseModel" && r.imports.contains "pydantic.Field") (by decide +kernel)
  obtain ⟨t2, r2, h2, ht2⟩ := run_ok (ps := classPlugins id { schema := loopSchema } {} {} {} {} loopDoc ++
    functionPlugins { schema := loopSchema } storeFuncs {} loopDoc) (r := Reg.init {})
    (test := fun _ r => r.builtins == ["UNSET"] && r.forwardReferences == ["Filter"]) (by decide +kernel)
  simp only [Bool.and_eq_true, beq_iff_eq, List.contains_iff_mem] at ht ht1 ht2
  refine ⟨m, hm, ht, ⟨t2, r2, h2, ht2.2⟩, C76_module_partial (c := { schema := loopSchema }) (bases := []) (fun n h => h)
    (by decide +kernel) (fun l => List.reverse_perm l) (fun t l h => by cases h) (by decide +kernel)
    (fun d hd x hx => (no_spread (by rw [loop_fragments hd] at hx; exact hx)).elim)
    (fun o ho x hx => by
      rw [loop_operations ho] at hx
      have := mem_spreadNames hx
      simp [ask, spreadNames, spreadNamesOf] at this
      simp [fragmentsOf, loopDoc, this])
    (fun n d hl hx => by
      rw [loop_fragments (lookup_mem hl).1] at hx
      clear hl
      induction hx with
      | direct f h => exact no_spread h
      | through g d f _ _ _ ih => exact ih)
    (fun d hd => by
      rw [loop_fragments hd]
      exact .field _ _ _ _ _ .nil .nil)
    (fun d hd => by
      rw [loop_fragments hd]
      rintro ⟨fs, is, h⟩
      cases h)
    (by decide +kernel)
    (fun t ht _ => ?_) (fun t ht => ?_)
    (fun o ho v hv => by
      rw [loop_operations ho] at hv
      rw [List.mem_singleton.1 hv]
      exact ⟨by decide +kernel, fun h => by cases h⟩)
    (fun t ht => by
      simp only [List.mem_cons, List.not_mem_nil, or_false] at ht
      rcases ht with rfl | rfl | rfl <;> (rintro ⟨vs, h⟩; cases h))
    (fun ss r h => by
      have h : runPlugins (classPlugins id { schema := loopSchema } {} {} {} {} loopDoc) (Reg.init {}) = .ok (ss, r) := h
      rw [h1] at h
      cases h
      exact ⟨fun b hb => by rw [List.mem_singleton.1 hb]; exact .inl ⟨_, ht1.1, by decide +kernel⟩,
        fun _ => .inl ⟨_, ht1.2, by decide +kernel⟩⟩)
    (fun ss r h => by
      have h : runPlugins (classPlugins id { schema := loopSchema } {} {} {} {} loopDoc ++
        functionPlugins { schema := loopSchema } storeFuncs {} loopDoc) (Reg.init {}) = .ok (ss, r) := h
      rw [h2] at h
      cases h
      refine ⟨?_, fun b hb => by rw [ht2.1, List.mem_singleton] at hb; rw [hb]; decide +kernel⟩
      rintro ⟨d, hd, k, hk, hn⟩
      simp only [storeFuncs, List.mem_cons, List.not_mem_nil, or_false] at hd
      rcases hd with rfl | rfl
      · simp [storeFuncs] at hk
      · simp only [storeFuncs, List.nil_append, List.mem_singleton] at hk
        rw [hk] at hn
        cases hn) hm⟩
  · have : t ∈ enumTypes loopSchema := mem_enumTypes.2 ht
    have hn : t.name = "Level" := by
      simp only [enumTypes, loopSchema, List.filterMap_cons, List.filterMap_nil, List.mem_singleton] at this
      rw [this]
    rw [hn]
    refine ⟨by rintro l ⟨⟩, by rintro ⟨⟨⟩, _⟩, ?_⟩
    rintro ⟨_, rest, hr⟩
    simp at hr
  · have : t ∈ inputTypes loopSchema := mem_inputTypes.2 ht
    have hn : t.name = "Filter" := by
      simp only [inputTypes, loopSchema, List.filterMap_cons, List.filterMap_nil, List.mem_singleton] at this
      rw [this]
    refine .inr ⟨by rintro l ⟨⟩, ?_⟩
    rw [hn]
    decide +kernel

/-- whether the last statement rebuilds `n` -/
def lastRebuilds (n : String) (m : List Stmt) : Bool :=
  match m.getLast? with
  | some (.expr (.call (.attr (.name k) "model_rebuild") [] [])) => k == n
  | _ => false

theorem lastRebuilds_sound {n : String} {m : List Stmt} (h : lastRebuilds n m = true) :
    ∃ front, m = front ++ [rebuildStmt true n] := by
  unfold lastRebuilds at h
  split at h
  · rename_i k hk
    have : k = n := by simpa using h
    subst this
    obtain ⟨ys, rfl⟩ := List.getLast?_eq_some_iff.1 hk
    exact ⟨ys, rfl⟩
  · cases h

/-- The same module ends with `Filter.model_rebuild()`, and `Filter` is one of its classes. -/
example : ∃ m, generateAst {} List.reverse (classPlugins id { schema := loopSchema } {} {} {} {} loopDoc ++
      functionPlugins { schema := loopSchema } storeFuncs {} loopDoc) false = .ok m ∧
    (∃ front, m = front ++ [rebuildStmt true "Filter"]) ∧
    ∃ (front : List Stmt) (rebuilt : List String), m = front ++ rebuilt.map (rebuildStmt true) ∧ ∀ n ∈ rebuilt, IsClass front n := by
  obtain ⟨m, hm, ht⟩ := ast_ok (env := {}) (iter := List.reverse) (plugins := classPlugins id { schema := loopSchema } {} {} {} {}
    loopDoc ++ functionPlugins { schema := loopSchema } storeFuncs {} loopDoc) (skip := false)
    (test := lastRebuilds "Filter") (by decide +kernel)
  obtain ⟨t2, r2, h2, ht2⟩ := run_ok (ps := classPlugins id { schema := loopSchema } {} {} {} {} loopDoc ++
    functionPlugins { schema := loopSchema } storeFuncs {} loopDoc) (r := Reg.init {})
    (test := fun _ r => r.builtins == ["UNSET"]) (by decide +kernel)
  rw [beq_iff_eq] at ht2
  have hin : ∀ t, InputOf loopSchema t → t.name = "Filter" := fun t ht => by
    have : t ∈ inputTypes loopSchema := mem_inputTypes.2 ht
    simp only [inputTypes, loopSchema, List.filterMap_cons, List.filterMap_nil, List.mem_singleton] at this
    rw [this]
  refine ⟨m, hm, lastRebuilds_sound ht, C76_module_rebuilds_classes_partial (c := { schema := loopSchema })
    (fun t l h => by cases h) (by decide +kernel)
    (fun d hd x hx => (no_spread (by rw [loop_fragments hd] at hx; exact hx)).elim)
    (fun o ho x hx => by
      rw [loop_operations ho] at hx
      have := mem_spreadNames hx
      simp [ask, spreadNames, spreadNamesOf] at this
      simp [fragmentsOf, loopDoc, this])
    (fun n d hl hx => by
      rw [loop_fragments (lookup_mem hl).1] at hx
      clear hl
      induction hx with
      | direct f h => exact no_spread h
      | through g d f _ _ _ ih => exact ih)
    (fun d hd => by
      rw [loop_fragments hd]
      exact .field _ _ _ _ _ .nil .nil)
    (fun t ht _ => ?_) (fun t ht => ?_)
    (fun o ho v hv => by
      rw [loop_operations ho] at hv
      rw [List.mem_singleton.1 hv]
      exact ⟨by decide +kernel, fun h => by cases h⟩)
    (fun t ht => by
      simp only [List.mem_cons, List.not_mem_nil, or_false] at ht
      rcases ht with rfl | rfl | rfl <;> (rintro ⟨vs, h⟩; cases h))
    (fun ss r h => by
      rw [h2] at h
      cases h
      exact fun b hb => by rw [ht2, List.mem_singleton] at hb; rw [hb]; decide +kernel)
    (fun d hd => by
      rw [loop_fragments hd]
      rintro ⟨ms, h⟩
      cases h)
    (fun t ht => ?_) hm⟩
  · have : t ∈ enumTypes loopSchema := mem_enumTypes.2 ht
    have hn : t.name = "Level" := by
      simp only [enumTypes, loopSchema, List.filterMap_cons, List.filterMap_nil, List.mem_singleton] at this
      rw [this]
    rw [hn]
    refine ⟨by rintro l ⟨⟩, by rintro ⟨⟨⟩, _⟩, ?_⟩
    rintro ⟨_, rest, hr⟩
    simp at hr
  · refine .inr ⟨by rintro l ⟨⟩, ?_⟩
    rw [hin t ht]
    decide +kernel
  · obtain ⟨e, he, rfl⟩ := inputOf_isInput ht
    rw [hin e he]
    decide +kernel

/-- A module for a document with a fragment on an interface, spread at objects, at an interface and by another fragment. -/
example : ∃ m, generateAst {} List.reverse (classPlugins id { schema := storeSchema } {} {} {} {} sharedDoc ++
      functionPlugins { schema := storeSchema } {} {} sharedDoc) false = .ok m ∧ Executes (· ∈ someBuiltins) m := by
  obtain ⟨m, hm, _⟩ := ast_ok (env := {}) (iter := List.reverse) (plugins := classPlugins id { schema := storeSchema } {} {} {} {}
    sharedDoc ++ functionPlugins { schema := storeSchema } {} {} sharedDoc) (skip := false)
    (test := fun _ => true) (by decide +kernel)
  obtain ⟨t1, r1, h1, ht1⟩ := run_ok (ps := classPlugins id { schema := storeSchema } {} {} {} {} sharedDoc) (r := Reg.init {})
    (test := fun _ r => r.imports.contains "pydantic.BaseModel" && r.imports.contains "pydantic.Field") (by decide +kernel)
  obtain ⟨t2, r2, h2, ht2⟩ := run_ok (ps := classPlugins id { schema := storeSchema } {} {} {} {} sharedDoc ++
    functionPlugins { schema := storeSchema } {} {} sharedDoc) (r := Reg.init {})
    (test := fun _ r => r.builtins == ["UNSET"]) (by decide +kernel)
  simp only [Bool.and_eq_true, beq_iff_eq, List.contains_iff_mem] at ht1 ht2
  have hops : ∀ o ∈ operationsOf sharedDoc, o.vars = [] ∧ ∀ x, Spreads o.sels x → x = "Bits" ∨ x = "UserBits" := by
    intro o ho
    simp only [sharedDoc, operationsOf, List.filterMap_cons, List.filterMap_nil, List.mem_singleton] at ho
    subst ho
    refine ⟨rfl, fun x hx => ?_⟩
    have := mem_spreadNames hx
    simp [ask, spreadNames, spreadNamesOf] at this
    rcases this with h | h | h | h <;> simp [h]
  refine ⟨m, hm, C76_module_partial (c := { schema := storeSchema }) (bases := []) (fun n h => h)
    (by decide +kernel) (fun l => List.reverse_perm l) (fun t l h => by cases h) (by decide +kernel)
    (fun d hd x hx => by rw [(shared_spreads hd hx).2]; simp [fragmentsOf, sharedDoc])
    (fun o ho x hx => by rcases (hops o ho).2 x hx with h | h <;> simp [fragmentsOf, sharedDoc, h])
    (fun n d hl hx => by
      obtain ⟨hm, hn⟩ := lookup_mem hl
      obtain ⟨h1, h2⟩ := shared_needs hm hx
      rw [hn, h2] at h1
      exact absurd h1 (by decide +kernel))
    (fun d hd => by
      rcases shared_fragments hd with rfl | rfl
      · exact .field _ _ _ _ _ .nil .nil
      · exact .spread _ _ (.field _ _ _ _ _ .nil .nil))
    shared_not_at_union (by decide +kernel)
    (fun t ht _ => ?_) (fun t ht => ?_)
    (fun o ho v hv => by rw [(hops o ho).1] at hv; cases hv)
    (fun t ht => by
      simp only [List.mem_cons, List.not_mem_nil, or_false] at ht
      rcases ht with rfl | rfl | rfl <;> (rintro ⟨vs, h⟩; cases h))
    (fun ss r h => by
      have h : runPlugins (classPlugins id { schema := storeSchema } {} {} {} {} sharedDoc) (Reg.init {}) = .ok (ss, r) := h
      rw [h1] at h
      cases h
      exact ⟨fun b hb => by rw [List.mem_singleton.1 hb]; exact .inl ⟨_, ht1.1, by decide +kernel⟩,
        fun _ => .inl ⟨_, ht1.2, by decide +kernel⟩⟩)
    (fun ss r h => by
      have h : runPlugins (classPlugins id { schema := storeSchema } {} {} {} {} sharedDoc ++
        functionPlugins { schema := storeSchema } {} {} sharedDoc) (Reg.init {}) = .ok (ss, r) := h
      rw [h2] at h
      cases h
      exact ⟨fun ⟨d, hd, _⟩ => (by cases hd), fun b hb => by rw [ht2, List.mem_singleton] at hb; rw [hb]; decide +kernel⟩) hm⟩
  · have : t ∈ enumTypes storeSchema := mem_enumTypes.2 ht
    have hn : t.name = "Color" := by
      simp only [enumTypes, storeSchema, List.filterMap_cons, List.filterMap_nil, List.mem_singleton] at this
      rw [this]
    rw [hn]
    refine ⟨by rintro l ⟨⟩, by rintro ⟨⟨⟩, _⟩, ?_⟩
    rintro ⟨_, rest, hr⟩
    simp at hr
  · have : t ∈ inputTypes storeSchema := mem_inputTypes.2 ht
    have hn : t.name = "Filter" := by
      simp only [inputTypes, storeSchema, List.filterMap_cons, List.filterMap_nil, List.mem_singleton] at this
      rw [this]
    refine .inr ⟨by rintro l ⟨⟩, ?_⟩
    rw [hn]
    decide +kernel

/-- The documents' plugins alone: `LookNode` is rebuilt, `LookNodeBase` is there. -/
example : ∃ ss1 r1 ss2 r2,
    fragmentsPlugin id { schema := introSchema } {} [.operation ⟨.query, some "Look", [], [ask "node" [ask "level"]]⟩] (Reg.init {})
      = .ok (ss1, r1) ∧
    operationsPlugin id { schema := introSchema } {} [.operation ⟨.query, some "Look", [], [ask "node" [ask "level"]]⟩] r1
      = .ok (ss2, r2) ∧ r2.forwardReferences = ["LookNode"] ∧ "LookNodeBase" ∈ boundL (ss1 ++ ss2) := by
  obtain ⟨t, r, h, ht⟩ := run_ok (r := Reg.init {}) (ps := [⟨"FragmentsPlugin", fragmentsPlugin id { schema := introSchema } {}
      [.operation ⟨.query, some "Look", [], [ask "node" [ask "level"]]⟩]⟩, ⟨"OperationsPlugin",
      operationsPlugin id { schema := introSchema } {} [.operation ⟨.query, some "Look", [], [ask "node" [ask "level"]]⟩]⟩])
    (test := fun t r => r.forwardReferences == ["LookNode"] && (boundL t).contains "LookNodeBase") (by decide +kernel)
  obtain ⟨ss1, r1, t1, h1, x1, rfl⟩ := runPlugins_cons h
  obtain ⟨ss2, r2, t2, h2, x2, rfl⟩ := runPlugins_cons x1
  obtain ⟨rfl, rfl⟩ := runPlugins_nil x2
  simp only [Bool.and_eq_true, beq_iff_eq, List.contains_iff_mem, List.append_nil] at ht
  exact ⟨ss1, r1, ss2, r, h1, h2, ht⟩

/-! ## Counterexamples -/

/-- `query Look($k: __TypeKind) { node { __typename } }`: the class that is rebuilt has an empty name. -/
theorem C76_variable_counterexample : ∃ m,
    generateAst {} id [⟨"OperationsPlugin", operationsPlugin id { schema := introSchema } {}
      [.operation ⟨.query, some "Look", [⟨"k", .named "__TypeKind", none⟩], [ask "node" [ask "__typename"]]⟩]⟩] false = .ok m ∧
    ∀ B : List String, "" ∉ B → ¬ Executes (· ∈ B) m := by
  obtain ⟨m, h, ht⟩ := ast_ok (env := {}) (iter := id) (plugins := [⟨"OperationsPlugin",
    operationsPlugin id { schema := introSchema } {}
      [.operation ⟨.query, some "Look", [⟨"k", .named "__TypeKind", none⟩], [ask "node" [ask "__typename"]]⟩]⟩]) (skip := false)
    (test := looseTest "") (by decide +kernel)
  exact ⟨m, h, fun B hB => loose_module ht hB⟩

/-- a union, one of whose members has an enum field -/
def mixedSchema : Schema := { query := some "Query", types := [("String", ⟨.scalar, none⟩),
  ("Level", ⟨.enum [⟨"LOW", none, none⟩], none⟩),
  ("Item", ⟨.object [plainField "level" (.named "Level")] [], none⟩),
  ("Note", ⟨.object [plainField "text" (.named "String")] [], none⟩),
  ("Thing", ⟨.union ["Item", "Note"], none⟩),
  ("Query", ⟨.object [plainField "thing" (.named "Thing")] [], none⟩)] }

/-- whether some assignment, but no class, has the name `n` -/
def onlyAlias (n : String) (m : List Stmt) : Bool :=
  m.all (fun s => match s with | .classDef k _ _ _ => k != n | _ => true) &&
  m.any (fun s => match s with | .assign (.name k) _ => k == n | _ => false)

/-- `fragment Bits on Thing { ... on Item { level } }` with the fragments plugin before the enums plugin: the module ends
with `Bits.model_rebuild()`, but `Bits` is no class: it is `Union[BitsItem, BitsNote]`. -/
theorem C76_union_alias_counterexample : ∃ m,
    generateAst {} id [⟨"FragmentsPlugin", fragmentsPlugin id { schema := mixedSchema } {}
      [.fragment ⟨"Bits", "Thing", [.inline (some "Item") [ask "level"]]⟩]⟩,
      ⟨"EnumsPlugin", generateEnums { schema := mixedSchema } {}⟩] false = .ok m ∧
    (∃ front, m = front ++ [rebuildStmt true "Bits"]) ∧ ¬ IsClass m "Bits" ∧ ∃ e, Stmt.assign (.name "Bits") e ∈ m := by
  obtain ⟨m, h, ht⟩ := ast_ok (env := {}) (iter := id) (plugins := [⟨"FragmentsPlugin",
      fragmentsPlugin id { schema := mixedSchema } {} [.fragment ⟨"Bits", "Thing", [.inline (some "Item") [ask "level"]]⟩]⟩,
      ⟨"EnumsPlugin", generateEnums { schema := mixedSchema } {}⟩]) (skip := false)
    (test := fun m => onlyAlias "Bits" m && lastRebuilds "Bits" m) (by decide +kernel)
  simp only [onlyAlias, Bool.and_eq_true, List.all_eq_true, List.any_eq_true] at ht
  obtain ⟨⟨h1, s, hs, h2⟩, h3⟩ := ht
  refine ⟨m, h, lastRebuilds_sound h3, ?_, ?_⟩
  · rintro ⟨x, y, z, hc⟩
    simpa using h1 _ hc
  · split at h2
    · have : ‹String› = "Bits" := by simpa using h2
      subst this
      exact ⟨_, hs⟩
    · cases h2

/-- an input with a field of an input type that is left out because of its underscore -/
def outerSchema : Schema := { query := some "Query", types := [("String", ⟨.scalar, none⟩),
  ("Outer", ⟨.input [⟨"inner", .named "_Inner", none, none, none⟩] [], none⟩),
  ("_Inner", ⟨.input [⟨"name", .named "String", none, none, none⟩] [], none⟩),
  ("Query", ⟨.object [plainField "ping" (.named "String")] [], none⟩)] }

/-- The inputs plugin leaves out `_Inner`.  The factory for `Outer` refers to it, and a class called
`SHOULD_NOT_BE_USED` is rebuilt. -/
theorem C76_factory_counterexample : ∃ m,
    generateAst {} id [⟨"InputsPlugin", generateInputs { schema := outerSchema } {}⟩,
      ⟨"InputFuncsPlugin", inputFuncsPlugin { schema := outerSchema } {}⟩] false = .ok m ∧
    ∀ B : List String, "SHOULD_NOT_BE_USED" ∉ B → ¬ Executes (· ∈ B) m := by
  obtain ⟨m, h, ht⟩ := ast_ok (env := {}) (iter := id) (plugins := [⟨"InputsPlugin", generateInputs { schema := outerSchema } {}⟩,
      ⟨"InputFuncsPlugin", inputFuncsPlugin { schema := outerSchema } {}⟩]) (skip := false)
    (test := looseTest "SHOULD_NOT_BE_USED") (by decide +kernel)
  exact ⟨m, h, fun B hB => loose_module ht hB⟩

/-- `query Ping($k: Color) { ping }` with a coercion for the enum `Color` among those for inputs: the same happens,
although nothing is left out. -/
theorem C76_coercion_counterexample : ∃ m,
    generateAst {} id (classPlugins id { schema := storeSchema } {} {} {} {}
        [.operation ⟨.query, some "Ping", [⟨"k", .named "Color", none⟩], [ask "ping"]⟩] ++
      functionPlugins { schema := storeSchema } { storeFuncs with co := { inputs := [("Color", "levels.Any")] } } {}
        [.operation ⟨.query, some "Ping", [⟨"k", .named "Color", none⟩], [ask "ping"]⟩]) false = .ok m ∧
    ∀ B : List String, "SHOULD_NOT_BE_USED" ∉ B → ¬ Executes (· ∈ B) m := by
  obtain ⟨m, h, ht⟩ := ast_ok (env := {}) (iter := id) (plugins := classPlugins id { schema := storeSchema } {} {} {} {}
        [.operation ⟨.query, some "Ping", [⟨"k", .named "Color", none⟩], [ask "ping"]⟩] ++
      functionPlugins { schema := storeSchema } { storeFuncs with co := { inputs := [("Color", "levels.Any")] } } {}
        [.operation ⟨.query, some "Ping", [⟨"k", .named "Color", none⟩], [ask "ping"]⟩]) (skip := false)
    (test := looseTest "SHOULD_NOT_BE_USED") (by decide +kernel)
  exact ⟨m, h, fun B hB => loose_module ht hB⟩

end Turms.Props
