import Verif.Lemmas.QuotedFuncs
import Verif.Props.ForwardNames
import Verif.Props.FuncScope

/-!
# C63 for functions: every name quoted in a signature is defined by the module
-/

namespace Turms.Props
open Turms Turms.Spec Turms.Fragments

theorem mem_quotedInL {ss : List Stmt} {n : String} : n ∈ quotedInL ss ↔ ∃ s ∈ ss, n ∈ quotedIn s := by
  induction ss with
  | nil => simp [quotedInL]
  | cons s ss ih => simp [quotedInL, ih]

/-- Run the six plugins enums, inputs, fragments, operations, funcs and input_funcs, in this order, on a fresh registry
and a document that spreads only fragments it defines; let every coercion of an input type be for an input type of the
schema.  Every name quoted in an annotation of the module — of a class, of a parameter, of what a function returns —
is bound by the classes of the module, or is the name of a helper class the registry emits — or it is the name of a
fragment on an interface, or the class of a type the plugins were told to leave out. -/
theorem C63_functions_partial {prep : List Char → List Char} {c : Ctx} {pe : EnumsConfig} {pi : InputsConfig}
    {pf : FragmentsConfig} {po : OperationsConfig} {p : FuncsConfig} {q : InputFuncsConfig} {doc : Document}
    {r1 r2 r3 r4 r5 r6 : Reg} {ss1 ss2 ss3 ss4 ss5 ss6 : List Stmt}
    (henums : generateEnums c pe (Reg.init c.env) = .ok (ss1, r1))
    (hinputs : generateInputs c pi r1 = .ok (ss2, r2))
    (hfrag : fragmentsPlugin prep c pf doc r2 = .ok (ss3, r3))
    (hops : operationsPlugin prep c po doc r3 = .ok (ss4, r4))
    (hfun : funcsPlugin c p doc r4 = .ok (ss5, r5)) (hfac : inputFuncsPlugin c q r5 = .ok (ss6, r6))
    (hplain : PlainConfig c.config) (hnodup : c.schema.types.keys.Nodup)
    (hdef : ∀ d ∈ fragmentsOf doc, ∀ x, Spreads d.sels x → x ∈ (fragmentsOf doc).map (·.name))
    (hdefO : ∀ o ∈ operationsOf doc, ∀ x, Spreads o.sels x → x ∈ (fragmentsOf doc).map (·.name))
    (huniq : ((operationsOf doc).map (·.name)).Nodup)
    (hco : ∀ t path, p.co.inputs.get? t = some path → IsInput c.schema t)
    (n : String) (hn : n ∈ quotedInL ((ss1 ++ (ss2 ++ (ss3 ++ ss4))) ++ (ss5 ++ ss6))) :
    n ∈ boundL (ss1 ++ (ss2 ++ (ss3 ++ ss4))) ∨ (∃ b ∈ r6.builtins, n ∈ helperNames b) ∨
      InterfaceFragmentName c doc n ∨ LeftOut c pe pi n := by
  let B : String → Prop := fun b => b ∈ r6.builtins
  let E : String → Prop := fun n => n ∈ boundL (ss1 ++ (ss2 ++ (ss3 ++ ss4))) ∨ (∃ b ∈ r6.builtins, n ∈ helperNames b) ∨
      InterfaceFragmentName c doc n ∨ LeftOut c pe pi n
  have s1 := (generateEnums_ok henums).1.styled (styled_stateAfter c.env [])
  have hI : InputQuotable c B E := by
    refine ⟨fun b hb hm => .inr (.inl ⟨b, hb, ?_⟩), fun t m ht hb hm => ?_, fun t m ht hm => ?_⟩
    · simp only [builtinNames, List.mem_cons, List.not_mem_nil, or_false] at hm
      rcases hm with rfl | rfl | rfl | rfl | rfl <;> simp [helperNames]
    · rcases kept_enum_bound henums ht hb hm with h | h
      · exact .inl (by rw [boundL_append]; exact List.mem_append_left _ h)
      · exact .inr (.inr (.inr (.inl h)))
    · rcases kept_input_bound s1 hplain hnodup hinputs ht hm with h | h
      · exact .inl (by rw [boundL_append, boundL_append]; exact List.mem_append_right _ (List.mem_append_left _ h))
      · exact .inr (.inr (.inr (.inr h)))
  have q6 := (q_factories hI _).run _ _ _ hfac
  have q5 := (q_allOperationFuncs hI hco _).run _ _ _ hfun
  have old : ∀ m ∈ quotedInL (ss1 ++ (ss2 ++ (ss3 ++ ss4))), E m := fun m hm => by
    rcases C63_module_partial henums hinputs hfrag hops hplain hnodup hdef hdefO m hm with h | ⟨b, hb, h⟩ | h
    · exact .inl h
    · exact .inr (.inl ⟨b, q6.1 b (q5.1 b hb), h⟩)
    · exact .inr (.inr h)
  show E n
  rw [quotedInL_append _ (ss5 ++ ss6), quotedInL_append ss5, List.mem_append, List.mem_append] at hn
  rcases hn with hn | hn | hn
  · exact old n hn
  · obtain ⟨f, hf, hn⟩ := mem_quotedInL.1 hn
    obtain ⟨x, hx, hok, A, hret, hcol, hcls⟩ := forall₂_mem_right
      (forall₂_and (allOperationFuncs_ok hfun) (C21_return_annotation hops hfun rfl huniq)) hf
    obtain ⟨_, _, _, hok⟩ := hok
    obtain ⟨ret, body, assigns, P, final, cls, rfl, _⟩ := operationFunc_ok hok
    rw [quotedIn, List.mem_append] at hn
    rcases hn with hn | hn
    · exact q5.2 (fun b hb => q6.1 b hb) _ hf n hn
    · simp only [returnsOf] at hret
      rw [hret] at hn
      have hA : n ∈ quoted A := by
        simp only [quotedO] at hn
        unfold handsBack at hn
        split at hn
        · rw [quoted] at hn
          split at hn <;> simpa [quoted] using hn
        · exact hn
      by_cases hc : p.collapseLonely = true ∧ x.1.sels.length = 1
      · obtain ⟨cls, bases, body, decos, attr, v, _, hcl, _, hb⟩ := hcol hc.1 hc.2
        refine old n ?_
        rw [quotedInL_append, quotedInL_append, quotedInL_append]
        refine List.mem_append_right _ (List.mem_append_right _ (List.mem_append_right _ (mem_quotedInL.2 ⟨_, hcl, ?_⟩)))
        rw [quotedIn]
        exact mem_quotedInL.2 ⟨_, hb, by rw [quotedIn]; exact hA⟩
      · obtain ⟨k, _, rfl⟩ := hcls (by
          cases hp : p.collapseLonely with
          | false => exact .inl rfl
          | true => exact .inr fun hl => hc ⟨hp, hl⟩)
        simp [quoted] at hA
  · exact q6.2 (fun _ h => h) n hn

/-- If in addition no enum or input type is left out and no fragment is on an interface, every name quoted in a
signature is defined. -/
theorem C63_functions_closed_partial {prep : List Char → List Char} {c : Ctx} {pe : EnumsConfig} {pi : InputsConfig}
    {pf : FragmentsConfig} {po : OperationsConfig} {p : FuncsConfig} {q : InputFuncsConfig} {doc : Document}
    {r1 r2 r3 r4 r5 r6 : Reg} {ss1 ss2 ss3 ss4 ss5 ss6 : List Stmt}
    (henums : generateEnums c pe (Reg.init c.env) = .ok (ss1, r1))
    (hinputs : generateInputs c pi r1 = .ok (ss2, r2))
    (hfrag : fragmentsPlugin prep c pf doc r2 = .ok (ss3, r3))
    (hops : operationsPlugin prep c po doc r3 = .ok (ss4, r4))
    (hfun : funcsPlugin c p doc r4 = .ok (ss5, r5)) (hfac : inputFuncsPlugin c q r5 = .ok (ss6, r6))
    (hplain : PlainConfig c.config) (hnodup : c.schema.types.keys.Nodup)
    (hdef : ∀ d ∈ fragmentsOf doc, ∀ x, Spreads d.sels x → x ∈ (fragmentsOf doc).map (·.name))
    (hdefO : ∀ o ∈ operationsOf doc, ∀ x, Spreads o.sels x → x ∈ (fragmentsOf doc).map (·.name))
    (huniq : ((operationsOf doc).map (·.name)).Nodup)
    (hco : ∀ t path, p.co.inputs.get? t = some path → IsInput c.schema t)
    (hkeptE : ∀ t, EnumOf c.schema t → t.name ∉ builtinNames → EnumKept pe t.name)
    (hkeptI : ∀ t, InputOf c.schema t → SelectedInput pi t)
    (hobj : ∀ d ∈ fragmentsOf doc, ¬ IsInterface c.schema d.typeCondition)
    (n : String) (hn : n ∈ quotedInL ((ss1 ++ (ss2 ++ (ss3 ++ ss4))) ++ (ss5 ++ ss6))) :
    n ∈ boundL (ss1 ++ (ss2 ++ (ss3 ++ ss4))) ∨ ∃ b ∈ r6.builtins, n ∈ helperNames b := by
  rcases C63_functions_partial henums hinputs hfrag hops hfun hfac hplain hnodup hdef hdefO huniq hco n hn with
    h | h | ⟨d, hd, hi, _⟩ | ⟨t, ht, hb, hk, _⟩ | ⟨t, ht, hk, _⟩
  · exact .inl h
  · exact .inr h
  · exact (hobj d hd hi).elim
  · exact (hk (hkeptE t ht hb)).elim
  · exact (hk (hkeptI t ht)).elim

/-! ## a module that meets the hypotheses, and one with an undefined name -/

/-- the ring of inputs, without the type that has a hidden field -/
def ringCtx : Ctx := { schema := { ringSchema with types := ringSchema.types.filter fun p => p.1 != "Hidden" } }

/-- A query with an argument of an introspection type, a function for it and factories for both inputs: the parameters
quote the introspection type. -/
example : ∃ a f g r, callsOf ringCtx {} { definitions := [{ kind := .query, use := "client.execute" }] }
      [.operation ⟨.query, some "Look", [⟨"kind", .nonNull (.named "__TypeKind"), none⟩], [ask "user" [ask "id"]]⟩]
      (Reg.init {}) = .ok ((a, f, g), r) ∧ quotedInL f = ["__TypeKind"] ∧ quotedInL g = ["__TypeKind"] ∧
    ∀ n ∈ quotedInL (a ++ (f ++ g)), n ∈ boundL a ∨ (∃ b ∈ r.builtins, n ∈ helperNames b) ∨ LeftOut ringCtx {} {} n := by
  obtain ⟨a, f, g, r, h, ht⟩ := calls_ok (c := ringCtx) (po := {})
    (p := { definitions := [{ kind := .query, use := "client.execute" }] })
    (doc := [.operation ⟨.query, some "Look", [⟨"kind", .nonNull (.named "__TypeKind"), none⟩], [ask "user" [ask "id"]]⟩])
    (test := fun _ f g _ => quotedInL f == ["__TypeKind"] && quotedInL g == ["__TypeKind"]) (by decide +kernel)
  simp only [Bool.and_eq_true, beq_iff_eq] at ht
  refine ⟨a, f, g, r, h, ht.1, ht.2, fun n hn => ?_⟩
  unfold callsOf at h
  obtain ⟨a', r4, h1, h⟩ := Gen.bind_ok.1 h
  obtain ⟨f', r5, h5, h⟩ := Gen.bind_ok.1 h
  obtain ⟨g', r6, h6, h⟩ := Gen.bind_ok.1 h
  obtain ⟨e, rfl⟩ := Gen.pure_ok.1 h
  cases e
  obtain ⟨ss1, ss2, ss3, ss4, r1, r2, r3, k1, k2, k3, k4, rfl⟩ := moduleOf_ok h1
  rcases C63_functions_partial k1 k2 k3 k4 h5 h6 (fun t l hl => by cases hl) (by decide +kernel)
    (fun d hd => by cases hd) (fun o ho x hx => by
      simp only [operationsOf, List.filterMap_cons, List.filterMap_nil, List.mem_singleton] at ho
      subst ho
      have h := mem_spreadNames hx
      simp [ask, spreadNames, spreadNamesOf] at h) (by decide +kernel) (fun t path h => by cases h) n hn with
    h | h | ⟨d, hd, _⟩ | h
  · exact .inl h
  · exact .inr (.inl h)
  · cases hd
  · exact .inr (.inr h)

/-- With the default configuration, the factory of an input type quotes the type of a field whose type starts with an
underscore, which is not generated: reading the annotations of the factory fails. -/
theorem C63_factory_counterexample : ∃ a f g r, callsOf { schema := hiddenSchema } {} {}
      [.operation ⟨.query, some "Look", [], [ask "user" [ask "id"]]⟩] (Reg.init {}) = .ok ((a, f, g), r) ∧
    "_Inner" ∈ quotedInL g ∧ "_Inner" ∉ boundL (a ++ (f ++ g)) ∧ ¬ External r "_Inner" := by
  obtain ⟨a, f, g, r, h, ht⟩ := calls_ok (c := { schema := hiddenSchema }) (po := {}) (p := {})
    (doc := [.operation ⟨.query, some "Look", [], [ask "user" [ask "id"]]⟩])
    (test := fun a f g r => (quotedInL g).contains "_Inner" &&
      (!(boundL (a ++ (f ++ g))).contains "_Inner" && !externalTest r "_Inner")) (by decide +kernel)
  simp only [Bool.and_eq_true, Bool.not_eq_true', List.contains_iff_mem] at ht
  refine ⟨a, f, g, r, h, ht.1, fun hb => ?_, fun he => ?_⟩
  · have := ht.2.1; simp [hb] at this
  · rw [external_test he] at ht; cases ht.2.2

end Turms.Props
