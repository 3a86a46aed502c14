import Verif.Lemmas.ScopeFuncs
import Verif.Props.ResponseScope
import Verif.Props.Funcs
import Verif.Spec.FuncScope

/-!
# C74: functions and factories find every name they use

A function definition evaluates its annotations and defaults when the module is imported, and its body when the
function is called.
-/

namespace Turms.Props
open Turms Turms.Spec Turms.Fragments

theorem resolves_all {ss : List Stmt} : ∀ {E : String → Prop}, (∀ f ∈ ss, ∀ n ∈ evaluated f, E n) → Resolves E ss := by
  induction ss with
  | nil => intro E _; trivial
  | cons s ss ih =>
    intro E h
    exact ⟨h s (List.mem_cons_self ..), ih fun f hf n hn => .inl (h f (List.mem_cons_of_mem _ hf) n hn)⟩

theorem operations_types {prep : List Char → List Char} {c : Ctx} {p : OperationsConfig} (hp : PlainConfig c.config)
    (os : List OpDef) : ∀ {r r' : Reg} {ss : List Stmt}, Styled c.env r → generateOperations prep c p os r = .ok (ss, r') →
    Styled c.env r' ∧ (∀ n, RegisteredType r' n ↔ RegisteredType r n) ∧
    ∀ o ∈ os, ∀ cls, OperationClass c o cls → cls ∈ boundL ss := by
  have hX : BasesIn (fun _ => True) c := fun _ _ => trivial
  have hF : LonelyField (fun _ => True) c := fun _ _ _ _ _ _ _ => trivial
  induction os with
  | nil =>
    intro r r' ss hs h
    obtain ⟨rfl, rfl⟩ := Gen.pure_ok.1 h
    exact ⟨hs, fun _ => Iff.rfl, fun _ h => by cases h⟩
  | cons o os ih =>
    intro r r' ss hs h
    unfold generateOperations at h
    obtain ⟨s1, r1, h1, h⟩ := Gen.bind_ok.1 h
    obtain ⟨s2, r2, h2, h⟩ := Gen.bind_ok.1 h
    obtain ⟨rfl, rfl⟩ := Gen.pure_ok.1 h
    obtain ⟨a1, _, a3, _, _⟩ := generateOperation_resolve (U := fun _ => True) hp hX hF (fun _ _ _ _ => trivial) (fun _ _ _ _ => trivial) hs h1
    obtain ⟨b1, b2, b3⟩ := ih a1 h2
    refine ⟨b1, fun n => (b2 n).trans (a3 n), fun o' ho cls hcls => ?_⟩
    rw [boundL_append, List.mem_append]
    rcases List.mem_cons.1 ho with rfl | ho
    · left
      obtain ⟨n, hn, hsty⟩ := hcls
      unfold generateOperation at h1
      rw [hn] at h1
      dsimp only at h1
      obtain ⟨cls', r3, h3, h1⟩ := Gen.bind_ok.1 h1
      obtain ⟨_, hsty', _⟩ := generateClass_ok h3
      rw [hsty] at hsty'
      cases hsty'
      obtain ⟨_, _, _, h1⟩ := Gen.bind_ok.1 h1
      obtain ⟨_, _, _, h1⟩ := Gen.bind_ok.1 h1
      obtain ⟨_, _, _, h1⟩ := Gen.bind_ok.1 h1
      obtain ⟨_, _, _, h1⟩ := Gen.bind_ok.1 h1
      obtain ⟨_, _, _, h1⟩ := Gen.bind_ok.1 h1
      obtain ⟨_, _, _, h1⟩ := Gen.bind_ok.1 h1
      obtain ⟨rfl, _⟩ := Gen.pure_ok.1 h1
      simp [boundL, bound]
    · exact .inr (b3 o' ho cls hcls)

/-- what the functions and factories of a module need is there -/
theorem functions_resolve {prep : List Char → List Char} {c : Ctx} {po : OperationsConfig} {p : FuncsConfig}
    {q : InputFuncsConfig} {doc : Document} {r3 r4 r5 r6 : Reg} {before ss4 ss5 ss6 : List Stmt} {D : String → Prop}
    (hops : operationsPlugin prep c po doc r3 = .ok (ss4, r4))
    (hfun : funcsPlugin c p doc r4 = .ok (ss5, r5)) (hfac : inputFuncsPlugin c q r5 = .ok (ss6, r6))
    (hstyled : Styled c.env r4) (hsub : ∀ s ∈ ss4, s ∈ before)
    (hres : Resolves (fun n => External r4 n ∨ D n) before)
    (hreg : ∀ n, RegisteredType r4 n → n ∈ boundL before)
    (hcls : ∀ o ∈ operationsOf doc, ∀ cls, OperationClass c o cls → cls ∈ boundL before)
    (huniq : ((operationsOf doc).map (·.name)).Nodup) (hopt : NeedsOptional p → External r6 "Optional") :
    Resolves (fun n => External r6 n ∨ D n) (before ++ (ss5 ++ ss6)) ∧
    List.Forall₂ (fun x f => FuncIn c p x.2 x.1 (fun n => External r6 n ∨ n ∈ boundL before) f) (functionsFor p doc) ss5 ∧
    List.Forall₂ (fun t f => FactoryIn c t.fields (fun n => External r6 n ∨ n ∈ boundL before) f)
      ((inputTypes c.schema).filter fun t => !skipsFactory q r5 t.name) ss6 := by
  let X : String → Prop := fun n => n = "Optional" ∧ NeedsOptional p
  obtain ⟨s5, q5⟩ := (scoped_allOperationFuncs (S := ⟨c.schema, fun _ => False, fun _ => False⟩) (X := X) (p := p) (operationsOf doc)
    (fun d hd k hk hn => ⟨rfl, d, hd, k, hk, hn⟩)).run _ _ _ hstyled hfun
  obtain ⟨s6, q6⟩ := factories_in (S := ⟨c.schema, fun _ => False, fun _ => False⟩) (X := X) (p := q) (inputTypes c.schema) (hstyled.soft s5) hfac
  have a5 : ∀ n, Avail ⟨c.schema, fun _ => False, fun _ => False⟩ X r4 r5 n → External r6 n ∨ n ∈ boundL before := by
    rintro n (h | h | ⟨_, h, _⟩ | ⟨rfl, h⟩)
    · exact .inl (s6.external h)
    · exact .inr (hreg n h)
    · exact h.elim
    · exact .inl (hopt h)
  have a6 : ∀ n, Avail ⟨c.schema, fun _ => False, fun _ => False⟩ X r5 r6 n → External r6 n ∨ n ∈ boundL before := by
    rintro n (h | h | ⟨_, h, _⟩ | ⟨rfl, h⟩)
    · exact .inl h
    · exact .inr (hreg n (s5.registeredType.1 h))
    · exact h.elim
    · exact .inl (hopt h)
  have f5 := q5 _ a5
  have f6 := q6 _ a6
  refine ⟨?_, f5, f6⟩
  have hext : ∀ n, External r4 n → External r6 n := fun n hn => s6.external (s5.external hn)
  have hres6 := hres.mono (E' := fun n => External r6 n ∨ D n) fun n hn => hn.imp (hext n) id
  have c21 := C21_return_annotation hops hfun rfl huniq
  have g5 : ∀ f ∈ ss5, ∀ n ∈ evaluated f, Plus (fun n => External r6 n ∨ D n) before n := by
    intro f hf n hn
    obtain ⟨x, hx, hin, A, hret, hsingle, hwhole⟩ := forall₂_mem_right (forall₂_and f5 c21) hf
    obtain ⟨ho, _, _⟩ := mem_functionsFor.1 hx
    rcases hin.1 A hret n hn with (h | h) | h
    · exact .inl (.inl h)
    · exact .inr h
    · by_cases hc : p.collapseLonely = true ∧ x.1.sels.length = 1
      · obtain ⟨cls, bs, body, ds, attr, v, _, hm, _, hA⟩ := hsingle hc.1 hc.2
        refine resolves_evaluated hres6 (mem_evaluatedL.2 ⟨_, hsub _ hm, ?_⟩)
        simp only [evaluated, List.mem_append]
        refine .inr (mem_evaluatedL.2 ⟨_, hA, ?_⟩)
        simp only [evaluated, List.mem_append]
        exact .inl h
      · obtain ⟨cls, hcl, rfl⟩ := hwhole (by
          rcases Classical.em (p.collapseLonely = true) with h1 | h1
          · exact .inr fun h2 => hc ⟨h1, h2⟩
          · exact .inl (by simpa using h1))
        simp only [freeNames, List.mem_singleton] at h
        exact .inr (h ▸ hcls _ ho cls hcl)
  rw [resolves_join, resolves_join]
  refine ⟨hres6, resolves_all g5, (resolves_all fun f hf n hn => ?_).mono fun n hn => .inl hn⟩
  obtain ⟨t, _, ht⟩ := forall₂_mem_right f6 hf
  rcases ht.1 n hn with h | h
  · exact .inl (.inl h)
  · exact .inr h

/-! ## a whole module -/

theorem registeredTypes_bound {prep : List Char → List Char} {c : Ctx} {pe : EnumsConfig} {pi : InputsConfig}
    {pf : FragmentsConfig} {po : OperationsConfig} {doc : Document} {r1 r2 r3 r4 : Reg} {ss1 ss2 ss3 ss4 : List Stmt}
    (henums : generateEnums c pe (Reg.init c.env) = .ok (ss1, r1))
    (hinputs : generateInputs c pi r1 = .ok (ss2, r2))
    (hfrag : fragmentsPlugin prep c pf doc r2 = .ok (ss3, r3))
    (hops : operationsPlugin prep c po doc r3 = .ok (ss4, r4))
    (hplain : PlainConfig c.config) (hnodup : c.schema.types.keys.Nodup)
    (hdef : ∀ d ∈ fragmentsOf doc, ∀ x, Spreads d.sels x → x ∈ (fragmentsOf doc).map (·.name))
    (hcyc : ∀ n d, lookup (fragmentsOf doc) n = some d → ¬ Needs (fragmentsOf doc) d.sels n)
    (hinl : ∀ d ∈ fragmentsOf doc, NoInlineSpread d.sels) :
    Styled c.env r4 ∧ (∀ n, RegisteredType r4 n → n ∈ boundL (ss1 ++ (ss2 ++ (ss3 ++ ss4)))) ∧
    ∀ o ∈ operationsOf doc, ∀ cls, OperationClass c o cls → cls ∈ boundL (ss1 ++ (ss2 ++ (ss3 ++ ss4))) := by
  have e1 := (generateEnums_ok henums).1
  have s1 := e1.styled (styled_stateAfter c.env [])
  obtain ⟨⟨K, e2, _⟩, _⟩ := generateInputs_ok s1 hplain hnodup hinputs
  have none0 : ∀ n, ¬ Registered (Reg.init c.env) n := by
    rintro n ⟨k, t, h⟩
    cases k <;> cases h
  obtain ⟨s3, t3⟩ := fragments_styled hplain (e2.styled s1) ⟨e2.impl.1.trans e1.impl.1, e2.impl.2.trans e1.impl.2⟩
    hdef hcyc hinl hfrag
  obtain ⟨s4, t4, hcls⟩ := operations_types hplain _ s3 hops
  simp only [boundL_append, List.mem_append]
  refine ⟨s4, fun n hn => ?_, fun o ho cls hc => .inr (.inr (.inr (hcls o ho cls hc)))⟩
  obtain ⟨k, t, _, h⟩ := (t3 n).1 ((t4 n).1 hn)
  rcases e2.registered.1 ⟨k, t, h⟩ with h | h
  · rcases e1.registered.1 h with h | h
    · exact (none0 n h).elim
    · exact .inl (List.mem_flatMap.2 (definedNames_bound h))
  · exact .inr (.inl (List.mem_flatMap.2 (definedNames_bound h)))

/-- Run all six plugins, in this order, on a fresh registry, under the assumptions of `C60_module_resolves_partial`, on a
document whose operations have different names.  If no extra keyword parameter has the default `None` (or `Optional` is imported anyway):

* the whole module can be executed: the annotations and defaults of all functions and factories mention imported names,
  builtins and earlier classes only (or the name of a fragment on an interface that is spread at a union);
* whenever a function or factory is called, in an environment with the names of the module, the names its body uses
  are found: every call Python accepts performs the operation (builds the input object). -/
theorem C74_functions_resolve_partial {prep : List Char → List Char} {c : Ctx} {pe : EnumsConfig} {pi : InputsConfig}
    {pf : FragmentsConfig} {po : OperationsConfig} {p : FuncsConfig} {q : InputFuncsConfig} {doc : Document}
    {r1 r2 r3 r4 r5 r6 : Reg} {ss1 ss2 ss3 ss4 ss5 ss6 : List Stmt}
    (henums : generateEnums c pe (Reg.init c.env) = .ok (ss1, r1))
    (hinputs : generateInputs c pi r1 = .ok (ss2, r2))
    (hfrag : fragmentsPlugin prep c pf doc r2 = .ok (ss3, r3))
    (hops : operationsPlugin prep c po doc r3 = .ok (ss4, r4))
    (hfun : funcsPlugin c p doc r4 = .ok (ss5, r5)) (hfac : inputFuncsPlugin c q r5 = .ok (ss6, r6))
    (hplain : PlainConfig c.config) (hnodup : c.schema.types.keys.Nodup)
    (hdef : ∀ d ∈ fragmentsOf doc, ∀ x, Spreads d.sels x → x ∈ (fragmentsOf doc).map (·.name))
    (hdefO : ∀ o ∈ operationsOf doc, ∀ x, Spreads o.sels x → x ∈ (fragmentsOf doc).map (·.name))
    (hcyc : ∀ n d, lookup (fragmentsOf doc) n = some d → ¬ Needs (fragmentsOf doc) d.sels n)
    (hinl : ∀ d ∈ fragmentsOf doc, NoInlineSpread d.sels)
    (hbases : ∀ b ∈ c.config.objectBases, External r4 (lastComponent b))
    (hfield : NeedsField c po doc → External r4 "Field")
    (huniq : ((operationsOf doc).map (·.name)).Nodup)
    (hopt : NeedsOptional p → External r6 "Optional")
    (hvars : ∀ o ∈ operationsOf doc, (o.vars.map (·.name)).Nodup)
    (hreq : ∀ o ∈ operationsOf doc, ∀ v ∈ o.vars, v.name ∈ p.expandInputTypes → RequiredVar v)
    (hfs : ∀ t ∈ inputTypes c.schema, (t.fields.map (·.name)).Nodup) :
    let module_ := (ss1 ++ (ss2 ++ (ss3 ++ ss4))) ++ (ss5 ++ ss6)
    Resolves (fun n => External r6 n ∨ InterfaceFragmentAtUnion c doc n) module_ ∧
    List.Forall₂ (fun x f => Callable c p r6 module_ x.2 x.1 f) (functionsFor p doc) ss5 ∧
    ∃ ts, (∀ t ∈ inputTypes c.schema, t ∈ ts ↔ WantsFactory q r5 t.name) ∧
      List.Forall₂ (fun t f => ∃ cls, r5.inputMap.get? t.name = some cls ∧
        CallableFactory c r6 module_ t.fields cls f) ts ss6 := by
  obtain ⟨hstyled, hreg, hcls⟩ := registeredTypes_bound henums hinputs hfrag hops hplain hnodup hdef hcyc hinl
  obtain ⟨hres, hf5, hf6⟩ := functions_resolve hops hfun hfac hstyled
    (fun s hs => List.mem_append_right _ (List.mem_append_right _ (List.mem_append_right _ hs)))
    (C60_module_resolves_partial henums hinputs hfrag hops hplain hnodup hdef hdefO hcyc hinl hbases hfield)
    hreg hcls huniq hopt
  have up : ∀ n, External r6 n ∨ n ∈ boundL (ss1 ++ (ss2 ++ (ss3 ++ ss4))) →
      External r6 n ∨ n ∈ boundL ((ss1 ++ (ss2 ++ (ss3 ++ ss4))) ++ (ss5 ++ ss6)) := fun n h => h.imp id fun h => by
    rw [boundL_append]; exact List.mem_append_left _ h
  have hfields : ∀ o ∈ operationsOf doc, ∀ v ∈ o.vars, ∀ fs, FieldsOfVar c.schema v fs → (fs.map (·.name)).Nodup := by
    rintro o _ v _ fs ⟨ds, h⟩
    unfold Schema.lookup at h
    cases ht : c.schema.types.get? v.type.base with
    | none => rw [ht] at h; cases h
    | some t =>
      rw [ht] at h
      have hd : t.defn = .input fs ds := Option.some.inj h
      refine hfs ⟨v.type.base, t.description, fs, ds⟩ (List.mem_filterMap.2 ⟨_, Dict.mem_of_get? ht, ?_⟩)
      dsimp only
      rw [hd]
  refine ⟨hres, ?_, (inputTypes c.schema).filter fun t => !skipsFactory q r5 t.name, fun t ht => ?_, ?_⟩
  · refine forall₂_mem_imp (forall₂_and hf5 (C24_expanded_inputs_partial hfun hvars hreq hfields)) ?_
    rintro x hx f ⟨hin, name, args, defaults, body, returns, cls, hf, hc, hcall⟩
    obtain ⟨ho, _, _⟩ := mem_functionsFor.1 hx
    exact ⟨name, args, defaults, body, returns, cls, hf, hc, fun M pos kw L hM hy hb =>
      hcall M pos kw L hy (fun hu => hM _ (up _ (hin.2.2 hu))) (hM _ (up _ (.inr (hcls _ ho cls hc))))
        (hM _ (up _ hin.2.1)) hb⟩
  · rw [List.mem_filter]
    simp only [ht, true_and, Bool.not_eq_true']
    exact skipsFactory_iff
  · refine forall₂_mem_imp (forall₂_and hf6 (factories_ok hfac hfs)) ?_
    rintro t _ f ⟨⟨_, ⟨cls', hret, hcE⟩, hu⟩, cls, hcl, name, args, defaults, body, rfl, _, _, _, _, hcall⟩
    simp only [returnsOf, Option.some.injEq, Expr.name.injEq] at hret
    subst hret
    refine ⟨cls, hcl, name, args, defaults, body, rfl, fun M pos kw L hM hd hg hb => ?_⟩
    obtain ⟨out, h1, h2, h3, h4, _⟩ := hcall M pos kw L hd hg (fun h => hM _ (up _ (hu h))) (hM _ (up _ hcE)) hb
    exact ⟨out, h1, h2, h3, h4⟩

/-! ## a module that meets the hypotheses, and modules that cannot be imported -/

/-- the six plugins, one after the other: classes, functions, factories -/
def callsOf (c : Ctx) (po : OperationsConfig) (p : FuncsConfig) (doc : Document) : Gen (List Stmt × List Stmt × List Stmt) := do
  let a ← moduleOf c po doc
  let f ← funcsPlugin c p doc
  let g ← inputFuncsPlugin c {}
  pure (a, f, g)

/-- `test` holds of what the plugins generate -/
def callsSatisfy (c : Ctx) (po : OperationsConfig) (p : FuncsConfig) (doc : Document)
    (test : List Stmt → List Stmt → List Stmt → Reg → Bool) : Bool :=
  match callsOf c po p doc (Reg.init c.env) with
  | .error _ => false
  | .ok ((a, f, g), r) => test a f g r

theorem calls_ok {c : Ctx} {po : OperationsConfig} {p : FuncsConfig} {doc : Document}
    {test : List Stmt → List Stmt → List Stmt → Reg → Bool} (h : callsSatisfy c po p doc test = true) :
    ∃ a f g r, callsOf c po p doc (Reg.init c.env) = .ok ((a, f, g), r) ∧ test a f g r = true := by
  unfold callsSatisfy at h
  split at h
  · cases h
  · rename_i a f g r e; exact ⟨a, f, g, r, e, h⟩

/-- `storeDoc` and `query Ping { ping }` -/
def storeCalls : Document := storeDoc ++ [.operation ⟨.query, some "Ping", [], [ask "ping"]⟩]

/-- synchronous and asynchronous functions; the filter is expanded -/
def storeFuncs : FuncsConfig := { expandInputTypes := ["f"], definitions := [
  { kind := .query, use := "client.execute", extraArgs := [⟨"client", "client.Client", ""⟩] },
  { kind := .query, use := "client.aexecute", isAsync := true, extraKwargs := [⟨"timeout", "int", "", .int 5⟩] }] }

/-- The theorem applies: fifteen classes and aliases, four functions and one factory. -/
example : ∃ a f g r, callsOf { schema := storeSchema } {} storeFuncs storeCalls (Reg.init {}) = .ok ((a, f, g), r) ∧
    (boundL a).length = 15 ∧ f.length = 4 ∧ g.length = 1 ∧
    Resolves (fun n => External r n ∨ InterfaceFragmentAtUnion { schema := storeSchema } storeCalls n) (a ++ (f ++ g)) ∧
    List.Forall₂ (fun x h => Callable { schema := storeSchema } storeFuncs r (a ++ (f ++ g)) x.2 x.1 h)
      (functionsFor storeFuncs storeCalls) f := by
  obtain ⟨a, f, g, r, h, ht⟩ := calls_ok (c := { schema := storeSchema }) (po := {}) (p := storeFuncs) (doc := storeCalls)
    (test := fun a f g _ => (boundL a).length == 15 && (f.length == 4 && g.length == 1)) (by decide +kernel)
  obtain ⟨ss, r', hm, hmt⟩ := module_ok (c := { schema := storeSchema }) (po := {}) (doc := storeCalls)
    (test := fun _ r => r.imports.contains "pydantic.BaseModel" && r.imports.contains "pydantic.Field") (by decide +kernel)
  simp only [Bool.and_eq_true, beq_iff_eq, List.contains_iff_mem] at ht hmt
  refine ⟨a, f, g, r, h, ht.1, ht.2.1, ht.2.2, ?_⟩
  unfold callsOf at h
  obtain ⟨a', r4, h1, h⟩ := Gen.bind_ok.1 h
  obtain ⟨f', r5, h5, h⟩ := Gen.bind_ok.1 h
  obtain ⟨g', r6, h6, h⟩ := Gen.bind_ok.1 h
  obtain ⟨e, rfl⟩ := Gen.pure_ok.1 h
  cases e
  rw [h1] at hm
  cases hm
  obtain ⟨ss1, ss2, ss3, ss4, r1, r2, r3, k1, k2, k3, k4, rfl⟩ := moduleOf_ok h1
  have ops : ∀ o ∈ operationsOf storeCalls, o = ⟨.query, some "Look", [⟨"f", .nonNull (.named "Filter"), none⟩], [
      ask "node" [ask "id", .spread "UserBits", .inline (some "Post") [ask "title"], ask "__typename"],
      ask "search" [.spread "UserBits", .inline (some "Post") [ask "title"], ask "__typename"],
      ask "user" [ask "color"]]⟩ ∨ o = ⟨.query, some "Ping", [], [ask "ping"]⟩ := by
    intro o ho
    simpa only [storeCalls, storeDoc, operationsOf, List.cons_append, List.nil_append, List.filterMap_cons, List.filterMap_nil,
      List.mem_cons, List.not_mem_nil, or_false] using ho
  have := C74_functions_resolve_partial k1 k2 k3 k4 h5 h6 (fun t l hl => by cases hl) (by decide +kernel)
    (fun d hd x hx => by
      rw [store_fragments (d := d) hd] at hx
      exact (blog_spreads hx).elim)
    (fun o ho x hx => by
      rcases ops o ho with rfl | rfl
      · rw [store_look hx]
        simp [fragmentsOf, storeDoc, storeCalls]
      · have := mem_spreadNames hx
        simp [ask, spreadNames, spreadNamesOf] at this)
    (fun n d hl hx => by
      rw [store_fragments (d := d) (lookup_mem hl).1] at hx
      clear hl
      induction hx with
      | direct f h => exact blog_spreads h
      | through g d f _ _ _ ih => exact ih)
    (fun d hd => by
      rw [store_fragments (d := d) hd]
      refine .field _ _ _ _ _ .nil (.field _ _ _ _ _ (.field _ _ _ _ _ .nil (.inline _ _ _ ?_
        (.field _ _ _ _ _ .nil .nil))) (.field _ _ _ _ _ .nil .nil))
      intro f h
      simp only [ask] at h
      repeat (first | (cases h; done) | (cases h <;> rename_i h)))
    (fun b hb => by
      rw [List.mem_singleton.1 hb]
      exact .inl ⟨_, hmt.1, rfl⟩)
    (fun _ => .inl ⟨_, hmt.2, by decide +kernel⟩)
    (by decide +kernel)
    (by
      rintro ⟨d, hd, k, hk, hn⟩
      simp only [storeFuncs, List.mem_cons, List.not_mem_nil, or_false] at hd
      rcases hd with rfl | rfl
      · simp [storeFuncs] at hk
      · simp only [storeFuncs, List.nil_append, List.mem_singleton] at hk
        rw [hk] at hn
        cases hn)
    (fun o ho => by rcases ops o ho with rfl | rfl <;> decide +kernel)
    (fun o ho v hv _ => by
      rcases ops o ho with rfl | rfl
      · rw [List.mem_singleton.1 hv]
        exact ⟨⟨_, rfl⟩, rfl⟩
      · cases hv)
    (by
      intro t ht
      have : t ∈ [InputType.mk "Filter" none [⟨"color", .named "Color", none, none, none⟩] []] := ht
      rw [List.mem_singleton.1 this]
      decide +kernel)
  exact ⟨this.1, this.2.1⟩

/-- the name `n` is evaluated when the functions are defined, but it is not available then -/
def missingTest (n : String) (before fs : List Stmt) (r : Reg) : Bool :=
  (evaluatedL fs).contains n && (!(boundL (before ++ fs)).contains n && !externalTest r n)

theorem missing {n : String} {before fs after : List Stmt} {r : Reg} (h : missingTest n before fs r = true) :
    n ∈ evaluatedL fs ∧ ¬ Resolves (External r) (before ++ (fs ++ after)) := by
  unfold missingTest at h
  simp only [Bool.and_eq_true, Bool.not_eq_true', List.contains_iff_mem] at h
  refine ⟨h.1, fun hr => ?_⟩
  rw [← List.append_assoc] at hr
  have hr := (resolves_join.1 hr).1
  rcases resolves_evaluated hr (by rw [evaluatedL_append]; exact List.mem_append_right _ h.1) with h' | h'
  · rw [external_test h'] at h; cases h.2.2
  · have := h.2.1
    simp [h'] at this

/-- a schema with one field -/
def pingSchema : Schema := { query := some "Query", types := [("Int", ⟨.scalar, none⟩),
  ("Pong", ⟨.object [plainField "size" (.nonNull (.named "Int"))] [], none⟩),
  ("Query", ⟨.object [plainField "ping" (.nonNull (.named "Int")), plainField "pong" (.named "Pong")] [], none⟩)] }

/-- functions with the keyword parameter `timeout: Optional[Timeout] = None` -/
def timeoutFuncs : FuncsConfig := { definitions := [
  { kind := .query, use := "client.execute", extraKwargs := [⟨"timeout", "client.Timeout", "", .none⟩] }] }

/-- An extra keyword parameter whose default is `None` is annotated `Optional[...]`; the plugin does not import
`Optional`.  The module for `query Ping { ping }` with such a parameter cannot be imported. -/
theorem C74_optional_counterexample : ∃ a f g r,
    callsOf { schema := pingSchema } {} timeoutFuncs [.operation ⟨.query, some "Ping", [], [ask "ping"]⟩]
      (Reg.init {}) = .ok ((a, f, g), r) ∧ "Optional" ∈ evaluatedL f ∧ ¬ Resolves (External r) (a ++ (f ++ g)) := by
  obtain ⟨a, f, g, r, h, ht⟩ := calls_ok (c := { schema := pingSchema }) (po := {}) (p := timeoutFuncs)
    (doc := [.operation ⟨.query, some "Ping", [], [ask "ping"]⟩])
    (test := fun a f _ r => missingTest "Optional" a f r) (by decide +kernel)
  exact ⟨a, f, g, r, h, missing ht⟩

/-- the functions before the operations -/
def earlyFuncs (c : Ctx) (p : FuncsConfig) (doc : Document) : Gen (List Stmt × List Stmt) := do
  let f ← funcsPlugin c p doc
  let a ← operationsPlugin id c {} doc
  pure (f, a)

/-- The order of the plugins matters.  If the functions come before the operations, the function for
`query Look { pong { size } }` evaluates the class of its result, which is defined below it. -/
theorem C74_early_functions_counterexample : ∃ f a r,
    earlyFuncs { schema := pingSchema } storeFuncs [.operation ⟨.query, some "Look", [], [ask "pong" [ask "size"]]⟩]
      (Reg.init {}) = .ok ((f, a), r) ∧ "LookPong" ∈ evaluatedL f ∧ "LookPong" ∈ boundL a ∧
      ¬ Resolves (External r) (f ++ a) := by
  have h : (match earlyFuncs { schema := pingSchema } storeFuncs
      [.operation ⟨.query, some "Look", [], [ask "pong" [ask "size"]]⟩] (Reg.init {}) with
    | .error _ => false
    | .ok ((f, a), r) => missingTest "LookPong" [] f r && (boundL a).contains "LookPong") = true := by decide +kernel
  split at h
  · cases h
  · rename_i f a r e
    simp only [Bool.and_eq_true, List.contains_iff_mem] at h
    exact ⟨f, a, r, e, (missing (after := a) h.1).1, h.2, (missing (after := a) h.1).2⟩

end Turms.Props
