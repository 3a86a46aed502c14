import Verif.Lemmas.RoundTrip
import Verif.Props.Delivers
import Verif.Props.Funcs
import Verif.Props.ResponsesLimits

/-! # C89: from the server's answer to the value a generated function hands back -/

namespace Turms.Props
open Turms Spec Fragments

/-- the part common to both directions -/
theorem roundTrip_of {prep : List Char → List Char} {c : Ctx} {po : OperationsConfig} {p : FuncsConfig} {doc : Document}
    {r1 r2 r3 r4 : Reg} {ss T fs : List Stmt} {answers : OpDef → String → String → List (String × Val) → Prop}
    {promise : OpDef → String → Option Sel → Expr → List (String × Val) → Val → Prop}
    (hops : operationsPlugin prep c po doc r1 = .ok (ss, r2)) (hfun : funcsPlugin c p doc r3 = .ok (fs, r4))
    (hsame : r3.operationSingle = r2.operationSingle) (hT : ∀ st ∈ ss, st ∈ T) (hu : UniqueClasses T)
    (hb : ∀ b, (ConfiguredBase c b ∨ ∃ k, b ∈ po.basesFor k) → ¬ IsClass T (lastComponent b))
    (honce : ((operationsOf doc).map (·.name)).Nodup)
    (hvars : ∀ o ∈ operationsOf doc, (o.vars.map (·.name)).Nodup ∧ ∀ v ∈ o.vars, v.name ∈ p.expandInputTypes →
      RequiredVar v ∧ ∀ fs, FieldsOfVar c.schema v fs → (fs.map (·.name)).Nodup)
    (hpublic : p.collapseLonely = true → ∀ o ∈ operationsOf doc, ∀ a, OnlyAttribute c o a → privateName a = false)
    (hroot : ∀ o ∈ operationsOf doc, ∃ cls root, OperationClass c o cls ∧ IsClass T cls ∧ c.schema.root o.kind = some root)
    (hwhole : ∀ o ∈ operationsOf doc, ∀ cls root kvs, OperationClass c o cls → c.schema.root o.kind = some root →
      answers o cls root kvs → promise o root none (.name cls) kvs (.obj kvs))
    (honly : ∀ o ∈ operationsOf doc, ∀ cls root n al as sub attr A v dflt, OperationClass c o cls →
      c.schema.root o.kind = some root → o.sels = [.field n al as sub] → privateName attr = false →
      Declared T cls (.annAssign attr A v) →
      (∀ st, Declared T cls st → (fieldOf st).isSome = true → st = .annAssign attr A v) →
      fieldOf (.annAssign attr A v) = some ⟨al.getD n, dflt, A⟩ → ∀ kvs, answers o cls root kvs →
      ∃ x, (Val.entry kvs (al.getD n) = some x ∨ (Val.entry kvs (al.getD n) = none ∧ dflt = true ∧ x = .null)) ∧
        promise o root (some (.field n al as sub)) A kvs x) :
    List.Forall₂ (fun x f => RoundTrip c p T (answers x.1) (promise x.1) x.2 x.1 f) (functionsFor p doc) fs := by
  have hF : List.Forall₂ (fun x f => Faithful c p x.2 x.1 f) (functionsFor p doc) fs := by
    refine forall₂_mem_imp (allOperationFuncs_ok hfun) fun x hx f ⟨_, _, _, hf⟩ => ?_
    obtain ⟨ho, _, hk⟩ := mem_functionsFor.1 hx
    exact operationFunc_faithful hf hk (hvars _ ho).1 (hvars _ ho).2
  refine forall₂_mem_imp (forall₂_and hF (C21_return_annotation hops hfun hsame honce)) fun x hx f ⟨h1, h2⟩ => ?_
  obtain ⟨ho, _, _⟩ := mem_functionsFor.1 hx
  obtain ⟨o, d⟩ := x
  dsimp only at ho h1 h2 ⊢
  obtain ⟨name, args, defaults, body, returns, cls, rfl, hcls, hcall⟩ := h1
  obtain ⟨A, hA, hcoll, hfull⟩ := h2
  obtain ⟨cls', root, hcls', hic, hr⟩ := hroot o ho
  cases operationClass_unique hcls' hcls
  have hA : returns = some (handsBack d o A) := hA
  subst hA
  refine ⟨name, args, defaults, body, cls, A, root, rfl, hcls, hic, hr, fun M pos kw L hyg hun hm huse hbind => ?_⟩
  obtain ⟨out, hout, hp⟩ := hcall M pos kw L hyg hun hm huse hbind
  refine ⟨out, hout, hp, fun kvs hans => ?_⟩
  by_cases hc : p.collapseLonely = true ∧ o.sels.length = 1
  · obtain ⟨hc, hl⟩ := hc
    obtain ⟨a, ha, honlyA⟩ := hp.collapsed hc hl
    obtain ⟨n, al, as, sub, attr, A', v, cls1, dflt, e1, e2, e3, e4, e5, e6, e7⟩ := only_declared hops hT hu hb ho hl
    cases onlyAttribute_unique honlyA e2
    cases operationClass_unique e3 hcls
    obtain ⟨cls2, bs, bdy, ds, attr2, v2, f1, f2, f3, f4⟩ := hcoll hc hl
    cases operationClass_unique f1 hcls
    cases onlyAttribute_unique f3 e2
    have hd2 : Declared T cls (.annAssign a A v2) := .own (hT _ f2) f4
    have := e5 _ hd2 (fieldOf_isSome ..)
    cases this
    have hpr := hpublic hc o ho _ e2
    obtain ⟨x, hx1, hx2⟩ := honly o ho cls root n al as sub a A v dflt hcls hr e1 hpr e4 e5 e6 kvs hans
    refine ⟨x, ?_, .inr ⟨_, ?_, e1, hx2⟩⟩
    · unfold GivesBack
      rw [ha]
      refine ⟨hpr, ⟨_, e4, rfl⟩, fun st f hd _ hf => ?_⟩
      have := e5 st hd (by rw [hf]; rfl)
      subst this
      rw [e6] at hf
      cases hf
      exact hx1.imp id fun ⟨g1, g2, g3⟩ => ⟨g1, e7 g2, g3⟩
    · rw [ha]; simp
  · have hw : p.collapseLonely = false ∨ o.sels.length ≠ 1 := by
      cases hcl : p.collapseLonely
      · exact .inl rfl
      · exact .inr fun hl => hc ⟨hcl, hl⟩
    obtain ⟨cls2, f1, rfl⟩ := hfull hw
    cases operationClass_unique f1 hcls
    have ha := hp.whole hw
    refine ⟨.obj kvs, ?_, .inl ⟨ha, hwhole o ho cls root kvs hcls hr hans⟩⟩
    unfold GivesBack
    rw [ha]

/-- C89.  Run the fragments, operations and functions plugins on a document as in C19.  Whatever a conforming server
answers to an operation, the value the generated function hands back — the whole answer, or the value of the only root
field — is of the type the function is annotated with, and it is the server's value, read from the response key.

Missing for the full property: the selections outside `Supported` (as in C19), attributes with a leading underscore, and
calls where a parameter hides one of the names the function uses (as in C23). -/
theorem C89_answers_reach_the_caller_partial {prep : List Char → List Char} {c : Ctx} {pf : FragmentsConfig}
    {po : OperationsConfig} {p : FuncsConfig} {doc : Document} {leaf : String → Val → Prop}
    {isa : String → Val → Prop} {r0 r1 r2 r3 r4 : Reg} {ss1 ss2 fs : List Stmt}
    (hfrag : fragmentsPlugin prep c pf doc r0 = .ok (ss1, r1))
    (hops : operationsPlugin prep c po doc r1 = .ok (ss2, r2))
    (hfun : funcsPlugin c p doc r3 = .ok (fs, r4)) (hsame : r3.operationSingle = r2.operationSingle)
    (hfirst : r0.interfaceFragmentImpl = [] ∧ r0.unionFragmentMembers = [])
    (hnodup : c.schema.types.keys.Nodup) (hempty : "" ∉ c.schema.types.keys) (hvalid : ValidImplementations c.schema)
    (hclearF : ∀ f ∈ fragmentsOf doc, ClearFragment c.schema f)
    (hclearO : ∀ o ∈ operationsOf doc, ∀ root, c.schema.root o.kind = some root →
      ClearPaths c.schema (nestedOf c.schema root o))
    (honce : ((operationsOf doc).map (·.name)).Nodup) (hsep : SeparateDefinitions c.env doc)
    (hbases : ∀ b, (ConfiguredBase c b ∨ b ∈ pf.fragmentBases ++ pf.objectBases ∨ ∃ k, b ∈ po.basesFor k) →
      ∀ k n x, DefinitionClass c.env doc k n x → ¬ x.toList <+: (lastComponent b).toList)
    (hleaf : ∀ n v cls, IsLeaf c.schema n → leaf n v → outputSideClass c r0 n = some cls → isa cls v)
    (hmodels : ∀ n v, IsClass (ss1 ++ ss2) n → ¬ isa n v)
    (hdef : ∀ d ∈ fragmentsOf doc, ∀ x, Spreads d.sels x → x ∈ (fragmentsOf doc).map (·.name))
    (hcyc : ∀ n d, lookup (fragmentsOf doc) n = some d → ¬ Needs (fragmentsOf doc) d.sels n)
    (hinl : ∀ d ∈ fragmentsOf doc, NoInlineSpread d.sels)
    (hsupF : ∀ d ∈ fragmentsOf doc,
      SupportedFragment c (definitions doc) (· ∈ (fragmentsOf doc).map (·.name)) d)
    (hsupO : ∀ o ∈ operationsOf doc, ∀ root, c.schema.root o.kind = some root → IsObject c.schema root ∧
      ∀ name al args sub t, Sel.field name al args sub ∈ o.sels → FieldType c.schema root name t →
        Supported c.schema (definitions doc) (· ∈ (fragmentsOf doc).map (·.name)) t sub)
    (hvars : ∀ o ∈ operationsOf doc, (o.vars.map (·.name)).Nodup ∧ ∀ v ∈ o.vars, v.name ∈ p.expandInputTypes →
      RequiredVar v ∧ ∀ fs, FieldsOfVar c.schema v fs → (fs.map (·.name)).Nodup)
    (hpublic : p.collapseLonely = true → ∀ o ∈ operationsOf doc, ∀ a, OnlyAttribute c o a → privateName a = false) :
    List.Forall₂ (fun x f => RoundTrip c p (ss1 ++ ss2)
      (fun _ root kvs => ObjectResult c.schema (definitions doc) leaf root x.1.sels kvs)
      (OfAnnotatedType (ss1 ++ ss2) isa) x.2 x.1 f) (functionsFor p doc) fs := by
  obtain ⟨hd, hp⟩ := C57_document_classes_partial hfrag hops hnodup hempty hclearF hclearO honce hsep
  have hno : ∀ b, (ConfiguredBase c b ∨ b ∈ pf.fragmentBases ++ pf.objectBases ∨ ∃ k, b ∈ po.basesFor k) →
      ¬ IsClass (ss1 ++ ss2) (lastComponent b) := fun b hb hcl => by
    obtain ⟨k, n, x, hx, hpre⟩ := hp _ (isClass_bound hcl)
    exact hbases b hb k n x hx hpre
  have h19 := C19_document_accepted_partial hfrag hops hfirst hnodup hempty hvalid hclearF hclearO honce hsep hbases hleaf
    hdef hcyc hinl hsupF hsupO
  refine roundTrip_of (answers := fun o _ root kvs => ObjectResult c.schema (definitions doc) leaf root o.sels kvs)
    (promise := fun _ => OfAnnotatedType (ss1 ++ ss2) isa) hops hfun hsame (fun st h => List.mem_append_right _ h)
    (uniqueClasses_of_bound hd) (fun b hb => hno b (hb.imp id .inr)) honce hvars hpublic ?_ ?_ ?_
  · intro o ho
    obtain ⟨name, cls, root, e1, e2, e3, e4, _⟩ := h19 o ho
    exact ⟨cls, root, ⟨name, e1, e2⟩, e4, e3⟩
  · intro o ho cls root kvs hcls hr hans
    obtain ⟨name, cls', root', e1, e2, e3, _, e5⟩ := h19 o ho
    cases operationClass_unique ⟨name, e1, e2⟩ hcls
    rw [e3] at hr
    cases hr
    exact ⟨e5 kvs hans, rfl⟩
  · intro o ho cls root n al as sub attr A v dflt hcls hr hsel _ hdecl _ hf kvs hans
    obtain ⟨name, cls', root', e1, e2, e3, e4, e5⟩ := h19 o ho
    cases operationClass_unique ⟨name, e1, e2⟩ hcls
    rw [e3] at hr
    cases hr
    have hpick : Picks c.schema (definitions doc) root o.sels (al.getD n) n sub := by
      rw [hsel]; exact .field (List.mem_singleton.2 rfl)
    cases hx : Val.entry kvs (al.getD n) with
    | none => exact (hans.present _ _ _ hpick hx).elim
    | some x =>
      refine ⟨x, .inl rfl, ?_, hx⟩
      exact (takes_declared (e5 kvs hans) e4 (fun v => hmodels _ v e4) (uniqueAliases_of_bound hd)).2 _ _ x hdecl hf hx

/-- C89, whatever the server does.  If the class of the operation accepts an answer at all, then what the function hands
back has everything the operation's selections and the schema promise: `null` only where the schema allows it (also for
a missing entry, which is read as `None`), lists where it has lists, and every field selected below.

Missing for the full property: the selections outside `Keepable` (as in C79), and what is missing in
`C89_answers_reach_the_caller_partial`. -/
theorem C89_handed_back_delivers_partial {prep : List Char → List Char} {c : Ctx} {pf : FragmentsConfig}
    {po : OperationsConfig} {p : FuncsConfig} {doc : Document} {leaf isa : String → Val → Prop} {r0 r1 r2 r3 r4 : Reg}
    {ss1 ss2 fs : List Stmt}
    (hfrag : fragmentsPlugin prep c pf doc r0 = .ok (ss1, r1))
    (hops : operationsPlugin prep c po doc r1 = .ok (ss2, r2))
    (hfun : funcsPlugin c p doc r3 = .ok (fs, r4)) (hsame : r3.operationSingle = r2.operationSingle)
    (hfirst : r0.interfaceFragmentImpl = [] ∧ r0.unionFragmentMembers = [])
    (hnodup : c.schema.types.keys.Nodup) (hempty : "" ∉ c.schema.types.keys)
    (hfields : FieldsOnce c.schema) (hvalid : ValidImplementations c.schema)
    (hinhabited : ∀ n, IsInterface c.schema n → ∃ o, Possible c.schema n o)
    (hclearF : ∀ f ∈ fragmentsOf doc, ClearFragment c.schema f)
    (hclearO : ∀ o ∈ operationsOf doc, ∀ root, c.schema.root o.kind = some root →
      ClearPaths c.schema (nestedOf c.schema root o))
    (honce : ((operationsOf doc).map (·.name)).Nodup) (hsep : SeparateDefinitions c.env doc)
    (hbases : ∀ b, (ConfiguredBase c b ∨ b ∈ pf.fragmentBases ++ pf.objectBases ∨ ∃ k, b ∈ po.basesFor k) →
      ∀ k n x, DefinitionClass c.env doc k n x → ¬ x.toList <+: (lastComponent b).toList)
    (houtside : ∀ n cls, IsLeaf c.schema n → outputSideClass c r0 n = some cls →
      ∀ k n x, DefinitionClass c.env doc k n x → ¬ x.toList <+: cls.toList)
    (hleaf : ∀ n cls v, IsLeaf c.schema n → outputSideClass c r0 n = some cls → isa cls v → leaf n v)
    (hdef : ∀ d ∈ fragmentsOf doc, ∀ x, Spreads d.sels x → x ∈ (fragmentsOf doc).map (·.name))
    (hcyc : ∀ n d, lookup (fragmentsOf doc) n = some d → ¬ Needs (fragmentsOf doc) d.sels n)
    (hinl : ∀ d ∈ fragmentsOf doc, NoInlineSpread d.sels)
    (hkeepF : ∀ d ∈ fragmentsOf doc, KeepableFragment c (definitions doc) d)
    (hdefO : ∀ o ∈ operationsOf doc, ∀ x, Spreads o.sels x → x ∈ (fragmentsOf doc).map (·.name))
    (hkeepO : ∀ o ∈ operationsOf doc, ∀ root, c.schema.root o.kind = some root → IsObject c.schema root ∧
      Apart c (definitions doc) root o.sels ∧
      ∀ name al args sub t, Sel.field name al args sub ∈ o.sels →
        FieldType c.schema root name t → Keepable c (definitions doc) t sub)
    (hvars : ∀ o ∈ operationsOf doc, (o.vars.map (·.name)).Nodup ∧ ∀ v ∈ o.vars, v.name ∈ p.expandInputTypes →
      RequiredVar v ∧ ∀ fs, FieldsOfVar c.schema v fs → (fs.map (·.name)).Nodup)
    (hpublic : p.collapseLonely = true → ∀ o ∈ operationsOf doc, ∀ a, OnlyAttribute c o a → privateName a = false) :
    List.Forall₂ (fun x f => RoundTrip c p (ss1 ++ ss2)
      (fun cls _ kvs => MayAccept (ss1 ++ ss2) isa (.name cls) (.obj kvs))
      (fun root only _ kvs v => Promised c.schema (definitions doc) leaf c.config.createCatchall x.1.sels root only kvs v)
      x.2 x.1 f) (functionsFor p doc) fs := by
  obtain ⟨hd, hp⟩ := C57_document_classes_partial hfrag hops hnodup hempty hclearF hclearO honce hsep
  have hno : ∀ b, (ConfiguredBase c b ∨ b ∈ pf.fragmentBases ++ pf.objectBases ∨ ∃ k, b ∈ po.basesFor k) →
      ¬ IsClass (ss1 ++ ss2) (lastComponent b) := fun b hb hcl => by
    obtain ⟨k, n, x, hx, hpre⟩ := hp _ (isClass_bound hcl)
    exact hbases b hb k n x hx hpre
  have h79 := C79_document_delivers_partial hfrag hops hfirst hnodup hempty hfields hvalid hinhabited hclearF hclearO honce
    hsep hbases houtside hleaf hdef hcyc hinl hkeepF hdefO hkeepO
  refine roundTrip_of (answers := fun _ cls _ kvs => MayAccept (ss1 ++ ss2) isa (.name cls) (.obj kvs))
    (promise := fun o root only _ kvs v => Promised c.schema (definitions doc) leaf c.config.createCatchall o.sels root only kvs v)
    hops hfun hsame (fun st h => List.mem_append_right _ h)
    (uniqueClasses_of_bound hd) (fun b hb => hno b (hb.imp id .inr)) honce hvars hpublic ?_ ?_ ?_
  · intro o ho
    obtain ⟨name, cls, root, e1, e2, e3, e4, _⟩ := h79 o ho
    exact ⟨cls, root, ⟨name, e1, e2⟩, e4, e3⟩
  · intro o ho cls root kvs hcls hr hans
    obtain ⟨name, cls', root', e1, e2, e3, _, e5⟩ := h79 o ho
    cases operationClass_unique ⟨name, e1, e2⟩ hcls
    rw [e3] at hr
    cases hr
    obtain ⟨kvs', hk, hdl⟩ := e5 _ hans
    cases hk
    exact ⟨rfl, hdl⟩
  · intro o ho cls root n al as sub attr A v dflt hcls hr hsel hpr hdecl hall hf kvs hans
    obtain ⟨name, cls', root', e1, e2, e3, e4, e5⟩ := h79 o ho
    cases operationClass_unique ⟨name, e1, e2⟩ hcls
    rw [e3] at hr
    cases hr
    obtain ⟨kvs', hk, hdl⟩ := e5 _ hans
    cases hk
    obtain ⟨decl, d1, d2⟩ := mayAccept_defaults hans e4 (uniqueAliases_of_bound hd)
    have hattr : HasAttr (ss1 ++ ss2) cls attr := ⟨hpr, _, hdecl, rfl⟩
    have hdec : decl attr = .annAssign attr A v := by
      obtain ⟨g1, g2⟩ := d1 _ hattr
      refine hall _ g1 ?_
      cases hst : decl attr with
      | annAssign t a w =>
        exact fieldOf_isSome ..
      | _ => rw [hst] at g2; simp [attrOf] at g2
    have hpick : Picks c.schema (definitions doc) root o.sels (al.getD n) n sub := by
      rw [hsel]; exact .field (List.mem_singleton.2 rfl)
    have key : ∀ x, (Val.entry kvs (al.getD n) = some x ∨ (Val.entry kvs (al.getD n) = none ∧ x = .null)) →
        Promised c.schema (definitions doc) leaf c.config.createCatchall o.sels root (some (.field n al as sub)) kvs x := by
      intro x hx hne
      obtain ⟨t, t1, t2, t3⟩ := hdl _ _ _ hpick hne
      refine ⟨t, ?_, ?_⟩
      · rw [hsel] at t1
        generalize hkey : al.getD n = k at t1
        cases t1 with
        | field hm hft => cases List.mem_singleton.1 hm; exact hft
        | spread hm _ _ _ => cases List.mem_singleton.1 hm
        | inline hm _ _ => cases List.mem_singleton.1 hm
        | inlineAny hm _ => cases List.mem_singleton.1 hm
      · rcases hx with hx | ⟨hx, rfl⟩
        · exact t3 x hx
        · exact .null (t2 hx)
    cases hx : Val.entry kvs (al.getD n) with
    | some x => exact ⟨x, .inl rfl, key x (.inl hx)⟩
    | none =>
      refine ⟨.null, .inr ⟨rfl, ?_, rfl⟩, key _ (.inr ⟨hx, rfl⟩)⟩
      exact d2 attr ⟨al.getD n, dflt, A⟩ hattr (by rw [hdec]; exact hf) hx

/-! ## The theorems apply -/

/-- the only operation of `findDoc` -/
def findOp : OpDef := ⟨.query, some "Find", [⟨"n", .nonNull (.named "String"), none⟩],
  [.field "node" (some "hit") [] [ask "id", .inline (some "Post") [ask "title"], ask "__typename"]]⟩

/-- ```query Find($n: String!) { hit: node { id ... on Post { title } __typename } }``` -/
def findDoc : Document := [.operation findOp]

/-- one synchronous function per query -/
def findFuncs : FuncsConfig := { definitions := [{ kind := .query, use := "client.execute" }] }

/-- the three plugins on a document, and a test of the classes and the functions -/
def calledSatisfies (s : Schema) (p : FuncsConfig) (doc : Document) (test : List Stmt → List Stmt → Bool) : Bool :=
  match fragmentsPlugin id { schema := s } {} doc (Reg.init {}) with
  | .error _ => false
  | .ok (a, r) =>
    match operationsPlugin id { schema := s } {} doc r with
    | .error _ => false
    | .ok (b, r2) =>
      match funcsPlugin { schema := s } p doc r2 with
      | .error _ => false
      | .ok (fs, _) => test (a ++ b) fs

theorem called_ok {s : Schema} {p : FuncsConfig} {doc : Document} {test : List Stmt → List Stmt → Bool}
    (h : calledSatisfies s p doc test = true) :
    ∃ a r b r2 fs r3, fragmentsPlugin id { schema := s } {} doc (Reg.init {}) = .ok (a, r) ∧
      operationsPlugin id { schema := s } {} doc r = .ok (b, r2) ∧ funcsPlugin { schema := s } p doc r2 = .ok (fs, r3) ∧
      test (a ++ b) fs = true := by
  unfold calledSatisfies at h
  cases h1 : fragmentsPlugin id { schema := s } {} doc (Reg.init {}) with
  | error e => rw [h1] at h; cases h
  | ok x =>
    obtain ⟨a, r⟩ := x
    rw [h1] at h
    dsimp only at h
    cases h2 : operationsPlugin id { schema := s } {} doc r with
    | error e => rw [h2] at h; cases h
    | ok y =>
      obtain ⟨b, r2⟩ := y
      rw [h2] at h
      dsimp only at h
      cases h3 : funcsPlugin { schema := s } p doc r2 with
      | error e => rw [h3] at h; cases h
      | ok z =>
        obtain ⟨fs, r3⟩ := z
        rw [h3] at h
        exact ⟨a, r, b, r2, fs, r3, rfl, h2, h3, h⟩

theorem find_operations {o : OpDef} (h : o ∈ operationsOf findDoc) : o = findOp := by
  simpa only [findDoc, operationsOf, List.filterMap_cons, List.filterMap_nil, List.mem_singleton] using h

theorem find_definition {k : Kind} {n x : String} (h : DefinitionClass {} findDoc k n x) :
    k = .query ∧ n = "Find" ∧ x = "Find" := by
  cases h with
  | fragment hf hx => cases hf
  | operation ho hn hx =>
    rw [find_operations ho] at hn hx ⊢
    cases hn
    have : Kind.query.style ({} : Env) "Find" = .ok "Find" := by decide +kernel
    have hx : Kind.query.style ({} : Env) "Find" = .ok x := hx
    rw [this] at hx
    cases hx
    exact ⟨rfl, rfl, rfl⟩

theorem find_separate : SeparateDefinitions {} findDoc := by
  intro k n x k' n' y h h' hne
  obtain ⟨rfl, rfl, rfl⟩ := find_definition h
  obtain ⟨rfl, rfl, rfl⟩ := find_definition h'
  exact (hne rfl).elim

theorem find_clear : ∀ o ∈ operationsOf findDoc, ∀ root, blogSchema.root o.kind = some root →
    ClearPaths blogSchema (nestedOf blogSchema root o) := by
  intro o ho root hr
  rw [find_operations ho] at hr ⊢
  cases hr
  exact clearPaths_of (by decide +kernel) (by decide +kernel) (by decide +kernel) (by decide +kernel)

theorem find_bases (b : String) (hb : ConfiguredBase { schema := blogSchema } b ∨
      b ∈ ({} : FragmentsConfig).fragmentBases ++ ({} : FragmentsConfig).objectBases ∨ ∃ k, b ∈ ({} : OperationsConfig).basesFor k)
    (k : Kind) (n x : String) (h : DefinitionClass {} findDoc k n x) : ¬ x.toList <+: (lastComponent b).toList := by
  have : b = "pydantic.BaseModel" := by
    rcases hb with (hx | hx | ⟨n, l, hl, _⟩) | hx | ⟨k, hx⟩
    · simpa using hx
    · cases hx
    · cases hl
    · cases hx
    · cases k <;> cases hx
  subst this
  obtain ⟨rfl, rfl, rfl⟩ := find_definition h
  decide +kernel

theorem find_supported : ∀ o ∈ operationsOf findDoc, ∀ root, blogSchema.root o.kind = some root → IsObject blogSchema root ∧
      ∀ name al args sub t, Sel.field name al args sub ∈ o.sels → FieldType blogSchema root name t →
        Supported blogSchema (definitions findDoc) (· ∈ (fragmentsOf findDoc).map (·.name)) t sub := by
  intro o ho root hr
  rw [find_operations ho] at hr ⊢
  cases hr
  refine ⟨blog_query, fun name al args sub t hm ht => ?_⟩
  simp only [findOp, List.mem_singleton, Sel.field.injEq] at hm
  obtain ⟨rfl, rfl, rfl, rfl⟩ := hm
  rw [(blog_field ht).1 rfl]
  refine .interface (fs := [plainField "id" (.nonNull (.named "String"))]) (is := []) rfl
    ⟨[], [], by simp [ask]⟩ (by simp [ask]) ?_ ?_
  · intro name al args sub fd hm hn hfd e
    rw [List.mem_singleton] at hfd
    subst hfd
    exact .leaf blog_string
  · intro o inner name al args sub t hm hm' hn ht
    have : o = "Post" ∧ inner = [ask "title"] := by simpa [ask] using hm
    obtain ⟨rfl, rfl⟩ := this
    simp only [ask, List.mem_singleton, Sel.field.injEq] at hm'
    obtain ⟨rfl, _, _, rfl⟩ := hm'
    exact .leaf (blog_title ht)

theorem find_vars : ∀ o ∈ operationsOf findDoc, (o.vars.map (·.name)).Nodup ∧ ∀ v ∈ o.vars,
    v.name ∈ findFuncs.expandInputTypes →
      RequiredVar v ∧ ∀ fs, FieldsOfVar blogSchema v fs → (fs.map (·.name)).Nodup := by
  intro o ho
  rw [find_operations ho]
  refine ⟨by decide, fun v _ hv => ?_⟩
  cases hv

theorem find_public (_ : findFuncs.collapseLonely = true) : ∀ o ∈ operationsOf findDoc, ∀ a,
    OnlyAttribute { schema := blogSchema } o a → privateName a = false := by
  intro o ho a ⟨n, al, args, sub, hs, ha⟩
  rw [find_operations ho] at hs
  cases hs
  have : generateNodeName ({ schema := blogSchema } : Ctx).env.stylers "hit" = .ok "hit" := by decide +kernel
  have ha : generateNodeName ({ schema := blogSchema } : Ctx).env.stylers "hit" = .ok a := ha
  rw [this] at ha
  cases ha
  decide +kernel

theorem find_hygienic {args : List Arg} (h : args.map (·.arg) = ["n"]) :
    Hygienic { schema := blogSchema } findFuncs { kind := .query, use := "client.execute" } findOp "Find" args := by
  have hs : ∀ n, n ≠ "variables" → ¬ Scratch { schema := blogSchema } findFuncs findOp n := by
    rintro n hn (h | ⟨v, _, he, _⟩)
    · exact hn h
    · cases he
  constructor
  · intro a ha
    have : a.arg ∈ args.map (·.arg) := List.mem_map_of_mem ha
    rw [h, List.mem_singleton] at this
    rw [this]
    exact hs _ (by decide)
  · intro g hg
    rw [h]
    refine ⟨?_, hs g ?_⟩ <;> revert g <;> decide +kernel

/-- the parameters of a function -/
def paramsOf : Stmt → List String
  | .funcDef _ _ args _ _ _ _ => args.map (·.arg)
  | _ => []

/-- a hit that is a post without a title -/
def findAnswer : List (String × Val) :=
  [("hit", .obj [("__typename", .atom "Post"), ("id", .atom "1"), ("title", .null)])]

/-- `findAnswer` answers the query -/
theorem find_answer {leaf : String → Val → Prop} (hleaf : ∀ x, leaf "String" (.atom x)) :
    ObjectResult blogSchema (definitions findDoc) leaf "Query" findOp.sels findAnswer := by
  have hstr : ∀ x sels, Conforms blogSchema (definitions findDoc) leaf (.nonNull (.named "String")) sels (.atom x) :=
    fun x sels => .nonNull (by simp) (.leaf blog_string (hleaf x))
  refine ⟨fun key name sub hp => ?_, fun key name sub t x hp ht hx => ?_, fun key sub hp => ?_, by simp [Val.entry, findAnswer]⟩
  · obtain ⟨rfl, _⟩ := picks_one hp
    simp [Val.entry, findAnswer]
  · obtain ⟨rfl, rfl, rfl⟩ := picks_one hp
    rw [(blog_field ht).1 rfl]
    simp [Val.entry, findAnswer] at hx
    subst hx
    have hpicks : ∀ key name sub, Picks blogSchema (definitions findDoc) "Post"
        [ask "id", .inline (some "Post") [ask "title"], ask "__typename"] key name sub →
        key = name ∧ sub = [] ∧ (name = "id" ∨ name = "title" ∨ name = "__typename") := by
      intro key name sub hp
      cases hp with
      | field h =>
        simp only [ask, List.mem_cons, Sel.field.injEq, List.not_mem_nil, or_false, reduceCtorEq, false_or] at h
        rcases h with ⟨rfl, rfl, rfl, rfl⟩ | ⟨rfl, rfl, rfl, rfl⟩ <;> simp
      | spread h => simp [ask] at h
      | inline h _ hp =>
        simp only [ask, List.mem_cons, Sel.inline.injEq, Option.some.injEq, List.not_mem_nil, or_false, reduceCtorEq,
          false_or] at h
        obtain ⟨rfl, rfl⟩ := h
        obtain ⟨rfl, rfl, rfl⟩ := picks_one hp
        simp
      | inlineAny h => simp [ask] at h
    have hid : ∀ t, FieldType blogSchema "Post" "id" t → t = .nonNull (.named "String") := by
      intro t h
      generalize hn : "id" = n at h
      cases h with
      | declared hl hm =>
        cases hl
        simp only [plainField, List.mem_cons, List.not_mem_nil, or_false] at hm
        rcases hm with rfl | rfl
        · rfl
        · exact absurd hn (by decide)
      | typename => exact absurd hn (by decide)
      | schema h => exact absurd hn (by decide)
      | type h => exact absurd hn (by decide)
    have htitle : ∀ t, FieldType blogSchema "Post" "title" t → t = .named "String" := by
      intro t h
      generalize hn : "title" = n at h
      cases h with
      | declared hl hm =>
        cases hl
        simp only [plainField, List.mem_cons, List.not_mem_nil, or_false] at hm
        rcases hm with rfl | rfl
        · exact absurd hn (by decide)
        · rfl
      | typename => exact absurd hn (by decide)
      | schema h => exact absurd hn (by decide)
      | type h => exact absurd hn (by decide)
    refine .object (o := "Post") (possibleB_iff.1 (by decide +kernel)) (fun key name sub hp => ?_)
      (fun key name sub t x hp ht hx => ?_) (fun key sub hp => ?_) (fun x hx => ?_)
    · obtain ⟨rfl, _, rfl | rfl | rfl⟩ := hpicks _ _ _ hp <;> simp [Val.entry]
    · obtain ⟨rfl, rfl, rfl | rfl | rfl⟩ := hpicks _ _ _ hp
      · simp [Val.entry] at hx
        subst hx
        rw [hid t ht]
        exact hstr _ _
      · simp [Val.entry] at hx
        subst hx
        rw [htitle t ht]
        exact .null rfl
      · simp [Val.entry] at hx
        subst hx
        rw [fieldType_typename ht]
        exact hstr _ _
    · obtain ⟨rfl, _⟩ := hpicks _ _ _ hp
      simp [Val.entry]
    · simp [Val.entry] at hx
      exact hx.symm
  · obtain ⟨_, h, _⟩ := picks_one hp
    exact absurd h (by decide)

/-- The theorem applies: `find` is annotated with a type `A` other than the class of the operation, and whatever the
server answers (for instance `findAnswer`), the value under `hit` is handed back, and `A` accepts it. -/
example : ∃ a b f A, (∃ r r2 r3, fragmentsPlugin id { schema := blogSchema } {} findDoc (Reg.init {}) = .ok (a, r) ∧
      operationsPlugin id { schema := blogSchema } {} findDoc r = .ok (b, r2) ∧
      funcsPlugin { schema := blogSchema } findFuncs findDoc r2 = .ok ([f], r3)) ∧
    returnsOf f = some A ∧ A ≠ .name "Find" ∧
    (∀ leaf isa, (∀ v, leaf "String" v → isa "str" v) → (∀ n v, IsClass (a ++ b) n → ¬ isa n v) → ∀ kvs,
      ObjectResult blogSchema (definitions findDoc) leaf "Query" findOp.sels kvs →
      ∃ out x, callFunc ["Find", "execute"] f [arg "x"] [] = some out ∧ out.attr = some "hit" ∧
        Val.entry kvs "hit" = some x ∧ Takes (a ++ b) isa A x) := by
  obtain ⟨a, r, b, r2, fs, r3, h1, h2, h3, ht⟩ := called_ok (s := blogSchema) (p := findFuncs) (doc := findDoc)
    (test := fun T fs => match fs with
      | [f] => paramsOf f == ["n"] && (match returnsOf f with | some A => A != .name "Find" | none => false) &&
        (match f with
          | .funcDef _ _ args defaults _ _ _ => (bindCall ["Find", "execute"] args defaults [arg "x"] []).isSome
          | _ => false)
      | _ => false) (by decide +kernel)
  have key := fun leaf isa hleaf hmodels => C89_answers_reach_the_caller_partial (leaf := leaf) (isa := isa) h1 h2 h3 rfl
    ⟨rfl, rfl⟩ (by decide) (by decide +kernel) blog_valid (fun f hf => by cases hf) find_clear (by decide +kernel)
    find_separate find_bases (blog_leaf hleaf) hmodels (fun d hd => by cases hd) (fun n d hl => by cases hl)
    (fun d hd => by cases hd) (fun d hd => by cases hd) find_supported find_vars find_public
  split at ht
  · rename_i f
    simp only [Bool.and_eq_true, beq_iff_eq] at ht
    obtain ⟨⟨t1, t2⟩, t3⟩ := ht
    cases hA : returnsOf f with
    | none => rw [hA] at t2; cases t2
    | some A =>
    rw [hA] at t2
    have hne : A ≠ .name "Find" := by simpa using t2
    refine ⟨a, b, f, A, ⟨r, r2, r3, h1, h2, h3⟩, hA, hne, fun leaf isa hleaf hmodels kvs hkvs => ?_⟩
    have hfor : functionsFor findFuncs findDoc = [(findOp, { kind := .query, use := "client.execute" })] := rfl
    have hk := key leaf isa hleaf hmodels
    rw [hfor] at hk
    cases hk with
    | cons hk _ =>
    obtain ⟨name, args, defaults, body, cls, A', root, rfl, ⟨n, e1, e2⟩, e3, e4, hcall⟩ := hk
    cases e1
    cases e4
    have : Kind.query.style ({} : Env) "Find" = .ok "Find" := by decide +kernel
    have e2 : Kind.query.style ({} : Env) "Find" = .ok cls := e2
    rw [this] at e2
    cases e2
    have hA : some A' = some A := hA
    cases hA
    obtain ⟨L, hL⟩ := Option.isSome_iff_exists.1 t3
    obtain ⟨out, ho, hp, hans⟩ := hcall ["Find", "execute"] [arg "x"] [] L (find_hygienic t1)
      (by
        rintro ⟨v, hv, h⟩
        rw [List.mem_singleton.1 hv] at h
        rcases h with ⟨_, h⟩ | ⟨h, _⟩
        · exact (h ⟨⟨_, rfl⟩, rfl⟩).elim
        · cases h)
      (by simp) (by decide +kernel) hL
    obtain ⟨x, _, hx⟩ := hans kvs hkvs
    obtain ⟨at', ha1, ha2⟩ := hp.collapsed rfl rfl
    have hat : at' = "hit" := by
      obtain ⟨_, _, _, _, g1, g2⟩ := ha2
      cases g1
      have : generateNodeName ({ schema := blogSchema } : Ctx).env.stylers "hit" = .ok "hit" := by decide +kernel
      have g2 : generateNodeName ({ schema := blogSchema } : Ctx).env.stylers "hit" = .ok at' := g2
      rw [this] at g2
      cases g2
      rfl
    subst hat
    rcases hx with ⟨h, _⟩ | ⟨s, _, hs, hx1, hx2⟩
    · rw [ha1] at h; cases h
    · cases hs
      exact ⟨out, x, ho, ha1, hx2, hx1⟩
  · cases ht

/-- The other theorem applies: the class `Find` accepts an answer with some data in it, and whatever it accepts, `find`
hands back a value that delivers what `hit: node { … }` promises. -/
example : ∃ T f, calledSatisfies blogSchema findFuncs findDoc (fun _ _ => true) = true ∧
    MayAccept T (fun n v => strB n v = true) (.name "Find") (.obj findAnswer) ∧
    ∀ kvs, MayAccept T (fun n v => strB n v = true) (.name "Find") (.obj kvs) →
      ∃ out x t, callFunc ["Find", "execute"] f [arg "x"] [] = some out ∧ GivesBack T "Find" out kvs x ∧
        out.attr = some "hit" ∧ FieldAt blogSchema "Query" "node" t ∧
        Delivers blogSchema (definitions findDoc) (fun _ v => ∃ x, v = .atom x) true t
          [ask "id", .inline (some "Post") [ask "title"], ask "__typename"] x := by
  obtain ⟨a, r, b, r2, fs, r3, h1, h2, h3, ht⟩ := called_ok (s := blogSchema) (p := findFuncs) (doc := findDoc)
    (test := fun T fs => match fs with
      | [f] => paramsOf f == ["n"] && (takesB T strB ["User", "Post"] 20 (.name "Find") (.obj findAnswer) &&
          decide ("str" ∉ classNames T ∧ "str" ∉ assignedNames T)) &&
        (match f with
          | .funcDef _ _ args defaults _ _ _ => (bindCall ["Find", "execute"] args defaults [arg "x"] []).isSome
          | _ => false)
      | _ => false) (by decide +kernel)
  have hk := C89_handed_back_delivers_partial (leaf := fun _ v => ∃ x, v = .atom x) (isa := fun n v => strB n v = true)
    h1 h2 h3 rfl ⟨rfl, rfl⟩ (by decide) (by decide +kernel) (fieldsOnce_of (by decide +kernel)) blog_valid blog_inhabited
    (fun f hf => by cases hf) find_clear (by decide +kernel) find_separate find_bases
    (by
      intro n cls hl hc k n' x hx
      obtain ⟨rfl, rfl⟩ := blog_class hl hc
      obtain ⟨rfl, rfl, rfl⟩ := find_definition hx
      decide +kernel)
    (by
      intro n cls v hl hc hv
      obtain ⟨rfl, rfl⟩ := blog_class hl hc
      cases v with
      | atom x => exact ⟨x, rfl⟩
      | null => cases hv
      | list l => cases hv
      | obj l => cases hv)
    (fun d hd => by cases hd) (fun n d hl => by cases hl) (fun d hd => by cases hd) (fun d hd => by cases hd)
    (by
      intro o ho x hx
      rw [find_operations ho] at hx
      have := mem_spreadNames hx
      simp [findOp, ask, spreadNames, spreadNamesOf] at this)
    (by
      intro o ho root hr
      rw [find_operations ho] at hr ⊢
      cases hr
      refine ⟨blog_query, apartB_ok (n := 20) (by decide +kernel), fun name al args sub t hm ht => ?_⟩
      have key : typedB blogSchema (keepableB { schema := blogSchema } (definitions findDoc) 20) "Query"
        findOp.sels = true := by decide +kernel
      refine keepableB_ok 20 (typedB_ok key hm ?_ ht)
      rintro rfl
      simp [findOp] at hm)
    find_vars find_public
  split at ht
  · rename_i f
    simp only [Bool.and_eq_true, beq_iff_eq, decide_eq_true_eq] at ht
    obtain ⟨⟨t1, t2, t4, t5⟩, t3⟩ := ht
    refine ⟨a ++ b, f, by decide +kernel, ?_, fun kvs hkvs => ?_⟩
    · refine takes_mayAccept (fun n v hv => ?_) (takesB_ok 20 t2)
      have : n = "str" := by
        have hv : strB n v = true := hv
        unfold strB at hv
        simp only [Bool.and_eq_true, beq_iff_eq] at hv
        exact hv.1
      subst this
      exact ⟨fun hc => t4 (mem_classNames.2 hc), fun e he => t5 (mem_assignedNames he)⟩
    · have hfor : functionsFor findFuncs findDoc = [(findOp, { kind := .query, use := "client.execute" })] := rfl
      rw [hfor] at hk
      cases hk with
      | cons hk _ =>
      obtain ⟨name, args, defaults, body, cls, A', root, rfl, ⟨n, e1, e2⟩, e3, e4, hcall⟩ := hk
      cases e1
      cases e4
      have : Kind.query.style ({} : Env) "Find" = .ok "Find" := by decide +kernel
      have e2 : Kind.query.style ({} : Env) "Find" = .ok cls := e2
      rw [this] at e2
      cases e2
      obtain ⟨L, hL⟩ := Option.isSome_iff_exists.1 t3
      obtain ⟨out, ho, hp, hans⟩ := hcall ["Find", "execute"] [arg "x"] [] L (find_hygienic t1)
        (by
          rintro ⟨v, hv, h⟩
          rw [List.mem_singleton.1 hv] at h
          rcases h with ⟨_, h⟩ | ⟨h, _⟩
          · exact (h ⟨⟨_, rfl⟩, rfl⟩).elim
          · cases h)
        (by simp) (by decide +kernel) hL
      obtain ⟨x, hg, hx⟩ := hans kvs hkvs
      obtain ⟨at', ha1, ha2⟩ := hp.collapsed rfl rfl
      have hat : at' = "hit" := by
        obtain ⟨_, _, _, _, g1, g2⟩ := ha2
        cases g1
        have : generateNodeName ({ schema := blogSchema } : Ctx).env.stylers "hit" = .ok "hit" := by decide +kernel
        have g2 : generateNodeName ({ schema := blogSchema } : Ctx).env.stylers "hit" = .ok at' := g2
        rw [this] at g2
        cases g2
        rfl
      subst hat
      rcases hx with ⟨h, _⟩ | ⟨s, _, hs, hx⟩
      · rw [ha1] at h; cases h
      · cases hs
        obtain ⟨t, q1, q2⟩ := hx (by decide)
        exact ⟨out, x, t, ho, hg, ha1, q1, q2⟩
  · cases ht

/-! ## A limit -/

/-- The only root field has a response key with a leading underscore: the attribute is private to pydantic, so the
function finds nothing to hand back, whatever the server answers.  `query Find { _hit: node { id } }` -/
theorem C89_underscore_counterexample :
    calledSatisfies blogSchema findFuncs [.operation ⟨.query, some "Find", [], [.field "node" (some "_hit") [] [ask "id"]]⟩]
      (fun T fs => match fs with
        | [f] => classNames T == ["Find_hitBase", "Find_hitBaseUser", "Find_hitBasePost", "Find_hitBaseCatchAll", "Find"] &&
          (match callFunc ["Find", "execute"] f [] [] with
            | some out => out.attr == some "_hit"
            | none => false)
        | _ => false) = true ∧
    ∀ T out kvs x, out.attr = some "_hit" → ¬ GivesBack T "Find" out kvs x := by
  refine ⟨by decide +kernel, fun T out kvs x ha h => ?_⟩
  unfold GivesBack at h
  rw [ha] at h
  exact absurd h.1 (by decide +kernel)

end Turms.Props
