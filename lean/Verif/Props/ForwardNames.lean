import Verif.Lemmas.QuotedTypes
import Verif.Props.ResponseScope
import Verif.Props.Objects

/-!
# C63: every quoted reference names a class of the module
-/

namespace Turms.Props
open Turms Turms.Spec Turms.Fragments

/-- `n` is the class of an enum or input type of the schema that the plugins were told to leave out
(`skip_unreferenced`, `skip_underscore`, `skip_double_underscore`) -/
def LeftOut (c : Ctx) (pe : EnumsConfig) (pi : InputsConfig) (n : String) : Prop :=
  (∃ t, EnumOf c.schema t ∧ t.name ∉ builtinNames ∧ ¬ EnumKept pe t.name ∧ Kind.enum.style c.env t.name = .ok n) ∨
  ∃ t, InputOf c.schema t ∧ ¬ SelectedInput pi t ∧ Kind.input.style c.env t.name = .ok n

theorem enumOf_isEnum {s : Schema} {t : String} (h : IsEnum s t) : ∃ e, EnumOf s e ∧ e.name = t := by
  obtain ⟨vs, h⟩ := h
  unfold Schema.lookup at h
  cases he : s.types.get? t with
  | none => rw [he] at h; cases h
  | some e =>
    rw [he] at h
    exact ⟨⟨t, e.description, vs⟩, ⟨e, Dict.mem_of_get? he, by simpa using h, rfl⟩, rfl⟩

theorem inputOf_isInput {s : Schema} {t : String} (h : IsInput s t) : ∃ e, InputOf s e ∧ e.name = t := by
  obtain ⟨fs, ds, h⟩ := h
  unfold Schema.lookup at h
  cases he : s.types.get? t with
  | none => rw [he] at h; cases h
  | some e =>
    rw [he] at h
    exact ⟨⟨t, e.description, fs, ds⟩, ⟨e, Dict.mem_of_get? he, by simpa using h, rfl⟩, rfl⟩

theorem mem_boundL {ss : List Stmt} {n : String} : n ∈ boundL ss ↔ ∃ s ∈ ss, n ∈ bound s := List.mem_flatMap

theorem kept_enum_bound {c : Ctx} {p : EnumsConfig} {ss : List Stmt} {r r' : Reg} {t m : String}
    (h : generateEnums c p r = .ok (ss, r')) (ht : IsEnum c.schema t) (hb : t ∉ builtinNames)
    (hm : Kind.enum.style c.env t = .ok m) :
    m ∈ boundL ss ∨ ∃ t, EnumOf c.schema t ∧ t.name ∉ builtinNames ∧ ¬ EnumKept p t.name ∧ Kind.enum.style c.env t.name = .ok m := by
  obtain ⟨e, he, rfl⟩ := enumOf_isEnum ht
  by_cases hk : EnumKept p e.name
  · obtain ⟨cls, hs, hcl⟩ := enumClass_mem h he hk
    rw [hm] at hs
    cases hs
    exact .inl (mem_boundL.2 ⟨_, hcl, by simp [bound]⟩)
  · exact .inr ⟨e, he, hb, hk, hm⟩

theorem kept_input_bound {c : Ctx} {p : InputsConfig} {ss : List Stmt} {r r' : Reg} {t m : String}
    (hs : Styled c.env r) (hp : PlainConfig c.config) (hn : c.schema.types.keys.Nodup)
    (h : generateInputs c p r = .ok (ss, r')) (ht : IsInput c.schema t)
    (hm : Kind.input.style c.env t = .ok m) :
    m ∈ boundL ss ∨ ∃ t, InputOf c.schema t ∧ ¬ SelectedInput p t ∧ Kind.input.style c.env t.name = .ok m := by
  obtain ⟨e, he, rfl⟩ := inputOf_isInput ht
  by_cases hk : SelectedInput p e
  · obtain ⟨⟨K, hE, hK⟩, _⟩ := generateInputs_ok hs hp hn h
    have hk : e.name ∈ K := (hK _).2 (.inl ⟨e, he, hk, rfl⟩)
    obtain ⟨L, _, h2, h3, h4⟩ := hE.map
    rw [← h2] at hk
    obtain ⟨q, hq, hqn⟩ := List.mem_map.1 hk
    have hst := h4 q hq
    rw [hqn, hm] at hst
    cases hst
    have : q.2 ∈ definedNames ss := by rw [← h3]; exact List.mem_map_of_mem hq
    exact .inl (mem_boundL.2 (definedNames_bound this))
  · exact .inr ⟨e, he, hk, hm⟩

/-- Run the enums, inputs, fragments and operations plugins, in this order, on a fresh registry and a document that
spreads only fragments it defines.  Every name quoted in an annotation of the module is bound by the module, or is
the name of a helper class the registry emits — or it is the name of a fragment on an interface, or the class of a
type the plugins were told to leave out. -/
theorem C63_module_partial {prep : List Char → List Char} {c : Ctx} {pe : EnumsConfig} {pi : InputsConfig}
    {pf : FragmentsConfig} {po : OperationsConfig} {doc : Document} {r1 r2 r3 r4 : Reg} {ss1 ss2 ss3 ss4 : List Stmt}
    (henums : generateEnums c pe (Reg.init c.env) = .ok (ss1, r1))
    (hinputs : generateInputs c pi r1 = .ok (ss2, r2))
    (hfrag : fragmentsPlugin prep c pf doc r2 = .ok (ss3, r3))
    (hops : operationsPlugin prep c po doc r3 = .ok (ss4, r4))
    (hplain : PlainConfig c.config) (hnodup : c.schema.types.keys.Nodup)
    (hdef : ∀ d ∈ fragmentsOf doc, ∀ x, Spreads d.sels x → x ∈ (fragmentsOf doc).map (·.name))
    (hdefO : ∀ o ∈ operationsOf doc, ∀ x, Spreads o.sels x → x ∈ (fragmentsOf doc).map (·.name))
    (n : String) (hn : n ∈ quotedInL (ss1 ++ (ss2 ++ (ss3 ++ ss4)))) :
    n ∈ boundL (ss1 ++ (ss2 ++ (ss3 ++ ss4))) ∨ (∃ b ∈ r4.builtins, n ∈ helperNames b) ∨
      InterfaceFragmentName c doc n ∨ LeftOut c pe pi n := by
  let B : String → Prop := fun b => b ∈ r4.builtins
  let E : String → Prop := fun n => n ∈ boundL (ss1 ++ (ss2 ++ (ss3 ++ ss4))) ∨ (∃ b ∈ r4.builtins, n ∈ helperNames b) ∨
      InterfaceFragmentName c doc n ∨ LeftOut c pe pi n
  have s1 := (generateEnums_ok henums).1.styled (styled_stateAfter c.env [])
  have hbuiltin : ∀ b, B b → b ∈ builtinNames → E b := fun b hb hm => .inr (.inl ⟨b, hb, by
    simp only [builtinNames, List.mem_cons, List.not_mem_nil, or_false] at hm
    rcases hm with rfl | rfl | rfl | rfl | rfl <;> simp [helperNames]⟩)
  have henum : ∀ t m, IsEnum c.schema t → t ∉ builtinNames → Kind.enum.style c.env t = .ok m → E m := by
    intro t m ht hb hm
    rcases kept_enum_bound henums ht hb hm with h | h
    · exact .inl (by rw [boundL_append]; exact List.mem_append_left _ h)
    · exact .inr (.inr (.inr (.inl h)))
  have hinput : ∀ t m, IsInput c.schema t → Kind.input.style c.env t = .ok m → E m := by
    intro t m ht hm
    rcases kept_input_bound s1 hplain hnodup hinputs ht hm with h | h
    · exact .inl (by rw [boundL_append, boundL_append]; exact List.mem_append_right _ (List.mem_append_left _ h))
    · exact .inr (.inr (.inr (.inr h)))
  have hfragment : ∀ f m, f ∈ (fragmentsOf doc).map (·.name) → Kind.fragment.style c.env f = .ok m → E m := by
    intro f m hf hm
    obtain ⟨l, hl, _, hmem, _⟩ := C12_document_fragments doc
    have hfrag := hfrag
    unfold fragmentsPlugin at hfrag
    obtain ⟨fs, r', hx, hfrag⟩ := Gen.bind_ok.1 hfrag
    obtain ⟨hx, rfl⟩ := Gen.lift_ok.1 hx
    rw [hl] at hx
    cases hx
    obtain ⟨d0, hd0, hd0n⟩ := List.mem_map.1 hf
    have : ∃ d, lookup (fragmentsOf doc) f = some d := by
      cases hlk : lookup (fragmentsOf doc) f with
      | some d => exact ⟨d, rfl⟩
      | none =>
        have := List.find?_eq_none.1 hlk d0 (List.mem_reverse.2 hd0)
        simp [hd0n] at this
    obtain ⟨d, hd⟩ := this
    obtain ⟨k, hk, hb⟩ := generateFragments_bound l hfrag d ((hmem d).2 ⟨f, hd⟩)
    rw [(lookup_mem hd).2, hm] at hk
    cases hk
    rcases hb with hb | hb
    · exact .inr (.inr (.inl ⟨d, (lookup_mem hd).1, hb, by rw [(lookup_mem hd).2]; exact hm⟩))
    · refine .inl ?_
      rw [boundL_append, boundL_append, boundL_append]
      exact List.mem_append_right _ (List.mem_append_right _ (List.mem_append_left _ hb))
  have hQ : Quotable c (fun f => f ∈ (fragmentsOf doc).map (·.name)) B E := ⟨hbuiltin, henum, hfragment⟩
  obtain ⟨l, hl, _, hmem, _⟩ := C12_document_fragments doc
  have hfrag' := hfrag
  unfold fragmentsPlugin at hfrag'
  obtain ⟨fs, r', hx, hfrag'⟩ := Gen.bind_ok.1 hfrag'
  obtain ⟨hx, rfl⟩ := Gen.lift_ok.1 hx
  rw [hl] at hx
  cases hx
  have q4 := (q_generateOperations hQ _ (fun o ho => hdefO o ho)).run _ _ _ hops
  have q3 := (q_generateFragments hQ l (fun f hf x hx => by
    obtain ⟨k, hk⟩ := (hmem f).1 hf
    exact hdef f (lookup_mem hk).1 x hx)).run _ _ _ hfrag'
  have q2 := (q_generateInputs ⟨hbuiltin, henum, hinput⟩).run _ _ _ hinputs
  have q1 := (q_generateEnums (E := E) (B := B)).run _ _ _ henums
  have b3 : ∀ b ∈ r3.builtins, B b := q4.1
  have b2 : ∀ b ∈ r2.builtins, B b := fun b hb => b3 b (q3.1 b hb)
  have b1 : ∀ b ∈ r1.builtins, B b := fun b hb => b2 b (q2.1 b hb)
  exact ((q1.2 b1).append ((q2.2 b2).append ((q3.2 b3).append (q4.2 fun _ h => h)))) n hn

/-- If in addition no enum or input type is left out and no fragment is on an interface, every quoted name is
defined. -/
theorem C63_module_closed_partial {prep : List Char → List Char} {c : Ctx} {pe : EnumsConfig} {pi : InputsConfig}
    {pf : FragmentsConfig} {po : OperationsConfig} {doc : Document} {r1 r2 r3 r4 : Reg} {ss1 ss2 ss3 ss4 : List Stmt}
    (henums : generateEnums c pe (Reg.init c.env) = .ok (ss1, r1))
    (hinputs : generateInputs c pi r1 = .ok (ss2, r2))
    (hfrag : fragmentsPlugin prep c pf doc r2 = .ok (ss3, r3))
    (hops : operationsPlugin prep c po doc r3 = .ok (ss4, r4))
    (hplain : PlainConfig c.config) (hnodup : c.schema.types.keys.Nodup)
    (hdef : ∀ d ∈ fragmentsOf doc, ∀ x, Spreads d.sels x → x ∈ (fragmentsOf doc).map (·.name))
    (hdefO : ∀ o ∈ operationsOf doc, ∀ x, Spreads o.sels x → x ∈ (fragmentsOf doc).map (·.name))
    (hkeptE : ∀ t, EnumOf c.schema t → t.name ∉ builtinNames → EnumKept pe t.name)
    (hkeptI : ∀ t, InputOf c.schema t → SelectedInput pi t)
    (hobj : ∀ d ∈ fragmentsOf doc, ¬ IsInterface c.schema d.typeCondition)
    (n : String) (hn : n ∈ quotedInL (ss1 ++ (ss2 ++ (ss3 ++ ss4)))) :
    n ∈ boundL (ss1 ++ (ss2 ++ (ss3 ++ ss4))) ∨ ∃ b ∈ r4.builtins, n ∈ helperNames b := by
  rcases C63_module_partial henums hinputs hfrag hops hplain hnodup hdef hdefO n hn with
    h | h | ⟨d, hd, hi, _⟩ | ⟨t, ht, hb, hk, _⟩ | ⟨t, ht, hk, _⟩
  · exact .inl h
  · exact .inr h
  · exact (hobj d hd hi).elim
  · exact (hk (hkeptE t ht hb)).elim
  · exact (hk (hkeptI t ht)).elim

/-- Run the enums plugin and then the objects plugin.  Every quoted name is bound by the module or a helper class,
or it is the class of a type left out, or the styled name of an interface whose styled name is not its own name (the
alias of an interface is assigned under the name of the schema). -/
theorem C63_objects_partial {c : Ctx} {pe : EnumsConfig} {p : ObjectsConfig} {r1 r2 : Reg} {ss1 ss2 : List Stmt}
    (henums : generateEnums c pe (Reg.init c.env) = .ok (ss1, r1))
    (hobjects : generateTypes c p r1 = .ok (ss2, r2))
    (hplain : PlainConfig c.config) (hv : ValidComposites c.schema)
    (n : String) (hn : n ∈ quotedInL (ss1 ++ ss2)) :
    n ∈ boundL (ss1 ++ ss2) ∨ (∃ b ∈ r2.builtins, n ∈ helperNames b) ∨
      (∃ t, EnumOf c.schema t ∧ t.name ∉ builtinNames ∧ ¬ EnumKept pe t.name ∧ Kind.enum.style c.env t.name = .ok n) ∨
      (∃ t, CompositeOf c.schema t ∧ ¬ KeptObject p t.name ∧ styled c.env.stylers Styler.objectName t.name = .ok n) ∨
      ∃ t, CompositeOf c.schema t ∧ t.isInterface = true ∧ styled c.env.stylers Styler.objectName t.name = .ok n ∧
        n ≠ t.name := by
  let B : String → Prop := fun b => b ∈ r2.builtins
  let E : String → Prop := fun n => n ∈ boundL (ss1 ++ ss2) ∨ (∃ b ∈ r2.builtins, n ∈ helperNames b) ∨
      (∃ t, EnumOf c.schema t ∧ t.name ∉ builtinNames ∧ ¬ EnumKept pe t.name ∧ Kind.enum.style c.env t.name = .ok n) ∨
      (∃ t, CompositeOf c.schema t ∧ ¬ KeptObject p t.name ∧ styled c.env.stylers Styler.objectName t.name = .ok n) ∨
      ∃ t, CompositeOf c.schema t ∧ t.isInterface = true ∧ styled c.env.stylers Styler.objectName t.name = .ok n ∧
        n ≠ t.name
  have s1 := (generateEnums_ok henums).1.styled (styled_stateAfter c.env [])
  obtain ⟨cs, us, hss, hf, _, _, _, _, _, _, hd, _⟩ := generateTypes_ok s1 hplain hv.2 hobjects
  have hbuiltin : ∀ b, B b → b ∈ builtinNames → E b := fun b hb hm => .inr (.inl ⟨b, hb, by
    simp only [builtinNames, List.mem_cons, List.not_mem_nil, or_false] at hm
    rcases hm with rfl | rfl | rfl | rfl | rfl <;> simp [helperNames]⟩)
  have henum : ∀ t m, IsEnum c.schema t → t ∉ builtinNames → Kind.enum.style c.env t = .ok m → E m := by
    intro t m ht hb hm
    rcases kept_enum_bound henums ht hb hm with h | h
    · exact .inl (by rw [boundL_append]; exact List.mem_append_left _ h)
    · exact .inr (.inr (.inl h))
  have composite : ∀ t fs is b, c.schema.lookup t = some (if b then .interface fs is else .object fs is) →
      ∃ u, CompositeOf c.schema u ∧ u.isInterface = b ∧ u.name = t := by
    intro t fs is b h
    unfold Schema.lookup at h
    cases he : c.schema.types.get? t with
    | none => rw [he] at h; cases h
    | some e =>
      rw [he] at h
      exact ⟨⟨t, b, e.description, fs, is⟩, ⟨e, Dict.mem_of_get? he, rfl, by simpa using h⟩, rfl, rfl⟩
  have mem2 : ∀ m, m ∈ definedNames ss2 → m ∈ boundL (ss1 ++ ss2) := fun m hm => by
    rw [boundL_append]
    exact List.mem_append_right _ (mem_boundL.2 (definedNames_bound hm))
  have hobject : ∀ t m fs is, c.schema.lookup t = some (.object fs is) → Kind.object.style c.env t = .ok m → E m := by
    intro t m fs is hl hm
    obtain ⟨u, hu, hui, rfl⟩ := composite t fs is false (by simpa using hl)
    by_cases hk : KeptObject p u.name
    · obtain ⟨s, hs, _, cls, ⟨k, hkn, hcls⟩, hdn⟩ := forall₂_mem_left hf (mem_keptTypes.2 ⟨mem_sortedComposites.2 hu, hk⟩)
      have hm' : styled c.env.stylers Styler.objectName u.name = .ok m := hm
      rw [hm'] at hkn
      cases hkn
      rw [hui] at hcls
      simp only [Bool.false_eq_true, if_false] at hcls
      subst hcls
      refine .inl (mem2 _ ?_)
      rw [hss, definedNames_append]
      refine List.mem_append_left _ ?_
      obtain ⟨a, b, rfl⟩ := List.append_of_mem hs
      rw [definedNames_append, ← List.singleton_append, definedNames_append, hdn]
      simp
    · exact .inr (.inr (.inr (.inl ⟨u, hu, hk, hm⟩)))
  have hiface : ∀ t m, IsInterface c.schema t → styleInterface c.env t = .ok m → E m := by
    intro t m ⟨fs, is, hl⟩ hm
    obtain ⟨u, hu, hui, rfl⟩ := composite t fs is true (by simpa using hl)
    by_cases hk : KeptObject p u.name
    · by_cases he : m = u.name
      · refine .inl (mem2 _ ?_)
        rw [hss, definedNames_append]
        exact List.mem_append_right _ ((hd _).2 ⟨u, mem_keptTypes.2 ⟨mem_sortedComposites.2 hu, hk⟩, .inr ⟨hui, he.symm⟩⟩)
      · exact .inr (.inr (.inr (.inr ⟨u, hu, hui, hm, he⟩)))
    · exact .inr (.inr (.inr (.inl ⟨u, hu, hk, hm⟩)))
  have q2 := (q_generateTypes (B := B) (E := E) ⟨hbuiltin, henum, hobject, hiface⟩).run _ _ _ hobjects
  have q1 := (q_generateEnums (E := E) (B := B)).run _ _ _ henums
  exact ((q1.2 fun b hb => q2.1 b hb).append (q2.2 fun _ h => h)) n hn

/-! ## modules that meet the hypotheses -/

/-- An enum, two input types that refer to each other, a type with a field of an introspection type. -/
def ringSchema : Schema := { query := some "Query", types := [
  ("String", ⟨.scalar, none⟩),
  ("Color", ⟨.enum [⟨"RED", none, none⟩], none⟩),
  ("__TypeKind", ⟨.enum [⟨"OBJECT", none, none⟩], none⟩),
  ("Left", ⟨.input [⟨"right", .named "Right", none, none, none⟩, ⟨"color", .named "Color", none, none, none⟩] [], none⟩),
  ("Right", ⟨.input [⟨"left", .named "Left", none, none, none⟩, ⟨"kind", .named "__TypeKind", none, none, none⟩] [], none⟩),
  ("Hidden", ⟨.input [⟨"inner", .named "_Inner", none, none, none⟩] [], none⟩),
  ("Node", ⟨.interface [plainField "id" (.named "String")] [], none⟩),
  ("User", ⟨.object [plainField "id" (.named "String"), plainField "buddy" (.named "User")] ["Node"], none⟩),
  ("Query", ⟨.object [plainField "user" (.named "User")] [], none⟩)] }

/-- the same schema with the hidden type -/
def hiddenSchema : Schema := { ringSchema with
  types := ringSchema.types ++ [("_Inner", ⟨.input [⟨"name", .named "String", none, none, none⟩] [], none⟩)] }

/-- quoted names of a generated module, and what binds them -/
def quotedTest (expected : List String) (ss : List Stmt) (r : Reg) : Bool :=
  quotedInL ss == expected && expected.all fun n => (boundL ss).contains n || r.builtins.any fun b => (helperNames b).contains n

/-- A module with quoted names: a class, a helper class. -/
example : ∃ ss r, moduleOf { schema := { ringSchema with types := ringSchema.types.filter fun p => p.1 != "Hidden" } } {}
      [.operation ⟨.query, some "Look", [], [ask "user" [ask "id"]]⟩] (Reg.init {}) = .ok (ss, r) ∧
    quotedInL ss = ["Right", "__TypeKind"] ∧
    ∀ n ∈ quotedInL ss, n ∈ boundL ss ∨ ∃ b ∈ r.builtins, n ∈ helperNames b := by
  obtain ⟨ss, r, h, ht⟩ := module_ok (c := { schema := { ringSchema with types := ringSchema.types.filter fun p => p.1 != "Hidden" } })
    (po := {}) (doc := [.operation ⟨.query, some "Look", [], [ask "user" [ask "id"]]⟩])
    (test := fun ss _ => quotedInL ss == ["Right", "__TypeKind"]) (by decide +kernel)
  obtain ⟨a, b, x, y, r1, r2, r3, h1, h2, h3, h4, rfl⟩ := moduleOf_ok h
  refine ⟨_, r, h, by simpa using ht, fun n hn => ?_⟩
  refine C63_module_closed_partial h1 h2 h3 h4 (fun t l hl => by cases hl) (by decide +kernel) ?_ ?_ ?_ ?_ ?_ n hn
  · intro d hd; cases hd
  · intro o ho x hx
    simp only [operationsOf, List.filterMap_cons, List.filterMap_nil, List.mem_singleton] at ho
    subst ho
    have h := mem_spreadNames hx
    simp [ask, spreadNames, spreadNamesOf] at h
  · rintro t ⟨e, he, hd, _⟩ hb
    have : t.name = "Color" ∨ t.name = "__TypeKind" := by
      revert he hd
      simp only [ringSchema, List.filter_cons, List.filter_nil]
      simp +decide only [List.mem_cons, List.not_mem_nil, or_false, Prod.mk.injEq, if_true, if_false]
      rintro (⟨h, rfl⟩ | ⟨h, rfl⟩ | ⟨h, rfl⟩ | ⟨h, rfl⟩ | ⟨h, rfl⟩ | ⟨h, rfl⟩ | ⟨h, rfl⟩ | ⟨h, rfl⟩) hd <;> simp_all
    rcases this with h | h
    · rw [h]
      refine ⟨?_, ?_, ?_⟩
      · rintro l ⟨⟩
      · rintro ⟨⟨⟩, _⟩
      · rintro ⟨_, rest, hr⟩
        simp at hr
    · exact (hb (by rw [h]; decide +kernel)).elim
  · rintro t ⟨e, he, hd, _⟩
    have : t.name = "Left" ∨ t.name = "Right" := by
      revert he hd
      simp only [ringSchema, List.filter_cons, List.filter_nil]
      simp +decide only [List.mem_cons, List.not_mem_nil, or_false, Prod.mk.injEq, if_true, if_false]
      rintro (⟨h, rfl⟩ | ⟨h, rfl⟩ | ⟨h, rfl⟩ | ⟨h, rfl⟩ | ⟨h, rfl⟩ | ⟨h, rfl⟩ | ⟨h, rfl⟩ | ⟨h, rfl⟩) hd <;> simp_all
    refine .inr ⟨?_, ?_⟩
    · rintro l ⟨⟩
    · rcases this with h | h <;> · rw [h]; decide +kernel
  · intro d hd; cases hd

/-- Object models: the field `parent` of `Dog` quotes `Dog`, the field `home` of `Dog` quotes the interface. -/
def kennel : Ctx := { schema := { types := [("Node", ⟨.interface [] [], none⟩),
  ("Dog", ⟨.object [plainField "parent" (.named "Dog"), plainField "home" (.nonNull (.named "Node"))] ["Node"], none⟩)] } }

example : ∃ ss1 r1 ss2 r2, generateEnums kennel {} (Reg.init kennel.env) = .ok (ss1, r1) ∧
    generateTypes kennel {} r1 = .ok (ss2, r2) ∧ PlainConfig kennel.config ∧ ValidComposites kennel.schema ∧
    quotedInL (ss1 ++ ss2) = ["Dog", "Node"] := by
  have ht : (match generateEnums kennel {} (Reg.init kennel.env) with
      | .ok (ss1, r1) => match generateTypes kennel {} r1 with
        | .ok (ss2, _) => quotedInL (ss1 ++ ss2) == ["Dog", "Node"]
        | _ => false
      | _ => false) = true := by decide +kernel
  split at ht <;> try cases ht
  rename_i ss1 r1 h1
  split at ht <;> try cases ht
  rename_i ss2 r2 h2
  refine ⟨_, _, _, _, h1, h2, (fun t l hl => by cases hl), ⟨by decide +kernel, ?_⟩, by simpa using ht⟩
  intro t ht
  rw [← mem_compositeTypes] at ht
  have : ∀ t ∈ compositeTypes kennel.schema, decide (t.name ∉ t.interfaces ∧ t.interfaces.Nodup) = true := by
    decide +kernel
  exact of_decide_eq_true (this t ht)

/-! ## names that are quoted and not defined -/

/-- the module quotes `n`, which nothing defines -/
def danglingTest (n : String) (ss : List Stmt) (r : Reg) : Bool :=
  (quotedInL ss).contains n && (!(boundL ss).contains n && !externalTest r n)

theorem dangling {c : Ctx} {po : OperationsConfig} {doc : Document} (n : String)
    (h : moduleSatisfies c po doc (danglingTest n) = true) :
    ∃ ss r, moduleOf c po doc (Reg.init c.env) = .ok (ss, r) ∧ n ∈ quotedInL ss ∧ n ∉ boundL ss ∧ ¬ External r n := by
  obtain ⟨ss, r, h, ht⟩ := module_ok h
  unfold danglingTest at ht
  simp only [Bool.and_eq_true, Bool.not_eq_true', List.contains_iff_mem] at ht
  refine ⟨ss, r, h, ht.1, fun hb => ?_, fun he => ?_⟩
  · have := ht.2.1; simp [hb] at this
  · rw [external_test he] at ht; cases ht.2.2

/-- With the default configuration, a field of a generated input type whose type starts with an underscore quotes a
class that is not generated. -/
theorem C63_underscore_input_counterexample : ∃ ss r,
    moduleOf { schema := hiddenSchema } {} [.operation ⟨.query, some "Look", [], [ask "user" [ask "id"]]⟩]
      (Reg.init {}) = .ok (ss, r) ∧ "_Inner" ∈ quotedInL ss ∧ "_Inner" ∉ boundL ss ∧ ¬ External r "_Inner" :=
  dangling (c := { schema := hiddenSchema }) "_Inner" (by decide +kernel)

/-- `fragment A on Node { ... on User { buddy { ...B } } }  fragment B on Node { id }`: the spread below the inline
fragment is not seen when fragments are ordered, so `B` is generated after `A`, which quotes it; but a fragment on an
interface has no class of its own name. -/
theorem C63_late_interface_fragment_counterexample : ∃ ss r,
    moduleOf { schema := { ringSchema with types := ringSchema.types.filter fun p => p.1 != "Hidden" } } {}
      [.fragment ⟨"A", "Node", [.inline (some "User") [ask "buddy" [.spread "B"]]]⟩, .fragment ⟨"B", "Node", [ask "id"]⟩]
      (Reg.init {}) = .ok (ss, r) ∧ "B" ∈ quotedInL ss ∧ "B" ∉ boundL ss ∧ ¬ External r "B" :=
  dangling (c := { schema := { ringSchema with types := ringSchema.types.filter fun p => p.1 != "Hidden" } }) "B"
    (by decide +kernel)

end Turms.Props
