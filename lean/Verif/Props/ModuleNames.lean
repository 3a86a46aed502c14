import Verif.Lemmas.ModuleNames
import Verif.Props.ClassNames
import Verif.Lemmas.Topo
import Verif.Props.Kept

/-! # C57: the classes of a whole module -/

namespace Turms.Props
open Turms Spec Fragments

/-- C57, one fragment: its classes, nested ones and those of its own types, have pairwise different names. -/
theorem C57_fragment_classes_partial {prep : List Char → List Char} {c : Ctx} {p : FragmentsConfig} {f : FragDef}
    {r r' : Reg} {ss : List Stmt} (h : generateFragment prep c p f r = .ok (ss, r'))
    (hschema : c.schema.types.keys.Nodup) (hempty : "" ∉ c.schema.types.keys) (hclear : ClearFragment c.schema f) :
    (boundL ss).Nodup := by
  obtain ⟨cls, _, hn⟩ := generateFragment_names h
  exact fragment_names_nodup hschema hempty hclear hn

/-- C57, all fragments and operations of a document. -/
theorem C57_document_classes_partial {prep : List Char → List Char} {c : Ctx}
    {pf : FragmentsConfig} {po : OperationsConfig} {doc : Document} {r2 r3 r4 : Reg} {ss3 ss4 : List Stmt}
    (hfrag : fragmentsPlugin prep c pf doc r2 = .ok (ss3, r3))
    (hops : operationsPlugin prep c po doc r3 = .ok (ss4, r4))
    (hnodup : c.schema.types.keys.Nodup) (hempty : "" ∉ c.schema.types.keys)
    (hclearF : ∀ f ∈ fragmentsOf doc, ClearFragment c.schema f)
    (hclearO : ∀ o ∈ operationsOf doc, ∀ root, c.schema.root o.kind = some root →
      ClearPaths c.schema (nestedOf c.schema root o))
    (honce : ((operationsOf doc).map (·.name)).Nodup) (hsep : SeparateDefinitions c.env doc) :
    (boundL (ss3 ++ ss4)).Nodup ∧
      ∀ a ∈ boundL (ss3 ++ ss4), ∃ k n x, DefinitionClass c.env doc k n x ∧ x.toList <+: a.toList := by
  obtain ⟨l, hl, hn, hmem, _⟩ := C12_document_fragments doc
  unfold fragmentsPlugin at hfrag
  obtain ⟨fs, r', hx, hfrag⟩ := Gen.bind_ok.1 hfrag
  obtain ⟨hx, rfl⟩ := Gen.lift_ok.1 hx
  rw [hl] at hx
  cases hx
  have hin : ∀ f ∈ l, f ∈ fragmentsOf doc := fun f hf => by
    obtain ⟨k, hk⟩ := (hmem f).1 hf
    exact (lookup_mem hk).1
  have a3 := generateFragments_apart hnodup hempty l (fun f hf => hclearF f (hin f hf)) hn
    (fun f hf g hg hne x y hx hy => hsep _ _ _ _ _ _ (.fragment (hin f hf) hx) (.fragment (hin g hg) hy)
      fun e => hne (congrArg Prod.snd e)) hfrag
  have a4 := generateOperations_apart hnodup hempty _ hclearO honce
    (fun o ho o' ho' n n' x y hn hn' hne hx hy => hsep _ _ _ _ _ _ (.operation ho hn hx) (.operation ho' hn' hy)
      fun e => hne (congrArg Prod.snd e)) hops
  have a := a3.append a4 (by
    rintro x y ⟨f, hf, hx⟩ ⟨o, ho, n, hn, hy⟩
    have hne : (Kind.fragment, f.name) ≠ (o.kind.kind, n) := by
      intro e
      have := congrArg Prod.fst e
      revert this
      cases o.kind <;> exact fun h => by cases h
    exact ⟨hsep _ _ _ _ _ _ (.fragment (hin f hf) hx) (.operation ho hn hy) hne,
      hsep _ _ _ _ _ _ (.operation ho hn hy) (.fragment (hin f hf) hx) hne.symm⟩)
  refine ⟨a.1, fun n hn => ?_⟩
  obtain ⟨x, hx, hp⟩ := a.2 n hn
  rcases hx with ⟨f, hf, hx⟩ | ⟨o, ho, m, hm, hx⟩
  · exact ⟨_, _, x, .fragment (hin f hf) hx, hp⟩
  · exact ⟨_, _, x, .operation ho hm hx, hp⟩

/-- Run the enums, inputs, fragments and operations plugins, in this order, on a fresh registry: no two statements of the
generated module define the same name, so no class is silently replaced by a later one. -/
theorem C57_module_classes_partial {prep : List Char → List Char} {c : Ctx} {pe : EnumsConfig} {pi : InputsConfig}
    {pf : FragmentsConfig} {po : OperationsConfig} {doc : Document} {r1 r2 r3 r4 : Reg} {ss1 ss2 ss3 ss4 : List Stmt}
    (henums : generateEnums c pe (Reg.init c.env) = .ok (ss1, r1))
    (hinputs : generateInputs c pi r1 = .ok (ss2, r2))
    (hfrag : fragmentsPlugin prep c pf doc r2 = .ok (ss3, r3))
    (hops : operationsPlugin prep c po doc r3 = .ok (ss4, r4))
    (hplain : PlainConfig c.config) (hnodup : c.schema.types.keys.Nodup) (hempty : "" ∉ c.schema.types.keys)
    (hclearF : ∀ f ∈ fragmentsOf doc, ClearFragment c.schema f)
    (hclearO : ∀ o ∈ operationsOf doc, ∀ root, c.schema.root o.kind = some root →
      ClearPaths c.schema (nestedOf c.schema root o))
    (honce : ((operationsOf doc).map (·.name)).Nodup) (hsep : Separate c pe pi doc) :
    (definedNames (ss1 ++ (ss2 ++ (ss3 ++ ss4)))).Nodup := by
  obtain ⟨hd, hp⟩ := C57_document_classes_partial hfrag hops hnodup hempty hclearF hclearO honce hsep.definitions
  have e1 := (generateEnums_ok henums).1
  have s1 := e1.styled (styled_stateAfter c.env [])
  obtain ⟨⟨K, e2, hK⟩, _⟩ := generateInputs_ok s1 hplain hnodup hinputs
  have t1 : ∀ n ∈ ((enumTypes c.schema).filter (fun t => open Classical in decide (EnumKept pe t.name))).map (·.name), ∀ x,
      Kind.enum.style c.env n = .ok x → TypeClass c pe pi .enum n x := by
    intro n hn x hx
    obtain ⟨t, ht, rfl⟩ := List.mem_map.1 hn
    rw [List.mem_filter, mem_enumTypes] at ht
    exact .enum ht.1 (by simpa using ht.2) hx
  have t2 : ∀ n ∈ K, ∀ x, Kind.input.style c.env n = .ok x → TypeClass c pe pi .input n x := fun n hn x hx =>
    .input ((hK n).1 hn) hx
  have d34 : (definedNames (ss3 ++ ss4)).Nodup := hd.sublist (definedNames_sublist _)
  have q34 : ∀ a ∈ definedNames (ss3 ++ ss4), ∃ k n x, DefinitionClass c.env doc k n x ∧ x.toList <+: a.toList := fun a ha =>
    hp a ((definedNames_sublist _).subset ha)
  have d1 := emits_nodup e1 fun m hm n hn x hx hy => congrArg Prod.snd (hsep.types _ _ _ _ x (t1 m hm x hx) (t1 n hn x hy))
  have d2 := emits_nodup e2 fun m hm n hn x hx hy => congrArg Prod.snd (hsep.types _ _ _ _ x (t2 m hm x hx) (t2 n hn x hy))
  rw [definedNames_append, definedNames_append, List.nodup_append, List.nodup_append]
  refine ⟨d1, ⟨d2, d34, ?_⟩, ?_⟩
  · rintro a ha b hb rfl
    obtain ⟨n, hn, hx⟩ := emits_defined e2 a ha
    obtain ⟨k, m, x, hc, hpre⟩ := q34 a hb
    exact hsep.both _ _ _ _ _ _ hc (t2 n hn a hx) hpre
  · rintro a ha b hb rfl
    obtain ⟨n, hn, hx⟩ := emits_defined e1 a ha
    rcases List.mem_append.1 hb with hb | hb
    · obtain ⟨m, hm, hy⟩ := emits_defined e2 a hb
      cases congrArg Prod.fst (hsep.types _ _ _ _ a (t1 n hn a hx) (t2 m hm a hy))
    · obtain ⟨k, m, x, hc, hpre⟩ := q34 a hb
      exact hsep.both _ _ _ _ _ _ hc (t1 n hn a hx) hpre

/-! ## what follows for C19 and C72 -/

theorem uniqueClasses_of_bound {T : List Stmt} (h : (boundL T).Nodup) : UniqueClasses T := by
  intro n bs body ds bs' body' ds' h1 h2
  have := bound_unique h h1 h2 (n := n) (by simp [bound]) (by simp [bound])
  cases this
  exact ⟨rfl, rfl, rfl⟩

theorem uniqueAliases_of_bound {T : List Stmt} (h : (boundL T).Nodup) : UniqueAliases T := by
  intro n e h1
  refine ⟨?_, fun e' h2 => ?_⟩
  · rintro ⟨bs, body, ds, h2⟩
    have := bound_unique h h1 h2 (n := n) (by simp [bound]) (by simp [bound])
    cases this
  · have := bound_unique h h1 h2 (n := n) (by simp [bound]) (by simp [bound])
    cases this
    rfl

theorem isClass_bound {T : List Stmt} {n : String} (h : IsClass T n) : n ∈ boundL T := by
  obtain ⟨bs, body, ds, h⟩ := h
  exact List.mem_flatMap.2 ⟨_, h, by simp [bound]⟩

/-- `C19_document_accepted_partial` (below), also for results that lack entries of nullable types. -/
theorem C19_sparse_document_partial {prep : List Char → List Char} {c : Ctx} {pf : FragmentsConfig}
    {po : OperationsConfig} {doc : Document} {leaf : String → Val → Prop}
    {isa : String → Val → Prop} {r0 r1 r2 : Reg} {ss1 ss2 : List Stmt}
    (hfrag : fragmentsPlugin prep c pf doc r0 = .ok (ss1, r1))
    (hops : operationsPlugin prep c po doc r1 = .ok (ss2, r2))
    (hfirst : r0.interfaceFragmentImpl = [] ∧ r0.unionFragmentMembers = [])
    (hnodup : c.schema.types.keys.Nodup) (hempty : "" ∉ c.schema.types.keys) (hvalid : ValidImplementations c.schema)
    (hclearF : ∀ f ∈ fragmentsOf doc, ClearFragment c.schema f)
    (hclearO : ∀ o ∈ operationsOf doc, ∀ root, c.schema.root o.kind = some root →
      ClearPaths c.schema (nestedOf c.schema root o))
    (honce : ((operationsOf doc).map (·.name)).Nodup) (hsep : SeparateDefinitions c.env doc)
    (hbases : ∀ b, (ConfiguredBase c b ∨ b ∈ pf.fragmentBases ++ pf.objectBases ∨ ∃ k, b ∈ po.basesFor k) →
      ∀ k n x, DefinitionClass c.env doc k n x → ¬ x.toList <+: (lastComponent b).toList)
    (hleaf : ∀ n v cls, IsLeaf c.schema n → leaf n v → outputSideClass c r0 n = some cls → isa cls v)
    (hdef : ∀ d ∈ fragmentsOf doc, ∀ x, Spreads d.sels x → x ∈ (fragmentsOf doc).map (·.name))
    (hcyc : ∀ n d, lookup (fragmentsOf doc) n = some d → ¬ Needs (fragmentsOf doc) d.sels n)
    (hinl : ∀ d ∈ fragmentsOf doc, NoInlineSpread d.sels)
    (hsupF : ∀ d ∈ fragmentsOf doc,
      SupportedFragment c (definitions doc) (· ∈ (fragmentsOf doc).map (·.name)) d)
    (hsupO : ∀ o ∈ operationsOf doc, ∀ root, c.schema.root o.kind = some root → IsObject c.schema root ∧
      ∀ name al args sub t, Sel.field name al args sub ∈ o.sels → FieldType c.schema root name t →
        Supported c.schema (definitions doc) (· ∈ (fragmentsOf doc).map (·.name)) t sub) :
    ∀ o ∈ operationsOf doc, ∃ name cls root, o.name = some name ∧ o.kind.kind.style c.env name = .ok cls ∧
      c.schema.root o.kind = some root ∧ IsClass (ss1 ++ ss2) cls ∧
      ∀ kvs, SparseResult c.schema (definitions doc) leaf root o.sels kvs → Takes (ss1 ++ ss2) isa (.name cls) (.obj kvs) := by
  obtain ⟨hd, hp⟩ := C57_document_classes_partial hfrag hops hnodup hempty hclearF hclearO honce hsep
  have hno : ∀ b, (ConfiguredBase c b ∨ b ∈ pf.fragmentBases ++ pf.objectBases ∨ ∃ k, b ∈ po.basesFor k) →
      ¬ IsClass (ss1 ++ ss2) (lastComponent b) := fun b hb hcl => by
    obtain ⟨k, n, x, hx, hpre⟩ := hp _ (isClass_bound hcl)
    exact hbases b hb k n x hx hpre
  exact C19_sparse_responses_partial hfrag hops (fun _ h => h) hfirst hnodup hvalid (uniqueClasses_of_bound hd)
    (fun b hb => hno b (.inl hb)) (fun b hb => hno b (.inr (.inl hb))) (fun k b hb => hno b (.inr (.inr ⟨k, hb⟩)))
    hleaf hdef hcyc hinl hsupF hsupO

/-- C19 with assumptions about schema, document and configuration only: instead of asking that no two classes of the generated module
share a name, and that no class is called like a configured base class, it is enough that the selection paths are clear and the names
of definitions and base classes are separate. -/
theorem C19_document_accepted_partial {prep : List Char → List Char} {c : Ctx} {pf : FragmentsConfig}
    {po : OperationsConfig} {doc : Document} {leaf : String → Val → Prop}
    {isa : String → Val → Prop} {r0 r1 r2 : Reg} {ss1 ss2 : List Stmt}
    (hfrag : fragmentsPlugin prep c pf doc r0 = .ok (ss1, r1))
    (hops : operationsPlugin prep c po doc r1 = .ok (ss2, r2))
    (hfirst : r0.interfaceFragmentImpl = [] ∧ r0.unionFragmentMembers = [])
    (hnodup : c.schema.types.keys.Nodup) (hempty : "" ∉ c.schema.types.keys) (hvalid : ValidImplementations c.schema)
    (hclearF : ∀ f ∈ fragmentsOf doc, ClearFragment c.schema f)
    (hclearO : ∀ o ∈ operationsOf doc, ∀ root, c.schema.root o.kind = some root →
      ClearPaths c.schema (nestedOf c.schema root o))
    (honce : ((operationsOf doc).map (·.name)).Nodup) (hsep : SeparateDefinitions c.env doc)
    (hbases : ∀ b, (ConfiguredBase c b ∨ b ∈ pf.fragmentBases ++ pf.objectBases ∨ ∃ k, b ∈ po.basesFor k) →
      ∀ k n x, DefinitionClass c.env doc k n x → ¬ x.toList <+: (lastComponent b).toList)
    (hleaf : ∀ n v cls, IsLeaf c.schema n → leaf n v → outputSideClass c r0 n = some cls → isa cls v)
    (hdef : ∀ d ∈ fragmentsOf doc, ∀ x, Spreads d.sels x → x ∈ (fragmentsOf doc).map (·.name))
    (hcyc : ∀ n d, lookup (fragmentsOf doc) n = some d → ¬ Needs (fragmentsOf doc) d.sels n)
    (hinl : ∀ d ∈ fragmentsOf doc, NoInlineSpread d.sels)
    (hsupF : ∀ d ∈ fragmentsOf doc,
      SupportedFragment c (definitions doc) (· ∈ (fragmentsOf doc).map (·.name)) d)
    (hsupO : ∀ o ∈ operationsOf doc, ∀ root, c.schema.root o.kind = some root → IsObject c.schema root ∧
      ∀ name al args sub t, Sel.field name al args sub ∈ o.sels → FieldType c.schema root name t →
        Supported c.schema (definitions doc) (· ∈ (fragmentsOf doc).map (·.name)) t sub) :
    ∀ o ∈ operationsOf doc, ∃ name cls root, o.name = some name ∧ o.kind.kind.style c.env name = .ok cls ∧
      c.schema.root o.kind = some root ∧ IsClass (ss1 ++ ss2) cls ∧
      ∀ kvs, ObjectResult c.schema (definitions doc) leaf root o.sels kvs → Takes (ss1 ++ ss2) isa (.name cls) (.obj kvs) := by
  intro o ho
  obtain ⟨name, cls, root, h1, h2, h3, h4, h5⟩ := C19_sparse_document_partial hfrag hops hfirst hnodup hempty hvalid
    hclearF hclearO honce hsep hbases hleaf hdef hcyc hinl hsupF hsupO o ho
  exact ⟨name, cls, root, h1, h2, h3, h4, fun kvs hr => h5 kvs hr.sparse⟩

/-- C72, likewise. -/
theorem C72_document_kept_partial {prep : List Char → List Char} {c : Ctx} {pf : FragmentsConfig}
    {po : OperationsConfig} {doc : Document} {r0 r1 r2 : Reg} {ss1 ss2 : List Stmt}
    (hfrag : fragmentsPlugin prep c pf doc r0 = .ok (ss1, r1))
    (hops : operationsPlugin prep c po doc r1 = .ok (ss2, r2))
    (hfirst : r0.interfaceFragmentImpl = [] ∧ r0.unionFragmentMembers = [])
    (hnodup : c.schema.types.keys.Nodup) (hempty : "" ∉ c.schema.types.keys)
    (hfields : FieldsOnce c.schema) (hvalid : ValidImplementations c.schema)
    (hclearF : ∀ f ∈ fragmentsOf doc, ClearFragment c.schema f)
    (hclearO : ∀ o ∈ operationsOf doc, ∀ root, c.schema.root o.kind = some root →
      ClearPaths c.schema (nestedOf c.schema root o))
    (honce : ((operationsOf doc).map (·.name)).Nodup) (hsep : SeparateDefinitions c.env doc)
    (hbases : ∀ b, (ConfiguredBase c b ∨ b ∈ pf.fragmentBases ++ pf.objectBases ∨ ∃ k, b ∈ po.basesFor k) →
      ∀ k n x, DefinitionClass c.env doc k n x → ¬ x.toList <+: (lastComponent b).toList)
    (hdef : ∀ d ∈ fragmentsOf doc, ∀ x, Spreads d.sels x → x ∈ (fragmentsOf doc).map (·.name))
    (hcyc : ∀ n d, lookup (fragmentsOf doc) n = some d → ¬ Needs (fragmentsOf doc) d.sels n)
    (hinl : ∀ d ∈ fragmentsOf doc, NoInlineSpread d.sels)
    (hkeepF : ∀ d ∈ fragmentsOf doc, KeepableFragment c (definitions doc) d)
    (hdefO : ∀ o ∈ operationsOf doc, ∀ x, Spreads o.sels x → x ∈ (fragmentsOf doc).map (·.name))
    (hkeepO : ∀ o ∈ operationsOf doc, ∀ root, c.schema.root o.kind = some root → IsObject c.schema root ∧
      Apart c (definitions doc) root o.sels ∧
      ∀ name al args sub t, Sel.field name al args sub ∈ o.sels →
        FieldType c.schema root name t → Keepable c (definitions doc) t sub) :
    ∀ o ∈ operationsOf doc, ∃ name cls root, o.name = some name ∧ o.kind.kind.style c.env name = .ok cls ∧
      c.schema.root o.kind = some root ∧ IsClass (ss1 ++ ss2) cls ∧
      ∀ key name sub t path, Picks c.schema (definitions doc) root o.sels key name sub → name ≠ "__typename" →
        FieldType c.schema root name t → Asks c.schema (definitions doc) t sub path →
        Carries (ss1 ++ ss2) cls key fun ann => Offers (ss1 ++ ss2) ann path := by
  obtain ⟨hd, hp⟩ := C57_document_classes_partial hfrag hops hnodup hempty hclearF hclearO honce hsep
  have hno : ∀ b, (ConfiguredBase c b ∨ b ∈ pf.fragmentBases ++ pf.objectBases ∨ ∃ k, b ∈ po.basesFor k) →
      ¬ IsClass (ss1 ++ ss2) (lastComponent b) := fun b hb hcl => by
    obtain ⟨k, n, x, hx, hpre⟩ := hp _ (isClass_bound hcl)
    exact hbases b hb k n x hx hpre
  exact C72_requested_data_kept_partial hfrag hops (fun _ h => h) hfirst hnodup hfields hvalid (uniqueClasses_of_bound hd)
    (uniqueAliases_of_bound hd)
    (fun b hb => hno b (.inl hb)) (fun b hb => hno b (.inr (.inl hb))) (fun k b hb => hno b (.inr (.inr ⟨k, hb⟩)))
    hdef hcyc hinl hkeepF hdefO hkeepO

/-! ## a module that meets the hypotheses -/

theorem clearPaths_of {s : Schema} {l : List Nested} (h1 : (l.map fun n => pathWords n.path).Nodup)
    (h2 : ∀ n ∈ l, ∀ k ∈ n.path, ClearStep k) (h3 : ∀ n ∈ l, ∀ w ∈ pathWords n.path, ¬ "base".toList <+: w)
    (h4 : s.types.get? "CatchAll" = none) : ClearPaths s l where
  distinct := h1
  letters := h2
  base := fun n _ t _ m hm w rest he => h3 m hm w (by rw [he]; simp)
  catchAll := fun n _ t _ fs is hl => by
    unfold Schema.lookup at hl
    rw [h4] at hl
    cases hl

/-- the fragment of `storeDoc` -/
def userFriend : FragDef := ⟨"UserBits", "User", [ask "name",
    ask "friend" [ask "id", .inline (some "Post") [ask "title"], ask "__typename"], ask "__typename"]⟩

theorem nested_userBits : nestedOfFragment storeSchema userFriend = [⟨[.key "friend"], .iface "Node"⟩] := by decide +kernel

theorem store_clearFragment : ∀ f ∈ fragmentsOf storeDoc, ClearFragment storeSchema f := by
  intro f hf
  have : f = userFriend := store_fragments hf
  subst this
  have hown : ownSuffixes storeSchema userFriend = [""] := by decide +kernel
  refine ⟨?_, by rw [hown]; decide, ?_, ?_⟩
  · rw [nested_userBits]
    exact clearPaths_of (by decide +kernel) (by decide +kernel) (by decide +kernel) (by decide +kernel)
  · rw [nested_userBits, hown]
    intro n hn k rest hp x hx
    rw [List.mem_singleton] at hn hx
    subst hn hx
    cases hp
    decide +kernel
  · rw [nested_userBits]
    intro n hn t rest hp
    rw [List.mem_singleton] at hn
    subst hn
    cases hp

theorem store_clearOperation : ∀ o ∈ operationsOf storeDoc, ∀ root, storeSchema.root o.kind = some root →
    ClearPaths storeSchema (nestedOf storeSchema root o) := by
  intro o ho root hr
  simp only [storeDoc, operationsOf, List.filterMap_cons, List.filterMap_nil, List.mem_singleton] at ho
  subst ho
  cases hr
  exact clearPaths_of (by decide +kernel) (by decide +kernel) (by decide +kernel) (by decide +kernel)

theorem store_definition {k : Kind} {n x : String} (h : DefinitionClass {} storeDoc k n x) :
    (k = .fragment ∧ n = "UserBits" ∧ x = "UserBits") ∨ (k = .query ∧ n = "Look" ∧ x = "Look") := by
  cases h with
  | fragment hf hx =>
    rw [store_fragments hf] at hx ⊢
    have : Kind.fragment.style ({} : Env) "UserBits" = .ok "UserBits" := by decide +kernel
    rw [this] at hx
    cases hx
    exact .inl ⟨rfl, rfl, rfl⟩
  | operation ho hn hx =>
    simp only [storeDoc, operationsOf, List.filterMap_cons, List.filterMap_nil, List.mem_singleton] at ho
    subst ho
    cases hn
    have : Kind.query.style ({} : Env) "Look" = .ok "Look" := by decide +kernel
    have hx : Kind.query.style ({} : Env) "Look" = .ok x := hx
    rw [this] at hx
    cases hx
    exact .inr ⟨rfl, rfl, rfl⟩

theorem store_type {k : Kind} {n x : String} (h : TypeClass { schema := storeSchema } {} {} k n x) :
    (k = .enum ∧ n = "Color" ∧ x = "Color") ∨ (k = .input ∧ n = "Filter" ∧ x = "Filter") := by
  have hin : ∀ {t : InputType}, InputOf storeSchema t → t.name = "Filter" ∧ t.directives = [] := by
    rintro t ⟨e, he, hd, _⟩
    simp only [storeSchema, List.mem_cons, Prod.mk.injEq, List.not_mem_nil, or_false] at he
    rcases he with ⟨h, rfl⟩ | ⟨h, rfl⟩ | ⟨h, rfl⟩ | ⟨h, rfl⟩ | ⟨h, rfl⟩ | ⟨h, rfl⟩ | ⟨h, rfl⟩ | ⟨h, rfl⟩ | ⟨h, rfl⟩ | ⟨h, rfl⟩ <;>
      simp only [reduceCtorEq, TypeDef.input.injEq] at hd
    exact ⟨h, hd.2.symm⟩
  cases h with
  | enum ht _ hx =>
    obtain ⟨e, he, hd, _⟩ := ht
    simp only [storeSchema, List.mem_cons, Prod.mk.injEq, List.not_mem_nil, or_false] at he
    rcases he with ⟨h, rfl⟩ | ⟨h, rfl⟩ | ⟨h, rfl⟩ | ⟨h, rfl⟩ | ⟨h, rfl⟩ | ⟨h, rfl⟩ | ⟨h, rfl⟩ | ⟨h, rfl⟩ | ⟨h, rfl⟩ | ⟨h, rfl⟩ <;>
      simp only [reduceCtorEq, TypeDef.enum.injEq] at hd
    rw [h] at hx ⊢
    have : Kind.enum.style ({} : Env) "Color" = .ok "Color" := by decide +kernel
    rw [this] at hx
    cases hx
    exact .inl ⟨rfl, rfl, rfl⟩
  | input hk hx =>
    rcases hk with ⟨t, ht, _, rfl⟩ | ⟨t, ht, _, _, ho, _⟩
    · rw [(hin ht).1] at hx ⊢
      have : Kind.input.style ({} : Env) "Filter" = .ok "Filter" := by decide +kernel
      rw [this] at hx
      cases hx
      exact .inr ⟨rfl, rfl, rfl⟩
    · rw [(hin ht).2] at ho
      exact absurd ho (by simp [OneOf])

theorem store_separate : Separate { schema := storeSchema } {} {} storeDoc where
  definitions := by
    intro k n x k' n' y h h' hne
    rcases store_definition h with ⟨rfl, rfl, rfl⟩ | ⟨rfl, rfl, rfl⟩ <;>
      rcases store_definition h' with ⟨rfl, rfl, rfl⟩ | ⟨rfl, rfl, rfl⟩ <;>
      first | exact (hne rfl).elim | decide +kernel
  types := by
    intro k n k' n' x h h'
    rcases store_type h with ⟨rfl, rfl, rfl⟩ | ⟨rfl, rfl, rfl⟩ <;>
      rcases store_type h' with ⟨rfl, rfl, h⟩ | ⟨rfl, rfl, h⟩ <;>
      first | rfl | exact absurd h (by decide)
  both := by
    intro k n x k' n' y h h'
    rcases store_definition h with ⟨rfl, rfl, rfl⟩ | ⟨rfl, rfl, rfl⟩ <;>
      rcases store_type h' with ⟨rfl, rfl, rfl⟩ | ⟨rfl, rfl, rfl⟩ <;> decide +kernel

/-- The theorem applies, to a module of fourteen classes. -/
example : ∃ ss r, moduleOf { schema := storeSchema } {} storeDoc (Reg.init {}) = .ok (ss, r) ∧
    (definedNames ss).length = 14 ∧ (definedNames ss).Nodup := by
  obtain ⟨ss, r, h, ht⟩ := module_ok (c := { schema := storeSchema }) (po := {}) (doc := storeDoc)
    (test := fun ss r => (definedNames ss).length == 14) (by decide +kernel)
  obtain ⟨a, b, x, y, r1, r2, r3, h1, h2, h3, h4, rfl⟩ := moduleOf_ok h
  exact ⟨_, r, h, by simpa using ht, C57_module_classes_partial h1 h2 h3 h4 (fun t l hl => by cases hl) (by decide +kernel)
    (by decide +kernel) store_clearFragment store_clearOperation (by decide +kernel) store_separate⟩

theorem blog_clearFragment : ∀ f ∈ fragmentsOf blogDoc, ClearFragment blogSchema f := by
  intro f hf
  have : f = userFriend := blog_fragments hf
  subst this
  have hown : ownSuffixes blogSchema userFriend = [""] := by decide +kernel
  have hnested : nestedOfFragment blogSchema userFriend = [⟨[.key "friend"], .iface "Node"⟩] := by decide +kernel
  refine ⟨?_, by rw [hown]; decide, ?_, ?_⟩
  · rw [hnested]
    exact clearPaths_of (by decide +kernel) (by decide +kernel) (by decide +kernel) (by decide +kernel)
  · rw [hnested, hown]
    intro n hn k rest hp x hx
    rw [List.mem_singleton] at hn hx
    subst hn hx
    cases hp
    decide +kernel
  · rw [hnested]
    intro n hn t rest hp
    rw [List.mem_singleton] at hn
    subst hn
    cases hp

theorem blog_clearOperation : ∀ o ∈ operationsOf blogDoc, ∀ root, blogSchema.root o.kind = some root →
    ClearPaths blogSchema (nestedOf blogSchema root o) := by
  intro o ho root hr
  simp only [blogDoc, operationsOf, List.filterMap_cons, List.filterMap_nil, List.mem_singleton] at ho
  subst ho
  cases hr
  exact clearPaths_of (by decide +kernel) (by decide +kernel) (by decide +kernel) (by decide +kernel)

theorem blog_definition {k : Kind} {n x : String} (h : DefinitionClass {} blogDoc k n x) :
    (k = .fragment ∧ n = "UserBits" ∧ x = "UserBits") ∨ (k = .query ∧ n = "Look" ∧ x = "Look") := by
  cases h with
  | fragment hf hx =>
    rw [blog_fragments hf] at hx ⊢
    have : Kind.fragment.style ({} : Env) "UserBits" = .ok "UserBits" := by decide +kernel
    rw [this] at hx
    cases hx
    exact .inl ⟨rfl, rfl, rfl⟩
  | operation ho hn hx =>
    simp only [blogDoc, operationsOf, List.filterMap_cons, List.filterMap_nil, List.mem_singleton] at ho
    subst ho
    cases hn
    have : Kind.query.style ({} : Env) "Look" = .ok "Look" := by decide +kernel
    have hx : Kind.query.style ({} : Env) "Look" = .ok x := hx
    rw [this] at hx
    cases hx
    exact .inr ⟨rfl, rfl, rfl⟩

theorem blog_separate : SeparateDefinitions {} blogDoc := by
  intro k n x k' n' y h h' hne
  rcases blog_definition h with ⟨rfl, rfl, rfl⟩ | ⟨rfl, rfl, rfl⟩ <;>
    rcases blog_definition h' with ⟨rfl, rfl, rfl⟩ | ⟨rfl, rfl, rfl⟩ <;>
    first | exact (hne rfl).elim | decide +kernel

theorem blog_bases (b : String) (hb : ConfiguredBase { schema := blogSchema } b ∨
      b ∈ ({} : FragmentsConfig).fragmentBases ++ ({} : FragmentsConfig).objectBases ∨ ∃ k, b ∈ ({} : OperationsConfig).basesFor k)
    (k : Kind) (n x : String) (h : DefinitionClass {} blogDoc k n x) : ¬ x.toList <+: (lastComponent b).toList := by
  have : b = "pydantic.BaseModel" := by
    rcases hb with (hx | hx | ⟨n, l, hl, _⟩) | hx | ⟨k, hx⟩
    · simpa using hx
    · cases hx
    · cases hl
    · cases hx
    · cases k <;> cases hx
  subst this
  rcases blog_definition h with ⟨rfl, rfl, rfl⟩ | ⟨rfl, rfl, rfl⟩ <;> decide +kernel

/-- C19, from the document alone -/
example : ∃ T, generated blogSchema blogDoc = .ok T ∧
    ∀ (leaf isa : String → Val → Prop), (∀ v, leaf "String" v → isa "str" v) → ∀ o ∈ operationsOf blogDoc,
      ∀ kvs, ObjectResult blogSchema (definitions blogDoc) leaf "Query" o.sels kvs →
        Takes T isa (.name "Look") (.obj kvs) := by
  obtain ⟨a, r, b, r', h1, h2, h3, _⟩ := generated_ok (s := blogSchema) (doc := blogDoc)
    (test := fun T => true) (by decide +kernel)
  refine ⟨a ++ b, h3, fun leaf isa hleaf o ho kvs hr => ?_⟩
  obtain ⟨name, cls, root, e1, e2, e3, _, hk⟩ := C19_document_accepted_partial (leaf := leaf) (isa := isa)
    h1 h2 ⟨rfl, rfl⟩ (by decide) (by decide +kernel) blog_valid blog_clearFragment blog_clearOperation (by decide +kernel)
    blog_separate blog_bases (blog_leaf hleaf) blog_defined blog_acyclic blog_inline blog_supportedF blog_supportedO o ho
  simp only [blogDoc, operationsOf, List.filterMap_cons, List.filterMap_nil, List.mem_singleton] at ho
  subst ho
  cases e1
  cases e3
  have : Kind.query.style ({} : Env) "Look" = .ok "Look" := by decide +kernel
  have e2 : Kind.query.style ({} : Env) "Look" = .ok cls := e2
  rw [this] at e2
  cases e2
  exact hk kvs hr

/-- C72, from the document alone -/
example : ∃ T, generated blogSchema blogDoc = .ok T ∧ ∃ cls, IsClass T cls ∧ ∀ key name sub t path,
    Picks blogSchema (definitions blogDoc) "Query" [
      ask "node" [ask "id", .spread "UserBits", .inline (some "Post") [ask "title"], ask "__typename"],
      ask "search" [.spread "UserBits", .inline (some "Post") [ask "title"], ask "__typename"]] key name sub →
    name ≠ "__typename" → FieldType blogSchema "Query" name t → Asks blogSchema (definitions blogDoc) t sub path →
    Carries T cls key fun ann => Offers T ann path := by
  obtain ⟨a, r, b, r', h1, h2, h3, _⟩ := generated_ok (s := blogSchema) (doc := blogDoc)
    (test := fun T => true) (by decide +kernel)
  refine ⟨a ++ b, h3, ?_⟩
  obtain ⟨name, cls, root, e1, _, e3, h4, hk⟩ := C72_document_kept_partial
    h1 h2 ⟨rfl, rfl⟩ (by decide) (by decide +kernel) (fieldsOnce_of (by decide +kernel)) blog_valid blog_clearFragment
    blog_clearOperation (by decide +kernel) blog_separate blog_bases blog_defined blog_acyclic blog_inline
    (by
      intro d hd
      rw [blog_fragments hd]
      exact keepableFragmentB_ok (n := 20) (by decide +kernel))
    (by
      intro o ho x hx
      simp only [blogDoc, operationsOf, List.filterMap_cons, List.filterMap_nil, List.mem_singleton] at ho
      subst ho
      have : x = "UserBits" := by
        simp only [ask] at hx
        repeat (first | (cases hx; done) | (cases hx <;> first | rfl | rename_i hx))
      subst this
      decide)
    (by
      intro o ho root hroot
      simp only [blogDoc, operationsOf, List.filterMap_cons, List.filterMap_nil, List.mem_singleton] at ho
      subst ho
      have : root = "Query" := by cases hroot; rfl
      subst this
      refine ⟨blog_query, apartB_ok (n := 20) (by decide +kernel), fun name al args sub t hm ht => ?_⟩
      have key : typedB blogSchema (keepableB { schema := blogSchema } (definitions blogDoc) 20) "Query" [
          ask "node" [ask "id", .spread "UserBits", .inline (some "Post") [ask "title"], ask "__typename"],
          ask "search" [.spread "UserBits", .inline (some "Post") [ask "title"], ask "__typename"]] = true := by
        decide +kernel
      refine keepableB_ok 20 (typedB_ok key hm ?_ ht)
      rintro rfl
      simp [ask] at hm)
    _ (List.mem_singleton.2 rfl)
  cases e3
  exact ⟨cls, h4, hk⟩

/-! ## limits -/

/-- the names defined by the module of a document -/
def moduleNames (s : Schema) (doc : Document) : Option (List String) :=
  (moduleOf { schema := s } {} doc (Reg.init {})).toOption.map fun x => boundL x.1

/-- C57, limit: `fragment Hit on Found { ... on User { post: friend { id } } }` — a key called like a member of the union. -/
theorem C57_union_fragment_counterexample :
    moduleNames treeSchema [.fragment ⟨"Hit", "Found", [.inline (some "User") [.field "friend" (some "post") [] [ask "id"]]]⟩] =
      some ["HitPost", "HitUser", "HitPost", "Hit"] := by decide +kernel

/-- C57, limit: `fragment Bits on Node { user: base { name } }` — a key called like an implementing type. -/
theorem C57_interface_fragment_counterexample :
    moduleNames treeSchema [.fragment ⟨"Bits", "Node", [.field "base" (some "user") [] [ask "name"]]⟩] = some ["BitsUser", "BitsBase", "BitsCatch", "BitsUser", "BitsPost"] := by
  decide +kernel

/-- C57, limit: `fragment LookUser on User { id } query Look { user { name } }` — a fragment called like a nested class. -/
theorem C57_across_counterexample :
    moduleNames treeSchema [.fragment ⟨"LookUser", "User", [ask "id"]⟩, .operation ⟨.query, some "Look", [], [ask "user" [ask "name"]]⟩] =
      some ["LookUser", "LookUser", "Look"] := by
  decide +kernel

/-- C57, limit: `fragment Look on User { id } query Look { user { name } }` — a fragment and an operation of the same name. -/
theorem C57_same_name_counterexample :
    moduleNames treeSchema [.fragment ⟨"Look", "User", [ask "id"]⟩, .operation ⟨.query, some "Look", [], [ask "user" [ask "name"]]⟩] =
      some ["Look", "LookUser", "Look"] := by
  decide +kernel

/-- C57, limit: `query Filter { user { id } }` — an operation called like an input type. -/
theorem C57_type_counterexample :
    moduleNames storeSchema [.operation ⟨.query, some "Filter", [], [ask "user" [ask "id"]]⟩] = some ["Color", "Filter", "FilterUser", "Filter"] := by
  decide +kernel

end Turms.Props
