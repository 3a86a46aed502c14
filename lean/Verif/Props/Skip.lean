import Verif.Lemmas.SkipLoop
import Verif.Lemmas.Compose
import Verif.Props.Evolution
import Verif.Props.SkipUnreferenced

/-! # C84: leaving out unreferenced types only removes code -/

namespace Turms.Props
open Turms Spec

/-- what is generated with the lists -/
def KeptName (s : Schema) (l le : List String) (n : String) : Prop :=
  IsScalar s n ∨ n ∈ le ∨ (∃ t, InputOf s t ∧ t.name = n ∧ Live l t) ∨
  ∃ t, InputOf s t ∧ t.name ∈ l ∧ OneOf t.directives ∧ ∃ f ∈ t.fields, n = t.name ++ upperFirst f.name

theorem inputOf_unique {s : Schema} (hn : s.types.keys.Nodup) {t t' : InputType} (h : InputOf s t) (h' : InputOf s t')
    (e : t.name = t'.name) : t = t' := by
  obtain ⟨x, hx, h1, h2⟩ := h
  obtain ⟨x', hx', h1', h2'⟩ := h'
  have a := Dict.get?_of_mem_nodup hn hx
  have b := Dict.get?_of_mem_nodup hn hx'
  rw [e, b] at a
  cases a
  rw [h1] at h1'
  cases t
  cases t'
  dsimp only at *
  cases h1'
  subst e
  subst h2
  subst h2'
  rfl

theorem enumOf_lookup {s : Schema} (hn : s.types.keys.Nodup) {t : EnumType} (h : EnumOf s t) :
    s.lookup t.name = some (.enum t.values) := by
  obtain ⟨e, he, h1, _⟩ := h
  unfold Schema.lookup
  rw [Dict.get?_of_mem_nodup hn he]
  simp [h1]

theorem isInput_of {s : Schema} {n : String} (h : IsInput s n) : ∃ t, InputOf s t ∧ t.name = n := by
  obtain ⟨fs, ds, hl⟩ := h
  unfold Schema.lookup at hl
  cases hg : s.types.get? n with
  | none => rw [hg] at hl; cases hl
  | some e =>
    rw [hg] at hl
    simp only [Option.map_some, Option.some.injEq] at hl
    exact ⟨⟨n, e.description, fs, ds⟩, ⟨e, Dict.mem_of_get? hg, hl, rfl⟩, rfl⟩

theorem trimmable_splits {s : Schema} {doc : Document} (h : Trimmable s doc) {refs : RefReg}
    (hr : createReferenceRegistry s doc = .ok refs) :
    Splits s refs.inputs refs.enums (KeptName s refs.inputs refs.enums) ∧
      (∀ n, Present s doc n → KeptName s refs.inputs refs.enums n) ∧
      (∀ n, InputLike s n → Needed s doc n → Present s doc n) := by
  obtain ⟨r1, e1, hi⟩ := C43_inputs s doc h.valid
  obtain ⟨r2, e2, hes, _, hneed, hsel⟩ := C43_leaves_partial s doc h.valid
  rw [hr] at e1 e2
  cases e1
  cases e2
  have hlive : ∀ t, Live refs.inputs t ↔ Used s doc t := by
    intro t
    unfold Live Used
    rw [hi]
    exact or_congr .rfl ⟨fun ⟨u, dn, k, a, b⟩ => ⟨u, dn, k, a, (hi u).1 b⟩, fun ⟨u, dn, k, a, b⟩ => ⟨u, dn, k, a, (hi u).2 b⟩⟩
  have hlk : ∀ t, InputOf s t → s.lookup t.name = some (.input t.fields t.directives) := fun t ht => inputOf_lookup h.keys ht
  have hwrap : ∀ t, InputOf s t → OneOf t.directives → ∀ f ∈ t.fields, s.lookup (t.name ++ upperFirst f.name) = none := by
    intro t ht ho f hf
    unfold Schema.lookup
    rw [(h.wrappers t ht ho f hf).1]
    rfl
  have hpres : ∀ n, Present s doc n → KeptName s refs.inputs refs.enums n := by
    rintro n (hs | ⟨he, hn⟩ | ⟨t, ht, rfl, hu⟩)
    · exact .inl hs
    · refine .inr (.inl ?_)
      rcases hn with hn | hn
      · exact (hneed n hn).1 he
      · exact (hsel h.flat n hn).1 he
    · exact .inr (.inr (.inl ⟨t, ht, rfl, (hlive t).2 hu⟩))
  have hlike : ∀ n, InputLike s n → Needed s doc n → Present s doc n := by
    rintro n (hs | he | hin) hn
    · exact .inl hs
    · exact .inr (.inl ⟨he, .inl hn⟩)
    · obtain ⟨t, ht, rfl⟩ := isInput_of hin
      exact .inr (.inr ⟨t, ht, rfl, .inl ⟨hin, hn⟩⟩)
  refine ⟨⟨fun t ht hl => .inr (.inr (.inl ⟨t, ht, rfl, hl⟩)), ?_, ?_, ?_, ?_, ?_, ?_, fun t _ hl => .inr (.inl hl), ?_⟩, hpres, hlike⟩
  · rintro t ht hd (hs | hs | ⟨t', ht', e, hl⟩ | ⟨t', ht', _, ho, f, hf, e⟩)
    · rw [IsScalar, hlk t ht] at hs; cases hs
    · obtain ⟨⟨vs, hv⟩, _⟩ := hes _ hs
      rw [hlk t ht] at hv; cases hv
    · rw [inputOf_unique h.keys ht' ht e] at hl; exact hd hl
    · have := hlk t ht
      rw [e, hwrap t' ht' ho f hf] at this
      cases this
  · intro t ht hl u dn k hd
    exact (hi u).2 (h.unions t ht ((hlive t).1 hl) u dn k hd)
  · intro t ht hl f hf
    rcases (hlive t).1 hl with hn | hm
    · exact hpres _ (hlike _ (h.valid.inputs _ _ _ (hlk t ht) f hf) (.field hn.2 (hlk t ht) hf))
    · exact hpres _ (h.members t ht hm f hf)
  · intro t ht hl f hf hin
    exact (hi _).2 ⟨hin, .field ((hi _).1 hl).2 (hlk t ht) hf⟩
  · intro t ht hl ho f hf
    exact .inr (.inr (.inr ⟨t, ht, hl, ho, f, hf, rfl⟩))
  · intro t ht hd ho f hf
    have hw := hwrap t ht ho f hf
    change ¬ KeptName s refs.inputs refs.enums (t.name ++ upperFirst f.name)
    rintro (hs | hs | ⟨t', ht', e, hl⟩ | ⟨t', ht', hl, ho', f', hf', e⟩)
    · rw [IsScalar, hw] at hs; cases hs
    · obtain ⟨⟨vs, hv⟩, _⟩ := hes _ hs
      rw [hw] at hv; cases hv
    · have := hlk t' ht'
      rw [e, hw] at this; cases this
    · have := (h.wrappers t ht ho f hf).2 t' ht' ho' f' hf' e.symm
      exact hd (.inl (this ▸ hl))
  · intro t ht hd
    have hl := enumOf_lookup h.keys ht
    rintro (hs | hs | ⟨t', ht', e, _⟩ | ⟨t', ht', _, ho, f, hf, e⟩)
    · rw [IsScalar, hl] at hs; cases hs
    · exact hd hs
    · have := hlk t' ht'
      rw [e, hl] at this; cases this
    · rw [e, hwrap t' ht' ho f hf] at hl; cases hl

theorem pair_refl (K : String → Prop) (prep : List Char → List Char) (r : Reg) : Pair K prep r r :=
  ⟨⟨fun _ _ => .inl trivial, fun _ _ => .inl trivial, fun _ _ => .inl trivial, fun _ _ => rfl, fun h => h.elim, fun _ _ => rfl,
    fun h => h.elim, rfl, fun _ _ => rfl, fun _ _ _ _ _ _ => trivial, rfl, rfl, rfl, fun _ _ => rfl, fun _ _ => id,
    fun _ _ => id, fun _ _ => id, rfl, fun _ _ => rfl, fun _ _ => rfl, fun _ _ => rfl, fun _ _ => rfl⟩,
   ⟨fun _ h => .inr h, fun _ h => .inr h, fun _ h => .inr h, fun _ _ => rfl, fun h => h.elim, fun _ _ => rfl,
    fun h => h.elim, rfl, fun _ _ => rfl, fun _ _ _ _ _ _ => trivial, rfl, rfl, rfl, fun _ _ => rfl, fun _ _ => id,
    fun _ _ => id, fun _ _ => id, rfl, fun _ _ => rfl, fun _ _ => rfl, fun _ _ => rfl, fun _ _ => rfl⟩⟩

/-- C84: turning on `skip_unreferenced` — for enums and for inputs — only removes code. If generation succeeds without it, it
succeeds with it; the enums and inputs that are then generated are some of those generated before, with the same statements
and in the same order; the classes and functions generated for the documents are exactly the same; and nothing more is
imported, no further helper class is defined and no further model is rebuilt. -/
theorem C84_only_removes_partial (prep : List Char → List Char) (c : Ctx) (pe : EnumsConfig) (pi : InputsConfig)
    (pf : FragmentsConfig) (po : OperationsConfig) (p : FuncsConfig) (doc : Document) (hT : Trimmable c.schema doc)
    (hpe : pe.refEnums = none) (hpi : pi.refInputs = none) {T D : List Stmt} {r r1 : Reg}
    (h1 : runPlugins (typePlugins c pe pi) (Reg.init c.env) = .ok (T, r))
    (h2 : runPlugins (documentPlugins prep c pf po p doc) r = .ok (D, r1)) :
    ∃ refs T' r' r1', createReferenceRegistry c.schema doc = .ok refs ∧
      runPlugins (typePlugins c { pe with refEnums := some refs.enums } { pi with refInputs := some refs.inputs })
        (Reg.init c.env) = .ok (T', r') ∧
      runPlugins (documentPlugins prep c pf po p doc) r' = .ok (D, r1') ∧
      T'.Sublist T ∧ (∀ x ∈ r1'.imports, x ∈ r1.imports) ∧ (∀ x ∈ r1'.builtins, x ∈ r1.builtins) ∧
      (∀ x ∈ r1'.forwardReferences, x ∈ r1.forwardReferences) := by
  obtain ⟨refs, hr, _⟩ := C43_inputs c.schema doc hT.valid
  obtain ⟨hS, hpres, hlike⟩ := trimmable_splits hT hr
  obtain ⟨E, ra, D1, he, ha, rfl⟩ := runPlugins_cons h1
  obtain ⟨I, rb, D2, hi, hb, rfl⟩ := runPlugins_cons ha
  obtain ⟨rfl, rfl⟩ := runPlugins_nil hb
  obtain ⟨E', ra', ee, hE, hP⟩ := (trim_generateEnums (prep := prep) hS hpe).run _ _ _ _ (pair_refl _ _ _) he
  obtain ⟨I', rb', ei, hI, hP⟩ := (trim_generateInputs (prep := prep) hS hpi).run _ _ _ _ hP hi
  have hdoc : ∀ N : Old, N.names = KeptName c.schema refs.inputs refs.enums → SeesDoc N c.schema doc ∧
      (∀ o ∈ operationsOf doc, ∀ v ∈ o.vars, N.names v.type.base) ∧ Steady N c c.schema p := by
    rintro N hN
    have hv : ∀ o, Defn.operation o ∈ doc → ∀ v ∈ o.vars, N.names v.type.base := fun o ho v hv => by
      rw [hN]
      exact hpres _ (hlike _ (hT.valid.variables o ho v hv) (.declared (hT.single _ ho) hv))
    refine ⟨⟨fun f hf => .inr ⟨hT.plain, hT.valid.fragments f hf, fun x hx he => ?_⟩, fun o ho root hroot => ?_,
      fun o ho v h => .inl (hv o ho v h)⟩, fun o ho => hv o (operationsOf_mem ho), .inr ⟨rfl, fun m fs ds hm hl f hf => ?_⟩⟩
    · rw [hN]
      exact hpres _ (.inr (.inl ⟨he, .inr (.fragment (hT.single _ hf) hx)⟩))
    · obtain ⟨root', e, hval⟩ := hT.valid.operations o ho
      have hroot' : rootType c.schema o.kind = some root := by
        cases hk : o.kind <;> rw [hk] at hroot <;> exact hroot
      rw [hroot'] at e
      cases e
      refine .inr ⟨hT.plain, hval, fun x hx he => ?_⟩
      rw [hN]
      exact hpres _ (.inr (.inl ⟨he, .inr (.operation (hT.single _ ho) hroot' hx)⟩))
    · rw [hN] at hm ⊢
      obtain ⟨t, ht, rfl⟩ := isInput_of ⟨fs, ds, hl⟩
      have hl' := inputOf_lookup hT.keys ht
      rw [hl] at hl'
      cases hl'
      exact Classical.byContradiction fun hn => hS.dead t ht (fun hlv => hn (hS.fields t ht hlv f hf)) hm
  have hEx : Extends c.schema c.schema := Extends.refl c.schema
  have hWb : Whole (bigOf (KeptName c.schema refs.inputs refs.enums) prep) prep :=
    ⟨fun _ => trivial, fun _ => trivial, fun _ => trivial, rfl⟩
  have hWs : Whole (smallOf (KeptName c.schema refs.inputs refs.enums) prep) prep :=
    ⟨fun _ => trivial, fun _ => trivial, fun _ => trivial, rfl⟩
  obtain ⟨d1, v1, x1⟩ := hdoc (bigOf _ prep) rfl
  obtain ⟨d2, v2, x2⟩ := hdoc (smallOf _ prep) rfl
  obtain ⟨r1', e1, _⟩ := documents_sim (s' := c.schema) hEx hP.down hWb x1 d1 v1 h2
  obtain ⟨r1'', e2, hA⟩ := documents_sim (s' := c.schema) hEx hP.up hWs x2 d2 v2 e1
  have e2' : runPlugins (documentPlugins prep c pf po p doc) r = .ok (D, r1'') := e2
  rw [h2] at e2'
  cases e2'
  refine ⟨refs, _, rb', r1', hr, runPlugins_cons_ok ee (runPlugins_cons_ok ei rfl), e1, ?_,
    fun x hx => (hA.imports x hx).resolve_left id, fun x hx => (hA.builtins x hx).resolve_left id,
    fun x hx => (hA.forwardReferences x hx).resolve_left id⟩
  exact hE.append (hI.append (.refl _))

/-! ## a schema and a document that meet the hypotheses -/

/-- `In` has a `@oneOf` field and one of a discriminated union; `Fruit` (`@oneOf`), `Tree` (a member of the discriminated
union `Plant`), `Unused` and two enums are not needed by the document -/
def trimSchema : Schema :=
  { types := [("ID", ⟨.scalar, none⟩), ("Color", ⟨.enum [{ name := "RED" }], none⟩), ("Mood", ⟨.enum [{ name := "BAD" }], none⟩),
      ("Other", ⟨.enum [{ name := "X" }], none⟩), ("Free", ⟨.enum [{ name := "Y" }], none⟩),
      ("Unused", ⟨.input [{ name := "o", type := .named "Other" }, { name := "i", type := .named "In" }] [], none⟩),
      ("In", ⟨.input [{ name := "choice", type := .named "Choice" }, { name := "pet", type := .list (.named "Pet") }] [], none⟩),
      ("Choice", ⟨.input [{ name := "a", type := .named "ID" }, { name := "c", type := .named "Color" }] [⟨"oneOf", []⟩], none⟩),
      ("Fruit", ⟨.input [{ name := "apple", type := .named "ID" }] [⟨"oneOf", []⟩], none⟩),
      ("Pet", ⟨.input [] [], none⟩),
      ("Cat", ⟨.input [{ name := "name", type := .named "ID" }, { name := "mood", type := .named "Mood" }]
        [⟨"unionElementOf", [("union", "Pet"), ("discriminator", "kind"), ("key", "CAT")]⟩], none⟩),
      ("Plant", ⟨.input [] [], none⟩),
      ("Tree", ⟨.input [{ name := "name", type := .named "ID" }]
        [⟨"unionElementOf", [("union", "Plant"), ("discriminator", "kind"), ("key", "TREE")]⟩], none⟩),
      ("Node", ⟨.object [{ name := "id", type := .nonNull (.named "ID") }, { name := "mood", type := .named "Mood" }] [], none⟩),
      ("Query", ⟨.object [{ name := "node", type := .named "Node" }] [], none⟩)]
    query := some "Query" }

/-- `query Q($i: In!) { node { id mood } }` -/
def trimDoc : Document :=
  [.operation { kind := .query, name := some "Q", vars := [{ name := "i", type := .nonNull (.named "In") }],
                sels := [.field "node" none [] [.field "id" none [] [], .field "mood" none [] []]] }]

theorem trimRefs : createReferenceRegistry trimSchema trimDoc =
    .ok { inputs := ["In", "Choice", "Pet"], enums := ["Color", "Mood"], scalars := ["ID"] } := by decide +kernel

theorem trim_inputs {t : InputType} (h : InputOf trimSchema t) : t ∈ inputTypes trimSchema := mem_inputTypes.2 h

theorem trim_types {n : String} {d : TypeDef} (h : trimSchema.lookup n = some d) :
    ∃ e, (n, e) ∈ trimSchema.types ∧ e.defn = d := by
  unfold Schema.lookup at h
  cases hg : trimSchema.types.get? n with
  | none => rw [hg] at h; cases h
  | some e =>
    rw [hg] at h
    simp only [Option.map_some, Option.some.injEq] at h
    exact ⟨e, Dict.mem_of_get? hg, h⟩

theorem trimDoc_valid : ValidDoc trimSchema trimDoc ∧ FlatDoc trimDoc := by
  have nf : ∀ n t, refFieldType (trimSchema.lookup "Node") n = .ok t → HasField trimSchema "Node" n t :=
    fun n t h => refFieldType_hasField rfl h
  constructor
  · constructor
    · intro m fs ds hl f hf
      obtain ⟨e, he, hd⟩ := trim_types hl
      simp only [trimSchema, List.mem_cons, List.not_mem_nil, or_false, Prod.mk.injEq] at he
      rcases he with ⟨_, rfl⟩ | ⟨_, rfl⟩ | ⟨_, rfl⟩ | ⟨_, rfl⟩ | ⟨_, rfl⟩ | ⟨_, rfl⟩ | ⟨_, rfl⟩ | ⟨_, rfl⟩ | ⟨_, rfl⟩ | ⟨_, rfl⟩ |
        ⟨_, rfl⟩ | ⟨_, rfl⟩ | ⟨_, rfl⟩ | ⟨_, rfl⟩ | ⟨_, rfl⟩ <;> cases hd <;>
        simp only [List.mem_cons, List.not_mem_nil, or_false] at hf
      · rcases hf with rfl | rfl
        · exact .inr (.inl ⟨_, rfl⟩)
        · exact .inr (.inr ⟨_, _, rfl⟩)
      · rcases hf with rfl | rfl
        · exact .inr (.inr ⟨_, _, rfl⟩)
        · exact .inr (.inr ⟨_, _, rfl⟩)
      · rcases hf with rfl | rfl
        · exact .inl rfl
        · exact .inr (.inl ⟨_, rfl⟩)
      · subst hf; exact .inl rfl
      · rcases hf with rfl | rfl
        · exact .inl rfl
        · exact .inr (.inl ⟨_, rfl⟩)
      · subst hf; exact .inl rfl
    · intro o ho
      simp only [trimDoc, List.mem_singleton, Defn.operation.injEq] at ho
      subst ho; simp
    · intro o ho v hv
      simp only [trimDoc, List.mem_singleton, Defn.operation.injEq] at ho
      subst ho
      simp only [List.mem_singleton] at hv
      subst hv
      exact .inr (.inr ⟨_, _, rfl⟩)
    · intro o ho
      simp only [trimDoc, List.mem_singleton, Defn.operation.injEq] at ho
      subst ho
      refine ⟨"Query", rfl, ?_⟩
      intro x hx
      simp only [List.mem_singleton] at hx
      subst hx
      refine .composite (t := .named "Node") (by decide) (refFieldType_hasField rfl rfl) (.inl ⟨_, _, rfl⟩) (by simp) ?_
      intro x hx
      simp only [List.mem_cons, List.not_mem_nil, or_false] at hx
      rcases hx with rfl | rfl
      · exact .leaf (t := .nonNull (.named "ID")) (by decide) (nf _ _ rfl) (.inl rfl)
      · exact .leaf (t := .named "Mood") (by decide) (nf _ _ rfl) (.inr ⟨_, rfl⟩)
    · intro f hf
      simp [trimDoc] at hf
  · constructor
    · intro o ho
      simp only [trimDoc, List.mem_singleton, Defn.operation.injEq] at ho
      subst ho
      refine ⟨?_, by simp⟩
      intro x hx
      simp only [List.mem_singleton] at hx
      subst hx
      refine .field fun y hy => ?_
      simp only [List.mem_cons, List.not_mem_nil, or_false] at hy
      rcases hy with rfl | rfl
      · exact .field (by simp)
      · exact .field (by simp)
    · intro f hf
      simp [trimDoc] at hf

theorem trim_meta : NoMeta trimSchema := by
  refine ⟨fun p fs is f hl hf => ?_, fun p fs is f hl hf => ?_, fun ⟨vs, h⟩ => by cases h⟩
  · obtain ⟨e, he, hd⟩ := trim_types hl
    simp only [trimSchema, List.mem_cons, List.not_mem_nil, or_false, Prod.mk.injEq] at he
    rcases he with ⟨_, rfl⟩ | ⟨_, rfl⟩ | ⟨_, rfl⟩ | ⟨_, rfl⟩ | ⟨_, rfl⟩ | ⟨_, rfl⟩ | ⟨_, rfl⟩ | ⟨_, rfl⟩ | ⟨_, rfl⟩ | ⟨_, rfl⟩ |
        ⟨_, rfl⟩ | ⟨_, rfl⟩ | ⟨_, rfl⟩ | ⟨_, rfl⟩ | ⟨_, rfl⟩ <;> cases hd <;>
        simp only [List.mem_cons, List.not_mem_nil, or_false] at hf
    · rcases hf with rfl | rfl <;> decide
    · subst hf; decide
  · obtain ⟨e, he, hd⟩ := trim_types hl
    simp only [trimSchema, List.mem_cons, List.not_mem_nil, or_false, Prod.mk.injEq] at he
    rcases he with ⟨_, rfl⟩ | ⟨_, rfl⟩ | ⟨_, rfl⟩ | ⟨_, rfl⟩ | ⟨_, rfl⟩ | ⟨_, rfl⟩ | ⟨_, rfl⟩ | ⟨_, rfl⟩ | ⟨_, rfl⟩ | ⟨_, rfl⟩ |
        ⟨_, rfl⟩ | ⟨_, rfl⟩ | ⟨_, rfl⟩ | ⟨_, rfl⟩ | ⟨_, rfl⟩ <;> cases hd

theorem trim_trimmable : Trimmable trimSchema trimDoc := by
  have hn : trimSchema.types.keys.Nodup := by decide +kernel
  have hneed : ∀ n, NeedsInput trimSchema trimDoc n ↔ n ∈ ["In", "Choice", "Pet"] := by
    intro n
    obtain ⟨r, e, h⟩ := C43_inputs trimSchema trimDoc trimDoc_valid.1
    rw [trimRefs] at e
    cases e
    exact (h n).symm
  have cases : ∀ t, InputOf trimSchema t → t ∈ inputTypes trimSchema := fun t h => mem_inputTypes.2 h
  have hdecl : ∀ t, InputOf trimSchema t → ∀ u dn k, Declares t u dn k → (t.name = "Cat" ∧ u = "Pet") ∨ (t.name = "Tree" ∧ u = "Plant") := by
    rintro t ht u dn k ⟨d, hd, h1, h2, _⟩
    have := cases t ht
    simp only [inputTypes, trimSchema, List.filterMap_cons, List.filterMap_nil, List.mem_cons, List.not_mem_nil, or_false] at this
    rcases this with rfl | rfl | rfl | rfl | rfl | rfl | rfl | rfl <;>
      simp only [List.mem_cons, List.not_mem_nil, or_false] at hd
    · subst hd; exact absurd h1 (by decide)
    · subst hd; exact absurd h1 (by decide)
    · subst hd; cases h2; exact .inl ⟨rfl, rfl⟩
    · subst hd; cases h2; exact .inr ⟨rfl, rfl⟩
  refine ⟨hn, trimDoc_valid.1, trimDoc_valid.2, trim_meta, ?_, ?_, ?_, ?_⟩
  · intro d hd
    simp only [trimDoc, List.mem_singleton] at hd
    subst hd
    exact .operation (before := []) (after := []) rfl (by simp)
  · intro t ht hu u dn k hd
    rcases hdecl t ht u dn k hd with ⟨_, rfl⟩ | ⟨hname, rfl⟩
    · exact (hneed _).2 (by decide)
    · refine absurd hu ?_
      rintro (h | ⟨u', dn', k', hd', h⟩)
      · rw [hneed, hname] at h; exact absurd h (by decide)
      · rcases hdecl t ht _ _ _ hd' with ⟨e, _⟩ | ⟨_, rfl⟩
        · rw [hname] at e; exact absurd e (by decide)
        · rw [hneed] at h; exact absurd h (by decide)
  · rintro t ht ⟨u, dn, k, hd, hu⟩ f hf
    have hname : t.name = "Cat" := by
      rcases hdecl t ht u dn k hd with ⟨h, _⟩ | ⟨_, rfl⟩
      · exact h
      · rw [hneed] at hu; exact absurd hu (by decide)
    have := cases t ht
    simp only [inputTypes, trimSchema, List.filterMap_cons, List.filterMap_nil, List.mem_cons, List.not_mem_nil, or_false] at this
    rcases this with rfl | rfl | rfl | rfl | rfl | rfl | rfl | rfl <;> first | exact absurd hname (by decide) | skip
    simp only [List.mem_cons, List.not_mem_nil, or_false] at hf
    rcases hf with rfl | rfl
    · exact .inl rfl
    · exact .inr (.inl ⟨⟨_, rfl⟩, .inr (.operation (root := "Query") (.operation (before := []) (after := []) rfl (by simp)) rfl
        (.deeper (t := .named "Node") List.mem_cons_self (by decide) (refFieldType_hasField rfl rfl) (.inl ⟨_, _, rfl⟩)
          (.field (t := .named "Mood") (List.mem_cons_of_mem _ List.mem_cons_self) (by decide) (refFieldType_hasField rfl rfl))))⟩)
  · intro t ht ho f hf
    have key : ∀ t, InputOf trimSchema t → OneOf t.directives → ∀ f ∈ t.fields,
        (t.name = "Choice" ∧ (f.name = "a" ∨ f.name = "c")) ∨ (t.name = "Fruit" ∧ f.name = "apple") := by
      rintro t ht ⟨d, hd, h1⟩ f hf
      have := cases t ht
      simp only [inputTypes, trimSchema, List.filterMap_cons, List.filterMap_nil, List.mem_cons, List.not_mem_nil, or_false] at this
      rcases this with rfl | rfl | rfl | rfl | rfl | rfl | rfl | rfl <;>
        simp only [List.mem_cons, List.not_mem_nil, or_false] at hd hf
      · rcases hf with rfl | rfl
        · exact .inl ⟨rfl, .inl rfl⟩
        · exact .inl ⟨rfl, .inr rfl⟩
      · subst hf; exact .inr ⟨rfl, rfl⟩
      · subst hd; exact absurd h1 (by decide)
      · subst hd; exact absurd h1 (by decide)
    constructor
    · rcases key t ht ho f hf with ⟨e, e' | e'⟩ | ⟨e, e'⟩ <;> rw [e, e'] <;> decide +kernel
    · intro t' ht' ho' f' hf' h
      rcases key t ht ho f hf with ⟨e, e1 | e1⟩ | ⟨e, e1⟩ <;>
        rcases key t' ht' ho' f' hf' with ⟨e', e2 | e2⟩ | ⟨e', e2⟩ <;> rw [e, e'] <;> rw [e, e1, e', e2] at h <;>
        first | rfl | exact absurd h (by decide +kernel)

/-- The theorem applies: without the option there are fifteen classes; with it seven of them (`Other`, `Free`, `Tree`, `Unused`,
`FruitApple`, `Fruit` and `Plant`) are gone, and the part of the document is the same. -/
example : ∃ T D r r1 T' r' r1', runPlugins (typePlugins { schema := trimSchema } {} {}) (Reg.init {}) = .ok (T, r) ∧
    runPlugins (documentPlugins id { schema := trimSchema } {} {} plainFuncs trimDoc) r = .ok (D, r1) ∧
    runPlugins (typePlugins { schema := trimSchema } { refEnums := some ["Color", "Mood"] } { refInputs := some ["In", "Choice", "Pet"] })
      (Reg.init {}) = .ok (T', r') ∧
    runPlugins (documentPlugins id { schema := trimSchema } {} {} plainFuncs trimDoc) r' = .ok (D, r1') ∧
    definedNames T = ["Color", "Mood", "Other", "Free", "Cat", "Tree", "Unused", "In", "ChoiceA", "ChoiceC", "Choice",
      "FruitApple", "Fruit", "Pet", "Plant"] ∧
    definedNames T' = ["Color", "Mood", "Cat", "In", "ChoiceA", "ChoiceC", "Choice", "Pet"] ∧ 0 < D.length := by
  obtain ⟨T, r, h1, t1⟩ := run_ok (ps := typePlugins { schema := trimSchema } {} {}) (r := Reg.init {})
    (test := fun t _ => t.length == 15 && definedNames t == ["Color", "Mood", "Other", "Free", "Cat", "Tree", "Unused", "In", "ChoiceA",
      "ChoiceC", "Choice", "FruitApple", "Fruit", "Pet", "Plant"]) (by decide +kernel)
  obtain ⟨T', r', h1', t1'⟩ := run_ok (ps := typePlugins { schema := trimSchema } { refEnums := some ["Color", "Mood"] }
    { refInputs := some ["In", "Choice", "Pet"] }) (r := Reg.init {})
    (test := fun t _ => definedNames t == ["Color", "Mood", "Cat", "In", "ChoiceA", "ChoiceC", "Choice", "Pet"]) (by decide +kernel)
  obtain ⟨A, rA, hA, tA⟩ := run_ok (ps := typePlugins { schema := trimSchema } {} {} ++
    documentPlugins id { schema := trimSchema } {} {} plainFuncs trimDoc) (r := Reg.init {}) (test := fun t _ => 15 < t.length) (by decide +kernel)
  obtain ⟨E, ra, A1, he, hA1, rfl⟩ := runPlugins_cons hA
  obtain ⟨I, rb, D, hi, h2, rfl⟩ := runPlugins_cons hA1
  have hx : runPlugins (typePlugins { schema := trimSchema } {} {}) (Reg.init {}) = .ok (E ++ (I ++ []), rb) :=
    runPlugins_cons_ok he (runPlugins_cons_ok hi rfl)
  rw [hx] at h1
  cases h1
  obtain ⟨refs, T2, r2, r1', hr, e1, e2, _⟩ := C84_only_removes_partial id { schema := trimSchema } {} {} {} {} plainFuncs trimDoc
    trim_trimmable rfl rfl hx h2
  rw [trimRefs] at hr
  cases hr
  rw [h1'] at e1
  cases e1
  simp only [Bool.and_eq_true, beq_iff_eq, List.length_append, List.length_nil, decide_eq_true_eq] at t1 t1' tA
  exact ⟨_, D, _, rA, T', r', r1', hx, h2, h1', e2, t1.2, t1', by omega⟩

/-! ## where it fails -/

/-- `query Q($c: Cat) { x }` where `Cat` is a member of the discriminated union `Pet`, which the document does not need -/
def petCtx : Ctx :=
  { schema := { types := [("Int", ⟨.scalar, none⟩), ("Pet", ⟨.input [] [], none⟩),
      ("Cat", ⟨.input [{ name := "lives", type := .named "Int" }]
        [⟨"unionElementOf", [("union", "Pet"), ("discriminator", "kind"), ("key", "CAT")]⟩], none⟩),
      ("Query", ⟨.object [{ name := "x", type := .named "Int" }] [], none⟩)], query := some "Query" } }
/-- the document -/
def petDoc : Document :=
  [.operation { kind := .query, name := some "Q", vars := [{ name := "c", type := .named "Cat" }], sels := [.field "x" none [] []] }]

/-- C84 is false of the code for a member of a union that is left out: its class is not only kept, it changes — the
discriminator field is gone. -/
theorem C84_dropped_union_counterexample :
    ∃ refs T r T' r', createReferenceRegistry petCtx.schema petDoc = .ok refs ∧
      runPlugins (typePlugins petCtx {} {}) (Reg.init petCtx.env) = .ok (T, r) ∧
      runPlugins (typePlugins petCtx { refEnums := some refs.enums } { refInputs := some refs.inputs })
        (Reg.init petCtx.env) = .ok (T', r') ∧ ¬ T'.Sublist T := by
  obtain ⟨T, r, h1, t1⟩ := run_ok (ps := typePlugins petCtx {} {}) (r := Reg.init petCtx.env)
    (test := fun t _ => t.map (fun s => (fieldsOf s).map (·.key)) == [["kind", "lives"], []]) (by decide +kernel)
  obtain ⟨T', r', h2, t2⟩ := run_ok (ps := typePlugins petCtx { refEnums := some [] } { refInputs := some ["Cat"] })
    (r := Reg.init petCtx.env) (test := fun t _ => t.map (fun s => (fieldsOf s).map (·.key)) == [["lives"]]) (by decide +kernel)
  refine ⟨{ inputs := ["Cat"], scalars := ["Int"] }, T, r, T', r', by decide +kernel, h1, h2, fun h => ?_⟩
  have := h.map (fun s => (fieldsOf s).map (·.key))
  rw [beq_iff_eq.1 t1, beq_iff_eq.1 t2] at this
  exact absurd this (by decide)

/-- … and when the fields of a member of a needed union need an enum nothing else needs, generation fails with the option
although it succeeds without. -/
theorem C84_member_enum_counterexample :
    ∃ refs T r, createReferenceRegistry (unionCtx "Color").schema unionDoc = .ok refs ∧
      runPlugins (typePlugins (unionCtx "Color") {} {}) (Reg.init {}) = .ok (T, r) ∧
      ∀ T' r', runPlugins (typePlugins (unionCtx "Color") { refEnums := some refs.enums } { refInputs := some refs.inputs })
        (Reg.init {}) ≠ .ok (T', r') := by
  obtain ⟨T, r, h1, _⟩ := run_ok (ps := typePlugins (unionCtx "Color") {} {}) (r := Reg.init {}) (test := fun _ _ => true)
    (by decide +kernel)
  refine ⟨{ inputs := ["U"], scalars := ["Int"] }, T, r, by decide +kernel, h1, fun T' r' h => ?_⟩
  have : (runPlugins (typePlugins (unionCtx "Color") { refEnums := some [] } { refInputs := some ["U"] }) (Reg.init {})).toOption.isNone =
    true := by decide +kernel
  rw [h] at this
  cases this

end Turms.Props
