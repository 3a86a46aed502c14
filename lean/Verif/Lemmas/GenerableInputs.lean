import Verif.Lemmas.Generable
import Verif.Lemmas.InputsLoop
import Verif.Props.Enums

/-! # The enums plugin and the inputs plugin succeed -/

namespace Turms
open Spec Props

/-- Classes named `K` of one kind were registered; nothing else changed. -/
structure Adds (kind : Kind) (K : List String) (r r' : Reg) : Prop where
  scalar : r'.scalarMap = r.scalarMap
  other : ∀ k, k ≠ kind → r'.classMap k = r.classMap k
  types : r'.fragmentTypeMap = r.fragmentTypeMap
  impl : r'.interfaceFragmentImpl = r.interfaceFragmentImpl
  members : r'.unionFragmentMembers = r.unionFragmentMembers
  ifrags : r'.interfaceFragments = r.interfaceFragments
  documents : r'.fragmentDocumentMap = r.fragmentDocumentMap
  helpers : (∀ b ∈ r.builtins, b ∈ builtinNames) → ∀ b ∈ r'.builtins, b ∈ builtinNames
  keys : ∀ n, n ∈ (r'.classMap kind).keys ↔ n ∈ (r.classMap kind).keys ∨ n ∈ K

theorem Mild.adds {kind : Kind} {r r' : Reg} (h : Mild r r') : Adds kind [] r r' :=
  ⟨h.scalar, fun k _ => h.classes k, h.types, h.impl, h.members, h.ifrags, h.documents, h.helpers, fun n => by
    rw [h.classes]; simp⟩

theorem Adds.trans {kind : Kind} {K K' : List String} {r r1 r2 : Reg} (h : Adds kind K r r1) (h2 : Adds kind K' r1 r2) :
    Adds kind (K ++ K') r r2 :=
  ⟨h2.scalar.trans h.scalar, fun k hk => (h2.other k hk).trans (h.other k hk), h2.types.trans h.types,
    h2.impl.trans h.impl, h2.members.trans h.members, h2.ifrags.trans h.ifrags, h2.documents.trans h.documents,
    fun hb => h2.helpers (h.helpers hb), fun n => by rw [h2.keys, h.keys, List.mem_append, or_assoc]⟩

theorem Adds.mild {kind : Kind} {K : List String} {r r1 r2 : Reg} (h : Adds kind K r r1) (h2 : Mild r1 r2) :
    Adds kind K r r2 := by
  have := h.trans (h2.adds (kind := kind)); rwa [List.append_nil] at this

theorem Mild.then {kind : Kind} {K : List String} {r r1 r2 : Reg} (h : Mild r r1) (h2 : Adds kind K r1 r2) :
    Adds kind K r r2 := (h.adds (kind := kind)).trans h2

theorem Adds.keys_iff {kind : Kind} {K : List String} {r r' : Reg} (h : Adds kind K r r') (n : String) :
    n ∈ (r'.classMap kind).keys ↔ n ∈ (r.classMap kind).keys ∨ n ∈ K := h.keys n

/-- registering a class under a fresh name succeeds -/
theorem generateClass_go {env : Env} (hs : Stylable env) {kind : Kind} {n : String} (hn : n ≠ "") {r : Reg}
    (hf : n ∉ (r.classMap kind).keys) :
    ∃ cls, Kind.style kind env n = .ok cls ∧ generateClass env kind n r = .ok (cls, r.setClass kind n cls) ∧
      Adds kind [n] r (r.setClass kind n cls) := by
  obtain ⟨cls, _, hc⟩ := hs.classes kind n hn
  refine ⟨cls, hc, ?_, ?_⟩
  · unfold generateClass
    have : (r.classMap kind).contains n = false := by
      cases h : (r.classMap kind).contains n with
      | false => rfl
      | true => exact absurd ((Dict.contains_iff _ _).1 h) hf
    rw [this, hc]; rfl
  · refine ⟨by cases kind <;> rfl, fun k hk => ?_, by cases kind <;> rfl, by cases kind <;> rfl, by cases kind <;> rfl,
      by cases kind <;> rfl, by cases kind <;> rfl, by cases kind <;> exact id, fun m => ?_⟩
    · rw [classMap_setClass, if_neg (Ne.symm hk)]
    · rw [classMap_setClass, if_pos rfl, Dict.mem_keys_set]; simp [or_comm]

/-! ## Enums -/

theorem enumLoop_go {c : Ctx} (hs : Stylable c.env) {p : EnumsConfig} (ts : List EnumType) : ∀ {r : Reg},
    (ts.map (·.name)).Nodup → (∀ t ∈ ts, t.name ≠ "" ∧ t.name ∉ (r.classMap .enum).keys) →
    ∃ ss r' K, enumLoop c p ts r = .ok (ss, r') ∧ Adds .enum K r r' ∧ ∀ t ∈ ts, EnumKept p t.name → t.name ∈ K := by
  induction ts with
  | nil => exact fun _ _ => ⟨_, _, [], rfl, Mild.refl.adds, by simp⟩
  | cons t ts ih =>
    intro r hn hf
    rw [List.map_cons, List.nodup_cons] at hn
    have step : ∃ s r1 K, enumStep c p t r = .ok (s, r1) ∧ Adds .enum K r r1 ∧ (∀ k ∈ K, k = t.name) ∧
        (EnumKept p t.name → t.name ∈ K) := by
      unfold enumStep
      have skip : ∀ b : ¬ EnumKept p t.name, ∃ s r1 K, (pure [] : Gen (List Stmt)) r = .ok (s, r1) ∧ Adds .enum K r r1 ∧
          (∀ k ∈ K, k = t.name) ∧ (EnumKept p t.name → t.name ∈ K) :=
        fun b => ⟨_, _, [], rfl, Mild.refl.adds, by simp, fun h => absurd h b⟩
      split
      · rename_i h; exact skip (by rw [enumKept_iff]; simp [h])
      · split
        · rename_i h; exact skip (by rw [enumKept_iff, h]; simp)
        · split
          · rename_i h; exact skip (by rw [enumKept_iff, h]; simp)
          · obtain ⟨cls, _, hg, ha⟩ := generateClass_go hs (kind := .enum) (hf t (by simp)).1 (hf t (by simp)).2
            exact ⟨_, _, [t.name], Gen.bind_ok.2 ⟨_, _, hg, rfl⟩, ha, by simp, by simp⟩
    obtain ⟨s, r1, K1, h1, a1, k1, e1⟩ := step
    obtain ⟨ss, r2, K2, h2, a2, e2⟩ := ih (r := r1) hn.2 (fun t' ht' => ⟨(hf t' (by simp [ht'])).1, fun hm => by
      rcases (a1.keys _).1 hm with hm | hm
      · exact (hf t' (by simp [ht'])).2 hm
      · exact hn.1 (List.mem_map.2 ⟨t', ht', k1 _ hm⟩)⟩)
    refine ⟨s ++ ss, r2, K1 ++ K2, Gen.bind_ok.2 ⟨_, _, h1, Gen.bind_ok.2 ⟨_, _, h2, rfl⟩⟩, a1.trans a2, ?_⟩
    intro t' ht' hk
    rcases List.mem_cons.1 ht' with rfl | ht'
    · exact List.mem_append_left _ (e1 hk)
    · exact List.mem_append_right _ (e2 t' ht' hk)

theorem generateEnums_go {c : Ctx} (hs : Stylable c.env) (hne : "" ∉ c.schema.types.keys)
    (hn : c.schema.types.keys.Nodup) {p : EnumsConfig} {r : Reg} (hr : r.enumMap = []) :
    ∃ ss r' K, generateEnums c p r = .ok (ss, r') ∧ Adds .enum K r r' ∧
      ∀ t, EnumOf c.schema t → EnumKept p t.name → t.name ∈ K := by
  obtain ⟨_, r1, h1, m1, _⟩ := go_registerImport (n := "enum.Enum") (r := r)
  have hk : (r1.classMap .enum).keys = [] := by rw [m1.classes]; show r.enumMap.keys = []; rw [hr]; rfl
  obtain ⟨ss, r2, K, h2, a2, e2⟩ := enumLoop_go hs (p := p) (enumTypes c.schema) (r := r1) (enumTypes_nodup hn)
    (fun t ht => ⟨by
      obtain ⟨e, he, _⟩ := mem_enumTypes.1 ht
      intro h0
      exact hne (h0 ▸ List.mem_map.2 ⟨_, he, rfl⟩), by rw [hk]; simp⟩)
  exact ⟨ss, r2, K, Gen.bind_ok.2 ⟨_, _, h1, h2⟩, m1.then a2, fun t ht => e2 t (mem_enumTypes.2 ht)⟩

/-! ## Fields of inputs -/

/-- the type of the field is available to the class `cls` -/
def FieldReady (c : Ctx) (r : Reg) (cls n : String) : Prop :=
  (c.schema.lookup n = some .scalar ∧ ∃ p, r.scalarMap.get? n = some p) ∨
  (∃ fs ds, c.schema.lookup n = some (.input fs ds)) ∨
  (∃ vs, c.schema.lookup n = some (.enum vs) ∧ (c.config.forcePluginOrder = false ∨ n ∈ builtinNames ∨
    (r.enumMap.contains n = true ∧ ∀ m, Kind.style .enum c.env n = .ok m → cls ≠ m)))

theorem FieldReady.of_maps {c : Ctx} {r r' : Reg} {cls n : String} (h : FieldReady c r cls n)
    (hs : r'.scalarMap = r.scalarMap) (he : r'.enumMap = r.enumMap) : FieldReady c r' cls n := by
  unfold FieldReady at *
  rw [hs, he]; exact h

theorem FieldReady.mild {c : Ctx} {r r' : Reg} {cls n : String} (h : FieldReady c r cls n) (m : Mild r r') :
    FieldReady c r' cls n := h.of_maps m.scalar (m.classes .enum)

theorem lookup_ne_empty {s : Schema} (hne : "" ∉ s.types.keys) {n : String} {d : TypeDef} (h : s.lookup n = some d) :
    n ≠ "" := by
  rintro rfl
  obtain ⟨desc, h⟩ := types_of_lookup h
  exact hne ((Dict.get?_isSome_iff _ _).1 (by rw [h]; rfl))

section
variable {c : Ctx} (hs : Stylable c.env) (hne : "" ∉ c.schema.types.keys)
include hs hne

theorem go_inputLeaf {cls n : String} {r : Reg} (h : FieldReady c r cls n) : Go (inputLeaf c cls n) r := by
  unfold inputLeaf
  rcases h with ⟨hl, p, hp⟩ | ⟨fs, ds, hl⟩ | ⟨vs, hl, h⟩
  · simp only [hl]; exact go_referenceScalar hp
  · simp only [hl]; exact go_referenceInput hs (lookup_ne_empty hne hl)
  · simp only [hl]
    refine go_referenceEnum hs (lookup_ne_empty hne hl) ?_
    rcases h with h | h | h
    · left; simp [h]
    · exact .inr (.inl h)
    · exact .inr (.inr h)

theorem go_inputAnnotation {cls : String} (t : TypeNode) : ∀ {o : Bool} {r : Reg}, FieldReady c r cls t.base →
    Go (inputAnnotation c cls t o) r := by
  induction t with
  | named n => intro o r h; unfold inputAnnotation; exact (go_inputLeaf hs hne h).bind fun _ _ _ _ => go_optionalWrap
  | list t ih =>
    intro o r h; unfold inputAnnotation listImport
    exact go_registerImport.bind fun _ _ m _ => (ih (h.mild m)).bind fun _ _ _ _ => go_optionalWrap
  | nonNull t ih => intro o r h; unfold inputAnnotation; exact ih h

omit hs hne in
theorem go_inputFieldValue {a b : String} {o : Bool} {d : Option String} {r : Reg} : Go (inputFieldValue a b o d) r := by
  unfold inputFieldValue
  dsimp only
  split
  · exact .ret
  · exact go_registerImport.bind fun _ _ _ _ => .ret

theorem go_inputFieldStmts {cls : String} {f : InputFieldDef} {r : Reg} (h : FieldReady c r cls f.type.base) :
    Go (inputFieldStmts c cls f) r := by
  unfold inputFieldStmts
  refine (go_nodeName hs).bind fun _ _ m _ => ?_
  dsimp only
  refine Go.bind (P := fun _ => True) ?_ fun _ _ _ _ => go_annotateFieldMetadata.bind fun _ _ _ _ =>
    go_inputFieldValue.bind fun _ _ _ _ => ?_
  · unfold inputFieldAnnotation
    exact (go_inputAnnotation hs hne _ (h.mild m)).bind fun _ _ _ _ => go_optionalWrap
  · split <;> exact .ret

theorem go_inputFields {cls : String} {skip : List String} (fs : List InputFieldDef) : ∀ {r : Reg},
    (∀ f ∈ fs, FieldReady c r cls f.type.base) → Go (inputFields c cls skip fs) r := by
  induction fs with
  | nil => intro r _; exact .ret
  | cons f fs ih =>
    intro r h
    unfold inputFields
    refine (go_nodeName hs).bind fun _ _ m _ => ?_
    split
    · exact ih fun f hf => (h f (by simp [hf])).mild m
    · exact (go_inputFieldStmts hs hne ((h f (by simp)).mild m)).bind fun _ _ m2 _ =>
        (ih fun f hf => ((h f (by simp [hf])).mild m).mild m2).bind fun _ _ _ _ => .ret

omit hs hne in
theorem go_discriminatorStmts (ds : List Discriminator) : ∀ {r : Reg}, Go (discriminatorStmts ds) r := by
  induction ds with
  | nil => exact .ret
  | cons d ds ih =>
    intro r; unfold discriminatorStmts
    exact go_registerImport.bind fun _ _ _ _ => go_registerImport.bind fun _ _ _ _ => ih.bind fun _ _ _ _ => .ret

theorem go_generateInputType {p : InputsConfig} {cls tn : String} {desc : Option String} {fs : List InputFieldDef}
    {ds : List Discriminator} {r : Reg} (h : ∀ f ∈ fs, FieldReady c r cls f.type.base) :
    Go (generateInputType c p cls tn desc fs ds) r := by
  unfold generateInputType
  refine go_additionalBasesFor.bind fun _ _ m _ => (go_discriminatorStmts _).bind fun _ _ m2 _ =>
    (go_inputFields hs hne _ fun f hf => ((h f hf).mild m).mild m2).bind fun _ _ _ _ => ?_
  dsimp only
  exact go_generatePydanticConfig.bind fun _ _ _ _ => .ret
end

/-! ## `@unionElementOf` -/

theorem membershipsOf_go {c : Ctx} {pe : EnumsConfig} {p : InputsConfig} (hg : GenerableInputs c pe p) {t : InputType}
    (ht : InputOf c.schema t) (ds : List DirectiveUse) : ∀ {discr : Dict String},
    (∀ d ∈ ds, d ∈ t.directives) →
    (∀ u dn, discr.get? u = some dn → ∃ t' k, InputOf c.schema t' ∧ Declares t' u dn k) →
    ∃ ms discr', membershipsOf p.refInputs t.name ds discr = .ok (ms, discr') ∧
      (∀ u dn, discr'.get? u = some dn → ∃ t' k, InputOf c.schema t' ∧ Declares t' u dn k) := by
  induction ds with
  | nil => exact fun _ hi => ⟨_, _, rfl, hi⟩
  | cons d ds ih =>
    intro discr hd hi
    have hd' : ∀ d ∈ ds, d ∈ t.directives := fun x hx => hd x (by simp [hx])
    unfold membershipsOf
    split
    · exact ih hd' hi
    · rename_i hname
      have hname : d.name = "unionElementOf" := by simpa using hname
      obtain ⟨u, dn, k, hu, hdn, hk⟩ := hg.complete t ht d (hd d (by simp)) hname
      have hdec : Declares t u dn k := ⟨d, hd d (by simp), hname, hu, hdn, hk⟩
      simp only [hu, hdn, hk]
      split
      · exact ih hd' hi
      · rename_i hr
        have hr : Referenced p u := by
          rw [unref_iff, Classical.not_not] at hr; exact hr
        cases hdi : discr.get? u with
        | some dn' =>
          dsimp only
          obtain ⟨t', k', ht', hdec'⟩ := hi u dn' hdi
          obtain rfl := hg.agree t t' u dn dn' k k' ht ht' hr hdec hdec'
          rw [if_neg (by simp)]
          obtain ⟨ms, discr', he, hi'⟩ := ih hd' hi
          rw [he]
          exact ⟨_, _, rfl, hi'⟩
        | none =>
          dsimp only
          obtain ⟨ms, discr', he, hi'⟩ := ih (discr := discr.set u dn) hd' (by
            intro u' dn' hh
            rw [Dict.get?_set] at hh
            split at hh
            · rename_i he
              subst he
              cases hh
              exact ⟨t, k, ht, hdec⟩
            · exact hi u' dn' hh)
          rw [he]
          exact ⟨_, _, rfl, hi'⟩

theorem collectDiscriminators_go {tn : String} {D : String → String → Prop} (hD : ∀ dn k k', D dn k → D dn k' → k = k')
    (ms : List Membership) : ∀ {acc : Dict String}, (∀ m ∈ ms, D m.discriminator m.key) →
    (∀ dn k, acc.get? dn = some k → D dn k) → ∃ acc', collectDiscriminators tn ms acc = .ok acc' := by
  induction ms with
  | nil => exact fun _ _ => ⟨_, rfl⟩
  | cons m ms ih =>
    intro acc hm ha
    have h1 := hm m (by simp)
    have hrec : ∃ acc', collectDiscriminators tn ms (acc.set m.discriminator m.key) = .ok acc' := by
      refine ih (fun m hm' => hm m (by simp [hm'])) fun dn k hh => ?_
      rw [Dict.get?_set] at hh
      split at hh
      · rename_i he; subst he; cases hh; exact h1
      · exact ha dn k hh
    unfold collectDiscriminators
    cases hd : acc.get? m.discriminator with
    | none => exact hrec
    | some v =>
      dsimp only
      rw [hD _ _ _ (ha _ _ hd) h1, if_neg (by simp)]
      exact hrec

/-! ## The loops of the inputs plugin -/

/-- the keys under which classes may be registered for `t` -/
def keysOf (t : InputType) : List String :=
  t.name :: (if isOneof t.directives then t.fields.map fun f => t.name ++ upperFirst f.name else [])

/-- the scalars and the enums the fields need are there -/
structure Leaves (c : Ctx) (pe : EnumsConfig) (r : Reg) : Prop where
  scalars : ∀ n, ScalarKnown c.env n → ∃ p, r.scalarMap.get? n = some p
  enums : ∀ n vs, c.schema.lookup n = some (.enum vs) → EnumKept pe n → r.enumMap.contains n = true

theorem Leaves.adds {c : Ctx} {pe : EnumsConfig} {K : List String} {r r' : Reg} (h : Leaves c pe r)
    (a : Adds .input K r r') : Leaves c pe r' := by
  have he : r'.enumMap = r.enumMap := a.other .enum (by decide)
  exact ⟨fun n hn => by rw [a.scalar]; exact h.scalars n hn, fun n vs hl hk => by rw [he]; exact h.enums n vs hl hk⟩

theorem Leaves.mild {c : Ctx} {pe : EnumsConfig} {r r' : Reg} (h : Leaves c pe r)
    (a : Mild r r') : Leaves c pe r' := h.adds (a.adds (kind := .input))

theorem Leaves.ready {c : Ctx} {pe : EnumsConfig} {p : InputsConfig} {r : Reg} (h : Leaves c pe r)
    (hg : GenerableInputs c pe p) {t : InputType} (ht : InputOf c.schema t) (hsel : SelectedInput p t) {f : InputFieldDef}
    (hf : f ∈ t.fields) {k cls : String} (hk : k = t.name ∨ (OneOf t.directives ∧ k = t.name ++ upperFirst f.name))
    (hc : Kind.style .input c.env k = .ok cls) : FieldReady c r cls f.type.base := by
  rcases hg.fields t ht hsel f hf with ⟨h1, h2⟩ | h1 | ⟨vs, h1, h2⟩
  · exact .inl ⟨h1, h.scalars _ h2⟩
  · exact .inr (.inl h1)
  · refine .inr (.inr ⟨vs, h1, ?_⟩)
    rcases h2 with h2 | h2 | h2
    · exact .inl h2
    · exact .inr (.inl h2)
    · cases hfo : c.config.forcePluginOrder with
      | false => exact .inl rfl
      | true =>
        refine .inr (.inr ⟨h.enums _ vs h1 h2, fun m hm he => ?_⟩)
        subst he
        exact hg.distinct hfo t ht hsel f hf ⟨vs, h1⟩ k hk (hm.trans hc.symm)

theorem input_ne_empty {s : Schema} (hne : "" ∉ s.types.keys) {t : InputType} (ht : InputOf s t) : t.name ≠ "" := by
  obtain ⟨e, he, _⟩ := ht
  intro h0
  exact hne (h0 ▸ List.mem_map.2 ⟨_, he, rfl⟩)

section
variable {c : Ctx} (hs : Stylable c.env) (hne : "" ∉ c.schema.types.keys) {pe : EnumsConfig} {p : InputsConfig}
  (hg : GenerableInputs c pe p)
include hs hne hg

theorem prePassStep_go {t : InputType} (ht : InputOf c.schema t) {acc : PrePass} {r : Reg} (hl : Leaves c pe r)
    (hi : ∀ u dn, acc.discriminators.get? u = some dn → ∃ t' k, InputOf c.schema t' ∧ Declares t' u dn k)
    (hf : t.name ∉ (r.classMap .input).keys) :
    ∃ acc' r' K, prePassStep c p t acc r = .ok (acc', r') ∧ Adds .input K r r' ∧
      (∀ u dn, acc'.discriminators.get? u = some dn → ∃ t' k, InputOf c.schema t' ∧ Declares t' u dn k) ∧
      (∀ k, k ∈ acc'.memberTypes ↔ k ∈ acc.memberTypes ∨ k ∈ K) ∧ (∀ k ∈ K, k = t.name) ∧
      (IsMember p t → t.name ∈ K) := by
  obtain ⟨ms, discr', hm, hi'⟩ := membershipsOf_go hg ht t.directives (fun _ h => h) hi
  obtain ⟨m1, _⟩ := membershipsOf_ok hm
  have e1 : Gen.lift (membershipsOf p.refInputs t.name t.directives acc.discriminators) r = .ok ((ms, discr'), r) := by
    rw [hm]; rfl
  unfold prePassStep
  by_cases hms : ms.isEmpty = true
  · refine ⟨{ acc with discriminators := discr' }, r, [], Gen.bind_ok.2 ⟨_, _, e1, ?_⟩, Mild.refl.adds, hi', by simp,
      by simp, ?_⟩
    · simp only [hms, if_true]; rfl
    · rintro ⟨u, dn, k, hd, hr⟩
      have := (m1 u dn k).2 ⟨hd, hr⟩
      rw [List.isEmpty_iff] at hms
      rw [hms] at this; simp at this
  · have hmem : IsMember p t := by
      cases ms with
      | nil => simp at hms
      | cons m ms =>
        obtain ⟨u, dn, k⟩ := m
        exact ⟨u, dn, k, (m1 u dn k).1 (by simp)⟩
    obtain ⟨ds, hds⟩ := collectDiscriminators_go (tn := t.name)
      (D := fun dn k => ∃ u, Declares t u dn k ∧ Referenced p u)
      (fun dn k k' ⟨u, h1, h2⟩ ⟨u', h1', h2'⟩ => hg.keys t u u' dn k k' ht h2 h2' h1 h1') ms (acc := [])
      (fun m hm => by obtain ⟨u, dn, k⟩ := m; exact ⟨u, (m1 u dn k).1 hm⟩) (fun dn k h => by simp [Dict.get?] at h)
    obtain ⟨cls, hst, hcl, ha⟩ := generateClass_go hs (input_ne_empty hne ht) hf
    obtain ⟨stm, r2, h2, m2, _⟩ := go_generateInputType hs hne (p := p) (cls := cls) (tn := t.name) (desc := t.description)
      (fs := t.fields) (ds := ds.map fun d => ⟨d.1, d.2⟩) (r := r.setClass .input t.name cls)
      (fun f hf => (hl.adds ha).ready hg ht (.inl hmem) hf (.inl rfl) hst)
    refine ⟨{ unionTypes := ms.foldl (fun u m => addMember u m.union cls) acc.unionTypes
              discriminators := discr'
              memberTypes := setAdd acc.memberTypes t.name
              tree := acc.tree ++ [stm] }, r2, [t.name], Gen.bind_ok.2 ⟨_, _, e1, ?_⟩, ha.mild m2, hi', ?_, by simp, by simp⟩
    · simp only [hms]
      refine Gen.bind_ok.2 ⟨ds, r, by rw [hds]; rfl, Gen.bind_ok.2 ⟨_, _, hcl, Gen.bind_ok.2 ⟨_, _, h2, rfl⟩⟩⟩
    · intro k; rw [mem_setAdd]; simp

theorem prePass_go (ts : List InputType) : ∀ {acc : PrePass} {r : Reg}, (∀ t ∈ ts, InputOf c.schema t) →
    (ts.map (·.name)).Nodup → Leaves c pe r →
    (∀ u dn, acc.discriminators.get? u = some dn → ∃ t' k, InputOf c.schema t' ∧ Declares t' u dn k) →
    (∀ t ∈ ts, t.name ∉ (r.classMap .input).keys) →
    ∃ acc' r' K, prePass c p ts acc r = .ok (acc', r') ∧ Adds .input K r r' ∧
      (∀ k, k ∈ acc'.memberTypes ↔ k ∈ acc.memberTypes ∨ k ∈ K) ∧ (∀ k ∈ K, ∃ t ∈ ts, k = t.name) ∧
      (∀ t ∈ ts, IsMember p t → t.name ∈ K) := by
  induction ts with
  | nil => intro acc r _ _ _ _ _; exact ⟨acc, r, [], rfl, Mild.refl.adds, by simp, by simp, by simp⟩
  | cons t ts ih =>
    intro acc r ht hn hl hi hf
    rw [List.map_cons, List.nodup_cons] at hn
    obtain ⟨acc1, r1, K1, h1, a1, i1, mt1, k1, im1⟩ := prePassStep_go hs hne hg (ht t (by simp)) hl hi (hf t (by simp))
    obtain ⟨acc2, r2, K2, h2, a2, mt2, k2, im2⟩ := ih (fun t' h => ht t' (by simp [h])) hn.2 (hl.adds a1) i1
      (fun t' ht' hm => by
        rcases (a1.keys _).1 hm with hm | hm
        · exact hf t' (by simp [ht']) hm
        · exact hn.1 (List.mem_map.2 ⟨t', ht', k1 _ hm⟩))
    refine ⟨acc2, r2, K1 ++ K2, Gen.bind_ok.2 ⟨_, _, h1, h2⟩, a1.trans a2, ?_, ?_, ?_⟩
    · intro k; rw [mt2, mt1, List.mem_append, or_assoc]
    · intro k hk
      rcases List.mem_append.1 hk with hk | hk
      · exact ⟨t, by simp, k1 k hk⟩
      · obtain ⟨t', ht', he⟩ := k2 k hk; exact ⟨t', by simp [ht'], he⟩
    · intro t' ht' hm
      rcases List.mem_cons.1 ht' with rfl | ht'
      · exact List.mem_append_left _ (im1 hm)
      · exact List.mem_append_right _ (im2 t' ht' hm)

theorem oneofWrapper_go {t : InputType} (ht : InputOf c.schema t) (hk : Kept p t.name) (ho : OneOf t.directives)
    {f : InputFieldDef} (hf : f ∈ t.fields) {extra : List Expr} {r : Reg} (hl : Leaves c pe r)
    (hfr : t.name ++ upperFirst f.name ∉ (r.classMap .input).keys) :
    ∃ w r', oneofWrapper c p t.name extra f r = .ok (w, r') ∧ Adds .input [t.name ++ upperFirst f.name] r r' := by
  have hne' : t.name ++ upperFirst f.name ≠ "" := by
    intro h0
    exact input_ne_empty hne ht (String.append_eq_empty_iff.1 h0).1
  obtain ⟨cls, hst, hcl, ha⟩ := generateClass_go hs hne' hfr
  have hcl' : generateClass c.env .input (t.name ++ pascal f.name) r = .ok (cls, r.setClass .input (t.name ++ upperFirst f.name) cls) := hcl
  have body : Go (do
      let fieldName ← nodeName c.env f.name
      let a ← inputAnnotation c cls f.type false
      let a ← annotateFieldMetadata c.env a none f.deprecation
      let v ← inputFieldValue fieldName f.name false f.description
      let cfg ← generatePydanticConfig c .input (some t.name)
      pure (cls, Stmt.classDef cls (extra ++ baseNames p.bases)
        ([.expr (.str (if truthy f.description then f.description.getD ""
            else "'" ++ f.name ++ "' variant of the @oneOf input '" ++ t.name ++ "'")),
          .annAssign fieldName a v] ++ cfg) []) : Gen (String × Stmt)) (r.setClass .input (t.name ++ upperFirst f.name) cls) :=
    (go_nodeName hs).bind fun _ _ m _ => (go_inputAnnotation hs hne _
      ((hl.adds (ha.mild m)).ready hg ht (.inr hk) hf (.inr ⟨ho, rfl⟩) hst)).bind fun _ _ _ _ =>
        go_annotateFieldMetadata.bind fun _ _ _ _ => go_inputFieldValue.bind fun _ _ _ _ =>
        go_generatePydanticConfig.bind fun _ _ _ _ => .ret
  obtain ⟨w, r2, h2, m2, _⟩ := body
  refine ⟨w, r2, ?_, ha.mild m2⟩
  unfold oneofWrapper
  rw [hcl']
  exact h2

theorem oneofWrappers_go {t : InputType} (ht : InputOf c.schema t) (hk : Kept p t.name) (ho : OneOf t.directives)
    {extra : List Expr} (fs : List InputFieldDef) : ∀ {r : Reg}, (∀ f ∈ fs, f ∈ t.fields) →
    (fs.map fun f => t.name ++ upperFirst f.name).Nodup → Leaves c pe r →
    (∀ f ∈ fs, t.name ++ upperFirst f.name ∉ (r.classMap .input).keys) →
    ∃ ws r', oneofWrappers c p t.name extra fs r = .ok (ws, r') ∧
      Adds .input (fs.map fun f => t.name ++ upperFirst f.name) r r' := by
  induction fs with
  | nil => intro r _ _ _ _; exact ⟨[], r, rfl, Mild.refl.adds⟩
  | cons f fs ih =>
    intro r hsub hn hl hf
    rw [List.map_cons, List.nodup_cons] at hn
    obtain ⟨w, r1, h1, a1⟩ := oneofWrapper_go hs hne hg ht hk ho (extra := extra) (hsub f (by simp)) hl (hf f (by simp))
    obtain ⟨ws, r2, h2, a2⟩ := ih (fun f h => hsub f (by simp [h])) hn.2 (hl.adds a1) (fun f' hf' hm => by
      rcases (a1.keys _).1 hm with hm | hm
      · exact hf f' (by simp [hf']) hm
      · rw [List.mem_singleton] at hm
        exact hn.1 (List.mem_map.2 ⟨f', hf', hm⟩))
    exact ⟨w :: ws, r2, Gen.bind_ok.2 ⟨_, _, h1, Gen.bind_ok.2 ⟨_, _, h2, rfl⟩⟩, a1.trans a2⟩

theorem generateOneofWrapperInput_go {t : InputType} (ht : InputOf c.schema t) (hk : Kept p t.name)
    (ho : OneOf t.directives) {r : Reg} (hl : Leaves c pe r) (hn : (keysOf t).Nodup)
    (hf : ∀ k ∈ keysOf t, k ∉ (r.classMap .input).keys) :
    ∃ ws r' K, generateOneofWrapperInput c p t.name t.fields r = .ok (ws, r') ∧ Adds .input K r r' ∧
      (∀ k ∈ K, k ∈ keysOf t) ∧ t.name ∈ K := by
  have hko : keysOf t = t.name :: t.fields.map fun f => t.name ++ upperFirst f.name := by
    unfold keysOf; rw [if_pos ((isOneof_iff _).2 ho)]
  rw [hko, List.nodup_cons] at hn
  obtain ⟨ex, r0, h0, m0, _⟩ := go_additionalBasesFor (c := c) (n := t.name) (r := r)
  obtain ⟨ws, r1, h1, a1⟩ := oneofWrappers_go hs hne hg ht hk ho (extra := ex) t.fields (r := r0) (fun _ h => h) hn.2
    (hl.mild m0) (fun f hf' => by
      rw [m0.classes]
      exact hf _ (by rw [hko]; exact List.mem_cons_of_mem _ (List.mem_map.2 ⟨f, hf', rfl⟩)))
  obtain ⟨cls, _, h2, a2⟩ := generateClass_go hs (kind := .input) (n := t.name) (r := r1) (input_ne_empty hne ht) (fun hm => by
    rcases (a1.keys _).1 hm with hm | hm
    · rw [m0.classes] at hm
      exact hf _ (by rw [hko]; exact List.mem_cons_self) hm
    · exact hn.1 hm)
  have hgo : ∀ r, Go (generateUnionAlias cls (ws.map (·.1))) r := by
    intro r
    unfold generateUnionAlias
    split
    · exact .ret
    · exact go_registerImport.bind fun _ _ _ _ => .ret
  obtain ⟨al, r3, h3, m3, _⟩ := hgo (r1.setClass .input t.name cls)
  refine ⟨_, r3, _, Gen.bind_ok.2 ⟨_, _, h0, Gen.bind_ok.2 ⟨_, _, h1, Gen.bind_ok.2 ⟨_, _, h2,
    Gen.bind_ok.2 ⟨_, _, h3, rfl⟩⟩⟩⟩, m0.then ((a1.trans a2).mild m3), ?_, by simp⟩
  intro k hk'
  rw [hko]
  rcases List.mem_append.1 hk' with hk' | hk'
  · exact List.mem_cons_of_mem _ hk'
  · rw [List.mem_singleton] at hk'; rw [hk']; exact List.mem_cons_self

theorem mainStep_go {pre : PrePass} {t : InputType} (ht : InputOf c.schema t) {r : Reg} (hl : Leaves c pe r)
    (hn : (keysOf t).Nodup)
    (hf : t.name ∉ pre.memberTypes → ∀ k ∈ keysOf t, k ∉ (r.classMap .input).keys) :
    ∃ ss d r' K, mainStep c p pre t r = .ok ((ss, d), r') ∧ Adds .input K r r' ∧ (∀ k ∈ K, k ∈ keysOf t) ∧
      (∀ x, d = some x → x.1 = t.name ∧ K = [] ∧ t.name ∉ pre.memberTypes ∧ OneOf t.directives ∧
        directMembers c p t = some x.2) ∧
      (t.name ∉ pre.memberTypes → Kept p t.name → t.name ∈ K ∨ ∃ x, d = some x) := by
  unfold mainStep
  split
  · rename_i hm
    exact ⟨[], none, r, [], rfl, Mild.refl.adds, by simp, by simp, fun h => absurd (by simpa using hm) h⟩
  · rename_i hm
    have hm : t.name ∉ pre.memberTypes := by simpa using hm
    have hf := hf hm
    split
    · rename_i hu
      exact ⟨[], none, r, [], rfl, Mild.refl.adds, by simp, by simp, fun _ h => absurd h.1 ((unref_iff _ _).1 hu)⟩
    · rename_i hu
      split
      · rename_i hu2
        exact ⟨[], none, r, [], rfl, Mild.refl.adds, by simp, by simp, fun _ h => by
          rw [Bool.and_eq_true, underscored_iff] at hu2
          exact absurd hu2 h.2⟩
      · rename_i hu2
        have hk : Kept p t.name := by
          refine ⟨by rw [unref_iff, Classical.not_not] at hu; exact hu, ?_⟩
          rw [Bool.and_eq_true, underscored_iff] at hu2
          exact hu2
        split
        · rename_i ho
          have ho := (isOneof_iff _).1 ho
          have hv := validateOneof_ok (tn := t.name).2 (hg.oneOf t ht hk ho)
          have e1 : Gen.lift (validateOneof t.name t.fields) r = .ok ((), r) := by rw [hv]; rfl
          cases hd : directMembers c p t with
          | some ms =>
            exact ⟨[], some (t.name, ms), r, [], Gen.bind_ok.2 ⟨_, _, e1, rfl⟩, Mild.refl.adds, by simp,
              fun x hx => by cases hx; exact ⟨rfl, rfl, hm, ho, rfl⟩, fun _ _ => .inr ⟨_, rfl⟩⟩
          | none =>
            obtain ⟨ws, r1, K, h1, a1, k1, n1⟩ := generateOneofWrapperInput_go hs hne hg ht hk ho hl hn hf
            exact ⟨ws, none, r1, K, Gen.bind_ok.2 ⟨_, _, e1, Gen.bind_ok.2 ⟨_, _, h1, rfl⟩⟩, a1, k1, by simp,
              fun _ _ => .inl n1⟩
        · have hself : t.name ∈ keysOf t := List.mem_cons_self
          cases hun : pre.unionTypes.get? t.name with
          | some members =>
            dsimp only
            obtain ⟨_, r1, h1, m1, _⟩ := go_registerImports (l := ["typing.Union", "typing.Annotated", "pydantic.Field"]) (r := r)
            obtain ⟨cls, _, h2, a2⟩ := generateClass_go hs (kind := .input) (n := t.name) (r := r1) (input_ne_empty hne ht)
              (by rw [m1.classes]; exact hf _ hself)
            exact ⟨_, none, _, [t.name], Gen.bind_ok.2 ⟨_, _, h1, Gen.bind_ok.2 ⟨_, _, h2, rfl⟩⟩, m1.then a2,
              by simp [hself], by simp, fun _ _ => .inl (by simp)⟩
          | none =>
            dsimp only
            obtain ⟨cls, hst, h2, a2⟩ := generateClass_go hs (kind := .input) (n := t.name) (r := r) (input_ne_empty hne ht)
              (hf _ hself)
            obtain ⟨stm, r3, h3, m3, _⟩ := go_generateInputType hs hne (p := p) (cls := cls) (tn := t.name)
              (desc := t.description) (fs := t.fields) (ds := []) (r := r.setClass .input t.name cls)
              (fun f hf => (hl.adds a2).ready hg ht (.inr hk) hf (.inl rfl) hst)
            exact ⟨_, none, _, [t.name], Gen.bind_ok.2 ⟨_, _, h2, Gen.bind_ok.2 ⟨_, _, h3, rfl⟩⟩, a2.mild m3,
              by simp [hself], by simp, fun _ _ => .inl (by simp)⟩

theorem mainLoop_go {pre : PrePass} (ts : List InputType) : ∀ {r : Reg}, (∀ t ∈ ts, InputOf c.schema t) →
    (ts.flatMap keysOf).Nodup → Leaves c pe r →
    (∀ t ∈ ts, t.name ∉ pre.memberTypes → ∀ k ∈ keysOf t, k ∉ (r.classMap .input).keys) →
    ∃ ss ds r' K, mainLoop c p pre ts r = .ok ((ss, ds), r') ∧ Adds .input K r r' ∧
      (∀ k ∈ K, k ∈ ts.flatMap keysOf ∧ k ∉ ds.map (·.1)) ∧
      (ds.map (·.1)).Sublist (ts.map (·.name)) ∧
      (∀ d ∈ ds, ∃ t ∈ ts, d.1 = t.name ∧ t.name ∉ pre.memberTypes ∧ OneOf t.directives ∧ directMembers c p t = some d.2) ∧
      (∀ t ∈ ts, t.name ∉ pre.memberTypes → Kept p t.name → t.name ∈ K ∨ t.name ∈ ds.map (·.1)) := by
  induction ts with
  | nil => intro r _ _ _ _; exact ⟨[], [], r, [], rfl, Mild.refl.adds, by simp, by simp, by simp, by simp⟩
  | cons t ts ih =>
    intro r ht hn hl hf
    rw [List.flatMap_cons, List.nodup_append] at hn
    obtain ⟨hn1, hn2, hn3⟩ := hn
    obtain ⟨s, d, r1, K1, h1, a1, k1, d1, e1⟩ := mainStep_go hs hne hg (ht t (by simp)) hl hn1 (hf t (by simp))
    obtain ⟨ss, ds, r2, K2, h2, a2, k2, sl2, d2, e2⟩ := ih (fun t' h => ht t' (by simp [h])) hn2 (hl.adds a1)
      (fun t' ht' hm k hk hkm => by
        rcases (a1.keys _).1 hkm with hkm | hkm
        · exact hf t' (by simp [ht']) hm k hk hkm
        · exact hn3 _ (k1 _ hkm) _ (List.mem_flatMap.2 ⟨t', ht', hk⟩) rfl)
    have hself : t.name ∈ keysOf t := List.mem_cons_self
    refine ⟨s ++ ss, d.toList ++ ds, r2, K1 ++ K2, Gen.bind_ok.2 ⟨_, _, h1, Gen.bind_ok.2 ⟨_, _, h2, rfl⟩⟩, a1.trans a2,
      ?_, ?_, ?_, ?_⟩
    · intro k hk
      rcases List.mem_append.1 hk with hk | hk
      · refine ⟨List.mem_append_left _ (k1 k hk), fun hm => ?_⟩
        rw [List.map_append, List.mem_append] at hm
        rcases hm with hm | hm
        · obtain ⟨x, hx, _⟩ := List.mem_map.1 hm
          rw [Option.mem_toList] at hx
          rw [(d1 x hx).2.1] at hk
          simp at hk
        · obtain ⟨t', ht', he⟩ := List.mem_map.1 (sl2.subset hm)
          exact hn3 _ (k1 k hk) _ (List.mem_flatMap.2 ⟨t', ht', List.mem_cons_self⟩) he.symm
      · refine ⟨List.mem_append_right _ (k2 k hk).1, fun hm => ?_⟩
        rw [List.map_append, List.mem_append] at hm
        rcases hm with hm | hm
        · obtain ⟨x, hx, he⟩ := List.mem_map.1 hm
          rw [Option.mem_toList] at hx
          rw [(d1 x hx).1] at he
          exact hn3 _ hself _ (k2 k hk).1 he
        · exact (k2 k hk).2 hm
    · rw [List.map_append, List.map_cons]
      cases d with
      | none => exact List.Sublist.cons _ sl2
      | some x => simp only [Option.toList, List.map_cons, List.map_nil, List.singleton_append, (d1 x rfl).1]; exact sl2.cons_cons _
    · intro x hx
      rcases List.mem_append.1 hx with hx | hx
      · rw [Option.mem_toList] at hx
        obtain ⟨a, _, b, e, f⟩ := d1 x hx
        exact ⟨t, by simp, a, b, e, f⟩
      · obtain ⟨t', ht', hh⟩ := d2 x hx; exact ⟨t', by simp [ht'], hh⟩
    · intro t' ht' hm hk
      rcases List.mem_cons.1 ht' with rfl | ht'
      · rcases e1 hm hk with h | ⟨x, hx⟩
        · exact .inl (List.mem_append_left _ h)
        · right
          rw [List.map_append]
          exact List.mem_append_left _ (List.mem_map.2 ⟨x, by rw [hx]; simp, (d1 x hx).1⟩)
      · rcases e2 t' ht' hm hk with h | h
        · exact .inl (List.mem_append_right _ h)
        · right; rw [List.map_append]; exact List.mem_append_right _ h

omit hs hne hg in
theorem go_memberClasses (ms : Dict String) : ∀ {r : Reg}, (∀ m ∈ ms, m.2 ∈ (r.classMap .input).keys) →
    Go (memberClasses ms) r := by
  induction ms with
  | nil => intro r _; exact .ret
  | cons m ms ih =>
    obtain ⟨k, m⟩ := m
    intro r h
    unfold memberClasses
    refine Go.bind (P := fun _ => True) ?_ fun _ _ mi _ => (ih fun m hm => by
      rw [mi.classes]; exact h m (by simp [hm])).bind fun _ _ _ _ => .ret
    have := h (k, m) (by simp)
    obtain ⟨cl, hcl⟩ := Option.isSome_iff_exists.1 ((Dict.get?_isSome_iff _ _).2 this)
    refine ⟨cl, r, ?_, .refl, trivial⟩
    unfold getClass
    simp only [Dict.get, hcl]

omit hne hg in
theorem deferredUnions_go (ds : List (String × Dict String)) : ∀ {r : Reg}, (ds.map (·.1)).Nodup →
    (∀ d ∈ ds, d.1 ≠ "" ∧ d.1 ∉ (r.classMap .input).keys ∧ ∀ m ∈ d.2, m.2 ∈ (r.classMap .input).keys) →
    ∃ ss r', deferredUnions c ds r = .ok (ss, r') ∧ Adds .input (ds.map (·.1)) r r' := by
  induction ds with
  | nil => intro r _ _; exact ⟨[], r, rfl, Mild.refl.adds⟩
  | cons d ds ih =>
    obtain ⟨n, ms⟩ := d
    intro r hn hd
    rw [List.map_cons, List.nodup_cons] at hn
    obtain ⟨h0, hf, hm⟩ := hd (n, ms) (by simp)
    obtain ⟨cls, _, h1, a1⟩ := generateClass_go hs (kind := .input) (n := n) (r := r) h0 hf
    have hgo : Go (do
        let mcs ← memberClasses ms
        importIf (mcs.length > 1) "typing.Union"
        registerImport "typing.Annotated"
        registerImport "pydantic.WrapSerializer"
        let names := dedupKeepFirst (mcs.map (·.2))
        let u := if mcs.length > 1 then sub "Union" (.tuple (names.map .name))
          else .name (names.headD "")
        pure [
          .funcDef false ("_serialize_" ++ camelToSnake cls) [{ arg := "value" }, { arg := "handler" }] []
            [.assign (.name "tags") (.dict (mcs.map fun p => .name p.2) (mcs.map fun p => .str p.1))] [] none,
          .assign (.name cls) (sub "Annotated" (.tuple [u, .call (.name "WrapSerializer") [.name ("_serialize_" ++ camelToSnake cls)] []]))] : Gen (List Stmt))
        (r.setClass .input n cls) := by
      refine (go_memberClasses ms fun m hm' => (a1.keys _).2 (.inl (hm m hm'))).bind fun _ _ _ _ =>
        Go.bind (P := fun _ => True) ?_ fun _ _ _ _ => go_registerImport.bind fun _ _ _ _ =>
          go_registerImport.bind fun _ _ _ _ => .ret
      unfold importIf
      split
      · exact go_registerImport
      · exact .ret
    obtain ⟨s, r2, h2, m2, _⟩ := hgo
    have a2 := a1.mild m2
    obtain ⟨ss, r3, h3, a3⟩ := ih (r := r2) hn.2 (fun d hd' => by
      obtain ⟨g0, gf, gm⟩ := hd d (by simp [hd'])
      refine ⟨g0, fun hm' => ?_, fun m hm' => (a2.keys _).2 (.inl (gm m hm'))⟩
      rcases (a2.keys _).1 hm' with hm' | hm'
      · exact gf hm'
      · rw [List.mem_singleton] at hm'
        exact hn.1 (List.mem_map.2 ⟨d, hd', hm'⟩))
    refine ⟨s ++ ss, r3, Gen.bind_ok.2 ⟨s, r2, ?_, Gen.bind_ok.2 ⟨_, _, h3, rfl⟩⟩, a2.trans a3⟩
    unfold generateOneofDirectUnion
    exact Gen.bind_ok.2 ⟨_, _, h1, h2⟩

/-- The inputs plugin succeeds, and registers every selected type. -/
theorem generateInputs_go (hn : c.schema.types.keys.Nodup) {r : Reg} (hr : r.inputMap = []) (hl : Leaves c pe r) :
    ∃ ss r' K, generateInputs c p r = .ok (ss, r') ∧ Adds .input K r r' ∧
      ∀ t, InputOf c.schema t → SelectedInput p t → t.name ∈ K := by
  obtain ⟨_, r0, h0, m0, _⟩ := go_registerImports (l := p.bases) (r := r)
  have hk0 : (r0.classMap .input).keys = [] := by rw [m0.classes]; show r.inputMap.keys = []; rw [hr]; rfl
  have hw : ((inputTypes c.schema).flatMap keysOf).Nodup := hg.wrappers
  have hnames : ((inputTypes c.schema).map (·.name)).Nodup := by
    have : ((inputTypes c.schema).map (·.name)).Sublist ((inputTypes c.schema).flatMap keysOf) := by
      generalize inputTypes c.schema = l
      induction l with
      | nil => simp
      | cons t l ih =>
        rw [List.map_cons, List.flatMap_cons]
        exact List.Sublist.append (l₁ := [t.name]) (by unfold keysOf; simp) ih
    exact this.nodup hw
  have hin : ∀ t ∈ inputTypes c.schema, InputOf c.schema t := fun t h => mem_inputTypes.1 h
  obtain ⟨pre, r1, K1, h1, a1, mt1, k1, im1⟩ := prePass_go hs hne hg (inputTypes c.schema) (acc := {}) (r := r0) hin hnames
    (hl.mild m0) (fun u dn h => by simp [Dict.get?] at h) (fun t _ => by rw [hk0]; simp)
  have hmt : ∀ k, k ∈ pre.memberTypes ↔ k ∈ K1 := fun k => by rw [mt1]; simp
  have hl1 := (hl.mild m0).adds a1
  -- positions of keys
  have huniq : ∀ t t' k, t ∈ inputTypes c.schema → t' ∈ inputTypes c.schema → k ∈ keysOf t → k ∈ keysOf t' → t = t' := by
    intro t t' k ht ht' hk hk'
    clear h1 k1 im1
    revert hw ht ht'
    generalize inputTypes c.schema = l
    intro hw ht ht'
    induction l with
    | nil => simp at ht
    | cons x l ih =>
      rw [List.flatMap_cons, List.nodup_append] at hw
      rcases List.mem_cons.1 ht with h1 | h1
      · rcases List.mem_cons.1 ht' with h2 | h2
        · rw [h1, h2]
        · exact absurd rfl (hw.2.2 _ (h1 ▸ hk) _ (List.mem_flatMap.2 ⟨t', h2, hk'⟩))
      · rcases List.mem_cons.1 ht' with h2 | h2
        · exact absurd rfl (hw.2.2 _ (h2 ▸ hk') _ (List.mem_flatMap.2 ⟨t, h1, hk⟩))
        · exact ih hw.2.1 h1 h2
  have hkn : ∀ t ∈ inputTypes c.schema, (keysOf t).Nodup := fun t ht => (List.nodup_flatMap.1 hw).1 t ht
  obtain ⟨ss, ds, r2, K2, h2, a2, k2, sl2, d2, e2⟩ := mainLoop_go hs hne hg (pre := pre) (inputTypes c.schema) (r := r1) hin hw
    hl1 (fun t ht hm k hk hkm => by
      rcases (a1.keys _).1 hkm with hkm | hkm
      · rw [hk0] at hkm; simp at hkm
      · obtain ⟨t', ht', rfl⟩ := k1 k hkm
        have := huniq t t' _ ht ht' hk List.mem_cons_self
        subst this
        exact hm ((hmt _).2 hkm))
  have hreg : ∀ t, InputOf c.schema t → Kept p t.name → ¬ OneOf t.directives → t.name ∈ (r2.classMap .input).keys := by
    intro t ht hk hno
    rw [a2.keys]
    by_cases hm : t.name ∈ pre.memberTypes
    · exact .inl ((a1.keys _).2 (.inr ((hmt _).1 hm)))
    · rcases e2 t (mem_inputTypes.2 ht) hm hk with h | h
      · exact .inr h
      · obtain ⟨d, hd, he⟩ := List.mem_map.1 h
        obtain ⟨t', ht', he', _, ho, _⟩ := d2 d hd
        have : t = t' := inputOf_unique hn ht (hin t' ht') (he.symm.trans he')
        subst this
        exact absurd ho hno
  obtain ⟨us, r3, h3, a3⟩ := deferredUnions_go hs ds (r := r2) (sl2.nodup hnames) (fun d hd => by
    obtain ⟨t, ht, he, hm, ho, hdm⟩ := d2 d hd
    refine ⟨by rw [he]; exact input_ne_empty hne (hin t ht), fun hk => ?_, ?_⟩
    · rcases (a2.keys _).1 hk with hk | hk
      · rcases (a1.keys _).1 hk with hk | hk
        · rw [hk0] at hk; simp at hk
        · rw [he] at hk
          exact hm ((hmt _).2 hk)
      · exact (k2 _ hk).2 (List.mem_map.2 ⟨d, hd, rfl⟩)
    · obtain ⟨hdu, hms⟩ := directMembers_ok.1 hdm
      intro m hmm
      rw [hms] at hmm
      obtain ⟨f, hf, rfl⟩ := List.mem_map.1 hmm
      obtain ⟨m, fs, dirs, hty, hlk, hno, hkept⟩ := hdu.2.2.1 f hf
      dsimp only
      rw [hty]
      obtain ⟨desc, hdesc⟩ := types_of_lookup hlk
      exact hreg ⟨m, desc, fs, dirs⟩ ⟨⟨.input fs dirs, desc⟩, Dict.mem_of_get? hdesc, rfl, rfl⟩ hkept hno)
  refine ⟨_, r3, _, Gen.bind_ok.2 ⟨_, _, h0, Gen.bind_ok.2 ⟨_, _, h1, Gen.bind_ok.2 ⟨_, _, h2,
    Gen.bind_ok.2 ⟨_, _, h3, rfl⟩⟩⟩⟩, m0.then ((a1.trans a2).trans a3), ?_⟩
  intro t ht hsel
  rw [List.mem_append, List.mem_append]
  by_cases hm : t.name ∈ pre.memberTypes
  · exact .inl (.inl ((hmt _).1 hm))
  · rcases hsel with hsel | hsel
    · exact absurd ((hmt _).2 (im1 t (mem_inputTypes.2 ht) hsel)) hm
    · rcases e2 t (mem_inputTypes.2 ht) hm hsel with h | h
      · exact .inl (.inr h)
      · exact .inr h
end

end Turms
