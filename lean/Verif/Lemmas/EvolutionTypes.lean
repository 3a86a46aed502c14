import Verif.Lemmas.EvolutionFuncs
import Verif.Lemmas.RebuildTypes
import Verif.Lemmas.GenerableInputs
import Verif.Props.Enums

/-! # The registries the enums plugin and the inputs plugin leave behind on two schemas -/

namespace Turms
open Spec

/-- imports, helpers, forward references, enums and inputs may differ; nothing else does -/
def Alike (r r' : Reg) : Prop :=
  ∃ i b f e m, r' = { r with imports := i, builtins := b, forwardReferences := f, enumMap := e, inputMap := m }

theorem Alike.refl (r : Reg) : Alike r r := ⟨_, _, _, _, _, rfl⟩
theorem Alike.trans {a b c : Reg} (h1 : Alike a b) (h2 : Alike b c) : Alike a c := by
  obtain ⟨_, _, _, _, _, rfl⟩ := h1
  obtain ⟨_, _, _, _, _, rfl⟩ := h2
  exact ⟨_, _, _, _, _, rfl⟩
theorem Quiet.alike {r r' : Reg} (h : Quiet r r') : Alike r r' := by
  obtain ⟨_, _, _, rfl, _⟩ := h
  exact ⟨_, _, _, _, _, rfl⟩

structure Local {α : Type} (g : Gen α) : Prop where
  run : ∀ r a r', g r = .ok (a, r') → Alike r r'

section
variable {α β : Type}
theorem Calm.local {g : Gen α} (h : Calm g) : Local g := ⟨fun r a r' e => (h.run r a r' e).1.alike⟩
theorem Local.pure {a : α} : Local (pure a : Gen α) := Calm.pure.local
theorem Local.fail {e : Err} : Local (Gen.fail e : Gen α) := Calm.fail.local
theorem Local.lift {x : Except Err α} : Local (Gen.lift x) := Calm.lift.local
theorem Local.bind {x : Gen α} {f : α → Gen β} (hx : Local x) (hf : ∀ a, Local (f a)) : Local (x >>= f) :=
  ⟨fun r b r' h => by
    obtain ⟨a, r1, h1, h2⟩ := Gen.bind_ok.1 h
    exact (hx.run _ _ _ h1).trans ((hf a).run _ _ _ h2)⟩
theorem Local.ite {p : Prop} [Decidable p] {x y : Gen α} (hx : Local x) (hy : Local y) : Local (if p then x else y) := by
  split <;> assumption
end

section
variable {c : Ctx} {p : InputsConfig}

theorem local_generateClass {env : Env} {k : Kind} {n : String} (h : k = .input ∨ k = .enum) :
    Local (generateClass env k n) := ⟨fun r a r' e => by
  obtain ⟨_, _, rfl⟩ := generateClass_ok e
  rcases h with rfl | rfl <;> exact ⟨_, _, _, _, _, rfl⟩⟩
theorem local_referenceInput {env : Env} {n p : String} {f : Bool} : Local (referenceInput env n p f) :=
  ⟨fun r a r' e => by
    unfold referenceInput at e
    split at e
    · cases e
    · split at e
      · split at e
        · cases e
        · cases e; exact (quiet_addForward _ _).alike
      · split at e <;> cases e
        exact .refl _⟩
theorem local_referenceEnum {env : Env} {n p : String} {f : Bool} : Local (referenceEnum env n p f) :=
  ⟨fun r a r' e => (quietly_referenceEnum a r' e).1.alike⟩

theorem local_inputLeaf {parent n : String} : Local (inputLeaf c parent n) := by
  unfold inputLeaf
  split
  · exact calm_referenceScalar.local
  · exact local_referenceInput
  · exact local_referenceEnum
  · exact .fail

theorem local_inputAnnotation {parent : String} (t : TypeNode) : ∀ {o : Bool}, Local (inputAnnotation c parent t o) := by
  induction t with
  | named n => intro o; unfold inputAnnotation; exact local_inputLeaf.bind fun _ => calm_optionalWrap.local
  | nonNull t ih => intro o; unfold inputAnnotation; exact ih
  | list t ih =>
    intro o; unfold inputAnnotation
    exact calm_listImport.local.bind fun _ => ih.bind fun _ => calm_optionalWrap.local

theorem local_inputFields {cls : String} {skip : List String} (fs : List InputFieldDef) :
    Local (inputFields c cls skip fs) := by
  induction fs with
  | nil => exact .pure
  | cons f fs ih =>
    unfold inputFields inputFieldStmts inputFieldAnnotation
    exact calm_nodeName.local.bind fun _ => .ite ih ((calm_nodeName.local.bind fun _ =>
      ((local_inputAnnotation _).bind fun _ => calm_optionalWrap.local).bind fun _ =>
      calm_annotateFieldMetadata.local.bind fun _ => calm_inputFieldValue.local.bind fun _ => .ite .pure .pure).bind fun _ =>
      ih.bind fun _ => .pure)

theorem local_generateInputType {name t : String} {d : Option String} {fs : List InputFieldDef}
    {ds : List Discriminator} : Local (generateInputType c p name t d fs ds) := by
  unfold generateInputType
  exact calm_additionalBasesFor.local.bind fun _ => (calm_discriminatorStmts _).local.bind fun _ =>
    (local_inputFields _).bind fun _ => calm_config.local.bind fun _ => .pure

theorem local_prePass (ts : List InputType) : ∀ {acc : PrePass}, Local (prePass c p ts acc) := by
  induction ts with
  | nil => intro acc; exact .pure
  | cons t ts ih =>
    intro acc
    unfold prePass prePassStep
    refine Local.bind (Local.lift.bind fun x => ?_) fun _ => ih
    exact .ite .pure (Local.lift.bind fun _ => (local_generateClass (.inl rfl)).bind fun _ =>
      local_generateInputType.bind fun _ => .pure)

theorem local_oneofWrapper {t : String} {extra : List Expr} {f : InputFieldDef} :
    Local (oneofWrapper c p t extra f) := ⟨fun r a r' h => by
  unfold oneofWrapper at h
  cases hg : generateClass c.env .input (t ++ pascal f.name) r with
  | error e =>
    rw [hg] at h
    cases e <;> cases h
  | ok x =>
    obtain ⟨cls, r1⟩ := x
    rw [hg] at h
    dsimp only at h
    refine ((local_generateClass (.inl rfl)).run _ _ _ hg).trans (Local.run ?_ _ _ _ h)
    exact calm_nodeName.local.bind fun _ => (local_inputAnnotation _).bind fun _ =>
        calm_annotateFieldMetadata.local.bind fun _ => calm_inputFieldValue.local.bind fun _ =>
        calm_config.local.bind fun _ => .pure⟩

theorem local_oneofWrappers {t : String} {extra : List Expr} (fs : List InputFieldDef) :
    Local (oneofWrappers c p t extra fs) := by
  induction fs with
  | nil => exact .pure
  | cons f fs ih =>
    unfold oneofWrappers
    exact local_oneofWrapper.bind fun _ => ih.bind fun _ => .pure

theorem local_mainLoop {pre : PrePass} (ts : List InputType) : Local (mainLoop c p pre ts) := by
  induction ts with
  | nil => exact .pure
  | cons t ts ih =>
    unfold mainLoop
    refine Local.bind ?_ fun x => ih.bind fun y => .pure
    unfold mainStep
    refine .ite .pure (.ite .pure (.ite .pure (.ite (Local.lift.bind fun _ => ?_) ?_)))
    · split
      · exact .pure
      · refine Local.bind ?_ fun s => .pure
        unfold generateOneofWrapperInput
        exact calm_additionalBasesFor.local.bind fun _ => (local_oneofWrappers _).bind fun _ =>
          (local_generateClass (.inl rfl)).bind fun _ => calm_generateUnionAlias.local.bind fun _ => .pure
    · split
      · exact (calm_registerImports _).local.bind fun _ => (local_generateClass (.inl rfl)).bind fun _ => .pure
      · exact (local_generateClass (.inl rfl)).bind fun _ => local_generateInputType.bind fun _ => .pure

theorem local_deferredUnions (ds : List (String × Dict String)) : Local (deferredUnions c ds) := by
  induction ds with
  | nil => exact .pure
  | cons d ds ih =>
    unfold deferredUnions generateOneofDirectUnion
    refine ((local_generateClass (.inl rfl)).bind fun _ => (calm_memberClasses _).local.bind fun _ => Local.bind ?_ fun _ =>
      calm_registerImport.local.bind fun _ => calm_registerImport.local.bind fun _ => .pure).bind fun _ => ih.bind fun _ => .pure
    unfold importIf
    exact .ite calm_registerImport.local .pure

theorem local_generateInputs : Local (generateInputs c p) := by
  unfold generateInputs
  exact (calm_registerImports _).local.bind fun _ => (local_prePass _).bind fun _ => (local_mainLoop _).bind fun _ =>
    (local_deferredUnions _).bind fun _ => .pure

theorem local_generateEnums {p : EnumsConfig} : Local (generateEnums c p) := by
  unfold generateEnums
  refine calm_registerImport.local.bind fun _ => ?_
  generalize enumTypes c.schema = ts
  induction ts with
  | nil => exact .pure
  | cons t ts ih =>
    unfold enumLoop enumStep
    exact Local.bind (.ite .pure (.ite .pure (.ite .pure ((local_generateClass (.inr rfl)).bind fun _ => .pure))))
      fun _ => ih.bind fun _ => .pure
end

/-! ## the two registries agree -/

theorem get?_eq_of_keys {d d' : Dict String} {P : String → String → Prop} {n : String}
    (hd : ∀ c, d.get? n = some c → P n c) (hd' : ∀ c, d'.get? n = some c → P n c) (hP : ∀ a b, P n a → P n b → a = b)
    (h : n ∈ d.keys ↔ n ∈ d'.keys) : d'.get? n = d.get? n := by
  cases hg : d.get? n with
  | none =>
    exact (Dict.get?_eq_none_iff _ _).2 fun hm => (Dict.get?_eq_none_iff _ _).1 hg (h.2 hm)
  | some c =>
    have hm := h.1 ((Dict.get?_isSome_iff _ _).1 (by rw [hg]; rfl))
    obtain ⟨c', hc'⟩ := Option.isSome_iff_exists.1 ((Dict.get?_isSome_iff _ _).2 hm)
    rw [hc', hP _ _ (hd c hg) (hd' c' hc')]

theorem Emits.keys {env : Env} {k : Kind} {r r' : Reg} {K : List String} {ss : List Stmt} (h : Emits env k r r' K ss)
    (n : String) : n ∈ (r'.classMap k).keys ↔ n ∈ (r.classMap k).keys ∨ n ∈ K := by
  obtain ⟨L, hm, hk, _⟩ := h.map
  rw [hm, ← hk]
  simp [Dict.keys]

/-- what the inputs plugin and the enums plugin leave behind -/
structure TypesOf (c : Ctx) (pe : EnumsConfig) (pi : InputsConfig) (r : Reg) : Prop where
  alike : Alike (Reg.init c.env) r
  styled : Styled c.env r
  enums : ∀ n, n ∈ r.enumMap.keys ↔ ∃ t, EnumOf c.schema t ∧ EnumKept pe t.name ∧ t.name = n
  inputs : ∀ n, n ∈ r.inputMap.keys ↔ InputKey c pi n

theorem typesOf_run {c : Ctx} {pe : EnumsConfig} {pi : InputsConfig} {E I : List Stmt} {r1 r2 : Reg}
    (hp : PlainConfig c.config) (hn : c.schema.types.keys.Nodup)
    (h1 : generateEnums c pe (Reg.init c.env) = .ok (E, r1)) (h2 : generateInputs c pi r1 = .ok (I, r2)) :
    TypesOf c pe pi r2 := by
  have hs0 : Styled c.env (Reg.init c.env) := styled_stateAfter c.env []
  obtain ⟨e1, _⟩ := Props.generateEnums_ok h1
  have hs1 := e1.styled hs0
  obtain ⟨⟨K, e2, hK⟩, _⟩ := generateInputs_ok hs1 hp hn h2
  refine ⟨(local_generateEnums.run _ _ _ h1).trans (local_generateInputs.run _ _ _ h2), e2.styled hs1, fun n => ?_, fun n => ?_⟩
  · have : r2.enumMap = r1.enumMap := e2.other .enum (by decide)
    rw [this]
    refine (e1.keys n).trans ?_
    have h0 : ((Reg.init c.env).classMap .enum).keys = [] := rfl
    rw [h0]
    simp only [List.not_mem_nil, false_or, List.mem_map, List.mem_filter, decide_eq_true_eq, Props.mem_enumTypes, and_assoc]
  · refine (e2.keys n).trans ?_
    have : r1.classMap .input = (Reg.init c.env).classMap .input := e1.other .input (by decide)
    have h0 : ((Reg.init c.env).classMap .input).keys = [] := rfl
    rw [this, h0, hK]
    simp

theorem enumOf_iff {s : Schema} (hn : s.types.keys.Nodup) {n : String} {P : Prop} :
    (∃ t, EnumOf s t ∧ P ∧ t.name = n) ↔ (∃ vs, s.lookup n = some (.enum vs)) ∧ P := by
  constructor
  · rintro ⟨t, ⟨e, h1, h2, h3⟩, hP, rfl⟩
    refine ⟨⟨t.values, ?_⟩, hP⟩
    unfold Schema.lookup
    rw [Dict.get?_of_mem_nodup hn h1, Option.map_some, h2]
  · rintro ⟨⟨vs, h⟩, hP⟩
    unfold Schema.lookup at h
    cases hg : s.types.get? n with
    | none => rw [hg] at h; cases h
    | some e =>
      rw [hg] at h
      exact ⟨⟨n, e.description, vs⟩, ⟨e, Dict.mem_of_get? hg, Option.some.inj h, rfl⟩, hP, rfl⟩

/-- the names two runs agree on, and what the first has collected so far -/
def oldOf (prep : List Char → List Char) (c : Ctx) (pi : InputsConfig) (r : Reg) : Old where
  prep := prep
  names n := Known c.schema n ∨ InputKey c pi n
  imports n := n ∈ r.imports
  builtins n := n ∈ r.builtins
  forwards n := n ∈ r.forwardReferences

theorem whole_oldOf {prep : List Char → List Char} {c : Ctx} {pi : InputsConfig} {r : Reg} : Whole (oldOf prep c pi r) prep :=
  ⟨fun _ => trivial, fun _ => trivial, fun _ => trivial, rfl⟩

theorem agree_types {prep : List Char → List Char} {c : Ctx} {s' : Schema} {pe pe' : EnumsConfig} {pi pi' : InputsConfig} {r r' : Reg}
    (hE : Extends c.schema s') (hn : c.schema.types.keys.Nodup) (hn' : s'.types.keys.Nodup)
    (hT : TypesOf c pe pi r) (hT' : TypesOf (c.on s') pe' pi' r')
    (hen : ∀ n vs, c.schema.lookup n = some (.enum vs) → (EnumKept pe n ↔ EnumKept pe' n))
    (hin : ∀ n, (c.schema.types.get? n).isSome ∨ n ∈ builtinNames ∨ InputKey c pi n →
      (InputKey c pi n ↔ InputKey (c.on s') pi' n))
    (hnew : ∀ n, InputKey c pi n → (s'.types.get? n).isSome → (c.schema.types.get? n).isSome) :
    Agree (oldOf prep c pi r) r r' := by
  have hst : ∀ (k : Kind) n a b, k.style c.env n = .ok a → k.style c.env n = .ok b → a = b := by
    intro k n a b h1 h2
    rw [h1] at h2
    exact Except.ok.inj h2
  have ekeys : ∀ n, n ∈ r.enumMap.keys ↔ (∃ vs, c.schema.lookup n = some (.enum vs)) ∧ EnumKept pe n := by
    intro n
    rw [hT.enums, ← enumOf_iff hn]
    exact ⟨fun ⟨t, a, b, e⟩ => ⟨t, a, e ▸ b, e⟩, fun ⟨t, a, b, e⟩ => ⟨t, a, e ▸ b, e⟩⟩
  have ekeys' : ∀ n, n ∈ r'.enumMap.keys ↔ (∃ vs, s'.lookup n = some (.enum vs)) ∧ EnumKept pe' n := by
    intro n
    rw [hT'.enums, ← enumOf_iff hn']
    exact ⟨fun ⟨t, a, b, e⟩ => ⟨t, a, e ▸ b, e⟩, fun ⟨t, a, b, e⟩ => ⟨t, a, e ▸ b, e⟩⟩
  have back : ∀ n vs, (s'.types.get? n).isSome → Known c.schema n ∨ InputKey c pi n → s'.lookup n = some (.enum vs) →
      ∃ vs, c.schema.lookup n = some (.enum vs) := by
    intro n vs hs hN hl
    have hold : (c.schema.types.get? n).isSome := by
      rcases hN with (h | h) | h
      · exact h
      · exact hE.helpers n h hs
      · exact hnew n h hs
    obtain ⟨e, he⟩ := Option.isSome_iff_exists.1 hold
    have hlo : c.schema.lookup n = some e.defn := by unfold Schema.lookup; rw [he]; rfl
    obtain ⟨d', h1, h2⟩ := hE.lookup hlo
    rw [hl] at h1
    cases h1
    rw [hlo]
    cases hd : e.defn <;> rw [hd] at h2 <;> first | exact h2.elim | exact ⟨_, rfl⟩
  have eiff : ∀ n, Known c.schema n ∨ InputKey c pi n → (n ∈ r.enumMap.keys ↔ n ∈ r'.enumMap.keys) := by
    intro n hN
    rw [ekeys, ekeys']
    constructor
    · rintro ⟨⟨vs, h⟩, hk⟩
      obtain ⟨d', h1, h2⟩ := hE.lookup h
      refine ⟨?_, (hen n vs h).1 hk⟩
      rw [h1]
      cases d' <;> first | exact h2.elim | exact ⟨_, rfl⟩
    · rintro ⟨⟨vs, h⟩, hk⟩
      have hs : (s'.types.get? n).isSome := by
        unfold Schema.lookup at h
        cases hg : s'.types.get? n with
        | none => rw [hg] at h; cases h
        | some e => rfl
      obtain ⟨vs', h'⟩ := back n vs hs hN h
      exact ⟨⟨vs', h'⟩, (hen n vs' h').2 hk⟩
  obtain ⟨i1, b1, f1, e1, m1, ha⟩ := hT.alike
  obtain ⟨i2, b2, f2, e2, m2, ha'⟩ := hT'.alike
  refine ⟨fun x h => .inl h, fun x h => .inl h, fun x h => .inl h, fun n hN => ?_, fun _ n hN => ?_, fun n hN => ?_, fun _ n hN => ?_,
    by rw [ha, ha'], fun n _ => by rw [ha, ha'], fun _ _ _ _ _ _ => trivial, by rw [ha, ha'], by rw [ha, ha'],
    by rw [ha, ha'], fun n _ => by rw [ha, ha'], fun n _ => by rw [ha, ha']; exact id, fun n _ => by rw [ha, ha']; exact id,
    fun n _ => by rw [ha, ha']; exact id, by rw [ha, ha'], fun n _ => by rw [ha, ha'], fun n _ => by rw [ha, ha'],
    fun n _ => by rw [ha, ha'], fun n _ => by rw [ha, ha']⟩
  · refine get?_eq_of_keys (P := fun n c' => Kind.input.style c.env n = .ok c') (hT.styled .input n) (hT'.styled .input n)
      (hst .input n) ?_
    rw [hT.inputs, hT'.inputs]
    refine hin n ?_
    rcases hN with (h | h) | h
    · exact .inl h
    · exact .inr (.inl h)
    · exact .inr (.inr h)
  · exact (Dict.get?_eq_none_iff _ _).2 fun hm => hN (.inr ((hT.inputs n).1 hm))
  · exact get?_eq_of_keys (P := fun n c' => Kind.enum.style c.env n = .ok c') (hT.styled .enum n) (hT'.styled .enum n)
      (hst .enum n) (eiff n hN)
  · refine (Dict.get?_eq_none_iff _ _).2 fun hm => hN (.inl (.inl ?_))
    obtain ⟨⟨vs, h⟩, _⟩ := (ekeys n).1 hm
    unfold Schema.lookup at h
    cases hg : c.schema.types.get? n with
    | none => rw [hg] at h; cases h
    | some e => rfl

end Turms
