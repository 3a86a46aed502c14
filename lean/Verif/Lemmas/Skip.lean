import Verif.Lemmas.EvolutionTypes

/-! # The same generator on two registries, one of which knows only some of the inputs and enums -/

namespace Turms
open Spec

/-- the names the two registries agree on, for going from the larger to the smaller: anything may be missing from what
the smaller has collected -/
def bigOf (K : String → Prop) (prep : List Char → List Char) : Old :=
  ⟨K, fun _ => True, fun _ => True, fun _ => True, fun _ => True, fun _ => True, fun _ => True, prep, False⟩
/-- and for going from the smaller to the larger: nothing may be missing -/
def smallOf (K : String → Prop) (prep : List Char → List Char) : Old :=
  ⟨K, fun _ => False, fun _ => False, fun _ => False, fun _ => True, fun _ => True, fun _ => True, prep, False⟩

/-- `r'` knows the same as `r` about the names `K`, and has not collected more -/
structure Pair (K : String → Prop) (prep : List Char → List Char) (r r' : Reg) : Prop where
  down : Agree (bigOf K prep) r r'
  up : Agree (smallOf K prep) r' r

/-- whatever the first generator returns, the second returns something related to it -/
structure Trim {α β : Type} (K : String → Prop) (prep : List Char → List Char) (R : α → β → Prop) (g : Gen α) (g' : Gen β) :
    Prop where
  run : ∀ r r' a r1, Pair K prep r r' → g r = .ok (a, r1) → ∃ b r1', g' r' = .ok (b, r1') ∧ R a b ∧ Pair K prep r1 r1'

section
variable {α β γ δ : Type} {K : String → Prop} {prep : List Char → List Char}

theorem Trim.bind {R : α → β → Prop} {Q : γ → δ → Prop} {g : Gen α} {g' : Gen β} {f : α → Gen γ} {f' : β → Gen δ}
    (h : Trim K prep R g g') (hf : ∀ a b, R a b → Trim K prep Q (f a) (f' b)) : Trim K prep Q (g >>= f) (g' >>= f') :=
  ⟨fun r r' c r1 hP e => by
    obtain ⟨a, r2, h1, h2⟩ := Gen.bind_ok.1 e
    obtain ⟨b, r2', e1, hR, hP1⟩ := h.run _ _ _ _ hP h1
    obtain ⟨d, r1', e2, hQ, hP2⟩ := (hf a b hR).run _ _ _ _ hP1 h2
    exact ⟨d, r1', Gen.bind_ok.2 ⟨b, r2', e1, e2⟩, hQ, hP2⟩⟩
theorem Trim.pure {R : α → β → Prop} {a : α} {b : β} (h : R a b) : Trim K prep R (pure a) (pure b) :=
  ⟨fun r r' c r1 hP e => by
    obtain ⟨rfl, rfl⟩ := Gen.pure_ok.1 e
    exact ⟨b, r', rfl, h, hP⟩⟩
theorem Trim.lift {R : α → β → Prop} {x : Except Err α} {y : Except Err β} (h : ∀ a, x = .ok a → ∃ b, y = .ok b ∧ R a b) :
    Trim K prep R (Gen.lift x) (Gen.lift y) :=
  ⟨fun r r' c r1 hP e => by
    obtain ⟨he, rfl⟩ := Gen.lift_ok.1 e
    obtain ⟨b, hb, hR⟩ := h _ he
    exact ⟨b, r', Gen.lift_ok.2 ⟨hb, rfl⟩, hR, hP⟩⟩
theorem Trim.mono {R Q : α → β → Prop} {g : Gen α} {g' : Gen β} (h : Trim K prep R g g') (hm : ∀ a b, R a b → Q a b) :
    Trim K prep Q g g' :=
  ⟨fun r r' c r1 hP e => by
    obtain ⟨b, r1', e, hR, hP⟩ := h.run _ _ _ _ hP e
    exact ⟨b, r1', e, hm _ _ hR, hP⟩⟩

/-- the same generator, going both ways -/
theorem Trim.same {g : Gen α} (h : ∀ N : Old, (∀ n, K n → N.names n) → Sim N g g) : Trim K prep Eq g g :=
  ⟨fun r r' a r1 hP e => by
    obtain ⟨r1', e', hA⟩ := (h (bigOf K prep) fun _ => id).run _ _ _ _ hP.down e
    obtain ⟨r2, e2, hB⟩ := (h (smallOf K prep) fun _ => id).run _ _ _ _ hP.up e'
    rw [e] at e2
    cases e2
    exact ⟨a, r1', e', rfl, hA, hB⟩⟩
end

/-! ## generators that leave everything about the names `K` as it is -/

/-- more is collected, and nothing changes for the names `K` -/
structure Aside (K : String → Prop) (r r' : Reg) : Prop where
  rest : Alike r r'
  imports : ∀ x ∈ r.imports, x ∈ r'.imports
  builtins : ∀ x ∈ r.builtins, x ∈ r'.builtins
  forwards : ∀ x ∈ r.forwardReferences, x ∈ r'.forwardReferences
  inputs : ∀ n, K n → r'.inputMap.get? n = r.inputMap.get? n
  enums : ∀ n, K n → r'.enumMap.get? n = r.enumMap.get? n

theorem Aside.trans {K : String → Prop} {a b d : Reg} (h1 : Aside K a b) (h2 : Aside K b d) : Aside K a d :=
  ⟨h1.rest.trans h2.rest, fun x h => h2.imports x (h1.imports x h), fun x h => h2.builtins x (h1.builtins x h),
    fun x h => h2.forwards x (h1.forwards x h), fun n h => (h2.inputs n h).trans (h1.inputs n h),
    fun n h => (h2.enums n h).trans (h1.enums n h)⟩
theorem Quiet.aside {K : String → Prop} {r r' : Reg} (h : Quiet r r') : Aside K r r' := by
  have ha := h.alike
  obtain ⟨_, _, _, rfl, h1, h2, h3⟩ := h
  exact ⟨ha, h1, h2, h3, fun _ _ => rfl, fun _ _ => rfl⟩

theorem Pair.aside {K : String → Prop} {prep : List Char → List Char} {r r1 r' : Reg} (hP : Pair K prep r r')
    (h : Aside K r r1) : Pair K prep r1 r' := by
  obtain ⟨hD, hU⟩ := hP
  have hi := h.inputs
  have he := h.enums
  have h1 := h.imports
  have h2 := h.builtins
  have h3 := h.forwards
  obtain ⟨_, _, _, _, _, rfl⟩ := h.rest
  exact ⟨{ hD with
      imports := fun _ _ => .inl trivial, builtins := fun _ _ => .inl trivial, forwardReferences := fun _ _ => .inl trivial
      inputMap := fun n hn => (hD.inputMap n hn).trans (hi n hn).symm, inputOnly := fun h => h.elim
      enumMap := fun n hn => (hD.enumMap n hn).trans (he n hn).symm, enumOnly := fun h => h.elim },
    { hU with
      imports := fun x hx => (hU.imports x hx).imp id (h1 x), builtins := fun x hx => (hU.builtins x hx).imp id (h2 x)
      forwardReferences := fun x hx => (hU.forwardReferences x hx).imp id (h3 x)
      inputMap := fun n hn => (hi n hn).trans (hU.inputMap n hn), inputOnly := fun h => h.elim
      enumMap := fun n hn => (he n hn).trans (hU.enumMap n hn), enumOnly := fun h => h.elim }⟩

structure Off {α : Type} (K : String → Prop) (g : Gen α) : Prop where
  run : ∀ r a r', g r = .ok (a, r') → Aside K r r'

theorem Trim.off {α β : Type} {K : String → Prop} {prep : List Char → List Char} {R : α → β → Prop} {g : Gen α} {b : β}
    (h : Off K g) (hR : ∀ a r r', g r = .ok (a, r') → R a b) : Trim K prep R g (Pure.pure b) :=
  ⟨fun r r' a r1 hP e => ⟨b, r', rfl, hR _ _ _ e, hP.aside (h.run _ _ _ e)⟩⟩

section
variable {α β : Type} {K : String → Prop}
theorem Calm.off {g : Gen α} (h : Calm g) : Off K g := ⟨fun r a r' e => (h.run r a r' e).1.aside⟩
theorem Off.pure {a : α} : Off K (pure a : Gen α) := Calm.pure.off
theorem Off.fail {e : Err} : Off K (Gen.fail e : Gen α) := Calm.fail.off
theorem Off.lift {x : Except Err α} : Off K (Gen.lift x) := Calm.lift.off
theorem Off.bind {x : Gen α} {f : α → Gen β} (hx : Off K x) (hf : ∀ a, Off K (f a)) : Off K (x >>= f) :=
  ⟨fun r b r' h => by
    obtain ⟨a, r1, h1, h2⟩ := Gen.bind_ok.1 h
    exact (hx.run _ _ _ h1).trans ((hf a).run _ _ _ h2)⟩
theorem Off.ite {p : Prop} [Decidable p] {x y : Gen α} (hx : Off K x) (hy : Off K y) : Off K (if p then x else y) := by
  split <;> assumption
end

section
variable {c : Ctx} {p : InputsConfig} {K : String → Prop}

theorem off_generateInput {env : Env} {n : String} (hn : ¬ K n) : Off K (generateClass env .input n) :=
  ⟨fun r a r' e => by
    have hl := (local_generateClass (.inl rfl)).run _ _ _ e
    obtain ⟨_, _, rfl⟩ := generateClass_ok e
    exact ⟨hl, fun _ h => h, fun _ h => h, fun _ h => h, fun m hm => Dict.get?_set_ne _ _ (fun e => hn (e ▸ hm)),
      fun _ _ => rfl⟩⟩
theorem off_generateEnum {env : Env} {n : String} (hn : ¬ K n) : Off K (generateClass env .enum n) :=
  ⟨fun r a r' e => by
    have hl := (local_generateClass (.inr rfl)).run _ _ _ e
    obtain ⟨_, _, rfl⟩ := generateClass_ok e
    exact ⟨hl, fun _ h => h, fun _ h => h, fun _ h => h, fun _ _ => rfl,
      fun m hm => Dict.get?_set_ne _ _ (fun e => hn (e ▸ hm))⟩⟩
theorem off_referenceInput {env : Env} {n p : String} {f : Bool} : Off K (referenceInput env n p f) :=
  ⟨fun r a r' e => by
    unfold referenceInput at e
    split at e
    · cases e
    · split at e
      · split at e
        · cases e
        · cases e; exact (quiet_addForward _ _).aside
      · split at e <;> cases e
        exact (Quiet.refl _).aside⟩
theorem off_referenceEnum {env : Env} {n p : String} {f : Bool} : Off K (referenceEnum env n p f) :=
  ⟨fun r a r' e => (quietly_referenceEnum a r' e).1.aside⟩

theorem off_inputLeaf {parent n : String} : Off K (inputLeaf c parent n) := by
  unfold inputLeaf
  split
  · exact calm_referenceScalar.off
  · exact off_referenceInput
  · exact off_referenceEnum
  · exact .fail

theorem off_inputAnnotation {parent : String} (t : TypeNode) : ∀ {o : Bool}, Off K (inputAnnotation c parent t o) := by
  induction t with
  | named n => intro o; unfold inputAnnotation; exact off_inputLeaf.bind fun _ => calm_optionalWrap.off
  | nonNull t ih => intro o; unfold inputAnnotation; exact ih
  | list t ih =>
    intro o; unfold inputAnnotation
    exact calm_listImport.off.bind fun _ => ih.bind fun _ => calm_optionalWrap.off

theorem off_inputFields {cls : String} {skip : List String} (fs : List InputFieldDef) :
    Off K (inputFields c cls skip fs) := by
  induction fs with
  | nil => exact .pure
  | cons f fs ih =>
    unfold inputFields inputFieldStmts inputFieldAnnotation
    exact calm_nodeName.off.bind fun _ => .ite ih ((calm_nodeName.off.bind fun _ =>
      ((off_inputAnnotation _).bind fun _ => calm_optionalWrap.off).bind fun _ =>
      calm_annotateFieldMetadata.off.bind fun _ => calm_inputFieldValue.off.bind fun _ => .ite .pure .pure).bind fun _ =>
      ih.bind fun _ => .pure)

theorem off_generateInputType {name t : String} {d : Option String} {fs : List InputFieldDef}
    {ds : List Discriminator} : Off K (generateInputType c p name t d fs ds) := by
  unfold generateInputType
  exact calm_additionalBasesFor.off.bind fun _ => (calm_discriminatorStmts _).off.bind fun _ =>
    (off_inputFields _).bind fun _ => calm_config.off.bind fun _ => .pure

theorem off_oneofWrapper {t : String} {extra : List Expr} {f : InputFieldDef} (hn : ¬ K (t ++ pascal f.name)) :
    Off K (oneofWrapper c p t extra f) := ⟨fun r a r' h => by
  unfold oneofWrapper at h
  cases hg : generateClass c.env .input (t ++ pascal f.name) r with
  | error e =>
    rw [hg] at h
    cases e <;> cases h
  | ok x =>
    obtain ⟨cls, r1⟩ := x
    rw [hg] at h
    dsimp only at h
    refine ((off_generateInput hn).run _ _ _ hg).trans (Off.run ?_ _ _ _ h)
    exact calm_nodeName.off.bind fun _ => (off_inputAnnotation _).bind fun _ =>
        calm_annotateFieldMetadata.off.bind fun _ => calm_inputFieldValue.off.bind fun _ =>
        calm_config.off.bind fun _ => .pure⟩

theorem off_oneofWrappers {t : String} {extra : List Expr} (fs : List InputFieldDef)
    (hn : ∀ f ∈ fs, ¬ K (t ++ pascal f.name)) : Off K (oneofWrappers c p t extra fs) := by
  induction fs with
  | nil => exact .pure
  | cons f fs ih =>
    unfold oneofWrappers
    exact (off_oneofWrapper (hn f List.mem_cons_self)).bind fun _ =>
      (ih fun g hg => hn g (List.mem_cons_of_mem _ hg)).bind fun _ => .pure

theorem off_generateOneofWrapperInput {t : String} {fs : List InputFieldDef} (ht : ¬ K t)
    (hn : ∀ f ∈ fs, ¬ K (t ++ pascal f.name)) : Off K (generateOneofWrapperInput c p t fs) := by
  unfold generateOneofWrapperInput
  exact calm_additionalBasesFor.off.bind fun _ => (off_oneofWrappers _ hn).bind fun _ =>
    (off_generateInput ht).bind fun _ => calm_generateUnionAlias.off.bind fun _ => .pure

theorem off_generateOneofDirectUnion {n : String} {ms : Dict String} (hn : ¬ K n) :
    Off K (generateOneofDirectUnion c n ms) := by
  unfold generateOneofDirectUnion
  refine (off_generateInput hn).bind fun _ => (calm_memberClasses _).off.bind fun _ => Off.bind ?_ fun _ =>
      calm_registerImport.off.bind fun _ => calm_registerImport.off.bind fun _ => .pure
  unfold importIf
  exact .ite calm_registerImport.off .pure
end

/-! ## the generators of inputs and enums, on two registries -/

section
variable {c : Ctx} {p : InputsConfig} {N : Old}

local notation "S" => Sim N

theorem agree_get?_set' {d d' : Dict String} {P : String → Prop} (h : ∀ n, P n → d'.get? n = d.get? n) (k v : String) :
    ∀ n, P n → (d'.set k v).get? n = (d.set k v).get? n := by
  intro n hn
  rw [Dict.get?_set, Dict.get?_set, h n hn]

theorem sim_generateInput {env : Env} {n : String} (hn : N.names n) :
    Sim N (generateClass env .input n) (generateClass env .input n) := ⟨fun r r' a r1 hA h => by
  unfold generateClass at h ⊢
  have hc' : (r'.classMap .input).contains n = (r.classMap .input).contains n := hA.inputContains hn
  rw [hc']
  split at h
  · cases h
  rename_i hc
  rw [if_neg hc]
  cases hs : Kind.input.style env n with
  | error e => rw [hs] at h; cases h
  | ok c =>
    rw [hs] at h
    cases h
    refine ⟨_, rfl, { hA with inputMap := agree_get?_set' hA.inputMap _ _, inputOnly := fun ho m hm => ?_ }⟩
    have hne : m ≠ n := fun e => hm (e ▸ hn)
    exact (Dict.get?_set_ne _ _ hne.symm).trans (hA.inputOnly ho m hm)⟩

theorem sim_generateEnum {env : Env} {n : String} (hn : N.names n) :
    Sim N (generateClass env .enum n) (generateClass env .enum n) := ⟨fun r r' a r1 hA h => by
  unfold generateClass at h ⊢
  have hc' : (r'.classMap .enum).contains n = (r.classMap .enum).contains n := hA.enumContains hn
  rw [hc']
  split at h
  · cases h
  rename_i hc
  rw [if_neg hc]
  cases hs : Kind.enum.style env n with
  | error e => rw [hs] at h; cases h
  | ok c =>
    rw [hs] at h
    cases h
    refine ⟨_, rfl, { hA with enumMap := agree_get?_set' hA.enumMap _ _, enumOnly := fun ho m hm => ?_ }⟩
    have hne : m ≠ n := fun e => hm (e ▸ hn)
    exact (Dict.get?_set_ne _ _ hne.symm).trans (hA.enumOnly ho m hm)⟩

theorem sim_inputLeaf {parent n : String} (hn : N.names n) : S (inputLeaf c parent n) (inputLeaf c parent n) := by
  unfold inputLeaf
  split
  · exact sim_referenceScalar
  · exact sim_referenceInput hn
  · exact sim_referenceEnum hn
  · exact .fail

theorem sim_inputAnnotation {parent : String} (t : TypeNode) (hn : N.names t.base) : ∀ {o : Bool},
    S (inputAnnotation c parent t o) (inputAnnotation c parent t o) := by
  induction t with
  | named n => intro o; unfold inputAnnotation; exact (sim_inputLeaf hn).bind fun _ => sim_optionalWrap
  | nonNull t ih => intro o; unfold inputAnnotation; exact ih hn
  | list t ih =>
    intro o; unfold inputAnnotation
    exact sim_listImport.bind fun _ => (ih hn).bind fun _ => sim_optionalWrap

theorem sim_inputFieldValue {a b : String} {o : Bool} {d : Option String} :
    S (inputFieldValue a b o d) (inputFieldValue a b o d) := by
  unfold inputFieldValue
  exact .ite .pure (sim_registerImport.bind fun _ => .pure)

theorem sim_inputFields {cls : String} {skip : List String} (fs : List InputFieldDef) (hn : ∀ f ∈ fs, N.names f.type.base) :
    S (inputFields c cls skip fs) (inputFields c cls skip fs) := by
  induction fs with
  | nil => exact .pure
  | cons f fs ih =>
    have ih := ih fun g hg => hn g (List.mem_cons_of_mem _ hg)
    unfold inputFields inputFieldStmts inputFieldAnnotation
    exact Sim.lift.bind fun _ => .ite ih ((Sim.lift.bind fun _ =>
      ((sim_inputAnnotation _ (hn f List.mem_cons_self)).bind fun _ => sim_optionalWrap).bind fun _ =>
      sim_annotateFieldMetadata.bind fun _ => sim_inputFieldValue.bind fun _ => .ite .pure .pure).bind fun _ =>
      ih.bind fun _ => .pure)

theorem sim_discriminatorStmts (ds : List Discriminator) : S (discriminatorStmts ds) (discriminatorStmts ds) := by
  induction ds with
  | nil => exact .pure
  | cons d ds ih =>
    unfold discriminatorStmts
    exact sim_registerImport.bind fun _ => sim_registerImport.bind fun _ => ih.bind fun _ => .pure

theorem sim_generateInputType {name t : String} {d : Option String} {fs : List InputFieldDef}
    {ds : List Discriminator} (hn : ∀ f ∈ fs, N.names f.type.base) :
    S (generateInputType c p name t d fs ds) (generateInputType c p name t d fs ds) := by
  unfold generateInputType
  exact (sim_additionalBasesFor (s' := c.schema)).bind fun _ => (sim_discriminatorStmts _).bind fun _ =>
    (sim_inputFields _ hn).bind fun _ => (sim_generatePydanticConfig (s' := c.schema)).bind fun _ => .pure

theorem sim_oneofWrapper {t : String} {extra : List Expr} {f : InputFieldDef} (hk : N.names (t ++ pascal f.name))
    (hn : N.names f.type.base) : S (oneofWrapper c p t extra f) (oneofWrapper c p t extra f) :=
  ⟨fun r r' a r1 hA h => by
  unfold oneofWrapper at h ⊢
  cases hg : generateClass c.env .input (t ++ pascal f.name) r with
  | error e =>
    rw [hg] at h
    cases e <;> cases h
  | ok x =>
    obtain ⟨cls, r2⟩ := x
    rw [hg] at h
    obtain ⟨r2', e2, hA2⟩ := (sim_generateInput hk).run _ _ _ _ hA hg
    rw [e2]
    dsimp only at h ⊢
    refine Sim.run ?_ _ _ _ _ hA2 h
    exact Sim.lift.bind fun _ => (sim_inputAnnotation _ hn).bind fun _ =>
        sim_annotateFieldMetadata.bind fun _ => sim_inputFieldValue.bind fun _ =>
        (sim_generatePydanticConfig (s' := c.schema)).bind fun _ => .pure⟩

theorem sim_oneofWrappers {t : String} {extra : List Expr} (fs : List InputFieldDef)
    (hk : ∀ f ∈ fs, N.names (t ++ pascal f.name)) (hn : ∀ f ∈ fs, N.names f.type.base) :
    S (oneofWrappers c p t extra fs) (oneofWrappers c p t extra fs) := by
  induction fs with
  | nil => exact .pure
  | cons f fs ih =>
    unfold oneofWrappers
    exact (sim_oneofWrapper (hk f List.mem_cons_self) (hn f List.mem_cons_self)).bind fun _ =>
      (ih (fun g hg => hk g (List.mem_cons_of_mem _ hg)) fun g hg => hn g (List.mem_cons_of_mem _ hg)).bind fun _ => .pure

theorem sim_generateUnionAlias {a : String} {ms : List String} : S (generateUnionAlias a ms) (generateUnionAlias a ms) := by
  unfold generateUnionAlias
  split
  · exact .pure
  · exact sim_registerImport.bind fun _ => .pure

theorem sim_generateOneofWrapperInput {t : String} {fs : List InputFieldDef} (ht : N.names t)
    (hk : ∀ f ∈ fs, N.names (t ++ pascal f.name)) (hn : ∀ f ∈ fs, N.names f.type.base) :
    S (generateOneofWrapperInput c p t fs) (generateOneofWrapperInput c p t fs) := by
  unfold generateOneofWrapperInput
  exact (sim_additionalBasesFor (s' := c.schema)).bind fun _ => (sim_oneofWrappers _ hk hn).bind fun _ =>
    (sim_generateInput ht).bind fun _ => sim_generateUnionAlias.bind fun _ => .pure

theorem sim_memberClasses (ms : Dict String) (hn : ∀ m ∈ ms, N.names m.2) : S (memberClasses ms) (memberClasses ms) := by
  induction ms with
  | nil => exact .pure
  | cons m ms ih =>
    obtain ⟨k, m⟩ := m
    unfold memberClasses
    refine Sim.bind ?_ fun _ => (ih fun x hx => hn x (List.mem_cons_of_mem _ hx)).bind fun _ => .pure
    refine ⟨fun r r' a r1 hA h => ?_⟩
    unfold getClass at h ⊢
    have he : (r'.classMap .input).get m = (r.classMap .input).get m := by
      unfold Dict.get
      have : (r'.classMap .input).get? m = (r.classMap .input).get? m := hA.inputMap m (hn (k, m) List.mem_cons_self)
      rw [this]
    rw [he]
    cases hg : (r.classMap .input).get m with
    | error e => rw [hg] at h; cases h
    | ok x => rw [hg] at h; cases h; exact ⟨_, rfl, hA⟩

theorem sim_generateOneofDirectUnion {n : String} {ms : Dict String} (hn : N.names n) (hm : ∀ m ∈ ms, N.names m.2) :
    S (generateOneofDirectUnion c n ms) (generateOneofDirectUnion c n ms) := by
  unfold generateOneofDirectUnion
  refine (sim_generateInput hn).bind fun _ => (sim_memberClasses _ hm).bind fun _ => Sim.bind ?_ fun _ =>
      sim_registerImport.bind fun _ => sim_registerImport.bind fun _ => .pure
  unfold importIf
  exact .ite sim_registerImport .pure
end

end Turms
