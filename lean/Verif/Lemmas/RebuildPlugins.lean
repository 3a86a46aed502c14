import Verif.Lemmas.Rebuild
import Verif.Lemmas.ScopePlugins

/-! # Which names are rebuilt at the end of a module: the plugins -/

namespace Turms
open Spec

/-- Unless something may be left to rebuild (`T`), the enums, the inputs and the fragments `D` are registered (and scalars
are as configured); the classes of the fragments that are not on an interface are in `E`. -/
def Prepared (T : Prop) (c : Ctx) (E D : String → Prop) (r : Reg) : Prop :=
  T ∨ (r.scalarMap = (Reg.init c.env).scalarMap ∧ (∀ t, IsEnum c.schema t → t ∉ builtinNames → r.enumMap.contains t = true) ∧
    (∀ t, IsInput c.schema t → r.inputMap.contains t = true) ∧ ∀ g, D g → r.fragmentMap.contains g = true ∧
      (Impl c r g ∨ ∀ m, Kind.fragment.style c.env g = .ok m → E m))

section
variable {α β : Type} {A : Reg → Prop} {B E : String → Prop} {O : Prop}

theorem Fwd.keep {g : Gen α} (h : ∀ r a r', g r = .ok (a, r') →
    (A r → A r') ∧ r'.builtins = r.builtins ∧ r'.forwardReferences = r.forwardReferences) : Fwd A B E O g fun _ => O := by
  constructor
  intro r a r' hA e
  obtain ⟨h1, h2, h3⟩ := h r a r' e
  exact ⟨h1 hA, fun b hb => h2 ▸ hb, id, fun _ _ n hn => .inl (h3 ▸ hn)⟩

theorem Fwd.thenF {x : Gen α} {f : α → Gen β} {Q : β → Prop} (hx : Fwd A B E True x fun _ => True)
    (hf : ∀ a, Fwd A B E O (f a) Q) : Fwd A B E O (x >>= f) Q :=
  hx.bind fun a => (hf a).mono (fun _ h => h) fun h => ⟨h, trivial⟩
end

section
variable {T : Prop} {c : Ctx} {E D : String → Prop}

theorem Prepared.of_maps {r r' : Reg} (h : Prepared T c E D r)
    (h1 : ∀ t, r.enumMap.contains t = true → r'.enumMap.contains t = true)
    (h2 : ∀ t, r.inputMap.contains t = true → r'.inputMap.contains t = true)
    (h3 : ∀ t, r.fragmentMap.contains t = true → r'.fragmentMap.contains t = true)
    (h0 : r'.scalarMap = r.scalarMap := by rfl)
    (h4 : ∀ t, Impl c r t → Impl c r' t := by intro _ h; exact h) : Prepared T c E D r' := by
  rcases h with h | ⟨e, a, b, d⟩
  · exact .inl h
  · exact .inr ⟨h0.trans e, fun t x y => h1 t (a t x y), fun t x => h2 t (b t x), fun t x => ⟨h3 t (d t x).1, (d t x).2.imp (h4 t) id⟩⟩

theorem ready_stable : Stable (Prepared T c E D) := by
  intro r r' q h
  obtain ⟨_, _, _, rfl, _⟩ := q
  exact h.of_maps (fun _ h => h) (fun _ h => h) (fun _ h => h)

theorem contains_set {α : Type} {d : Dict α} {k t : String} {v : α} (h : d.contains t = true) :
    (d.set k v).contains t = true := by
  rw [Dict.contains_eq_isSome] at *
  by_cases e : k = t
  · subst e; rw [Dict.get?_set_self]; rfl
  · rw [Dict.get?_set_ne _ _ e]; exact h

theorem contains_set_self {α : Type} {d : Dict α} {k : String} {v : α} : (d.set k v).contains k = true := by
  rw [Dict.contains_eq_isSome, Dict.get?_set_self]; rfl

theorem setClass_keeps {r : Reg} {k : Kind} {n m : String} (h : Prepared T c E D r) : Prepared T c E D (r.setClass k n m) := by
  cases k <;> exact h.of_maps (fun _ h => by first | exact h | exact contains_set h)
    (fun _ h => by first | exact h | exact contains_set h) (fun _ h => by first | exact h | exact contains_set h)

theorem generateClass_keeps {env : Env} {k : Kind} {n : String} {r r' : Reg} {a : String}
    (h : generateClass env k n r = .ok (a, r')) : (Prepared T c E D r → Prepared T c E D r') ∧ r'.builtins = r.builtins ∧
    r'.forwardReferences = r.forwardReferences := by
  obtain ⟨_, _, rfl⟩ := generateClass_ok h
  exact ⟨setClass_keeps, by cases k <;> rfl, by cases k <;> rfl⟩

/-- from readiness to the rules of the walk -/
theorem Prepared.rules {B : String → Prop}
    (hB : ¬ T → ∀ t, IsEnum c.schema t → t ∈ builtinNames → ¬ B t)
    (hE : ¬ T → ∀ t m, IsEnum c.schema t → t ∉ builtinNames → Kind.enum.style c.env t = .ok m → E m) : Rules c D (Prepared T c E D) B E T := by
  refine ⟨ready_stable, fun t ht => ?_, fun f hf => ?_⟩
  · by_cases hT : T
    · exact .inl hT
    · by_cases hb : t ∈ builtinNames
      · exact .inr (.inl ⟨hb, hB hT t ht hb⟩)
      · exact .inr (.inr ⟨hb, fun r hr => (hr.resolve_left hT).2.1 t ht hb, fun m hm => hE hT t m ht hb hm⟩)
  · by_cases hT : T
    · exact .inl hT
    · exact .inr fun r hr => (hr.resolve_left hT).2.2.2 f hf
end

/-! ## fragments -/

section
variable {S B E : String → Prop} {A : Reg → Prop} {T : Prop} {c : Ctx} (hR : Rules c S A B E T)
include hR

theorem fw_typeFieldNode {parent : String} {fd : FieldDef} {name : String} {al : Option String} {sub : List Sel}
    (h : SpreadsIn S sub) : Fwd A B E True (typeFieldNode c parent fd name al sub) fun x => FNode T E parent x.2 := by
  unfold typeFieldNode recurseNamed
  exact fw_typeField hR.stable (fw_namedNode hR h.mem
    (fun n fs k => fw_objectSels hR sub h n fs k) (fun fs k => fw_interfaceSels hR sub h fs k)
    (fw_unionSels hR sub h _))

theorem fw_fragInterfaceSels {fs : List FieldDef} {name : String} (ss : List Sel) : SpreadsIn S ss →
    Fwd A B E True (fragInterfaceSels c fs name ss) fun p => FNode T E name p.classes := by
  induction ss with
  | nil => intro _; exact .pure fun _ => trivial
  | cons s rest ih =>
    intro h
    unfold fragInterfaceSels
    have hs : Fwd A B E True (fragInterfaceSel c fs name s) fun p => FNode T E name p.classes := by
      unfold fragInterfaceSel
      split
      · exact (fw_inlineSels hR _ h.inline _ _).bind fun x => .pure fun hx => ⟨trivial, hx⟩
      · exact fw_interfaceSel hR _ h.head _ _
    exact hs.bind fun _ => (ih h.tail).bind fun _ => .pure fun hx => ⟨⟨trivial, hx.1, hx.2.left⟩, hx.1, hx.2.right⟩

theorem fw_fragObjectSels {t name : String} (ss : List Sel) : SpreadsIn S ss →
    Fwd A B E True (fragObjectSels c t name ss) fun p => FNode T E name p.classes := by
  induction ss with
  | nil => intro _; exact .pure fun _ => trivial
  | cons s rest ih =>
    intro h
    unfold fragObjectSels
    have hs : Fwd A B E True (fragObjectSel c t name s) fun p => FNode T E name p.classes := by
      unfold fragObjectSel
      split
      · exact .then hR.stable calm_fragSpreadBase fun _ => .pure fun _ => trivial
      · exact .pure fun _ => trivial
      · exact .ite (fun _ => .pure fun _ => trivial) fun _ => .then hR.stable calm_assertFieldDef fun fd =>
          (fw_typeFieldNode hR h.field).bind fun x => .pure fun hx => ⟨trivial, hx⟩
    exact hs.bind fun _ => (ih h.tail).bind fun _ => .pure fun hx => ⟨⟨trivial, hx.1, hx.2.left⟩, hx.1, hx.2.right⟩

theorem fw_fragUnionInlineSels {t name : String} (ss : List Sel) : SpreadsIn S ss →
    Fwd A B E True (fragUnionInlineSels c t name ss) fun p => FNode T E name p.classes := by
  induction ss with
  | nil => intro _; exact .pure fun _ => trivial
  | cons s rest ih =>
    intro h
    unfold fragUnionInlineSels
    have hs : Fwd A B E True (fragUnionInlineSel c t name s) fun p => FNode T E name p.classes := by
      unfold fragUnionInlineSel
      split
      · exact .pure fun _ => trivial
      · exact .pure fun _ => trivial
      · exact .ite (fun _ => .pure fun _ => trivial) fun _ => .then hR.stable calm_assertFieldDef fun fd =>
          (fw_typeFieldNode hR h.field).bind fun x => .pure fun hx => ⟨trivial, hx⟩
    exact hs.bind fun _ => (ih h.tail).bind fun _ => .pure fun hx => ⟨⟨trivial, hx.1, hx.2.left⟩, hx.1, hx.2.right⟩

theorem fw_fragUnionSels {name : String} (ss : List Sel) : SpreadsIn S ss →
    Fwd A B E True (fragUnionSels c name ss) fun p => FNode T E name p.classes := by
  induction ss with
  | nil => intro _; exact .pure fun _ => trivial
  | cons s rest ih =>
    intro h
    unfold fragUnionSels
    have hs : Fwd A B E True (fragUnionSel c name s) fun p => FNode T E name p.classes := by
      unfold fragUnionSel
      split
      · exact .then hR.stable calm_unionMembersOf fun _ => .pure fun _ => trivial
      · exact .fail
      · exact (fw_fragUnionInlineSels hR _ h.inline).bind fun x => .pure fun hx => ⟨trivial, hx⟩
      · exact .ite (fun _ => .pure fun _ => trivial) fun _ => .fail
    exact hs.bind fun _ => (ih h.tail).bind fun _ => .pure fun hx => ⟨⟨trivial, hx.1, hx.2.left⟩, hx.1, hx.2.right⟩

end

theorem impl_set {c : Ctx} {r : Reg} {f g : String} {m : Dict String} (h : Impl c r g) :
    Impl c { r with interfaceFragmentImpl := r.interfaceFragmentImpl.set f m } g := by
  obtain ⟨⟨m', hm⟩, ht⟩ := h
  refine ⟨?_, ht⟩
  by_cases e : f = g
  · subst e; exact ⟨m, Dict.get?_set_self ..⟩
  · exact ⟨m', (Dict.get?_set_ne _ _ e).trans hm⟩

section
variable {S B E : String → Prop} {A : Reg → Prop} {T : Prop} {c : Ctx} (hR : Rules c S A B E T)
include hR

theorem fw_fragmentBody {prep : List Char → List Char} {p : FragmentsConfig} {f : FragDef} {name : String} {e : TypeEntry}
    (hI : ∀ r m, A r → A { r with interfaceFragmentImpl := r.interfaceFragmentImpl.set f.name m })
    (hU : ∀ r m, A r → A { r with unionFragmentMembers := r.unionFragmentMembers.set f.name m })
    (h : SpreadsIn S f.sels) : Fwd A B E True (fragmentBody prep c p f name e) fun ss => Cov T E ss := by
  unfold fragmentBody
  split
  · unfold interfaceFragment
    exact .then hR.stable calm_additionalBasesFor fun extra => (fw_fragInterfaceSels hR _ h).bind fun q =>
      .then hR.stable calm_interfaceBasesOf fun ib => .then hR.stable calm_genericTypenameField fun tn =>
      .then hR.stable (calm_fragImplementingClasses _) fun impls =>
      Fwd.thenF (.keep fun r a r' e => by cases e; exact ⟨hI _ _, rfl, rfl⟩)
      fun _ => .pure fun hx => ⟨trivial, cov_base hx.left.right, hx.left.left⟩
  · unfold objectFragment
    exact .then hR.stable calm_additionalBasesFor fun extra => .then hR.stable calm_typenameField fun tn =>
      (fw_fragObjectSels hR _ h).bind fun q => .then hR.stable calm_fragmentMeta fun _ =>
      .then hR.stable calm_fragmentBasesOf fun _ => .then hR.stable calm_config fun _ =>
      .pure fun hx => ⟨trivial, cov_class hx.right, hx.left⟩
  · unfold unionFragment
    exact .then hR.stable calm_additionalBasesFor fun extra => (fw_fragUnionSels hR _ h).bind fun q =>
      .then hR.stable (calm_fragMemberClasses _) fun ms =>
      Fwd.thenF (.keep fun r a r' e => by cases e; exact ⟨hU _ _, rfl, rfl⟩)
      fun _ => .then hR.stable calm_registerImport fun _ => .pure fun hx => ⟨trivial, fun ht =>
        hx.left.right ht name (.inl (by simp [boundL, bound])), hx.left.left.left⟩
  · exact .fail

end

/-- one fragment: it is registered first -/
theorem generateFragment_forward {D B E : String → Prop} {T : Prop} {c : Ctx} {prep : List Char → List Char}
    {p : FragmentsConfig} {f : FragDef} {r r' : Reg} {ss : List Stmt}
    (hB : ¬ T → ∀ t, IsEnum c.schema t → t ∈ builtinNames → ¬ B t)
    (hE : ¬ T → ∀ t m, IsEnum c.schema t → t ∉ builtinNames → Kind.enum.style c.env t = .ok m → E m)
    (hF : ¬ T → ∀ m, ¬ IsInterface c.schema f.typeCondition → Kind.fragment.style c.env f.name = .ok m → E m)
    (hs : SpreadsIn D f.sels) (hP : Prepared T c E D r) (h : generateFragment prep c p f r = .ok (ss, r')) :
    Prepared T c E (fun g => D g ∨ g = f.name) r' ∧ (∀ b ∈ r.builtins, b ∈ r'.builtins) ∧
    (Cov T E ss → (∀ b ∈ r'.builtins, B b) → ∀ n ∈ r'.forwardReferences, n ∈ r.forwardReferences ∨ E n) := by
  unfold generateFragment at h
  cases he : c.schema.types.get? f.typeCondition with
  | none => rw [he] at h; exact (Gen.fail_ok.1 h).elim
  | some e =>
    rw [he] at h
    dsimp only at h
    obtain ⟨name, r1, h1, h⟩ := Gen.bind_ok.1 h
    obtain ⟨_, r2, h2, h⟩ := Gen.bind_ok.1 h
    obtain ⟨_, r3, h3, h⟩ := Gen.bind_ok.1 h
    let A : Reg → Prop := fun x => Prepared T c E D x ∧ x.fragmentMap.contains f.name = true ∧
      x.fragmentTypeMap.get? f.name = some f.typeCondition
    have key : A r3 ∧ r3.builtins = r.builtins ∧ r3.forwardReferences = r.forwardReferences := by
      obtain ⟨_, _, rfl⟩ := generateClass_ok h1
      unfold registerFragmentDocument at h2
      split at h2
      · cases h2
      cases h2
      cases h3
      refine ⟨⟨?_, contains_set_self, Dict.get?_set_self ..⟩, rfl, rfl⟩
      by_cases hT : T
      · exact .inl hT
      · obtain ⟨e, a, b, d⟩ := hP.resolve_left hT
        refine .inr ⟨e, a, b, fun g hg => ⟨contains_set (d g hg).1, ?_⟩⟩
        by_cases hn : f.name = g
        · subst hn
          by_cases hi : IsInterface c.schema f.typeCondition
          · exact (d _ hg).2.imp (fun ⟨h, _⟩ => ⟨h, _, Dict.get?_set_self .., hi⟩) id
          · exact .inr fun m hm => hF hT m hi hm
        · exact (d g hg).2.imp (fun ⟨h, t, ht, hi⟩ => ⟨h, t, (Dict.get?_set_ne _ _ hn).trans ht, hi⟩) id
    obtain ⟨hP', hb, hf⟩ := key
    have hR : Rules c D A B E T := by
      obtain ⟨_, q2, q3⟩ := Prepared.rules (D := D) hB hE
      refine ⟨fun r r' q h => ⟨ready_stable r r' q h.1, ?_⟩, fun t ht => (q2 t ht).imp id (Or.imp id fun h => ⟨h.1, fun r hr => h.2.1 r hr.1, h.2.2⟩),
        fun g hg => (q3 g hg).imp id fun h r hr => h r hr.1⟩
      obtain ⟨_, _, _, rfl, _⟩ := q
      exact h.2
    obtain ⟨a1, b1, _, d1⟩ := (fw_fragmentBody hR
      (fun r m h => ⟨h.1.of_maps (fun _ h => h) (fun _ h => h) (fun _ h => h) rfl fun _ h => impl_set h, h.2⟩)
      (fun r m h => ⟨h.1.of_maps (fun _ h => h) (fun _ h => h) (fun _ h => h), h.2⟩) hs).run _ _ _ hP' h
    rw [hb] at b1
    rw [hf] at d1
    refine ⟨?_, b1, d1⟩
    obtain ⟨p1, p2, p3⟩ := a1
    by_cases hT : T
    · exact .inl hT
    · obtain ⟨e1, a, b, d⟩ := p1.resolve_left hT
      refine .inr ⟨e1, a, b, ?_⟩
      rintro g (hg | rfl)
      · exact d g hg
      · refine ⟨p2, ?_⟩
        by_cases hi : IsInterface c.schema f.typeCondition
        · refine .inl ⟨?_, _, p3, hi⟩
          obtain ⟨fs, is, hl⟩ := hi
          obtain ⟨d, rfl⟩ : ∃ d, e = ⟨.interface fs is, d⟩ := by
            unfold Schema.lookup at hl
            rw [he] at hl
            cases e
            cases hl
            exact ⟨_, rfl⟩
          unfold fragmentBody at h
          obtain ⟨r4, _, rfl⟩ := interfaceFragment_core h
          exact ⟨_, Dict.get?_set_self ..⟩
        · exact .inr fun m hm => hF hT m hi hm

/-- all fragments, in an order in which they come after the fragments they spread -/
theorem generateFragments_forward {B E : String → Prop} {T : Prop} {c : Ctx} {prep : List Char → List Char}
    {p : FragmentsConfig} (hB : ¬ T → ∀ t, IsEnum c.schema t → t ∈ builtinNames → ¬ B t)
    (hE : ¬ T → ∀ t m, IsEnum c.schema t → t ∉ builtinNames → Kind.enum.style c.env t = .ok m → E m) (fs : List FragDef) :
    ∀ {D : String → Prop} {r r' : Reg} {ss : List Stmt},
    (¬ T → ∀ f ∈ fs, ∀ m, ¬ IsInterface c.schema f.typeCondition → Kind.fragment.style c.env f.name = .ok m → E m) →
    (∀ before d after, fs = before ++ d :: after → ∀ x, Spreads d.sels x → D x ∨ x ∈ before.map (·.name)) →
    Prepared T c E D r → generateFragments prep c p fs r = .ok (ss, r') →
    Prepared T c E (fun g => D g ∨ g ∈ fs.map (·.name)) r' ∧ (∀ b ∈ r.builtins, b ∈ r'.builtins) ∧
    (Cov T E ss → (∀ b ∈ r'.builtins, B b) → ∀ n ∈ r'.forwardReferences, n ∈ r.forwardReferences ∨ E n) := by
  induction fs with
  | nil =>
    intro D r r' ss _ _ hP h
    obtain ⟨rfl, rfl⟩ := Gen.pure_ok.1 h
    refine ⟨?_, fun _ h => h, fun _ _ n hn => .inl hn⟩
    simpa using hP
  | cons f fs ih =>
    intro D r r' ss hF hord hP h
    unfold generateFragments at h
    obtain ⟨s1, r1, h1, h⟩ := Gen.bind_ok.1 h
    obtain ⟨s2, r2, h2, h⟩ := Gen.bind_ok.1 h
    obtain ⟨rfl, rfl⟩ := Gen.pure_ok.1 h
    obtain ⟨a1, b1, d1⟩ := generateFragment_forward (D := D) hB hE
      (fun hT => hF hT f (List.mem_cons_self ..))
      (fun x hx => by simpa using hord [] f fs rfl x hx) hP h1
    obtain ⟨a2, b2, d2⟩ := ih (D := fun g => D g ∨ g = f.name)
      (fun hT g hg => hF hT g (List.mem_cons_of_mem _ hg))
      (fun before d after e x hx => by
        have := hord (f :: before) d after (by rw [e]; rfl) x hx
        simpa [or_assoc] using this) a1 h2
    refine ⟨?_, fun b hb => b2 b (b1 b hb), fun hc hB n hn => ?_⟩
    · simpa [or_assoc] using a2
    · rcases d2 hc.right hB n hn with hn | hn
      · exact d1 hc.left (fun b hb => hB b (b2 b hb)) n hn
      · exact .inr hn

/-! ## operations -/

theorem calm_referenceInput {env : Env} {n q : String} : Calm (referenceInput env n q false) := by
  constructor
  intro r a r' h
  unfold referenceInput at h
  split at h
  · cases h
  · split at h
    · cases h
    · split at h
      · cases h
      · cases h; exact ⟨.refl _, rfl⟩
theorem calm_referenceGeneric {env : Env} {k : Kind} {n q : String} : Calm (referenceGeneric env k n q false) := by
  constructor
  intro r a r' h
  unfold referenceGeneric at h
  split at h
  · cases h
  · split at h
    · cases h
    · cases h; exact ⟨.refl _, rfl⟩
theorem calm_referenceEnum {env : Env} {n q : String} (hn : n ∉ builtinNames) : Calm (referenceEnum env n q false) := by
  constructor
  intro r a r' h
  unfold referenceEnum at h
  split at h
  · rename_i hb; exact (hn (List.contains_iff_mem.1 hb)).elim
  · split at h
    · cases h
    · split at h
      · cases h
      · cases h; exact ⟨.refl _, rfl⟩
theorem calm_referenceNamed {env : Env} {n : String} (hn : n ∉ builtinNames) : Calm (referenceNamed env n) := by
  constructor
  intro r a r' h
  unfold referenceNamed at h
  split at h
  · split at h
    · split at h
      · cases h
      · exact (calm_referenceEnum hn).run r a r' h
    · exact calm_referenceInput.run r a r' h
  · exact calm_referenceScalar.run r a r' h
theorem calm_recurseTypeAnnotation {env : Env} {x : Option Expr} (t : TypeNode) (hn : x = none → t.base ∉ builtinNames) :
    ∀ {o : Bool}, Calm (recurseTypeAnnotation env x t o) := by
  induction t with
  | named n =>
    intro o
    unfold recurseTypeAnnotation namedOr
    refine Calm.bind ?_ fun _ => calm_optionalWrap
    split
    · exact .pure
    · exact calm_referenceNamed (hn rfl)
  | list t ih =>
    intro o; unfold recurseTypeAnnotation
    exact calm_registerImport.bind fun _ => (ih hn).bind fun _ => calm_optionalWrap
  | nonNull t ih => intro o; unfold recurseTypeAnnotation; exact ih hn
theorem calm_defaultMarker {d : Option Value} : Calm (defaultMarker d) :=
  ⟨fun r a r' h => by rw [(defaultMarker_value h).1]; exact ⟨.refl _, rfl⟩⟩
theorem calm_argumentValue {n t : String} {o : Bool} : Calm (argumentValue n t o) := by
  unfold argumentValue
  exact .ite (calm_registerImport.bind fun _ => .pure) .pure
theorem calm_argumentStmts {c : Ctx} (vs : List VarDef) (h : ∀ v ∈ vs, v.type.base ∉ builtinNames) :
    Calm (argumentStmts c vs) := by
  induction vs with
  | nil => exact .pure
  | cons v vs ih =>
    unfold argumentStmts argumentStmt
    exact ((calm_recurseTypeAnnotation _ fun _ => h v (List.mem_cons_self ..)).bind fun _ => calm_optionalWrap.bind fun _ =>
      calm_defaultMarker.bind fun _ => calm_annotateFieldMetadata.bind fun _ => calm_parameterName.bind fun _ =>
      calm_argumentValue.bind fun _ => .pure).bind fun _ => (ih fun v hv => h v (List.mem_cons_of_mem _ hv)).bind fun _ => .pure
theorem calm_argumentsClass {c : Ctx} {p : OperationsConfig} {o : OpDef} {n : String}
    (h : ∀ v ∈ o.vars, v.type.base ∉ builtinNames) : Calm (argumentsClass c p o n) := by
  unfold argumentsClass
  refine .ite ((calm_argumentStmts _ h).bind fun _ => Calm.bind ?_ fun _ => calm_basesOrObject.bind fun _ => .pure) .pure
  unfold argumentsConfig
  exact calm_registerImport.bind fun _ => .pure

section
variable {D B E : String → Prop} {T : Prop} {c : Ctx} (hR : Rules c D (Prepared T c E D) B E T)
include hR

theorem fw_operationSels {root cls : String} (ss : List Sel) : SpreadsIn D ss →
    Fwd (Prepared T c E D) B E True (operationSels c root cls ss) fun x => FNode T E cls x.2 := by
  induction ss with
  | nil => intro _; exact .pure fun _ => trivial
  | cons s rest ih =>
    intro h
    unfold operationSels
    have hs : Fwd (Prepared T c E D) B E True (operationSel c root cls s) fun x => FNode T E cls x.2 := by
      unfold operationSel
      split
      · exact .then hR.stable calm_assertFieldDef fun fd => fw_typeFieldNode hR h.field
      · exact .fail
    exact hs.bind fun _ => (ih h.tail).bind fun _ => .pure fun hx => ⟨⟨trivial, hx.1, hx.2.left⟩, hx.1, hx.2.right⟩

theorem fw_generateOperation {prep : List Char → List Char} {p : OperationsConfig} {o : OpDef} (h : SpreadsIn D o.sels)
    (hv : ∀ v ∈ o.vars, v.type.base ∉ builtinNames) :
    Fwd (Prepared T c E D) B E True (generateOperation prep c p o) fun ss => Cov T E ss := by
  unfold generateOperation
  split
  · exact .fail
  · refine Fwd.thenF (.keep fun r a r' e => generateClass_keeps e) fun cls => .then hR.stable calm_basesOrObject fun _ =>
      .then hR.stable calm_rootTypeOf fun _ => (fw_operationSels hR _ h).bind fun x => Fwd.thenF (.keep fun r a r' e => ?_)
      fun _ => .then hR.stable calm_mergedDocument fun _ => .then hR.stable (calm_argumentsClass hv) fun _ =>
      .pure fun hx => ⟨trivial, cov_class hx.right, hx.left⟩
    unfold registerSingle at e
    repeat' split at e
    all_goals (cases e; exact ⟨fun h => h.of_maps (fun _ h => h) (fun _ h => h) (fun _ h => h), rfl, rfl⟩)

theorem fw_generateOperations {prep : List Char → List Char} {p : OperationsConfig} (os : List OpDef)
    (h : ∀ o ∈ os, SpreadsIn D o.sels) (hv : ∀ o ∈ os, ∀ v ∈ o.vars, v.type.base ∉ builtinNames) :
    Fwd (Prepared T c E D) B E True (generateOperations prep c p os) fun ss => Cov T E ss := by
  induction os with
  | nil => exact .pure fun _ => trivial
  | cons o os ih =>
    unfold generateOperations
    exact (fw_generateOperation hR (h o (List.mem_cons_self ..)) (hv o (List.mem_cons_self ..))).bind fun _ =>
      (ih (fun o ho => h o (List.mem_cons_of_mem _ ho)) (fun o ho => hv o (List.mem_cons_of_mem _ ho))).bind fun _ =>
      .pure fun hx => ⟨⟨trivial, hx.left⟩, hx.right⟩
end
end Turms
