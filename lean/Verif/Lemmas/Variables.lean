import Verif.Spec.Variables
import Verif.Lemmas.InputValues
import Verif.Lemmas.InputFields
import Verif.Lemmas.Compose
import Verif.Lemmas.ResponsePlugins
import Verif.Props.Annotations

/-! # The `Arguments` class of an operation -/

namespace Turms
open Spec Props

/-! ## registered classes keep their styled names -/

/-- every run of the generator keeps styled registries styled -/
structure Paints {α : Type} (env : Env) (g : Gen α) : Prop where
  run : ∀ r a r1, g r = .ok (a, r1) → Styled env r → Styled env r1

section
variable {α β : Type} {env : Env}

theorem Paints.bind {x : Gen α} {f : α → Gen β} (hx : Paints env x) (hf : ∀ a, Paints env (f a)) : Paints env (x >>= f) :=
  ⟨fun r b r1 h s => by
    obtain ⟨a, r2, h1, h2⟩ := Gen.bind_ok.1 h
    exact (hf a).run _ _ _ h2 (hx.run _ _ _ h1 s)⟩
theorem Still.paints {g : Gen α} (h : Still g) : Paints env g := ⟨fun _ _ _ hg s => s.frame (h.quiet hg).frame⟩
theorem Paints.pure {a : α} : Paints env (pure a : Gen α) := Still.pure.paints
theorem Paints.fail {e : Err} : Paints env (Gen.fail e : Gen α) := Still.fail.paints
end

section
variable {c : Ctx} {prep : List Char → List Char}

theorem paints_generateClass {env : Env} {k : Kind} {n : String} : Paints env (generateClass env k n) :=
  ⟨fun _ _ _ h s => styled_generateClass s h⟩
theorem paints_fragmentDocument {env : Env} {f d : String} : Paints env (registerFragmentDocument f d) := ⟨fun r a r1 h s => by
  unfold registerFragmentDocument at h
  split at h
  · cases h
  · cases h
    exact s.congr fun k => by cases k <;> rfl⟩
theorem paints_fragmentType {env : Env} {f t : String} : Paints env (registerFragmentType f t) := ⟨fun r a r1 h s => by
  cases h
  exact s.congr fun k => by cases k <;> rfl⟩
theorem paints_implementations {env : Env} {f : String} {m : Dict String} : Paints env (registerImplementations f m) :=
  ⟨fun r a r1 h s => by
  cases h
  exact s.congr fun k => by cases k <;> rfl⟩
theorem paints_unionMembers {env : Env} {f : String} {m : Dict String} : Paints env (registerUnionMembers f m) :=
  ⟨fun r a r1 h s => by
  cases h
  exact s.congr fun k => by cases k <;> rfl⟩
theorem paints_single {env : Env} {f : String} {ns : List (List Stmt)} : Paints env (registerSingle f ns) := ⟨fun r a r1 h s => by
  unfold registerSingle at h
  split at h
  · split at h <;> cases h <;> exact s.congr fun k => by cases k <;> rfl
  · cases h
    exact s⟩

theorem paints_fragmentBody {p : FragmentsConfig} {f : FragDef} {n : String} {e : TypeEntry} :
    Paints c.env (fragmentBody prep c p f n e) := by
  obtain ⟨d, desc⟩ := e
  cases d with
  | scalar => exact .fail
  | enum vs => exact .fail
  | input a b => exact .fail
  | object fs is =>
    unfold fragmentBody objectFragment
    exact (still_additionalBasesFor.bind fun _ => still_typenameField.bind fun _ => (still_fragObjectSels _).bind fun _ =>
      still_fragmentMeta.bind fun _ => still_fragmentBasesOf.bind fun _ => still_generatePydanticConfig.bind fun _ => .pure).paints
  | interface fs is =>
    unfold fragmentBody interfaceFragment
    exact still_additionalBasesFor.paints.bind fun _ => (still_fragInterfaceSels _).paints.bind fun _ =>
      still_interfaceBasesOf.paints.bind fun _ => still_genericTypenameField.paints.bind fun _ =>
      (still_fragImplementingClasses _).paints.bind fun _ => paints_implementations.bind fun _ => .pure
  | union ms =>
    unfold fragmentBody unionFragment
    exact still_additionalBasesFor.paints.bind fun _ => (still_fragUnionSels _).paints.bind fun _ =>
      (still_fragMemberClasses _).paints.bind fun _ => paints_unionMembers.bind fun _ =>
      still_registerImport.paints.bind fun _ => .pure

theorem paints_generateFragment {p : FragmentsConfig} {f : FragDef} : Paints c.env (generateFragment prep c p f) := by
  unfold generateFragment
  split
  · exact .fail
  · exact paints_generateClass.bind fun _ => paints_fragmentDocument.bind fun _ =>
      paints_fragmentType.bind fun _ => paints_fragmentBody

theorem paints_generateOperation {p : OperationsConfig} {o : OpDef} : Paints c.env (generateOperation prep c p o) := by
  unfold generateOperation
  split
  · exact .fail
  · exact paints_generateClass.bind fun _ => still_basesOrObject.paints.bind fun _ => still_rootTypeOf.paints.bind fun _ =>
      (still_operationSels _).paints.bind fun _ => paints_single.bind fun _ => still_mergedDocument.paints.bind fun _ =>
      still_argumentsClass.paints.bind fun _ => .pure

/-- what the variables of operations are resolved with -/
structure SameTypes (env : Env) (r0 r : Reg) : Prop where
  styled : Styled env r
  scalarMap : r.scalarMap = r0.scalarMap
  inputMap : r.inputMap = r0.inputMap

theorem SameTypes.frame {env : Env} {r0 r r' : Reg} (h : SameTypes env r0 r) (f : Frame r r') : SameTypes env r0 r' :=
  ⟨h.styled.frame f, f.1.trans h.scalarMap, (f.2 .input).trans h.inputMap⟩

theorem SameTypes.registered {env : Env} {r0 r : Reg} (h : SameTypes env r0 r) :
    registeredClass env r = registeredClass env r0 := by
  funext n
  unfold registeredClass scalarClass
  rw [h.scalarMap, h.inputMap]

theorem Touched.sameTypes {env : Env} {F D O : String → Prop} {r0 r r' : Reg} (h : SameTypes env r0 r) (t : Touched F D O r r')
    (s : Styled env r') : SameTypes env r0 r' := ⟨s, t.scalarMap.trans h.scalarMap, t.inputMap.trans h.inputMap⟩

theorem sameTypes_fragments {p : FragmentsConfig} {r0 : Reg} (fs : List FragDef) : ∀ {r r' : Reg} {ss : List Stmt},
    SameTypes c.env r0 r → generateFragments prep c p fs r = .ok (ss, r') → SameTypes c.env r0 r' := by
  induction fs with
  | nil =>
    intro r r' ss h hg
    obtain ⟨_, rfl⟩ := Gen.pure_ok.1 hg
    exact h
  | cons f fs ih =>
    intro r r' ss h hg
    unfold generateFragments at hg
    obtain ⟨a, r1, h1, hg⟩ := Gen.bind_ok.1 hg
    obtain ⟨b, r2, h2, hg⟩ := Gen.bind_ok.1 hg
    obtain ⟨_, rfl⟩ := Gen.pure_ok.1 hg
    exact ih ((moves_generateFragment.run _ _ _ h1).sameTypes h (paints_generateFragment.run _ _ _ h1 h.styled)) h2

theorem sameTypes_fragmentsPlugin {p : FragmentsConfig} {doc : Document} {r0 r r' : Reg} {ss : List Stmt}
    (h : SameTypes c.env r0 r) (hg : fragmentsPlugin prep c p doc r = .ok (ss, r')) : SameTypes c.env r0 r' := by
  unfold fragmentsPlugin at hg
  obtain ⟨fs, r1, h1, hg⟩ := Gen.bind_ok.1 hg
  obtain ⟨_, rfl⟩ := Gen.lift_ok.1 h1
  exact sameTypes_fragments fs h hg

/-- every operation is generated in a registry that knows the same types -/
theorem operations_each {p : OperationsConfig} {r0 : Reg} (os : List OpDef) : ∀ {r r' : Reg} {ss : List Stmt},
    SameTypes c.env r0 r → generateOperations prep c p os r = .ok (ss, r') →
    ∀ o ∈ os, ∃ q q' code, SameTypes c.env r0 q ∧ generateOperation prep c p o q = .ok (code, q') ∧ ∀ s ∈ code, s ∈ ss := by
  induction os with
  | nil => intro _ _ _ _ _ o ho; cases ho
  | cons x os ih =>
    intro r r' ss h hg o ho
    unfold generateOperations at hg
    obtain ⟨a, r1, h1, hg⟩ := Gen.bind_ok.1 hg
    obtain ⟨b, r2, h2, hg⟩ := Gen.bind_ok.1 hg
    obtain ⟨rfl, _⟩ := Gen.pure_ok.1 hg
    rcases List.mem_cons.1 ho with rfl | ho
    · exact ⟨_, _, _, h, h1, fun s hs => List.mem_append_left _ hs⟩
    · obtain ⟨q, q', code, h3, h4, h5⟩ :=
        ih ((moves_generateOperation.run _ _ _ h1).sameTypes h (paints_generateOperation.run _ _ _ h1 h.styled)) h2 o ho
      exact ⟨q, q', code, h3, h4, fun s hs => List.mem_append_right _ (h5 s hs)⟩

/-! ## one field of the class -/

theorem argumentValue_ok {fieldName key : String} {o : Bool} {v : Option Expr} {r r' : Reg}
    (h : argumentValue fieldName key o r = .ok (v, r')) (ann : Expr) :
    Frame r r' ∧ fieldOf (.annAssign fieldName ann v) = some ⟨key, o, ann⟩ := by
  unfold argumentValue at h
  by_cases hk : key = fieldName
  · subst hk
    simp only [bne_self_eq_false, Bool.false_eq_true, if_false] at h
    obtain ⟨rfl, rfl⟩ := Gen.pure_ok.1 h
    refine ⟨Frame.refl _, ?_⟩
    cases o <;> simp [fieldOf, aliasOf, kwarg]
  · have hne : (key != fieldName) = true := by simpa using hk
    simp only [hne, if_true] at h
    obtain ⟨_, r1, h1, h⟩ := Gen.bind_ok.1 h
    obtain ⟨rfl, rfl⟩ := Gen.pure_ok.1 h
    refine ⟨frame_registerImport h1, ?_⟩
    cases o <;> simp [fieldOf, aliasOf, kwarg, Expr.str]

/-- the field of a variable: its key, whether it may be left out, and the values it takes -/
structure FieldFor (env : Env) (r0 : Reg) (T : List Stmt) (isa : String → Val → Prop) (v : VarDef) (f : MField) : Prop where
  key : f.key = v.name
  default : f.hasDefault = v.isOptional
  sends : ¬ Inst (worldOf T isa) (registeredClass env r0) v.type.base .null → ∀ w, Sends T isa f.ann w ↔
    (v.type.isNonNull = true ∧ v.default.isSome = true ∧ w = .null) ∨ Legal (Inst (worldOf T isa) (registeredClass env r0)) v.type w
  class_ : ∃ cl, registeredClass env r0 v.type.base = some cl

theorem argumentStmt_ok {T : List Stmt} {isa : String → Val → Prop} {v : VarDef} {r0 r r' : Reg} {st : Stmt}
    (hs : SameTypes c.env r0 r)
    (hstyle : Kind.input.style c.env v.type.base ≠ .ok "" ∧ ∀ s, Kind.input.style c.env v.type.base ≠ .error (.noInputTypeFound s))
    (h : argumentStmt c v r = .ok (st, r')) :
    SameTypes c.env r0 r' ∧ ∃ f, fieldOf st = some f ∧ FieldFor c.env r0 T isa v f := by
  unfold argumentStmt at h
  obtain ⟨a, r1, h1, h⟩ := Gen.bind_ok.1 h
  obtain ⟨b, r2, h2, h⟩ := Gen.bind_ok.1 h
  obtain ⟨d, r3, h3, h⟩ := Gen.bind_ok.1 h
  obtain ⟨e, r4, h4, h⟩ := Gen.bind_ok.1 h
  obtain ⟨n, r5, h5, h⟩ := Gen.bind_ok.1 h
  obtain ⟨_, rfl⟩ := Gen.lift_ok.1 h5
  obtain ⟨x, r6, h6, h⟩ := Gen.bind_ok.1 h
  obtain ⟨rfl, rfl⟩ := Gen.pure_ok.1 h
  obtain ⟨f1, p1, hcl⟩ := plain_recurseTypeAnnotation _ hs.styled hstyle h1
  obtain ⟨eb, f2⟩ := optionalWrap_ok h2
  have p2 := plain_optionalWrap p1 h2
  obtain ⟨rfl, t, rfl⟩ := defaultMarker_value h3
  obtain ⟨f4, hacc⟩ := annotateFieldMetadata_ok (W := worldOf T isa) h4
  have p4 := plain_annotateFieldMetadata p2 h4
  obtain ⟨f6, hf⟩ := argumentValue_ok h6 e
  rw [hs.registered] at hcl
  refine ⟨hs.frame (f1.trans (f2.trans (f4.trans f6))), _, hf, rfl, rfl, fun hnull w => ?_, hcl⟩
  have key := ((typeAnnotation_shape (worldOf T isa) c.env).sound v.type hstyle true _ _ _ hs.styled h1
    (by rw [hs.registered]; exact hnull)).2 w
  rw [hs.registered] at key
  simp only [if_true] at key
  rw [← plain_accepts p4, hacc, eb]
  unfold VarDef.isOptional
  cases hn : v.type.isNonNull <;> cases hd : v.default <;> simp [accepts_optional, key]

theorem argumentStmts_ok {T : List Stmt} {isa : String → Val → Prop} {r0 : Reg} (vs : List VarDef) : ∀ {r r' : Reg} {ss : List Stmt},
    SameTypes c.env r0 r →
    (∀ v ∈ vs, Kind.input.style c.env v.type.base ≠ .ok "" ∧
      ∀ s, Kind.input.style c.env v.type.base ≠ .error (.noInputTypeFound s)) →
    argumentStmts c vs r = .ok (ss, r') →
    List.Forall₂ (FieldFor c.env r0 T isa) vs (ss.filterMap fieldOf) := by
  induction vs with
  | nil =>
    intro r r' ss _ _ h
    obtain ⟨rfl, _⟩ := Gen.pure_ok.1 h
    exact .nil
  | cons v vs ih =>
    intro r r' ss hs hstyle h
    unfold argumentStmts at h
    obtain ⟨s, r1, h1, h⟩ := Gen.bind_ok.1 h
    obtain ⟨rest, r2, h2, h⟩ := Gen.bind_ok.1 h
    obtain ⟨rfl, _⟩ := Gen.pure_ok.1 h
    obtain ⟨hs1, f, hf, hff⟩ := argumentStmt_ok (T := T) (isa := isa) hs (hstyle v (.head _)) h1
    rw [List.filterMap_cons_some hf]
    exact .cons hff (ih hs1 (fun w hw => hstyle w (.tail _ hw)) h2)

theorem generateOperation_arguments {T : List Stmt} {isa : String → Val → Prop} {r0 r r' : Reg} {p : OperationsConfig} {o : OpDef}
    {ss : List Stmt} (hp : p.createArguments = true) (hs : SameTypes c.env r0 r)
    (hstyle : ∀ v ∈ o.vars, Kind.input.style c.env v.type.base ≠ .ok "" ∧
      ∀ s, Kind.input.style c.env v.type.base ≠ .error (.noInputTypeFound s))
    (h : generateOperation prep c p o r = .ok (ss, r')) :
    ∃ name cls fields, o.name = some name ∧ o.kind.kind.style c.env name = .ok cls ∧ ArgumentsOf ss cls fields ∧
      List.Forall₂ (FieldFor c.env r0 T isa) o.vars fields := by
  unfold generateOperation at h
  cases hname : o.name with
  | none => rw [hname] at h; exact (Gen.fail_ok.1 h).elim
  | some name =>
  rw [hname] at h
  dsimp only at h
  obtain ⟨cls, r1, h1, h⟩ := Gen.bind_ok.1 h
  have s1 : SameTypes c.env r0 r1 := by
    obtain ⟨_, _, e⟩ := generateClass_ok h1
    refine ⟨styled_generateClass hs.styled h1, ?_, ?_⟩
    · rw [e, ← hs.scalarMap]; cases o.kind <;> rfl
    · rw [e, ← hs.inputMap]; cases o.kind <;> rfl
  obtain ⟨_, hsty, _⟩ := generateClass_ok h1
  obtain ⟨bs, r2, h2, h⟩ := Gen.bind_ok.1 h
  obtain ⟨root, r3, h3, h⟩ := Gen.bind_ok.1 h
  obtain ⟨x, r4, h4, h⟩ := Gen.bind_ok.1 h
  obtain ⟨u, r5, h5, h⟩ := Gen.bind_ok.1 h
  obtain ⟨d, r6, h6, h⟩ := Gen.bind_ok.1 h
  obtain ⟨a, r7, h7, h⟩ := Gen.bind_ok.1 h
  obtain ⟨rfl, rfl⟩ := Gen.pure_ok.1 h
  have s4 := ((s1.frame (still_basesOrObject.quiet h2).frame).frame (still_rootTypeOf.quiet h3).frame).frame
    ((still_operationSels _).quiet h4).frame
  have s5 := ((moves_single (F := fun _ => True) (D := fun _ => True) (O := fun _ => True) trivial).run _ _ _ h5).sameTypes s4
    (paints_single.run _ _ _ h5 s4.styled)
  have s6 := s5.frame (still_mergedDocument.quiet h6).frame
  rw [argumentsClass, if_pos hp] at h7
  obtain ⟨body, r8, h8, h7⟩ := Gen.bind_ok.1 h7
  obtain ⟨cfg, r9, h9, h7⟩ := Gen.bind_ok.1 h7
  obtain ⟨ab, r10, h10, h7⟩ := Gen.bind_ok.1 h7
  obtain ⟨rfl, _⟩ := Gen.pure_ok.1 h7
  refine ⟨name, cls, _, rfl, hsty, ⟨bs, _, [], ab, _, List.mem_append_right _ (List.mem_singleton.2 rfl),
    List.mem_cons_of_mem _ (List.mem_append_left _ (List.mem_append_right _ (List.mem_singleton.2 rfl))), rfl⟩, ?_⟩
  have hcfg : cfg.filterMap fieldOf = [] := by
    unfold argumentsConfig at h9
    obtain ⟨_, _, _, h9⟩ := Gen.bind_ok.1 h9
    obtain ⟨rfl, _⟩ := Gen.pure_ok.1 h9
    rfl
  rw [List.filterMap_cons_none rfl, List.filterMap_append, hcfg, List.append_nil]
  exact argumentStmts_ok o.vars s6 hstyle h8
end

end Turms
