import Verif.Model.Objects
import Verif.Model.Strawberry
import Verif.Lemmas.InputFields

/-! # Only the helper classes turms ships are asked for -/

namespace Turms

/-- the call asks for helper classes turms ships only -/
structure Helps {α : Type} (g : Gen α) : Prop where
  run : ∀ r a r', g r = .ok (a, r') → (∀ b ∈ r.builtins, b ∈ builtinNames) → ∀ b ∈ r'.builtins, b ∈ builtinNames

section
variable {α β : Type}

theorem Helps.pure {a : α} : Helps (pure a : Gen α) := by
  constructor; intro r b r' h; obtain ⟨_, rfl⟩ := Gen.pure_ok.1 h; exact id

theorem Helps.fail {e : Err} : Helps (Gen.fail e : Gen α) := ⟨fun _ _ _ h => (Gen.fail_ok.1 h).elim⟩

theorem Helps.lift {x : Except Err α} : Helps (Gen.lift x) := by
  constructor; intro r b r' h; obtain ⟨_, rfl⟩ := Gen.lift_ok.1 h; exact id

theorem Helps.bind {x : Gen α} {f : α → Gen β} (hx : Helps x) (hf : ∀ a, Helps (f a)) : Helps (x >>= f) := by
  constructor
  intro r b r' h hb
  obtain ⟨a, r1, h1, h2⟩ := Gen.bind_ok.1 h
  exact (hf a).run r1 b r' h2 (hx.run r a r1 h1 hb)

theorem Helps.ite {p : Prop} [Decidable p] {x y : Gen α} (hx : Helps x) (hy : Helps y) :
    Helps (if p then x else y) := by split <;> assumption

/-- calls that do not touch the helper classes -/
theorem Helps.of_eq {g : Gen α} (h : ∀ r a r', g r = .ok (a, r') → r'.builtins = r.builtins) : Helps g := by
  constructor; intro r a r' hg hb; rw [h r a r' hg]; exact hb
end

theorem mem_setAdd_helpers {l : List String} {n : String} (hn : n ∈ builtinNames) (h : ∀ b ∈ l, b ∈ builtinNames) :
    ∀ b ∈ setAdd l n, b ∈ builtinNames := by
  intro b hb
  rcases (mem_setAdd _ _ _).1 hb with hb | rfl
  · exact h b hb
  · exact hn

theorem helps_registerImport {n : String} : Helps (registerImport n) := by
  refine .of_eq fun r a r' h => ?_
  unfold registerImport at h
  split at h <;> cases h <;> rfl

theorem helps_registerImports (l : List String) : Helps (registerImports l) := by
  induction l with
  | nil => exact .pure
  | cons b l ih => exact helps_registerImport.bind fun _ => ih

theorem helps_registerBuiltin {n : String} (hn : n ∈ builtinNames) : Helps (registerBuiltin n) := by
  constructor
  intro r a r' h hb
  cases h
  exact mem_setAdd_helpers hn hb

theorem helps_referenceMarker {o : Option String} {b l : String} (hn : b ∈ builtinNames) : Helps (referenceMarker o b l) := by
  constructor
  intro r a r' h hb
  have hbuiltin : ∀ {a : Expr} {r' : Reg}, (match registerBuiltin b r with
      | .error e => Except.error e
      | .ok (_, r) => .ok (Expr.name l, r)) = .ok (a, r') → ∀ b ∈ r'.builtins, b ∈ builtinNames := by
    intro a r' h
    cases hi : registerBuiltin b r with
    | error e => rw [hi] at h; cases h
    | ok x =>
      rw [hi] at h
      cases h
      exact (helps_registerBuiltin hn).run _ _ _ hi hb
  unfold referenceMarker at h
  split at h
  · split at h
    · exact hbuiltin h
    · cases hi : registerImport _ r with
      | error e => rw [hi] at h; cases h
      | ok x =>
        rw [hi] at h
        cases h
        exact helps_registerImport.run _ _ _ hi hb
  · exact hbuiltin h

theorem helps_referenceScalar {n : String} : Helps (referenceScalar n) := by
  constructor
  intro r a r' h hb
  unfold referenceScalar at h
  split at h
  · cases h
  · split at h
    · cases hi : registerImport _ r with
      | error e => rw [hi] at h; cases h
      | ok x =>
        rw [hi] at h
        cases h
        exact helps_registerImport.run _ _ _ hi hb
    · cases h; exact hb

theorem helps_referenceEnum {env : Env} {n p : String} {f : Bool} : Helps (referenceEnum env n p f) := by
  constructor
  intro r a r' h hb
  unfold referenceEnum at h
  split at h
  · rename_i hn
    cases h
    exact mem_setAdd_helpers (by simpa using hn) hb
  · repeat' split at h
    all_goals cases h
    · exact hb
    · exact hb

theorem helps_referenceInput {env : Env} {n p : String} {f : Bool} : Helps (referenceInput env n p f) := by
  refine .of_eq fun r a r' h => ?_
  unfold referenceInput at h
  repeat' split at h
  all_goals cases h
  all_goals rfl

theorem helps_referenceGeneric {env : Env} {k : Kind} {n p : String} {f : Bool} : Helps (referenceGeneric env k n p f) := by
  refine .of_eq fun r a r' h => ?_
  unfold referenceGeneric at h
  repeat' split at h
  all_goals cases h
  all_goals rfl

theorem helps_referenceInterface {env : Env} {n p : String} : Helps (referenceInterface env n p) := by
  refine .of_eq fun r a r' h => ?_
  unfold referenceInterface at h
  split at h <;> cases h
  rfl

theorem helps_generateClass {env : Env} {k : Kind} {n : String} : Helps (generateClass env k n) := by
  refine .of_eq fun r a r' h => ?_
  obtain ⟨_, _, rfl⟩ := generateClass_ok h
  cases k <;> rfl

theorem helps_generateInterface {env : Env} {n : String} {b : Bool} : Helps (generateInterface env n b) := by
  refine .of_eq fun r a r' h => ?_
  unfold generateInterface at h
  repeat' split at h
  all_goals cases h
  all_goals rfl

theorem helps_inheritInterface {n : String} : Helps (inheritInterface n) := by
  refine .of_eq fun r a r' h => ?_
  unfold inheritInterface at h
  split at h <;> cases h
  rfl

theorem helps_registerScalar {n m : String} : Helps (registerScalar n m) := .of_eq fun r a r' h => by cases h; rfl

theorem helps_optionalWrap {o : Bool} {e : Expr} : Helps (optionalWrap o e) := by
  unfold optionalWrap
  exact .ite (helps_registerImport.bind fun _ => .pure) .pure

theorem helps_nodeName {env : Env} {n : String} : Helps (nodeName env n) := .lift
theorem helps_parameterName {env : Env} {n : String} : Helps (parameterName env n) := .lift

/-- apply the rules -/
macro "helps" : tactic => `(tactic| repeat' (first
  | assumption
  | exact Helps.pure
  | exact Helps.fail
  | exact helps_registerImport
  | exact helps_registerImports _
  | exact helps_optionalWrap
  | exact helps_nodeName
  | exact helps_parameterName
  | exact helps_referenceScalar
  | exact helps_referenceEnum
  | exact helps_referenceInput
  | exact helps_referenceGeneric
  | exact helps_referenceInterface
  | exact helps_generateClass
  | exact helps_generateInterface
  | exact helps_inheritInterface
  | exact helps_registerScalar
  | exact Helps.lift
  | apply Helps.bind
  | apply Helps.ite
  | intro _
  | split))

section
variable {c : Ctx}

theorem helps_additionalBasesFor {n : String} : Helps (additionalBasesFor c n) := by unfold additionalBasesFor; helps

theorem helps_generatePydanticConfig {g : GQLType} {n : Option String} : Helps (generatePydanticConfig c g n) := by
  unfold generatePydanticConfig generateConfigDict; dsimp only; helps

theorem helps_markerCall {g : Gen Expr} (hg : Helps g) {a : Option Expr} : Helps (markerCall g a) := by
  unfold markerCall; helps

theorem helps_annotateFieldMetadata {env : Env} {a : Expr} {d : Option Expr} {s : Option String} :
    Helps (annotateFieldMetadata env a d s) := by
  unfold annotateFieldMetadata
  refine (helps_markerCall (helps_referenceMarker (by decide +kernel))).bind fun _ => ?_
  refine (helps_markerCall (helps_referenceMarker (by decide +kernel))).bind fun _ => ?_
  helps

/-! ## the objects plugin -/

theorem helps_objectLeaf {p n : String} : Helps (objectLeaf c p n) := by unfold objectLeaf; helps

theorem helps_objectMembers {p : String} (ms : List String) : Helps (objectMembers c p ms) := by
  induction ms with
  | nil => exact .pure
  | cons m ms ih => exact helps_objectLeaf.bind fun _ => ih.bind fun _ => .pure

theorem helps_objectNamed {p n : String} : Helps (objectNamed c p n) := by
  unfold objectNamed
  split
  · exact helps_registerImport.bind fun _ => (helps_objectMembers _).bind fun _ => .pure
  · exact helps_objectLeaf

theorem helps_objectAnnotation {p : String} (t : TypeNode) : ∀ {o : Bool}, Helps (objectAnnotation c p t o) := by
  induction t with
  | named n => exact fun {_} => helps_objectNamed.bind fun _ => helps_optionalWrap
  | list t ih =>
    intro o
    unfold objectAnnotation
    refine helps_registerImport.bind fun _ => ih.bind fun _ => ?_
    helps
  | nonNull t ih => exact fun {_} => ih

theorem helps_objectFieldStmts {cls : String} {f : FieldDef} : Helps (objectFieldStmts c cls f) := by
  unfold objectFieldStmts
  refine helps_nodeName.bind fun _ => (helps_objectAnnotation _).bind fun _ => helps_annotateFieldMetadata.bind fun _ => ?_
  refine Helps.bind ?_ fun _ => .pure
  unfold objectFieldValue; helps

theorem helps_objectFields {cls : String} (fs : List FieldDef) : Helps (objectFields c cls fs) := by
  induction fs with
  | nil => exact .pure
  | cons f fs ih => exact helps_objectFieldStmts.bind fun _ => ih.bind fun _ => .pure

theorem helps_interfaceLoop {cls : String} {all : List String} (is : List String) : ∀ {m : Dict (List String)},
    Helps (interfaceLoop c cls all is m) := by
  induction is with
  | nil => exact fun {_} => .pure
  | cons i is ih =>
    intro m
    unfold interfaceLoop
    exact .ite (helps_inheritInterface.bind fun _ => ih.bind fun _ => .pure) ih

theorem helps_objectStep {p : ObjectsConfig} {t : CompositeType} {acc : ObjAcc} : Helps (objectStep c p t acc) := by
  unfold objectStep
  refine helps_additionalBasesFor.bind fun _ => .ite .pure (.ite .pure ?_)
  refine Helps.bind ?_ fun _ => (helps_interfaceLoop _).bind fun _ => ?_
  · unfold generateComposite; helps
  · exact (helps_objectFields _).bind fun _ => helps_generatePydanticConfig.bind fun _ => .pure

theorem helps_objectLoop {p : ObjectsConfig} (ts : List CompositeType) : ∀ {acc : ObjAcc}, Helps (objectLoop c p ts acc) := by
  induction ts with
  | nil => exact fun {_} => .pure
  | cons t ts ih => exact fun {_} => helps_objectStep.bind fun _ => ih

theorem helps_registerUnions (m : Dict (List String)) : Helps (registerUnions m) := by
  induction m with
  | nil => exact .pure
  | cons q m ih => exact helps_registerImport.bind fun _ => ih

theorem helps_generateTypes {p : ObjectsConfig} : Helps (generateTypes c p) := by
  unfold generateTypes
  refine (helps_registerImports _).bind fun _ => (helps_objectLoop _).bind fun _ => (helps_registerUnions _).bind fun _ => ?_
  dsimp only
  exact .ite .fail .pure

/-! ## the strawberry plugin -/

variable {p : StrawberryConfig} {sd : SchemaDirectives}

theorem helps_directiveAnnotation (t : TypeNode) : ∀ {o : Bool}, Helps (directiveAnnotation c t o) := by
  induction t with
  | named n =>
    refine fun {_} => Helps.bind ?_ fun _ => helps_optionalWrap
    unfold directiveLeaf; helps
  | list t ih => exact fun {_} => helps_registerImport.bind fun _ => ih.bind fun _ => helps_optionalWrap
  | nonNull t ih => exact fun {_} => ih

theorem helps_directiveFields (as : List ArgDef) : Helps (directiveFields c as) := by
  induction as with
  | nil => exact .pure
  | cons a as ih =>
    refine Helps.bind ?_ fun _ => ih.bind fun _ => .pure
    refine Helps.bind ?_ fun _ => helps_nodeName.bind fun _ => (helps_directiveAnnotation _).bind fun _ => .pure
    unfold directiveFieldValue; helps

theorem helps_directiveClasses (ds : List DirectiveDef) : Helps (directiveClasses c p ds) := by
  induction ds with
  | nil => exact .pure
  | cons d ds ih =>
    refine Helps.bind ?_ fun _ => ih.bind fun _ => .pure
    unfold directiveClass
    exact .ite .pure (.ite .pure ((helps_directiveFields _).bind fun _ => helps_generatePydanticConfig.bind fun _ => .pure))

theorem helps_strawberryDirectives {ds : List DirectiveDef} : Helps (strawberryDirectives c p ds) := by
  unfold strawberryDirectives
  split
  · exact .pure
  · exact helps_registerImport.bind fun _ => helps_directiveClasses _

theorem helps_directiveKeywords {ds : List DirectiveApp} : Helps (directiveKeywords p ds) := by
  unfold directiveKeywords; helps

theorem helps_strawberryScalars : Helps (strawberryScalars c p sd) := by
  have loop : ∀ ts : List ScalarType, Helps (strawberryScalarLoop p sd ts) := by
    intro ts
    induction ts with
    | nil => exact .pure
    | cons t ts ih =>
      exact (helps_directiveKeywords.bind fun _ => helps_registerScalar.bind fun _ => .pure).bind fun _ =>
        ih.bind fun _ => .pure
  unfold strawberryScalars
  split
  · exact .pure
  · exact helps_registerImport.bind fun _ => loop _

theorem helps_strawberryEnums (ts : List EnumType) : Helps (strawberryEnums c p sd ts) := by
  induction ts with
  | nil => exact .pure
  | cons t ts ih =>
    refine Helps.bind ?_ fun _ => ih.bind fun _ => .pure
    unfold strawberryEnum
    have := @helps_directiveKeywords p
    exact helps_directiveKeywords.bind fun _ => .ite .pure (.ite .pure
      (helps_generateClass.bind fun _ => helps_registerImport.bind fun _ => .pure))

theorem helps_argAnnotation {q : String} (t : TypeNode) : ∀ {o : Bool}, Helps (argAnnotation c q t o) := by
  induction t with
  | named n =>
    refine fun {_} => Helps.bind ?_ fun _ => helps_optionalWrap
    unfold inputLeaf; helps
  | list t ih => exact fun {_} => helps_registerImport.bind fun _ => ih.bind fun _ => helps_optionalWrap
  | nonNull t ih => exact fun {_} => ih

theorem helps_resolverAnnotation {q : String} (t : TypeNode) : ∀ {o : Bool}, Helps (resolverAnnotation c q t o) := by
  induction t with
  | named n => exact fun {_} => helps_objectNamed.bind fun _ => helps_optionalWrap
  | list t ih => exact fun {_} => helps_registerImport.bind fun _ => ih.bind fun _ => helps_optionalWrap
  | nonNull t ih => exact fun {_} => ih

theorem helps_strawberryInputs (ts : List InputType) : Helps (strawberryInputs c p sd ts) := by
  have fields : ∀ {cls : String} (fs : List InputFieldDef), Helps (strawberryInputFields c cls fs) := by
    intro cls fs
    induction fs with
    | nil => exact .pure
    | cons f fs ih =>
      exact (helps_nodeName.bind fun _ => (helps_argAnnotation _).bind fun _ => .pure).bind fun _ => ih.bind fun _ => .pure
  induction ts with
  | nil => exact .pure
  | cons t ts ih =>
    refine Helps.bind ?_ fun _ => ih.bind fun _ => .pure
    unfold strawberryInput
    exact .ite .pure (helps_directiveKeywords.bind fun _ => helps_additionalBasesFor.bind fun _ =>
      helps_generateClass.bind fun _ => (fields _).bind fun _ => helps_generatePydanticConfig.bind fun _ => .pure)

theorem helps_resolverArgs {cls : String} (as : List ArgDef) : Helps (resolverArgs c cls as) := by
  induction as with
  | nil => exact .pure
  | cons a as ih =>
    exact helps_parameterName.bind fun _ => (helps_argAnnotation _).bind fun _ => ih.bind fun _ => .pure

theorem helps_strawberryFields {t cls : String} (fs : List FieldDef) : Helps (strawberryFields c p sd t cls fs) := by
  induction fs with
  | nil => exact .pure
  | cons f fs ih =>
    refine Helps.bind ?_ fun _ => ih.bind fun _ => .pure
    unfold strawberryField
    refine (helps_resolverArgs _).bind fun _ => (helps_resolverAnnotation _).bind fun _ =>
      helps_directiveKeywords.bind fun _ => ?_
    unfold fieldStmt resolverReturns
    helps

theorem helps_strawberryBases {all : List String} (is : List String) : Helps (strawberryBases c all is) := by
  induction is with
  | nil => exact .pure
  | cons i is ih =>
    unfold strawberryBases
    exact .ite (helps_inheritInterface.bind fun _ => ih.bind fun _ => .pure) ih

theorem helps_strawberryTypes : Helps (strawberryTypes c p sd) := by
  have loop : ∀ ts : List CompositeType, Helps (strawberryTypeLoop c p sd ts) := by
    intro ts
    induction ts with
    | nil => exact .pure
    | cons t ts ih =>
      refine Helps.bind ?_ fun _ => ih.bind fun _ => .pure
      unfold strawberryType
      refine helps_additionalBasesFor.bind fun _ => .ite .pure (.ite .pure (helps_directiveKeywords.bind fun _ => ?_))
      refine Helps.bind ?_ fun _ => (helps_strawberryBases _).bind fun _ => (helps_strawberryFields _).bind fun _ =>
        helps_generatePydanticConfig.bind fun _ => .pure
      unfold strawberryClassName; helps
  exact helps_registerImport.bind fun _ => loop _

theorem helps_strawberryPlugin : Helps (strawberryPlugin c p sd) := by
  unfold strawberryPlugin whenEnabled
  exact helps_registerImport.bind fun _ => (Helps.ite helps_strawberryDirectives .pure).bind fun _ =>
    (Helps.ite helps_strawberryScalars .pure).bind fun _ => (Helps.ite (helps_strawberryEnums _) .pure).bind fun _ =>
    (Helps.ite (helps_strawberryInputs _) .pure).bind fun _ => (Helps.ite helps_strawberryTypes .pure).bind fun _ => .pure
end

end Turms
