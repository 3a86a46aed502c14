import Verif.Lemmas.TwinTypes

/-! # The strawberry plugin under two settings of the generated models -/

namespace Turms
open Spec

section
variable {c : Ctx} {m : ModelOptions}

local notation "c°" => withOptions c m

theorem blind_directiveKeywords {p : StrawberryConfig} {ds : List DirectiveApp} : Blind (directiveKeywords p ds) := by
  unfold directiveKeywords
  split
  · exact Twin.pure rfl
  · exact Twin.lift.then fun _ => .pure rfl

theorem twin_directiveLeaf {n : String} : Twin id (directiveLeaf c n) (directiveLeaf c° n) := by
  unfold directiveLeaf
  have hs : (withOptions c m).schema = c.schema := rfl
  simp only [hs]
  split
  · exact blind_referenceScalar
  · exact .fail
  · exact .fail

theorem twin_directiveAnnotation (t : TypeNode) : ∀ {o : Bool},
    Twin id (directiveAnnotation c t o) (directiveAnnotation c° t o) := by
  induction t with
  | named n => intro o; unfold directiveAnnotation; exact twin_directiveLeaf.then fun _ => blind_optionalWrap
  | list t ih => intro o; unfold directiveAnnotation; exact blind_registerImport.then fun _ => ih.then fun _ => blind_optionalWrap
  | nonNull t ih => intro o; unfold directiveAnnotation; exact ih

theorem blind_directiveFieldValue {d : Option PyDefault} : Blind (directiveFieldValue d) := by
  unfold directiveFieldValue
  split
  · exact Twin.pure rfl
  · exact Twin.pure rfl
  · exact Twin.lift.then fun _ => .pure rfl

theorem twin_directiveFields (as : List ArgDef) : Twin id (directiveFields c as) (directiveFields c° as) := by
  induction as with
  | nil => exact .pure rfl
  | cons a as ih =>
    unfold directiveFields directiveField
    exact Twin.then (blind_directiveFieldValue.then fun _ => twin_nodeName.then fun _ =>
      (twin_directiveAnnotation _).then fun _ => .pure rfl) fun _ => ih.then fun _ => .pure rfl

/-- a class whose body ends with the configuration of the model -/
theorem shapes_configured {n : String} {bs ds : List Expr} {body cfg cfg' : List Stmt} (h : bodyShape cfg = bodyShape cfg') :
    shapes [.classDef n bs (body ++ cfg) ds] = shapes [.classDef n bs (body ++ cfg') ds] := by
  rw [shapes_cons, shapes_cons, shape_class (show bodyShape (body ++ cfg) = bodyShape (body ++ cfg') from ?_)]
  rw [bodyShape_append, bodyShape_append, h]

theorem twin_directiveClasses {p : StrawberryConfig} (ds : List DirectiveDef) :
    Twin shapes (directiveClasses c p ds) (directiveClasses c° p ds) := by
  induction ds with
  | nil => exact .pure rfl
  | cons d ds ih =>
    unfold directiveClasses
    refine Twin.bind (φ := shapes) ?_ fun _ _ h => ih.bind fun _ _ h' => .pure (by rw [shapes_append, shapes_append, h, h'])
    unfold directiveClass
    exact .ite (.pure rfl) (.ite (.pure rfl) ((twin_directiveFields _).then fun _ => twin_config.bind fun _ _ h =>
      .pure (shapes_configured h)))

theorem twin_strawberryDirectives {p : StrawberryConfig} {ds : List DirectiveDef} :
    Twin shapes (strawberryDirectives c p ds) (strawberryDirectives c° p ds) := by
  unfold strawberryDirectives
  split
  · exact .pure rfl
  · exact blind_registerImport.then fun _ => twin_directiveClasses _

theorem twin_strawberryEnums {p : StrawberryConfig} {sd : SchemaDirectives} (ts : List EnumType) :
    Twin id (strawberryEnums c p sd ts) (strawberryEnums c° p sd ts) := by
  induction ts with
  | nil => exact .pure rfl
  | cons t ts ih =>
    unfold strawberryEnums strawberryEnum
    exact Twin.then (blind_directiveKeywords.then fun _ => .ite (.pure rfl) (.ite (.pure rfl)
      (Twin.then blind_generateClass fun _ => blind_registerImport.then fun _ => .pure rfl))) fun _ => ih.then fun _ => .pure rfl

theorem twin_argAnnotation {p : String} (t : TypeNode) : ∀ {o : Bool},
    Twin id (argAnnotation c p t o) (argAnnotation c° p t o) := by
  induction t with
  | named n => intro o; unfold argAnnotation; exact twin_inputLeaf.then fun _ => blind_optionalWrap
  | list t ih => intro o; unfold argAnnotation; exact blind_registerImport.then fun _ => ih.then fun _ => blind_optionalWrap
  | nonNull t ih => intro o; unfold argAnnotation; exact ih

theorem twin_resolverAnnotation {p : String} (t : TypeNode) : ∀ {o : Bool},
    Twin id (resolverAnnotation c p t o) (resolverAnnotation c° p t o) := by
  induction t with
  | named n => intro o; unfold resolverAnnotation; exact twin_objectNamed.then fun _ => blind_optionalWrap
  | list t ih => intro o; unfold resolverAnnotation; exact blind_registerImport.then fun _ => ih.then fun _ => blind_optionalWrap
  | nonNull t ih => intro o; unfold resolverAnnotation; exact ih

theorem twin_strawberryInputFields {cls : String} (fs : List InputFieldDef) :
    Twin id (strawberryInputFields c cls fs) (strawberryInputFields c° cls fs) := by
  induction fs with
  | nil => exact .pure rfl
  | cons f fs ih =>
    unfold strawberryInputFields strawberryInputField
    exact Twin.then (twin_nodeName.then fun _ => (twin_argAnnotation _).then fun _ => .pure rfl) fun _ => ih.then fun _ => .pure rfl

theorem twin_strawberryInputs {p : StrawberryConfig} {sd : SchemaDirectives} (ts : List InputType) :
    Twin shapes (strawberryInputs c p sd ts) (strawberryInputs c° p sd ts) := by
  induction ts with
  | nil => exact .pure rfl
  | cons t ts ih =>
    unfold strawberryInputs
    refine Twin.bind (φ := shapes) ?_ fun _ _ h => ih.bind fun _ _ h' => .pure (by rw [shapes_append, shapes_append, h, h'])
    unfold strawberryInput
    exact .ite (.pure rfl) (blind_directiveKeywords.then fun _ => twin_additionalBasesFor.then fun _ =>
      Twin.then blind_generateClass fun _ => (twin_strawberryInputFields _).then fun _ => twin_config.bind fun _ _ h =>
      .pure (shapes_configured h))

theorem twin_resolverArgs {cls : String} (as : List ArgDef) : Twin id (resolverArgs c cls as) (resolverArgs c° cls as) := by
  induction as with
  | nil => exact .pure rfl
  | cons a as ih =>
    unfold resolverArgs
    exact twin_parameterName.then fun _ => (twin_argAnnotation _).then fun _ => ih.then fun _ => .pure rfl

theorem blind_resolverReturns {t : String} {a : Expr} : Blind (resolverReturns t a) := by
  unfold resolverReturns
  exact .ite (blind_registerImport.then fun _ => .pure rfl) (Twin.pure rfl)

theorem twin_strawberryField {p : StrawberryConfig} {sd : SchemaDirectives} {t cls : String} {f : FieldDef} :
    Twin id (strawberryField c p sd t cls f) (strawberryField c° p sd t cls f) := by
  unfold strawberryField fieldStmt
  exact (twin_resolverArgs _).then fun _ => (twin_resolverAnnotation _).then fun _ => blind_directiveKeywords.then fun _ =>
    .ite (twin_nodeName.then fun _ => .pure rfl) (blind_resolverReturns.then fun _ => twin_nodeName.then fun _ => .pure rfl)

theorem twin_strawberryFields {p : StrawberryConfig} {sd : SchemaDirectives} {t cls : String} (fs : List FieldDef) :
    Twin id (strawberryFields c p sd t cls fs) (strawberryFields c° p sd t cls fs) := by
  induction fs with
  | nil => exact .pure rfl
  | cons f fs ih => unfold strawberryFields; exact twin_strawberryField.then fun _ => ih.then fun _ => .pure rfl

theorem twin_strawberryBases {all : List String} (is : List String) :
    Twin id (strawberryBases c all is) (strawberryBases c° all is) := by
  induction is with
  | nil => exact .pure rfl
  | cons i is ih => unfold strawberryBases; exact .ite (blind_inheritInterface.then fun _ => ih.then fun _ => .pure rfl) ih

theorem twin_strawberryTypeLoop {p : StrawberryConfig} {sd : SchemaDirectives} (ts : List CompositeType) :
    Twin shapes (strawberryTypeLoop c p sd ts) (strawberryTypeLoop c° p sd ts) := by
  induction ts with
  | nil => exact .pure rfl
  | cons t ts ih =>
    unfold strawberryTypeLoop
    refine Twin.bind (φ := shapes) ?_ fun _ _ h => ih.bind fun _ _ h' => .pure (by rw [shapes_append, shapes_append, h, h'])
    unfold strawberryType strawberryClassName
    exact twin_additionalBasesFor.then fun _ => .ite (.pure rfl) (.ite (.pure rfl) (blind_directiveKeywords.then fun _ =>
      Twin.then (.ite blind_generateInterface blind_generateClass) fun _ => (twin_strawberryBases _).then fun _ =>
      (twin_strawberryFields _).then fun _ => twin_config.bind fun _ _ h => .pure (shapes_configured h)))

theorem blind_registerScalar {n t : String} : Blind (registerScalar n t) := by
  blind; unfold registerScalar; same

theorem blind_strawberryScalarLoop {p : StrawberryConfig} {sd : SchemaDirectives} (ts : List ScalarType) :
    Blind (strawberryScalarLoop p sd ts) := by
  induction ts with
  | nil => exact Twin.pure rfl
  | cons t ts ih =>
    unfold strawberryScalarLoop strawberryScalar
    exact Twin.then (blind_directiveKeywords.then fun _ => blind_registerScalar.then fun _ => .pure rfl) fun _ => ih.then fun _ => .pure rfl

theorem twin_strawberryScalars {p : StrawberryConfig} {sd : SchemaDirectives} :
    Twin id (strawberryScalars c p sd) (strawberryScalars c° p sd) := by
  unfold strawberryScalars
  have hs : (withOptions c m).schema = c.schema := rfl
  simp only [hs]
  split
  · exact .pure rfl
  · exact blind_registerImport.then fun _ => blind_strawberryScalarLoop _

theorem twin_strawberryPlugin {p : StrawberryConfig} {sd : SchemaDirectives} :
    Twin shapes (strawberryPlugin c p sd) (strawberryPlugin c° p sd) := by
  unfold strawberryPlugin whenEnabled strawberryTypes
  refine blind_registerImport.then fun _ => Twin.bind (φ := shapes) (.ite twin_strawberryDirectives (.pure rfl)) fun _ _ h1 =>
    Twin.then (.ite twin_strawberryScalars (.pure rfl)) fun _ =>
    Twin.then (.ite (twin_strawberryEnums _) (.pure rfl)) fun _ =>
    Twin.bind (φ := shapes) (.ite (twin_strawberryInputs _) (.pure rfl)) fun _ _ h2 =>
    Twin.bind (φ := shapes) (.ite (blind_registerImport.then fun _ => twin_strawberryTypeLoop _) (.pure rfl)) fun _ _ h3 =>
    .pure ?_
  simp only [shapes_append, h1, h2, h3]

end

end Turms
