import Verif.Lemmas.RebuildPlugins

/-! # Which names are rebuilt at the end of a module: inputs and functions -/

namespace Turms
open Spec

/-! ## inputs: a class is rebuilt only if it is defined -/

/-- the name of every class of `ss` is in `E` -/
def BoundIn (E : String → Prop) (ss : List Stmt) : Prop := ∀ n bs body ds, Stmt.classDef n bs body ds ∈ ss → E n

theorem boundIn_append {E : String → Prop} {a b : List Stmt} : BoundIn E (a ++ b) ↔ BoundIn E a ∧ BoundIn E b := by
  unfold BoundIn
  simp only [List.mem_append]
  exact ⟨fun h => ⟨fun n _ _ _ hn => h n _ _ _ (.inl hn), fun n _ _ _ hn => h n _ _ _ (.inr hn)⟩,
    fun h n _ _ _ hn => hn.elim (h.1 n _ _ _) (h.2 n _ _ _)⟩

theorem boundIn_class {E : String → Prop} {n : String} {bs ds : List Expr} {body rest : List Stmt}
    (h : BoundIn E (.classDef n bs body ds :: rest)) : E n := h n _ _ _ (List.mem_cons_self ..)

abbrev Any : Reg → Prop := fun _ => True
theorem any_stable : Stable Any := fun _ _ _ h => h

section
variable {B E : String → Prop} {c : Ctx}

theorem fi_generateClass {k : Kind} {n : String} : Fwd Any B E True (generateClass c.env k n) fun _ => True :=
  .keep fun _ _ _ e => ⟨fun _ => trivial, (generateClass_keeps (E := fun _ => True) (T := True) (D := fun _ => True) (c := c) e).2⟩

theorem fi_inputLeaf {parent n : String} : Fwd Any B E True (inputLeaf c parent n) fun _ => E parent := by
  unfold inputLeaf
  split
  · exact (Fwd.calm any_stable calm_referenceScalar).mono (fun _ _ => trivial) id
  · exact fw_referenceInput any_stable
  · exact (fw_referenceEnum (c := c) (T := True) any_stable (.inl trivial)).mono (fun _ h _ => h) id
  · exact .fail

theorem fi_inputAnnotation {parent : String} (t : TypeNode) : ∀ {o : Bool},
    Fwd Any B E True (inputAnnotation c parent t o) fun _ => E parent := by
  induction t with
  | named n =>
    intro o; unfold inputAnnotation
    exact fi_inputLeaf.bind fun _ => (Fwd.calm any_stable calm_optionalWrap).mono (fun _ h => ⟨trivial, h⟩) id
  | nonNull t ih => intro o; unfold inputAnnotation; exact ih
  | list t ih =>
    intro o; unfold inputAnnotation
    exact .then any_stable calm_listImport fun _ => ih.bind fun _ =>
      (Fwd.calm any_stable calm_optionalWrap).mono (fun _ h => ⟨trivial, h⟩) id

theorem calm_inputFieldValue {a b : String} {o : Bool} {d : Option String} : Calm (inputFieldValue a b o d) := by
  unfold inputFieldValue
  exact .ite .pure (calm_registerImport.bind fun _ => .pure)

theorem fi_inputFieldStmts {cls : String} {f : InputFieldDef} :
    Fwd Any B E True (inputFieldStmts c cls f) fun _ => E cls := by
  unfold inputFieldStmts inputFieldAnnotation
  refine .then any_stable calm_nodeName fun _ => Fwd.bind (P := fun _ => E cls) ?_ fun _ =>
    .then any_stable calm_annotateFieldMetadata fun _ => .then any_stable calm_inputFieldValue fun _ =>
    .ite (fun _ => .pure fun h => ⟨trivial, h⟩) fun _ => .pure fun h => ⟨trivial, h⟩
  exact (fi_inputAnnotation _).bind fun _ => (Fwd.calm any_stable calm_optionalWrap).mono (fun _ h => ⟨trivial, h⟩) id

theorem fi_inputFields {cls : String} {skip : List String} (fs : List InputFieldDef) :
    Fwd Any B E True (inputFields c cls skip fs) fun _ => E cls := by
  induction fs with
  | nil => exact .pure fun _ => trivial
  | cons f fs ih =>
    unfold inputFields
    exact .then any_stable calm_nodeName fun _ => .ite (fun _ => ih) fun _ => fi_inputFieldStmts.bind fun _ =>
      ih.bind fun _ => .pure fun h => ⟨⟨trivial, h⟩, h⟩

theorem calm_discriminatorStmts (ds : List Discriminator) : Calm (discriminatorStmts ds) := by
  induction ds with
  | nil => exact .pure
  | cons d ds ih =>
    unfold discriminatorStmts
    exact calm_registerImport.bind fun _ => calm_registerImport.bind fun _ => ih.bind fun _ => .pure

theorem fi_generateInputType {p : InputsConfig} {name t : String} {d : Option String} {fs : List InputFieldDef}
    {ds : List Discriminator} : Fwd Any B E True (generateInputType c p name t d fs ds) fun s => BoundIn E [s] := by
  unfold generateInputType
  exact .then any_stable calm_additionalBasesFor fun _ => .then any_stable (calm_discriminatorStmts _) fun _ =>
    (fi_inputFields _).bind fun _ => .then any_stable calm_config fun _ => .pure fun h => ⟨trivial, boundIn_class h⟩

theorem fi_prePass {p : InputsConfig} (ts : List InputType) : ∀ {acc : PrePass},
    Fwd Any B E (BoundIn E acc.tree) (prePass c p ts acc) fun a => BoundIn E a.tree := by
  induction ts with
  | nil => intro acc; exact .pure id
  | cons t ts ih =>
    intro acc
    unfold prePass prePassStep
    simp only [bind_assoc]
    refine .then any_stable .lift fun x => ?_
    split
    · simp only [pure_bind]
      exact ih.mono (fun _ h => h) fun h => h
    · simp only [bind_assoc, pure_bind]
      exact .then any_stable .lift fun ds => Fwd.thenF fi_generateClass fun name => fi_generateInputType.bind fun cls =>
        ih.mono (fun _ h => h) fun h => boundIn_append.1 h

theorem calm_generateUnionAlias {a : String} {ms : List String} : Calm (generateUnionAlias a ms) := by
  unfold generateUnionAlias
  split
  · exact .pure
  · exact calm_registerImport.bind fun _ => .pure

theorem fi_oneofWrapper {p : InputsConfig} {t : String} {extra : List Expr} {f : InputFieldDef} :
    Fwd Any B E True (oneofWrapper c p t extra f) fun x => BoundIn E [x.2] := by
  constructor
  intro r a r' _ h
  unfold oneofWrapper at h
  cases hg : generateClass c.env .input (t ++ pascal f.name) r with
  | error e =>
    rw [hg] at h
    cases e <;> cases h
  | ok x =>
    obtain ⟨cls, r1⟩ := x
    rw [hg] at h
    have hw : Fwd Any B E True (do
        let fieldName ← nodeName c.env f.name
        let a ← inputAnnotation c cls f.type false
        let a ← annotateFieldMetadata c.env a none f.deprecation
        let v ← inputFieldValue fieldName f.name false f.description
        let cfg ← generatePydanticConfig c .input (some t)
        pure (cls, Stmt.classDef cls (extra ++ baseNames p.bases)
          ([.expr (.str (if truthy f.description then f.description.getD ""
              else "'" ++ f.name ++ "' variant of the @oneOf input '" ++ t ++ "'")),
            .annAssign fieldName a v] ++ cfg) []) : Gen (String × Stmt)) fun x => BoundIn E [x.2] :=
      .then any_stable calm_nodeName fun _ => (fi_inputAnnotation _).bind fun _ =>
        .then any_stable calm_annotateFieldMetadata fun _ => .then any_stable calm_inputFieldValue fun _ =>
        .then any_stable calm_config fun _ => .pure fun h => ⟨trivial, boundIn_class h⟩
    obtain ⟨_, h2, h3⟩ := generateClass_keeps (E := fun _ => True) (T := True) (D := fun _ => True) (c := c) hg
    obtain ⟨a1, b1, c1, d1⟩ := hw.run r1 a r' trivial h
    rw [h2] at b1
    rw [h3] at d1
    exact ⟨a1, b1, c1, d1⟩

theorem fi_oneofWrappers {p : InputsConfig} {t : String} {extra : List Expr} (fs : List InputFieldDef) :
    Fwd Any B E True (oneofWrappers c p t extra fs) fun ws => BoundIn E (ws.map (·.2)) := by
  induction fs with
  | nil => exact .pure fun _ => trivial
  | cons f fs ih =>
    unfold oneofWrappers
    exact fi_oneofWrapper.bind fun w => ih.bind fun ws => .pure fun h => by
      have h : BoundIn E ([w.2] ++ ws.map (·.2)) := h
      obtain ⟨h1, h2⟩ := boundIn_append.1 h
      exact ⟨⟨trivial, h1⟩, h2⟩

theorem fi_mainLoop {p : InputsConfig} {pre : PrePass} (ts : List InputType) :
    Fwd Any B E True (mainLoop c p pre ts) fun x => BoundIn E x.1 := by
  induction ts with
  | nil => exact .pure fun _ => trivial
  | cons t ts ih =>
    unfold mainLoop
    refine Fwd.bind (P := fun x => BoundIn E x.1) ?_ fun x => ih.bind fun y => .pure fun h => ?_
    · unfold mainStep
      refine .ite (fun _ => .pure fun _ => trivial) fun _ => .ite (fun _ => .pure fun _ => trivial) fun _ =>
        .ite (fun _ => .pure fun _ => trivial) fun _ => .ite (fun _ => .then any_stable .lift fun _ => ?_) fun _ => ?_
      · split
        · exact .pure fun _ => trivial
        · refine Fwd.bind (P := BoundIn E) ?_ fun s => .pure fun h => ⟨trivial, h⟩
          unfold generateOneofWrapperInput
          exact .then any_stable calm_additionalBasesFor fun _ => (fi_oneofWrappers _).bind fun ws =>
            Fwd.thenF fi_generateClass fun _ => .then any_stable calm_generateUnionAlias fun _ =>
            .pure fun h => ⟨trivial, (boundIn_append.1 h).1⟩
      · split
        · exact .then any_stable (calm_registerImports _) fun _ => Fwd.thenF fi_generateClass fun _ => .pure fun _ => trivial
        · exact Fwd.thenF fi_generateClass fun _ => fi_generateInputType.bind fun _ => .pure fun h => ⟨trivial, h⟩
    · obtain ⟨h1, h2⟩ := boundIn_append.1 h
      exact ⟨⟨trivial, h1⟩, h2⟩

theorem calm_getClass {k : Kind} {n : String} : Calm (getClass k n) := by
  constructor
  intro r a r' h
  unfold getClass at h
  split at h <;> cases h
  exact ⟨.refl _, rfl⟩

theorem calm_memberClasses (ms : Dict String) : Calm (memberClasses ms) := by
  induction ms with
  | nil => exact .pure
  | cons m ms ih => unfold memberClasses; exact calm_getClass.bind fun _ => ih.bind fun _ => .pure

theorem fi_deferredUnions (ds : List (String × Dict String)) : Fwd Any B E True (deferredUnions c ds) fun _ => True := by
  induction ds with
  | nil => exact .pure fun _ => trivial
  | cons d ds ih =>
    unfold deferredUnions generateOneofDirectUnion
    refine Fwd.thenF (Fwd.thenF fi_generateClass fun _ => .then any_stable (calm_memberClasses _) fun _ =>
      .then any_stable ?_ fun _ => .then any_stable calm_registerImport fun _ => .then any_stable calm_registerImport fun _ =>
      .pure fun _ => trivial) fun _ => Fwd.thenF ih fun _ => .pure fun _ => trivial
    unfold importIf
    exact .ite calm_registerImport .pure

theorem fi_generateInputs {p : InputsConfig} : Fwd Any B E True (generateInputs c p) (BoundIn E) := by
  unfold generateInputs
  refine .then any_stable (calm_registerImports _) fun _ => Fwd.bind (P := fun a => BoundIn E a.tree)
    ((fi_prePass _).mono (fun _ h => h) fun _ => trivial) fun pre => (fi_mainLoop _).bind fun x =>
    Fwd.thenF (fi_deferredUnions _) fun _ => .pure fun h => ?_
  obtain ⟨h1, _⟩ := boundIn_append.1 h
  obtain ⟨h1, h2⟩ := boundIn_append.1 h1
  exact ⟨⟨trivial, h1⟩, h2⟩

/-- the enums plugin rebuilds nothing -/
theorem fi_generateEnums {p : EnumsConfig} : Fwd Any B E True (generateEnums c p) fun _ => True := by
  unfold generateEnums
  refine .then any_stable calm_registerImport fun _ => ?_
  generalize enumTypes c.schema = ts
  induction ts with
  | nil => exact .pure fun _ => trivial
  | cons t ts ih =>
    unfold enumLoop enumStep
    refine Fwd.thenF ?_ fun _ => Fwd.thenF ih fun _ => .pure fun _ => trivial
    exact .ite (fun _ => .pure fun _ => trivial) fun _ => .ite (fun _ => .pure fun _ => trivial) fun _ =>
      .ite (fun _ => .pure fun _ => trivial) fun _ => Fwd.thenF fi_generateClass fun _ => .pure fun _ => trivial
end
end Turms
