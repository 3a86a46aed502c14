import Verif.Lemmas.ObjectFields

/-!
# C16, C17, C20, C02: annotations accept exactly the legal values

The registry states are those a generator run can reach: `stateAfter c.env ops` for an arbitrary history
`ops` of registry calls.  `W` says what the classes of the module mean; the only assumption on it is that the
class of the leaf type at hand does not itself accept `None`.
-/

namespace Turms.Props
open Turms Turms.Spec

/-! ## C16 -/

/-- C16 (fields of input models): the annotation accepts exactly the values GraphQL allows for the type —
`None` exactly at nullable positions, sequences exactly at list positions, at every depth — whether lists are
rendered as `List` or, for frozen inputs, as `Tuple`. -/
theorem C16_input_annotation_exact (W : World) (c : Ctx) (ops : List Op) (cls : String) (t : TypeNode)
    (e : Expr) (r' : Reg)
    (h : inputAnnotation c cls t true (stateAfter c.env ops) = .ok (e, r'))
    (hleaf : ¬ Inst W (inputSideClass c (stateAfter c.env ops)) t.base .null) (v : Val) :
    Accepts W e v ↔ Legal (Inst W (inputSideClass c (stateAfter c.env ops))) t v := by
  have := ((inputAnnotation_shape W c cls).sound t trivial true _ _ _ (styled_stateAfter _ _) h hleaf).2 v
  simpa using this

/-- C16 (operation variables without coercion). -/
theorem C16_variable_annotation_exact (W : World) (env : Env) (ops : List Op) (t : TypeNode)
    (e : Expr) (r' : Reg)
    (hstyle : Kind.input.style env t.base ≠ .ok "" ∧
      ∀ s, Kind.input.style env t.base ≠ .error (.noInputTypeFound s))
    (h : recurseTypeAnnotation env none t true (stateAfter env ops) = .ok (e, r'))
    (hleaf : ¬ Inst W (registeredClass env (stateAfter env ops)) t.base .null) (v : Val) :
    Accepts W e v ↔ Legal (Inst W (registeredClass env (stateAfter env ops))) t v := by
  have := ((typeAnnotation_shape W env).sound t hstyle true _ _ _
    (styled_stateAfter _ _) h hleaf).2 v
  simpa using this

/-- C16 (parameters of input factories and of expanded inputs): a coercible scalar takes the configured type
instead of the mapped one, a coercible input accepts the configured type besides the model; the structure
around the leaf is unchanged. -/
theorem C16_parameter_annotation_exact (W : World) (c : Ctx) (co : Coercions) (ops : List Op) (t : TypeNode)
    (e : Expr) (r' : Reg)
    (h : paramAnnotation c co t true (stateAfter c.env ops) = .ok (e, r'))
    (hleaf : ¬ ParamInst W c (stateAfter c.env ops) co t.base .null) (v : Val) :
    Accepts W e v ↔ Legal (ParamInst W c (stateAfter c.env ops) co) t v := by
  have := ((paramAnnotation_shape W c co).sound t trivial true _ _ _ (styled_stateAfter _ _) h hleaf).2 v
  simpa using this

/-- only the leaf at hand matters -/
theorem legal_congr {P Q : String → Val → Prop} (t : TypeNode) (h : ∀ v, P t.base v ↔ Q t.base v) (v : Val) :
    Legal P t v ↔ Legal Q t v := by
  induction t generalizing v with
  | named n => simp only [Legal]; rw [show P n v ↔ Q n v from h v]
  | list t ih =>
    simp only [Legal]
    constructor
    · rintro (h1 | ⟨l, h1, h2⟩)
      · exact .inl h1
      · exact .inr ⟨l, h1, fun x hx => (ih h x).1 (h2 x hx)⟩
    · rintro (h1 | ⟨l, h1, h2⟩)
      · exact .inl h1
      · exact .inr ⟨l, h1, fun x hx => (ih h x).2 (h2 x hx)⟩
  | nonNull t ih => simp only [Legal]; rw [ih h]

/-- C16 (operation variables with the configured coercions). `""` is not a valid coercion target: the
configuration rejects it (`PythonType.validate`). -/
theorem C16_coerced_variable_annotation_exact (W : World) (env : Env) (co : Coercions) (ops : List Op)
    (t : TypeNode) (e : Expr) (r' : Reg)
    (hstyle : Kind.input.style env t.base ≠ .ok "" ∧
      ∀ s, Kind.input.style env t.base ≠ .error (.noInputTypeFound s))
    (hco : ∀ n, co.scalars.get? n ≠ some "" ∧ co.inputs.get? n ≠ some "")
    (h : variableAnnotation env co t (stateAfter env ops) = .ok (e, r'))
    (hleaf : ¬ VariableInst W env (stateAfter env ops) co t.base .null) (v : Val) :
    Accepts W e v ↔ Legal (VariableInst W env (stateAfter env ops) co) t v := by
  unfold variableAnnotation at h
  cases hsc : co.scalars.get? t.base with
  | some p =>
    have hp : p ≠ "" := fun hp => (hco t.base).1 (by rw [hsc, hp])
    have ht : truthy (co.scalars.get? t.base) = true := by simp [truthy, hsc, hp]
    rw [if_pos ht] at h
    rw [hsc] at h
    obtain ⟨_, r1, h1, h⟩ := Gen.bind_ok.1 h
    have hi : ∀ v, VariableInst W env (stateAfter env ops) co t.base v ↔
        Accepts W (.name (lastComponent p)) v := by
      intro v; unfold VariableInst; rw [hsc]
    have := ((overrideAnnotation_shape W env _).sound t trivial true _ _ _ trivial h
      (by intro hh; exact hleaf ((hi _).2 hh))).2 v
    simp only [if_true] at this
    rw [this]
    exact legal_congr t (fun v => (hi v).symm) v
  | none =>
    have ht : truthy (co.scalars.get? t.base) = false := by simp [truthy, hsc]
    rw [if_neg (by simp [ht])] at h
    cases hin : co.inputs.get? t.base with
    | some p =>
      have hp : p ≠ "" := fun hp => (hco t.base).2 (by rw [hin, hp])
      have ht : truthy (co.inputs.get? t.base) = true := by simp [truthy, hin, hp]
      rw [if_pos ht] at h
      rw [hin] at h
      obtain ⟨x, r1, h1, h⟩ := Gen.bind_ok.1 h
      obtain ⟨u, r2, h2, h⟩ := Gen.bind_ok.1 h
      obtain ⟨cl, hc, hx, f1⟩ := reference_accepts (k := .input) (styled_stateAfter env ops) (by simp) h1
      obtain ⟨f2, hu⟩ := coercibleInputUnion_ok (W := W) h2
      have hi : ∀ v, VariableInst W env (stateAfter env ops) co t.base v ↔ Accepts W u v := by
        intro v
        unfold VariableInst
        rw [hsc, hin, hu, named_or_str hx]
        simp only [Option.getD_some]
        rw [inst_iff (show styledName env .input t.base = some cl from hc)]
      have := ((overrideAnnotation_shape W env _).sound t trivial true _ _ _ trivial h
        (by intro hh; exact hleaf ((hi _).2 hh))).2 v
      simp only [if_true] at this
      rw [this]
      exact legal_congr t (fun v => (hi v).symm) v
    | none =>
      have ht : truthy (co.inputs.get? t.base) = false := by simp [truthy, hin]
      rw [if_neg (by simp [ht])] at h
      have hi : ∀ v, VariableInst W env (stateAfter env ops) co t.base v ↔
          Inst W (registeredClass env (stateAfter env ops)) t.base v := by
        intro v; unfold VariableInst; rw [hsc, hin]
      rw [C16_variable_annotation_exact W env ops t e r' hstyle h (fun hh => hleaf ((hi _).2 hh)) v]
      exact legal_congr t (fun v => (hi v).symm) v

/-- a run that meets the hypotheses: `[[Filter!]]!` over a registered input -/
def demoSchema : Schema :=
  { types := [("Int", ⟨.scalar, none⟩), ("Filter", ⟨.input [⟨"n", .nonNull (.named "Int"), none, none, none⟩] [], none⟩),
      ("Color", ⟨.enum [⟨"RED", none, none⟩], none⟩)] }

/-- the module of the examples: `int` accepts the text `"1"`, `Filter` is a model -/
def demoWorld : World where
  isa n v := n = "int" ∧ v = .atom "1"
  model n := if n = "Filter" then some [⟨"n", false, .name "int"⟩] else none

example : (recurseTypeAnnotation {} none (.nonNull (.list (.list (.nonNull (.named "Filter"))))) true
      (stateAfter {} [.generate .input "Filter"])).toOption.map (·.1) =
    some (sub "List" (sub "Optional" (sub "List" (.name "Filter")))) := by decide +kernel

example : (inputAnnotation { schema := demoSchema, config := { freeze := { enabled := true } } } "Filter"
      (.list (.nonNull (.named "Filter"))) true (stateAfter {} [.generate .input "Filter"])).toOption.map (·.1) =
    some (sub "Optional" (sub "Tuple" (.tuple [.str "Filter", .const .ellipsis]))) := by decide +kernel

/-- the model `Filter` of the example does not accept `None` and accepts `{"n": 1}` -/
example : ¬ Accepts demoWorld (.name "Filter") .null ∧ Accepts demoWorld (.name "Filter") (.obj [("n", .atom "1")]) := by
  constructor
  · intro h; cases h with
    | leaf h => simp [demoWorld] at h
  · refine .model (fs := [⟨"n", false, .name "int"⟩]) rfl ?_ ?_
    · simp [Val.entry]
    · simp only [List.mem_singleton, Val.entry]
      rintro f rfl x h
      simp at h
      subst h
      exact .leaf ⟨rfl, rfl⟩

/-! ## C17, C02 (inputs) -/

/-- C17: the declaration generated for an input field (first statement; a second one can only be a comment)
must be supplied exactly when the type is non-null and there is no schema default; if it may be omitted its
default is `None`, never the schema default; it accepts the values of the GraphQL type and, when it may be
omitted, also `None`. C02: it is read and written under the GraphQL name, with an alias exactly when the
Python attribute differs. -/
theorem C17_input_field_requiredness (W : World) (c : Ctx) (ops : List Op) (cls : String) (f : InputFieldDef)
    (ss : List Stmt) (r' : Reg)
    (h : inputFieldStmts c cls f (stateAfter c.env ops) = .ok (ss, r'))
    (hleaf : ¬ Inst W (inputSideClass c (stateAfter c.env ops)) f.type.base .null) :
    ∃ decl comments field, ss = decl :: comments ∧ (∀ s ∈ comments, ∃ e, s = .expr e) ∧
      fieldOf decl = some field ∧
      (field.hasDefault = false ↔ f.type.isNonNull = true ∧ f.default = none) ∧
      (field.hasDefault = true → defaultOf decl = some (.const .none)) ∧
      (∀ v, Accepts W field.ann v ↔
        Legal (Inst W (inputSideClass c (stateAfter c.env ops))) f.type v ∨
        (field.hasDefault = true ∧ v = .null)) := by
  obtain ⟨_, attr, ann, v, doc, _, rfl, hdoc, hf, hd, _, hacc⟩ :=
    inputFieldStmts_ok (styled_stateAfter c.env ops) h hleaf
  refine ⟨_, _, _, rfl, ?_, hf, ?_, ?_, hacc⟩
  · rcases hdoc with rfl | ⟨e, rfl⟩
    · simp
    · intro s hs; simp at hs; exact ⟨e, hs⟩
  · simp only [omittableField]
    cases f.default <;> cases f.type.isNonNull <;> simp
  · intro ho
    rw [hd]
    simp only at ho
    rw [if_pos ho]

/-- C02 for fields of input models: the wire name is the GraphQL name, the attribute is the styled and
keyword-escaped name, and an alias is emitted exactly when they differ. -/
theorem C02_input_field_alias (W : World) (c : Ctx) (ops : List Op) (cls : String) (f : InputFieldDef)
    (ss : List Stmt) (r' : Reg)
    (h : inputFieldStmts c cls f (stateAfter c.env ops) = .ok (ss, r'))
    (hleaf : ¬ Inst W (inputSideClass c (stateAfter c.env ops)) f.type.base .null) :
    ∃ decl comments field attr, ss = decl :: comments ∧ fieldOf decl = some field ∧ attrOf decl = some attr ∧
      generateNodeName c.env.stylers f.name = .ok attr ∧
      field.key = f.name ∧ (hasAlias decl = true ↔ attr ≠ f.name) := by
  obtain ⟨_, attr, ann, v, doc, hn, rfl, hdoc, hf, hd, ha, hacc⟩ :=
    inputFieldStmts_ok (styled_stateAfter c.env ops) h hleaf
  exact ⟨_, _, _, attr, rfl, hf, rfl, hn, rfl, by rw [ha]; simp⟩

/-- a non-null field with schema default 3 and a keyword name -/
def demoField : InputFieldDef := ⟨"from", .nonNull (.named "Int"), some (.int 3), none, none⟩

example : (inputFieldStmts { schema := demoSchema } "Filter" demoField (stateAfter {} [])).toOption.isSome = true := by
  decide +kernel

example : ∃ s r, inputFieldStmts { schema := demoSchema } "Filter" demoField (stateAfter {} []) =
    .ok ([.annAssign "from_" (sub "Annotated" (.tuple [sub "Optional" (.name "int"),
        .call (.name "GraphQLDefault") [.str "3"] []]))
      (some (.call (.name "Field") [] [(some "alias", .str "from"), (some "default", .const .none)])), s], r) :=
  ⟨_, _, rfl⟩

/-! ## C20, C02 (objects) -/

/-- C20: the declaration generated for a field of an object or interface accepts exactly the values of the
GraphQL type (a union: the values of its members), may be absent from a payload exactly when the field is
nullable, and is read under the schema name. -/
theorem C20_object_field_exact (W : World) (c : Ctx) (ops : List Op) (cls : String) (f : FieldDef)
    (ss : List Stmt) (r' : Reg)
    (h : objectFieldStmts c cls f (stateAfter c.env ops) = .ok (ss, r'))
    (hleaf : ¬ OutputInst W c (stateAfter c.env ops) f.type.base .null) :
    ∃ decl comments field, ss = decl :: comments ∧ (∀ s ∈ comments, ∃ e, s = .expr e) ∧
      fieldOf decl = some field ∧ field.key = f.name ∧
      (field.hasDefault = true ↔ f.type.isNonNull = false) ∧
      (∀ v, Accepts W field.ann v ↔ Legal (OutputInst W c (stateAfter c.env ops)) f.type v) := by
  obtain ⟨_, attr, ann, v, doc, _, rfl, hdoc, hf, hd, _, hacc⟩ :=
    objectFieldStmts_ok (styled_stateAfter c.env ops) h hleaf
  refine ⟨_, _, _, rfl, ?_, hf, rfl, by simp, hacc⟩
  rcases hdoc with rfl | ⟨e, rfl⟩
  · simp
  · intro s hs; simp at hs; exact ⟨e, hs⟩

/-- C02 for fields of object models. -/
theorem C02_object_field_alias (W : World) (c : Ctx) (ops : List Op) (cls : String) (f : FieldDef)
    (ss : List Stmt) (r' : Reg)
    (h : objectFieldStmts c cls f (stateAfter c.env ops) = .ok (ss, r'))
    (hleaf : ¬ OutputInst W c (stateAfter c.env ops) f.type.base .null) :
    ∃ decl comments field attr, ss = decl :: comments ∧ fieldOf decl = some field ∧ attrOf decl = some attr ∧
      generateNodeName c.env.stylers f.name = .ok attr ∧
      field.key = f.name ∧ (hasAlias decl = true ↔ attr ≠ f.name) := by
  obtain ⟨_, attr, ann, v, doc, hn, rfl, hdoc, hf, hd, ha, hacc⟩ :=
    objectFieldStmts_ok (styled_stateAfter c.env ops) h hleaf
  exact ⟨_, _, _, attr, rfl, hf, rfl, hn, rfl, by rw [ha]; simp⟩

/-- a schema with a union -/
def demoUnion : Schema :=
  { types := [("A", ⟨.object [] [], none⟩), ("B", ⟨.object [] [], none⟩), ("U", ⟨.union ["A", "B"], none⟩)] }

example : ∃ r, objectFieldStmts { schema := demoUnion } "A" ⟨"class", .list (.named "U"), [], none, some "old"⟩
      (stateAfter {} [.generate .object "A"]) =
    .ok ([.annAssign "class_" (sub "Annotated" (.tuple [sub "Optional" (sub "List" (sub "Optional"
          (sub "Union" (.tuple [.str "A", .str "B"])))), .call (.name "Deprecated") [.str "old"] []]))
        (some (.call (.name "Field") [] [(some "default", .const .none), (some "alias", .str "class")])),
      .expr (.str "DEPRECATED: old")], r) :=
  ⟨_, rfl⟩

/-! ## C21: the return annotation -/

/-- C21 fails in the model as in the code: for a non-null field the annotation helper strips two layers, so a
collapsed operation on `Int!` raises instead of producing an annotation … -/
theorem C21_nonnull_scalar_counterexample :
    outputAnnotation { schema := demoSchema } none (.nonNull (.named "Int")) true (stateAfter {} []) =
      .error (.attributeError "Int") := rfl

/-- … and on `[Int]!` it forgets the list and still reports "not optional", whereas the docstring label is
right. -/
theorem C21_nonnull_list_counterexample :
    (outputAnnotation { schema := demoSchema } none (.nonNull (.list (.named "Int"))) true
      (stateAfter {} [])).toOption.map (·.1) = some (.name "int") ∧
    (outputLabel { schema := demoSchema } none (.nonNull (.list (.named "Int"))) true
      (stateAfter {} [])).toOption.map (·.1) = some "List[Optional[int]]" := by
  constructor <;> decide +kernel

end Turms.Props
