import Verif.Lemmas.InputValues
import Verif.Props.Annotations

/-!
# C83: what the generated input models send is what the schema accepts

`generateInputs` is run on the registry reached by an arbitrary history of registry calls.  `ClosedInputs` picks a set of
types that is closed under fields and has nothing to do with `@unionElementOf`; `Unambiguous` says that the names in the
module mean one thing.
-/

namespace Turms.Props
open Turms Turms.Spec

/-- a successful run gives what the lemmas need -/
theorem inputsRun {c : Ctx} {p : InputsConfig} {ops : List Op} {ss : List Stmt} {r' : Reg} {isa : String → Val → Prop}
    {S : String → Prop} (hp : PlainConfig c.config) (hn : c.schema.types.keys.Nodup)
    (h : generateInputs c p (stateAfter c.env ops) = .ok (ss, r')) (hS : ClosedInputs c p S)
    (hU : Unambiguous c p (stateAfter c.env ops) ss isa) : InputsRun c p (stateAfter c.env ops) ss isa S where
  closed := hS
  names := hU
  shape _ _ _ _ hSn hl hc := shape_of (styled_stateAfter _ _) hp hn h hS hU hSn hl hc

/-- C83: every value the schema accepts for an input type can be sent: there is an instance of the generated class that is
serialised to it. -/
theorem C83_legal_can_be_sent (c : Ctx) (p : InputsConfig) (ops : List Op) (ss : List Stmt) (r' : Reg)
    (isa : String → Val → Prop) (S : String → Prop) (hp : PlainConfig c.config) (hn : c.schema.types.keys.Nodup)
    (h : generateInputs c p (stateAfter c.env ops) = .ok (ss, r')) (hS : ClosedInputs c p S)
    (hU : Unambiguous c p (stateAfter c.env ops) ss isa) (n cls : String) (hSn : S n)
    (hc : inputSideClass c (stateAfter c.env ops) n = some cls) (w : Val) (h0 : w ≠ .null)
    (hw : InputValue c.schema (LeafValue c (stateAfter c.env ops) isa) (.named n) w) : Sends ss isa (.name cls) w :=
  legal_sent (inputsRun hp hn h hS hU) _ w (Nat.lt_succ_self _) n cls hSn hc h0 hw

/-- C83: everything an instance of the generated class is serialised to is accepted by the schema, and is not null — in a
schema where no non-null field has a default value (see the counterexample). -/
theorem C83_sent_is_legal_partial (c : Ctx) (p : InputsConfig) (ops : List Op) (ss : List Stmt) (r' : Reg)
    (isa : String → Val → Prop) (S : String → Prop) (hp : PlainConfig c.config) (hn : c.schema.types.keys.Nodup)
    (h : generateInputs c p (stateAfter c.env ops) = .ok (ss, r')) (hS : ClosedInputs c p S)
    (hU : Unambiguous c p (stateAfter c.env ops) ss isa) (hd : NoOptionalNonNull c.schema) (n cls : String) (hSn : S n)
    (hc : inputSideClass c (stateAfter c.env ops) n = some cls) (w : Val) (hw : Sends ss isa (.name cls) w) :
    w ≠ .null ∧ InputValue c.schema (LeafValue c (stateAfter c.env ops) isa) (.named n) w :=
  ⟨fun h0 => (inputsRun hp hn h hS hU).notNull hSn hc (h0 ▸ hw),
    sent_legal (inputsRun hp hn h hS hU) hd _ w (Nat.lt_succ_self _) n cls hSn hc hw⟩

/-- C83, for the variables of an operation: whatever the schema accepts for the type of a variable, the field of the
`Arguments` class that stands for it can hold and send.  `hreg` says that the document resolves the name of the type as the
schema does. -/
theorem C83_variable_can_be_sent (c : Ctx) (p : InputsConfig) (ops ops' : List Op) (ss : List Stmt) (r' r2 : Reg)
    (isa : String → Val → Prop) (S : String → Prop) (hp : PlainConfig c.config) (hn : c.schema.types.keys.Nodup)
    (h : generateInputs c p (stateAfter c.env ops) = .ok (ss, r')) (hS : ClosedInputs c p S)
    (hU : Unambiguous c p (stateAfter c.env ops) ss isa) (t : TypeNode) (e : Expr) (hSt : S t.base)
    (hstyle : Kind.input.style c.env t.base ≠ .ok "" ∧
      ∀ s, Kind.input.style c.env t.base ≠ .error (.noInputTypeFound s))
    (h2 : recurseTypeAnnotation c.env none t true (stateAfter c.env ops') = .ok (e, r2))
    (hreg : registeredClass c.env (stateAfter c.env ops') t.base = inputSideClass c (stateAfter c.env ops) t.base)
    (w : Val) (hw : InputValue c.schema (LeafValue c (stateAfter c.env ops) isa) t w) : Sends ss isa e w := by
  have H := inputsRun hp hn h hS hU
  obtain ⟨_, hpl, hcl⟩ := plain_recurseTypeAnnotation t (styled_stateAfter _ _) hstyle h2
  rw [hreg] at hcl
  have hinst : ∀ v, Inst (worldOf ss isa) (registeredClass c.env (stateAfter c.env ops')) t.base v ↔
      Inst (worldOf ss isa) (inputSideClass c (stateAfter c.env ops)) t.base v := fun v => by unfold Inst; rw [hreg]
  refine (plain_accepts hpl).1 ((C16_variable_annotation_exact _ _ _ _ _ _ hstyle h2 ?_ w).2 ?_)
  · rw [hinst]; exact H.noNull hSt
  · rw [legal_congr t hinst]
    exact inputValue_legal t (fun y _ n cls hSn hc h0 hy => legal_sent H _ y (Nat.lt_succ_self _) n cls hSn hc h0 hy) hSt hcl hw

/-- C83, for the variables of an operation: whatever is sent for a variable is legal for its type, with the exception of
non-null fields that have a default value. -/
theorem C83_variable_sent_is_legal_partial (c : Ctx) (p : InputsConfig) (ops ops' : List Op) (ss : List Stmt) (r' r2 : Reg)
    (isa : String → Val → Prop) (S : String → Prop) (hp : PlainConfig c.config) (hn : c.schema.types.keys.Nodup)
    (h : generateInputs c p (stateAfter c.env ops) = .ok (ss, r')) (hS : ClosedInputs c p S)
    (hU : Unambiguous c p (stateAfter c.env ops) ss isa) (hd : NoOptionalNonNull c.schema)
    (t : TypeNode) (e : Expr) (hSt : S t.base)
    (hstyle : Kind.input.style c.env t.base ≠ .ok "" ∧
      ∀ s, Kind.input.style c.env t.base ≠ .error (.noInputTypeFound s))
    (h2 : recurseTypeAnnotation c.env none t true (stateAfter c.env ops') = .ok (e, r2))
    (hreg : registeredClass c.env (stateAfter c.env ops') t.base = inputSideClass c (stateAfter c.env ops) t.base)
    (w : Val) (hw : Sends ss isa e w) : InputValue c.schema (LeafValue c (stateAfter c.env ops) isa) t w := by
  have H := inputsRun hp hn h hS hU
  obtain ⟨_, hpl, _⟩ := plain_recurseTypeAnnotation t (styled_stateAfter _ _) hstyle h2
  have hinst : ∀ v, Inst (worldOf ss isa) (registeredClass c.env (stateAfter c.env ops')) t.base v ↔
      Inst (worldOf ss isa) (inputSideClass c (stateAfter c.env ops)) t.base v := fun v => by unfold Inst; rw [hreg]
  refine legal_inputValue t (fun y _ n cls hSn hc hy => sent_legal H hd _ y (Nat.lt_succ_self _) n cls hSn hc hy) hSt ?_
  rw [← legal_congr t hinst]
  refine (C16_variable_annotation_exact _ _ _ _ _ _ hstyle h2 ?_ w).1 ((plain_accepts hpl).2 hw)
  rw [hinst]; exact H.noNull hSt

/-! ## A schema that meets the hypotheses -/

/-- a recursive input, a direct `@oneOf` union, and a `@oneOf` with wrappers that refers to both -/
def valuesSchema : Schema :=
  { types := [
      ("Int", ⟨.scalar, none⟩),
      ("Filter", ⟨.input [⟨"n", .nonNull (.named "Int"), none, none, none⟩,
        ⟨"andAlso", .list (.nonNull (.named "Filter")), none, none, some "old"⟩] [], none⟩),
      ("Page", ⟨.input [⟨"from", .named "Int", some (.int 0), none, none⟩] [], none⟩),
      ("Direct", ⟨.input [⟨"byFilter", .named "Filter", none, none, none⟩, ⟨"byPage", .named "Page", none, none, none⟩]
        [⟨"oneOf", []⟩], none⟩),
      ("Wrapped", ⟨.input [⟨"count", .named "Int", none, none, none⟩,
        ⟨"any", .list (.named "Direct"), none, none, none⟩] [⟨"oneOf", []⟩], none⟩)] }

/-- the context of the examples -/
def valuesCtx : Ctx := { schema := valuesSchema }

/-- the values of the scalar -/
def valuesIsa (n : String) (v : Val) : Prop := n = "int" ∧ ∃ a, v = .atom a

/-- what the module binds, the attributes of its classes, and the class of the scalar -/
theorem values_run : (generateInputs valuesCtx {} (stateAfter {} [])).toOption.map (fun x => (x.1.flatMap bound,
      x.1.all fun s => match s with
        | .classDef _ _ body _ => decide (body.filterMap attrOf).Nodup
        | _ => true)) =
    some (["Filter", "Page", "WrappedCount", "WrappedAny", "Wrapped", "_serialize_direct", "Direct"], true) := by
  decide +kernel

theorem values_inputs {t : InputType} (h : InputOf valuesCtx.schema t) :
    t.name ∈ ["Filter", "Page", "Direct", "Wrapped"] ∧ ∀ d ∈ t.directives, d.name = "oneOf" := by
  obtain ⟨e, he, hd, _⟩ := h
  simp only [valuesCtx, valuesSchema, List.mem_cons, Prod.mk.injEq, List.not_mem_nil, or_false] at he
  rcases he with ⟨_, rfl⟩ | ⟨hn, rfl⟩ | ⟨hn, rfl⟩ | ⟨hn, rfl⟩ | ⟨hn, rfl⟩ <;>
    simp only [TypeDef.input.injEq, reduceCtorEq] at hd <;> rw [hn, ← hd.2] <;> simp

theorem values_closed : ClosedInputs valuesCtx {} (fun _ => True) where
  fields _ _ _ _ _ _ _ := trivial
  kept t ht _ := by
    refine ⟨fun l hl => (by cases hl), ?_⟩
    have := (values_inputs ht).1
    simp only [List.mem_cons, List.not_mem_nil, or_false] at this
    rcases this with h | h | h | h <;> rw [h] <;> decide +kernel
  noMember t ht _ := by
    rintro ⟨u, dn, k, ⟨d, hd, hname, _⟩, _⟩
    rw [(values_inputs ht).2 d hd] at hname
    revert hname
    decide +kernel
  noUnion _ t' _ _ ht := by
    rintro ⟨dn, k, ⟨d, hd, hname, _⟩, _⟩
    rw [(values_inputs ht).2 d hd] at hname
    revert hname
    decide +kernel

theorem values_leaf {n : String} (h : IsLeaf valuesCtx.schema n) : n = "Int" := by
  have : ∀ {d : TypeDef}, valuesCtx.schema.lookup n = some d → (∀ fs ds, d ≠ .input fs ds) → n = "Int" := by
    intro d hl hd
    by_cases hn : n = "Int"
    · exact hn
    · exfalso
      unfold Schema.lookup at hl
      cases he : valuesCtx.schema.types.get? n with
      | none => rw [he] at hl; cases hl
      | some e =>
        rw [he] at hl
        have hm := mem_of_get? he
        simp only [valuesCtx, valuesSchema, List.mem_cons, Prod.mk.injEq, List.not_mem_nil, or_false] at hm
        simp only [Option.map_some, Option.some.injEq] at hl
        rcases hm with ⟨h, _⟩ | ⟨_, rfl⟩ | ⟨_, rfl⟩ | ⟨_, rfl⟩ | ⟨_, rfl⟩
        · exact hn h
        all_goals exact hd _ _ hl.symm
  rcases h with h | ⟨vs, h⟩
  · exact this h (by intros; simp)
  · exact this h (by intros; simp)

/-- the hypotheses of the theorems are met -/
theorem values_hypotheses : ∃ ss r', generateInputs valuesCtx {} (stateAfter valuesCtx.env []) = .ok (ss, r') ∧
    ClosedInputs valuesCtx {} (fun _ => True) ∧
    Unambiguous valuesCtx {} (stateAfter valuesCtx.env []) ss valuesIsa ∧ NoOptionalNonNull valuesCtx.schema ∧
    PlainConfig valuesCtx.config ∧ valuesCtx.schema.types.keys.Nodup := by
  have hrun := values_run
  cases h : generateInputs valuesCtx {} (stateAfter {} []) with
  | error e => rw [h] at hrun; cases hrun
  | ok q =>
    obtain ⟨ss, r'⟩ := q
    rw [h] at hrun
    simp only [Except.toOption, Option.map_some, Option.some.injEq, Prod.mk.injEq] at hrun
    obtain ⟨hb, hattr⟩ := hrun
    refine ⟨ss, r', h, values_closed, ⟨?_, ?_, ?_, ?_, ?_⟩, ?_, ?_, by decide +kernel⟩
    · rw [hb]; decide +kernel
    · intro n bases body ds hm
      rw [List.all_eq_true] at hattr
      simpa using hattr _ hm
    · rw [hb]
      rintro b (hbm | ⟨n, l, hl, _⟩)
      · cases List.mem_singleton.1 hbm
        decide +kernel
      · cases hl
    · rintro n v ⟨rfl, _⟩
      rw [hb]
      decide +kernel
    · intro n cls hl hc
      obtain rfl := values_leaf hl
      have : inputSideClass valuesCtx (stateAfter valuesCtx.env []) "Int" = some "int" := by decide +kernel
      rw [this] at hc
      cases hc
      rw [hb]
      refine ⟨by decide +kernel, ?_⟩
      rintro ⟨_, a, ha⟩
      cases ha
    · intro n fs ds hl f hf hnn
      obtain ⟨d, e, he, hd, _⟩ := lookup_inputOf hl
      simp only [valuesCtx, valuesSchema, List.mem_cons, Prod.mk.injEq, List.not_mem_nil, or_false] at he
      rcases he with ⟨_, rfl⟩ | ⟨_, rfl⟩ | ⟨_, rfl⟩ | ⟨_, rfl⟩ | ⟨_, rfl⟩ <;>
        simp only [TypeDef.input.injEq, reduceCtorEq] at hd <;> rw [← hd.1] at hf <;>
        simp only [List.mem_cons, List.not_mem_nil, or_false] at hf
      all_goals rcases hf with rfl | rfl <;> first | rfl | (simp [TypeNode.isNonNull] at hnn)
    · intro t l hl
      cases hl

/-- `{"any": [{"byFilter": {"n": 1}}, null]}` is legal for `Wrapped`, so it can be sent -/
example : ∃ ss r', generateInputs valuesCtx {} (stateAfter valuesCtx.env []) = .ok (ss, r') ∧
    Sends ss valuesIsa (.name "Wrapped")
      (.obj [("any", .list [.obj [("byFilter", .obj [("n", .atom "1")])], .null])]) := by
  obtain ⟨ss, r', h, hS, hU, _, hp, hn⟩ := values_hypotheses
  refine ⟨ss, r', h, C83_legal_can_be_sent _ _ _ _ _ _ _ hp hn h hS hU "Wrapped" "Wrapped" trivial (by decide +kernel) _
    (by simp) ?_⟩
  refine .oneOf (f := ⟨"any", .list (.named "Direct"), none, none, none⟩) rfl ⟨_, List.mem_singleton.2 rfl, rfl⟩ (by simp)
    (by simp) (.list ?_)
  simp only [List.forall_mem_cons, List.not_mem_nil, false_implies, implies_true, and_true]
  refine ⟨.oneOf (f := ⟨"byFilter", .named "Filter", none, none, none⟩) rfl ⟨_, List.mem_singleton.2 rfl, rfl⟩ (by simp)
    (by simp) ?_, .null rfl⟩
  refine .object (fs := [⟨"n", .nonNull (.named "Int"), none, none, none⟩,
    ⟨"andAlso", .list (.nonNull (.named "Filter")), none, none, some "old"⟩]) (ds := []) rfl ?_ (by simp) ?_ ?_ ?_
  · rintro ⟨_, h, _⟩; cases h
  · intro k x hx
    cases List.mem_singleton.1 hx
    exact ⟨_, List.mem_cons_self, rfl⟩
  · intro f hf hnn _
    simp only [List.mem_cons, List.not_mem_nil, or_false] at hf
    rcases hf with rfl | rfl
    · exact ⟨_, List.mem_singleton.2 rfl⟩
    · cases hnn
  · intro f hf x hx
    simp only [List.mem_cons, List.not_mem_nil, or_false, Prod.mk.injEq] at hf hx
    rcases hf with rfl | rfl
    · rw [hx.2]
      exact .nonNull (by simp) (.leaf (.inl rfl) ⟨"int", by decide +kernel, rfl, _, rfl⟩)
    · exact absurd hx.1 (by decide +kernel)

/-- two members at once are never sent -/
example (ss : List Stmt) (r' : Reg) (h : generateInputs valuesCtx {} (stateAfter valuesCtx.env []) = .ok (ss, r')) (a b : Val) :
    ¬ Sends ss valuesIsa (.name "Direct") (.obj [("byFilter", a), ("byPage", b)]) := by
  obtain ⟨ss', r'', h', hS, hU, hd, hp, hn⟩ := values_hypotheses
  rw [h] at h'
  cases h'
  intro hs
  obtain ⟨_, hv⟩ := C83_sent_is_legal_partial _ _ _ _ _ _ _ hp hn h hS hU hd "Direct" "Direct" trivial (by decide +kernel) _ hs
  generalize hw : Val.obj [("byFilter", a), ("byPage", b)] = w at hv
  cases hv with
  | null => cases hw
  | oneOf => simp at hw
  | leaf hl => exact absurd (values_leaf hl) (by decide +kernel)
  | object hl ho =>
    have : valuesCtx.schema.lookup "Direct" = some (.input _ [⟨"oneOf", []⟩]) := rfl
    rw [hl] at this
    cases this
    exact ho ⟨_, List.mem_singleton.2 rfl, rfl⟩

/-- a variable of type `[Direct!]`, after the classes have been registered -/
example : (recurseTypeAnnotation valuesCtx.env none (.list (.nonNull (.named "Direct"))) true
      (stateAfter valuesCtx.env [.generate .input "Direct"])).toOption.map (·.1) =
      some (sub "Optional" (sub "List" (.name "Direct"))) ∧
    registeredClass valuesCtx.env (stateAfter valuesCtx.env [.generate .input "Direct"]) "Direct" =
      inputSideClass valuesCtx (stateAfter valuesCtx.env []) "Direct" ∧
    Kind.input.style valuesCtx.env "Direct" ≠ .ok "" ∧
    ∀ s, Kind.input.style valuesCtx.env "Direct" ≠ .error (.noInputTypeFound s) := by
  refine ⟨by decide +kernel, by decide +kernel, by decide +kernel, ?_⟩
  intro s
  have : Kind.input.style valuesCtx.env "Direct" = .ok "Direct" := by decide +kernel
  rw [this]
  simp

/-! ## The exception -/

/-- a non-null field with a default value -/
def defaultedSchema : Schema :=
  { types := [("Int", ⟨.scalar, none⟩), ("Page", ⟨.input [⟨"size", .nonNull (.named "Int"), some (.int 10), none, none⟩] [], none⟩)] }

/-- the class that is generated for it -/
def defaultedClass : Stmt := .classDef "Page" [.name "BaseModel"]
  [.expr (.str "No documentation"),
   .annAssign "size" (sub "Annotated" (.tuple [sub "Optional" (.name "int"), .call (.name "GraphQLDefault") [.str "10"] []]))
    (some (.const .none)),
   .expr (.str "Default: 10")] []

theorem defaulted_run : (generateInputs { schema := defaultedSchema } {} (stateAfter {} [])).toOption.map (·.1) =
    some [defaultedClass] := by rfl

/-- C83: `size: Int! = 10` is generated as a field that may be `None`, which is sent as null; the server rejects that, since
the default value only applies when the field is left out. -/
theorem C83_defaulted_field_counterexample : ∃ ss r',
    generateInputs { schema := defaultedSchema } {} (stateAfter {} []) = .ok (ss, r') ∧
    Sends ss valuesIsa (.name "Page") (.obj [("size", .null)]) ∧
    ¬ InputValue defaultedSchema (LeafValue { schema := defaultedSchema } (stateAfter {} []) valuesIsa) (.named "Page")
      (.obj [("size", .null)]) := by
  have hrun := defaulted_run
  cases h : generateInputs { schema := defaultedSchema } {} (stateAfter {} []) with
  | error e => rw [h] at hrun; cases hrun
  | ok q =>
    obtain ⟨ss, r'⟩ := q
    rw [h] at hrun
    simp only [Except.toOption, Option.map_some, Option.some.injEq] at hrun
    subst hrun
    refine ⟨_, r', rfl, ?_, ?_⟩
    · have hd : ([defaultedClass].flatMap bound).Nodup := by decide +kernel
      have hc : ClassOf [defaultedClass] "Page" [⟨"size", true, sub "Annotated" (.tuple [sub "Optional" (.name "int"),
          .call (.name "GraphQLDefault") [.str "10"] []])⟩] := by
        refine ⟨_, _, List.mem_singleton.2 rfl, rfl, fun b hb => ?_⟩
        cases List.mem_singleton.1 hb
        decide +kernel
      rw [hc.sends hd (by rintro n v ⟨rfl, _⟩; decide +kernel)]
      refine ⟨_, rfl, by simp, ?_, ?_, ?_⟩
      · intro k x hx
        cases List.mem_singleton.1 hx
        exact ⟨_, List.mem_singleton.2 rfl, rfl⟩
      · intro m hm hdef
        cases List.mem_singleton.1 hm
        cases hdef
      · intro m hm x hx
        cases List.mem_singleton.1 hm
        simp only [List.mem_singleton, Prod.mk.injEq, true_and] at hx
        subst hx
        refine (sends_annotated ?_).2 .optionalNone
        intro m hm
        cases List.mem_singleton.1 hm
        exact ⟨rfl, rfl⟩
    · intro hv
      generalize hw : Val.obj [("size", Val.null)] = w at hv
      cases hv with
      | null => cases hw
      | leaf hl => rcases hl with hl | ⟨_, hl⟩ <;> cases hl
      | oneOf hl ho =>
        have : defaultedSchema.lookup "Page" = some (.input _ []) := rfl
        rw [hl] at this
        cases this
        obtain ⟨_, hm, _⟩ := ho
        cases hm
      | object hl _ _ _ _ h4 =>
        have : defaultedSchema.lookup "Page" = some (.input [_] []) := rfl
        rw [hl] at this
        cases this
        cases hw
        cases h4 _ (List.mem_singleton.2 rfl) .null (List.mem_singleton.2 rfl) with
        | null h => cases h
        | nonNull h => exact h rfl

end Turms.Props
