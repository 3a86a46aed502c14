import Verif.Lemmas.StrawberryPlugin
import Verif.Props.Registry

/-! # C52, C53, C66 – C68: what the strawberry plugin generates -/

namespace Turms.Props
open Turms Spec

/-! ## C53: literals -/

/-- C53: the literal emitted for a default value of a directive argument evaluates to that value, whatever its
nesting. -/
theorem C53_default_literal (d : PyDefault) (h : d.Proper) : ∃ e, convertDefault d = .ok e ∧ evalLiteral e = some d :=
  ⟨_, convertDefault_expr d h, evalLiteral_expr d h⟩

/-- C53: so does the literal emitted for a default value of a resolver argument. -/
theorem C53_resolver_default_literal (d : PyDefault) (h : d.Proper) : evalLiteral d.expr = some d :=
  evalLiteral_expr d h

/-- a nested value -/
def nestedDefault : PyDefault :=
  .dict [("a", .list [.int 3, .none, .dict [("b", .str "x")]]), ("c", .bool true)]

example : nestedDefault.Proper := by
  simp [nestedDefault, PyDefault.Proper, PyDefault.ProperL, PyDefault.ProperD]

/-- C53, for constants in directive applications: strings, booleans, `null` and lists of these are rendered
faithfully. Missing: numbers, enum values and input objects, see the counterexamples. -/
theorem C53_directive_literal_partial (v : Value) (h : v.Plain) :
    ∃ e d, convertValueNode v = .ok e ∧ literalMeaning v = some d ∧ evalLiteral e = some d :=
  convertValueNode_plain v h

example : (Value.list [.string "x", .list [.bool true, .null]]).Plain := by
  simp [Value.Plain, Value.PlainL]

/-- C53, limit: every number in a directive application is rendered as a *string*. -/
theorem C53_directive_number_counterexample (t : String) :
    (∃ e, convertValueNode (.int t) = .ok e ∧ evalLiteral e = some (.str t) ∧ evalLiteral e ≠ literalMeaning (.int t)) ∧
    (∃ e, convertValueNode (.float t) = .ok e ∧ evalLiteral e = some (.str t) ∧
      evalLiteral e ≠ literalMeaning (.float t)) := by
  refine ⟨⟨_, rfl, rfl, ?_⟩, ⟨_, rfl, rfl, ?_⟩⟩
  · simp only [evalLiteral, literalMeaning]
    cases t.toInt? <;> simp
  · simp [evalLiteral, literalMeaning]

/-- C53, limit: an enum value in a directive application is rendered as something that is no literal, and an
input object makes generation fail. -/
theorem C53_directive_enum_object_counterexample (n : String) (fs : List (String × Value)) :
    (∃ e, convertValueNode (.enum n) = .ok e ∧ evalLiteral e = none) ∧
    ∃ err, convertValueNode (.object fs) = .error err :=
  ⟨⟨_, rfl, rfl⟩, ⟨_, rfl⟩⟩

/-- C53, limit: both boolean defaults of an operation's variable are documented as `False`. -/
theorem C53_variable_boolean_counterexample (b : Bool) (r : Reg) :
    defaultMarker (some (.bool b)) r = .ok (some (.str "False"), r) := rfl

/-- C53, limit: an explicit `null` default of a directive argument is dropped: the argument has no default. -/
theorem C53_directive_null_counterexample (r : Reg) : directiveFieldValue (some .none) r = .ok (none, r) := rfl

/-! ## A schema -/

/-- a query type with arguments, an interface, an input, an enum, a custom scalar and a subscription -/
def berrySchema : Schema where
  types := [
    ("String", ⟨.scalar, none⟩), ("ID", ⟨.scalar, none⟩), ("Int", ⟨.scalar, none⟩),
    ("Token", ⟨.scalar, some "opaque"⟩),
    ("Colour", ⟨.enum [⟨"RED", none, none⟩, ⟨"BLUE", some "sea", none⟩], none⟩),
    ("Filter", ⟨.input [⟨"colour", .named "Colour", none, none, none⟩, ⟨"tokens", .list (.nonNull (.named "Token")), none, none, none⟩] [], none⟩),
    ("Node", ⟨.interface [⟨"id", .nonNull (.named "ID"), [], none, none⟩] [], none⟩),
    ("Item", ⟨.object [⟨"id", .nonNull (.named "ID"), [], none, none⟩, ⟨"owner", .named "Node", [], some "who", none⟩]
      ["Node"], some "an item"⟩),
    ("Query", ⟨.object [
      ⟨"items", .nonNull (.list (.named "Item")),
        [⟨"first", .named "Int", some (.int 10), none, none⟩, ⟨"filter", .nonNull (.named "Filter"), none, none, none⟩,
         ⟨"tags", .list (.named "String"), some (.list [.str "a"]), none, none⟩, ⟨"after", .named "ID", none, none, none⟩],
        none, none⟩,
      ⟨"version", .named "String", [], none, none⟩] [], none⟩),
    ("Subscription", ⟨.object [⟨"added", .named "Item", [], none, none⟩] [], none⟩)]

/-- its context -/
def berryCtx : Ctx := { schema := berrySchema }

/-- the members of the classes of a module: class, member, annotation of the value -/
def berryMembers (ss : List Stmt) : List (String × String × Option Expr) :=
  ss.flatMap fun
    | .classDef n _ body _ => (body.filter isMember).map fun
      | .annAssign x a v => (n, x, valueAnnotation (.annAssign x a v))
      | .funcDef b x as ds bd dec ret => (n, x, valueAnnotation (.funcDef b x as ds bd dec ret))
      | _ => (n, "", none)
    | _ => []

/-- the methods of the classes of a module with their parameters -/
def berryMethods (ss : List Stmt) : List (String × List (String × Option Expr)) :=
  ss.flatMap fun
    | .classDef n _ body _ => body.filterMap fun
      | .funcDef _ x as ds _ _ _ => some (n ++ "." ++ x, signature as ds)
      | _ => none
    | _ => []

example : (strawberryPlugin berryCtx {} {} (stateAfter {} [])).toOption.map (fun x => berryMembers x.1) =
    some [
      ("Filter", "colour", some (sub "Optional" (.name "Colour"))),
      ("Filter", "tokens", some (sub "Optional" (sub "List" (.name "Token")))),
      ("Node", "id", some (.name "str")),
      ("Item", "id", some (.name "str")), ("Item", "owner", some (sub "Optional" (.str "Node"))),
      ("Query", "items", some (sub "List" (sub "Optional" (.name "Item")))),
      ("Query", "version", some (sub "Optional" (.name "str"))),
      ("Subscription", "added", some (sub "Optional" (.name "Item")))] := by decide +kernel

example : (strawberryPlugin berryCtx {} {} (stateAfter {} [])).toOption.map (fun x => berryMethods x.1) =
    some [
      ("Query.items", [("self", none), ("filter", none), ("after", none), ("first", some (.const (.int 10))),
        ("tags", some (.list [.str "a"]))]),
      ("Query.version", [("self", none)]), ("Subscription.added", [("self", none)])] := by decide +kernel

/-! ## C52 -/

/-- no value is an instance of any class -/
def emptyWorld : World where
  isa _ _ := False

/-- the class of a kept object or interface type, with everything known about it -/
theorem strawberry_type {W : World} {c : Ctx} {p : StrawberryConfig} {sd : SchemaDirectives} {ops : List Op}
    {ss : List Stmt} {r' : Reg} (hg : p.generateTypes = true)
    (h : strawberryPlugin c p sd (stateAfter c.env ops) = .ok (ss, r')) {t : CompositeType} (ht : CompositeOf c.schema t)
    (hk : KeptType p t.name) : ∃ s ∈ ss, TypeMeans W c r' t s := by
  obtain ⟨ds, sc, es, is, ts, rfl, _, _, _, hty⟩ := (strawberryPlugin_ok (W := W) (styled_stateAfter _ _) h).parts
  rw [if_pos hg] at hty
  obtain ⟨s, hs, hm⟩ := forall₂_mem_left hty (List.mem_filter.2 ⟨mem_sortedComposites.2 ht, keptSb_iff.2 hk⟩)
  exact ⟨s, List.mem_append_right _ hs, hm⟩

/-- C52: every kept object or interface type has a class with one member per field, in order. A field with
arguments, and every field of a root type, becomes a resolver: a method named after the field whose parameters
are `self`, the arguments without default and then those with default, each with its own default, which
evaluates to the value in the schema. Any other field becomes an attribute. -/
theorem C52_resolver_signatures (c : Ctx) (p : StrawberryConfig) (sd : SchemaDirectives) (ops : List Op)
    (ss : List Stmt) (r' : Reg) (hg : p.generateTypes = true)
    (h : strawberryPlugin c p sd (stateAfter c.env ops) = .ok (ss, r')) (t : CompositeType) (ht : CompositeOf c.schema t)
    (hk : KeptType p t.name) :
    ∃ cls bases body decorators, styled c.env.stylers Styler.objectName t.name = .ok cls ∧
      .classDef cls bases body decorators ∈ ss ∧
      List.Forall₂ (FieldMember c t.name) t.fields (body.filter isMember) := by
  obtain ⟨s, hs, ⟨cls, bases, body, dec, hc, rfl, hf⟩⟩ := strawberry_type (W := emptyWorld) hg h ht hk
  exact ⟨cls, bases, body, dec, hc, hs, hf.imp fun _ _ hm => hm.form⟩

/-- C52, spelled out for one argument: it is a parameter of the resolver, with a default exactly if the schema
has one. -/
theorem C52_every_argument_kept (c : Ctx) (f : FieldDef) (s : Stmt) (h : ResolverOf c f s) (a : ArgDef) (ha : a ∈ f.args) :
    ∃ isAsync name args defaults body decorators returns,
      s = .funcDef isAsync name args defaults body decorators returns ∧
      ∃ x ∈ signature args defaults, ArgParam c.env a x ∧ args.length = f.args.length + 1 := by
  obtain ⟨isAsync, name, args, defaults, body, decorators, returns, rest, hs, _, hlen, hsig, hf⟩ := h
  refine ⟨isAsync, name, args, defaults, body, decorators, returns, hs, ?_⟩
  have hmem : a ∈ f.args.filter ArgDef.bare ++ f.args.filter (fun a => !ArgDef.bare a) := by
    rw [List.mem_append, List.mem_filter, List.mem_filter]
    cases hb : ArgDef.bare a
    · exact .inr ⟨ha, rfl⟩
    · exact .inl ⟨ha, rfl⟩
  obtain ⟨x, hx, hax⟩ := forall₂_mem_left hf hmem
  refine ⟨x, by rw [hsig]; exact List.mem_cons_of_mem _ hx, hax, ?_⟩
  have h1 := congrArg List.length hsig
  have h2 := hf.length_eq
  have h3 : (f.args.filter ArgDef.bare ++ f.args.filter (fun a => !ArgDef.bare a)).length = f.args.length := by
    rw [← sortedArgs_eq]
    exact (pySorted_perm _ _).length_eq
  unfold signature at h1
  simp only [List.length_zip, List.length_map, List.length_append, List.length_replicate, List.length_cons] at h1
  omega

/-- C52, limit: an argument called `self` gives the resolver two parameters of that name — a `SyntaxError`. -/
theorem C52_self_argument_counterexample (c : Ctx) (f : FieldDef) (isAsync : Bool) (name : String) (args : List Arg)
    (defaults : List Expr) (body : List Stmt) (decorators : List Expr) (returns : Option Expr)
    (h : ResolverOf c f (.funcDef isAsync name args defaults body decorators returns)) (a : ArgDef) (ha : a ∈ f.args)
    (hself : ParamOf c.env a.name "self") : ¬ (args.map (·.arg)).Nodup := by
  obtain ⟨_, _, args', defaults', _, _, _, rest, hs, _, hlen, hsig, hf⟩ := h
  cases hs
  have hmem : a ∈ f.args.filter ArgDef.bare ++ f.args.filter (fun a => !ArgDef.bare a) := by
    rw [List.mem_append, List.mem_filter, List.mem_filter]
    cases hb : ArgDef.bare a
    · exact .inr ⟨ha, rfl⟩
    · exact .inl ⟨ha, rfl⟩
  obtain ⟨x, hx, hax, _⟩ := forall₂_mem_left hf hmem
  have hx1 : x.1 = "self" := by
    unfold ParamOf at hax hself
    rw [hself] at hax
    exact (Except.ok.inj hax).symm
  have hnames : args.map (·.arg) = "self" :: rest.map (·.1) := by
    have := congrArg (List.map (·.1)) hsig
    unfold signature at this
    rw [List.map_fst_zip] at this
    · exact this
    · simp; omega
  rw [hnames, List.nodup_cons]
  intro hc
  exact hc.1 (List.mem_map.2 ⟨x, hx, hx1⟩)

example : (generateParameterName [] "self").toOption = some "self" := by decide +kernel

/-! ## C66 -/

/-- C66: in the class of a kept object or interface type, the annotation of every member accepts exactly the values
GraphQL allows for the field (for a subscription: of every event). -/
theorem C66_values_exact (W : World) (c : Ctx) (p : StrawberryConfig) (sd : SchemaDirectives) (ops : List Op)
    (ss : List Stmt) (r' : Reg) (hg : p.generateTypes = true)
    (h : strawberryPlugin c p sd (stateAfter c.env ops) = .ok (ss, r')) (t : CompositeType) (ht : CompositeOf c.schema t)
    (hk : KeptType p t.name) (hl : ∀ f ∈ t.fields, ¬ OutputInst W c r' f.type.base .null) :
    ∃ cls bases body decorators, styled c.env.stylers Styler.objectName t.name = .ok cls ∧
      .classDef cls bases body decorators ∈ ss ∧
      List.Forall₂ (fun (f : FieldDef) s => ∃ a, valueAnnotation s = some a ∧
        ∀ v, Accepts W a v ↔ Legal (OutputInst W c r') f.type v) t.fields (body.filter isMember) := by
  obtain ⟨s, hs, ⟨cls, bases, body, dec, hc, rfl, hf⟩⟩ := strawberry_type (W := W) hg h ht hk
  exact ⟨cls, bases, body, dec, hc, hs, forall₂_mem_imp hf fun f hf' s hm => hm.value (hl f hf')⟩

/-- C66: exactly one class per kept object and interface type, after everything else in the module. -/
theorem C66_one_class_per_type (c : Ctx) (p : StrawberryConfig) (sd : SchemaDirectives) (ops : List Op)
    (ss : List Stmt) (r' : Reg) (hg : p.generateTypes = true) (hn : c.schema.types.keys.Nodup)
    (h : strawberryPlugin c p sd (stateAfter c.env ops) = .ok (ss, r')) :
    ∃ before classes kept, ss = before ++ classes ∧ (∀ t, t ∈ kept ↔ CompositeOf c.schema t ∧ KeptType p t.name) ∧
      (kept.map (·.name)).Nodup ∧
      List.Forall₂ (fun (t : CompositeType) s => ∃ cls bases body decorators,
        styled c.env.stylers Styler.objectName t.name = .ok cls ∧ s = .classDef cls bases body decorators) kept classes := by
  obtain ⟨ds, sc, es, is, ts, rfl, _, _, _, hty⟩ :=
    (strawberryPlugin_ok (W := emptyWorld) (styled_stateAfter _ _) h).parts
  rw [if_pos hg] at hty
  refine ⟨_, ts, _, rfl, ?_, ?_, hty.imp fun t s ⟨cls, bases, body, dec, hc, hs, _⟩ => ⟨cls, bases, body, dec, hc, hs⟩⟩
  · intro t
    rw [List.mem_filter, mem_sortedComposites, keptSb_iff]
  · exact List.Nodup.sublist (List.filter_sublist.map _) (((pySorted_perm _ _).map _).nodup_iff.2 (compositeTypes_nodup hn))

/-- C66: one class per kept input type, with one declaration per field, in order, that accepts exactly the legal
values. -/
theorem C66_inputs_exact (W : World) (c : Ctx) (p : StrawberryConfig) (sd : SchemaDirectives) (ops : List Op)
    (ss : List Stmt) (r' : Reg) (hg : p.generateInputs = true)
    (h : strawberryPlugin c p sd (stateAfter c.env ops) = .ok (ss, r')) (t : InputType) (ht : InputOf c.schema t)
    (hk : ¬ (p.skipUnderscore = true ∧ t.name.toList.head? = some '_'))
    (hl : ∀ f ∈ t.fields, ¬ Inst W (inputSideClass c r') f.type.base .null) :
    ∃ cls bases body decorators, Kind.input.style c.env t.name = .ok cls ∧
      .classDef cls bases body decorators ∈ ss ∧
      List.Forall₂ (fun (f : InputFieldDef) s => ∃ name a v, s = .annAssign name a v ∧ FieldParamOf c.env f.name name ∧
        ∀ v, Accepts W a v ↔ Legal (Inst W (inputSideClass c r')) f.type v) t.fields (body.filter isMember) := by
  obtain ⟨ds, sc, es, is, ts, rfl, _, _, hin, _⟩ := (strawberryPlugin_ok (W := W) (styled_stateAfter _ _) h).parts
  rw [if_pos hg] at hin
  have hkept : keptIn p t.name = true := by
    unfold keptIn underscored
    cases hs : p.skipUnderscore
    · rfl
    · have : t.name.toList.head? ≠ some '_' := fun h => hk ⟨hs, h⟩
      simpa using this
  obtain ⟨s, hs, ⟨cls, bases, body, dec, hc, rfl, hf⟩⟩ := forall₂_mem_left hin
    (List.mem_filter.2 ⟨mem_inputTypes.2 ht, hkept⟩)
  refine ⟨cls, bases, body, dec, hc, by simp [hs], forall₂_mem_imp hf fun f hf' s hm => ?_⟩
  obtain ⟨n, a, v, rfl, hn, hx⟩ := hm
  exact ⟨n, a, v, rfl, hn, hx (hl f hf')⟩

/-- C66: one class per kept enum whose members are the values of the enum, in order. -/
theorem C66_enums_exact (c : Ctx) (p : StrawberryConfig) (sd : SchemaDirectives) (ops : List Op)
    (ss : List Stmt) (r' : Reg) (hg : p.generateEnums = true)
    (h : strawberryPlugin c p sd (stateAfter c.env ops) = .ok (ss, r')) (t : EnumType) (ht : EnumOf c.schema t)
    (hk : KeptType p t.name) (hne : t.values ≠ []) (hu : (t.values.map (·.name)).Nodup)
    (hv : ∀ v ∈ t.values, EnumMemberName v.name) :
    ∃ cls body decorators, Kind.enum.style c.env t.name = .ok cls ∧
      .classDef cls [.name "Enum"] body decorators ∈ ss ∧
      enumMembers body [] = some (t.values.map fun v => (v.name, v.name)) := by
  obtain ⟨ds, sc, es, is, ts, rfl, _, hen, _, _⟩ :=
    (strawberryPlugin_ok (W := emptyWorld) (styled_stateAfter _ _) h).parts
  rw [if_pos hg] at hen
  obtain ⟨s, hs, ⟨cls, dec, hc, rfl⟩⟩ := forall₂_mem_left hen
    (List.mem_filter.2 ⟨mem_enumTypes.2 ht, keptSb_iff.2 hk⟩)
  refine ⟨cls, _, dec, hc,
    List.mem_append_left _ (List.mem_append_left _ (List.mem_append_right _ hs)), ?_⟩
  have hvals := enumMembers_values t.values [] rfl (by simpa using hu)
  rw [if_pos hv, List.nil_append] at hvals
  obtain ⟨v, vs, hvs⟩ := List.exists_cons_of_ne_nil hne
  have hbody : orPass (descriptionStmts t.description ++ t.values.flatMap enumValueStmts) =
      descriptionStmts t.description ++ t.values.flatMap enumValueStmts := by
    have : descriptionStmts t.description ++ t.values.flatMap enumValueStmts ≠ [] := by
      intro he
      have := (List.append_eq_nil_iff.1 he).2
      rw [hvs, List.flatMap_cons] at this
      cases this
    unfold orPass
    split
    · rename_i he; exact absurd he this
    · rfl
  rw [hbody, ← hvals]
  unfold descriptionStmts
  split <;> rfl

/-- C66: every custom scalar is bound to a strawberry scalar of the same name, and that is what annotations refer
to. -/
theorem C66_scalars (c : Ctx) (p : StrawberryConfig) (sd : SchemaDirectives) (ops : List Op)
    (ss : List Stmt) (r' : Reg) (hg : p.generateDirectives = true)
    (h : strawberryPlugin c p sd (stateAfter c.env ops) = .ok (ss, r')) (n : String) (d : Option String)
    (hn : (n, ⟨.scalar, d⟩) ∈ c.schema.types) (hb : n ∉ p.builtinScalars) :
    (∃ e, .assign (.name n) e ∈ ss) ∧ r'.scalarMap.get? n = some n := by
  have hm := strawberryPlugin_ok (W := emptyWorld) (styled_stateAfter _ _) h
  have hc : (⟨n, d⟩ : ScalarType) ∈ customScalars p c.schema := by
    unfold customScalars
    rw [List.mem_filterMap]
    exact ⟨_, hn, by simp [hb]⟩
  constructor
  · obtain ⟨ds, sc, es, is, ts, rfl, hsc, _⟩ := hm.parts
    rw [if_pos hg] at hsc
    obtain ⟨s, hs, e, rfl⟩ := forall₂_mem_left hsc hc
    exact ⟨e, by simp [hs]⟩
  · rw [hm.scalars, if_pos ⟨hg, List.mem_map.2 ⟨_, hc, rfl⟩⟩]

/-- C08, limit: the Python type configured for a custom scalar is ignored by strawberry modules, even if the user
asks not to generate scalars: the switch that counts is the one for directives. -/
theorem C08_strawberry_ignores_configured_scalars_counterexample (c : Ctx) (p : StrawberryConfig)
    (sd : SchemaDirectives) (ops : List Op) (ss : List Stmt) (r' : Reg) (hg : p.generateDirectives = true)
    (_hoff : p.generateScalars = false)
    (h : strawberryPlugin c p sd (stateAfter c.env ops) = .ok (ss, r')) (n : String) (d : Option String)
    (hn : (n, ⟨.scalar, d⟩) ∈ c.schema.types) (hb : n ∉ p.builtinScalars) (python : String)
    (_hconf : (stateAfter c.env ops).scalarMap.get? n = some python) (hne : python ≠ n) :
    r'.scalarMap.get? n ≠ some python := by
  rw [(C66_scalars c p sd ops ss r' hg h n d hn hb).2]
  intro h
  exact hne (Option.some.inj h).symm

/-! ## C68 -/

/-- C68: the annotations of the parameters of a resolver accept exactly the values GraphQL allows for the argument —
for arguments without default. Missing: an argument with a default may be `null` in GraphQL if its type is nullable,
but its annotation rejects `None`. -/
theorem C68_argument_annotations_partial (W : World) (c : Ctx) (p : StrawberryConfig) (sd : SchemaDirectives)
    (ops : List Op) (ss : List Stmt) (r' : Reg) (hg : p.generateTypes = true)
    (h : strawberryPlugin c p sd (stateAfter c.env ops) = .ok (ss, r')) (t : CompositeType) (ht : CompositeOf c.schema t)
    (hk : KeptType p t.name) :
    ∃ cls bases body decorators, styled c.env.stylers Styler.objectName t.name = .ok cls ∧
      .classDef cls bases body decorators ∈ ss ∧
      List.Forall₂ (fun (f : FieldDef) s => ∀ a ∈ f.args, ∃ param e, ParamOf c.env a.name param ∧
        (param, some e) ∈ parameterAnnotations s ∧ (¬ Inst W (inputSideClass c r') a.type.base .null → ∀ v,
          (Accepts W e v → Legal (Inst W (inputSideClass c r')) a.type v) ∧
          (Legal (Inst W (inputSideClass c r')) a.type v → a.default = none ∨ v ≠ .null → Accepts W e v)))
        t.fields (body.filter isMember) := by
  obtain ⟨s, hs, ⟨cls, bases, body, dec, hc, rfl, hf⟩⟩ := strawberry_type (W := W) hg h ht hk
  refine ⟨cls, bases, body, dec, hc, hs, forall₂_mem_imp hf fun f _ s hm a ha => ?_⟩
  have hmem : a ∈ f.args.filter ArgDef.bare ++ f.args.filter (fun a => !ArgDef.bare a) := by
    rw [List.mem_append, List.mem_filter, List.mem_filter]
    cases hb : ArgDef.bare a
    · exact .inr ⟨ha, rfl⟩
    · exact .inl ⟨ha, rfl⟩
  obtain ⟨⟨param, e'⟩, hx, hp, e, he, hacc⟩ := forall₂_mem_left hm.params hmem
  dsimp only at hp he
  subst he
  refine ⟨param, e, hp, hx, fun hnull v => ⟨fun h => ((hacc hnull v).1 h).2, fun hl hd => ?_⟩⟩
  refine (hacc hnull v).2 ⟨fun hne => hd.resolve_left hne, hl⟩

/-- C68, limit: whenever an argument of nullable type has a default, GraphQL allows `null` but the annotation of the
parameter rejects it. -/
theorem C68_nullable_default_counterexample (W : World) (leaf : String → Val → Prop) (env : Env) (a : ArgDef)
    (x : String × Option Expr) (h : ArgAnnotated W leaf env a x) (hnull : ¬ leaf a.type.base .null)
    (hd : a.default ≠ none) (ht : a.type.isNonNull = false) :
    Legal leaf a.type .null ∧ ∃ e, x.2 = some e ∧ ¬ Accepts W e .null := by
  obtain ⟨_, e, he, hacc⟩ := h
  refine ⟨?_, e, he, fun h => ((hacc hnull _).1 h).1 hd rfl⟩
  cases ht' : a.type with
  | named n => exact .inl rfl
  | list t => exact .inl rfl
  | nonNull t => rw [ht'] at ht; cases ht

/-- the resolver of the example: `first: Int = 10` is annotated `int` -/
example : (strawberryPlugin berryCtx {} {} (stateAfter {} [])).toOption.map (fun x => x.1.flatMap fun
      | .classDef _ _ body _ => body.flatMap parameterAnnotations
      | _ => []) =
    some [("filter", some (.name "Filter")), ("after", some (sub "Optional" (.name "str"))), ("first", some (.name "int")),
      ("tags", some (sub "List" (sub "Optional" (.name "str"))))] := by decide +kernel

/-! ## C67 -/

/-- C67, limit: classes with quoted annotations are registered for `model_rebuild()`, a method of pydantic models that
strawberry classes do not have: the module of the example raises `AttributeError` when it is imported. -/
theorem C67_rebuild_counterexample :
    (strawberryPlugin berryCtx {} {} (stateAfter {} [])).toOption.map
      (fun x => rebuilt "model_rebuild" (generateForwardRefs {} x.2)) = some ["Item"] := by decide +kernel

/-- C67, limit: the configured base classes of inputs are used but never imported. -/
theorem C67_bases_not_imported_counterexample :
    (strawberryPlugin berryCtx { inputtypeBases := ["lib.Base"] } {} (stateAfter {} [])).toOption.map
      (fun x => (x.1.filterMap (fun
        | .classDef n [.name b] _ _ => if n = "Filter" then some b else none
        | _ => none), x.2.imports.contains "lib.Base")) = some (["Base"], false) := by decide +kernel

end Turms.Props
