import Verif.Lemmas.InputsClass
import Verif.Props.Annotations

/-!
# C17, C46–C48, C60, C62: what the inputs plugin generates

All theorems are about a successful run of the plugin on the registry reached by an arbitrary history of
registry calls (`stateAfter c.env ops`).  `c.schema.types.keys.Nodup` says that type names are unique, which
every GraphQL schema satisfies; `PlainConfig` that `additional_config` holds JSON values, which is all YAML
and JSON configuration files can express.
-/

namespace Turms.Props
open Turms Turms.Spec

/-! ## A schema that meets the hypotheses of all theorems below -/

/-- plain input, discriminated union with two members, direct `@oneOf` union, `@oneOf` with wrappers -/
def inputsSchema : Schema :=
  { types := [
      ("Int", ⟨.scalar, none⟩),
      ("Filter", ⟨.input [⟨"n", .nonNull (.named "Int"), none, none, none⟩,
        ⟨"next", .named "Filter", none, none, none⟩] [], none⟩),
      ("Pet", ⟨.input [] [], none⟩),
      ("Cat", ⟨.input [⟨"lives", .named "Int", some (.int 9), none, none⟩]
        [⟨"unionElementOf", [("union", "Pet"), ("discriminator", "kind"), ("key", "CAT")]⟩], none⟩),
      ("Dog", ⟨.input [⟨"owner", .named "Filter", none, none, none⟩]
        [⟨"unionElementOf", [("union", "Pet"), ("discriminator", "kind"), ("key", "DOG")]⟩], none⟩),
      ("Direct", ⟨.input [⟨"byFilter", .named "Filter", none, none, none⟩, ⟨"byCat", .named "Cat", none, none, none⟩]
        [⟨"oneOf", []⟩], none⟩),
      ("Wrapped", ⟨.input [⟨"count", .named "Int", none, none, none⟩,
        ⟨"all", .list (.nonNull (.named "Filter")), none, none, none⟩] [⟨"oneOf", []⟩], none⟩),
      ("_Hidden", ⟨.input [] [], none⟩)] }

/-- the context of the examples -/
def inputsCtx : Ctx := { schema := inputsSchema }

example : PlainConfig inputsCtx.config := by
  intro t l hl
  cases hl

example : inputsCtx.schema.types.keys.Nodup := by decide +kernel

/-- the run succeeds, hides the underscored type and defines everything else once, aliases last -/
example : (generateInputs inputsCtx {} (stateAfter {} [])).toOption.map (fun x => definedNames x.1) =
    some ["Cat", "Dog", "Filter", "Pet", "WrappedCount", "WrappedAll", "Wrapped", "Direct"] := by decide +kernel

/-- the tag table of the direct union -/
example : (generateInputs inputsCtx {} (stateAfter {} [])).toOption.map (fun x => x.1.filterMap tagTable) =
    some [[("Filter", "byFilter"), ("Cat", "byCat")]] := by decide +kernel

/-- the pydantic fields: key and whether it may be left out -/
example : (generateInputs inputsCtx {} (stateAfter {} [])).toOption.map (fun x => x.1.map fun s =>
      (fieldsOf s).map fun m => (m.key, m.hasDefault)) =
    some [[("kind", true), ("lives", true)], [("kind", true), ("owner", true)], [("n", false), ("next", true)], [],
      [("count", false)], [("all", false)], [], [], []] := by decide +kernel

/-- `Pet` is a union, `Cat` a member, `Direct` a direct union, `Wrapped` is not -/
example : MemberOf {} ⟨"Cat", none, [], [⟨"unionElementOf", [("union", "Pet"), ("discriminator", "kind"), ("key", "CAT")]⟩]⟩ "Pet" :=
  ⟨"kind", "CAT", ⟨_, List.mem_singleton.2 rfl, rfl, by decide +kernel, by decide +kernel, by decide +kernel⟩, by intro l h; cases h⟩

example : DirectUnion inputsCtx {} ⟨"Direct", none,
    [⟨"byFilter", .named "Filter", none, none, none⟩, ⟨"byCat", .named "Cat", none, none, none⟩], [⟨"oneOf", []⟩]⟩ := by
  refine ⟨rfl, by simp, ?_, by decide +kernel⟩
  intro f hf
  have kept : ∀ n : String, n.toList.head? ≠ some '_' → Kept {} n := by
    intro n hn
    exact ⟨fun l h => (by cases h), fun h => hn h.2⟩
  simp only [List.mem_cons, List.not_mem_nil, or_false] at hf
  rcases hf with rfl | rfl
  · exact ⟨"Filter", _, _, rfl, rfl, by simp [OneOf], kept _ (by decide +kernel)⟩
  · exact ⟨"Cat", _, _, rfl, rfl, by simp [OneOf], kept _ (by decide +kernel)⟩

example : ¬ DirectUnion inputsCtx {} ⟨"Wrapped", none, [⟨"count", .named "Int", none, none, none⟩], [⟨"oneOf", []⟩]⟩ := by
  rintro ⟨_, _, h, _⟩
  obtain ⟨m, fs, ds, h1, h2, _⟩ := h _ (List.mem_singleton.2 rfl)
  cases h1
  have : inputsCtx.schema.lookup "Int" = some .scalar := rfl
  rw [this] at h2
  cases h2

/-! ## C48 -/

/-- C48: the plugin defines exactly one name per selected input type, plus one per field of a `@oneOf` input
that needs wrapper classes, and nothing else; the name is the styled type name.  `definedNames` are the
module-level classes and aliases (serializer functions are helpers of their alias). -/
theorem C48_each_selected_input_once (c : Ctx) (p : InputsConfig) (ops : List Op) (ss : List Stmt) (r' : Reg)
    (hp : PlainConfig c.config) (hn : c.schema.types.keys.Nodup)
    (h : generateInputs c p (stateAfter c.env ops) = .ok (ss, r')) :
    ∃ K : List String, K.Nodup ∧ (∀ k, k ∈ K ↔ InputKey c p k) ∧
      List.Forall₂ (fun k n => Kind.input.style c.env k = .ok n) K (definedNames ss) := by
  obtain ⟨⟨K, e, hk⟩, _⟩ := generateInputs_ok (styled_stateAfter _ _) hp hn h
  obtain ⟨L, _, h1, h2, h3⟩ := e.map
  refine ⟨K, e.fresh.1, hk, ?_⟩
  rw [← h1, ← h2, List.forall₂_map_left_iff, List.forall₂_map_right_iff, List.forall₂_same]
  exact h3

/-- C48: an input type the user deselected is not defined, unless another definition has the same styled
name. -/
theorem C48_deselected_absent (c : Ctx) (p : InputsConfig) (ops : List Op) (ss : List Stmt) (r' : Reg)
    (hp : PlainConfig c.config) (hn : c.schema.types.keys.Nodup)
    (h : generateInputs c p (stateAfter c.env ops) = .ok (ss, r')) (n : String) (hd : n ∈ definedNames ss) :
    ∃ k, InputKey c p k ∧ Kind.input.style c.env k = .ok n := by
  obtain ⟨K, _, hk, hf⟩ := C48_each_selected_input_once c p ops ss r' hp hn h
  obtain ⟨k, hkK, hs⟩ := forall₂_mem_right hf hd
  exact ⟨k, (hk k).1 hkK, hs⟩

/-- C60: executing the generated statements top to bottom, after the registered imports and helper
classes, never meets an unbound name. -/
theorem C60_inputs_resolve (c : Ctx) (p : InputsConfig) (ops : List Op) (ss : List Stmt) (r' : Reg)
    (hp : PlainConfig c.config) (hn : c.schema.types.keys.Nodup)
    (h : generateInputs c p (stateAfter c.env ops) = .ok (ss, r')) :
    Resolves (fun n => External r' n ∨ Registered (stateAfter c.env ops) n) ss := by
  obtain ⟨⟨K, e, _⟩, _⟩ := generateInputs_ok (styled_stateAfter _ _) hp hn h
  exact e.resolves _ (fun _ h => .inl h) (fun _ h => .inr h)

/-- C48: every name a generated statement evaluates (the members of an alias, the bases and unquoted field
types of a class) is imported, known from an earlier plugin, or bound by an *earlier* statement. -/
theorem C48_classes_before_aliases (c : Ctx) (p : InputsConfig) (ops : List Op) (before : List Stmt) (s : Stmt)
    (after : List Stmt) (r' : Reg) (hp : PlainConfig c.config) (hn : c.schema.types.keys.Nodup)
    (h : generateInputs c p (stateAfter c.env ops) = .ok (before ++ s :: after, r')) (n : String) (he : n ∈ evaluated s) :
    External r' n ∨ Registered (stateAfter c.env ops) n ∨ ∃ b ∈ before, n ∈ bound b := by
  have := (resolves_append _ _ _).1 (C60_inputs_resolve c p ops _ r' hp hn h)
  rcases this.2.1 n he with (h | h) | h
  · exact .inl h
  · exact .inr (.inl h)
  · exact .inr (.inr h)

/-- C60: the plugin never touches what other plugins registered, and a type name is registered at most once:
a run on a registry that already knows one of the keys fails. -/
theorem C60_inputs_fresh (c : Ctx) (p : InputsConfig) (ops : List Op) (ss : List Stmt) (r' : Reg)
    (hp : PlainConfig c.config) (hn : c.schema.types.keys.Nodup)
    (h : generateInputs c p (stateAfter c.env ops) = .ok (ss, r')) :
    (∀ kind, kind ≠ .input → r'.classMap kind = (stateAfter c.env ops).classMap kind) ∧
    (∀ k, InputKey c p k → ((stateAfter c.env ops).classMap .input).get? k = none ∧
      ∃ n, (r'.classMap .input).get? k = some n ∧ Kind.input.style c.env k = .ok n ∧ n ∈ definedNames ss) ∧
    ∀ k, ¬ InputKey c p k → (r'.classMap .input).get? k = ((stateAfter c.env ops).classMap .input).get? k := by
  obtain ⟨⟨K, e, hk⟩, _⟩ := generateInputs_ok (styled_stateAfter _ _) hp hn h
  obtain ⟨L, h0, h1, h2, h3⟩ := e.map
  refine ⟨e.other, ?_, ?_⟩
  · intro k hki
    have hkK := (hk k).2 hki
    have hnone := (Dict.get?_eq_none_iff _ _).2 (e.fresh.2 k hkK)
    refine ⟨hnone, ?_⟩
    rw [← h1] at hkK
    obtain ⟨⟨a, n⟩, hq, rfl⟩ := List.mem_map.1 hkK
    have hnd : (Dict.keys L).Nodup := by show (L.map (·.1)).Nodup; rw [h1]; exact e.fresh.1
    refine ⟨n, ?_, h3 _ hq, ?_⟩
    · rw [h0, Dict.get?_append, hnone, Dict.get?_of_mem_nodup hnd hq]
    · rw [← h2]; exact List.mem_map.2 ⟨_, hq, rfl⟩
  · intro k hki
    have : k ∉ L.map (·.1) := by rw [h1]; exact fun hh => hki ((hk k).1 hh)
    rw [h0, Dict.get?_append, (Dict.get?_eq_none_iff L k).2 this]
    cases ((stateAfter c.env ops).classMap .input).get? k <;> rfl

/-! ## C17 at plugin level -/

/-- C17: the class of every plain selected input type has one pydantic field per schema field, in order; its
key is the schema name, it is required exactly when the type is non-null without default, and it accepts
exactly the values of the GraphQL type (and `None` when it may be omitted). -/
theorem C17_plugin_classes (W : World) (c : Ctx) (p : InputsConfig) (ops : List Op) (ss : List Stmt) (r' : Reg)
    (hp : PlainConfig c.config) (hn : c.schema.types.keys.Nodup)
    (h : generateInputs c p (stateAfter c.env ops) = .ok (ss, r')) (t : InputType) (ht : InputOf c.schema t)
    (hk : Kept p t.name) (hm : ¬ IsMember p t) (ho : ¬ OneOf t.directives)
    (hu : ∀ t', InputOf c.schema t' → ¬ MemberOf p t' t.name)
    (hl : ∀ f ∈ t.fields, ¬ Inst W (inputSideClass c (stateAfter c.env ops)) f.type.base .null) :
    ∃ cls s, Kind.input.style c.env t.name = .ok cls ∧ s ∈ ss ∧ definedNames [s] = [cls] ∧
      List.Forall₂ (fun (f : InputFieldDef) (m : MField) => m.key = f.name ∧
        (m.hasDefault = false ↔ f.type.isNonNull = true ∧ f.default = none) ∧
        ∀ v, Accepts W m.ann v ↔ Legal (Inst W (inputSideClass c (stateAfter c.env ops))) f.type v ∨
          (m.hasDefault = true ∧ v = .null)) t.fields (fieldsOf s) := by
  obtain ⟨_, _, _, hc, _⟩ := generateInputs_ok (styled_stateAfter _ _) hp hn h
  obtain ⟨s, hs, r1, r2, cls, hst, hsm, hcls, hg⟩ := hc t ht hm hk ho hu
  obtain ⟨hd, hf⟩ := generateInputType_fields hst hsm hl hg
  exact ⟨cls, s, hcls, hs, hd, hf⟩

/-! ## C46 -/

/-- C46: in a successful run every selected `@oneOf` input that is not itself a union member has only
nullable fields without defaults. -/
theorem C46_invalid_oneof_rejected (c : Ctx) (p : InputsConfig) (ops : List Op)
    (hp : PlainConfig c.config) (hn : c.schema.types.keys.Nodup) (t : InputType) (ht : InputOf c.schema t)
    (hk : Kept p t.name) (hm : ¬ IsMember p t) (ho : OneOf t.directives) (hv : ¬ OneOfValid t.fields) :
    ∃ e, generateInputs c p (stateAfter c.env ops) = .error e := by
  cases h : generateInputs c p (stateAfter c.env ops) with
  | error e => exact ⟨e, rfl⟩
  | ok q =>
    obtain ⟨ss, r'⟩ := q
    obtain ⟨_, _, hc, _⟩ := generateInputs_ok (styled_stateAfter _ _) hp hn h
    exact absurd (hc t ht hm hk ho) hv

/-- C46: the error names the offending input; and a valid `@oneOf` input is never rejected by this check. -/
theorem C46_validation_exact (typename : String) (fields : List InputFieldDef) :
    validateOneof typename fields =
      (open Classical in if OneOfValid fields then .ok () else .error (.generationError typename)) := by
  split
  · rename_i h; exact validateOneof_ok.2 h
  · rename_i h; exact validateOneof_error h

/-- C46: when the turn of an invalid `@oneOf` input comes, generation stops with `GenerationError` for that
input. -/
theorem C46_error_names_input (c : Ctx) (p : InputsConfig) (pre : PrePass) (t : InputType) (r : Reg)
    (hm : t.name ∉ pre.memberTypes) (hk : Kept p t.name) (ho : OneOf t.directives) (hv : ¬ OneOfValid t.fields) :
    mainStep c p pre t r = .error (.generationError t.name) := by
  unfold mainStep
  rw [if_neg (by simpa using hm), if_neg (by rw [unref_iff]; exact fun hh => hh hk.1),
    if_neg (by have := hk.2; simpa [underscored_iff] using this), if_pos ((isOneof_iff _).2 ho)]
  show Except.bind (Gen.lift (validateOneof t.name t.fields) r) _ = _
  rw [validateOneof_error hv]
  rfl

/-- an invalid `@oneOf` input: generation stops and names it -/
example : (match generateInputs { schema := { types := [("Int", ⟨.scalar, none⟩),
        ("Bad", ⟨.input [⟨"n", .nonNull (.named "Int"), none, none, none⟩] [⟨"oneOf", []⟩], none⟩)] } } {} (stateAfter {} []) with
      | .error (.generationError n) => some n
      | _ => none) = some "Bad" := by decide +kernel

/-- C46, limit of the check: a `@oneOf` input that is also a member of a discriminated union is generated as
a plain class and never validated. -/
theorem C46_union_member_unchecked_counterexample :
    (generateInputs { schema := { types := [("Int", ⟨.scalar, none⟩), ("U", ⟨.input [] [], none⟩),
        ("Bad", ⟨.input [⟨"n", .nonNull (.named "Int"), none, none, none⟩] [⟨"oneOf", []⟩,
          ⟨"unionElementOf", [("union", "U"), ("discriminator", "kind"), ("key", "B")]⟩], none⟩)] } } {}
      (stateAfter {} [])).toOption.map (fun x => definedNames x.1) = some ["Bad", "U"] := by decide +kernel

/-! ## C47 -/

/-- C47, wrapper classes: a `@oneOf` input that is not a direct union becomes an alias for one class per
field.  The class of field `f` has exactly one pydantic field: it is read from and written to the key
`f.name`, is required, and accepts exactly the non-null values of the field's type. -/
theorem C47_wrapper_classes (W : World) (c : Ctx) (p : InputsConfig) (ops : List Op) (ss : List Stmt) (r' : Reg)
    (hp : PlainConfig c.config) (hn : c.schema.types.keys.Nodup)
    (h : generateInputs c p (stateAfter c.env ops) = .ok (ss, r')) (t : InputType) (ht : InputOf c.schema t)
    (hk : Kept p t.name) (hm : ¬ IsMember p t) (ho : OneOf t.directives) (hd : ¬ DirectUnion c p t)
    (hl : ∀ f ∈ t.fields, ¬ Inst W (inputSideClass c (stateAfter c.env ops)) f.type.base .null) :
    ∃ cls ws members, Kind.input.style c.env t.name = .ok cls ∧ (∀ w ∈ ws, w ∈ ss) ∧
      .assign (.name cls) members ∈ ss ∧
      (∀ n, n ∈ freeNames members ↔ (n = "Union" ∧ t.fields.length ≠ 1) ∨ n ∈ definedNames ws) ∧
      List.Forall₂ (fun (f : InputFieldDef) (w : Stmt) => ∃ wn m,
        definedNames [w] = [wn] ∧ Kind.input.style c.env (t.name ++ upperFirst f.name) = .ok wn ∧
        fieldsOf w = [m] ∧ m.key = f.name ∧ m.hasDefault = false ∧
        ∀ v, Accepts W m.ann v ↔ v ≠ .null ∧ Legal (Inst W (inputSideClass c (stateAfter c.env ops))) f.type v)
        t.fields ws := by
  obtain ⟨_, _, _, _, _, hc, _⟩ := generateInputs_ok (styled_stateAfter _ _) hp hn h
  obtain ⟨rw0, rw1, ws, hst, hsm, hg, hsub⟩ := hc t ht hm hk ho hd
  obtain ⟨cls, ws', members, hcls, rfl, hn', hf⟩ := generateOneofWrapperInput_fields hst hsm hl hg
  exact ⟨cls, ws', members, hcls, fun w hw => hsub w (by simp [hw]), hsub _ (by simp), hn', hf⟩

/-- C47, direct unions: the `@oneOf` input is the union of the classes of its fields' types with a serializer
whose tag table sends the class of each field's type to the name of that field. -/
theorem C47_direct_union_table (c : Ctx) (p : InputsConfig) (ops : List Op) (ss : List Stmt) (r' : Reg)
    (hp : PlainConfig c.config) (hn : c.schema.types.keys.Nodup)
    (h : generateInputs c p (stateAfter c.env ops) = .ok (ss, r')) (t : InputType) (ht : InputOf c.schema t)
    (hk : Kept p t.name) (hm : ¬ IsMember p t) (ho : OneOf t.directives) (hd : DirectUnion c p t) :
    ∃ cls fn tags members, Kind.input.style c.env t.name = .ok cls ∧
      .assign (.name cls) (sub "Annotated" (.tuple [members, .call (.name "WrapSerializer")
        [.name ("_serialize_" ++ camelToSnake cls)] []])) ∈ ss ∧
      fn ∈ ss ∧ bound fn = ["_serialize_" ++ camelToSnake cls] ∧ tagTable fn = some tags ∧
      List.Forall₂ (fun (f : InputFieldDef) (q : String × String) =>
        q.2 = f.name ∧ Kind.input.style c.env f.type.base = .ok q.1) t.fields tags ∧
      ∀ n, n ∈ freeNames members ↔ (n = "Union" ∧ t.fields.length > 1) ∨ n ∈ tags.map (·.1) := by
  obtain ⟨_, _, _, _, _, _, hc⟩ := generateInputs_ok (styled_stateAfter _ _) hp hn h
  obtain ⟨r1, r2, us, hst, hg, hsub⟩ := hc t ht hm hk ho hd
  obtain ⟨cls, fn, tags, body, members, hcls, rfl, hb, htt, rfl, hf, hnames⟩ := generateOneofDirectUnion_table hst hg
  refine ⟨cls, fn, tags, members, hcls, hsub _ (by simp), hsub _ (by simp), hb, htt, ?_, ?_⟩
  · rwa [List.forall₂_map_left_iff] at hf
  · intro n
    have := hnames (by simpa using hd.2.1) n
    simpa using this

/-- C47: whatever class the value has, a successful serialisation yields exactly one key, and it is the tag
of one of the value's classes; it fails exactly when none of the value's classes is a member class. -/
theorem C47_serialize_one_key {α : Type} (tags : List (String × String)) (mro : List String) (payload : α) :
    (∀ out, oneofSerialize tags mro payload = .ok out →
      ∃ cls tag, (cls, tag) ∈ tags ∧ cls ∈ mro ∧ out = [(tag, payload)]) ∧
    ((∃ e, oneofSerialize tags mro payload = .error e) ↔ ∀ cls ∈ mro, cls ∉ tags.map (·.1)) := by
  refine ⟨fun out h => oneofSerialize_ok h, ?_, fun h => oneofSerialize_error h⟩
  rintro ⟨e, he⟩ cls h1 h2
  obtain ⟨out, ho⟩ := oneofSerialize_member (payload := payload) h1 h2
  rw [ho] at he
  cases he

/-- C47: a value whose own class is the class of a field's type is serialised under that field, whatever its
further base classes are, provided the member classes have different Python names. -/
theorem C47_serialize_member {α : Type} (c : Ctx) (fields : List InputFieldDef) (tags : List (String × String))
    (htags : List.Forall₂ (fun (f : InputFieldDef) (q : String × String) =>
      q.2 = f.name ∧ Kind.input.style c.env f.type.base = .ok q.1) fields tags)
    (hnd : (tags.map (·.1)).Nodup) (f : InputFieldDef) (hf : f ∈ fields) (cls : String)
    (hcls : Kind.input.style c.env f.type.base = .ok cls) (mro : List String) (payload : α) :
    oneofSerialize tags (cls :: mro) payload = .ok [(f.name, payload)] := by
  obtain ⟨⟨k, v⟩, hq, rfl, hst⟩ := forall₂_mem_left htags hf
  rw [hcls] at hst
  cases hst
  exact oneofSerialize_own hnd hq

/-- C47 counterexample: two member types whose class names coincide after styling share one entry, so a value
of either is sent under the last field. -/
theorem C47_colliding_members_counterexample :
    Kind.input.style ⟨{}, [capitalizeStyler]⟩ "foo" = .ok "Foo" ∧ Kind.input.style ⟨{}, [capitalizeStyler]⟩ "Foo" = .ok "Foo" ∧
    oneofSerialize [("Foo", "a"), ("Foo", "b")] ["Foo"] () = .ok [("b", ())] := by
  refine ⟨by decide +kernel, by decide +kernel, by rfl⟩

/-! ## C62 -/

/-- C62: the discriminated union of `u` lists the classes of exactly the input types that declare
`@unionElementOf(union: "u")`, each once, and is discriminated by the declared name (on which all members
agree). -/
theorem C62_union_members_exact (c : Ctx) (p : InputsConfig) (ops : List Op) (ss : List Stmt) (r' : Reg)
    (hp : PlainConfig c.config) (hn : c.schema.types.keys.Nodup)
    (h : generateInputs c p (stateAfter c.env ops) = .ok (ss, r')) (t : InputType) (ht : InputOf c.schema t)
    (hk : Kept p t.name) (hm : ¬ IsMember p t) (ho : ¬ OneOf t.directives)
    (hu : ∃ t', InputOf c.schema t' ∧ MemberOf p t' t.name) :
    ∃ (cls : String) (members : List String) (discriminator : String), Kind.input.style c.env t.name = .ok cls ∧
      .assign (.name cls) (sub "Annotated" (.tuple [sub "Union" (.tuple (members.map .name)),
        .call (.name "Field") [] [(some "discriminator", .str discriminator)]])) ∈ ss ∧
      members.Nodup ∧
      (∀ x, x ∈ members ↔ ∃ t', InputOf c.schema t' ∧ (∃ dn k, Declares t' t.name dn k) ∧
        Kind.input.style c.env t'.name = .ok x) ∧
      ∀ t' dn k, InputOf c.schema t' → Declares t' t.name dn k → dn = discriminator := by
  obtain ⟨_, _, _, _, hc, _⟩ := generateInputs_ok (styled_stateAfter _ _) hp hn h
  obtain ⟨cls, ms, dn, hcls, hin, hnd, hx, hdn⟩ := hc t ht hm hk ho hu
  refine ⟨cls, ms, dn, hcls, hin, hnd, ?_, fun t' dn' k ht' hd => hdn t' dn' k ht' hd hk.1⟩
  intro x
  rw [hx]
  constructor
  · rintro ⟨t', a, ⟨d, k, b, _⟩, e⟩; exact ⟨t', a, ⟨d, k, b⟩, e⟩
  · rintro ⟨t', a, ⟨d, k, b⟩, e⟩; exact ⟨t', a, ⟨d, k, b, hk.1⟩, e⟩

/-- C62: the class of a member starts with one `Literal` field per declared discriminator, with the declared
key as value and default; there is one per discriminator name. -/
theorem C62_member_literals (c : Ctx) (p : InputsConfig) (ops : List Op) (ss : List Stmt) (r' : Reg)
    (hp : PlainConfig c.config) (hn : c.schema.types.keys.Nodup)
    (h : generateInputs c p (stateAfter c.env ops) = .ok (ss, r')) (t : InputType) (ht : InputOf c.schema t)
    (hm : IsMember p t) :
    ∃ (cls : String) (bases : List Expr) (doc : Expr) (ds : List Discriminator) (rest : List Stmt), Kind.input.style c.env t.name = .ok cls ∧
      .classDef cls bases (.expr doc :: (ds.map (fun d => Stmt.annAssign d.discriminator
        (sub "Literal" (.str d.value)) (some (.call (.name "Field") [] [(some "default", .str d.value)]))) ++ rest)) [] ∈ ss ∧
      (ds.map (·.discriminator)).Nodup ∧
      ∀ dn k, (⟨dn, k⟩ : Discriminator) ∈ ds ↔ ∃ u, Declares t u dn k ∧ Referenced p u := by
  obtain ⟨_, hc, _⟩ := generateInputs_ok (styled_stateAfter _ _) hp hn h
  obtain ⟨s, hs, r1, r2, cls, ds, _, _, hcls, hg, hnd, hds⟩ := hc t ht hm
  obtain ⟨bs, doc, rest, rfl⟩ := generateInputType_literals hg
  exact ⟨cls, bs, doc, ds, rest, hcls, hs, hnd, hds⟩

end Turms.Props
