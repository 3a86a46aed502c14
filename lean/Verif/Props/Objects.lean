import Verif.Lemmas.ObjectsProgress
import Verif.Props.Annotations

/-!
# C20, C49, C50, C60: what the objects plugin generates

`ValidComposites` collects what every valid GraphQL schema satisfies: unique type names, no type implements
itself, and no type lists an interface twice.
-/

namespace Turms.Props
open Turms Turms.Spec

/-- what graphql-core guarantees about the composite types of a schema -/
def ValidComposites (s : Schema) : Prop :=
  s.types.keys.Nodup ∧ ∀ t, CompositeOf s t → t.name ∉ t.interfaces ∧ t.interfaces.Nodup

/-! ## A schema that meets the hypotheses -/

/-- two interfaces, one extending the other, two implementations, a union-typed and a recursive field -/
def objectsSchema : Schema :=
  { types := [
      ("ID", ⟨.scalar, none⟩),
      ("Node", ⟨.interface [⟨"id", .nonNull (.named "ID"), [], none, none⟩] [], none⟩),
      ("Pet", ⟨.interface [⟨"id", .nonNull (.named "ID"), [], none, none⟩] ["Node"], none⟩),
      ("Cat", ⟨.object [⟨"id", .nonNull (.named "ID"), [], none, none⟩, ⟨"friend", .named "Animal", [], none, none⟩]
        ["Pet", "Node"], some "a cat"⟩),
      ("Dog", ⟨.object [⟨"id", .nonNull (.named "ID"), [], none, none⟩, ⟨"parent", .named "Dog", [], none, none⟩]
        ["Node"], none⟩),
      ("Animal", ⟨.union ["Cat", "Dog"], none⟩),
      ("Lonely", ⟨.interface [] [], none⟩),
      ("__Type", ⟨.object [] [], none⟩)] }

/-- the context of the examples -/
def objectsCtx : Ctx := { schema := objectsSchema, config := { alwaysResolveInterfaces := false } }

example : (generateTypes objectsCtx {} (stateAfter {} [])).toOption.map (fun x => definedNames x.1) =
    some ["NodeBase", "PetBase", "LonelyBase", "Cat", "Dog", "Node", "Pet", "Lonely"] := by decide +kernel

/-- the unions, as emitted -/
example : (generateTypes objectsCtx {} (stateAfter {} [])).toOption.map (fun x => x.1.filterMap fun
      | .assign (.name n) e => some (n, e)
      | _ => none) =
    some [("Node", sub "Union" (.tuple [.name "PetBase", .name "Cat", .name "Dog"])),
      ("Pet", sub "Union" (.tuple [.name "Cat"])), ("Lonely", .name "LonelyBase")] := by decide +kernel

example : ValidComposites objectsCtx.schema := by
  refine ⟨by decide +kernel, ?_⟩
  intro t ht
  rw [← mem_compositeTypes] at ht
  have : ∀ t ∈ compositeTypes objectsCtx.schema, decide (t.name ∉ t.interfaces ∧ t.interfaces.Nodup) = true := by
    decide +kernel
  exact of_decide_eq_true (this t ht)

/-! ## C60, C49 -/

/-- C60: executing the generated object classes and interface unions top to bottom never meets an unbound
name. -/
theorem C60_objects_resolve (c : Ctx) (p : ObjectsConfig) (ops : List Op) (ss : List Stmt) (r' : Reg)
    (hp : PlainConfig c.config) (hv : ValidComposites c.schema)
    (h : generateTypes c p (stateAfter c.env ops) = .ok (ss, r')) :
    Resolves (fun n => External r' n ∨ Known (stateAfter c.env ops) n) ss := by
  obtain ⟨cs, us, _, _, _, _, _, hr, _⟩ := generateTypes_ok (styled_stateAfter _ _) hp hv.2 h
  exact hr

/-- C49: every base class of every generated class is imported, known from an earlier plugin, or bound by an
*earlier* statement. -/
theorem C49_bases_before_class (c : Ctx) (p : ObjectsConfig) (ops : List Op) (before after : List Stmt)
    (cls : String) (bases decorators : List Expr) (body : List Stmt) (r' : Reg)
    (hp : PlainConfig c.config) (hv : ValidComposites c.schema)
    (h : generateTypes c p (stateAfter c.env ops) = .ok (before ++ .classDef cls bases body decorators :: after, r'))
    (b : Expr) (hb : b ∈ bases) (n : String) (hn : n ∈ freeNames b) :
    External r' n ∨ Known (stateAfter c.env ops) n ∨ ∃ s ∈ before, n ∈ bound s := by
  have := (resolves_append _ _ _).1 (C60_objects_resolve c p ops _ r' hp hv h)
  have hx : n ∈ evaluated (.classDef cls bases body decorators) := by
    simp only [evaluated, List.mem_append]
    exact .inl (.inr (mem_freeNamesL.2 ⟨b, hb, hn⟩))
  rcases this.2.1 n hx with (h | h) | h
  · exact .inl h
  · exact .inr (.inl h)
  · exact .inr (.inr h)

/-- C49: the class of every kept type lists, after the configured additional bases and before the plugin's
own, exactly the registered base classes of those of its interfaces that no other listed interface extends,
in order. -/
theorem C49_bases_exact (c : Ctx) (p : ObjectsConfig) (ops : List Op) (ss : List Stmt) (r' : Reg)
    (hp : PlainConfig c.config) (hv : ValidComposites c.schema)
    (h : generateTypes c p (stateAfter c.env ops) = .ok (ss, r')) (t : CompositeType) (ht : CompositeOf c.schema t)
    (hk : KeptObject p t.name) :
    ∃ cls additional inherited body listed, CompositeClass c.env t cls ∧
      .classDef cls (additional ++ inherited.map .name ++ p.bases.map (fun b => .name (lastComponent b))) body [] ∈ ss ∧
      (∀ n ∈ freeNamesL additional, External r' n) ∧
      listed.Sublist t.interfaces ∧ (∀ i, i ∈ listed ↔ i ∈ t.interfaces ∧ ¬ ExtendedWithin c.schema i t.interfaces) ∧
      List.Forall₂ (fun i n => r'.interfaceBaseclassMap.get? i = some n) listed inherited := by
  obtain ⟨cs, us, rfl, hf, g, _, _, _, _⟩ := generateTypes_ok (styled_stateAfter _ _) hp hv.2 h
  obtain ⟨s, hs, ⟨cls, extra, bs, body, r1, r2, fs, hcc, rfl, _, hadd, hbs, hz⟩, hz'⟩ :=
    forall₂_mem_left hf (mem_keptTypes.2 ⟨mem_sortedComposites.2 ht, hk⟩)
  obtain ⟨inh, rfl, hinh⟩ : ∃ inh : List String, bs = inh.map Expr.name ∧
      List.Forall₂ (fun i n => r'.interfaceBaseclassMap.get? i = some n)
        (t.interfaces.filter fun i => !extendedByOthers c.schema i (t.interfaces.filter (· != i))) inh := by
    clear hs
    clear hz hz'
    generalize (t.interfaces.filter fun i => !extendedByOthers c.schema i (t.interfaces.filter (· != i))) = l at hbs
    induction hbs with
    | nil => exact ⟨[], rfl, .nil⟩
    | cons hx _ ih =>
      obtain ⟨n, rfl, hn⟩ := hx
      obtain ⟨inh, rfl, hi⟩ := ih
      exact ⟨n :: inh, rfl, .cons hn hi⟩
  refine ⟨cls, extra, inh, body, _, hcc, List.mem_append_left _ hs, hadd, List.filter_sublist, ?_, hinh⟩
  · intro i
    rw [List.mem_filter, Bool.not_eq_true', ← Bool.not_eq_true, extendedByOthers_iff]

/-- C49: generation fails when a type inherits from an interface whose base class was never generated. -/
theorem C49_missing_base_fails (c : Ctx) (p : ObjectsConfig) (ops : List Op)
    (hp : PlainConfig c.config) (hv : ValidComposites c.schema) (t : CompositeType) (ht : CompositeOf c.schema t)
    (hk : KeptObject p t.name) (i : String) (hi : i ∈ t.interfaces) (hx : ¬ ExtendedWithin c.schema i t.interfaces)
    (hno : (stateAfter c.env ops).interfaceBaseclassMap.get? i = none)
    (hskip : ∀ u, CompositeOf c.schema u → u.isInterface = true → u.name = i → ¬ KeptObject p i) :
    ∃ e, generateTypes c p (stateAfter c.env ops) = .error e := by
  cases h : generateTypes c p (stateAfter c.env ops) with
  | error e => exact ⟨e, rfl⟩
  | ok q =>
    obtain ⟨ss, r'⟩ := q
    obtain ⟨cls, _, inh, _, listed, _, _, _, _, hl, hf⟩ := C49_bases_exact c p ops ss r' hp hv h t ht hk
    obtain ⟨n, _, hn⟩ := forall₂_mem_left hf ((hl i).2 ⟨hi, hx⟩)
    obtain ⟨_, _, _, _, _, _, _, _, _, _, _, ho⟩ := generateTypes_ok (styled_stateAfter _ _) hp hv.2 h
    rcases ho i n hn with hn | ⟨u, hu, hui, hun⟩
    · rw [hno] at hn; cases hn
    · obtain ⟨hu1, hu2⟩ := mem_keptTypes.1 hu
      rw [hun] at hu2
      exact absurd hu2 (hskip u (mem_sortedComposites.1 hu1) hui hun)

example : (match generateTypes { schema := { types := [("_Node", ⟨.interface [] [], none⟩),
        ("Cat", ⟨.object [] ["_Node"], none⟩)] } } { skipUnderscore := true } (stateAfter {} []) with
      | .error (.registryError n) => some n
      | _ => none) = some "_Node" := by decide +kernel

/-- C49, limit: interfaces are emitted in schema order, so a valid schema that declares a child interface
before its parent cannot be generated at all. -/
theorem C49_child_before_parent_counterexample :
    (match generateTypes { schema := { types := [("Child", ⟨.interface [] ["Parent"], none⟩),
        ("Parent", ⟨.interface [] [], none⟩)] } } {} (stateAfter {} []) with
      | .error (.registryError n) => some n
      | _ => none) = some "Parent" := by decide +kernel

/-- the objects plugin succeeds in any state whose classes have styled names -/
theorem generateTypes_runs {c : Ctx} {p : ObjectsConfig} {r : Reg} (hs : Styled c.env r)
    (hp : PlainConfig c.config) (hv : ValidComposites c.schema)
    (hready : ∀ t, CompositeOf c.schema t → KeptObject p t.name → TypeReady c r t)
    (hparents : ∀ t, CompositeOf c.schema t → KeptObject p t.name → ∀ i ∈ t.interfaces,
      ¬ ExtendedWithin c.schema i t.interfaces → KeptObject p i ∧
        (∃ u, CompositeOf c.schema u ∧ u.isInterface = true ∧ u.name = i) ∧
        (t.isInterface = true → [i, t.name].Sublist c.schema.types.keys))
    (himpl : c.config.alwaysResolveInterfaces = true → ∀ t, CompositeOf c.schema t → KeptObject p t.name →
      t.isInterface = true → ∃ u, CompositeOf c.schema u ∧ KeptObject p u.name ∧ t.name ∈ u.interfaces) :
    Runs (generateTypes c p) r := by
  unfold generateTypes
  refine Runs.bind runs_registerImports fun _ r1 h1 => ?_
  obtain ⟨s1, e1⟩ := soft_registerImports h1
  have hs1 := hs.soft s1
  refine Runs.bind (runs_objectLoop hp hs1 ?_ ?_) fun acc r2 h2 => ?_
  · exact ((pySorted_perm _ _).map _).nodup_iff.2 (compositeTypes_nodup hv.1)
  · intro pre t post he hk
    have ht : CompositeOf c.schema t := mem_sortedComposites.1 (by rw [he]; simp)
    have hr := hready t ht hk
    refine ⟨⟨?_, hr.named, fun cls hc f hf => ⟨(hr.fields cls hc f hf).1.grow s1.grow, (hr.fields cls hc f hf).2⟩⟩, ?_⟩
    · rw [soft_objectMap s1, s1.bases]; exact hr.fresh
    · intro i hi hx
      obtain ⟨hki, ⟨u, hu, hui, rfl⟩, ho⟩ := hparents t ht hk i hi (by
        rw [← extendedByOthers_iff, hx]; simp)
      exact .inr ⟨u, before_in_sorted hv.1 hu hui he ho, hui, rfl, hki⟩
  · obtain ⟨_, _, _, _, _, _, _, _, a8, a9, _, _⟩ :=
      objectLoop_ok hp hs1 e1 (fun t ht => hv.2 t (mem_sortedComposites.1 ht)) h2
    refine Runs.bind runs_registerUnions fun _ r3 _ => ?_
    dsimp only
    split
    · rename_i hx
      exfalso
      rw [Bool.and_eq_true, Bool.not_eq_true', List.isEmpty_eq_false_iff_exists_mem] at hx
      obtain ⟨⟨q, hq⟩, ha⟩ := hx
      obtain ⟨hq, hno⟩ := List.mem_filter.1 hq
      obtain ⟨t, ht, hti, htn⟩ := ((a9 q.1).1 (List.mem_map.2 ⟨q, hq, rfl⟩)).resolve_left (by simp [Dict.keys])
      obtain ⟨ht, hk⟩ := mem_keptTypes.1 ht
      obtain ⟨u, hu, huk, hui⟩ := himpl ha t (mem_sortedComposites.1 ht) hk hti
      have := (a8 q.1).2 (.inr ⟨u, mem_keptTypes.2 ⟨mem_sortedComposites.2 hu, huk⟩, htn ▸ hui⟩)
      rw [← Dict.contains_iff] at this
      rw [this] at hno
      cases hno
    · exact .pure

/-- C49: nothing else stops generation. If every kept type has a name of its own, all its fields refer to
mapped scalars, generated enums or types of the schema, every interface it inherits from is a kept interface of
the schema, declared before it when it is an interface itself, and every kept interface is implemented where
interfaces must be resolved, then the plugin succeeds. -/
theorem C49_generation_succeeds (c : Ctx) (p : ObjectsConfig) (ops : List Op)
    (hp : PlainConfig c.config) (hv : ValidComposites c.schema)
    (hready : ∀ t, CompositeOf c.schema t → KeptObject p t.name → TypeReady c (stateAfter c.env ops) t)
    (hparents : ∀ t, CompositeOf c.schema t → KeptObject p t.name → ∀ i ∈ t.interfaces,
      ¬ ExtendedWithin c.schema i t.interfaces → KeptObject p i ∧
        (∃ u, CompositeOf c.schema u ∧ u.isInterface = true ∧ u.name = i) ∧
        (t.isInterface = true → [i, t.name].Sublist c.schema.types.keys))
    (himpl : c.config.alwaysResolveInterfaces = true → ∀ t, CompositeOf c.schema t → KeptObject p t.name →
      t.isInterface = true → ∃ u, CompositeOf c.schema u ∧ KeptObject p u.name ∧ t.name ∈ u.interfaces) :
    ∃ ss r', generateTypes c p (stateAfter c.env ops) = .ok (ss, r') :=
  generateTypes_runs (styled_stateAfter c.env ops) hp hv hready hparents himpl

/-- a schema that meets the hypotheses of `C49_generation_succeeds` -/
def smallObjects : Ctx :=
  { schema := { types := [("ID", ⟨.scalar, none⟩), ("Node", ⟨.interface [] [], none⟩),
      ("Dog", ⟨.object [⟨"parent", .named "Dog", [], none, none⟩, ⟨"id", .nonNull (.named "ID"), [], none, none⟩]
        ["Node"], none⟩)] } }

example : (∀ t, CompositeOf smallObjects.schema t → KeptObject {} t.name → TypeReady smallObjects (stateAfter {} []) t) ∧
    (∀ t, CompositeOf smallObjects.schema t → KeptObject {} t.name → ∀ i ∈ t.interfaces,
      ¬ ExtendedWithin smallObjects.schema i t.interfaces → KeptObject {} i ∧
        (∃ u, CompositeOf smallObjects.schema u ∧ u.isInterface = true ∧ u.name = i) ∧
        (t.isInterface = true → [i, t.name].Sublist smallObjects.schema.types.keys)) := by
  have hall : ∀ t, CompositeOf smallObjects.schema t → t = ⟨"Node", true, none, [], []⟩ ∨
      t = ⟨"Dog", false, none, [⟨"parent", .named "Dog", [], none, none⟩, ⟨"id", .nonNull (.named "ID"), [], none, none⟩], ["Node"]⟩ := by
    intro t ht
    rw [← mem_compositeTypes] at ht
    change t ∈ [(⟨"Node", true, none, [], []⟩ : CompositeType), _] at ht
    rcases List.mem_cons.1 ht with h | h
    · exact .inl h
    · exact .inr (List.mem_singleton.1 h)
  refine ⟨?_, ?_⟩
  · intro t ht _
    rcases hall t ht with rfl | rfl
    · exact ⟨by decide +kernel, ⟨"Node", rfl⟩, fun _ _ f hf => by cases hf⟩
    · refine ⟨by decide +kernel, ⟨"Dog", rfl⟩, fun cls _ f hf => ?_⟩
      rcases List.mem_cons.1 hf with rfl | hf
      · exact ⟨⟨"Dog", rfl⟩, ⟨"parent", rfl⟩⟩
      · obtain rfl := List.mem_singleton.1 hf
        exact ⟨⟨"str", rfl⟩, ⟨"id", rfl⟩⟩
  · intro t ht _ i hi _
    rcases hall t ht with rfl | rfl
    · cases hi
    · obtain rfl := List.mem_singleton.1 hi
      refine ⟨⟨by decide, by decide +kernel⟩, ⟨⟨"Node", true, none, [], []⟩, ⟨⟨.interface [] [], none⟩, ?_, rfl, rfl⟩, rfl, rfl⟩, ?_⟩
      · exact .tail _ (.head _)
      · intro h; cases h

/-! ## C20 at plugin level -/

/-- C20: the class of every kept object or interface type has one pydantic field per schema field, in order,
with the schema name as key, optional exactly when the field is nullable, accepting exactly the values of the
GraphQL type. -/
theorem C20_plugin_classes (W : World) (c : Ctx) (p : ObjectsConfig) (ops : List Op) (ss : List Stmt) (r' : Reg)
    (hp : PlainConfig c.config) (hv : ValidComposites c.schema)
    (h : generateTypes c p (stateAfter c.env ops) = .ok (ss, r')) (t : CompositeType) (ht : CompositeOf c.schema t)
    (hk : KeptObject p t.name)
    (hl : ∀ f ∈ t.fields, ¬ OutputInst W c (stateAfter c.env ops) f.type.base .null) :
    ∃ cls s, CompositeClass c.env t cls ∧ s ∈ ss ∧ definedNames [s] = [cls] ∧
      List.Forall₂ (fun (f : FieldDef) (m : MField) => m.key = f.name ∧
        (m.hasDefault = true ↔ f.type.isNonNull = false) ∧
        ∀ v, Accepts W m.ann v ↔ Legal (OutputInst W c (stateAfter c.env ops)) f.type v) t.fields (fieldsOf s) := by
  obtain ⟨cs, us, rfl, hf, _⟩ := generateTypes_ok (styled_stateAfter _ _) hp hv.2 h
  obtain ⟨s, hs, ⟨cls, extra, bs, body, r1, r2, fs, hcc, _, _, _, _, ⟨r3, r4, hst, hsm, hof⟩, hfs⟩, cls', hcc', hd⟩ :=
    forall₂_mem_left hf (mem_keptTypes.2 ⟨mem_sortedComposites.2 ht, hk⟩)
  refine ⟨cls', s, hcc', List.mem_append_left _ hs, hd, ?_⟩
  rw [hfs]
  exact objectFields_fields hst hsm hof hl

/-- C20: exactly one class per kept type: the classes come first and their names are the names of the kept
types, each type once. -/
theorem C20_one_class_per_type (c : Ctx) (p : ObjectsConfig) (ops : List Op) (ss : List Stmt) (r' : Reg)
    (hp : PlainConfig c.config) (hv : ValidComposites c.schema)
    (h : generateTypes c p (stateAfter c.env ops) = .ok (ss, r')) :
    ∃ cs us ts, ss = cs ++ us ∧ (∀ t, t ∈ ts ↔ CompositeOf c.schema t ∧ KeptObject p t.name) ∧
      (ts.map (·.name)).Nodup ∧ List.Forall₂ (CompositeClass c.env) ts (definedNames cs) := by
  obtain ⟨cs, us, rfl, hf, hz⟩ := generateTypes_ok (styled_stateAfter _ _) hp hv.2 h
  clear hz
  refine ⟨cs, us, _, rfl, fun t => by rw [mem_keptTypes, mem_sortedComposites], keptTypes_nodup hv.1, ?_⟩
  clear h
  generalize keptTypes p (sortedComposites c.schema) = l at hf
  induction hf with
  | nil => exact .nil
  | @cons t s ts cs hx _ ih =>
    obtain ⟨_, cls, hcc, hd⟩ := hx
    have : s :: cs = [s] ++ cs := rfl
    rw [this, definedNames_append, hd]
    exact .cons hcc ih

/-! ## C50 -/

/-- C50: the union emitted for an interface lists the classes of exactly the kept types that implement it,
each type once. -/
theorem C50_union_exact (c : Ctx) (p : ObjectsConfig) (ops : List Op) (ss : List Stmt) (r' : Reg)
    (hp : PlainConfig c.config) (hv : ValidComposites c.schema)
    (h : generateTypes c p (stateAfter c.env ops) = .ok (ss, r')) (i : String)
    (hi : ∃ t, CompositeOf c.schema t ∧ KeptObject p t.name ∧ i ∈ t.interfaces) :
    ∃ (ts : List CompositeType) (members : List String),
      .assign (.name i) (sub "Union" (.tuple (members.map .name))) ∈ ss ∧
      (∀ t, t ∈ ts ↔ CompositeOf c.schema t ∧ KeptObject p t.name ∧ i ∈ t.interfaces) ∧ (ts.map (·.name)).Nodup ∧
      List.Forall₂ (CompositeClass c.env) ts members := by
  obtain ⟨cs, us, rfl, _, _, _, _, _, hu, _⟩ := generateTypes_ok (styled_stateAfter _ _) hp hv.2 h
  obtain ⟨t, ht, hk, hti⟩ := hi
  obtain ⟨L, hL, hf⟩ := hu i ⟨t, mem_keptTypes.2 ⟨mem_sortedComposites.2 ht, hk⟩, hti⟩
  refine ⟨_, L, List.mem_append_right _ hL, ?_, ?_, hf⟩
  · intro t
    rw [List.mem_filter, mem_keptTypes, mem_sortedComposites, List.contains_iff_mem, and_assoc]
  · exact (keptTypes_nodup hv.1).sublist (List.filter_sublist.map _)

/-- C50: a kept interface that nothing implements makes generation fail when interfaces must be resolved;
otherwise it is an alias for its base class. -/
theorem C50_unimplemented (c : Ctx) (p : ObjectsConfig) (ops : List Op)
    (hp : PlainConfig c.config) (hv : ValidComposites c.schema) (t : CompositeType) (ht : CompositeOf c.schema t)
    (hti : t.isInterface = true) (hk : KeptObject p t.name)
    (hno : ∀ u, CompositeOf c.schema u → KeptObject p u.name → t.name ∉ u.interfaces) :
    (c.config.alwaysResolveInterfaces = true → ∃ e, generateTypes c p (stateAfter c.env ops) = .error e) ∧
    ∀ ss r', generateTypes c p (stateAfter c.env ops) = .ok (ss, r') →
      ∃ cls, CompositeClass c.env t cls ∧ .assign (.name t.name) (.name cls) ∈ ss := by
  have key : ∀ ss r', generateTypes c p (stateAfter c.env ops) = .ok (ss, r') →
      c.config.alwaysResolveInterfaces = false ∧ ∃ cls, CompositeClass c.env t cls ∧ .assign (.name t.name) (.name cls) ∈ ss := by
    intro ss r' h
    obtain ⟨cs, us, rfl, _, _, _, _, _, _, hu, _⟩ := generateTypes_ok (styled_stateAfter _ _) hp hv.2 h
    obtain ⟨h1, cls, h2, h3⟩ := hu t (mem_keptTypes.2 ⟨mem_sortedComposites.2 ht, hk⟩) hti
      (fun u hu => hno u (mem_sortedComposites.1 (mem_keptTypes.1 hu).1) (mem_keptTypes.1 hu).2)
    exact ⟨h1, cls, h2, List.mem_append_right _ h3⟩
  refine ⟨?_, fun ss r' h => (key ss r' h).2⟩
  intro ha
  cases h : generateTypes c p (stateAfter c.env ops) with
  | error e => exact ⟨e, rfl⟩
  | ok q =>
    have := (key q.1 q.2 h).1
    rw [ha] at this
    cases this

/-- C50: references to an interface name the union, provided styling leaves the interface name unchanged:
the name annotations refer to is the name the union is assigned to. -/
theorem C50_references_meet_alias_partial (c : Ctx) (p : ObjectsConfig) (ops : List Op) (ss : List Stmt) (r' : Reg)
    (hp : PlainConfig c.config) (hv : ValidComposites c.schema)
    (h : generateTypes c p (stateAfter c.env ops) = .ok (ss, r')) (t : CompositeType) (ht : CompositeOf c.schema t)
    (hti : t.isInterface = true) (hk : KeptObject p t.name)
    (hst : styled c.env.stylers Styler.objectName t.name = .ok t.name) (parent : String) (r1 : Reg) :
    ∃ e r2, referenceInterface c.env t.name parent r1 = .ok (e, r2) ∧ e = .str t.name ∧ t.name ∈ definedNames ss := by
  obtain ⟨cs, us, rfl, _, _, _, _, _, _, _, hd, _⟩ := generateTypes_ok (styled_stateAfter _ _) hp hv.2 h
  refine ⟨.str t.name, r1.addForward parent, ?_, rfl, ?_⟩
  · simp [referenceInterface, styleInterface, hst]
  · rw [definedNames_append]
    exact List.mem_append_right _ ((hd _).2 ⟨t, mem_keptTypes.2 ⟨mem_sortedComposites.2 ht, hk⟩, .inr ⟨hti, rfl⟩⟩)

/-- C50 counterexample: the union is assigned under the raw schema name while annotations use the styled one,
so for an interface called `None` the module assigns to `None` (a syntax error) and refers to `None_`. -/
theorem C50_raw_name_counterexample :
    (generateTypes { schema := { types := [("None", ⟨.interface [] [], none⟩), ("A", ⟨.object
        [⟨"n", .nonNull (.named "None"), [], none, none⟩] ["None"], none⟩)] } } {} (stateAfter {} [])).toOption.map
      (fun x => (definedNames x.1, (x.1.drop 1).head?.map evaluated, (x.1.drop 1).head?.map fun s => (fieldsOf s).map (·.ann))) =
    some (["None_Base", "A", "None"], some ["None_Base", "BaseModel"], some [.str "None_"]) := by decide +kernel

end Turms.Props
