import Verif.Lemmas.ResponsePlugins
import Verif.Props.Fragments

/-! # C19: the generated operation classes accept every answer a conforming server may give -/

namespace Turms.Props
open Turms Spec Fragments

theorem definitions_get? (doc : Document) (n : String) :
    (definitions doc).get? n = lookup (fragmentsOf doc) n := by
  unfold definitions lookup
  generalize (fragmentsOf doc).reverse = l
  induction l with
  | nil => rfl
  | cons d l ih =>
    simp only [List.map_cons, Dict.get?, List.find?_cons]
    by_cases h : d.name = n
    · simp [h]
    · simp only [h, beq_iff_eq, if_false, ih, show (d.name == n) = false by simp [h]]

/-! ## C18 -/

/-- the annotation part of `recurseAnnotation` -/
def annotationPart (c : Ctx) (parent target : String) (sub : List Sel) (t : TypeNode) (opt : Bool) : Gen Expr := do
  let x ← recurseAnnotation c parent target sub t opt
  pure x.1

theorem annotationPart_ok {c : Ctx} {parent target : String} {sub : List Sel} {t : TypeNode} {opt : Bool}
    {r r' : Reg} {e : Expr} :
    annotationPart c parent target sub t opt r = .ok (e, r') ↔
      ∃ ss, recurseAnnotation c parent target sub t opt r = .ok ((e, ss), r') := by
  unfold annotationPart
  rw [Gen.bind_ok]
  constructor
  · rintro ⟨x, r1, h1, h2⟩
    obtain ⟨rfl, rfl⟩ := Gen.pure_ok.1 h2
    exact ⟨x.2, h1⟩
  · rintro ⟨ss, h⟩
    exact ⟨_, _, h, Gen.pure_ok.2 ⟨rfl, rfl⟩⟩

theorem leafNode_ok {c : Ctx} {parent target n : String} {sub : List Sel} {opt : Bool} {r r' : Reg}
    {x : Expr × List Stmt} (hl : IsLeaf c.schema n) (h : recurseNamed c parent target sub n opt r = .ok (x, r')) :
    Quiet r r' ∧ x.2 = [] ∧ ∃ cls y, outputSideClass c r n = some cls ∧ (y = .name cls ∨ y = .str cls) ∧
      x.1 = if opt then Turms.sub "Optional" y else y := by
  unfold recurseNamed namedNode at h
  unfold outputSideClass
  rcases hl with hl | ⟨vs, hl⟩ <;> rw [hl] <;> unfold Schema.lookup at hl <;>
    cases ht : c.schema.types.get? n with
    | none => rw [ht] at hl; cases hl
    | some e =>
      obtain ⟨k, d⟩ := e
      rw [ht] at hl
      cases hl
      rw [ht] at h
      obtain ⟨y, r1, h1, h⟩ := Gen.bind_ok.1 h
      obtain ⟨z, r2, h2, h⟩ := Gen.bind_ok.1 h
      obtain ⟨q2, hz⟩ := quietly_optionalWrap _ _ h2
      obtain ⟨rfl, rfl⟩ := Gen.pure_ok.1 h
      first
      | obtain ⟨q1, cls, hc, rfl⟩ := quietly_referenceScalar _ _ h1
        exact ⟨q1.trans q2, rfl, cls, _, hc, .inl rfl, hz⟩
      | obtain ⟨q1, cls, hc, hy⟩ := quietly_referenceEnum _ _ h1
        exact ⟨q1.trans q2, rfl, cls, y, hc, hy, hz⟩

theorem outputLeaf_shape (W : World) (c : Ctx) (parent target : String) (sub : List Sel) :
    Shape W (fun _ => True) (IsLeaf c.schema) (annotationPart c parent target sub)
      (fun r => Inst W (outputSideClass c r)) where
  nonNull t b := rfl
  inv _ _ _ _ := trivial
  list t b r e r' _ h := by
    obtain ⟨ss, h⟩ := annotationPart_ok.1 h
    unfold recurseAnnotation at h
    simp only [wrapOutput] at h
    obtain ⟨u, r1, h1, h⟩ := Gen.bind_ok.1 h
    obtain ⟨x, r2, h2, h⟩ := Gen.bind_ok.1 h
    obtain ⟨y, r3, h3, h⟩ := Gen.bind_ok.1 h
    obtain ⟨he, hf⟩ := optionalWrap_ok h3
    obtain ⟨hx, rfl⟩ := Gen.pure_ok.1 h
    cases hx
    exact ⟨x.1, _, r1, r2, annotationPart_ok.2 ⟨x.2, h2⟩, frame_registerImport h1, hf, he,
      fun v => accepts_listBuilder⟩
  named n b r e r' hn _ h := by
    obtain ⟨ss, h⟩ := annotationPart_ok.1 h
    obtain ⟨q, _, cls, y, hc, hy, he⟩ := leafNode_ok hn h
    exact ⟨y, q.frame, he, fun v => (named_or_str hy v).trans (inst_iff hc v).symm⟩
  stable r r' n v f := by rw [outputSideClass_frame f]

theorem wrapOutput_leaf_classes {c : Ctx} {parent target : String} {sub : List Sel} (t : TypeNode)
    (hl : IsLeaf c.schema t.base) : ∀ {opt : Bool} {r r' : Reg} {x : Expr × List Stmt},
    recurseAnnotation c parent target sub t opt r = .ok (x, r') → x.2 = [] := by
  unfold recurseAnnotation
  induction t with
  | named n => intro opt r r' x h; exact (leafNode_ok hl h).2.1
  | nonNull t ih => intro opt r r' x h; exact ih hl (opt := false) h
  | list t ih =>
    intro opt r r' x h
    simp only [wrapOutput] at h
    obtain ⟨u, r1, h1, h⟩ := Gen.bind_ok.1 h
    obtain ⟨x, r2, h2, h⟩ := Gen.bind_ok.1 h
    obtain ⟨y, r3, h3, h⟩ := Gen.bind_ok.1 h
    obtain ⟨rfl, rfl⟩ := Gen.pure_ok.1 h
    have := ih hl h2
    exact this

/-- C18: a selected field of a scalar or enum type becomes one declaration (and perhaps a docstring): its key is the
response key (the alias if there is one), it may be absent exactly if the type is nullable, and its annotation
accepts exactly the values the GraphQL type allows — `null` exactly at nullable positions, sequences exactly at
list positions — at every depth and whether lists are rendered as lists or as tuples. -/
theorem C18_leaf_field_exact (W : World) (c : Ctx) (parent : String) (fd : FieldDef) (name : String)
    (alias : Option String) (args : List Sel) (r r' : Reg) (x : List Stmt × List Stmt)
    (h : typeFieldNode c parent fd name alias args r = .ok (x, r')) (hl : IsLeaf c.schema fd.type.base)
    (hnull : ¬ Inst W (outputSideClass c r) fd.type.base .null) :
    x.2 = [] ∧ ∃ attr ann value docs, generateNodeName c.env.stylers (alias.getD name) = .ok attr ∧
      x.1 = .annAssign attr ann value :: docs ∧ (docs = [] ∨ ∃ doc, docs = [.expr (.str doc)]) ∧
      fieldOf (.annAssign attr ann value) = some ⟨alias.getD name, !fd.type.isNonNull, ann⟩ ∧
      defaultOf (.annAssign attr ann value) = (if fd.type.isNonNull then none else some (.const .none)) ∧
      ∀ v, Accepts W ann v ↔ Legal (Inst W (outputSideClass c r)) fd.type v := by
  unfold typeFieldNode typeField at h
  obtain ⟨attr, r1, h1, h⟩ := Gen.bind_ok.1 h
  obtain ⟨q1, hattr⟩ := quietly_nodeName _ _ h1
  obtain ⟨y, r2, h2, h⟩ := Gen.bind_ok.1 h
  obtain ⟨s, r3, h3, h⟩ := Gen.bind_ok.1 h
  obtain ⟨rfl, rfl⟩ := Gen.pure_ok.1 h
  have hc := wrapOutput_leaf_classes fd.type hl h2
  obtain ⟨f2, ha⟩ := (outputLeaf_shape W c parent (alias.getD name) args).sound fd.type hl true r1 r2 y.1 trivial
    (annotationPart_ok.2 ⟨y.2, h2⟩) (by rw [outputSideClass_frame q1.frame]; exact hnull)
  unfold finishField at h3
  obtain ⟨a, r4, h4, h3⟩ := Gen.bind_ok.1 h3
  obtain ⟨f4, hb⟩ := annotateFieldMetadata_ok (W := W) h4
  obtain ⟨v, r5, h5, h3⟩ := Gen.bind_ok.1 h3
  obtain ⟨f5, hv⟩ := objectFieldValue_ok h5 a
  obtain ⟨rfl, rfl⟩ := Gen.pure_ok.1 h3
  refine ⟨hc, attr, a, v, _, hattr, rfl, ?_, hv.1, hv.2.1, fun z => ?_⟩
  · split
    · exact .inr ⟨_, rfl⟩
    · exact .inl rfl
  · rw [hb, ha, if_pos rfl, outputSideClass_frame q1.frame]

def colorCtx : Ctx where
  schema := { types := [("Color", ⟨.enum [⟨"RED", none, none⟩], none⟩)] }
  config := { freeze := { enabled := true } }

/-- a frozen list of an enum, under an alias -/
example : ((typeFieldNode colorCtx "Q" ⟨"colors", .nonNull (.list (.named "Color")), [], none, none⟩
      "colors" (some "tints") [] (Reg.init {})).toOption.map fun x => x.1.1.filterMap fun
        | .annAssign a e v => some (a, e, v)
        | _ => none) =
    some [("tints", sub "Tuple" (.tuple [sub "Optional" (.str "Color"), .const .ellipsis]), none)] := by
  decide +kernel

/-! ## C19 -/

/-- C19 (below), also for results that lack entries of nullable types. -/
theorem C19_sparse_responses_partial {prep : List Char → List Char} {c : Ctx} {pf : FragmentsConfig}
    {po : OperationsConfig} {doc : Document} {leaf : String → Val → Prop} {T : List Stmt}
    {isa : String → Val → Prop} {r0 r1 r2 : Reg} {ss1 ss2 : List Stmt}
    (hfrag : fragmentsPlugin prep c pf doc r0 = .ok (ss1, r1))
    (hops : operationsPlugin prep c po doc r1 = .ok (ss2, r2))
    (hT : ∀ st ∈ ss1 ++ ss2, st ∈ T)
    (hfirst : r0.interfaceFragmentImpl = [] ∧ r0.unionFragmentMembers = [])
    (hnodup : c.schema.types.keys.Nodup) (hvalid : ValidImplementations c.schema)
    (hunique : UniqueClasses T) (hbases : ∀ b, ConfiguredBase c b → ¬ IsClass T (lastComponent b))
    (hbasesF : ∀ b ∈ pf.fragmentBases ++ pf.objectBases, ¬ IsClass T (lastComponent b))
    (hbasesO : ∀ k b, b ∈ po.basesFor k → ¬ IsClass T (lastComponent b))
    (hleaf : ∀ n v cls, IsLeaf c.schema n → leaf n v → outputSideClass c r0 n = some cls → isa cls v)
    (hdef : ∀ d ∈ fragmentsOf doc, ∀ x, Spreads d.sels x → x ∈ (fragmentsOf doc).map (·.name))
    (hcyc : ∀ n d, lookup (fragmentsOf doc) n = some d → ¬ Needs (fragmentsOf doc) d.sels n)
    (hinl : ∀ d ∈ fragmentsOf doc, NoInlineSpread d.sels)
    (hsupF : ∀ d ∈ fragmentsOf doc,
      SupportedFragment c (definitions doc) (· ∈ (fragmentsOf doc).map (·.name)) d)
    (hsupO : ∀ o ∈ operationsOf doc, ∀ root, c.schema.root o.kind = some root → IsObject c.schema root ∧
      ∀ name alias args sub t, Sel.field name alias args sub ∈ o.sels → FieldType c.schema root name t →
        Supported c.schema (definitions doc) (· ∈ (fragmentsOf doc).map (·.name)) t sub) :
    ∀ o ∈ operationsOf doc, ∃ name cls root, o.name = some name ∧ o.kind.kind.style c.env name = .ok cls ∧
      c.schema.root o.kind = some root ∧ IsClass T cls ∧
      ∀ kvs, SparseResult c.schema (definitions doc) leaf root o.sels kvs → Takes T isa (.name cls) (.obj kvs) := by
  obtain ⟨l, hl, hnames, hnd, hbefore⟩ := C11_document_order doc hinl hdef hcyc
  obtain ⟨l', hl', _, hmem, _⟩ := C12_document_fragments doc
  rw [hl] at hl'
  cases hl'
  unfold fragmentsPlugin at hfrag
  obtain ⟨fs, r', hx, hfrag⟩ := Gen.bind_ok.1 hfrag
  obtain ⟨hx, rfl⟩ := Gen.lift_ok.1 hx
  rw [hl] at hx
  cases hx
  have h0 : StateOk c (definitions doc) leaf T isa (fun _ => False) r0 :=
    ⟨⟨hunique, hbases, hvalid, hnodup, hleaf⟩, fun f hf => hf.elim⟩
  have h1 := generateFragments_ok l h0 hbasesF
    (fun d hd => by
      obtain ⟨n, hn⟩ := (hmem d).1 hd
      rw [definitions_get?, (lookup_mem hn).2, hn])
    hnd
    (fun before d after e => by
      have hd : d ∈ fragmentsOf doc := by
        obtain ⟨n, hn⟩ := (hmem d).1 (by rw [e]; simp)
        exact (lookup_mem hn).1
      exact (hsupF d hd).restrict fun f hf => .inr (hbefore before after d e f (.direct f hf)))
    (fun d _ => by rw [hfirst.1, hfirst.2]; exact ⟨rfl, rfl⟩)
    hfrag (fun st hst => hT st (List.mem_append_left _ hst))
  have e : (fun f => False ∨ f ∈ l.map (·.name)) = (· ∈ (fragmentsOf doc).map (·.name)) := by
    funext f; rw [false_or, hnames]
  rw [e] at h1
  exact generateOperations_ok _ h1 hbasesO
    (fun o ho => ⟨fun root hr => (hsupO o ho root hr).1, fun root hr => (hsupO o ho root hr).2⟩) hops
    (fun st hst => hT st (List.mem_append_right _ hst))

/-- Run the fragments plugin and then the operations plugin on a document.  Assume:

* about the schema: names are unique and objects declare the fields of their interfaces;
* about the module `T` (which contains everything the two plugins generated): no two different classes have
  the same name, and no generated class is called like a configured base class;
* about the scalars and enums: the Python class used for a scalar or enum accepts its values;
* about the document: every spread fragment is defined, no fragment needs itself, no fragment hides a spread below
  an inline fragment, and the selections are of the shapes `Supported` and `SupportedFragment` describe.

Then every operation has a class, named by the configured naming rules, which accepts every possible result of
the operation, whatever the depth of the selections and the length of the lists.

Missing for the full property: selections outside `Supported` (see the counterexamples below). -/
theorem C19_responses_accepted_partial {prep : List Char → List Char} {c : Ctx} {pf : FragmentsConfig}
    {po : OperationsConfig} {doc : Document} {leaf : String → Val → Prop} {T : List Stmt}
    {isa : String → Val → Prop} {r0 r1 r2 : Reg} {ss1 ss2 : List Stmt}
    (hfrag : fragmentsPlugin prep c pf doc r0 = .ok (ss1, r1))
    (hops : operationsPlugin prep c po doc r1 = .ok (ss2, r2))
    (hT : ∀ st ∈ ss1 ++ ss2, st ∈ T)
    (hfirst : r0.interfaceFragmentImpl = [] ∧ r0.unionFragmentMembers = [])
    (hnodup : c.schema.types.keys.Nodup) (hvalid : ValidImplementations c.schema)
    (hunique : UniqueClasses T) (hbases : ∀ b, ConfiguredBase c b → ¬ IsClass T (lastComponent b))
    (hbasesF : ∀ b ∈ pf.fragmentBases ++ pf.objectBases, ¬ IsClass T (lastComponent b))
    (hbasesO : ∀ k b, b ∈ po.basesFor k → ¬ IsClass T (lastComponent b))
    (hleaf : ∀ n v cls, IsLeaf c.schema n → leaf n v → outputSideClass c r0 n = some cls → isa cls v)
    (hdef : ∀ d ∈ fragmentsOf doc, ∀ x, Spreads d.sels x → x ∈ (fragmentsOf doc).map (·.name))
    (hcyc : ∀ n d, lookup (fragmentsOf doc) n = some d → ¬ Needs (fragmentsOf doc) d.sels n)
    (hinl : ∀ d ∈ fragmentsOf doc, NoInlineSpread d.sels)
    (hsupF : ∀ d ∈ fragmentsOf doc,
      SupportedFragment c (definitions doc) (· ∈ (fragmentsOf doc).map (·.name)) d)
    (hsupO : ∀ o ∈ operationsOf doc, ∀ root, c.schema.root o.kind = some root → IsObject c.schema root ∧
      ∀ name alias args sub t, Sel.field name alias args sub ∈ o.sels → FieldType c.schema root name t →
        Supported c.schema (definitions doc) (· ∈ (fragmentsOf doc).map (·.name)) t sub) :
    ∀ o ∈ operationsOf doc, ∃ name cls root, o.name = some name ∧ o.kind.kind.style c.env name = .ok cls ∧
      c.schema.root o.kind = some root ∧ IsClass T cls ∧
      ∀ kvs, ObjectResult c.schema (definitions doc) leaf root o.sels kvs → Takes T isa (.name cls) (.obj kvs) := by
  intro o ho
  obtain ⟨name, cls, root, h1, h2, h3, h4, h5⟩ := C19_sparse_responses_partial hfrag hops hT hfirst hnodup hvalid hunique
    hbases hbasesF hbasesO hleaf hdef hcyc hinl hsupF hsupO o ho
  exact ⟨name, cls, root, h1, h2, h3, h4, fun kvs hr => h5 kvs hr.sparse⟩

/-! ## a document that meets the hypotheses -/

/-- the names of the classes a module defines -/
def classNames (T : List Stmt) : List String :=
  T.filterMap fun
    | .classDef n _ _ _ => some n
    | _ => none

theorem mem_classNames {T : List Stmt} {n : String} : n ∈ classNames T ↔ IsClass T n := by
  unfold classNames IsClass
  rw [List.mem_filterMap]
  constructor
  · rintro ⟨st, hm, he⟩
    split at he
    · cases he; exact ⟨_, _, _, hm⟩
    · cases he
  · rintro ⟨bs, body, ds, hm⟩
    exact ⟨_, hm, rfl⟩

theorem uniqueClasses_of_nodup {T : List Stmt} (h : (classNames T).Nodup) : UniqueClasses T := by
  induction T with
  | nil => intro n bs body ds bs' body' ds' h1; cases h1
  | cons x T ih =>
    intro n bs body ds bs' body' ds' h1 h2
    have key : ∀ {bs body ds}, x = .classDef n bs body ds → ¬ IsClass T n := by
      rintro bs body ds rfl hc
      have : (n :: classNames T).Nodup := h
      exact (List.nodup_cons.1 this).1 (mem_classNames.2 hc)
    have ht : (classNames T).Nodup := by
      revert h
      unfold classNames
      rw [List.filterMap_cons]
      split
      · exact id
      · exact fun h => (List.nodup_cons.1 h).2
    rcases List.mem_cons.1 h1 with h1 | h1
    · rcases List.mem_cons.1 h2 with h2 | h2
      · rw [← h1] at h2; cases h2; exact ⟨rfl, rfl, rfl⟩
      · exact (key h1.symm ⟨_, _, _, h2⟩).elim
    · rcases List.mem_cons.1 h2 with h2 | h2
      · exact (key h2.symm ⟨_, _, _, h1⟩).elim
      · exact ih ht n bs body ds bs' body' ds' h1 h2

/-- what the two plugins generate for a document, with the default configuration -/
def generated (s : Schema) (doc : Document) : Except Err (List Stmt) :=
  match fragmentsPlugin id { schema := s } {} doc (Reg.init {}) with
  | .error e => .error e
  | .ok (a, r) =>
    match operationsPlugin id { schema := s } {} doc r with
    | .error e => .error e
    | .ok (b, _) => .ok (a ++ b)

/-- a test on what was generated; `false` if generating failed -/
def generatedSatisfies (s : Schema) (doc : Document) (test : List Stmt → Bool) : Bool :=
  match generated s doc with
  | .error _ => false
  | .ok T => test T

theorem generated_ok {s : Schema} {doc : Document} {test : List Stmt → Bool}
    (h : generatedSatisfies s doc test = true) :
    ∃ a r b r', fragmentsPlugin id { schema := s } {} doc (Reg.init {}) = .ok (a, r) ∧
      operationsPlugin id { schema := s } {} doc r = .ok (b, r') ∧ generated s doc = .ok (a ++ b) ∧
      test (a ++ b) = true := by
  unfold generatedSatisfies generated at h
  unfold generated
  cases h1 : fragmentsPlugin id { schema := s } {} doc (Reg.init {}) with
  | error e => rw [h1] at h; cases h
  | ok x =>
    obtain ⟨a, r⟩ := x
    rw [h1] at h
    dsimp only at h
    cases h2 : operationsPlugin id { schema := s } {} doc r with
    | error e => rw [h2] at h; cases h
    | ok y =>
      obtain ⟨b, r'⟩ := y
      rw [h2] at h
      exact ⟨a, r, b, r', rfl, h2, by dsimp only; rw [h2], h⟩

/-- a field without arguments -/
def plainField (n : String) (t : TypeNode) : FieldDef := ⟨n, t, [], none, none⟩

/-- an interface, two objects, a union and a query type -/
def blogSchema : Schema := { query := some "Query", types := [
  ("String", ⟨.scalar, none⟩),
  ("Node", ⟨.interface [plainField "id" (.nonNull (.named "String"))] [], none⟩),
  ("User", ⟨.object [plainField "id" (.nonNull (.named "String")), plainField "name" (.named "String"),
    plainField "friend" (.named "Node")] ["Node"], none⟩),
  ("Post", ⟨.object [plainField "id" (.nonNull (.named "String")), plainField "title" (.named "String")]
    ["Node"], none⟩),
  ("Found", ⟨.union ["User", "Post"], none⟩),
  ("Query", ⟨.object [plainField "node" (.named "Node"), plainField "found" (.named "Found"),
    plainField "search" (.nonNull (.list (.nonNull (.named "Found"))))] [], none⟩)] }

/-- a selection without alias and arguments -/
def ask (n : String) (sub : List Sel := []) : Sel := .field n none [] sub

/-- ```
fragment UserBits on User { name friend { id ... on Post { title } __typename } __typename }
query Look {
  node { id ...UserBits ... on Post { title } __typename }
  search { ...UserBits ... on Post { title } __typename } }
``` -/
def blogDoc : Document := [
  .fragment ⟨"UserBits", "User", [ask "name",
    ask "friend" [ask "id", .inline (some "Post") [ask "title"], ask "__typename"], ask "__typename"]⟩,
  .operation ⟨.query, some "Look", [], [
    ask "node" [ask "id", .spread "UserBits", .inline (some "Post") [ask "title"], ask "__typename"],
    ask "search" [.spread "UserBits", .inline (some "Post") [ask "title"], ask "__typename"]]⟩]

theorem blog_types {n : String} {t : TypeDef} (h : blogSchema.lookup n = some t) :
    (n = "String" ∧ t = .scalar) ∨
    (n = "Node" ∧ t = .interface [plainField "id" (.nonNull (.named "String"))] []) ∨
    (n = "User" ∧ t = .object [plainField "id" (.nonNull (.named "String")), plainField "name" (.named "String"),
      plainField "friend" (.named "Node")] ["Node"]) ∨
    (n = "Post" ∧ t = .object [plainField "id" (.nonNull (.named "String")), plainField "title" (.named "String")]
      ["Node"]) ∨
    (n = "Found" ∧ t = .union ["User", "Post"]) ∨
    (n = "Query" ∧ t = .object [plainField "node" (.named "Node"), plainField "found" (.named "Found"),
      plainField "search" (.nonNull (.list (.nonNull (.named "Found"))))] []) := by
  unfold Schema.lookup at h
  cases hg : blogSchema.types.get? n with
  | none => rw [hg] at h; cases h
  | some e =>
    rw [hg] at h
    cases h
    have := Dict.mem_of_get? hg
    simp only [blogSchema, List.mem_cons, Prod.mk.injEq, List.not_mem_nil, or_false] at this
    rcases this with ⟨rfl, rfl⟩ | ⟨rfl, rfl⟩ | ⟨rfl, rfl⟩ | ⟨rfl, rfl⟩ | ⟨rfl, rfl⟩ | ⟨rfl, rfl⟩ <;> simp

theorem blog_valid : ValidImplementations blogSchema := by
  intro i o fs is fs' is' hi ho hm fd hfd
  rcases blog_types hi with ⟨rfl, h⟩ | ⟨rfl, h⟩ | ⟨rfl, h⟩ | ⟨rfl, h⟩ | ⟨rfl, h⟩ | ⟨rfl, h⟩ <;> cases h
  rw [List.mem_singleton] at hfd
  subst hfd
  rcases blog_types ho with ⟨rfl, h⟩ | ⟨rfl, h⟩ | ⟨rfl, h⟩ | ⟨rfl, h⟩ | ⟨rfl, h⟩ | ⟨rfl, h⟩ <;> cases h
  · exact ⟨_, List.mem_cons_self .., rfl, .nonNull .refl⟩
  · exact ⟨_, List.mem_cons_self .., rfl, .nonNull .refl⟩
  · cases hm

theorem blog_string : IsLeaf blogSchema "String" := .inl rfl
theorem blog_user : IsObject blogSchema "User" := ⟨_, _, rfl⟩
theorem blog_post : IsObject blogSchema "Post" := ⟨_, _, rfl⟩
theorem blog_query : IsObject blogSchema "Query" := ⟨_, _, rfl⟩

theorem blog_title {t : TypeNode} (h : FieldType blogSchema "Post" "title" t) : IsLeaf blogSchema t.base := by
  generalize hn : "title" = n at h
  cases h with
  | declared hl hm =>
    cases hl
    simp only [plainField, List.mem_cons, List.not_mem_nil, or_false] at hm
    rcases hm with rfl | rfl <;> exact blog_string
  | typename => exact blog_string
  | schema h => exact absurd hn (by decide)
  | type h => exact absurd hn (by decide)

theorem blog_friend {K : String → Prop} : Supported blogSchema (definitions blogDoc) K (.named "Node")
    [ask "id", .inline (some "Post") [ask "title"], ask "__typename"] := by
  refine .interface (fs := [plainField "id" (.nonNull (.named "String"))]) (is := []) rfl
    ⟨[], [], by simp [ask]⟩ (by simp [ask]) ?_ ?_
  · intro name alias args sub fd hm hn hfd e
    rw [List.mem_singleton] at hfd
    subst hfd
    exact .leaf blog_string
  · intro o inner name alias args sub t hm hm' hn ht
    simp only [ask, List.mem_cons, reduceCtorEq, Sel.inline.injEq, Option.some.injEq, List.not_mem_nil,
      or_false, false_or] at hm
    obtain ⟨rfl, rfl⟩ := hm
    simp only [List.mem_singleton, Sel.field.injEq] at hm'
    obtain ⟨rfl, _⟩ := hm'
    exact .leaf (blog_title ht)

theorem blog_userBits {K : String → Prop} : SupportedFragment { schema := blogSchema } (definitions blogDoc) K
    ⟨"UserBits", "User", [ask "name",
      ask "friend" [ask "id", .inline (some "Post") [ask "title"], ask "__typename"], ask "__typename"]⟩ := by
  refine .object blog_user (by simp [ask]) ?_
  intro name alias args sub t hm hn ht
  simp only [ask, List.mem_cons, Sel.field.injEq, List.not_mem_nil, or_false] at hm
  cases ht with
  | declared hl hfd =>
    cases hl
    simp only [plainField, List.mem_cons, List.not_mem_nil, or_false] at hfd
    rcases hfd with rfl | rfl | rfl
    · exact .leaf blog_string
    · exact .leaf blog_string
    · rcases hm with ⟨h, _⟩ | ⟨_, _, _, rfl⟩ | ⟨h, _⟩
      · exact absurd h (by decide)
      · exact blog_friend
      · exact absurd h (by decide)
  | typename => exact (hn rfl).elim
  | schema h => exact absurd h (by decide)
  | type h => exact absurd h (by decide)

theorem blog_posts {K : String → Prop} {o : String} {inner : List Sel} {l : List Sel} {name : String}
    {alias : Option String} {args : List (String × Value)} {sub : List Sel} {t : TypeNode}
    (hl : ∀ o inner, Sel.inline (some o) inner ∈ l → o = "Post" ∧ inner = [ask "title"])
    (hm : Sel.inline (some o) inner ∈ l) (hm' : Sel.field name alias args sub ∈ inner)
    (ht : FieldType blogSchema o name t) : Supported blogSchema (definitions blogDoc) K t sub := by
  obtain ⟨rfl, rfl⟩ := hl o inner hm
  simp only [ask, List.mem_singleton, Sel.field.injEq] at hm'
  obtain ⟨rfl, _⟩ := hm'
  exact .leaf (blog_title ht)

theorem blog_operation {K : String → Prop} (hK : K "UserBits") {name : String} {alias : Option String}
    {args : List (String × Value)} {sub : List Sel} {t : TypeNode}
    (hm : Sel.field name alias args sub ∈ [
      ask "node" [ask "id", .spread "UserBits", .inline (some "Post") [ask "title"], ask "__typename"],
      ask "search" [.spread "UserBits", .inline (some "Post") [ask "title"], ask "__typename"]])
    (ht : FieldType blogSchema "Query" name t) : Supported blogSchema (definitions blogDoc) K t sub := by
  simp only [ask, List.mem_cons, Sel.field.injEq, List.not_mem_nil, or_false] at hm
  cases ht with
  | declared hl hfd =>
    cases hl
    simp only [plainField, List.mem_cons, List.not_mem_nil, or_false] at hfd
    rcases hfd with rfl | rfl | rfl
    · rcases hm with ⟨_, _, _, rfl⟩ | ⟨h, _⟩
      · refine .interface (fs := [plainField "id" (.nonNull (.named "String"))]) (is := []) rfl
          ⟨[], [], by simp⟩ (by simpa using hK) ?_ ?_
        · intro name alias args sub fd hm hn hfd e
          rw [List.mem_singleton] at hfd
          subst hfd
          exact .leaf blog_string
        · intro o inner name alias args sub t hm hm' hn ht
          exact blog_posts (by simp [ask]) hm hm' ht
      · exact absurd h (by decide)
    · rcases hm with ⟨h, _⟩ | ⟨h, _⟩ <;> exact absurd h (by decide)
    · rcases hm with ⟨h, _⟩ | ⟨_, _, _, rfl⟩
      · exact absurd h (by decide)
      · refine .union (ms := ["User", "Post"]) rfl (by decide) ?_ ?_ ?_ ?_
        · intro o ho
          simp only [List.mem_cons, List.not_mem_nil, or_false] at ho
          rcases ho with rfl | rfl
          · exact .inr ⟨"UserBits", _, by simp, rfl, .object blog_user⟩
          · exact .inl ⟨_, by simp; rfl⟩
        · intro f hf
          have : f = "UserBits" := by simpa using hf
          subst this
          exact ⟨hK, _, rfl, fun h => not_interface_of_object blog_user h⟩
        · intro o inner f hm hf
          have : o = "Post" ∧ inner = [ask "title"] := by simpa [ask] using hm
          obtain ⟨rfl, rfl⟩ := this
          simp [ask] at hf
        · intro o inner name alias args sub t hm hm' hn ht
          exact blog_posts (by simp [ask]) hm hm' ht
  | typename => exact .leaf blog_string
  | schema h => rcases hm with ⟨h, _⟩ | ⟨h, _⟩ <;> exact absurd h (by decide)
  | type h => rcases hm with ⟨h, _⟩ | ⟨h, _⟩ <;> exact absurd h (by decide)

theorem blog_spreads {f : String} (h : Spreads [ask "name",
      ask "friend" [ask "id", .inline (some "Post") [ask "title"], ask "__typename"], ask "__typename"] f) : False := by
  simp only [ask] at h
  repeat (first | (cases h; done) | (cases h <;> rename_i h))

theorem blog_leaf {leaf isa : String → Val → Prop} (hleaf : ∀ v, leaf "String" v → isa "str" v) (n : String) (v : Val)
    (cls : String) (hn : IsLeaf blogSchema n) (hv : leaf n v)
    (hc : outputSideClass { schema := blogSchema } (Reg.init {}) n = some cls) : isa cls v := by
  have : n = "String" := by
    rcases hn with hn | ⟨vs, hn⟩ <;>
      rcases blog_types hn with ⟨rfl, h⟩ | ⟨rfl, h⟩ | ⟨rfl, h⟩ | ⟨rfl, h⟩ | ⟨rfl, h⟩ | ⟨rfl, h⟩ <;>
      first | rfl | cases h
  subst this
  have : outputSideClass { schema := blogSchema } (Reg.init {}) "String" = some "str" := by decide +kernel
  rw [this] at hc
  cases hc
  exact hleaf v hv

theorem blog_fragments {d : FragDef} (hd : d ∈ fragmentsOf blogDoc) : d = ⟨"UserBits", "User", [ask "name",
    ask "friend" [ask "id", .inline (some "Post") [ask "title"], ask "__typename"], ask "__typename"]⟩ := by
  simpa only [blogDoc, fragmentsOf, List.filterMap_cons, List.filterMap_nil, List.mem_singleton] using hd

theorem blog_defined : ∀ d ∈ fragmentsOf blogDoc, ∀ x, Spreads d.sels x → x ∈ (fragmentsOf blogDoc).map (·.name) := by
  intro d hd x hx
  rw [blog_fragments hd] at hx
  exact (blog_spreads hx).elim

theorem blog_acyclic : ∀ n d, lookup (fragmentsOf blogDoc) n = some d → ¬ Needs (fragmentsOf blogDoc) d.sels n := by
  intro n d hl hx
  rw [blog_fragments (lookup_mem hl).1] at hx
  clear hl
  induction hx with
  | direct f h => exact blog_spreads h
  | through g d f _ _ _ ih => exact ih

theorem blog_inline : ∀ d ∈ fragmentsOf blogDoc, NoInlineSpread d.sels := by
  intro d hd
  rw [blog_fragments hd]
  refine .field _ _ _ _ _ .nil (.field _ _ _ _ _ (.field _ _ _ _ _ .nil (.inline _ _ _ ?_
    (.field _ _ _ _ _ .nil .nil))) (.field _ _ _ _ _ .nil .nil))
  intro f h
  cases h with
  | field _ _ _ _ _ _ h => cases h
  | later _ _ _ h => cases h

theorem blog_supportedF : ∀ d ∈ fragmentsOf blogDoc, SupportedFragment { schema := blogSchema } (definitions blogDoc)
    (· ∈ (fragmentsOf blogDoc).map (·.name)) d := by
  intro d hd
  rw [blog_fragments hd]
  exact blog_userBits

theorem blog_supportedO : ∀ o ∈ operationsOf blogDoc, ∀ root, blogSchema.root o.kind = some root → IsObject blogSchema root ∧
      ∀ name al args sub t, Sel.field name al args sub ∈ o.sels → FieldType blogSchema root name t →
        Supported blogSchema (definitions blogDoc) (· ∈ (fragmentsOf blogDoc).map (·.name)) t sub := by
  intro o ho root hroot
  simp only [blogDoc, operationsOf, List.filterMap_cons, List.filterMap_nil, List.mem_singleton] at ho
  subst ho
  have : root = "Query" := by cases hroot; rfl
  subst this
  exact ⟨blog_query, fun name alias args sub t hm ht => blog_operation (by decide) hm ht⟩

/-- The theorem applies: the class of the query `Look` accepts every possible answer. -/
example : ∃ T, generated blogSchema blogDoc = .ok T ∧
    ∀ (leaf isa : String → Val → Prop), (∀ v, leaf "String" v → isa "str" v) → ∀ o ∈ operationsOf blogDoc,
      ∀ kvs, ObjectResult blogSchema (definitions blogDoc) leaf "Query" o.sels kvs →
        Takes T isa (.name "Look") (.obj kvs) := by
  obtain ⟨a, r, b, r', h1, h2, h3, h4⟩ := generated_ok (s := blogSchema) (doc := blogDoc)
    (test := fun T => decide ((classNames T).Nodup ∧ "BaseModel" ∉ classNames T)) (by decide +kernel)
  obtain ⟨hn, hb⟩ := of_decide_eq_true h4
  have hb' : ∀ x, ConfiguredBase { schema := blogSchema } x → ¬ IsClass (a ++ b) (lastComponent x) := by
    intro x hx hc
    have : x = "pydantic.BaseModel" := by
      rcases hx with hx | hx | ⟨n, l, hl, _⟩
      · simpa using hx
      · cases hx
      · cases hl
    subst this
    exact hb (mem_classNames.2 hc)
  refine ⟨a ++ b, h3, fun leaf isa hleaf o ho kvs hr => ?_⟩
  obtain ⟨name, cls, root, e1, e2, e3, _, hk⟩ := C19_responses_accepted_partial (leaf := leaf) (isa := isa)
    (T := a ++ b) h1 h2 (fun _ h => h) ⟨rfl, rfl⟩ (by decide) blog_valid (uniqueClasses_of_nodup hn) hb'
    (by simp) (by intro k b hb; cases k <;> cases hb)
    (blog_leaf hleaf) blog_defined blog_acyclic blog_inline blog_supportedF blog_supportedO
    o ho
  simp only [blogDoc, operationsOf, List.filterMap_cons, List.filterMap_nil, List.mem_singleton] at ho
  subst ho
  cases e1
  cases e3
  have : Kind.query.style ({} : Env) "Look" = .ok "Look" := by decide +kernel
  have e2 : Kind.query.style ({} : Env) "Look" = .ok cls := e2
  rw [this] at e2
  cases e2
  exact hk kvs hr

end Turms.Props
