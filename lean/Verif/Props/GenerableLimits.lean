import Verif.Props.Generable
import Verif.Props.ResponseScope

/-!
# C77: a schema and a document that meet the conditions, and valid ones for which generation fails
-/

namespace Turms.Props
open Turms Turms.Spec Turms.Documents Turms.Fragments

section
variable {c : Ctx} {defs : Dict FragDef} {known : String → Prop}

theorem field_unique {fs : List FieldDef} (hn : (fs.map (·.name)).Nodup) {a b : FieldDef} (ha : a ∈ fs) (hb : b ∈ fs)
    (h : a.name = b.name) : a = b := by
  induction fs with
  | nil => cases ha
  | cons x fs ih =>
    rw [List.map_cons, List.nodup_cons] at hn
    rcases List.mem_cons.1 ha with h1 | h1
    · rcases List.mem_cons.1 hb with h2 | h2
      · rw [h1, h2]
      · exact absurd (List.mem_map.2 ⟨b, h2, by rw [← h, h1]⟩) hn.1
    · rcases List.mem_cons.1 hb with h2 | h2
      · exact absurd (List.mem_map.2 ⟨a, h1, by rw [h, h2]⟩) hn.1
      · exact ih hn.2 h1 h2

/-- a selected field of a type with the fields `fs` -/
def FieldCase (c : Ctx) (defs : Dict FragDef) (known : String → Prop) (fs : List FieldDef) (name : String)
    (sub : List Sel) : Prop :=
  name = "__typename" ∨ ∃ fd ∈ fs, fd.name = name ∧ Generable c defs known fd.type.base sub

/-- one selection on an object -/
def ObjectCase (c : Ctx) (defs : Dict FragDef) (known : String → Prop) (n : String) (fs : List FieldDef) : Sel → Prop
  | .field name _ _ sub => FieldCase c defs known fs name sub
  | .spread f => SpreadFits c.schema defs known n f
  | .inline _ _ => False

theorem generable_object {n : String} {sels : List Sel} {fs : List FieldDef} {is : List String}
    (hl : c.schema.lookup n = some (.object fs is)) (hn : (fs.map (·.name)).Nodup)
    (h : ∀ s ∈ sels, ObjectCase c defs known n fs s) : Generable c defs known n sels := by
  refine .object hl (fun t i hm => h _ hm) (fun f hm => h _ hm) (fun name al args sub hm hne => ?_)
    (fun name al args sub fd hm hne hfd he => ?_)
  · obtain ⟨fd, h1, h2, _⟩ := (h _ hm).resolve_left hne
    exact ⟨fd, h1, h2⟩
  · obtain ⟨fd', h1, h2, h3⟩ := (h _ hm).resolve_left hne
    rw [field_unique hn hfd h1 (he.trans h2.symm)]
    exact h3

theorem fieldOn_unique {s : Schema} {t name : String} {ty : TypeNode} {fs : List FieldDef} {is : List String}
    (hl : s.lookup t = some (.object fs is)) (hn : (fs.map (·.name)).Nodup) {fd : FieldDef} (hfd : fd ∈ fs)
    (he : fd.name = name) (hni : name ∉ ["__typename", "__schema", "__type"]) (h : FieldOn s t name ty) : ty = fd.type := by
  cases h with
  | object hl' hm =>
    rw [hl] at hl'
    cases hl'
    rw [field_unique hn hm hfd he.symm]
  | interface hl' _ => rw [hl] at hl'; cases hl'
  | typename => simp at hni
  | schema _ => simp at hni
  | type _ => simp at hni

/-- one selection of a field on an object type with the fields `fs` -/
def PlainCase (c : Ctx) (defs : Dict FragDef) (known : String → Prop) (fs : List FieldDef) : Sel → Prop
  | .field name _ _ sub => name = "__typename" ∨
      (name ∉ ["__typename", "__schema", "__type"] ∧ ∃ fd ∈ fs, fd.name = name ∧ Generable c defs known fd.type.base sub)
  | _ => True

theorem generable_fields {n : String} {sels : List Sel} {fs : List FieldDef} {is : List String}
    (hl : c.schema.lookup n = some (.object fs is)) (hn : (fs.map (·.name)).Nodup)
    (h : ∀ s ∈ sels, PlainCase c defs known fs s) : FieldsGenerable c defs known n sels := by
  refine ⟨fun name al args sub hm hne => ?_, fun name al args sub ty hm hne hty => ?_⟩
  · obtain ⟨_, fd, h1, rfl, _⟩ := (h _ hm).resolve_left hne
    exact ⟨fd.type, .object hl h1⟩
  · obtain ⟨h0, fd, h1, h2, h3⟩ := (h _ hm).resolve_left hne
    rw [fieldOn_unique hl hn h1 h2 h0 hty]
    exact h3

/-- one selection on an interface -/
def InterfaceCase (c : Ctx) (defs : Dict FragDef) (known : String → Prop) (fs : List FieldDef) : Sel → Prop
  | .field name _ _ sub => FieldCase c defs known fs name sub
  | .spread f => known f
  | .inline none _ => False
  | .inline (some o) inner => IsObject c.schema o ∧ FieldsGenerable c defs known o inner

theorem generable_interface {n : String} {sels : List Sel} {fs : List FieldDef} {is : List String}
    (hl : c.schema.lookup n = some (.interface fs is)) (hn : (fs.map (·.name)).Nodup)
    (h : ∀ s ∈ sels, InterfaceCase c defs known fs s) : Generable c defs known n sels := by
  refine .interface hl (fun i hm => h _ hm) (fun f hm => h _ hm) (fun name al args sub hm hne => ?_)
    (fun name al args sub fd hm hne hfd he => ?_) (fun o i hm => (h _ hm).1)
    (fun o i name al args sub hm hm2 hne => (h _ hm).2.exist name al args sub hm2 hne)
    (fun o i name al args sub ty hm hm2 hne hty => (h _ hm).2.nested name al args sub ty hm2 hne hty)
  · obtain ⟨fd, h1, h2, _⟩ := (h _ hm).resolve_left hne
    exact ⟨fd, h1, h2⟩
  · obtain ⟨fd', h1, h2, h3⟩ := (h _ hm).resolve_left hne
    rw [field_unique hn hfd h1 (he.trans h2.symm)]
    exact h3

/-- one selection of an inline fragment on a union -/
def MemberCase (c : Ctx) (defs : Dict FragDef) (known : String → Prop) (o : String) : Sel → Prop
  | .field name _ _ sub => name = "__typename" ∨ ∃ fs is, c.schema.lookup o = some (.object fs is) ∧
      (fs.map (·.name)).Nodup ∧ ∃ fd ∈ fs, fd.name = name ∧ Generable c defs known fd.type.base sub
  | .spread f => known f
  | .inline _ _ => True

/-- one selection on a union -/
def UnionCase (c : Ctx) (defs : Dict FragDef) (known : String → Prop) : Sel → Prop
  | .field _ _ _ _ => True
  | .spread f => known f
  | .inline none _ => False
  | .inline (some o) inner => ∀ s ∈ inner, MemberCase c defs known o s

theorem generable_union {n : String} {sels : List Sel} {ms : List String}
    (hl : c.schema.lookup n = some (.union ms)) (hf : ∃ s ∈ sels, Sel.isFragment s = true)
    (h : ∀ s ∈ sels, UnionCase c defs known s) : Generable c defs known n sels := by
  refine .union hl hf (fun i hm => h _ hm) (fun f hm => h _ hm) (fun o i f hm hm2 => h _ hm _ hm2)
    (fun o i name al args sub hm hm2 hne => ?_) (fun o i name al args sub fs is fd hm hm2 hne hlo hfd he => ?_)
  · obtain ⟨fs, is, h1, _, fd, h2, h3, _⟩ := (h _ hm _ hm2).resolve_left hne
    exact ⟨fs, is, fd, h1, h2, h3⟩
  · obtain ⟨fs', is', h1, hn, fd', h2, h3, h4⟩ := (h _ hm _ hm2).resolve_left hne
    rw [hlo] at h1
    cases h1
    rw [field_unique hn hfd h2 (he.trans h3.symm)]
    exact h4
end

/-! ## `storeSchema` and `storeDoc` -/

/-- the schema of the example, with the configuration that `init` writes -/
def storeCtx : Ctx := { schema := storeSchema, env := { stylers := [defaultStyler, snakeCaseStyler] } }

/-- the only fragment -/
def userBits : FragDef := ⟨"UserBits", "User", [ask "name",
  ask "friend" [ask "id", .inline (some "Post") [ask "title"], ask "__typename"], ask "__typename"]⟩

section
variable {defs : Dict FragDef} {known : String → Prop}

theorem store_string {sels : List Sel} : Generable storeCtx defs known "String" sels :=
  .scalar rfl (.inl ⟨"str", by decide +kernel⟩)

theorem store_title : PlainCase storeCtx defs known
    [plainField "id" (.nonNull (.named "String")), plainField "title" (.named "String")] (ask "title") :=
  .inr ⟨by decide +kernel, _, List.mem_cons_of_mem _ List.mem_cons_self, rfl, store_string⟩

theorem store_post : FieldsGenerable storeCtx defs known "Post" [ask "title"] :=
  generable_fields (c := storeCtx) rfl (by decide +kernel) (by
    intro s hs
    rw [List.mem_singleton.1 hs]
    exact store_title)

theorem store_node {rest : List Sel} (h : ∀ s ∈ rest, InterfaceCase storeCtx defs known
    [plainField "id" (.nonNull (.named "String"))] s) : Generable storeCtx defs known "Node"
      (ask "id" :: .inline (some "Post") [ask "title"] :: ask "__typename" :: rest) := by
  refine generable_interface (c := storeCtx) rfl (by decide +kernel) ?_
  intro s hs
  rcases List.mem_cons.1 hs with rfl | hs
  · exact .inr ⟨_, List.mem_cons_self, rfl, store_string⟩
  · rcases List.mem_cons.1 hs with rfl | hs
    · exact ⟨⟨_, _, rfl⟩, store_post⟩
    · rcases List.mem_cons.1 hs with rfl | hs
      · exact .inl rfl
      · exact h s hs

theorem store_userBits : GenerableFragment storeCtx defs known userBits := by
  refine .object ⟨_, _, rfl⟩ (fun f hf => ?_) (generable_fields (c := storeCtx) rfl (by decide +kernel) ?_)
  · simp [userBits, ask] at hf
  · intro s hs
    simp only [userBits, List.mem_cons, List.not_mem_nil, or_false] at hs
    rcases hs with rfl | rfl | rfl
    · exact .inr ⟨by decide +kernel, _, List.mem_cons_of_mem _ List.mem_cons_self, rfl, store_string⟩
    · exact .inr ⟨by decide +kernel, _, List.mem_cons_of_mem _ (List.mem_cons_of_mem _ List.mem_cons_self), rfl,
        store_node (by simp)⟩
    · exact .inl rfl
end

theorem store_inputs {t : InputType} (h : InputOf storeSchema t) :
    t = ⟨"Filter", none, [⟨"color", .named "Color", none, none, none⟩], []⟩ := by
  have h := mem_inputTypes.2 h
  simpa only [inputTypes, storeSchema, List.filterMap_cons, List.filterMap_nil, List.mem_singleton] using h

theorem store_look_op {o : OpDef} (h : o ∈ operationsOf storeDoc) : o = ⟨.query, some "Look",
    [⟨"f", .nonNull (.named "Filter"), none⟩], [
    ask "node" [ask "id", .spread "UserBits", .inline (some "Post") [ask "title"], ask "__typename"],
    ask "search" [.spread "UserBits", .inline (some "Post") [ask "title"], ask "__typename"],
    ask "user" [ask "color"]]⟩ := by
  simpa only [storeDoc, operationsOf, List.filterMap_cons, List.filterMap_nil, List.mem_singleton] using h

/-- The document `fragment UserBits … query Look …` meets the conditions. -/
theorem store_generable : GenerableDocument storeCtx {} {} storeDoc := by
  have hk : "UserBits" ∈ (fragmentsOf storeDoc).map (·.name) := by decide +kernel
  have hkept : Kept {} "Filter" := ⟨by rintro l ⟨⟩, by decide +kernel⟩
  refine ⟨⟨?_, ?_, ?_, ?_, ?_, ?_, by decide +kernel⟩, ?_, ?_, ?_, ?_, ?_, ?_, by decide +kernel, ?_, ?_, ?_⟩
  · intro t ht _ f hf
    rw [store_inputs ht] at hf
    rw [List.mem_singleton.1 hf]
    exact .inr (.inr ⟨_, rfl, .inr (.inr ((enumKept_iff _ _).2 (by decide +kernel)))⟩)
  · intro _ t ht _ f hf _ k hk
    rw [store_inputs ht] at hf hk
    rw [List.mem_singleton.1 hf]
    rcases hk with rfl | ⟨⟨d, hd, _⟩, _⟩
    · decide +kernel
    · cases hd
  · intro t ht _ ho
    rw [store_inputs ht] at ho
    obtain ⟨d, hd, _⟩ := ho
    cases hd
  · intro t ht d hd
    rw [store_inputs ht] at hd
    cases hd
  · rintro t t' u dn dn' k k' ht _ _ ⟨d, hd, _⟩
    rw [store_inputs ht] at hd
    cases hd
  · rintro t u u' dn k k' ht _ _ ⟨d, hd, _⟩
    rw [store_inputs ht] at hd
    cases hd
  · intro d hd
    rw [store_fragments hd]
    exact store_userBits
  · intro o ho
    rw [store_look_op ho]
    have hroot : ∀ t, storeCtx.schema.root .query = some t → t = "Query" := by rintro t ⟨⟩; rfl
    have hfields := generable_fields (c := storeCtx) (defs := definitions storeDoc)
      (known := fun f => f ∈ (fragmentsOf storeDoc).map (·.name)) (n := "Query") (sels := [
      ask "node" [ask "id", .spread "UserBits", .inline (some "Post") [ask "title"], ask "__typename"],
      ask "search" [.spread "UserBits", .inline (some "Post") [ask "title"], ask "__typename"],
      ask "user" [ask "color"]]) rfl (by decide +kernel) (by
        intro s hs
        simp only [List.mem_cons, List.not_mem_nil, or_false] at hs
        rcases hs with rfl | rfl | rfl
        · refine .inr ⟨by decide +kernel, plainField "node" (.named "Node"), by simp, rfl, ?_⟩
          refine generable_interface (c := storeCtx) rfl (by decide +kernel) ?_
          intro s hs
          simp only [List.mem_cons, List.not_mem_nil, or_false] at hs
          rcases hs with rfl | rfl | rfl | rfl
          · exact .inr ⟨_, List.mem_cons_self, rfl, store_string⟩
          · exact hk
          · exact ⟨⟨_, _, rfl⟩, store_post⟩
          · exact .inl rfl
        · refine .inr ⟨by decide +kernel, plainField "search" (.nonNull (.list (.nonNull (.named "Found")))), by simp, rfl, ?_⟩
          refine generable_union (c := storeCtx) rfl ⟨.spread "UserBits", by simp, rfl⟩ ?_
          intro s hs
          simp only [List.mem_cons, List.not_mem_nil, or_false] at hs
          rcases hs with rfl | rfl | rfl
          · exact hk
          · intro s hs
            rw [List.mem_singleton.1 hs]
            exact .inr ⟨_, _, rfl, by decide +kernel, _, List.mem_cons_of_mem _ List.mem_cons_self, rfl, store_string⟩
          · trivial
        · refine .inr ⟨by decide +kernel, plainField "user" (.named "User"), by simp, rfl, ?_⟩
          refine generable_object (c := storeCtx) rfl (by decide +kernel) ?_
          intro s hs
          rw [List.mem_singleton.1 hs]
          exact .inr ⟨plainField "color" (.named "Color"), by simp, rfl, .enum rfl⟩)
    have hnt : ∀ name al args sub, Sel.field name al args sub ∈ [
      ask "node" [ask "id", .spread "UserBits", .inline (some "Post") [ask "title"], ask "__typename"],
      ask "search" [.spread "UserBits", .inline (some "Post") [ask "title"], ask "__typename"],
      ask "user" [ask "color"]] → name ≠ "__typename" := by
      intro name al args sub hm
      simp only [ask, List.mem_cons, List.not_mem_nil, or_false, Sel.field.injEq] at hm
      rcases hm with hm | hm | hm <;> (rw [hm.1]; decide)
    refine ⟨⟨"Look", rfl, by decide⟩, ⟨"Query", rfl⟩, ?_, ?_, ?_, ?_, ?_⟩
    · intro s hs
      simp only [List.mem_cons, List.not_mem_nil, or_false] at hs
      rcases hs with rfl | rfl | rfl <;> exact ⟨_, _, _, _, rfl⟩
    · intro t name al args sub ht hm
      rw [hroot t ht]
      exact hfields.exist name al args sub hm (hnt name al args sub hm)
    · intro t name al args sub ty ht hm hty
      rw [hroot t ht] at hty
      exact hfields.nested name al args sub ty hm (hnt name al args sub hm) hty
    · intro v hv
      rw [List.mem_singleton.1 hv]
      exact .inr (.inl ⟨⟨"Filter", none, [⟨"color", .named "Color", none, none, none⟩], []⟩,
        ⟨_, List.mem_cons_of_mem _ (List.mem_cons_of_mem _ (List.mem_cons_of_mem _ List.mem_cons_self)), rfl, rfl⟩,
        .inr hkept, rfl⟩)
    · intro v hv d hd
      rw [List.mem_singleton.1 hv] at hd
      cases hd
  · intro d hd x hx
    rw [store_fragments hd] at hx
    exact (blog_spreads hx).elim
  · intro o ho x hx
    rw [store_look_op ho] at hx
    rw [store_look hx]
    exact hk
  · intro n d hl hx
    rw [store_fragments (lookup_mem hl).1] at hx
    clear hl
    induction hx with
    | direct f h => exact blog_spreads h
    | through g d f _ _ _ ih => exact ih
  · intro d hd
    rw [store_fragments hd]
    refine .field _ _ _ _ _ .nil (.field _ _ _ _ _ (.field _ _ _ _ _ .nil (.inline _ _ _ ?_
      (.field _ _ _ _ _ .nil .nil))) (.field _ _ _ _ _ .nil .nil))
    intro f h
    simp only [ask] at h
    repeat (first | (cases h; done) | (cases h <;> rename_i h))
  · intro d hd
    rw [store_fragments hd]
    decide
  · intro d hd
    rw [store_fragments hd]
    decide +kernel
  · intro o ho n hn
    rw [store_look_op ho] at hn ⊢
    cases hn
    decide +kernel

/-- C77 applies to it, whatever the options of the plugins for fragments and operations are. -/
example (pf : FragmentsConfig) (po : OperationsConfig) (skip : Bool) : ∃ m, generateAst storeCtx.env List.reverse
    (classPlugins (fun _ => printFragment (withTypename userBits)) storeCtx {} {} pf po storeDoc) skip = .ok m :=
  C77_classes_partial (fun l => List.reverse_perm l)
    (C77_shipped_stylers (by
      intro s hs
      simp only [storeCtx, List.mem_cons, List.not_mem_nil, or_false] at hs
      rcases hs with rfl | rfl
      · exact .default
      · exact .snake))
    (by decide +kernel) (by decide +kernel)
    (fun f hf => by rw [store_fragments hf]; rfl) store_generable

/-! ## Valid documents for which generation fails -/

/-- the plugin that raises, and its exception -/
def cause : List Plugin → Reg → Option (String × Err)
  | [], _ => none
  | p :: ps, r =>
    match p.run r with
    | .ok (_, r1) => cause ps r1
    | .error e => some (p.className, e)

theorem cause_fails {ps : List Plugin} {r : Reg} {n : String} {e : Err} (h : cause ps r = some (n, e)) :
    runPlugins ps r = .error (.generationError n) := by
  induction ps generalizing r with
  | nil => cases h
  | cons p ps ih =>
    unfold cause at h
    unfold runPlugins
    cases hp : p.run r with
    | error e' =>
      rw [hp] at h
      cases h
      rfl
    | ok x =>
      rw [hp] at h
      dsimp only at h ⊢
      rw [ih h]

/-- No module is generated: the plugin raises the exception. (`prep := id` is what `prep` does to fragments that ask for
`__typename` already.) -/
def Fails (c : Ctx) (doc : Document) (plugin : String) (e : Err) (pe : EnumsConfig := {}) (pi : InputsConfig := {}) : Prop :=
  ParsesBack id (fragmentsOf doc) ∧
  cause (classPlugins id c pe pi {} {} doc) (Reg.init c.env) = some (plugin, e) ∧
  ∀ iter skip, generateAst c.env iter (classPlugins id c pe pi {} {} doc) skip = .error (.generationError plugin)

theorem fails_of {c : Ctx} {doc : Document} {plugin : String} {e : Err} {pe : EnumsConfig} {pi : InputsConfig}
    (h : ((fragmentsOf doc).all fun f => decide (printFragment f = printFragment (withTypename f))) = true)
    (h2 : cause (classPlugins id c pe pi {} {} doc) (Reg.init c.env) = some (plugin, e)) : Fails c doc plugin e pe pi := by
  refine ⟨fun f hf => of_decide_eq_true (List.all_eq_true.1 h f hf), h2, fun iter skip => ?_⟩
  unfold generateAst
  rw [cause_fails h2]

/-- `query A(vars) { sels }` -/
def queryA (sels : List Sel) (vars : List VarDef := []) : Defn := .operation ⟨.query, some "A", vars, sels⟩

/-- the store with further types -/
def storeWith (l : Dict TypeEntry) : Ctx := { storeCtx with schema := { storeSchema with types := storeSchema.types ++ l } }

/-- `{ ping }`: an anonymous operation -/
theorem C77_anonymous_counterexample : Fails storeCtx [.operation ⟨.query, none, [], [ask "ping"]⟩] "OperationsPlugin"
    (.valueError "Operation name is required") := fails_of (by decide +kernel) (by decide +kernel)

/-- `query A { user { ... on User { name } } }`: an inline fragment on an object -/
theorem C77_inline_object_counterexample : Fails storeCtx [queryA [ask "user" [.inline (some "User") [ask "name"]]]]
    "OperationsPlugin" (.notImplemented "inline fragment") := fails_of (by decide +kernel) (by decide +kernel)

/-- `fragment Pings on Query { ping __typename }  query A { ...Pings }`: a fragment at the root -/
theorem C77_root_spread_counterexample : Fails storeCtx [.fragment ⟨"Pings", "Query", [ask "ping", ask "__typename"]⟩,
    queryA [.spread "Pings"]] "OperationsPlugin" (.valueError "selection") :=
  fails_of (by decide +kernel) (by decide +kernel)

/-- `query A { found { __typename } }`: only the type of a union -/
theorem C77_union_typename_counterexample : Fails storeCtx [queryA [ask "found" [ask "__typename"]]] "OperationsPlugin"
    .indexError := fails_of (by decide +kernel) (by decide +kernel)

/-- `query A { found { ... on Node { id } } }`: an interface of the members of a union -/
theorem C77_union_interface_counterexample : Fails storeCtx [queryA [ask "found" [.inline (some "Node") [ask "id"]]]]
    "OperationsPlugin" (.notImplemented "Node") := fails_of (by decide +kernel) (by decide +kernel)

/-- `query A { node { ... on Node { id } } }`: an inline fragment on the interface itself -/
theorem C77_interface_interface_counterexample : Fails storeCtx [queryA [ask "node" [.inline (some "Node") [ask "id"]]]]
    "OperationsPlugin" (.valueError "Node") := fails_of (by decide +kernel) (by decide +kernel)

/-- `query A { node { ... { id } } }`: an inline fragment without type condition -/
theorem C77_bare_inline_counterexample : Fails storeCtx [queryA [ask "node" [.inline none [ask "id"]]]]
    "OperationsPlugin" (.attributeError "type_condition") := fails_of (by decide +kernel) (by decide +kernel)

/-- `fragment Bits on User { … }  fragment Any on Found { ...Bits … }`: a fragment on a member, in a fragment on a union -/
theorem C77_union_fragment_counterexample : Fails storeCtx [.fragment ⟨"Bits", "User", [ask "name", ask "__typename"]⟩,
    .fragment ⟨"Any", "Found", [.spread "Bits", ask "__typename"]⟩, queryA [ask "found" [.spread "Any"]]] "FragmentsPlugin"
    (.keyError "Bits") := fails_of (by decide +kernel) (by decide +kernel)

/-- `fragment First on User { friend { ... on User { ...Second } } … }  fragment Second on User { … }`: the dependency is
overlooked, and `First` is generated before `Second` -/
theorem C77_inline_spread_counterexample : Fails storeCtx [
    .fragment ⟨"First", "User", [ask "friend" [.inline (some "User") [.spread "Second", ask "__typename"], ask "__typename"],
      ask "__typename"]⟩,
    .fragment ⟨"Second", "User", [ask "name", ask "__typename"]⟩, queryA [ask "user" [.spread "First"]]] "FragmentsPlugin"
    (.fragmentNotFound "Second") := fails_of (by decide +kernel) (by decide +kernel)

/-- `fragment User_b on User { … }  query A { user { ...User_b } }`: of the name of the fragment only the letters
before the first other character are read -/
theorem C77_fragment_name_counterexample : Fails storeCtx [.fragment ⟨"User_b", "User", [ask "name", ask "__typename"]⟩,
    queryA [ask "user" [.spread "User_b"]]] "OperationsPlugin" (.fragmentNotFound "User") :=
  fails_of (by decide +kernel) (by decide +kernel)

/-- `query A($c: Color = RED) { ping }`: an enum value as default -/
theorem C77_enum_default_counterexample : Fails storeCtx [queryA [ask "ping"] [⟨"c", .named "Color", some (.enum "RED")⟩]]
    "OperationsPlugin" (.notImplemented "value") := fails_of (by decide +kernel) (by decide +kernel)

/-- `query A($c: [Int] = [1]) { ping }`: a list as default -/
theorem C77_list_default_counterexample : Fails storeCtx [queryA [ask "ping"] [⟨"c", .list (.named "Int"), some (.list [.int "1"])⟩]]
    "OperationsPlugin" (.notImplemented "value") := fails_of (by decide +kernel) (by decide +kernel)

/-- `input _Range { from: String }  query A($f: _Range) { ping }`: inputs called like this are skipped by default -/
theorem C77_underscore_input_counterexample : Fails
    (storeWith [("_Range", ⟨.input [⟨"from", .named "String", none, none, none⟩] [], none⟩)])
    [queryA [ask "ping"] [⟨"f", .named "_Range", none⟩]] "OperationsPlugin" (.notImplemented "_Range") :=
  fails_of (by decide +kernel) (by decide +kernel)

/-- `input Paint { c: _Hue }`, with the option to skip enums called like this -/
theorem C77_skipped_enum_counterexample : Fails
    (storeWith [("_Hue", ⟨.enum [⟨"RED", none, none⟩], none⟩), ("Paint", ⟨.input [⟨"c", .named "_Hue", none, none, none⟩] [], none⟩)])
    [queryA [ask "ping"]] "InputsPlugin" (.noEnumFound "_Hue") (pe := { skipUnderscore := true }) :=
  fails_of (by decide +kernel) (by decide +kernel)

/-- `enum PayMethod { CARD }  input Pay @oneOf { method: PayMethod }`: the wrapper of the field is called like the enum -/
theorem C77_wrapper_counterexample : Fails
    (storeWith [("PayMethod", ⟨.enum [⟨"CARD", none, none⟩], none⟩),
      ("Pay", ⟨.input [⟨"method", .named "PayMethod", none, none, none⟩] [⟨"oneOf", []⟩], none⟩)])
    [queryA [ask "ping"]] "InputsPlugin" (.noEnumFound "PayMethod") := fails_of (by decide +kernel) (by decide +kernel)

/-- `scalar Instant`, without a definition in the configuration -/
theorem C77_scalar_counterexample : Fails
    { storeCtx with schema := { storeSchema with query := some "Clock", types := storeSchema.types ++
      [("Instant", ⟨.scalar, none⟩), ("Clock", ⟨.object [plainField "now" (.named "Instant")] [], none⟩)] } }
    [queryA [ask "now"]] "OperationsPlugin" (.noScalarFound "Instant") := fails_of (by decide +kernel) (by decide +kernel)

end Turms.Props
