import Verif.Props.Responses

/-! # C19: selections whose answers the generated classes reject -/

namespace Turms.Props
open Turms Spec Fragments

/-- the names a module assigns -/
def aliasNames (T : List Stmt) : List String :=
  T.filterMap fun
    | .assign (.name n) _ => some n
    | _ => none

theorem mem_aliasNames {T : List Stmt} {n : String} {e : Expr} (h : Stmt.assign (.name n) e ∈ T) :
    n ∈ aliasNames T := List.mem_filterMap.2 ⟨_, h, rfl⟩

/-- the fields a class declares itself: wire key, whether there is a default, annotation -/
def ownFields (T : List Stmt) (n : String) : List (String × Bool × Expr) :=
  T.flatMap fun
    | .classDef m _ body _ => if m = n then body.filterMap fun st => (fieldOf st).map fun f => (f.key, f.hasDefault, f.ann)
      else []
    | _ => []

theorem mem_ownFields {T : List Stmt} {n key : String} {d : Bool} {ann : Expr}
    (h : (key, d, ann) ∈ ownFields T n) : ∃ st, Declared T n st ∧ fieldOf st = some ⟨key, d, ann⟩ := by
  unfold ownFields at h
  obtain ⟨c, hc, h'⟩ := List.mem_flatMap.1 h
  clear h
  split at h'
  · split at h'
    · rename_i hn
      subst hn
      obtain ⟨st, hst, he⟩ := List.mem_filterMap.1 h'
      refine ⟨st, .own hc hst, ?_⟩
      cases hf : fieldOf st with
      | none => rw [hf] at he; cases he
      | some f => rw [hf] at he; cases he; rfl
    · cases h'
  · cases h'

section
variable {T : List Stmt} {isa : String → Val → Prop}

/-- `n` is a class of the module and nothing else -/
def JustClass (T : List Stmt) (isa : String → Val → Prop) (n : String) : Prop :=
  n ∉ aliasNames T ∧ ∀ v, ¬ isa n v

theorem takes_class {n : String} {v : Val} (h : Takes T isa (.name n) v) (hn : JustClass T isa n) :
    ∃ kvs, v = .obj kvs ∧ ∀ key d ann, (key, d, ann) ∈ ownFields T n →
      (Val.entry kvs key = none → d = true) ∧ ∀ x, Val.entry kvs key = some x → Takes T isa ann x := by
  cases h with
  | «opaque» h => exact (hn.2 v h).elim
  | alias h _ => exact (hn.1 (mem_aliasNames h)).elim
  | @model _ kvs hc h1 h2 =>
    refine ⟨kvs, rfl, fun key d ann hm => ?_⟩
    obtain ⟨st, hd, hf⟩ := mem_ownFields hm
    exact ⟨fun he => h1 st _ hd hf he, fun x he => h2 st _ x hd hf he⟩

theorem takes_optional_some {t : Expr} {v : Val} (h : Takes T isa (.subscript (.name "Optional") t) v)
    (hv : v ≠ .null) : Takes T isa t v := by
  generalize he : Expr.subscript (.name "Optional") t = e at h
  cases h <;> first | (exact (hv rfl).elim) | (simp at he; done) | (cases he; assumption)

theorem takes_list {t : Expr} {v : Val} (h : Takes T isa (.subscript (.name "List") t) v) :
    ∃ l, v = .list l ∧ ∀ x ∈ l, Takes T isa t x := by
  generalize he : Expr.subscript (.name "List") t = e at h
  cases h <;> first | (simp at he; done) | (cases he; exact ⟨_, rfl, by assumption⟩)

theorem takes_union {ts : List Expr} {v : Val} (h : Takes T isa (.subscript (.name "Union") (.tuple ts)) v) :
    ∃ t ∈ ts, Takes T isa t v := by
  generalize he : Expr.subscript (.name "Union") (.tuple ts) = e at h
  cases h <;> first | (simp at he; done) | (cases he; exact ⟨_, by assumption, by assumption⟩)

theorem takes_literal {s : String} {v : Val}
    (h : Takes T isa (.subscript (.name "Literal") (.const (.str s))) v) : v = .atom s := by
  generalize he : Expr.subscript (.name "Literal") (.const (.str s)) = e at h
  cases h <;> first | (simp at he; done) | (cases he; rfl)

/-- a discriminated union looks at the discriminator: the value of some key that holds the tag of a member -/
theorem takes_discriminated {ts : List Expr} {m : Expr} {d : String} {v : Val} (hm : discriminatorOf m = some d)
    (h : Takes T isa (.subscript (.name "Annotated") (.tuple [.subscript (.name "Union") (.tuple ts), m])) v) :
    ∃ n key tag kvs, Expr.name n ∈ ts ∧ Tagged T n d key tag ∧ v = .obj kvs ∧
      Val.entry kvs key = some (.atom tag) ∧ Takes T isa (.name n) (.obj kvs) := by
  generalize he : Expr.subscript (.name "Annotated") (.tuple [.subscript (.name "Union") (.tuple ts), m]) = e at h
  cases h with
  | annotated h1 h2 =>
    simp only [Expr.subscript.injEq, true_and, Expr.tuple.injEq, List.cons.injEq] at he
    obtain ⟨_, rfl⟩ := he
    rw [h1 m (List.mem_singleton.2 rfl)] at hm
    cases hm
  | @discriminated ts' m' d' n key tag kvs h1 h2 h3 h4 h5 h6 =>
    simp only [Expr.subscript.injEq, true_and, Expr.tuple.injEq, List.cons.injEq, and_true] at he
    obtain ⟨rfl, rfl⟩ := he
    rw [h1] at hm
    cases hm
    exact ⟨n, key, tag, kvs, h3, h4, rfl, h5, h6⟩
  | _ => simp at he
end

theorem picks_one {s : Schema} {defs : Dict FragDef} {o n : String} {a : Option String}
    {args : List (String × Value)} {sub sub' : List Sel} {key name : String}
    (h : Picks s defs o [.field n a args sub] key name sub') : key = a.getD n ∧ name = n ∧ sub' = sub := by
  cases h with
  | field h =>
    rw [List.mem_singleton] at h
    cases h
    exact ⟨rfl, rfl, rfl⟩
  | spread h => cases List.mem_singleton.1 h
  | inline h => cases List.mem_singleton.1 h
  | inlineAny h => cases List.mem_singleton.1 h

theorem blog_nullable {t : TypeNode} (h : FieldType blogSchema "Query" "found" t) : t.isNonNull = false := by
  generalize hn : "found" = n at h
  cases h with
  | declared hl hm =>
    cases hl
    simp only [plainField, List.mem_cons, List.not_mem_nil, or_false] at hm
    rcases hm with rfl | rfl | rfl
    · rfl
    · rfl
    · exact absurd hn (by decide)
  | typename => exact absurd hn (by decide)
  | schema h => exact absurd hn (by decide)
  | type h => exact absurd hn (by decide)

/-- ```query Look { found { ... on Post { title } } }```, `found: Found` nullable -/
def oneFragmentDoc : Document :=
  [.operation ⟨.query, some "Look", [], [ask "found" [.inline (some "Post") [ask "title"]]]⟩]

/-- A nullable field of a union type with a single fragment: the server may answer `null`, the class rejects
it. -/
theorem C19_nullable_union_counterexample :
    ∃ T, generated blogSchema (Documents.autoAddTypename oneFragmentDoc) = .ok T ∧
      ∀ leaf isa, (∀ n v, IsClass T n → ¬ isa n v) →
        ∀ o ∈ operationsOf (Documents.autoAddTypename oneFragmentDoc),
        ObjectResult blogSchema [] leaf "Query" o.sels [("found", .null)] ∧
          ¬ Takes T isa (.name "Look") (.obj [("found", .null)]) := by
  obtain ⟨a, r, b, r', h1, h2, h3, h4⟩ := generated_ok (s := blogSchema)
    (doc := Documents.autoAddTypename oneFragmentDoc)
    (test := fun T => decide (("found", true, Expr.name "LookPostInlineFragment") ∈ ownFields T "Look" ∧
      aliasNames T = [] ∧ "Look" ∈ classNames T ∧ "LookPostInlineFragment" ∈ classNames T)) (by decide +kernel)
  obtain ⟨hf, ha, hc1, hc2⟩ := of_decide_eq_true h4
  refine ⟨_, h3, fun leaf isa hisa o ho => ⟨?_, fun ht => ?_⟩⟩
  · have : o.sels = [ask "found" [.inline (some "Post") [ask "title"], ask "__typename"]] := by
      have e : operationsOf (Documents.autoAddTypename oneFragmentDoc) = [⟨.query, some "Look", [],
        [ask "found" [.inline (some "Post") [ask "title"], ask "__typename"]]⟩] := rfl
      rw [e, List.mem_singleton] at ho
      rw [ho]
    rw [this]
    refine ⟨fun key name sub hp => ?_, fun key name sub t x hp ht hx => ?_, fun key sub hp => ?_, by simp [Val.entry]⟩
    · obtain ⟨rfl, _⟩ := picks_one hp
      simp [Val.entry]
    · obtain ⟨rfl, rfl, _⟩ := picks_one hp
      cases hx
      exact .null (blog_nullable ht)
    · obtain ⟨_, h, _⟩ := picks_one hp
      exact absurd h (by decide)
  · have j : ∀ n, n ∈ classNames (a ++ b) → JustClass (a ++ b) isa n := fun n hn =>
      ⟨by rw [ha]; simp, fun v => hisa n v (mem_classNames.1 hn)⟩
    obtain ⟨kvs, hk, hfs⟩ := takes_class ht (j _ hc1)
    cases hk
    obtain ⟨_, hx⟩ := hfs _ _ _ hf
    obtain ⟨kvs, hk, _⟩ := takes_class (hx .null rfl) (j _ hc2)
    cases hk

/-- ```query Look { search { ... on Post { title } } }```, `search: [Found!]!` -/
def onePartDoc : Document :=
  [.operation ⟨.query, some "Look", [], [ask "search" [.inline (some "Post") [ask "title"]]]⟩]

theorem blog_field {n : String} {t : TypeNode} (h : FieldType blogSchema "Query" n t) :
    (n = "node" → t = .named "Node") ∧
      (n = "search" → t = .nonNull (.list (.nonNull (.named "Found")))) := by
  cases h with
  | declared hl hm =>
    cases hl
    simp only [plainField, List.mem_cons, List.not_mem_nil, or_false] at hm
    rcases hm with rfl | rfl | rfl
    · exact ⟨fun _ => rfl, fun h => absurd h (by decide)⟩
    · exact ⟨fun h => absurd h (by decide), fun h => absurd h (by decide)⟩
    · exact ⟨fun h => absurd h (by decide), fun _ => rfl⟩
  | typename => exact ⟨fun h => absurd h (by decide), fun h => absurd h (by decide)⟩
  | schema h => exact ⟨fun h => absurd h (by decide), fun h => absurd h (by decide)⟩
  | type h => exact ⟨fun h => absurd h (by decide), fun h => absurd h (by decide)⟩

/-- the type of `__typename` -/
theorem fieldType_typename {o : String} {t : TypeNode} (h : FieldType blogSchema o "__typename" t) :
    t = .nonNull (.named "String") := by
  generalize hn : "__typename" = n at h
  cases h with
  | declared hl hm =>
    rcases blog_types hl with ⟨rfl, h⟩ | ⟨rfl, h⟩ | ⟨rfl, h⟩ | ⟨rfl, h⟩ | ⟨rfl, h⟩ | ⟨rfl, h⟩ <;> cases h <;>
    simp only [plainField, List.mem_cons, List.not_mem_nil, or_false] at hm
    · rcases hm with rfl | rfl | rfl <;> exact absurd hn (by decide)
    · rcases hm with rfl | rfl <;> exact absurd hn (by decide)
    · rcases hm with rfl | rfl | rfl <;> exact absurd hn (by decide)
  | typename => rfl
  | schema h => exact absurd hn (by decide)
  | type h => exact absurd hn (by decide)

/-- a result with the single root key `key` -/
theorem result_one {leaf : String → Val → Prop} {key : String} {sub : List Sel} {v : Val}
    (hk : key ≠ "__typename") (h : ∀ t, FieldType blogSchema "Query" key t → Conforms blogSchema [] leaf t sub v) :
    ObjectResult blogSchema [] leaf "Query" [ask key sub] [(key, v)] := by
  refine ⟨fun key' name sub' hp => ?_, fun key' name sub' t x hp ht hx => ?_, fun key' sub' hp => ?_, fun x hx => ?_⟩
  · obtain ⟨rfl, _⟩ := picks_one hp
    simp [Val.entry]
  · obtain ⟨rfl, rfl, rfl⟩ := picks_one hp
    simp [Val.entry] at hx
    subst hx
    exact h t ht
  · obtain ⟨_, h, _⟩ := picks_one hp
    exact (hk h.symm).elim
  · simp [Val.entry, hk] at hx

/-- A field of a union type whose fragments do not cover a member: an answer with that member is rejected (there
is no catch-all for unions). -/
theorem C19_uncovered_member_counterexample :
    ∃ T, generated blogSchema (Documents.autoAddTypename onePartDoc) = .ok T ∧
      ∀ leaf isa, (∀ s, leaf "String" (.atom s)) → (∀ n v, IsClass T n → ¬ isa n v) →
        ∀ o ∈ operationsOf (Documents.autoAddTypename onePartDoc),
        ObjectResult blogSchema [] leaf "Query" o.sels
            [("search", .list [.obj [("__typename", .atom "User")]])] ∧
          ¬ Takes T isa (.name "Look") (.obj [("search", .list [.obj [("__typename", .atom "User")]])]) := by
  obtain ⟨a, r, b, r', h1, h2, h3, h4⟩ := generated_ok (s := blogSchema)
    (doc := Documents.autoAddTypename onePartDoc)
    (test := fun T => decide (("search", false, sub "List" (Expr.name "LookPostInlineFragment")) ∈ ownFields T "Look" ∧
      ("__typename", true, sub "Literal" (Expr.const (.str "Post"))) ∈ ownFields T "LookPostInlineFragment" ∧
      aliasNames T = [] ∧ "Look" ∈ classNames T ∧ "LookPostInlineFragment" ∈ classNames T)) (by decide +kernel)
  obtain ⟨hf, hf2, ha, hc1, hc2⟩ := of_decide_eq_true h4
  refine ⟨_, h3, fun leaf isa hleaf hisa o ho => ⟨?_, fun ht => ?_⟩⟩
  · have e : operationsOf (Documents.autoAddTypename onePartDoc) = [⟨.query, some "Look", [],
        [ask "search" [.inline (some "Post") [ask "title"], ask "__typename"]]⟩] := rfl
    rw [e, List.mem_singleton] at ho
    rw [ho]
    refine result_one (by decide) fun t ht => ?_
    rw [(blog_field ht).2 rfl]
    refine .nonNull (by simp) (.list fun x hx => .nonNull ?_ ?_)
    · rw [List.mem_singleton.1 hx]; simp
    rw [List.mem_singleton.1 hx]
    have hp : ∀ key name sub', Picks blogSchema [] "User"
        [.inline (some "Post") [ask "title"], ask "__typename"] key name sub' →
        key = "__typename" ∧ name = "__typename" := by
      intro key name sub' hp
      cases hp with
      | field h => simp [ask] at h; obtain ⟨rfl, rfl, _⟩ := h; exact ⟨rfl, rfl⟩
      | spread h => simp [ask] at h
      | inline h hpo =>
        simp [ask] at h
        obtain ⟨rfl, _⟩ := h
        exact absurd (possible_of_object blog_post hpo) (by decide)
      | inlineAny h => simp [ask] at h
    refine .object (o := "User") (.union (ms := ["User", "Post"]) rfl blog_user (by simp)) ?_ ?_ ?_ ?_
    · intro key name sub' h
      obtain ⟨rfl, _⟩ := hp _ _ _ h
      simp [Val.entry]
    · intro key name sub' t x h ht hx
      obtain ⟨rfl, rfl⟩ := hp _ _ _ h
      cases hx
      rw [fieldType_typename ht]
      exact .nonNull (by simp) (.leaf blog_string (hleaf _))
    · intro key sub' h
      obtain ⟨rfl, _⟩ := hp _ _ _ h
      rfl
    · intro x hx
      cases hx
      rfl
  · have j : ∀ n, n ∈ classNames (a ++ b) → JustClass (a ++ b) isa n := fun n hn =>
      ⟨by rw [ha]; simp, fun v => hisa n v (mem_classNames.1 hn)⟩
    obtain ⟨kvs, hk, hfs⟩ := takes_class ht (j _ hc1)
    cases hk
    obtain ⟨_, hx⟩ := hfs _ _ _ hf
    obtain ⟨l, hl, hx⟩ := takes_list (hx _ rfl)
    cases hl
    obtain ⟨kvs, hk, hfs⟩ := takes_class (hx _ (List.mem_singleton.2 rfl)) (j _ hc2)
    cases hk
    obtain ⟨_, hx⟩ := hfs _ _ _ hf2
    exact absurd (takes_literal (hx _ rfl)) (by simp)

/-! ## a missing `__typename` -/

/-- every attribute `typename` of the module is read from `__typename` -/
def typenameKeys (T : List Stmt) : Bool :=
  T.all fun
    | .classDef _ _ body _ => body.all fun st =>
      attrOf st != some "typename" || (fieldOf st).map (·.key) == some "__typename"
    | _ => true

theorem typenameKeys_declared {T : List Stmt} (h : typenameKeys T = true) {n : String} {st : Stmt} {f : MField}
    (hd : Declared T n st) (ha : attrOf st = some "typename") (hf : fieldOf st = some f) : f.key = "__typename" := by
  induction hd with
  | own hc hb =>
    have := List.all_eq_true.1 h _ hc
    have := List.all_eq_true.1 this _ hb
    simpa [ha, hf] using this
  | inherited _ _ _ ih => exact ih ha hf

/-- ```query Look { node { id t: __typename } }```, `node: Node` -/
def aliasedDoc : Document :=
  [.operation ⟨.query, some "Look", [], [ask "node" [ask "id", .field "__typename" (some "t") [] []]]⟩]

/-- Asking for the type name under another name keeps the tool from adding `__typename`, which the generated
discriminated union needs: every answer is rejected. -/
theorem C19_aliased_typename_counterexample :
    ∃ T, generated blogSchema (Documents.autoAddTypename aliasedDoc) = .ok T ∧
      ∀ leaf isa, (∀ s, leaf "String" (.atom s)) → (∀ n v, IsClass T n → ¬ isa n v) →
        ∀ o ∈ operationsOf (Documents.autoAddTypename aliasedDoc),
        ObjectResult blogSchema [] leaf "Query" o.sels
            [("node", .obj [("id", .atom "1"), ("t", .atom "User")])] ∧
          ¬ Takes T isa (.name "Look") (.obj [("node", .obj [("id", .atom "1"), ("t", .atom "User")])]) := by
  obtain ⟨a, r, b, r', h1, h2, h3, h4⟩ := generated_ok (s := blogSchema)
    (doc := Documents.autoAddTypename aliasedDoc)
    (test := fun T => decide (("node", true, sub "Optional" (sub "Union" (.tuple [
        sub "Annotated" (.tuple [sub "Union" (.tuple [.name "LookNodeBaseUser", .name "LookNodeBasePost"]),
          .call (.name "Field") [] [(some "discriminator", .const (.str "typename"))]]),
        .name "LookNodeBaseCatchAll"]))) ∈ ownFields T "Look" ∧
      ("__typename", false, Expr.name "str") ∈ ownFields T "LookNodeBaseCatchAll" ∧ typenameKeys T = true ∧
      aliasNames T = [] ∧ "Look" ∈ classNames T ∧ "LookNodeBaseCatchAll" ∈ classNames T)) (by decide +kernel)
  obtain ⟨hf, hf2, hkeys, ha, hc1, hc2⟩ := of_decide_eq_true h4
  refine ⟨_, h3, fun leaf isa hleaf hisa o ho => ⟨?_, fun ht => ?_⟩⟩
  · have e : operationsOf (Documents.autoAddTypename aliasedDoc) = [⟨.query, some "Look", [],
        [ask "node" [ask "id", .field "__typename" (some "t") [] []]]⟩] := rfl
    rw [e, List.mem_singleton] at ho
    rw [ho]
    refine result_one (by decide) fun t ht => ?_
    rw [(blog_field ht).1 rfl]
    have hp : ∀ key name sub', Picks blogSchema [] "User"
        [ask "id", .field "__typename" (some "t") [] []] key name sub' →
        (key = "id" ∧ name = "id") ∨ (key = "t" ∧ name = "__typename") := by
      intro key name sub' hp
      cases hp with
      | field h =>
        simp [ask] at h
        rcases h with ⟨rfl, rfl, _⟩ | ⟨rfl, rfl, _⟩
        · exact .inl ⟨rfl, rfl⟩
        · exact .inr ⟨rfl, rfl⟩
      | spread h => simp [ask] at h
      | inline h hpo => simp [ask] at h
      | inlineAny h => simp [ask] at h
    refine .object (o := "User") (.interface (fs := [plainField "id" (.nonNull (.named "String")),
      plainField "name" (.named "String"), plainField "friend" (.named "Node")]) (is := ["Node"])
      ⟨_, _, rfl⟩ rfl (by simp)) ?_ ?_ ?_ ?_
    · intro key name sub' h
      rcases hp _ _ _ h with ⟨rfl, _⟩ | ⟨rfl, _⟩ <;> simp [Val.entry]
    · intro key name sub' t x h ht hx
      rcases hp _ _ _ h with ⟨rfl, rfl⟩ | ⟨rfl, rfl⟩
      · cases hx
        have : t = .nonNull (.named "String") := by
          generalize hn : "id" = n at ht
          cases ht with
          | declared hl hm =>
            cases hl
            simp only [plainField, List.mem_cons, List.not_mem_nil, or_false] at hm
            rcases hm with rfl | rfl | rfl
            · rfl
            · exact absurd hn (by decide)
            · exact absurd hn (by decide)
          | typename => rfl
          | schema h => exact absurd hn (by decide)
          | type h => exact absurd hn (by decide)
        rw [this]
        exact .nonNull (by simp) (.leaf blog_string (hleaf _))
      · cases hx
        rw [fieldType_typename ht]
        exact .nonNull (by simp) (.leaf blog_string (hleaf _))
    · intro key sub' h
      rcases hp _ _ _ h with ⟨_, h⟩ | ⟨rfl, _⟩
      · exact absurd h (by decide)
      · rfl
    · intro x hx
      cases hx
  · have j : ∀ n, n ∈ classNames (a ++ b) → JustClass (a ++ b) isa n := fun n hn =>
      ⟨by rw [ha]; simp, fun v => hisa n v (mem_classNames.1 hn)⟩
    obtain ⟨kvs, hk, hfs⟩ := takes_class ht (j _ hc1)
    cases hk
    obtain ⟨_, hx⟩ := hfs _ _ _ hf
    obtain ⟨t, hm, hx⟩ := takes_union (takes_optional_some (hx _ rfl) (by simp))
    simp only [List.mem_cons, List.not_mem_nil, or_false] at hm
    rcases hm with rfl | rfl
    · obtain ⟨n, key, tag, kvs, hn, ⟨st, f, hd, hat, hfo, rfl, _⟩, hk, he, _⟩ :=
        takes_discriminated (d := "typename") rfl hx
      rw [typenameKeys_declared hkeys hd hat hfo] at he
      cases hk
      cases he
    · obtain ⟨kvs, hk, hfs⟩ := takes_class hx (j _ hc2)
      cases hk
      exact absurd ((hfs _ _ _ hf2).1 rfl) (by decide)

/-! ## a fragment on an interface spread on a union -/

/-- ```
fragment N on Node { id }
query Look { search { ...N ... on Post { title } } }
``` -/
def interfaceOnUnionDoc : Document := [
  .fragment ⟨"N", "Node", [ask "id"]⟩,
  .operation ⟨.query, some "Look", [], [ask "search" [.spread "N", .inline (some "Post") [ask "title"]]]⟩]

/-- Spreading a fragment on an interface in a field of a union type: the annotation names a class that does not
exist (the fragment's classes are called `NBase`, `NCatch`, `NUser`, `NPost`), so the module cannot be
imported. -/
theorem C19_interface_fragment_on_union_counterexample :
    ∃ T, generated blogSchema (Documents.autoAddTypename interfaceOnUnionDoc) = .ok T ∧
      ("search", false, sub "List" (sub "Union" (.tuple [.name "N", .name "LookPostInlineFragment"]))) ∈
        ownFields T "Look" ∧ "N" ∉ definedNames T := by
  obtain ⟨a, r, b, r', h1, h2, h3, h4⟩ := generated_ok (s := blogSchema)
    (doc := Documents.autoAddTypename interfaceOnUnionDoc)
    (test := fun T => decide (("search", false, sub "List" (sub "Union" (.tuple [.name "N",
      .name "LookPostInlineFragment"]))) ∈ ownFields T "Look" ∧ "N" ∉ definedNames T)) (by decide +kernel)
  exact ⟨_, h3, of_decide_eq_true h4⟩

end Turms.Props
