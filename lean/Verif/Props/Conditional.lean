import Verif.Lemmas.Conditional
import Verif.Props.ModuleNames
import Verif.Props.ResponsesLimits

/-! # C92: conditional selections -/

namespace Turms.Props
open Turms Spec Fragments Conditional Spec.Conditional

/-- the operations of a document with conditions -/
def conditionalOps (doc : List CDefn) : List COp :=
  doc.filterMap fun
    | .operation o => some o
    | _ => none

theorem mem_conditionalOps {doc : List CDefn} {o : COp} (h : o ∈ conditionalOps doc) :
    o.plain ∈ operationsOf (doc.map CDefn.plain) := by
  unfold conditionalOps at h
  obtain ⟨d, hd, he⟩ := List.mem_filterMap.1 h
  refine List.mem_filterMap.2 ⟨d.plain, List.mem_map.2 ⟨d, hd, rfl⟩, ?_⟩
  cases d with
  | operation x => cases he; rfl
  | fragment => cases he

/-- C92: the generator does not look at `@include` and `@skip`: the classes are those of the document without them
(`CDefn.plain`; the names, aliases, arguments and selection sets of nodes are all that `turms/recurse.py`,
`turms/plugins/operations.py` and `turms/plugins/fragments.py` read).  The class of an operation nevertheless accepts
every answer of a server that does, for all values of the variables, if the conditional selections can be dropped: the fields are nullable.

The other hypotheses are those of `C19_document_accepted_partial`.  Missing for the full property: conditions on fields
that are not nullable, where it is false (`C92_required_counterexample`). -/
theorem C92_conditional_partial {prep : List Char → List Char} {c : Ctx} {pf : FragmentsConfig}
    {po : OperationsConfig} {cdoc : List CDefn} {doc : Document} {leaf : String → Val → Prop}
    {isa : String → Val → Prop} {r0 r1 r2 : Reg} {ss1 ss2 : List Stmt} (hdoc : doc = cdoc.map CDefn.plain)
    (htol : ∀ o ∈ conditionalOps cdoc, ∀ root, c.schema.root o.kind = some root →
      Tolerable c.schema (fragments cdoc) root o.sels)
    (hfrag : fragmentsPlugin prep c pf doc r0 = .ok (ss1, r1))
    (hops : operationsPlugin prep c po doc r1 = .ok (ss2, r2))
    (hfirst : r0.interfaceFragmentImpl = [] ∧ r0.unionFragmentMembers = [])
    (hnodup : c.schema.types.keys.Nodup) (hempty : "" ∉ c.schema.types.keys) (hvalid : ValidImplementations c.schema)
    (hclearF : ∀ f ∈ fragmentsOf doc, ClearFragment c.schema f)
    (hclearO : ∀ o ∈ operationsOf doc, ∀ root, c.schema.root o.kind = some root →
      ClearPaths c.schema (nestedOf c.schema root o))
    (honce : ((operationsOf doc).map (·.name)).Nodup) (hsep : SeparateDefinitions c.env doc)
    (hbases : ∀ b, (ConfiguredBase c b ∨ b ∈ pf.fragmentBases ++ pf.objectBases ∨ ∃ k, b ∈ po.basesFor k) →
      ∀ k n x, DefinitionClass c.env doc k n x → ¬ x.toList <+: (lastComponent b).toList)
    (hleaf : ∀ n v cls, IsLeaf c.schema n → leaf n v → outputSideClass c r0 n = some cls → isa cls v)
    (hdef : ∀ d ∈ fragmentsOf doc, ∀ x, Spreads d.sels x → x ∈ (fragmentsOf doc).map (·.name))
    (hcyc : ∀ n d, lookup (fragmentsOf doc) n = some d → ¬ Needs (fragmentsOf doc) d.sels n)
    (hinl : ∀ d ∈ fragmentsOf doc, NoInlineSpread d.sels)
    (hsupF : ∀ d ∈ fragmentsOf doc,
      SupportedFragment c (definitions doc) (· ∈ (fragmentsOf doc).map (·.name)) d)
    (hsupO : ∀ o ∈ operationsOf doc, ∀ root, c.schema.root o.kind = some root → IsObject c.schema root ∧
      ∀ name al args sub t, Sel.field name al args sub ∈ o.sels → FieldType c.schema root name t →
        Supported c.schema (definitions doc) (· ∈ (fragmentsOf doc).map (·.name)) t sub) :
    ∀ o ∈ conditionalOps cdoc, ∃ name cls root, o.name = some name ∧ o.kind.kind.style c.env name = .ok cls ∧
      c.schema.root o.kind = some root ∧ IsClass (ss1 ++ ss2) cls ∧
      ∀ vars kvs, SendsObject c.schema (fragments cdoc) leaf vars root o.sels kvs →
        Takes (ss1 ++ ss2) isa (.name cls) (.obj kvs) := by
  subst hdoc
  intro o ho
  have hm := mem_conditionalOps ho
  obtain ⟨name, cls, root, h1, h2, h3, h4, h5⟩ := C19_sparse_document_partial hfrag hops hfirst hnodup hempty hvalid
    hclearF hclearO honce hsep hbases hleaf hdef hcyc hinl hsupF hsupO o.plain hm
  refine ⟨name, cls, root, h1, h2, h3, h4, fun vars kvs hr => h5 kvs ?_⟩
  rw [definitions_plain]
  exact sendsObject_sparse (hsupO _ hm root h3).1 (htol o ho root h3) hr

/-! ## an example -/

section
variable {s : Schema} {defs : Dict CFrag} {o key name : String} {conds : List Condition} {sub xs : List CSel}

theorem cpicks_nil : ¬ CPicks s defs o [] key name conds sub := by
  intro h
  cases h with
  | field h => cases h
  | spread h => cases h
  | inline h => cases h
  | inlineAny h => cases h

theorem cpicks_tail {x : CSel} (h : CPicks s defs o xs key name conds sub) : CPicks s defs o (x :: xs) key name conds sub := by
  cases h with
  | field h => exact .field (List.mem_cons_of_mem _ h)
  | spread h h2 h3 h4 => exact .spread (List.mem_cons_of_mem _ h) h2 h3 h4
  | inline h h2 h3 => exact .inline (List.mem_cons_of_mem _ h) h2 h3
  | inlineAny h h2 => exact .inlineAny (List.mem_cons_of_mem _ h) h2

theorem cpicks_field {n : String} {a : Option String} {args : List (String × Value)} {cs : List Condition} {inner : List CSel} :
    CPicks s defs o (.field n a args cs inner :: xs) key name conds sub ↔
      (key = a.getD n ∧ name = n ∧ conds = cs ∧ sub = inner) ∨ CPicks s defs o xs key name conds sub := by
  constructor
  · intro h
    cases h with
    | field h =>
      rcases List.mem_cons.1 h with h | h
      · cases h; exact .inl ⟨rfl, rfl, rfl, rfl⟩
      · exact .inr (.field h)
    | spread h h2 h3 h4 => exact .inr (.spread ((List.mem_cons.1 h).resolve_left (by simp)) h2 h3 h4)
    | inline h h2 h3 => exact .inr (.inline ((List.mem_cons.1 h).resolve_left (by simp)) h2 h3)
    | inlineAny h h2 => exact .inr (.inlineAny ((List.mem_cons.1 h).resolve_left (by simp)) h2)
  · rintro (⟨rfl, rfl, rfl, rfl⟩ | h)
    · exact .field List.mem_cons_self
    · exact cpicks_tail h

theorem cpicks_spread {f : String} {cs : List Condition} :
    CPicks s defs o (.spread f cs :: xs) key name conds sub ↔
      (∃ d conds', defs.get? f = some d ∧ Possible s d.typeCondition o ∧ CPicks s defs o d.sels key name conds' sub ∧
        conds = cs ++ conds') ∨ CPicks s defs o xs key name conds sub := by
  constructor
  · intro h
    cases h with
    | field h => exact .inr (.field ((List.mem_cons.1 h).resolve_left (by simp)))
    | spread h h2 h3 h4 =>
      rcases List.mem_cons.1 h with h | h
      · cases h; exact .inl ⟨_, _, h2, h3, h4, rfl⟩
      · exact .inr (.spread h h2 h3 h4)
    | inline h h2 h3 => exact .inr (.inline ((List.mem_cons.1 h).resolve_left (by simp)) h2 h3)
    | inlineAny h h2 => exact .inr (.inlineAny ((List.mem_cons.1 h).resolve_left (by simp)) h2)
  · rintro (⟨d, conds', h2, h3, h4, rfl⟩ | h)
    · exact .spread List.mem_cons_self h2 h3 h4
    · exact cpicks_tail h

theorem cpicks_inline {t : String} {cs : List Condition} {inner : List CSel} :
    CPicks s defs o (.inline (some t) cs inner :: xs) key name conds sub ↔
      (∃ conds', Possible s t o ∧ CPicks s defs o inner key name conds' sub ∧ conds = cs ++ conds') ∨
        CPicks s defs o xs key name conds sub := by
  constructor
  · intro h
    cases h with
    | field h => exact .inr (.field ((List.mem_cons.1 h).resolve_left (by simp)))
    | spread h h2 h3 h4 => exact .inr (.spread ((List.mem_cons.1 h).resolve_left (by simp)) h2 h3 h4)
    | inline h h2 h3 =>
      rcases List.mem_cons.1 h with h | h
      · cases h; exact .inl ⟨_, h2, h3, rfl⟩
      · exact .inr (.inline h h2 h3)
    | inlineAny h h2 => exact .inr (.inlineAny ((List.mem_cons.1 h).resolve_left (by simp)) h2)
  · rintro (⟨conds', h2, h3, rfl⟩ | h)
    · exact .inline List.mem_cons_self h2 h3
    · exact cpicks_tail h

theorem tolerable_nil {n : String} : Tolerable s defs n [] :=
  .intro (fun _ _ _ _ _ _ h => (cpicks_nil h).elim) fun _ _ _ _ _ _ _ h => (cpicks_nil h).elim

end

/-- a selection without conditions, alias and arguments -/
def cask (n : String) (sub : List CSel := []) : CSel := .field n none [] [] sub

/-- the condition `@include(if: $x)` -/
def ifVar (x : String) : Condition := .include_ (.variable x)

/-- what `friend` asks for -/
def friendSels : List CSel := [cask "id", .inline (some "Post") [] [cask "title"], cask "__typename"]

/-- what `UserBits` asks for -/
def bitsSels : List CSel := [cask "name", .field "friend" none [] [ifVar "deep"] friendSels, cask "__typename"]

/-- what `node` asks for -/
def nodeSels : List CSel :=
  [cask "id", .spread "UserBits" [ifVar "bits"], .inline (some "Post") [] [cask "title"], cask "__typename"]

/-- what `search` asks for -/
def searchSels : List CSel := [.spread "UserBits" [], .inline (some "Post") [] [cask "title"], cask "__typename"]

/-- what the query asks for -/
def lookSels : List CSel := [.field "node" none [] [.skip (.variable "bare")] nodeSels, cask "search" searchSels]

/-- `blogDoc` with a conditional field of the query, a conditional field of the fragment and a conditional spread -/
def condDoc : List CDefn := [.fragment ⟨"UserBits", "User", bitsSels⟩, .operation ⟨.query, some "Look", [], lookSels⟩]

example : condDoc.map CDefn.plain = blogDoc := rfl

theorem cond_fragment {d : CFrag} (h : (fragments condDoc).get? "UserBits" = some d) : d = ⟨"UserBits", "User", bitsSels⟩ := by
  cases h; rfl

theorem blog_fieldTypes {o n : String} {t : TypeNode} (h : FieldType blogSchema o n t) :
    (n = "friend" → t = .named "Node") ∧ (n = "name" → t = .named "String") := by
  cases h with
  | declared hl hm =>
    rcases blog_types hl with ⟨rfl, h⟩ | ⟨rfl, h⟩ | ⟨rfl, h⟩ | ⟨rfl, h⟩ | ⟨rfl, h⟩ | ⟨rfl, h⟩ <;> cases h <;>
    simp only [plainField, List.mem_cons, List.not_mem_nil, or_false] at hm
    · rcases hm with rfl | rfl | rfl <;> simp
    · rcases hm with rfl | rfl <;> simp
    · rcases hm with rfl | rfl | rfl <;> simp
  | typename => simp
  | schema h => simp
  | type h => simp

theorem friend_tolerable : Tolerable blogSchema (fragments condDoc) "Node" friendSels := by
  refine .intro (fun o key name conds sub _ h hne => ?_) fun o key name conds sub t _ h _ => ?_
  all_goals
    simp only [friendSels, cask, cpicks_field, cpicks_inline, cpicks_nil, or_false] at h
    rcases h with ⟨_, _, rfl, rfl⟩ | ⟨_, _, ⟨_, _, rfl, rfl⟩, rfl⟩ | ⟨_, _, rfl, rfl⟩
  all_goals first | exact (hne rfl).elim | exact tolerable_nil

theorem bits_picks {o key name : String} {conds : List Condition} {sub : List CSel}
    (h : CPicks blogSchema (fragments condDoc) o bitsSels key name conds sub) :
    (key = name) ∧ ((name = "name" ∧ sub = []) ∨ (name = "friend" ∧ sub = friendSels) ∨ (name = "__typename" ∧ sub = [])) := by
  simp only [bitsSels, cask, cpicks_field, cpicks_nil, or_false, Option.getD_none] at h
  rcases h with ⟨rfl, rfl, _, rfl⟩ | ⟨rfl, rfl, _, rfl⟩ | ⟨rfl, rfl, _, rfl⟩ <;> simp

/-- everything a selection with `UserBits` and `title` asks for -/
theorem node_picks {sels : List CSel} {o key name : String} {conds : List Condition} {sub : List CSel}
    (hs : sels = nodeSels ∨ sels = searchSels)
    (h : CPicks blogSchema (fragments condDoc) o sels key name conds sub) :
    key = name ∧ (((name = "id" ∨ name = "title") ∧ conds = [] ∧ sub = []) ∨ (name = "name" ∧ sub = []) ∨
      (name = "friend" ∧ sub = friendSels) ∨ (name = "__typename" ∧ sub = [])) := by
  rcases hs with rfl | rfl
  · simp only [nodeSels, cask, cpicks_field, cpicks_spread, cpicks_inline, cpicks_nil, or_false, Option.getD_none] at h
    rcases h with ⟨rfl, rfl, rfl, rfl⟩ | ⟨d, cs, hd, _, hb, rfl⟩ | ⟨_, _, ⟨rfl, rfl, rfl, rfl⟩, rfl⟩ | ⟨rfl, rfl, rfl, rfl⟩
    · simp
    · rw [cond_fragment hd] at hb
      obtain ⟨rfl, hb⟩ := bits_picks hb
      exact ⟨rfl, .inr hb⟩
    · simp
    · simp
  · simp only [searchSels, cask, cpicks_field, cpicks_spread, cpicks_inline, cpicks_nil, or_false, Option.getD_none] at h
    rcases h with ⟨d, cs, hd, _, hb, rfl⟩ | ⟨_, _, ⟨rfl, rfl, rfl, rfl⟩, rfl⟩ | ⟨rfl, rfl, rfl, rfl⟩
    · rw [cond_fragment hd] at hb
      obtain ⟨rfl, hb⟩ := bits_picks hb
      exact ⟨rfl, .inr hb⟩
    · simp
    · simp

theorem node_tolerable {n : String} {sels : List CSel} (hs : sels = nodeSels ∨ sels = searchSels) :
    Tolerable blogSchema (fragments condDoc) n sels := by
  refine .intro (fun o key name conds sub _ h hne => ⟨fun name' conds' sub' h' => ?_, ?_⟩)
    fun o key name conds sub t _ h ht => ?_
  · obtain ⟨rfl, e⟩ := node_picks hs h
    obtain ⟨rfl, e'⟩ := node_picks hs h'
    refine ⟨rfl, ?_⟩
    rcases e with ⟨hn, _, rfl⟩ | ⟨rfl, rfl⟩ | ⟨rfl, rfl⟩ | ⟨rfl, rfl⟩ <;>
      rcases e' with ⟨hn', _, rfl⟩ | ⟨hn', rfl⟩ | ⟨hn', rfl⟩ | ⟨hn', rfl⟩ <;> simp_all
  · obtain ⟨rfl, e⟩ := node_picks hs h
    rcases e with ⟨_, rfl, _⟩ | ⟨rfl, rfl⟩ | ⟨rfl, rfl⟩ | ⟨rfl, rfl⟩
    · exact (hne rfl).elim
    · exact .inl ⟨by decide, fun t ht => by rw [(blog_fieldTypes ht).2 rfl]; rfl⟩
    · exact .inl ⟨by decide, fun t ht => by rw [(blog_fieldTypes ht).1 rfl]; rfl⟩
    · refine .inr ⟨[], ?_⟩
      rcases hs with rfl | rfl <;> simp [nodeSels, searchSels, cask, cpicks_field, cpicks_spread, cpicks_inline]
  · obtain ⟨rfl, e⟩ := node_picks hs h
    rcases e with ⟨_, rfl, rfl⟩ | ⟨rfl, rfl⟩ | ⟨rfl, rfl⟩ | ⟨rfl, rfl⟩
    · exact tolerable_nil
    · exact tolerable_nil
    · rw [(blog_fieldTypes ht).1 rfl]; exact friend_tolerable
    · exact tolerable_nil

theorem look_tolerable : Tolerable blogSchema (fragments condDoc) "Query" lookSels := by
  refine .intro (fun o key name conds sub hp h hne => ?_) fun o key name conds sub t _ h ht => ?_
  · have ho : o = "Query" := possible_object ⟨_, _, rfl⟩ hp
    subst ho
    have h0 := h
    simp only [lookSels, cask, cpicks_field, cpicks_nil, or_false, Option.getD_none] at h
    rcases h with ⟨rfl, rfl, rfl, rfl⟩ | ⟨_, _, rfl, _⟩
    · refine ⟨fun name' conds' sub' h' => ?_, .inl ⟨by decide, fun t ht => by rw [(blog_field ht).1 rfl]; rfl⟩⟩
      simp only [lookSels, cask, cpicks_field, cpicks_nil, or_false, Option.getD_none] at h'
      rcases h' with ⟨_, rfl, _, rfl⟩ | ⟨h', _⟩
      · exact ⟨rfl, rfl⟩
      · exact absurd h' (by decide)
    · exact (hne rfl).elim
  · simp only [lookSels, cask, cpicks_field, cpicks_nil, or_false, Option.getD_none] at h
    rcases h with ⟨_, _, _, rfl⟩ | ⟨_, _, _, rfl⟩
    · exact node_tolerable (.inl rfl)
    · exact node_tolerable (.inr rfl)

/-- C92 applies to it. -/
example : ∃ T, generated blogSchema blogDoc = .ok T ∧
    ∀ (leaf isa : String → Val → Prop), (∀ v, leaf "String" v → isa "str" v) → ∀ vars kvs,
      SendsObject blogSchema (fragments condDoc) leaf vars "Query" lookSels kvs → Takes T isa (.name "Look") (.obj kvs) := by
  obtain ⟨a, r, b, r', h1, h2, h3, _⟩ := generated_ok (s := blogSchema) (doc := blogDoc)
    (test := fun T => true) (by decide +kernel)
  refine ⟨a ++ b, h3, fun leaf isa hleaf vars kvs hr => ?_⟩
  obtain ⟨name, cls, root, e1, e2, e3, _, hk⟩ := C92_conditional_partial (cdoc := condDoc) (leaf := leaf) (isa := isa) rfl
    (fun o ho root hroot => by
      simp only [condDoc, conditionalOps, List.filterMap_cons, List.filterMap_nil, List.mem_singleton] at ho
      subst ho
      cases hroot
      exact look_tolerable)
    h1 h2 ⟨rfl, rfl⟩ (by decide) (by decide +kernel) blog_valid blog_clearFragment blog_clearOperation (by decide +kernel)
    blog_separate blog_bases (blog_leaf hleaf) blog_defined blog_acyclic blog_inline blog_supportedF blog_supportedO
    ⟨.query, some "Look", [], lookSels⟩ (by simp [conditionalOps, condDoc])
  cases e1
  cases e3
  have : Kind.query.style ({} : Env) "Look" = .ok "Look" := by decide +kernel
  have e2 : Kind.query.style ({} : Env) "Look" = .ok cls := e2
  rw [this] at e2
  cases e2
  exact hk vars kvs hr

/-- with `$bare` true, and no results: nothing is sent for `node` -/
example : SendsObject blogSchema (fragments condDoc) (fun _ _ => True) (fun x => x == "bare") "Query" lookSels
    [("search", .list [])] := by
  have hp : ∀ {key name conds sub}, CPicks blogSchema (fragments condDoc) "Query" lookSels key name conds sub →
      (key = "node" ∧ name = "node" ∧ conds = [.skip (.variable "bare")] ∧ sub = nodeSels) ∨
      (key = "search" ∧ name = "search" ∧ conds = [] ∧ sub = searchSels) := by
    intro key name conds sub h
    simpa only [lookSels, cask, cpicks_field, cpicks_nil, or_false, Option.getD_none] using h
  have hbare : ¬ Hold (fun x => x == "bare") [.skip (.variable "bare")] := by
    intro h
    exact absurd (h _ List.mem_cons_self) (by decide)
  refine ⟨fun key => ⟨fun h => ?_, fun ⟨name, conds, sub, h, hh⟩ => ?_⟩, fun key name conds sub t x h hh ht hx => ?_,
    fun key conds sub h hh => ?_, fun x hx => by simp [Val.entry] at hx⟩
  · have : key = "search" := by
      apply Classical.byContradiction
      intro hne
      exact h (by simp [Val.entry, Ne.symm hne])
    subst this
    exact ⟨"search", [], searchSels, by simp [lookSels, cask, cpicks_field], hold_nil⟩
  · rcases hp h with ⟨_, _, rfl, _⟩ | ⟨rfl, _⟩
    · exact (hbare hh).elim
    · simp [Val.entry]
  · rcases hp h with ⟨_, _, rfl, _⟩ | ⟨rfl, rfl, _, rfl⟩
    · exact (hbare hh).elim
    · rw [(blog_field ht).2 rfl]
      simp [Val.entry] at hx
      subst hx
      exact .nonNull (by simp) (.list fun x hx => by cases hx)
  · rcases hp h with ⟨_, h, _⟩ | ⟨_, h, _⟩ <;> exact absurd h (by decide)

/-! ## conditions on fields that are not nullable -/

/-- ```query Look($on: Boolean!) { search @include(if: $on) { ... on User { name } ... on Post { title } } }```,
`search: [Found!]!` -/
def onOffDoc : List CDefn := [.operation ⟨.query, some "Look", [⟨"on", .nonNull (.named "Boolean"), none⟩], [
  .field "search" none [] [ifVar "on"] [.inline (some "User") [] [cask "name"], .inline (some "Post") [] [cask "title"]]]⟩]

/-- A conditional field that is not nullable: the answer without it is rejected. -/
theorem C92_required_counterexample :
    ∃ T, generated blogSchema (Documents.autoAddTypename (onOffDoc.map CDefn.plain)) = .ok T ∧
      ∀ leaf isa, (∀ n v, IsClass T n → ¬ isa n v) → ∀ o ∈ conditionalOps onOffDoc,
        SendsObject blogSchema (fragments onOffDoc) leaf (fun _ => false) "Query" o.sels [] ∧
          ¬ Takes T isa (.name "Look") (.obj []) := by
  obtain ⟨a, r, b, r', h1, h2, h3, h4⟩ := generated_ok (s := blogSchema)
    (doc := Documents.autoAddTypename (onOffDoc.map CDefn.plain))
    (test := fun T => (ownFields T "Look").any (fun f => f.1 == "search" && !f.2.1) && decide (
      aliasNames T = [] ∧ "Look" ∈ classNames T)) (by decide +kernel)
  rw [Bool.and_eq_true] at h4
  obtain ⟨hf, h4⟩ := h4
  obtain ⟨ha, hc⟩ := of_decide_eq_true h4
  refine ⟨_, h3, fun leaf isa hisa o ho => ⟨?_, fun ht => ?_⟩⟩
  · simp only [onOffDoc, conditionalOps, List.filterMap_cons, List.filterMap_nil, List.mem_singleton] at ho
    subst ho
    have hno : ∀ {key name conds sub}, CPicks blogSchema (fragments onOffDoc) "Query" [
        .field "search" none [] [ifVar "on"] [.inline (some "User") [] [cask "name"], .inline (some "Post") [] [cask "title"]]]
        key name conds sub → ¬ Hold (fun _ => false) conds := by
      intro key name conds sub h hh
      simp only [cpicks_field, cpicks_nil, or_false] at h
      obtain ⟨_, _, rfl, _⟩ := h
      exact absurd (hh _ List.mem_cons_self) (by decide)
    exact ⟨fun key => ⟨fun h => (h rfl).elim, fun ⟨_, _, _, h, hh⟩ => (hno h hh).elim⟩,
      fun _ _ _ _ _ _ h hh => (hno h hh).elim, fun _ _ _ h hh => (hno h hh).elim, fun x hx => by cases hx⟩
  · obtain ⟨kvs, hk, hfs⟩ := takes_class ht ⟨by rw [ha]; simp, fun v => hisa _ v (mem_classNames.1 hc)⟩
    cases hk
    obtain ⟨⟨key, d, ann⟩, hm, he⟩ := List.any_eq_true.1 hf
    simp only [Bool.and_eq_true, beq_iff_eq, Bool.not_eq_true'] at he
    have := (hfs key d ann hm).1 rfl
    rw [he.2] at this
    cases this

end Turms.Props
