import Verif.Lemmas.StrawberryDirectives
import Verif.Props.StrawberryMarks
import Verif.Props.StrawberryScope

/-! # C90: custom directives in strawberry modules -/

namespace Turms.Props
open Turms Spec

/-- the directive is one of the schema's own, and not skipped for leading underscores -/
def OwnDirective (p : StrawberryConfig) (d : DirectiveDef) : Prop := d.name ∉ p.builtinDirectives ∧ KeptType p d.name

/-- C90: a strawberry module begins with exactly one class per custom directive of the schema that is not skipped, in
order: called like the directive, for exactly its locations, with one field per argument that accepts exactly the values
of the argument's type and has its default.  If directives are not generated there is no such class. -/
theorem C90_directive_classes (W : World) (c : Ctx) (p : StrawberryConfig) (sd : SchemaDirectives) (ops : List Op)
    (ss : List Stmt) (r' : Reg) (h : strawberryPlugin c p sd (stateAfter c.env ops) = .ok (ss, r')) :
    ∃ ds rest own, ss = ds ++ rest ∧ own.Sublist sd.defined ∧
      (∀ d, d ∈ own ↔ p.generateDirectives = true ∧ d ∈ sd.defined ∧ OwnDirective p d) ∧
      List.Forall₂ (DirectiveClassOf W (Inst W (inputSideClass c (stateAfter c.env ops))) c) own ds := by
  unfold strawberryPlugin at h
  obtain ⟨_, r0, h0, h⟩ := Gen.bind_ok.1 h
  obtain ⟨ds, r1, h1, h⟩ := Gen.bind_ok.1 h
  obtain ⟨sc, r2, h2, h⟩ := Gen.bind_ok.1 h
  obtain ⟨es, r3, h3, h⟩ := Gen.bind_ok.1 h
  obtain ⟨is, r4, h4, h⟩ := Gen.bind_ok.1 h
  obtain ⟨ts, r5, h5, h⟩ := Gen.bind_ok.1 h
  obtain ⟨rfl, rfl⟩ := Gen.pure_ok.1 h
  have q0 := still_registerImport.quiet h0
  have hs := (styled_stateAfter c.env ops).frame q0.frame
  rcases whenEnabled_ok h1 with ⟨hb, h1⟩ | ⟨hb, rfl, rfl⟩
  · have hc : inputSideClass c r0 = inputSideClass c (stateAfter c.env ops) := inputSideClass_congr q0.tables.1
    rw [← hc]
    refine ⟨ds, _, _, by simp only [List.append_assoc]; rfl, ?_, fun d => ?_, strawberryDirectives_ok (W := W) hs h1⟩
    · exact List.filter_sublist.trans List.filter_sublist
    · simp only [List.mem_filter, keptSb_iff, OwnDirective, hb, true_and, Bool.not_eq_true', List.contains_eq_mem,
        decide_eq_false_iff_not, and_assoc]
  · refine ⟨[], _, [], rfl, List.nil_sublist _, fun d => ?_, .nil⟩
    simp [hb]

/-- the field heads of a class body are those of its members -/
theorem fieldHead_members (body : List Stmt) : (body.filter isMember).filterMap fieldHead = body.filterMap fieldHead := by
  induction body with
  | nil => rfl
  | cons s body ih =>
    cases s <;> simp [List.filter_cons, List.filterMap_cons, isMember, fieldHead, ih]

theorem fieldHeads_of {W : World} {leaf : String → Val → Prop} {c : Ctx} {as : List ArgDef} {ss : List Stmt}
    (h : List.Forall₂ (DirectiveArgument W leaf c) as ss) (hn : ∀ a ∈ as, FieldParamOf c.env a.name a.name) (n : String) (b : Bool) :
    (n, b) ∈ ss.filterMap fieldHead ↔ ∃ a ∈ as, a.name = n ∧ (b = false ↔ ∀ v, a.default = some v → v = .none) := by
  induction h with
  | nil => simp
  | @cons a s as ss h _ ih =>
    obtain ⟨name, ann, value, rfl, hp, _, hd⟩ := h
    have hname : name = a.name := by
      have := hn a (by simp)
      unfold FieldParamOf at this hp
      rw [this] at hp
      cases hp
      rfl
    subst hname
    have hval : value.isSome = false ↔ ∀ v, a.default = some v → v = .none := by
      cases hda : a.default with
      | none => rw [hda] at hd; have : value = none := hd; subst this; simp
      | some d =>
        rw [hda] at hd
        cases d with
        | none => have : value = none := hd; subst this; simp
        | _ => obtain ⟨e, x, b, rfl, _⟩ := hd; simp
    rw [List.filterMap_cons]
    simp only [fieldHead, List.mem_cons, Prod.mk.injEq]
    rw [ih fun a ha => hn a (by simp [ha])]
    constructor
    · rintro (⟨rfl, rfl⟩ | ⟨a', ha, h⟩)
      · exact ⟨a, .inl rfl, rfl, hval⟩
      · exact ⟨a', .inr ha, h⟩
    · rintro ⟨a', rfl | ha, rfl, h⟩
      · refine .inl ⟨rfl, ?_⟩
        rw [← hval] at h
        cases b <;> cases hv : value.isSome <;> simp [hv] at h ⊢
      · exact .inr ⟨a', ha, rfl, h⟩

/-- C90: wherever a strawberry module carries a custom directive (C66), it is a call of the directive's class, and Python
accepts the call: no unknown field, none given twice, none missing.

Missing for the full property: arguments whose name is changed by the stylers or because it is a keyword of Python, and
nullable arguments that are neither given nor have a default; see the counterexamples. -/
theorem C90_applications_accepted_partial (W : World) (c : Ctx) (p : StrawberryConfig) (sd : SchemaDirectives)
    (ops : List Op) (ss : List Stmt) (r' : Reg) (hg : p.generateDirectives = true)
    (h : strawberryPlugin c p sd (stateAfter c.env ops) = .ok (ss, r')) (d : DirectiveDef) (hd : d ∈ sd.defined)
    (hown : OwnDirective p d) (hnames : ∀ x ∈ d.args, FieldParamOf c.env x.name x.name) (a : DirectiveApp)
    (happ : FullApplication d a) (call : Expr) (hcall : AppliedAs a call) :
    ∃ cls ∈ ss, DirectiveClassOf W (Inst W (inputSideClass c (stateAfter c.env ops))) c d cls ∧ CallAccepted cls call := by
  obtain ⟨ds, rest, own, rfl, _, hmem, hf⟩ := C90_directive_classes W c p sd ops ss r' h
  obtain ⟨s, hs, hcls⟩ := forall₂_mem_left hf ((hmem d).2 ⟨hg, hd, hown⟩)
  refine ⟨s, List.mem_append_left _ hs, hcls, ?_⟩
  obtain ⟨body, rfl, hfs⟩ := hcls
  obtain ⟨kws, rfl, hk⟩ := hcall
  have hkeys : kws.map (·.1) = a.args.map fun q => some q.1 := by
    clear happ
    generalize a.args = as at hk
    induction hk with
    | nil => rfl
    | cons h _ ih => simp [h.1, ih]
  have heads := fieldHeads_of hfs hnames
  rw [fieldHead_members] at heads
  refine ⟨_, _, _, _, kws, rfl, by rw [happ.name], ?_, fun k hk' => ?_, fun n hn => ?_⟩
  · rw [hkeys, show (fun q : String × Value => some q.1) = some ∘ (·.1) from rfl, ← List.map_map]
    exact happ.once.map (fun _ _ h => Option.some.inj h)
  · have : k.1 ∈ kws.map (·.1) := List.mem_map_of_mem hk'
    rw [hkeys, List.mem_map] at this
    obtain ⟨q, hq, e⟩ := this
    obtain ⟨x, hx, e2⟩ := List.mem_map.1 (happ.known q hq)
    by_cases hdef : ∀ v, x.default = some v → v = .none
    · exact ⟨q.1, false, e.symm, (heads _ _).2 ⟨x, hx, e2, by simpa using hdef⟩⟩
    · exact ⟨q.1, true, e.symm, (heads _ _).2 ⟨x, hx, e2, by simpa using hdef⟩⟩
  · obtain ⟨x, hx, rfl, hdef⟩ := (heads _ _).1 hn
    rw [hkeys, List.mem_map]
    obtain ⟨q, hq, e⟩ := List.mem_map.1 (happ.given x hx (hdef.1 rfl))
    exact ⟨q, hq, by rw [e]⟩

/-! ## The theorems apply -/

/-- the first statement of a module: the class of `@tag`, its fields and their defaults -/
example : (strawberryPlugin berryCtx {} tagDirectives (stateAfter {} [])).toOption.bind (fun x => x.1.head?.bind fun
      | .classDef n bs body ds => some (n, bs, body.filterMap fieldHead, ds)
      | _ => none) =
    some ("tag", [], [("name", false), ("old", true)], [.call (.name "strawberry.schema_directive") []
      [(some "locations", .list [.attr (.name "Location") "OBJECT", .attr (.name "Location") "FIELD_DEFINITION"])]]) := by
  decide +kernel

/-- both applications of `@tag` are accepted -/
example : ∃ ss r', strawberryPlugin berryCtx {} tagDirectives (stateAfter {} []) = .ok (ss, r') ∧
    (∃ cls ∈ ss, CallAccepted cls (.call (.name "tag") [] [(some "name", .const (.str "item"))])) ∧
    ∃ cls ∈ ss, CallAccepted cls (.call (.name "tag") [] [(some "name", .const (.str "all")), (some "old", .const .none)]) := by
  obtain ⟨ss, r', h, _⟩ := plugin_ok (c := berryCtx) (p := {}) (sd := tagDirectives) (r := stateAfter {} [])
    (test := fun _ _ => true) (by decide +kernel)
  have hn : ∀ x ∈ tagDirectives.defined.flatMap (·.args), FieldParamOf berryCtx.env x.name x.name := by
    have : ∀ n ∈ (tagDirectives.defined.flatMap (·.args)).map (·.name), FieldParamOf berryCtx.env n n := by
      unfold FieldParamOf
      decide +kernel
    exact fun x hx => this _ (List.mem_map_of_mem hx)
  have key := fun a (ha : FullApplication _ a) call hcall => C90_applications_accepted_partial emptyWorld berryCtx {} tagDirectives [] ss r'
    rfl h _ (List.mem_singleton.2 rfl) ⟨by decide +kernel, by decide +kernel, by decide +kernel⟩
    (fun x hx => hn x (by simpa [tagDirectives] using hx)) a ha call hcall
  refine ⟨ss, r', h, ?_, ?_⟩
  · obtain ⟨cls, h1, _, h2⟩ := key ⟨"tag", [("name", .string "item")]⟩
      ⟨rfl, by decide, by decide, by
        intro x hx hv
        simp only [List.mem_cons, List.not_mem_nil, or_false] at hx
        rcases hx with rfl | rfl
        · decide
        · cases hv _ rfl⟩
      (.call (.name "tag") [] [(some "name", .const (.str "item"))])
      ⟨_, rfl, .cons ⟨rfl, fun _ => ⟨_, rfl, rfl⟩⟩ .nil⟩
    exact ⟨cls, h1, h2⟩
  · obtain ⟨cls, h1, _, h2⟩ := key ⟨"tag", [("name", .string "all"), ("old", .null)]⟩
      ⟨rfl, by decide, by decide, by
        intro x hx hv
        simp only [List.mem_cons, List.not_mem_nil, or_false] at hx
        rcases hx with rfl | rfl <;> decide⟩
      (.call (.name "tag") [] [(some "name", .const (.str "all")), (some "old", .const .none)])
      ⟨_, rfl, .cons ⟨rfl, fun _ => ⟨_, rfl, rfl⟩⟩ (.cons ⟨rfl, fun _ => ⟨_, rfl, rfl⟩⟩ .nil)⟩
    exact ⟨cls, h1, h2⟩

/-! ## Limits -/

/-- the fields of the class of a directive and the keywords of its application to `Item` -/
def directiveUse (env : Env) (sd : SchemaDirectives) : Option (List (String × Bool) × List (Option String)) :=
  (strawberryPlugin { berryCtx with env := env } {} sd (stateAfter env [])).toOption.bind fun x =>
    match x.1.head?, x.1.find? (fun s => match s with | .classDef n _ _ _ => n == "Item" | _ => false) with
    | some (.classDef _ _ body _), some s =>
      match markOf "directives" s with
      | some (.list [.call _ _ kws]) => some (body.filterMap fieldHead, kws.map (·.1))
      | _ => none
    | _, _ => none

/-- C90, limit: `directive @tag(from: String!)` — the field is called `from_`, but the application passes `from`, which is
not even Python. -/
theorem C90_keyword_argument_counterexample :
    directiveUse {} {
      defined := [⟨"tag", ["OBJECT"], [⟨"from", .nonNull (.named "String"), none, none, none⟩]⟩]
      onType := fun t => if t = "Item" then [⟨"tag", [("from", .string "x")]⟩] else [] } =
      some ([("from_", false)], [some "from"]) := by decide +kernel

/-- C90, limit: `directive @tag(note: String)`, applied as `@tag` — GraphQL allows to leave out the argument, but the field
has no default. -/
theorem C90_omitted_argument_counterexample :
    directiveUse {} {
      defined := [⟨"tag", ["OBJECT"], [⟨"note", .named "String", none, none, none⟩]⟩]
      onType := fun t => if t = "Item" then [⟨"tag", []⟩] else [] } =
      some ([("note", false)], []) := by decide +kernel

end Turms.Props
