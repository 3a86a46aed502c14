import Verif.Lemmas.StrawberryMarks
import Verif.Props.Strawberry

/-! # C66: decorators, base classes and metadata of strawberry modules -/

namespace Turms.Props
open Turms Spec

theorem basesStyled_fresh {env : Env} {r : Reg} (h : ∀ i, r.interfaceBaseclassMap.get? i = none) : BasesStyled env r := by
  intro i n hn
  rw [h i] at hn
  cases hn

/-- C66: the class of a kept type is decorated as a type or an interface, with the custom directives of the schema; it
inherits from the classes of exactly those interfaces that no other of its interfaces extends, in the order of the
schema; every member carries the description, the deprecation and the custom directives of its field; resolvers are decorated by the
kind of their type, and those of subscriptions are asynchronous. -/
theorem C66_types_marked (c : Ctx) (p : StrawberryConfig) (sd : SchemaDirectives) (ops : List Op)
    (ss : List Stmt) (r' : Reg) (hg : p.generateTypes = true)
    (hfresh : ∀ i, (stateAfter c.env ops).interfaceBaseclassMap.get? i = none)
    (h : strawberryPlugin c p sd (stateAfter c.env ops) = .ok (ss, r')) (t : CompositeType) (ht : CompositeOf c.schema t)
    (hk : KeptType p t.name) :
    ∃ cls extra inherited body d listed, styled c.env.stylers Styler.objectName t.name = .ok cls ∧
      .classDef cls (extra ++ inherited.map .name) body [d] ∈ ss ∧
      calledName d = (if t.isInterface then "strawberry.interface" else "strawberry.type") ∧
      CarriesDirectives p (sd.onType t.name) (.classDef cls (extra ++ inherited.map .name) body [d]) ∧
      listed.Sublist t.interfaces ∧ (∀ i, i ∈ listed ↔ i ∈ t.interfaces ∧ ¬ ExtendedWithin c.schema i t.interfaces) ∧
      List.Forall₂ (fun i n => styled c.env.stylers Styler.objectName i = .ok n) listed inherited ∧
      List.Forall₂ (fun f s => FieldMember c t.name f s ∧ FieldTold p sd t.name f s) t.fields (body.filter isMember) := by
  obtain ⟨s, hs, ⟨cls', bases, body', dec, hc, he, hf⟩, hd, cls, extra, inherited, body, d, listed, rfl, hft, hn, hsub, hmem, hinh⟩ :=
    (strawberryPlugin_told (W := emptyWorld) (styled_stateAfter _ _) (basesStyled_fresh hfresh) h).2 hg t
      (mem_sortedComposites.2 ht) hk
  cases he
  refine ⟨_, extra, inherited, _, d, listed, hc, hs, hn, hd, hsub, hmem, hinh, ?_⟩
  have := hf.imp fun _ _ hm => hm.form
  clear hf
  generalize body'.filter isMember = ms at this hft
  generalize t.fields = fs at this hft
  induction hft with
  | nil => exact .nil
  | cons h1 _ ih =>
    cases this with
    | cons h2 h3 => exact .cons ⟨h2, h1⟩ (ih h3)

/-- C66: the class of a kept input type is decorated as an input — as a one-of input exactly if the schema says so — and
carries its custom directives; every field carries its description and deprecation. -/
theorem C66_inputs_marked (c : Ctx) (p : StrawberryConfig) (sd : SchemaDirectives) (ops : List Op)
    (ss : List Stmt) (r' : Reg) (hg : p.generateInputs = true)
    (hfresh : ∀ i, (stateAfter c.env ops).interfaceBaseclassMap.get? i = none)
    (h : strawberryPlugin c p sd (stateAfter c.env ops) = .ok (ss, r')) (t : InputType) (ht : InputOf c.schema t)
    (hk : ¬ (p.skipUnderscore = true ∧ t.name.toList.head? = some '_')) :
    ∃ cls bases body ds, Kind.input.style c.env t.name = .ok cls ∧ .classDef cls bases body ds ∈ ss ∧
      ds.map calledName = ["strawberry.input"] ∧
      CarriesDirectives p (sd.onType t.name) (.classDef cls bases body ds) ∧
      (OneOf t.directives → markOf "one_of" (.classDef cls bases body ds) = some (.const (.bool true))) ∧
      (¬ OneOf t.directives → markOf "one_of" (.classDef cls bases body ds) = none) ∧
      List.Forall₂ (fun (f : InputFieldDef) s => (∃ n a v, s = .annAssign n a v ∧ FieldParamOf c.env f.name n) ∧
        markOf "description" s = told f.description ∧ markOf "deprecation_reason" s = told f.deprecation)
        t.fields (body.filter isMember) := by
  have hkept : keptIn p t.name = true := by
    unfold keptIn underscored
    cases hs : p.skipUnderscore
    · rfl
    · have : t.name.toList.head? ≠ some '_' := fun h => hk ⟨hs, h⟩
      simpa using this
  obtain ⟨s, hs, ⟨cls', bases', body', dec', hc, he, hf⟩, hd, hn, ho, hno, cls, bases, body, ds, rfl, hft⟩ :=
    (strawberryPlugin_told (W := emptyWorld) (styled_stateAfter _ _) (basesStyled_fresh hfresh) h).1 hg t
      (mem_inputTypes.2 ht) hkept
  cases he
  refine ⟨_, _, _, _, hc, hs, hn, hd, ho, hno, ?_⟩
  have : List.Forall₂ (fun (f : InputFieldDef) s => ∃ n a v, s = .annAssign n a v ∧ FieldParamOf c.env f.name n)
      t.fields (body'.filter isMember) := hf.imp fun _ _ ⟨n, a, v, hs, hp, _⟩ => ⟨n, a, v, hs, hp⟩
  clear hf
  generalize body'.filter isMember = ms at this hft
  generalize t.fields = fs at this hft
  induction hft with
  | nil => exact .nil
  | cons h1 _ ih =>
    cases this with
    | cons h2 h3 => exact .cons ⟨h2, h1⟩ (ih h3)

/-- interfaces extending each other, a one-of input, deprecations and a mutation -/
def markedSchema : Schema where
  types := [
    ("String", ⟨.scalar, none⟩), ("ID", ⟨.scalar, none⟩),
    ("Pick", ⟨.input [⟨"id", .named "ID", none, some "by id", none⟩, ⟨"name", .named "String", none, none, some "use id"⟩]
      [⟨"oneOf", []⟩], none⟩),
    ("Node", ⟨.interface [⟨"id", .nonNull (.named "ID"), [], none, none⟩] [], none⟩),
    ("Entity", ⟨.interface [⟨"id", .nonNull (.named "ID"), [], none, none⟩] ["Node"], none⟩),
    ("Item", ⟨.object [⟨"id", .nonNull (.named "ID"), [], some "key", some "use slug"⟩] ["Node", "Entity"], none⟩),
    ("Mutation", ⟨.object [⟨"touch", .named "Item", [⟨"pick", .named "Pick", none, none, none⟩], some "touches", none⟩] [], none⟩)]

/-- `@beta` on `Item` and `Item.id` -/
def markedDirectives : SchemaDirectives where
  onType n := if n == "Item" then [⟨"beta", []⟩] else []
  onField n f := if n == "Item" && f == "id" then [⟨"beta", []⟩] else []

/-- class, base classes, decorators of a module -/
def classHeads (ss : List Stmt) : List (String × List Expr × List Expr) :=
  ss.filterMap fun
    | .classDef n bs _ ds => some (n, bs, ds)
    | _ => none

example : ((stateAfter {} []).interfaceBaseclassMap) = [] := rfl

example : (strawberryPlugin { schema := markedSchema } {} markedDirectives (stateAfter {} [])).toOption.map
    (fun x => classHeads x.1) =
    some [
      ("Pick", [], [.call (.name "strawberry.input") [] [(some "one_of", .const (.bool true))]]),
      ("Node", [], [.name "strawberry.interface"]),
      ("Entity", [.name "Node"], [.name "strawberry.interface"]),
      ("Item", [.name "Entity"], [.call (.name "strawberry.type") [] [(some "directives", .list [.call (.name "beta") [] []])]]),
      ("Mutation", [], [.name "strawberry.type"])] := by decide +kernel

end Turms.Props
