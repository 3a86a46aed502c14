import Verif.Spec.ClassBases
import Verif.Props.ClassDocs
import Verif.Props.Strawberry

/-!
# C94: generated classes have the base classes they are configured to have
-/

namespace Turms.Props
open Turms Turms.Spec

theorem additionalBasesFor_is {c : Ctx} {t : String} {bs : List Expr} {r r' : Reg}
    (h : additionalBasesFor c t r = .ok (bs, r')) : bs = namedBases (extraBases c.config t) := by
  unfold additionalBasesFor at h
  unfold extraBases
  cases hg : c.config.additionalBases.get? t with
  | none => rw [hg] at h; obtain ⟨rfl, _⟩ := Gen.pure_ok.1 h; rfl
  | some l =>
    rw [hg] at h
    obtain ⟨_, _, _, h⟩ := Gen.bind_ok.1 h
    obtain ⟨rfl, _⟩ := Gen.pure_ok.1 h
    rfl

theorem orElse_ite (as bs : List String) : (if as.isEmpty then bs else as) = orElseBases as bs := by
  cases as <;> rfl

theorem basesOrObject_is {c : Ctx} {l : List String} {bs : List Expr} {r r' : Reg}
    (h : basesOrObject c l r = .ok (bs, r')) : bs = namedBases (orElseBases l c.config.objectBases) := by
  unfold basesOrObject at h
  rw [orElse_ite] at h
  obtain ⟨_, _, _, h⟩ := Gen.bind_ok.1 h
  obtain ⟨rfl, _⟩ := Gen.pure_ok.1 h
  rfl

theorem interfaceBasesOf_is {c : Ctx} {bs : List Expr} {r r' : Reg}
    (h : interfaceBasesOf c r = .ok (bs, r')) : bs = namedBases (interfaceBases c.config) := by
  unfold interfaceBasesOf at h
  rw [orElse_ite] at h
  obtain ⟨_, _, _, h⟩ := Gen.bind_ok.1 h
  obtain ⟨rfl, _⟩ := Gen.pure_ok.1 h
  rfl

theorem mem_with_bases {ss : List Stmt} {n : String} {bs bs' : List Expr} {body : List Stmt} {ds : List Expr}
    (h : .classDef n bs body ds ∈ ss) (he : bs' = bs) : .classDef n bs' body ds ∈ ss := he ▸ h

/-- C94 for operations: the class of an operation has exactly the bases configured for its kind, and its `Arguments`
class, there only if asked for, exactly those configured for arguments; where none are configured, the bases of all
objects. -/
theorem C94_operations (prep : List Char → List Char) (c : Ctx) (q : OperationsConfig) (doc : Document) (ss : List Stmt)
    (r r' : Reg) (h : operationsPlugin prep c q doc r = .ok (ss, r')) (o : OpDef) (ho : .operation o ∈ doc) :
    ∃ cls body, OperationClass c o cls ∧
      .classDef cls (namedBases (orElseBases (wantedBases q o.kind) c.config.objectBases)) body [] ∈ ss ∧
      (q.createArguments = true ↔ ∃ bs b ds, .classDef "Arguments" bs b ds ∈ body) ∧
      ∀ bs b ds, .classDef "Arguments" bs b ds ∈ body → bs = namedBases (orElseBases q.argumentsBases c.config.objectBases) := by
  have ho : o ∈ operationsOf doc := List.mem_filterMap.2 ⟨_, ho, rfl⟩
  obtain ⟨s, r1, r2, h, hm⟩ := generateOperations_mem h o ho
  unfold generateOperation at h
  cases hn : o.name with
  | none => rw [hn] at h; exact (Gen.fail_ok.1 h).elim
  | some n =>
  rw [hn] at h
  dsimp only at h
  obtain ⟨cls, r1, h1, h⟩ := Gen.bind_ok.1 h
  obtain ⟨_, hsty, rfl⟩ := generateClass_ok h1
  obtain ⟨bs, r2, h2, h⟩ := Gen.bind_ok.1 h
  obtain ⟨root, r3, h3, h⟩ := Gen.bind_ok.1 h
  obtain ⟨x, r4, h4, h⟩ := Gen.bind_ok.1 h
  obtain ⟨u, r5, h5, h⟩ := Gen.bind_ok.1 h
  obtain ⟨doc, r6, h6, h⟩ := Gen.bind_ok.1 h
  obtain ⟨args, r7, h7, h⟩ := Gen.bind_ok.1 h
  obtain ⟨rfl, rfl⟩ := Gen.pure_ok.1 h
  have hb : bs = namedBases (orElseBases (wantedBases q o.kind) c.config.objectBases) := by
    rw [basesOrObject_is h2]
    cases o.kind <;> rfl
  subst hb
  have hd := operationSels_documented h4
  have hin : ∀ bs b ds, Stmt.classDef "Arguments" bs b ds ∈ operationDoc q o :: (x.1.flatten ++ args ++ [operationMeta q n doc]) →
      Stmt.classDef "Arguments" bs b ds ∈ args := by
    intro bs b ds hx
    rcases List.mem_cons.1 hx with hx | hx
    · cases hx
    rcases List.mem_append.1 hx with hx | hx
    · rcases List.mem_append.1 hx with hx | hx
      · obtain ⟨l, hl, hx⟩ := List.mem_flatten.1 hx
        obtain ⟨s, _, hs⟩ := forall₂_mem_right hd hl
        obtain ⟨_, _, _, _, _, _, _, hs⟩ := hs
        exact (hs.noClass _ hx _ _ _ _ rfl).elim
      · exact hx
    · have hx := List.mem_singleton.1 hx
      unfold operationMeta at hx
      injection hx with hx
      exact absurd hx (by decide)
  refine ⟨cls, _, ⟨n, hn, hsty⟩, hm _ (List.mem_append_right _ (List.mem_singleton.2 rfl)), ?_⟩
  unfold argumentsClass at h7
  by_cases hq : q.createArguments = true
  · rw [if_pos hq] at h7
    obtain ⟨_, _, _, h7⟩ := Gen.bind_ok.1 h7
    obtain ⟨_, _, _, h7⟩ := Gen.bind_ok.1 h7
    obtain ⟨bs, _, hbs, h7⟩ := Gen.bind_ok.1 h7
    obtain ⟨rfl, _⟩ := Gen.pure_ok.1 h7
    refine ⟨⟨fun _ => ⟨_, _, _, List.mem_cons_of_mem _ (List.mem_append_left _ (List.mem_append_right _ List.mem_cons_self))⟩,
      fun _ => hq⟩, fun bs' b ds hx => ?_⟩
    have hx := List.mem_singleton.1 (hin _ _ _ hx)
    injection hx with _ hx
    rw [hx]
    exact basesOrObject_is hbs
  · rw [if_neg hq] at h7
    obtain ⟨rfl, _⟩ := Gen.pure_ok.1 h7
    exact ⟨⟨fun h => (hq h).elim, fun ⟨_, _, _, hx⟩ => by cases hin _ _ _ hx⟩, fun _ _ _ hx => by cases hin _ _ _ hx⟩

theorem generateFragment_reached {prep : List Char → List Char} {c : Ctx} {q : FragmentsConfig} {doc : Document}
    {ss : List Stmt} {r r' : Reg} (h : fragmentsPlugin prep c q doc r = .ok (ss, r')) {f : FragDef}
    (hf : lookup (fragmentsOf doc) f.name = some f) {e : TypeEntry}
    (ht : c.schema.types.get? f.typeCondition = some e) :
    ∃ cls s r1 r2, Kind.fragment.style c.env f.name = .ok cls ∧ fragmentBody prep c q f cls e r1 = .ok (s, r2) ∧
      ∀ st ∈ s, st ∈ ss := by
  unfold fragmentsPlugin at h
  obtain ⟨l, r1, h1, h⟩ := Gen.bind_ok.1 h
  obtain ⟨h1, rfl⟩ := Gen.lift_ok.1 h1
  obtain ⟨l', hl', _, hmem, _⟩ := C12_document_fragments doc
  rw [hl'] at h1
  cases h1
  obtain ⟨s, r1, r2, hs, hm⟩ := generateFragments_mem h f ((hmem f).2 ⟨_, hf⟩)
  unfold generateFragment at hs
  rw [ht] at hs
  dsimp only at hs
  obtain ⟨cls, r3, h3, hs⟩ := Gen.bind_ok.1 hs
  obtain ⟨_, hsty, rfl⟩ := generateClass_ok h3
  obtain ⟨_, _, _, hs⟩ := Gen.bind_ok.1 hs
  obtain ⟨_, _, _, hs⟩ := Gen.bind_ok.1 hs
  exact ⟨cls, s, _, _, hsty, hs, hm⟩

/-- C94 for fragments on objects: the classes of the fragments spread in it, the bases configured for its type, those of
fragments, those of fragments on objects and those of all objects, in this order. -/
theorem C94_object_fragments (prep : List Char → List Char) (c : Ctx) (q : FragmentsConfig) (doc : Document)
    (ss : List Stmt) (r r' : Reg) (h : fragmentsPlugin prep c q doc r = .ok (ss, r')) (f : FragDef)
    (hf : lookup (fragmentsOf doc) f.name = some f) (e : TypeEntry) (fs : List FieldDef) (is : List String)
    (ht : c.schema.types.get? f.typeCondition = some e) (he : e.defn = .object fs is) :
    ∃ cls early body, Kind.fragment.style c.env f.name = .ok cls ∧ AllNames early ∧
      .classDef cls (early ++ namedBases (extraBases c.config f.typeCondition ++ q.fragmentBases ++ q.objectBases ++
        c.config.objectBases)) body [] ∈ ss := by
  obtain ⟨cls, s, r1, r2, hsty, hs, hm⟩ := generateFragment_reached h hf ht
  obtain ⟨dfn, d⟩ := e
  dsimp only at he
  subst he
  unfold fragmentBody objectFragment at hs
  dsimp only at hs
  obtain ⟨extra, _, hex, hs⟩ := Gen.bind_ok.1 hs
  obtain ⟨tn, _, htn, hs⟩ := Gen.bind_ok.1 hs
  obtain ⟨p, _, hp, hs⟩ := Gen.bind_ok.1 hs
  obtain ⟨mt, _, hmt, hs⟩ := Gen.bind_ok.1 hs
  obtain ⟨fb, _, hfb, hs⟩ := Gen.bind_ok.1 hs
  obtain ⟨cfg, _, hcfg, hs⟩ := Gen.bind_ok.1 hs
  obtain ⟨rfl, rfl⟩ := Gen.pure_ok.1 hs
  have hfb : fb = namedBases q.fragmentBases ++ namedBases q.objectBases ++ namedBases c.config.objectBases := by
    unfold fragmentBasesOf at hfb
    obtain ⟨_, _, _, hfb⟩ := Gen.bind_ok.1 hfb
    obtain ⟨_, _, _, hfb⟩ := Gen.bind_ok.1 hfb
    obtain ⟨_, _, _, hfb⟩ := Gen.bind_ok.1 hfb
    obtain ⟨rfl, _⟩ := Gen.pure_ok.1 hfb
    rfl
  have hex := additionalBasesFor_is hex
  subst hfb hex
  refine ⟨cls, names p.bases.reverse, _, hsty, fun e he => ?_, mem_with_bases (hm _ (List.mem_append_right _ List.mem_cons_self)) ?_⟩
  · obtain ⟨n, _, rfl⟩ := List.mem_map.1 he
    exact ⟨n, rfl⟩
  · simp only [namedBases, List.map_append, List.append_assoc]

/-- C94 for fragments on interfaces: the base class has the bases configured for the interface and those of interfaces; the
class of an implementing type has the classes of the fragments spread for it, the base class, the bases configured for
the type and those of interfaces. -/
theorem C94_interface_fragments (prep : List Char → List Char) (c : Ctx) (q : FragmentsConfig) (doc : Document)
    (ss : List Stmt) (r r' : Reg) (h : fragmentsPlugin prep c q doc r = .ok (ss, r')) (f : FragDef)
    (hf : lookup (fragmentsOf doc) f.name = some f) (e : TypeEntry) (fs : List FieldDef) (is : List String)
    (ht : c.schema.types.get? f.typeCondition = some e) (he : e.defn = .interface fs is) :
    ∃ cls body, Kind.fragment.style c.env f.name = .ok cls ∧
      .classDef (cls ++ "Base") (namedBases (extraBases c.config f.typeCondition ++ interfaceBases c.config)) body [] ∈ ss ∧
      ∀ i ∈ implementations c.schema f.typeCondition, ∃ early body, AllNames early ∧
        .classDef (cls ++ i.name) (early ++ .name (cls ++ "Base") ::
          namedBases (extraBases c.config i.name ++ interfaceBases c.config)) body [] ∈ ss := by
  obtain ⟨cls, s, r1, r2, hsty, hs, hm⟩ := generateFragment_reached h hf ht
  obtain ⟨dfn, d⟩ := e
  dsimp only at he
  subst he
  unfold fragmentBody interfaceFragment at hs
  dsimp only at hs
  obtain ⟨extra, _, hex, hs⟩ := Gen.bind_ok.1 hs
  obtain ⟨p, _, hp, hs⟩ := Gen.bind_ok.1 hs
  obtain ⟨ib, _, hib, hs⟩ := Gen.bind_ok.1 hs
  obtain ⟨tn, _, _, hs⟩ := Gen.bind_ok.1 hs
  obtain ⟨impls, _, himpls, hs⟩ := Gen.bind_ok.1 hs
  obtain ⟨_, _, _, hs⟩ := Gen.bind_ok.1 hs
  obtain ⟨rfl, rfl⟩ := Gen.pure_ok.1 hs
  have hex := additionalBasesFor_is hex
  have hib := interfaceBasesOf_is hib
  subst hex hib
  refine ⟨cls, _, hsty, mem_with_bases (hm _ (List.mem_append_left _ (List.mem_append_right _ List.mem_cons_self))) ?_, fun i hi => ?_⟩
  · simp only [namedBases, List.map_append]
  have key : ∀ (l : List Implementation) (impls : List Stmt) (r r' : Reg),
      fragImplementingClasses c cls p l r = .ok (impls, r') → i ∈ l → ∃ early body, AllNames early ∧
        .classDef (cls ++ i.name) (early ++ .name (cls ++ "Base") ::
          namedBases (extraBases c.config i.name ++ interfaceBases c.config)) body [] ∈ impls := by
    intro l
    induction l with
    | nil => intro _ _ _ _ hi; cases hi
    | cons j l ih =>
      intro impls r r' h hi
      unfold fragImplementingClasses at h
      obtain ⟨s, _, hs, h⟩ := Gen.bind_ok.1 h
      obtain ⟨rest, _, hr, h⟩ := Gen.bind_ok.1 h
      obtain ⟨rfl, _⟩ := Gen.pure_ok.1 h
      rcases List.mem_cons.1 hi with rfl | hi
      · unfold fragImplementingClass at hs
        obtain ⟨_, _, h1, hs⟩ := Gen.bind_ok.1 hs
        obtain ⟨_, _, h2, hs⟩ := Gen.bind_ok.1 hs
        obtain ⟨_, _, _, hs⟩ := Gen.bind_ok.1 hs
        obtain ⟨rfl, _⟩ := Gen.pure_ok.1 hs
        have h1 := additionalBasesFor_is h1
        have h2 := interfaceBasesOf_is h2
        subst h1 h2
        refine ⟨names (p.basesFor i.name), _, fun e he => ?_, mem_with_bases List.mem_cons_self ?_⟩
        · obtain ⟨n, _, rfl⟩ := List.mem_map.1 he
          exact ⟨n, rfl⟩
        · simp [namedBases]
      · obtain ⟨early, body, h1, h2⟩ := ih _ _ _ hr hi
        exact ⟨early, body, h1, List.mem_cons_of_mem _ h2⟩
  obtain ⟨early, body, h1, h2⟩ := key _ _ _ _ himpls hi
  exact ⟨early, body, h1, hm _ (List.mem_append_right _ h2)⟩

/-- C94 for inputs: the bases configured for the type, then those of inputs. -/
theorem C94_inputs (c : Ctx) (p : InputsConfig) (ops : List Op) (ss : List Stmt) (r' : Reg)
    (hp : PlainConfig c.config) (hn : c.schema.types.keys.Nodup)
    (h : generateInputs c p (stateAfter c.env ops) = .ok (ss, r')) (t : InputType) (ht : InputOf c.schema t)
    (hk : IsMember p t ∨ Kept p t.name ∧ ¬ OneOf t.directives ∧ ∀ t', InputOf c.schema t' → ¬ MemberOf p t' t.name) :
    ∃ cls body, Kind.input.style c.env t.name = .ok cls ∧
      .classDef cls (namedBases (extraBases c.config t.name ++ p.bases)) body [] ∈ ss := by
  obtain ⟨_, hmc, _, hc, _⟩ := generateInputs_ok (styled_stateAfter _ _) hp hn h
  have key : ∀ (cls : String) ds (s : Stmt) (r1 r2 : Reg), generateInputType c p cls t.name t.description t.fields ds r1 = .ok (s, r2) →
      s ∈ ss → ∃ body, .classDef cls (namedBases (extraBases c.config t.name ++ p.bases)) body [] ∈ ss := by
    intro cls ds s r1 r2 hg hs
    unfold generateInputType at hg
    obtain ⟨_, _, h1, hg⟩ := Gen.bind_ok.1 hg
    obtain ⟨_, _, _, hg⟩ := Gen.bind_ok.1 hg
    obtain ⟨_, _, _, hg⟩ := Gen.bind_ok.1 hg
    obtain ⟨_, _, _, hg⟩ := Gen.bind_ok.1 hg
    obtain ⟨rfl, _⟩ := Gen.pure_ok.1 hg
    have h1 := additionalBasesFor_is h1
    subst h1
    rw [namedBases, List.map_append]
    exact ⟨_, hs⟩
  by_cases hm : IsMember p t
  · obtain ⟨s, hs, r1, r2, cls, ds, _, _, hcls, hg, _⟩ := hmc t ht hm
    exact ⟨cls, (key cls ds s r1 r2 hg hs).imp fun text h => ⟨hcls, h⟩⟩
  · obtain ⟨hk, ho, hu⟩ := hk.resolve_left hm
    obtain ⟨s, hs, r1, r2, cls, _, _, hcls, hg⟩ := hc t ht hm hk ho hu
    exact ⟨cls, (key cls [] s r1 r2 hg hs).imp fun text h => ⟨hcls, h⟩⟩

/-- C94 for fragments on unions: the class of a member has the classes of the fragments spread for it, then the bases of
fragments and those of all objects; the bases configured for the member are not used. -/
theorem C94_union_fragments (prep : List Char → List Char) (c : Ctx) (q : FragmentsConfig) (doc : Document)
    (ss : List Stmt) (r r' : Reg) (h : fragmentsPlugin prep c q doc r = .ok (ss, r')) (f : FragDef)
    (hf : lookup (fragmentsOf doc) f.name = some f) (e : TypeEntry) (ms : List String)
    (ht : c.schema.types.get? f.typeCondition = some e) (he : e.defn = .union ms) :
    ∃ cls, Kind.fragment.style c.env f.name = .ok cls ∧ ∀ m ∈ ms, ∃ early body, AllNames early ∧
      .classDef (cls ++ m) (early ++ namedBases (q.fragmentBases ++ c.config.objectBases)) body [] ∈ ss := by
  obtain ⟨cls, s, r1, r2, hsty, hs, hm⟩ := generateFragment_reached h hf ht
  obtain ⟨dfn, d⟩ := e
  dsimp only at he
  subst he
  unfold fragmentBody unionFragment at hs
  dsimp only at hs
  obtain ⟨_, _, _, hs⟩ := Gen.bind_ok.1 hs
  obtain ⟨q', _, _, hs⟩ := Gen.bind_ok.1 hs
  obtain ⟨members, _, hmem, hs⟩ := Gen.bind_ok.1 hs
  obtain ⟨_, _, _, hs⟩ := Gen.bind_ok.1 hs
  obtain ⟨_, _, _, hs⟩ := Gen.bind_ok.1 hs
  obtain ⟨rfl, rfl⟩ := Gen.pure_ok.1 hs
  refine ⟨cls, hsty, fun m hmm => ?_⟩
  have key : ∀ (l : List String) (ss : List Stmt) (r r' : Reg), fragMemberClasses c q cls q' l r = .ok (ss, r') → m ∈ l →
      ∃ early body, AllNames early ∧
        .classDef (cls ++ m) (early ++ namedBases (q.fragmentBases ++ c.config.objectBases)) body [] ∈ ss := by
    intro l
    induction l with
    | nil => intro _ _ _ _ hi; cases hi
    | cons j l ih =>
      intro ss r r' h hi
      unfold fragMemberClasses at h
      obtain ⟨s, _, hs, h⟩ := Gen.bind_ok.1 h
      obtain ⟨rest, _, hr, h⟩ := Gen.bind_ok.1 h
      obtain ⟨rfl, _⟩ := Gen.pure_ok.1 h
      rcases List.mem_cons.1 hi with rfl | hi
      · unfold fragMemberClass fragmentBasesOf at hs
        obtain ⟨_, _, hfb, hs⟩ := Gen.bind_ok.1 hs
        obtain ⟨_, _, _, hs⟩ := Gen.bind_ok.1 hs
        obtain ⟨rfl, _⟩ := Gen.pure_ok.1 hs
        obtain ⟨_, _, _, hfb⟩ := Gen.bind_ok.1 hfb
        obtain ⟨_, _, _, hfb⟩ := Gen.bind_ok.1 hfb
        obtain ⟨_, _, _, hfb⟩ := Gen.bind_ok.1 hfb
        obtain ⟨rfl, _⟩ := Gen.pure_ok.1 hfb
        refine ⟨names (q'.basesFor m), _, fun e he => ?_, mem_with_bases List.mem_cons_self ?_⟩
        · obtain ⟨n, _, rfl⟩ := List.mem_map.1 he
          exact ⟨n, rfl⟩
        · simp [namedBases, baseNames]
      · obtain ⟨early, body, h1, h2⟩ := ih _ _ _ hr hi
        exact ⟨early, body, h1, List.mem_cons_of_mem _ h2⟩
  obtain ⟨early, body, h1, h2⟩ := key _ _ _ _ hmem hmm
  exact ⟨early, body, h1, hm _ (List.mem_append_left _ (List.mem_append_left _ (List.mem_append_right _ h2)))⟩

theorem objectSels_bases {c : Ctx} {t : String} {fs : List FieldDef} {cls : String} :
    ∀ {sub : List Sel} {p : ObjectParts} {r r' : Reg}, objectSels c t fs cls sub r = .ok (p, r') →
      (p.bases = [] ↔ ∀ x ∈ sub, ∀ f, x ≠ .spread f) := by
  intro sub
  induction sub with
  | nil =>
    intro p r r' h
    rw [objectSels] at h
    obtain ⟨rfl, _⟩ := Gen.pure_ok.1 h
    exact ⟨fun _ _ h => absurd h List.not_mem_nil, fun _ => rfl⟩
  | cons x l ih =>
    intro p r r' h
    rw [objectSels] at h
    obtain ⟨a, _, ha, h⟩ := Gen.bind_ok.1 h
    obtain ⟨q, _, hq, h⟩ := Gen.bind_ok.1 h
    obtain ⟨rfl, _⟩ := Gen.pure_ok.1 h
    have ha : a.bases = [] ↔ ∀ f, x ≠ .spread f := by
      cases x with
      | spread f =>
        rw [objectSel] at ha
        obtain ⟨b, _, _, ha⟩ := Gen.bind_ok.1 ha
        obtain ⟨rfl, _⟩ := Gen.pure_ok.1 ha
        exact ⟨(fun h => by cases h), fun h => (h f rfl).elim⟩
      | inline t s => rw [objectSel] at ha; exact (Gen.fail_ok.1 ha).elim
      | field n al args s =>
        refine ⟨fun _ _ => by simp, fun _ => ?_⟩
        rw [objectSel] at ha
        by_cases hn : (n == "__typename") = true
        · rw [if_pos hn] at ha
          obtain ⟨rfl, _⟩ := Gen.pure_ok.1 ha
          rfl
        · rw [if_neg hn] at ha
          obtain ⟨_, _, _, ha⟩ := Gen.bind_ok.1 ha
          obtain ⟨_, _, _, ha⟩ := Gen.bind_ok.1 ha
          obtain ⟨rfl, _⟩ := Gen.pure_ok.1 ha
          rfl
    rw [show (a.append q).bases = a.bases ++ q.bases from rfl, List.append_eq_nil_iff, ha, ih hq]
    simp

/-- C94 for selections at any depth: the class made for a selection set on an object has the classes of the fragments
spread in it (if there are none, the bases configured for its type) and the bases of all objects; for an interface, the
base class and the classes of the implementing types are as for fragments. -/
theorem C94_selections (c : Ctx) (parent name : String) (fd : FieldDef) (al : Option String) (sub : List Sel)
    (x : List Stmt × List Stmt) (r r' : Reg) (h : typeFieldNode c parent fd name al sub r = .ok (x, r')) (e : TypeEntry)
    (ht : c.schema.types.get? fd.type.base = some e) :
    (∀ fs is, e.defn = .object fs is → (∀ f, nonTypenameFields sub ≠ [.spread f]) →
      ∃ bs body, .classDef (parent ++ pyCapitalize (al.getD name)) bs body [] ∈ x.2 ∧
        SelectionBases c.config fd.type.base sub bs) ∧
    (∀ fs is, e.defn = .interface fs is →
      (∃ body, .classDef (parent ++ pyCapitalize (al.getD name) ++ "Base")
        (namedBases (extraBases c.config fd.type.base ++ interfaceBases c.config)) body [] ∈ x.2) ∧
      ∀ i ∈ implementations c.schema fd.type.base, ∃ early body, AllNames early ∧
        .classDef (parent ++ pyCapitalize (al.getD name) ++ "Base" ++ i.name)
          (early ++ .name (parent ++ pyCapitalize (al.getD name) ++ "Base") ::
            namedBases (extraBases c.config i.name ++ interfaceBases c.config)) body [] ∈ x.2) := by
  unfold typeFieldNode typeField at h
  obtain ⟨_, _, _, h⟩ := Gen.bind_ok.1 h
  obtain ⟨y, _, hy, h⟩ := Gen.bind_ok.1 h
  obtain ⟨_, _, _, h⟩ := Gen.bind_ok.1 h
  obtain ⟨rfl, _⟩ := Gen.pure_ok.1 h
  obtain ⟨b, z, r1, r2, hz, he⟩ := wrapOutput_classes _ hy
  dsimp only
  rw [he]
  unfold recurseNamed namedNode at hz
  rw [ht] at hz
  obtain ⟨dfn, d⟩ := e
  refine ⟨?_, ?_⟩
  · rintro fs is rfl hsub
    dsimp only at hz
    unfold objectNode at hz
    obtain ⟨tn, _, _, hz⟩ := Gen.bind_ok.1 hz
    obtain ⟨q, s0, s1, s2, hw, hq⟩ : ∃ q s0 s1 s2,
        objectSels c fd.type.base fs (parent ++ pyCapitalize (al.getD name)) sub s0 = .ok (q, s1) ∧
        finishObject c (parent ++ pyCapitalize (al.getD name)) fd.type.base d tn q b s1 = .ok (z, s2) := by
      generalize nonTypenameFields sub = l at hz hsub
      match l, hz, hsub with
      | [.spread g], _, hsub => exact (hsub g rfl).elim
      | [], hz, _ => obtain ⟨q, s1, hw, hz⟩ := Gen.bind_ok.1 hz; exact ⟨q, _, s1, _, hw, hz⟩
      | [.field ..], hz, _ => obtain ⟨q, s1, hw, hz⟩ := Gen.bind_ok.1 hz; exact ⟨q, _, s1, _, hw, hz⟩
      | [.inline ..], hz, _ => obtain ⟨q, s1, hw, hz⟩ := Gen.bind_ok.1 hz; exact ⟨q, _, s1, _, hw, hz⟩
      | u :: _ :: _, hz, _ =>
        cases u <;> · obtain ⟨q, s1, hw, hz⟩ := Gen.bind_ok.1 hz; exact ⟨q, _, s1, _, hw, hz⟩
    have hbases := objectSels_bases hw
    unfold finishObject at hq
    obtain ⟨bs, _, hbs, hq⟩ := Gen.bind_ok.1 hq
    obtain ⟨_, _, _, hq⟩ := Gen.bind_ok.1 hq
    obtain ⟨_, _, _, hq⟩ := Gen.bind_ok.1 hq
    obtain ⟨rfl, _⟩ := Gen.pure_ok.1 hq
    refine ⟨_, _, List.mem_append_right _ List.mem_cons_self, bs, rfl, fun hn => ?_, fun hs => ?_⟩
    · unfold spreadOrAdditional at hbs
      rw [hbases.2 hn, if_pos (show ([] : List String).isEmpty = true from rfl)] at hbs
      exact additionalBasesFor_is hbs
    · obtain ⟨f, hf⟩ := hs
      have hne : q.bases ≠ [] := fun h0 => hbases.1 h0 _ hf f rfl
      unfold spreadOrAdditional at hbs
      rw [if_neg (by rwa [List.isEmpty_iff])] at hbs
      obtain ⟨rfl, _⟩ := Gen.pure_ok.1 hbs
      refine ⟨fun e he => ?_, fun h0 => hne (List.map_eq_nil_iff.1 h0)⟩
      obtain ⟨n, _, rfl⟩ := List.mem_map.1 he
      exact ⟨n, rfl⟩
  · rintro fs is rfl
    dsimp only at hz
    unfold interfaceNode at hz
    obtain ⟨q, _, _, hz⟩ := Gen.bind_ok.1 hz
    obtain ⟨_, _, hex, hz⟩ := Gen.bind_ok.1 hz
    obtain ⟨_, _, hib, hz⟩ := Gen.bind_ok.1 hz
    obtain ⟨_, _, _, hz⟩ := Gen.bind_ok.1 hz
    obtain ⟨impls, _, himpls, hz⟩ := Gen.bind_ok.1 hz
    obtain ⟨_, _, _, hz⟩ := Gen.bind_ok.1 hz
    obtain ⟨_, _, _, hz⟩ := Gen.bind_ok.1 hz
    obtain ⟨_, _, _, hz⟩ := Gen.bind_ok.1 hz
    obtain ⟨_, _, _, hz⟩ := Gen.bind_ok.1 hz
    obtain ⟨rfl, _⟩ := Gen.pure_ok.1 hz
    have hex := additionalBasesFor_is hex
    have hib := interfaceBasesOf_is hib
    subst hex hib
    refine ⟨⟨_, mem_with_bases (List.mem_append_right _ List.mem_cons_self) (by simp [namedBases])⟩, fun i hi => ?_⟩
    have key : ∀ (l : List Implementation) (impls : List Stmt) (r r' : Reg) (cls : String),
        implementingClasses c cls q l r = .ok (impls, r') → i ∈ l → ∃ early body, AllNames early ∧
          .classDef (cls ++ i.name) (early ++ .name cls ::
            namedBases (extraBases c.config i.name ++ interfaceBases c.config)) body [] ∈ impls := by
      intro l
      induction l with
      | nil => intro _ _ _ _ _ hi; cases hi
      | cons j l ih =>
        intro impls r r' cls h hi
        unfold implementingClasses at h
        obtain ⟨s, _, hs, h⟩ := Gen.bind_ok.1 h
        obtain ⟨rest, _, hr, h⟩ := Gen.bind_ok.1 h
        obtain ⟨rfl, _⟩ := Gen.pure_ok.1 h
        rcases List.mem_cons.1 hi with rfl | hi
        · unfold implementingClass at hs
          obtain ⟨_, _, h1, hs⟩ := Gen.bind_ok.1 hs
          obtain ⟨_, _, h2, hs⟩ := Gen.bind_ok.1 hs
          obtain ⟨_, _, _, hs⟩ := Gen.bind_ok.1 hs
          obtain ⟨rfl, _⟩ := Gen.pure_ok.1 hs
          have h1 := additionalBasesFor_is h1
          have h2 := interfaceBasesOf_is h2
          subst h1 h2
          refine ⟨names (q.basesFor i.name), _, fun e he => ?_, mem_with_bases List.mem_cons_self (by simp [namedBases])⟩
          obtain ⟨n, _, rfl⟩ := List.mem_map.1 he
          exact ⟨n, rfl⟩
        · obtain ⟨early, body, h1, h2⟩ := ih _ _ _ _ hr hi
          exact ⟨early, body, h1, List.mem_cons_of_mem _ h2⟩
    obtain ⟨early, body, h1, h2⟩ := key _ _ _ _ _ himpls hi
    exact ⟨early, body, h1, List.mem_append_right _ (List.mem_cons_of_mem _ (List.mem_append_left _ h2))⟩

theorem interfaceLoop_names {c : Ctx} {cls : String} {all : List String} : ∀ {l : List String} {m m' : Dict (List String)}
    {bs : List Expr} {r r' : Reg}, interfaceLoop c cls all l m r = .ok ((bs, m'), r') → AllNames bs := by
  intro l
  induction l with
  | nil =>
    intro m m' bs r r' h
    obtain ⟨h, _⟩ := Gen.pure_ok.1 h
    cases h
    intro e he
    cases he
  | cons i l ih =>
    intro m m' bs r r' h
    unfold interfaceLoop at h
    dsimp only at h
    by_cases hx : (!extendedByOthers c.schema i (all.filter (· != i))) = true
    · rw [if_pos hx] at h
      obtain ⟨b, _, _, h⟩ := Gen.bind_ok.1 h
      obtain ⟨⟨bs', m''⟩, _, hl, h⟩ := Gen.bind_ok.1 h
      obtain ⟨h, _⟩ := Gen.pure_ok.1 h
      cases h
      intro e he
      rcases List.mem_cons.1 he with rfl | he
      · exact ⟨_, rfl⟩
      · exact ih hl e he
    · rw [if_neg hx] at h
      exact ih h

/-- C94 for object models: the bases configured for the type, the classes of its interfaces, then those of objects. -/
theorem C94_objects (c : Ctx) (p : ObjectsConfig) (ss : List Stmt) (r r' : Reg)
    (h : generateTypes c p r = .ok (ss, r')) (t : CompositeType) (ht : CompositeOf c.schema t) (hk : KeptObject p t.name) :
    ∃ cls mid body, CompositeClass c.env t cls ∧ AllNames mid ∧ (t.interfaces = [] → mid = []) ∧
      .classDef cls (namedBases (extraBases c.config t.name) ++ mid ++ namedBases p.bases) body [] ∈ ss := by
  unfold generateTypes at h
  obtain ⟨_, _, _, h⟩ := Gen.bind_ok.1 h
  obtain ⟨acc, _, hacc, h⟩ := Gen.bind_ok.1 h
  obtain ⟨_, _, _, h⟩ := Gen.bind_ok.1 h
  have hss : ∀ s ∈ acc.tree, s ∈ ss := by
    split at h
    · exact (Gen.fail_ok.1 h).elim
    · obtain ⟨rfl, _⟩ := Gen.pure_ok.1 h
      intro s hs
      exact List.mem_append_left _ (List.mem_append_left _ hs)
  have hstep : ∀ (t' : CompositeType) (a a' : ObjAcc) (r r' : Reg), objectStep c p t' a r = .ok (a', r') →
      (∀ s ∈ a.tree, s ∈ a'.tree) ∧ (KeptObject p t'.name → ∃ cls mid body, CompositeClass c.env t' cls ∧ AllNames mid ∧
        (t'.interfaces = [] → mid = []) ∧
        .classDef cls (namedBases (extraBases c.config t'.name) ++ mid ++ namedBases p.bases) body [] ∈ a'.tree) := by
    intro t' a a' r r' h
    unfold objectStep at h
    obtain ⟨extra, _, hex, h⟩ := Gen.bind_ok.1 h
    have hex := additionalBasesFor_is hex
    subst hex
    by_cases h1 : (p.skipUnderscore && underscored t'.name) = true
    · rw [if_pos h1] at h
      obtain ⟨rfl, _⟩ := Gen.pure_ok.1 h
      refine ⟨fun _ h => h, fun hk => ?_⟩
      rw [← keptObject_iff, h1] at hk
      cases hk
    rw [if_neg h1] at h
    by_cases h2 : (p.skipDoubleUnderscore && doubleUnderscored t'.name) = true
    · rw [if_pos h2] at h
      obtain ⟨rfl, _⟩ := Gen.pure_ok.1 h
      refine ⟨fun _ h => h, fun hk => ?_⟩
      rw [← keptObject_iff, h2, Bool.or_true] at hk
      cases hk
    rw [if_neg h2] at h
    obtain ⟨cls, _, hcls, h⟩ := Gen.bind_ok.1 h
    dsimp only at h
    obtain ⟨⟨bs, im⟩, _, hil, h⟩ := Gen.bind_ok.1 h
    dsimp only at h
    obtain ⟨fs, _, hfs, h⟩ := Gen.bind_ok.1 h
    obtain ⟨cfg, _, _, h⟩ := Gen.bind_ok.1 h
    obtain ⟨rfl, _⟩ := Gen.pure_ok.1 h
    refine ⟨fun s hs => List.mem_append_left _ hs, fun _ => ?_⟩
    have hcc : CompositeClass c.env t' cls := by
      unfold generateComposite at hcls
      cases hi : t'.isInterface with
      | false =>
        rw [hi, if_neg (by simp)] at hcls
        obtain ⟨_, hst, _⟩ := generateClass_ok hcls
        exact ⟨cls, hst, by simp [hi]⟩
      | true =>
        rw [hi, if_pos rfl] at hcls
        unfold generateInterface at hcls
        split at hcls
        · cases hcls
        · unfold styleInterface at hcls
          cases hst : styled c.env.stylers Styler.objectName t'.name with
          | error e => rw [hst] at hcls; cases hcls
          | ok n =>
            rw [hst] at hcls
            cases hcls
            exact ⟨n, hst, by simp [hi]⟩
    refine ⟨cls, bs, _, hcc, interfaceLoop_names hil, fun h0 => ?_, List.mem_append_right _ List.mem_cons_self⟩
    rw [h0] at hil
    obtain ⟨hil, _⟩ := Gen.pure_ok.1 hil
    cases hil
    rfl
  have hloop : ∀ (l : List CompositeType) (a a' : ObjAcc) (r r' : Reg), objectLoop c p l a r = .ok (a', r') →
      (∀ s ∈ a.tree, s ∈ a'.tree) ∧ ∀ t' ∈ l, KeptObject p t'.name → ∃ cls mid body, CompositeClass c.env t' cls ∧
        AllNames mid ∧ (t'.interfaces = [] → mid = []) ∧
        .classDef cls (namedBases (extraBases c.config t'.name) ++ mid ++ namedBases p.bases) body [] ∈ a'.tree := by
    intro l
    induction l with
    | nil =>
      intro a a' r r' h
      obtain ⟨rfl, _⟩ := Gen.pure_ok.1 h
      exact ⟨fun _ h => h, fun _ h => by cases h⟩
    | cons u l ih =>
      intro a a' r r' h
      unfold objectLoop at h
      obtain ⟨a1, _, h1, h⟩ := Gen.bind_ok.1 h
      obtain ⟨s1, k1⟩ := hstep _ _ _ _ _ h1
      obtain ⟨s2, k2⟩ := ih _ _ _ _ h
      refine ⟨fun s hs => s2 s (s1 s hs), fun t' ht' hk' => ?_⟩
      rcases List.mem_cons.1 ht' with rfl | ht'
      · obtain ⟨cls, mid, body, q1, q2, q3, q4⟩ := k1 hk'
        exact ⟨cls, mid, body, q1, q2, q3, s2 _ q4⟩
      · exact k2 _ ht' hk'
  obtain ⟨cls, mid, body, q1, q2, q3, q4⟩ := (hloop _ _ _ _ _ hacc).2 t (mem_sortedComposites.2 ht) hk
  exact ⟨cls, mid, body, q1, q2, q3, hss _ q4⟩

theorem strawberryInputs_mem {c : Ctx} {p : StrawberryConfig} {sd : SchemaDirectives} : ∀ {l : List InputType} {ss : List Stmt}
    {r r' : Reg}, strawberryInputs c p sd l r = .ok (ss, r') → ∀ t ∈ l, ∃ s r1 r2,
      strawberryInput c p sd t r1 = .ok (s, r2) ∧ ∀ x ∈ s, x ∈ ss := by
  intro l
  induction l with
  | nil => intro _ _ _ _ t ht; cases ht
  | cons u l ih =>
    intro ss r r' h t ht
    unfold strawberryInputs at h
    obtain ⟨s, _, hs, h⟩ := Gen.bind_ok.1 h
    obtain ⟨rest, _, hr, h⟩ := Gen.bind_ok.1 h
    obtain ⟨rfl, _⟩ := Gen.pure_ok.1 h
    rcases List.mem_cons.1 ht with rfl | ht
    · exact ⟨s, _, _, hs, fun x hx => List.mem_append_left _ hx⟩
    · obtain ⟨s', r1, r2, h1, h2⟩ := ih hr t ht
      exact ⟨s', r1, r2, h1, fun x hx => List.mem_append_right _ (h2 x hx)⟩

theorem strawberryTypeLoop_mem {c : Ctx} {p : StrawberryConfig} {sd : SchemaDirectives} : ∀ {l : List CompositeType}
    {ss : List Stmt} {r r' : Reg}, strawberryTypeLoop c p sd l r = .ok (ss, r') → ∀ t ∈ l, ∃ s r1 r2,
      strawberryType c p sd t r1 = .ok (s, r2) ∧ ∀ x ∈ s, x ∈ ss := by
  intro l
  induction l with
  | nil => intro _ _ _ _ t ht; cases ht
  | cons u l ih =>
    intro ss r r' h t ht
    unfold strawberryTypeLoop at h
    obtain ⟨s, _, hs, h⟩ := Gen.bind_ok.1 h
    obtain ⟨rest, _, hr, h⟩ := Gen.bind_ok.1 h
    obtain ⟨rfl, _⟩ := Gen.pure_ok.1 h
    rcases List.mem_cons.1 ht with rfl | ht
    · exact ⟨s, _, _, hs, fun x hx => List.mem_append_left _ hx⟩
    · obtain ⟨s', r1, r2, h1, h2⟩ := ih hr t ht
      exact ⟨s', r1, r2, h1, fun x hx => List.mem_append_right _ (h2 x hx)⟩

theorem strawberryBases_names {c : Ctx} {all : List String} : ∀ {l : List String} {bs : List Expr} {r r' : Reg},
    strawberryBases c all l r = .ok (bs, r') → AllNames bs := by
  intro l
  induction l with
  | nil =>
    intro bs r r' h
    obtain ⟨rfl, _⟩ := Gen.pure_ok.1 h
    intro e he
    cases he
  | cons i l ih =>
    intro bs r r' h
    unfold strawberryBases at h
    by_cases hx : (!extendedByOthers c.schema i (all.filter (· != i))) = true
    · rw [if_pos hx] at h
      obtain ⟨b, _, _, h⟩ := Gen.bind_ok.1 h
      obtain ⟨bs', _, hl, h⟩ := Gen.bind_ok.1 h
      obtain ⟨rfl, _⟩ := Gen.pure_ok.1 h
      intro e he
      rcases List.mem_cons.1 he with rfl | he
      · exact ⟨_, rfl⟩
      · exact ih hl e he
    · rw [if_neg hx] at h
      exact ih h

/-- C94 for strawberry: the class of an input has the bases configured for the type and those of inputs, that of an
object or interface the bases configured for the type and the classes of its interfaces. -/
theorem C94_strawberry (c : Ctx) (p : StrawberryConfig) (sd : SchemaDirectives) (ss : List Stmt) (r r' : Reg)
    (h : strawberryPlugin c p sd r = .ok (ss, r')) :
    (p.generateInputs = true → ∀ t, InputOf c.schema t → ¬ (p.skipUnderscore = true ∧ t.name.toList.head? = some '_') →
      ∃ cls body ds, Kind.input.style c.env t.name = .ok cls ∧
        .classDef cls (namedBases (extraBases c.config t.name ++ p.inputtypeBases)) body ds ∈ ss) ∧
    (p.generateTypes = true → ∀ t, CompositeOf c.schema t → KeptType p t.name →
      ∃ cls mid body ds, AllNames mid ∧ (t.interfaces = [] → mid = []) ∧
        .classDef cls (namedBases (extraBases c.config t.name) ++ mid) body ds ∈ ss) := by
  unfold strawberryPlugin at h
  obtain ⟨_, _, _, h⟩ := Gen.bind_ok.1 h
  obtain ⟨_, _, _, h⟩ := Gen.bind_ok.1 h
  obtain ⟨_, _, _, h⟩ := Gen.bind_ok.1 h
  obtain ⟨_, _, _, h⟩ := Gen.bind_ok.1 h
  obtain ⟨is, _, his, h⟩ := Gen.bind_ok.1 h
  obtain ⟨ts, _, hts, h⟩ := Gen.bind_ok.1 h
  obtain ⟨rfl, _⟩ := Gen.pure_ok.1 h
  refine ⟨fun hg t ht hk => ?_, fun hg t ht hk => ?_⟩
  · unfold whenEnabled at his
    rw [if_pos hg] at his
    obtain ⟨s, r1, r2, hs, hm⟩ := strawberryInputs_mem his t (mem_inputTypes.2 ht)
    unfold strawberryInput at hs
    rw [if_neg (by simpa [underscored] using hk)] at hs
    obtain ⟨_, _, _, hs⟩ := Gen.bind_ok.1 hs
    obtain ⟨_, _, hex, hs⟩ := Gen.bind_ok.1 hs
    obtain ⟨cls, _, hcls, hs⟩ := Gen.bind_ok.1 hs
    obtain ⟨_, _, _, hs⟩ := Gen.bind_ok.1 hs
    obtain ⟨_, _, _, hs⟩ := Gen.bind_ok.1 hs
    obtain ⟨rfl, _⟩ := Gen.pure_ok.1 hs
    have hex := additionalBasesFor_is hex
    subst hex
    obtain ⟨_, hsty, _⟩ := generateClass_ok hcls
    refine ⟨cls, _, _, hsty, mem_with_bases
      (List.mem_append_left _ (List.mem_append_right _ (hm _ List.mem_cons_self))) ?_⟩
    simp [namedBases, baseNames]
  · unfold whenEnabled at hts
    rw [if_pos hg] at hts
    unfold strawberryTypes at hts
    obtain ⟨_, _, _, hts⟩ := Gen.bind_ok.1 hts
    obtain ⟨s, r1, r2, hs, hm⟩ := strawberryTypeLoop_mem hts t (mem_sortedComposites.2 ht)
    unfold strawberryType at hs
    obtain ⟨_, _, hex, hs⟩ := Gen.bind_ok.1 hs
    have hkk := keptSb_iff.2 hk
    by_cases h1 : (p.skipUnderscore && underscored t.name) = true
    · simp [keptSb, h1] at hkk
    by_cases h2 : (p.skipDoubleUnderscore && doubleUnderscored t.name) = true
    · simp [keptSb, h2] at hkk
    rw [if_neg h1, if_neg h2] at hs
    obtain ⟨_, _, _, hs⟩ := Gen.bind_ok.1 hs
    obtain ⟨cls, _, _, hs⟩ := Gen.bind_ok.1 hs
    obtain ⟨bs, _, hbs, hs⟩ := Gen.bind_ok.1 hs
    obtain ⟨_, _, _, hs⟩ := Gen.bind_ok.1 hs
    obtain ⟨_, _, _, hs⟩ := Gen.bind_ok.1 hs
    obtain ⟨rfl, _⟩ := Gen.pure_ok.1 hs
    have hex := additionalBasesFor_is hex
    subst hex
    refine ⟨cls, bs, _, _, strawberryBases_names hbs, fun h0 => ?_,
      List.mem_append_right _ (hm _ List.mem_cons_self)⟩
    rw [h0] at hbs
    obtain ⟨rfl, _⟩ := Gen.pure_ok.1 hbs
    rfl

/-- C94 for `@oneOf` inputs: every wrapper class has the bases configured for the input, then those of inputs; its
docstring is the description of its field, or says which variant it is. -/
theorem C94_oneof_wrappers (c : Ctx) (p : InputsConfig) (ops : List Op) (ss : List Stmt) (r' : Reg)
    (hp : PlainConfig c.config) (hn : c.schema.types.keys.Nodup)
    (h : generateInputs c p (stateAfter c.env ops) = .ok (ss, r')) (t : InputType) (ht : InputOf c.schema t)
    (hk : Kept p t.name) (hm : ¬ IsMember p t) (ho : OneOf t.directives) (hd : ¬ DirectUnion c p t) (f : InputFieldDef)
    (hf : f ∈ t.fields) :
    ∃ cls text body, Kind.input.style c.env (t.name ++ upperFirst f.name) = .ok cls ∧
      .classDef cls (namedBases (extraBases c.config t.name ++ p.bases)) (.expr (.str text) :: body) [] ∈ ss ∧
      Shown ("'" ++ f.name ++ "' variant of the @oneOf input '" ++ t.name ++ "'") f.description text := by
  obtain ⟨_, _, _, _, _, hw, _⟩ := generateInputs_ok (styled_stateAfter _ _) hp hn h
  obtain ⟨r1, r2, ws, _, _, hg, hin⟩ := hw t ht hm hk ho hd
  unfold generateOneofWrapperInput at hg
  obtain ⟨extra, _, hex, hg⟩ := Gen.bind_ok.1 hg
  obtain ⟨ws, _, hws, hg⟩ := Gen.bind_ok.1 hg
  obtain ⟨_, _, _, hg⟩ := Gen.bind_ok.1 hg
  obtain ⟨_, _, _, hg⟩ := Gen.bind_ok.1 hg
  obtain ⟨rfl, _⟩ := Gen.pure_ok.1 hg
  have hex := additionalBasesFor_is hex
  subst hex
  have key : ∀ (l : List InputFieldDef) (ws : List (String × Stmt)) (r r' : Reg),
      oneofWrappers c p t.name (namedBases (extraBases c.config t.name)) l r = .ok (ws, r') → f ∈ l →
      ∃ cls text body, Kind.input.style c.env (t.name ++ upperFirst f.name) = .ok cls ∧
        .classDef cls (namedBases (extraBases c.config t.name ++ p.bases)) (.expr (.str text) :: body) [] ∈ ws.map (·.2) ∧
        Shown ("'" ++ f.name ++ "' variant of the @oneOf input '" ++ t.name ++ "'") f.description text := by
    intro l
    induction l with
    | nil => intro _ _ _ _ hf; cases hf
    | cons g l ih =>
      intro ws r r' h hf
      unfold oneofWrappers at h
      obtain ⟨w, _, hw, h⟩ := Gen.bind_ok.1 h
      obtain ⟨rest, _, hr, h⟩ := Gen.bind_ok.1 h
      obtain ⟨rfl, _⟩ := Gen.pure_ok.1 h
      rcases List.mem_cons.1 hf with rfl | hf
      · unfold oneofWrapper at hw
        cases hc : generateClass c.env .input (t.name ++ pascal f.name) r with
        | error e => rw [hc] at hw; cases e <;> cases hw
        | ok q =>
          obtain ⟨cls, r0⟩ := q
          rw [hc] at hw
          dsimp only at hw
          obtain ⟨_, _, _, hw⟩ := Gen.bind_ok.1 hw
          obtain ⟨_, _, _, hw⟩ := Gen.bind_ok.1 hw
          obtain ⟨_, _, _, hw⟩ := Gen.bind_ok.1 hw
          obtain ⟨_, _, _, hw⟩ := Gen.bind_ok.1 hw
          obtain ⟨_, _, _, hw⟩ := Gen.bind_ok.1 hw
          obtain ⟨rfl, _⟩ := Gen.pure_ok.1 hw
          obtain ⟨_, hsty, _⟩ := generateClass_ok hc
          rw [show pascal f.name = upperFirst f.name from rfl] at hsty
          exact ⟨cls, _, _, hsty, mem_with_bases List.mem_cons_self (by simp [namedBases, baseNames]), shown_doc _ _⟩
      · obtain ⟨cls, text, body, h1, h2, h3⟩ := ih _ _ _ hr hf
        exact ⟨cls, text, body, h1, List.mem_cons_of_mem _ h2, h3⟩
  obtain ⟨cls, text, body, h1, h2, h3⟩ := key _ _ _ _ hws hf
  exact ⟨cls, text, body, h1, hin _ (List.mem_append_left _ h2), h3⟩

theorem unionInlineSels_bases {c : Ctx} {t : String} {cls : String} :
    ∀ {sub : List Sel} {p : ObjectParts} {r r' : Reg}, unionInlineSels c t cls sub r = .ok (p, r') →
      (p.bases = [] ↔ ∀ x ∈ sub, ∀ f, x ≠ .spread f) := by
  intro sub
  induction sub with
  | nil =>
    intro p r r' h
    rw [unionInlineSels] at h
    obtain ⟨rfl, _⟩ := Gen.pure_ok.1 h
    exact ⟨fun _ _ h => absurd h List.not_mem_nil, fun _ => rfl⟩
  | cons x l ih =>
    intro p r r' h
    rw [unionInlineSels] at h
    obtain ⟨a, _, ha, h⟩ := Gen.bind_ok.1 h
    obtain ⟨q, _, hq, h⟩ := Gen.bind_ok.1 h
    obtain ⟨rfl, _⟩ := Gen.pure_ok.1 h
    have ha : a.bases = [] ↔ ∀ f, x ≠ .spread f := by
      cases x with
      | spread f =>
        rw [unionInlineSel] at ha
        obtain ⟨b, _, _, ha⟩ := Gen.bind_ok.1 ha
        obtain ⟨rfl, _⟩ := Gen.pure_ok.1 ha
        exact ⟨(fun h => by cases h), fun h => (h f rfl).elim⟩
      | inline t s =>
        rw [unionInlineSel] at ha
        obtain ⟨rfl, _⟩ := Gen.pure_ok.1 ha
        exact ⟨fun _ _ => by simp, fun _ => rfl⟩
      | field n al args s =>
        refine ⟨fun _ _ => by simp, fun _ => ?_⟩
        rw [unionInlineSel] at ha
        by_cases hn : (n == "__typename") = true
        · rw [if_pos hn] at ha
          obtain ⟨rfl, _⟩ := Gen.pure_ok.1 ha
          rfl
        · rw [if_neg hn] at ha
          obtain ⟨_, _, _, ha⟩ := Gen.bind_ok.1 ha
          obtain ⟨_, _, _, ha⟩ := Gen.bind_ok.1 ha
          obtain ⟨rfl, _⟩ := Gen.pure_ok.1 ha
          rfl
    rw [show (a.append q).bases = a.bases ++ q.bases from rfl, List.append_eq_nil_iff, ha, ih hq]
    simp

/-- C94 for selections on unions: the class of every inline fragment is like that of a selection on the object it names. -/
theorem C94_union_selections (c : Ctx) (parent name : String) (fd : FieldDef) (al : Option String) (sub : List Sel)
    (x : List Stmt × List Stmt) (r r' : Reg) (h : typeFieldNode c parent fd name al sub r = .ok (x, r')) (e : TypeEntry)
    (ht : c.schema.types.get? fd.type.base = some e) (ms : List String) (he : e.defn = .union ms) (t : String)
    (s : List Sel) (hs : .inline (some t) s ∈ sub) :
    ∃ bs body, .classDef (parent ++ t ++ "InlineFragment") bs body [] ∈ x.2 ∧ SelectionBases c.config t s bs := by
  unfold typeFieldNode typeField at h
  obtain ⟨_, _, _, h⟩ := Gen.bind_ok.1 h
  obtain ⟨y, _, hy, h⟩ := Gen.bind_ok.1 h
  obtain ⟨_, _, _, h⟩ := Gen.bind_ok.1 h
  obtain ⟨rfl, _⟩ := Gen.pure_ok.1 h
  obtain ⟨b, z, r1, r2, hz, hyz⟩ := wrapOutput_classes _ hy
  dsimp only
  rw [hyz]
  unfold recurseNamed namedNode at hz
  rw [ht] at hz
  obtain ⟨dfn, d⟩ := e
  dsimp only at he
  subst he
  dsimp only at hz
  unfold unionNode at hz
  obtain ⟨q, _, hq, hz⟩ := Gen.bind_ok.1 hz
  obtain ⟨_, _, _, hz⟩ := Gen.bind_ok.1 hz
  obtain ⟨rfl, _⟩ := Gen.pure_ok.1 hz
  dsimp only
  have key : ∀ (l : List Sel) (q : List String × List Stmt) (r r' : Reg), unionSels c parent l r = .ok (q, r') →
      .inline (some t) s ∈ l →
      ∃ bs body, .classDef (parent ++ t ++ "InlineFragment") bs body [] ∈ q.2 ∧ SelectionBases c.config t s bs := by
    intro l
    induction l with
    | nil => intro _ _ _ _ hi; cases hi
    | cons u l ih =>
      intro q r r' h hi
      rw [unionSels] at h
      obtain ⟨a, _, ha, h⟩ := Gen.bind_ok.1 h
      obtain ⟨rest, _, hr, h⟩ := Gen.bind_ok.1 h
      obtain ⟨rfl, _⟩ := Gen.pure_ok.1 h
      rcases List.mem_cons.1 hi with rfl | hi
      · rw [unionSel] at ha
        obtain ⟨p, _, hp, ha⟩ := Gen.bind_ok.1 ha
        obtain ⟨ss, _, hss, ha⟩ := Gen.bind_ok.1 ha
        obtain ⟨rfl, _⟩ := Gen.pure_ok.1 ha
        have hbases := unionInlineSels_bases hp
        unfold inlineClass at hss
        obtain ⟨_, _, _, hss⟩ := Gen.bind_ok.1 hss
        obtain ⟨bs, _, hbs, hss⟩ := Gen.bind_ok.1 hss
        obtain ⟨_, _, _, hss⟩ := Gen.bind_ok.1 hss
        obtain ⟨rfl, _⟩ := Gen.pure_ok.1 hss
        refine ⟨_, _, List.mem_append_left _ (List.mem_append_right _ List.mem_cons_self), bs, rfl, fun hn => ?_, fun hs => ?_⟩
        · unfold spreadOrAdditional at hbs
          rw [hbases.2 hn, if_pos (show ([] : List String).isEmpty = true from rfl)] at hbs
          exact additionalBasesFor_is hbs
        · obtain ⟨f, hf⟩ := hs
          have hne : p.bases ≠ [] := fun h0 => hbases.1 h0 _ hf f rfl
          unfold spreadOrAdditional at hbs
          rw [if_neg (by rwa [List.isEmpty_iff])] at hbs
          obtain ⟨rfl, _⟩ := Gen.pure_ok.1 hbs
          refine ⟨fun e he => ?_, fun h0 => hne (List.map_eq_nil_iff.1 h0)⟩
          obtain ⟨n, _, rfl⟩ := List.mem_map.1 he
          exact ⟨n, rfl⟩
      · obtain ⟨bs, body, h1, h2⟩ := ih _ _ _ hr hi
        exact ⟨bs, body, List.mem_append_right _ h1, h2⟩
  exact key _ _ _ _ hq hs

/-- C94 for the class that takes unknown types: with `create_catchall`, it has the base class of the selection and the
bases of interfaces; otherwise there is none. -/
theorem C94_catchall (c : Ctx) (mother : String) (tagged : Expr) (x : Expr × List Stmt) (r r' : Reg)
    (h : catchAll c mother tagged r = .ok (x, r')) :
    (c.config.createCatchall = true → ∃ body,
      x.2 = [.classDef (mother ++ "CatchAll") (.name mother :: namedBases (interfaceBases c.config)) body []]) ∧
    (c.config.createCatchall = false → x.2 = []) := by
  unfold catchAll at h
  cases hc : c.config.createCatchall with
  | true =>
    rw [if_pos hc] at h
    obtain ⟨_, _, hib, h⟩ := Gen.bind_ok.1 h
    obtain ⟨_, _, _, h⟩ := Gen.bind_ok.1 h
    obtain ⟨_, _, _, h⟩ := Gen.bind_ok.1 h
    obtain ⟨rfl, _⟩ := Gen.pure_ok.1 h
    have hib := interfaceBasesOf_is hib
    subst hib
    exact ⟨fun _ => ⟨_, rfl⟩, fun h => by cases h⟩
  | false =>
    rw [if_neg (by rw [hc]; decide)] at h
    obtain ⟨rfl, _⟩ := Gen.pure_ok.1 h
    exact ⟨(fun h => by cases h), fun _ => rfl⟩

/-! ## the hypotheses are met -/

/-- a configuration that says something for every kind of class -/
def basesCtx : Ctx where
  schema := { clsSchema with types := clsSchema.types ++ [
    ("Any", ⟨.union ["User"], none⟩), ("Filter", ⟨.input [⟨"q", .named "String", none, none, none⟩] [], none⟩)] }
  config := { objectBases := ["my.Base"], interfaceBases := some ["my.IBase"],
              additionalBases := [("User", ["my.traits.Named"]), ("Filter", ["my.traits.Filtering"])] }

example : ((do let a ← fragmentsPlugin id basesCtx { fragmentBases := ["my.Frag"] }
                 (clsDocument ++ [Defn.fragment ⟨"any", "Any", [.field "__typename" none [] []]⟩])
               let b ← operationsPlugin id basesCtx { createArguments := true, queryBases := ["my.Query"] } clsDocument
               let d ← generateInputs basesCtx {}
               pure (a ++ b ++ d)) (Reg.init basesCtx.env)).toOption.isSome = true ∧
    (generateTypes basesCtx {} (Reg.init basesCtx.env)).toOption.isSome = true ∧
    (strawberryPlugin basesCtx {} {} (Reg.init basesCtx.env)).toOption.isSome = true := by decide +kernel

/-- a `@oneOf` input, a selection on a union and a class for unknown types -/
example : (generateInputs { schema := { types := [("Int", ⟨.scalar, none⟩),
        ("Pick", ⟨.input [⟨"n", .named "Int", none, none, none⟩] [⟨"oneOf", []⟩], none⟩)] } } {}
      (stateAfter {} [])).toOption.map (fun x => definedNames x.1) = some ["PickN", "Pick"] ∧
    (typeFieldNode basesCtx "Me" { name := "any", type := .named "Any" } "any" none
      [.inline (some "User") [.field "id" none [] []]] (Reg.init basesCtx.env)).toOption.isSome = true ∧
    (catchAll { basesCtx with config := { createCatchall := true } } "MeBase" (.name "X")
      (Reg.init basesCtx.env)).toOption.isSome = true := by decide +kernel

example : namedBases (extraBases basesCtx.config "User") = [.name "Named"] ∧
    namedBases (interfaceBases basesCtx.config) = [.name "IBase"] ∧
    namedBases (orElseBases [] basesCtx.config.objectBases) = [.name "Base"] := by
  refine ⟨?_, ?_, ?_⟩ <;> decide +kernel

end Turms.Props
