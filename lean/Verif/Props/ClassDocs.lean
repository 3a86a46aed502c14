import Verif.Lemmas.ClassDocs
import Verif.Props.Fragments
import Verif.Props.Inputs

/-!
# C93: generated classes carry the documentation of the schema and the document
-/

namespace Turms.Props
open Turms Turms.Spec

/-- C93 for operations: every operation of the document has a class whose docstring is the documentation of the
operation (C95; a fixed text if there is none or comments are not read), whose declarations follow the selections in order,
each with the comment of the selected schema field below it, and whose `Meta` class names the configured domain, or
none if none is configured. -/
theorem C93_operations (prep : List Char → List Char) (c : Ctx) (q : OperationsConfig) (doc : Document) (ss : List Stmt)
    (r r' : Reg) (h : operationsPlugin prep c q doc r = .ok (ss, r')) (o : OpDef) (ho : .operation o ∈ doc) :
    ∃ root cls bs text decls rest, c.schema.root o.kind = some root ∧ OperationClass c o cls ∧
      .classDef cls bs (.expr (.str text) :: (decls.flatten ++ rest)) [] ∈ ss ∧
      Shown "No documentation found for this operation." (if q.extractDocumentation then q.documentation o else none) text ∧
      List.Forall₂ (DocumentedSelection c root) o.sels decls ∧
      ∀ x, MetaSays (.classDef cls bs (.expr (.str text) :: (decls.flatten ++ rest)) []) "domain" x ↔ Written q.domain x := by
  have ho : o ∈ operationsOf doc := List.mem_filterMap.2 ⟨_, ho, rfl⟩
  obtain ⟨s, r1, r2, hs, hm⟩ := generateOperations_mem h o ho
  obtain ⟨root, cls, bs, text, decls, rest, h1, h2, h3, h4⟩ := generateOperation_documented hs
  exact ⟨root, cls, bs, text, decls, rest, h1, h2, hm _ h3, h4⟩

/-- C93 for fragments on objects: the class of the fragment has the description of the type as its docstring (a fixed
text if there is none or documentation is switched off), and its `Meta` class, there only if asked for, gives the name
of the fragment and its type. -/
theorem C93_object_fragments (prep : List Char → List Char) (c : Ctx) (q : FragmentsConfig) (doc : Document)
    (ss : List Stmt) (r r' : Reg) (h : fragmentsPlugin prep c q doc r = .ok (ss, r')) (f : FragDef)
    (hf : lookup (fragmentsOf doc) f.name = some f) (e : TypeEntry) (fs : List FieldDef) (is : List String)
    (ht : c.schema.types.get? f.typeCondition = some e) (he : e.defn = .object fs is) :
    ∃ cls text s, Kind.fragment.style c.env f.name = .ok cls ∧ DocClass ss cls text s ∧
      Shown "No documentation" (if q.addDocumentation then e.description else none) text ∧
      (∀ x, MetaSays s "name" x ↔ q.generateMetaClass = true ∧ x = f.name) ∧
      (∀ x, MetaSays s "type" x ↔ q.generateMetaClass = true ∧ x = f.typeCondition) := by
  unfold fragmentsPlugin at h
  obtain ⟨l, r1, h1, h⟩ := Gen.bind_ok.1 h
  obtain ⟨h1, rfl⟩ := Gen.lift_ok.1 h1
  obtain ⟨l', hl', _, hmem, _⟩ := C12_document_fragments doc
  rw [hl'] at h1
  cases h1
  obtain ⟨s, r1, r2, hs, hm⟩ := generateFragments_mem h f ((hmem f).2 ⟨_, hf⟩)
  unfold generateFragment at hs
  rw [ht] at hs
  dsimp only at hs
  obtain ⟨cls, r3, h3, hs⟩ := Gen.bind_ok.1 hs
  obtain ⟨_, hsty, rfl⟩ := generateClass_ok h3
  obtain ⟨_, _, _, hs⟩ := Gen.bind_ok.1 hs
  obtain ⟨_, _, _, hs⟩ := Gen.bind_ok.1 hs
  obtain ⟨dfn, d⟩ := e
  dsimp only at he
  subst he
  unfold fragmentBody objectFragment at hs
  dsimp only at hs
  obtain ⟨extra, _, _, hs⟩ := Gen.bind_ok.1 hs
  obtain ⟨tn, _, htn, hs⟩ := Gen.bind_ok.1 hs
  obtain ⟨p, _, hp, hs⟩ := Gen.bind_ok.1 hs
  obtain ⟨mt, _, hmt, hs⟩ := Gen.bind_ok.1 hs
  obtain ⟨fb, _, _, hs⟩ := Gen.bind_ok.1 hs
  obtain ⟨cfg, _, hcfg, hs⟩ := Gen.bind_ok.1 hs
  obtain ⟨rfl, rfl⟩ := Gen.pure_ok.1 hs
  have hMeta : ∀ bs b ds, Stmt.classDef "Meta" bs b ds ∈ fragmentDoc q d :: tn :: (p.body ++ cfg ++ mt) →
      Stmt.classDef "Meta" bs b ds ∈ mt := by
    intro bs b ds hx
    rcases List.mem_cons.1 hx with hx | hx
    · cases hx
    rcases List.mem_cons.1 hx with hx | hx
    · exact (typenameField_noClass htn _ _ _ _ hx.symm).elim
    rcases List.mem_append.1 hx with hx | hx
    · rcases List.mem_append.1 hx with hx | hx
      · exact (fragObjectSels_noClass hp _ hx _ _ _ _ rfl).elim
      · exact (config_noMeta hcfg _ _ _ hx).elim
    · exact hx
  refine ⟨cls, _, _, hsty, ⟨hm _ (List.mem_append_right _ (List.mem_singleton.2 rfl)), _, _, rfl⟩, shown_doc _ _, ?_⟩
  unfold fragmentMeta at hmt
  by_cases hq : q.generateMetaClass = true
  · rw [if_pos hq] at hmt
    obtain ⟨text, _, _, hmt⟩ := Gen.bind_ok.1 hmt
    obtain ⟨rfl, _⟩ := Gen.pure_ok.1 hmt
    have key : ∀ attr, attr = "name" ∨ attr = "type" → ∀ x, MetaSays (.classDef cls (names p.bases.reverse ++ extra ++ fb)
        (fragmentDoc q d :: tn :: (p.body ++ cfg ++ [.classDef "Meta" [] [.expr (.str ("Meta class for " ++ f.name)),
          .assign (.name "document") (.str text), .assign (.name "name") (.str f.name),
          .assign (.name "type") (.str f.typeCondition)] []])) []) attr x ↔
          x = if attr = "name" then f.name else f.typeCondition := by
      intro attr hattr x
      constructor
      · rintro ⟨hx, ha⟩
        have hx := List.mem_singleton.1 (hMeta _ _ _ hx)
        injection hx with _ _ hx _
        subst hx
        rcases hattr with rfl | rfl
        · injection (show Expr.str x = Expr.str f.name by simpa using ha) with ha
          injection ha
        · injection (show Expr.str x = Expr.str f.typeCondition by simpa using ha) with ha
          injection ha
      · rintro rfl
        refine ⟨List.mem_cons_of_mem _ (List.mem_cons_of_mem _ (List.mem_append_right _ (List.mem_singleton.2 rfl))), ?_⟩
        rcases hattr with rfl | rfl <;> simp
    refine ⟨fun x => (key "name" (.inl rfl) x).trans ?_, fun x => (key "type" (.inr rfl) x).trans ?_⟩ <;> simp [hq]
  · rw [if_neg hq] at hmt
    obtain ⟨rfl, _⟩ := Gen.pure_ok.1 hmt
    have key : ∀ attr x, ¬ MetaSays (.classDef cls (names p.bases.reverse ++ extra ++ fb)
        (fragmentDoc q d :: tn :: (p.body ++ cfg ++ [])) []) attr x := by
      rintro attr x ⟨hx, _⟩
      cases hMeta _ _ _ hx
    exact ⟨fun x => ⟨fun h => (key _ _ h).elim, fun h => (hq h.1).elim⟩,
      fun x => ⟨fun h => (key _ _ h).elim, fun h => (hq h.1).elim⟩⟩

/-- C93 for fragments on interfaces: the base class has the description of the interface as its docstring, and the
class for every implementing type has the description of that type. -/
theorem C93_interface_fragments (prep : List Char → List Char) (c : Ctx) (q : FragmentsConfig) (doc : Document)
    (ss : List Stmt) (r r' : Reg) (h : fragmentsPlugin prep c q doc r = .ok (ss, r')) (f : FragDef)
    (hf : lookup (fragmentsOf doc) f.name = some f) (e : TypeEntry) (fs : List FieldDef) (is : List String)
    (ht : c.schema.types.get? f.typeCondition = some e) (he : e.defn = .interface fs is) :
    ∃ cls text s, Kind.fragment.style c.env f.name = .ok cls ∧ DocClass ss (cls ++ "Base") text s ∧
      Shown "No documentation" (if q.addDocumentation then e.description else none) text ∧
      ∀ i ∈ implementations c.schema f.typeCondition, ∃ text s, DocClass ss (cls ++ i.name) text s ∧
        Shown "No documentation" i.description text := by
  unfold fragmentsPlugin at h
  obtain ⟨l, r1, h1, h⟩ := Gen.bind_ok.1 h
  obtain ⟨h1, rfl⟩ := Gen.lift_ok.1 h1
  obtain ⟨l', hl', _, hmem, _⟩ := C12_document_fragments doc
  rw [hl'] at h1
  cases h1
  obtain ⟨s, r1, r2, hs, hm⟩ := generateFragments_mem h f ((hmem f).2 ⟨_, hf⟩)
  unfold generateFragment at hs
  rw [ht] at hs
  dsimp only at hs
  obtain ⟨cls, r3, h3, hs⟩ := Gen.bind_ok.1 hs
  obtain ⟨_, hsty, rfl⟩ := generateClass_ok h3
  obtain ⟨_, _, _, hs⟩ := Gen.bind_ok.1 hs
  obtain ⟨_, _, _, hs⟩ := Gen.bind_ok.1 hs
  obtain ⟨dfn, d⟩ := e
  dsimp only at he
  subst he
  unfold fragmentBody interfaceFragment at hs
  dsimp only at hs
  obtain ⟨extra, _, _, hs⟩ := Gen.bind_ok.1 hs
  obtain ⟨p, _, hp, hs⟩ := Gen.bind_ok.1 hs
  obtain ⟨ib, _, _, hs⟩ := Gen.bind_ok.1 hs
  obtain ⟨tn, _, _, hs⟩ := Gen.bind_ok.1 hs
  obtain ⟨impls, _, himpls, hs⟩ := Gen.bind_ok.1 hs
  obtain ⟨_, _, _, hs⟩ := Gen.bind_ok.1 hs
  obtain ⟨rfl, rfl⟩ := Gen.pure_ok.1 hs
  refine ⟨cls, _, _, hsty, ⟨hm _ (List.mem_append_left _ (List.mem_append_right _ List.mem_cons_self)), _, _, rfl⟩,
    shown_doc _ _, fun i hi => ?_⟩
  have key : ∀ (l : List Implementation) (impls : List Stmt) (r r' : Reg),
      fragImplementingClasses c cls p l r = .ok (impls, r') → i ∈ l →
      ∃ text s, DocClass impls (cls ++ i.name) text s ∧ Shown "No documentation" i.description text := by
    intro l
    induction l with
    | nil => intro _ _ _ _ hi; cases hi
    | cons j l ih =>
      intro impls r r' h hi
      unfold fragImplementingClasses at h
      obtain ⟨s, _, hs, h⟩ := Gen.bind_ok.1 h
      obtain ⟨rest, _, hr, h⟩ := Gen.bind_ok.1 h
      obtain ⟨rfl, _⟩ := Gen.pure_ok.1 h
      rcases List.mem_cons.1 hi with rfl | hi
      · unfold fragImplementingClass at hs
        obtain ⟨_, _, _, hs⟩ := Gen.bind_ok.1 hs
        obtain ⟨_, _, _, hs⟩ := Gen.bind_ok.1 hs
        obtain ⟨_, _, _, hs⟩ := Gen.bind_ok.1 hs
        obtain ⟨rfl, _⟩ := Gen.pure_ok.1 hs
        exact ⟨_, _, ⟨List.mem_cons_self, _, _, rfl⟩, shown_doc _ _⟩
      · obtain ⟨text, s', ⟨h1, h2⟩, h3⟩ := ih _ _ _ hr hi
        exact ⟨text, s', ⟨List.mem_cons_of_mem _ h1, h2⟩, h3⟩
  obtain ⟨text, s', ⟨h1, h2⟩, h3⟩ := key _ _ _ _ himpls hi
  exact ⟨text, s', ⟨hm _ (List.mem_append_right _ h1), h2⟩, h3⟩

/-- C93 for inputs: the class of an ordinary input type has the description of the type as its docstring. -/
theorem C93_inputs (c : Ctx) (p : InputsConfig) (ops : List Op) (ss : List Stmt) (r' : Reg)
    (hp : PlainConfig c.config) (hn : c.schema.types.keys.Nodup)
    (h : generateInputs c p (stateAfter c.env ops) = .ok (ss, r')) (t : InputType) (ht : InputOf c.schema t)
    (hk : IsMember p t ∨ Kept p t.name ∧ ¬ OneOf t.directives ∧ ∀ t', InputOf c.schema t' → ¬ MemberOf p t' t.name) :
    ∃ cls text s, Kind.input.style c.env t.name = .ok cls ∧ DocClass ss cls text s ∧
      Shown "No documentation" t.description text := by
  obtain ⟨_, hmc, _, hc, _⟩ := generateInputs_ok (styled_stateAfter _ _) hp hn h
  have key : ∀ (cls : String) ds (s : Stmt) (r1 r2 : Reg), generateInputType c p cls t.name t.description t.fields ds r1 = .ok (s, r2) →
      s ∈ ss → ∃ text s, DocClass ss cls text s ∧ Shown "No documentation" t.description text := by
    intro cls ds s r1 r2 hg hs
    unfold generateInputType at hg
    obtain ⟨_, _, _, hg⟩ := Gen.bind_ok.1 hg
    obtain ⟨_, _, _, hg⟩ := Gen.bind_ok.1 hg
    obtain ⟨_, _, _, hg⟩ := Gen.bind_ok.1 hg
    obtain ⟨_, _, _, hg⟩ := Gen.bind_ok.1 hg
    obtain ⟨rfl, _⟩ := Gen.pure_ok.1 hg
    exact ⟨_, _, ⟨hs, _, _, rfl⟩, shown_doc _ _⟩
  by_cases hm : IsMember p t
  · obtain ⟨s, hs, r1, r2, cls, ds, _, _, hcls, hg, _⟩ := hmc t ht hm
    exact ⟨cls, (key cls ds s r1 r2 hg hs).imp fun text h => h.imp fun s h => ⟨hcls, h⟩⟩
  · obtain ⟨hk, ho, hu⟩ := hk.resolve_left hm
    obtain ⟨s, hs, r1, r2, cls, _, _, hcls, hg⟩ := hc t ht hm hk ho hu
    exact ⟨cls, (key cls [] s r1 r2 hg hs).imp fun text h => h.imp fun s h => ⟨hcls, h⟩⟩

/-- C93 for object models: the class of every kept object or interface type starts with the description of the type (with
nothing if there is none) followed by the declarations of its fields in order, each with its comment below it. -/
theorem C93_objects (c : Ctx) (p : ObjectsConfig) (ss : List Stmt) (r r' : Reg)
    (h : generateTypes c p r = .ok (ss, r')) (t : CompositeType) (ht : CompositeOf c.schema t) (hk : KeptObject p t.name) :
    ∃ cls bs head decls rest, CompositeClass c.env t cls ∧ .classDef cls bs (head ++ decls.flatten ++ rest) [] ∈ ss ∧
      (∀ x, Written t.description x → head = [.expr (.str x)]) ∧ ((∀ x, ¬ Written t.description x) → head = []) ∧
      List.Forall₂ (DocumentedField c.config.documentFieldMetadata) t.fields decls := by
  unfold generateTypes at h
  obtain ⟨_, _, _, h⟩ := Gen.bind_ok.1 h
  obtain ⟨acc, _, hacc, h⟩ := Gen.bind_ok.1 h
  obtain ⟨_, _, _, h⟩ := Gen.bind_ok.1 h
  have hss : ∀ s ∈ acc.tree, s ∈ ss := by
    split at h
    · exact (Gen.fail_ok.1 h).elim
    · obtain ⟨rfl, _⟩ := Gen.pure_ok.1 h
      intro s hs
      exact List.mem_append_left _ (List.mem_append_left _ hs)
  have hstep : ∀ (t' : CompositeType) (a a' : ObjAcc) (r r' : Reg), objectStep c p t' a r = .ok (a', r') →
      (∀ s ∈ a.tree, s ∈ a'.tree) ∧ (KeptObject p t'.name → ∃ cls bs head decls rest, CompositeClass c.env t' cls ∧
        .classDef cls bs (head ++ decls.flatten ++ rest) [] ∈ a'.tree ∧
        (∀ x, Written t'.description x → head = [.expr (.str x)]) ∧ ((∀ x, ¬ Written t'.description x) → head = []) ∧
        List.Forall₂ (DocumentedField c.config.documentFieldMetadata) t'.fields decls) := by
    intro t' a a' r r' h
    unfold objectStep at h
    obtain ⟨extra, _, _, h⟩ := Gen.bind_ok.1 h
    by_cases h1 : (p.skipUnderscore && underscored t'.name) = true
    · rw [if_pos h1] at h
      obtain ⟨rfl, _⟩ := Gen.pure_ok.1 h
      refine ⟨fun _ h => h, fun hk => ?_⟩
      rw [← keptObject_iff, h1] at hk
      cases hk
    rw [if_neg h1] at h
    by_cases h2 : (p.skipDoubleUnderscore && doubleUnderscored t'.name) = true
    · rw [if_pos h2] at h
      obtain ⟨rfl, _⟩ := Gen.pure_ok.1 h
      refine ⟨fun _ h => h, fun hk => ?_⟩
      rw [← keptObject_iff, h2, Bool.or_true] at hk
      cases hk
    rw [if_neg h2] at h
    obtain ⟨cls, _, hcls, h⟩ := Gen.bind_ok.1 h
    dsimp only at h
    obtain ⟨⟨bs, im⟩, _, _, h⟩ := Gen.bind_ok.1 h
    dsimp only at h
    obtain ⟨fs, _, hfs, h⟩ := Gen.bind_ok.1 h
    obtain ⟨cfg, _, _, h⟩ := Gen.bind_ok.1 h
    obtain ⟨rfl, _⟩ := Gen.pure_ok.1 h
    refine ⟨fun s hs => List.mem_append_left _ hs, fun _ => ?_⟩
    have hcc : CompositeClass c.env t' cls := by
      unfold generateComposite at hcls
      cases hi : t'.isInterface with
      | false =>
        rw [hi, if_neg (by simp)] at hcls
        obtain ⟨_, hst, _⟩ := generateClass_ok hcls
        exact ⟨cls, hst, by simp [hi]⟩
      | true =>
        rw [hi, if_pos rfl] at hcls
        unfold generateInterface at hcls
        split at hcls
        · cases hcls
        · unfold styleInterface at hcls
          cases hst : styled c.env.stylers Styler.objectName t'.name with
          | error e => rw [hst] at hcls; cases hcls
          | ok n =>
            rw [hst] at hcls
            cases hcls
            exact ⟨n, hst, by simp [hi]⟩
    have hdecls : ∀ (l : List FieldDef) (fs : List Stmt) (r r' : Reg), objectFields c cls l r = .ok (fs, r') →
        ∃ decls, fs = decls.flatten ∧ List.Forall₂ (DocumentedField c.config.documentFieldMetadata) l decls := by
      intro l
      induction l with
      | nil =>
        intro fs r r' h
        obtain ⟨rfl, _⟩ := Gen.pure_ok.1 h
        exact ⟨[], rfl, .nil⟩
      | cons f l ih =>
        intro fs r r' h
        unfold objectFields at h
        obtain ⟨s, _, hs, h⟩ := Gen.bind_ok.1 h
        obtain ⟨rest, _, hr, h⟩ := Gen.bind_ok.1 h
        obtain ⟨rfl, _⟩ := Gen.pure_ok.1 h
        obtain ⟨decls, rfl, hd⟩ := ih _ _ _ hr
        refine ⟨s :: decls, rfl, .cons ?_ hd⟩
        unfold objectFieldStmts at hs
        obtain ⟨_, _, _, hs⟩ := Gen.bind_ok.1 hs
        obtain ⟨_, _, _, hs⟩ := Gen.bind_ok.1 hs
        obtain ⟨_, _, _, hs⟩ := Gen.bind_ok.1 hs
        obtain ⟨_, _, _, hs⟩ := Gen.bind_ok.1 hs
        obtain ⟨rfl, _⟩ := Gen.pure_ok.1 hs
        exact ⟨_, _, _, _, rfl, fieldComment_ok _ _⟩
    obtain ⟨decls, rfl, hd⟩ := hdecls _ _ _ _ hfs
    refine ⟨cls, _, _, decls, cfg, hcc, List.mem_append_right _ (List.mem_singleton.2 rfl), ?_, ?_, hd⟩
    · intro x hx
      rw [if_pos (truthy_written.2 ⟨x, hx⟩), hx.1]
      rfl
    · intro hx
      rw [if_neg fun ht => (truthy_written.1 ht).elim hx]
  have hloop : ∀ (l : List CompositeType) (a a' : ObjAcc) (r r' : Reg), objectLoop c p l a r = .ok (a', r') →
      (∀ s ∈ a.tree, s ∈ a'.tree) ∧ ∀ t' ∈ l, KeptObject p t'.name → ∃ cls bs head decls rest, CompositeClass c.env t' cls ∧
        .classDef cls bs (head ++ decls.flatten ++ rest) [] ∈ a'.tree ∧
        (∀ x, Written t'.description x → head = [.expr (.str x)]) ∧ ((∀ x, ¬ Written t'.description x) → head = []) ∧
        List.Forall₂ (DocumentedField c.config.documentFieldMetadata) t'.fields decls := by
    intro l
    induction l with
    | nil =>
      intro a a' r r' h
      obtain ⟨rfl, _⟩ := Gen.pure_ok.1 h
      exact ⟨fun _ h => h, fun _ h => by cases h⟩
    | cons u l ih =>
      intro a a' r r' h
      unfold objectLoop at h
      obtain ⟨a1, _, h1, h⟩ := Gen.bind_ok.1 h
      obtain ⟨s1, k1⟩ := hstep _ _ _ _ _ h1
      obtain ⟨s2, k2⟩ := ih _ _ _ _ h
      refine ⟨fun s hs => s2 s (s1 s hs), fun t' ht' hk' => ?_⟩
      rcases List.mem_cons.1 ht' with rfl | ht'
      · obtain ⟨cls, bs, head, decls, rest, q1, q2, q3⟩ := k1 hk'
        exact ⟨cls, bs, head, decls, rest, q1, s2 _ q2, q3⟩
      · exact k2 _ ht' hk'
  obtain ⟨cls, bs, head, decls, rest, q1, q2, q3⟩ := (hloop _ _ _ _ _ hacc).2 t (mem_sortedComposites.2 ht) hk
  exact ⟨cls, bs, head, decls, rest, q1, hss _ q2, q3⟩

/-- the classes of a wrapped type are those of its named type -/
theorem wrapOutput_classes {c : Ctx} {leaf : String → Bool → Gen (Expr × List Stmt)} : ∀ (t : TypeNode) {b : Bool}
    {x : Expr × List Stmt} {r r' : Reg}, wrapOutput c leaf t b r = .ok (x, r') →
    ∃ b' y r1 r2, leaf t.base b' r1 = .ok (y, r2) ∧ x.2 = y.2
  | .named n, b, x, r, r', h => by
    unfold wrapOutput at h
    exact ⟨b, x, r, r', h, rfl⟩
  | .list t, b, x, r, r', h => by
    unfold wrapOutput at h
    obtain ⟨_, _, _, h⟩ := Gen.bind_ok.1 h
    obtain ⟨y, r1, hy, h⟩ := Gen.bind_ok.1 h
    obtain ⟨b', z, r2, r3, hz, he⟩ := wrapOutput_classes t hy
    refine ⟨b', z, r2, r3, hz, ?_⟩
    rw [← he]
    obtain ⟨_, _, _, h⟩ := Gen.bind_ok.1 h
    obtain ⟨rfl, _⟩ := Gen.pure_ok.1 h
    rfl
  | .nonNull t, b, x, r, r', h => by
    unfold wrapOutput at h
    obtain ⟨b', z, r2, r3, hz, he⟩ := wrapOutput_classes t h
    exact ⟨b', z, r2, r3, hz, he⟩

/-- C93 for selections at any depth: when a field with fields of its own is translated, the class made for its selection
set has the description of the GraphQL type as its docstring, unless the selection set is one fragment, whose class is
used instead; for an interface this holds of the base class and of the class of every implementing type. -/
theorem C93_selections (c : Ctx) (parent name : String) (fd : FieldDef) (al : Option String) (sub : List Sel)
    (x : List Stmt × List Stmt) (r r' : Reg) (h : typeFieldNode c parent fd name al sub r = .ok (x, r')) (e : TypeEntry)
    (ht : c.schema.types.get? fd.type.base = some e) :
    (∀ fs is, e.defn = .object fs is → (∀ f, nonTypenameFields sub ≠ [.spread f]) →
      ∃ text s, DocClass x.2 (parent ++ pyCapitalize (al.getD name)) text s ∧ Shown "No documentation" e.description text) ∧
    (∀ fs is, e.defn = .interface fs is →
      (∃ text s, DocClass x.2 (parent ++ pyCapitalize (al.getD name) ++ "Base") text s ∧
        Shown "No documentation" e.description text) ∧
      ∀ i ∈ implementations c.schema fd.type.base, ∃ text s,
        DocClass x.2 (parent ++ pyCapitalize (al.getD name) ++ "Base" ++ i.name) text s ∧
        Shown "No documentation" i.description text) := by
  unfold typeFieldNode typeField at h
  obtain ⟨_, _, _, h⟩ := Gen.bind_ok.1 h
  obtain ⟨y, _, hy, h⟩ := Gen.bind_ok.1 h
  obtain ⟨_, _, _, h⟩ := Gen.bind_ok.1 h
  obtain ⟨rfl, _⟩ := Gen.pure_ok.1 h
  obtain ⟨b, z, r1, r2, hz, he⟩ := wrapOutput_classes _ hy
  dsimp only
  rw [he]
  unfold recurseNamed namedNode at hz
  rw [ht] at hz
  obtain ⟨dfn, d⟩ := e
  refine ⟨?_, ?_⟩
  · rintro fs is rfl hsub
    dsimp only at hz
    unfold objectNode at hz
    obtain ⟨tn, _, _, hz⟩ := Gen.bind_ok.1 hz
    obtain ⟨q, s1, s2, hq⟩ : ∃ q s1 s2,
        finishObject c (parent ++ pyCapitalize (al.getD name)) fd.type.base d tn q b s1 = .ok (z, s2) := by
      generalize nonTypenameFields sub = l at hz hsub
      match l, hz, hsub with
      | [.spread g], _, hsub => exact (hsub g rfl).elim
      | [], hz, _ => obtain ⟨q, s1, _, hz⟩ := Gen.bind_ok.1 hz; exact ⟨q, s1, _, hz⟩
      | [.field ..], hz, _ => obtain ⟨q, s1, _, hz⟩ := Gen.bind_ok.1 hz; exact ⟨q, s1, _, hz⟩
      | [.inline ..], hz, _ => obtain ⟨q, s1, _, hz⟩ := Gen.bind_ok.1 hz; exact ⟨q, s1, _, hz⟩
      | u :: _ :: _, hz, _ =>
        cases u <;> · obtain ⟨q, s1, _, hz⟩ := Gen.bind_ok.1 hz; exact ⟨q, s1, _, hz⟩
    unfold finishObject at hq
    obtain ⟨_, _, _, hq⟩ := Gen.bind_ok.1 hq
    obtain ⟨_, _, _, hq⟩ := Gen.bind_ok.1 hq
    obtain ⟨_, _, _, hq⟩ := Gen.bind_ok.1 hq
    obtain ⟨rfl, _⟩ := Gen.pure_ok.1 hq
    exact ⟨_, _, ⟨List.mem_append_right _ (List.mem_singleton.2 rfl), _, _, rfl⟩, shown_doc _ _⟩
  · rintro fs is rfl
    dsimp only at hz
    unfold interfaceNode at hz
    obtain ⟨q, _, _, hz⟩ := Gen.bind_ok.1 hz
    obtain ⟨_, _, _, hz⟩ := Gen.bind_ok.1 hz
    obtain ⟨_, _, _, hz⟩ := Gen.bind_ok.1 hz
    obtain ⟨_, _, _, hz⟩ := Gen.bind_ok.1 hz
    obtain ⟨impls, _, himpls, hz⟩ := Gen.bind_ok.1 hz
    obtain ⟨_, _, _, hz⟩ := Gen.bind_ok.1 hz
    obtain ⟨_, _, _, hz⟩ := Gen.bind_ok.1 hz
    obtain ⟨_, _, _, hz⟩ := Gen.bind_ok.1 hz
    obtain ⟨_, _, _, hz⟩ := Gen.bind_ok.1 hz
    obtain ⟨rfl, _⟩ := Gen.pure_ok.1 hz
    refine ⟨⟨_, _, ⟨List.mem_append_right _ List.mem_cons_self, _, _, rfl⟩, shown_doc _ _⟩, fun i hi => ?_⟩
    have key : ∀ (l : List Implementation) (impls : List Stmt) (r r' : Reg) (cls : String),
        implementingClasses c cls q l r = .ok (impls, r') → i ∈ l →
        ∃ text s, DocClass impls (cls ++ i.name) text s ∧ Shown "No documentation" i.description text := by
      intro l
      induction l with
      | nil => intro _ _ _ _ _ hi; cases hi
      | cons j l ih =>
        intro impls r r' cls h hi
        unfold implementingClasses at h
        obtain ⟨s, _, hs, h⟩ := Gen.bind_ok.1 h
        obtain ⟨rest, _, hr, h⟩ := Gen.bind_ok.1 h
        obtain ⟨rfl, _⟩ := Gen.pure_ok.1 h
        rcases List.mem_cons.1 hi with rfl | hi
        · unfold implementingClass at hs
          obtain ⟨_, _, _, hs⟩ := Gen.bind_ok.1 hs
          obtain ⟨_, _, _, hs⟩ := Gen.bind_ok.1 hs
          obtain ⟨_, _, _, hs⟩ := Gen.bind_ok.1 hs
          obtain ⟨rfl, _⟩ := Gen.pure_ok.1 hs
          exact ⟨_, _, ⟨List.mem_cons_self, _, _, rfl⟩, shown_doc _ _⟩
        · obtain ⟨text, s', ⟨h1, h2⟩, h3⟩ := ih _ _ _ _ hr hi
          exact ⟨text, s', ⟨List.mem_cons_of_mem _ h1, h2⟩, h3⟩
    obtain ⟨text, s', ⟨h1, h2⟩, h3⟩ := key _ _ _ _ _ himpls hi
    exact ⟨text, s', ⟨List.mem_append_right _ (List.mem_cons_of_mem _ (List.mem_append_left _ h1)), h2⟩, h3⟩

/-- C93 for fragments on unions: the alias is followed by the description of the union, unless documentation is switched
off or there is none. -/
theorem C93_union_fragments (c : Ctx) (q : FragmentsConfig) (f : FragDef) (name : String) (d : Option String)
    (ms : List String) (ss : List Stmt) (r r' : Reg) (h : unionFragment c q f name d ms r = .ok (ss, r')) :
    ∃ before alias_ after, ss = before ++ .assign (.name name) alias_ :: after ∧
      (∀ x, q.addDocumentation = true → Written d x → after = [.expr (.str x)]) ∧
      ((q.addDocumentation = false ∨ ∀ x, ¬ Written d x) → after = []) := by
  unfold unionFragment at h
  obtain ⟨_, _, _, h⟩ := Gen.bind_ok.1 h
  obtain ⟨_, _, _, h⟩ := Gen.bind_ok.1 h
  obtain ⟨_, _, _, h⟩ := Gen.bind_ok.1 h
  obtain ⟨_, _, _, h⟩ := Gen.bind_ok.1 h
  obtain ⟨_, _, _, h⟩ := Gen.bind_ok.1 h
  obtain ⟨rfl, _⟩ := Gen.pure_ok.1 h
  refine ⟨_, _, _, by rw [List.append_assoc]; rfl, fun x hq hx => ?_, fun hn => ?_⟩
  · rw [if_pos (by rw [truthy_written.2 ⟨x, hx⟩, hq]; rfl), hx.1]
    rfl
  · refine if_neg fun hh => ?_
    rw [Bool.and_eq_true] at hh
    rcases hn with hn | hn
    · rw [hn] at hh; cases hh.2
    · exact (truthy_written.1 hh.1).elim hn

/-! ## the hypotheses are met -/

def clsSchema : Schema := { query := some "Query", types := [
  ("String", ⟨.scalar, none⟩),
  ("Query", ⟨.object [{ name := "user", type := .named "User", description := some "who", deprecation := some "gone" }] [], none⟩),
  ("Node", ⟨.interface [{ name := "id", type := .named "String" }] [], some "Has an id."⟩),
  ("User", ⟨.object [{ name := "id", type := .named "String", description := some "the id" }] ["Node"], some "A user."⟩)] }

def clsOp : OpDef := { kind := .query, name := some "me", sels := [.field "user" (some "u") [] [.spread "bits"]] }

def clsFrag : FragDef := ⟨"bits", "User", [.field "id" none [] []]⟩

def clsDocument : Document := [.fragment clsFrag, .fragment ⟨"node", "Node", [.field "id" none [] []]⟩, .operation clsOp]

def clsCtx : Ctx := { schema := clsSchema }

example : ((do let a ← fragmentsPlugin id clsCtx {} clsDocument
               let b ← operationsPlugin id clsCtx { documentation := fun _ => some "mine", domain := some "d" } clsDocument
               pure (a ++ b)) (Reg.init clsCtx.env)).toOption.isSome = true := by decide +kernel

example : (generateTypes clsCtx {} (Reg.init clsCtx.env)).toOption.isSome = true := by decide +kernel

example : lookup (fragmentsOf clsDocument) "bits" = some clsFrag ∧ Shown "No documentation" (some "A user.") "A user." ∧
    FieldComment true { name := "user", type := .named "User", description := some "who", deprecation := some "gone" }
      [.expr (.str "who\nDEPRECATED: gone")] := by
  refine ⟨rfl, .written ⟨rfl, by decide⟩, ?_⟩
  exact .both (x := "who") (y := "DEPRECATED: gone") (by simpa using CommentLine.written (label := "") ⟨rfl, by decide⟩) rfl
    (.written (x := "gone") ⟨rfl, by decide⟩)

/-- a selection with fields of its own, and one on an interface -/
example : (typeFieldNode clsCtx "Me" { name := "user", type := .nonNull (.list (.named "User")) } "user" (some "u")
      [.field "id" none [] []] (Reg.init clsCtx.env)).toOption.isSome = true ∧
    (typeFieldNode clsCtx "Me" { name := "node", type := .named "Node" } "node" none
      [.field "id" none [] []] (Reg.init clsCtx.env)).toOption.isSome = true ∧
    (unionFragment clsCtx {} ⟨"any", "Any", [.field "__typename" none [] []]⟩ "Any" (some "Anything.") ["User"]
      (Reg.init clsCtx.env)).toOption.isSome = true := by decide +kernel

end Turms.Props
