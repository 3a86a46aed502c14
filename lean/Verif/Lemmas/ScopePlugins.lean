import Verif.Lemmas.ScopeWalk
import Verif.Lemmas.ResponsePlugins

/-! # The fragments and operations plugins: which names the generated classes evaluate -/

namespace Turms
open Spec

section
variable {env : Env} {S : Places} {X : String → Prop}

theorem scoped_assertFieldDef {s : Schema} {t n : String} : Scoped env S X (assertFieldDef s t n) fun _ _ => True := by
  unfold assertFieldDef; split
  · exact .pure fun _ => trivial
  · exact .fail

theorem scoped_fragmentBasesOf {c : Ctx} {p : FragmentsConfig} {b : Bool} :
    Scoped env S X (fragmentBasesOf c p b) NamesInL := by
  unfold fragmentBasesOf
  exact scoped_registerImports.bind fun _ => scoped_registerImports.bind fun _ => scoped_registerImports.bind fun _ =>
    .pure fun E h3 h2 h1 => (h1.append h2).append h3

theorem scoped_mergedDocument {prep : List Char → List Char} {t : List Char} :
    Scoped env S X (mergedDocument prep t) fun _ _ => True := by
  constructor
  intro r a r' _ h
  unfold mergedDocument at h
  split at h <;> cases h
  exact ⟨Soft.refl _, fun _ _ => trivial⟩

theorem scoped_fragmentMeta {prep : List Char → List Char} {p : FragmentsConfig} {f : FragDef} :
    Scoped env S X (fragmentMeta prep p f) BodyIn := by
  unfold fragmentMeta
  refine .ite (fun _ => ?_) (fun _ => .pure fun _ => .nil)
  refine scoped_mergedDocument.bind fun d => .pure fun E _ => .cons (fun n hn => ?_) .nil
  simp [evaluated, evaluatedL, freeNames, freeNamesL, Expr.str] at hn

theorem assertFieldDef_value {s : Schema} {t n : String} {r r' : Reg} {fd : FieldDef}
    (h : assertFieldDef s t n r = .ok (fd, r')) : FieldOn s t n fd.type := by
  unfold assertFieldDef at h
  cases hf : getFieldDef s t n with
  | none => rw [hf] at h; exact (Gen.fail_ok.1 h).elim
  | some g =>
    rw [hf] at h
    obtain ⟨rfl, _⟩ := Gen.pure_ok.1 h
    exact getFieldDef_sound hf

theorem scoped_fragSpreadBase {f t : String} (hf : S.spread f) : Scoped env S X (fragSpreadBase f t) fun E n => E n := by
  constructor
  intro r a r' hs h
  unfold fragSpreadBase at h
  split at h
  · rename_i m hm
    split at h
    · rename_i cls hc
      cases h
      exact ⟨Soft.refl _, fun E hE => hE _ (.inr (.inr (.inl ⟨f, hf, .inr (.inl ⟨m, t, hm, Dict.mem_of_get? hc⟩)⟩)))⟩
    · cases h
  · rename_i hg
    obtain ⟨rfl, hq⟩ := run_inheritFragment (S := S) (.inl hg) h
    exact ⟨Soft.refl _, fun E hE => hE _ (.inr (.inr (.inl ⟨f, hf, hq⟩)))⟩

theorem scoped_unionMembersOf {f : String} (hf : S.spread f) :
    Scoped env S X (unionMembersOf f) fun E l => ∀ q ∈ l, E q.2 := by
  constructor
  intro r a r' hs h
  unfold unionMembersOf at h
  split at h
  · rename_i m hm
    cases h
    exact ⟨Soft.refl _, fun E hE q hq => hE _ (.inr (.inr (.inl ⟨f, hf, .inr (.inr ⟨_, q.1, hm, hq⟩)⟩)))⟩
  · cases h

/-- an implementing class of an interface fragment -/
theorem scoped_fragImplementingClass {c : Ctx} {name : String} {p : InterfaceParts} {i : Implementation} :
    Scoped env S X (fragImplementingClass c name p i) fun E s => InterfaceIn E p →
      bound s = [name ++ i.name] ∧ ∀ n ∈ evaluated s, Plus E p.classes n ∨ n = name ++ "Base" := by
  unfold fragImplementingClass
  refine scoped_additionalBasesFor.bind fun extra => scoped_interfaceBasesOf.bind fun ib =>
    scoped_typenameField.bind fun tn => .pure ?_
  intro E htn hib hex hpi
  refine ⟨rfl, classDef_in (E := fun n => Plus E p.classes n ∨ n = name ++ "Base") ?_ ?_⟩
  · refine (((namesInL_names fun b hb => .inl (.inl (hpi.basesFor _ b hb))).append ?_).append
      (namesInL_mono hex fun _ h => .inl (.inl h))).append (namesInL_mono hib fun _ h => .inl (.inl h))
    intro n hn
    simp [freeNamesL, freeNames] at hn
    exact .inr hn
  · exact .cons (docStmt_in _) (.cons (fun n hn => .inl (.inl (htn n hn))) ((hpi.bodyFor _).mono fun _ => .inl))

theorem scoped_fragImplementingClasses {c : Ctx} {name : String} {p : InterfaceParts} (is : List Implementation) :
    Scoped env S X (fragImplementingClasses c name p is) fun E ss => InterfaceIn E p →
      boundL ss = is.map (fun i => name ++ i.name) ∧
      ∀ s ∈ ss, ∀ n ∈ evaluated s, Plus E p.classes n ∨ n = name ++ "Base" := by
  induction is with
  | nil => exact .pure fun E _ => ⟨rfl, by simp⟩
  | cons i is ih =>
    unfold fragImplementingClasses
    refine scoped_fragImplementingClass.bind fun s => ih.bind fun ss => .pure ?_
    intro E hss hs hp
    obtain ⟨h1, h2⟩ := hss hp
    obtain ⟨h3, h4⟩ := hs hp
    refine ⟨by simp [boundL, h3] at h1 ⊢; rw [h1], ?_⟩
    intro t ht
    rcases List.mem_cons.1 ht with rfl | ht
    · exact h4
    · exact h2 t ht

section
variable {c : Ctx} (hp : PlainConfig c.config) (hX : BasesIn X c) (hF : LonelyField X c) (hSc : S.schema = c.schema)
include hp hX hF hSc

theorem scoped_fragInterfaceSels {t : String} {fs : List FieldDef} {is : List String} {name : String}
    (hl : S.schema.lookup t = some (.interface fs is)) (ss : List Sel) : WalkIn S t ss →
    Scoped c.env S X (fragInterfaceSels c fs name ss) InterfaceIn := by
  induction ss with
  | nil => intro _; unfold fragInterfaceSels; exact .pure fun E => interfaceIn_empty
  | cons s rest ih =>
    intro h
    unfold fragInterfaceSels
    have hs : Scoped c.env S X (fragInterfaceSel c fs name s) InterfaceIn := by
      unfold fragInterfaceSel
      split
      · rename_i t sub
        refine (scoped_inlineSels hp hX hF hSc sub t name h.inline).bind fun x => .pure ?_
        intro E hx
        refine ⟨hx.1, .nil, by simp, ?_⟩
        intro q hq
        rw [List.mem_singleton.1 hq]
        exact hx.2
      · exact scoped_interfaceSel hp hX hF hSc _ t fs is name hl h.head
    exact hs.bind fun _ => (ih h.tail).bind fun _ => .pure fun E hb ha => ha.append hb

theorem scoped_fragObjectSels {t name : String} (ss : List Sel) : WalkIn S t ss →
    Scoped c.env S X (fragObjectSels c t name ss) ObjectIn := by
  induction ss with
  | nil => intro _; unfold fragObjectSels; exact .pure fun E => objectIn_empty
  | cons s rest ih =>
    intro h
    unfold fragObjectSels
    have hs : Scoped c.env S X (fragObjectSel c t name s) ObjectIn := by
      unfold fragObjectSel
      split
      · exact (scoped_fragSpreadBase h.head.spread).bind fun _ => .pure fun E hb => ⟨trivial, .nil, by simpa using hb⟩
      · exact .pure fun E => objectIn_empty
      · refine .ite (fun _ => .pure fun E => objectIn_empty) fun _ => ?_
        refine scoped_assertFieldDef.bindP (V := fun fd => FieldOn S.schema t _ fd.type)
          (fun r fd r' hv => by rw [hSc]; exact assertFieldDef_value hv) fun fd hfd =>
          (scoped_typeFieldNode hp hX hF hSc (h.field hfd)).bind fun x => .pure ?_
        intro E hx _
        exact ⟨hx.1, hx.2, by simp⟩
    exact hs.bind fun _ => (ih h.tail).bind fun _ => .pure fun E hb ha => ha.append hb

theorem scoped_fragUnionInlineSels {t name : String} (ss : List Sel) : WalkIn S t ss →
    (∀ f, Sel.spread f ∈ ss → X f) → Scoped c.env S X (fragUnionInlineSels c t name ss) ObjectIn := by
  induction ss with
  | nil => intro _ _; unfold fragUnionInlineSels; exact .pure fun E => objectIn_empty
  | cons s rest ih =>
    intro h hr
    unfold fragUnionInlineSels
    have hs : Scoped c.env S X (fragUnionInlineSel c t name s) ObjectIn := by
      unfold fragUnionInlineSel
      split
      · refine scoped_assume (hr _ (List.mem_cons_self ..)) (.pure fun E hb => ⟨trivial, .nil, by simpa using hb⟩)
      · exact .pure fun E => objectIn_empty
      · refine .ite (fun _ => .pure fun E => objectIn_empty) fun _ => ?_
        refine scoped_assertFieldDef.bindP (V := fun fd => FieldOn S.schema t _ fd.type)
          (fun r fd r' hv => by rw [hSc]; exact assertFieldDef_value hv) fun fd hfd =>
          (scoped_typeFieldNode hp hX hF hSc (h.field hfd)).bind fun x => .pure ?_
        intro E hx _
        exact ⟨hx.1, hx.2, by simp⟩
    exact hs.bind fun _ => (ih h.tail fun f hf => hr f (List.mem_cons_of_mem _ hf)).bind fun _ =>
      .pure fun E hb ha => ha.append hb

/-- the fragments spread by name below an inline fragment -/
def RawSpread (sels : List Sel) (f : String) : Prop := ∃ t sub, Sel.inline (some t) sub ∈ sels ∧ Sel.spread f ∈ sub

theorem scoped_fragUnionSels {u name : String} (ss : List Sel) : WalkIn S u ss →
    (∀ f, RawSpread ss f → X f) → Scoped c.env S X (fragUnionSels c name ss) InterfaceIn := by
  induction ss with
  | nil => intro _ _; unfold fragUnionSels; exact .pure fun E => interfaceIn_empty
  | cons s rest ih =>
    intro h hr
    unfold fragUnionSels
    have hs : Scoped c.env S X (fragUnionSel c name s) InterfaceIn := by
      unfold fragUnionSel
      split
      · exact (scoped_unionMembersOf h.head.spread).bind fun _ => .pure fun E hb => ⟨trivial, .nil, hb, by simp⟩
      · exact .fail
      · rename_i t sub
        refine (scoped_fragUnionInlineSels hp hX hF hSc sub h.inline
          fun f hf => hr f ⟨t, sub, List.mem_cons_self .., hf⟩).bind fun q => .pure ?_
        intro E hq
        refine ⟨hq.1, .nil, ?_, ?_⟩
        · intro q' hq'
          obtain ⟨b, hb, rfl⟩ := List.mem_map.1 hq'
          exact hq.2.2 b hb
        · intro q' hq'
          rw [List.mem_singleton.1 hq']
          exact hq.2.1
      · exact .ite (fun _ => .pure fun E => interfaceIn_empty) fun _ => .fail
    exact hs.bind fun _ => (ih h.tail fun f ⟨t, sub, h1, h2⟩ => hr f ⟨t, sub, List.mem_cons_of_mem _ h1, h2⟩).bind fun _ =>
      .pure fun E hb ha => ha.append hb

/-- a fragment on an object -/
theorem scoped_objectFragment {prep : List Char → List Char} {p : FragmentsConfig} {f : FragDef} {name : String}
    {d : Option String} (h : WalkIn S f.typeCondition f.sels) :
    Scoped c.env S X (objectFragment prep c p f name d) fun E ss => Resolves E ss ∧ name ∈ boundL ss := by
  unfold objectFragment
  refine scoped_additionalBasesFor.bind fun extra => scoped_typenameField.bind fun tn =>
    (scoped_fragObjectSels hp hX hF hSc f.sels h).bind fun q => scoped_fragmentMeta.bind fun m =>
    scoped_fragmentBasesOf.bind fun fb => (scoped_generatePydanticConfig hp).bind fun cfg => .pure ?_
  intro E hcfg hfb hm hq htn hex
  refine ⟨resolves_class hq.1 (((namesInL_names fun b hb => hq.2.2 b (List.mem_reverse.1 hb)).append hex).append hfb) ?_, ?_⟩
  · exact .cons (docStmt_in _) (.cons (fun n hn => .inl (htn n hn))
      ((hq.2.1.append (hcfg.mono fun _ => .inl)).append (hm.mono fun _ => .inl)))
  · rw [boundL_append]
    exact List.mem_append_right _ (by simp [boundL, bound])

/-- the generating part of a fragment on an interface, without the registration -/
def interfaceFragmentCore (c : Ctx) (p : FragmentsConfig) (f : FragDef) (name : String)
    (description : Option String) (fields : List FieldDef) : Gen (List Stmt) := do
  let extra ← additionalBasesFor c f.typeCondition
  let q ← fragInterfaceSels c fields name f.sels
  let ib ← interfaceBasesOf c
  let tn ← genericTypenameField c
  let mother := fragmentDoc p description :: q.body
  let impls ← fragImplementingClasses c name q (implementations c.schema f.typeCondition)
  pure (q.classes ++ [.classDef (name ++ "Base") (extra ++ ib) mother [],
      .classDef (name ++ "Catch") [.name (name ++ "Base")]
        (.expr (.str ("Catch all class for " ++ name ++ "Base")) :: tn :: mother) []] ++ impls)

omit hp hX hF hSc in
theorem interfaceFragment_core {p : FragmentsConfig} {f : FragDef} {name : String} {d : Option String}
    {fs : List FieldDef} {ss : List Stmt} {r r' : Reg} (h : interfaceFragment c p f name d fs r = .ok (ss, r')) :
    ∃ r1, interfaceFragmentCore c p f name d fs r = .ok (ss, r1) ∧ r' = { r1 with
      interfaceFragmentImpl := r1.interfaceFragmentImpl.set f.name
        ((implementations c.schema f.typeCondition).foldl (fun m i => m.set i.name (name ++ i.name)) []) } := by
  unfold interfaceFragment at h
  obtain ⟨extra, r1, h1, h⟩ := Gen.bind_ok.1 h
  obtain ⟨q, r2, h2, h⟩ := Gen.bind_ok.1 h
  obtain ⟨ib, r3, h3, h⟩ := Gen.bind_ok.1 h
  obtain ⟨tn, r4, h4, h⟩ := Gen.bind_ok.1 h
  obtain ⟨impls, r5, h5, h⟩ := Gen.bind_ok.1 h
  obtain ⟨u, r6, h6, h⟩ := Gen.bind_ok.1 h
  unfold registerImplementations at h6
  cases h6
  obtain ⟨rfl, rfl⟩ := Gen.pure_ok.1 h
  refine ⟨r5, ?_, rfl⟩
  unfold interfaceFragmentCore
  exact Gen.bind_ok.2 ⟨_, _, h1, Gen.bind_ok.2 ⟨_, _, h2, Gen.bind_ok.2 ⟨_, _, h3, Gen.bind_ok.2 ⟨_, _, h4,
    Gen.bind_ok.2 ⟨_, _, h5, Gen.pure_ok.2 ⟨rfl, rfl⟩⟩⟩⟩⟩⟩

omit hp hX hF hSc in
theorem fragmentDoc_in {E : String → Prop} {p : FragmentsConfig} {d : Option String} :
    ∀ n ∈ evaluated (fragmentDoc p d), E n := docStmt_in _

theorem scoped_interfaceFragmentCore {p : FragmentsConfig} {f : FragDef} {name : String}
    {d : Option String} {fs : List FieldDef} {is : List String}
    (hl : S.schema.lookup f.typeCondition = some (.interface fs is)) (h : WalkIn S f.typeCondition f.sels) :
    Scoped c.env S X (interfaceFragmentCore c p f name d fs) fun E ss => Resolves E ss ∧
      ∀ i ∈ implementations c.schema f.typeCondition, name ++ i.name ∈ boundL ss := by
  unfold interfaceFragmentCore
  refine scoped_additionalBasesFor.bind fun extra => (scoped_fragInterfaceSels hp hX hF hSc hl f.sels h).bind fun q =>
    scoped_interfaceBasesOf.bind fun ib => scoped_genericTypenameField.bind fun tn =>
    (scoped_fragImplementingClasses _).bind fun impls => .pure ?_
  intro E himpl htn hib hq hex
  obtain ⟨hbound, hev⟩ := himpl hq
  have hmother : BodyIn (Plus E q.classes) (fragmentDoc p d :: q.body) := .cons fragmentDoc_in hq.2.1
  refine ⟨?_, ?_⟩
  · refine resolves_join.2 ⟨?_, resolves_all fun s hs n hn => ?_⟩
    · have e : ∀ a b : Stmt, q.classes ++ [a, b] = (q.classes ++ [a]) ++ [b] := by simp
      rw [e]
      refine resolves_join.2 ⟨resolves_class hq.1 (hex.append hib) hmother, resolves_single (classDef_in ?_ ?_)⟩
      · intro n hn
        simp only [freeNamesL, freeNames, List.append_nil, List.mem_singleton] at hn
        subst hn
        exact plus_class
      · refine .cons (by intro n hn; simp [evaluated, Expr.str, freeNames] at hn) (.cons (fun n hn => .inl (htn n hn)) ?_)
        exact hmother.mono fun n hn => hn.append_left
    · rcases hev s hs n hn with h | rfl
      · exact h.append_left
      · right
        rw [boundL_append]
        exact List.mem_append_right _ (by simp [boundL, bound])
  · intro i hi
    rw [boundL_append]
    refine List.mem_append_right _ ?_
    rw [hbound]
    exact List.mem_map_of_mem hi

omit hp hX hF hSc in
theorem scoped_fragMemberClasses {p : FragmentsConfig} {name : String} {q : InterfaceParts} (ms : List String) :
    Scoped c.env S X (fragMemberClasses c p name q ms) fun E ss => InterfaceIn E q →
      boundL ss = ms.map (name ++ ·) ∧ ∀ s ∈ ss, ∀ n ∈ evaluated s, Plus E q.classes n := by
  induction ms with
  | nil => exact .pure fun E _ => ⟨rfl, by simp⟩
  | cons m ms ih =>
    unfold fragMemberClasses
    have hm : Scoped c.env S X (fragMemberClass c p name q m) fun E s => InterfaceIn E q →
        bound s = [name ++ m] ∧ ∀ n ∈ evaluated s, Plus E q.classes n := by
      unfold fragMemberClass
      refine scoped_fragmentBasesOf.bind fun fb => scoped_typenameField.bind fun tn => .pure ?_
      intro E htn hfb hq
      refine ⟨rfl, classDef_in ?_ ?_⟩
      · exact (namesInL_names fun b hb => .inl (hq.basesFor _ b hb)).append (namesInL_mono hfb fun _ => .inl)
      · exact .cons (fun n hn => .inl (htn n hn)) (hq.bodyFor _)
    refine hm.bind fun s => ih.bind fun ss => .pure ?_
    intro E hss hs hq
    obtain ⟨h1, h2⟩ := hss hq
    obtain ⟨h3, h4⟩ := hs hq
    refine ⟨by simp [boundL, h3] at h1 ⊢; rw [h1], ?_⟩
    intro t ht
    rcases List.mem_cons.1 ht with rfl | ht
    · exact h4
    · exact h2 t ht

/-- the generating part of a fragment on a union, without the registration -/
def unionFragmentCore (c : Ctx) (p : FragmentsConfig) (f : FragDef) (name : String)
    (description : Option String) (members : List String) : Gen (List Stmt) := do
  let _ ← additionalBasesFor c f.typeCondition
  let q ← fragUnionSels c name f.sels
  let ms ← fragMemberClasses c p name q members
  registerImport "typing.Union"
  pure (q.classes ++ ms ++ [.assign (.name name) (sub "Union" (.tuple (names (members.map (name ++ ·)))))] ++
    (if truthy description && p.addDocumentation then [.expr (.str (description.getD ""))] else []))

omit hp hX hF hSc in
theorem unionFragment_core {p : FragmentsConfig} {f : FragDef} {name : String} {d : Option String}
    {ms : List String} {ss : List Stmt} {r r' : Reg} (h : unionFragment c p f name d ms r = .ok (ss, r')) :
    ∃ r1, unionFragmentCore c p f name d ms r = .ok (ss, r1) ∧ r' = { r1 with
      unionFragmentMembers := r1.unionFragmentMembers.set f.name (ms.foldl (fun m i => m.set i (name ++ i)) []) } := by
  unfold unionFragment at h
  obtain ⟨extra, r1, h1, h⟩ := Gen.bind_ok.1 h
  obtain ⟨q, r2, h2, h⟩ := Gen.bind_ok.1 h
  obtain ⟨impls, r5, h5, h⟩ := Gen.bind_ok.1 h
  obtain ⟨u, r6, h6, h⟩ := Gen.bind_ok.1 h
  obtain ⟨v, r7, h7, h⟩ := Gen.bind_ok.1 h
  unfold registerUnionMembers at h6
  cases h6
  obtain ⟨rfl, e7⟩ := Gen.pure_ok.1 h
  refine ⟨{ r5 with imports := setAdd r5.imports "typing.Union" }, ?_, e7.symm⟩
  unfold unionFragmentCore
  exact Gen.bind_ok.2 ⟨_, _, h1, Gen.bind_ok.2 ⟨_, _, h2, Gen.bind_ok.2 ⟨_, _, h5, Gen.bind_ok.2 ⟨(), _, rfl,
    Gen.pure_ok.2 ⟨rfl, rfl⟩⟩⟩⟩⟩

theorem scoped_unionFragmentCore {p : FragmentsConfig} {f : FragDef} {name : String}
    {d : Option String} {ms : List String} (h : WalkIn S f.typeCondition f.sels) (hr : ∀ g, RawSpread f.sels g → X g) :
    Scoped c.env S X (unionFragmentCore c p f name d ms) fun E ss => Resolves E ss ∧ name ∈ boundL ss ∧
      ∀ m ∈ ms, name ++ m ∈ boundL ss := by
  unfold unionFragmentCore
  refine scoped_additionalBasesFor.bind fun extra => (scoped_fragUnionSels hp hX hF hSc f.sels h hr).bind fun q =>
    (scoped_fragMemberClasses ms).bind fun cs =>
    (scoped_registerImport (n := "Union") (by decide +kernel)).bind fun _ => .pure ?_
  intro E hu hcs hq _
  obtain ⟨hb, hev⟩ := hcs hq
  have hm : ∀ m ∈ ms, name ++ m ∈ boundL (q.classes ++ cs) := by
    intro m hm
    rw [boundL_append, hb]
    exact List.mem_append_right _ (List.mem_map_of_mem hm)
  refine ⟨?_, ?_, ?_⟩
  · refine resolves_join.2 ⟨resolves_join.2 ⟨resolves_join.2 ⟨hq.1, resolves_all fun s hs n hn => hev s hs n hn⟩,
      resolves_single ?_⟩, ?_⟩
    · show NamesIn _ _
      refine namesIn_sub (.inl hu) (namesInL_names ?_)
      intro n hn
      obtain ⟨m, hm', rfl⟩ := List.mem_map.1 hn
      exact .inr (hm m hm')
    · split
      · exact resolves_single (by intro n hn; simp [evaluated, Expr.str, freeNames] at hn)
      · trivial
  · rw [boundL_append, boundL_append]
    exact List.mem_append_left _ (List.mem_append_right _ (by simp [boundL, bound]))
  · intro m hm'
    rw [boundL_append, boundL_append]
    exact List.mem_append_left _ (List.mem_append_left _ (hm m hm'))

end
end

/-! ## one fragment -/

/-- what generating one fragment does to the registry and to the names of the module -/
structure FragStep (c : Ctx) (U X : String → Prop) (f : FragDef) (r r' : Reg) (ss : List Stmt) : Prop where
  styled : Styled c.env r'
  external : ∀ n, External r n → External r' n
  types : ∀ n, RegisteredType r' n ↔ RegisteredType r n
  others : ∀ g, g ≠ f.name → r'.fragmentMap.get? g = r.fragmentMap.get? g ∧
    r'.interfaceFragmentImpl.get? g = r.interfaceFragmentImpl.get? g ∧
    r'.unionFragmentMembers.get? g = r.unionFragmentMembers.get? g ∧
    r'.fragmentTypeMap.get? g = r.fragmentTypeMap.get? g
  resolves : ∀ E : String → Prop, (∀ n, External r' n ∨ RegisteredType r n ∨
    (∃ g, Spreads f.sels g ∧ UsableClass ⟨c.schema, U, U⟩ r g n) ∨ X n → E n) → Resolves E ss
  own : ∀ n, UsableClass ⟨c.schema, U, U⟩ r' f.name n → n ∈ boundL ss ∨
    (Kind.fragment.style c.env f.name = .ok n ∧ IsInterface c.schema f.typeCondition ∧ U f.name)

theorem usableClass_congr {S : Places} {a b : Reg} {g n : String} (h1 : b.fragmentMap.get? g = a.fragmentMap.get? g)
    (h2 : b.interfaceFragmentImpl.get? g = a.interfaceFragmentImpl.get? g)
    (h3 : b.unionFragmentMembers.get? g = a.unionFragmentMembers.get? g)
    (h4 : b.fragmentTypeMap.get? g = a.fragmentTypeMap.get? g) :
    UsableClass S b g n ↔ UsableClass S a g n := by
  unfold UsableClass
  rw [h1, h2, h3, h4]

theorem External.congr {a b : Reg} {n : String} (h1 : b.imports = a.imports) (h2 : b.builtins = a.builtins)
    (h3 : b.scalarMap = a.scalarMap) : External b n ↔ External a n := by
  unfold External
  rw [h1, h2, h3]

theorem Styled.congr {env : Env} {a b : Reg} (h : Styled env a) (e : ∀ k, b.classMap k = a.classMap k) : Styled env b :=
  fun k n c hk => h k n c (by rw [← e k]; exact hk)

theorem RegisteredType.congr {a b : Reg} {n : String} (e : ∀ k, k ≠ .fragment → b.classMap k = a.classMap k) :
    RegisteredType b n ↔ RegisteredType a n := by
  constructor
  · rintro ⟨k, t, hk, h⟩
    exact ⟨k, t, hk, by rw [← e k (by rcases hk with rfl | rfl <;> simp)]; exact h⟩
  · rintro ⟨k, t, hk, h⟩
    exact ⟨k, t, hk, by rw [e k (by rcases hk with rfl | rfl <;> simp)]; exact h⟩

theorem Soft.fields {a b : Reg} (h : Soft a b) : (∀ k, b.classMap k = a.classMap k) ∧
    b.interfaceFragmentImpl = a.interfaceFragmentImpl ∧ b.unionFragmentMembers = a.unionFragmentMembers ∧
    b.fragmentTypeMap = a.fragmentTypeMap := by
  refine ⟨fun k => ?_, ?_, ?_, ?_⟩
  · rw [h.frame.2]
  · rw [h.same]
  · rw [h.same]
  · rw [h.same]

/-- the generation of one fragment -/
theorem generateFragment_step {prep : List Char → List Char} {c : Ctx} {p : FragmentsConfig} {f : FragDef} {r r' : Reg}
    {ss : List Stmt} {U X : String → Prop} (hp : PlainConfig c.config) (hX : BasesIn X c) (hF : LonelyField X c)
    (hU : ∀ g, AtUnion c.schema g f.typeCondition f.sels → U g)
    (hr : ∀ g, RawSpread f.sels g → X g) (hself : ¬ Spreads f.sels f.name) (hs : Styled c.env r)
    (hi : r.interfaceFragmentImpl.get? f.name = none) (hu : r.unionFragmentMembers.get? f.name = none)
    (h : generateFragment prep c p f r = .ok (ss, r')) : FragStep c U X f r r' ss := by
  unfold generateFragment at h
  cases hlk : c.schema.types.get? f.typeCondition with
  | none => rw [hlk] at h; exact (Gen.fail_ok.1 h).elim
  | some e =>
  rw [hlk] at h
  dsimp only at h
  obtain ⟨name, ra, h1, h⟩ := Gen.bind_ok.1 h
  have hsa := styled_generateClass hs h1
  obtain ⟨hnc, hsty, rfl⟩ := generateClass_ok h1
  obtain ⟨_, rb, h2, h⟩ := Gen.bind_ok.1 h
  unfold registerFragmentDocument at h2
  split at h2
  · cases h2
  cases h2
  obtain ⟨_, rc, h3, h⟩ := Gen.bind_ok.1 h
  unfold registerFragmentType at h3
  cases h3
  obtain ⟨r0, hr0⟩ : ∃ r0, r0 = { r.setClass .fragment f.name name with
      fragmentDocumentMap := (r.setClass .fragment f.name name).fragmentDocumentMap.set f.name
        (String.ofList (Documents.printFragment f))
      fragmentTypeMap := r.fragmentTypeMap.set f.name f.typeCondition } := ⟨_, rfl⟩
  have hg : fragmentBody prep c p f name e r0 = .ok (ss, r') := by rw [hr0]; exact h
  have s0 : Styled c.env r0 := hsa.congr (by rw [hr0]; intro k; cases k <;> rfl)
  have t0 : ∀ k, k ≠ .fragment → r0.classMap k = r.classMap k := by
    rw [hr0]; intro k hk; cases k <;> first | rfl | exact (hk rfl).elim
  have t1 : r0.fragmentMap = r.fragmentMap.set f.name name := by rw [hr0]; rfl
  have t3 : r0.interfaceFragmentImpl = r.interfaceFragmentImpl := by rw [hr0]; rfl
  have t4 : r0.unionFragmentMembers = r.unionFragmentMembers := by rw [hr0]; rfl
  have t6 : r0.fragmentTypeMap = r.fragmentTypeMap.set f.name f.typeCondition := by rw [hr0]
  have t5 : ∀ n, External r n ↔ External r0 n := fun n => External.congr (by rw [hr0]; rfl) (by rw [hr0]; rfl) (by rw [hr0]; rfl)
  clear h hr0 hsa h1
  have hcls : ∀ g, g ≠ f.name → ∀ n, UsableClass ⟨c.schema, U, U⟩ r0 g n ↔ UsableClass ⟨c.schema, U, U⟩ r g n := fun g hg n =>
    usableClass_congr (by rw [t1, Dict.get?_set_ne _ _ hg.symm]) (by rw [t3]) (by rw [t4])
      (by rw [t6, Dict.get?_set_ne _ _ hg.symm])
  have hw : WalkIn ⟨c.schema, Spreads f.sels, U⟩ f.typeCondition f.sels := ⟨fun _ h => h, hU⟩
  -- from a run of the generating part
  have avail : ∀ {r1 : Reg}, (∀ n, External r1 n → External r' n) → ∀ E : String → Prop,
      (∀ n, External r' n ∨ RegisteredType r n ∨ (∃ g, Spreads f.sels g ∧ UsableClass ⟨c.schema, U, U⟩ r g n) ∨ X n → E n) →
      ∀ n, Avail ⟨c.schema, Spreads f.sels, U⟩ X r0 r1 n → E n := by
    intro r1 h1 E hE n hn
    rcases hn with hn | hn | ⟨g, hg, hn⟩ | hn
    · exact hE n (.inl (h1 n hn))
    · exact hE n (.inr (.inl ((RegisteredType.congr t0).1 hn)))
    · exact hE n (.inr (.inr (.inl ⟨g, hg, (hcls g (fun e => hself (e ▸ hg)) n).1 hn⟩)))
    · exact hE n (.inr (.inr (.inr hn)))
  have full : (∀ n, UsableClass ⟨c.schema, U, U⟩ r' f.name n → n ∈ boundL ss ∨
      (Kind.fragment.style c.env f.name = .ok n ∧ IsInterface c.schema f.typeCondition ∧ U f.name)) → Styled c.env r' →
      (∀ n, External r0 n → External r' n) → (∀ k, r'.classMap k = r0.classMap k) →
      (∀ g, g ≠ f.name → r'.interfaceFragmentImpl.get? g = r0.interfaceFragmentImpl.get? g ∧
        r'.unionFragmentMembers.get? g = r0.unionFragmentMembers.get? g) → r'.fragmentTypeMap = r0.fragmentTypeMap →
      (∀ E : String → Prop, (∀ n, External r' n ∨ RegisteredType r n ∨
        (∃ g, Spreads f.sels g ∧ UsableClass ⟨c.schema, U, U⟩ r g n) ∨ X n → E n) → Resolves E ss) → FragStep c U X f r r' ss := by
    intro a1 a2 a3 a4 a5 a7 a6
    refine ⟨a2, fun n hn => a3 n ((t5 n).1 hn), fun n => RegisteredType.congr fun k hk => by rw [a4, t0 k hk], ?_, a6, a1⟩
    intro g hg
    obtain ⟨b1, b2⟩ := a5 g hg
    refine ⟨?_, by rw [b1, t3], by rw [b2, t4], by rw [a7, t6, Dict.get?_set_ne _ _ hg.symm]⟩
    have : r'.fragmentMap = r0.fragmentMap := a4 .fragment
    rw [this, t1, Dict.get?_set_ne _ _ hg.symm]
  obtain ⟨E0, hE0⟩ : ∃ E0 : String → Prop, E0 = fun _ => True := ⟨_, rfl⟩
  obtain ⟨ek, ed⟩ := e
  cases ek with
  | interface fs is =>
    unfold fragmentBody at hg
    obtain ⟨r1, hc, rfl⟩ := interfaceFragment_core hg
    obtain ⟨sft, hq⟩ := (scoped_interfaceFragmentCore (S := ⟨c.schema, Spreads f.sels, U⟩) hp hX hF rfl (lookup_of_types hlk) hw).run r0 ss r1 s0 hc
    obtain ⟨c1, c2, c3, c4⟩ := sft.fields
    refine full ?_ ?_ ?_ ?_ ?_ ?_ ?_
    · intro n hn
      have hif : IsInterface c.schema f.typeCondition := ⟨fs, is, lookup_of_types hlk⟩
      rcases hn with ⟨hn, ho⟩ | ⟨m, t, hm, hn⟩ | ⟨m, t, hm, hn⟩
      · have hn : r1.fragmentMap.get? f.name = some n := hn
        have e1 : r1.fragmentMap = r0.fragmentMap := c1 .fragment
        rw [e1, t1, Dict.get?_set_self] at hn
        cases hn
        rcases ho with ho | ho | ⟨t, ho, hnt⟩
        · dsimp only at ho
          rw [Dict.get?_set_self] at ho
          cases ho
        · exact .inr ⟨hsty, hif, ho⟩
        · dsimp only at ho
          rw [c4, t6, Dict.get?_set_self] at ho
          cases ho
          exact (hnt hif).elim
      · dsimp only at hm
        rw [Dict.get?_set_self] at hm
        cases hm
        rcases (foldl_set_entries (α := Implementation) (·.name) (fun i => name ++ i.name) _ []).1 _ _ hn with hn | ⟨i, hi, rfl, rfl⟩
        · cases hn
        · exact .inl ((hq (fun _ => True) (fun _ _ => trivial)).2 i hi)
      · dsimp only at hm
        rw [c3, t4, hu] at hm
        cases hm
    · exact (s0.soft sft).congr fun k => by cases k <;> rfl
    · intro n hn
      exact (External.congr rfl rfl rfl).2 (sft.external hn)
    · intro k
      rw [← c1 k]
      cases k <;> rfl
    · intro g hg
      exact ⟨by dsimp only; rw [Dict.get?_set_ne _ _ hg.symm, c2], by dsimp only; rw [c3]⟩
    · exact c4
    · intro E hE
      exact (hq E (avail (fun n hn => (External.congr rfl rfl rfl).2 hn) E hE)).1
  | object fs is =>
    unfold fragmentBody at hg
    obtain ⟨sft, hq⟩ := (scoped_objectFragment (S := ⟨c.schema, Spreads f.sels, U⟩) hp hX hF rfl hw).run r0 ss r' s0 hg
    obtain ⟨c1, c2, c3, c4⟩ := sft.fields
    refine full ?_ (s0.soft sft) (fun n hn => sft.external hn) c1 (fun g _ => by rw [c2, c3]; exact ⟨rfl, rfl⟩) c4 ?_
    · intro n hn
      rcases hn with ⟨hn, _⟩ | ⟨m, t, hm, hn⟩ | ⟨m, t, hm, hn⟩
      · have e1 : r'.fragmentMap = r0.fragmentMap := c1 .fragment
        rw [e1, t1, Dict.get?_set_self] at hn
        cases hn
        exact .inl (hq (fun _ => True) (fun _ _ => trivial)).2
      · rw [c2, t3, hi] at hm
        cases hm
      · rw [c3, t4, hu] at hm
        cases hm
    · intro E hE
      exact (hq E (avail (fun n hn => hn) E hE)).1
  | union ms =>
    unfold fragmentBody at hg
    obtain ⟨r1, hc, rfl⟩ := unionFragment_core hg
    obtain ⟨sft, hq⟩ := (scoped_unionFragmentCore (S := ⟨c.schema, Spreads f.sels, U⟩) hp hX hF rfl hw hr).run r0 ss r1 s0 hc
    obtain ⟨c1, c2, c3, c4⟩ := sft.fields
    refine full ?_ ?_ ?_ ?_ ?_ ?_ ?_
    · intro n hn
      rcases hn with ⟨hn, _⟩ | ⟨m, t, hm, hn⟩ | ⟨m, t, hm, hn⟩
      · have hn : r1.fragmentMap.get? f.name = some n := hn
        have e1 : r1.fragmentMap = r0.fragmentMap := c1 .fragment
        rw [e1, t1, Dict.get?_set_self] at hn
        cases hn
        exact .inl (hq (fun _ => True) (fun _ _ => trivial)).2.1
      · dsimp only at hm
        rw [c2, t3, hi] at hm
        cases hm
      · dsimp only at hm
        rw [Dict.get?_set_self] at hm
        cases hm
        rcases (foldl_set_entries (α := String) id (fun i => name ++ i) _ []).1 _ _ hn with hn | ⟨i, hi, _, rfl⟩
        · cases hn
        · exact .inl ((hq (fun _ => True) (fun _ _ => trivial)).2.2 i hi)
    · exact (s0.soft sft).congr fun k => by cases k <;> rfl
    · intro n hn
      exact (External.congr rfl rfl rfl).2 (sft.external hn)
    · intro k
      rw [← c1 k]
      cases k <;> rfl
    · intro g hg
      exact ⟨by dsimp only; rw [c2], by dsimp only; rw [Dict.get?_set_ne _ _ hg.symm, c3]⟩
    · exact c4
    · intro E hE
      exact (hq E (avail (fun n hn => (External.congr rfl rfl rfl).2 hn) E hE)).1
  | _ => unfold fragmentBody at hg; exact (Gen.fail_ok.1 hg).elim

/-! ## all fragments -/

/-- what generating a list of fragments does; `D` are the fragments generated before -/
theorem generateFragments_resolve {prep : List Char → List Char} {c : Ctx} {p : FragmentsConfig} {U X : String → Prop}
    (hp : PlainConfig c.config) (hX : BasesIn X c) (hF : LonelyField X c) (fs : List FragDef) :
    ∀ {D : String → Prop} {r r' : Reg} {ss : List Stmt}, Styled c.env r →
    (∀ f ∈ fs, ∀ g, AtUnion c.schema g f.typeCondition f.sels → U g) →
    (∀ f ∈ fs, ∀ g, RawSpread f.sels g → X g) → (fs.map (·.name)).Nodup → (∀ f ∈ fs, ¬ Spreads f.sels f.name) →
    (∀ before d after, fs = before ++ d :: after → ∀ x, Spreads d.sels x → D x ∨ x ∈ before.map (·.name)) →
    (∀ d ∈ fs, r.interfaceFragmentImpl.get? d.name = none ∧ r.unionFragmentMembers.get? d.name = none) →
    generateFragments prep c p fs r = .ok (ss, r') →
    Styled c.env r' ∧ (∀ n, External r n → External r' n) ∧ (∀ n, RegisteredType r' n ↔ RegisteredType r n) ∧
    ∀ E : String → Prop, (∀ n, External r' n → E n) → (∀ n, RegisteredType r n → E n) → (∀ n, X n → E n) →
      (∀ g n, D g → g ∉ fs.map (·.name) → UsableClass ⟨c.schema, U, U⟩ r g n → E n) →
      (∀ f ∈ fs, D f.name → False) →
      (∀ f ∈ fs, ∀ n, IsInterface c.schema f.typeCondition → U f.name → Kind.fragment.style c.env f.name = .ok n → E n) →
      Resolves E ss ∧ ∀ g n, (D g ∨ g ∈ fs.map (·.name)) → UsableClass ⟨c.schema, U, U⟩ r' g n → Plus E ss n := by
  induction fs with
  | nil =>
    intro D r r' ss hs _ _ _ _ _ _ hg
    obtain ⟨rfl, rfl⟩ := Gen.pure_ok.1 hg
    refine ⟨hs, fun _ h => h, fun _ => Iff.rfl, fun E _ _ _ hD _ _ => ⟨trivial, fun g n hg hc => .inl (hD g n ?_ (by simp) hc)⟩⟩
    simpa using hg
  | cons f fs ih =>
    intro D r r' ss hs hun hraw hnd hself hord hfirst hg
    unfold generateFragments at hg
    obtain ⟨s1, r1, h1, hg⟩ := Gen.bind_ok.1 hg
    obtain ⟨s2, r2, h2, hg⟩ := Gen.bind_ok.1 hg
    obtain ⟨rfl, rfl⟩ := Gen.pure_ok.1 hg
    rw [List.map_cons, List.nodup_cons] at hnd
    obtain ⟨f1, f2⟩ := hfirst f (List.mem_cons_self ..)
    have st := generateFragment_step hp hX hF (hun f (List.mem_cons_self ..)) (hraw f (List.mem_cons_self ..)) (hself f (List.mem_cons_self ..)) hs f1 f2 h1
    have hne : ∀ d ∈ fs, d.name ≠ f.name := fun d hd e => hnd.1 (e ▸ List.mem_map_of_mem hd)
    obtain ⟨i1, i2, i3, i4⟩ := ih (D := fun g => D g ∨ g = f.name) st.styled (fun d hd => hun d (List.mem_cons_of_mem _ hd))
      (fun d hd => hraw d (List.mem_cons_of_mem _ hd)) hnd.2
      (fun d hd => hself d (List.mem_cons_of_mem _ hd))
      (fun before d after e x hx => by
        have := hord (f :: before) d after (by rw [e]; rfl) x hx
        simpa [or_assoc] using this)
      (fun d hd => by
        obtain ⟨_, b1, b2, _⟩ := st.others d.name (hne d hd)
        rw [b1, b2]
        exact hfirst d (List.mem_cons_of_mem _ hd)) h2
    refine ⟨i1, fun n hn => i2 n (st.external n hn), fun n => (i3 n).trans (st.types n), ?_⟩
    intro E hE1 hE2 hE3 hE4 hE5 hE6
    have spread : ∀ g n, Spreads f.sels g → UsableClass ⟨c.schema, U, U⟩ r g n → E n := by
      intro g n hg hn
      have hDg : D g := by
        have := hord [] f fs rfl g hg
        simpa using this
      refine hE4 g n hDg ?_ hn
      intro hm
      obtain ⟨d, hd, hde⟩ := List.mem_map.1 hm
      exact hE5 d hd (hde ▸ hDg)
    have hres1 : Resolves E s1 := st.resolves E fun n hn => by
      rcases hn with hn | hn | ⟨g, hg, hn⟩ | hn
      · exact hE1 n (i2 n hn)
      · exact hE2 n hn
      · exact spread g n hg hn
      · exact hE3 n hn
    have old : ∀ g n, (D g ∨ g = f.name) → g ∉ fs.map (·.name) → UsableClass ⟨c.schema, U, U⟩ r1 g n → Plus E s1 n := by
      intro g n hg hgn hn
      rcases Classical.em (g = f.name) with rfl | hgf
      · rcases st.own n hn with hb | ⟨a, b, u⟩
        · exact .inr hb
        · exact .inl (hE6 f (List.mem_cons_self ..) n b u a)
      · have hDg : D g := hg.resolve_right hgf
        obtain ⟨b0, b1, b2, b3⟩ := st.others g hgf
        refine .inl (hE4 g n hDg ?_ ((usableClass_congr b0 b1 b2 b3).1 hn))
        simp only [List.map_cons, List.mem_cons, not_or]
        exact ⟨hgf, hgn⟩
    obtain ⟨j1, j2⟩ := i4 (Plus E s1) (fun n hn => .inl (hE1 n hn)) (fun n hn => .inl (hE2 n ((st.types n).1 hn)))
      (fun n hn => .inl (hE3 n hn)) old
      (fun d hd hDd => hDd.elim (hE5 d (List.mem_cons_of_mem _ hd)) (hne d hd))
      (fun d hd n a u b => .inl (hE6 d (List.mem_cons_of_mem _ hd) n a u b))
    refine ⟨resolves_join.2 ⟨hres1, j1⟩, fun g n hg hn => ?_⟩
    have := j2 g n (by simpa [or_assoc] using hg) hn
    rcases this with (h | h) | h
    · exact .inl h
    · exact .inr (by rw [boundL_append]; exact List.mem_append_left _ h)
    · exact .inr (by rw [boundL_append]; exact List.mem_append_right _ h)

/-! ## operations -/

section
variable {α β : Type} {env : Env} {S : Places} {X : String → Prop}

theorem scoped_referenceNamed {n : String} : Scoped env S X (referenceNamed env n) NamesIn := by
  constructor
  intro r a r' hs h
  unfold referenceNamed at h
  split at h
  · split at h
    · split at h
      · cases h
      · exact scoped_referenceEnum.run r a r' hs h
    · exact scoped_referenceInput.run r a r' hs h
  · exact scoped_referenceScalar.run r a r' hs h

theorem scoped_recurseTypeAnnotation (t : TypeNode) : ∀ {o : Bool},
    Scoped env S X (recurseTypeAnnotation env none t o) NamesIn := by
  induction t with
  | named n =>
    intro o
    unfold recurseTypeAnnotation namedOr
    exact scoped_referenceNamed.bind fun x => scoped_optionalWrap
  | list t ih =>
    intro o
    unfold recurseTypeAnnotation
    refine (scoped_registerImport (n := "List") (by decide +kernel)).bind fun _ => ih.bind fun x =>
      scoped_optionalWrap.mono fun E e he hx hl => he (namesIn_sub hl hx)
  | nonNull t ih => intro o; unfold recurseTypeAnnotation; exact ih

theorem defaultMarker_value {d : Option Value} {r r' : Reg} {a : Option Expr} (h : defaultMarker d r = .ok (a, r')) :
    r' = r ∧ ∃ t, a = Option.map Expr.str t := by
  unfold defaultMarker at h
  cases d with
  | none => obtain ⟨rfl, rfl⟩ := Gen.pure_ok.1 h; exact ⟨rfl, none, rfl⟩
  | some v =>
    obtain ⟨t, r1, h1, h⟩ := Gen.bind_ok.1 h
    obtain ⟨rfl, rfl⟩ := Gen.pure_ok.1 h
    refine ⟨?_, t, rfl⟩
    unfold variableDefault at h1
    split at h1 <;> first | exact (Gen.fail_ok.1 h1).elim | exact (Gen.pure_ok.1 h1).2.symm

theorem scoped_defaultMarker {d : Option Value} : Scoped env S X (defaultMarker d) fun _ _ => True :=
  ⟨fun r a r' _ h => by rw [(defaultMarker_value h).1]; exact ⟨Soft.refl _, fun _ _ => trivial⟩⟩

theorem scoped_argumentValue {n t : String} {o : Bool} (hF : o = true → X "Field") :
    Scoped env S X (argumentValue n t o) fun E v => ∀ m ∈ freeNamesO v, E m := by
  unfold argumentValue
  refine .ite (fun _ => ?_) fun _ => ?_
  · refine (scoped_registerImport (n := "Field") (by decide +kernel)).bind fun _ => .pure fun E h m hm => ?_
    cases o <;> simp [freeNamesO, freeNames, freeNamesL, freeNamesK, Expr.str] at hm <;> exact hm ▸ h
  · refine scoped_assumeIf hF (.pure fun E h m hm => ?_)
    cases o
    · simp [freeNamesO] at hm
    · simp [freeNamesO, freeNames, freeNamesL, freeNamesK] at hm
      exact hm ▸ h rfl

theorem plus_nil {E : String → Prop} {n : String} (h : Plus E [] n) : E n := by
  rcases h with h | h
  · exact h
  · cases h

theorem scoped_argumentStmt {c : Ctx} {v : VarDef} (hF : v.isOptional = true → X "Field") :
    Scoped c.env S X (argumentStmt c v) fun E s => ∀ n ∈ evaluated s, E n := by
  unfold argumentStmt
  refine (scoped_recurseTypeAnnotation _).bind fun a => scoped_optionalWrap.bind fun a' =>
    scoped_defaultMarker.bindP (V := fun d => ∃ t, d = Option.map Expr.str t) (fun r d r' h => (defaultMarker_value h).2)
    fun d ⟨t, hd⟩ => ?_
  subst hd
  refine (scoped_annotateFieldMetadata (ss := [])).bind fun a'' => scoped_parameterName.bind fun nm =>
    (scoped_argumentValue hF).bind fun value => .pure ?_
  intro E hv _ ha'' _ ha' ha n hn
  simp only [evaluated, List.mem_append] at hn
  rcases hn with hn | hn
  · exact plus_nil (ha'' ((ha' ha).mono fun _ => .inl) n hn)
  · exact hv n hn

theorem scoped_argumentStmts {c : Ctx} (vs : List VarDef) : (∀ v ∈ vs, v.isOptional = true → X "Field") →
    Scoped c.env S X (argumentStmts c vs) BodyIn := by
  induction vs with
  | nil => intro _; exact .pure fun _ => .nil
  | cons v vs ih =>
    intro h
    unfold argumentStmts
    exact (scoped_argumentStmt (h v (List.mem_cons_self ..))).bind fun s =>
      (ih fun w hw => h w (List.mem_cons_of_mem _ hw)).bind fun ss => .pure fun E hss hs => .cons hs hss

theorem scoped_argumentsConfig {c : Ctx} : Scoped env S X (argumentsConfig c) BodyIn := by
  unfold argumentsConfig
  refine (scoped_registerImport (n := "ConfigDict") (by decide +kernel)).bind fun _ => .pure fun E h => .cons (fun n hn => ?_) .nil
  have : n = "ConfigDict" := by
    cases hb : c.config.options.allowPopulationByFieldName <;>
      simp [evaluated, freeNames, freeNamesL, freeNamesK, hb, optBoolConst] at hn <;> exact hn
  exact this ▸ h

theorem scoped_basesOrObject {c : Ctx} {bs : List String} : Scoped env S X (basesOrObject c bs) NamesInL := by
  unfold basesOrObject
  exact scoped_registerImports.bind fun _ => .pure fun _ h => h

theorem scoped_argumentsClass {c : Ctx} {p : OperationsConfig} {o : OpDef} {name : String}
    (hF : p.createArguments = true → ∀ v ∈ o.vars, v.isOptional = true → X "Field") :
    Scoped c.env S X (argumentsClass c p o name) BodyIn := by
  unfold argumentsClass
  refine .ite (fun hc => ?_) fun _ => .pure fun _ => .nil
  refine (scoped_argumentStmts o.vars (hF hc)).bind fun body => scoped_argumentsConfig.bind fun cfg =>
    scoped_basesOrObject.bind fun bs => .pure ?_
  intro E hb hc hbody
  refine .cons (classDef_in hb (.cons (fun n hn => ?_) (hbody.append hc))) .nil
  simp [evaluated, Expr.str, freeNames] at hn

theorem scoped_rootTypeOf {s : Schema} {k : OpKind} : Scoped env S X (rootTypeOf s k) fun _ _ => True := by
  unfold rootTypeOf; split
  · exact .pure fun _ => trivial
  · exact .fail

theorem scoped_operationSels {c : Ctx} {root cls : String} (hp : PlainConfig c.config) (hX : BasesIn X c)
    (hF : LonelyField X c) (hSc : S.schema = c.schema) (ss : List Sel) : WalkIn S root ss →
    Scoped c.env S X (operationSels c root cls ss) fun E x => Resolves E x.2 ∧ BodyIn (Plus E x.2) x.1.flatten := by
  induction ss with
  | nil => intro _; exact .pure fun E => ⟨trivial, .nil⟩
  | cons s rest ih =>
    intro h
    unfold operationSels
    have hs : Scoped c.env S X (operationSel c root cls s) PartsIn := by
      unfold operationSel
      split
      · exact scoped_assertFieldDef.bindP (V := fun fd => FieldOn S.schema root _ fd.type)
          (fun r fd r' hv => by rw [hSc]; exact assertFieldDef_value hv) fun fd hfd =>
          (scoped_typeFieldNode hp hX hF hSc (h.field hfd)).mono fun _ _ hx _ => hx
      · exact .fail
    refine hs.bind fun a => (ih h.tail).bind fun p => .pure ?_
    intro E hp ha
    refine ⟨Resolves.join ha.1 hp.1, ?_⟩
    rw [List.flatten_cons]
    exact (ha.2.mono fun n hn => hn.append_left).append (hp.2.mono fun n hn => hn.append_right)

end

theorem rootTypeOf_value {s : Schema} {k : OpKind} {r r' : Reg} {t : String} (h : rootTypeOf s k r = .ok (t, r')) :
    s.root k = some t := by
  unfold rootTypeOf at h
  cases hr : s.root k with
  | none => rw [hr] at h; exact (Gen.fail_ok.1 h).elim
  | some u =>
    rw [hr] at h
    obtain ⟨rfl, _⟩ := Gen.pure_ok.1 h
    rfl

theorem operationMeta_in {E : String → Prop} {p : OperationsConfig} {name d : String} :
    ∀ n ∈ evaluated (operationMeta p name d), E n := by
  intro n hn
  unfold operationMeta at hn
  split at hn <;> simp [evaluated, evaluatedL, freeNames, freeNamesL, Expr.str] at hn

/-- the generation of one operation -/
theorem generateOperation_resolve {prep : List Char → List Char} {c : Ctx} {p : OperationsConfig} {o : OpDef}
    {U X : String → Prop} {r r' : Reg} {ss : List Stmt} (hp : PlainConfig c.config) (hX : BasesIn X c) (hF : LonelyField X c)
    (hU : ∀ root, c.schema.root o.kind = some root → ∀ g, AtUnion c.schema g root o.sels → U g)
    (hA : p.createArguments = true → ∀ v ∈ o.vars, v.isOptional = true → X "Field") (hs : Styled c.env r)
    (h : generateOperation prep c p o r = .ok (ss, r')) :
    Styled c.env r' ∧ (∀ n, External r n → External r' n) ∧ (∀ n, RegisteredType r' n ↔ RegisteredType r n) ∧
    (∀ S g n, UsableClass S r' g n ↔ UsableClass S r g n) ∧
    ∀ E : String → Prop, (∀ n, Avail ⟨c.schema, Spreads o.sels, U⟩ X r r' n → E n) → Resolves E ss := by
  unfold generateOperation at h
  cases hn : o.name with
  | none => rw [hn] at h; exact (Gen.fail_ok.1 h).elim
  | some name =>
  rw [hn] at h
  dsimp only at h
  obtain ⟨cls, r1, h1, h⟩ := Gen.bind_ok.1 h
  have s1 := styled_generateClass hs h1
  obtain ⟨_, _, rfl⟩ := generateClass_ok h1
  obtain ⟨bases, r2, h2, h⟩ := Gen.bind_ok.1 h
  obtain ⟨f2, q2⟩ := (scoped_basesOrObject (S := ⟨c.schema, Spreads o.sels, U⟩) (X := X)).run _ _ _ s1 h2
  obtain ⟨root, r3, h3, h⟩ := Gen.bind_ok.1 h
  obtain ⟨f3, _⟩ := (scoped_rootTypeOf (S := ⟨c.schema, Spreads o.sels, U⟩) (X := X)).run _ _ _ (s1.soft f2) h3
  obtain ⟨x, r4, h4, h⟩ := Gen.bind_ok.1 h
  obtain ⟨f4, q4⟩ := (scoped_operationSels (S := ⟨c.schema, Spreads o.sels, U⟩) hp hX hF rfl o.sels
    ⟨fun _ h => h, hU root (rootTypeOf_value h3)⟩).run _ _ _ ((s1.soft f2).soft f3) h4
  obtain ⟨u, r5, h5, h⟩ := Gen.bind_ok.1 h
  have e5 : ∃ m, r5 = { r4 with operationSingle := m } := by
    unfold registerSingle at h5
    split at h5
    · split at h5 <;> cases h5
      · exact ⟨_, rfl⟩
      · exact ⟨_, rfl⟩
    · cases h5; exact ⟨_, rfl⟩
  obtain ⟨m, rfl⟩ := e5
  have s4 : Styled c.env { r4 with operationSingle := m } := (((s1.soft f2).soft f3).soft f4).congr fun k => by cases k <;> rfl
  obtain ⟨doc, r6, h6, h⟩ := Gen.bind_ok.1 h
  obtain ⟨f6, _⟩ := (scoped_mergedDocument (S := ⟨c.schema, Spreads o.sels, U⟩) (X := X)).run _ _ _ s4 h6
  obtain ⟨args, r7, h7, h⟩ := Gen.bind_ok.1 h
  obtain ⟨f7, q7⟩ := (scoped_argumentsClass (S := ⟨c.schema, Spreads o.sels, U⟩) (X := X) hA).run _ _ _ (s4.soft f6) h7
  obtain ⟨rfl, rfl⟩ := Gen.pure_ok.1 h
  have f23 := f2.trans f3
  have f24 := f23.trans f4
  have f57 := f6.trans f7
  have a0 : ∀ n, External r n → External (r.setClass o.kind.kind name cls) n := fun n hn =>
    (External.congr (by cases o.kind <;> rfl) (by cases o.kind <;> rfl) (by cases o.kind <;> rfl)).2 hn
  have a4 : ∀ n, External r4 n → External r7 n := fun n hn => f57.external ((External.congr rfl rfl rfl).2 hn)
  have b0 : ∀ n, RegisteredType (r.setClass o.kind.kind name cls) n ↔ RegisteredType r n := by
    intro n
    unfold RegisteredType
    constructor <;> (rintro ⟨k, t, hk, hm⟩; refine ⟨k, t, hk, ?_⟩; rcases hk with rfl | rfl <;> (revert hm; cases o.kind <;> exact id))
  have c0 : ∀ S g n, UsableClass S (r.setClass o.kind.kind name cls) g n ↔ UsableClass S r g n := fun S g n =>
    usableClass_congr (by cases o.kind <;> rfl) (by cases o.kind <;> rfl) (by cases o.kind <;> rfl) (by cases o.kind <;> rfl)
  have b4 : ∀ n, RegisteredType { r4 with operationSingle := m } n ↔ RegisteredType r4 n := fun n =>
    RegisteredType.congr fun k _ => by cases k <;> rfl
  have c4 : ∀ S g n, UsableClass S { r4 with operationSingle := m } g n ↔ UsableClass S r4 g n := fun S g n => Iff.rfl
  refine ⟨(s4.soft f6).soft f7, fun n hn => a4 n (f24.external (a0 n hn)), fun n => ?_, fun S g n => ?_, ?_⟩
  · rw [f57.registeredType, b4, f24.registeredType, b0]
  · rw [f57.usableClass, c4, f24.usableClass, c0]
  · intro E hE
    have up : ∀ {ra rb : Reg}, (∀ n, External rb n → External r7 n) → (∀ n, RegisteredType ra n → RegisteredType r n) →
        (∀ S g n, UsableClass S ra g n → UsableClass S r g n) → ∀ n, Avail ⟨c.schema, Spreads o.sels, U⟩ X ra rb n → E n := by
      intro ra rb h1 h2 h3 n hn
      rcases hn with hn | hn | ⟨g, hg, hn⟩ | hn
      · exact hE n (.inl (h1 n hn))
      · exact hE n (.inr (.inl (h2 n hn)))
      · exact hE n (.inr (.inr (.inl ⟨g, hg, h3 _ g n hn⟩)))
      · exact hE n (.inr (.inr (.inr hn)))
    have hb := q2 E (up (fun n hn => a4 n (f4.external (f3.external hn))) (fun n hn => (b0 n).1 hn) fun S g n hn => (c0 S g n).1 hn)
    have hx := q4 E (up a4 (fun n hn => (b0 n).1 (f23.registeredType.1 hn)) fun S g n hn => (c0 S g n).1 (f23.usableClass.1 hn))
    have ha := q7 E (up (fun n hn => hn)
      (fun n hn => (b0 n).1 (f24.registeredType.1 ((b4 n).1 (f6.registeredType.1 hn))))
      fun S g n hn => (c0 S g n).1 (f24.usableClass.1 ((c4 S g n).1 (f6.usableClass.1 hn))))
    refine resolves_class hx.1 hb (.cons ?_ ((hx.2.append (ha.mono fun _ => .inl)).append (.cons operationMeta_in .nil)))
    intro n hn
    simp [operationDoc, evaluated, Expr.str, freeNames] at hn

/-- an operation without base classes of its own imports the base classes of objects -/
theorem generateOperation_bases {prep : List Char → List Char} {c : Ctx} {p : OperationsConfig} {o : OpDef}
    {r r' : Reg} {ss : List Stmt} (hp : PlainConfig c.config) (hs : Styled c.env r) (hb : p.basesFor o.kind = [])
    (h : generateOperation prep c p o r = .ok (ss, r')) : ∀ b ∈ c.config.objectBases, External r' (lastComponent b) := by
  have hX : BasesIn (fun _ => True) c := fun _ _ => trivial
  have hF : LonelyField (fun _ => True) c := fun _ _ _ _ _ _ _ => trivial
  unfold generateOperation at h
  cases hn : o.name with
  | none => rw [hn] at h; exact (Gen.fail_ok.1 h).elim
  | some name =>
  rw [hn] at h
  dsimp only at h
  obtain ⟨cls, r1, h1, h⟩ := Gen.bind_ok.1 h
  have s1 := styled_generateClass hs h1
  obtain ⟨bases, r2, h2, h⟩ := Gen.bind_ok.1 h
  have hi : ∀ b ∈ c.config.objectBases, External r2 (lastComponent b) := by
    have h2' := h2
    unfold basesOrObject at h2'
    rw [hb] at h2'
    obtain ⟨_, r2', h3, h4⟩ := Gen.bind_ok.1 h2'
    obtain ⟨_, rfl⟩ := Gen.pure_ok.1 h4
    exact (soft_registerImports h3).2
  obtain ⟨f2, _⟩ := (scoped_basesOrObject (S := ⟨c.schema, Spreads o.sels, fun _ => True⟩) (X := fun _ => True)).run _ _ _ s1 h2
  obtain ⟨root, r3, h3, h⟩ := Gen.bind_ok.1 h
  obtain ⟨f3, _⟩ := (scoped_rootTypeOf (S := ⟨c.schema, Spreads o.sels, fun _ => True⟩) (X := fun _ => True)).run _ _ _ (s1.soft f2) h3
  obtain ⟨x, r4, h4, h⟩ := Gen.bind_ok.1 h
  obtain ⟨f4, _⟩ := (scoped_operationSels (S := ⟨c.schema, Spreads o.sels, fun _ => True⟩) hp hX hF rfl o.sels
    ⟨fun _ h => h, fun _ _ => trivial⟩).run _ _ _ ((s1.soft f2).soft f3) h4
  obtain ⟨u, r5, h5, h⟩ := Gen.bind_ok.1 h
  have e5 : ∃ m, r5 = { r4 with operationSingle := m } := by
    unfold registerSingle at h5
    split at h5
    · split at h5 <;> cases h5
      · exact ⟨_, rfl⟩
      · exact ⟨_, rfl⟩
    · cases h5; exact ⟨_, rfl⟩
  obtain ⟨m, rfl⟩ := e5
  have s4 : Styled c.env { r4 with operationSingle := m } := (((s1.soft f2).soft f3).soft f4).congr fun k => by cases k <;> rfl
  obtain ⟨doc, r6, h6, h⟩ := Gen.bind_ok.1 h
  obtain ⟨f6, _⟩ := (scoped_mergedDocument (S := ⟨c.schema, Spreads o.sels, fun _ => True⟩) (X := fun _ => True)).run _ _ _ s4 h6
  obtain ⟨args, r7, h7, h⟩ := Gen.bind_ok.1 h
  obtain ⟨f7, _⟩ := (scoped_argumentsClass (S := ⟨c.schema, Spreads o.sels, fun _ => True⟩) (X := fun _ => True) fun _ _ _ _ => trivial).run _ _ _ (s4.soft f6) h7
  obtain ⟨rfl, rfl⟩ := Gen.pure_ok.1 h
  intro b hbm
  exact (f6.trans f7).external ((External.congr rfl rfl rfl).2 (f4.external (f3.external (hi b hbm))))

/-- all operations -/
theorem generateOperations_resolve {prep : List Char → List Char} {c : Ctx} {p : OperationsConfig}
    {U X : String → Prop} (hp : PlainConfig c.config) (hX : BasesIn X c) (hF : LonelyField X c) (os : List OpDef) :
    ∀ {r r' : Reg} {ss : List Stmt},
    (∀ o ∈ os, ∀ root, c.schema.root o.kind = some root → ∀ g, AtUnion c.schema g root o.sels → U g) →
    (p.createArguments = true → ∀ o ∈ os, ∀ v ∈ o.vars, v.isOptional = true → X "Field") → Styled c.env r →
    generateOperations prep c p os r = .ok (ss, r') →
    (∀ n, External r n → External r' n) ∧
    ∀ E : String → Prop, (∀ n, External r' n → E n) → (∀ n, RegisteredType r n → E n) → (∀ n, X n → E n) →
      (∀ o ∈ os, ∀ g n, Spreads o.sels g → UsableClass ⟨c.schema, U, U⟩ r g n → E n) → Resolves E ss := by
  induction os with
  | nil =>
    intro r r' ss _ _ _ h
    obtain ⟨rfl, rfl⟩ := Gen.pure_ok.1 h
    exact ⟨fun _ h => h, fun _ _ _ _ _ => trivial⟩
  | cons o os ih =>
    intro r r' ss hU hA hs h
    unfold generateOperations at h
    obtain ⟨s1, r1, h1, h⟩ := Gen.bind_ok.1 h
    obtain ⟨s2, r2, h2, h⟩ := Gen.bind_ok.1 h
    obtain ⟨rfl, rfl⟩ := Gen.pure_ok.1 h
    obtain ⟨a1, a2, a3, a4, a5⟩ := generateOperation_resolve hp hX hF (hU o (List.mem_cons_self ..)) (fun hc => hA hc o (List.mem_cons_self ..)) hs h1
    obtain ⟨b1, b2⟩ := ih (fun o' ho => hU o' (List.mem_cons_of_mem _ ho)) (fun hc o' ho => hA hc o' (List.mem_cons_of_mem _ ho)) a1 h2
    refine ⟨fun n hn => b1 n (a2 n hn), fun E e1 e2 e3 e4 => resolves_join.2 ⟨a5 E ?_, b2 _ ?_ ?_ ?_ ?_⟩⟩
    · intro n hn
      rcases hn with hn | hn | ⟨g, hg, hn⟩ | hn
      · exact e1 n (b1 n hn)
      · exact e2 n hn
      · exact e4 o (List.mem_cons_self ..) g n hg hn
      · exact e3 n hn
    · exact fun n hn => .inl (e1 n hn)
    · exact fun n hn => .inl (e2 n ((a3 n).1 hn))
    · exact fun n hn => .inl (e3 n hn)
    · exact fun o' ho g n hg hn => .inl (e4 o' (List.mem_cons_of_mem _ ho) g n hg ((a4 _ g n).1 hn))

end Turms
