import Verif.Lemmas.EvolutionFuncs
import Verif.Lemmas.StillWalk

/-! # What generating one definition leaves behind in the registry -/

namespace Turms
open Spec

/-- what the registry knows about a fragment, except its text -/
def Reg.entry (r : Reg) (n : String) : Option String × Option String × Option (Dict String) × Option (Dict String) :=
  (r.fragmentMap.get? n, r.fragmentTypeMap.get? n, r.interfaceFragmentImpl.get? n, r.unionFragmentMembers.get? n)

/-- Only the entries of the fragments `F`, the texts of the fragments `D` and the entries of the operations `O` may have
changed (and imports, helper classes and forward references). -/
structure Touched (F D O : String → Prop) (r r1 : Reg) : Prop where
  frags : ∀ n, ¬ F n → r1.entry n = r.entry n
  docs : ∀ n, ¬ D n → r1.fragmentDocumentMap.get? n = r.fragmentDocumentMap.get? n
  queries : ∀ n, ¬ O n → r1.queryMap.get? n = r.queryMap.get? n
  mutations : ∀ n, ¬ O n → r1.mutationMap.get? n = r.mutationMap.get? n
  subscriptions : ∀ n, ¬ O n → r1.subscriptionMap.get? n = r.subscriptionMap.get? n
  singles : ∀ n, ¬ O n → r1.operationSingle.get? n = r.operationSingle.get? n
  scalarMap : r1.scalarMap = r.scalarMap
  enumMap : r1.enumMap = r.enumMap
  inputMap : r1.inputMap = r.inputMap
  objectMap : r1.objectMap = r.objectMap
  interfaceReferenceMap : r1.interfaceReferenceMap = r.interfaceReferenceMap
  interfaceBaseclassMap : r1.interfaceBaseclassMap = r.interfaceBaseclassMap
  interfaceFragments : r1.interfaceFragments = r.interfaceFragments

theorem Touched.refl {F D O : String → Prop} (r : Reg) : Touched F D O r r :=
  ⟨fun _ _ => rfl, fun _ _ => rfl, fun _ _ => rfl, fun _ _ => rfl, fun _ _ => rfl, fun _ _ => rfl, rfl, rfl, rfl, rfl, rfl, rfl, rfl⟩

theorem Touched.trans {F D O : String → Prop} {a b c : Reg} (h : Touched F D O a b) (k : Touched F D O b c) : Touched F D O a c :=
  ⟨fun n hn => (k.frags n hn).trans (h.frags n hn), fun n hn => (k.docs n hn).trans (h.docs n hn),
    fun n hn => (k.queries n hn).trans (h.queries n hn), fun n hn => (k.mutations n hn).trans (h.mutations n hn),
    fun n hn => (k.subscriptions n hn).trans (h.subscriptions n hn), fun n hn => (k.singles n hn).trans (h.singles n hn),
    k.scalarMap.trans h.scalarMap, k.enumMap.trans h.enumMap, k.inputMap.trans h.inputMap, k.objectMap.trans h.objectMap,
    k.interfaceReferenceMap.trans h.interfaceReferenceMap, k.interfaceBaseclassMap.trans h.interfaceBaseclassMap,
    k.interfaceFragments.trans h.interfaceFragments⟩

theorem Touched.mono {F D O F' D' O' : String → Prop} {a b : Reg} (h : Touched F D O a b) (hF : ∀ n, F n → F' n)
    (hD : ∀ n, D n → D' n) (hO : ∀ n, O n → O' n) : Touched F' D' O' a b :=
  { h with
    frags := fun n hn => h.frags n fun x => hn (hF n x)
    docs := fun n hn => h.docs n fun x => hn (hD n x)
    queries := fun n hn => h.queries n fun x => hn (hO n x)
    mutations := fun n hn => h.mutations n fun x => hn (hO n x)
    subscriptions := fun n hn => h.subscriptions n fun x => hn (hO n x)
    singles := fun n hn => h.singles n fun x => hn (hO n x) }

theorem Quiet.touched {F D O : String → Prop} {r r1 : Reg} (h : Quiet r r1) : Touched F D O r r1 := by
  obtain ⟨_, _, _, rfl, _⟩ := h
  exact ⟨fun _ _ => rfl, fun _ _ => rfl, fun _ _ => rfl, fun _ _ => rfl, fun _ _ => rfl, fun _ _ => rfl, rfl, rfl, rfl, rfl, rfl,
    rfl, rfl⟩

/-- every run of the generator touches nothing else -/
structure Moves {α : Type} (F D O : String → Prop) (g : Gen α) : Prop where
  run : ∀ r a r1, g r = .ok (a, r1) → Touched F D O r r1

section
variable {α β : Type} {F D O : String → Prop}

theorem Moves.bind {x : Gen α} {f : α → Gen β} (hx : Moves F D O x) (hf : ∀ a, Moves F D O (f a)) : Moves F D O (x >>= f) :=
  ⟨fun r b r1 h => by
    obtain ⟨a, r2, h1, h2⟩ := Gen.bind_ok.1 h
    exact (hx.run _ _ _ h1).trans ((hf a).run _ _ _ h2)⟩
theorem Still.moves {g : Gen α} (h : Still g) : Moves F D O g := ⟨fun _ _ _ hg => (h.quiet hg).touched⟩
theorem Moves.pure {a : α} : Moves F D O (pure a : Gen α) := Still.pure.moves
theorem Moves.fail {e : Err} : Moves F D O (Gen.fail e : Gen α) := Still.fail.moves
theorem Moves.mono {F' D' O' : String → Prop} {g : Gen α} (h : Moves F D O g) (hF : ∀ n, F n → F' n) (hD : ∀ n, D n → D' n)
    (hO : ∀ n, O n → O' n) : Moves F' D' O' g := ⟨fun r a r1 hg => (h.run r a r1 hg).mono hF hD hO⟩
end

theorem get?_set_other {α : Type} {d : Dict α} {k n : String} {v : α} (h : ¬ n = k) : (d.set k v).get? n = d.get? n :=
  Dict.get?_set_ne _ _ fun e => h e.symm

section
variable {F D O : String → Prop}

theorem moves_fragmentClass {env : Env} {f : String} (hf : F f) : Moves F D O (generateClass env .fragment f) :=
  ⟨fun r a r1 h => by
  unfold generateClass at h
  split at h
  · cases h
  split at h
  · cases h
  · cases h
    refine { Touched.refl (F := F) (D := D) (O := O) r with frags := fun n hn => ?_ }
    have : n ≠ f := fun e => hn (e ▸ hf)
    simp only [Reg.entry, Reg.setClass, get?_set_other this]⟩
theorem moves_opClass {env : Env} {k : OpKind} {f : String} (hf : O f) : Moves F D O (generateClass env k.kind f) :=
  ⟨fun r a r1 h => by
  unfold generateClass at h
  split at h
  · cases h
  split at h
  · cases h
  · cases h
    have ne : ∀ n, ¬ O n → ¬ n = f := fun n hn e => hn (e ▸ hf)
    cases k
    · exact { Touched.refl (F := F) (D := D) (O := O) r with queries := fun n hn => get?_set_other (ne n hn) }
    · exact { Touched.refl (F := F) (D := D) (O := O) r with mutations := fun n hn => get?_set_other (ne n hn) }
    · exact { Touched.refl (F := F) (D := D) (O := O) r with subscriptions := fun n hn => get?_set_other (ne n hn) }⟩
theorem moves_fragmentDocument {f d : String} (hf : D f) : Moves F D O (registerFragmentDocument f d) := ⟨fun r a r1 h => by
  unfold registerFragmentDocument at h
  split at h
  · cases h
  · cases h
    exact { Touched.refl (F := F) (D := D) (O := O) r with docs := fun n hn => get?_set_other fun e => hn (e ▸ hf) }⟩
theorem moves_fragmentType {f t : String} (hf : F f) : Moves F D O (registerFragmentType f t) := ⟨fun r a r1 h => by
  cases h
  refine { Touched.refl (F := F) (D := D) (O := O) r with frags := fun n hn => ?_ }
  have : n ≠ f := fun e => hn (e ▸ hf)
  simp only [Reg.entry, get?_set_other this]⟩
theorem moves_implementations {f : String} {m : Dict String} (hf : F f) : Moves F D O (registerImplementations f m) :=
  ⟨fun r a r1 h => by
  cases h
  refine { Touched.refl (F := F) (D := D) (O := O) r with frags := fun n hn => ?_ }
  have : n ≠ f := fun e => hn (e ▸ hf)
  simp only [Reg.entry, get?_set_other this]⟩
theorem moves_unionMembers {f : String} {m : Dict String} (hf : F f) : Moves F D O (registerUnionMembers f m) :=
  ⟨fun r a r1 h => by
  cases h
  refine { Touched.refl (F := F) (D := D) (O := O) r with frags := fun n hn => ?_ }
  have : n ≠ f := fun e => hn (e ▸ hf)
  simp only [Reg.entry, get?_set_other this]⟩
theorem moves_single {f : String} {ns : List (List Stmt)} (hf : O f) : Moves F D O (registerSingle f ns) := ⟨fun r a r1 h => by
  unfold registerSingle at h
  split at h
  · split at h
    · cases h
      exact { Touched.refl (F := F) (D := D) (O := O) r with singles := fun n hn => get?_set_other fun e => hn (e ▸ hf) }
    · cases h; exact .refl r
  · cases h; exact .refl r⟩
end

/-! ## fragments -/

section
variable {c : Ctx}

theorem still_fragSpreadBase {f t : String} : Still (fragSpreadBase f t) := by
  constructor
  intro r a r' h
  unfold fragSpreadBase at h
  split at h
  · split at h
    · cases h; exact ⟨.refl _, trivial⟩
    · cases h
  · exact ⟨still_inheritFragment.quiet h, trivial⟩
theorem still_unionMembersOf {f : String} : Still (unionMembersOf f) := by
  constructor
  intro r a r' h
  unfold unionMembersOf at h
  split at h
  · cases h; exact ⟨.refl _, trivial⟩
  · cases h
theorem still_assertFieldDef {s : Schema} {t n : String} : Still (assertFieldDef s t n) := by unfold assertFieldDef; still

theorem still_fragInterfaceSels {fs : List FieldDef} {n : String} (ss : List Sel) : Still (fragInterfaceSels c fs n ss) := by
  induction ss with
  | nil => exact .pure
  | cons s ss ih =>
    unfold fragInterfaceSels
    refine Still.bind ?_ fun _ => ih.bind fun _ => .pure
    unfold fragInterfaceSel
    split
    · exact (still_inlineSels _ _ _).bind fun _ => .pure
    · exact still_interfaceSel _ _ _

theorem still_fragObjectSels {t n : String} (ss : List Sel) : Still (fragObjectSels c t n ss) := by
  induction ss with
  | nil => exact .pure
  | cons s ss ih =>
    unfold fragObjectSels
    refine Still.bind ?_ fun _ => ih.bind fun _ => .pure
    cases s with
    | spread f => exact still_fragSpreadBase.bind fun _ => .pure
    | inline t sub => exact .pure
    | field a b d e =>
      unfold fragObjectSel
      exact .ite .pure (still_assertFieldDef.bind fun _ => still_typeFieldNode.bind fun _ => .pure)

theorem still_fragUnionInlineSels {t n : String} (ss : List Sel) : Still (fragUnionInlineSels c t n ss) := by
  induction ss with
  | nil => exact .pure
  | cons s ss ih =>
    unfold fragUnionInlineSels
    refine Still.bind ?_ fun _ => ih.bind fun _ => .pure
    cases s with
    | spread f => exact .pure
    | inline t sub => exact .pure
    | field a b d e =>
      unfold fragUnionInlineSel
      exact .ite .pure (still_assertFieldDef.bind fun _ => still_typeFieldNode.bind fun _ => .pure)

theorem still_fragUnionSels {n : String} (ss : List Sel) : Still (fragUnionSels c n ss) := by
  induction ss with
  | nil => exact .pure
  | cons s ss ih =>
    unfold fragUnionSels
    refine Still.bind ?_ fun _ => ih.bind fun _ => .pure
    cases s with
    | spread f => exact still_unionMembersOf.bind fun _ => .pure
    | inline t sub =>
      cases t with
      | none => exact .fail
      | some t => exact (still_fragUnionInlineSels _).bind fun _ => .pure
    | field a b d e =>
      unfold fragUnionSel
      exact .ite .pure .fail

theorem still_fragmentBasesOf {p : FragmentsConfig} {b : Bool} : Still (fragmentBasesOf c p b) := by
  unfold fragmentBasesOf
  exact still_registerImports.bind fun _ => still_registerImports.bind fun _ => still_registerImports.bind fun _ => .pure

theorem still_fragImplementingClasses {m : String} {p : InterfaceParts} (is : List Implementation) :
    Still (fragImplementingClasses c m p is) := by
  induction is with
  | nil => exact .pure
  | cons i is ih =>
    unfold fragImplementingClasses fragImplementingClass
    exact (still_additionalBasesFor.bind fun _ => still_interfaceBasesOf.bind fun _ =>
      still_typenameField.bind fun _ => .pure).bind fun _ => ih.bind fun _ => .pure

theorem still_fragMemberClasses {p : FragmentsConfig} {m : String} {q : InterfaceParts} (ms : List String) :
    Still (fragMemberClasses c p m q ms) := by
  induction ms with
  | nil => exact .pure
  | cons i is ih =>
    unfold fragMemberClasses fragMemberClass
    exact (still_fragmentBasesOf.bind fun _ => still_typenameField.bind fun _ => .pure).bind fun _ =>
      ih.bind fun _ => .pure

theorem still_fragmentMeta {prep : List Char → List Char} {p : FragmentsConfig} {f : FragDef} : Still (fragmentMeta prep p f) := by
  unfold fragmentMeta
  exact .ite (still_mergedDocument.bind fun _ => .pure) .pure

theorem moves_fragmentBody {prep : List Char → List Char} {p : FragmentsConfig} {f : FragDef} {n : String} {e : TypeEntry} :
    Moves (· = f.name) (fun _ => False) (fun _ => False) (fragmentBody prep c p f n e) := by
  obtain ⟨d, desc⟩ := e
  cases d with
  | scalar => exact .fail
  | enum vs => exact .fail
  | input a b => exact .fail
  | object fs is =>
    unfold fragmentBody objectFragment
    exact (still_additionalBasesFor.bind fun _ => still_typenameField.bind fun _ => (still_fragObjectSels _).bind fun _ =>
      still_fragmentMeta.bind fun _ => still_fragmentBasesOf.bind fun _ => still_generatePydanticConfig.bind fun _ => .pure).moves
  | interface fs is =>
    unfold fragmentBody interfaceFragment
    exact still_additionalBasesFor.moves.bind fun _ => (still_fragInterfaceSels _).moves.bind fun _ =>
      still_interfaceBasesOf.moves.bind fun _ => still_genericTypenameField.moves.bind fun _ =>
      (still_fragImplementingClasses _).moves.bind fun _ => (moves_implementations (F := (· = f.name)) rfl).bind fun _ => .pure
  | union ms =>
    unfold fragmentBody unionFragment
    exact still_additionalBasesFor.moves.bind fun _ => (still_fragUnionSels _).moves.bind fun _ =>
      (still_fragMemberClasses _).moves.bind fun _ => (moves_unionMembers (F := (· = f.name)) rfl).bind fun _ =>
      still_registerImport.moves.bind fun _ => .pure

theorem moves_generateFragment {prep : List Char → List Char} {p : FragmentsConfig} {f : FragDef} :
    Moves (· = f.name) (· = f.name) (fun _ => False) (generateFragment prep c p f) := by
  unfold generateFragment
  split
  · exact .fail
  · exact (moves_fragmentClass (F := (· = f.name)) rfl).bind fun _ => (moves_fragmentDocument (D := (· = f.name)) rfl).bind fun _ =>
      (moves_fragmentType (F := (· = f.name)) rfl).bind fun _ => moves_fragmentBody.mono (fun _ h => h) (fun _ h => h.elim) fun _ h => h

/-- the text registered for a fragment -/
theorem generateFragment_text {prep : List Char → List Char} {p : FragmentsConfig} {f : FragDef} {r r1 : Reg} {s : List Stmt}
    (h : generateFragment prep c p f r = .ok (s, r1)) :
    r1.fragmentDocumentMap.get? f.name = some (String.ofList (Documents.printFragment f)) := by
  unfold generateFragment at h
  cases he : c.schema.types.get? f.typeCondition with
  | none => rw [he] at h; cases Gen.fail_ok.1 h
  | some e =>
    rw [he] at h
    dsimp only at h
    obtain ⟨a, ra, h1, h⟩ := Gen.bind_ok.1 h
    obtain ⟨b, rb, h2, h⟩ := Gen.bind_ok.1 h
    obtain ⟨d, rd, h3, h4⟩ := Gen.bind_ok.1 h
    rw [(moves_fragmentBody.run _ _ _ h4).docs _ id]
    cases h3
    unfold registerFragmentDocument at h2
    split at h2
    · cases h2
    · cases h2
      exact Dict.get?_set_self _ _ _

/-! ## operations and functions -/

theorem moves_generateOperation {prep : List Char → List Char} {p : OperationsConfig} {o : OpDef} :
    Moves (fun _ => False) (fun _ => False) (fun n => o.name = some n) (generateOperation prep c p o) := by
  unfold generateOperation
  split
  · exact .fail
  · rename_i n hn
    exact (moves_opClass hn).bind fun _ => still_basesOrObject.moves.bind fun _ => still_rootTypeOf.moves.bind fun _ =>
      (still_operationSels _).moves.bind fun _ => (moves_single hn).bind fun _ => still_mergedDocument.moves.bind fun _ =>
      still_argumentsClass.moves.bind fun _ => .pure

theorem generateOperation_named {prep : List Char → List Char} {p : OperationsConfig} {o : OpDef} {r r1 : Reg} {s : List Stmt}
    (h : generateOperation prep c p o r = .ok (s, r1)) : ∃ n, o.name = some n := by
  unfold generateOperation at h
  cases he : o.name with
  | none => rw [he] at h; cases Gen.fail_ok.1 h
  | some n => exact ⟨n, rfl⟩
end

/-! ## loops -/

/-- generate for one after the other -/
def loop {α : Type} (g : α → Gen (List Stmt)) : List α → Gen (List Stmt)
  | [] => pure []
  | x :: xs => do
    let s ← g x
    let rest ← loop g xs
    pure (s ++ rest)

theorem generateFragments_loop {prep : List Char → List Char} {c : Ctx} {p : FragmentsConfig} (fs : List FragDef) :
    generateFragments prep c p fs = loop (generateFragment prep c p) fs := by
  induction fs with
  | nil => rfl
  | cons f fs ih => simp only [generateFragments, loop, ih]
theorem generateOperations_loop {prep : List Char → List Char} {c : Ctx} {p : OperationsConfig} (fs : List OpDef) :
    generateOperations prep c p fs = loop (generateOperation prep c p) fs := by
  induction fs with
  | nil => rfl
  | cons f fs ih => simp only [generateOperations, loop, ih]
theorem allOperationFuncs_loop {c : Ctx} {p : FuncsConfig} (os : List OpDef) :
    allOperationFuncs c p os = loop (fun o => operationFuncs c p o (p.definitionsFor o)) os := by
  induction os with
  | nil => rfl
  | cons f fs ih => simp only [allOperationFuncs, loop, ih]

section
variable {α : Type} {g : α → Gen (List Stmt)}

/-- The code of a loop is put together from the code of its elements, whose keys are distinct. -/
theorem loop_trace {κ : Type} (key : α → κ) (xs : List α) : ∀ {r R : Reg} {ss : List Stmt}, (xs.map key).Nodup →
    loop g xs r = .ok (ss, R) → ∃ code : α → List Stmt, ss = xs.flatMap code ∧
      ∀ before x after, xs = before ++ x :: after → ∃ q q1, loop g before r = .ok (before.flatMap code, q) ∧
        g x q = .ok (code x, q1) ∧ loop g after q1 = .ok (after.flatMap code, R) := by
  classical
  induction xs with
  | nil =>
    intro r R ss _ h
    obtain ⟨rfl, rfl⟩ := Gen.pure_ok.1 h
    exact ⟨fun _ => [], rfl, fun b x a e => by simp at e⟩
  | cons x xs ih =>
    intro r R ss hn h
    obtain ⟨s, r1, h1, h⟩ := Gen.bind_ok.1 h
    obtain ⟨rest, r2, h2, h⟩ := Gen.bind_ok.1 h
    obtain ⟨rfl, rfl⟩ := Gen.pure_ok.1 h
    rw [List.map_cons, List.nodup_cons] at hn
    obtain ⟨code, rfl, ht⟩ := ih hn.2 h2
    have hx : (if key x = key x then s else code x) = s := if_pos rfl
    have hne : ∀ ys : List α, (∀ y ∈ ys, y ∈ xs) → ys.flatMap (fun y => if key y = key x then s else code y) = ys.flatMap code := by
      intro ys
      induction ys with
      | nil => intro _; rfl
      | cons y ys ih' =>
        intro hys
        have hk : ¬ key y = key x := fun e => hn.1 (List.mem_map.2 ⟨y, hys y (.head _), e⟩)
        simp only [List.flatMap_cons, if_neg hk, ih' fun z hz => hys z (.tail _ hz)]
    refine ⟨fun y => if key y = key x then s else code y, ?_, ?_⟩
    · rw [List.flatMap_cons, hne xs fun _ h => h, if_pos rfl]
    · intro before y after he
      cases before with
      | nil =>
        simp only [List.nil_append, List.cons.injEq] at he
        obtain ⟨rfl, rfl⟩ := he
        refine ⟨r, r1, rfl, ?_, ?_⟩
        · simpa using h1
        · rw [hne _ fun _ h => h]; exact h2
      | cons b before =>
        simp only [List.cons_append, List.cons.injEq] at he
        obtain ⟨rfl, rfl⟩ := he
        obtain ⟨q, q1, g1, g2, g3⟩ := ht before y after rfl
        have hk : ¬ key y = key x := fun e => hn.1 (List.mem_map.2 ⟨y, by simp, e⟩)
        refine ⟨q, q1, ?_, ?_, ?_⟩
        · refine Gen.bind_ok.2 ⟨s, r1, h1, Gen.bind_ok.2 ⟨_, _, g1, ?_⟩⟩
          rw [List.flatMap_cons, hne before fun z hz => by simp [hz]]
          simp only [if_true]
          rfl
        · simpa only [if_neg hk] using g2
        · rw [hne after fun z hz => by simp [hz]]; exact g3

theorem loop_append (xs ys : List α) (r : Reg) {s t : List Stmt} {q q1 : Reg} (h : loop g xs r = .ok (s, q))
    (k : loop g ys q = .ok (t, q1)) : loop g (xs ++ ys) r = .ok (s ++ t, q1) := by
  induction xs generalizing r s with
  | nil => obtain ⟨rfl, rfl⟩ := Gen.pure_ok.1 h; exact k
  | cons x xs ih =>
    obtain ⟨a, r1, h1, h⟩ := Gen.bind_ok.1 h
    obtain ⟨b, r2, h2, h⟩ := Gen.bind_ok.1 h
    obtain ⟨rfl, rfl⟩ := Gen.pure_ok.1 h
    exact Gen.bind_ok.2 ⟨_, _, h1, Gen.bind_ok.2 ⟨_, _, ih r1 h2, by rw [List.append_assoc]; rfl⟩⟩

theorem loop_one {x : α} {r q : Reg} {s : List Stmt} (h : g x r = .ok (s, q)) : loop g [x] r = .ok (s, q) :=
  Gen.bind_ok.2 ⟨_, _, h, Gen.bind_ok.2 ⟨_, _, rfl, by rw [List.append_nil]; rfl⟩⟩

theorem loop_moves {F D O : α → String → Prop} (h : ∀ x, Moves (F x) (D x) (O x) (g x)) (xs : List α) :
    Moves (fun n => ∃ x ∈ xs, F x n) (fun n => ∃ x ∈ xs, D x n) (fun n => ∃ x ∈ xs, O x n) (loop g xs) := by
  induction xs with
  | nil => exact .pure
  | cons x xs ih =>
    exact ((h x).mono (fun n e => ⟨x, .head _, e⟩) (fun n e => ⟨x, .head _, e⟩) fun n e => ⟨x, .head _, e⟩).bind fun _ =>
      (ih.mono (fun n ⟨y, hy, e⟩ => ⟨y, .tail _ hy, e⟩) (fun n ⟨y, hy, e⟩ => ⟨y, .tail _ hy, e⟩)
        fun n ⟨y, hy, e⟩ => ⟨y, .tail _ hy, e⟩).bind fun _ => .pure

/-- Run for some of the elements, in any order: if every step can be repeated, the same code is put together. -/
theorem loop_compose {κ : Type} (key : α → κ) {xs xs' : List α} (hn : (xs'.map key).Nodup) {r r' R' : Reg} {ss : List Stmt}
    (hsub : ∀ x ∈ xs, x ∈ xs') (h' : loop g xs' r' = .ok (ss, R')) (Inv : List α → Reg → Prop) (base : Inv [] r)
    (step : ∀ before x after before' after' q q' q1' s s1 s2, xs = before ++ x :: after → xs' = before' ++ x :: after' →
      Inv before q → loop g before' r' = .ok (s1, q') → g x q' = .ok (s, q1') → loop g after' q1' = .ok (s2, R') →
      ∃ q1, g x q = .ok (s, q1) ∧ Inv (before ++ [x]) q1) :
    ∃ code q, ss = xs'.flatMap code ∧ (∀ x ∈ xs', ∃ a b, g x a = .ok (code x, b)) ∧
      loop g xs r = .ok (xs.flatMap code, q) ∧ Inv xs q := by
  obtain ⟨code, hc, ht⟩ := loop_trace (g := g) key xs' hn h'
  suffices h : ∀ n before after, before.length = n → xs = before ++ after →
      ∃ q, loop g before r = .ok (before.flatMap code, q) ∧ Inv before q by
    obtain ⟨q, h1, h2⟩ := h _ xs [] rfl (by simp)
    refine ⟨code, q, hc, fun x hx => ?_, h1, h2⟩
    obtain ⟨b, a, e⟩ := List.append_of_mem hx
    obtain ⟨q, q1, _, hg, _⟩ := ht b x a e
    exact ⟨q, q1, hg⟩
  intro n
  induction n with
  | zero =>
    intro before after hl he
    rw [List.length_eq_zero_iff] at hl
    subst hl
    exact ⟨r, rfl, base⟩
  | succ n ih =>
    intro before after hl he
    rcases List.eq_nil_or_concat before with rfl | ⟨b, x, rfl⟩
    · simp at hl
    · rw [List.concat_eq_append] at hl he ⊢
      rw [List.length_append] at hl
      have he' : xs = b ++ x :: after := by rw [he]; simp
      obtain ⟨q, hq, hi⟩ := ih b (x :: after) (by simpa using hl) he'
      obtain ⟨b', a', e'⟩ := List.append_of_mem (hsub x (by rw [he']; simp))
      obtain ⟨q', q1', g1, g2, g3⟩ := ht b' x a' e'
      obtain ⟨q1, k1, k2⟩ := step b x after b' a' q q' q1' _ _ _ he' e' hi g1 g2 g3
      exact ⟨q1, by simpa using loop_append b [x] r hq (loop_one k1), k2⟩
end

/-! ## agreement -/

/-- agree on the fragments `K`, on the single annotations of the operations `S`; the operations `U` are new -/
def oldFor (K S U : String → Prop) (prep : List Char → List Char) : Old :=
  Old.mk (fun _ => True) (fun _ => True) (fun _ => True) (fun _ => True) K S U prep True

theorem _root_.Turms.Spec.Extends.refl (s : Schema) : Extends s s where
  query := rfl
  roots _ _ h := h
  types _ e h := ⟨e, h, rfl, by cases e.defn <;> first | trivial | exact fun _ _ h => h | rfl⟩
  implementers _ _ _ _ _ _ := rfl
  helpers _ _ h := h

theorem grown_refl {K S U : String → Prop} {prep : List Char → List Char} (s : Schema) : Grown (oldFor K S U prep) s s :=
  ⟨Extends.refl s, fun _ _ => trivial⟩

theorem agree_of {F D O F' D' O' K S U : String → Prop} {prep : List Char → List Char} {r q q' : Reg}
    (h : Touched F D O r q) (h' : Touched F' D' O' r q') (hK : ∀ n, K n → q'.entry n = q.entry n)
    (hD : ∀ n, K n → q'.fragmentDocumentMap.get? n = q.fragmentDocumentMap.get? n)
    (hC : ∀ n t, K n → q.fragmentDocumentMap.get? n = some t → ∀ x, FoundIn (prep t.toList) x → K x)
    (hU : ∀ n, U n → ¬ O n ∧ ¬ O' n) (hS : ∀ n, S n → q'.operationSingle.get? n = q.operationSingle.get? n) :
    Agree (oldFor K S U prep) q q' where
  imports _ _ := .inl trivial
  builtins _ _ := .inl trivial
  forwardReferences _ _ := .inl trivial
  inputMap _ _ := by rw [h.inputMap, h'.inputMap]
  inputOnly _ _ h := (h trivial).elim
  enumMap _ _ := by rw [h.enumMap, h'.enumMap]
  enumOnly _ _ h := (h trivial).elim
  scalarMap := by rw [h.scalarMap, h'.scalarMap]
  fragmentDocumentMap := hD
  closed := hC
  objectMap := by rw [h.objectMap, h'.objectMap]
  interfaceReferenceMap := by rw [h.interfaceReferenceMap, h'.interfaceReferenceMap]
  interfaceBaseclassMap := by rw [h.interfaceBaseclassMap, h'.interfaceBaseclassMap]
  fragmentMap n hn := congrArg (·.1) (hK n hn)
  queryMap n hn hq := by rw [h'.queries n (hU n hn).2, ← h.queries n (hU n hn).1]; exact hq
  subscriptionMap n hn hq := by rw [h'.subscriptions n (hU n hn).2, ← h.subscriptions n (hU n hn).1]; exact hq
  mutationMap n hn hq := by rw [h'.mutations n (hU n hn).2, ← h.mutations n (hU n hn).1]; exact hq
  interfaceFragments := by rw [h.interfaceFragments, h'.interfaceFragments]
  fragmentTypeMap n hn := congrArg (·.2.1) (hK n hn)
  interfaceFragmentImpl n hn := congrArg (·.2.2.1) (hK n hn)
  unionFragmentMembers n hn := congrArg (·.2.2.2) (hK n hn)
  operationSingle := hS

theorem Agree.entry {N : Old} {q q' : Reg} (h : Agree N q q') {n : String} (hn : N.frags n) : q'.entry n = q.entry n := by
  simp only [Reg.entry, h.fragmentMap n hn, h.fragmentTypeMap n hn, h.interfaceFragmentImpl n hn, h.unionFragmentMembers n hn]

/-! ## texts -/

theorem found_fragment {f : FragDef} (h : fragOk f = true) {x : String}
    (hx : FoundIn (Documents.printFragment f) x) : Spreads f.sels x := by
  have := Documents.printFragment_emits f h [] trivial
  rw [List.append_nil] at this
  simp only [fragOk, Bool.and_eq_true] at h
  refine (Documents.emitSels_mem _ h.2 x).1 ⟨hx.1, ?_⟩
  have h2 := hx.2
  rw [this] at h2
  simpa [Documents.findSpreads] using h2

theorem found_operation {n : String} {o : OpDef} (h : opOk n o = true) {x : String}
    (hx : FoundIn (Documents.printOperation n o) x) : Spreads o.sels x := by
  have := Documents.printOperation_emits n o h [] trivial
  rw [List.append_nil] at this
  simp only [opOk, Bool.and_eq_true] at h
  refine (Documents.emitSels_mem _ h.2 x).1 ⟨hx.1, ?_⟩
  have h2 := hx.2
  rw [this] at h2
  simpa [Documents.findSpreads] using h2

theorem generateFragment_new {c : Ctx} {prep : List Char → List Char} {p : FragmentsConfig} {f : FragDef} {r r1 : Reg}
    {s : List Stmt} (h : generateFragment prep c p f r = .ok (s, r1)) : r.fragmentDocumentMap.get? f.name = none := by
  unfold generateFragment at h
  cases he : c.schema.types.get? f.typeCondition with
  | none => rw [he] at h; cases Gen.fail_ok.1 h
  | some e =>
    rw [he] at h
    dsimp only at h
    obtain ⟨a, ra, h1, h⟩ := Gen.bind_ok.1 h
    obtain ⟨b, rb, h2, h⟩ := Gen.bind_ok.1 h
    have h3 := (moves_fragmentClass (F := fun _ => True) (D := fun _ => False) (O := fun _ => False) trivial).run _ _ _ h1
    rw [← h3.docs _ id]
    unfold registerFragmentDocument at h2
    split at h2
    · cases h2
    · rename_i hc
      cases hg : ra.fragmentDocumentMap.get? f.name with
      | none => rfl
      | some t => exact (hc (by rw [Dict.contains_eq_isSome, hg]; rfl)).elim

/-! ## fragments -/

section
variable {c : Ctx} {prep : List Char → List Char} {frs l l' : List FragDef} {pf : FragmentsConfig}

theorem lookup_unique (hu : (frs.map (·.name)).Nodup) {f : FragDef} (hf : f ∈ frs) : lookup frs f.name = some f := by
  obtain ⟨d, hd⟩ : ∃ d, lookup frs f.name = some d := by
    unfold lookup
    cases he : List.find? (fun g => g.name == f.name) frs.reverse with
    | some d => exact ⟨d, rfl⟩
    | none =>
      rw [List.find?_eq_none] at he
      exact absurd (beq_self_eq_true f.name) (he f (List.mem_reverse.2 hf))
  obtain ⟨h1, h2⟩ := Fragments.lookup_mem hd
  rw [hd, Option.some.injEq]
  exact List.inj_on_of_nodup_map' hu h1 hf h2

/-- What is known of the fragments after both runs: the same, and the texts are printed fragments. -/
structure Meet (frs : List FragDef) (r q q' : Reg) : Prop where
  left : Touched (fun _ => True) (fun _ => True) (fun _ => False) r q
  right : Touched (fun _ => True) (fun _ => True) (fun _ => False) r q'
  entry : ∀ f ∈ frs, q.entry f.name = q'.entry f.name
  docs : ∀ f ∈ frs, q.fragmentDocumentMap.get? f.name = q'.fragmentDocumentMap.get? f.name
  texts : ∀ f ∈ frs, q'.fragmentDocumentMap.get? f.name = some (String.ofList (Documents.printFragment f))

theorem fragments_texts (hu' : (l'.map (·.name)).Nodup) {r R' : Reg} {F' : List Stmt}
    (h' : loop (generateFragment prep c pf) l' r = .ok (F', R')) (f : FragDef) (hf : f ∈ l') :
    R'.fragmentDocumentMap.get? f.name = some (String.ofList (Documents.printFragment f)) := by
  obtain ⟨code, _, ht⟩ := loop_trace (·.name) l' hu' h'
  obtain ⟨b, a, rfl⟩ := List.append_of_mem hf
  obtain ⟨q, q1, _, h2, h3⟩ := ht b f a rfl
  rw [((loop_moves (fun x => moves_generateFragment) a).run _ _ _ h3).docs]
  · exact generateFragment_text h2
  · rintro ⟨x, hx, e⟩
    rw [List.map_append, List.map_cons, List.nodup_append] at hu'
    exact (List.nodup_cons.1 hu'.2.1).1 (List.mem_map.2 ⟨x, hx, e.symm⟩)

theorem compose_fragments (hp : ∀ f, f ∈ l ↔ f ∈ frs) (hl : (l.map (·.name)).Nodup) (hu : (frs.map (·.name)).Nodup)
    (hu' : (l'.map (·.name)).Nodup) (hsub : ∀ f ∈ l, f ∈ l')
    (hord : ∀ before after d, l = before ++ d :: after → ∀ x, Needs frs d.sels x → x ∈ before.map (·.name))
    (hord' : ∀ before after d, d ∈ l → l' = before ++ d :: after → ∀ x, Needs frs d.sels x → x ∈ before.map (·.name))
    (hok : ∀ f ∈ frs, fragOk f = true)
    (hprep : ∀ f ∈ frs, prep (Documents.printFragment f) = Documents.printFragment (Documents.addTypenameToFragment f))
    {r R' : Reg} {F' : List Stmt} (h' : loop (generateFragment prep c pf) l' r = .ok (F', R')) :
    ∃ code q, F' = l'.flatMap code ∧ (∀ f ∈ l', ∃ a b, generateFragment prep c pf f a = .ok (code f, b)) ∧
      loop (generateFragment prep c pf) l r = .ok (l.flatMap code, q) ∧ Meet frs r q R' := by
  have hT := (loop_moves (fun x => moves_generateFragment) l').run _ _ _ h'
  have H := loop_compose (·.name) hu' hsub h'
    (fun before q => Touched (fun n => ∃ x ∈ before, n = x.name) (fun n => ∃ x ∈ before, n = x.name) (fun _ => False) r q ∧
      ∀ f ∈ before, q.entry f.name = R'.entry f.name ∧
        q.fragmentDocumentMap.get? f.name = R'.fragmentDocumentMap.get? f.name)
    ⟨.refl _, fun f hf => by cases hf⟩ (by
    rintro before f after before' after' q q' q1' s s1 s2 rfl rfl ⟨hq, hb⟩ hq' hg hr
    have hfl : f ∈ before ++ f :: after := by simp
    have hneed := hord before after f rfl
    have hneed' := hord' before' after' f hfl rfl
    have tq' := (loop_moves (fun x => moves_generateFragment) before').run _ _ _ hq'
    have tg := moves_generateFragment.run _ _ _ hg
    have tr := (loop_moves (fun x => moves_generateFragment) after').run _ _ _ hr
    rw [List.map_append, List.map_cons, List.nodup_append] at hl hu'
    have n1 : ¬ ∃ x ∈ before, f.name = x.name := fun ⟨x, hx, e⟩ =>
      hl.2.2 _ (List.mem_map.2 ⟨x, hx, rfl⟩) _ (List.mem_cons_self) e.symm
    have n2 : ¬ ∃ x ∈ before', f.name = x.name := fun ⟨x, hx, e⟩ =>
      hu'.2.2 _ (List.mem_map.2 ⟨x, hx, rfl⟩) _ (List.mem_cons_self) e.symm
    have n3 : ¬ ∃ x ∈ after', f.name = x.name := fun ⟨x, hx, e⟩ =>
      (List.nodup_cons.1 hu'.2.1).1 (List.mem_map.2 ⟨x, hx, e.symm⟩)
    have n4 : ∀ n ∈ before'.map (·.name), n ≠ f.name := fun n hn => hu'.2.2 n hn _ List.mem_cons_self
    have n5 : ∀ n ∈ before'.map (·.name), ¬ ∃ x ∈ after', n = x.name := fun n hn ⟨x, hx, e⟩ =>
      hu'.2.2 n hn _ (List.mem_cons_of_mem _ (List.mem_map.2 ⟨x, hx, rfl⟩)) e
    have n6 : ∀ g ∈ before, g.name ≠ f.name := fun g hg => hl.2.2 _ (List.mem_map.2 ⟨g, hg, rfl⟩) _ List.mem_cons_self
    -- a needed fragment was generated before, in both runs
    have hE : ∀ n, Needs frs f.sels n → ∃ d ∈ before, d.name = n ∧ q.entry n = q'.entry n ∧
        q.fragmentDocumentMap.get? n = q'.fragmentDocumentMap.get? n ∧
        q'.fragmentDocumentMap.get? n = some (String.ofList (Documents.printFragment d)) := by
      intro n hn
      obtain ⟨d, hd, rfl⟩ := List.mem_map.1 (hneed n hn)
      have m := hneed' _ hn
      have hdf : R'.fragmentDocumentMap.get? d.name = q'.fragmentDocumentMap.get? d.name := by
        rw [tr.docs _ (n5 _ m), tg.docs _ (n4 _ m)]
      refine ⟨d, hd, rfl, ?_, ?_, ?_⟩
      · rw [(hb d hd).1, tr.frags _ (n5 _ m), tg.frags _ (n4 _ m)]
      · rw [(hb d hd).2, hdf]
      · rw [← hdf]
        exact fragments_texts (by rw [List.map_append, List.map_cons, List.nodup_append]; exact hu') h' d
          (hsub d (by simp [hd]))
    have hA : Agree (oldFor (fun n => n = f.name ∨ Needs frs f.sels n) (fun _ => False) (fun _ => False) prep) q' q := by
      refine agree_of tq' hq ?_ ?_ ?_ (fun _ h => h.elim) fun _ h => h.elim
      · rintro n (rfl | hn)
        · rw [hq.frags _ n1, tq'.frags _ n2]
        · obtain ⟨d, _, _, h, _⟩ := hE n hn
          exact h
      · rintro n (rfl | hn)
        · rw [hq.docs _ n1, tq'.docs _ n2]
        · obtain ⟨d, _, _, _, h, _⟩ := hE n hn
          exact h
      · rintro n t (rfl | hn) ht x hx
        · rw [generateFragment_new hg] at ht; cases ht
        · obtain ⟨d, hd, rfl, _, _, h⟩ := hE n hn
          rw [h, Option.some.injEq] at ht
          subst ht
          have hd' : d ∈ frs := (hp d).1 (by simp [hd])
          rw [String.toList_ofList, hprep d hd'] at hx
          have := found_fragment (Documents.addTypenameToFragment_ok (hok d hd')) hx
          rw [Documents.addTypenameToFragment_spreads] at this
          exact .inr (.through d.name d x hn (lookup_unique hu hd') this)
    have hf : f ∈ frs := (hp f).1 hfl
    have hF : FragIn (oldFor (fun n => n = f.name ∨ Needs frs f.sels n) (fun _ => False) (fun _ => False) prep) f := by
      refine ⟨.inl rfl, fun x hx => .inr (.direct _ hx), fun x hx => .inr (.direct _ (found_fragment (hok f hf) hx)), ?_⟩
      intro x hx
      have hx : FoundIn (prep (Documents.printFragment f)) x := hx
      rw [hprep f hf] at hx
      have := found_fragment (Documents.addTypenameToFragment_ok (hok f hf)) hx
      rw [Documents.addTypenameToFragment_spreads] at this
      exact .inr (.direct _ this)
    obtain ⟨q1, e1, hA1⟩ := (sim_generateFragment (Extends.refl c.schema) (p := pf) hF ((grown_refl c.schema).sees _ _)).run _ _ _ _ hA hg
    refine ⟨q1, e1, ?_, ?_⟩
    · refine (hq.mono ?_ ?_ fun _ h => h).trans ((moves_generateFragment.run _ _ _ e1).mono ?_ ?_ fun _ h => h)
      · exact fun n ⟨x, hx, e⟩ => ⟨x, by simp [hx], e⟩
      · exact fun n ⟨x, hx, e⟩ => ⟨x, by simp [hx], e⟩
      · exact fun n e => ⟨f, by simp, e⟩
      · exact fun n e => ⟨f, by simp, e⟩
    · intro g hgm
      rcases List.mem_append.1 hgm with hgm | hgm
      · rw [(moves_generateFragment.run _ _ _ e1).frags _ (n6 g hgm), (moves_generateFragment.run _ _ _ e1).docs _ (n6 g hgm)]
        exact hb g hgm
      · rw [List.mem_singleton] at hgm
        subst hgm
        rw [tr.frags _ n3, tr.docs _ n3]
        exact ⟨hA1.entry (.inl rfl), hA1.fragmentDocumentMap _ (.inl rfl)⟩)
  obtain ⟨code, q, h1, h2, h3, h4, h5⟩ := H
  exact ⟨code, q, h1, h2, h3, h4.mono (fun _ _ => trivial) (fun _ _ => trivial) fun _ h => h,
      hT.mono (fun _ _ => trivial) (fun _ _ => trivial) fun _ ⟨_, _, h⟩ => h,
      fun f hf => (h5 f ((hp f).2 hf)).1, fun f hf => (h5 f ((hp f).2 hf)).2,
      fun f hf => fragments_texts hu' h' f (hsub f ((hp f).2 hf))⟩

/-! ## operations -/

variable {po : OperationsConfig} {p : FuncsConfig} {os os' : List OpDef}

/-- both registries agree on what an operation needs -/
theorem Meet.agree {O O' S U : String → Prop} {r q0 q0' q q' : Reg} (hM : Meet frs r q0 q0')
    (h : Touched (fun _ => False) (fun _ => False) O q0 q) (h' : Touched (fun _ => False) (fun _ => False) O' q0' q')
    (hu : (frs.map (·.name)).Nodup) (hok : ∀ f ∈ frs, fragOk f = true)
    (hprep : ∀ f ∈ frs, prep (Documents.printFragment f) = Documents.printFragment (Documents.addTypenameToFragment f))
    {sels : List Sel} (hdef : ∀ x, Needs frs sels x → x ∈ frs.map (·.name))
    (hU : ∀ n, U n → ¬ O n ∧ ¬ O' n) (hS : ∀ n, S n → q.operationSingle.get? n = q'.operationSingle.get? n) :
    Agree (oldFor (Needs frs sels) S U prep) q' q := by
  have t : Touched (fun _ => True) (fun _ => True) O r q :=
    (hM.left.mono (fun _ h => h) (fun _ h => h) fun _ h => h.elim).trans (h.mono (fun _ h => h.elim) (fun _ h => h.elim) fun _ h => h)
  have t' : Touched (fun _ => True) (fun _ => True) O' r q' :=
    (hM.right.mono (fun _ h => h) (fun _ h => h) fun _ h => h.elim).trans
      (h'.mono (fun _ h => h.elim) (fun _ h => h.elim) fun _ h => h)
  refine agree_of t' t ?_ ?_ ?_ (fun n hn => ⟨(hU n hn).2, (hU n hn).1⟩) hS
  · intro n hn
    obtain ⟨d, hd, rfl⟩ := List.mem_map.1 (hdef n hn)
    rw [h.frags _ id, h'.frags _ id]; exact hM.entry d hd
  · intro n hn
    obtain ⟨d, hd, rfl⟩ := List.mem_map.1 (hdef n hn)
    rw [h.docs _ id, h'.docs _ id]; exact hM.docs d hd
  · intro n t hn ht x hx
    obtain ⟨d, hd, rfl⟩ := List.mem_map.1 (hdef n hn)
    rw [h'.docs _ id, hM.texts d hd, Option.some.injEq] at ht
    subst ht
    rw [String.toList_ofList, hprep d hd] at hx
    have := found_fragment (Documents.addTypenameToFragment_ok (hok d hd)) hx
    rw [Documents.addTypenameToFragment_spreads] at this
    exact .through d.name d x hn (lookup_unique hu hd) this

theorem compose_operations {r q0 q0' R' : Reg} (hM : Meet frs r q0 q0') (hu : (frs.map (·.name)).Nodup)
    (hok : ∀ f ∈ frs, fragOk f = true)
    (hprep : ∀ f ∈ frs, prep (Documents.printFragment f) = Documents.printFragment (Documents.addTypenameToFragment f))
    (hdef : ∀ o ∈ os, ∀ x, Needs frs o.sels x → x ∈ frs.map (·.name))
    (hoks : ∀ o ∈ os, ∀ n, o.name = some n → opOk n o = true)
    (hn : (os.map (·.name)).Nodup) (hn' : (os'.map (·.name)).Nodup) (hsub : ∀ o ∈ os, o ∈ os') {O' : List Stmt}
    (h' : loop (generateOperation prep c po) os' q0' = .ok (O', R')) :
    ∃ code q, O' = os'.flatMap code ∧ (∀ o ∈ os', ∃ a b, generateOperation prep c po o a = .ok (code o, b)) ∧
      loop (generateOperation prep c po) os q0 = .ok (os.flatMap code, q) ∧
      Touched (fun _ => False) (fun _ => False) (fun n => ∃ o ∈ os, o.name = some n) q0 q ∧
      ∀ o ∈ os, ∃ n, o.name = some n ∧ q.operationSingle.get? n = R'.operationSingle.get? n := by
  have H := loop_compose (r := q0) (·.name) hn' hsub h'
    (fun before q => Touched (fun _ => False) (fun _ => False) (fun n => ∃ o ∈ before, o.name = some n) q0 q ∧
      ∀ o ∈ before, ∃ n, o.name = some n ∧ q.operationSingle.get? n = R'.operationSingle.get? n)
    ⟨.refl _, fun f hf => by cases hf⟩ (by
    rintro before o after before' after' q q' q1' s s1 s2 rfl rfl ⟨hq, hb⟩ hq' hg hr
    obtain ⟨m, hm⟩ := generateOperation_named hg
    have hol : o ∈ before ++ o :: after := by simp
    have tq' := (loop_moves (fun x => moves_generateOperation) before').run _ _ _ hq'
    have tr := (loop_moves (fun x => moves_generateOperation) after').run _ _ _ hr
    rw [List.map_append, List.map_cons, List.nodup_append] at hn hn'
    have n1 : ¬ ∃ x ∈ before, x.name = some m := fun ⟨x, hx, e⟩ =>
      hn.2.2 _ (List.mem_map.2 ⟨x, hx, rfl⟩) _ (List.mem_cons_self) (e.trans hm.symm)
    have n2 : ¬ ∃ x ∈ before', x.name = some m := fun ⟨x, hx, e⟩ =>
      hn'.2.2 _ (List.mem_map.2 ⟨x, hx, rfl⟩) _ (List.mem_cons_self) (e.trans hm.symm)
    have n3 : ¬ ∃ x ∈ after', x.name = some m := fun ⟨x, hx, e⟩ =>
      (List.nodup_cons.1 hn'.2.1).1 (List.mem_map.2 ⟨x, hx, e.trans hm.symm⟩)
    have n6 : ∀ g ∈ before, ∀ k, g.name = some k → ¬ o.name = some k := fun g hg k e e' =>
      hn.2.2 _ (List.mem_map.2 ⟨g, hg, rfl⟩) _ List.mem_cons_self (e.trans e'.symm)
    have hA : Agree (oldFor (Needs frs o.sels) (· = m) (· = m) prep) q' q := by
      refine hM.agree hq (tq'.mono (fun _ ⟨_, _, h⟩ => h) (fun _ ⟨_, _, h⟩ => h) fun _ h => h) hu hok hprep (hdef o hol) ?_ ?_
      · rintro n rfl; exact ⟨n1, n2⟩
      · rintro n rfl
        rw [hq.singles _ n1, tq'.singles _ n2, hM.left.singles _ id, hM.right.singles _ id]
    have hO : OpIn (oldFor (Needs frs o.sels) (· = m) (· = m) prep) o :=
      ⟨fun n hn => Option.some.inj (hn.symm.trans hm), fun x hx => .direct _ hx,
        fun n hn x hx => .direct _ (found_operation (hoks o hol n hn) hx)⟩
    obtain ⟨q1, e1, hA1⟩ := (sim_generateOperation (Extends.refl c.schema) (p := po) hO (fun _ _ => (grown_refl c.schema).sees _ _)
      fun _ _ => .inl trivial).run _ _ _ _ hA hg
    have te := moves_generateOperation.run _ _ _ e1
    refine ⟨q1, e1, ?_, ?_⟩
    · refine (hq.mono (fun _ h => h) (fun _ h => h) ?_).trans (te.mono (fun _ h => h) (fun _ h => h) ?_)
      · exact fun n ⟨x, hx, e⟩ => ⟨x, by simp [hx], e⟩
      · exact fun n e => ⟨o, by simp, e⟩
    · intro g hgm
      rcases List.mem_append.1 hgm with hgm | hgm
      · obtain ⟨k, hk, e⟩ := hb g hgm
        exact ⟨k, hk, by rw [te.singles _ (n6 g hgm k hk)]; exact e⟩
      · rw [List.mem_singleton] at hgm
        subst hgm
        exact ⟨m, hm, by rw [tr.singles _ n3]; exact hA1.operationSingle _ rfl⟩)
  obtain ⟨code, q, h1, h2, h3, h4, h5⟩ := H
  exact ⟨code, q, h1, h2, h3, h4, h5⟩

/-! ## functions -/

theorem compose_functions {r q0 q0' q q' R' : Reg} {O O' : String → Prop} (hM : Meet frs r q0 q0')
    (hq : Touched (fun _ => False) (fun _ => False) O q0 q) (hq' : Touched (fun _ => False) (fun _ => False) O' q0' q')
    (hu : (frs.map (·.name)).Nodup) (hok : ∀ f ∈ frs, fragOk f = true)
    (hprep : ∀ f ∈ frs, prep (Documents.printFragment f) = Documents.printFragment (Documents.addTypenameToFragment f))
    (hdef : ∀ o ∈ os, ∀ x, Needs frs o.sels x → x ∈ frs.map (·.name))
    (hsingle : ∀ o ∈ os, ∃ n, o.name = some n ∧ q.operationSingle.get? n = q'.operationSingle.get? n)
    (hn' : (os'.map (·.name)).Nodup) (hsub : ∀ o ∈ os, o ∈ os') {P' : List Stmt}
    (h' : loop (fun o => operationFuncs c p o (p.definitionsFor o)) os' q' = .ok (P', R')) :
    ∃ code R, P' = os'.flatMap code ∧
      (∀ o ∈ os', ∃ a b, operationFuncs c p o (p.definitionsFor o) a = .ok (code o, b)) ∧
      loop (fun o => operationFuncs c p o (p.definitionsFor o)) os q = .ok (os.flatMap code, R) := by
  have mv : ∀ o, Moves (fun _ => False) (fun _ => False) (fun _ => False) (operationFuncs c p o (p.definitionsFor o)) :=
    fun o => (still_operationFuncs _).moves
  have H := loop_compose (r := q) (·.name) hn' hsub h'
    (fun _ a => Touched (fun _ => False) (fun _ => False) (fun _ => False) q a) (.refl _) (by
    rintro before o after before' after' a a' a1' s s1 s2 rfl rfl ha ha' hg hr
    obtain ⟨m, hm, hs⟩ := hsingle o (by simp)
    have ta' := (loop_moves mv before').run _ _ _ ha'
    have hA : Agree (oldFor (Needs frs o.sels) (· = m) (fun _ => False) prep) a' a := by
      refine hM.agree (hq.trans (ha.mono (fun _ h => h) (fun _ h => h) fun _ h => h.elim))
        (hq'.trans (ta'.mono (fun _ ⟨_, _, h⟩ => h) (fun _ ⟨_, _, h⟩ => h) fun _ ⟨_, _, h⟩ => h.elim)) hu hok hprep
        (hdef o (by simp)) (fun _ h => h.elim) ?_
      rintro n rfl
      rw [ha.singles _ id, ta'.singles _ (fun ⟨_, _, h⟩ => h)]
      exact hs
    obtain ⟨a1, e1, _⟩ := (sim_operationFuncs (N := oldFor (Needs frs o.sels) (· = m) (fun _ => False) prep) (o := o)
      (Extends.refl c.schema) (.inr ⟨rfl, fun _ _ _ _ _ _ _ => trivial⟩) (fun x hx => .direct _ hx)
      (show o.name.getD "" = m by rw [hm]; rfl) (fun _ _ => (grown_refl c.schema).sees _ _) (fun _ _ => trivial) _).run _ _ _ _ hA hg
    exact ⟨a1, e1, ha.trans ((mv o).run _ _ _ e1)⟩)
  obtain ⟨code, R, h1, h2, h3, _⟩ := H
  exact ⟨code, R, h1, h2, h3⟩
end

end Turms
