import Verif.Spec.Evolution
import Verif.Lemmas.Responses
import Verif.Lemmas.Embed

/-! # The same generator on two schemas and two registries -/

namespace Turms
open Spec

/-- the names of the types of the old schema, and of the helper classes -/
def Known (s : Schema) (n : String) : Prop := (s.types.get? n).isSome ∨ n ∈ builtinNames

/-- the search for spreads finds the name in the text -/
def FoundIn (t : List Char) (x : String) : Prop := x ≠ "" ∧ x.toList ∈ Documents.findSpreads t

/-- what the two registries have to agree on: the names of inputs and enums; and what the first one may have collected
before, which the second need not have; the fragments both know the same about, the operations whose single annotation
both know, the operations that are new to the second if they are new to the first, and the function that adds
`__typename` to the texts of fragments; `only`: the first knows no other inputs and enums -/
structure Old where
  names : String → Prop
  imports : String → Prop
  builtins : String → Prop
  forwards : String → Prop
  frags : String → Prop := fun _ => True
  single : String → Prop := fun _ => True
  fresh : String → Prop := fun _ => True
  prep : List Char → List Char
  only : Prop := True

/-- they agree on everything the documents' plugins leave behind -/
structure Whole (N : Old) (prep : List Char → List Char) : Prop where
  frags : ∀ n, N.frags n
  single : ∀ n, N.single n
  fresh : ∀ n, N.fresh n
  prep : prep = N.prep

/-- the new schema, and the names of the old one are among those agreed on -/
structure Grown (N : Old) (s s' : Schema) : Prop extends Extends s s' where
  known : ∀ n, Known s n → N.names n

/-- The second registry knows more inputs and enums, and has collected more imports, helpers and forward references. -/
structure Agree (N : Old) (r r' : Reg) : Prop where
  imports : ∀ x ∈ r.imports, N.imports x ∨ x ∈ r'.imports
  builtins : ∀ x ∈ r.builtins, N.builtins x ∨ x ∈ r'.builtins
  forwardReferences : ∀ x ∈ r.forwardReferences, N.forwards x ∨ x ∈ r'.forwardReferences
  inputMap : ∀ n, N.names n → r'.inputMap.get? n = r.inputMap.get? n
  inputOnly : N.only → ∀ n, ¬ N.names n → r.inputMap.get? n = none
  enumMap : ∀ n, N.names n → r'.enumMap.get? n = r.enumMap.get? n
  enumOnly : N.only → ∀ n, ¬ N.names n → r.enumMap.get? n = none
  scalarMap : r'.scalarMap = r.scalarMap
  fragmentDocumentMap : ∀ n, N.frags n → r'.fragmentDocumentMap.get? n = r.fragmentDocumentMap.get? n
  closed : ∀ n t, N.frags n → r.fragmentDocumentMap.get? n = some t →
    ∀ x, FoundIn (N.prep t.toList) x → N.frags x
  objectMap : r'.objectMap = r.objectMap
  interfaceReferenceMap : r'.interfaceReferenceMap = r.interfaceReferenceMap
  interfaceBaseclassMap : r'.interfaceBaseclassMap = r.interfaceBaseclassMap
  fragmentMap : ∀ n, N.frags n → r'.fragmentMap.get? n = r.fragmentMap.get? n
  queryMap : ∀ n, N.fresh n → r.queryMap.get? n = none → r'.queryMap.get? n = none
  subscriptionMap : ∀ n, N.fresh n → r.subscriptionMap.get? n = none → r'.subscriptionMap.get? n = none
  mutationMap : ∀ n, N.fresh n → r.mutationMap.get? n = none → r'.mutationMap.get? n = none
  interfaceFragments : r'.interfaceFragments = r.interfaceFragments
  fragmentTypeMap : ∀ n, N.frags n → r'.fragmentTypeMap.get? n = r.fragmentTypeMap.get? n
  interfaceFragmentImpl : ∀ n, N.frags n → r'.interfaceFragmentImpl.get? n = r.interfaceFragmentImpl.get? n
  unionFragmentMembers : ∀ n, N.frags n → r'.unionFragmentMembers.get? n = r.unionFragmentMembers.get? n
  operationSingle : ∀ n, N.single n → r'.operationSingle.get? n = r.operationSingle.get? n

/-- whatever the first generator returns, the second returns -/
structure Sim {α : Type} (N : Old) (g g' : Gen α) : Prop where
  run : ∀ r r' a r1, Agree N r r' → g r = .ok (a, r1) → ∃ r1', g' r' = .ok (a, r1') ∧ Agree N r1 r1'

section
variable {α β : Type} {N : Old}

theorem Sim.pure {a : α} : Sim N (pure a : Gen α) (pure a) := ⟨fun r r' b r1 hA h => by
  obtain ⟨rfl, rfl⟩ := Gen.pure_ok.1 h
  exact ⟨r', rfl, hA⟩⟩
theorem Sim.fail {e : Err} {g : Gen α} : Sim N (Gen.fail e : Gen α) g := ⟨fun r r' b r1 hA h => by
  cases (Gen.fail_ok.1 h)⟩
theorem Sim.lift {x : Except Err α} : Sim N (Gen.lift x) (Gen.lift x) := ⟨fun r r' b r1 hA h => by
  obtain ⟨rfl, rfl⟩ := Gen.lift_ok.1 h
  exact ⟨r', rfl, hA⟩⟩
theorem Sim.bind {x x' : Gen α} {f f' : α → Gen β} (hx : Sim N x x') (hf : ∀ a, Sim N (f a) (f' a)) :
    Sim N (x >>= f) (x' >>= f') := ⟨fun r r' b r1 hA h => by
  obtain ⟨a, r2, h1, h2⟩ := Gen.bind_ok.1 h
  obtain ⟨r2', e1, hA1⟩ := hx.run _ _ _ _ hA h1
  obtain ⟨r1', e2, hA2⟩ := (hf a).run _ _ _ _ hA1 h2
  exact ⟨r1', Gen.bind_ok.2 ⟨a, r2', e1, e2⟩, hA2⟩⟩
theorem Sim.ite {p : Prop} [Decidable p] {x y x' y' : Gen α} (hx : Sim N x x') (hy : Sim N y y') :
    Sim N (if p then x else y) (if p then x' else y') := by split <;> assumption
/-- a generator that reads and keeps everything -/
theorem Sim.read {g : Gen α} {f f' : Reg → Except Err α}
    (h : ∀ r r' a, Agree N r r' → f r = .ok a → f' r' = .ok a)
    {g' : Gen α} (hg : g = fun r => (f r).map fun a => (a, r)) (hg' : g' = fun r => (f' r).map fun a => (a, r)) :
    Sim N g g' := ⟨fun r r' a r1 hA hr => by
  subst hg hg'
  dsimp only at hr
  cases hf : f r with
  | error e => rw [hf] at hr; cases hr
  | ok b =>
    rw [hf] at hr
    cases hr
    exact ⟨r', by simp only [h r r' _ hA hf]; rfl, hA⟩⟩
end

section
variable {N : Old}

theorem mem_setAdd_mono {P : String → Prop} {l l' : List String} {a : String} (h : ∀ x ∈ l, P x ∨ x ∈ l') :
    ∀ x ∈ setAdd l a, P x ∨ x ∈ setAdd l' a := by
  intro x hx
  rcases (mem_setAdd _ _ _).1 hx with hx | hx
  · exact (h x hx).imp id fun h => (mem_setAdd _ _ _).2 (.inl h)
  · exact .inr ((mem_setAdd _ _ _).2 (.inr hx))

theorem sim_registerImport {n : String} : Sim N (registerImport n) (registerImport n) := ⟨fun r r' a r1 hA h => by
  unfold registerImport at h ⊢
  split at h
  · cases h; rename_i hc; exact ⟨r', by rw [if_pos hc], hA⟩
  · cases h; rename_i hc
    rw [if_neg hc]
    exact ⟨_, rfl, { hA with imports := mem_setAdd_mono hA.imports }⟩⟩

theorem sim_registerBuiltin {n : String} : Sim N (registerBuiltin n) (registerBuiltin n) := ⟨fun r r' a r1 hA h => by
  cases h
  exact ⟨_, rfl, { hA with builtins := mem_setAdd_mono hA.builtins }⟩⟩

theorem sim_registerImports {l : List String} : Sim N (registerImports l) (registerImports l) := by
  induction l with
  | nil => exact .pure
  | cons a l ih => exact sim_registerImport.bind fun _ => ih

theorem agree_addForward {r r' : Reg} {p : String} (h : Agree N r r') : Agree N (r.addForward p) (r'.addForward p) :=
  { h with forwardReferences := mem_setAdd_mono h.forwardReferences }

theorem sim_referenceScalar {n : String} : Sim N (referenceScalar n) (referenceScalar n) := ⟨fun r r' a r1 hA h => by
  unfold referenceScalar at h ⊢
  rw [hA.scalarMap]
  split at h
  · cases h
  split at h
  · rename_i hp
    cases hi : registerImport _ r with
    | error e => rw [hi] at h; cases h
    | ok x =>
      rw [hi] at h
      cases h
      obtain ⟨r2, e, hA2⟩ := sim_registerImport.run _ _ _ _ hA hi
      exact ⟨r2, by simp only [hp, if_true, e], hA2⟩
  · cases h
    rename_i hp
    exact ⟨r', by simp only [hp, if_false]; rfl, hA⟩⟩

theorem sim_referenceMarker {o : Option String} {b l : String} : Sim N (referenceMarker o b l) (referenceMarker o b l) := by
  have hb : Sim N (registerBuiltin b >>= fun _ => pure (Expr.name l)) (registerBuiltin b >>= fun _ => pure (Expr.name l)) :=
    sim_registerBuiltin.bind fun _ => .pure
  have hi : ∀ o, Sim N (registerImport o >>= fun _ => pure (Expr.name (lastComponent o)))
      (registerImport o >>= fun _ => pure (Expr.name (lastComponent o))) := fun o => sim_registerImport.bind fun _ => .pure
  constructor
  intro r r' a r1 hA h
  cases o with
  | none => exact hb.run r r' a r1 hA h
  | some o =>
    unfold referenceMarker at h ⊢
    by_cases ho : o = ""
    · simp only [ho, if_true] at h ⊢
      exact hb.run r r' a r1 hA h
    · simp only [ho, if_false] at h ⊢
      cases hi' : registerImport o r with
      | error e => rw [hi'] at h; cases h
      | ok x =>
        rw [hi'] at h
        cases h
        obtain ⟨r2, e, hA2⟩ := sim_registerImport.run _ _ _ _ hA hi'
        exact ⟨r2, by simp only [e], hA2⟩

theorem Agree.inputContains {r r' : Reg} (h : Agree N r r') {n : String} (hn : N.names n) :
    r'.inputMap.contains n = r.inputMap.contains n := by
  rw [Dict.contains_eq_isSome, Dict.contains_eq_isSome, h.inputMap n hn]

theorem Agree.enumContains {r r' : Reg} (h : Agree N r r') {n : String} (hn : N.names n) :
    r'.enumMap.contains n = r.enumMap.contains n := by
  rw [Dict.contains_eq_isSome, Dict.contains_eq_isSome, h.enumMap n hn]

theorem sim_referenceInput {env : Env} {n p : String} {f : Bool} (hn : N.names n) :
    Sim N (referenceInput env n p f) (referenceInput env n p f) := ⟨fun r r' a r1 hA h => by
  unfold referenceInput at h ⊢
  cases hs : Kind.input.style env n with
  | error e => rw [hs] at h; cases h
  | ok k =>
    rw [hs] at h
    dsimp only at h ⊢
    rw [hA.inputContains hn]
    split at h
    · rename_i hc
      rw [if_pos hc]
      split at h
      · cases h
      · rename_i hf
        cases h
        exact ⟨_, by rw [if_neg hf], agree_addForward hA⟩
    · rename_i hc
      rw [if_neg hc]
      cases hg : r.inputMap.get n with
      | error e => rw [hg] at h; cases h
      | ok c =>
        rw [hg] at h
        cases h
        refine ⟨r', ?_, hA⟩
        have : r'.inputMap.get n = .ok c := by
          unfold Dict.get at hg ⊢
          rw [hA.inputMap n hn]
          exact hg
        rw [this]⟩

theorem sim_referenceEnum {env : Env} {n p : String} {f : Bool} (hn : N.names n) :
    Sim N (referenceEnum env n p f) (referenceEnum env n p f) := ⟨fun r r' a r1 hA h => by
  unfold referenceEnum at h ⊢
  split at h
  · rename_i hc
    rw [if_pos hc]
    cases h
    exact ⟨_, rfl, { hA with forwardReferences := mem_setAdd_mono hA.forwardReferences,
                             builtins := mem_setAdd_mono hA.builtins }⟩
  rename_i hb
  rw [if_neg hb]
  cases hs : Kind.enum.style env n with
  | error e => rw [hs] at h; cases h
  | ok k =>
    rw [hs] at h
    dsimp only at h ⊢
    rw [hA.enumContains hn]
    split at h
    · rename_i hc
      rw [if_pos hc]
      split at h
      · cases h
      · rename_i hf
        cases h
        exact ⟨_, by rw [if_neg hf], agree_addForward hA⟩
    · rename_i hc
      rw [if_neg hc]
      cases h
      exact ⟨r', rfl, hA⟩⟩

/-- setting the same value in both keeps what they agree on -/
theorem agree_get?_set {α : Type} {P : String → Prop} {d d' : Dict α} (h : ∀ n, P n → d'.get? n = d.get? n) (k : String) (v : α) :
    ∀ n, P n → (d'.set k v).get? n = (d.set k v).get? n := by
  intro n hn
  rw [Dict.get?_set, Dict.get?_set, h n hn]

theorem fresh_get?_set {P : String → Prop} {d d' : Dict String} (h : ∀ n, P n → d.get? n = none → d'.get? n = none)
    (k v : String) : ∀ n, P n → (d.set k v).get? n = none → (d'.set k v).get? n = none := by
  intro n hn
  rw [Dict.get?_set, Dict.get?_set]
  split
  · intro h; cases h
  · exact h n hn

theorem Agree.fragmentContains {r r' : Reg} (h : Agree N r r') {n : String} (hn : N.frags n) :
    (r'.classMap .fragment).contains n = (r.classMap .fragment).contains n := by
  dsimp only [Reg.classMap]
  rw [Dict.contains_eq_isSome, Dict.contains_eq_isSome, h.fragmentMap n hn]

theorem sim_referenceGeneric {env : Env} {n p : String} {f : Bool} (hn : N.frags n) :
    Sim N (referenceGeneric env .fragment n p f) (referenceGeneric env .fragment n p f) := ⟨fun r r' a r1 hA h => by
  unfold referenceGeneric at h ⊢
  cases hs : Kind.fragment.style env n with
  | error e => rw [hs] at h; cases h
  | ok c =>
    rw [hs] at h
    dsimp only at h ⊢
    rw [hA.fragmentContains hn]
    split at h
    · rename_i hc
      rw [if_pos hc]
      split at h
      · cases h
      · rename_i hf
        cases h
        exact ⟨_, by rw [if_neg hf], agree_addForward hA⟩
    · rename_i hc
      rw [if_neg hc]
      cases h
      exact ⟨r', rfl, hA⟩⟩

theorem sim_generateFragmentClass {env : Env} {n : String} (hn : N.frags n) :
    Sim N (generateClass env .fragment n) (generateClass env .fragment n) := ⟨fun r r' a r1 hA h => by
  unfold generateClass at h ⊢
  rw [hA.fragmentContains hn]
  split at h
  · cases h
  rename_i hc
  rw [if_neg hc]
  cases hs : Kind.fragment.style env n with
  | error e => rw [hs] at h; cases h
  | ok c =>
    rw [hs] at h
    cases h
    exact ⟨_, rfl, { hA with fragmentMap := agree_get?_set hA.fragmentMap _ _ }⟩⟩

theorem Agree.opNew {r r' : Reg} (h : Agree N r r') {k : OpKind} {n : String} (hn : N.fresh n)
    (hc : (r.classMap k.kind).contains n = false) : (r'.classMap k.kind).contains n = false := by
  rw [Dict.contains_eq_isSome, Option.isSome_eq_false_iff, Option.isNone_iff_eq_none] at hc ⊢
  cases k
  · exact h.queryMap n hn hc
  · exact h.mutationMap n hn hc
  · exact h.subscriptionMap n hn hc

theorem agree_setOp {r r' : Reg} (h : Agree N r r') {k : OpKind} {n v : String} :
    Agree N (r.setClass k.kind n v) (r'.setClass k.kind n v) := by
  cases k
  · exact { h with queryMap := fresh_get?_set h.queryMap _ _ }
  · exact { h with mutationMap := fresh_get?_set h.mutationMap _ _ }
  · exact { h with subscriptionMap := fresh_get?_set h.subscriptionMap _ _ }

theorem sim_generateOpClass {env : Env} {k : OpKind} {n : String} (hn : N.fresh n) :
    Sim N (generateClass env k.kind n) (generateClass env k.kind n) := ⟨fun r r' a r1 hA h => by
  unfold generateClass at h ⊢
  split at h
  · cases h
  rename_i hc
  rw [if_neg (by rw [hA.opNew hn (by simpa using hc)]; simp)]
  cases hs : k.kind.style env n with
  | error e => rw [hs] at h; cases h
  | ok c =>
    rw [hs] at h
    cases h
    exact ⟨_, rfl, agree_setOp hA⟩⟩

theorem sim_inheritFragment {n : String} (hn : N.frags n) : Sim N (inheritFragment n) (inheritFragment n) :=
  ⟨fun r r' a r1 hA h => by
  unfold inheritFragment at h ⊢
  rw [hA.fragmentMap n hn]
  split at h
  · cases h
  · cases h
    exact ⟨r', rfl, hA⟩⟩

theorem sim_registerFragmentDocument {n d : String} (hn : N.frags n)
    (hd : ∀ x, FoundIn (N.prep d.toList) x → N.frags x) :
    Sim N (registerFragmentDocument n d) (registerFragmentDocument n d) := ⟨fun r r' a r1 hA h => by
  unfold registerFragmentDocument at h ⊢
  rw [Dict.contains_eq_isSome] at h ⊢
  rw [hA.fragmentDocumentMap n hn]
  split at h
  · cases h
  · cases h
    rename_i hc
    rw [if_neg hc]
    refine ⟨_, rfl, { hA with fragmentDocumentMap := agree_get?_set hA.fragmentDocumentMap _ _, closed := ?_ }⟩
    intro m t hm ht
    dsimp only at ht
    rw [Dict.get?_set] at ht
    split at ht
    · cases ht; exact hd
    · exact hA.closed m t hm ht⟩

theorem sim_interfaceImpl {f t : String} (hf : N.frags f) : Sim N (getInterfaceFragmentImplementationOrNone f t)
    (getInterfaceFragmentImplementationOrNone f t) := ⟨fun r r' a r1 hA h => by
  unfold getInterfaceFragmentImplementationOrNone at h ⊢
  rw [hA.interfaceFragmentImpl f hf, hA.fragmentTypeMap f hf]
  cases hi : r.interfaceFragmentImpl.get? f with
  | none => rw [hi] at h; cases h; exact ⟨r', rfl, hA⟩
  | some m =>
    rw [hi] at h
    dsimp only at h ⊢
    cases hm : m.get? t with
    | some x => rw [hm] at h; cases h; exact ⟨r', rfl, hA⟩
    | none =>
      rw [hm] at h
      dsimp only at h ⊢
      cases ht : r.fragmentTypeMap.get? f with
      | none => rw [ht] at h; cases h
      | some y =>
        rw [ht] at h
        dsimp only at h ⊢
        split at h
        · rename_i hy
          cases h
          exact ⟨r', by rw [if_pos hy], hA⟩
        · cases h⟩

theorem sim_registerFragmentType {f t : String} : Sim N (registerFragmentType f t) (registerFragmentType f t) :=
  ⟨fun r r' a r1 hA h => by
  cases h
  exact ⟨_, rfl, { hA with fragmentTypeMap := agree_get?_set hA.fragmentTypeMap _ _ }⟩⟩
theorem sim_registerImplementations {f : String} {m : Dict String} :
    Sim N (registerImplementations f m) (registerImplementations f m) := ⟨fun r r' a r1 hA h => by
  cases h
  exact ⟨_, rfl, { hA with interfaceFragmentImpl := agree_get?_set hA.interfaceFragmentImpl _ _ }⟩⟩
theorem sim_registerUnionMembers {f : String} {m : Dict String} :
    Sim N (registerUnionMembers f m) (registerUnionMembers f m) := ⟨fun r r' a r1 hA h => by
  cases h
  exact ⟨_, rfl, { hA with unionFragmentMembers := agree_get?_set hA.unionFragmentMembers _ _ }⟩⟩
theorem sim_registerSingle {n : String} {ns : List (List Stmt)} : Sim N (registerSingle n ns) (registerSingle n ns) :=
  ⟨fun r r' a r1 hA h => by
  unfold registerSingle at h ⊢
  split at h
  · rename_i x
    cases ha : annotationOf x with
    | some y =>
      simp only [ha] at h ⊢
      cases h
      exact ⟨_, rfl, { hA with operationSingle := agree_get?_set hA.operationSingle _ _ }⟩
    | none =>
      simp only [ha] at h ⊢
      cases h
      exact ⟨r', rfl, hA⟩
  · cases h
    exact ⟨r', rfl, hA⟩⟩
theorem sim_operationSingleOf {n : String} (hn : N.single n) : Sim N (operationSingleOf n) (operationSingleOf n) :=
  ⟨fun r r' a r1 hA h => by
  cases h
  exact ⟨r', by simp only [operationSingleOf, hA.operationSingle n hn], hA⟩⟩
theorem sim_spreadImplementations {f : String} (hf : N.frags f) : Sim N (spreadImplementations f) (spreadImplementations f) :=
  ⟨fun r r' a r1 hA h => by
  unfold spreadImplementations at h ⊢
  rw [hA.interfaceFragmentImpl f hf, hA.fragmentTypeMap f hf]
  split at h
  · cases h; exact ⟨r', rfl, hA⟩
  split at h
  · cases h
  cases hi : inheritFragment f r with
  | error e => rw [hi] at h; cases h
  | ok x =>
    rw [hi] at h
    cases h
    obtain ⟨r2, e, hA2⟩ := (sim_inheritFragment hf).run _ _ _ _ hA hi
    exact ⟨r2, by simp only [e], hA2⟩⟩
theorem sim_inlineSpreadBase {f : String} (hf : N.frags f) : Sim N (inlineSpreadBase f) (inlineSpreadBase f) :=
  ⟨fun r r' a r1 hA h => by
  unfold inlineSpreadBase at h ⊢
  rw [hA.interfaceFragments]
  split at h
  · cases h
  · rename_i hc
    rw [if_neg hc]
    exact (sim_inheritFragment hf).run _ _ _ _ hA h⟩
theorem sim_fragSpreadBase {f t : String} (hf : N.frags f) : Sim N (fragSpreadBase f t) (fragSpreadBase f t) :=
  ⟨fun r r' a r1 hA h => by
  unfold fragSpreadBase at h ⊢
  rw [hA.interfaceFragmentImpl f hf]
  split at h
  · split at h
    · rename_i hm; cases h; exact ⟨r', by simp only [hm], hA⟩
    · cases h
  · exact (sim_inheritFragment hf).run _ _ _ _ hA h⟩
theorem sim_unionMembersOf {f : String} (hf : N.frags f) : Sim N (unionMembersOf f) (unionMembersOf f) :=
  ⟨fun r r' a r1 hA h => by
  unfold unionMembersOf at h ⊢
  rw [hA.unionFragmentMembers f hf]
  split at h
  · cases h; exact ⟨r', rfl, hA⟩
  · cases h⟩

/-! ### embedding -/

theorem fetch_agree {prep : List Char → List Char} {docs docs' : Dict (List Char)} {K : String → Prop}
    (hK : ∀ n, K n → docs'.get? n = docs.get? n) (l : List String) (hl : ∀ n ∈ l, K n) :
    Documents.fetchFragments prep docs' l = Documents.fetchFragments prep docs l := by
  induction l with
  | nil => rfl
  | cons a l ih =>
    simp only [Documents.fetchFragments]
    rw [hK a (hl a (by simp)), ih fun n hn => hl n (by simp [hn])]

/-- what is fetched is there, and its texts are texts of the dictionary -/
theorem fetch_there {prep : List Char → List Char} {docs : Dict (List Char)} (l : List String) :
    ∀ {texts : List (List Char)}, Documents.fetchFragments prep docs l = .ok texts →
      (∀ n ∈ l, (docs.get? n).isSome) ∧ ∀ t ∈ texts, ∃ n ∈ l, ∃ u, docs.get? n = some u ∧ t = prep u := by
  induction l with
  | nil => intro texts h; cases h; exact ⟨(fun _ h => by cases h), fun _ h => by cases h⟩
  | cons a l ih =>
    intro texts h
    unfold Documents.fetchFragments at h
    cases hg : docs.get? a with
    | none => rw [hg] at h; cases h
    | some u =>
      rw [hg] at h
      dsimp only at h
      cases hr : Documents.fetchFragments prep docs l with
      | error e => rw [hr] at h; cases h
      | ok ts =>
        rw [hr] at h
        cases h
        obtain ⟨h1, h2⟩ := ih hr
        refine ⟨?_, ?_⟩
        · intro n hn
          rcases List.mem_cons.1 hn with rfl | hn
          · rw [hg]; rfl
          · exact h1 n hn
        · intro t ht
          rcases List.mem_cons.1 ht with rfl | ht
          · exact ⟨a, by simp, u, hg, rfl⟩
          · obtain ⟨n, hn, u, hu⟩ := h2 t ht
            exact ⟨n, by simp [hn], u, hu⟩

/-- Every spread the search finds in a text put together is found in one of its parts. -/
theorem findSpreads_safe (a b : List Char) (hb : Documents.Safe b) :
    Documents.findSpreads (a ++ b) = Documents.findSpreads a ++ Documents.findSpreads b := by
  induction a using Documents.findSpreads.induct with
  | case1 rest ih =>
    rw [List.cons_append, List.cons_append, List.cons_append, Documents.F_ellipsis, Documents.F_ellipsis, ih,
      Documents.takeWhile_append_safe _ _ hb]
    rfl
  | case2 c rest h ih =>
    have hc : ∀ r, c :: rest ≠ '.' :: '.' :: '.' :: r := by
      intro r he
      cases he
      exact h r rfl rfl
    rw [Documents.F_skip c rest hc, List.cons_append, Documents.F_skip _ _ (Documents.no_ellipsis_append hb hc), ih]
  | case3 => rfl

theorem findSpreads_join (ts : List (List Char)) (t : List Char) :
    ∀ x ∈ Documents.findSpreads (Documents.joinS ['\n', '\n'] (ts ++ [t])),
      (∃ u ∈ ts, x ∈ Documents.findSpreads u) ∨ x ∈ Documents.findSpreads t := by
  induction ts with
  | nil => intro x hx; exact .inr hx
  | cons u ts ih =>
    intro x hx
    rw [List.cons_append, Documents.joinS_cons _ _ _ (by simp), findSpreads_safe u _ (by exact ⟨by decide, by decide⟩)] at hx
    rcases List.mem_append.1 hx with h | h
    · exact .inl ⟨u, by simp, h⟩
    rw [List.cons_append, Documents.F_cons_ne _ _ (by decide), List.cons_append, Documents.F_cons_ne _ _ (by decide),
      List.nil_append] at h
    · rcases ih x h with ⟨v, hv, h⟩ | h
      · exact .inl ⟨v, by simp [hv], h⟩
      · exact .inr h

theorem replace_agree {prep : List Char → List Char} {docs docs' : Dict (List Char)} {K : String → Prop}
    (hK : ∀ n, K n → docs'.get? n = docs.get? n)
    (hC : ∀ n t, K n → docs.get? n = some t → ∀ x, FoundIn (prep t) x → K x) (n : Nat) :
    ∀ {m : Nat} {pattern : List Char} {taken : List String} {a : List Char}, taken.Nodup →
      (∀ x ∈ taken, (docs'.get? x).isSome) → docs'.length + 1 ≤ m + taken.length →
      (∀ x, FoundIn pattern x → K x) →
      Documents.replaceIteratively prep docs n pattern taken = .ok a →
      Documents.replaceIteratively prep docs' m pattern taken = .ok a := by
  induction n with
  | zero => intro m p t a _ _ _ _ h; cases h
  | succ n ih =>
    intro m p t a hnd hin hm hp h
    have hlen : t.length ≤ docs'.length := by
      have : t.length ≤ (Dict.keys docs').length := by
        exact hnd.length_le_of_subset fun x hx => (Dict.get?_isSome_iff _ _).1 (hin x hx)
      simpa [Dict.keys] using this
    obtain ⟨m, rfl⟩ : ∃ k, m = k + 1 := ⟨m - 1, by omega⟩
    unfold Documents.replaceIteratively at h ⊢
    cases hnew : Documents.newFragments p t with
    | nil => rw [hnew] at h; exact h
    | cons k ks =>
      rw [hnew] at h
      dsimp only at h ⊢
      have hk : ∀ x ∈ k :: ks, K x := by
        intro x hx
        rw [← hnew, Documents.mem_newFragments] at hx
        exact hp x hx.1
      rw [fetch_agree hK _ hk]
      cases hf : Documents.fetchFragments prep docs (k :: ks) with
      | error e => rw [hf] at h; cases e <;> cases h
      | ok texts =>
        rw [hf] at h
        dsimp only at h ⊢
        obtain ⟨h1, h2⟩ := fetch_there _ hf
        refine ih ?_ ?_ ?_ ?_ h
        · rw [List.nodup_append]
          refine ⟨hnew ▸ Documents.newFragments_nodup p t, hnd, ?_⟩
          intro x hx y hy hxy
          subst hxy
          rw [← hnew, Documents.mem_newFragments] at hx
          exact hx.2 hy
        · intro x hx
          rcases List.mem_append.1 hx with hx | hx
          · rw [hK x (hk x hx)]; exact h1 x hx
          · exact hin x hx
        · simp only [List.length_append, List.length_cons]; omega
        · intro x hx
          rcases findSpreads_join _ _ _ hx.2 with ⟨u, hu, hf⟩ | hf
          · obtain ⟨y, hy, w, hw, rfl⟩ := h2 u hu
            exact hC y w (hk y hy) hw x ⟨hx.1, hf⟩
          · exact hp x ⟨hx.1, hf⟩

theorem documentTexts_get? (r : Reg) (n : String) : (documentTexts r).get? n = (r.fragmentDocumentMap.get? n).map (·.toList) := by
  unfold documentTexts
  generalize r.fragmentDocumentMap = d
  induction d with
  | nil => rfl
  | cons p d ih =>
    obtain ⟨k, v⟩ := p
    simp only [List.map_cons, Dict.get?]
    split
    · rfl
    · exact ih

theorem sim_mergedDocument {t : List Char} (ht : ∀ x, FoundIn t x → N.frags x) :
    Sim N (mergedDocument N.prep t) (mergedDocument N.prep t) := ⟨fun r r' a r1 hA h => by
  unfold mergedDocument at h ⊢
  cases he : Documents.embedDocument N.prep (documentTexts r) t with
  | error e => rw [he] at h; cases h
  | ok x =>
    rw [he] at h
    cases h
    refine ⟨r', ?_, hA⟩
    have : Documents.embedDocument N.prep (documentTexts r') t = .ok x := by
      refine replace_agree (K := N.frags) ?_ ?_ _ List.nodup_nil (fun _ h => by cases h) (by simp) ht he
      · intro n hn
        rw [documentTexts_get?, documentTexts_get?, hA.fragmentDocumentMap n hn]
      · intro n u hn hu
        rw [documentTexts_get?] at hu
        cases hg : r.fragmentDocumentMap.get? n with
        | none => rw [hg] at hu; cases hu
        | some w =>
          rw [hg] at hu
          cases hu
          exact hA.closed n w hn hg
    rw [this]⟩

/-- what a reference without forward references answers -/
def inputAnswer (env : Env) (n : String) (known : Option String) : Except Err Expr :=
  match Kind.input.style env n with
  | .error e => .error e
  | .ok k =>
    match known with
    | none => .error (.noInputTypeFound n)
    | some c => if "" == k then .error (.noInputTypeFound n) else .ok (.name c)

theorem referenceInput_eq {env : Env} {n : String} {r : Reg} : referenceInput env n "" false r =
    (inputAnswer env n (r.inputMap.get? n)).map fun x => (x, r) := by
  unfold referenceInput inputAnswer Dict.get
  rw [Dict.contains_eq_isSome]
  cases Kind.input.style env n with
  | error e => rfl
  | ok k =>
    cases r.inputMap.get? n with
    | none => rfl
    | some c =>
      dsimp only
      cases h : ("" == k) <;> simp [Except.map]

/-- the same for enums -/
def enumAnswer (env : Env) (n : String) (known : Bool) : Except Err Expr :=
  match Kind.enum.style env n with
  | .error e => .error e
  | .ok k => if !known || "" == k then .error (.noEnumFound n) else .ok (.name k)

theorem referenceEnum_eq {env : Env} {n : String} {r : Reg} (hb : n ∉ builtinNames) : referenceEnum env n "" false r =
    (enumAnswer env n (r.enumMap.get? n).isSome).map fun x => (x, r) := by
  unfold referenceEnum enumAnswer
  rw [Dict.contains_eq_isSome, if_neg (by simpa using hb)]
  cases Kind.enum.style env n with
  | error e => rfl
  | ok k =>
    dsimp only
    split <;> simp [Except.map, *]

/-- `referenceNamed` asks the registry, not the schema; the old registry knows nothing about other names. -/
theorem sim_referenceNamed {env : Env} {n : String} (hb : N.names n ∨ N.only ∧ ∀ n ∈ builtinNames, N.names n) :
    Sim N (referenceNamed env n) (referenceNamed env n) := ⟨fun r r' a r1 hA h => by
  unfold referenceNamed at h ⊢
  cases hs : r.scalarMap.get? n with
  | some p =>
    have hno : ∀ (r : Reg) e, r.scalarMap.get? n = some p → referenceScalar n r ≠ .error e := by
      intro r e hs he
      unfold referenceScalar registerImport at he
      rw [hs] at he
      dsimp only at he
      split at he
      · split at he
        · rename_i hi
          split at hi <;> cases hi
        · cases he
      · cases he
    cases he : referenceScalar n r with
    | error e => exact absurd he (hno r e hs)
    | ok x =>
      rw [he] at h
      cases h
      obtain ⟨r2, e, hA2⟩ := sim_referenceScalar.run _ _ _ _ hA he
      exact ⟨r2, by rw [e], hA2⟩
  | none =>
    have hno : ∀ (r : Reg), r.scalarMap.get? n = none → referenceScalar n r = .error (.noScalarFound n) := by
      intro r hs
      unfold referenceScalar
      rw [hs]
    rw [hno r hs] at h
    rw [hno r' (by rw [hA.scalarMap]; exact hs)]
    simp only [referenceInput_eq] at h ⊢
    by_cases hn : N.names n
    · rw [hA.inputMap n hn]
      cases hi : inputAnswer env n (r.inputMap.get? n) with
      | ok x => rw [hi] at h; cases h; exact ⟨r', rfl, hA⟩
      | error e =>
        rw [hi] at h
        simp only [Except.map] at h ⊢
        cases e
        case noInputTypeFound m =>
          dsimp only at h ⊢
          cases he : referenceEnum env n "" false r with
          | ok x =>
            rw [he] at h
            cases h
            obtain ⟨r2, e, hA2⟩ := (sim_referenceEnum hn).run _ _ _ _ hA he
            exact ⟨r2, by rw [e], hA2⟩
          | error e => rw [he] at h; split at h <;> simp_all
        all_goals cases h
    · exfalso
      obtain ⟨ho, hb⟩ := hb.resolve_left hn
      rw [hA.inputOnly ho n hn] at h
      have hi : ∃ e, inputAnswer env n none = .error e := by
        unfold inputAnswer
        split
        · exact ⟨_, rfl⟩
        · exact ⟨_, rfl⟩
      obtain ⟨e, hi⟩ := hi
      have hx : ∃ e, referenceEnum env n "" false r = .error e := by
        rw [referenceEnum_eq fun h => hn (hb n h), hA.enumOnly ho n hn]
        unfold enumAnswer
        split
        · exact ⟨_, rfl⟩
        · exact ⟨_, rfl⟩
      obtain ⟨e', hx⟩ := hx
      rw [hi, hx] at h
      simp only [Except.map] at h
      split at h
      · split at h <;> simp_all
      · rename_i hq
        exact absurd h (by simp_all)⟩
end

end Turms
