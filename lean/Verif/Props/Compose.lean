import Verif.Spec.Compose
import Verif.Lemmas.Compose
import Verif.Props.Documents
import Verif.Props.Evolution

/-! # C81: the code generated for a definition depends on nothing but the definition and the fragments it needs -/

namespace Turms.Props
open Spec

theorem mem_fragmentsOf {doc : Document} {f : FragDef} : f ∈ fragmentsOf doc ↔ Defn.fragment f ∈ doc := by
  unfold fragmentsOf
  rw [List.mem_filterMap]
  constructor
  · rintro ⟨d, hd, h⟩
    cases d <;> simp at h
    subst h; exact hd
  · exact fun h => ⟨_, h, rfl⟩

theorem mem_operationsOf {doc : Document} {o : OpDef} : o ∈ operationsOf doc ↔ Defn.operation o ∈ doc := by
  unfold operationsOf
  rw [List.mem_filterMap]
  constructor
  · rintro ⟨d, hd, h⟩
    cases d <;> simp at h
    subst h; exact hd
  · exact fun h => ⟨_, h, rfl⟩

theorem needs_mono {frs frs' : List FragDef} (hu' : (frs'.map (·.name)).Nodup)
    (hsub : ∀ f ∈ frs, f ∈ frs') {sels : List Sel} {x : String} (h : Needs frs sels x) : Needs frs' sels x := by
  induction h with
  | direct f hf => exact .direct f hf
  | through g d f _ hl hs ih =>
    obtain ⟨h1, h2⟩ := Fragments.lookup_mem hl
    exact .through g d f ih (by rw [← h2]; exact lookup_unique hu' (hsub d h1)) hs

theorem needs_defined {doc : Document} (hS : Composable doc) {sels : List Sel}
    (h : ∀ x, Spreads sels x → x ∈ (fragmentsOf doc).map (·.name)) (x : String) (hx : Needs (fragmentsOf doc) sels x) :
    x ∈ (fragmentsOf doc).map (·.name) := by
  cases hx with
  | direct _ hs => exact h x hs
  | through g d _ _ hl hs => exact hS.defined d (Fragments.lookup_mem hl).1 x hs

/-- C81: take a document for which the fragments, operations and funcs plugins generate code, and leave out definitions, or
write them in another order, such that every spread fragment is still defined.  Then they generate code for the new document
too; and there is one piece of code for every fragment, every operation and the functions of every operation from which the
code of both documents is put together, in the order of each document (fragments in dependency order).

`Composable`: the rules of GraphQL documents, and no spread below an inline fragment of a fragment.  `fragOk`, `opOk`,
`ParsesBack`: names and constants the search for `...Name` in printed text handles, see C13. -/
theorem C81_compositional {prep : List Char → List Char} {c : Ctx} {pf : FragmentsConfig} {po : OperationsConfig}
    {p : FuncsConfig} {doc doc' : Document} {r R' : Reg} {D' : List Stmt}
    (hS : Composable doc) (hS' : Composable doc') (hsub : ∀ d ∈ doc, d ∈ doc')
    (hok : ∀ f ∈ fragmentsOf doc, fragOk f = true) (hprep : ParsesBack prep (fragmentsOf doc))
    (hoks : ∀ o ∈ operationsOf doc, ∀ n, o.name = some n → opOk n o = true)
    (h' : runPlugins (documentPlugins prep c pf po p doc') r = .ok (D', R')) :
    ∃ (fragmentCode : FragDef → List Stmt) (operationCode functionCode : OpDef → List Stmt) (l l' : List FragDef) (R : Reg),
      (∀ f ∈ fragmentsOf doc', ∃ a b, generateFragment prep c pf f a = .ok (fragmentCode f, b)) ∧
      (∀ o ∈ operationsOf doc', ∃ a b, generateOperation prep c po o a = .ok (operationCode o, b)) ∧
      (∀ o ∈ operationsOf doc', ∃ a b, operationFuncs c p o (p.definitionsFor o) a = .ok (functionCode o, b)) ∧
      l.Perm (fragmentsOf doc) ∧ l'.Perm (fragmentsOf doc') ∧
      D' = l'.flatMap fragmentCode ++ ((operationsOf doc').flatMap operationCode ++ (operationsOf doc').flatMap functionCode) ∧
      runPlugins (documentPlugins prep c pf po p doc) r = .ok
        (l.flatMap fragmentCode ++ ((operationsOf doc).flatMap operationCode ++ (operationsOf doc).flatMap functionCode), R) := by
  obtain ⟨F', ra, D1, hf, ha, rfl⟩ := runPlugins_cons h'
  obtain ⟨O', rb, D2, ho, hb, rfl⟩ := runPlugins_cons ha
  obtain ⟨P', R', D3, hfn, hc, rfl⟩ := runPlugins_cons hb
  obtain ⟨rfl, rfl⟩ := runPlugins_nil hc
  obtain ⟨l, hl, _, lnod, lord⟩ := C11_document_order doc hS.inline hS.defined hS.acyclic
  obtain ⟨l', hl', _, lnod', lord'⟩ := C11_document_order doc' hS'.inline hS'.defined hS'.acyclic
  have hperm : l.Perm (fragmentsOf doc) := by
    obtain ⟨m, e, _, _, h⟩ := C12_document_fragments doc
    rw [hl] at e; cases e; exact h hS.fragmentNames
  have hperm' : l'.Perm (fragmentsOf doc') := by
    obtain ⟨m, e, _, _, h⟩ := C12_document_fragments doc'
    rw [hl'] at e; cases e; exact h hS'.fragmentNames
  have hfsub : ∀ f ∈ fragmentsOf doc, f ∈ fragmentsOf doc' := fun f hf => mem_fragmentsOf.2 (hsub _ (mem_fragmentsOf.1 hf))
  have hosub : ∀ o ∈ operationsOf doc, o ∈ operationsOf doc' := fun o ho => mem_operationsOf.2 (hsub _ (mem_operationsOf.1 ho))
  have hprep' : ∀ f ∈ fragmentsOf doc,
      prep (Documents.printFragment f) = Documents.printFragment (Documents.addTypenameToFragment f) := fun f hf => by
    rw [hprep f hf, withTypename_eq]
  -- the fragments
  have hf : fragmentsPlugin prep c pf doc' r = .ok (F', ra) := hf
  unfold fragmentsPlugin at hf
  obtain ⟨fs, r0, e, hf⟩ := Gen.bind_ok.1 hf
  obtain ⟨e, rfl⟩ := Gen.lift_ok.1 e
  rw [hl'] at e
  cases e
  rw [generateFragments_loop] at hf
  obtain ⟨fc, q0, f1, f2, f3, hM⟩ := compose_fragments (frs := fragmentsOf doc) (fun f => hperm.mem_iff) lnod
    hS.fragmentNames lnod' (fun f hf => hperm'.mem_iff.2 (hfsub f (hperm.mem_iff.1 hf))) lord
    (fun b a d _ he x hx => lord' b a d he x (needs_mono hS'.fragmentNames hfsub hx)) hok hprep' hf
  -- the operations
  have ho : generateOperations prep c po (operationsOf doc') ra = .ok (O', rb) := ho
  rw [generateOperations_loop] at ho
  have hdef : ∀ o ∈ operationsOf doc, ∀ x, Needs (fragmentsOf doc) o.sels x → x ∈ (fragmentsOf doc).map (·.name) :=
    fun o ho => needs_defined hS (hS.definedO o ho)
  obtain ⟨oc, q1, o1, o2, o3, o4, o5⟩ := compose_operations hM hS.fragmentNames hok hprep' hdef hoks hS.operationNames
    hS'.operationNames hosub ho
  have to' := (loop_moves (fun x => moves_generateOperation) _).run _ _ _ ho
  -- the functions
  have hfn : allOperationFuncs c p (operationsOf doc') rb = .ok (P', R') := hfn
  rw [allOperationFuncs_loop] at hfn
  obtain ⟨pc, R, p1, p2, p3⟩ := compose_functions hM o4
    (to'.mono (fun _ ⟨_, _, h⟩ => h) (fun _ ⟨_, _, h⟩ => h) fun _ h => h) hS.fragmentNames hok hprep' hdef o5
    hS'.operationNames hosub hfn
  refine ⟨fc, oc, pc, l, l', R, fun f hf => f2 f (hperm'.mem_iff.2 hf), o2, p2, hperm, hperm', ?_, ?_⟩
  · rw [f1, o1, p1, List.append_nil]
  · have e1 : fragmentsPlugin prep c pf doc r = .ok (l.flatMap fc, q0) := by
      unfold fragmentsPlugin
      refine Gen.bind_ok.2 ⟨l, r, Gen.lift_ok.2 ⟨hl, rfl⟩, ?_⟩
      rw [generateFragments_loop]; exact f3
    have e2 : operationsPlugin prep c po doc q0 = .ok ((operationsOf doc).flatMap oc, q1) := by
      unfold operationsPlugin
      rw [generateOperations_loop]; exact o3
    have e3 : funcsPlugin c p doc q1 = .ok ((operationsOf doc).flatMap pc, R) := by
      unfold funcsPlugin
      rw [allOperationFuncs_loop]; exact p3
    have := runPlugins_cons_ok (x := ⟨"FragmentsPlugin", fragmentsPlugin prep c pf doc⟩) e1
      (runPlugins_cons_ok (x := ⟨"OperationsPlugin", operationsPlugin prep c po doc⟩) e2
        (runPlugins_cons_ok (x := ⟨"FuncsPlugin", funcsPlugin c p doc⟩) e3 (ps := []) (rest := []) rfl))
    simpa [documentPlugins] using this

/-- C81, leaving out: every statement generated for the smaller document is generated for the larger one -/
theorem C81_removal {prep : List Char → List Char} {c : Ctx} {pf : FragmentsConfig} {po : OperationsConfig}
    {p : FuncsConfig} {doc doc' : Document} {r R' : Reg} {D' : List Stmt}
    (hS : Composable doc) (hS' : Composable doc') (hsub : ∀ d ∈ doc, d ∈ doc')
    (hok : ∀ f ∈ fragmentsOf doc, fragOk f = true) (hprep : ParsesBack prep (fragmentsOf doc))
    (hoks : ∀ o ∈ operationsOf doc, ∀ n, o.name = some n → opOk n o = true)
    (h' : runPlugins (documentPlugins prep c pf po p doc') r = .ok (D', R')) :
    ∃ D R, runPlugins (documentPlugins prep c pf po p doc) r = .ok (D, R) ∧ ∀ s ∈ D, s ∈ D' := by
  obtain ⟨fc, oc, pc, l, l', R, _, _, _, hp, hp', rfl, h⟩ := C81_compositional hS hS' hsub hok hprep hoks h'
  refine ⟨_, R, h, fun s hs => ?_⟩
  have hfsub : ∀ f ∈ fragmentsOf doc, f ∈ fragmentsOf doc' := fun f hf => mem_fragmentsOf.2 (hsub _ (mem_fragmentsOf.1 hf))
  have hosub : ∀ o ∈ operationsOf doc, o ∈ operationsOf doc' := fun o ho => mem_operationsOf.2 (hsub _ (mem_operationsOf.1 ho))
  simp only [List.mem_append, List.mem_flatMap] at hs ⊢
  rcases hs with ⟨f, hf, hs⟩ | ⟨o, ho, hs⟩ | ⟨o, ho, hs⟩
  · exact .inl ⟨f, hp'.mem_iff.2 (hfsub f (hp.mem_iff.1 hf)), hs⟩
  · exact .inr (.inl ⟨o, hosub o ho, hs⟩)
  · exact .inr (.inr ⟨o, hosub o ho, hs⟩)

/-- C81, reordering: with the definitions in another order, the same statements are generated, in another order -/
theorem C81_reordering {prep : List Char → List Char} {c : Ctx} {pf : FragmentsConfig} {po : OperationsConfig}
    {p : FuncsConfig} {doc doc' : Document} {r R' : Reg} {D' : List Stmt}
    (hS' : Composable doc') (hperm : doc.Perm doc')
    (hok : ∀ f ∈ fragmentsOf doc', fragOk f = true) (hprep : ParsesBack prep (fragmentsOf doc'))
    (hoks : ∀ o ∈ operationsOf doc', ∀ n, o.name = some n → opOk n o = true)
    (h' : runPlugins (documentPlugins prep c pf po p doc') r = .ok (D', R')) :
    ∃ D R, runPlugins (documentPlugins prep c pf po p doc) r = .ok (D, R) ∧ D.Perm D' := by
  have pf' : (fragmentsOf doc).Perm (fragmentsOf doc') := hperm.filterMap _
  have po' : (operationsOf doc).Perm (operationsOf doc') := hperm.filterMap _
  have hlk : ∀ n, lookup (fragmentsOf doc) n = lookup (fragmentsOf doc') n := by
    intro n
    have hu := (pf'.map (·.name)).nodup_iff.2 hS'.fragmentNames
    cases h1 : lookup (fragmentsOf doc) n with
    | some d =>
      obtain ⟨m, e⟩ := Fragments.lookup_mem h1
      rw [← e]; exact (lookup_unique hS'.fragmentNames (pf'.mem_iff.1 m)).symm
    | none =>
      cases h2 : lookup (fragmentsOf doc') n with
      | none => rfl
      | some d =>
        obtain ⟨m, e⟩ := Fragments.lookup_mem h2
        rw [← e, lookup_unique hu (pf'.mem_iff.2 m)] at h1
        cases h1
  have hS : Composable doc :=
    { fragmentNames := (pf'.map (·.name)).nodup_iff.2 hS'.fragmentNames
      operationNames := (po'.map (·.name)).nodup_iff.2 hS'.operationNames
      defined := fun d hd x hx => (pf'.map (·.name)).mem_iff.2 (hS'.defined d (pf'.mem_iff.1 hd) x hx)
      definedO := fun d hd x hx => (pf'.map (·.name)).mem_iff.2 (hS'.definedO d (po'.mem_iff.1 hd) x hx)
      acyclic := fun n d hl hn => hS'.acyclic n d (by rw [← hlk]; exact hl)
        (needs_mono hS'.fragmentNames (fun f hf => pf'.mem_iff.1 hf) hn)
      inline := fun d hd => hS'.inline d (pf'.mem_iff.1 hd) }
  obtain ⟨fc, oc, pc, l, l', R, _, _, _, hp, hp', rfl, h⟩ := C81_compositional hS hS' (fun d hd => hperm.mem_iff.1 hd)
    (fun f hf => hok f (pf'.mem_iff.1 hf)) (fun f hf => hprep f (pf'.mem_iff.1 hf))
    (fun o ho => hoks o (po'.mem_iff.1 ho)) h'
  refine ⟨_, R, h, ?_⟩
  exact (((hp.trans pf').trans hp'.symm).flatMap_right fc).append ((po'.flatMap_right oc).append (po'.flatMap_right pc))

/-! ## examples -/

theorem needs_rank {frs : List FragDef} {rank : String → Nat} (h : ∀ d ∈ frs, ∀ x, Spreads d.sels x → rank x < rank d.name)
    {d : FragDef} (hd : d ∈ frs) {x : String} (hx : Needs frs d.sels x) : rank x < rank d.name := by
  induction hx with
  | direct f hf => exact h d hd f hf
  | through g e f _ hl hs ih =>
    obtain ⟨h1, h2⟩ := Fragments.lookup_mem hl
    have := h e h1 f hs
    rw [h2] at this
    omega

/-- `storeDoc` with a further fragment, which spreads the first, and a further query, written before the others -/
def fullDoc : Document :=
  .operation ⟨.query, some "Self", [], [ask "user" [.spread "FriendBits"]]⟩ ::
  .fragment ⟨"FriendBits", "User", [ask "id", .spread "UserBits", ask "__typename"]⟩ :: storeDoc

/-- where the fragments stand -/
def storeRank (n : String) : Nat := if n = "UserBits" then 0 else 1

theorem noInline_storeFragment : NoInlineSpread [ask "name",
    ask "friend" [ask "id", .inline (some "Post") [ask "title"], ask "__typename"], ask "__typename"] := by
  refine .field _ _ _ _ _ .nil (.field _ _ _ _ _ ?_ (.field _ _ _ _ _ .nil .nil))
  refine .field _ _ _ _ _ .nil (.inline _ _ _ (fun f hf => ?_) (.field _ _ _ _ _ .nil .nil))
  have := mem_spreadNames hf
  simp [ask, spreadNames, spreadNamesOf] at this

theorem fullDoc_fragments {d : FragDef} (hd : d ∈ fragmentsOf fullDoc) :
    d = ⟨"FriendBits", "User", [ask "id", .spread "UserBits", ask "__typename"]⟩ ∨
    d = ⟨"UserBits", "User", [ask "name",
      ask "friend" [ask "id", .inline (some "Post") [ask "title"], ask "__typename"], ask "__typename"]⟩ := by
  simpa [fullDoc, storeDoc, fragmentsOf] using hd

theorem fullDoc_spreads {d : FragDef} (hd : d ∈ fragmentsOf fullDoc) {x : String} (hx : Spreads d.sels x) :
    d.name = "FriendBits" ∧ x = "UserBits" := by
  have := mem_spreadNames hx
  rcases fullDoc_fragments hd with rfl | rfl
  · simpa [ask, spreadNames, spreadNamesOf] using this
  · simp [ask, spreadNames, spreadNamesOf] at this

theorem fullDoc_composable : Composable fullDoc where
  fragmentNames := by decide +kernel
  operationNames := by decide +kernel
  defined d hd x hx := by rw [(fullDoc_spreads hd hx).2]; decide +kernel
  definedO o ho x hx := by
    have h := mem_spreadNames hx
    simp only [fullDoc, storeDoc, operationsOf, List.filterMap_cons, List.filterMap_nil, List.mem_cons, List.not_mem_nil,
      or_false] at ho
    rcases ho with rfl | rfl
    · have : x = "FriendBits" := by simpa [ask, spreadNames, spreadNamesOf] using h
      rw [this]; decide +kernel
    · have : x = "UserBits" := by simpa [ask, spreadNames, spreadNamesOf] using h
      rw [this]; decide +kernel
  acyclic n d hl hn := by
    obtain ⟨h1, rfl⟩ := Fragments.lookup_mem hl
    have := needs_rank (rank := storeRank) (fun d hd x hx => by
      obtain ⟨e1, e2⟩ := fullDoc_spreads hd hx
      rw [e1, e2]; decide +kernel) h1 hn
    omega
  inline d hd := by
    rcases fullDoc_fragments hd with rfl | rfl
    · exact .field _ _ _ _ _ .nil (.spread _ _ (.field _ _ _ _ _ .nil .nil))
    · exact noInline_storeFragment

theorem storeDoc_sub {d : Defn} (h : d ∈ storeDoc) : d ∈ fullDoc := .tail _ (.tail _ h)

theorem storeDoc_composable : Composable storeDoc where
  fragmentNames := by decide +kernel
  operationNames := by decide +kernel
  defined d hd x hx := by
    have h := fullDoc_spreads (mem_fragmentsOf.2 (storeDoc_sub (mem_fragmentsOf.1 hd))) hx
    simp only [storeDoc, fragmentsOf, List.filterMap_cons, List.filterMap_nil, List.mem_singleton] at hd
    subst hd
    exact absurd h.1 (by decide +kernel)
  definedO o ho x hx := by
    have h := mem_spreadNames hx
    simp only [storeDoc, operationsOf, List.filterMap_cons, List.filterMap_nil, List.mem_singleton] at ho
    subst ho
    have : x = "UserBits" := by simpa [ask, spreadNames, spreadNamesOf] using h
    rw [this]; decide +kernel
  acyclic n d hl hn := by
    obtain ⟨h1, rfl⟩ := Fragments.lookup_mem hl
    have := needs_rank (rank := storeRank) (fun d hd x hx => by
      obtain ⟨e1, e2⟩ := fullDoc_spreads (mem_fragmentsOf.2 (storeDoc_sub (mem_fragmentsOf.1 hd))) hx
      rw [e1, e2]; decide +kernel) h1 hn
    omega
  inline d hd := fullDoc_composable.inline d (mem_fragmentsOf.2 (storeDoc_sub (mem_fragmentsOf.1 hd)))

/-- the statements for a document, after those for the types -/
theorem documentCode_run {c : Ctx} {p : FuncsConfig} {doc : Document} {n : Nat}
    (h : (documentCode c p doc).map List.length = some n) :
    ∃ T r D R, runPlugins (typePlugins c {} {}) (Reg.init c.env) = .ok (T, r) ∧
      runPlugins (documentPlugins id c {} {} p doc) r = .ok (D, R) ∧ D.length = n := by
  unfold documentCode at h
  cases h1 : runPlugins (typePlugins c {} {}) (Reg.init c.env) with
  | error e => rw [h1] at h; cases h
  | ok x =>
    obtain ⟨T, r⟩ := x
    rw [h1] at h
    dsimp only at h
    cases h2 : runPlugins (documentPlugins id c {} {} p doc) r with
    | error e => rw [h2] at h; cases h
    | ok y =>
      obtain ⟨D, R⟩ := y
      rw [h2] at h
      exact ⟨T, r, D, R, rfl, h2, Option.some.inj h⟩

/-- The theorem applies: the eighteen statements for the large document contain the fourteen for `storeDoc`, with expanded
inputs. -/
example : ∃ r D R D' R', runPlugins (documentPlugins id storeCtx {} {} storeFuncs storeDoc) r = .ok (D, R) ∧
    runPlugins (documentPlugins id storeCtx {} {} storeFuncs fullDoc) r = .ok (D', R') ∧ D'.length = 18 ∧ D.length = 14 ∧
    ∀ s ∈ D, s ∈ D' := by
  obtain ⟨T, r, D', R', ht, h', hl⟩ := documentCode_run (c := storeCtx) (p := storeFuncs) (doc := fullDoc) (n := 18)
    (by decide +kernel)
  obtain ⟨D, R, h, hs⟩ := C81_removal storeDoc_composable fullDoc_composable (fun d hd => storeDoc_sub hd)
    (by decide +kernel) (fun f hf => by
      simp only [storeDoc, fragmentsOf, List.filterMap_cons, List.filterMap_nil, List.mem_singleton] at hf
      subst hf
      decide +kernel) (fun o ho n hn => by
      simp only [storeDoc, operationsOf, List.filterMap_cons, List.filterMap_nil, List.mem_singleton] at ho
      subst ho
      cases hn
      decide +kernel) h'
  obtain ⟨T2, r2, D2, R2, ht2, h2, hl2⟩ := documentCode_run (c := storeCtx) (p := storeFuncs) (doc := storeDoc) (n := 14)
    (by decide +kernel)
  rw [ht] at ht2
  cases ht2
  rw [h] at h2
  cases h2
  exact ⟨r, D, R, D', R', h, h', hl, hl2, hs⟩

/-- the return annotations of the functions -/
def returnsOf (D : List Stmt) : List (Option Expr) := D.filterMap fun
  | .funcDef _ _ _ _ _ _ r => some r
  | _ => none

/-- a query -/
def lookQuery : Document := [.operation ⟨.query, some "Look", [], [ask "user" [ask "color"]]⟩]
/-- a mutation of the same name -/
def lookMutation : Document := [.operation ⟨.mutation, some "Look", [], [ask "say" [ask "text"]]⟩]

/-- C81 fails when a query and a mutation have the same name (which turms accepts): the function of the query is annotated
with what the mutation returns. -/
theorem C81_same_name_counterexample :
    (documentCode { storeCtx with schema := grownStore } storeFuncs lookQuery).map returnsOf =
      some [some (sub "Optional" (.name "LookUser")), some (sub "Optional" (.name "LookUser"))] ∧
    (documentCode { storeCtx with schema := grownStore } storeFuncs (lookQuery ++ lookMutation)).map returnsOf =
      some [some (sub "Optional" (.name "LookSay")), some (sub "Optional" (.name "LookSay"))] := by
  constructor <;> decide +kernel

/-- a spread below an inline fragment -/
def hiddenSpread : Document := [
  .fragment ⟨"NodeBits", "Node", [ask "id", .inline (some "User") [ask "friend" [.spread "OtherBits"]], ask "__typename"]⟩,
  .fragment ⟨"OtherBits", "Node", [ask "id", ask "__typename"]⟩]

/-- C81 fails for spreads below inline fragments: code is generated for the document in one order, none in the other. -/
theorem C81_order_counterexample :
    documentCode storeCtx {} hiddenSpread = none ∧
    (documentCode storeCtx {} hiddenSpread.reverse).map List.length = some 12 := by
  constructor
  · have : (documentCode storeCtx {} hiddenSpread).isNone = true := by decide +kernel
    exact Option.isNone_iff_eq_none.1 this
  · decide +kernel

end Turms.Props
