import Verif.Spec.FunctionNames
import Verif.Props.Funcs
import Verif.Props.Stylers
import Mathlib.Data.List.Nodup

/-! # C70: every operation gets functions of its own -/

namespace Turms.Props
open Turms Spec

theorem funcName_eq (p : FuncsConfig) (d : FuncDefinition) (o : OpDef) :
    funcName p d (o.name.getD "") = documentedName p d o := by
  unfold funcName documentedName prefixFor snakeName
  congr 1
  apply String.toList_inj.1
  rw [C01_snake_exact, String.toList_ofList]

theorem forall₂_map_eq {α β γ : Type} {R : α → β → Prop} {f : α → γ} {g : β → γ} {as : List α} {bs : List β}
    (h : List.Forall₂ R as bs) (hfg : ∀ a b, R a b → f a = g b) : as.map f = bs.map g := by
  induction h with
  | nil => rfl
  | cons h _ ih => rw [List.map_cons, List.map_cons, hfg _ _ h, ih]

theorem forall₂_mem_left {α β : Type} {R : α → β → Prop} {as : List α} {bs : List β} (h : List.Forall₂ R as bs) {a : α}
    (ha : a ∈ as) : ∃ b ∈ bs, R a b := by
  induction h with
  | nil => cases ha
  | cons h _ ih =>
    rcases List.mem_cons.1 ha with rfl | ha
    · exact ⟨_, List.mem_cons_self .., h⟩
    · obtain ⟨b, hb, hr⟩ := ih ha; exact ⟨b, List.mem_cons_of_mem _ hb, hr⟩

/-- C70: the plugin emits functions only, one for every operation and every definition of its kind, in document order,
named by the configured prefix and the operation in snake_case. -/
theorem C70_names {c : Ctx} {p : FuncsConfig} {doc : Document} {ss : List Stmt} {r r' : Reg}
    (h : funcsPlugin c p doc r = .ok (ss, r')) :
    ss.map functionName = (functionsFor p doc).map fun x => some (documentedName p x.2 x.1) := by
  symm
  refine forall₂_map_eq (allOperationFuncs_ok h) ?_
  rintro x f ⟨_, _, _, hf⟩
  obtain ⟨ret, d, assigns, P, final, cls, rfl, _⟩ := operationFunc_ok hf
  simp [functionName, funcName_eq]

/-- C70: no two functions have the same name, provided that the operations differ in snake_case, every kind of operation
has at most one synchronous and one asynchronous definition, and the prefixes do not turn one operation's name into
another's. -/
theorem C70_distinct_partial {c : Ctx} {p : FuncsConfig} {doc : Document} {ss : List Stmt} {r r' : Reg}
    (h : funcsPlugin c p doc r = .ok (ss, r')) (hops : ((operationsOf doc).map snakeName).Nodup)
    (hdef : (p.definitions.map fun d => (d.kind, d.isAsync)).Nodup)
    (hpre : ∀ o ∈ operationsOf doc, ∀ o' ∈ operationsOf doc, p.prependSync ++ snakeName o ≠ p.prependAsync ++ snakeName o') :
    (ss.map functionName).Nodup := by
  rw [C70_names h]
  have hinj : ∀ {a b : String} {s : String}, s ++ a = s ++ b → a = b := by
    intro a b s e
    have := congrArg String.toList e
    rw [String.toList_append, String.toList_append] at this
    exact String.toList_inj.1 (List.append_cancel_left this)
  have hflag : ∀ x ∈ functionsFor p doc, ∀ y ∈ functionsFor p doc, documentedName p x.2 x.1 = documentedName p y.2 y.1 →
      x.2.isAsync = y.2.isAsync ∧ snakeName x.1 = snakeName y.1 := by
    intro x hx y hy e
    have ox := (mem_functionsFor.1 hx).1
    have oy := (mem_functionsFor.1 hy).1
    unfold documentedName prefixFor at e
    cases h1 : x.2.isAsync <;> cases h2 : y.2.isAsync <;> rw [h1, h2] at e
    · exact ⟨rfl, hinj e⟩
    · exact absurd e (hpre _ ox _ oy)
    · exact absurd e.symm (hpre _ oy _ ox)
    · exact ⟨rfl, hinj e⟩
  unfold functionsFor at hflag ⊢
  generalize hO : operationsOf doc = os at hflag hops
  clear hO hpre h
  induction os with
  | nil => simp
  | cons o os ih =>
    rw [List.map_cons, List.nodup_cons] at hops
    rw [List.flatMap_cons, List.map_append]
    rw [List.flatMap_cons] at hflag
    rw [List.nodup_append]
    refine ⟨?_, ih (fun x hx y hy => hflag x (List.mem_append_right _ hx) y (List.mem_append_right _ hy)) hops.2, ?_⟩
    · rw [List.map_map]
      refine List.Nodup.map_on ?_ ?_
      · intro d hd d' hd' e
        have e' := Option.some.inj e
        have hf := (hflag (o, d) (List.mem_append_left _ (List.mem_map.2 ⟨d, hd, rfl⟩)) (o, d')
          (List.mem_append_left _ (List.mem_map.2 ⟨d', hd', rfl⟩)) e').1
        have hk := (List.mem_filter.1 hd).2
        have hk' := (List.mem_filter.1 hd').2
        exact List.inj_on_of_nodup_map hdef (List.mem_filter.1 hd).1 (List.mem_filter.1 hd').1
          (by simp only [Prod.mk.injEq]; exact ⟨(by simpa using hk : d.kind = o.kind).trans (by simpa using hk' : d'.kind = o.kind).symm, hf⟩)
      · exact (List.Nodup.of_map _ hdef).filter _
    · intro a ha b hb e
      subst e
      obtain ⟨x, hx, rfl⟩ := List.mem_map.1 ha
      obtain ⟨y, hy, e⟩ := List.mem_map.1 hb
      have hs := (hflag y (List.mem_append_right _ hy) x (List.mem_append_left _ hx) (Option.some.inj e)).2
      obtain ⟨o', ho', hy'⟩ := List.mem_flatMap.1 hy
      obtain ⟨d, _, rfl⟩ := List.mem_map.1 hx
      obtain ⟨d', _, rfl⟩ := List.mem_map.1 hy'
      exact hops.1 (hs ▸ List.mem_map_of_mem ho')

/-- C70: the name of every function is an identifier, if the prefix for it is empty or an identifier. -/
theorem C70_identifiers_partial {c : Ctx} {p : FuncsConfig} {doc : Document} {ss : List Stmt} {r r' : Reg}
    (h : funcsPlugin c p doc r = .ok (ss, r')) (hdoc : ∀ o ∈ operationsOf doc, ∀ n, o.name = some n → IsName n.toList)
    (hs : p.prependSync = "" ∨ IsName p.prependSync.toList) (ha : p.prependAsync = "" ∨ IsName p.prependAsync.toList) :
    ∀ f ∈ ss, ∃ n, functionName f = some n ∧ IsName n.toList := by
  have hnamed : ∀ x ∈ functionsFor p doc, ∃ n, x.1.name = some n := by
    intro x hx
    obtain ⟨f, _, _, _, _, hf⟩ := forall₂_mem_left (allOperationFuncs_ok h) hx
    obtain ⟨_, _, _, _, _, cls, _, _, _, _, _, n, hn, _⟩ := operationFunc_ok hf
    exact ⟨n, hn⟩
  intro f hf
  have hm : functionName f ∈ ss.map functionName := List.mem_map_of_mem hf
  rw [C70_names h] at hm
  obtain ⟨x, hx, e⟩ := List.mem_map.1 hm
  refine ⟨_, e.symm, ?_⟩
  obtain ⟨n, hn⟩ := hnamed x hx
  have hsn : IsName (snakeName x.1).toList := by
    have := C01_valid_identifier n (hdoc _ (mem_functionsFor.1 hx).1 n hn)
    rw [C01_snake_exact] at this
    unfold snakeName
    rw [hn, String.toList_ofList]
    exact this
  have key : ∀ q : String, (q = "" ∨ IsName q.toList) → IsName (q ++ snakeName x.1).toList := by
    rintro q (rfl | hq)
    · simpa using hsn
    · rw [String.toList_append]
      cases hc : q.toList with
      | nil => rw [hc] at hq; exact hq.elim
      | cons a as =>
        rw [hc] at hq
        refine ⟨hq.1, fun d hd => ?_⟩
        rcases List.mem_append.1 hd with hd | hd
        · exact hq.2 d hd
        · cases hq2 : (snakeName x.1).toList with
          | nil => rw [hq2] at hd; cases hd
          | cons b bs =>
            rw [hq2] at hsn hd
            rcases List.mem_cons.1 hd with rfl | hd
            · exact hsn.1.1
            · exact hsn.2 d hd
  unfold documentedName prefixFor
  split
  · exact key _ ha
  · exact key _ hs

/-- the test operation under another name -/
def shopAs (name : String) : Defn := .operation { shopOp with name := some name, vars := [] }

/-- the names of the generated functions -/
def functionNamesAre (doc : Document) (names : List String) : Bool :=
  builtSatisfies shopCtx shopFuncs doc fun fs _ => fs.map (fun f => (functionName f).getD "") == names

/-- the hypotheses of C70 are met by a module with four functions -/
example : ∃ r0 fs r1, funcsPlugin shopCtx shopFuncs [shopAs "Shop", shopAs "ListItems"] r0 = .ok (fs, r1) ∧
    fs.map functionName = [some "shop", some "ashop", some "list_items", some "alist_items"] := by
  have h : functionNamesAre [shopAs "Shop", shopAs "ListItems"] ["shop", "ashop", "list_items", "alist_items"] = true := by
    decide +kernel
  obtain ⟨_, _, r0, fs, r1, _, _, _, hf, _, _⟩ := built_ok h
  exact ⟨r0, fs, r1, hf, by rw [C70_names hf]; decide +kernel⟩

example : ((operationsOf [shopAs "Shop", shopAs "ListItems"]).map snakeName).Nodup ∧
    (shopFuncs.definitions.map fun d => (d.kind, d.isAsync)).Nodup ∧
    (∀ o ∈ operationsOf [shopAs "Shop", shopAs "ListItems"], ∀ o' ∈ operationsOf [shopAs "Shop", shopAs "ListItems"],
      shopFuncs.prependSync ++ snakeName o ≠ shopFuncs.prependAsync ++ snakeName o') := by decide +kernel

/-- C70 fails for operations that differ only in spelling: `GetItems` and `get_items` are both called through
`get_items` — the second function silently replaces the first. -/
theorem C70_spelling_counterexample :
    functionNamesAre [shopAs "GetItems", shopAs "get_items"] ["get_items", "aget_items", "get_items", "aget_items"] = true := by
  decide +kernel

/-- C70 fails for the default prefix: the asynchronous function of `Like` and the synchronous one of `Alike` share a
name. -/
theorem C70_prefix_counterexample :
    functionNamesAre [shopAs "Alike", shopAs "Like"] ["alike", "aalike", "like", "alike"] = true := by decide +kernel

/-- C70 fails for keywords: unlike the names of attributes and parameters, the names of functions are not escaped.
`query Import` gives `def import`, `query Wait` gives `async def await` — the module is not valid Python. -/
theorem C70_keyword_counterexample :
    functionNamesAre [shopAs "Import", shopAs "Wait"] ["import", "aimport", "wait", "await"] = true ∧
      isKeyword "import" = true ∧ isKeyword "await" = true := by decide +kernel

/-- C70 fails for operations whose class has a name without capitals: without a prefix, the function has the name of
the class of its operation, so the class is replaced by the function — which then hands itself to the proxy. -/
theorem C70_hides_class_counterexample {c : Ctx} {p : FuncsConfig} {doc : Document} {ss : List Stmt} {r r' : Reg}
    (h : funcsPlugin c p doc r = .ok (ss, r')) {o : OpDef} {d : FuncDefinition} {n : String} (ho : o ∈ operationsOf doc)
    (hd : d ∈ p.definitions) (hk : d.kind = o.kind) (hs : d.isAsync = false) (hp : p.prependSync = "")
    (hn : o.name = some n) (hu : ∀ ch ∈ n.toList, ch.isUpper = false) (hc : OperationClass c o n) :
    ∃ f ∈ ss, functionName f = some n ∧ OperationClass c o n := by
  have hm : some (documentedName p d o) ∈ (functionsFor p doc).map fun x => some (documentedName p x.2 x.1) :=
    List.mem_map.2 ⟨(o, d), mem_functionsFor.2 ⟨ho, hd, hk⟩, rfl⟩
  rw [← C70_names h] at hm
  obtain ⟨f, hf, e⟩ := List.mem_map.1 hm
  refine ⟨f, hf, ?_, hc⟩
  rw [e, ← funcName_eq]
  simp [funcName, hs, hp, hn, C01_fixpoint n hu]

/-- … and this happens without stylers for `query shop`: `def shop(…): return execute(client, shop, variables)` -/
example : ∃ r0 fs r1, funcsPlugin { schema := shopSchema } shopFuncs [shopAs "shop"] r0 = .ok (fs, r1) ∧
    OperationClass { schema := shopSchema } { shopOp with name := some "shop", vars := [] } "shop" := by
  have h : builtSatisfies { schema := shopSchema } shopFuncs [shopAs "shop"] (fun fs _ => fs.length == 2) = true := by
    decide +kernel
  obtain ⟨_, _, r0, fs, r1, _, _, _, hf, _, _⟩ := built_ok h
  exact ⟨r0, fs, r1, hf, "shop", rfl, rfl⟩

end Turms.Props
