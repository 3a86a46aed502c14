import Verif.Lemmas.Twins
import Verif.Props.Funcs

/-! # C85: the synchronous and the asynchronous function of an operation -/

namespace Turms.Props
open Turms Spec

theorem forall₂_getElem? {α β : Type} {R : α → β → Prop} {as : List α} {bs : List β} (h : List.Forall₂ R as bs) :
    ∀ {i : Nat} {a : α} {b : β}, as[i]? = some a → bs[i]? = some b → R a b := by
  induction h with
  | nil => intro i a b h; simp at h
  | cons hab _ ih =>
    intro i a b h1 h2
    cases i with
    | zero => simp at h1 h2; exact h1 ▸ h2 ▸ hab
    | succ i => simp at h1 h2; exact ih h1 h2

/-- the functions generated under two definitions are instances of one template -/
theorem twins_template {c : Ctx} {p : FuncsConfig} {doc : Document} {ss : List Stmt} {r r' : Reg}
    (h : funcsPlugin c p doc r = .ok (ss, r')) {i j : Nat} {o : OpDef} {d d' : FuncDefinition} {f f' : Stmt}
    (hi : (functionsFor p doc)[i]? = some (o, d)) (hj : (functionsFor p doc)[j]? = some (o, d'))
    (hf : ss[i]? = some f) (hf' : ss[j]? = some f') (hs : SameExtras d d') :
    ∃ t : Template, (∀ s ∈ t.stores, Stores s) ∧ f = t.render p d o ∧ f' = t.render p d' o := by
  have hall := allOperationFuncs_ok h
  obtain ⟨_, _, q1, e1⟩ := forall₂_getElem? hall hi hf
  obtain ⟨_, _, q2, e2⟩ := forall₂_getElem? hall hj hf'
  obtain ⟨t, _, h1, h2, h3⟩ := operationFunc_twins hs (mem_functionsFor.1 (List.mem_of_getElem? hi)).2.2
    (mem_functionsFor.1 (List.mem_of_getElem? hj)).2.2 (agree_quiet q1 q2) e1 e2
  exact ⟨t, h1, h2, h3⟩

/-- Two functions generated for the same operation under definitions with the same extra arguments — the synchronous and
the asynchronous one — are the same function up to what the definitions say: `async`, the prefix of the name, the proxy
called, `await`, and `Iterator` or `AsyncIterator`. Parameters, annotations, defaults, docstring, the mapping of
variables, the arguments of the proxy, the part of the result handed back and its annotation are the same. -/
theorem C85_twins {c : Ctx} {p : FuncsConfig} {doc : Document} {ss : List Stmt} {r r' : Reg}
    (h : funcsPlugin c p doc r = .ok (ss, r')) {i j : Nat} {o : OpDef} {d d' : FuncDefinition} {f f' : Stmt}
    (hi : (functionsFor p doc)[i]? = some (o, d)) (hj : (functionsFor p doc)[j]? = some (o, d'))
    (hf : ss[i]? = some f) (hf' : ss[j]? = some f') (hs : SameExtras d d') :
    ∃ t : Template, f = t.render p d o ∧ f' = t.render p d' o := by
  obtain ⟨t, _, h2, h3⟩ := twins_template h hi hj hf hf' hs
  exact ⟨t, h2, h3⟩

/-- Whatever call the one accepts and performs, the other accepts and performs, sending the same variables and handing back
the same part of the result, if its proxy is a name of the module that no parameter or local variable hides. -/
theorem C85_same_request {c : Ctx} {p : FuncsConfig} {doc : Document} {ss : List Stmt} {r r' : Reg}
    (h : funcsPlugin c p doc r = .ok (ss, r')) {i j : Nat} {o : OpDef} {d d' : FuncDefinition} {f f' : Stmt}
    (hi : (functionsFor p doc)[i]? = some (o, d)) (hj : (functionsFor p doc)[j]? = some (o, d'))
    (hf : ss[i]? = some f) (hf' : ss[j]? = some f') (hs : SameExtras d d') {M : List String} {pos : List PyVal}
    {kw : List (String × PyVal)} {out : Outcome} (hcall : callFunc M f pos kw = some out)
    (hM : lastComponent d'.use ∈ M) (hG : SeesGlobal (lastComponent d'.use) f') :
    ∃ out', callFunc M f' pos kw = some out' ∧ SameRequest out out' ∧ out'.call.func = lastComponent d'.use ∧
      out'.awaited = d'.isAsync := by
  obtain ⟨t, hst, rfl, rfl⟩ := twins_template h hi hj hf hf' hs
  obtain ⟨L, L', call, hb, hx, hc, rfl⟩ := Template.call_outcome hst hcall
  obtain ⟨hp, hbody⟩ := hG
  have hnone : ∀ (L : Locals) (n : String), n ∉ L.map (·.1) → L.find n = none := by
    intro L n
    induction L with
    | nil => intro _; rfl
    | cons x L ih =>
      intro hn
      obtain ⟨k, v⟩ := x
      simp only [List.map_cons, List.mem_cons, not_or] at hn
      simp only [Locals.find]
      rw [if_neg (Ne.symm hn.1)]
      exact ih hn.2
  have hfree : L'.find (lastComponent d'.use) = none :=
    (storesAll_names hst (fun s hs => hbody s (by simp [hs])) hx).2 (hnone _ _ (by rw [(bindCall_some hb).2]; exact hp))
  simp only [Template.call, evalCall] at hc
  split at hc
  · rename_i g as ks h1 h2 h3
    cases hc
    have hc' : evalCall M L' (t.call d') = some ⟨lastComponent d'.use, as, ks⟩ := by
      simp only [Template.call, evalCall, evalExpr, hfree, hM, if_true, h2, h3]
    exact ⟨_, Template.call_intro hb hx hc', ⟨rfl, rfl, rfl, rfl⟩, rfl, rfl⟩
  · cases hc

/-! ## Concrete cases -/

/-- the usual configuration: a synchronous and an asynchronous function for every query -/
def twinFuncs : FuncsConfig := { globalArgs := [⟨"client", "client.Client", ""⟩], definitions := [
  { kind := .query, use := "client.execute" }, { kind := .query, use := "client.aexecute", isAsync := true }] }

/-- does the function hide the name? -/
def hidesName (n : String) : Stmt → Bool
  | .funcDef _ _ args _ body _ _ => (args.map (·.arg)).contains n || body.any fun s => introduces s == some n
  | _ => true

theorem seesGlobal_of {n : String} {f : Stmt} (h : hidesName n f = false) : SeesGlobal n f := by
  cases f with
  | funcDef _ _ args _ body _ _ =>
    simp only [hidesName, Bool.or_eq_false_iff, List.any_eq_false, beq_iff_eq] at h
    exact ⟨by simpa using h.1, fun s hs => h.2 s hs⟩
  | _ => simp [hidesName] at h

/-- all hypotheses are met, and the two functions really send the same -/
example : ∃ r ss r' f f' out, funcsPlugin shopCtx twinFuncs [.operation shopOp] r = .ok (ss, r') ∧
    ss[0]? = some f ∧ ss[1]? = some f' ∧
    (functionsFor twinFuncs [.operation shopOp])[0]? = some (shopOp, { kind := .query, use := "client.execute" }) ∧
    (functionsFor twinFuncs [.operation shopOp])[1]? = some (shopOp, { kind := .query, use := "client.aexecute", isAsync := true }) ∧
    SameExtras { kind := .query, use := "client.execute" } { kind := .query, use := "client.aexecute", isAsync := true } ∧
    callFunc shopNames f [arg "C", arg "F", arg "2"] [] = some out ∧ SeesGlobal "aexecute" f' ∧ "aexecute" ∈ shopNames ∧
    showCall shopNames f' [arg "C", arg "F", arg "2"] [] =
      some ("aexecute", ["C", "<Shop>", "{filter=F;pageNo=2;}"], "", true, some "found") := by
  obtain ⟨_, _, r1, fs, r2, _, _, _, hf, _, ht⟩ := built_ok (c := shopCtx) (p := twinFuncs) (doc := [.operation shopOp])
    (test := fun fs _ => match fs with
      | [f, g] => (callFunc shopNames f [arg "C", arg "F", arg "2"] []).isSome && !hidesName "aexecute" g &&
        showCall shopNames g [arg "C", arg "F", arg "2"] [] ==
          some ("aexecute", ["C", "<Shop>", "{filter=F;pageNo=2;}"], "", true, some "found")
      | _ => false) (by decide +kernel)
  match fs, ht with
  | [f, g], ht =>
    simp only [Bool.and_eq_true, beq_iff_eq, Bool.not_eq_true', Option.isSome_iff_exists] at ht
    obtain ⟨⟨⟨out, h1⟩, h2⟩, h3⟩ := ht
    exact ⟨r1, _, r2, f, g, out, hf, rfl, rfl, rfl, rfl, ⟨rfl, rfl⟩, h1, seesGlobal_of h2, by decide, h3⟩

/-- Without the last condition the claim fails: a variable called like one of the two proxies hidesName that proxy in both
functions, so that only the other one works. -/
theorem C85_hidden_proxy_counterexample :
    builtSatisfies shopCtx { twinFuncs with globalArgs := [] } [.operation (oneVar ⟨"execute", .nonNull (.named "Int"), none⟩)]
      (fun fs _ => match fs with
        | [f, g] => (showCall shopNames f [arg "5"] []).isNone &&
          showCall shopNames g [arg "5"] [] == some ("aexecute", ["<Shop>", "{execute=5;}"], "", true, some "items")
        | _ => false) = true := by decide +kernel

end Turms.Props
