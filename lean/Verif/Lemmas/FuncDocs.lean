import Verif.Spec.FuncDocs
import Verif.Lemmas.StillWalk

/-! # Lemmas: docstrings of functions -/

namespace Turms
open Spec

variable {c : Ctx} {p : FuncsConfig}

/-! ## descriptions -/

theorem joinAnd_snoc (l : List String) (x : String) :
    joinAnd (l ++ [x]) = match l with
      | [] => x
      | l => joinAnd l ++ " AND " ++ x := by
  induction l with
  | nil => rfl
  | cons a l ih =>
    cases l with
    | nil => rfl
    | cons b l =>
      show a ++ " AND " ++ joinAnd (b :: l ++ [x]) = _
      rw [ih]
      simp only [joinAnd, String.append_assoc]

/-- the dictionary says these things about the variable -/
def Says (m : Dict String) (v : String) (l : List String) : Prop :=
  m.get? v = match l with
    | [] => none
    | l => some (joinAnd l)

theorem Says.getD {m : Dict String} {v : String} {l : List String} (h : Says m v l) :
    (m.get? v).getD "No description" = joinAnd l := by
  unfold Says at h
  rw [h]
  cases l <;> rfl

theorem says_snoc {m : Dict String} {v x : String} {l : List String} (h : Says m v l) :
    Says (m.set v (match m.get? v with
      | some old => old ++ " AND " ++ x
      | none => x)) v (l ++ [x]) := by
  unfold Says at h ⊢
  rw [Dict.get?_set_self, h]
  cases l with
  | nil => rfl
  | cons a l =>
    show some _ = some (joinAnd (a :: l ++ [x]))
    rw [joinAnd_snoc]

theorem Says.set_ne {m : Dict String} {v w x : String} {l : List String} (h : Says m v l) (hne : w ≠ v) :
    Says (m.set w x) v l := by
  unfold Says at h ⊢
  rw [Dict.get?_set_ne _ _ hne]
  exact h

/-- the descriptions among the arguments of one field -/
def givenIn (f : Option FieldDef) (v : String) (args : List (String × Value)) : List String :=
  args.flatMap fun a =>
    match a.2, f with
    | .variable w, some f =>
      if w = v then
        match f.args.find? (·.name == v) with
        | some d => if truthy d.description then [d.description.getD ""] else []
        | none => []
      else []
    | _, _ => []

theorem describeArgs_says {fd : Option FieldDef} {v : String} (args : List (String × Value)) :
    ∀ {m m' : Dict String} {l : List String} {r r' : Reg}, Says m v l → describeArgs fd args m r = .ok (m', r') →
      Says m' v (l ++ givenIn fd v args) := by
  induction args with
  | nil =>
    intro m m' l r r' hs h
    unfold describeArgs at h
    obtain ⟨rfl, _⟩ := Gen.pure_ok.1 h
    simpa [givenIn] using hs
  | cons a args ih =>
    intro m m' l r r' hs h
    obtain ⟨n, x⟩ := a
    have hcons : givenIn fd v ((n, x) :: args) = givenIn fd v [(n, x)] ++ givenIn fd v args := by
      unfold givenIn
      rw [List.flatMap_cons, List.flatMap_cons, List.flatMap_nil, List.append_nil]
    rw [hcons, ← List.append_assoc]
    cases x with
    | «variable» w =>
      unfold describeArgs at h
      cases fd with
      | none => cases h
      | some f =>
        dsimp only at h
        by_cases hw : w = v
        · subst hw
          cases hf : f.args.find? (·.name == w) with
          | none =>
            rw [hf] at h
            have e : givenIn (some f) w [(n, Value.variable w)] = [] := by simp [givenIn, hf]
            rw [e, List.append_nil]
            exact ih hs h
          | some d =>
            rw [hf] at h
            dsimp only at h
            by_cases ht : truthy d.description = true
            · rw [if_pos ht] at h
              have e : givenIn (some f) w [(n, Value.variable w)] = [d.description.getD ""] := by simp [givenIn, hf, ht]
              rw [e]
              exact ih (says_snoc hs) h
            · rw [if_neg ht] at h
              have e : givenIn (some f) w [(n, Value.variable w)] = [] := by simp [givenIn, hf, ht]
              rw [e, List.append_nil]
              exact ih hs h
        · have e : givenIn (some f) v [(n, Value.variable w)] = [] := by simp [givenIn, hw]
          rw [e, List.append_nil]
          cases hf : f.args.find? (·.name == w) with
          | none => rw [hf] at h; exact ih hs h
          | some d =>
            rw [hf] at h
            dsimp only at h
            split at h
            · exact ih (hs.set_ne hw) h
            · exact ih hs h
    | _ =>
      have e : ∀ x, (∀ w, x ≠ Value.variable w) → givenIn fd v [(n, x)] = [] := by
        intro x hx
        unfold givenIn
        cases x <;> simp_all
      rw [e _ (by intro w hw; cases hw), List.append_nil]
      unfold describeArgs at h
      exact ih hs h

theorem givenTo_cons (s : Schema) (root v : String) (x : Sel) (sels : List Sel) :
    givenTo s root v (x :: sels) = givenTo s root v [x] ++ givenTo s root v sels := by
  unfold givenTo
  rw [List.flatMap_cons, List.flatMap_cons, List.flatMap_nil, List.append_nil]

theorem estimateVariables_says {root v : String} (sels : List Sel) :
    ∀ {m m' : Dict String} {l : List String} {r r' : Reg}, Says m v l → estimateVariables c root sels m r = .ok (m', r') →
      Says m' v (l ++ givenTo c.schema root v sels) := by
  induction sels with
  | nil =>
    intro m m' l r r' hs h
    unfold estimateVariables at h
    obtain ⟨rfl, _⟩ := Gen.pure_ok.1 h
    simpa [givenTo] using hs
  | cons x sels ih =>
    intro m m' l r r' hs h
    rw [givenTo_cons, ← List.append_assoc]
    cases x with
    | field n al args sub =>
      unfold estimateVariables at h
      obtain ⟨m1, r1, h1, h⟩ := Gen.bind_ok.1 h
      have e : givenTo c.schema root v [.field n al args sub] = givenIn (getFieldDef c.schema root n) v args := by
        unfold givenTo givenIn
        rw [List.flatMap_cons, List.flatMap_nil, List.append_nil]
        rfl
      rw [e]
      split at h
      · cases h
      · exact ih (describeArgs_says args hs h1) h
    | spread f =>
      unfold estimateVariables at h
      have e : givenTo c.schema root v [.spread f] = [] := rfl
      rw [e, List.append_nil]
      exact ih hs h
    | inline t sub =>
      unfold estimateVariables at h
      have e : givenTo c.schema root v [.inline t sub] = [] := rfl
      rw [e, List.append_nil]
      exact ih hs h

/-! ## lines -/

theorem join_append (a b : List String) : String.join (a ++ b) = String.join a ++ String.join b := by
  induction a with
  | nil => exact String.empty_append.symm
  | cons x a ih => rw [List.cons_append, String.join_cons, String.join_cons, ih, String.append_assoc]

theorem concatDocs_lines {f : VarDef → Gen String} {L : VarDef → String → Prop} {keep : VarDef → Bool} (vs : List VarDef) :
    ∀ {t : String} {r r' : Reg},
      (∀ v ∈ vs, ∀ t r r', f v r = .ok (t, r') → if keep v then L v t else t = "") → concatDocs f vs r = .ok (t, r') →
      ∃ lines, t = String.join lines ∧ List.Forall₂ L (vs.filter keep) lines := by
  induction vs with
  | nil =>
    intro t r r' _ h
    unfold concatDocs at h
    obtain ⟨rfl, _⟩ := Gen.pure_ok.1 h
    exact ⟨[], rfl, .nil⟩
  | cons v vs ih =>
    intro t r r' hf h
    unfold concatDocs at h
    obtain ⟨a, r1, h1, h⟩ := Gen.bind_ok.1 h
    obtain ⟨b, r2, h2, h⟩ := Gen.bind_ok.1 h
    obtain ⟨rfl, _⟩ := Gen.pure_ok.1 h
    obtain ⟨lines, rfl, hl⟩ := ih (fun w hw => hf w (by simp [hw])) h2
    have := hf v (by simp) a _ _ h1
    rw [List.filter_cons]
    split at this
    · rename_i hk
      rw [if_pos hk]
      exact ⟨a :: lines, (String.join_cons ..).symm, .cons this hl⟩
    · rename_i hk
      rw [if_neg hk, this]
      exact ⟨lines, String.empty_append, hl⟩

theorem docRequired_line {m : Dict String} {v : VarDef} {said t : String} {r r' : Reg} (hex : v.name ∉ p.expandInputTypes)
    (hsaid : (m.get? v.name).getD "No description" = said) (h : docRequired c p m v r = .ok (t, r')) :
    if v.isRequired then VariableLine c.env said v t else t = "" := by
  unfold docRequired at h
  rw [if_neg (by simpa using hex)] at h
  split at h
  · rename_i hr
    rw [if_pos hr]
    obtain ⟨q, r1, hq, h⟩ := Gen.bind_ok.1 h
    obtain ⟨l, r2, _, h⟩ := Gen.bind_ok.1 h
    obtain ⟨rfl, _⟩ := Gen.pure_ok.1 h
    rw [hsaid]
    exact .required (requiredVar_iff.1 hr) (Gen.lift_ok.1 hq).1
  · rename_i hr
    rw [if_neg hr]
    exact (Gen.pure_ok.1 h).1.symm

theorem defaultText_literal {x : Value} {t : String} {r r' : Reg} (h : defaultText x r = .ok (t, r')) : LiteralText x t := by
  unfold defaultText at h
  split at h
  · obtain ⟨rfl, _⟩ := Gen.pure_ok.1 h; constructor
  · obtain ⟨rfl, _⟩ := Gen.pure_ok.1 h; constructor
  · obtain ⟨rfl, _⟩ := Gen.pure_ok.1 h; constructor
  · rename_i b
    obtain ⟨rfl, _⟩ := Gen.pure_ok.1 h
    cases b <;> constructor
  · obtain ⟨rfl, _⟩ := Gen.pure_ok.1 h; constructor
  · cases h

theorem docOptional_line {m : Dict String} {v : VarDef} {said t : String} {r r' : Reg}
    (hsaid : (m.get? v.name).getD "No description" = said) (h : docOptional c m v r = .ok (t, r')) :
    if !v.isRequired then VariableLine c.env said v t else t = "" := by
  unfold docOptional at h
  split at h
  · rename_i hr
    rw [hr]
    exact (Gen.pure_ok.1 h).1.symm
  · rename_i hr
    rw [if_pos (by simpa using hr)]
    obtain ⟨q, r1, hq, h⟩ := Gen.bind_ok.1 h
    obtain ⟨l, r2, _, h⟩ := Gen.bind_ok.1 h
    obtain ⟨d, r3, hd, h⟩ := Gen.bind_ok.1 h
    obtain ⟨rfl, _⟩ := Gen.pure_ok.1 h
    rw [hsaid]
    unfold docDefault at hd
    cases hv : v.default with
    | none =>
      rw [hv] at hd
      obtain ⟨rfl, _⟩ := Gen.pure_ok.1 hd
      rw [String.append_empty]
      exact .optional (fun hn => hr (requiredVar_iff.2 hn)) hv (Gen.lift_ok.1 hq).1
    | some x =>
      rw [hv] at hd
      obtain ⟨text, r4, ht, hd⟩ := Gen.bind_ok.1 hd
      obtain ⟨rfl, _⟩ := Gen.pure_ok.1 hd
      exact .default hv (defaultText_literal ht) (Gen.lift_ok.1 hq).1

theorem _root_.Turms.Spec.VariableLine.lineFor {env : Env} {said l param : String} {v : VarDef} (h : VariableLine env said v l)
    (hp : ParamOf env v.name param) : LineFor param l := by
  cases h with
  | @required q label _ hq =>
    rw [(paramOf_unique hp _).1 hq]
    exact ⟨label ++ ("): " ++ said), by simp only [String.append_assoc]⟩
  | @optional q label _ _ hq =>
    rw [(paramOf_unique hp _).1 hq]
    exact ⟨label ++ (", optional): " ++ (said ++ ". ")), by simp only [String.append_assoc]⟩
  | @default q label x text _ _ hq =>
    rw [(paramOf_unique hp _).1 hq]
    exact ⟨label ++ (", optional): " ++ (said ++ (". " ++ ("Defaults to " ++ text)))), by simp only [String.append_assoc]⟩

/-! ## parameters -/

theorem requiredParams_names : ∀ {vs : List VarDef} {P : Params} {r r' : Reg}, requiredParams c p vs r = .ok (P, r') →
    P.kw = [] ∧ List.Forall₂ (fun v n => ParamOf c.env v.name n) vs (P.pos.map (·.arg)) := by
  intro vs
  induction vs with
  | nil =>
    intro P r r' h
    unfold requiredParams at h
    obtain ⟨rfl, rfl⟩ := Gen.pure_ok.1 h
    exact ⟨rfl, .nil⟩
  | cons v vs ih =>
    intro P r r' h
    unfold requiredParams at h
    obtain ⟨q, r1, hq, h⟩ := Gen.bind_ok.1 h
    obtain ⟨a, r2, _, h⟩ := Gen.bind_ok.1 h
    obtain ⟨b, r3, hb, h⟩ := Gen.bind_ok.1 h
    obtain ⟨rfl, rfl⟩ := Gen.pure_ok.1 h
    have hq : ParamOf c.env v.name q := (Gen.lift_ok.1 hq).1
    obtain ⟨h1, h2⟩ := ih hb
    exact ⟨h1, .cons hq h2⟩

theorem optionalParams_names : ∀ {vs : List VarDef} {P : Params} {r r' : Reg}, optionalParams c p vs r = .ok (P, r') →
    P.pos = [] ∧ List.Forall₂ (fun v n => ParamOf c.env v.name n) vs (P.kw.map (·.arg)) := by
  intro vs
  induction vs with
  | nil =>
    intro P r r' h
    unfold optionalParams at h
    obtain ⟨rfl, rfl⟩ := Gen.pure_ok.1 h
    exact ⟨rfl, .nil⟩
  | cons v vs ih =>
    intro P r r' h
    unfold optionalParams at h
    obtain ⟨q, r1, hq, h⟩ := Gen.bind_ok.1 h
    obtain ⟨a, r2, _, h⟩ := Gen.bind_ok.1 h
    obtain ⟨u, r3, _, h⟩ := Gen.bind_ok.1 h
    obtain ⟨x, r4, hx, h⟩ := Gen.bind_ok.1 h
    obtain ⟨b, r5, hb, h⟩ := Gen.bind_ok.1 h
    obtain ⟨rfl, rfl⟩ := Gen.pure_ok.1 h
    have hq : ParamOf c.env v.name q := (Gen.lift_ok.1 hq).1
    obtain ⟨h1, h2⟩ := ih hb
    exact ⟨h1, .cons hq h2⟩

theorem extraArgParams_names : ∀ {as : List ExtraArg} {P : Params} {r r' : Reg}, extraArgParams as r = .ok (P, r') →
    P.kw = [] ∧ P.pos.map (·.arg) = as.map (·.key) := by
  intro as
  induction as with
  | nil =>
    intro P r r' h
    unfold extraArgParams at h
    obtain ⟨rfl, rfl⟩ := Gen.pure_ok.1 h
    exact ⟨rfl, rfl⟩
  | cons a as ih =>
    intro P r r' h
    unfold extraArgParams at h
    obtain ⟨_, r1, _, h⟩ := Gen.bind_ok.1 h
    obtain ⟨b, r2, hb, h⟩ := Gen.bind_ok.1 h
    obtain ⟨rfl, rfl⟩ := Gen.pure_ok.1 h
    obtain ⟨h1, h2⟩ := ih hb
    exact ⟨h1, by simp [Params.append, h2]⟩

theorem extraKwargParams_names : ∀ {ks : List ExtraKwarg} {P : Params} {r r' : Reg}, extraKwargParams ks r = .ok (P, r') →
    P.pos = [] ∧ P.kw.map (·.arg) = ks.map (·.key) := by
  intro ks
  induction ks with
  | nil =>
    intro P r r' h
    unfold extraKwargParams at h
    obtain ⟨rfl, rfl⟩ := Gen.pure_ok.1 h
    exact ⟨rfl, rfl⟩
  | cons a as ih =>
    intro P r r' h
    unfold extraKwargParams at h
    obtain ⟨_, r1, _, h⟩ := Gen.bind_ok.1 h
    obtain ⟨b, r2, hb, h⟩ := Gen.bind_ok.1 h
    obtain ⟨rfl, rfl⟩ := Gen.pure_ok.1 h
    obtain ⟨h1, h2⟩ := ih hb
    exact ⟨h1, by simp [Params.append, h2]⟩

theorem expandedParams_none : ∀ {vs : List VarDef} {P : Params} {r r' : Reg}, (∀ v ∈ vs, v.name ∉ p.expandInputTypes) →
    expandedParams c p vs r = .ok (P, r') → P = {} := by
  intro vs
  induction vs with
  | nil =>
    intro P r r' _ h
    unfold expandedParams at h
    exact (Gen.pure_ok.1 h).1.symm
  | cons v vs ih =>
    intro P r r' hex h
    unfold expandedParams at h
    rw [if_neg (by simpa using hex v (by simp))] at h
    exact ih (fun w hw => hex w (by simp [hw])) h

theorem forall₂_lines {env : Env} {said : String → String} {vs : List VarDef} : ∀ {ns ls : List String},
    List.Forall₂ (fun v n => ParamOf env v.name n) vs ns → List.Forall₂ (fun v l => VariableLine env (said v.name) v l) vs ls →
    List.Forall₂ LineFor ns ls := by
  induction vs with
  | nil =>
    intro ns ls h1 h2
    cases h1
    cases h2
    exact .nil
  | cons v vs ih =>
    intro ns ls h1 h2
    cases h1 with
    | cons ha h1 =>
      cases h2 with
      | cons hb h2 => exact .cons (hb.lineFor ha) (ih h1 h2)

theorem forall₂_mem {α β : Type} {R : α → β → Prop} {as : List α} : ∀ {bs : List β}, List.Forall₂ R as bs →
    ∀ a ∈ as, ∃ b ∈ bs, R a b := by
  induction as with
  | nil => intro bs _ a h; cases h
  | cons x as ih =>
    intro bs h a ha
    cases h with
    | cons hx h =>
      rcases List.mem_cons.1 ha with rfl | ha
      · exact ⟨_, by simp, hx⟩
      · obtain ⟨b, hb, hr⟩ := ih h a ha
        exact ⟨b, by simp [hb], hr⟩

theorem operationFunc_documented {d : FuncDefinition} {o : OpDef} {f : Stmt} {r r' : Reg}
    (h : operationFunc c p d o r = .ok (f, r')) (hex : ∀ v ∈ o.vars, v.name ∉ p.expandInputTypes) :
    DocumentsParameters c o f := by
  unfold operationFunc at h
  obtain ⟨ret, r1, hret, h⟩ := Gen.bind_ok.1 h
  obtain ⟨doc, r2, hdoc, h⟩ := Gen.bind_ok.1 h
  obtain ⟨assigns, r3, has, h⟩ := Gen.bind_ok.1 h
  obtain ⟨_, r4, _, h⟩ := Gen.bind_ok.1 h
  obtain ⟨P, r5, hP, h⟩ := Gen.bind_ok.1 h
  obtain ⟨final, r6, hfin, h⟩ := Gen.bind_ok.1 h
  obtain ⟨rfl, rfl⟩ := Gen.pure_ok.1 h
  unfold queryDoc at hdoc
  obtain ⟨root, s1, hroot, hdoc⟩ := Gen.bind_ok.1 hdoc
  obtain ⟨label, s2, _, hdoc⟩ := Gen.bind_ok.1 hdoc
  obtain ⟨m, s3, hm, hdoc⟩ := Gen.bind_ok.1 hdoc
  obtain ⟨head, s4, _, hdoc⟩ := Gen.bind_ok.1 hdoc
  obtain ⟨req, s5, hreq, hdoc⟩ := Gen.bind_ok.1 hdoc
  obtain ⟨opt, s6, hopt, hdoc⟩ := Gen.bind_ok.1 hdoc
  obtain ⟨rfl, _⟩ := Gen.pure_ok.1 hdoc
  have hr : c.schema.root o.kind = some root := by
    unfold rootTypeOf at hroot
    cases e : c.schema.root o.kind with
    | none => rw [e] at hroot; cases hroot
    | some t =>
      rw [e] at hroot
      obtain ⟨rfl, _⟩ := Gen.pure_ok.1 hroot
      rfl
  have hsaid : ∀ v, (m.get? v).getD "No description" = saidOf c.schema root v o.sels := fun v =>
    (estimateVariables_says (v := v) (l := []) o.sels (show Says [] v [] from rfl) hm).getD
  obtain ⟨ls1, rfl, hl1⟩ := concatDocs_lines (L := fun v l => VariableLine c.env (saidOf c.schema root v.name o.sels) v l)
    (keep := (·.isRequired)) o.vars (fun v hv t r r' h => docRequired_line (hex v hv) (hsaid v.name) h) hreq
  obtain ⟨ls2, rfl, hl2⟩ := concatDocs_lines (L := fun v l => VariableLine c.env (saidOf c.schema root v.name o.sels) v l)
    (keep := (!·.isRequired)) o.vars (fun v hv t r r' h => docOptional_line (hsaid v.name) h) hopt
  unfold generateParameters at hP
  obtain ⟨a, q1, ha, hP⟩ := Gen.bind_ok.1 hP
  obtain ⟨b, q2, hb, hP⟩ := Gen.bind_ok.1 hP
  obtain ⟨e, q3, he, hP⟩ := Gen.bind_ok.1 hP
  obtain ⟨g, q4, hg, hP⟩ := Gen.bind_ok.1 hP
  obtain ⟨k, q5, hk, hP⟩ := Gen.bind_ok.1 hP
  obtain ⟨rfl, _⟩ := Gen.pure_ok.1 hP
  obtain ⟨a1, a2⟩ := extraArgParams_names ha
  have hb := expandedParams_none (fun v hv => hex v (List.mem_filter.1 hv).1) hb
  subst hb
  have hfil : (o.vars.filter (·.isRequired)).filter (fun v => !p.expandInputTypes.contains v.name) = o.vars.filter (·.isRequired) :=
    List.filter_eq_self.2 fun v hv => by simpa using hex v (List.mem_filter.1 hv).1
  rw [hfil] at he
  obtain ⟨e1, e2⟩ := requiredParams_names he
  obtain ⟨g1, g2⟩ := optionalParams_names hg
  obtain ⟨k1, k2⟩ := extraKwargParams_names hk
  have la : List.Forall₂ LineFor ((p.argsFor d).map (·.key))
      ((p.argsFor d).map fun a => "    " ++ a.key ++ " (" ++ a.type ++ "): " ++ a.description ++ "\n") := by
    rw [List.forall₂_map_left_iff, List.forall₂_map_right_iff, List.forall₂_same]
    exact fun x _ => ⟨x.type ++ ("): " ++ x.description), by simp only [String.append_assoc]⟩
  have lk : List.Forall₂ LineFor ((p.kwargsFor d).map (·.key))
      ((p.kwargsFor d).map fun k => "    " ++ k.key ++ " (" ++ k.type ++ ", optional): " ++ k.description ++ "\n") := by
    rw [List.forall₂_map_left_iff, List.forall₂_map_right_iff, List.forall₂_same]
    exact fun x _ => ⟨x.type ++ (", optional): " ++ x.description), by simp only [String.append_assoc]⟩
  refine ⟨head, ((p.argsFor d).map fun a => "    " ++ a.key ++ " (" ++ a.type ++ "): " ++ a.description ++ "\n") ++ (ls1 ++
    (ls2 ++ (p.kwargsFor d).map fun k => "    " ++ k.key ++ " (" ++ k.type ++ ", optional): " ++ k.description ++ "\n")),
    label, root, hr, ?_, ?_, ?_⟩
  · simp only [docOf, join_append, String.append_assoc]
    rfl
  · simp only [paramsOf, Params.append, a1, e1, g1, k1, List.append_nil, List.nil_append, List.map_append, a2, k2, List.append_assoc]
    exact List.rel_append la (List.rel_append (forall₂_lines (said := fun v => saidOf c.schema root v o.sels) e2 hl1)
      (List.rel_append (forall₂_lines (said := fun v => saidOf c.schema root v o.sels) g2 hl2) lk))
  · intro v hv
    cases hi : v.isRequired with
    | true =>
      obtain ⟨l, hl, hx⟩ := forall₂_mem hl1 v (List.mem_filter.2 ⟨hv, hi⟩)
      exact ⟨l, by simp [hl], hx⟩
    | false =>
      obtain ⟨l, hl, hx⟩ := forall₂_mem hl2 v (List.mem_filter.2 ⟨hv, by simp [hi]⟩)
      exact ⟨l, by simp [hl], hx⟩

theorem truthy_iff {t : Option String} : truthy t = true ↔ ∃ x, t = some x ∧ x ≠ "" := by
  cases t <;> simp [truthy]

theorem rootDescriptions_ok {root : String} : ∀ {sels : List Sel} {m m' : Dict String} {r r' : Reg},
    rootDescriptions c root sels m r = .ok (m', r') → m.keys.Nodup →
    m'.keys.Nodup ∧ (∀ key text, (key, text) ∈ m' → (key, text) ∈ m ∨ RootDescription c.schema root sels key text) ∧
    (∀ key, key ∈ m.keys ∨ (∃ text, RootDescription c.schema root sels key text) → key ∈ m'.keys) := by
  intro sels
  have step : ∀ {x : Sel} {sels : List Sel} {key text : String}, RootDescription c.schema root sels key text →
      RootDescription c.schema root (x :: sels) key text := by
    rintro x sels key text ⟨n, al, args, sub, f, h1, h2⟩
    exact ⟨n, al, args, sub, f, List.mem_cons_of_mem _ h1, h2⟩
  induction sels with
  | nil =>
    intro m m' r r' h hm
    unfold rootDescriptions at h
    obtain ⟨rfl, _⟩ := Gen.pure_ok.1 h
    refine ⟨hm, fun key text h => .inl h, fun key h => h.elim id ?_⟩
    rintro ⟨text, _, _, _, _, _, h, _⟩
    cases h
  | cons x sels ih =>
    intro m m' r r' h hm
    have other : (∀ n al args sub, x ≠ Sel.field n al args sub) → rootDescriptions c root sels m r = .ok (m', r') →
        m'.keys.Nodup ∧ (∀ key text, (key, text) ∈ m' → (key, text) ∈ m ∨ RootDescription c.schema root (x :: sels) key text) ∧
        (∀ key, key ∈ m.keys ∨ (∃ text, RootDescription c.schema root (x :: sels) key text) → key ∈ m'.keys) := by
      intro hx h
      obtain ⟨h1, h2, h3⟩ := ih h hm
      refine ⟨h1, fun key text hk => (h2 key text hk).imp id step, fun key hk => h3 key (hk.imp id ?_)⟩
      rintro ⟨text, n, al, args, sub, f, hf, e⟩
      exact ⟨text, n, al, args, sub, f, (List.mem_cons.1 hf).resolve_left fun e => hx _ _ _ _ e.symm, e⟩
    cases x with
    | spread f => unfold rootDescriptions at h; exact other (by intros; intro e; cases e) h
    | inline t sub => unfold rootDescriptions at h; exact other (by intros; intro e; cases e) h
    | field n al args sub =>
      unfold rootDescriptions at h
      cases hf : getFieldDef c.schema root n with
      | none => rw [hf] at h; cases h
      | some f =>
        rw [hf] at h
        dsimp only at h
        have back : ∀ {key text : String}, RootDescription c.schema root (Sel.field n al args sub :: sels) key text →
            RootDescription c.schema root sels key text ∨ (key = al.getD n ∧ f.description = some text ∧ text ≠ "") := by
          rintro key text ⟨n', al', args', sub', f', hm', rfl, hf', hd⟩
          rcases List.mem_cons.1 hm' with e | hm'
          · cases e
            rw [hf] at hf'
            cases hf'
            exact .inr ⟨rfl, hd⟩
          · exact .inl ⟨n', al', args', sub', f', hm', rfl, hf', hd⟩
        by_cases ht : truthy f.description = true
        · rw [if_pos ht] at h
          obtain ⟨x, hx, hne⟩ := truthy_iff.1 ht
          rw [hx] at h
          obtain ⟨h1, h2, h3⟩ := ih h (Dict.nodup_keys_set _ _ _ hm)
          refine ⟨h1, fun key text hk => ?_, fun key hk => h3 key ?_⟩
          · rcases h2 key text hk with h | h
            · rcases Dict.mem_set h with ⟨rfl, rfl⟩ | h
              · exact .inr ⟨n, al, args, sub, f, List.mem_cons_self, rfl, hf, hx, hne⟩
              · exact .inl h
            · exact .inr (step h)
          · rcases hk with hk | ⟨text, hk⟩
            · exact .inl ((Dict.mem_keys_set ..).2 (.inr hk))
            · rcases back hk with hk | ⟨rfl, _⟩
              · exact .inr ⟨text, hk⟩
              · exact .inl ((Dict.mem_keys_set ..).2 (.inl rfl))
        · rw [if_neg ht] at h
          obtain ⟨h1, h2, h3⟩ := ih h hm
          refine ⟨h1, fun key text hk => (h2 key text hk).imp id step, fun key hk => h3 key (hk.imp id ?_)⟩
          rintro ⟨text, hk⟩
          rcases back hk with hk | ⟨_, hd⟩
          · exact ⟨text, hk⟩
          · exact (ht (truthy_iff.2 ⟨text, hd⟩)).elim

theorem joinLines_cons (a : String) (l : List String) : joinLines (a :: l) = a ++ String.join (l.map ("\n" ++ ·)) := by
  unfold joinLines
  induction l generalizing a with
  | nil => simp [String.join]
  | cons b l ih =>
    rw [String.intercalate_cons_cons, ih, List.map_cons, String.join_cons]
    simp only [String.append_assoc]

theorem descriptionLines_told {root : String} {sels : List Sel} {told : Dict String} {collapse : Bool} (h1 : told.keys.Nodup)
    (h2 : ∀ key text, (key, text) ∈ told → RootDescription c.schema root sels key text) :
    (descriptionLines (collapse && sels.length == 1) told).map ("\n" ++ ·) = told.map fun t =>
      if collapse = true ∧ sels.length = 1 then "\n" ++ t.2 else "\n" ++ t.1 ++ ": " ++ t.2 := by
  unfold descriptionLines
  by_cases hc : collapse = true ∧ sels.length = 1
  · have hsame : ∀ a ∈ told, ∀ b ∈ told, a.1 = b.1 := by
      intro a ha b hb
      obtain ⟨x, hx⟩ := List.length_eq_one_iff.1 hc.2
      obtain ⟨n, al, _, _, _, e1, e2, _⟩ := h2 a.1 a.2 ha
      obtain ⟨n', al', _, _, _, e1', e2', _⟩ := h2 b.1 b.2 hb
      rw [hx, List.mem_singleton] at e1 e1'
      rw [← e1'] at e1
      cases e1
      rw [e2, e2']
    have hlen : told.length ≤ 1 := by
      clear h2
      match told, h1, hsame with
      | [], _, _ => simp
      | [_], _, _ => simp
      | a :: b :: l, h1, hsame =>
        have := hsame a (by simp) b (by simp)
        simp [Dict.keys, this] at h1
    clear h1 h2 hsame
    match told, hlen with
    | [], _ => split <;> rfl
    | [t], _ =>
      rw [if_pos (by simp [hc.1, hc.2])]
      simp [hc.1, hc.2]
  · rw [if_neg (by simp; intro h4 h5; exact (hc ⟨h4, h5⟩).elim), List.map_map]
    refine List.map_congr_left fun t _ => ?_
    rw [if_neg hc]
    simp only [Function.comp, String.append_assoc]

theorem operationFunc_heading {d : FuncDefinition} {o : OpDef} {f : Stmt} {r r' : Reg}
    (h : operationFunc c p d o r = .ok (f, r')) : DocumentsOperation c p o f := by
  unfold operationFunc at h
  obtain ⟨ret, r1, hret, h⟩ := Gen.bind_ok.1 h
  obtain ⟨doc, r2, hdoc, h⟩ := Gen.bind_ok.1 h
  obtain ⟨assigns, r3, has, h⟩ := Gen.bind_ok.1 h
  obtain ⟨_, r4, _, h⟩ := Gen.bind_ok.1 h
  obtain ⟨P, r5, hP, h⟩ := Gen.bind_ok.1 h
  obtain ⟨final, r6, hfin, h⟩ := Gen.bind_ok.1 h
  obtain ⟨rfl, rfl⟩ := Gen.pure_ok.1 h
  unfold queryDoc at hdoc
  obtain ⟨root, s1, hroot, hdoc⟩ := Gen.bind_ok.1 hdoc
  obtain ⟨label, s2, _, hdoc⟩ := Gen.bind_ok.1 hdoc
  obtain ⟨m, s3, hm, hdoc⟩ := Gen.bind_ok.1 hdoc
  obtain ⟨head, s4, hhead, hdoc⟩ := Gen.bind_ok.1 hdoc
  obtain ⟨req, s5, hreq, hdoc⟩ := Gen.bind_ok.1 hdoc
  obtain ⟨opt, s6, hopt, hdoc⟩ := Gen.bind_ok.1 hdoc
  obtain ⟨rfl, _⟩ := Gen.pure_ok.1 hdoc
  have hr : c.schema.root o.kind = some root := by
    unfold rootTypeOf at hroot
    cases e : c.schema.root o.kind with
    | none => rw [e] at hroot; cases hroot
    | some t =>
      rw [e] at hroot
      obtain ⟨rfl, _⟩ := Gen.pure_ok.1 hroot
      rfl
  suffices H : ∃ about, head = o.name.getD "" ++ " \n" ++ about ∧
      ((p.extractDocumentation = true ∧ p.documentation o = some about ∧ about ≠ "") ∨
      (p.extractDocumentation = true → ∀ x, p.documentation o = some x → x = "") ∧
      ∃ told : List (String × String), (told.map (·.1)).Nodup ∧
        (∀ key text, (key, text) ∈ told → RootDescription c.schema root o.sels key text) ∧
        (∀ key text, RootDescription c.schema root o.sels key text → key ∈ told.map (·.1)) ∧
        about = String.join (told.map fun t =>
          if p.collapseLonely = true ∧ o.sels.length = 1 then "\n" ++ t.2 else "\n" ++ t.1 ++ ": " ++ t.2)) by
    obtain ⟨about, rfl, H⟩ := H
    refine ⟨root, _, about, String.join ((p.argsFor d).map fun a => "    " ++ a.key ++ " (" ++ a.type ++ "): " ++ a.description ++ "\n") ++
      (req ++ (opt ++ (String.join ((p.kwargsFor d).map fun k =>
        "    " ++ k.key ++ " (" ++ k.type ++ ", optional): " ++ k.description ++ "\n") ++
      ("\nReturns:\n    " ++ (label ++ "\n"))))), hr, rfl, ?_, H⟩
    simp only [docOf, String.append_assoc]
    rfl
  unfold docHead at hhead
  by_cases ht : truthy (if p.extractDocumentation then p.documentation o else none) = true
  · rw [if_pos ht] at hhead
    obtain ⟨x, hx, hne⟩ := truthy_iff.1 ht
    rw [hx] at hhead
    obtain ⟨rfl, _⟩ := Gen.pure_ok.1 hhead
    refine ⟨x, rfl, .inl ?_⟩
    split at hx
    · rename_i he; exact ⟨he, hx, hne⟩
    · cases hx
  · rw [if_neg ht] at hhead
    obtain ⟨told, s7, htold, hhead⟩ := Gen.bind_ok.1 hhead
    obtain ⟨rfl, _⟩ := Gen.pure_ok.1 hhead
    obtain ⟨h1, h2, h3⟩ := rootDescriptions_ok htold List.nodup_nil
    have h2 : ∀ key text, (key, text) ∈ told → RootDescription c.schema root o.sels key text :=
      fun key text hk => (h2 key text hk).resolve_left (by simp)
    refine ⟨_, joinLines_cons _ _, .inr ⟨fun he x hx => ?_, told, h1, h2, fun key text hk => h3 key (.inr ⟨text, hk⟩), ?_⟩⟩
    · apply Classical.byContradiction
      intro hne
      exact ht (truthy_iff.2 ⟨x, by rw [if_pos he, hx], hne⟩)
    · rw [descriptionLines_told h1 h2]

theorem outputLabel_written {ov : Option String} : ∀ (t : TypeNode) {b : Bool} {l : String} {r r' : Reg},
    outputLabel c ov t b r = .ok (l, r') → ∃ leaf r1 r2, l = writtenType leaf t b ∧ outputNamedLabel c ov t.base r1 = .ok (leaf, r2)
  | .named n, b, l, r, r', h => by
    unfold outputLabel at h
    obtain ⟨x, r1, hx, h⟩ := Gen.bind_ok.1 h
    obtain ⟨rfl, _⟩ := Gen.pure_ok.1 h
    refine ⟨x, _, _, ?_, hx⟩
    unfold writtenType optionalLabel
    rfl
  | .list t, b, l, r, r', h => by
    unfold outputLabel at h
    obtain ⟨x, r1, hx, h⟩ := Gen.bind_ok.1 h
    obtain ⟨rfl, _⟩ := Gen.pure_ok.1 h
    obtain ⟨leaf, r2, r3, rfl, hl⟩ := outputLabel_written t hx
    refine ⟨leaf, _, _, ?_, hl⟩
    rw [writtenType]
    generalize writtenType leaf t true = x
    cases b
    · rfl
    · apply String.toList_injective
      simp [optionalLabel]
  | .nonNull t, b, l, r, r', h => by
    unfold outputLabel at h
    obtain ⟨leaf, r2, r3, rfl, hl⟩ := outputLabel_written t h
    exact ⟨leaf, r2, r3, rfl, hl⟩

theorem operationClassName_is {o : OpDef} {cls : String} {r r' : Reg} (h : operationClassName c o r = .ok (cls, r')) :
    OperationClass c o cls := by
  unfold operationClassName at h
  cases hn : o.name with
  | none => rw [hn] at h; cases h
  | some n =>
    rw [hn] at h
    exact ⟨n, hn, (Gen.lift_ok.1 h).1⟩

theorem returnLabel_written {o : OpDef} {label : String} {r r' : Reg}
    (h : returnLabel c o (p.collapseLonely && o.sels.length == 1) r = .ok (label, r'))
    (hal : ∀ n al as sub, Sel.field n al as sub ∈ o.sels → al = none) : ReturnLabel c p o label := by
  unfold returnLabel at h
  obtain ⟨cls, r1, hcls, h⟩ := Gen.bind_ok.1 h
  obtain ⟨root, r2, hroot, h⟩ := Gen.bind_ok.1 h
  have hcls := operationClassName_is hcls
  have hr : c.schema.root o.kind = some root := by
    unfold rootTypeOf at hroot
    cases e : c.schema.root o.kind with
    | none => rw [e] at hroot; cases hroot
    | some t =>
      rw [e] at hroot
      obtain ⟨rfl, _⟩ := Gen.pure_ok.1 hroot
      rfl
  by_cases hc : (p.collapseLonely && o.sels.length == 1) = true
  swap
  · rw [if_neg hc] at h
    obtain ⟨rfl, _⟩ := Gen.pure_ok.1 h
    refine .operation (fun hx => hc ?_) hcls
    simp [hx.1, hx.2]
  rw [if_pos hc] at h
  have honly : ReturnsOnlyField p o := by
    simp at hc
    exact hc
  unfold collapsedLabel at h
  obtain ⟨⟨name, al, sub⟩, r3, hf, h⟩ := Gen.bind_ok.1 h
  obtain ⟨fd, r4, hfd, h⟩ := Gen.bind_ok.1 h
  obtain ⟨ov, r5, hov, h⟩ := Gen.bind_ok.1 h
  obtain ⟨args, hsels⟩ : ∃ args, o.sels = [.field name al args sub] := by
    unfold firstField at hf
    obtain ⟨x, hx⟩ := List.length_eq_one_iff.1 honly.2
    rw [hx] at hf ⊢
    cases x with
    | field n a as s =>
      obtain ⟨he, _⟩ := Gen.pure_ok.1 hf
      cases he
      exact ⟨as, rfl⟩
    | spread g => cases hf
    | inline t s => cases hf
  have hdef : getFieldDef c.schema root name = some fd := by
    unfold rootFieldDef at hfd
    cases e : getFieldDef c.schema root name with
    | none => simp only [e] at hfd; cases hfd
    | some t =>
      simp only [e] at hfd
      obtain ⟨rfl, _⟩ := Gen.pure_ok.1 hfd
      rfl
  obtain ⟨leaf, s1, s2, rfl, hl⟩ := outputLabel_written _ h
  have hal : al = none := hal name al args sub (by rw [hsels]; exact List.mem_cons_self)
  subst hal
  unfold outputNamedLabel at hl
  refine .field honly hcls hr hsels hdef (fun vs he => ?_) fun ⟨fs, is, he⟩ hsub => ?_
  · rw [he] at hl
    dsimp only at hl
    obtain ⟨e, s3, h1, h2⟩ := Gen.bind_ok.1 hl
    obtain ⟨k, hk, hek, _⟩ := referenceEnum_accepts h1
    rcases hek with rfl | rfl
    · unfold nameId at h2
      obtain ⟨rfl, _⟩ := Gen.pure_ok.1 h2
      exact hk
    · unfold nameId at h2
      exact (Gen.fail_ok.1 h2).elim
  · have hl : (if truthy ov then pure (ov.getD "") else Gen.fail (.assertion "Needs to be set") : Gen String) s1 = .ok (leaf, s2) := by
      rcases he with he | he <;> · rw [he] at hl; exact hl
    by_cases ht : truthy ov = true
    swap
    · rw [if_neg ht] at hl; exact (Gen.fail_ok.1 hl).elim
    rw [if_pos ht] at hl
    obtain ⟨rfl, _⟩ := Gen.pure_ok.1 hl
    have hno : ∀ g, Sel.spread g ∉ nonTypenameFields sub := fun g hg => hsub _ (List.mem_filter.1 hg).1 g rfl
    unfold collapsedOverwrite at hov
    generalize nonTypenameFields sub = l at hov hno
    match l, hov, hno with
    | [], hov, _ =>
      obtain ⟨rfl, _⟩ := Gen.pure_ok.1 hov
      cases ht
    | [.spread g], _, hno => exact (hno g List.mem_cons_self).elim
    | [.field ..], hov, _ => obtain ⟨rfl, _⟩ := Gen.pure_ok.1 hov; rfl
    | [.inline ..], hov, _ => obtain ⟨rfl, _⟩ := Gen.pure_ok.1 hov; rfl
    | x :: _ :: _, hov, _ =>
      cases x <;> · obtain ⟨rfl, _⟩ := Gen.pure_ok.1 hov; rfl

theorem operationFunc_return {d : FuncDefinition} {o : OpDef} {f : Stmt} {r r' : Reg}
    (h : operationFunc c p d o r = .ok (f, r')) (hal : ∀ n al as sub, Sel.field n al as sub ∈ o.sels → al = none) :
    DocumentsReturn c p o f := by
  unfold operationFunc at h
  obtain ⟨ret, r1, hret, h⟩ := Gen.bind_ok.1 h
  obtain ⟨doc, r2, hdoc, h⟩ := Gen.bind_ok.1 h
  obtain ⟨assigns, r3, has, h⟩ := Gen.bind_ok.1 h
  obtain ⟨_, r4, _, h⟩ := Gen.bind_ok.1 h
  obtain ⟨P, r5, hP, h⟩ := Gen.bind_ok.1 h
  obtain ⟨final, r6, hfin, h⟩ := Gen.bind_ok.1 h
  obtain ⟨rfl, rfl⟩ := Gen.pure_ok.1 h
  unfold queryDoc at hdoc
  obtain ⟨root, s1, hroot, hdoc⟩ := Gen.bind_ok.1 hdoc
  obtain ⟨label, s2, hlabel, hdoc⟩ := Gen.bind_ok.1 hdoc
  obtain ⟨m, s3, hm, hdoc⟩ := Gen.bind_ok.1 hdoc
  obtain ⟨head, s4, hhead, hdoc⟩ := Gen.bind_ok.1 hdoc
  obtain ⟨req, s5, hreq, hdoc⟩ := Gen.bind_ok.1 hdoc
  obtain ⟨opt, s6, hopt, hdoc⟩ := Gen.bind_ok.1 hdoc
  obtain ⟨rfl, _⟩ := Gen.pure_ok.1 hdoc
  exact ⟨_, label, rfl, returnLabel_written hlabel hal⟩

theorem inputTypeDescriptions_lines : ∀ {fs : List InputFieldDef} {t : String} {r r' : Reg},
    inputTypeDescriptions c fs r = .ok (t, r') → ∃ lines, t = String.join lines ∧ List.Forall₂ (FieldLine c.env) fs lines := by
  intro fs
  induction fs with
  | nil =>
    intro t r r' h
    unfold inputTypeDescriptions at h
    exact ⟨[], (Gen.pure_ok.1 h).1.symm, .nil⟩
  | cons g fs ih =>
    intro t r r' h
    unfold inputTypeDescriptions at h
    obtain ⟨_, r1, _, h⟩ := Gen.bind_ok.1 h
    obtain ⟨q, r2, hq, h⟩ := Gen.bind_ok.1 h
    obtain ⟨d, r3, hd, h⟩ := Gen.bind_ok.1 h
    obtain ⟨rest, r4, hr, h⟩ := Gen.bind_ok.1 h
    obtain ⟨rfl, _⟩ := Gen.pure_ok.1 h
    obtain ⟨lines, rfl, hl⟩ := ih hr
    refine ⟨_ :: lines, (String.join_cons ..).symm, .cons ⟨q, d, (Gen.lift_ok.1 hq).1, fun ht => ?_, rfl⟩ hl⟩
    unfold fieldDescription at hd
    rw [if_pos ht] at hd
    obtain ⟨rfl, _⟩ := Gen.pure_ok.1 hd
    cases hg : g.description with
    | none => rw [hg] at ht; cases ht
    | some x => rfl

theorem inputFunc_documented {q : InputFuncsConfig} {n : String} {fs : List InputFieldDef} {f : Stmt} {r r' : Reg}
    (h : inputFunc c q n fs r = .ok (f, r')) : ∃ cls, r.inputMap.get? n = some cls ∧
      (q.extractDocumentation = true → DocumentsFields c.env fs cls f) ∧
      (q.extractDocumentation = false → docOf f = none) := by
  unfold inputFunc at h
  obtain ⟨cls, r1, h1, h⟩ := Gen.bind_ok.1 h
  obtain ⟨param, r2, h2, h⟩ := Gen.bind_ok.1 h
  obtain ⟨P, r3, h3, h⟩ := Gen.bind_ok.1 h
  obtain ⟨doc, r4, h4, h⟩ := Gen.bind_ok.1 h
  obtain ⟨d, r5, h5, h⟩ := Gen.bind_ok.1 h
  obtain ⟨ss, r6, h6, h⟩ := Gen.bind_ok.1 h
  obtain ⟨rfl, rfl⟩ := Gen.pure_ok.1 h
  have hcls : r.inputMap.get? n = some cls := by
    unfold getClass Dict.get at h1
    dsimp only [Reg.classMap] at h1
    cases hg : r.inputMap.get? n with
    | none => rw [hg] at h1; cases h1
    | some k => rw [hg] at h1; cases h1; rfl
  refine ⟨cls, hcls, fun he => ?_, fun he => ?_⟩
  · unfold factoryDoc at h4
    rw [if_pos he] at h4
    obtain ⟨t, _, ht, h4⟩ := Gen.bind_ok.1 h4
    obtain ⟨rfl, _⟩ := Gen.pure_ok.1 h4
    obtain ⟨lines, rfl, hl⟩ := inputTypeDescriptions_lines ht
    exact ⟨lines, rfl, hl⟩
  · unfold factoryDoc at h4
    rw [if_neg (by simp [he])] at h4
    obtain ⟨rfl, _⟩ := Gen.pure_ok.1 h4
    unfold emptyDict at h5
    obtain ⟨_, _, _, h5⟩ := Gen.bind_ok.1 h5
    obtain ⟨rfl, _⟩ := Gen.pure_ok.1 h5
    rfl

theorem factories_documented {q : InputFuncsConfig} : ∀ {ts : List InputType} {ss : List Stmt} {r r' : Reg},
    factories c q ts r = .ok (ss, r') →
    List.Forall₂ (fun t f => ∃ cls, r.inputMap.get? t.name = some cls ∧
      (q.extractDocumentation = true → DocumentsFields c.env t.fields cls f) ∧
      (q.extractDocumentation = false → docOf f = none))
      (ts.filter fun t => !skipsFactory q r t.name) ss := by
  intro ts
  induction ts with
  | nil =>
    intro ss r r' h
    unfold factories at h
    obtain ⟨rfl, rfl⟩ := Gen.pure_ok.1 h
    exact .nil
  | cons t ts ih =>
    intro ss r r' h
    unfold factories at h
    obtain ⟨a, r1, h1, h⟩ := Gen.bind_ok.1 h
    obtain ⟨b, r2, h2, h⟩ := Gen.bind_ok.1 h
    obtain ⟨rfl, rfl⟩ := Gen.pure_ok.1 h
    have hrest := ih h2
    unfold factoryStep at h1
    split at h1
    · rename_i hs
      cases h1
      rw [List.filter_cons_of_neg (by simp [hs])]
      exact hrest
    · rename_i hs
      split at h1
      · cases h1
      · rename_i s r3 hf
        cases h1
        rw [List.filter_cons_of_pos (by simpa using hs)]
        have hm : r1.inputMap = r.inputMap := by
          obtain ⟨_, _, _, e, _⟩ := still_inputFunc.quiet hf
          rw [e]
        have hsk : (fun t : InputType => !skipsFactory q r1 t.name) = fun t => !skipsFactory q r t.name := by
          funext t'
          unfold skipsFactory
          rw [hm]
        rw [hsk, hm] at hrest
        exact .cons (inputFunc_documented hf) hrest

end Turms
