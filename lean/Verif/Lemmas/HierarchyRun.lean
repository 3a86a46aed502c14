import Verif.Lemmas.Hierarchy
import Verif.Props.Responses
import Mathlib.Data.List.Nodup

/-! # Running the class statements of a chunk of generated code -/

namespace Turms
open Spec Props

theorem boundNames_append (a b : List Stmt) : boundNames (a ++ b) = boundNames a ++ boundNames b := by
  unfold boundNames; rw [List.filterMap_append]

theorem mem_boundNames_class {T : List Stmt} {n : String} {bases : List Expr} {body : List Stmt} {ds : List Expr}
    (h : Stmt.classDef n bases body ds ∈ T) : n ∈ boundNames T := List.mem_filterMap.2 ⟨_, h, rfl⟩

theorem lookupAll_append {env : Classes} {a b : List Expr} {la lb : List (List String)}
    (ha : lookupAll env a = some la) (hb : lookupAll env b = some lb) : lookupAll env (a ++ b) = some (la ++ lb) := by
  induction a generalizing la with
  | nil => cases ha; exact hb
  | cons x a ih =>
    cases x <;> try (cases ha; done)
    rename_i n
    simp only [List.cons_append, lookupAll] at ha ⊢
    cases hn : env n with
    | none => rw [hn] at ha; cases ha
    | some l =>
      cases hr : lookupAll env a with
      | none => rw [hn, hr] at ha; cases ha
      | some ls =>
        rw [hn, hr] at ha
        cases ha
        rw [ih hr]
        rfl

theorem lookupAll_names {env : Classes} {Bs : List String} {ws : List (List String)} {O : List String}
    (h : List.Forall₂ (fun b w => env b = some (w ++ O)) Bs ws) :
    lookupAll env (names Bs) = some (ws.map (· ++ O)) := by
  induction h with
  | nil => rfl
  | cons h _ ih =>
    have ih : lookupAll env (List.map Expr.name _) = _ := ih
    simp only [names, List.map_cons, lookupAll, h, ih]

theorem lookupAll_congr {env env' : Classes} {bs : List Expr} (h : ∀ b, Expr.name b ∈ bs → env' b = env b) :
    lookupAll env' bs = lookupAll env bs := by
  induction bs with
  | nil => rfl
  | cons x bs ih =>
    cases x <;> try rfl
    rename_i n
    simp only [lookupAll, h n (List.mem_cons_self ..), ih fun b hb => h b (List.mem_cons_of_mem _ hb)]

theorem nameIds_names (l : List String) : nameIds (names l) = l := by
  unfold nameIds names
  induction l with
  | nil => rfl
  | cons x l ih => simp only [List.map_cons, List.filterMap_cons, ih]

theorem nameIds_append (a b : List Expr) : nameIds (a ++ b) = nameIds a ++ nameIds b := by
  unfold nameIds; rw [List.filterMap_append]

theorem mem_nameIds {bs : List Expr} {b : String} : b ∈ nameIds bs ↔ Expr.name b ∈ bs := by
  unfold nameIds
  rw [List.mem_filterMap]
  constructor
  · rintro ⟨x, hx, h⟩
    split at h
    · cases h; exact hx
    · cases h
  · intro h; exact ⟨_, h, rfl⟩

/-- The bases of a generated class: `A` — configured ones only; or the classes of unrelated fragments, perhaps a mother
class, and the common bases `E`; or a mother class alone.  `G f b`: the class `b` belongs to the fragment `f`. -/
inductive BaseShape (defs : Dict FragDef) (G : String → String → Prop) (R M : String → Prop) (E : List Expr)
    (A : List Expr → Prop) (pre : List Stmt) (bases : List Expr) : Prop
  | plain : A bases → BaseShape defs G R M E A pre bases
  | derived (fs Bs ms : List String) : bases = names (Bs ++ ms) ++ E → List.Forall₂ G fs Bs → (∀ f ∈ fs, R f) →
      Unrelated defs fs → (ms = [] ∨ ∃ m body ds, ms = [m] ∧ M m ∧ Stmt.classDef m E body ds ∈ pre) →
      BaseShape defs G R M E A pre bases
  | caught (m : String) (body : List Stmt) (ds : List Expr) : bases = [.name m] → M m →
      Stmt.classDef m E body ds ∈ pre → BaseShape defs G R M E A pre bases

/-- every class statement has the property, which may look at the statements before it -/
def Steps (P : List Stmt → List Expr → Prop) (ss : List Stmt) : Prop :=
  ∀ pre n bases body ds post, ss = pre ++ Stmt.classDef n bases body ds :: post → P pre bases

section
variable {defs : Dict FragDef} {G : String → String → Prop} {K R M : String → Prop} {E : List Expr}
  {A : List Expr → Prop} {ext env0 : Classes} {O : List String} {X : List (List String)}

/-- the classes fragment `f` gives: its own and those of the fragments it inherits from -/
def Cl (defs : Dict FragDef) (K : String → Prop) (G : String → String → Prop) (f m : String) : Prop :=
  ∃ g, Inherits defs f g ∧ K g ∧ G g m

/-- what is known before a chunk is run -/
structure Before (defs : Dict FragDef) (G : String → String → Prop) (K : String → Prop) (E : List Expr)
    (A : List Expr → Prop) (O : List String) (X : List (List String)) (taken : List String) (env : Classes) : Prop where
  nonempty : E ≠ []
  common : lookupAll env E = some X
  merged : Merges (X ++ [nameIds E]) O
  allowed : ∀ bs, A bs → ∀ n, (newMro env n bs).isSome = true
  classes : ∀ f b, K f → G f b → ∃ l, env b = some (b :: l ++ O) ∧ (b :: l).Nodup ∧
    ∀ m ∈ b :: l, m ∈ taken ∧ Cl defs K G f m
  functional : ∀ f g m, K f → K g → G f m → G g m → f = g
  apart : ∀ m ∈ taken, m ∉ O ∧ m ∉ nameIds E ∧ ∀ l ∈ X, m ∉ l

/-- what is known of a class that has been run -/
structure Ran (defs : Dict FragDef) (G : String → String → Prop) (K R M : String → Prop) (E : List Expr)
    (A : List Expr → Prop) (O : List String) (taken : List String) (env : Classes) (n : String) (bases : List Expr) :
    Prop where
  mother : bases = E → env n = some (n :: O)
  derived : A bases ∨ ∃ l, env n = some (n :: l ++ O) ∧ (n :: l).Nodup ∧
    ∀ m ∈ l, m ∈ taken ∧ ((∃ f, R f ∧ Cl defs K G f m) ∨ M m)

theorem forall₂_choose {α β γ : Type} {P : α → β → Prop} {Q : α → β → γ → Prop} {as : List α} {bs : List β}
    (h : List.Forall₂ P as bs) (hq : ∀ a ∈ as, ∀ b, P a b → ∃ c, Q a b c) :
    ∃ cs : List γ, List.Forall₂ (fun b c => ∃ a ∈ as, P a b ∧ Q a b c) bs cs ∧
      List.Forall₂ (fun a c => ∃ b, P a b ∧ Q a b c) as cs := by
  induction h with
  | nil => exact ⟨[], .nil, .nil⟩
  | cons hp _ ih =>
    rename_i a b as bs _
    obtain ⟨cs, h2, h3⟩ := ih fun a ha => hq a (List.mem_cons_of_mem _ ha)
    obtain ⟨c, hc⟩ := hq a (List.mem_cons_self ..) b hp
    refine ⟨c :: cs, .cons ⟨a, List.mem_cons_self .., hp, hc⟩ ?_, .cons ⟨b, hp, hc⟩ h3⟩
    exact h2.imp fun x y ⟨a', ha', h⟩ => ⟨a', List.mem_cons_of_mem _ ha', h⟩

/-- one class statement -/
theorem run_class {taken : List String} {env : Classes} {pre : List Stmt} {n : String} {bases : List Expr}
    (hb : Before defs G K E A O X taken env0) (hR : ∀ f, R f → K f)
    (hsame : ∀ x, x ∉ boundNames pre → env x = env0 x)
    (hpre : ∀ x ∈ boundNames pre, x ∉ taken ∧ x ∉ O ∧ x ∉ nameIds E ∧ (∀ l ∈ X, x ∉ l) ∧
      ∀ bs, A bs → Expr.name x ∉ bs)
    (hm : ∀ m body ds, Stmt.classDef m E body ds ∈ pre → env m = some (m :: O))
    (hn : n ∉ taken ∧ n ∉ boundNames pre ∧ n ∉ O)
    (hs : BaseShape defs G R M E A pre bases) :
    ∃ l, newMro env n bases = some (n :: l) ∧ (bases = E → l = O) ∧
      (A bases ∨ ∃ l', l = l' ++ O ∧ (n :: l').Nodup ∧
        ∀ m ∈ l', (m ∈ taken ∨ m ∈ boundNames pre) ∧ ((∃ f, R f ∧ Cl defs K G f m) ∨ M m)) := by
  have hcommon : lookupAll env E = some X := by
    rw [← hb.common]
    exact lookupAll_congr fun b hbE => hsame b fun hx => (hpre b hx).2.2.1 (mem_nameIds.2 hbE)
  have hE : newMro env n E = some (n :: O) := by
    unfold newMro
    rw [if_neg (by simpa using hb.nonempty), hcommon]
    dsimp only
    rw [c3_iff.2 hb.merged]
    rfl
  -- a class with bases `names (Bs ++ ms) ++ E`
  cases hs with
  | plain ha =>
    have h1 : newMro env n bases = newMro env0 n bases := by
      unfold newMro
      rw [lookupAll_congr fun b hbb => hsame b fun hx => (hpre b hx).2.2.2.2 _ ha hbb]
    have h2 := hb.allowed _ ha n
    rw [← h1] at h2
    obtain ⟨l0, hl0⟩ := Option.isSome_iff_exists.1 h2
    have : ∃ l, l0 = n :: l := by
      unfold newMro at hl0
      split at hl0
      · cases hl0; exact ⟨_, rfl⟩
      · split at hl0
        · cases hl0
        · rename_i ls _
          cases hc : c3 (ls ++ [nameIds bases]) with
          | none => rw [hc] at hl0; cases hl0
          | some x => rw [hc] at hl0; cases hl0; exact ⟨_, rfl⟩
    obtain ⟨l, rfl⟩ := this
    refine ⟨l, hl0, fun e => ?_, .inl ha⟩
    subst e
    rw [hE] at hl0
    cases hl0
    rfl
  | caught m body ds e hM hmem =>
    have henv := hm m body ds hmem
    have hmO := (hpre m (mem_boundNames_class hmem)).2.1
    have hmn : m ≠ n := fun e => hn.2.1 (e ▸ mem_boundNames_class hmem)
    subst e
    refine ⟨m :: O, ?_, ?_, .inr ⟨[m], rfl, ?_, ?_⟩⟩
    · unfold newMro
      simp only [List.isEmpty_cons, Bool.false_eq_true, if_false, lookupAll, henv, nameIds, List.filterMap_cons,
        List.filterMap_nil]
      have : Merges ([m :: O] ++ [[m]]) (m :: O) := by
        refine .step (h := m) (pick_at (pre := []) (t := O) (post := [[m]]) (fun l hl => by cases hl) ?_) ?_
        · intro l hl
          simp only [List.nil_append, List.mem_cons, List.not_mem_nil, or_false] at hl
          rcases hl with rfl | rfl
          · exact hmO
          · simp
        · have hOO : Merges ([O] ++ [([] : List String)]) O := by
            have hnd := hb.merged.nodup
            clear hmO
            generalize O = O' at hnd
            induction O' with
            | nil => exact .empty (by simp)
            | cons x O' ih =>
              have hx := List.nodup_cons.1 hnd
              refine .step (h := x) (pick_at (pre := []) (t := O') (post := [[]]) (fun l hl => by cases hl) ?_) ?_
              · intro l hl
                simp only [List.nil_append, List.mem_cons, List.not_mem_nil, or_false] at hl
                rcases hl with rfl | rfl
                · exact hx.1
                · simp
              · simpa [c3Drop] using ih hx.2
          simpa [c3Drop] using hOO
      rw [c3_iff.2 this]
      rfl
    · intro e
      exfalso
      have : m ∈ nameIds E := by rw [← e]; exact mem_nameIds.2 (List.mem_singleton.2 rfl)
      exact (hpre m (mem_boundNames_class hmem)).2.2.1 this
    · simp [hmn.symm]
    · intro x hx
      rw [List.mem_singleton.1 hx]
      exact ⟨.inr (mem_boundNames_class hmem), .inr hM⟩
  | derived fs Bs ms e hG hfs hun hms =>
    -- the method resolution orders of the fragments' classes
    obtain ⟨ws, hws1, hws2⟩ := forall₂_choose (Q := fun f b (w : List String) =>
      env b = some (w ++ O) ∧ w.Nodup ∧ w.head? = some b ∧ ∀ m ∈ w, m ∈ taken ∧ Cl defs K G f m) hG
      (fun f hf b hgb => by
        obtain ⟨l, h1, h2, h3⟩ := hb.classes f b (hR f (hfs f hf)) hgb
        refine ⟨b :: l, ?_, h2, rfl, h3⟩
        rw [hsame b fun hx => (hpre b hx).1 (h3 b (List.mem_cons_self ..)).1]
        exact h1)
    obtain ⟨vs, hv1, hv2, hv3⟩ : ∃ vs : List (List String), vs = ms.map (fun m => [m]) ∧
        List.Forall₂ (fun b w => env b = some (w ++ O)) ms vs ∧
        ∀ m ∈ ms, m ∈ boundNames pre ∧ M m := by
      rcases hms with rfl | ⟨m, body, ds, rfl, hM, hmem⟩
      · exact ⟨[], rfl, .nil, fun m hm => by cases hm⟩
      · refine ⟨[[m]], rfl, .cons (hm m body ds hmem) .nil, fun x hx => ?_⟩
        rw [List.mem_singleton.1 hx]
        exact ⟨mem_boundNames_class hmem, hM⟩
    have hmem : ∀ w ∈ ws, ∃ f ∈ fs, ∀ m ∈ w, m ∈ taken ∧ Cl defs K G f m := by
      clear hws2
      intro w hw
      clear hG e
      induction hws1 with
      | nil => cases hw
      | cons h _ ih =>
        rcases List.mem_cons.1 hw with rfl | hw
        · obtain ⟨f, hf, _, h⟩ := h; exact ⟨f, hf, h.2.2.2⟩
        · exact ih hw
    have hlook : lookupAll env (names (Bs ++ ms)) = some ((ws ++ vs).map (· ++ O)) := by
      rw [show names (Bs ++ ms) = names Bs ++ names ms by simp [names], List.map_append]
      exact lookupAll_append (lookupAll_names (hws1.imp fun b w ⟨f, _, _, h⟩ => h.1)) (lookupAll_names hv2)
    have hheads : (ws ++ vs).filterMap List.head? = Bs ++ ms := by
      rw [List.filterMap_append]
      congr 1
      · clear hws2 hmem hlook e hG
        induction hws1 with
        | nil => rfl
        | cons h _ ih =>
          obtain ⟨f, hf, _, h⟩ := h
          rw [List.filterMap_cons_some h.2.2.1, ih]
      · rw [hv1]
        clear hv1 hv2 hv3 hms hlook e
        induction ms with
        | nil => rfl
        | cons m ms ih => simp only [List.map_cons, List.filterMap_cons, List.head?_cons, ih]
    have hpw : (ws ++ vs).Pairwise (fun a b => ∀ x ∈ a, x ∉ b) := by
      rw [List.pairwise_append]
      refine ⟨?_, ?_, ?_⟩
      · clear hws1 hmem hlook hheads e hG
        induction hws2 with
        | nil => exact .nil
        | cons h hrest ih =>
          rename_i f w fs ws
          obtain ⟨hu1, hu2⟩ := List.pairwise_cons.1 hun
          refine List.pairwise_cons.2 ⟨fun w' hw' x hx hx' => ?_, ih (fun f hf => hfs f (List.mem_cons_of_mem _ hf)) hu2⟩
          obtain ⟨b, _, hw⟩ := h
          have : ∃ f' ∈ fs, ∀ m ∈ w', m ∈ taken ∧ Cl defs K G f' m := by
            clear ih hu2 hu1 hun hfs
            induction hrest with
            | nil => cases hw'
            | cons h _ ih =>
              rcases List.mem_cons.1 hw' with rfl | hw'
              · obtain ⟨b, _, h⟩ := h; exact ⟨_, List.mem_cons_self .., h.2.2.2⟩
              · obtain ⟨f', hf', h⟩ := ih hw'; exact ⟨f', List.mem_cons_of_mem _ hf', h⟩
          obtain ⟨f', hf', hw''⟩ := this
          obtain ⟨g, hg1, hg2, hg3⟩ := (hw.2.2.2 x hx).2
          obtain ⟨g', hg1', hg2', hg3'⟩ := (hw'' x hx').2
          have := hb.functional g g' x hg2 hg2' hg3 hg3'
          subst this
          exact hu1 f' hf' g hg1 hg1'
      · rcases hms with rfl | ⟨m, body, ds, rfl, _⟩
        · rw [hv1]; exact .nil
        · rw [hv1]; exact List.pairwise_singleton ..
      · intro w hw v hv x hx hxv
        rw [hv1] at hv
        obtain ⟨m, hmm, rfl⟩ := List.mem_map.1 hv
        rw [List.mem_singleton.1 hxv] at hx
        obtain ⟨f, _, h⟩ := hmem w hw
        exact (hpre m (hv3 m hmm).1).1 (h m hx).1
    have hout : ∀ w ∈ ws ++ vs, ∀ x ∈ w, (x ∈ taken ∨ x ∈ boundNames pre) ∧ x ∉ O ∧ x ∉ nameIds E ∧ ∀ l ∈ X, x ∉ l := by
      intro w hw x hx
      rcases List.mem_append.1 hw with hw | hw
      · obtain ⟨f, _, h⟩ := hmem w hw
        exact ⟨.inl (h x hx).1, hb.apart x (h x hx).1⟩
      · rw [hv1] at hw
        obtain ⟨m, hmm, rfl⟩ := List.mem_map.1 hw
        rw [List.mem_singleton.1 hx]
        have := hpre m (hv3 m hmm).1
        exact ⟨.inr (hv3 m hmm).1, this.2.1, this.2.2.1, this.2.2.2.1⟩
    have hnd : ∀ w ∈ ws ++ vs, w.Nodup ∧ w ≠ [] := by
      intro w hw0
      rcases List.mem_append.1 hw0 with hw | hw
      · clear hw0 hws2 hmem hlook hheads e hG hpw hout
        induction hws1 with
        | nil => cases hw
        | cons h _ ih =>
          rcases List.mem_cons.1 hw with rfl | hw
          · obtain ⟨f, hf, _, h⟩ := h
            exact ⟨h.2.1, fun e => by rw [e] at h; cases h.2.2.1⟩
          · exact ih hw
      · rw [hv1] at hw
        obtain ⟨m, _, rfl⟩ := List.mem_map.1 hw
        exact ⟨List.nodup_singleton _, by simp⟩
    have hmerge : Merges ((ws ++ vs).map (· ++ O) ++ X ++ [nameIds bases]) ((ws ++ vs).flatten ++ O) := by
      have hids : nameIds bases = (ws ++ vs).filterMap List.head? ++ nameIds E := by
        rw [e, nameIds_append, nameIds_names, hheads]
      rw [hids]
      generalize ws ++ vs = us at hpw hout hnd
      cases us with
      | nil => simpa using hb.merged
      | cons u us =>
        have := merge_bases hb.merged us 0 u (u.head?.toList ++ (us.filterMap List.head? ++ nameIds E))
          (fun w hw x hx => (hout w hw x hx).2) (hnd u (List.mem_cons_self ..)).1
          (fun w hw => hnd w (List.mem_cons_of_mem _ hw)) hpw
          (.inr (by
            cases u with
            | nil => exact ((hnd [] (List.mem_cons_self ..)).2 rfl).elim
            | cons x u => exact ⟨x, u, rfl, rfl⟩))
        cases u with
        | nil => exact ((hnd [] (List.mem_cons_self ..)).2 rfl).elim
        | cons x u => simpa using this
    have hne : bases ≠ [] := by
      rw [e]
      intro h
      exact hb.nonempty (List.append_eq_nil_iff.1 h).2
    refine ⟨(ws ++ vs).flatten ++ O, ?_, fun he => ?_, .inr ⟨(ws ++ vs).flatten, rfl, ?_, ?_⟩⟩
    · unfold newMro
      rw [if_neg (by simpa using hne), e, lookupAll_append hlook hcommon]
      dsimp only
      rw [← e, c3_iff.2 hmerge]
      rfl
    · have hlen := congrArg List.length e
      rw [he, List.length_append] at hlen
      have : (names (Bs ++ ms)).length = 0 := by omega
      have : Bs ++ ms = [] := by simpa [names] using this
      rw [this] at hheads
      have hz : ws ++ vs = [] := by
        cases hu : ws ++ vs with
        | nil => rfl
        | cons u us =>
          rw [hu] at hheads hnd
          have := (hnd u (List.mem_cons_self ..)).2
          cases u with
          | nil => exact (this rfl).elim
          | cons x u => cases hheads
      rw [hz]
      rfl
    · refine List.nodup_cons.2 ⟨fun hm => ?_, List.nodup_flatten.2 ⟨fun w hw => (hnd w hw).1, hpw.imp fun h x hx hx' => h x hx hx'⟩⟩
      obtain ⟨w, hw, hx⟩ := List.mem_flatten.1 hm
      rcases (hout w hw n hx).1 with h | h
      · exact hn.1 h
      · exact hn.2.1 h
    · intro m hm
      obtain ⟨w, hw, hx⟩ := List.mem_flatten.1 hm
      refine ⟨(hout w hw m hx).1, ?_⟩
      rcases List.mem_append.1 hw with hw | hw
      · obtain ⟨f, hf, h⟩ := hmem w hw
        exact .inl ⟨f, hfs f hf, (h m hx).2⟩
      · rw [hv1] at hw
        obtain ⟨m', hmm, rfl⟩ := List.mem_map.1 hw
        rw [List.mem_singleton.1 hx]
        exact .inr (hv3 m' hmm).2

/-- what a statement does to the classes bound -/
theorem runClasses_other {env : Classes} {st : Stmt} {rest : List Stmt} (h : boundNames [st] = []) :
    runClasses env (st :: rest) = runClasses env rest := by
  cases st with
  | classDef => cases h
  | assign t v => cases t <;> first | rfl | cases h
  | _ => rfl

/-- a chunk of statements -/
theorem run_list {taken : List String} {ss : List Stmt}
    (hb : Before defs G K E A O X taken env0) (hR : ∀ f, R f → K f)
    (hnd : (boundNames ss).Nodup)
    (hfresh : ∀ x ∈ boundNames ss, x ∉ taken ∧ x ∉ O ∧ x ∉ nameIds E ∧ (∀ l ∈ X, x ∉ l) ∧
      ∀ bs, A bs → Expr.name x ∉ bs)
    (hs : Steps (BaseShape defs G R M E A) ss) :
    ∃ env', runClasses env0 ss = some env' ∧ (∀ x, x ∉ boundNames ss → env' x = env0 x) ∧
      ∀ n bases body ds, Stmt.classDef n bases body ds ∈ ss →
        Ran defs G K R M E A O (taken ++ boundNames ss) env' n bases := by
  suffices H : ∀ post pre env, ss = pre ++ post → (∀ x, x ∉ boundNames pre → env x = env0 x) →
      (∀ n bases body ds, Stmt.classDef n bases body ds ∈ pre →
        Ran defs G K R M E A O (taken ++ boundNames ss) env n bases) →
      ∃ env', runClasses env post = some env' ∧ (∀ x, x ∉ boundNames ss → env' x = env0 x) ∧
      ∀ n bases body ds, Stmt.classDef n bases body ds ∈ ss →
        Ran defs G K R M E A O (taken ++ boundNames ss) env' n bases by
    exact H ss [] env0 rfl (fun _ _ => rfl) (fun n bases body ds h => by cases h)
  intro post
  induction post with
  | nil =>
    intro pre env e h1 h2
    rw [List.append_nil] at e
    subst e
    exact ⟨env, rfl, h1, h2⟩
  | cons st post ih =>
    intro pre env e h1 h2
    have e' : ss = (pre ++ [st]) ++ post := by rw [e]; simp
    have hsub : ∀ x ∈ boundNames pre, x ∈ boundNames ss := fun x hx => by
      rw [e, boundNames_append]; exact List.mem_append.2 (.inl hx)
    -- names bound by the statement are new
    have hnew : ∀ x ∈ boundNames [st], x ∉ boundNames pre ∧ x ∈ boundNames ss := by
      intro x hx
      rw [e', boundNames_append, boundNames_append, List.append_assoc] at hnd
      rw [e', boundNames_append, boundNames_append]
      exact ⟨fun hx' => (List.nodup_append.1 hnd).2.2 x hx' x (List.mem_append.2 (.inl hx)) rfl, by simp [hx]⟩
    have hmono : ∀ env', (∀ x, x ∉ boundNames [st] → env' x = env x) → ∀ n bases body ds,
        Stmt.classDef n bases body ds ∈ pre → Ran defs G K R M E A O (taken ++ boundNames ss) env' n bases := by
      intro env' he n bases body ds hm
      have hne : env' n = env n := he n fun hx => (hnew n hx).1 (mem_boundNames_class hm)
      obtain ⟨r1, r2⟩ := h2 n bases body ds hm
      exact ⟨fun h => by rw [hne]; exact r1 h, by rw [hne]; exact r2⟩
    by_cases hbn : boundNames [st] = []
    · rw [runClasses_other hbn]
      refine ih (pre ++ [st]) env e' (fun x hx => h1 x fun h => hx ?_) ?_
      · rw [boundNames_append]; exact List.mem_append.2 (.inl h)
      · intro n bases body ds hm
        rcases List.mem_append.1 hm with hm | hm
        · exact h2 n bases body ds hm
        · rw [← List.mem_singleton.1 hm] at hbn; cases hbn
    · cases st with
      | classDef n bases body ds =>
        obtain ⟨l, hl1, hl2, hl3⟩ := run_class (env := env) hb hR h1
          (fun x hx => hfresh x (hsub x hx))
          (fun m body ds hm => (h2 m E body ds hm).mother rfl)
          ⟨(hfresh n (hnew n (List.mem_singleton.2 rfl)).2).1, (hnew n (List.mem_singleton.2 rfl)).1,
            (hfresh n (hnew n (List.mem_singleton.2 rfl)).2).2.1⟩
          (hs pre n bases body ds post e)
        rw [runClasses, hl1]
        dsimp only
        refine ih (pre ++ [_]) _ e' (fun x hx => ?_) ?_
        · rw [boundNames_append] at hx
          rw [if_neg fun h => hx (List.mem_append.2 (.inr (by rw [h]; exact List.mem_singleton.2 rfl)))]
          exact h1 x fun h => hx (List.mem_append.2 (.inl h))
        · intro n' bases' body' ds' hm
          rcases List.mem_append.1 hm with hm | hm
          · refine hmono _ (fun x hx => if_neg fun h => hx ?_) n' bases' body' ds' hm
            rw [h]; exact List.mem_singleton.2 rfl
          · have := List.mem_singleton.1 hm
            cases this
            refine ⟨fun h => ?_, ?_⟩
            · rw [if_pos rfl, hl2 h]
            · rw [if_pos rfl]
              refine hl3.imp id fun ⟨l', hl', hnd', hm'⟩ => ⟨l', by rw [hl']; rfl, hnd', fun m hmm => ⟨?_, (hm' m hmm).2⟩⟩
              exact List.mem_append.2 ((hm' m hmm).1.imp id (hsub m))
      | assign t v =>
        cases t with
        | name n =>
          rw [runClasses]
          refine ih (pre ++ [_]) _ e' (fun x hx => ?_) ?_
          · rw [boundNames_append] at hx
            rw [if_neg fun h => hx (List.mem_append.2 (.inr (by rw [h]; exact List.mem_singleton.2 rfl)))]
            exact h1 x fun h => hx (List.mem_append.2 (.inl h))
          · intro n' bases' body' ds' hm
            rcases List.mem_append.1 hm with hm | hm
            · refine hmono _ (fun x hx => if_neg fun h => hx ?_) n' bases' body' ds' hm
              rw [h]; exact List.mem_singleton.2 rfl
            · cases List.mem_singleton.1 hm
        | _ => exact (hbn rfl).elim
      | _ => exact (hbn rfl).elim

theorem runClasses_append (env : Classes) (a b : List Stmt) :
    runClasses env (a ++ b) = (runClasses env a).bind fun env' => runClasses env' b := by
  induction a generalizing env with
  | nil => rfl
  | cons st a ih =>
    by_cases hbn : boundNames [st] = []
    · rw [List.cons_append, runClasses_other hbn, runClasses_other hbn, ih]
    · cases st with
      | classDef n bases body ds =>
        rw [List.cons_append, runClasses, runClasses]
        cases newMro env n bases with
        | none => rfl
        | some l => exact ih _
      | assign t v =>
        cases t with
        | name n => rw [List.cons_append, runClasses, runClasses]; exact ih _
        | _ => exact (hbn rfl).elim
      | _ => exact (hbn rfl).elim

/-- names that neither clash with the taken ones nor with imported classes -/
def FreshNames (E : List Expr) (A : List Expr → Prop) (O : List String) (X : List (List String)) (taken ns : List String) :
    Prop :=
  ∀ x ∈ ns, x ∉ taken ∧ x ∉ O ∧ x ∉ nameIds E ∧ (∀ l ∈ X, x ∉ l) ∧ ∀ bs, A bs → Expr.name x ∉ bs

theorem FreshNames.mono {taken ns ns' : List String} (h : FreshNames E A O X taken ns) (hs : ∀ x ∈ ns', x ∈ ns) :
    FreshNames E A O X taken ns' := fun x hx => h x (hs x hx)

theorem newMro_congr {env env' : Classes} {n : String} {bs : List Expr} (h : ∀ b, Expr.name b ∈ bs → env' b = env b) :
    newMro env' n bs = newMro env n bs := by
  unfold newMro; rw [lookupAll_congr h]

theorem Before.forget {taken : List String} {env : Classes} (h : Before defs G K E A O X taken env) :
    Before defs G K E (fun _ => False) O X taken env :=
  ⟨h.nonempty, h.common, h.merged, fun _ hf => hf.elim, h.classes, h.functional, h.apart⟩

/-- running further statements keeps what was known -/
theorem Before.more {taken ns : List String} {env env' : Classes} (h : Before defs G K E A O X taken env)
    (hf : FreshNames E A O X taken ns) (he : ∀ x, x ∉ ns → env' x = env x) :
    Before defs G K E A O X (taken ++ ns) env' := by
  have hE : ∀ b, Expr.name b ∈ E → env' b = env b := fun b hb =>
    he b fun hx => (hf b hx).2.2.1 (mem_nameIds.2 hb)
  refine ⟨h.nonempty, by rw [lookupAll_congr hE]; exact h.common, h.merged, fun bs hA n => ?_, ?_, h.functional, ?_⟩
  · rw [newMro_congr fun b hb => he b fun hx => (hf b hx).2.2.2.2 bs hA hb]
    exact h.allowed bs hA n
  · intro f b hK hG
    obtain ⟨l, h1, h2, h3⟩ := h.classes f b hK hG
    refine ⟨l, ?_, h2, fun m hm => ⟨List.mem_append.2 (.inl (h3 m hm).1), (h3 m hm).2⟩⟩
    rw [he b fun hx => (hf b hx).1 (h3 b (List.mem_cons_self ..)).1]
    exact h1
  · intro m hm
    rcases List.mem_append.1 hm with hm | hm
    · exact h.apart m hm
    · exact ⟨(hf m hm).2.1, (hf m hm).2.2.1, (hf m hm).2.2.2.1⟩

/-- the statements of a fragment: those of its sub-selections, and its own classes `tops` -/
theorem run_fragment {taken : List String} {f : String} {nested tops : List Stmt}
    (hb : Before defs G K E A O X taken env0)
    (hG : ∀ b, G f b ↔ ∃ bases body ds, Stmt.classDef b bases body ds ∈ tops)
    (hnd : (boundNames (nested ++ tops)).Nodup)
    (hfresh : FreshNames E A O X taken (boundNames (nested ++ tops)))
    (hs1 : Steps (BaseShape defs G K (fun _ => True) E (fun _ => False)) nested)
    (hs2 : Steps (BaseShape defs G (fun g => K g ∧ Inherits defs f g) (G f) E (fun _ => False)) tops)
    (htrans : ∀ g h, Inherits defs f g → Inherits defs g h → Inherits defs f h) :
    ∃ env', runClasses env0 (nested ++ tops) = some env' ∧
      Before defs G (fun g => K g ∨ g = f) E A O X (taken ++ boundNames (nested ++ tops)) env' := by
  rw [boundNames_append] at hnd hfresh
  rw [boundNames_append]
  have hnd' := List.nodup_append.1 hnd
  have hf1 : FreshNames E A O X taken (boundNames nested) := hfresh.mono fun x hx => List.mem_append.2 (.inl hx)
  obtain ⟨env1, hr1, he1, _⟩ := run_list hb.forget (fun _ h => h) hnd'.1
    (fun x hx => ⟨(hf1 x hx).1, (hf1 x hx).2.1, (hf1 x hx).2.2.1, (hf1 x hx).2.2.2.1, fun _ h => h.elim⟩) hs1
  have hb1 : Before defs G K E A O X (taken ++ boundNames nested) env1 := hb.more hf1 he1
  have hf2 : FreshNames E A O X (taken ++ boundNames nested) (boundNames tops) := by
    intro x hx
    have := hfresh x (List.mem_append.2 (.inr hx))
    refine ⟨fun h => ?_, this.2⟩
    rcases List.mem_append.1 h with h | h
    · exact this.1 h
    · exact hnd'.2.2 x h x hx rfl
  obtain ⟨env2, hr2, he2, hc2⟩ := run_list (A := fun _ => False) hb1.forget (fun _ h => h.1) hnd'.2.1
    (fun x hx => ⟨(hf2 x hx).1, (hf2 x hx).2.1, (hf2 x hx).2.2.1, (hf2 x hx).2.2.2.1, fun _ h => h.elim⟩) hs2
  have hb2 := hb1.more hf2 he2
  rw [List.append_assoc] at hb2 hc2
  refine ⟨env2, ?_, ⟨hb2.nonempty, hb2.common, hb2.merged, hb2.allowed, ?_, ?_, hb2.apart⟩⟩
  · rw [runClasses_append, hr1]; exact hr2
  · intro g b hg hgb
    have hcl : ∀ g m, Cl defs K G g m → Cl defs (fun g => K g ∨ g = f) G g m :=
      fun g m ⟨h, h1, h2, h3⟩ => ⟨h, h1, .inl h2, h3⟩
    rcases hg with hg | rfl
    · obtain ⟨l, h1, h2, h3⟩ := hb2.classes g b hg hgb
      exact ⟨l, h1, h2, fun m hm => ⟨(h3 m hm).1, hcl g m (h3 m hm).2⟩⟩
    · obtain ⟨bases, body, ds, hmem⟩ := (hG b).1 hgb
      rcases (hc2 b bases body ds hmem).derived with h | ⟨l, h1, h2, h3⟩
      · exact h.elim
      · refine ⟨l, h1, h2, fun m hm => ?_⟩
        rcases List.mem_cons.1 hm with rfl | hm
        · refine ⟨?_, g, .refl, .inr rfl, hgb⟩
          simp [mem_boundNames_class hmem]
        · refine ⟨(h3 m hm).1, ?_⟩
          rcases (h3 m hm).2 with ⟨f', ⟨hk, hi⟩, h, hi', hk', hg'⟩ | h
          · exact ⟨h, htrans _ _ hi hi', .inl hk', hg'⟩
          · exact ⟨g, .refl, .inr rfl, h⟩
  · intro g g' m hg hg' h1 h2
    have hold : ∀ g, K g → G g m → m ∈ taken := fun g hk hgm => by
      obtain ⟨l, _, _, h3⟩ := hb.classes g m hk hgm
      exact (h3 m (List.mem_cons_self ..)).1
    have hnew : G f m → m ∉ taken := fun h => by
      obtain ⟨bases, body, ds, hmem⟩ := (hG m).1 h
      exact (hfresh m (List.mem_append.2 (.inr (mem_boundNames_class hmem)))).1
    rcases hg with hg | rfl <;> rcases hg' with hg' | rfl
    · exact hb2.functional g g' m hg hg' h1 h2
    · exact ((hnew h2) (hold g hg h1)).elim
    · exact ((hnew h1) (hold g' hg' h2)).elim
    · rfl

theorem Inherits.trans {f g h : String} (h1 : Inherits defs f g) (h2 : Inherits defs g h) : Inherits defs f h := by
  induction h1 with
  | refl => exact h2
  | spread a b _ ih => exact .spread a b (ih h2)
  | inline a b c _ ih => exact .inline a b c (ih h2)

/-! ## `Steps` -/

theorem Steps.nil {P : List Stmt → List Expr → Prop} : Steps P [] := by
  intro pre n bases body ds post h
  cases pre <;> cases h

theorem Steps.append {P : List Stmt → List Expr → Prop} {a b : List Stmt} (ha : Steps P a)
    (hb : Steps (fun pre => P (a ++ pre)) b) : Steps P (a ++ b) := by
  intro pre n bases body ds post h
  rcases List.append_eq_append_iff.1 h with ⟨as, h1, h2⟩ | ⟨bs, h1, h2⟩
  · rw [h1]
    exact hb as n bases body ds post h2
  · cases bs with
    | nil =>
      rw [List.append_nil] at h1
      have := hb [] n bases body ds post (by simpa using h2.symm)
      simpa [h1] using this
    | cons x bs =>
      simp only [List.cons_append, List.cons.injEq] at h2
      obtain ⟨rfl, h2⟩ := h2
      exact ha pre n bases body ds bs h1

theorem BaseShape.mono {G' : String → String → Prop} {R' M' : String → Prop} {pre pre' : List Stmt} {bases : List Expr}
    (h : BaseShape defs G R M E A pre bases) (hG : ∀ f b, R f → G f b → G' f b) (hR : ∀ f, R f → R' f)
    (hM : ∀ m, M m → M' m) (hp : ∀ st ∈ pre, st ∈ pre') : BaseShape defs G' R' M' E A pre' bases := by
  cases h with
  | plain h => exact .plain h
  | derived fs Bs ms e h1 h2 h3 h4 =>
    refine .derived fs Bs ms e ?_ (fun f hf => hR f (h2 f hf)) h3 ?_
    · clear e h3 h4
      induction h1 with
      | nil => exact .nil
      | cons h _ ih =>
        exact .cons (hG _ _ (h2 _ (List.mem_cons_self ..)) h) (ih fun f hf => h2 f (List.mem_cons_of_mem _ hf))
    · exact h4.imp id fun ⟨m, body, ds, e, hm, hmem⟩ => ⟨m, body, ds, e, hM m hm, hp _ hmem⟩
  | caught m body ds e hm hmem => exact .caught m body ds e (hM m hm) (hp _ hmem)

theorem Steps.mono {P Q : List Stmt → List Expr → Prop} {ss : List Stmt} (h : Steps P ss)
    (hi : ∀ pre bases, P pre bases → Q pre bases) : Steps Q ss :=
  fun pre n bases body ds post e => hi _ _ (h pre n bases body ds post e)

/-- what was shown of both parts holds of the whole -/
theorem Steps.join {a b : List Stmt} (ha : Steps (BaseShape defs G R M E A) a) (hb : Steps (BaseShape defs G R M E A) b) :
    Steps (BaseShape defs G R M E A) (a ++ b) :=
  ha.append (hb.mono fun _ _ h => h.mono (fun _ _ _ h => h) (fun _ h => h) (fun _ h => h)
    fun _ hst => List.mem_append.2 (.inr hst))

end
end Turms
