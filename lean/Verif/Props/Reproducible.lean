import Verif.Spec.Reproducible
import Verif.Props.Pipeline

/-!
# C69: generating twice from the same project
-/

namespace Turms.Props
open Turms Turms.Spec

/-! ## helpers -/

theorem generateBuiltins_perm {l1 l2 : List String} (hp : l1.Perm l2) {s1 : List Stmt}
    (h : generateBuiltins l1 = .ok s1) : ∃ s2, generateBuiltins l2 = .ok s2 ∧ s1.Perm s2 := by
  induction hp generalizing s1 with
  | nil => exact ⟨s1, h, .refl _⟩
  | @cons x l1 l2 _ ih =>
    unfold generateBuiltins at h ⊢
    cases hx : builtinStmts x with
    | error e => rw [hx] at h; cases h
    | ok s =>
      rw [hx] at h
      cases hr : generateBuiltins l1 with
      | error e => rw [hr] at h; cases h
      | ok rest =>
        rw [hr] at h
        obtain ⟨s2, hs2, hp2⟩ := ih hr
        cases h
        exact ⟨s ++ s2, by simp only [hs2], hp2.append_left s⟩
  | swap x y l =>
    unfold generateBuiltins at h ⊢
    cases hx : builtinStmts y with
    | error e => rw [hx] at h; cases h
    | ok sy =>
      rw [hx] at h
      unfold generateBuiltins at h ⊢
      cases hy : builtinStmts x with
      | error e => simp only [hy] at h; cases h
      | ok sx =>
        simp only [hy] at h
        cases hr : generateBuiltins l with
        | error e => simp only [hr] at h; cases h
        | ok rest =>
          simp only [hr] at h
          cases h
          refine ⟨sx ++ (sy ++ rest), by simp only [hx], ?_⟩
          rw [← List.append_assoc, ← List.append_assoc]
          exact List.perm_append_comm.append_right rest
  | trans _ _ ih1 ih2 =>
    obtain ⟨s2, h2, p2⟩ := ih1 h
    obtain ⟨s3, h3, p3⟩ := ih2 h2
    exact ⟨s3, h3, p2.trans p3⟩

theorem binds_not_import {ss : List Stmt} (h : ∀ s ∈ ss, ¬ IsImport s) : binds ss = [] := by
  induction ss with
  | nil => rfl
  | cons s ss ih =>
    have hs := h s (List.mem_cons_self ..)
    have := ih fun x hx => h x (List.mem_cons_of_mem _ hx)
    cases s <;> first | exact this | exact absurd trivial hs

theorem builtinStmts_not_import {b : String} {ss : List Stmt} (h : builtinStmts b = .ok ss) : ∀ s ∈ ss, ¬ IsImport s := by
  unfold builtinStmts at h
  split at h <;> cases h <;> simp [IsImport, strEnumClass]

theorem generateBuiltins_not_import {order : List String} {ss : List Stmt} (h : generateBuiltins order = .ok ss) :
    ∀ s ∈ ss, ¬ IsImport s := by
  induction order generalizing ss with
  | nil => cases h; simp
  | cons b order ih =>
    unfold generateBuiltins at h
    cases hx : builtinStmts b with
    | error e => rw [hx] at h; cases h
    | ok sb =>
      rw [hx] at h
      cases hr : generateBuiltins order with
      | error e => rw [hr] at h; cases h
      | ok rest =>
        rw [hr] at h
        cases h
        intro s hs
        rcases List.mem_append.1 hs with hs | hs
        · exact builtinStmts_not_import hx s hs
        · exact ih hr s hs

theorem groupImports_keys (order : List String) (m : String) (h : m ∈ Dict.keys (groupImports order).2) :
    ∃ d ∈ order, hasDot d = true ∧ initComponents d = m := by
  induction order using list_snoc_induction with
  | h0 => simp [groupImports, Dict.keys] at h
  | h1 order n ih =>
    rw [groupImports_snoc] at h
    split at h
    · obtain ⟨d, hd, h⟩ := ih h
      exact ⟨d, List.mem_append_left _ hd, h⟩
    · rename_i hn
      rcases (Dict.mem_keys_set ..).1 h with rfl | h
      · exact ⟨n, by simp, by simpa using hn, rfl⟩
      · obtain ⟨d, hd, h⟩ := ih h
        exact ⟨d, List.mem_append_left _ hd, h⟩

theorem Dict.set_last {α : Type} (d : Dict α) (k : String) (v w : α) (h : k ∉ Dict.keys d) :
    Dict.set (d ++ [(k, v)]) k w = d ++ [(k, w)] := by
  induction d with
  | nil => simp [Dict.set]
  | cons p d ih =>
    obtain ⟨k', v'⟩ := p
    simp only [Dict.keys, List.map_cons, List.mem_cons, not_or] at h
    simp only [List.cons_append, Dict.set, if_neg (Ne.symm h.1)]
    rw [ih (by simpa [Dict.keys] using h.2)]

/-- a module whose imports are all iterated at the end is imported last -/
theorem groupImports_last (o1 o2 : List String) (a : String)
    (h1 : ∀ d ∈ o1, ¬ (hasDot d = true ∧ initComponents d = a)) (h2 : ∀ d ∈ o2, hasDot d = true ∧ initComponents d = a) :
    o2 ≠ [] → ∃ names, (groupImports (o1 ++ o2)).2 = (groupImports o1).2 ++ [(a, names)] := by
  have ha : a ∉ Dict.keys (groupImports o1).2 := fun h => by
    obtain ⟨d, hd, h⟩ := groupImports_keys _ _ h
    exact h1 d hd h
  induction o2 using list_snoc_induction with
  | h0 => intro h; exact absurd rfl h
  | h1 o2 n ih =>
    intro _
    have hn := h2 n (by simp)
    rw [← List.append_assoc, groupImports_snoc, if_neg (by simp [hn.1]), hn.2]
    by_cases he : o2 = []
    · subst he
      simp only [List.append_nil]
      exact ⟨_, Dict.keys_set_of_not_mem _ _ _ ha⟩
    · obtain ⟨names, hk⟩ := ih (fun d hd => h2 d (List.mem_append_left _ hd)) he
      simp only [hk]
      exact ⟨_, Dict.set_last _ _ _ _ ha⟩

/-- the order that puts the imports from module `a` at the end -/
def lastModule (a : String) (l : List String) : List String :=
  l.filter (fun d => !(hasDot d && initComponents d == a)) ++ l.filter (fun d => hasDot d && initComponents d == a)

theorem setOrder_lastModule (a : String) : SetOrder (lastModule a) := by
  intro l
  have := List.filter_append_perm (fun d => hasDot d && initComponents d == a) l
  exact List.perm_append_comm.trans this

theorem importedFrom_lastModule {imports : List String} {a n : String} (hn : '.' ∉ n.toList) (h : a ++ "." ++ n ∈ imports) :
    ImportedFrom (generateImports (lastModule a imports) (lastModule a)) n (some a) := by
  have hdot : hasDot n = false := by simp [hasDot, hn]
  have hsplit := (dotted_iff (a ++ "." ++ n) a n).2 ⟨rfl, hdot⟩
  obtain ⟨names, hnames⟩ := groupImports_last
    (imports.filter (fun d => !(hasDot d && initComponents d == a)))
    (imports.filter (fun d => hasDot d && initComponents d == a)) a
    (by intro d hd; have := (List.mem_filter.1 hd).2; simp at this; rintro ⟨x, y⟩; rcases this with h | h; exact absurd (x.symm.trans h) (by decide); exact h y)
    (by intro d hd; have := (List.mem_filter.1 hd).2; simpa using this)
    (List.ne_nil_of_mem (List.mem_filter.2 ⟨h, by simp [hsplit.1, hsplit.2.1]⟩))
  have hmem : n ∈ names := by
    have hk := (groupImports_mods (lastModule a imports) a n).2
      ⟨_, (setOrder_lastModule a imports).mem_iff.2 h, hsplit⟩
    have hnd := groupImports_keys_nodup (lastModule a imports)
    have hg : (groupImports (lastModule a imports)).2.get? a = some names :=
      Dict.get?_of_mem_nodup hnd (by unfold lastModule; rw [hnames]; simp)
    rw [hg] at hk
    exact hk
  have hnd : names.Nodup := by
    have := groupImports_vals_nodup (lastModule a imports) a
    have hg : (groupImports (lastModule a imports)).2.get? a = some names :=
      Dict.get?_of_mem_nodup (groupImports_keys_nodup _) (by unfold lastModule; rw [hnames]; simp)
    rwa [hg] at this
  have hmem' : n ∈ lastModule a names := (setOrder_lastModule a names).mem_iff.2 hmem
  have hnd' : (lastModule a names).Nodup := (setOrder_lastModule a names).nodup_iff.2 hnd
  obtain ⟨x, y, hxy⟩ := List.append_of_mem hmem'
  rw [hxy] at hnd'
  have hny : n ∉ y := by
    have := (List.nodup_append.1 hnd').2.1
    exact (List.nodup_cons.1 this).1
  unfold ImportedFrom generateImports
  simp only [binds_append, binds_imports, binds_froms]
  have : (groupImports (lastModule a imports)).2 = (groupImports (imports.filter (fun d => !(hasDot d && initComponents d == a)))).2 ++ [(a, names)] := hnames
  rw [this, List.flatMap_append]
  simp only [List.flatMap_cons, List.flatMap_nil, List.append_nil, hxy, List.map_append, List.map_cons]
  refine ⟨_, y.map fun n => (some a, n), by rw [← List.append_assoc, ← List.append_assoc], ?_⟩
  intro p hp
  obtain ⟨z, hz, rfl⟩ := List.mem_map.1 hp
  exact fun e => hny (e ▸ hz)

/-! ## C69 -/

/-- C69: whatever the hash seeds, a project that generates in one process generates in the other, and the two modules
consist of the same statements: what the plugins produced and the resolution calls are identical and in the same
order, the helper classes are the same, and the same things are imported under the same names. Only the order of the
imports and of the helper classes may differ. -/
theorem C69_same_content_partial (env : Env) (plugins : List Plugin) (skip : Bool) (iter1 iter2 : List String → List String)
    (h1 : SetOrder iter1) (h2 : SetOrder iter2) (m1 : List Stmt) (h : generateAst env iter1 plugins skip = .ok m1) :
    ∃ m2, generateAst env iter2 plugins skip = .ok m2 ∧
      ∃ imports1 imports2 helpers1 helpers2 rest,
        m1 = imports1 ++ helpers1 ++ rest ∧ m2 = imports2 ++ helpers2 ++ rest ∧
        (∀ s ∈ imports1 ++ imports2, IsImport s) ∧ (∀ s ∈ helpers1 ++ helpers2, ¬ IsImport s) ∧
        (binds imports1).Perm (binds imports2) ∧ (fromModules imports1).Perm (fromModules imports2) ∧
        helpers1.Perm helpers2 := by
  unfold generateAst at h ⊢
  cases hr : runPlugins plugins (Reg.init env) with
  | error e => rw [hr] at h; cases h
  | ok tr =>
    obtain ⟨tree, r⟩ := tr
    rw [hr] at h
    simp only at h ⊢
    cases hh : generateBuiltins (iter1 r.builtins) with
    | error e => rw [hh] at h; cases h
    | ok helpers =>
      rw [hh] at h
      obtain ⟨helpers2, hh2, hp⟩ := generateBuiltins_perm ((h1 r.builtins).trans (h2 r.builtins).symm) hh
      rw [hh2]
      cases h
      have hb := C07_hash_seed_independent r.imports (iter1 r.imports) (iter2 r.imports) iter1 iter2 (h1 _) (h2 _) h1 h2
      have hf : (fromModules (generateImports (iter1 r.imports) iter1)).Perm
          (fromModules (generateImports (iter2 r.imports) iter2)) := by
        rw [List.perm_ext_iff_of_nodup (C07_no_duplicates _ _ h1).2 (C07_no_duplicates _ _ h2).2]
        intro m
        rw [fromModules_generateImports, fromModules_generateImports]
        have key : ∀ o1 o2 : List String, o1.Perm o2 → m ∈ Dict.keys (groupImports o1).2 → m ∈ Dict.keys (groupImports o2).2 := by
          intro o1 o2 hp hm
          obtain ⟨d, hd, hd1, hd2⟩ := groupImports_keys _ _ hm
          have := (groupImports_mods o2 m (lastComponent d)).2 ⟨d, hp.mem_iff.1 hd, hd1, hd2, rfl⟩
          rw [← Dict.get?_isSome_iff]
          cases hg : Dict.get? (groupImports o2).2 m with
          | none => rw [hg] at this; simp at this
          | some v => rfl
        exact ⟨key _ _ ((h1 _).trans (h2 _).symm), key _ _ ((h2 _).trans (h1 _).symm)⟩
      refine ⟨_, rfl, generateImports (iter1 r.imports) iter1, generateImports (iter2 r.imports) iter2, helpers, helpers2,
        (if skip then tree else tree ++ generateForwardRefs env r), ?_, ?_, ?_, ?_, hb, hf, hp⟩
      · split <;> simp
      · split <;> simp
      · intro s hs
        rcases List.mem_append.1 hs with hs | hs
        · exact generateImports_isImport _ _ s hs
        · exact generateImports_isImport _ _ s hs
      · intro s hs
        rcases List.mem_append.1 hs with hs | hs
        · exact generateBuiltins_not_import hh s hs
        · exact generateBuiltins_not_import hh2 s hs

/-- C69: generation never fails in one process and succeeds in the other. -/
theorem C69_same_outcome (env : Env) (plugins : List Plugin) (skip : Bool) (iter1 iter2 : List String → List String)
    (h1 : SetOrder iter1) (h2 : SetOrder iter2) :
    (∃ m, generateAst env iter1 plugins skip = .ok m) ↔ ∃ m, generateAst env iter2 plugins skip = .ok m :=
  ⟨fun ⟨m, h⟩ => let ⟨m2, h', _⟩ := C69_same_content_partial env plugins skip iter1 iter2 h1 h2 m h; ⟨m2, h'⟩,
   fun ⟨m, h⟩ => let ⟨m2, h', _⟩ := C69_same_content_partial env plugins skip iter2 iter1 h2 h1 m h; ⟨m2, h'⟩⟩

theorem importedFrom_iff_of_distinct {ss : List Stmt} (hd : ((binds ss).map (·.2)).Nodup) (n : String) (src : Option String) :
    ImportedFrom ss n src ↔ (src, n) ∈ binds ss := by
  constructor
  · rintro ⟨x, y, h, _⟩; rw [h]; simp
  · intro h
    obtain ⟨x, y, hxy⟩ := List.append_of_mem h
    refine ⟨x, y, hxy, ?_⟩
    rw [hxy, List.map_append, List.map_cons, List.nodup_append] at hd
    have := (List.nodup_cons.1 hd.2.1).1
    exact fun p hp e => this (List.mem_map.2 ⟨p, hp, e⟩)

/-- C69: if no two different things are imported under one name, every imported name means the same in the modules of
both processes (`plugins` that emit no imports of their own). -/
theorem C69_same_meaning_partial (env : Env) (plugins : List Plugin) (skip : Bool) (iter1 iter2 : List String → List String)
    (h1 : SetOrder iter1) (h2 : SetOrder iter2) (m1 m2 : List Stmt)
    (hm1 : generateAst env iter1 plugins skip = .ok m1) (hm2 : generateAst env iter2 plugins skip = .ok m2)
    (hd : ((binds m1).map (·.2)).Nodup) (n : String) (src : Option String) :
    ImportedFrom m1 n src ↔ ImportedFrom m2 n src := by
  obtain ⟨m2', hm2', i1, i2, p1, p2, rest, rfl, rfl, _, hni, hb, _, _⟩ :=
    C69_same_content_partial env plugins skip iter1 iter2 h1 h2 m1 hm1
  rw [hm2'] at hm2
  cases hm2
  have hp : (binds (i1 ++ p1 ++ rest)).Perm (binds (i2 ++ p2 ++ rest)) := by
    simp only [binds_append, binds_not_import fun s hs => hni s (List.mem_append_left _ hs),
      binds_not_import fun s hs => hni s (List.mem_append_right _ hs), List.append_nil]
    exact hb.append_right _
  have hd2 : ((binds (i2 ++ p2 ++ rest)).map (·.2)).Nodup := (hp.map _).nodup_iff.1 hd
  rw [importedFrom_iff_of_distinct hd, importedFrom_iff_of_distinct hd2, hp.mem_iff]

theorem rebuilds_not_import (env : Env) (r : Reg) : ∀ s ∈ generateForwardRefs env r, ¬ IsImport s := by
  intro s hs
  unfold generateForwardRefs at hs
  obtain ⟨x, _, rfl⟩ := List.mem_map.1 hs
  simp [IsImport]

theorem last_module_wins (env : Env) (plugins : List Plugin) (skip : Bool) (outs : List (List Stmt))
    (r : Reg) (hr : PluginRuns plugins (Reg.init env) outs r) (hk : ∀ b ∈ r.builtins, b ∈ builtinNames)
    (hni : ∀ s ∈ outs.flatten, ¬ IsImport s) (n : String) (hn : '.' ∉ n.toList) (a : String) (ha : a ++ "." ++ n ∈ r.imports) :
    ∃ iter, SetOrder iter ∧ ∃ m, generateAst env iter plugins skip = .ok m ∧ ImportedFrom m n (some a) := by
  refine ⟨lastModule a, setOrder_lastModule a, ?_⟩
  obtain ⟨helpers, hh⟩ := generateBuiltins_total fun b hb => hk b ((setOrder_lastModule a r.builtins).mem_iff.1 hb)
  have hrun := (runPlugins_iff _ _ _ _).2 ⟨outs, hr, rfl⟩
  obtain ⟨x, y, hxy, hy⟩ := importedFrom_lastModule hn ha
  unfold generateAst
  simp only [hrun, hh]
  refine ⟨_, rfl, x, y, ?_, hy⟩
  have e1 := binds_not_import (generateBuiltins_not_import hh)
  have e2 := binds_not_import hni
  have e3 := binds_not_import (rebuilds_not_import env r)
  split <;> simp [binds_append, hxy, e1, e2, e3]

/-- C69 fails when two imports share their last component, for instance two scalars mapped to `a.Date` and `b.Date`:
whatever the rest of the project is, there is a process in which the name stands for the one, and a process in which
it stands for the other. -/
theorem C69_colliding_imports_counterexample (env : Env) (plugins : List Plugin) (skip : Bool) (outs : List (List Stmt))
    (r : Reg) (hr : PluginRuns plugins (Reg.init env) outs r) (hk : ∀ b ∈ r.builtins, b ∈ builtinNames)
    (hni : ∀ s ∈ outs.flatten, ¬ IsImport s) (n a b : String) (hn : '.' ∉ n.toList)
    (ha : a ++ "." ++ n ∈ r.imports) (hb : b ++ "." ++ n ∈ r.imports) :
    ∃ iter1 iter2, SetOrder iter1 ∧ SetOrder iter2 ∧ ∃ m1 m2, generateAst env iter1 plugins skip = .ok m1 ∧
      generateAst env iter2 plugins skip = .ok m2 ∧ ImportedFrom m1 n (some a) ∧ ImportedFrom m2 n (some b) := by
  obtain ⟨i1, o1, m1, g1, f1⟩ := last_module_wins env plugins skip outs r hr hk hni n hn a ha
  obtain ⟨i2, o2, m2, g2, f2⟩ := last_module_wins env plugins skip outs r hr hk hni n hn b hb
  exact ⟨i1, i2, o1, o2, m1, m2, g1, g2, f1, f2⟩

/-- the reading is unambiguous: a name stands for one thing -/
theorem ImportedFrom.unique {ss : List Stmt} {n : String} {a b : Option String} (h1 : ImportedFrom ss n a)
    (h2 : ImportedFrom ss n b) : a = b := by
  obtain ⟨x, y, hxy, hy⟩ := h1
  obtain ⟨u, v, huv, hv⟩ := h2
  rw [hxy] at huv
  rcases List.append_eq_append_iff.1 huv with ⟨z, hu, hz⟩ | ⟨z, hx, hz⟩
  · cases z with
    | nil => simp only [List.nil_append, List.cons.injEq, Prod.mk.injEq] at hz; exact hz.1.1
    | cons q z =>
      simp only [List.cons_append, List.cons.injEq] at hz
      exact absurd rfl (hy (b, n) (hz.2 ▸ by simp))
  · cases z with
    | nil => simp only [List.nil_append, List.cons.injEq, Prod.mk.injEq] at hz; exact hz.1.1.symm
    | cons q z =>
      simp only [List.cons_append, List.cons.injEq] at hz
      exact absurd rfl (hv (a, n) (hz.2 ▸ by simp))

/-- two scalars with Python types of the same name -/
def datePlugin : Plugin := ⟨"p", fun r =>
  match registerImport "arrow.Date" r with
  | .ok (_, r) => match registerImport "dates.Date" r with
    | .ok (_, r) => .ok ([.classDef "A" [] [.pass_] []], r)
    | .error e => .error e
  | .error e => .error e⟩

example : ∃ m, generateAst {} id [datePlugin] false = .ok m ∧ ImportedFrom m "Date" (some "dates") :=
  ⟨_, rfl, [(some "arrow", "Date")], [], rfl, by simp⟩

example : ∃ m, generateAst {} List.reverse [datePlugin] false = .ok m ∧ ImportedFrom m "Date" (some "arrow") :=
  ⟨_, rfl, [(some "dates", "Date")], [], rfl, by simp⟩

example : SetOrder List.reverse := fun l => List.reverse_perm l

/-- the hypothesis of `C69_same_meaning_partial` is met by a module with several imports -/
example : ∃ m, generateAst {} id [⟨"p", fun r => match registerImport "arrow.Date" r with
    | .ok (_, r) => match registerImport "typing.List" r with
      | .ok (_, r) => .ok ([], r)
      | .error e => .error e
    | .error e => .error e⟩] false = .ok m ∧ ((binds m).map (·.2)).Nodup :=
  ⟨_, rfl, by decide +kernel⟩

end Turms.Props
