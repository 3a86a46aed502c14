import Verif.Model.Tools
import Verif.Lemmas.Imports

/-!
# C45, C55: the polyfill parser, processors that run external tools
-/

namespace Turms.Props
open Turms Turms.Spec

/-! ## C45 -/

/-- statements other than `from … import …` -/
def notFrom : Stmt → Bool
  | .importFrom _ _ => false
  | _ => true

theorem mem_foldl_setAdd (l acc : List String) (x : String) : x ∈ l.foldl setAdd acc ↔ x ∈ acc ∨ x ∈ l := by
  induction l generalizing acc with
  | nil => simp
  | cons a l ih => rw [List.foldl_cons, ih, mem_setAdd]; simp [or_assoc]

theorem mem_binds_importFrom (m : String) (ns : List String) (mo : Option String) (n : String) :
    (mo, n) ∈ binds [.importFrom m ns] ↔ mo = some m ∧ n ∈ ns := by
  simp only [binds, List.append_nil, List.mem_map, Prod.mk.injEq]
  constructor
  · rintro ⟨x, hx, rfl, rfl⟩; exact ⟨rfl, hx⟩
  · rintro ⟨rfl, h⟩; exact ⟨n, h, rfl, rfl⟩

/-- the module a name comes from after polyfilling -/
def polyfilledModule (m : Option String) (n : String) : Option String :=
  if m = some "typing" ∧ n = "Literal" then some "typing_extensions" else m

theorem binds_polyfillStmt (iter : List String → List String) (hi : ∀ l, (iter l).Perm l) (s : Stmt) (mo : Option String) (n : String) :
    (mo, n) ∈ binds (polyfillStmt iter s) ↔ ∃ m, (m, n) ∈ binds [s] ∧ mo = polyfilledModule m n := by
  have other : ∀ s : Stmt, polyfillStmt iter s = [s] → (∀ n, (some "typing", n) ∉ binds [s]) →
      ((mo, n) ∈ binds (polyfillStmt iter s) ↔ ∃ m, (m, n) ∈ binds [s] ∧ mo = polyfilledModule m n) := by
    intro s hs hno
    rw [hs]
    constructor
    · intro h
      refine ⟨mo, h, ?_⟩
      unfold polyfilledModule
      rw [if_neg]
      rintro ⟨rfl, rfl⟩
      exact hno _ h
    · rintro ⟨m, h, rfl⟩
      unfold polyfilledModule
      rw [if_neg]
      · exact h
      · rintro ⟨rfl, rfl⟩
        exact hno _ h
  cases s with
  | importFrom m ns =>
    by_cases hm : m = "typing"
    · subst hm
      have hl : ∀ x, x ∈ ns.foldl setAdd [] ↔ x ∈ ns := by intro x; rw [mem_foldl_setAdd]; simp
      simp only [polyfillStmt, beq_self_eq_true, if_true]
      rw [binds_append, List.mem_append, mem_binds_importFrom, (hi _).mem_iff, List.mem_filter, hl]
      have hne : (mo, n) ∈ binds (if (List.filter (fun x => x == "Literal") (ns.foldl setAdd [])).isEmpty = true then []
            else [.importFrom "typing_extensions" (iter (List.filter (fun x => x == "Literal") (ns.foldl setAdd [])))]) ↔
          mo = some "typing_extensions" ∧ n ∈ ns ∧ n = "Literal" := by
        split
        · rename_i he
          rw [List.isEmpty_iff] at he
          simp only [binds, List.not_mem_nil, false_iff]
          rintro ⟨_, h1, rfl⟩
          have := List.filter_eq_nil_iff.1 he "Literal" ((hl _).2 h1)
          simp at this
        · rw [mem_binds_importFrom, (hi _).mem_iff, List.mem_filter, hl]
          simp
      rw [hne]
      simp only [mem_binds_importFrom, polyfilledModule, bne_iff_ne, ne_eq]
      constructor
      · rintro (⟨rfl, h1, rfl⟩ | ⟨rfl, h1, h2⟩)
        · exact ⟨_, ⟨rfl, h1⟩, by simp⟩
        · exact ⟨_, ⟨rfl, h1⟩, by simp [h2]⟩
      · rintro ⟨_, ⟨rfl, h1⟩, rfl⟩
        by_cases h2 : n = "Literal"
        · left; simp [h2]; exact h2 ▸ h1
        · right; simp [h2, h1]
    · apply other
      · simp [polyfillStmt, hm]
      · intro n h; rw [mem_binds_importFrom] at h; simp at h; exact hm h.1.symm
  | import_ x => apply other; rfl; intro n h; simp [binds] at h
  | _ => apply other; rfl; intro n h; simp [binds] at h

theorem mem_binds_flatMap (f : Stmt → List Stmt) (body : List Stmt) (x : Option String × String) :
    x ∈ binds (body.flatMap f) ↔ ∃ s ∈ body, x ∈ binds (f s) := by
  induction body with
  | nil => simp [binds]
  | cons s body ih => rw [List.flatMap_cons, binds_append, List.mem_append, ih]; simp

theorem mem_binds_iff (body : List Stmt) (x : Option String × String) : x ∈ binds body ↔ ∃ s ∈ body, x ∈ binds [s] := by
  have := mem_binds_flatMap (fun s => [s]) body x
  simpa using this

/-- C45: polyfilling for Python 3.7 imports exactly the names that were imported, each from where it came from,
except that `Literal` comes from `typing_extensions` instead of `typing`. -/
theorem C45_names (iter : List String → List String) (hi : ∀ l, (iter l).Perm l) (body : List Stmt) (mo : Option String) (n : String) :
    (mo, n) ∈ binds (polyfill iter "3.7" body) ↔ ∃ m, (m, n) ∈ binds body ∧ mo = polyfilledModule m n := by
  unfold polyfill
  rw [if_pos (by simp), mem_binds_flatMap]
  constructor
  · rintro ⟨s, hs, h⟩
    obtain ⟨m, h1, h2⟩ := (binds_polyfillStmt iter hi s mo n).1 h
    exact ⟨m, (mem_binds_iff _ _).2 ⟨s, hs, h1⟩, h2⟩
  · rintro ⟨m, h1, h2⟩
    obtain ⟨s, hs, h1⟩ := (mem_binds_iff _ _).1 h1
    exact ⟨s, hs, (binds_polyfillStmt iter hi s mo n).2 ⟨m, h1, h2⟩⟩

/-- C45: in particular no name is lost or added, and `Literal` never comes from `typing`. -/
theorem C45_same_names (iter : List String → List String) (hi : ∀ l, (iter l).Perm l) (body : List Stmt) :
    (∀ n, (∃ m, (m, n) ∈ binds (polyfill iter "3.7" body)) ↔ ∃ m, (m, n) ∈ binds body) ∧
    (some "typing", "Literal") ∉ binds (polyfill iter "3.7" body) := by
  constructor
  · intro n
    constructor
    · rintro ⟨m, h⟩
      obtain ⟨m', h1, _⟩ := (C45_names iter hi body m n).1 h
      exact ⟨m', h1⟩
    · rintro ⟨m, h⟩
      exact ⟨_, (C45_names iter hi body _ n).2 ⟨m, h, rfl⟩⟩
  · intro h
    obtain ⟨m, _, h2⟩ := (C45_names iter hi body _ _).1 h
    unfold polyfilledModule at h2
    split at h2
    · simp at h2
    · rename_i hn; exact hn ⟨h2.symm, rfl⟩

/-- C45: all other statements stay as they are and in order; for every other version nothing changes. -/
theorem C45_rest_unchanged (iter : List String → List String) (version : String) (body : List Stmt) :
    (polyfill iter version body).filter notFrom = body.filter notFrom ∧
    (version ≠ "3.7" → polyfill iter version body = body) := by
  constructor
  · unfold polyfill
    split
    · induction body with
      | nil => rfl
      | cons s body ih =>
        rw [List.flatMap_cons, List.filter_append, ih]
        have : (polyfillStmt iter s).filter notFrom = [s].filter notFrom := by
          cases s with
          | importFrom m ns =>
            unfold polyfillStmt
            dsimp only
            split
            · split <;> rfl
            · rfl
          | _ => rfl
        rw [this]
        show _ = List.filter notFrom ([s] ++ body)
        rw [List.filter_append]
    · rfl
  · intro h
    unfold polyfill
    rw [if_neg (by simpa using h)]

/-- C45 is false of the code in one point: a `typing` import of nothing but `Literal` leaves an empty `typing`
import behind, which is not valid Python. -/
theorem C45_empty_import_counterexample (iter : List String → List String) (hi : ∀ l, (iter l).Perm l) :
    ∃ out, polyfill iter "3.7" [.importFrom "typing" ["Literal"]] = out ∧ Stmt.importFrom "typing" [] ∈ out := by
  refine ⟨_, rfl, ?_⟩
  have h : iter [] = [] := by simpa using hi []
  show Stmt.importFrom "typing" [] ∈ [Stmt.importFrom "typing_extensions" (iter ["Literal"]), .importFrom "typing" (iter [])]
  rw [h]; simp

/-- C45, what does hold: if every `typing` import has another name as well, every emitted import names something. -/
theorem C45_no_empty_import_partial (iter : List String → List String) (hi : ∀ l, (iter l).Perm l) (body : List Stmt)
    (hb : ∀ m ns, Stmt.importFrom m ns ∈ body → ns ≠ [] ∧ (m = "typing" → ∃ n ∈ ns, n ≠ "Literal")) :
    ∀ m ns, Stmt.importFrom m ns ∈ polyfill iter "3.7" body → ns ≠ [] := by
  intro m ns h
  unfold polyfill at h
  rw [if_pos (by simp), List.mem_flatMap] at h
  obtain ⟨s, hs, h⟩ := h
  have hperm : ∀ l, l ≠ [] → iter l ≠ [] := by
    intro l hl h0
    have := (hi l).length_eq
    rw [h0] at this
    exact hl (List.length_eq_zero_iff.1 this.symm)
  cases s with
  | importFrom m' ns' =>
    obtain ⟨h1, h2⟩ := hb m' ns' hs
    unfold polyfillStmt at h
    dsimp only at h
    split at h
    · rename_i ht
      obtain ⟨x, hx, hxl⟩ := h2 (by simpa using ht)
      rcases List.mem_append.1 h with h | h
      · split at h
        · cases h
        · rename_i hne
          simp only [List.mem_singleton, Stmt.importFrom.injEq] at h
          rw [h.2]
          exact hperm _ (by simpa using hne)
      · simp only [List.mem_singleton, Stmt.importFrom.injEq] at h
        rw [h.2]
        refine hperm _ (List.ne_nil_of_mem (a := x) ?_)
        rw [List.mem_filter, mem_foldl_setAdd]
        exact ⟨.inr hx, by simpa using hxl⟩
    · simp only [List.mem_singleton, Stmt.importFrom.injEq] at h
      rw [h.2]; exact h1
  | _ => simp [polyfillStmt] at h

example : binds (polyfill id "3.7" [.import_ "os", .importFrom "typing" ["List", "Literal"], .importFrom "enum" ["Enum"], .pass_]) =
    [(none, "os"), (some "typing_extensions", "Literal"), (some "typing", "List"), (some "enum", "Enum")] := by
  decide +kernel

/-! ## C55 -/

/-- C55: a command processor returns the command's output exactly if the command ran and exited with 0; it is run
once, on the code. -/
theorem C55_command {W : Type} (exec : Exec W) (command : List String) (code out : String) (w w' : W) :
    runCommand exec command code w = (.ok out, w') ↔ exec command code w = (.ok (0, out), w') := by
  unfold runCommand
  cases exec command code w with
  | mk r w1 =>
    cases r with
    | error e => simp
    | ok p =>
      obtain ⟨rc, o⟩ := p
      by_cases h : rc = 0 <;> simp [h]

/-- C55: otherwise it fails; the world is as the command left it. -/
theorem C55_command_fails {W : Type} (exec : Exec W) (command : List String) (code : String) (w w' : W)
    (h : (∃ e, exec command code w = (.error e, w')) ∨ ∃ rc out, rc ≠ 0 ∧ exec command code w = (.ok (rc, out), w')) :
    ∃ e, runCommand exec command code w = (.error e, w') := by
  unfold runCommand
  rcases h with ⟨e, h⟩ | ⟨rc, out, hrc, h⟩
  · rw [h]; exact ⟨_, rfl⟩
  · rw [h]; simp [hrc]

/-- C55: ruff's fixes run first, on the code, if enabled; formatting runs next, on the result, if enabled; nothing
else is run, and the output is returned only if everything that ran exited with 0. -/
theorem C55_ruff {W : Type} (exec : Exec W) (python : String) (fix format : Bool) (code out : String) (w w' : W) :
    runRuff exec python fix format code w = (.ok out, w') ↔
    ∃ mid w1,
      (if fix then exec (ruffFixArgs python) code w = (.ok (0, mid), w1) else mid = code ∧ w1 = w) ∧
      (if format then exec (ruffFormatArgs python) mid w1 = (.ok (0, out), w') else out = mid ∧ w' = w1) := by
  have step : ∀ b args c u o u', ruffStep exec b args c u = (.ok o, u') ↔
      if b then exec args c u = (.ok (0, o), u') else o = c ∧ u' = u := by
    intro b args c u o u'
    unfold ruffStep
    cases b with
    | false => simp [eq_comm]
    | true => simp only [if_true]; exact C55_command exec args c o u u'
  unfold runRuff
  constructor
  · intro h
    split at h
    · cases h
    · rename_i mid w1 h1
      exact ⟨mid, w1, (step _ _ _ _ _ _).1 h1, (step _ _ _ _ _ _).1 h⟩
  · rintro ⟨mid, w1, h1, h2⟩
    rw [(step _ _ _ _ _ _).2 h1]
    exact (step _ _ _ _ _ _).2 h2

/-- the two invocations are different commands -/
theorem C55_ruff_commands (python : String) :
    ruffFixArgs python = python :: ["-m", "ruff", "check", "--fix", "--quiet", "--stdin-filename", "generated.py", "-"] ∧
    ruffFormatArgs python = python :: ["-m", "ruff", "format", "--quiet", "--stdin-filename", "generated.py", "-"] ∧
    ruffFixArgs python ≠ ruffFormatArgs python := by
  refine ⟨rfl, rfl, ?_⟩
  unfold ruffFixArgs ruffFormatArgs
  simp

example : runRuff (W := List (List String)) (fun args code w => (.ok (0, code ++ "!"), w ++ [args])) "py" true true "x" [] =
    (.ok "x!!", [ruffFixArgs "py", ruffFormatArgs "py"]) ∧
    (runRuff (W := Nat) (fun _ _ w => (.ok (1, "broken"), w + 1)) "py" true true "x" 0) =
      (.error (.other "RuntimeError"), 1) := by decide +kernel

end Turms.Props
