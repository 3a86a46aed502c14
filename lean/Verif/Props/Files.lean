import Verif.Lemmas.Files

/-!
# C37, C38, C39, C42, C64: what the commands do to the disk
-/

namespace Turms.Props
open Turms Turms.Spec

/-! ## C37 -/

/-- C37: a project whose generation fails changes nothing at all, not even temporarily. -/
theorem C37_failed_generation_untouched (os : Os) (gen : Generator) (p : Project) (d : Disk) (e : Err)
    (h : gen p d.now = .error e) : attemptProject os gen p d = (.error e, d) := by
  unfold attemptProject; rw [h]

theorem projectsLoop_snd (os : Os) (gen : Generator) (p : Project) (ps : List Project) (d : Disk) :
    (projectsLoop os gen (p :: ps) d).2 = (projectsLoop os gen ps (attemptProject os gen p d).2).2 := by
  show (match attemptProject os gen p d with
    | (.ok _, d1) => projectsLoop os gen ps d1
    | (.error e, d1) => _).2 = _
  cases attemptProject os gen p d with
  | mk r d1 => cases r <;> rfl

theorem generateProjects_snd (os : Os) (gen : Generator) (ps : List Project) (d : Disk) :
    (generateProjects os gen ps d).2 = (projectsLoop os gen ps d).2 := by
  unfold generateProjects
  cases projectsLoop os gen ps d with
  | mk l d1 => cases l <;> rfl

theorem mem_of_touched {ws : List (String × String)} {a b : FS} (h : Touched (fun f t => (f, t) ∈ ws) a b) (f : String)
    (hf : f ∉ ws.map (·.1)) : b.files f = a.files f := by
  rcases h f with h | ⟨t, _, h1, _, _⟩
  · exact h
  · exact absurd (List.mem_map.2 ⟨_, h1, rfl⟩) hf

/-- C37: on a disk that works, the generate command takes every project in order, whatever happened to the ones
before: a failing one leaves the files as they were, a succeeding one writes exactly its code (and dumps). Each
generation sees what the projects before it wrote. -/
theorem C37_projects_in_order (os : Os) (ho : Works os) (gen : Generator) (ps : List Project) (d : Disk) :
    InOrder (ProjectEffect os gen) ps d.now (generateProjects os gen ps d).2.now := by
  rw [generateProjects_snd]
  induction ps generalizing d with
  | nil => exact .nil _
  | cons p ps ih =>
    rw [projectsLoop_snd]
    refine .cons ⟨?_, ?_, ?_⟩ (ih _)
    · intro e he; rw [C37_failed_generation_untouched os gen p d e he]
    · intro g hg hp
      obtain ⟨d', h1, h2⟩ := attemptProject_works ho hg hp
      rw [h1]; exact h2
    · intro g hg f hf
      exact mem_of_touched ((attemptProject_through (os := os) hg).now (Touched.rfl' _)) f hf

/-- C37: whatever the operating system does — directories that cannot be created, files that cannot be opened,
writes that fail halfway — a project whose generation fails leaves the disk alone, and one whose generation
succeeds touches only its own files. -/
theorem C37_isolation (os : Os) (gen : Generator) (ps : List Project) (d : Disk) :
    InOrder (fun p before after => (∀ e, gen p before = .error e → after = before) ∧
        ∀ g, gen p before = .ok g → ∀ f, f ∉ (wanted os p g).map (·.1) → after.files f = before.files f)
      ps d.now (generateProjects os gen ps d).2.now := by
  rw [generateProjects_snd]
  induction ps generalizing d with
  | nil => exact .nil _
  | cons p ps ih =>
    rw [projectsLoop_snd]
    refine .cons ⟨?_, ?_⟩ (ih _)
    · intro e he; rw [C37_failed_generation_untouched os gen p d e he]
    · intro g hg f hf
      exact mem_of_touched ((attemptProject_through (os := os) hg).now (Touched.rfl' _)) f hf

/-- a disk that works, on which directories can be made -/
def plainOs : Os :=
  { locate := id, makedirs := fun fs p => (none, fun q => fs.dirs q || q == p), openFails := fun _ _ => none,
    writeFails := fun _ _ _ => none }

def emptyDisk : Disk := { now := { files := fun _ => none, dirs := fun _ => false }, past := [] }

theorem plainOs_works : Works plainOs := ⟨fun _ _ => rfl, fun _ _ => rfl, fun _ _ _ => rfl⟩

/-- three projects: the second one fails, the third one overwrites the file of the first -/
def demoGen : Generator := fun p _ =>
  if p.settings = "bad" then .error (.valueError "bad") else .ok ⟨p.settings, .ok "type Query", .ok "{}"⟩

def demoProjects : List Project :=
  [{ outDir := "api", generatedName := "a.py", settings := "one" },
   { outDir := "api", generatedName := "b.py", settings := "bad" },
   { outDir := "api", generatedName := "a.py", settings := "two", dumpSchema := true }]

example : ((generateProjects plainOs demoGen demoProjects emptyDisk).2.now.files "api/a.py",
      (generateProjects plainOs demoGen demoProjects emptyDisk).2.now.files "api/b.py",
      (generateProjects plainOs demoGen demoProjects emptyDisk).2.now.files "api/schema.graphql",
      (generateProjects plainOs demoGen demoProjects emptyDisk).1) =
    (some "two", none, some "type Query", .error (.other "ClickException")) := by decide +kernel

/-! ## C38 -/

/-- the disk after the first projects of a list have been attempted -/
theorem projectsLoop_errors (os : Os) (gen : Generator) (ps : List Project) (d : Disk) :
    (projectsLoop os gen ps d).1 ≠ [] ↔
    ∃ before p after, ps = before ++ p :: after ∧ p.exitOnError = true ∧
      ∃ e, (attemptProject os gen p (generateProjects os gen before d).2).1 = .error e := by
  induction ps generalizing d with
  | nil => simp [projectsLoop]
  | cons p ps ih =>
    have ih := ih (attemptProject os gen p d).2
    have hrest : ∀ before q after, ps = before ++ q :: after →
        (generateProjects os gen (p :: before) d).2 = (generateProjects os gen before (attemptProject os gen p d).2).2 := by
      intro before q after _
      rw [generateProjects_snd, generateProjects_snd, projectsLoop_snd]
    have hsplit : (∃ before q after, p :: ps = before ++ q :: after ∧ q.exitOnError = true ∧
          ∃ e, (attemptProject os gen q (generateProjects os gen before d).2).1 = .error e) ↔
        (p.exitOnError = true ∧ ∃ e, (attemptProject os gen p d).1 = .error e) ∨
        ∃ before q after, ps = before ++ q :: after ∧ q.exitOnError = true ∧
          ∃ e, (attemptProject os gen q (generateProjects os gen before (attemptProject os gen p d).2).2).1 = .error e := by
      constructor
      · rintro ⟨before, q, after, heq, hx, he⟩
        cases before with
        | nil =>
          simp only [List.nil_append, List.cons.injEq] at heq
          obtain ⟨rfl, rfl⟩ := heq
          exact .inl ⟨hx, he⟩
        | cons b before =>
          simp only [List.cons_append, List.cons.injEq] at heq
          obtain ⟨rfl, heq⟩ := heq
          rw [hrest before q after heq] at he
          exact .inr ⟨before, q, after, heq, hx, he⟩
      · rintro (⟨hx, he⟩ | ⟨before, q, after, heq, hx, he⟩)
        · exact ⟨[], p, ps, rfl, hx, he⟩
        · refine ⟨p :: before, q, after, by rw [heq]; rfl, hx, ?_⟩
          rw [hrest before q after heq]; exact he
    rw [hsplit, ← ih]
    show (match attemptProject os gen p d with
      | (.ok _, d1) => projectsLoop os gen ps d1
      | (.error e, d1) => (if p.exitOnError then e :: (projectsLoop os gen ps d1).1 else (projectsLoop os gen ps d1).1,
          (projectsLoop os gen ps d1).2)).1 ≠ [] ↔ _
    cases attemptProject os gen p d with
    | mk r d1 =>
      cases r with
      | ok u => simp
      | error e => cases p.exitOnError <;> simp

/-- C38: the command fails exactly when some project that failed — its generation or its writing — has
`exit_on_error` set; every project is attempted before that, each on the disk its predecessors left. -/
theorem C38_exit_status (os : Os) (gen : Generator) (ps : List Project) (d : Disk) :
    (∃ e, (generateProjects os gen ps d).1 = .error e) ↔
    ∃ before p after, ps = before ++ p :: after ∧ p.exitOnError = true ∧
      ∃ e, (attemptProject os gen p (generateProjects os gen before d).2).1 = .error e := by
  rw [← projectsLoop_errors]
  unfold generateProjects
  cases projectsLoop os gen ps d with
  | mk l d1 => cases l <;> simp

/-- C38, on a disk that works: with printable dumps, projects fail exactly when their generation fails. -/
theorem C38_failure_is_generation (os : Os) (ho : Works os) (gen : Generator) (p : Project) (d : Disk)
    (hp : ∀ g, gen p d.now = .ok g → Printable p g) :
    (∃ e, (attemptProject os gen p d).1 = .error e) ↔ ∃ e, gen p d.now = .error e := by
  cases hg : gen p d.now with
  | error e => rw [C37_failed_generation_untouched os gen p d e hg]; simp
  | ok g =>
    obtain ⟨d', h, _⟩ := attemptProject_works ho hg (hp g hg)
    rw [h]; simp

/-- the same projects with `exit_on_error` off: the command succeeds -/
example : (generateProjects plainOs demoGen (demoProjects.map fun p => { p with exitOnError := false }) emptyDisk).1 =
    .ok () := by decide +kernel

/-! ## C39 -/

/-- C39 is false of the code: `gen` never writes the generated code. `generate` returns a pair, which is passed to
`file.write` after the output file has been truncated: for *every* project whose generation succeeds the output
file ends up empty (and, unless `strict`, the error is swallowed). -/
theorem C39_gen_writes_nothing_counterexample (os : Os) (ho : Works os) (gen : Generator) (p : Project) (g : Generated)
    (d : Disk) (hg : gen p d.now = .ok g) :
    (genLoop os gen none false [p] d).2.now.files (os.locate (pathJoin p.outDir p.generatedName)) = some "" ∧
    (genLoop os gen none false [p] d).1 = .ok () ∧
    ∃ e, (genLoop os gen none true [p] d).1 = .error e := by
  have key : ∃ d', genProject os gen none p d = (.error (.typeError "write"), d') ∧
      d'.now.files (os.locate (pathJoin p.outDir p.generatedName)) = some "" := by
    obtain ⟨d', h1, h2⟩ := writeToFile_notText ho p.outDir p.generatedName d
    refine ⟨d', ?_, by rw [h2]; simp⟩
    unfold genProject
    rw [hg]
    dsimp only
    unfold Io.andThen
    rw [h1]
  obtain ⟨d', h1, h2⟩ := key
  unfold genLoop
  rw [h1]
  exact ⟨h2, rfl, _, rfl⟩

/-- C39, what does hold: a project whose generation fails leaves the disk as it was, and later projects are
still attempted unless `strict`. -/
theorem C39_failed_generation_partial (os : Os) (gen : Generator) (overwrite : Option String) (p : Project)
    (ps : List Project) (d : Disk) (e : Err) (h : gen p d.now = .error e) :
    genLoop os gen overwrite false (p :: ps) d = genLoop os gen overwrite false ps d ∧
    genLoop os gen overwrite true (p :: ps) d = (.error (.generationError ""), d) := by
  have : genProject os gen overwrite p d = (.error e, d) := by unfold genProject; rw [h]
  constructor
  · show (match genProject os gen overwrite p d with
      | (.ok _, d1) => _
      | (.error _, d1) => _) = _
    rw [this]; rfl
  · show (match genProject os gen overwrite p d with
      | (.ok _, d1) => _
      | (.error _, d1) => _) = _
    rw [this]; rfl

example : ((genLoop plainOs demoGen none false demoProjects emptyDisk).2.now.files "api/a.py",
    (genLoop plainOs demoGen none false demoProjects emptyDisk).1) = (some "", .ok ()) := by decide +kernel

/-! ## C64 -/

/-- C64 is false of the code: output files are truncated before they are rewritten, so *every* successful run
passes through a state — a crash point — in which the output file is empty, neither old nor new. -/
theorem C64_crash_truncates_counterexample (os : Os) (ho : Works os) (gen : Generator) (p : Project) (g : Generated)
    (d : Disk) (hg : gen p d.now = .ok g) :
    ∃ s ∈ (generateProjects os gen [p] d).2.states,
      s.files (os.locate (pathJoin p.outDir p.generatedName)) = some "" := by
  rw [generateProjects_snd, projectsLoop_snd]
  show ∃ s ∈ (attemptProject os gen p d).2.states, _
  obtain ⟨s, hs, hf⟩ := writeToFile_truncates ho (.ok (.text g.code)) p.outDir p.generatedName d
  refine ⟨s, ?_, hf⟩
  unfold attemptProject
  rw [hg]
  dsimp only
  have hmore : ∀ d1 : Disk, s ∈ d1.states →
      s ∈ (((Io.whenever p.dumpSchema (writeToFile os (g.schemaText.map .text) p.outDir p.schemaName)).andThen fun _ =>
        Io.whenever p.dumpConfiguration (writeToFile os (g.configText.map .text) p.outDir p.configurationName)) d1).2.states := by
    intro d1 h1
    refine (andThen_through (P := Touched (fun _ _ => True) d1.now) (whenever_through _ fun _ =>
      writeToFile_through _ _ _ trivial _ (Touched.rfl' _)) fun _ => whenever_through _ fun _ =>
        writeToFile_through _ _ _ trivial _ ?_).states s h1
    exact (whenever_through (P := Touched (fun _ _ => True) d1.now) _ fun _ =>
      writeToFile_through _ _ _ trivial _ (Touched.rfl' _)).now (Touched.rfl' _)
  revert hs
  unfold Io.andThen
  cases writeToFile os (.ok (.text g.code)) p.outDir p.generatedName d with
  | mk r d1 =>
    cases r with
    | error e => exact id
    | ok x => exact hmore d1

/-- C64, what does hold, for every operating system and every crash point: at any time during the generate
command, every file is as it was before, or holds the beginning of a text that one of the projects generated
for that file. In particular files that no project writes are never affected. -/
theorem C64_crash_states_partial (os : Os) (gen : Generator) (ps : List Project) (d : Disk) :
    ∃ during, (generateProjects os gen ps d).2.states = during ++ d.states ∧ ∀ s ∈ during,
      ∀ f, s.files f = d.now.files f ∨
        ∃ text part, s.files f = some part ∧ StartOf part text ∧
          ∃ p ∈ ps, ∃ seen ∈ during ++ d.states, ∃ g, gen p seen = .ok g ∧ (f, text) ∈ wanted os p g := by
  have key : ∀ (ps : List Project) (d : Disk), Through (Touched (fun f text => ∃ p ∈ ps,
      ∃ seen ∈ (projectsLoop os gen ps d).2.states, ∃ g, gen p seen = .ok g ∧ (f, text) ∈ wanted os p g) d.now) d
      (projectsLoop os gen ps d).2 := by
    intro ps
    induction ps with
    | nil => intro d; exact .refl d
    | cons p ps ih =>
      intro d
      have h2 := ih (attemptProject os gen p d).2
      rw [projectsLoop_snd]
      refine Through.touched (b := (attemptProject os gen p d).2) ?_ ?_
      · cases hg : gen p d.now with
        | error e => rw [C37_failed_generation_untouched os gen p d e hg]; exact .refl d
        | ok g =>
          have h1 := attemptProject_through (os := os) hg
          refine h1.mono fun s hs => hs.mono fun f t hw => ⟨p, by simp, d.now, ?_, g, hg, hw⟩
          exact h2.states _ (h1.states _ (by simp [Disk.states]))
      · refine h2.mono fun s hs => hs.mono ?_
        rintro f t ⟨q, hq, seen, hseen, g, hg, hw⟩
        exact ⟨q, by simp [hq], seen, hseen, g, hg, hw⟩
  obtain ⟨during, h1, h2⟩ := key ps d
  rw [generateProjects_snd]
  refine ⟨during, h1, fun s hs f => ?_⟩
  rcases h2 s hs f with h | ⟨t, pre, ⟨p, hp, seen, hseen, g, hg, hw⟩, h4, h5⟩
  · exact .inl h
  · exact .inr ⟨t, pre, h5, h4, p, hp, seen, by rw [← h1]; exact hseen, g, hg, hw⟩

/-- the crash points of a small run: no file, empty file, one character, two characters -/
example : (generateProjects plainOs demoGen [{ outDir := "", generatedName := "a", settings := "xy" }]
      emptyDisk).2.states.map (·.files "a") = [some "xy", some "x", some "", none, none] := by decide +kernel

/-! ## C42 -/

/-- C42: `init` leaves the disk as it is if the file exists and the user does not confirm. -/
theorem C42_init_untouched (os : Os) (cwd config template : String) (d : Disk)
    (h : (d.now.files (os.locate (pathJoin cwd config))).isSome) :
    initConfig os cwd config template false d = (.ok (), d) := by
  unfold initConfig
  rw [h]
  rfl

/-- C42: if there is no such file, or the user confirms, `init` writes exactly the template, to that file only. -/
theorem C42_init_writes (os : Os) (ho : Works os) (cwd config template : String) (confirmed : Bool) (d : Disk)
    (hd : d.now.dirs (os.locate (pathJoin cwd config)) = false)
    (h : confirmed = true ∨ d.now.files (os.locate (pathJoin cwd config)) = none) :
    ∃ d', initConfig os cwd config template confirmed d = (.ok (), d') ∧
      ∀ f, d'.now.files f = if f = os.locate (pathJoin cwd config) then some template else d.now.files f := by
  have key : ∃ d', ((openTruncated os (pathJoin cwd config)).andThen fun _ =>
      writePayload os (os.locate (pathJoin cwd config)) (.ok (.text template))) d = (.ok (), d') ∧
      ∀ f, d'.now.files f = if f = os.locate (pathJoin cwd config) then some template else d.now.files f := by
    refine ⟨appendChars (os.locate (pathJoin cwd config)) "" template.toList
      (d.step (d.now.put (os.locate (pathJoin cwd config)) "")), ?_, fun f => ?_⟩
    · unfold Io.andThen openTruncated
      rw [ho.open_]
      dsimp only
      unfold writePayload
      dsimp only
      rw [ho.write]
    · rw [appendChars_now _ _ _ (by simp [Disk.step, FS.put])]
      by_cases hf : f = os.locate (pathJoin cwd config) <;> simp [hf, Disk.step, FS.put]
  obtain ⟨d', h1, h2⟩ := key
  refine ⟨d', ?_, h2⟩
  unfold initConfig
  rcases h with h | h
  · rw [h1, h]; simp
  · rw [h1, h, hd]; simp

/-- the directory `download` writes to: the given one, or the working directory if none (or an empty one) is given -/
inductive DownloadsTo (cwd : String) : Option String → String → Prop
  | none : DownloadsTo cwd none cwd
  | empty : DownloadsTo cwd (some "") cwd
  | given {dir} : dir ≠ "" → DownloadsTo cwd (some dir) dir

theorem download_dir {P : Type} {os : Os} {schemaOf : P → FS → Except Err (Except Err String)} {cwd out target : String}
    {dir : Option String} (h : DownloadsTo cwd dir target) :
    download os schemaOf cwd dir out = download os schemaOf target none out := by
  unfold download
  cases h with
  | none => rfl
  | empty => rfl
  | given h => simp [h]

/-- C42: where the files are: an absolute name is the file itself; any other name is below the directory, with exactly
one separator in between. -/
theorem C42_paths (dir name : String) :
    (name.startsWith "/" = true → pathJoin dir name = name) ∧
    (name.startsWith "/" = false → ∃ sep, pathJoin dir name = dir ++ sep ++ name ∧
      ((dir = "" ∨ dir.endsWith "/" = true) ∧ sep = "" ∨ (dir ≠ "" ∧ dir.endsWith "/" = false) ∧ sep = "/")) := by
  unfold pathJoin
  constructor
  · intro h; rw [if_pos h]
  · intro h
    rw [if_neg (by simp [h])]
    split
    · rename_i hd
      exact ⟨"", by rw [String.append_empty], .inl ⟨by simpa using hd, rfl⟩⟩
    · rename_i hd
      exact ⟨"/", rfl, .inr ⟨by simpa using hd, rfl⟩⟩

/-- C42 is false of `download`: it overwrites whatever is there without asking, whenever the schema can be loaded. -/
theorem C42_download_overwrites_counterexample {P : Type} (os : Os) (ho : Works os)
    (schemaOf : P → FS → Except Err (Except Err String)) (cwd key out text : String) (dir : Option String) (target : String)
    (hdir : DownloadsTo cwd dir target) (p : P) (d : Disk) (h : schemaOf p d.now = .ok (.ok text)) :
    ∃ d', download os schemaOf cwd dir out [(key, p)] d = (.ok (), d') ∧
      ∀ f, d'.now.files f = if f = os.locate (pathJoin target (key ++ out)) then some text else d.now.files f := by
  rw [download_dir hdir]
  generalize target = cwd
  refine ⟨appendChars (os.locate (pathJoin cwd (key ++ out))) "" text.toList
      (d.step (d.now.put (os.locate (pathJoin cwd (key ++ out))) "")), ?_, fun f => ?_⟩
  · unfold download downloadLoop
    rw [h]
    dsimp only
    unfold Io.andThen openTruncated
    rw [ho.open_]
    dsimp only
    unfold writePayload
    dsimp only [Except.map]
    rw [ho.write]
    rfl
  · rw [appendChars_now _ _ _ (by simp [Disk.step, FS.put])]
    by_cases hf : f = os.locate (pathJoin cwd (key ++ out)) <;> simp [hf, Disk.step, FS.put]

/-- C42, what does hold for `download`: it changes only the file of each project, and when a schema cannot be
loaded nothing is written for that project or the ones after it. -/
theorem C42_download_partial {P : Type} (os : Os) (schemaOf : P → FS → Except Err (Except Err String)) (cwd out : String)
    (dir : Option String) (target : String) (hdir : DownloadsTo cwd dir target) (projects : List (String × P)) (d : Disk) :
    (∀ f, f ∉ projects.map (fun kp => os.locate (pathJoin target (kp.1 ++ out))) →
      (download os schemaOf cwd dir out projects d).2.now.files f = d.now.files f) ∧
    (∀ key p rest e, projects = (key, p) :: rest → schemaOf p d.now = .error e →
      download os schemaOf cwd dir out projects d = (.error (.other "ClickException"), d)) := by
  rw [download_dir hdir]
  generalize target = cwd
  generalize hT : (fun kp : String × P => os.locate (pathJoin cwd (kp.1 ++ out))) = target
  have hT' : ∀ k (p : P), target (k, p) = os.locate (pathJoin cwd (k ++ out)) := fun k p => by rw [← hT]
  have key : ∀ (projects : List (String × P)) (d : Disk), Through (Touched (fun f _ => f ∈ projects.map
      target) d.now) d (downloadLoop os schemaOf cwd out projects d).2 := by
    intro projects
    induction projects with
    | nil => intro d; exact .refl d
    | cons kp ps ih =>
      intro d
      obtain ⟨k, p⟩ := kp
      show Through _ d (match schemaOf p d.now with
        | .error e => (Except.error e, d)
        | .ok text => ((openTruncated os (pathJoin cwd (k ++ out))).andThen fun _ =>
            (writePayload os (os.locate (pathJoin cwd (k ++ out))) (text.map .text)).andThen fun _ =>
              downloadLoop os schemaOf cwd out ps) d).2
      cases schemaOf p d.now with
      | error e => exact .refl d
      | ok text =>
        have h1 := openTruncated_through (os := os) (path := pathJoin cwd (k ++ out)) (t := "")
          (w := fun f _ => f ∈ ((k, p) :: ps).map target)
          (base := d.now) (by rw [List.map_cons, hT']; exact List.mem_cons_self) d (Touched.rfl' _)
        refine andThen_through h1 fun _ => ?_
        have h2 := writePayload_through (os := os) (f := os.locate (pathJoin cwd (k ++ out))) (text.map .text)
          (w := fun f _ => f ∈ ((k, p) :: ps).map target)
          (base := d.now) (by rw [List.map_cons, hT']; exact List.mem_cons_self) _ (h1.now (Touched.rfl' _))
        refine andThen_through h2 fun _ => ?_
        have h3 := h2.now (h1.now (Touched.rfl' _))
        refine (ih _).mono fun s hs => h3.trans (hs.mono fun f t hf => ?_)
        rw [List.map_cons]; exact List.mem_cons_of_mem _ hf
  constructor
  · intro f hf
    have h := (key projects d).now (Touched.rfl' _) f
    have hsnd : (download os schemaOf cwd none out projects d).2 = (downloadLoop os schemaOf cwd out projects d).2 := by
      unfold download
      dsimp only
      cases downloadLoop os schemaOf cwd out projects d with
      | mk r d1 => cases r <;> rfl
    rw [hsnd]
    rcases h with h | ⟨_, _, h, _⟩
    · exact h
    · exact absurd h hf
  · rintro k p rest e rfl he
    unfold download downloadLoop
    rw [he]

example : ((initConfig plainOs "/w" "c.yaml" "new" false { emptyDisk with now := emptyDisk.now.put "/w/c.yaml" "old" }).2.now.files "/w/c.yaml",
    (initConfig plainOs "/w" "c.yaml" "new" true { emptyDisk with now := emptyDisk.now.put "/w/c.yaml" "old" }).2.now.files "/w/c.yaml",
    (download plainOs (fun (s : String) _ => .ok (.ok s)) "/w" none ".graphql" [("p", "type Q")]
      { emptyDisk with now := emptyDisk.now.put "/w/p.graphql" "old" }).2.now.files "/w/p.graphql") =
    (some "old", some "new", some "type Q") := by decide +kernel

example : DownloadsTo "/w" (some "") "/w" ∧ DownloadsTo "/w" (some "schemas") "schemas" :=
  ⟨.empty, .given (by decide)⟩

/-! ## watch mode -/

/-- C65: whatever happens on disk between the rounds, in watch mode the output file is only ever rewritten by a
successful generation, whose code it then holds; a failing generation leaves the last output in place. -/
theorem C65_watch_round (os : Os) (ho : Works os) (gen : Generator) (p : Project) (d : Disk) :
    (∀ e, gen p d.now = .error e → watchRound os gen p d = d) ∧
    (∀ g, gen p d.now = .ok g → ∀ f, (watchRound os gen p d).now.files f =
      if f = os.locate (pathJoin p.outDir p.generatedName) then some g.code else d.now.files f) := by
  constructor
  · intro e he; unfold watchRound; rw [he]
  · intro g hg f
    obtain ⟨path, d', h1, h2⟩ := writeToFile_works ho g.code p.outDir p.generatedName d
    unfold watchRound
    rw [hg]
    dsimp only
    rw [h1, h2]

/-- C65: after any sequence of changes the output file holds the code generated after the last change that could
be generated, provided the others never edit the output themselves. -/
theorem C65_watch_history (os : Os) (ho : Works os) (gen : Generator) (p : Project) (edits : List (FS → FS)) (d : Disk)
    (he : ∀ edit ∈ edits, ∀ fs, (edit fs).files (os.locate (pathJoin p.outDir p.generatedName)) =
      fs.files (os.locate (pathJoin p.outDir p.generatedName))) :
    let out := (watchRounds os gen p edits d).now.files (os.locate (pathJoin p.outDir p.generatedName))
    (out = d.now.files (os.locate (pathJoin p.outDir p.generatedName)) ∧
      ∀ k (hk : k < edits.length), ∃ e, gen p (edits[k] (watchRounds os gen p (edits.take k) d).now) = .error e) ∨
    ∃ k, ∃ hk : k < edits.length, ∃ g, gen p (edits[k] (watchRounds os gen p (edits.take k) d).now) = .ok g ∧
      out = some g.code ∧
      ∀ j (hj : j < edits.length), k < j → ∃ e, gen p (edits[j] (watchRounds os gen p (edits.take j) d).now) = .error e := by
  dsimp only
  induction edits generalizing d with
  | nil => exact .inl ⟨rfl, by simp⟩
  | cons edit edits ih =>
    have ih := ih (watchRound os gen p (d.step (edit d.now))) (fun x hx => he x (by simp [hx]))
    have hr := C65_watch_round os ho gen p (d.step (edit d.now))
    have he0 := he edit (by simp) d.now
    rcases ih with ⟨h1, h2⟩ | ⟨k, hk, g, hg, ho1, h2⟩
    · cases hg : gen p (edit d.now) with
      | error e =>
        left
        refine ⟨?_, ?_⟩
        · show (watchRounds os gen p edits (watchRound os gen p (d.step (edit d.now)))).now.files _ = _
          rw [h1, hr.1 e hg]
          exact he0
        · intro k hk
          cases k with
          | zero => exact ⟨e, hg⟩
          | succ k => exact h2 k (by simpa using hk)
      | ok g =>
        right
        refine ⟨0, by simp, g, hg, ?_, ?_⟩
        · refine h1.trans ?_
          rw [hr.2 g hg]; simp
        · intro j hj h0
          cases j with
          | zero => omega
          | succ j => exact h2 j (by simpa using hj)
    · right
      refine ⟨k + 1, by simpa using hk, g, hg, ho1, ?_⟩
      intro j hj hkj
      cases j with
      | zero => omega
      | succ j => exact h2 j (by simpa using hj) (by omega)

/-- two changes: the first can be generated, the second cannot -/
example : (watchRounds plainOs (fun _ fs => match fs.files "doc" with
        | some "bad" => .error .indexError
        | some t => .ok ⟨t, .ok "", .ok ""⟩
        | none => .error .indexError) { outDir := "o", generatedName := "a.py" }
      [fun fs => fs.put "doc" "good", fun fs => fs.put "doc" "bad"] emptyDisk).now.files "o/a.py" =
    some "good" := by decide +kernel

end Turms.Props
