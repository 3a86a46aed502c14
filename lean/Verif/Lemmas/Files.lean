import Verif.Spec.Files

namespace Turms
open Spec

theorem Touched.rfl' {w : String → String → Prop} (fs : FS) : Touched w fs fs := fun _ => .inl rfl

theorem _root_.Turms.Spec.Touched.trans {w : String → String → Prop} {a b c : FS} (h1 : Touched w a b) (h2 : Touched w b c) :
    Touched w a c := by
  intro f
  rcases h2 f with h | h
  · rw [h]; exact h1 f
  · exact .inr h

theorem _root_.Turms.Spec.Touched.mono {w w' : String → String → Prop} {a b : FS} (hw : ∀ f t, w f t → w' f t) (h : Touched w a b) :
    Touched w' a b := by
  intro f
  rcases h f with h | ⟨t, pre, h1, h2, h3⟩
  · exact .inl h
  · exact .inr ⟨t, pre, hw f t h1, h2, h3⟩

theorem _root_.Turms.Spec.Through.refl {P : FS → Prop} (d : Disk) : Through P d d := ⟨[], rfl, by simp⟩

theorem _root_.Turms.Spec.Through.step {P : FS → Prop} (d : Disk) {fs : FS} (h : P fs) : Through P d (d.step fs) :=
  ⟨[fs], rfl, by simpa using h⟩

theorem _root_.Turms.Spec.Through.trans {P : FS → Prop} {a b c : Disk} (h1 : Through P a b) (h2 : Through P b c) : Through P a c := by
  obtain ⟨n1, e1, p1⟩ := h1
  obtain ⟨n2, e2, p2⟩ := h2
  refine ⟨n2 ++ n1, by rw [e2, e1, List.append_assoc], fun s hs => ?_⟩
  rcases List.mem_append.1 hs with h | h
  · exact p2 s h
  · exact p1 s h

theorem _root_.Turms.Spec.Through.mono {P Q : FS → Prop} {a b : Disk} (hpq : ∀ s, P s → Q s) (h : Through P a b) : Through Q a b := by
  obtain ⟨n, e, p⟩ := h
  exact ⟨n, e, fun s hs => hpq s (p s hs)⟩

theorem _root_.Turms.Spec.Through.now {P : FS → Prop} {a b : Disk} (h : Through P a b) (ha : P a.now) : P b.now := by
  obtain ⟨n, e, p⟩ := h
  cases n with
  | nil => simp only [Disk.states, List.nil_append, List.cons.injEq] at e; rw [e.1]; exact ha
  | cons s n =>
    simp only [Disk.states, List.cons_append, List.cons.injEq] at e
    rw [e.1]; exact p s (by simp)

theorem _root_.Turms.Spec.Through.states {P : FS → Prop} {a b : Disk} (h : Through P a b) : ∀ s ∈ a.states, s ∈ b.states := by
  obtain ⟨n, e, _⟩ := h
  intro s hs; rw [e]; exact List.mem_append.2 (.inr hs)

/-- chaining two stretches, each measured from its own beginning -/
theorem _root_.Turms.Spec.Through.touched {w : String → String → Prop} {a b c : Disk} (h1 : Through (Touched w a.now) a b)
    (h2 : Through (Touched w b.now) b c) : Through (Touched w a.now) a c :=
  h1.trans (h2.mono fun _ hs => (h1.now (Touched.rfl' _)).trans hs)

/-! ## single operations -/

theorem startOf_push {done : String} {c : Char} {cs : List Char} {t : String} (h : t.toList = done.toList ++ c :: cs) :
    t.toList = (done.push c).toList ++ cs := by
  rw [h]; simp

theorem appendChars_through {f : String} {w : String → String → Prop} {t : String} {base : FS} (hw : w f t) :
    ∀ (cs : List Char) (done : String) (d : Disk), (done.toList ++ cs) <+: t.toList →
    Touched w base d.now → Through (Touched w base) d (appendChars f done cs d)
  | [], _, d, _, _ => .refl d
  | c :: cs, done, d, hp, hb => by
    unfold appendChars
    have hs : Touched w base (d.now.put f (done.push c)) := by
      intro x
      by_cases hx : x = f
      · subst hx
        refine .inr ⟨t, done.push c, hw, ?_, by simp [FS.put]⟩
        unfold StartOf
        refine List.IsPrefix.trans ?_ hp
        simp
      · simp only [FS.put, if_neg hx]; exact hb x
    refine (Through.step d hs).trans (appendChars_through hw cs _ _ ?_ hs)
    simpa using hp

theorem appendChars_now {f : String} : ∀ (cs : List Char) (done : String) (d : Disk), d.now.files f = some done →
    ∀ x, (appendChars f done cs d).now.files x = if x = f then some (done ++ String.ofList cs) else d.now.files x
  | [], done, d, h, x => by
    by_cases hx : x = f
    · subst hx; simp [appendChars, h]
    · simp [appendChars, hx]
  | c :: cs, done, d, h, x => by
    unfold appendChars
    rw [appendChars_now cs (done.push c) _ (by simp [Disk.step, FS.put])]
    by_cases hx : x = f
    · simp only [if_pos hx]
      congr 1
      apply String.ext
      simp
    · simp [hx, Disk.step, FS.put]

/-- the text a payload amounts to -/
def payloadText : Except Err Payload → String
  | .ok (.text s) => s
  | _ => ""

theorem writePayload_through {os : Os} {f : String} {w : String → String → Prop} (pl : Except Err Payload) {base : FS}
    (hw : w f (payloadText pl)) (d : Disk) (hb : Touched w base d.now) :
    Through (Touched w base) d (writePayload os f pl d).2 := by
  cases pl with
  | error e => exact .refl d
  | ok pl =>
    cases pl with
    | notText => exact .refl d
    | text s =>
      unfold writePayload
      dsimp only
      split
      · rename_i e n _
        exact appendChars_through hw _ "" d (by simpa [payloadText] using List.take_prefix n s.toList) hb
      · exact appendChars_through hw _ "" d (by simp [payloadText]) hb

theorem ensureDir_through {os : Os} {out : String} {w : String → String → Prop} {base : FS} (d : Disk) (hb : Touched w base d.now) :
    Through (Touched w base) d (ensureDir os out d).2 := by
  unfold ensureDir
  split
  · exact .refl d
  · split <;> exact .step d fun f => hb f

theorem openTruncated_through {os : Os} {path t : String} {w : String → String → Prop} {base : FS} (hw : w (os.locate path) t)
    (d : Disk) (hb : Touched w base d.now) : Through (Touched w base) d (openTruncated os path d).2 := by
  unfold openTruncated
  split
  · exact .refl d
  · refine .step d fun f => ?_
    by_cases hf : f = os.locate path
    · subst hf
      exact .inr ⟨t, "", hw, by simp [StartOf], by simp [FS.put]⟩
    · simp only [FS.put, if_neg hf]; exact hb f

theorem andThen_through {α β : Type} {a : Io α} {f : α → Io β} {P : FS → Prop} {d : Disk} (ha : Through P d (a d).2)
    (hf : ∀ x, Through P (a d).2 (f x (a d).2).2) : Through P d ((a.andThen f) d).2 := by
  unfold Io.andThen
  cases h : a d with
  | mk r d1 =>
    rw [h] at ha hf
    cases r with
    | error e => exact ha
    | ok x => exact ha.trans (hf x)

theorem writeToFile_through {os : Os} (pl : Except Err Payload) (out fp : String) {w : String → String → Prop} {base : FS}
    (hw : w (os.locate (pathJoin out fp)) (payloadText pl)) (d : Disk) (hb : Touched w base d.now) :
    Through (Touched w base) d (writeToFile os pl out fp d).2 := by
  unfold writeToFile
  have h1 := ensureDir_through (os := os) (out := out) d hb
  refine andThen_through h1 fun _ => ?_
  have h2 := openTruncated_through hw _ (h1.now hb)
  refine andThen_through h2 fun _ => ?_
  have h3 := writePayload_through (os := os) pl hw _ (h2.now (h1.now hb))
  exact andThen_through h3 fun _ => .refl _

theorem whenever_through {a : Io String} {P : FS → Prop} {d : Disk} (b : Bool) (h : b = true → Through P d (a d).2) :
    Through P d (Io.whenever b a d).2 := by
  unfold Io.whenever
  cases b with
  | false => exact .refl d
  | true =>
    have := h rfl
    simp only [if_true]
    cases ha : a d with
    | mk r d1 => rw [ha] at this; cases r <;> exact this

theorem payloadText_map (x : Except Err String) : payloadText (x.map .text) = printed x := by cases x <;> rfl

/-- one project, any operating system: every state on the way holds old files or beginnings of wanted texts -/
theorem attemptProject_through {os : Os} {gen : Generator} {p : Project} {g : Generated} {d : Disk} (hg : gen p d.now = .ok g) :
    Through (Touched (fun f t => (f, t) ∈ wanted os p g) d.now) d (attemptProject os gen p d).2 := by
  unfold attemptProject
  rw [hg]
  dsimp only
  have hb : Touched (fun f t => (f, t) ∈ wanted os p g) d.now d.now := Touched.rfl' _
  have h1 := writeToFile_through (os := os) (.ok (.text g.code)) p.outDir p.generatedName
    (w := fun f t => (f, t) ∈ wanted os p g) (base := d.now) (by simp [wanted, payloadText]) d hb
  refine andThen_through h1 fun _ => ?_
  have h2 := whenever_through (a := writeToFile os (g.schemaText.map .text) p.outDir p.schemaName)
    (P := Touched (fun f t => (f, t) ∈ wanted os p g) d.now) p.dumpSchema (fun hd => writeToFile_through _ _ _
      (by simp [wanted, payloadText_map, hd]) _ (h1.now hb))
  refine andThen_through h2 fun _ => ?_
  exact whenever_through p.dumpConfiguration (fun hd => writeToFile_through _ _ _
      (by simp [wanted, payloadText_map, hd]) _ (h2.now (h1.now hb)))

/-! ## an operating system that works -/

theorem writeToFile_works {os : Os} (ho : Works os) (s out fp : String) (d : Disk) :
    ∃ path d', writeToFile os (.ok (.text s)) out fp d = (.ok path, d') ∧
      ∀ x, d'.now.files x = if x = os.locate (pathJoin out fp) then some s else d.now.files x := by
  obtain ⟨d1, h1, h1f⟩ : ∃ d1, ensureDir os out d = (.ok (), d1) ∧ d1.now.files = d.now.files := by
    unfold ensureDir
    split
    · exact ⟨d, rfl, rfl⟩
    · have := ho.mkdir d.now out
      split
      · exact ⟨_, rfl, rfl⟩
      · rename_i h; rw [h] at this; cases this
  obtain ⟨d2, h2, h2f⟩ : ∃ d2, openTruncated os (pathJoin out fp) d1 = (.ok (), d2) ∧
      d2.now = d1.now.put (os.locate (pathJoin out fp)) "" := by
    unfold openTruncated
    rw [ho.open_]
    exact ⟨_, rfl, rfl⟩
  refine ⟨pathJoin out fp, appendChars (os.locate (pathJoin out fp)) "" s.toList d2, ?_, fun x => ?_⟩
  · unfold writeToFile Io.andThen
    rw [h1]; dsimp only
    rw [h2]; dsimp only
    unfold writePayload
    dsimp only
    rw [ho.write]
  · rw [appendChars_now _ _ _ (by rw [h2f]; simp [FS.put])]
    rw [h2f]
    by_cases hx : x = os.locate (pathJoin out fp)
    · simp [hx]
    · simp [hx, FS.put, h1f]

theorem ensureDir_works {os : Os} (ho : Works os) (out : String) (d : Disk) :
    ∃ d1, ensureDir os out d = (.ok (), d1) ∧ d1.now.files = d.now.files := by
  unfold ensureDir
  split
  · exact ⟨d, rfl, rfl⟩
  · have := ho.mkdir d.now out
    split
    · exact ⟨_, rfl, rfl⟩
    · rename_i h; rw [h] at this; cases this

/-- whatever is written, the file is first emptied -/
theorem writeToFile_truncates {os : Os} (ho : Works os) (pl : Except Err Payload) (out fp : String) (d : Disk) :
    ∃ s ∈ (writeToFile os pl out fp d).2.states, s.files (os.locate (pathJoin out fp)) = some "" := by
  obtain ⟨d1, h1, _⟩ := ensureDir_works ho out d
  have h2 : openTruncated os (pathJoin out fp) d1 = (.ok (), d1.step (d1.now.put (os.locate (pathJoin out fp)) "")) := by
    unfold openTruncated; rw [ho.open_]
  refine ⟨d1.now.put (os.locate (pathJoin out fp)) "", ?_, by simp [FS.put]⟩
  unfold writeToFile Io.andThen
  rw [h1]; dsimp only
  rw [h2]; dsimp only
  have h3 := writePayload_through (os := os) (f := os.locate (pathJoin out fp)) (w := fun _ _ => True) pl
    (base := (d1.step (d1.now.put (os.locate (pathJoin out fp)) "")).now) trivial _ (Touched.rfl' _)
  have h4 := h3.states (d1.now.put (os.locate (pathJoin out fp)) "") (by simp [Disk.states, Disk.step])
  revert h4
  cases writePayload os (os.locate (pathJoin out fp)) pl (d1.step (d1.now.put (os.locate (pathJoin out fp)) "")) with
  | mk r d2 => cases r <;> exact id

/-- something that is not a text is never written: the file stays empty -/
theorem writeToFile_notText {os : Os} (ho : Works os) (out fp : String) (d : Disk) :
    ∃ d', writeToFile os (.ok .notText) out fp d = (.error (.typeError "write"), d') ∧
      ∀ x, d'.now.files x = if x = os.locate (pathJoin out fp) then some "" else d.now.files x := by
  obtain ⟨d1, h1, hf⟩ := ensureDir_works ho out d
  have h2 : openTruncated os (pathJoin out fp) d1 = (.ok (), d1.step (d1.now.put (os.locate (pathJoin out fp)) "")) := by
    unfold openTruncated; rw [ho.open_]
  refine ⟨d1.step (d1.now.put (os.locate (pathJoin out fp)) ""), ?_, fun x => ?_⟩
  · unfold writeToFile Io.andThen
    rw [h1]; dsimp only
    rw [h2]; rfl
  · by_cases hx : x = os.locate (pathJoin out fp) <;> simp [Disk.step, FS.put, hx, hf]

theorem attemptProject_works {os : Os} (ho : Works os) {gen : Generator} {p : Project} {g : Generated} {d : Disk}
    (hg : gen p d.now = .ok g) (hp : Printable p g) :
    ∃ d', attemptProject os gen p d = (.ok (), d') ∧
      ∀ f, d'.now.files f = contentAfter (wanted os p g) (d.now.files f) f := by
  unfold attemptProject
  rw [hg]
  dsimp only
  obtain ⟨p1, d1, h1, f1⟩ := writeToFile_works ho g.code p.outDir p.generatedName d
  unfold Io.andThen
  rw [h1]
  dsimp only
  obtain ⟨d2, h2, f2⟩ : ∃ d2, Io.whenever p.dumpSchema (writeToFile os (g.schemaText.map .text) p.outDir p.schemaName) d1 = (.ok (), d2) ∧
      ∀ x, d2.now.files x = if p.dumpSchema = true ∧ x = os.locate (pathJoin p.outDir p.schemaName) then
        some (printed g.schemaText) else d1.now.files x := by
    unfold Io.whenever
    cases hd : p.dumpSchema with
    | false => exact ⟨d1, rfl, by simp⟩
    | true =>
      obtain ⟨t, ht⟩ := hp.1 hd
      rw [ht]
      obtain ⟨q, d2, h2, f2⟩ := writeToFile_works ho t p.outDir p.schemaName d1
      refine ⟨d2, ?_, fun x => by rw [f2]; simp [printed]⟩
      simp only [if_true, Except.map]
      rw [h2]
  rw [h2]
  dsimp only
  obtain ⟨d3, h3, f3⟩ : ∃ d3, Io.whenever p.dumpConfiguration (writeToFile os (g.configText.map .text) p.outDir p.configurationName) d2 = (.ok (), d3) ∧
      ∀ x, d3.now.files x = if p.dumpConfiguration = true ∧ x = os.locate (pathJoin p.outDir p.configurationName) then
        some (printed g.configText) else d2.now.files x := by
    unfold Io.whenever
    cases hd : p.dumpConfiguration with
    | false => exact ⟨d2, rfl, by simp⟩
    | true =>
      obtain ⟨t, ht⟩ := hp.2 hd
      rw [ht]
      obtain ⟨q, d3, h3, f3⟩ := writeToFile_works ho t p.outDir p.configurationName d2
      refine ⟨d3, ?_, fun x => by rw [f3]; simp [printed]⟩
      simp only [if_true, Except.map]
      rw [h3]
  refine ⟨d3, h3, fun x => ?_⟩
  rw [f3, f2, f1]
  unfold wanted
  cases p.dumpSchema <;> cases p.dumpConfiguration <;>
    simp only [if_true, if_false, Bool.false_eq_true, false_and, true_and, List.append_nil, List.cons_append,
      List.nil_append, contentAfter, eq_comm (a := x)]

end Turms
