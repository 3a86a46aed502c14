import Verif.Spec.OperationDocs
import Verif.Props.ClassDocs

/-!
# C95: which comments become the documentation of an operation
-/

namespace Turms.Props
open Turms Turms.Spec

theorem oneLine_noBreak {l : List Char} (h : OneLine l) : ∀ c ∈ l, pyLineBreak c = false := by
  intro c hc
  have := h c hc
  simp only [List.mem_cons, List.not_mem_nil, or_false, not_or] at this
  simp [pyLineBreak, this]

theorem oneLine_ne {l : List Char} (h : OneLine l) : ∀ c ∈ l, c ≠ '\n' ∧ c ≠ '\r' := by
  intro c hc
  have := h c hc
  simp only [List.mem_cons, List.not_mem_nil, or_false, not_or] at this
  exact ⟨this.1, this.2.1⟩

theorem splitLines_step {c : Char} {cs acc : List Char} (hr : c ≠ '\r') :
    splitLines (c :: cs) acc = if pyLineBreak c then acc.reverse :: splitLines cs [] else splitLines cs (c :: acc) := by
  rw [splitLines]
  rintro rest h _
  exact absurd h hr

theorem splitLines_within {l : List Char} (h : OneLine l) (rest : List Char) : ∀ acc,
    splitLines (l ++ rest) acc = splitLines rest (l.reverse ++ acc) := by
  induction l with
  | nil => intro acc; rfl
  | cons c l ih =>
    intro acc
    have hc := oneLine_ne h c List.mem_cons_self
    rw [List.cons_append, splitLines_step hc.2, if_neg (by rw [oneLine_noBreak h c List.mem_cons_self]; decide),
      ih (fun x hx => h x (List.mem_cons_of_mem _ hx))]
    simp

theorem splitLines_lines {ls : List (List Char)} {t : List Char} (ht : LinesOf ls t) (h : ∀ l ∈ ls, OneLine l)
    (rest : List Char) : splitLines (t ++ rest) [] = ls ++ splitLines rest [] := by
  induction ht with
  | nil => rfl
  | lf _ ih =>
    rw [List.append_assoc, splitLines_within (h _ List.mem_cons_self), List.cons_append, splitLines_step (by decide),
      if_pos (by decide), ih fun x hx => h x (List.mem_cons_of_mem _ hx)]
    simp
  | crlf _ ih =>
    rw [List.append_assoc, splitLines_within (h _ List.mem_cons_self), List.cons_append, List.cons_append, splitLines,
      ih fun x hx => h x (List.mem_cons_of_mem _ hx)]
    simp

theorem sourceLine_step {c : Char} {cs : List Char} {n : Nat} (hr : c ≠ '\r') :
    sourceLine (c :: cs) (n + 1) = if c == '\n' || c == '\r' then 1 + sourceLine cs n else sourceLine cs n := by
  rw [sourceLine]
  rintro rest h _
  exact absurd h hr

theorem sourceLine_within {l : List Char} (h : OneLine l) (rest : List Char) (n : Nat) :
    sourceLine (l ++ rest) (l.length + n) = sourceLine rest n := by
  induction l with
  | nil => rw [List.nil_append, List.length_nil, Nat.zero_add]
  | cons c l ih =>
    have hc := oneLine_ne h c List.mem_cons_self
    rw [List.cons_append, List.length_cons, show l.length + 1 + n = l.length + n + 1 by omega, sourceLine_step hc.2,
      if_neg (by simp [hc]), ih fun x hx => h x (List.mem_cons_of_mem _ hx)]

theorem sourceLine_lines {ls : List (List Char)} {t : List Char} (ht : LinesOf ls t) (h : ∀ l ∈ ls, OneLine l)
    (rest : List Char) (n : Nat) : sourceLine (t ++ rest) (t.length + n) = ls.length + sourceLine rest n := by
  induction ht with
  | nil => simp
  | @lf l ls t _ ih =>
    have e : (l ++ '\n' :: t).length + n = l.length + ((t.length + n) + 1) := by simp; omega
    rw [e, List.append_assoc, sourceLine_within (h _ List.mem_cons_self), List.cons_append, sourceLine_step (by decide),
      if_pos (by decide), ih fun x hx => h x (List.mem_cons_of_mem _ hx), List.length_cons]
    omega
  | @crlf l ls t _ ih =>
    have e : (l ++ '\r' :: '\n' :: t).length + n = l.length + (((t.length + n) + 1) + 1) := by simp; omega
    rw [e, List.append_assoc, sourceLine_within (h _ List.mem_cons_self), List.cons_append, List.cons_append, sourceLine,
      Nat.add_sub_cancel, ih fun x hx => h x (List.mem_cons_of_mem _ hx), List.length_cons]
    omega

theorem sourceLine_on {text : List Char} {above : List (List Char)} (h : ∀ l ∈ above, OneLine l) {n : Nat}
    (hn : OnLineAfter text above n) : sourceLine text n = above.length + 1 := by
  obtain ⟨before, left, right, hb, rfl, hl, rfl⟩ := hn
  rw [List.append_assoc, List.length_append, sourceLine_lines hb h, ← Nat.add_zero left.length, sourceLine_within hl]
  cases right <;> rfl

theorem takeWhile_until {p : Char → Bool} {xs ys : List Char} {x : Char} (h : ∀ c ∈ xs, p c = true) (hx : p x = false) :
    (xs ++ x :: ys).takeWhile p = xs := by
  induction xs with
  | nil => rw [List.nil_append, List.takeWhile_cons, hx]; rfl
  | cons c xs ih =>
    rw [List.cons_append, List.takeWhile_cons, h c List.mem_cons_self, if_pos rfl,
      ih fun y hy => h y (List.mem_cons_of_mem _ hy)]

theorem commentText_after {l t : List Char} (h : AfterHash l t) : commentText l = some t := by
  obtain ⟨b, rfl, ht⟩ := h
  unfold commentText
  rw [if_pos (by simp)]
  rw [show (b ++ '#' :: t).reverse = t.reverse ++ '#' :: b.reverse by simp,
    takeWhile_until (fun c hc => by
      have : c ≠ '#' := fun he => ht (he ▸ List.mem_reverse.1 hc)
      simpa using this) (by decide), List.reverse_reverse]

theorem commentText_none {l : List Char} (h : '#' ∉ l) : commentText l = none := by
  unfold commentText
  rw [if_neg (by simpa using h)]

theorem comments_filterMap {ls ts : List (List Char)} (h : Comments ls ts) : ls.filterMap commentText = ts := by
  induction h with
  | nil => rfl
  | skip hl _ ih => rw [List.filterMap_cons, commentText_none hl]; exact ih
  | take hl _ ih => rw [List.filterMap_cons, commentText_after hl, ih]

/-- every sequence of lines has its comments, and only one sequence of them -/
theorem C95_comments_determined (ls : List (List Char)) : ∃ ts, Comments ls ts ∧ ∀ ts', Comments ls ts' → ts' = ts := by
  suffices ∃ ts, Comments ls ts by
    obtain ⟨ts, h⟩ := this
    exact ⟨ts, h, fun ts' h' => (comments_filterMap h').symm.trans (comments_filterMap h)⟩
  induction ls with
  | nil => exact ⟨[], .nil⟩
  | cons l ls ih =>
    obtain ⟨ts, h⟩ := ih
    by_cases hl : '#' ∈ l
    · have : ∀ l : List Char, '#' ∈ l → ∃ t, AfterHash l t := by
        intro l
        induction l with
        | nil => intro h; cases h
        | cons c l ih =>
          intro hc
          by_cases hl : '#' ∈ l
          · obtain ⟨t, b, rfl, ht⟩ := ih hl
            exact ⟨t, c :: b, rfl, ht⟩
          · rcases List.mem_cons.1 hc with rfl | hc
            · exact ⟨l, [], rfl, hl⟩
            · exact absurd hc hl
      obtain ⟨t, ht⟩ := this l hl
      exact ⟨t :: ts, .take ht h⟩
    · exact ⟨ts, .skip hl h⟩

/-- C95: the documentation of an operation is made of the comments on the lines from the one the operation starts on to the
last one before its first selection: of each of them that has a `#`, what follows the last `#`, one per line, in order.
There is none if none of these lines has a `#`. Missing: lines that contain a
character at which Python, but not GraphQL, breaks lines (false then, see below) or a carriage return alone. Comments above the operation or after its first selection play no part. -/
theorem C95_comments_partial (text : List Char) (above lines comments : List (List Char)) (start first : Nat)
    (hp : ∀ l ∈ above ++ lines, OneLine l) (hs : OnLineAfter text above start)
    (hf : OnLineAfter text (above ++ lines) first) (hc : Comments lines comments) :
    inspectOperation (some (text, start)) (some first) =
      .ok (if comments = [] then none else some (String.ofList (joinWith '\n' comments))) := by
  unfold inspectOperation
  dsimp only
  rw [sourceLine_on (fun l hl => hp l (List.mem_append_left _ hl)) hs, sourceLine_on hp hf]
  obtain ⟨before, left, right, hb, rfl, _, _⟩ := hf
  rw [List.append_assoc, splitLines_lines hb hp, Nat.add_sub_cancel, Nat.add_sub_cancel,
    List.take_left, List.drop_left, comments_filterMap hc]
  cases comments <;> rfl

/-- C95: the same operation is documented in the same way wherever it stands in whatever file. -/
theorem C95_position_independent_partial (above above' lines : List (List Char)) (text text' : List Char) (start start' first first' : Nat)
    (hp : ∀ l ∈ above ++ lines, OneLine l) (hp' : ∀ l ∈ above' ++ lines, OneLine l)
    (hs : OnLineAfter text above start) (hf : OnLineAfter text (above ++ lines) first)
    (hs' : OnLineAfter text' above' start') (hf' : OnLineAfter text' (above' ++ lines) first') :
    inspectOperation (some (text, start)) (some first) = inspectOperation (some (text', start')) (some first') := by
  obtain ⟨ts, h, _⟩ := C95_comments_determined lines
  rw [C95_comments_partial _ _ _ _ _ _ hp hs hf h, C95_comments_partial _ _ _ _ _ _ hp' hs' hf' h]

/-- C95: with comments being read, these comments are the docstring of the class of the operation; a fixed text stands there
if there is nothing in them. -/
theorem C95_docstring_partial (prep : List Char → List Char) (c : Ctx) (q : OperationsConfig) (doc : Document) (ss : List Stmt)
    (r r' : Reg) (h : operationsPlugin prep c q doc r = .ok (ss, r')) (o : OpDef) (ho : .operation o ∈ doc)
    (hx : q.extractDocumentation = true) (text : List Char) (above lines comments : List (List Char)) (start first : Nat)
    (hq : inspectOperation (some (text, start)) (some first) = .ok (q.documentation o))
    (hp : ∀ l ∈ above ++ lines, OneLine l) (hs : OnLineAfter text above start)
    (hf : OnLineAfter text (above ++ lines) first) (hc : Comments lines comments) :
    ∃ cls bs body, OperationClass c o cls ∧ .classDef cls bs (.expr (.str
      (if joinWith '\n' comments = [] then "No documentation found for this operation."
        else String.ofList (joinWith '\n' comments))) :: body) [] ∈ ss := by
  obtain ⟨root, cls, bs, shown, decls, rest, _, h1, h2, h3, _⟩ := C93_operations prep c q doc ss r r' h o ho
  refine ⟨cls, bs, decls.flatten ++ rest, h1, ?_⟩
  rw [C95_comments_partial _ _ _ _ _ _ hp hs hf hc] at hq
  injection hq with hq
  rw [hx, if_pos rfl, ← hq] at h3
  have hw : ∀ x, Written (if comments = [] then none else some (String.ofList (joinWith '\n' comments))) x ↔
      joinWith '\n' comments ≠ [] ∧ x = String.ofList (joinWith '\n' comments) := by
    intro x
    cases comments with
    | nil => exact ⟨(fun h => by cases h.1), fun h => absurd rfl h.1⟩
    | cons t ts =>
      rw [if_neg (by simp)]
      constructor
      · rintro ⟨h4, h5⟩
        cases h4
        exact ⟨fun h0 => h5 (by rw [h0]), rfl⟩
      · rintro ⟨h4, rfl⟩
        exact ⟨rfl, fun h0 => h4 (by simpa using congrArg String.toList h0)⟩
  have : shown = if joinWith '\n' comments = [] then "No documentation found for this operation."
        else String.ofList (joinWith '\n' comments) := by
    cases h3 with
    | written h3 => rw [if_neg ((hw _).1 h3).1]; exact ((hw _).1 h3).2
    | missing h3 =>
      by_cases h0 : joinWith '\n' comments = []
      · rw [if_pos h0]
      · exact absurd ((hw _).2 ⟨h0, rfl⟩) (h3 _)
  rw [← this]
  exact h2

/-- the hypotheses are met: a comment above, two inside, one after the first selection; the first line ends in the way of
Windows -/
example : OnLineAfter "# no\r\nquery me {\n  # who\n  # am I\n  user # no\n}".toList ["# no".toList] 6 ∧
    OnLineAfter "# no\r\nquery me {\n  # who\n  # am I\n  user # no\n}".toList
      (["# no".toList] ++ ["query me {".toList, "  # who".toList, "  # am I".toList]) 36 ∧
    Comments ["query me {".toList, "  # who".toList, "  # am I".toList] [" who".toList, " am I".toList] ∧
    (inspectOperation (some ("# no\r\nquery me {\n  # who\n  # am I\n  user # no\n}".toList, 6)) (some 36)).toOption =
      some (some " who\n am I") := by
  refine ⟨⟨_, [], "query me {\n  # who\n  # am I\n  user # no\n}".toList, .crlf .nil, by decide +kernel,
      (fun c hc => by cases hc), by decide +kernel⟩,
    ⟨_, "  ".toList, "user # no\n}".toList, .crlf (.lf (.lf (.lf .nil))), by decide +kernel,
      (by decide +kernel : ∀ c ∈ "  ".toList, _), by decide +kernel⟩,
    .skip (by decide +kernel) (.take ⟨"  ".toList, by decide +kernel, by decide +kernel⟩
      (.take ⟨"  ".toList, by decide +kernel, by decide +kernel⟩ .nil)), by decide +kernel⟩

/-- and they are the docstring of a class -/
example : ((operationsPlugin id clsCtx
      { documentation := fun _ => (inspectOperation
          (some ("# no\r\nquery me {\n  # who\n  # am I\n  user # no\n}".toList, 6)) (some 36)).toOption.join }
      [.operation { kind := .query, name := some "me", sels := [.field "user" none [] [.field "id" none [] []]] }]
      (Reg.init clsCtx.env)).toOption.map fun x => x.1.filterMap fun s => match s with
        | .classDef "me" _ (.expr (.const (.str d)) :: _) _ => some d
        | _ => none) = some [" who\n am I"] := by decide +kernel

/-- What a reader may not expect: a `#` inside a string counts as a comment, and a comment that mentions `#12` is cut there. -/
theorem C95_hash_counterexample :
    (inspectOperation (some ("query q(\n $s: String = \"#x\"\n) {\n # see #12\n a }".toList, 0)) (some 44)).toOption =
      some (some "x\"\n12") := by decide +kernel

/-- A line separator that only Python knows shifts the lines read: here one in the comment above the operation makes part of
that comment its documentation, instead of the comment inside. -/
theorem C95_line_separator_counterexample :
    (inspectOperation (some ("# about\u2028# not mine\nquery q {\n # mine\n a }".toList, 19)) (some 38)).toOption =
      some (some " not mine") := by decide +kernel

end Turms.Props
