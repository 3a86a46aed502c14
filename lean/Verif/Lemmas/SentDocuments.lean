import Verif.Lemmas.SyntaxRead
import Verif.Lemmas.Compose
import Verif.Spec.SentDocuments

/-!
# The documents of a generated module
-/

namespace Turms.Syntax
open Turms.Spec Turms.Spec.Syntax Turms.Documents

theorem goodSels_append (a b : List Sel) : goodSels (a ++ b) = (goodSels a && goodSels b) := by
  induction a with
  | nil => simp [goodSels]
  | cons s a ih => rw [List.cons_append, goodSels, goodSels, ih, Bool.and_assoc]

theorem good_addTypename {f : FragDef} (h : goodFrag f = true) : goodFrag (addTypenameToFragment f) = true := by
  unfold addTypenameToFragment
  split
  · exact h
  · unfold goodFrag at h ⊢
    simp only [Bool.and_eq_true] at h ⊢
    refine ⟨⟨h.1.1, ?_⟩, ?_⟩
    · simp
    · rw [goodSels_append, h.2]
      decide

/-- reading a printed fragment and printing it with `__typename` -/
theorem reparse_fragment {f : FragDef} (h : goodFrag f = true) :
    reparse (printFragment f) = printFragment (addTypenameToFragment f) := by
  have := read_printed [.fragment f] (by simp) (by simpa [goodDefn] using h)
  rw [← joinS_eq_intercalate] at this
  unfold reparse
  have e : joinS ['\n', '\n'] ([Defn.fragment f].map printDefn) = printFragment f := rfl
  rw [e] at this
  rw [this]
  rfl

end Turms.Syntax

namespace Turms
open Spec Documents

/-- every element of a loop is handled at a state with the invariant, and its code is kept -/
theorem loop_each {α : Type} {g : α → Gen (List Stmt)} {P : Reg → Prop}
    (hP : ∀ x q s q1, P q → g x q = .ok (s, q1) → P q1) (xs : List α) :
    ∀ {r R : Reg} {ss : List Stmt}, P r → loop g xs r = .ok (ss, R) →
      ∀ x ∈ xs, ∃ q code q1, P q ∧ g x q = .ok (code, q1) ∧ ∀ s ∈ code, s ∈ ss := by
  induction xs with
  | nil => intro r R ss _ _ x hx; cases hx
  | cons y ys ih =>
    intro r R ss hr h x hx
    unfold loop at h
    obtain ⟨s, r1, h1, h⟩ := Gen.bind_ok.1 h
    obtain ⟨rest, r2, h2, h⟩ := Gen.bind_ok.1 h
    obtain ⟨rfl, rfl⟩ := Gen.pure_ok.1 h
    rcases List.mem_cons.1 hx with rfl | hx
    · exact ⟨r, s, r1, hr, h1, fun t ht => List.mem_append_left _ ht⟩
    · obtain ⟨q, code, q1, hq, hg, hs⟩ := ih (hP _ _ _ _ hr h1) h2 x hx
      exact ⟨q, code, q1, hq, hg, fun t ht => List.mem_append_right _ (hs t ht)⟩

/-- the texts registered by the fragments plugin on a registry without fragments -/
theorem fragments_registered {prep : List Char → List Char} {c : Ctx} {p : FragmentsConfig} {l frags : List FragDef}
    {r R : Reg} {ss : List Stmt} (hn : (l.map (·.name)).Nodup) (hp : l.Perm frags) (h0 : r.fragmentDocumentMap = [])
    (h : loop (generateFragment prep c p) l r = .ok (ss, R)) (n : String) :
    (documentTexts R).get? n = (docsOf frags).get? n := by
  have hu : (frags.map (·.name)).Nodup := (hp.map _).nodup_iff.1 hn
  rw [documentTexts_get?, docs_get? frags hu]
  by_cases hm : ∃ f ∈ l, n = f.name
  · obtain ⟨f, hf, rfl⟩ := hm
    rw [fragments_texts hn h f hf, lookup_unique hu (hp.mem_iff.1 hf)]
    simp
  · rw [((loop_moves (fun x => moves_generateFragment) l).run _ _ _ h).docs n hm, h0]
    cases hl : lookup frags n with
    | none => rfl
    | some f =>
      obtain ⟨h1, h2⟩ := Fragments.lookup_mem hl
      exact absurd ⟨f, hp.mem_iff.2 h1, h2.symm⟩ hm

/-- the same texts give the same document -/
theorem embed_congr {prep : List Char → List Char} {docs docs' : Dict (List Char)} (hK : ∀ n, docs'.get? n = docs.get? n)
    {t a : List Char} (h : embedDocument prep docs t = .ok a) : embedDocument prep docs' t = .ok a :=
  replace_agree (K := fun _ => True) (fun n _ => hK n) (fun _ _ _ _ _ _ => trivial) _ List.nodup_nil
    (fun _ h => by cases h) (by simp) (fun _ _ => trivial) h

/-- what is known of a generated operation class and its document -/
theorem generateOperation_document {prep : List Char → List Char} {c : Ctx} {p : OperationsConfig} {o : OpDef} {r r1 : Reg}
    {ss : List Stmt} (h : generateOperation prep c p o r = .ok (ss, r1)) :
    ∃ name s text rd, o.name = some name ∧ s ∈ ss ∧ SaysDocument s (String.ofList text) ∧
      (∀ n, rd.fragmentDocumentMap.get? n = r.fragmentDocumentMap.get? n) ∧
      embedDocument prep (documentTexts rd) (printOperation name o) = .ok text := by
  unfold generateOperation at h
  cases hn : o.name with
  | none => rw [hn] at h; cases Gen.fail_ok.1 h
  | some name =>
    rw [hn] at h
    dsimp only at h
    obtain ⟨cls, ra, h1, h⟩ := Gen.bind_ok.1 h
    obtain ⟨bases, rb, h2, h⟩ := Gen.bind_ok.1 h
    obtain ⟨root, rc, h3, h⟩ := Gen.bind_ok.1 h
    obtain ⟨x, rd, h4, h⟩ := Gen.bind_ok.1 h
    obtain ⟨u, re, h5, h⟩ := Gen.bind_ok.1 h
    obtain ⟨doc, rf, h6, h⟩ := Gen.bind_ok.1 h
    obtain ⟨args, rg, h7, h⟩ := Gen.bind_ok.1 h
    obtain ⟨rfl, rfl⟩ := Gen.pure_ok.1 h
    unfold mergedDocument at h6
    cases he : embedDocument prep (documentTexts re) (printOperation name o) with
    | error e => rw [he] at h6; cases h6
    | ok text =>
      rw [he] at h6
      cases h6
      refine ⟨name, _, text, re, rfl, List.mem_append_right _ (List.mem_singleton.2 rfl),
        ⟨cls, bases, _, _, rfl, List.mem_cons_of_mem _ (List.mem_append_right _ (List.mem_singleton.2 rfl)), ?_, ?_⟩,
        ?_, he⟩
      · simp
      · intro other ho
        simp only [List.mem_append, List.mem_cons, List.not_mem_nil, or_false] at ho
        rcases ho with (ho | ho) | ho
        · cases ho
        · cases ho; rfl
        · split at ho
          · simp at ho
          · cases ho
      · have hm : Moves (fun _ => False) (fun _ => False) (fun n => o.name = some n)
            (generateClass c.env o.kind.kind name >>= fun cls => basesOrObject c (p.basesFor o.kind) >>= fun _ =>
              rootTypeOf c.schema o.kind >>= fun root => operationSels c root cls o.sels >>= fun x =>
              registerSingle name x.1) :=
          (moves_opClass hn).bind fun _ => still_basesOrObject.moves.bind fun _ => still_rootTypeOf.moves.bind fun _ =>
            (still_operationSels _).moves.bind fun _ => moves_single hn
        intro n
        exact (hm.run r u re (Gen.bind_ok.2 ⟨_, _, h1, Gen.bind_ok.2 ⟨_, _, h2, Gen.bind_ok.2 ⟨_, _, h3,
          Gen.bind_ok.2 ⟨_, _, h4, h5⟩⟩⟩⟩)).docs n id

end Turms
