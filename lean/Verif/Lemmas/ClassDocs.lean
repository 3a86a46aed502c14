import Verif.Spec.ClassDocs
import Verif.Lemmas.RoundTrip
import Verif.Lemmas.ObjectsLoop
import Verif.Lemmas.InputsLoop

/-! Lemmas about the documentation of generated classes (C93). -/

namespace Turms.Spec
open Turms

theorem truthy_written {t : Option String} : truthy t = true ↔ ∃ x, Written t x := by
  cases t <;> simp [truthy, Written]

theorem truthy_unwritten {t : Option String} (h : ¬ truthy t = true) : ∀ x, ¬ Written t x :=
  fun x hx => h (truthy_written.2 ⟨x, hx⟩)

theorem shown_doc (instead : String) (d : Option String) :
    Shown instead d (if truthy d then d.getD "" else instead) := by
  by_cases h : truthy d = true
  · rw [if_pos h]
    obtain ⟨x, hx⟩ := truthy_written.1 h
    have : d.getD "" = x := by rw [hx.1]; rfl
    rw [this]
    exact .written hx
  · rw [if_neg h]
    exact .missing (truthy_unwritten h)

theorem fieldComment_ok (md : Bool) (f : FieldDef) : FieldComment md f
    (if truthy (composeFieldDocumentation f.description f.deprecation none md)
      then [.expr (.str ((composeFieldDocumentation f.description f.deprecation none md).getD ""))] else []) := by
  unfold composeFieldDocumentation
  by_cases hd : truthy f.description = true
  · obtain ⟨x, hx, hne⟩ := truthy_written.1 hd
    have hl : CommentLine "" f.description [x] := by
      have := CommentLine.written (label := "") ⟨hx, hne⟩
      simpa using this
    cases md with
    | false =>
      simp only [Bool.not_false, if_true, hd]
      have : f.description.getD "" = x := by rw [hx]; rfl
      rw [this]
      exact .described hl (by simp)
    | true =>
      by_cases hr : truthy f.deprecation = true
      · obtain ⟨y, hy, hne'⟩ := truthy_written.1 hr
        rw [hx] at hd
        rw [hy] at hr
        rw [hx, hy]
        simp only [Bool.not_true, Bool.false_eq_true, if_false, hd, hr, if_true, Option.getD_some, List.singleton_append,
          List.append_nil, List.isEmpty_cons]
        have : "\n".intercalate [x, "DEPRECATED: " ++ y] = x ++ "\n" ++ ("DEPRECATED: " ++ y) := by
          apply String.toList_injective
          simp
        rw [this, if_pos (by
          have : x ++ "\n" ++ ("DEPRECATED: " ++ y) ≠ "" := by
            intro h
            have := congrArg String.toList h
            simp at this
          simp [truthy, this])]
        exact .both hl rfl (.written ⟨hy, hne'⟩)
      · have hn := truthy_unwritten hr
        rw [hx] at hd
        rw [hx]
        simp only [Bool.not_true, Bool.false_eq_true, if_false, hd, hr, if_true, Option.getD_some, List.append_nil,
          List.isEmpty_cons]
        have : "\n".intercalate [x] = x := by
          apply String.toList_injective
          simp
        rw [this, if_pos hd]
        exact .described hl fun _ => .missing hn
  · have hn := truthy_unwritten hd
    cases md with
    | false =>
      simp only [Bool.not_false, if_true, hd]
      exact .silent (.missing hn) (fun h => by cases h)
    | true =>
      by_cases hr : truthy f.deprecation = true
      · obtain ⟨y, hy, hne'⟩ := truthy_written.1 hr
        rw [hy] at hr
        rw [hy]
        simp only [Bool.not_true, Bool.false_eq_true, if_false, hd, hr, if_true, Option.getD_some, List.nil_append,
          List.append_nil, List.isEmpty_cons]
        have : "\n".intercalate ["DEPRECATED: " ++ y] = "DEPRECATED: " ++ y := by
          apply String.toList_injective
          simp
        rw [this, if_pos (by
          have : "DEPRECATED: " ++ y ≠ "" := by
            intro h
            have := congrArg String.toList h
            simp at this
          simp [truthy, this])]
        exact .deprecated (.missing hn) rfl (.written ⟨hy, hne'⟩)
      · simp only [Bool.not_true, Bool.false_eq_true, if_false, hd, hr, List.append_nil, List.isEmpty_nil, if_true]
        exact .silent (.missing hn) fun _ => .missing (truthy_unwritten hr)

theorem typeFieldNode_documented {c : Ctx} {parent name : String} {fd : FieldDef} {al : Option String}
    {sub : List Sel} {x : List Stmt × List Stmt} {r r' : Reg}
    (h : typeFieldNode c parent fd name al sub r = .ok (x, r')) :
    DocumentedField c.config.documentFieldMetadata fd x.1 := by
  unfold typeFieldNode typeField finishField at h
  obtain ⟨_, _, _, h⟩ := Gen.bind_ok.1 h
  obtain ⟨_, _, _, h⟩ := Gen.bind_ok.1 h
  obtain ⟨s, _, hs, h⟩ := Gen.bind_ok.1 h
  obtain ⟨rfl, _⟩ := Gen.pure_ok.1 h
  obtain ⟨_, _, _, hs⟩ := Gen.bind_ok.1 hs
  obtain ⟨_, _, _, hs⟩ := Gen.bind_ok.1 hs
  obtain ⟨rfl, _⟩ := Gen.pure_ok.1 hs
  exact ⟨_, _, _, _, rfl, fieldComment_ok _ _⟩

theorem DocumentedField.noClass {md : Bool} {f : FieldDef} {ss : List Stmt} (h : DocumentedField md f ss) :
    ∀ st ∈ ss, ∀ n bs b ds, st ≠ .classDef n bs b ds := by
  obtain ⟨attr, ann, value, comment, rfl, hc⟩ := h
  intro st hst n bs b ds he
  subst he
  rcases List.mem_cons.1 hst with h | h
  · cases h
  · cases hc <;> simp at h

theorem assertFieldDef_some {s : Schema} {t n : String} {f : FieldDef} {r r' : Reg}
    (h : assertFieldDef s t n r = .ok (f, r')) : getFieldDef s t n = some f := by
  unfold assertFieldDef at h
  cases hg : getFieldDef s t n with
  | none => rw [hg] at h; exact (Gen.fail_ok.1 h).elim
  | some g => rw [hg] at h; obtain ⟨rfl, _⟩ := Gen.pure_ok.1 h; rfl

theorem operationSels_documented {c : Ctx} {root cls : String} : ∀ {sels : List Sel}
    {x : List (List Stmt) × List Stmt} {r r' : Reg}, operationSels c root cls sels r = .ok (x, r') →
    List.Forall₂ (DocumentedSelection c root) sels x.1 := by
  intro sels
  induction sels with
  | nil =>
    intro x r r' h
    obtain ⟨rfl, _⟩ := Gen.pure_ok.1 h
    exact .nil
  | cons s sels ih =>
    intro x r r' h
    unfold operationSels at h
    obtain ⟨a, r1, h1, h⟩ := Gen.bind_ok.1 h
    obtain ⟨p, r2, h2, h⟩ := Gen.bind_ok.1 h
    obtain ⟨rfl, _⟩ := Gen.pure_ok.1 h
    refine .cons ?_ (ih h2)
    cases s with
    | field n al as sub =>
      unfold operationSel at h1
      obtain ⟨fd, _, hfd, h1⟩ := Gen.bind_ok.1 h1
      exact ⟨n, al, as, sub, fd, rfl, assertFieldDef_some hfd, typeFieldNode_documented h1⟩
    | spread f => unfold operationSel at h1; exact (Gen.fail_ok.1 h1).elim
    | inline t sub => unfold operationSel at h1; exact (Gen.fail_ok.1 h1).elim

theorem generateOperation_documented {prep : List Char → List Char} {c : Ctx} {q : OperationsConfig} {o : OpDef}
    {ss : List Stmt} {r r' : Reg} (h : generateOperation prep c q o r = .ok (ss, r')) :
    ∃ root cls bs text decls rest, c.schema.root o.kind = some root ∧ OperationClass c o cls ∧
      .classDef cls bs (.expr (.str text) :: (decls.flatten ++ rest)) [] ∈ ss ∧
      Shown "No documentation found for this operation." (if q.extractDocumentation then q.documentation o else none) text ∧
      List.Forall₂ (DocumentedSelection c root) o.sels decls ∧
      ∀ x, MetaSays (.classDef cls bs (.expr (.str text) :: (decls.flatten ++ rest)) []) "domain" x ↔ Written q.domain x := by
  unfold generateOperation at h
  cases hn : o.name with
  | none => rw [hn] at h; exact (Gen.fail_ok.1 h).elim
  | some n =>
  rw [hn] at h
  dsimp only at h
  obtain ⟨cls, r1, h1, h⟩ := Gen.bind_ok.1 h
  obtain ⟨_, hsty, rfl⟩ := generateClass_ok h1
  obtain ⟨bs, r2, h2, h⟩ := Gen.bind_ok.1 h
  obtain ⟨root, r3, h3, h⟩ := Gen.bind_ok.1 h
  obtain ⟨x, r4, h4, h⟩ := Gen.bind_ok.1 h
  obtain ⟨u, r5, h5, h⟩ := Gen.bind_ok.1 h
  obtain ⟨doc, r6, h6, h⟩ := Gen.bind_ok.1 h
  obtain ⟨args, r7, h7, h⟩ := Gen.bind_ok.1 h
  obtain ⟨rfl, rfl⟩ := Gen.pure_ok.1 h
  have hd := operationSels_documented h4
  have hroot : c.schema.root o.kind = some root := by
    unfold rootTypeOf at h3
    cases hr : c.schema.root o.kind with
    | none => rw [hr] at h3; exact (Gen.fail_ok.1 h3).elim
    | some t => rw [hr] at h3; obtain ⟨rfl, _⟩ := Gen.pure_ok.1 h3; rfl
  refine ⟨root, cls, bs, _, x.1, args ++ [operationMeta q n doc], hroot, ⟨n, hn, hsty⟩, ?_, shown_doc _ _, hd, ?_⟩
  · refine List.mem_append_right _ (List.mem_singleton.2 ?_)
    simp [operationDoc, List.append_assoc]
  · intro t
    constructor
    · rintro ⟨hm, ha⟩
      rcases List.mem_cons.1 hm with hm | hm
      · cases hm
      rcases List.mem_append.1 hm with hm | hm
      · obtain ⟨l, hl, hm⟩ := List.mem_flatten.1 hm
        obtain ⟨s, _, hs⟩ : ∃ s ∈ o.sels, DocumentedSelection c root s l := by
          clear h4 ha hm h5
          generalize x.1 = decls at hd hl
          generalize o.sels = sels at hd
          induction hd with
          | nil => cases hl
          | cons h _ ih =>
            rcases List.mem_cons.1 hl with rfl | hl
            · exact ⟨_, List.mem_cons_self, h⟩
            · obtain ⟨s, hs, h⟩ := ih hl
              exact ⟨s, List.mem_cons_of_mem _ hs, h⟩
        obtain ⟨_, _, _, _, _, _, _, hs⟩ := hs
        exact (hs.noClass _ hm _ _ _ _ rfl).elim
      · rcases List.mem_append.1 hm with hm | hm
        · unfold argumentsClass at h7
          split at h7
          · obtain ⟨_, _, _, h7⟩ := Gen.bind_ok.1 h7
            obtain ⟨_, _, _, h7⟩ := Gen.bind_ok.1 h7
            obtain ⟨_, _, _, h7⟩ := Gen.bind_ok.1 h7
            obtain ⟨rfl, _⟩ := Gen.pure_ok.1 h7
            simp at hm
          · obtain ⟨rfl, _⟩ := Gen.pure_ok.1 h7
            cases hm
        · have hm := List.mem_singleton.1 hm
          unfold operationMeta at hm
          injection hm with _ _ hm _
          subst hm
          by_cases hq : truthy q.domain = true
          · obtain ⟨y, hy⟩ := truthy_written.1 hq
            rw [if_pos hq] at ha
            simp at ha
            rw [hy.1] at ha ⊢
            injection (show Expr.str t = Expr.str y by simpa using ha) with ha
            injection ha with ha
            subst ha
            exact ⟨rfl, hy.2⟩
          · rw [if_neg hq] at ha
            simp at ha
    · intro hw
      refine ⟨List.mem_cons_of_mem _ (List.mem_append_right _ (List.mem_append_right _ (List.mem_singleton.2 rfl))), ?_⟩
      have hq := truthy_written.2 ⟨t, hw⟩
      rw [if_pos hq, hw.1]
      simp

theorem generateFragments_mem {prep : List Char → List Char} {c : Ctx} {q : FragmentsConfig} :
    ∀ {fs : List FragDef} {ss : List Stmt} {r r' : Reg}, generateFragments prep c q fs r = .ok (ss, r') → ∀ f ∈ fs,
    ∃ s r1 r2, generateFragment prep c q f r1 = .ok (s, r2) ∧ ∀ st ∈ s, st ∈ ss := by
  intro fs
  induction fs with
  | nil => intro ss r r' _ o ho; cases ho
  | cons o os ih =>
    intro ss r r' h o' ho'
    unfold generateFragments at h
    obtain ⟨s, r1, h1, h⟩ := Gen.bind_ok.1 h
    obtain ⟨rest, r2, h2, h⟩ := Gen.bind_ok.1 h
    obtain ⟨rfl, rfl⟩ := Gen.pure_ok.1 h
    rcases List.mem_cons.1 ho' with rfl | ho'
    · exact ⟨s, _, _, h1, fun st hs => List.mem_append_left _ hs⟩
    · obtain ⟨s', a, b, hs, hm⟩ := ih h2 o' ho'
      exact ⟨s', a, b, hs, fun st h => List.mem_append_right _ (hm st h)⟩

theorem fragObjectSels_noClass {c : Ctx} {t name : String} : ∀ {sels : List Sel} {x : ObjectParts} {r r' : Reg},
    fragObjectSels c t name sels r = .ok (x, r') → ∀ st ∈ x.body, ∀ n bs b ds, st ≠ .classDef n bs b ds := by
  intro sels
  induction sels with
  | nil =>
    intro x r r' h
    obtain ⟨rfl, _⟩ := Gen.pure_ok.1 h
    intro st hst; cases hst
  | cons s sels ih =>
    intro x r r' h
    unfold fragObjectSels at h
    obtain ⟨a, r1, h1, h⟩ := Gen.bind_ok.1 h
    obtain ⟨p, r2, h2, h⟩ := Gen.bind_ok.1 h
    obtain ⟨rfl, _⟩ := Gen.pure_ok.1 h
    intro st hst
    rcases List.mem_append.1 (show st ∈ a.body ++ p.body from hst) with hst | hst
    · cases s with
      | field n al as sub =>
        unfold fragObjectSel at h1
        dsimp only at h1
        by_cases htn : (n == "__typename") = true
        · rw [if_pos htn] at h1
          obtain ⟨rfl, _⟩ := Gen.pure_ok.1 h1
          cases hst
        · rw [if_neg htn] at h1
          obtain ⟨fd, _, hfd, h1⟩ := Gen.bind_ok.1 h1
          obtain ⟨y, _, hy, h1⟩ := Gen.bind_ok.1 h1
          obtain ⟨rfl, _⟩ := Gen.pure_ok.1 h1
          exact (typeFieldNode_documented hy).noClass st hst
      | spread f =>
        unfold fragObjectSel at h1
        dsimp only at h1
        obtain ⟨_, _, _, h1⟩ := Gen.bind_ok.1 h1
        obtain ⟨rfl, _⟩ := Gen.pure_ok.1 h1
        cases hst
      | inline t sub =>
        unfold fragObjectSel at h1
        dsimp only at h1
        obtain ⟨rfl, _⟩ := Gen.pure_ok.1 h1
        cases hst
    · exact ih h2 st hst

theorem config_noMeta {c : Ctx} {g : GQLType} {tn : Option String} {ss : List Stmt} {r r' : Reg}
    (h : generatePydanticConfig c g tn r = .ok (ss, r')) : ∀ bs b ds, Stmt.classDef "Meta" bs b ds ∉ ss := by
  unfold generatePydanticConfig at h
  intro bs b ds hm
  split at h
  · unfold generateConfigDict at h
    split at h
    · obtain ⟨rfl, _⟩ := Gen.pure_ok.1 h; cases hm
    · obtain ⟨_, _, _, h⟩ := Gen.bind_ok.1 h
      obtain ⟨rfl, _⟩ := Gen.pure_ok.1 h
      simp at hm
  · obtain ⟨rfl, _⟩ := Gen.pure_ok.1 h
    unfold generateConfigClass at hm
    dsimp only at hm
    split at hm
    · cases hm
    · simp at hm

theorem typenameField_noClass {c : Ctx} {t : String} {s : Stmt} {r r' : Reg} (h : typenameField c t r = .ok (s, r')) :
    ∀ n bs b ds, s ≠ .classDef n bs b ds := by
  unfold typenameField at h
  repeat obtain ⟨_, _, _, h⟩ := Gen.bind_ok.1 h
  obtain ⟨rfl, _⟩ := Gen.pure_ok.1 h
  intro n bs b ds he
  cases he

end Turms.Spec
