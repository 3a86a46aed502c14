import Verif.Lemmas.StillWalk
import Verif.Lemmas.ObjectsLoop
import Verif.Spec.Strawberry

/-! # Lemmas about the strawberry plugin -/

namespace Turms
open Spec

/-! ## literals -/

theorem putLiteral_new {k : String} {v : PyDefault} : ∀ {l : List (String × PyDefault)}, k ∉ l.map (·.1) →
    putLiteral k v l = l ++ [(k, v)] := by
  intro l
  induction l with
  | nil => intro _; rfl
  | cons x l ih =>
    intro h
    obtain ⟨k', w⟩ := x
    simp only [List.map_cons, List.mem_cons, not_or] at h
    simp only [putLiteral]
    rw [if_neg (fun e => h.1 e.symm), ih h.2]
    rfl

theorem dictDisplay_zip : ∀ (d acc : List (String × PyDefault)), ((acc ++ d).map (·.1)).Nodup →
    dictDisplay acc (d.map (·.1)) (d.map (·.2)) = acc ++ d := by
  intro d
  induction d with
  | nil => intro acc _; simp [dictDisplay]
  | cons x d ih =>
    intro acc h
    simp only [List.map_cons, dictDisplay]
    have hx : x.1 ∉ acc.map (·.1) := by
      intro hm
      simp only [List.map_append, List.map_cons] at h
      exact (List.nodup_append.1 h).2.2 _ hm _ (by simp) rfl
    rw [putLiteral_new hx, ih _ (by simpa using h)]
    simp

theorem literalKeys_keyExprs (d : List (String × PyDefault)) : literalKeys (PyDefault.keyExprs d) = some (d.map (·.1)) := by
  induction d with
  | nil => rfl
  | cons x d ih => obtain ⟨k, v⟩ := x; simp [PyDefault.keyExprs, literalKeys, Expr.str, ih]

mutual
theorem evalLiteral_expr : ∀ d : PyDefault, d.Proper → evalLiteral d.expr = some d
  | .none, _ => rfl
  | .bool _, _ => rfl
  | .str _, _ => rfl
  | .int _, _ => rfl
  | .float _, _ => rfl
  | .list l, h => by
    have := evalLiterals_exprs l h
    simp [PyDefault.expr, evalLiteral, this]
  | .dict d, h => by
    have := evalLiterals_valExprs d h.2
    simp only [PyDefault.expr, evalLiteral, this, literalKeys_keyExprs]
    rw [if_pos (by simp), dictDisplay_zip d [] (by simpa using h.1)]
    rfl
  | .opaque _, h => absurd h (by simp [PyDefault.Proper])
theorem evalLiterals_exprs : ∀ l : List PyDefault, PyDefault.ProperL l → evalLiterals (PyDefault.exprs l) = some l
  | [], _ => rfl
  | x :: xs, h => by
    have h1 := evalLiteral_expr x h.1
    have h2 := evalLiterals_exprs xs h.2
    simp [PyDefault.exprs, evalLiterals, h1, h2]
theorem evalLiterals_valExprs : ∀ d : List (String × PyDefault), PyDefault.ProperD d →
    evalLiterals (PyDefault.valExprs d) = some (d.map (·.2))
  | [], _ => rfl
  | (k, x) :: xs, h => by
    have h1 := evalLiteral_expr x h.1
    have h2 := evalLiterals_valExprs xs h.2
    simp [PyDefault.valExprs, evalLiterals, h1, h2]
end

mutual
theorem convertDefault_expr : ∀ d : PyDefault, d.Proper → convertDefault d = .ok d.expr
  | .none, _ => rfl
  | .bool _, _ => rfl
  | .str _, _ => rfl
  | .int _, _ => rfl
  | .float _, _ => rfl
  | .list l, h => by
    have := convertDefaults_exprs l h
    simp [PyDefault.expr, convertDefault, this]
  | .dict d, h => by
    have := convertEntries_exprs d h.2
    simp only [PyDefault.expr, convertDefault, this]
    congr 1
    congr 1
    · clear this h
      induction d with
      | nil => rfl
      | cons x d ih => obtain ⟨k, v⟩ := x; simp [PyDefault.keyExprs, PyDefault.valExprs, ih, Expr.str]
    · clear this h
      induction d with
      | nil => rfl
      | cons x d ih => obtain ⟨k, v⟩ := x; simp [PyDefault.keyExprs, PyDefault.valExprs, ih]
  | .opaque _, h => absurd h (by simp [PyDefault.Proper])
theorem convertDefaults_exprs : ∀ l : List PyDefault, PyDefault.ProperL l → convertDefaults l = .ok (PyDefault.exprs l)
  | [], _ => rfl
  | x :: xs, h => by
    have h1 := convertDefault_expr x h.1
    have h2 := convertDefaults_exprs xs h.2
    simp [PyDefault.exprs, convertDefaults, h1, h2]
theorem convertEntries_exprs : ∀ d : List (String × PyDefault), PyDefault.ProperD d →
    convertEntries d = .ok ((PyDefault.keyExprs d).zip (PyDefault.valExprs d))
  | [], _ => rfl
  | (k, x) :: xs, h => by
    have h1 := convertDefault_expr x h.1
    have h2 := convertEntries_exprs xs h.2
    simp [PyDefault.keyExprs, PyDefault.valExprs, convertEntries, h1, h2, Expr.str]
end

mutual
theorem convertValueNode_plain : ∀ v : Value, v.Plain → ∃ e d, convertValueNode v = .ok e ∧ literalMeaning v = some d ∧
    evalLiteral e = some d
  | .null, _ => ⟨_, _, rfl, rfl, rfl⟩
  | .bool _, _ => ⟨_, _, rfl, rfl, rfl⟩
  | .string _, _ => ⟨_, _, rfl, rfl, rfl⟩
  | .list l, h => by
    obtain ⟨es, ds, h1, h2, h3⟩ := convertValueNodes_plain l h
    exact ⟨.list es, .list ds, by simp [convertValueNode, h1], by simp [literalMeaning, h2], by simp [evalLiteral, h3]⟩
  | .int _, h => absurd h (by simp [Value.Plain])
  | .float _, h => absurd h (by simp [Value.Plain])
  | .enum _, h => absurd h (by simp [Value.Plain])
  | .object _, h => absurd h (by simp [Value.Plain])
  | .variable _, h => absurd h (by simp [Value.Plain])
theorem convertValueNodes_plain : ∀ l : List Value, Value.PlainL l → ∃ es ds, convertValueNodes l = .ok es ∧
    literalMeanings l = some ds ∧ evalLiterals es = some ds
  | [], _ => ⟨_, _, rfl, rfl, rfl⟩
  | x :: xs, h => by
    obtain ⟨e, d, h1, h2, h3⟩ := convertValueNode_plain x h.1
    obtain ⟨es, ds, g1, g2, g3⟩ := convertValueNodes_plain xs h.2
    exact ⟨e :: es, d :: ds, by simp [convertValueNodes, h1, g1], by simp [literalMeanings, h2, g2],
      by simp [evalLiterals, h3, g3]⟩
end

/-! ## quiet parts -/

theorem still_referenceInterface {env : Env} {n p : String} : Still (referenceInterface env n p) := by
  constructor
  intro r a r' h
  unfold referenceInterface at h
  split at h <;> cases h
  exact ⟨quiet_addForward _ _, trivial⟩

theorem still_objectLeaf {c : Ctx} {p n : String} : Still (objectLeaf c p n) := by
  have := @still_referenceInterface
  unfold objectLeaf; still
  exact this

theorem still_objectMembers {c : Ctx} {p : String} (ms : List String) : Still (objectMembers c p ms) := by
  induction ms with
  | nil => exact .pure
  | cons m ms ih => exact still_objectLeaf.bind fun _ => ih.bind fun _ => .pure

theorem still_objectNamed {c : Ctx} {p n : String} : Still (objectNamed c p n) := by
  unfold objectNamed
  split
  · exact still_registerImport.bind fun _ => (still_objectMembers _).bind fun _ => .pure
  · exact still_objectLeaf

theorem still_inputLeaf {c : Ctx} {p n : String} : Still (inputLeaf c p n) := by
  unfold inputLeaf; still

theorem still_resolverAnnotation {c : Ctx} {p : String} (t : TypeNode) : ∀ {o : Bool}, Still (resolverAnnotation c p t o) := by
  induction t with
  | named n => intro o; exact still_objectNamed.bind fun _ => still_optionalWrap
  | list t ih => intro o; exact still_registerImport.bind fun _ => ih.bind fun _ => still_optionalWrap
  | nonNull t ih => intro o; exact ih

theorem still_argAnnotation {c : Ctx} {p : String} (t : TypeNode) : ∀ {o : Bool}, Still (argAnnotation c p t o) := by
  induction t with
  | named n => intro o; exact still_inputLeaf.bind fun _ => still_optionalWrap
  | list t ih => intro o; exact still_registerImport.bind fun _ => ih.bind fun _ => still_optionalWrap
  | nonNull t ih => intro o; exact ih

theorem still_resolverArgs {c : Ctx} {p : String} (as : List ArgDef) : Still (resolverArgs c p as) := by
  induction as with
  | nil => exact .pure
  | cons a as ih =>
    exact still_parameterName.bind fun _ => (still_argAnnotation _).bind fun _ => ih.bind fun _ => .pure

theorem still_directiveKeywords {p : StrawberryConfig} {ds : List DirectiveApp} : Still (directiveKeywords p ds) := by
  unfold directiveKeywords; still

theorem still_resolverReturns {t : String} {a : Expr} : Still (resolverReturns t a) := by
  unfold resolverReturns; still

theorem still_fieldStmt {c : Ctx} {t : String} {f : FieldDef} {as : List Arg} {ds : List Expr} {ret : Expr}
    {kws : List (Option String × Expr)} : Still (fieldStmt c t f as ds ret kws) := by
  have := @still_resolverReturns
  unfold fieldStmt; still

theorem still_strawberryField {c : Ctx} {p : StrawberryConfig} {sd : SchemaDirectives} {t cls : String} {f : FieldDef} :
    Still (strawberryField c p sd t cls f) :=
  (still_resolverArgs _).bind fun _ => (still_resolverAnnotation _).bind fun _ => still_directiveKeywords.bind fun _ =>
    still_fieldStmt

theorem still_strawberryFields {c : Ctx} {p : StrawberryConfig} {sd : SchemaDirectives} {t cls : String} (fs : List FieldDef) :
    Still (strawberryFields c p sd t cls fs) := by
  induction fs with
  | nil => exact .pure
  | cons f fs ih => exact still_strawberryField.bind fun _ => ih.bind fun _ => .pure

theorem still_strawberryBases {c : Ctx} {all : List String} (is : List String) : Still (strawberryBases c all is) := by
  have hi : ∀ i, Still (inheritInterface i) := by
    intro i
    constructor
    intro r a r' h
    unfold inheritInterface at h
    split at h <;> cases h
    exact ⟨.refl _, trivial⟩
  induction is with
  | nil => exact .pure
  | cons i is ih =>
    unfold strawberryBases
    split
    · exact (hi _).bind fun _ => ih.bind fun _ => .pure
    · exact ih

/-! ## annotations -/

theorem resolverAnnotation_shape (W : World) (c : Ctx) (parent : String) :
    Shape W (Styled c.env) (fun _ => True) (resolverAnnotation c parent) (fun r => OutputInst W c r) where
  nonNull t b := by funext r; rfl
  inv _ _ h f := h.frame f
  list t b r e r' hs h := by
    simp only [resolverAnnotation] at h
    obtain ⟨u, r1, h1, h⟩ := Gen.bind_ok.1 h
    obtain ⟨x, r2, h2, h⟩ := Gen.bind_ok.1 h
    obtain ⟨he, hf⟩ := optionalWrap_ok h
    exact ⟨x, _, r1, r2, h2, frame_registerImport h1, hf, he, fun v => accepts_listBuilder (b := false)⟩
  named n b r e r' hN hs h := by
    simp only [resolverAnnotation] at h
    obtain ⟨x, r2, h2, h⟩ := Gen.bind_ok.1 h
    obtain ⟨he, hf⟩ := optionalWrap_ok h
    obtain ⟨f1, hx⟩ := objectNamed_ok (W := W) hs h2
    exact ⟨x, f1.trans hf, he, hx⟩
  stable r r' n v f := by
    rw [outputInst_frame f]

theorem argAnnotation_shape (W : World) (c : Ctx) (parent : String) :
    Shape W (Styled c.env) (fun _ => True) (argAnnotation c parent) (fun r => Inst W (inputSideClass c r)) where
  nonNull t b := by funext r; rfl
  inv _ _ h f := h.frame f
  list t b r e r' hs h := by
    simp only [argAnnotation] at h
    obtain ⟨u, r1, h1, h⟩ := Gen.bind_ok.1 h
    obtain ⟨x, r2, h2, h⟩ := Gen.bind_ok.1 h
    obtain ⟨he, hf⟩ := optionalWrap_ok h
    exact ⟨x, _, r1, r2, h2, frame_registerImport h1, hf, he, fun v => accepts_listBuilder (b := false)⟩
  named n b r e r' hN hs h := by
    simp only [argAnnotation] at h
    obtain ⟨x, r2, h2, h⟩ := Gen.bind_ok.1 h
    obtain ⟨he, hf⟩ := optionalWrap_ok h
    obtain ⟨cl, hc, hx, f1⟩ := inputLeaf_ok hs h2
    exact ⟨x, f1.trans hf, he, fun v => by rw [inst_iff hc, named_or_str hx]⟩
  stable r r' n v f := by
    rw [inputSideClass_frame f]

/-! ## sorting and signatures -/

theorem insertSorted_bare {a : ArgDef} (ha : a.default = none) (l : List ArgDef) :
    insertSorted (fun a b : ArgDef => a.default.isNone || !b.default.isNone) a l = a :: l := by
  cases l with
  | nil => rfl
  | cons b l => simp [insertSorted, ha]

theorem insertSorted_default {a : ArgDef} (ha : a.default.isNone = false) (B D : List ArgDef)
    (hB : ∀ b ∈ B, b.default.isNone = true) (hD : ∀ d ∈ D, d.default.isNone = false) :
    insertSorted (fun a b : ArgDef => a.default.isNone || !b.default.isNone) a (B ++ D) = B ++ a :: D := by
  induction B with
  | nil =>
    cases D with
    | nil => rfl
    | cons d D =>
      have := hD d (by simp)
      simp only [List.nil_append, insertSorted, ha, this]
      rfl
  | cons b B ih =>
    have := hB b (by simp)
    simp only [List.cons_append, insertSorted, ha, this]
    rw [ih fun x hx => hB x (by simp [hx])]
    rfl

theorem bare_eq (a : ArgDef) : ArgDef.bare a = a.default.isNone := by
  unfold ArgDef.bare; cases a.default <;> rfl

theorem sortedArgs_eq (as : List ArgDef) :
    sortedArgs as = as.filter ArgDef.bare ++ as.filter (fun a => !ArgDef.bare a) := by
  unfold sortedArgs
  induction as with
  | nil => rfl
  | cons a as ih =>
    rw [pySorted, ih]
    cases ha : a.default.isNone
    · rw [insertSorted_default ha _ _ (by intro b hb; rw [← bare_eq]; exact (List.mem_filter.1 hb).2)
        (by intro b hb; rw [← bare_eq]; have := (List.mem_filter.1 hb).2; simpa using this)]
      rw [List.filter_cons_of_neg (by simp [bare_eq, ha]), List.filter_cons_of_pos (by simp [bare_eq, ha])]
    · rw [insertSorted_bare (by simpa using ha), List.filter_cons_of_pos (by simp [bare_eq, ha]),
        List.filter_cons_of_neg (by simp [bare_eq, ha])]
      rfl

/-- what a generated parameter says about the argument -/
def ArgMeans (W : World) (c : Ctx) (sm : Reg) (a : ArgDef) (x : Arg) : Prop :=
  ParamOf c.env a.name x.arg ∧ ∃ e, x.annotation = some e ∧
    (¬ Inst W (inputSideClass c sm) a.type.base .null → ∀ v, Accepts W e v ↔
      (a.default ≠ none → v ≠ .null) ∧ Legal (Inst W (inputSideClass c sm)) a.type v)

theorem ArgMeans.annotated {W : World} {c : Ctx} {sm : Reg} {as : List ArgDef} {xs : List Arg}
    (h : List.Forall₂ (ArgMeans W c sm) as xs) :
    List.Forall₂ (ArgAnnotated W (Inst W (inputSideClass c sm)) c.env) as (xs.map fun a => (a.arg, a.annotation)) := by
  induction h with
  | nil => exact .nil
  | cons h _ ih => exact .cons h ih

theorem resolverArgs_ok {W : World} {c : Ctx} {cls : String} {sm : Reg} : ∀ (as : List ArgDef) {args : List Arg}
    {ds : List Expr} {r r' : Reg}, Styled c.env r → r.scalarMap = sm.scalarMap →
    resolverArgs c cls as r = .ok ((args, ds), r') →
    List.Forall₂ (ArgMeans W c sm) as args ∧ ds = as.filterMap fun a => a.default.map PyDefault.expr := by
  intro as
  induction as with
  | nil =>
    intro args ds r r' _ _ h
    obtain ⟨h, _⟩ := Gen.pure_ok.1 h
    cases h
    exact ⟨.nil, rfl⟩
  | cons a as ih =>
    intro args ds r r' hs hsm h
    unfold resolverArgs at h
    obtain ⟨n, r1, h1, h⟩ := Gen.bind_ok.1 h
    obtain ⟨t, r2, h2, h⟩ := Gen.bind_ok.1 h
    obtain ⟨⟨as', ds'⟩, r3, h3, h⟩ := Gen.bind_ok.1 h
    obtain ⟨h, _⟩ := Gen.pure_ok.1 h
    cases h
    have q1 := still_parameterName.quiet h1
    have q2 := (still_argAnnotation _).quiet h2
    have hs1 := hs.frame q1.frame
    obtain ⟨hn, -⟩ := Gen.lift_ok.1 h1
    obtain ⟨i1, i2⟩ := ih (hs1.frame q2.frame) (q2.tables.1.trans (q1.tables.1.trans hsm)) h3
    refine ⟨.cons ⟨hn, t, rfl, ?_⟩ i1, ?_⟩
    · intro hnull v
      have hc : inputSideClass c r1 = inputSideClass c sm := inputSideClass_congr (q1.tables.1.trans hsm)
      rw [← hc] at hnull ⊢
      rw [((argAnnotation_shape W c cls).sound _ trivial _ _ _ _ hs1 h2 hnull).2 v]
      cases hd : a.default <;> simp
    · dsimp only
      rw [i2, List.filterMap_cons]
      cases a.default <;> rfl

theorem resolver_signature {W : World} {c : Ctx} {sm : Reg} {as : List ArgDef} {args : List Arg} {ds : List Expr}
    (h : List.Forall₂ (ArgMeans W c sm) (sortedArgs as) args)
    (hd : ds = (sortedArgs as).filterMap fun a => a.default.map PyDefault.expr) :
    ds.length ≤ args.length ∧ ∃ rest, signature (⟨"self", none⟩ :: args) ds = ("self", none) :: rest ∧
      List.Forall₂ (ArgParam c.env) (as.filter ArgDef.bare ++ as.filter (fun a => !ArgDef.bare a)) rest := by
  rw [sortedArgs_eq] at h hd
  have hB : ∀ b ∈ as.filter ArgDef.bare, b.default = none := by
    intro b hb
    have := (List.mem_filter.1 hb).2
    rw [bare_eq] at this
    simpa using this
  have hD : ∀ b ∈ as.filter (fun a => !ArgDef.bare a), ∃ d, b.default = some d := by
    intro b hb
    have := (List.mem_filter.1 hb).2
    rw [bare_eq] at this
    simpa [Option.isSome_iff_exists] using this
  generalize as.filter ArgDef.bare = B at *
  generalize as.filter (fun a => !ArgDef.bare a) = D at *
  have hdB : B.filterMap (fun a : ArgDef => a.default.map PyDefault.expr) = [] := by
    rw [List.filterMap_eq_nil_iff]
    intro b hb
    rw [hB b hb]; rfl
  rw [List.filterMap_append, hdB, List.nil_append] at hd
  have hlen := h.length_eq
  have hdl : ds.length = D.length := by
    rw [hd]
    clear hd h hlen
    induction D with
    | nil => rfl
    | cons d D ih =>
      obtain ⟨x, hx⟩ := hD d (by simp)
      rw [List.filterMap_cons, hx]
      simp [ih fun b hb => hD b (by simp [hb])]
  rw [List.length_append] at hlen
  refine ⟨by omega, (args.map (·.arg)).zip (List.replicate B.length none ++ ds.map some), ?_, ?_⟩
  · unfold signature
    have : (⟨"self", none⟩ :: args : List Arg).length - ds.length = B.length + 1 := by simp; omega
    rw [this, List.replicate_succ]
    rfl
  · clear hlen hdl hdB
    induction B generalizing args with
    | nil =>
      simp only [List.nil_append, List.length_nil, List.replicate_zero] at h ⊢
      subst hd
      induction h with
      | nil => exact .nil
      | @cons a x D args hax _ ih =>
        obtain ⟨d, hx⟩ := hD a (by simp)
        rw [List.filterMap_cons, hx]
        refine .cons ⟨hax.1, ?_⟩ (ih fun b hb => hD b (by simp [hb]))
        rw [hx]
        exact ⟨_, rfl, evalLiteral_expr d⟩
    | cons b B ih =>
      cases h with
      | cons hax h =>
        rw [List.length_cons, List.replicate_succ]
        refine .cons ⟨hax.1, ?_⟩ (ih (fun x hx => hB x (by simp [hx])) h)
        rw [hB b (by simp)]

/-! ## fields -/

theorem rootNames_iff (t : String) : rootNames.contains t = true ↔ isRootName t := by
  unfold rootNames isRootName
  simp only [List.contains_eq_mem, List.mem_cons, List.not_mem_nil, or_false, decide_eq_true_eq]
  constructor
  · rintro (h | h | h)
    · exact .inr (.inl h)
    · exact .inr (.inr h)
    · exact .inl h
  · rintro (h | h | h)
    · exact .inr (.inr h)
    · exact .inl h
    · exact .inr (.inl h)

/-- everything known about the member generated for a field -/
structure MemberMeans (W : World) (c : Ctx) (sm : Reg) (typename : String) (f : FieldDef) (s : Stmt) : Prop where
  form : FieldMember c typename f s
  member : isMember s = true
  value : ¬ OutputInst W c sm f.type.base .null → ∃ a, valueAnnotation s = some a ∧
    ∀ v, Accepts W a v ↔ Legal (OutputInst W c sm) f.type v
  params : List.Forall₂ (ArgAnnotated W (Inst W (inputSideClass c sm)) c.env)
    (f.args.filter ArgDef.bare ++ f.args.filter (fun a => !ArgDef.bare a)) (parameterAnnotations s)

theorem strawberryField_ok {W : World} {c : Ctx} {p : StrawberryConfig} {sd : SchemaDirectives} {t cls : String}
    {f : FieldDef} {sm r r' : Reg} {s : Stmt} (hs : Styled c.env r) (hsm : r.scalarMap = sm.scalarMap)
    (h : strawberryField c p sd t cls f r = .ok (s, r')) : MemberMeans W c sm t f s := by
  unfold strawberryField at h
  obtain ⟨⟨args, ds⟩, r1, h1, h⟩ := Gen.bind_ok.1 h
  obtain ⟨ret, r2, h2, h⟩ := Gen.bind_ok.1 h
  obtain ⟨kws, r3, h3, h⟩ := Gen.bind_ok.1 h
  have q1 := (still_resolverArgs _).quiet h1
  obtain ⟨ha, hd⟩ := resolverArgs_ok (W := W) _ hs hsm h1
  have hlen := ha.length_eq
  have hs1 := hs.frame q1.frame
  have hret : ¬ OutputInst W c sm f.type.base .null → ∀ v, Accepts W ret v ↔ Legal (OutputInst W c sm) f.type v := by
    intro hn
    have hc : OutputInst W c r1 = OutputInst W c sm := outputInst_congr (q1.tables.1.trans hsm)
    rw [← hc] at hn ⊢
    exact ((resolverAnnotation_shape W c cls).sound _ trivial true _ _ _ hs1 h2 hn).2
  have hempty : args.isEmpty = true ↔ f.args = [] := by
    have hp := (pySorted_perm (fun a b : ArgDef => a.default.isNone || !b.default.isNone) f.args).length_eq
    change (sortedArgs f.args).length = _ at hp
    rw [List.isEmpty_iff, ← List.length_eq_zero_iff, ← List.length_eq_zero_iff, ← hlen, hp]
  obtain ⟨hdl, rest, hsig, hrest⟩ := resolver_signature ha hd
  have hann := ArgMeans.annotated ha
  rw [sortedArgs_eq] at hann
  dsimp only at h
  unfold fieldStmt at h
  by_cases hcond : (args.isEmpty && !rootNames.contains t) = true
  · rw [if_pos hcond] at h
    obtain ⟨n, r4, h4, h⟩ := Gen.bind_ok.1 h
    obtain ⟨rfl, rfl⟩ := Gen.pure_ok.1 h
    obtain ⟨hn, -⟩ := Gen.lift_ok.1 h4
    rw [Bool.and_eq_true, hempty, Bool.not_eq_true', ← Bool.not_eq_true, rootNames_iff] at hcond
    refine ⟨⟨fun hx => ?_, fun _ => ⟨_, _, _, rfl, hn⟩⟩, rfl, fun hn => ⟨_, rfl, hret hn⟩, ?_⟩
    · rcases hx with hx | hx
      · exact absurd hcond.1 hx
      · exact absurd hx hcond.2
    · rw [hcond.1]; exact .nil
  · rw [if_neg hcond] at h
    obtain ⟨ret', r4, h4, h⟩ := Gen.bind_ok.1 h
    obtain ⟨n, r5, h5, h⟩ := Gen.bind_ok.1 h
    obtain ⟨rfl, rfl⟩ := Gen.pure_ok.1 h
    obtain ⟨hn, -⟩ := Gen.lift_ok.1 h5
    rw [Bool.and_eq_true, hempty, Bool.not_eq_true', ← Bool.not_eq_true, rootNames_iff] at hcond
    refine ⟨⟨fun _ => ⟨_, _, _, _, _, _, _, rest, rfl, hn, by simp; omega, hsig, hrest⟩, fun hx => ?_⟩, rfl,
      fun hn => ⟨ret, ?_, hret hn⟩, hann⟩
    · exact absurd ⟨by simpa using fun h => hx (.inl h), fun h => hx (.inr h)⟩ hcond
    · unfold resolverReturns at h4
      cases ht : (t == "Subscription")
      · rw [ht, if_neg (by simp)] at h4
        obtain ⟨rfl, rfl⟩ := Gen.pure_ok.1 h4
        rfl
      · rw [ht, if_pos rfl] at h4
        obtain ⟨_, r6, h6, h4⟩ := Gen.bind_ok.1 h4
        obtain ⟨rfl, rfl⟩ := Gen.pure_ok.1 h4
        simp [valueAnnotation, sub]

theorem strawberryFields_ok {W : World} {c : Ctx} {p : StrawberryConfig} {sd : SchemaDirectives} {t cls : String}
    {sm : Reg} : ∀ (fs : List FieldDef) {r r' : Reg} {ss : List Stmt}, Styled c.env r → r.scalarMap = sm.scalarMap →
    strawberryFields c p sd t cls fs r = .ok (ss, r') → List.Forall₂ (MemberMeans W c sm t) fs ss := by
  intro fs
  induction fs with
  | nil =>
    intro r r' ss _ _ h
    obtain ⟨rfl, _⟩ := Gen.pure_ok.1 h
    exact .nil
  | cons f fs ih =>
    intro r r' ss hs hsm h
    unfold strawberryFields at h
    obtain ⟨s, r1, h1, h⟩ := Gen.bind_ok.1 h
    obtain ⟨ss', r2, h2, h⟩ := Gen.bind_ok.1 h
    obtain ⟨rfl, rfl⟩ := Gen.pure_ok.1 h
    have q1 := still_strawberryField.quiet h1
    exact .cons (strawberryField_ok hs hsm h1) (ih (hs.frame q1.frame) (q1.tables.1.trans hsm) h2)

/-! ## types -/

theorem keptType_iff {p : StrawberryConfig} {n : String} :
    ((p.skipUnderscore && underscored n) || (p.skipDoubleUnderscore && doubleUnderscored n)) = false ↔ KeptType p n := by
  have := @keptObject_iff { skipUnderscore := p.skipUnderscore, skipDoubleUnderscore := p.skipDoubleUnderscore } n
  exact this

theorem config_no_members {c : Ctx} {g : GQLType} {tn : Option String} {ss : List Stmt} {r r' : Reg}
    (h : generatePydanticConfig c g tn r = .ok (ss, r')) : ss.filter isMember = [] := by
  unfold generatePydanticConfig at h
  split at h
  · unfold generateConfigDict at h
    split at h
    · obtain ⟨rfl, _⟩ := Gen.pure_ok.1 h; rfl
    · obtain ⟨_, r1, h1, h⟩ := Gen.bind_ok.1 h
      obtain ⟨rfl, _⟩ := Gen.pure_ok.1 h
      rfl
  · obtain ⟨rfl, _⟩ := Gen.pure_ok.1 h
    unfold generateConfigClass
    dsimp only
    split <;> rfl

theorem descriptionStmts_no_members (d : Option String) : (descriptionStmts d).filter isMember = [] := by
  unfold descriptionStmts
  split <;> rfl

/-- the class of a composite type; the interface keeps its plain name -/
def SbClass (env : Env) (t : CompositeType) (cls : String) : Prop := styled env.stylers Styler.objectName t.name = .ok cls

theorem strawberryClassName_ok {env : Env} {t : CompositeType} {cls : String} {r r' : Reg} (hs : Styled env r)
    (h : strawberryClassName env t r = .ok (cls, r')) :
    SbClass env t cls ∧ Styled env r' ∧ r'.scalarMap = r.scalarMap := by
  unfold strawberryClassName at h
  split at h
  · unfold generateInterface at h
    split at h
    · cases h
    · unfold styleInterface at h
      cases hst : styled env.stylers Styler.objectName t.name with
      | error e => rw [hst] at h; cases h
      | ok n =>
        rw [hst] at h
        cases h
        exact ⟨hst, fun k m cl h => hs k m cl (by cases k <;> exact h), rfl⟩
  · have hst' := styled_generateClass hs h
    obtain ⟨_, hst, rfl⟩ := generateClass_ok h
    exact ⟨hst, hst', rfl⟩

/-- the class generated for a composite type -/
structure TypeMeans (W : World) (c : Ctx) (sm : Reg) (t : CompositeType) (s : Stmt) : Prop where
  form : ∃ cls bases body decorators, SbClass c.env t cls ∧ s = .classDef cls bases body decorators ∧
    List.Forall₂ (MemberMeans W c sm t.name) t.fields (body.filter isMember)

theorem filter_members {W : World} {c : Ctx} {sm : Reg} {t : String} {fs : List FieldDef} {ss : List Stmt}
    (h : List.Forall₂ (MemberMeans W c sm t) fs ss) : ss.filter isMember = ss := by
  rw [List.filter_eq_self]
  intro s hs
  obtain ⟨f, _, hm⟩ := forall₂_mem_right h hs
  exact hm.member

theorem strawberryType_ok {W : World} {c : Ctx} {p : StrawberryConfig} {sd : SchemaDirectives} {t : CompositeType}
    {sm r r' : Reg} {ss : List Stmt} (hs : Styled c.env r) (hsm : r.scalarMap = sm.scalarMap)
    (h : strawberryType c p sd t r = .ok (ss, r')) :
    Styled c.env r' ∧ r'.scalarMap = sm.scalarMap ∧
    ((¬ KeptType p t.name ∧ ss = []) ∨ (KeptType p t.name ∧ ∃ s, ss = [s] ∧ TypeMeans W c sm t s)) := by
  unfold strawberryType at h
  obtain ⟨extra, r1, h1, h⟩ := Gen.bind_ok.1 h
  have q1 := still_additionalBasesFor.quiet h1
  have hs1 := hs.frame q1.frame
  have hsm1 := q1.tables.1.trans hsm
  by_cases hk : KeptType p t.name
  · rw [← keptType_iff, Bool.or_eq_false_iff] at hk
    rw [if_neg (by simp [hk.1]), if_neg (by simp [hk.2])] at h
    rw [← Bool.or_eq_false_iff, keptType_iff] at hk
    obtain ⟨kws, r2, h2, h⟩ := Gen.bind_ok.1 h
    obtain ⟨cls, r3, h3, h⟩ := Gen.bind_ok.1 h
    obtain ⟨bs, r4, h4, h⟩ := Gen.bind_ok.1 h
    obtain ⟨fs, r5, h5, h⟩ := Gen.bind_ok.1 h
    obtain ⟨cfg, r6, h6, h⟩ := Gen.bind_ok.1 h
    obtain ⟨rfl, rfl⟩ := Gen.pure_ok.1 h
    have q2 := still_directiveKeywords.quiet h2
    obtain ⟨hcls, hs3, hsm3⟩ := strawberryClassName_ok (hs1.frame q2.frame) h3
    have q4 := (still_strawberryBases _).quiet h4
    have q5 := (still_strawberryFields _).quiet h5
    have q6 := still_generatePydanticConfig.quiet h6
    have hsm4 := q4.tables.1.trans (hsm3.trans (q2.tables.1.trans hsm1))
    have hs4 := hs3.frame q4.frame
    have hf := strawberryFields_ok (W := W) _ hs4 hsm4 h5
    refine ⟨(hs4.frame q5.frame).frame q6.frame, q6.tables.1.trans (q5.tables.1.trans hsm4),
      .inr ⟨hk, _, rfl, ⟨_, _, _, _, hcls, rfl, ?_⟩⟩⟩
    rw [List.filter_append, List.filter_append, config_no_members h6, descriptionStmts_no_members, filter_members hf]
    simpa using hf
  · refine ⟨?_, ?_, .inl ⟨hk, ?_⟩⟩
    all_goals
      rw [← keptType_iff] at hk
      simp only [Bool.not_eq_false, Bool.or_eq_true] at hk
      by_cases hk1 : (p.skipUnderscore && underscored t.name) = true
      · rw [if_pos hk1] at h
        obtain ⟨rfl, rfl⟩ := Gen.pure_ok.1 h
        first | exact hs1 | exact hsm1 | rfl
      · rw [if_neg hk1, if_pos (hk.resolve_left hk1)] at h
        obtain ⟨rfl, rfl⟩ := Gen.pure_ok.1 h
        first | exact hs1 | exact hsm1 | rfl

/-- the types that are not skipped -/
def keptSb (p : StrawberryConfig) (n : String) : Bool :=
  !((p.skipUnderscore && underscored n) || (p.skipDoubleUnderscore && doubleUnderscored n))

theorem keptSb_iff {p : StrawberryConfig} {n : String} : keptSb p n = true ↔ KeptType p n := by
  rw [keptSb, ← keptType_iff, Bool.not_eq_true']

theorem strawberryTypeLoop_ok {W : World} {c : Ctx} {p : StrawberryConfig} {sd : SchemaDirectives} {sm : Reg} :
    ∀ (ts : List CompositeType) {r r' : Reg} {ss : List Stmt}, Styled c.env r → r.scalarMap = sm.scalarMap →
    strawberryTypeLoop c p sd ts r = .ok (ss, r') →
    r'.scalarMap = sm.scalarMap ∧ List.Forall₂ (TypeMeans W c sm) (ts.filter fun t => keptSb p t.name) ss := by
  intro ts
  induction ts with
  | nil =>
    intro r r' ss _ hsm h
    obtain ⟨rfl, rfl⟩ := Gen.pure_ok.1 h
    exact ⟨hsm, .nil⟩
  | cons t ts ih =>
    intro r r' ss hs hsm h
    unfold strawberryTypeLoop at h
    obtain ⟨s, r1, h1, h⟩ := Gen.bind_ok.1 h
    obtain ⟨ss', r2, h2, h⟩ := Gen.bind_ok.1 h
    obtain ⟨rfl, rfl⟩ := Gen.pure_ok.1 h
    obtain ⟨hs1, hsm1, hcase⟩ := strawberryType_ok (W := W) hs hsm h1
    obtain ⟨i1, i2⟩ := ih hs1 hsm1 h2
    refine ⟨i1, ?_⟩
    rcases hcase with ⟨hk, rfl⟩ | ⟨hk, s, rfl, hm⟩
    · rw [List.filter_cons_of_neg (by rw [keptSb_iff]; exact hk)]
      exact i2
    · rw [List.filter_cons_of_pos (by rw [keptSb_iff]; exact hk)]
      exact .cons hm i2

end Turms
