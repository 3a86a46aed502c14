import Verif.Lemmas.InputsLoop

namespace Turms
open Spec

theorem inputSideClass_congr {c : Ctx} {r r' : Reg} (h : r.scalarMap = r'.scalarMap) :
    inputSideClass c r = inputSideClass c r' := by
  funext n
  unfold inputSideClass scalarClass
  rw [h]

/-- the meaning of one declared input field -/
def FieldMeans (W : World) (c : Ctx) (sm : Reg) (f : InputFieldDef) (m : MField) : Prop :=
  m.key = f.name ∧ (m.hasDefault = false ↔ f.type.isNonNull = true ∧ f.default = none) ∧
  ∀ v, Accepts W m.ann v ↔ Legal (Inst W (inputSideClass c sm)) f.type v ∨ (m.hasDefault = true ∧ v = .null)

theorem omittable_iff (f : InputFieldDef) : omittableField f = false ↔ f.type.isNonNull = true ∧ f.default = none := by
  unfold omittableField
  cases f.default <;> cases f.type.isNonNull <;> simp

theorem inputFieldStmts_fields {W : World} {c : Ctx} {cls : String} {f : InputFieldDef} {ss : List Stmt} {r r' r0 : Reg}
    (hs : Styled c.env r) (h0 : r.scalarMap = r0.scalarMap) (h : inputFieldStmts c cls f r = .ok (ss, r'))
    (hl : ¬ Inst W (inputSideClass c r0) f.type.base .null) :
    Frame r r' ∧ ∃ m, ss.filterMap fieldOf = [m] ∧ FieldMeans W c r0 f m := by
  rw [← inputSideClass_congr (c := c) h0] at hl
  obtain ⟨fr, attr, ann, v, doc, hn, rfl, hdoc, hf, hd, ha, hacc⟩ := inputFieldStmts_ok hs h hl
  refine ⟨fr, ⟨f.name, omittableField f, ann⟩, ?_, rfl, omittable_iff f, ?_⟩
  · rcases hdoc with rfl | ⟨e, rfl⟩
    · rw [List.filterMap_cons_some hf]; rfl
    · rw [List.filterMap_cons_some hf]; simp [fieldOf]
  · intro v
    rw [← inputSideClass_congr (c := c) h0]
    exact hacc v

theorem inputFields_fields {W : World} {c : Ctx} {cls : String} {r0 : Reg} {fs : List InputFieldDef} :
    ∀ {ss : List Stmt} {r r' : Reg}, Styled c.env r → r.scalarMap = r0.scalarMap →
    inputFields c cls [] fs r = .ok (ss, r') → (∀ f ∈ fs, ¬ Inst W (inputSideClass c r0) f.type.base .null) →
    List.Forall₂ (FieldMeans W c r0) fs (ss.filterMap fieldOf) := by
  induction fs with
  | nil =>
    intro ss r r' hs h0 h _
    obtain ⟨rfl, rfl⟩ := Gen.pure_ok.1 h
    exact .nil
  | cons f fs ih =>
    intro ss r r' hs h0 h hl
    unfold inputFields at h
    obtain ⟨fieldName, r1, h1, h⟩ := Gen.bind_ok.1 h
    obtain ⟨_, rfl⟩ := Gen.lift_ok.1 h1
    simp only [List.contains_nil, Bool.false_eq_true, if_false] at h
    obtain ⟨s, r2, h2, h⟩ := Gen.bind_ok.1 h
    obtain ⟨rest, r3, h3, h⟩ := Gen.bind_ok.1 h
    obtain ⟨rfl, rfl⟩ := Gen.pure_ok.1 h
    obtain ⟨fr, m, hm, hmean⟩ := inputFieldStmts_fields hs h0 h2 (hl f (by simp))
    rw [List.filterMap_append, hm]
    exact .cons hmean (ih (hs.frame fr) (fr.1.trans h0) h3 (fun g hg => hl g (by simp [hg])))

theorem config_no_fields {c : Ctx} {g : GQLType} {tn : Option String} {ss : List Stmt} {r r' : Reg}
    (h : generatePydanticConfig c g tn r = .ok (ss, r')) : ss.filterMap fieldOf = [] := by
  unfold generatePydanticConfig at h
  split at h
  · unfold generateConfigDict at h
    split at h
    · obtain ⟨rfl, _⟩ := Gen.pure_ok.1 h; rfl
    · obtain ⟨_, r1, h1, h⟩ := Gen.bind_ok.1 h
      obtain ⟨rfl, _⟩ := Gen.pure_ok.1 h
      rfl
  · obtain ⟨rfl, _⟩ := Gen.pure_ok.1 h
    unfold generateConfigClass
    dsimp only
    split <;> rfl

theorem generateInputType_fields {W : World} {c : Ctx} {p : InputsConfig} {name tn : String} {desc : Option String}
    {fields : List InputFieldDef} {s : Stmt} {r r' r0 : Reg} (hs : Styled c.env r) (h0 : r.scalarMap = r0.scalarMap)
    (hl : ∀ f ∈ fields, ¬ Inst W (inputSideClass c r0) f.type.base .null)
    (h : generateInputType c p name tn desc fields [] r = .ok (s, r')) :
    definedNames [s] = [name] ∧ List.Forall₂ (FieldMeans W c r0) fields (fieldsOf s) := by
  unfold generateInputType at h
  obtain ⟨extra, r1, h1, h⟩ := Gen.bind_ok.1 h
  obtain ⟨lits, r2, h2, h⟩ := Gen.bind_ok.1 h
  obtain ⟨fs, r3, h3, h⟩ := Gen.bind_ok.1 h
  obtain ⟨cfg, r4, h4, h⟩ := Gen.bind_ok.1 h
  obtain ⟨rfl, rfl⟩ := Gen.pure_ok.1 h
  obtain ⟨rfl, rfl⟩ := Gen.pure_ok.1 h2
  obtain ⟨s1, _⟩ := soft_additionalBasesFor h1
  refine ⟨rfl, ?_⟩
  have hdoc : fieldOf (docOrDefault desc) = none := rfl
  simp only [fieldsOf, List.nil_append, List.isEmpty_nil, Bool.not_true, Bool.false_and, Bool.false_eq_true, if_false,
    List.append_nil, List.cons_append, List.filterMap_cons_none hdoc, List.filterMap_append, config_no_fields h4]
  exact inputFields_fields (hs.soft s1) (s1.frame.1.trans h0) h3 hl

/-- the literal declarations come first in a member class -/
theorem generateInputType_literals {c : Ctx} {p : InputsConfig} {name tn : String} {desc : Option String}
    {fields : List InputFieldDef} {ds : List Discriminator} {s : Stmt} {r r' : Reg}
    (h : generateInputType c p name tn desc fields ds r = .ok (s, r')) :
    ∃ bs doc rest, s = .classDef name bs (.expr doc :: (ds.map discriminatorStmt ++ rest)) [] := by
  have hd : ∀ {ds : List Discriminator} {lits : List Stmt} {r r' : Reg}, discriminatorStmts ds r = .ok (lits, r') →
      lits = ds.map discriminatorStmt := by
    intro ds
    induction ds with
    | nil => intro lits r r' h; obtain ⟨rfl, _⟩ := Gen.pure_ok.1 h; rfl
    | cons d ds ih =>
      intro lits r r' h
      unfold discriminatorStmts at h
      obtain ⟨_, _, _, h⟩ := Gen.bind_ok.1 h
      obtain ⟨_, _, _, h⟩ := Gen.bind_ok.1 h
      obtain ⟨rest, _, h3, h⟩ := Gen.bind_ok.1 h
      obtain ⟨rfl, _⟩ := Gen.pure_ok.1 h
      rw [ih h3]; rfl
  unfold generateInputType at h
  obtain ⟨extra, r1, h1, h⟩ := Gen.bind_ok.1 h
  obtain ⟨lits, r2, h2, h⟩ := Gen.bind_ok.1 h
  obtain ⟨fs, r3, h3, h⟩ := Gen.bind_ok.1 h
  obtain ⟨cfg, r4, h4, h⟩ := Gen.bind_ok.1 h
  obtain ⟨rfl, rfl⟩ := Gen.pure_ok.1 h
  rw [hd h2]
  have he : ∃ doc, docOrDefault desc = .expr doc := by cases desc <;> exact ⟨_, rfl⟩
  obtain ⟨doc, he⟩ := he
  rw [he]
  simp only [List.append_assoc, List.cons_append]
  exact ⟨_, _, _, rfl⟩

theorem oneofWrapper_fields {W : World} {c : Ctx} {p : InputsConfig} {tn cn : String} {extra : List Expr} {f : InputFieldDef}
    {s : Stmt} {r r' r0 : Reg} (hs : Styled c.env r) (h0 : r.scalarMap = r0.scalarMap)
    (hl : ¬ Inst W (inputSideClass c r0) f.type.base .null)
    (h : oneofWrapper c p tn extra f r = .ok ((cn, s), r')) :
    Styled c.env r' ∧ r'.scalarMap = r0.scalarMap ∧ definedNames [s] = [cn] ∧
    ∃ m, fieldsOf s = [m] ∧ m.key = f.name ∧ m.hasDefault = false ∧
      ∀ v, Accepts W m.ann v ↔ v ≠ .null ∧ Legal (Inst W (inputSideClass c r0)) f.type v := by
  unfold oneofWrapper at h
  cases hg : generateClass c.env .input (tn ++ pascal f.name) r with
  | error e => rw [hg] at h; cases e <;> simp at h
  | ok q =>
    obtain ⟨classname, r1⟩ := q
    rw [hg] at h
    dsimp only at h
    obtain ⟨attr, r2, h2, h⟩ := Gen.bind_ok.1 h
    obtain ⟨a, r3, h3, h⟩ := Gen.bind_ok.1 h
    obtain ⟨a', r4, h4, h⟩ := Gen.bind_ok.1 h
    obtain ⟨v, r5, h5, h⟩ := Gen.bind_ok.1 h
    obtain ⟨cfg, r6, h6, h⟩ := Gen.bind_ok.1 h
    obtain ⟨he, rfl⟩ := Gen.pure_ok.1 h
    obtain ⟨rfl, rfl⟩ := Prod.mk.injEq .. ▸ he
    have hs1 := styled_generateClass hs hg
    obtain ⟨_, rfl⟩ := Gen.lift_ok.1 h2
    have hsm1 : r1.scalarMap = r0.scalarMap := by
      obtain ⟨_, _, rfl⟩ := generateClass_ok hg; exact h0
    rw [← inputSideClass_congr (c := c) hsm1] at hl
    obtain ⟨f3, hb⟩ := (inputAnnotation_shape W c classname).sound f.type trivial false _ _ _ hs1 h3 hl
    obtain ⟨f4, ha⟩ := annotateFieldMetadata_ok (W := W) h4
    obtain ⟨f5, hv, _, _⟩ := inputFieldValue_ok h5 a'
    have f6 : Frame r5 r6 := by
      unfold generatePydanticConfig at h6
      split at h6
      · unfold generateConfigDict at h6
        split at h6
        · obtain ⟨_, rfl⟩ := Gen.pure_ok.1 h6; exact Frame.refl _
        · obtain ⟨_, _, h7, h6⟩ := Gen.bind_ok.1 h6
          obtain ⟨_, rfl⟩ := Gen.pure_ok.1 h6
          exact frame_registerImport h7
      · obtain ⟨_, rfl⟩ := Gen.pure_ok.1 h6; exact Frame.refl _
    have fall := f3.trans (f4.trans (f5.trans f6))
    refine ⟨hs1.frame fall, fall.1.trans hsm1, rfl, ⟨f.name, false, a'⟩, ?_, rfl, rfl, ?_⟩
    · simp only [fieldsOf, List.cons_append, List.nil_append]
      rw [List.filterMap_cons_none (by rfl), List.filterMap_cons_some hv, config_no_fields h6]
    · intro x
      rw [ha, hb, ← inputSideClass_congr (c := c) hsm1]
      rfl

theorem oneofWrappers_fields {W : World} {c : Ctx} {p : InputsConfig} {tn : String} {extra : List Expr} {r0 : Reg}
    {fs : List InputFieldDef} : ∀ {ws : List (String × Stmt)} {r r' : Reg}, Styled c.env r → r.scalarMap = r0.scalarMap →
    (∀ f ∈ fs, ¬ Inst W (inputSideClass c r0) f.type.base .null) →
    oneofWrappers c p tn extra fs r = .ok (ws, r') →
    List.Forall₂ (fun f w => definedNames [w.2] = [w.1] ∧ ∃ m, fieldsOf w.2 = [m] ∧ m.key = f.name ∧ m.hasDefault = false ∧
      ∀ v, Accepts W m.ann v ↔ v ≠ .null ∧ Legal (Inst W (inputSideClass c r0)) f.type v) fs ws := by
  induction fs with
  | nil =>
    intro ws r r' _ _ _ h
    obtain ⟨rfl, rfl⟩ := Gen.pure_ok.1 h
    exact .nil
  | cons f fs ih =>
    intro ws r r' hs h0 hl h
    unfold oneofWrappers at h
    obtain ⟨⟨cn, s⟩, r1, h1, h⟩ := Gen.bind_ok.1 h
    obtain ⟨ws', r2, h2, h⟩ := Gen.bind_ok.1 h
    obtain ⟨rfl, rfl⟩ := Gen.pure_ok.1 h
    obtain ⟨hs1, hsm, hd, hm⟩ := oneofWrapper_fields hs h0 (hl f (by simp)) h1
    exact .cons ⟨hd, hm⟩ (ih hs1 hsm (fun g hg => hl g (by simp [hg])) h2)

theorem tagPairs {mcs : Dict String} :
    tagTable.pairs (mcs.map fun p => Expr.name p.2) (mcs.map fun p => Expr.str p.1) = mcs.map fun p => (p.2, p.1) := by
  induction mcs with
  | nil => rfl
  | cons p mcs ih => exact congrArg ((p.2, p.1) :: ·) ih

theorem mem_foldl_set {α : Type} {b : Dict α} : ∀ {a : Dict α} {q : String × α},
    q ∈ b.foldl (fun acc p => Dict.set acc p.1 p.2) a → q ∈ a ∨ q ∈ b := by
  induction b with
  | nil => intro a q h; exact .inl h
  | cons x b ih =>
    intro a q h
    rcases ih h with h | h
    · have hset : ∀ (d : Dict α) (k : String) (v : α) (q : String × α), q ∈ Dict.set d k v → q ∈ d ∨ q = (k, v) := by
        intro d k v q
        induction d with
        | nil => intro h; simp [Dict.set] at h; exact .inr h
        | cons e d ih =>
          intro h
          unfold Dict.set at h
          split at h
          · rcases List.mem_cons.1 h with rfl | h
            · exact .inr (by simp_all)
            · exact .inl (by simp [h])
          · rcases List.mem_cons.1 h with rfl | h
            · exact .inl (by simp)
            · rcases ih h with h | h
              · exact .inl (by simp [h])
              · exact .inr h
      rcases hset _ _ _ _ h with h | rfl
      · exact .inl h
      · exact .inr (by simp)
    · exact .inr (by simp [h])

theorem keys_foldl_set {α : Type} {b : Dict α} : ∀ {a : Dict α} {k : String},
    k ∈ a.keys ∨ k ∈ b.keys → k ∈ (b.foldl (fun acc p => Dict.set acc p.1 p.2) a).keys := by
  induction b with
  | nil => intro a k h; simpa [Dict.keys] using h
  | cons x b ih =>
    intro a k h
    refine ih ?_
    by_cases hk : k = x.1
    · subst hk
      left
      rw [← Dict.get?_isSome_iff, Dict.get?_set_self]; rfl
    · rcases h with h | h
      · left
        rw [← Dict.get?_isSome_iff, Dict.get?_set_ne _ _ (Ne.symm hk), Dict.get?_isSome_iff]; exact h
      · right
        simp only [Dict.keys, List.map_cons, List.mem_cons] at h
        exact h.resolve_left hk

theorem mem_of_get? {α : Type} {d : Dict α} {k : String} {v : α} (h : d.get? k = some v) : (k, v) ∈ d := by
  induction d with
  | nil => simp [Dict.get?] at h
  | cons e d ih =>
    obtain ⟨k', v'⟩ := e
    unfold Dict.get? at h
    split at h
    · cases h; simp_all
    · simp [ih h]

theorem oneofSerialize_ok {α : Type} {tags : Dict String} {mro : List String} {payload : α} {out : List (String × α)}
    (h : oneofSerialize tags mro payload = .ok out) :
    ∃ cls tag, (cls, tag) ∈ tags ∧ cls ∈ mro ∧ out = [(tag, payload)] := by
  unfold oneofSerialize at h
  dsimp only at h
  have hm : ∀ q, q ∈ Dict.merge [] tags → q ∈ tags := fun q hq => (mem_foldl_set hq).resolve_left (by simp)
  split at h
  · rename_i tag htag
    split at htag
    · rename_i own hown
      cases h
      exact ⟨own, tag, hm _ (mem_of_get? htag), List.mem_of_mem_head? hown, rfl⟩
    · cases htag
  · split at h
    · rename_i x cls tag hf
      cases h
      have h1 := List.mem_of_find?_eq_some hf
      have h2 := List.find?_some hf
      simp only [List.contains_iff_mem] at h2
      exact ⟨cls, tag, hm _ h1, h2, rfl⟩
    · cases h

theorem oneofSerialize_own {α : Type} {tags : Dict String} {cls tag : String} {mro : List String} {payload : α}
    (hn : (tags.map (·.1)).Nodup) (hm : (cls, tag) ∈ tags) :
    oneofSerialize tags (cls :: mro) payload = .ok [(tag, payload)] := by
  unfold oneofSerialize
  have : (Dict.merge [] tags).get? cls = some tag := by
    rw [Dict.get?_merge _ _ _ hn, Dict.get?_of_mem_nodup hn hm]; rfl
  simp [this]

theorem oneofSerialize_error {α : Type} {tags : Dict String} {mro : List String} {payload : α}
    (h : ∀ cls ∈ mro, cls ∉ tags.map (·.1)) : ∃ e, oneofSerialize tags mro payload = .error e := by
  cases ho : oneofSerialize tags mro payload with
  | error e => exact ⟨e, rfl⟩
  | ok out =>
    obtain ⟨cls, tag, h1, h2, _⟩ := oneofSerialize_ok ho
    exact absurd (List.mem_map.2 ⟨_, h1, rfl⟩) (h cls h2)

theorem oneofSerialize_member {α : Type} {tags : Dict String} {mro : List String} {payload : α} {cls : String}
    (h1 : cls ∈ mro) (h2 : cls ∈ tags.map (·.1)) : ∃ out, oneofSerialize tags mro payload = .ok out := by
  unfold oneofSerialize
  dsimp only
  split
  · exact ⟨_, rfl⟩
  · split
    · exact ⟨_, rfl⟩
    · rename_i hf
      exfalso
      rw [List.find?_eq_none] at hf
      have hk := keys_foldl_set (a := []) (b := tags) (k := cls) (.inr h2)
      obtain ⟨q, hq, rfl⟩ := List.mem_map.1 hk
      exact hf q hq (by simpa using h1)

theorem generateOneofDirectUnion_table {c : Ctx} {tn : String} {ms : Dict String} {us : List Stmt} {r r' : Reg}
    (hs : Styled c.env r) (h : generateOneofDirectUnion c tn ms r = .ok (us, r')) :
    ∃ cls fn tags body members, Kind.input.style c.env tn = .ok cls ∧
      us = [fn, .assign (.name cls) (sub "Annotated" (.tuple [members, .call (.name "WrapSerializer")
        [.name ("_serialize_" ++ camelToSnake cls)] []]))] ∧
      bound fn = ["_serialize_" ++ camelToSnake cls] ∧ tagTable fn = some tags ∧ body = freeNames members ∧
      List.Forall₂ (fun m q => q.2 = m.1 ∧ Kind.input.style c.env m.2 = .ok q.1) ms tags ∧
      (ms ≠ [] → ∀ n, n ∈ body ↔ (n = "Union" ∧ ms.length > 1) ∨ n ∈ tags.map (·.1)) := by
  unfold generateOneofDirectUnion at h
  obtain ⟨cls, r1, h1, h⟩ := Gen.bind_ok.1 h
  obtain ⟨mcs, r2, h2, h⟩ := Gen.bind_ok.1 h
  obtain ⟨_, r3, h3, h⟩ := Gen.bind_ok.1 h
  obtain ⟨_, r4, h4, h⟩ := Gen.bind_ok.1 h
  obtain ⟨_, r5, h5, h⟩ := Gen.bind_ok.1 h
  obtain ⟨rfl, rfl⟩ := Gen.pure_ok.1 h
  have hs1 := styled_generateClass hs h1
  obtain ⟨_, hst, _⟩ := generateClass_ok h1
  obtain ⟨rfl, hf⟩ := memberClasses_ok h2
  have hlen := hf.length_eq
  refine ⟨cls, _, mcs.map fun q => (q.2, q.1), _, _, hst, rfl, rfl, ?_, rfl, ?_, ?_⟩
  · simp only [tagTable, tagPairs]
  · rw [List.forall₂_map_right_iff]
    exact hf.imp fun m q hq => ⟨hq.1, hs1 .input _ _ hq.2⟩
  · intro hne n
    have hmap : ∀ l : List String, freeNamesL (l.map Expr.name) = l := by
      intro l
      induction l with
      | nil => rfl
      | cons m l ih => simp [freeNamesL, freeNames, ih]
    simp only [List.map_map, Function.comp_def]
    split
    · rename_i hl
      simp only [sub, freeNames, hmap, List.cons_append, List.nil_append, List.mem_cons, mem_dedupKeepFirst, hlen, hl,
        and_true]
    · rename_i hl
      match mcs, hlen, hl with
      | [], hlen, _ => exact absurd (List.length_eq_zero_iff.1 hlen) hne
      | [q], hlen, _ =>
        have : ms.length = 1 := hlen
        simp [freeNames, dedupKeepFirst, setAdd, this]
      | _ :: _ :: _, _, hl => simp at hl

theorem forall₂_mem_left {α β : Type} {R : α → β → Prop} {l : List α} {l' : List β} (h : List.Forall₂ R l l') {a : α}
    (ha : a ∈ l) : ∃ b ∈ l', R a b := by
  induction h with
  | nil => simp at ha
  | cons hr _ ih =>
    rcases List.mem_cons.1 ha with rfl | ha
    · exact ⟨_, by simp, hr⟩
    · obtain ⟨b, hb, h⟩ := ih ha
      exact ⟨b, by simp [hb], h⟩

theorem forall₂_and {α β : Type} {R S : α → β → Prop} {l : List α} {l' : List β} (h1 : List.Forall₂ R l l')
    (h2 : List.Forall₂ S l l') : List.Forall₂ (fun a b => R a b ∧ S a b) l l' := by
  induction h1 with
  | nil => exact .nil
  | cons hr _ ih =>
    cases h2 with
    | cons hs hss => exact .cons ⟨hr, hs⟩ (ih hss)

theorem generateUnionAlias_names {al : String} {ms : List String} {s : Stmt} {r r' : Reg}
    (h : generateUnionAlias al ms r = .ok (s, r')) :
    ∃ e, s = .assign (.name al) e ∧ ∀ n, n ∈ freeNames e ↔ (n = "Union" ∧ ms.length ≠ 1) ∨ n ∈ ms := by
  have hmap : ∀ ms : List String, freeNamesL (ms.map Expr.name) = ms := by
    intro ms
    induction ms with
    | nil => rfl
    | cons m ms ih => simp [freeNamesL, freeNames, ih]
  unfold generateUnionAlias at h
  split at h
  · obtain ⟨rfl, _⟩ := Gen.pure_ok.1 h
    exact ⟨_, rfl, by simp [freeNames]⟩
  · rename_i hne
    obtain ⟨_, _, _, h⟩ := Gen.bind_ok.1 h
    obtain ⟨rfl, _⟩ := Gen.pure_ok.1 h
    refine ⟨_, rfl, ?_⟩
    have hl : ms.length ≠ 1 := by
      intro hl
      obtain ⟨a, rfl⟩ := List.length_eq_one_iff.1 hl
      exact hne a rfl
    simp [sub, freeNames, hmap, hl]

theorem oneofWrappers_styles {c : Ctx} {p : InputsConfig} {tn : String} {extra : List Expr}
    {fs : List InputFieldDef} : ∀ {ws : List (String × Stmt)} {r r' : Reg},
    oneofWrappers c p tn extra fs r = .ok (ws, r') →
    List.Forall₂ (fun f w => Kind.input.style c.env (tn ++ upperFirst f.name) = .ok w.1) fs ws := by
  induction fs with
  | nil =>
    intro ws r r' h
    obtain ⟨rfl, rfl⟩ := Gen.pure_ok.1 h
    exact .nil
  | cons f fs ih =>
    intro ws r r' h
    unfold oneofWrappers at h
    obtain ⟨⟨cn, s⟩, r1, h1, h⟩ := Gen.bind_ok.1 h
    obtain ⟨ws', r2, h2, h⟩ := Gen.bind_ok.1 h
    obtain ⟨rfl, rfl⟩ := Gen.pure_ok.1 h
    refine .cons ?_ (ih h2)
    unfold oneofWrapper at h1
    cases hg : generateClass c.env .input (tn ++ pascal f.name) r with
    | error e => rw [hg] at h1; cases e <;> simp at h1
    | ok q =>
      obtain ⟨classname, r1⟩ := q
      rw [hg] at h1
      dsimp only at h1
      obtain ⟨_, _, _, h1⟩ := Gen.bind_ok.1 h1
      obtain ⟨_, _, _, h1⟩ := Gen.bind_ok.1 h1
      obtain ⟨_, _, _, h1⟩ := Gen.bind_ok.1 h1
      obtain ⟨_, _, _, h1⟩ := Gen.bind_ok.1 h1
      obtain ⟨_, _, _, h1⟩ := Gen.bind_ok.1 h1
      obtain ⟨he, _⟩ := Gen.pure_ok.1 h1
      obtain ⟨rfl, _⟩ := Prod.mk.injEq .. ▸ he
      exact (generateClass_ok hg).2.1

theorem generateOneofWrapperInput_fields {W : World} {c : Ctx} {p : InputsConfig} {tn : String} {r0 : Reg}
    {fs : List InputFieldDef} {ss : List Stmt} {r r' : Reg} (hs : Styled c.env r) (h0 : r.scalarMap = r0.scalarMap)
    (hl : ∀ f ∈ fs, ¬ Inst W (inputSideClass c r0) f.type.base .null)
    (h : generateOneofWrapperInput c p tn fs r = .ok (ss, r')) :
    ∃ cls ws members, Kind.input.style c.env tn = .ok cls ∧ ss = ws ++ [.assign (.name cls) members] ∧
      (∀ n, n ∈ freeNames members ↔ (n = "Union" ∧ fs.length ≠ 1) ∨ n ∈ definedNames ws) ∧
      List.Forall₂ (fun (f : InputFieldDef) (w : Stmt) => ∃ wn m,
        definedNames [w] = [wn] ∧ Kind.input.style c.env (tn ++ upperFirst f.name) = .ok wn ∧
        fieldsOf w = [m] ∧ m.key = f.name ∧ m.hasDefault = false ∧
        ∀ v, Accepts W m.ann v ↔ v ≠ .null ∧ Legal (Inst W (inputSideClass c r0)) f.type v) fs ws := by
  unfold generateOneofWrapperInput at h
  obtain ⟨extra, r1, h1, h⟩ := Gen.bind_ok.1 h
  obtain ⟨ws, r2, h2, h⟩ := Gen.bind_ok.1 h
  obtain ⟨cls, r3, h3, h⟩ := Gen.bind_ok.1 h
  obtain ⟨a, r4, h4, h⟩ := Gen.bind_ok.1 h
  obtain ⟨rfl, rfl⟩ := Gen.pure_ok.1 h
  obtain ⟨s1, _⟩ := soft_additionalBasesFor h1
  have hf := oneofWrappers_fields (hs.soft s1) (s1.frame.1.trans h0) hl h2
  have hst := oneofWrappers_styles h2
  obtain ⟨_, hcls, _⟩ := generateClass_ok h3
  obtain ⟨e, rfl, he⟩ := generateUnionAlias_names h4
  have hdn : ∀ {fs : List InputFieldDef} {ws : List (String × Stmt)} {R : InputFieldDef → String × Stmt → Prop},
      List.Forall₂ (fun f w => definedNames [w.2] = [w.1] ∧ R f w) fs ws →
      definedNames (ws.map (·.2)) = ws.map (·.1) := by
    intro fs ws R hh
    induction hh with
    | nil => rfl
    | @cons f w fs ws hr _ ih =>
      have : w.2 :: ws.map (·.2) = [w.2] ++ ws.map (·.2) := rfl
      rw [List.map_cons, List.map_cons, this, definedNames_append, hr.1, ih]; rfl
  refine ⟨cls, _, e, hcls, rfl, ?_, ?_⟩
  · intro n
    rw [he, hdn hf, List.length_map, hf.length_eq]
  · rw [List.forall₂_map_right_iff]
    refine (forall₂_and hf hst).imp ?_
    rintro f w ⟨⟨hd, m, hm⟩, hs1⟩
    exact ⟨_, m, hd, hs1, hm⟩

end Turms
