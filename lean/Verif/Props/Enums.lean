import Verif.Lemmas.InputsClass
import Verif.Spec.Enums
import Verif.Spec.EnumDocs
import Verif.Props.Referencer

/-! # C51, C60: what the enums plugin generates -/

namespace Turms.Props
open Turms Spec

theorem mem_enumTypes {s : Schema} {t : EnumType} : t ∈ enumTypes s ↔ EnumOf s t := by
  unfold enumTypes EnumOf
  rw [List.mem_filterMap]
  constructor
  · rintro ⟨⟨k, e⟩, he, h⟩
    dsimp only at h
    split at h
    · rename_i vs hvs
      cases h
      exact ⟨e, he, hvs, rfl⟩
    · cases h
  · rintro ⟨e, he, h1, h2⟩
    refine ⟨(t.name, e), he, ?_⟩
    dsimp only
    rw [h1, h2]

theorem enumTypes_nodup {s : Schema} (hn : s.types.keys.Nodup) : ((enumTypes s).map (·.name)).Nodup := by
  have hsub : ((enumTypes s).map (·.name)).Sublist s.types.keys := by
    unfold enumTypes Dict.keys
    generalize s.types = l
    induction l with
    | nil => simp
    | cons p l ih =>
      rw [List.filterMap_cons]
      split
      · exact ih.cons _
      · rename_i t ht
        split at ht
        · cases ht; exact ih.cons_cons _
        · cases ht
  exact hsub.nodup hn

theorem doubleUnderscored_iff (n : String) : doubleUnderscored n = true ↔ ∃ rest, n.toList = '_' :: '_' :: rest := by
  unfold doubleUnderscored
  rcases n.toList with _ | ⟨a, _ | ⟨b, l⟩⟩ <;> simp

theorem enumKept_iff (p : EnumsConfig) (n : String) : EnumKept p n ↔
    enumUnreferenced p n = false ∧
    (p.skipUnderscore && underscored n) = false ∧ (p.skipDoubleUnderscore && doubleUnderscored n) = false := by
  unfold EnumKept
  refine and_congr ?_ (and_congr ?_ ?_)
  · unfold enumUnreferenced; cases p.refEnums <;> simp
  · rw [← Bool.not_eq_true, Bool.and_eq_true, underscored_iff]
    have : (∃ rest, n.toList = '_' :: rest) ↔ n.toList.head? = some '_' := by
      rcases n.toList with _ | ⟨a, l⟩ <;> simp
    rw [this]
  · rw [← Bool.not_eq_true, Bool.and_eq_true, doubleUnderscored_iff]

theorem enumBody_evaluated (t : EnumType) : evaluatedL (enumBody t) = [] := by
  unfold enumBody
  rw [evaluatedL, evaluated, Expr.str, freeNames, List.nil_append]
  induction t.values with
  | nil => rfl
  | cons v vs ih =>
    rw [List.flatMap_cons, evaluatedL_append, ih]
    unfold enumValueStmts
    split <;> rfl

theorem enumStep_ok {c : Ctx} {p : EnumsConfig} {t : EnumType} {ss : List Stmt} {r r' : Reg}
    (he : External r "Enum") (h : enumStep c p t r = .ok (ss, r')) :
    (¬ EnumKept p t.name ∧ ss = [] ∧ r' = r) ∨
    (EnumKept p t.name ∧ Emits c.env .enum r r' [t.name] ss ∧
      ∃ cls, Kind.enum.style c.env t.name = .ok cls ∧ ss = [.classDef cls [.name "str", .name "Enum"] (enumBody t) []]) := by
  unfold enumStep at h
  split at h
  · rename_i h1
    obtain ⟨rfl, rfl⟩ := Gen.pure_ok.1 h
    refine .inl ⟨?_, rfl, rfl⟩
    rw [enumKept_iff]
    intro hh; rw [hh.1] at h1; cases h1
  split at h
  · rename_i h1
    obtain ⟨rfl, rfl⟩ := Gen.pure_ok.1 h
    refine .inl ⟨?_, rfl, rfl⟩
    rw [enumKept_iff]
    intro hh; rw [hh.2.1] at h1; cases h1
  split at h
  · rename_i h1
    obtain ⟨rfl, rfl⟩ := Gen.pure_ok.1 h
    refine .inl ⟨?_, rfl, rfl⟩
    rw [enumKept_iff]
    intro hh; rw [hh.2.2] at h1; cases h1
  rename_i h1 h2 h3
  obtain ⟨cls, r1, hg, h⟩ := Gen.bind_ok.1 h
  obtain ⟨rfl, rfl⟩ := Gen.pure_ok.1 h
  refine .inr ⟨by rw [enumKept_iff]; simp only [Bool.not_eq_true] at h1 h2 h3; exact ⟨h1, h2, h3⟩, ?_, ?_⟩
  · refine Emits.defineClass (s := .classDef cls [.name "str", .name "Enum"] (enumBody t) []) hg (Soft.refl _) rfl ?_
    intro n hn
    have hb := enumBody_evaluated t
    simp only [evaluated, freeNamesL, freeNames, hb, List.append_nil, List.nil_append, List.cons_append, List.mem_cons, List.not_mem_nil, or_false] at hn
    obtain ⟨_, _, rfl⟩ := generateClass_ok hg
    rcases hn with rfl | rfl
    · exact .inl (.inr (.inl (by decide +kernel)))
    · exact .inl (external_setClass.2 he)
  · obtain ⟨_, hs, _⟩ := generateClass_ok hg
    exact ⟨cls, hs, rfl⟩

theorem enumLoop_ok {c : Ctx} {p : EnumsConfig} (ts : List EnumType) : ∀ {ss : List Stmt} {r r' : Reg},
    External r "Enum" → enumLoop c p ts r = .ok (ss, r') →
    Emits c.env .enum r r' ((ts.filter (fun t => open Classical in decide (EnumKept p t.name))).map (·.name)) ss ∧
    List.Forall₂ (fun (t : EnumType) (s : Stmt) => ∃ cls, Kind.enum.style c.env t.name = .ok cls ∧
      s = .classDef cls [.name "str", .name "Enum"] (enumBody t) [])
      (ts.filter (fun t => open Classical in decide (EnumKept p t.name))) ss := by
  induction ts with
  | nil =>
    intro ss r r' _ h
    obtain ⟨rfl, rfl⟩ := Gen.pure_ok.1 h
    exact ⟨Emits.nil (Soft.refl _), .nil⟩
  | cons t ts ih =>
    intro ss r r' he h
    unfold enumLoop at h
    obtain ⟨s, r1, h1, h⟩ := Gen.bind_ok.1 h
    obtain ⟨ss', r2, h2, h⟩ := Gen.bind_ok.1 h
    obtain ⟨rfl, rfl⟩ := Gen.pure_ok.1 h
    rcases enumStep_ok he h1 with ⟨hk, rfl, rfl⟩ | ⟨hk, e, cls, hs, rfl⟩
    · rw [List.filter_cons_of_neg (by simpa using hk)]
      exact ih he h2
    · rw [List.filter_cons_of_pos (by simpa using hk)]
      obtain ⟨e2, f2⟩ := ih (e.ext _ he) h2
      exact ⟨e.append e2, .cons ⟨cls, hs, rfl⟩ f2⟩

theorem generateEnums_ok {c : Ctx} {p : EnumsConfig} {ss : List Stmt} {r r' : Reg}
    (h : generateEnums c p r = .ok (ss, r')) :
    Emits c.env .enum r r' (((enumTypes c.schema).filter (fun t => open Classical in decide (EnumKept p t.name))).map (·.name)) ss ∧
    List.Forall₂ (fun (t : EnumType) (s : Stmt) => ∃ cls, Kind.enum.style c.env t.name = .ok cls ∧
      s = .classDef cls [.name "str", .name "Enum"] (enumBody t) [])
      ((enumTypes c.schema).filter (fun t => open Classical in decide (EnumKept p t.name))) ss := by
  unfold generateEnums at h
  obtain ⟨_, r1, h1, h⟩ := Gen.bind_ok.1 h
  obtain ⟨hs, he⟩ := soft_registerImport h1
  have he : External r1 "Enum" := he.at (by decide +kernel)
  obtain ⟨e, f⟩ := enumLoop_ok _ he h
  exact ⟨e.softLeft hs, f⟩

/-- the class of a kept enum -/
theorem enumClass_mem {c : Ctx} {p : EnumsConfig} {ss : List Stmt} {r r' : Reg} {t : EnumType}
    (h : generateEnums c p r = .ok (ss, r')) (ht : EnumOf c.schema t) (hk : EnumKept p t.name) :
    ∃ cls, Kind.enum.style c.env t.name = .ok cls ∧ .classDef cls [.name "str", .name "Enum"] (enumBody t) [] ∈ ss := by
  obtain ⟨_, f⟩ := generateEnums_ok h
  have hm : t ∈ (enumTypes c.schema).filter (fun t => open Classical in decide (EnumKept p t.name)) := by
    rw [List.mem_filter, mem_enumTypes]; simpa using ⟨ht, hk⟩
  obtain ⟨s, hs, cls, hst, rfl⟩ := forall₂_mem_left f hm
  exact ⟨cls, hst, hs⟩

/-! ## C51 -/

/-- C51: the plugin emits exactly one class per enum that the documented rules keep, in the order of the schema,
with its styled name; all of them are `str` enums. -/
theorem C51_each_kept_enum_once (c : Ctx) (p : EnumsConfig) (ops : List Op) (ss : List Stmt) (r' : Reg)
    (hn : c.schema.types.keys.Nodup) (h : generateEnums c p (stateAfter c.env ops) = .ok (ss, r')) :
    ∃ kept : List EnumType, kept.Sublist (enumTypes c.schema) ∧ (kept.map (·.name)).Nodup ∧
      (∀ t, t ∈ kept ↔ EnumOf c.schema t ∧ EnumKept p t.name) ∧
      List.Forall₂ (fun (t : EnumType) (s : Stmt) => ∃ cls body, Kind.enum.style c.env t.name = .ok cls ∧
        s = .classDef cls [.name "str", .name "Enum"] body []) kept ss := by
  obtain ⟨_, f⟩ := generateEnums_ok h
  refine ⟨_, List.filter_sublist .., ?_, ?_, f.imp (fun t s ⟨cls, h1, h2⟩ => ⟨cls, _, h1, h2⟩)⟩
  · exact ((List.filter_sublist (l := enumTypes c.schema)).map _).nodup (enumTypes_nodup hn)
  · intro t; rw [List.mem_filter, mem_enumTypes]; simp

theorem enumMembers_values (vs : List EnumValueDef) (acc : List (String × String))
    (hacc : acc.map (·.1) = acc.map (·.2)) (hnd : (acc.map (·.1) ++ vs.map (·.name)).Nodup) :
    enumMembers (vs.flatMap enumValueStmts) acc =
      if ∀ v ∈ vs, EnumMemberName v.name then some (acc ++ vs.map (fun v => (v.name, v.name))) else none := by
  induction vs generalizing acc with
  | nil => simp [enumMembers]
  | cons v vs ih =>
    have hv : enumMembers ((v :: vs).flatMap enumValueStmts) acc =
        if EnumMemberName v.name then enumMembers (vs.flatMap enumValueStmts) (acc ++ [(v.name, v.name)]) else none := by
      rw [List.map_cons, List.nodup_append] at hnd
      have hnot : v.name ∉ acc.map (·.1) := fun hx => hnd.2.2 _ hx _ (by simp) rfl
      rw [List.flatMap_cons]
      unfold enumValueStmts
      have : ∀ l, enumMembers (.assign (.name v.name) (.str v.name) :: l) acc =
          if EnumMemberName v.name then enumMembers l (acc ++ [(v.name, v.name)]) else none := by
        intro l
        have hnot2 : v.name ∉ acc.map (·.2) := hacc ▸ hnot
        unfold Expr.str
        rw [enumMembers]
        simp only [hnot, hnot2, not_false_eq_true, and_true]
      rw [List.cons_append, this]
      cases enumComment v with
      | none => rfl
      | some cm => rfl
    rw [hv]
    by_cases hm : EnumMemberName v.name
    · rw [if_pos hm, ih _ (by simp [hacc]) (by simpa using hnd)]
      simp [hm]
    · rw [if_neg hm, if_neg (by simp [hm])]

/-- C51: the class Python makes of a generated enum has one member per GraphQL value, in order, named and valued by
it — exactly when all value names are ones that Python accepts for enum members. -/
theorem C51_members (c : Ctx) (p : EnumsConfig) (ops : List Op) (ss : List Stmt) (r' : Reg)
    (h : generateEnums c p (stateAfter c.env ops) = .ok (ss, r')) (t : EnumType) (ht : EnumOf c.schema t)
    (hk : EnumKept p t.name) (hu : (t.values.map (·.name)).Nodup) :
    ∃ cls body, Kind.enum.style c.env t.name = .ok cls ∧ .classDef cls [.name "str", .name "Enum"] body [] ∈ ss ∧
      enumMembers body [] =
        if ∀ v ∈ t.values, EnumMemberName v.name then some (t.values.map (fun v => (v.name, v.name))) else none := by
  obtain ⟨cls, hst, hs⟩ := enumClass_mem h ht hk
  refine ⟨cls, _, hst, hs, ?_⟩
  have := enumMembers_values t.values [] rfl (by simpa using hu)
  rw [List.nil_append] at this
  rw [← this]
  rfl

theorem nonBlank_some {t : Option String} {x : String} : nonBlank t = some x ↔ Written t x := by
  unfold nonBlank Written
  cases t with
  | none => simp
  | some y =>
    dsimp only
    split
    · rename_i h; subst h; simp only [reduceCtorEq, Option.some.injEq, false_iff, not_and]; rintro rfl h; exact h rfl
    · rename_i h; simp; rintro rfl; exact h

theorem nonBlank_none {t : Option String} : nonBlank t = none ↔ ∀ x, ¬ Written t x := by
  constructor
  · intro h x hx
    rw [nonBlank_some.2 hx] at h
    cases h
  · intro h
    cases e : nonBlank t with
    | none => rfl
    | some x => exact (h x (nonBlank_some.1 e)).elim

/-- C51: the generated class carries the description of the enum and of each of its values, and marks the deprecated
values. -/
theorem C51_documentation (c : Ctx) (p : EnumsConfig) (ops : List Op) (ss : List Stmt) (r' : Reg)
    (h : generateEnums c p (stateAfter c.env ops) = .ok (ss, r')) (t : EnumType) (ht : EnumOf c.schema t)
    (hk : EnumKept p t.name) :
    ∃ cls body, Kind.enum.style c.env t.name = .ok cls ∧ .classDef cls [.name "str", .name "Enum"] body [] ∈ ss ∧
      EnumBody t body := by
  obtain ⟨cls, hst, hs⟩ := enumClass_mem h ht hk
  refine ⟨cls, _, hst, hs, ?_⟩
  have hv : ∀ v : EnumValueDef, ∃ docs, enumValueStmts v = .assign (.name v.name) (.str v.name) :: docs ∧ ValueDoc v docs := by
    intro v
    unfold enumValueStmts enumComment
    refine ⟨_, rfl, ?_⟩
    cases hd : nonBlank v.deprecation with
    | none =>
      have hd := nonBlank_none.1 hd
      cases hx : nonBlank v.description with
      | none => exact .nothing hd (nonBlank_none.1 hx)
      | some x => exact .described hd (nonBlank_some.1 hx)
    | some x =>
      have hd := nonBlank_some.1 hd
      cases hx : v.description with
      | none => exact .undescribed hd hx
      | some y => exact .deprecated hd hx
  have hvs : ∀ vs : List EnumValueDef, ∃ docs, List.Forall₂ ValueDoc vs docs ∧ vs.flatMap enumValueStmts =
      (vs.zip docs).flatMap fun p => .assign (.name p.1.name) (.str p.1.name) :: p.2 := by
    intro vs
    induction vs with
    | nil => exact ⟨[], .nil, rfl⟩
    | cons v vs ih =>
      obtain ⟨docs, h1, h2⟩ := ih
      obtain ⟨d, h3, h4⟩ := hv v
      exact ⟨d :: docs, .cons h4 h1, by rw [List.flatMap_cons, h2, h3, List.zip_cons_cons, List.flatMap_cons]⟩
  obtain ⟨docs, h1, h2⟩ := hvs t.values
  unfold enumBody
  rw [h2]
  exact .mk (fun x hx => by rw [nonBlank_some.2 hx]; rfl) (fun hx => by rw [nonBlank_none.2 hx]; rfl) h1

/-- C60: the statements of the plugin meet no unbound name, and no other class map changes. -/
theorem C60_enums_resolve (c : Ctx) (p : EnumsConfig) (ops : List Op) (ss : List Stmt) (r' : Reg)
    (h : generateEnums c p (stateAfter c.env ops) = .ok (ss, r')) :
    Resolves (External r') ss ∧ ∀ k, k ≠ .enum → r'.classMap k = (stateAfter c.env ops).classMap k := by
  obtain ⟨e, f⟩ := generateEnums_ok h
  refine ⟨?_, e.other⟩
  have hE : External r' "Enum" := by
    unfold generateEnums at h
    obtain ⟨_, r1, h1, h⟩ := Gen.bind_ok.1 h
    obtain ⟨hs, he⟩ := soft_registerImport h1
    exact (enumLoop_ok _ (he.at (by decide +kernel)) h).1.ext _ (he.at (by decide +kernel))
  clear h e
  suffices H : ∀ ext : String → Prop, ext "str" → ext "Enum" → Resolves ext ss from
    H _ (.inr (.inl (by decide +kernel))) hE
  intro ext h1 h2
  generalize (enumTypes c.schema).filter _ = l at f
  induction f generalizing ext with
  | nil => trivial
  | @cons t s _ _ hp _ ih =>
    refine ⟨?_, ih _ (.inl h1) (.inl h2)⟩
    obtain ⟨cls, _, rfl⟩ := hp
    intro n hn
    have hb := enumBody_evaluated t
    simp only [evaluated, freeNamesL, freeNames, hb, List.append_nil, List.nil_append, List.cons_append, List.mem_cons, List.not_mem_nil, or_false] at hn
    rcases hn with rfl | rfl
    · exact h1
    · exact h2

/-! ### example and counterexamples -/

/-- two enums, one skipped -/
def enumsCtx : Ctx :=
  { schema := { types := [("Color", ⟨.enum [{ name := "RED", description := some "warm" }, { name := "BLUE", deprecation := some "old" }], none⟩),
      ("__Internal", ⟨.enum [{ name := "A" }], none⟩), ("Int", ⟨.scalar, none⟩)] } }

example : (generateEnums enumsCtx {} (stateAfter {} [])).toOption.map (fun x => x.1.map fun s => match s with
      | .classDef n _ b _ => (n, enumMembers b [])
      | _ => ("", none)) = some [("Color", some [("RED", "RED"), ("BLUE", "BLUE")])] := by decide +kernel

/-- C51 is false of the code for enum values that are Python keywords (GraphQL forbids only `true`, `false` and
`null`): whatever the enum, the schema and the configuration, the emitted class is not valid Python. -/
theorem C51_keyword_value_counterexample (c : Ctx) (p : EnumsConfig) (ops : List Op) (ss : List Stmt) (r' : Reg)
    (h : generateEnums c p (stateAfter c.env ops) = .ok (ss, r')) (t : EnumType) (ht : EnumOf c.schema t)
    (hk : EnumKept p t.name) (hu : (t.values.map (·.name)).Nodup) (v : EnumValueDef) (hv : v ∈ t.values)
    (hkw : v.name ∈ ["None", "class", "import", "from", "global", "is", "in", "not", "or", "and", "async"]) :
    ∃ cls body, .classDef cls [.name "str", .name "Enum"] body [] ∈ ss ∧ .assign (.name v.name) (.str v.name) ∈ body ∧
      enumMembers body [] = none := by
  obtain ⟨cls, hst, hs⟩ := enumClass_mem h ht hk
  refine ⟨cls, enumBody t, hs, ?_, ?_⟩
  · refine List.mem_cons_of_mem _ (List.mem_flatMap.2 ⟨v, hv, ?_⟩)
    unfold enumValueStmts
    exact List.mem_cons_self ..
  · have := enumMembers_values t.values [] rfl (by simpa using hu)
    rw [if_neg] at this
    · exact this
    · intro hall
      have := (hall v hv).1
      revert this
      simp only [List.mem_cons, List.not_mem_nil, or_false] at hkw
      rcases hkw with e | e | e | e | e | e | e | e | e | e | e <;> rw [e] <;> decide +kernel

/-- The plugin's documentation says that `prepend` and `append` are added to the generated enums. They are ignored. -/
theorem C51_prepend_append_ignored_counterexample (c : Ctx) (p : EnumsConfig) (pre post : String) :
    generateEnums c { p with prepend := pre, append := post } = generateEnums c p := by
  have h1 : ∀ t, enumStep c { p with prepend := pre, append := post } t = enumStep c p t := fun t => rfl
  have h2 : ∀ ts, enumLoop c { p with prepend := pre, append := post } ts = enumLoop c p ts := by
    intro ts
    induction ts with
    | nil => rfl
    | cons t ts ih => unfold enumLoop; rw [ih, h1]
  unfold generateEnums
  rw [h2]

end Turms.Props
