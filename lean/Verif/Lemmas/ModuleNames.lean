import Verif.Lemmas.DistinctNames
import Verif.Lemmas.InputsPlugin
import Verif.Model.FragmentsPlugin

/-! # The names of the classes of fragments, and of whole modules -/

namespace Turms
open Spec

/-! ## fragments -/

theorem yields_fragImplementingClasses {c : Ctx} {name : String} {p : InterfaceParts} (is : List Implementation) :
    Yields (fragImplementingClasses c name p is) fun ss => boundL ss = is.map fun i => name ++ i.name := by
  induction is with
  | nil => exact .pure rfl
  | cons i is ih =>
    unfold fragImplementingClasses
    refine Yields.bind (Q := fun s => bound s = [name ++ i.name]) ?_ fun s hs => ih.bind fun ss hss => .pure ?_
    · unfold fragImplementingClass
      exact .then fun _ => .then fun _ => .then fun _ => .pure rfl
    · unfold boundL at *
      rw [List.flatMap_cons, hs, hss]
      rfl

theorem yields_fragMemberClasses {c : Ctx} {p : FragmentsConfig} {name : String} {q : InterfaceParts} (ms : List String) :
    Yields (fragMemberClasses c p name q ms) fun ss => boundL ss = ms.map (name ++ ·) := by
  induction ms with
  | nil => exact .pure rfl
  | cons m ms ih =>
    unfold fragMemberClasses
    refine Yields.bind (Q := fun s => bound s = [name ++ m]) ?_ fun s hs => ih.bind fun ss hss => .pure ?_
    · unfold fragMemberClass
      exact .then fun _ => .then fun _ => .pure rfl
    · unfold boundL at *
      rw [List.flatMap_cons, hs, hss]
      rfl

theorem yields_typeFieldNode {c : Ctx} {cls n : String} {fd : FieldDef} {a : Option String} {sub : List Sel} :
    Yields (typeFieldNode c cls fd n a sub) fun x => Named c.schema cls (itemsAt c.schema (a.getD n) fd.type.base sub) x.2 := by
  unfold typeFieldNode recurseNamed
  exact yields_typeField (P := Named c.schema cls _) fun opt => yields_namedNode
    (fun n fs k => yields_objectSels sub n fs k) (fun fs k => yields_interfaceSels sub fs k)
    (yields_unionSels sub _) _ opt

theorem yields_assertFieldDef {s : Schema} {t n : String} :
    Yields (assertFieldDef s t n) fun fd => getFieldDef s t n = some fd := by
  unfold assertFieldDef
  split
  · rename_i fd h; exact .pure h
  · exact .fail

theorem yields_fragObjectSels {c : Ctx} {t name : String} (ss : List Sel) :
    Yields (fragObjectSels c t name ss) fun p => Named c.schema name (nestedSels c.schema (getFieldDef c.schema t) ss) p.classes := by
  induction ss with
  | nil => exact .pure Named.nil
  | cons s rest ih =>
    unfold fragObjectSels
    rw [nestedSels]
    refine Yields.bind (Q := fun p => Named c.schema name (nestedSel c.schema (getFieldDef c.schema t) s) p.classes) ?_
      fun x ha => ih.bind fun y hb => .pure (Named.append (a := x.classes) (b := y.classes) ha hb)
    cases s with
    | spread f => unfold fragObjectSel; exact .then fun _ => .pure Named.nil
    | inline t sub => unfold fragObjectSel; exact .pure Named.nil
    | field n a as sub =>
      unfold fragObjectSel
      refine .ite (fun _ => .pure Named.nil) fun _ => yields_assertFieldDef.bind fun fd hfd => ?_
      rw [nestedSel_field hfd]
      exact yields_typeFieldNode.bind fun x hx => .pure hx

theorem yields_fragInterfaceSels {c : Ctx} {t name : String} {fs : List FieldDef} {is : List String}
    (ht : c.schema.lookup t = some (.interface fs is)) (ss : List Sel) :
    Yields (fragInterfaceSels c fs name ss) fun p => Named c.schema name (nestedSels c.schema (declared c.schema t) ss) p.classes := by
  have hd : (fun n => fs.find? (·.name == n)) = declared c.schema t := by
    funext n
    unfold declared Schema.fieldsOf
    rw [ht]
    rfl
  induction ss with
  | nil => exact .pure Named.nil
  | cons s rest ih =>
    unfold fragInterfaceSels
    rw [nestedSels]
    refine Yields.bind (Q := fun p => Named c.schema name (nestedSel c.schema (declared c.schema t) s) p.classes) ?_
      fun x ha => ih.bind fun y hb => .pure (Named.append (a := x.classes) (b := y.classes) ha hb)
    rw [← hd]
    cases s with
    | spread f => exact yields_interfaceSel _ fs name
    | field n a as sub => exact yields_interfaceSel _ fs name
    | inline t' sub =>
      cases t' with
      | none => exact yields_interfaceSel _ fs name
      | some t' =>
        unfold fragInterfaceSel
        rw [nestedSel]
        exact (yields_inlineSels sub t' name).bind fun x hx => .pure hx

theorem yields_fragUnionInlineSels {c : Ctx} {t name : String} (ss : List Sel) :
    Yields (fragUnionInlineSels c t name ss) fun p => Named c.schema name (nestedSels c.schema (getFieldDef c.schema t) ss) p.classes := by
  induction ss with
  | nil => exact .pure Named.nil
  | cons s rest ih =>
    unfold fragUnionInlineSels
    rw [nestedSels]
    refine Yields.bind (Q := fun p => Named c.schema name (nestedSel c.schema (getFieldDef c.schema t) s) p.classes) ?_
      fun x ha => ih.bind fun y hb => .pure (Named.append (a := x.classes) (b := y.classes) ha hb)
    cases s with
    | spread f => unfold fragUnionInlineSel; exact .pure Named.nil
    | inline t sub => unfold fragUnionInlineSel; exact .pure Named.nil
    | field n a as sub =>
      unfold fragUnionInlineSel
      refine .ite (fun _ => .pure Named.nil) fun _ => yields_assertFieldDef.bind fun fd hfd => ?_
      rw [nestedSel_field hfd]
      exact yields_typeFieldNode.bind fun x hx => .pure hx

theorem yields_fragUnionSels {c : Ctx} {name : String} {look : String → Option FieldDef} (ss : List Sel) :
    Yields (fragUnionSels c name ss) fun p => Named c.schema name (nestedSels c.schema look ss) p.classes := by
  induction ss with
  | nil => exact .pure Named.nil
  | cons s rest ih =>
    unfold fragUnionSels
    rw [nestedSels]
    refine Yields.bind (Q := fun p => Named c.schema name (nestedSel c.schema look s) p.classes) ?_
      fun x ha => ih.bind fun y hb => .pure (Named.append (a := x.classes) (b := y.classes) ha hb)
    cases s with
    | spread f => unfold fragUnionSel; exact .then fun _ => .pure Named.nil
    | field n a as sub => unfold fragUnionSel; exact .ite (fun _ => .pure Named.nil) fun _ => .fail
    | inline t sub =>
      cases t with
      | none => unfold fragUnionSel; exact .fail
      | some t =>
        unfold fragUnionSel
        rw [nestedSel]
        exact (yields_fragUnionInlineSels sub).bind fun x hx => .pure hx

/-- the names of the classes of a fragment -/
def Names (s : Schema) (f : FragDef) (cls : String) (names : List String) : Prop :=
  ∃ nested : List String, nested.Sublist ((nestedOfFragment s f).flatMap (namesAt s cls)) ∧
    names = nested ++ (ownSuffixes s f).map (cls ++ ·)

theorem yields_fragmentBody {prep : List Char → List Char} {c : Ctx} {p : FragmentsConfig} {f : FragDef} {name : String}
    {e : TypeEntry} (he : c.schema.types.get? f.typeCondition = some e) :
    Yields (fragmentBody prep c p f name e) fun ss => Names c.schema f name (boundL ss) := by
  have hl : c.schema.lookup f.typeCondition = some e.defn := by
    unfold Schema.lookup
    rw [he]
    rfl
  unfold fragmentBody
  split
  · rename_i fs is d
    unfold interfaceFragment
    refine .then fun _ => (yields_fragInterfaceSels (t := f.typeCondition) hl f.sels).bind fun q hq =>
      .then fun _ => .then fun _ => (yields_fragImplementingClasses _).bind fun impls himpls => .then fun _ => .pure ?_
    refine ⟨boundL q.classes, ?_, ?_⟩
    · unfold nestedOfFragment
      rw [hl]
      exact hq
    · rw [boundL_append, boundL_append, himpls]
      unfold ownSuffixes
      rw [hl]
      simp [boundL, bound, List.map_map, Function.comp_def]
  · rename_i fs is d
    unfold objectFragment
    refine .then fun _ => .then fun _ => (yields_fragObjectSels f.sels).bind fun q hq =>
      .then fun _ => .then fun _ => .then fun _ => .pure ?_
    refine ⟨boundL q.classes, ?_, ?_⟩
    · unfold nestedOfFragment
      rw [hl]
      exact hq
    · rw [boundL_append]
      unfold ownSuffixes
      rw [hl]
      simp [boundL, bound]
  · rename_i ms d
    unfold unionFragment
    refine .then fun _ => (yields_fragUnionSels (look := getFieldDef c.schema f.typeCondition) f.sels).bind fun q hq => (yields_fragMemberClasses _).bind fun cs hcs =>
      .then fun _ => .then fun _ => .pure ?_
    refine ⟨boundL q.classes, ?_, ?_⟩
    · unfold nestedOfFragment
      rw [hl]
      exact hq
    · rw [boundL_append, boundL_append, boundL_append, hcs]
      unfold ownSuffixes
      rw [hl]
      split <;> simp [boundL, bound]
  · exact .fail

/-- the classes of a fragment -/
theorem generateFragment_names {prep : List Char → List Char} {c : Ctx} {p : FragmentsConfig} {f : FragDef}
    {r r' : Reg} {ss : List Stmt} (h : generateFragment prep c p f r = .ok (ss, r')) :
    ∃ cls, Kind.fragment.style c.env f.name = .ok cls ∧ Names c.schema f cls (boundL ss) := by
  unfold generateFragment at h
  cases he : c.schema.types.get? f.typeCondition with
  | none => rw [he] at h; cases h
  | some e =>
    rw [he] at h
    obtain ⟨cls, r1, h1, h⟩ := Gen.bind_ok.1 h
    obtain ⟨_, r2, h2, h⟩ := Gen.bind_ok.1 h
    obtain ⟨_, r3, h3, h⟩ := Gen.bind_ok.1 h
    exact ⟨cls, (generateClass_ok h1).2.1, yields_fragmentBody he _ _ _ h⟩

/-! ## they are distinct -/

theorem prefix_of_namesAt {s : Schema} {pre a : String} {n : Nested} (h : a ∈ namesAt s pre n) :
    pre.toList <+: a.toList := by
  obtain ⟨x, _, e⟩ := mem_namesAt h
  exact ⟨_, e.symm⟩

theorem nestedOfFragment_path {s : Schema} {f : FragDef} : ∀ n ∈ nestedOfFragment s f, n.path ≠ [] := by
  unfold nestedOfFragment
  split
  · exact nestedSels_path _ _
  · exact nestedSels_path _ _

theorem append_inj_left {a x y : String} (h : a ++ x = a ++ y) : x = y :=
  String.toList_inj.1 (List.append_cancel_left (as := a.toList) (by rw [← String.toList_append, ← String.toList_append, h]))

theorem own_apart {s : Schema} {f : FragDef} (h : ClearFragment s f) {n : Nested} (hn : n ∈ nestedOfFragment s f)
    {cls x : String} (hx : x ∈ ownSuffixes s f) (ha : cls ++ x ∈ namesAt s cls n) : False := by
  obtain ⟨y, _, e⟩ := mem_namesAt ha
  rw [String.toList_append] at e
  have e := List.append_cancel_left e
  cases hp : n.path with
  | nil => exact nestedOfFragment_path n hn hp
  | cons k rest =>
    rw [hp] at e
    have hpre : (stepName k).toList <+: x.toList := by
      rw [e, ← wordsAt_flatten]
      unfold wordsOf
      rw [List.flatMap_cons, List.flatten_append, List.append_assoc]
      exact ⟨_, rfl⟩
    cases k with
    | key k =>
      refine h.apart n hn k rest hp x hx ?_
      have := hpre.map Char.toLower
      unfold stepName at this
      rw [caseless_capitalize] at this
      exact this
    | member t => exact h.members n hn t rest hp x hx hpre

theorem fragment_names_nodup {s : Schema} (h : s.types.keys.Nodup) (hempty : "" ∉ s.types.keys) {f : FragDef}
    (hc : ClearFragment s f) {cls : String} {names : List String} (hn : Names s f cls names) : names.Nodup := by
  obtain ⟨nested, hsub, rfl⟩ := hn
  rw [List.nodup_append]
  refine ⟨?_, ?_, ?_⟩
  · have := names_nodup h hempty hc.paths nestedOfFragment_path cls
    rw [List.nodup_append] at this
    exact this.1.sublist hsub
  · exact hc.own.map fun a b hab => append_inj_left hab
  · intro a ha b hb hab
    subst hab
    obtain ⟨n, hn, ha⟩ := List.mem_flatMap.1 (hsub.subset ha)
    obtain ⟨x, hx, rfl⟩ := List.mem_map.1 hb
    exact own_apart hc hn hx ha

theorem fragment_names_prefix {s : Schema} {f : FragDef} {cls : String} {names : List String} (hn : Names s f cls names) :
    ∀ a ∈ names, cls.toList <+: a.toList := by
  obtain ⟨nested, hsub, rfl⟩ := hn
  intro a ha
  rcases List.mem_append.1 ha with ha | ha
  · obtain ⟨n, _, ha⟩ := List.mem_flatMap.1 (hsub.subset ha)
    exact prefix_of_namesAt ha
  · obtain ⟨x, _, rfl⟩ := List.mem_map.1 ha
    exact ⟨x.toList, by rw [String.toList_append]⟩

theorem operation_names_prefix {prep : List Char → List Char} {c : Ctx} {p : OperationsConfig} {o : OpDef}
    {r r' : Reg} {ss : List Stmt} (h : generateOperation prep c p o r = .ok (ss, r')) :
    ∃ name cls, o.name = some name ∧ o.kind.kind.style c.env name = .ok cls ∧ ∀ a ∈ boundL ss, cls.toList <+: a.toList := by
  obtain ⟨name, cls, root, nested, bases, body, hn, hs, _, rfl, hN⟩ := generateOperation_names h
  refine ⟨name, cls, hn, hs, fun a ha => ?_⟩
  rw [boundL_append] at ha
  rcases List.mem_append.1 ha with ha | ha
  · obtain ⟨n, _, ha⟩ := List.mem_flatMap.1 (hN.subset ha)
    exact prefix_of_namesAt ha
  · have : a = cls := by simpa [boundL, bound] using ha
    rw [this]
    exact List.prefix_refl _

/-- names that continue `x` and names that continue `y` differ, unless one of `x` and `y` continues the other -/
theorem prefix_apart {x y a : List Char} (h1 : ¬ x <+: y) (h2 : ¬ y <+: x) (hx : x <+: a) (hy : y <+: a) : False :=
  (List.prefix_or_prefix_of_prefix hx hy).elim h1 h2

/-! ## several definitions -/

/-- the names of `ss` are distinct and each begins with one of the class names `P` -/
def Prefixed (P : String → Prop) (ss : List Stmt) : Prop :=
  (boundL ss).Nodup ∧ ∀ a ∈ boundL ss, ∃ x, P x ∧ x.toList <+: a.toList

theorem Prefixed.append {P Q : String → Prop} {a b : List Stmt} (ha : Prefixed P a) (hb : Prefixed Q b)
    (h : ∀ x y, P x → Q y → ¬ x.toList <+: y.toList ∧ ¬ y.toList <+: x.toList) : Prefixed (fun x => P x ∨ Q x) (a ++ b) := by
  refine ⟨?_, fun n hn => ?_⟩
  · rw [boundL_append, List.nodup_append]
    refine ⟨ha.1, hb.1, ?_⟩
    rintro n hn m hm rfl
    obtain ⟨x, hx, h1⟩ := ha.2 n hn
    obtain ⟨y, hy, h2⟩ := hb.2 n hm
    exact prefix_apart (h x y hx hy).1 (h x y hx hy).2 h1 h2
  · rw [boundL_append] at hn
    rcases List.mem_append.1 hn with hn | hn
    · obtain ⟨x, hx, h1⟩ := ha.2 n hn
      exact ⟨x, .inl hx, h1⟩
    · obtain ⟨x, hx, h1⟩ := hb.2 n hn
      exact ⟨x, .inr hx, h1⟩

theorem Prefixed.mono {P Q : String → Prop} {a : List Stmt} (h : Prefixed P a) (hi : ∀ x, P x → Q x) : Prefixed Q a :=
  ⟨h.1, fun n hn => (h.2 n hn).imp fun _ hx => ⟨hi _ hx.1, hx.2⟩⟩

theorem generateFragments_apart {prep : List Char → List Char} {c : Ctx} {p : FragmentsConfig}
    (hs : c.schema.types.keys.Nodup) (hempty : "" ∉ c.schema.types.keys) (fs : List FragDef) :
    ∀ {r r' : Reg} {ss : List Stmt}, (∀ f ∈ fs, ClearFragment c.schema f) → (fs.map (·.name)).Nodup →
    (∀ f ∈ fs, ∀ g ∈ fs, f.name ≠ g.name → ∀ x y, Kind.fragment.style c.env f.name = .ok x →
      Kind.fragment.style c.env g.name = .ok y → ¬ x.toList <+: y.toList) →
    generateFragments prep c p fs r = .ok (ss, r') →
    Prefixed (fun x => ∃ f ∈ fs, Kind.fragment.style c.env f.name = .ok x) ss := by
  induction fs with
  | nil =>
    intro r r' ss _ _ _ h
    obtain ⟨rfl, _⟩ := Gen.pure_ok.1 h
    exact ⟨List.nodup_nil, fun _ h => by cases h⟩
  | cons f fs ih =>
    intro r r' ss hc hn hsep h
    unfold generateFragments at h
    obtain ⟨s1, r1, h1, h⟩ := Gen.bind_ok.1 h
    obtain ⟨s2, r2, h2, h⟩ := Gen.bind_ok.1 h
    obtain ⟨rfl, _⟩ := Gen.pure_ok.1 h
    rw [List.map_cons, List.nodup_cons] at hn
    obtain ⟨cls, hcls, hN⟩ := generateFragment_names h1
    have a1 : Prefixed (· = cls) s1 := ⟨fragment_names_nodup hs hempty (hc f (by simp)) hN,
      fun a ha => ⟨cls, rfl, fragment_names_prefix hN a ha⟩⟩
    have a2 := ih (fun g hg => hc g (by simp [hg])) hn.2
      (fun g hg k hk => hsep g (by simp [hg]) k (by simp [hk])) h2
    refine (a1.append a2 ?_).mono ?_
    · rintro x y rfl ⟨g, hg, hy⟩
      have hne : f.name ≠ g.name := fun he => hn.1 (he ▸ List.mem_map_of_mem hg)
      exact ⟨hsep f (by simp) g (by simp [hg]) hne _ _ hcls hy, hsep g (by simp [hg]) f (by simp) hne.symm _ _ hy hcls⟩
    · rintro x (rfl | ⟨g, hg, hx⟩)
      · exact ⟨f, by simp, hcls⟩
      · exact ⟨g, by simp [hg], hx⟩

theorem generateOperations_apart {prep : List Char → List Char} {c : Ctx} {p : OperationsConfig}
    (hs : c.schema.types.keys.Nodup) (hempty : "" ∉ c.schema.types.keys) (os : List OpDef) :
    ∀ {r r' : Reg} {ss : List Stmt},
    (∀ o ∈ os, ∀ root, c.schema.root o.kind = some root → ClearPaths c.schema (nestedOf c.schema root o)) →
    (os.map (·.name)).Nodup →
    (∀ o ∈ os, ∀ o' ∈ os, ∀ n n' x y, o.name = some n → o'.name = some n' → n ≠ n' → o.kind.kind.style c.env n = .ok x →
      o'.kind.kind.style c.env n' = .ok y → ¬ x.toList <+: y.toList) →
    generateOperations prep c p os r = .ok (ss, r') →
    Prefixed (fun x => ∃ o ∈ os, ∃ n, o.name = some n ∧ o.kind.kind.style c.env n = .ok x) ss := by
  induction os with
  | nil =>
    intro r r' ss _ _ _ h
    obtain ⟨rfl, _⟩ := Gen.pure_ok.1 h
    exact ⟨List.nodup_nil, fun _ h => by cases h⟩
  | cons o os ih =>
    intro r r' ss hc hn hsep h
    unfold generateOperations at h
    obtain ⟨s1, r1, h1, h⟩ := Gen.bind_ok.1 h
    obtain ⟨s2, r2, h2, h⟩ := Gen.bind_ok.1 h
    obtain ⟨rfl, _⟩ := Gen.pure_ok.1 h
    rw [List.map_cons, List.nodup_cons] at hn
    obtain ⟨name, cls, hname, hcls, hpre⟩ := operation_names_prefix h1
    have hd : (boundL s1).Nodup := by
      obtain ⟨_, cls, root, nested, bases, body, _, _, hr, rfl, hN⟩ := generateOperation_names h1
      rw [boundL_append]
      exact (names_nodup hs hempty (hc o (by simp) root hr) (nestedSels_path _ _) cls).sublist
        (List.Sublist.append hN (List.Sublist.refl _))
    have a1 : Prefixed (· = cls) s1 := ⟨hd, fun a ha => ⟨cls, rfl, hpre a ha⟩⟩
    have a2 := ih (fun g hg => hc g (by simp [hg])) hn.2
      (fun g hg k hk => hsep g (by simp [hg]) k (by simp [hk])) h2
    refine (a1.append a2 ?_).mono ?_
    · rintro x y rfl ⟨g, hg, n, hgn, hy⟩
      have hne : name ≠ n := fun he => hn.1 (by rw [hname, he, ← hgn]; exact List.mem_map_of_mem hg)
      exact ⟨hsep o (by simp) g (by simp [hg]) _ _ _ _ hname hgn hne hcls hy,
        hsep g (by simp [hg]) o (by simp) _ _ _ _ hgn hname hne.symm hy hcls⟩
    · rintro x (rfl | ⟨g, hg, hx⟩)
      · exact ⟨o, by simp, name, hname, hcls⟩
      · exact ⟨g, by simp [hg], hx⟩

theorem definedNames_sublist (ss : List Stmt) : (definedNames ss).Sublist (boundL ss) := by
  induction ss with
  | nil => exact List.Sublist.refl _
  | cons s ss ih =>
    have h : boundL (s :: ss) = bound s ++ boundL ss := rfl
    rw [h]
    unfold definedNames
    split
    · cases ‹_ = _›
    · rename_i heq
      cases heq
      exact ih.cons_cons _
    · rename_i heq
      cases heq
      exact ih.cons_cons _
    · rename_i heq
      cases heq
      exact ih.trans (List.sublist_append_right _ _)

/-- a name bound once is bound by one statement -/
theorem bound_unique {T : List Stmt} (h : (boundL T).Nodup) {s s' : Stmt} {n : String} (hs : s ∈ T) (hs' : s' ∈ T)
    (hn : n ∈ bound s) (hn' : n ∈ bound s') : s = s' := by
  induction T with
  | nil => cases hs
  | cons x T ih =>
    have e : boundL (x :: T) = bound x ++ boundL T := rfl
    rw [e, List.nodup_append] at h
    rcases List.mem_cons.1 hs with h1 | h1 <;> rcases List.mem_cons.1 hs' with h2 | h2
    · rw [h1, h2]
    · exact (h.2.2 n (h1 ▸ hn) n (List.mem_flatMap.2 ⟨_, h2, hn'⟩) rfl).elim
    · exact (h.2.2 n (h2 ▸ hn') n (List.mem_flatMap.2 ⟨_, h1, hn⟩) rfl).elim
    · exact ih h.2.1 h1 h2

/-- the classes of enums and inputs: distinct, if keys have different classes -/
theorem emits_nodup {env : Env} {k : Kind} {r r' : Reg} {K : List String} {ss : List Stmt} (h : Emits env k r r' K ss)
    (hinj : ∀ m ∈ K, ∀ n ∈ K, ∀ x, k.style env m = .ok x → k.style env n = .ok x → m = n) : (definedNames ss).Nodup := by
  obtain ⟨L, hmap, hk, hd, hst⟩ := h.map
  rw [← hd]
  have hn := h.fresh.1
  rw [← hk] at hn hinj
  clear hk hd h hmap
  induction L with
  | nil => exact List.nodup_nil
  | cons p L ih =>
    rw [List.map_cons, List.nodup_cons] at hn ⊢
    refine ⟨?_, ih (hst := fun q hq => hst q (by simp [hq])) (hn := hn.2)
      (hinj := fun m hm n hn => hinj m (List.mem_cons_of_mem _ hm) n (List.mem_cons_of_mem _ hn))⟩
    intro hmem
    obtain ⟨q, hq, he⟩ := List.mem_map.1 hmem
    have := hinj q.1 (List.mem_cons_of_mem _ (List.mem_map_of_mem hq)) p.1 (by simp) q.2 (hst q (by simp [hq]))
      (he ▸ hst p (by simp))
    exact hn.1 (this ▸ List.mem_map_of_mem hq)

theorem emits_defined {env : Env} {k : Kind} {r r' : Reg} {K : List String} {ss : List Stmt} (h : Emits env k r r' K ss) :
    ∀ x ∈ definedNames ss, ∃ n ∈ K, k.style env n = .ok x := by
  obtain ⟨L, _, hk, hd, hst⟩ := h.map
  intro x hx
  rw [← hd] at hx
  obtain ⟨p, hp, rfl⟩ := List.mem_map.1 hx
  exact ⟨p.1, by rw [← hk]; exact List.mem_map_of_mem hp, hst p hp⟩

end Turms
