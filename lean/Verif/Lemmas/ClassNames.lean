import Verif.Lemmas.Words
import Verif.Lemmas.ScopePlugins
import Verif.Spec.Paths
import Verif.Model.Operations

/-! # The names of the classes of an operation -/

namespace Turms
open Spec

/-! ## what a generator returns, whatever the state -/

/-- every value the generator returns has the property -/
def Yields {α : Type} (g : Gen α) (P : α → Prop) : Prop := ∀ r a r', g r = .ok (a, r') → P a

theorem Yields.bind {α β : Type} {g : Gen α} {k : α → Gen β} {Q : α → Prop} {P : β → Prop} (hg : Yields g Q)
    (hk : ∀ a, Q a → Yields (k a) P) : Yields (g >>= k) P := by
  intro r b r' h
  obtain ⟨a, r1, h1, h⟩ := Gen.bind_ok.1 h
  exact hk a (hg _ _ _ h1) _ _ _ h

theorem Yields.any {α : Type} {g : Gen α} : Yields g fun _ => True := fun _ _ _ _ => trivial

theorem Yields.then {α β : Type} {g : Gen α} {k : α → Gen β} {P : β → Prop} (hk : ∀ a, Yields (k a) P) :
    Yields (g >>= k) P := Yields.any.bind fun a _ => hk a

theorem Yields.pure {α : Type} {a : α} {P : α → Prop} (h : P a) : Yields (pure a) P := by
  intro r b r' hb
  obtain ⟨rfl, _⟩ := Gen.pure_ok.1 hb
  exact h

theorem Yields.fail {α : Type} {e : Err} {P : α → Prop} : Yields (Gen.fail e : Gen α) P := by
  intro r b r' hb
  cases hb

theorem Yields.ite {α : Type} {b : Prop} [Decidable b] {g h : Gen α} {P : α → Prop} (hg : b → Yields g P)
    (hh : ¬ b → Yields h P) : Yields (if b then g else h) P := by
  split
  · exact hg (by assumption)
  · exact hh (by assumption)

theorem Yields.mono {α : Type} {g : Gen α} {P Q : α → Prop} (h : Yields g P) (hi : ∀ a, P a → Q a) : Yields g Q :=
  fun r a r' ha => hi a (h r a r' ha)

/-! ## names -/

/-- what a step contributes to the name of a class -/
def stepName : Step → String
  | .key k => pyCapitalize k
  | .member t => t ++ "InlineFragment"

/-- the steps of a path, one after the other -/
def capsOf (path : List Step) : String := String.join (path.map stepName)

/-- the names of the classes of a nested selection; `pre` is the name of the class it is nested in -/
def namesAt (s : Schema) (pre : String) (n : Nested) : List String :=
  match n.kind with
  | .object => [pre ++ capsOf n.path]
  | .iface t => (pre ++ capsOf n.path ++ "Base") ::
      ((implementations s t).map (fun i => pre ++ capsOf n.path ++ "Base" ++ i.name) ++
        [pre ++ capsOf n.path ++ "Base" ++ "CatchAll"])

theorem capsOf_cons (k : Step) (p : List Step) : capsOf (k :: p) = stepName k ++ capsOf p := by
  unfold capsOf
  rw [List.map_cons, String.join_cons]

theorem namesAt_push (s : Schema) (pre : String) (k : Step) (n : Nested) :
    namesAt s pre (n.push k) = namesAt s (pre ++ stepName k) n := by
  unfold namesAt Nested.push
  simp only [capsOf_cons, String.append_assoc]

/-- the classes carry names of the nested selections, in order -/
def Named (s : Schema) (pre : String) (items : List Nested) (classes : List Stmt) : Prop :=
  (boundL classes).Sublist (items.flatMap (namesAt s pre))

theorem Named.nil {s : Schema} {pre : String} {items : List Nested} : Named s pre items [] :=
  List.nil_sublist _

theorem Named.append {s : Schema} {pre : String} {i j : List Nested} {a b : List Stmt} (ha : Named s pre i a)
    (hb : Named s pre j b) : Named s pre (i ++ j) (a ++ b) := by
  unfold Named
  rw [boundL_append, List.flatMap_append]
  exact List.Sublist.append ha hb

theorem Named.push {s : Schema} {pre : String} {k : Step} {i : List Nested} {a : List Stmt}
    (h : Named s (pre ++ stepName k) i a) : Named s pre (i.map (Nested.push k)) a := by
  unfold Named
  rw [List.flatMap_map]
  simp only [namesAt_push]
  exact h

/-- the nested selections of a field of type `n` -/
def itemsAt (s : Schema) (key n : String) (sub : List Sel) : List Nested :=
  match s.lookup n with
  | some (.object fs _) =>
    (nestedSels s (fun n => fs.find? (·.name == n)) sub).map (Nested.push (.key key)) ++ [⟨[.key key], .object⟩]
  | some (.interface fs _) =>
    (nestedSels s (fun n => fs.find? (·.name == n)) sub).map (Nested.push (.key key)) ++ [⟨[.key key], .iface n⟩]
  | some (.union _) => nestedMembers s sub
  | _ => []

theorem nestedSel_field {s : Schema} {look : String → Option FieldDef} {name : String} {al : Option String}
    {as : List (String × Value)} {sub : List Sel} {fd : FieldDef} (h : look name = some fd) :
    nestedSel s look (.field name al as sub) = itemsAt s (al.getD name) fd.type.base sub := by
  rw [nestedSel, h]
  rfl

theorem yields_wrapOutput {c : Ctx} {leaf : String → Bool → Gen (Expr × List Stmt)} {P : List Stmt → Prop}
    (t : TypeNode) (h : ∀ opt, Yields (leaf t.base opt) fun x => P x.2) :
    ∀ opt, Yields (wrapOutput c leaf t opt) fun x => P x.2 := by
  induction t with
  | named n => exact h
  | list t ih =>
    intro opt
    unfold wrapOutput
    exact .then fun _ => (ih h true).bind fun x hx => .then fun _ => .pure hx
  | nonNull t ih =>
    intro opt
    unfold wrapOutput
    exact ih h false

theorem yields_typeField {c : Ctx} {fd : FieldDef} {target : String} {leaf : String → Bool → Gen (Expr × List Stmt)}
    {P : List Stmt → Prop} (h : ∀ opt, Yields (leaf fd.type.base opt) fun x => P x.2) :
    Yields (typeField c fd target leaf) fun x => P x.2 := by
  unfold typeField
  exact .then fun _ => (yields_wrapOutput fd.type h true).bind fun x hx => .then fun _ => .pure hx

theorem yields_implementingClasses {c : Ctx} {mother : String} {p : InterfaceParts} (is : List Implementation) :
    Yields (implementingClasses c mother p is) fun ss => boundL ss = is.map fun i => mother ++ i.name := by
  induction is with
  | nil => exact .pure rfl
  | cons i is ih =>
    unfold implementingClasses
    refine Yields.bind (Q := fun s => bound s = [mother ++ i.name]) ?_ fun s hs => ih.bind fun ss hss => .pure ?_
    · unfold implementingClass
      exact .then fun _ => .then fun _ => .then fun _ => .pure rfl
    · unfold boundL at *
      rw [List.flatMap_cons, hs, hss]
      rfl

theorem yields_catchAll {c : Ctx} {mother : String} {e : Expr} :
    Yields (catchAll c mother e) fun x => (boundL x.2).Sublist [mother ++ "CatchAll"] := by
  unfold catchAll
  refine .ite (fun _ => ?_) fun _ => .pure (List.nil_sublist _)
  exact .then fun _ => .then fun _ => .then fun _ => .pure (List.Sublist.refl _)

theorem yields_namedNode {c : Ctx} {parent target : String} {sub : List Sel}
    {objs : String → List FieldDef → String → Gen ObjectParts} {ifcs : List FieldDef → String → Gen InterfaceParts}
    {uns : Gen (List String × List Stmt)}
    (hobj : ∀ n fs k, Yields (objs n fs k) fun p => Named c.schema k (nestedSels c.schema (fun n => fs.find? (·.name == n)) sub) p.classes)
    (hifc : ∀ fs k, Yields (ifcs fs k) fun p => Named c.schema k (nestedSels c.schema (fun n => fs.find? (·.name == n)) sub) p.classes)
    (huns : Yields uns fun x => Named c.schema parent (nestedMembers c.schema sub) x.2) (n : String) (opt : Bool) :
    Yields (namedNode c parent target sub objs ifcs uns n opt) fun x => Named c.schema parent (itemsAt c.schema target n sub) x.2 := by
  have hcap : capsOf [.key target] = pyCapitalize target := by simp [capsOf, String.join_cons, stepName]
  unfold namedNode
  split
  · exact .then fun _ => .then fun _ => .pure Named.nil
  · exact .then fun _ => .then fun _ => .pure Named.nil
  · rename_i fs is d hl
    have hit : itemsAt c.schema target n sub =
        (nestedSels c.schema (fun n => fs.find? (·.name == n)) sub).map (Nested.push (.key target)) ++
          [⟨[.key target], .object⟩] := by
      unfold itemsAt Schema.lookup
      rw [hl]
      rfl
    rw [hit]
    unfold objectNode
    refine .then fun tn => ?_
    split
    · exact .then fun _ => .then fun _ => .pure Named.nil
    · refine (hobj n fs _).bind fun p hp => ?_
      unfold finishObject
      refine .then fun _ => .then fun _ => .then fun _ => .pure ?_
      refine (Named.push (k := .key target) hp).append ?_
      simp [Named, boundL, bound, namesAt, hcap]
  · rename_i fs is d hl
    have hit : itemsAt c.schema target n sub =
        (nestedSels c.schema (fun n => fs.find? (·.name == n)) sub).map (Nested.push (.key target)) ++
          [⟨[.key target], .iface n⟩] := by
      unfold itemsAt Schema.lookup
      rw [hl]
      rfl
    rw [hit]
    unfold interfaceNode
    refine (hifc fs _).bind fun p hp => ?_
    refine .then fun _ => .then fun _ => .then fun _ => (yields_implementingClasses _).bind fun impls himpls =>
      .then fun _ => .then fun _ => yields_catchAll.bind fun x hx => .then fun _ => .pure ?_
    refine (Named.push (k := .key target) hp).append ?_
    unfold Named boundL at *
    rw [List.flatMap_cons, List.flatMap_append, himpls]
    simp only [List.flatMap_cons, List.flatMap_nil, List.append_nil, bound, namesAt, hcap, List.singleton_append,
      String.append_assoc] at *
    refine List.Sublist.cons_cons _ (List.Sublist.append (List.Sublist.refl _) hx)
  · rename_i ms d hl
    have hit : itemsAt c.schema target n sub = nestedMembers c.schema sub := by
      unfold itemsAt Schema.lookup
      rw [hl]
      rfl
    rw [hit]
    unfold unionNode
    exact huns.bind fun p hp => .then fun _ => .pure hp
  · exact .fail

theorem yields_fieldNamed {name : String} {fs : List FieldDef} :
    Yields (fieldNamed name fs) fun fd => fs.find? (·.name == name) = some fd := by
  unfold fieldNamed
  split
  · rename_i fd h; exact .pure h
  · exact .fail

theorem yields_fieldDefOf {s : Schema} {t name : String} :
    Yields (fieldDefOf s t name) fun fd => getFieldDef s t name = some fd := by
  unfold fieldDefOf
  split
  · rename_i fd h; exact .pure h
  · exact .fail

theorem yields_objectFieldNamed {s : Schema} {t name : String} :
    Yields (objectFieldNamed s t name) fun fd => declared s t name = some fd := by
  unfold objectFieldNamed
  split
  · rename_i fs is h
    refine yields_fieldNamed.mono fun fd hfd => ?_
    unfold declared Schema.fieldsOf
    rw [h]
    exact hfd
  · exact .fail

theorem yields_inlineClass {c : Ctx} {cls t : String} {p : ObjectParts} :
    Yields (inlineClass c cls t p) fun ss => boundL ss = boundL p.classes ++ [cls] := by
  unfold inlineClass
  exact .then fun _ => .then fun _ => .then fun _ => .pure (by rw [boundL_append]; rfl)

mutual
theorem yields_objectSel {c : Ctx} (s : Sel) : ∀ (t : String) (fs : List FieldDef) (cls : String),
    Yields (objectSel c t fs cls s) fun p => Named c.schema cls (nestedSel c.schema (fun n => fs.find? (·.name == n)) s) p.classes := by
  intro t fs cls
  cases s with
  | spread f => unfold objectSel; exact .then fun _ => .pure Named.nil
  | inline t sub => unfold objectSel; exact .fail
  | field n a as sub =>
    unfold objectSel
    refine .ite (fun _ => .pure Named.nil) fun _ => ?_
    refine yields_fieldNamed.bind fun fd hfd => ?_
    rw [nestedSel_field (look := fun n => fs.find? (·.name == n)) hfd]
    refine (yields_typeField (P := Named c.schema cls _) fun opt => yields_namedNode
      (fun n fs k => yields_objectSels sub n fs k) (fun fs k => yields_interfaceSels sub fs k)
      (yields_unionSels sub _) _ opt).bind fun x hx => .pure hx
theorem yields_objectSels {c : Ctx} (ss : List Sel) : ∀ (t : String) (fs : List FieldDef) (cls : String),
    Yields (objectSels c t fs cls ss) fun p => Named c.schema cls (nestedSels c.schema (fun n => fs.find? (·.name == n)) ss) p.classes := by
  intro t fs cls
  cases ss with
  | nil => unfold objectSels; exact .pure Named.nil
  | cons s rest =>
    unfold objectSels
    rw [nestedSels]
    exact (yields_objectSel s t fs cls).bind fun _ ha => (yields_objectSels rest t fs cls).bind fun _ hb =>
      .pure (ha.append hb)
theorem yields_interfaceSel {c : Ctx} (s : Sel) : ∀ (fs : List FieldDef) (base : String),
    Yields (interfaceSel c fs base s) fun p => Named c.schema base (nestedSel c.schema (fun n => fs.find? (·.name == n)) s) p.classes := by
  intro fs base
  cases s with
  | spread f => unfold interfaceSel; exact .then fun _ => .pure Named.nil
  | inline t sub =>
    cases t with
    | none => unfold interfaceSel; exact .fail
    | some t =>
      unfold interfaceSel
      rw [nestedSel]
      exact .then fun _ => (yields_inlineSels sub t base).bind fun x hx => .pure hx
  | field n a as sub =>
    unfold interfaceSel
    refine .ite (fun _ => .pure Named.nil) fun _ => ?_
    refine yields_fieldNamed.bind fun fd hfd => ?_
    rw [nestedSel_field (look := fun n => fs.find? (·.name == n)) hfd]
    refine (yields_typeField (P := Named c.schema base _) fun opt => yields_namedNode
      (fun n fs k => yields_objectSels sub n fs k) (fun fs k => yields_interfaceSels sub fs k)
      (yields_unionSels sub _) _ opt).bind fun x hx => .pure hx
theorem yields_interfaceSels {c : Ctx} (ss : List Sel) : ∀ (fs : List FieldDef) (base : String),
    Yields (interfaceSels c fs base ss) fun p => Named c.schema base (nestedSels c.schema (fun n => fs.find? (·.name == n)) ss) p.classes := by
  intro fs base
  cases ss with
  | nil => unfold interfaceSels; exact .pure Named.nil
  | cons s rest =>
    unfold interfaceSels
    rw [nestedSels]
    exact (yields_interfaceSel s fs base).bind fun _ ha => (yields_interfaceSels rest fs base).bind fun _ hb =>
      .pure (ha.append hb)
theorem yields_inlineSel {c : Ctx} (s : Sel) : ∀ (t parent : String),
    Yields (inlineSel c t parent s) fun p => Named c.schema parent (nestedSel c.schema (getFieldDef c.schema t) s) p.2 := by
  intro t parent
  cases s with
  | spread f => unfold inlineSel; exact .pure Named.nil
  | inline t sub => unfold inlineSel; exact .pure Named.nil
  | field n a as sub =>
    unfold inlineSel
    refine .ite (fun _ => .pure Named.nil) fun _ => ?_
    refine yields_fieldDefOf.bind fun fd hfd => ?_
    rw [nestedSel_field hfd]
    exact yields_typeField (P := Named c.schema parent _) fun opt => yields_namedNode
      (fun n fs k => yields_objectSels sub n fs k) (fun fs k => yields_interfaceSels sub fs k)
      (yields_unionSels sub _) _ opt
theorem yields_inlineSels {c : Ctx} (ss : List Sel) : ∀ (t parent : String),
    Yields (inlineSels c t parent ss) fun p => Named c.schema parent (nestedSels c.schema (getFieldDef c.schema t) ss) p.2 := by
  intro t parent
  cases ss with
  | nil => unfold inlineSels; exact .pure Named.nil
  | cons s rest =>
    unfold inlineSels
    rw [nestedSels]
    exact (yields_inlineSel s t parent).bind fun _ ha => (yields_inlineSels rest t parent).bind fun _ hb =>
      .pure (ha.append hb)
theorem yields_unionSel {c : Ctx} (s : Sel) : ∀ (parent : String),
    Yields (unionSel c parent s) fun x => Named c.schema parent (nestedMember c.schema s) x.2 := by
  intro parent
  cases s with
  | spread f => unfold unionSel; exact .then fun _ => .pure Named.nil
  | field n a as sub => unfold unionSel; exact .pure Named.nil
  | inline t sub =>
    cases t with
    | none => unfold unionSel; exact .fail
    | some t =>
      unfold unionSel
      rw [nestedMember]
      refine (yields_unionInlineSels sub t _).bind fun p hp => yields_inlineClass.bind fun ss hss => .pure ?_
      have hc : inlineClassName parent t = parent ++ stepName (.member t) := by
        unfold inlineClassName stepName
        rw [String.append_assoc]
      rw [hc] at hp hss
      have h1 := (Named.push (k := .member t) hp).append (j := [⟨[.member t], .object⟩])
        (b := [.classDef (parent ++ stepName (.member t)) [] [] []])
        (by simp [Named, boundL, bound, namesAt, capsOf, String.join_cons])
      unfold Named at h1 ⊢
      rw [boundL_append] at h1
      rw [hss]
      exact h1
theorem yields_unionSels {c : Ctx} (ss : List Sel) : ∀ (parent : String),
    Yields (unionSels c parent ss) fun x => Named c.schema parent (nestedMembers c.schema ss) x.2 := by
  intro parent
  cases ss with
  | nil => unfold unionSels; exact .pure Named.nil
  | cons s rest =>
    unfold unionSels
    rw [nestedMembers]
    exact (yields_unionSel s parent).bind fun _ ha => (yields_unionSels rest parent).bind fun _ hb => .pure (ha.append hb)
theorem yields_unionInlineSel {c : Ctx} (s : Sel) : ∀ (t cls : String),
    Yields (unionInlineSel c t cls s) fun p => Named c.schema cls (nestedSel c.schema (declared c.schema t) s) p.classes := by
  intro t cls
  cases s with
  | spread f => unfold unionInlineSel; exact .then fun _ => .pure Named.nil
  | inline t sub => unfold unionInlineSel; exact .pure Named.nil
  | field n a as sub =>
    unfold unionInlineSel
    refine .ite (fun _ => .pure Named.nil) fun _ => ?_
    refine yields_objectFieldNamed.bind fun fd hfd => ?_
    rw [nestedSel_field hfd]
    refine (yields_typeField (P := Named c.schema cls _) fun opt => yields_namedNode
      (fun n fs k => yields_objectSels sub n fs k) (fun fs k => yields_interfaceSels sub fs k)
      (yields_unionSels sub _) _ opt).bind fun x hx => .pure hx
theorem yields_unionInlineSels {c : Ctx} (ss : List Sel) : ∀ (t cls : String),
    Yields (unionInlineSels c t cls ss) fun p => Named c.schema cls (nestedSels c.schema (declared c.schema t) ss) p.classes := by
  intro t cls
  cases ss with
  | nil => unfold unionInlineSels; exact .pure Named.nil
  | cons s rest =>
    unfold unionInlineSels
    rw [nestedSels]
    exact (yields_unionInlineSel s t cls).bind fun _ ha => (yields_unionInlineSels rest t cls).bind fun _ hb =>
      .pure (ha.append hb)
end

theorem yields_operationSels {c : Ctx} {root cls : String} (ss : List Sel) :
    Yields (operationSels c root cls ss) fun x => Named c.schema cls (nestedSels c.schema (getFieldDef c.schema root) ss) x.2 := by
  induction ss with
  | nil => exact .pure Named.nil
  | cons s rest ih =>
    unfold operationSels
    rw [nestedSels]
    refine Yields.bind (Q := fun x => Named c.schema cls (nestedSel c.schema (getFieldDef c.schema root) s) x.2) ?_
      fun _ ha => ih.bind fun _ hb => .pure (ha.append hb)
    cases s with
    | spread f => unfold operationSel; exact .fail
    | inline t sub => unfold operationSel; exact .fail
    | field n a as sub =>
      unfold operationSel
      refine Yields.bind (Q := fun fd => getFieldDef c.schema root n = some fd) ?_ fun fd hfd => ?_
      · unfold assertFieldDef
        split
        · rename_i fd h; exact .pure h
        · exact .fail
      · rw [nestedSel_field hfd]
        unfold typeFieldNode recurseNamed
        exact yields_typeField (P := Named c.schema cls _) fun opt => yields_namedNode
          (fun n fs k => yields_objectSels sub n fs k) (fun fs k => yields_interfaceSels sub fs k)
          (yields_unionSels sub _) _ opt

/-- the classes of an operation: the nested ones, then its own -/
theorem generateOperation_names {prep : List Char → List Char} {c : Ctx} {p : OperationsConfig} {o : OpDef}
    {r r' : Reg} {ss : List Stmt} (h : generateOperation prep c p o r = .ok (ss, r')) :
    ∃ name cls root nested bases body, o.name = some name ∧ o.kind.kind.style c.env name = .ok cls ∧
      c.schema.root o.kind = some root ∧ ss = nested ++ [.classDef cls bases body []] ∧
      Named c.schema cls (nestedOf c.schema root o) nested := by
  unfold generateOperation at h
  cases hn : o.name with
  | none => rw [hn] at h; cases h
  | some name =>
    rw [hn] at h
    obtain ⟨cls, r1, h1, h⟩ := Gen.bind_ok.1 h
    obtain ⟨bases, r2, h2, h⟩ := Gen.bind_ok.1 h
    obtain ⟨root, r3, h3, h⟩ := Gen.bind_ok.1 h
    obtain ⟨x, r4, h4, h⟩ := Gen.bind_ok.1 h
    obtain ⟨_, r5, h5, h⟩ := Gen.bind_ok.1 h
    obtain ⟨doc, r6, h6, h⟩ := Gen.bind_ok.1 h
    obtain ⟨args, r7, h7, h⟩ := Gen.bind_ok.1 h
    obtain ⟨rfl, _⟩ := Gen.pure_ok.1 h
    have hroot : c.schema.root o.kind = some root := by
      unfold rootTypeOf at h3
      cases hr : c.schema.root o.kind with
      | none => rw [hr] at h3; cases h3
      | some t =>
        rw [hr] at h3
        obtain ⟨rfl, _⟩ := Gen.pure_ok.1 h3
        rfl
    exact ⟨name, cls, root, x.2, bases, _, rfl, (generateClass_ok h1).2.1, hroot, rfl, yields_operationSels _ _ _ _ h4⟩

end Turms
