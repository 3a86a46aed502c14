import Verif.Lemmas.Kept
import Verif.Spec.Kept

/-!
# A program that checks whether a selection set is covered by `Keepable`

Not part of the model.  It is proved right, so that `Keepable` can be established for concrete documents by running it.
-/

namespace Turms
open Spec
section
variable {c : Ctx} {defs : Dict FragDef}

/-- decides `Possible` -/
def possibleB (s : Schema) (n o : String) : Bool :=
  match s.lookup o with
  | some (.object _ is) => n == o ||
      match s.lookup n with
      | some (.interface _ _) => is.contains n
      | some (.union ms) => ms.contains o
      | _ => false
  | _ => false

theorem possibleB_iff {s : Schema} {n o : String} : possibleB s n o = true ↔ Possible s n o := by
  unfold possibleB
  constructor
  · intro h
    split at h
    · rename_i fs is ho
      simp only [Bool.or_eq_true, beq_iff_eq] at h
      rcases h with rfl | h
      · exact .object ⟨_, _, ho⟩
      · split at h
        · rename_i hn; exact .interface ⟨_, _, hn⟩ ho (by simpa using h)
        · rename_i hn; exact .union hn ⟨_, _, ho⟩ (by simpa using h)
        · cases h
    · cases h
  · intro h
    cases h with
    | object h => obtain ⟨_, _, h⟩ := h; rw [h]; simp
    | interface hi ho hm => obtain ⟨_, _, hi⟩ := hi; rw [ho]; simp [hi, hm]
    | union hu ho hm => obtain ⟨_, _, ho⟩ := ho; rw [ho]; simp [hu, hm]

/-- the fields one selection asks for, given those of selection sets -/
def picksOfSel (s : Schema) (defs : Dict FragDef) (o : String)
    (rec_ : List Sel → Option (List (String × String × List Sel))) : Sel → Option (List (String × String × List Sel))
  | .field name al _ sub => some [(al.getD name, name, sub)]
  | .spread f =>
    match defs.get? f with
    | none => some []
    | some d => if possibleB s d.typeCondition o then rec_ d.sels else some []
  | .inline (some t) inner => if possibleB s t o then rec_ inner else some []
  | .inline none inner => rec_ inner

/-- all fields a selection set asks for on objects of type `o`; `none` if the fuel does not suffice -/
def picksOf (s : Schema) (defs : Dict FragDef) (o : String) : Nat → List Sel → Option (List (String × String × List Sel))
  | 0, _ => none
  | _ + 1, [] => some []
  | n + 1, x :: rest =>
    match picksOf s defs o n rest, picksOfSel s defs o (picksOf s defs o n) x with
    | some a, some b => some (b ++ a)
    | _, _ => none

theorem mem_picksOf {s : Schema} {o key name : String} {sub : List Sel} (n : Nat) :
    ∀ {sels l}, picksOf s defs o n sels = some l → Picks s defs o sels key name sub → (key, name, sub) ∈ l := by
  induction n with
  | zero => intro sels l h; cases h
  | succ n ih =>
    intro sels l h hp
    cases sels with
    | nil => exact (picks_nil hp).elim
    | cons x rest =>
      rw [picksOf] at h
      split at h
      · rename_i a b ha hb
        cases h
        rcases picks_cons hp with hp | hp
        · refine List.mem_append_left _ ?_
          cases x with
          | field nm al args sb =>
            cases hb
            obtain ⟨rfl, rfl, rfl⟩ := picks_single_field hp
            exact List.mem_singleton.2 rfl
          | spread f =>
            obtain ⟨d, hd, hpos, hp⟩ := picks_single_spread hp
            simp only [picksOfSel, hd, possibleB_iff.2 hpos, if_true] at hb
            exact ih hb hp
          | inline t inner =>
            cases t with
            | none =>
              cases hp with
              | field h => simp at h
              | spread h => simp at h
              | inline h => simp at h
              | inlineAny h hp => cases List.mem_singleton.1 h; exact ih hb hp
            | some t =>
              obtain ⟨hpos, hp⟩ := picks_single_inline hp
              simp only [picksOfSel, possibleB_iff.2 hpos, if_true] at hb
              exact ih hb hp
        · exact List.mem_append_right _ (ih ha hp)
      · cases h

theorem picks_of_mem {s : Schema} {o : String} {key name : String} {sub : List Sel} (n : Nat) :
    ∀ {sels l}, picksOf s defs o n sels = some l → (key, name, sub) ∈ l → Picks s defs o sels key name sub := by
  induction n with
  | zero => intro sels l h; cases h
  | succ n ih =>
    intro sels l h hm
    cases sels with
    | nil => cases h; cases hm
    | cons x rest =>
      rw [picksOf] at h
      split at h
      · rename_i a b ha hb
        cases h
        rcases List.mem_append.1 hm with hm | hm
        · have here := List.mem_cons_self (a := x) (l := rest)
          cases x with
          | field nm al args sb =>
            cases hb
            cases List.mem_singleton.1 hm
            exact .field here
          | spread f =>
            simp only [picksOfSel] at hb
            cases hd : defs.get? f with
            | none => rw [hd] at hb; cases hb; cases hm
            | some d =>
              rw [hd] at hb
              dsimp only at hb
              split at hb
              · rename_i hp; exact .spread here hd (possibleB_iff.1 hp) (ih hb hm)
              · cases hb; cases hm
          | inline t inner =>
            cases t with
            | none => exact .inlineAny here (ih hb hm)
            | some t =>
              simp only [picksOfSel] at hb
              split at hb
              · rename_i hp; exact .inline here (possibleB_iff.1 hp) (ih hb hm)
              · cases hb; cases hm
        · exact Picks.mono (ih ha hm) fun y hy => List.mem_cons_of_mem _ hy
      · cases h

/-- `FieldType` as a list -/
def typesOf (s : Schema) (o name : String) : List TypeNode :=
  (match s.lookup o with
    | some (.object fs _) => (fs.filter (·.name == name)).map (·.type)
    | _ => []) ++
  (if name == "__typename" then [.nonNull (.named "String")] else []) ++
  (if s.query == some o then
    (if name == "__schema" then [.nonNull (.named "__Schema")] else if name == "__type" then [.named "__Type"] else [])
    else [])

theorem mem_typesOf {s : Schema} {o name : String} {t : TypeNode} (h : FieldType s o name t) :
    t ∈ typesOf s o name := by
  unfold typesOf
  cases h with
  | declared hl hm =>
    rw [hl]
    exact List.mem_append_left _ (List.mem_append_left _
      (List.mem_map.2 ⟨_, List.mem_filter.2 ⟨hm, by simp⟩, rfl⟩))
  | typename => exact List.mem_append_left _ (List.mem_append_right _ (by simp))
  | schema h => exact List.mem_append_right _ (by simp [h])
  | type h => exact List.mem_append_right _ (by simp [h])

/-- no key is selected in two ways (decided only for fields without sub-selections) -/
def onceB : List (String × String × List Sel) → Bool
  | [] => true
  | p :: l => l.all (fun q => p.1 != q.1 || (p.2.1 == q.2.1 && p.2.2.isEmpty && q.2.2.isEmpty)) && onceB l

theorem onceB_ok {l : List (String × String × List Sel)} (h : onceB l = true) :
    ∀ {p q}, p ∈ l → q ∈ l → p.1 = q.1 → p.2 = q.2 := by
  induction l with
  | nil => intro p q hp; cases hp
  | cons x l ih =>
    simp only [onceB, Bool.and_eq_true, List.all_eq_true] at h
    have key : ∀ {q}, q ∈ l → x.1 = q.1 → x.2 = q.2 := by
      intro q hq e
      have := h.1 q hq
      simp only [e, bne_self_eq_false, Bool.false_or, Bool.and_eq_true, beq_iff_eq, List.isEmpty_iff] at this
      exact Prod.ext this.1.1 (this.1.2.trans this.2.symm)
    intro p q hp hq e
    rcases List.mem_cons.1 hp with h1 | h1
    · rcases List.mem_cons.1 hq with h2 | h2
      · rw [h1, h2]
      · rw [h1] at e ⊢; exact key h2 e
    · rcases List.mem_cons.1 hq with h2 | h2
      · rw [h2] at e ⊢; exact (key h1 e.symm).symm
      · exact ih h.2 h1 h2 e

/-- checks `Apart` -/
def apartB (c : Ctx) (defs : Dict FragDef) (n : Nat) (o : String) (sels : List Sel) : Bool :=
  match picksOf c.schema defs o n sels with
  | none => false
  | some l => onceB l &&
    l.all (fun p => l.all fun q => p.1 == q.1 ||
      (match (generateNodeName c.env.stylers p.1).toOption, (generateNodeName c.env.stylers q.1).toOption with
        | some a, some b => a != b
        | _, _ => true)) &&
    l.all (fun p => p.2.1 == "__typename" || (p.1 != "__typename" &&
      match (generateNodeName c.env.stylers p.1).toOption with
      | some a => a != "typename" && !privateName a
      | none => true))

theorem apartB_ok {n : Nat} {o : String} {sels : List Sel} (h : apartB c defs n o sels = true) :
    Apart c defs o sels := by
  unfold apartB at h
  split at h
  · cases h
  · rename_i l hl
    simp only [Bool.and_eq_true] at h
    obtain ⟨⟨h1, h2⟩, h3⟩ := h
    rw [List.all_eq_true] at h2 h3
    constructor
    · intro key name sub name' sub' hp hq
      have := onceB_ok h1 (mem_picksOf n hl hp) (mem_picksOf n hl hq) rfl
      exact ⟨congrArg Prod.fst this, congrArg Prod.snd this⟩
    · intro key name sub key' name' sub' attr hp hq ha hb
      have := h2 _ (mem_picksOf n hl hp)
      rw [List.all_eq_true] at this
      have := this _ (mem_picksOf n hl hq)
      simpa [ha, hb, Except.toOption] using this
    · intro key name sub hp hn
      have := h3 _ (mem_picksOf n hl hp)
      simp only [Bool.or_eq_true, beq_iff_eq, hn, false_or, Bool.and_eq_true, bne_iff_ne, ne_eq] at this
      refine ⟨this.1, fun attr ha => ?_⟩
      have := this.2
      simpa [ha, Except.toOption] using this

/-- checks `Apart` for every possible type -/
def apartsB (c : Ctx) (defs : Dict FragDef) (n : Nat) (t : String) (sels : List Sel) : Bool :=
  c.schema.types.keys.all fun o => !possibleB c.schema t o || apartB c defs n o sels

theorem apartsB_ok {n : Nat} {t : String} {sels : List Sel} (h : apartsB c defs n t sels = true) :
    ∀ o, Possible c.schema t o → Apart c defs o sels := by
  intro o ho
  have hk : o ∈ c.schema.types.keys := by
    obtain ⟨fs, is, hl⟩ := possible_isObject ho
    unfold Schema.lookup at hl
    cases hg : c.schema.types.get? o with
    | none => rw [hg] at hl; cases hl
    | some e => exact List.mem_map.2 ⟨_, Dict.mem_of_get? hg, rfl⟩
  have := List.all_eq_true.1 h o hk
  rw [possibleB_iff.2 ho] at this
  exact apartB_ok (by simpa using this)

/-- decides `IsInterface` -/
def isInterfaceB (s : Schema) (n : String) : Bool :=
  match s.lookup n with
  | some (.interface _ _) => true
  | _ => false

theorem isInterfaceB_iff {s : Schema} {n : String} : isInterfaceB s n = true ↔ IsInterface s n := by
  unfold isInterfaceB IsInterface
  split
  · rename_i h; simp [h]
  · rename_i h; simp only [Bool.false_eq_true, false_iff]; rintro ⟨fs, is, e⟩; exact h _ _ e

/-- decides `IsObject` -/
def isObjectB (s : Schema) (n : String) : Bool :=
  match s.lookup n with
  | some (.object _ _) => true
  | _ => false

theorem isObjectB_iff {s : Schema} {n : String} : isObjectB s n = true ↔ IsObject s n := by
  unfold isObjectB IsObject
  split
  · rename_i h; simp [h]
  · rename_i h; simp only [Bool.false_eq_true, false_iff]; rintro ⟨fs, is, e⟩; exact h _ _ e

/-- decides `IsField` -/
def isFieldB : Sel → Bool
  | .field .. => true
  | _ => false

theorem isFieldB_iff {x : Sel} : isFieldB x = true ↔ IsField x := by
  cases x <;> simp [isFieldB, IsField]

/-- decides `IsInline` -/
def isInlineB : Sel → Bool
  | .inline .. => true
  | _ => false

theorem isInlineB_iff {x : Sel} : isInlineB x = true ↔ IsInline x := by
  cases x <;> simp [isInlineB, IsInline]

/-- decides `Applies` -/
def appliesB (s : Schema) (defs : Dict FragDef) (o : String) : Sel → Bool
  | .field .. => false
  | .spread f =>
    match defs.get? f with
    | some d => possibleB s d.typeCondition o
    | none => false
  | .inline (some t) _ => possibleB s t o
  | .inline none _ => true

theorem appliesB_iff {s : Schema} {o : String} {x : Sel} : appliesB s defs o x = true ↔ Applies s defs o x := by
  cases x with
  | field => simp [appliesB, Applies]
  | spread f =>
    simp only [appliesB, Applies]
    cases hd : defs.get? f with
    | none => simp
    | some d => simp [possibleB_iff]
  | inline t inner =>
    cases t with
    | none => simp [appliesB, Applies]
    | some t => simp [appliesB, Applies, possibleB_iff]

/-- a test on the definition of a spread fragment; anything that is no spread passes -/
def spreadB (defs : Dict FragDef) (test : String → FragDef → Bool) : Sel → Bool
  | .spread f =>
    match defs.get? f with
    | some d => test f d
    | none => false
  | _ => true

theorem spreadB_ok {test : String → FragDef → Bool} {sels : List Sel} (h : sels.all (spreadB defs test) = true)
    {f : String} (hf : Sel.spread f ∈ sels) : ∃ d, defs.get? f = some d ∧ test f d = true := by
  have := List.all_eq_true.1 h _ hf
  simp only [spreadB] at this
  cases hd : defs.get? f with
  | none => rw [hd] at this; cases this
  | some d => rw [hd] at this; exact ⟨d, rfl, this⟩

/-- a test on inline fragments; anything else passes -/
def inlineB (test : String → List Sel → Bool) : Sel → Bool
  | .inline (some o) inner => test o inner
  | _ => true

theorem inlineB_ok {test : String → List Sel → Bool} {sels : List Sel} (h : sels.all (inlineB test) = true)
    {o : String} {inner : List Sel} (hm : Sel.inline (some o) inner ∈ sels) : test o inner = true :=
  List.all_eq_true.1 h _ hm

/-- a test on fields other than `__typename`; anything else passes -/
def fieldB (test : String → List Sel → Bool) : Sel → Bool
  | .field name _ _ sub => name == "__typename" || test name sub
  | _ => true

theorem fieldB_ok {test : String → List Sel → Bool} {sels : List Sel} (h : sels.all (fieldB test) = true)
    {name : String} {al : Option String} {args : List (String × Value)} {sub : List Sel}
    (hm : Sel.field name al args sub ∈ sels) (hn : name ≠ "__typename") : test name sub = true := by
  have := List.all_eq_true.1 h _ hm
  simpa [fieldB, hn] using this

/-- the fields of an object or interface type -/
def fieldsB (rec_ : TypeNode → List Sel → Bool) (fs : List FieldDef) (sels : List Sel) : Bool :=
  sels.all (fieldB fun name sub => fs.all fun fd => fd.name != name || rec_ fd.type sub)

theorem fieldsB_ok {rec_ : TypeNode → List Sel → Bool} {fs : List FieldDef} {sels : List Sel}
    (h : fieldsB rec_ fs sels = true) (name : String) (al : Option String) (args : List (String × Value))
    (sub : List Sel) (fd : FieldDef) (hm : Sel.field name al args sub ∈ sels) (hn : name ≠ "__typename") (hfd : fd ∈ fs)
    (e : fd.name = name) : rec_ fd.type sub = true := by
  have := List.all_eq_true.1 (fieldB_ok h hm hn) fd hfd
  simpa [e] using this

/-- the fields selected on the object type `o` -/
def typedB (s : Schema) (rec_ : TypeNode → List Sel → Bool) (o : String) (sels : List Sel) : Bool :=
  sels.all (fieldB fun name sub => (typesOf s o name).all fun t => rec_ t sub)

theorem typedB_ok {s : Schema} {rec_ : TypeNode → List Sel → Bool} {o : String} {sels : List Sel}
    (h : typedB s rec_ o sels = true) {name : String} {al : Option String} {args : List (String × Value)}
    {sub : List Sel} {t : TypeNode} (hm : Sel.field name al args sub ∈ sels) (hn : name ≠ "__typename")
    (ht : FieldType s o name t) : rec_ t sub = true :=
  List.all_eq_true.1 (fieldB_ok h hm hn) t (mem_typesOf ht)

/-- spreads allowed on an object type -/
def objectSpreadB (s : Schema) (o : String) (_ : String) (d : FragDef) : Bool :=
  d.typeCondition == o || (isInterfaceB s d.typeCondition && possibleB s d.typeCondition o)

theorem objectSpreadB_ok {s : Schema} {o f : String} {d : FragDef} (h : objectSpreadB s o f d = true) :
    d.typeCondition = o ∨ (IsInterface s d.typeCondition ∧ Possible s d.typeCondition o) := by
  simpa [objectSpreadB, isInterfaceB_iff, possibleB_iff] using h

/-- spreads allowed on an interface type -/
def interfaceSpreadB (s : Schema) (_ : String) (d : FragDef) : Bool :=
  isObjectB s d.typeCondition || isInterfaceB s d.typeCondition

theorem interfaceSpreadB_ok {s : Schema} {f : String} {d : FragDef} (h : interfaceSpreadB s f d = true) :
    IsObject s d.typeCondition ∨ IsInterface s d.typeCondition := by
  simpa [interfaceSpreadB, isInterfaceB_iff, isObjectB_iff] using h

/-- checks `Keepable` -/
def keepableB (c : Ctx) (defs : Dict FragDef) : Nat → TypeNode → List Sel → Bool
  | 0, _, _ => false
  | n + 1, t, sels =>
    match c.schema.lookup t.base with
    | some .scalar => true
    | some (.enum _) => true
    | some (.object fs _) => sels.all (spreadB defs (objectSpreadB c.schema t.base)) &&
        apartB c defs n t.base sels && fieldsB (keepableB c defs n) fs sels
    | some (.interface fs _) => sels.all (spreadB defs (interfaceSpreadB c.schema)) &&
        sels.all (inlineB fun _ inner => inner.all isFieldB) && apartsB c defs n t.base sels &&
        fieldsB (keepableB c defs n) fs sels && sels.all (inlineB (typedB c.schema (keepableB c defs n)))
    | some (.union ms) => sels.all (fieldB fun _ _ => false) &&
        ms.all (fun o => (sels.filter (appliesB c.schema defs o)).length == 1) &&
        sels.all (spreadB defs fun _ d => !isInterfaceB c.schema d.typeCondition) &&
        sels.all (inlineB fun o _ => possibleB c.schema t.base o) &&
        sels.all (inlineB fun o inner => inner.all (spreadB defs fun _ d => d.typeCondition == o)) &&
        sels.all (inlineB fun _ inner => inner.all (fun x => !isInlineB x)) && apartsB c defs n t.base sels &&
        sels.all (inlineB (typedB c.schema (keepableB c defs n)))
    | _ => false

theorem keepableB_ok (n : Nat) : ∀ {t : TypeNode} {sels : List Sel}, keepableB c defs n t sels = true →
    Keepable c defs t sels := by
  induction n with
  | zero => intro t sels h; cases h
  | succ n ih =>
    intro t sels h
    unfold keepableB at h
    split at h
    · rename_i hl; exact .leaf (.inl hl)
    · rename_i hl; exact .leaf (.inr ⟨_, hl⟩)
    · rename_i hl
      simp only [Bool.and_eq_true] at h
      obtain ⟨⟨h1, h2⟩, h3⟩ := h
      exact .object hl (fun f hf => (spreadB_ok h1 hf).imp fun d hd => ⟨hd.1, objectSpreadB_ok hd.2⟩) (apartB_ok h2)
        fun name al args sub fd hm hn hfd e => ih (fieldsB_ok h3 name al args sub fd hm hn hfd e)
    · rename_i hl
      simp only [Bool.and_eq_true] at h
      obtain ⟨⟨⟨⟨h1, h2⟩, h3⟩, h4⟩, h5⟩ := h
      exact .interface hl (fun f hf => (spreadB_ok h1 hf).imp fun d hd => ⟨hd.1, interfaceSpreadB_ok hd.2⟩)
        (fun o inner x hm hx => isFieldB_iff.1 (List.all_eq_true.1 (inlineB_ok h2 hm) x hx)) (apartsB_ok h3)
        (fun name al args sub fd hm hn hfd e => ih (fieldsB_ok h4 name al args sub fd hm hn hfd e))
        fun o inner name al args sub t' hm hm' hn ht => ih (typedB_ok (inlineB_ok h5 hm) hm' hn ht)
    · rename_i hl
      simp only [Bool.and_eq_true] at h
      obtain ⟨⟨⟨⟨⟨⟨⟨h1, h2⟩, h3⟩, h4⟩, h5⟩, h6⟩, h7⟩, h8⟩ := h
      have hone : ∀ o, o ∈ _ → ∃ x, sels.filter (appliesB c.schema defs o) = [x] := fun o ho =>
        List.length_eq_one_iff.1 (by simpa using List.all_eq_true.1 h2 o ho)
      refine .union hl (fun name al args sub hm => ?_) (fun o ho => ?_) (fun o ho x hx y hy ax ay => ?_)
        (fun f hf => ?_) (fun o inner hm => possibleB_iff.1 (inlineB_ok h4 hm))
        (fun o inner f hm hf => ?_) (fun o inner x hm hx hi => ?_) (apartsB_ok h7)
        fun o inner name al args sub t' hm hm' hn ht => ih (typedB_ok (inlineB_ok h8 hm) hm' hn ht)
      · exact Classical.byContradiction fun hn => Bool.false_ne_true (fieldB_ok h1 hm hn)
      · obtain ⟨x, hx⟩ := hone o ho
        have := List.mem_filter.1 (hx ▸ List.mem_singleton.2 rfl : x ∈ sels.filter (appliesB c.schema defs o))
        exact ⟨x, this.1, appliesB_iff.1 this.2⟩
      · obtain ⟨z, hz⟩ := hone o ho
        have h1 : x ∈ sels.filter (appliesB c.schema defs o) := List.mem_filter.2 ⟨hx, appliesB_iff.2 ax⟩
        have h2 : y ∈ sels.filter (appliesB c.schema defs o) := List.mem_filter.2 ⟨hy, appliesB_iff.2 ay⟩
        rw [hz, List.mem_singleton] at h1 h2
        rw [h1, h2]
      · refine (spreadB_ok h3 hf).imp fun d hd => ⟨hd.1, fun hi => ?_⟩
        have := hd.2
        rw [isInterfaceB_iff.2 hi] at this
        cases this
      · exact (spreadB_ok (inlineB_ok h5 hm) hf).imp fun d hd => ⟨hd.1, by simpa using hd.2⟩
      · have := List.all_eq_true.1 (inlineB_ok h6 hm) x hx
        rw [isInlineB_iff.2 hi] at this
        cases this
    · cases h

/-- checks `KeepableFragment` -/
def keepableFragmentB (c : Ctx) (defs : Dict FragDef) (n : Nat) (d : FragDef) : Bool :=
  match c.schema.lookup d.typeCondition with
  | some (.interface fs _) => d.sels.all (spreadB defs (interfaceSpreadB c.schema)) &&
      d.sels.all (inlineB fun o _ => isObjectB c.schema o) &&
      d.sels.all (inlineB fun _ inner => inner.all isFieldB) && apartsB c defs n d.typeCondition d.sels &&
      fieldsB (keepableB c defs n) fs d.sels && d.sels.all (inlineB (typedB c.schema (keepableB c defs n)))
  | some (.object _ _) => d.sels.all (spreadB defs (objectSpreadB c.schema d.typeCondition)) &&
      d.sels.all (fun x => !isInlineB x) && apartB c defs n d.typeCondition d.sels &&
      typedB c.schema (keepableB c defs n) d.typeCondition d.sels
  | some (.union ms) => ms.all (isObjectB c.schema) && d.sels.all (inlineB fun o _ => isObjectB c.schema o) &&
      d.sels.all (inlineB fun o inner => inner.all (spreadB defs fun f d' =>
        (styled c.env.stylers Styler.fragmentName f).toOption == some f && d'.typeCondition == o)) &&
      d.sels.all (inlineB fun _ inner => inner.all (fun x => !isInlineB x)) && apartsB c defs n d.typeCondition d.sels &&
      d.sels.all (inlineB (typedB c.schema (keepableB c defs n)))
  | _ => false

theorem keepableFragmentB_ok {n : Nat} {d : FragDef} (h : keepableFragmentB c defs n d = true) :
    KeepableFragment c defs d := by
  unfold keepableFragmentB at h
  split at h
  · rename_i hl
    simp only [Bool.and_eq_true] at h
    obtain ⟨⟨⟨⟨⟨h1, h0⟩, h2⟩, h3⟩, h4⟩, h5⟩ := h
    exact .interface hl (fun f hf => (spreadB_ok h1 hf).imp fun d hd => ⟨hd.1, interfaceSpreadB_ok hd.2⟩)
      (fun o inner hm => isObjectB_iff.1 (inlineB_ok h0 hm))
      (fun o inner x hm hx => isFieldB_iff.1 (List.all_eq_true.1 (inlineB_ok h2 hm) x hx)) (apartsB_ok h3)
      (fun name al args sub fd hm hn hfd e => keepableB_ok n (fieldsB_ok h4 name al args sub fd hm hn hfd e))
      fun o inner name al args sub t' hm hm' hn ht => keepableB_ok n (typedB_ok (inlineB_ok h5 hm) hm' hn ht)
  · rename_i hl
    simp only [Bool.and_eq_true] at h
    obtain ⟨⟨⟨h1, h2⟩, h3⟩, h4⟩ := h
    refine .object ⟨_, _, hl⟩ (fun f hf => (spreadB_ok h1 hf).imp fun d hd => ⟨hd.1, objectSpreadB_ok hd.2⟩)
      (fun x hx hi => ?_) (apartB_ok h3)
      fun name al args sub t hm hn ht => keepableB_ok n (typedB_ok h4 hm hn ht)
    have := List.all_eq_true.1 h2 x hx
    rw [isInlineB_iff.2 hi] at this
    cases this
  · rename_i hl
    simp only [Bool.and_eq_true] at h
    obtain ⟨⟨⟨⟨⟨h1, h2⟩, h3⟩, h4⟩, h5⟩, h6⟩ := h
    refine .union hl (fun m hm => isObjectB_iff.1 (List.all_eq_true.1 h1 m hm))
      (fun o inner hm => isObjectB_iff.1 (inlineB_ok h2 hm)) (fun o inner f hm hf => ?_)
      (fun o inner x hm hx hi => ?_) (apartsB_ok h5)
      fun o inner name al args sub t' hm hm' hn ht => keepableB_ok n (typedB_ok (inlineB_ok h6 hm) hm' hn ht)
    · obtain ⟨d', hd, ht⟩ := spreadB_ok (inlineB_ok h3 hm) hf
      simp only [Bool.and_eq_true, beq_iff_eq] at ht
      refine ⟨?_, d', hd, ht.2⟩
      cases hs : styled c.env.stylers Styler.fragmentName f with
      | error e => rw [hs] at ht; cases ht.1
      | ok x => rw [hs] at ht; cases ht.1; rfl
    · have := List.all_eq_true.1 (inlineB_ok h4 hm) x hx
      rw [isInlineB_iff.2 hi] at this
      cases this
  · cases h

end
end Turms
