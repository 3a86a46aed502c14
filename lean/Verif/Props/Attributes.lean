import Verif.Lemmas.Declared
import Verif.Props.Stylers
import Verif.Props.ResponseScope

/-!
# C02: attributes are never keywords and keep their wire name
-/

namespace Turms.Props
open Turms Turms.Spec Turms.Fragments

theorem keyed_not_keyword {env : Env} {d : Stmt} (h : Keyed env d) : ∀ n, attrOf d = some n → n ∉ kwlist := by
  obtain ⟨f, a, _, ha, _, hn⟩ := h
  intro n hn'
  rw [ha] at hn'
  cases hn'
  rcases hn with hn | hn
  · exact C02_never_keyword _ _ _ _ hn
  · exact C02_never_keyword _ _ _ _ hn

theorem typename_not_keyword {d : Stmt} (h : TypenameDecl d) : ∀ n, attrOf d = some n → n ∉ kwlist := by
  intro n hn
  rw [h.1] at hn
  cases hn
  decide +kernel

/-- Object models: in every state and for every chain of stylers, each declared attribute is the styled form of the
key it is read from, carries an alias exactly if the two differ, and is no keyword. -/
theorem C02_objects {c : Ctx} {p : ObjectsConfig} {r r' : Reg} {ss : List Stmt}
    (h : generateTypes c p r = .ok (ss, r')) (d : Stmt) (hd : d ∈ declsInL ss) :
    Keyed c.env d ∧ ∀ n, attrOf d = some n → n ∉ kwlist :=
  have hk := y_generateTypes _ _ _ h d hd
  ⟨hk, keyed_not_keyword hk⟩

/-- Fragments: the same, except for the attribute `typename`, which always has the alias `__typename`. -/
theorem C02_fragments {prep : List Char → List Char} {c : Ctx} {p : FragmentsConfig} {doc : Document} {r r' : Reg}
    {ss : List Stmt} (h : fragmentsPlugin prep c p doc r = .ok (ss, r')) (d : Stmt) (hd : d ∈ declsInL ss) :
    (Keyed c.env d ∨ TypenameDecl d) ∧ ∀ n, attrOf d = some n → n ∉ kwlist :=
  have hk := y_fragmentsPlugin _ _ _ h d hd
  ⟨hk, hk.elim keyed_not_keyword typename_not_keyword⟩

/-- Operations: the same, nested classes and `Arguments` included. -/
theorem C02_operations {prep : List Char → List Char} {c : Ctx} {p : OperationsConfig} {doc : Document} {r r' : Reg}
    {ss : List Stmt} (h : operationsPlugin prep c p doc r = .ok (ss, r')) (d : Stmt) (hd : d ∈ declsInL ss) :
    (Keyed c.env d ∨ TypenameDecl d) ∧ ∀ n, attrOf d = some n → n ∉ kwlist :=
  have hk := y_operationsPlugin _ _ _ h d hd
  ⟨hk, hk.elim keyed_not_keyword typename_not_keyword⟩

/-- Inputs: the same, except for the discriminators of `@unionElementOf`, which are declared under their own name,
whatever it is. -/
theorem C02_inputs_partial {c : Ctx} {p : InputsConfig} {r r' : Reg} {ss : List Stmt}
    (h : generateInputs c p r = .ok (ss, r')) (d : Stmt) (hd : d ∈ declsInL ss) :
    (Keyed c.env d ∧ ∀ n, attrOf d = some n → n ∉ kwlist) ∨ DiscriminatorDecl c.schema d :=
  (y_generateInputs _ _ _ h d hd).imp (fun hk => ⟨hk, keyed_not_keyword hk⟩) id

/-- A selected field is declared first, under the styled form of its response key, and read from its response
key. -/
theorem C02_response_key {c : Ctx} {parent name : String} {fd : FieldDef} {al : Option String} {sub : List Sel}
    {r r' : Reg} {ss cs : List Stmt} (h : typeFieldNode c parent fd name al sub r = .ok ((ss, cs), r')) :
    ∃ decl comments field attr, ss = decl :: comments ∧ fieldOf decl = some field ∧ attrOf decl = some attr ∧
      generateNodeName c.env.stylers (al.getD name) = .ok attr ∧ field.key = al.getD name ∧
      (hasAlias decl = true ↔ attr ≠ al.getD name) := by
  unfold typeFieldNode typeField at h
  obtain ⟨attr, r1, hn, h⟩ := Gen.bind_ok.1 h
  have hn := (Gen.lift_ok.1 hn).1
  obtain ⟨x, r2, _, h⟩ := Gen.bind_ok.1 h
  obtain ⟨s, r3, hs, h⟩ := Gen.bind_ok.1 h
  obtain ⟨hss, _⟩ := Gen.pure_ok.1 h
  cases hss
  unfold finishField at hs
  obtain ⟨a, r4, _, hs⟩ := Gen.bind_ok.1 hs
  obtain ⟨v, r5, hv, hs⟩ := Gen.bind_ok.1 hs
  obtain ⟨rfl, _⟩ := Gen.pure_ok.1 hs
  obtain ⟨field, attr', hf, ha, hal, _⟩ := keyed_objectFieldValue (env := c.env) (f := { fd with name := al.getD name }) hn a _ _ _ hv
  cases ha
  have key : field.key = al.getD name := by
    clear hal
    revert hv
    unfold objectFieldValue
    split
    · intro hv
      obtain ⟨_, _, _, hv⟩ := Gen.bind_ok.1 hv
      obtain ⟨rfl, _⟩ := Gen.pure_ok.1 hv
      cases hf
      have hk : ∀ b, kwarg "alias" (nullableDefault fd.type ++ [(some "alias", b)]) = some b := by
        intro b; unfold nullableDefault; split <;> simp [kwarg]
      simp [aliasOf, hk, Expr.str]
    · rename_i he
      have he : attr = al.getD name := by simpa using he
      split
      · intro hv
        obtain ⟨_, _, _, hv⟩ := Gen.bind_ok.1 hv
        obtain ⟨rfl, _⟩ := Gen.pure_ok.1 hv
        cases hf
        have hk : kwarg "alias" (nullableDefault fd.type) = none := by
          unfold nullableDefault; split <;> simp [kwarg]
        simpa [aliasOf, hk] using he
      · intro hv
        obtain ⟨rfl, _⟩ := Gen.pure_ok.1 hv
        cases hf
        exact he
  exact ⟨_, _, field, attr, rfl, hf, rfl, hn, key, by rw [← key]; exact hal⟩

/-! ## a module with renamed attributes -/

/-- `Query.from: Int`, `Query.fooBar(x): String`, an input with `class` -/
def keywordSchema : Schema := { query := some "Query", types := [
  ("String", ⟨.scalar, none⟩), ("Int", ⟨.scalar, none⟩),
  ("Filter", ⟨.input [⟨"class", .named "String", none, none, none⟩] [], none⟩),
  ("Query", ⟨.object [plainField "from" (.named "Int"), plainField "plain" (.named "String")] [], none⟩)] }

/-- the attributes and wire names of a module -/
def wireNames (ss : List Stmt) : List (Option String × Option String × Bool) :=
  (declsInL ss).map fun d => (attrOf d, (fieldOf d).map (·.key), hasAlias d)

example : ∃ ss r, moduleOf { schema := keywordSchema } {}
      [.operation ⟨.query, some "Q", [⟨"in", .named "Int", none⟩], [ask "from", ask "plain", .field "plain" (some "is") [] []]⟩]
      (Reg.init {}) = .ok (ss, r) ∧
    wireNames ss = [(some "class_", some "class", true), (some "from_", some "from", true), (some "plain", some "plain", false),
      (some "is_", some "is", true), (some "in_", some "in", true)] := by
  obtain ⟨ss, r, h, ht⟩ := module_ok (c := { schema := keywordSchema }) (po := {})
    (doc := [.operation ⟨.query, some "Q", [⟨"in", .named "Int", none⟩], [ask "from", ask "plain", .field "plain" (some "is") [] []]⟩])
    (test := fun ss _ => decide (wireNames ss = [(some "class_", some "class", true), (some "from_", some "from", true),
      (some "plain", some "plain", false), (some "is_", some "is", true), (some "in_", some "in", true)])) (by decide +kernel)
  exact ⟨ss, r, h, of_decide_eq_true ht⟩

/-! ## discriminators -/

theorem discriminatorStmts_ok (ds : List Discriminator) : ∀ {r r' : Reg} {ss : List Stmt},
    discriminatorStmts ds r = .ok (ss, r') → ss = ds.map discriminatorStmt := by
  induction ds with
  | nil => intro r r' ss h; obtain ⟨rfl, _⟩ := Gen.pure_ok.1 h; rfl
  | cons d ds ih =>
    intro r r' ss h
    unfold discriminatorStmts at h
    obtain ⟨_, _, _, h⟩ := Gen.bind_ok.1 h
    obtain ⟨_, _, _, h⟩ := Gen.bind_ok.1 h
    obtain ⟨rest, _, hr, h⟩ := Gen.bind_ok.1 h
    obtain ⟨rfl, _⟩ := Gen.pure_ok.1 h
    rw [ih hr]; rfl

theorem inputFields_declares {c : Ctx} {cls : String} {skip : List String} {f : InputFieldDef} {attr : String}
    (hn : generateNodeName c.env.stylers f.name = .ok attr) (hs : attr ∉ skip) (fs : List InputFieldDef) :
    ∀ {r r' : Reg} {ss : List Stmt}, inputFields c cls skip fs r = .ok (ss, r') → f ∈ fs →
    ∃ d ∈ ss, attrOf d = some attr ∧ (fieldOf d).map (·.key) = some f.name := by
  induction fs with
  | nil => intro r r' ss _ hf; cases hf
  | cons g fs ih =>
    intro r r' ss h hf
    unfold inputFields at h
    obtain ⟨n, r1, hg, h⟩ := Gen.bind_ok.1 h
    have hg := (Gen.lift_ok.1 hg).1
    split at h
    · rename_i hc
      rcases List.mem_cons.1 hf with rfl | hf
      · rw [hn] at hg
        cases hg
        exact (hs (List.contains_iff_mem.1 hc)).elim
      · exact ih h hf
    · obtain ⟨s, r2, hs1, h⟩ := Gen.bind_ok.1 h
      obtain ⟨rest, r3, hr, h⟩ := Gen.bind_ok.1 h
      obtain ⟨rfl, _⟩ := Gen.pure_ok.1 h
      rcases List.mem_cons.1 hf with rfl | hf
      · unfold inputFieldStmts at hs1
        obtain ⟨n', r4, hn', hs1⟩ := Gen.bind_ok.1 hs1
        have hn' := (Gen.lift_ok.1 hn').1
        rw [hn] at hn'
        cases hn'
        obtain ⟨a, r5, _, hs1⟩ := Gen.bind_ok.1 hs1
        obtain ⟨a', r6, _, hs1⟩ := Gen.bind_ok.1 hs1
        obtain ⟨v, r7, hv, hs1⟩ := Gen.bind_ok.1 hs1
        have hd : Stmt.annAssign attr a' v ∈ s := by
          split at hs1 <;> · obtain ⟨rfl, _⟩ := Gen.pure_ok.1 hs1; exact List.mem_cons_self ..
        refine ⟨_, List.mem_append_left _ hd, rfl, ?_⟩
        unfold inputFieldValue at hv
        split at hv
        · rename_i hb
          obtain ⟨rfl, _⟩ := Gen.pure_ok.1 hv
          have he : attr = f.name := by
            simp only [Bool.and_eq_true, Bool.not_eq_true', bne_eq_false_iff_eq] at hb
            exact hb.1
          split <;> simp [fieldOf, he]
        · obtain ⟨_, _, _, hv⟩ := Gen.bind_ok.1 hv
          obtain ⟨rfl, _⟩ := Gen.pure_ok.1 hv
          by_cases he : attr = f.name
          · have hb : (attr != f.name) = false := by simp [he]
            simp only [hb, if_false, List.nil_append, Bool.false_eq_true, fieldOf, if_true, Option.map_some, aliasOf]
            have hk0 : ∀ o, kwarg "alias" ((if o = true then [(some "default", Expr.const .none)] else []) ++
                (if truthy f.description = true then [(some "description", Expr.str (f.description.getD ""))] else [])) = none := by
              intro o
              split <;> split <;> simp [kwarg]
            rw [hk0]
            simp [he]
          · have hb : (attr != f.name) = true := by simp [he]
            simp [hb, fieldOf, aliasOf, kwarg, Expr.str]
      · obtain ⟨d, hd, h1, h2⟩ := ih hr hf
        exact ⟨d, List.mem_append_right _ hd, h1, h2⟩

/-- C02 fails for discriminators: a discriminator that is a Python keyword is declared as it is, so the module is not
even syntactically valid. -/
theorem C02_discriminator_keyword_counterexample {c : Ctx} {p : InputsConfig} {n t : String} {desc : Option String}
    {fs : List InputFieldDef} {ds : List Discriminator} {r r' : Reg} {s : Stmt}
    (h : generateInputType c p n t desc fs ds r = .ok (s, r')) (d : Discriminator) (hd : d ∈ ds)
    (hk : d.discriminator ∈ kwlist) : ∃ x ∈ declsIn s, ∃ a, attrOf x = some a ∧ a ∈ kwlist := by
  unfold generateInputType at h
  obtain ⟨_, _, _, h⟩ := Gen.bind_ok.1 h
  obtain ⟨lits, _, hl, h⟩ := Gen.bind_ok.1 h
  obtain ⟨_, _, _, h⟩ := Gen.bind_ok.1 h
  obtain ⟨_, _, _, h⟩ := Gen.bind_ok.1 h
  obtain ⟨rfl, _⟩ := Gen.pure_ok.1 h
  rw [discriminatorStmts_ok ds hl]
  refine ⟨discriminatorStmt d, ?_, _, rfl, hk⟩
  obtain ⟨a, b, rfl⟩ := List.append_of_mem hd
  simp [declsIn, declsInL, declsInL_append, discriminatorStmt, docOrDefault]

/-- C02 fails for discriminators: if the discriminator is a declared field whose styled name differs, the class gets
two attributes with the same wire name — the `Literal` and the open field. -/
theorem C02_discriminator_twice_counterexample {c : Ctx} {p : InputsConfig} {n t : String} {desc : Option String}
    {fs : List InputFieldDef} {ds : List Discriminator} {r r' : Reg} {s : Stmt}
    (h : generateInputType c p n t desc fs ds r = .ok (s, r')) (d : Discriminator) (hd : d ∈ ds)
    (f : InputFieldDef) (hf : f ∈ fs) (hfd : f.name = d.discriminator) (attr : String)
    (hn : generateNodeName c.env.stylers f.name = .ok attr) (hne : attr ∉ ds.map (·.discriminator)) :
    ∃ x ∈ declsIn s, ∃ y ∈ declsIn s, attrOf x ≠ attrOf y ∧ (fieldOf x).map (·.key) = (fieldOf y).map (·.key) := by
  unfold generateInputType at h
  obtain ⟨_, _, _, h⟩ := Gen.bind_ok.1 h
  obtain ⟨lits, _, hl, h⟩ := Gen.bind_ok.1 h
  obtain ⟨body, _, hb, h⟩ := Gen.bind_ok.1 h
  obtain ⟨_, _, _, h⟩ := Gen.bind_ok.1 h
  obtain ⟨rfl, _⟩ := Gen.pure_ok.1 h
  rw [discriminatorStmts_ok ds hl]
  obtain ⟨y, hy, hya, hyk⟩ := inputFields_declares hn hne fs hb hf
  refine ⟨discriminatorStmt d, ?_, y, ?_, ?_, ?_⟩
  · obtain ⟨a, b, rfl⟩ := List.append_of_mem hd
    simp [declsIn, declsInL, declsInL_append, discriminatorStmt, docOrDefault]
  · obtain ⟨a, b, rfl⟩ := List.append_of_mem hy
    have : y ∈ declsIn y := by
      cases y <;> simp [attrOf] at hya
      simp [declsIn]
    simp only [declsIn, declsInL, declsInL_append, List.mem_append]
    exact .inl (.inr (.inl (.inr (.inr (.inl this)))))
  · intro he
    rw [hya] at he
    simp only [discriminatorStmt, attrOf, Option.some.injEq] at he
    exact hne (List.mem_map.2 ⟨d, hd, he⟩)
  · rw [hyk, hfd]
    simp [discriminatorStmt, fieldOf, aliasOf, kwarg]

theorem inputFields_keys {c : Ctx} {cls : String} {skip : List String} (fs : List InputFieldDef) :
    Yields (inputFields c cls skip fs) (DBody fun d => ∃ f ∈ fs, ∃ attr, generateNodeName c.env.stylers f.name = .ok attr ∧
      attr ∉ skip ∧ (fieldOf d).map (·.key) = some f.name) := by
  intro r ss r' h
  induction fs generalizing r ss r' with
  | nil => obtain ⟨rfl, _⟩ := Gen.pure_ok.1 h; exact .nil
  | cons g fs ih =>
    have weaken : ∀ {l : List Stmt}, DBody (fun d => ∃ f ∈ fs, ∃ attr, generateNodeName c.env.stylers f.name = .ok attr ∧
        attr ∉ skip ∧ (fieldOf d).map (·.key) = some f.name) l → DBody (fun d => ∃ f ∈ g :: fs, ∃ attr,
        generateNodeName c.env.stylers f.name = .ok attr ∧ attr ∉ skip ∧ (fieldOf d).map (·.key) = some f.name) l :=
      fun h d hd => let ⟨f, hf, x⟩ := h d hd; ⟨f, List.mem_cons_of_mem _ hf, x⟩
    have h0 := h
    unfold inputFields at h
    obtain ⟨n, r1, hg, h⟩ := Gen.bind_ok.1 h
    have hg := (Gen.lift_ok.1 hg).1
    split at h
    · exact weaken (ih _ _ _ h)
    · rename_i hc
      have hc : n ∉ skip := fun hm => hc (List.contains_iff_mem.2 hm)
      obtain ⟨s, r2, hs1, h⟩ := Gen.bind_ok.1 h
      obtain ⟨rest, r3, hr, h⟩ := Gen.bind_ok.1 h
      obtain ⟨rfl, _⟩ := Gen.pure_ok.1 h
      refine DBody.append ?_ (weaken (ih _ _ _ hr))
      obtain ⟨d, comments, hd1, hd2⟩ : ∃ d comments, s = d :: comments ∧ declsInL s = [d] := by
        unfold inputFieldStmts at hs1
        obtain ⟨n', r4, hn', hs1⟩ := Gen.bind_ok.1 hs1
        obtain ⟨a, r5, _, hs1⟩ := Gen.bind_ok.1 hs1
        obtain ⟨a', r6, _, hs1⟩ := Gen.bind_ok.1 hs1
        obtain ⟨v, r7, hv, hs1⟩ := Gen.bind_ok.1 hs1
        split at hs1 <;> · obtain ⟨rfl, _⟩ := Gen.pure_ok.1 hs1; exact ⟨_, _, rfl, by simp [declsInL, declsIn]⟩
      have hone : inputFields c cls skip [g] r = .ok (s ++ [], r2) := by
        unfold inputFields
        refine Gen.bind_ok.2 ⟨n, r1, ‹_›, ?_⟩
        rw [if_neg (fun h => hc (List.contains_iff_mem.1 h))]
        exact Gen.bind_ok.2 ⟨s, r2, hs1, Gen.bind_ok.2 ⟨[], r2, rfl, rfl⟩⟩
      obtain ⟨x, hx, hxa, hxk⟩ := inputFields_declares hg hc [g] hone (List.mem_cons_self ..)
      rw [List.append_nil] at hx
      intro y hy
      rw [hd2, List.mem_singleton] at hy
      subst hy
      have : x ∈ declsInL s := by
        obtain ⟨a, b, hab⟩ := List.append_of_mem hx
        have : x ∈ declsIn x := by
          cases x <;> simp [attrOf] at hxa
          simp [declsIn]
        rw [hab, declsInL_append, declsInL]
        exact List.mem_append_right _ (List.mem_append_left _ this)
      rw [hd2, List.mem_singleton] at this
      subst this
      exact ⟨g, List.mem_cons_self .., n, hg, hc, hxk⟩

/-- C02 fails for discriminators: a field with another name whose styled form equals the discriminator is left out of
the class, its wire name is lost. -/
theorem C02_discriminator_lost_counterexample {c : Ctx} {p : InputsConfig} {n t : String} {desc : Option String}
    {fs : List InputFieldDef} {ds : List Discriminator} {r r' : Reg} {s : Stmt}
    (h : generateInputType c p n t desc fs ds r = .ok (s, r'))
    (f : InputFieldDef) (hfd : f.name ∉ ds.map (·.discriminator)) (attr : String)
    (hn : generateNodeName c.env.stylers f.name = .ok attr) (hne : attr ∈ ds.map (·.discriminator)) :
    ∀ x ∈ declsIn s, (fieldOf x).map (·.key) ≠ some f.name := by
  unfold generateInputType at h
  obtain ⟨_, _, _, h⟩ := Gen.bind_ok.1 h
  obtain ⟨lits, _, hl, h⟩ := Gen.bind_ok.1 h
  obtain ⟨body, _, hb, h⟩ := Gen.bind_ok.1 h
  obtain ⟨cfg, _, hc, h⟩ := Gen.bind_ok.1 h
  obtain ⟨rfl, _⟩ := Gen.pure_ok.1 h
  rw [discriminatorStmts_ok ds hl]
  have hlit : ∀ ds : List Discriminator, f.name ∉ ds.map (·.discriminator) →
      DBody (fun x => (fieldOf x).map (·.key) ≠ some f.name) (ds.map discriminatorStmt) := by
    intro ds
    induction ds with
    | nil => exact fun _ => .nil
    | cons d ds ih =>
      intro h
      simp only [List.map_cons, List.mem_cons, not_or] at h
      refine .cons (d_ann ?_) (ih h.2)
      simpa [fieldOf, aliasOf, kwarg] using fun e => h.1 e.symm
  refine d_class (DBody.append (.cons d_expr (((hlit ds hfd).append ?_).append ?_)) (y_config _ _ _ hc))
  · intro x hx
    obtain ⟨g, hg, a, hga, has, hk⟩ := inputFields_keys fs _ _ _ hb x hx
    rw [hk]
    intro he
    rw [Option.some.inj he, hn] at hga
    cases hga
    exact has hne
  · split
    · exact .one (by intro m hm; simp [postInit, declsIn] at hm)
    · exact .nil

/-- `input Laser @unionElementOf(union: "Element", discriminator: "elementKind", key: "LASER") { elementKind: Kind! }`
with the snake-case styler -/
def laserSchema : Schema := { types := [("String", ⟨.scalar, none⟩),
  ("Laser", ⟨.input [⟨"elementKind", .nonNull (.named "String"), none, none, none⟩, ⟨"power", .named "String", none, none, none⟩]
    [⟨"unionElementOf", [("union", "Element"), ("discriminator", "elementKind"), ("key", "LASER")]⟩], none⟩)] }

example : ((generateInputs { schema := laserSchema, env := { stylers := [snakeCaseStyler] } } {} (Reg.init {})).toOption.map fun x =>
    wireNames x.1) = some [(some "elementKind", some "elementKind", false), (some "element_kind", some "elementKind", true),
      (some "power", some "power", false)] := by decide +kernel

/-- the field `Kind` is lost, the discriminator `kind` stays -/
example : ((generateInputType { schema := laserSchema, env := { stylers := [snakeCaseStyler] } } {} "Laser" "Laser" none
      [⟨"Kind", .named "String", none, none, none⟩, ⟨"power", .named "String", none, none, none⟩] [⟨"kind", "LASER"⟩]
      (Reg.init {})).toOption.map fun x => wireNames [x.1]) =
    some [(some "kind", some "kind", false), (some "power", some "power", false)] := by decide +kernel

/-- `class: Literal["LASER"]` -/
example : ((generateInputType { schema := laserSchema } {} "Laser" "Laser" none [] [⟨"class", "LASER"⟩]
      (Reg.init {})).toOption.map fun x => wireNames [x.1]) =
    some [(some "class", some "class", false)] := by decide +kernel

end Turms.Props
