import Verif.Lemmas.GenerablePlugins

/-! # The operations plugin succeeds -/

namespace Turms
open Spec Fragments Documents

section
variable {c : Ctx} {defs : Dict FragDef} {K : String → Prop} {r : Reg}

theorem go_referenceNamed {env : Env} (hs : Stylable env) {n : String}
    (h : (∃ p, r.scalarMap.get? n = some p) ∨
      (n ≠ "" ∧ (r.inputMap.contains n = true ∨ r.enumMap.contains n = true ∨ n ∈ builtinNames))) :
    Go (referenceNamed env n) r := by
  unfold referenceNamed Go
  dsimp only
  cases hsc : r.scalarMap.get? n with
  | some p =>
    obtain ⟨e, r1, he, m, _⟩ := go_referenceScalar hsc
    rw [he]
    exact ⟨e, r1, rfl, m, trivial⟩
  | none =>
    have he : referenceScalar n r = .error (.noScalarFound n) := by unfold referenceScalar; simp only [hsc]
    rw [he]
    obtain ⟨hn, h⟩ := h.resolve_left (by rintro ⟨p, hp⟩; rw [hsc] at hp; cases hp)
    obtain ⟨m, hm0, hm⟩ := hs.classes .input n hn
    dsimp only
    cases hin : r.inputMap.contains n with
    | true =>
      obtain ⟨cl, hcl⟩ := Option.isSome_iff_exists.1 (Dict.contains_eq_isSome _ _ ▸ hin)
      have hi : referenceInput env n "" false r = .ok (.name cl, r) := by
        unfold referenceInput
        simp [hm, hin, Ne.symm hm0, Dict.get, hcl]
      rw [hi]
      exact ⟨_, _, rfl, .refl, trivial⟩
    | false =>
      have hi : referenceInput env n "" false r = .error (.noInputTypeFound n) := by
        unfold referenceInput
        simp [hm, hin]
      rw [hi]
      dsimp only
      have hgo : Go (referenceEnum env n "" false) r := by
        refine go_referenceEnum hs hn (.inr ?_)
        rcases h with h | h | h
        · rw [hin] at h; cases h
        · refine .inr ⟨h, fun m' hm' => ?_⟩
          obtain ⟨m2, hm2, hm2'⟩ := hs.classes .enum n hn
          rw [hm2'] at hm'
          cases hm'
          exact Ne.symm hm2
        · exact .inl h
      obtain ⟨e, r1, he, mm, _⟩ := hgo
      rw [he]
      exact ⟨e, r1, rfl, mm, trivial⟩

theorem go_recurseTypeAnnotation {env : Env} (t : TypeNode) : ∀ {o : Bool} {r : Reg},
    (∀ r1, Mild r r1 → Go (referenceNamed env t.base) r1) → Go (recurseTypeAnnotation env none t o) r := by
  induction t with
  | named n =>
    intro o r h
    unfold recurseTypeAnnotation namedOr
    exact (h r .refl).bind fun _ _ _ _ => go_optionalWrap
  | list t ih =>
    intro o r h; unfold recurseTypeAnnotation
    exact go_registerImport.bind fun _ _ m _ => (ih fun r1 m1 => h r1 (m.trans m1)).bind fun _ _ _ _ => go_optionalWrap
  | nonNull t ih => intro o r h; unfold recurseTypeAnnotation; exact ih h

/-- `VariableType`, in terms of the registry -/
def Available (r : Reg) (n : String) : Prop :=
  (∃ p, r.scalarMap.get? n = some p) ∨
    (n ≠ "" ∧ (r.inputMap.contains n = true ∨ r.enumMap.contains n = true ∨ n ∈ builtinNames))

theorem Available.mild {r' : Reg} {n : String} (h : Available r n) (m : Mild r r') : Available r' n := by
  have h1 := m.classes .input
  have h2 := m.classes .enum
  simp only [Reg.classMap] at h1 h2
  unfold Available
  rw [m.scalar, h1, h2]
  exact h

theorem go_defaultMarker {d : Option Value} (h : ∀ v, d = some v → plainDefault v = true) : Go (defaultMarker d) r := by
  unfold defaultMarker
  split
  · exact .ret
  · rename_i v
    refine Go.bind (P := fun _ => True) ?_ fun _ _ _ _ => .ret
    have hv := h v rfl
    unfold variableDefault
    cases v <;> first | exact .ret | cases hv

theorem go_argumentValue {f t : String} {o : Bool} : Go (argumentValue f t o) r := by
  unfold argumentValue
  split
  · exact go_registerImport.bind fun _ _ _ _ => .ret
  · exact .ret

theorem go_argumentStmts (hs : Stylable c.env) (vs : List VarDef) : ∀ {r : Reg},
    (∀ v ∈ vs, Available r v.type.base) → (∀ v ∈ vs, ∀ d, v.default = some d → plainDefault d = true) →
    Go (argumentStmts c vs) r := by
  induction vs with
  | nil => intros; exact .ret
  | cons v vs ih =>
    intro r h1 h2
    unfold argumentStmts
    refine Go.bind (P := fun _ => True) ?_ fun _ r1 m _ => (ih (fun v hv => (h1 v (List.mem_cons_of_mem _ hv)).mild m)
      (fun v hv => h2 v (List.mem_cons_of_mem _ hv))).bind fun _ _ _ _ => .ret
    unfold argumentStmt
    refine (go_recurseTypeAnnotation _ fun r1 m => go_referenceNamed hs ((h1 v List.mem_cons_self).mild m)).bind
      fun _ _ _ _ => go_optionalWrap.bind fun _ _ _ _ => ?_
    refine (go_defaultMarker (h2 v List.mem_cons_self)).bind fun _ _ _ _ => go_annotateFieldMetadata.bind fun _ _ _ _ => ?_
    obtain ⟨m, hm⟩ := hs.parameters v.name
    exact (Go.lift hm).bind fun _ _ _ _ => go_argumentValue.bind fun _ _ _ _ => .ret

theorem go_argumentsClass (hs : Stylable c.env) {p : OperationsConfig} {o : OpDef} {name : String}
    (h1 : ∀ v ∈ o.vars, Available r v.type.base)
    (h2 : ∀ v ∈ o.vars, ∀ d, v.default = some d → plainDefault d = true) : Go (argumentsClass c p o name) r := by
  unfold argumentsClass
  split
  · refine (go_argumentStmts hs o.vars h1 h2).bind fun _ _ _ _ => ?_
    unfold argumentsConfig basesOrObject
    exact (go_registerImport.bind (Q := fun _ => True) fun _ _ _ _ => .ret).bind fun _ _ _ _ =>
      (go_registerImports.bind (Q := fun _ => True) fun _ _ _ _ => .ret).bind fun _ _ _ _ => .ret
  · exact .ret

theorem go_operationSels (hs : Stylable c.env) (hne : "" ∉ c.schema.types.keys) {root cls : String} (sels : List Sel) :
    ∀ {r : Reg}, WalkReady c defs K r → (∀ s ∈ sels, ∃ name al args sub, s = Sel.field name al args sub) →
      (∀ name al args sub, Sel.field name al args sub ∈ sels → ∃ ty, FieldOn c.schema root name ty) →
      (∀ name al args sub ty, Sel.field name al args sub ∈ sels → FieldOn c.schema root name ty →
        Generable c defs K ty.base sub) →
      Go (operationSels c root cls sels) r := by
  induction sels with
  | nil => intros; exact .ret
  | cons s rest ih =>
    intro r h h1 h2 h3
    unfold operationSels
    refine Go.bind (P := fun _ => True) ?_ fun _ r1 m _ => (ih (h.mild m)
      (fun s hs => h1 s (List.mem_cons_of_mem _ hs)) (fun a b d e hm => h2 a b d e (List.mem_cons_of_mem _ hm))
      (fun a b d e ty hm => h3 a b d e ty (List.mem_cons_of_mem _ hm))).bind fun _ _ _ _ => .ret
    obtain ⟨name, al, args, sub, rfl⟩ := h1 s List.mem_cons_self
    unfold operationSel
    dsimp only
    refine (go_assertFieldDef (h2 _ _ _ _ List.mem_cons_self)).bind fun fd r1 m hfd => ?_
    exact go_field hs (h.mild m) (walks_of_generable hs hne (h3 _ _ _ _ _ List.mem_cons_self hfd))

theorem go_registerSingle {name : String} {nodes : List (List Stmt)} : Go (registerSingle name nodes) r := by
  unfold registerSingle Go
  dsimp only
  split
  · split
    · exact ⟨_, _, rfl, ⟨rfl, fun k => by cases k <;> rfl, rfl, rfl, rfl, rfl, rfl, id⟩, trivial⟩
    · exact ⟨_, _, rfl, .refl, trivial⟩
  · exact ⟨_, _, rfl, .refl, trivial⟩

/-- The registry after the operations `done`; `r1` is the one after the fragments. -/
structure OpState (c : Ctx) (defs : Dict FragDef) (frags : List FragDef) (r1 : Reg) (done : List OpDef) (r : Reg) :
    Prop where
  ready : WalkReady c defs (fun f => f ∈ frags.map (·.name)) r
  documents : documentTexts r = docsOf frags
  scalar : r.scalarMap = r1.scalarMap
  input : r.inputMap = r1.inputMap
  enum : r.enumMap = r1.enumMap
  ops : ∀ (k : OpKind) n, (r.classMap k.kind).contains n = true → ∃ o ∈ done, o.kind = k ∧ o.name = some n
  helpers : ∀ b ∈ r.builtins, b ∈ builtinNames

theorem OpState.mild {frags : List FragDef} {done : List OpDef} {r1 r' : Reg} (h : OpState c defs frags r1 done r)
    (m : Mild r r') : OpState c defs frags r1 done r' := by
  have h1 := m.classes .input
  have h2 := m.classes .enum
  simp only [Reg.classMap] at h1 h2
  exact ⟨h.ready.mild m, by unfold documentTexts; rw [m.documents]; exact h.documents, m.scalar.trans h.scalar,
    h1.trans h.input, h2.trans h.enum, fun k n hc => h.ops k n (by rw [← m.classes]; exact hc), m.helpers h.helpers⟩

theorem generateOperation_go (hs : Stylable c.env) (hne : "" ∉ c.schema.types.keys) {prep : List Char → List Char}
    {p : OperationsConfig} {pe : EnumsConfig} {pi : InputsConfig} {o : OpDef} {frags : List FragDef} {done : List OpDef}
    {r1 : Reg} (h : OpState c defs frags r1 done r)
    (hg : GenerableOperation c pe pi defs (fun f => f ∈ frags.map (·.name)) o)
    (hv : ∀ v ∈ o.vars, Available r1 v.type.base) (hnew : ∀ o' ∈ done, (o'.kind, o'.name) ≠ (o.kind, o.name))
    (hdoc : ∀ n r2, o.name = some n → documentTexts r2 = docsOf frags → Go (mergedDocument prep (printOperation n o)) r2) :
    ∃ ss r', generateOperation prep c p o r = .ok (ss, r') ∧ OpState c defs frags r1 (done ++ [o]) r' := by
  obtain ⟨n, hn, hn0⟩ := hg.named
  obtain ⟨root, hroot⟩ := hg.root
  obtain ⟨cls, _, hcls⟩ := hs.classes o.kind.kind n hn0
  have hf : (r.classMap o.kind.kind).contains n = false := by
    cases hc : (r.classMap o.kind.kind).contains n with
    | false => rfl
    | true =>
      obtain ⟨o', ho', e1, e2⟩ := h.ops _ _ hc
      exact absurd (by rw [e1, e2, hn]) (hnew o' ho')
  have h1 : OpState c defs frags r1 (done ++ [o]) (r.setClass o.kind.kind n cls) := by
    refine ⟨?_, ?_, ?_, ?_, ?_, ?_, ?_⟩
    · have := h.ready
      refine ⟨fun x hx => ?_, this.named, fun f hf => ?_, fun f d hf hd => ?_, this.defined, fun f d m hf hd hm => ?_,
        fun f d ms hf hd hl => ?_, ?_⟩
      · obtain ⟨q, hq⟩ := this.scalar x hx
        exact ⟨q, by cases hk : o.kind <;> exact hq⟩
      · obtain ⟨q, hq⟩ := this.frag f hf
        exact ⟨q, by cases hk : o.kind <;> exact hq⟩
      · have hq := this.type f d hf hd
        cases hk : o.kind <;> exact hq
      · refine this.impl f d m hf hd ?_
        cases hk : o.kind <;> rw [hk] at hm <;> exact hm
      · obtain ⟨q, hq⟩ := this.members f d ms hf hd hl
        exact ⟨q, by cases hk : o.kind <;> exact hq⟩
      · have hq := this.ifrags
        cases hk : o.kind <;> exact hq
    · have hq := h.documents
      cases hk : o.kind <;> exact hq
    · have hq := h.scalar
      cases hk : o.kind <;> exact hq
    · have hq := h.input
      cases hk : o.kind <;> exact hq
    · have hq := h.enum
      cases hk : o.kind <;> exact hq
    · intro k m hc
      by_cases hk : k = o.kind
      · subst hk
        have : (r.setClass o.kind.kind n cls).classMap o.kind.kind = (r.classMap o.kind.kind).set n cls := by
          cases o.kind <;> rfl
        rw [this, Dict.contains_iff, Dict.mem_keys_set] at hc
        by_cases he : m = n
        · subst he
          exact ⟨o, by simp, rfl, hn⟩
        · have hc' : m ∈ (r.classMap o.kind.kind).keys := by
            rcases hc with hc | hc
            · first
                | exact absurd hc he
                | exact hc
            · first
                | exact absurd hc he
                | exact hc
          obtain ⟨o', ho', e⟩ := h.ops o.kind m ((Dict.contains_iff _ _).2 hc')
          exact ⟨o', by simp [ho'], e⟩
      · have : (r.setClass o.kind.kind n cls).classMap k.kind = r.classMap k.kind := by
          cases k <;> cases hk' : o.kind <;> first | rfl | (rw [hk'] at hk; exact absurd rfl hk)
        rw [this] at hc
        obtain ⟨o', ho', e⟩ := h.ops k m hc
        exact ⟨o', by simp [ho'], e⟩
    · have hq := h.helpers
      cases hk : o.kind <;> exact hq
  obtain ⟨bases, r2, e2, m2, _⟩ : Go (basesOrObject c (p.basesFor o.kind)) (r.setClass o.kind.kind n cls) :=
    go_registerImports.bind fun _ _ _ _ => .ret
  have h2 := h1.mild m2
  obtain ⟨x, r3, e3, m3, _⟩ := go_operationSels hs hne (cls := cls) o.sels h2.ready hg.fields
    (fun a b d e hm => hg.exist root a b d e hroot hm) (fun a b d e ty hm => hg.nested root a b d e ty hroot hm)
  have h3 := h2.mild m3
  obtain ⟨_, r4, e4, m4, _⟩ := go_registerSingle (name := n) (nodes := x.1) (r := r3)
  have h4 := h3.mild m4
  obtain ⟨doc, r5, e5, m5, _⟩ := hdoc n r4 hn h4.documents
  have h5 := h4.mild m5
  obtain ⟨args, r6, e6, m6, _⟩ := go_argumentsClass hs (p := p) (name := n) (o := o) (r := r5)
    (fun v hm => by unfold Available; rw [h5.scalar, h5.input, h5.enum]; exact hv v hm) hg.defaults
  suffices hq : ∃ ss, generateOperation prep c p o r = .ok (ss, r6) by
    obtain ⟨ss, hq⟩ := hq
    exact ⟨ss, r6, hq, h5.mild m6⟩
  have e0 : generateClass c.env o.kind.kind n r = .ok (cls, r.setClass o.kind.kind n cls) := by
    unfold generateClass
    simp only [hf, hcls, Bool.false_eq_true, if_false]
  have eR : rootTypeOf c.schema o.kind r2 = .ok (root, r2) := by unfold rootTypeOf; rw [hroot]; rfl
  unfold generateOperation
  simp only [hn]
  exact ⟨_, Gen.bind_ok.2 ⟨_, _, e0, Gen.bind_ok.2 ⟨_, _, e2, Gen.bind_ok.2 ⟨_, _, eR,
    Gen.bind_ok.2 ⟨_, _, e3, Gen.bind_ok.2 ⟨_, _, e4, Gen.bind_ok.2 ⟨_, _, e5, Gen.bind_ok.2 ⟨_, _, e6, rfl⟩⟩⟩⟩⟩⟩⟩⟩

theorem generateOperations_go (hs : Stylable c.env) (hne : "" ∉ c.schema.types.keys) {prep : List Char → List Char}
    {p : OperationsConfig} {pe : EnumsConfig} {pi : InputsConfig} {frags : List FragDef} {r1 : Reg} (todo : List OpDef)
    (hg : ∀ o ∈ todo, GenerableOperation c pe pi defs (fun f => f ∈ frags.map (·.name)) o)
    (hv : ∀ o ∈ todo, ∀ v ∈ o.vars, Available r1 v.type.base)
    (hdoc : ∀ o ∈ todo, ∀ n r2, o.name = some n → documentTexts r2 = docsOf frags →
      Go (mergedDocument prep (printOperation n o)) r2) :
    ∀ (done : List OpDef) {r : Reg}, ((done ++ todo).map fun o => (o.kind, o.name)).Nodup →
      OpState c defs frags r1 done r →
      ∃ ss r', generateOperations prep c p todo r = .ok (ss, r') ∧ OpState c defs frags r1 (done ++ todo) r' := by
  induction todo with
  | nil => intro done r _ h; exact ⟨[], r, rfl, by rw [List.append_nil]; exact h⟩
  | cons o todo ih =>
    intro done r hu h
    have hnew : ∀ o' ∈ done, (o'.kind, o'.name) ≠ (o.kind, o.name) := by
      intro o' ho' he
      rw [List.map_append, List.nodup_append] at hu
      exact hu.2.2 _ (List.mem_map.2 ⟨o', ho', rfl⟩) _ (by simp) he
    obtain ⟨ss, r2, e1, h1⟩ := generateOperation_go hs hne (p := p) h (hg o List.mem_cons_self)
      (hv o List.mem_cons_self) hnew (fun n r2 => hdoc o List.mem_cons_self n r2)
    obtain ⟨ss2, r3, e2, h2⟩ := ih (fun o ho => hg o (List.mem_cons_of_mem _ ho))
      (fun o ho => hv o (List.mem_cons_of_mem _ ho)) (fun o ho => hdoc o (List.mem_cons_of_mem _ ho))
      (done ++ [o]) (by simpa using hu) h1
    exact ⟨ss ++ ss2, r3, Gen.bind_ok.2 ⟨_, _, e1, Gen.bind_ok.2 ⟨_, _, e2, rfl⟩⟩, by simpa using h2⟩

end
end Turms
