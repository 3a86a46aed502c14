import Verif.Lemmas.StrawberryPlugin
import Verif.Lemmas.ScopeWalk
import Verif.Spec.StrawberryScope

/-! # Names in strawberry modules -/

namespace Turms
open Spec

/-! ## a walk inside a class -/

/-- the result has the property for every environment that contains what is external afterwards, what was registered
before (except the class `p` being built) and the names `X` -/
structure Berry {α : Type} (env : Env) (p : String) (X : String → Prop) (g : Gen α) (Q : (String → Prop) → α → Prop) : Prop where
  run : ∀ r a r', Styled env r → g r = .ok (a, r') → Soft r r' ∧
    ∀ E : String → Prop, (∀ n, External r' n ∨ (Registered r n ∧ n ≠ p) ∨ X n → E n) → Q E a

section
variable {α β : Type} {env : Env} {p : String} {X : String → Prop}

theorem Berry.pure {a : α} {Q : (String → Prop) → α → Prop} (h : ∀ E : String → Prop, (∀ n, X n → E n) → Q E a) :
    Berry env p X (pure a : Gen α) Q := by
  constructor
  intro r b r' _ e
  obtain ⟨rfl, rfl⟩ := Gen.pure_ok.1 e
  exact ⟨Soft.refl _, fun E hE => h E fun n hn => hE n (.inr (.inr hn))⟩

theorem Berry.fail {e : Err} {Q : (String → Prop) → α → Prop} : Berry env p X (Gen.fail e : Gen α) Q :=
  ⟨fun _ _ _ _ h => (Gen.fail_ok.1 h).elim⟩

theorem Berry.lift {x : Except Err α} {Q : (String → Prop) → α → Prop}
    (h : ∀ a (E : String → Prop), x = .ok a → (∀ n, X n → E n) → Q E a) : Berry env p X (Gen.lift x) Q := by
  constructor
  intro r a r' _ e
  obtain ⟨hx, rfl⟩ := Gen.lift_ok.1 e
  exact ⟨Soft.refl _, fun E hE => h a E hx fun n hn => hE n (.inr (.inr hn))⟩

theorem Berry.bind {x : Gen α} {f : α → Gen β} {P : (String → Prop) → α → Prop} {Q : (String → Prop) → β → Prop}
    (hx : Berry env p X x P) (hf : ∀ a, Berry env p X (f a) fun E b => P E a → Q E b) : Berry env p X (x >>= f) Q := by
  constructor
  intro r b r' hs h
  obtain ⟨a, r1, h1, h2⟩ := Gen.bind_ok.1 h
  obtain ⟨s1, hp⟩ := hx.run r a r1 hs h1
  obtain ⟨s2, hq⟩ := (hf a).run r1 b r' (hs.soft s1) h2
  refine ⟨s1.trans s2, fun E hE => hq E (fun n hn => hE n ?_) (hp E fun n hn => hE n ?_)⟩
  · rcases hn with h | ⟨h, hne⟩ | h
    · exact .inl h
    · exact .inr (.inl ⟨s1.registered.1 h, hne⟩)
    · exact .inr (.inr h)
  · rcases hn with h | h
    · exact .inl (s2.external h)
    · exact .inr h

theorem Berry.mono {x : Gen α} {P Q : (String → Prop) → α → Prop} (hx : Berry env p X x P)
    (h : ∀ (E : String → Prop) a, (∀ n, X n → E n) → P E a → Q E a) : Berry env p X x Q :=
  ⟨fun r a r' hs e => ⟨(hx.run r a r' hs e).1, fun E hE =>
    h E a (fun n hn => hE n (.inr (.inr hn))) ((hx.run r a r' hs e).2 E hE)⟩⟩

theorem Berry.ite {q : Prop} [Decidable q] {x y : Gen α} {Q : (String → Prop) → α → Prop}
    (hx : q → Berry env p X x Q) (hy : ¬ q → Berry env p X y Q) : Berry env p X (if q then x else y) Q := by
  split
  · exact hx ‹_›
  · exact hy ‹_›

theorem Berry.of {g : Gen α} {Q : (String → Prop) → α → Prop} {P : Reg → Reg → α → Prop}
    (h : ∀ {r a r'}, Styled env r → g r = .ok (a, r') → Soft r r' ∧ P r r' a)
    (hq : ∀ r r' a (E : String → Prop), P r r' a →
      (∀ n, External r' n ∨ (Registered r n ∧ n ≠ p) ∨ X n → E n) → Q E a) : Berry env p X g Q :=
  ⟨fun r a r' hs e => ⟨(h hs e).1, fun E hE => hq r r' a E (h hs e).2 hE⟩⟩

/-! ## leaves -/

theorem berry_registerImport {d n : String} (hn : lastComponent d = n) :
    Berry env p X (registerImport d) fun E _ => E n :=
  Berry.of (P := fun _ r' _ => External r' n) (fun _ h => by
      obtain ⟨s, e⟩ := soft_registerImport h
      exact ⟨s, e.at hn⟩)
    fun _ _ _ _ h hE => hE _ (.inl h)

theorem berry_uses {g : Gen Expr} (h : ∀ {r a r'}, Styled env r → g r = .ok (a, r') → Soft r r' ∧ Uses r r' p a) :
    Berry env p X g NamesIn :=
  Berry.of (P := fun r r' a => Uses r r' p a) (fun hs e => h hs e)
    fun r r' a E hu hE n hn => hE n ((hu n hn).imp id .inl)

theorem berry_optionalWrap {o : Bool} {x : Expr} :
    Berry env p X (optionalWrap o x) fun E e => NamesIn E x → NamesIn E e := by
  unfold optionalWrap
  refine .ite (fun _ => ?_) (fun _ => .pure fun _ _ h => h)
  refine (berry_registerImport (n := "Optional") (by decide +kernel)).bind fun _ => .pure fun _ _ h hx => namesIn_sub h hx

theorem berry_generatePydanticConfig {c : Ctx} {g : GQLType} {t : Option String} (hp : PlainConfig c.config) :
    Berry env p X (generatePydanticConfig c g t) BodyIn :=
  Berry.of (P := fun _ r' ss => ∀ n ∈ evaluatedL ss, External r' n) (fun _ h => soft_generatePydanticConfig hp h)
    fun _ _ _ _ h hE n hn => hE n (.inl (h n hn))

theorem berry_referenceScalar {n : String} : Berry env p X (referenceScalar n) NamesIn :=
  Berry.of (P := fun _ r' e => ∃ x, e = .name x ∧ External r' x) (fun _ h => soft_scalar h)
    fun _ _ _ _ h hE => by
      obtain ⟨x, rfl, h⟩ := h
      exact namesIn_name (hE x (.inl h))

theorem berry_nodeName {n : String} : Berry env p X (nodeName env n) fun _ _ => True := .lift fun _ _ _ _ => trivial
theorem berry_parameterName {n : String} : Berry env p X (parameterName env n) fun _ _ => True :=
  .lift fun _ _ _ _ => trivial

/-! ## constants -/

mutual
theorem closed_convertDefault : (d : PyDefault) → ∀ {e : Expr}, convertDefault d = .ok e → freeNames e = []
  | .none, e, h | .str _, e, h | .bool _, e, h | .int _, e, h | .float _, e, h => by
    simp only [convertDefault] at h; cases h; rfl
  | .list l, e, h => by
    simp only [convertDefault] at h
    cases hl : convertDefaults l with
    | error x => rw [hl] at h; cases h
    | ok es => rw [hl] at h; cases h; simp only [freeNames]; exact closed_convertDefaults l hl
  | .dict d, e, h => by
    simp only [convertDefault] at h
    cases hl : convertEntries d with
    | error x => rw [hl] at h; cases h
    | ok es =>
      rw [hl] at h; cases h
      simp only [freeNames, List.append_eq_nil_iff]
      exact closed_convertEntries d hl
  | .opaque s, e, h => by simp only [convertDefault] at h; cases h
theorem closed_convertDefaults : (l : List PyDefault) → ∀ {es : List Expr}, convertDefaults l = .ok es → freeNamesL es = []
  | [], es, h => by simp only [convertDefaults] at h; cases h; rfl
  | x :: xs, es, h => by
    simp only [convertDefaults] at h
    cases hx : convertDefault x with
    | error e => rw [hx] at h; cases h
    | ok y =>
      rw [hx] at h
      cases hy : convertDefaults xs with
      | error e => simp only [hy] at h; cases h
      | ok ys =>
        simp only [hy] at h; cases h
        simp only [freeNamesL, closed_convertDefault x hx, closed_convertDefaults xs hy, List.append_nil]
theorem closed_convertEntries : (l : List (String × PyDefault)) → ∀ {es : List (Expr × Expr)}, convertEntries l = .ok es →
    freeNamesL (es.map (·.1)) = [] ∧ freeNamesL (es.map (·.2)) = []
  | [], es, h => by simp only [convertEntries] at h; cases h; exact ⟨rfl, rfl⟩
  | (k, x) :: xs, es, h => by
    simp only [convertEntries] at h
    cases hx : convertDefault x with
    | error e => rw [hx] at h; cases h
    | ok y =>
      rw [hx] at h
      cases hy : convertEntries xs with
      | error e => simp only [hy] at h; cases h
      | ok ys =>
        simp only [hy] at h; cases h
        obtain ⟨h1, h2⟩ := closed_convertEntries xs hy
        simp only [List.map_cons, freeNamesL, freeNames, h1, h2, closed_convertDefault x hx, List.append_nil, and_self]
end

mutual
theorem closed_convertValueNode : (v : Value) → EnumFree v → ∀ {e : Expr}, convertValueNode v = .ok e → freeNames e = []
  | .null, _, e, h | .string _, _, e, h | .int _, _, e, h | .float _, _, e, h | .bool _, _, e, h => by
    simp only [convertValueNode] at h; cases h; rfl
  | .enum _, hf, _, _ => by simp only [EnumFree] at hf
  | .list l, hf, e, h => by
    simp only [convertValueNode] at h
    simp only [EnumFree] at hf
    cases hl : convertValueNodes l with
    | error x => rw [hl] at h; cases h
    | ok es => rw [hl] at h; cases h; simp only [freeNames]; exact closed_convertValueNodes l hf hl
  | .object _, _, e, h | .variable _, _, e, h => by simp only [convertValueNode] at h; cases h
theorem closed_convertValueNodes : (l : List Value) → EnumFreeL l → ∀ {es : List Expr}, convertValueNodes l = .ok es →
    freeNamesL es = []
  | [], _, es, h => by simp only [convertValueNodes] at h; cases h; rfl
  | x :: xs, hf, es, h => by
    simp only [convertValueNodes] at h
    simp only [EnumFreeL] at hf
    cases hx : convertValueNode x with
    | error e => rw [hx] at h; cases h
    | ok y =>
      rw [hx] at h
      cases hy : convertValueNodes xs with
      | error e => simp only [hy] at h; cases h
      | ok ys =>
        simp only [hy] at h; cases h
        simp only [freeNamesL, closed_convertValueNode x hf.1 hx, closed_convertValueNodes xs hf.2 hy, List.append_nil]
end

theorem closed_directiveArgs : ∀ (as : List (String × Value)) {kws : List (Option String × Expr)},
    (∀ q ∈ as, EnumFree q.2) → directiveArgs as = .ok kws → freeNamesK kws = [] := by
  intro as
  induction as with
  | nil => intro kws _ h; simp only [directiveArgs] at h; cases h; rfl
  | cons q as ih =>
    intro kws hf h
    obtain ⟨k, v⟩ := q
    simp only [directiveArgs] at h
    cases hx : convertValueNode v with
    | error e => rw [hx] at h; cases h
    | ok y =>
      rw [hx] at h
      cases hy : directiveArgs as with
      | error e => simp only [hy] at h; cases h
      | ok ys =>
        simp only [hy] at h; cases h
        simp only [freeNamesK, closed_convertValueNode v (hf _ List.mem_cons_self) hx,
          ih (fun q hq => hf q (List.mem_cons_of_mem _ hq)) hy, List.append_nil]

theorem directiveCalls_names : ∀ (ds : List DirectiveApp) {cs : List Expr}, (∀ d ∈ ds, ∀ q ∈ d.args, EnumFree q.2) →
    directiveCalls ds = .ok cs → ∀ n ∈ freeNamesL cs, ∃ d ∈ ds, n = d.name := by
  intro ds
  induction ds with
  | nil => intro cs _ h; simp only [directiveCalls] at h; cases h; simp [freeNamesL]
  | cons d ds ih =>
    intro cs hf h n hn
    simp only [directiveCalls] at h
    cases hx : directiveArgs d.args with
    | error e => rw [hx] at h; cases h
    | ok y =>
      rw [hx] at h
      cases hy : directiveCalls ds with
      | error e => simp only [hy] at h; cases h
      | ok ys =>
        simp only [hy] at h; cases h
        simp only [freeNamesL, freeNames, closed_directiveArgs _ (hf _ List.mem_cons_self) hx, List.append_nil,
          List.mem_append, List.mem_singleton] at hn
        rcases hn with hn | hn
        · exact ⟨d, List.mem_cons_self, hn⟩
        · obtain ⟨d', hd', h'⟩ := ih (fun d hd => hf d (List.mem_cons_of_mem _ hd)) hy n hn
          exact ⟨d', List.mem_cons_of_mem _ hd', h'⟩

end

/-- what the package brings along, and `None` -/
def Base (n : String) : Prop := (∃ a ∈ strawberryApi, n = "strawberry." ++ a) ∨ n = "None"

theorem base_api {a n : String} (h : a ∈ strawberryApi) (hn : n = "strawberry." ++ a) : Base n := .inl ⟨a, h, hn⟩

section
variable {env : Env} {c : Ctx} {p : StrawberryConfig} {sd : SchemaDirectives} {cls : String} {X : String → Prop}

/-! ## keywords -/

theorem filter_applied {ds : List DirectiveApp} {d : DirectiveApp}
    (h : d ∈ ds.filter fun d => !p.builtinDirectives.contains d.name) : d ∈ ds ∧ d.name ∉ p.builtinDirectives := by
  rw [List.mem_filter] at h
  exact ⟨h.1, by simpa using h.2⟩

/-- the keywords mention the applied directives only -/
theorem berryKeywords_ok {ds : List DirectiveApp} {kws : List (Option String × Expr)} {r r' : Reg}
    (hp : ∀ d ∈ ds, d.name ∉ p.builtinDirectives → ∀ q ∈ d.args, EnumFree q.2)
    (h : directiveKeywords p ds r = .ok (kws, r')) :
    r' = r ∧ ∀ n ∈ freeNamesK kws, ∃ d ∈ ds, d.name ∉ p.builtinDirectives ∧ n = d.name := by
  unfold directiveKeywords at h
  cases hf : ds.filter fun d => !p.builtinDirectives.contains d.name with
  | nil =>
    rw [hf] at h
    obtain ⟨rfl, rfl⟩ := Gen.pure_ok.1 h
    exact ⟨rfl, by simp [freeNamesK]⟩
  | cons d ds' =>
    rw [hf] at h
    dsimp only at h
    obtain ⟨cs, r1, h1, h⟩ := Gen.bind_ok.1 h
    obtain ⟨rfl, rfl⟩ := Gen.pure_ok.1 h
    obtain ⟨hx, rfl⟩ := Gen.lift_ok.1 h1
    have hmem : ∀ e ∈ d :: ds', e ∈ ds ∧ e.name ∉ p.builtinDirectives := fun e he => filter_applied (hf ▸ he)
    refine ⟨rfl, fun n hn => ?_⟩
    simp only [freeNamesK, freeNames, List.append_nil] at hn
    obtain ⟨e, he, rfl⟩ := directiveCalls_names _ (fun e he => hp e (hmem e he).1 (hmem e he).2) hx n hn
    exact ⟨e, (hmem e he).1, (hmem e he).2, rfl⟩

/-- the directives applied to types and fields can be used -/
structure Usable (p : StrawberryConfig) (sd : SchemaDirectives) (X : String → Prop) : Prop where
  base : ∀ n, Base n → X n
  named : ∀ a, Applied p sd a → X a.name
  plain : ∀ a, Applied p sd a → ∀ q ∈ a.args, EnumFree q.2

theorem Usable.api {a n : String} (hu : Usable p sd X) (h : a ∈ strawberryApi) (hn : n = "strawberry." ++ a) : X n :=
  hu.base _ (base_api h hn)

theorem typeKeywords_ok {t : String} {kws : List (Option String × Expr)} {r r' : Reg} (hu : Usable p sd X)
    (h : directiveKeywords p (sd.onType t) r = .ok (kws, r')) : r' = r ∧ ∀ n ∈ freeNamesK kws, X n := by
  obtain ⟨e, hn⟩ := berryKeywords_ok (fun d hd hb => hu.plain d ⟨hb, .inl ⟨t, hd⟩⟩) h
  refine ⟨e, fun n hm => ?_⟩
  obtain ⟨d, hd, hb, rfl⟩ := hn n hm
  exact hu.named d ⟨hb, .inl ⟨t, hd⟩⟩

theorem fieldKeywords_ok {t f : String} {kws : List (Option String × Expr)} {r r' : Reg} (hu : Usable p sd X)
    (h : directiveKeywords p (sd.onField t f) r = .ok (kws, r')) : r' = r ∧ ∀ n ∈ freeNamesK kws, X n := by
  obtain ⟨e, hn⟩ := berryKeywords_ok (fun d hd hb => hu.plain d ⟨hb, .inr ⟨t, f, hd⟩⟩) h
  refine ⟨e, fun n hm => ?_⟩
  obtain ⟨d, hd, hb, rfl⟩ := hn n hm
  exact hu.named d ⟨hb, .inr ⟨t, f, hd⟩⟩

theorem freeNamesK_append (a b : List (Option String × Expr)) : freeNamesK (a ++ b) = freeNamesK a ++ freeNamesK b := by
  induction a with
  | nil => rfl
  | cons x a ih => obtain ⟨k, e⟩ := x; simp only [List.cons_append, freeNamesK, ih, List.append_assoc]

theorem decorator_in {E : String → Prop} {n : String} {kws : List (Option String × Expr)} (hn : E n)
    (hk : ∀ m ∈ freeNamesK kws, E m) : NamesInL E [decorator n kws] := by
  intro m hm
  unfold decorator at hm
  split at hm
  · simp only [freeNamesL, freeNames, List.append_nil, List.mem_singleton] at hm; exact hm ▸ hn
  · simp only [freeNamesL, freeNames, List.append_nil, List.mem_append, List.mem_singleton] at hm
    rcases hm with rfl | hm
    · exact hn
    · exact hk m hm

theorem descriptionStmts_in {E : String → Prop} {d : Option String} : BodyIn E (descriptionStmts d) := by
  unfold descriptionStmts
  split <;> intro n hn <;> simp [evaluatedL, evaluated, Expr.str, freeNames] at hn

theorem metadataKeywords_names {a b : Option String} : freeNamesK (metadataKeywords a b) = [] := by
  unfold metadataKeywords
  split <;> split <;> simp [freeNamesK, Expr.str, freeNames]

theorem fieldCall_in {E : String → Prop} {kws : List (Option String × Expr)} (h : E "strawberry.field")
    (hk : ∀ m ∈ freeNamesK kws, E m) : ∀ n ∈ freeNamesO (fieldCall kws), E n := by
  intro m hm
  unfold fieldCall at hm
  split at hm
  · simp [freeNamesO] at hm
  · simp only [freeNamesO, freeNames, freeNamesL, List.append_nil, List.mem_append, List.mem_singleton] at hm
    rcases hm with rfl | hm
    · exact h
    · exact hk m hm

/-! ## directives -/

theorem berry_directiveAnnotation (t : TypeNode) : ∀ {o : Bool}, Berry env cls X (directiveAnnotation c t o) NamesIn := by
  induction t with
  | named n =>
    intro o
    refine Berry.bind (P := NamesIn) ?_ fun _ => berry_optionalWrap
    unfold directiveLeaf
    split
    · exact berry_referenceScalar
    · exact .fail
    · exact .fail
  | list t ih =>
    intro o
    refine (berry_registerImport (n := "List") (by decide +kernel)).bind fun _ => Berry.bind (P := NamesIn)
      ih fun _ => berry_optionalWrap.mono fun E a _ h hx hl => h (namesIn_sub hl hx)
  | nonNull t ih => intro o; exact ih

theorem berry_directiveFieldValue {d : Option PyDefault} (hX : X "strawberry.field") :
    Berry env cls X (directiveFieldValue d) fun E v => ∀ n ∈ freeNamesO v, E n := by
  unfold directiveFieldValue
  split
  · exact .pure fun _ _ => by simp [freeNamesO]
  · exact .pure fun _ _ => by simp [freeNamesO]
  · refine Berry.bind (P := fun _ x => freeNames x = []) (.lift fun a E h _ => closed_convertDefault _ h)
      fun x => .pure fun E hE hc n hn => ?_
    simp only [freeNamesO, freeNames, freeNamesL, List.append_nil, List.mem_append, List.mem_singleton] at hn
    rcases hn with rfl | hn
    · exact hE _ hX
    · split at hn <;> simp [freeNamesK, freeNames, hc] at hn

theorem berry_directiveFields {c : Ctx} (hX : X "strawberry.field") (as : List ArgDef) :
    Berry c.env cls X (directiveFields c as) BodyIn := by
  induction as with
  | nil => exact .pure fun _ _ => .nil
  | cons a as ih =>
    unfold directiveFields directiveField
    refine Berry.bind (P := fun E s => ∀ n ∈ evaluated s, E n) ?_ fun s => ih.bind fun ss => .pure fun E _ h hs =>
      .cons hs h
    refine (berry_directiveFieldValue hX).bind fun v => berry_nodeName.bind fun n =>
      (berry_directiveAnnotation _).bind fun t => .pure fun E _ ht _ hv m hm => ?_
    simp only [evaluated, List.mem_append] at hm
    exact hm.elim (ht m) (hv m)

theorem orPass_in {E : String → Prop} {ss : List Stmt} (h : BodyIn E ss) : BodyIn E (orPass ss) := by
  unfold orPass
  split
  · intro n hn; simp [evaluatedL, evaluated] at hn
  · exact h

/-! ## fields -/

theorem berry_argAnnotation {c : Ctx} (t : TypeNode) : ∀ {o : Bool}, Berry c.env cls X (argAnnotation c cls t o) NamesIn := by
  induction t with
  | named n =>
    intro o
    exact Berry.bind (P := NamesIn) (berry_uses fun hs h => soft_inputLeaf hs h) fun _ => berry_optionalWrap
  | list t ih =>
    intro o
    refine (berry_registerImport (n := "List") (by decide +kernel)).bind fun _ => Berry.bind (P := NamesIn)
      ih fun _ => berry_optionalWrap.mono fun E a _ h hx hl => h (namesIn_sub hl hx)
  | nonNull t ih => intro o; exact ih

theorem berry_resolverAnnotation {c : Ctx} (t : TypeNode) :
    ∀ {o : Bool}, Berry c.env cls X (resolverAnnotation c cls t o) NamesIn := by
  induction t with
  | named n =>
    intro o
    exact Berry.bind (P := NamesIn) (berry_uses fun hs h => soft_objectNamed hs h) fun _ => berry_optionalWrap
  | list t ih =>
    intro o
    refine (berry_registerImport (n := "List") (by decide +kernel)).bind fun _ => Berry.bind (P := NamesIn)
      ih fun _ => berry_optionalWrap.mono fun E a _ h hx hl => h (namesIn_sub hl hx)
  | nonNull t ih => intro o; exact ih

theorem berry_inputFields {c : Ctx} (hX : X "strawberry.field") (fs : List InputFieldDef) :
    Berry c.env cls X (strawberryInputFields c cls fs) BodyIn := by
  induction fs with
  | nil => exact .pure fun _ _ => .nil
  | cons f fs ih =>
    unfold strawberryInputFields strawberryInputField
    refine Berry.bind (P := fun E s => ∀ n ∈ evaluated s, E n) ?_ fun s => ih.bind fun ss => .pure fun E _ h hs =>
      .cons hs h
    refine berry_nodeName.bind fun n => (berry_argAnnotation _).bind fun t => .pure fun E hE ht _ m hm => ?_
    simp only [evaluated, List.mem_append] at hm
    exact hm.elim (ht m) (fieldCall_in (hE _ hX) (by simp [metadataKeywords_names]) m)

/-- annotations of parameters, and defaults -/
def BerryParams (E : String → Prop) (x : List Arg × List Expr) : Prop :=
  (∀ n ∈ x.1.flatMap fun a => freeNamesO a.annotation, E n) ∧ NamesInL E x.2

theorem berry_resolverArgs {c : Ctx} (as : List ArgDef) (hd : ∀ a ∈ as, ∀ d, a.default = some d → d.closed = true) :
    Berry c.env cls X (resolverArgs c cls as) BerryParams := by
  induction as with
  | nil => exact .pure fun _ _ => ⟨by simp, by intro n hn; simp [freeNamesL] at hn⟩
  | cons a as ih =>
    unfold resolverArgs
    refine berry_parameterName.bind fun n => (berry_argAnnotation _).bind fun t =>
      (ih fun b hb => hd b (List.mem_cons_of_mem _ hb)).bind fun rest => .pure fun E _ hr ht _ => ⟨?_, ?_⟩
    · intro m hm
      simp only [List.flatMap_cons, List.mem_append, freeNamesO] at hm
      exact hm.elim (ht m) (hr.1 m)
    · refine NamesInL.append ?_ hr.2
      cases hda : a.default with
      | none => intro m hm; simp [freeNamesL] at hm
      | some d =>
        intro m hm
        simp [freeNamesL, closed_expr d (hd a List.mem_cons_self d hda)] at hm

theorem berry_keywords {t f : String} (hu : Usable p sd X) :
    Berry env cls X (directiveKeywords p (sd.onField t f)) fun E kws => ∀ n ∈ freeNamesK kws, E n := by
  constructor
  intro r a r' _ h
  obtain ⟨rfl, hn⟩ := fieldKeywords_ok hu h
  exact ⟨Soft.refl _, fun E hE n hm => hE n (.inr (.inr (hn n hm)))⟩

theorem berry_fieldStmt {c : Ctx} {t : String} {f : FieldDef} {args : List Arg} {ds : List Expr} {ret : Expr}
    {kws : List (Option String × Expr)} (hX : ∀ n, Base n → X n) :
    Berry c.env cls X (fieldStmt c t f args ds ret kws) fun E s => BerryParams E (args, ds) → NamesIn E ret →
      (∀ n ∈ freeNamesK kws, E n) → ∀ n ∈ evaluated s, E n := by
  unfold fieldStmt
  refine .ite (fun _ => ?_) (fun _ => ?_)
  · refine berry_nodeName.bind fun n => .pure fun E hE _ _ hr hk m hm => ?_
    simp only [evaluated, List.mem_append] at hm
    exact hm.elim (hr m) (fieldCall_in (hE _ (hX _ (base_api (a := "field") (by decide) (by decide +kernel)))) hk m)
  · have hret : Berry c.env cls X (resolverReturns t ret) fun E e => NamesIn E ret → NamesIn E e := by
      unfold resolverReturns
      refine .ite (fun _ => ?_) (fun _ => .pure fun _ _ h => h)
      refine (berry_registerImport (n := "AsyncGenerator") (by decide +kernel)).bind fun _ => .pure fun E hE h hr => ?_
      refine namesIn_sub h fun m hm => ?_
      simp only [freeNames, freeNamesL, List.append_nil, List.mem_append, List.mem_singleton] at hm
      rcases hm with hm | rfl
      · exact hr m hm
      · exact hE _ (hX _ (.inr rfl))
    refine hret.bind fun ret' => berry_nodeName.bind fun n => .pure fun E hE _ hr hp hret hk m hm => ?_
    have hdec : NamesInL E [resolverDecorator t kws] := by
      intro m hm
      unfold resolverDecorator at hm
      simp only [freeNamesL, freeNames, List.append_nil, List.mem_append, List.mem_singleton] at hm
      rcases hm with rfl | hm
      · refine hE _ (hX _ ?_)
        split
        · exact base_api (a := "mutation") (by decide) (by decide +kernel)
        · split
          · exact base_api (a := "subscription") (by decide) (by decide +kernel)
          · exact base_api (a := "field") (by decide) (by decide +kernel)
      · exact hk m hm
    simp only [evaluated, List.mem_append, List.flatMap_cons, freeNamesO, List.nil_append] at hm
    rcases hm with ((hm | hm) | hm) | hm
    · exact hdec m hm
    · exact hp.2 m hm
    · exact hp.1 m hm
    · exact hr hret m hm

theorem mem_sortedArgs {as : List ArgDef} {a : ArgDef} (h : a ∈ sortedArgs as) : a ∈ as :=
  (mem_pySorted ..).1 h

theorem berry_fields {c : Ctx} {t : String} (hu : Usable p sd X) (fs : List FieldDef)
    (hd : ∀ f ∈ fs, ∀ a ∈ f.args, ∀ d, a.default = some d → d.closed = true) :
    Berry c.env cls X (strawberryFields c p sd t cls fs) BodyIn := by
  induction fs with
  | nil => exact .pure fun _ _ => .nil
  | cons f fs ih =>
    unfold strawberryFields strawberryField
    refine Berry.bind (P := fun E s => ∀ n ∈ evaluated s, E n) ?_ fun s =>
      (ih fun g hg => hd g (List.mem_cons_of_mem _ hg)).bind fun ss => .pure fun E _ h hs => .cons hs h
    refine (berry_resolverArgs _ fun a ha => hd f List.mem_cons_self a (mem_sortedArgs ha)).bind fun a =>
      (berry_resolverAnnotation _).bind fun ret => (berry_keywords hu).bind fun kws =>
      (berry_fieldStmt hu.base).mono fun E s _ h hk hr ha => h ha hr ?_
    rw [freeNamesK_append, metadataKeywords_names, List.nil_append]
    exact hk

end

/-! ## emitting statements -/

/-- external, when scalars still stand for what `sm` says -/
def Given (sm : Dict String) (r : Reg) (n : String) : Prop := External { r with scalarMap := sm } n

/-- registered, or the Python type of a scalar -/
def Here (r : Reg) (n : String) : Prop := Known r n ∨ ∃ s, r.scalarMap.get? s = some n ∧ hasDot n = false

theorem external_split {sm : Dict String} {r : Reg} {n : String} (h : External r n) :
    Given sm r n ∨ ∃ s, r.scalarMap.get? s = some n ∧ hasDot n = false := by
  rcases h with h | h | h | h
  · exact .inl (.inl h)
  · exact .inl (.inr (.inl h))
  · exact .inl (.inr (.inr (.inl h)))
  · exact .inr h

theorem Soft.given {a b : Reg} (h : Soft a b) {sm : Dict String} {n : String} (hn : Given sm a n) : Given sm b n := by
  rcases hn with ⟨d, hd, e⟩ | h' | ⟨d, hd, e⟩ | h'
  · exact .inl ⟨d, h.imports _ hd, e⟩
  · exact .inr (.inl h')
  · exact .inr (.inr (.inl ⟨d, h.builtins _ hd, e⟩))
  · exact .inr (.inr (.inr h'))

theorem Soft.scalarMap {a b : Reg} (h : Soft a b) : b.scalarMap = a.scalarMap := by rw [h.same]

theorem Soft.here {a b : Reg} (h : Soft a b) {n : String} : Here b n ↔ Here a n := by
  unfold Here
  rw [h.known, h.scalarMap]

/-- a part of the plugin emits `ss`: everything evaluated is available, and everything it registers is bound -/
structure Lays (env : Env) (sm : Dict String) (X : String → Prop) (r r' : Reg) (ss : List Stmt) : Prop where
  styled : Styled env r → Styled env r'
  given : ∀ n, Given sm r n → Given sm r' n
  imports : ∀ d, d ∈ r.imports → d ∈ r'.imports
  binds : ∀ n, Here r' n → Here r n ∨ n ∈ boundL ss
  resolves : Styled env r → ∀ E : String → Prop, (∀ n, Given sm r' n ∨ Here r n ∨ X n → E n) → Resolves E ss

section
variable {env : Env} {sm : Dict String} {X : String → Prop}

theorem Lays.nil {r r' : Reg} (h : Soft r r') : Lays env sm X r r' [] :=
  ⟨fun hs => hs.soft h, fun _ => h.given, fun _ => h.imports _, fun _ hn => .inl (h.here.1 hn), fun _ _ _ => trivial⟩

theorem Lays.append {r r1 r2 : Reg} {a b : List Stmt} (ha : Lays env sm X r r1 a) (hb : Lays env sm X r1 r2 b) :
    Lays env sm X r r2 (a ++ b) := by
  refine ⟨fun hs => hb.styled (ha.styled hs), fun n h => hb.given n (ha.given n h),
    fun d h => hb.imports d (ha.imports d h), fun n h => ?_, fun hs E hE => resolves_join.2 ⟨?_, ?_⟩⟩
  · rw [boundL_append, List.mem_append]
    rcases hb.binds n h with h | h
    · exact (ha.binds n h).imp id .inl
    · exact .inr (.inr h)
  · exact ha.resolves hs E fun n hn => hE n (hn.imp (hb.given n) id)
  · refine hb.resolves (ha.styled hs) _ fun n hn => ?_
    rcases hn with hn | hn | hn
    · exact .inl (hE n (.inl hn))
    · rcases ha.binds n hn with hn | hn
      · exact .inl (hE n (.inr (.inl hn)))
      · exact .inr hn
    · exact .inl (hE n (.inr (.inr hn)))

theorem Lays.soft {r r1 r2 : Reg} {ss : List Stmt} (h : Soft r r1) (hl : Lays env sm X r1 r2 ss) :
    Lays env sm X r r2 ss := (Lays.nil h).append hl

theorem Lays.mono {r r' : Reg} {ss : List Stmt} {Y : String → Prop} (h : Lays env sm X r r' ss) (hX : ∀ n, X n → Y n) :
    Lays env sm Y r r' ss :=
  ⟨h.styled, h.given, h.imports, h.binds, fun hs E hE => h.resolves hs E fun n hn => hE n (hn.imp id (·.imp id (hX n)))⟩

/-- one class that is not registered -/
theorem Lays.plain {r r' : Reg} {s : Stmt} (h : Soft r r')
    (he : ∀ E : String → Prop, Styled env r → (∀ n, External r' n ∨ Known r n ∨ X n → E n) → ∀ n ∈ evaluated s, E n) :
    Lays env sm X r r' [s] := by
  refine ⟨fun hs => hs.soft h, fun _ => h.given, fun _ => h.imports _, fun _ hn => .inl (h.here.1 hn), fun hs E hE =>
    resolves_single (he E hs fun n hn => hE n ?_)⟩
  rcases hn with hn | hn | hn
  · exact (external_split hn).imp id fun x => .inl (.inr (h.scalarMap ▸ x))
  · exact .inr (.inl (.inl hn))
  · exact .inr (.inr hn)

/-- one class that is registered first, from `r` to `r1` -/
theorem Lays.define {r r1 r' : Reg} {cls : String} {bs : List Expr} {body : List Stmt} {ds : List Expr}
    (hst : Styled env r → Styled env r1) (hi : r1.imports = r.imports) (hb : r1.builtins = r.builtins)
    (hsm : r1.scalarMap = r.scalarMap) (hk : ∀ n, Known r1 n → Known r n ∨ n = cls) (h : Soft r1 r')
    (he : ∀ E : String → Prop, Styled env r → (∀ n, External r' n ∨ Known r n ∨ X n → E n) →
      ∀ n ∈ evaluated (.classDef cls bs body ds), E n) :
    Lays env sm X r r' [.classDef cls bs body ds] := by
  have hg : ∀ n, Given sm r n → Given sm r1 n := by
    intro n hn
    unfold Given External at *
    rw [show ({ r1 with scalarMap := sm } : Reg).imports = r.imports from hi,
      show ({ r1 with scalarMap := sm } : Reg).builtins = r.builtins from hb]
    exact hn
  refine ⟨fun hs => (hst hs).soft h, fun n hn => h.given (hg n hn), fun d hd => h.imports _ (hi ▸ hd), fun n hn => ?_,
    fun hs E hE => resolves_single (he E hs fun n hn => hE n ?_)⟩
  · rcases h.here.1 hn with hn | hn
    · rcases hk n hn with hn | rfl
      · exact .inl (.inl hn)
      · exact .inr (by simp [boundL, bound])
    · exact .inl (.inr (hsm ▸ hn))
  · rcases hn with hn | hn | hn
    · exact (external_split hn).imp id fun x => .inl (.inr (hsm ▸ h.scalarMap ▸ x))
    · exact .inr (.inl (.inl hn))
    · exact .inr (.inr hn)


theorem Lays.loop {α : Type} {f : α → Gen (List Stmt)} {loop : List α → Gen (List Stmt)}
    (h0 : loop [] = pure []) (h1 : ∀ x xs, loop (x :: xs) = do let s ← f x; let ss ← loop xs; pure (s ++ ss))
    {P : α → Prop} (hf : ∀ x, P x → ∀ r ss r', Styled env r → f x r = .ok (ss, r') → Lays env sm X r r' ss) (xs : List α) :
    (∀ x ∈ xs, P x) → ∀ {r r' : Reg} {ss : List Stmt}, Styled env r → loop xs r = .ok (ss, r') → Lays env sm X r r' ss := by
  induction xs with
  | nil =>
    intro _ r r' ss _ h
    rw [h0] at h
    obtain ⟨rfl, rfl⟩ := Gen.pure_ok.1 h
    exact .nil (Soft.refl _)
  | cons x xs ih =>
    intro hp r r' ss hs h
    rw [h1] at h
    obtain ⟨s, r1, h1, h⟩ := Gen.bind_ok.1 h
    obtain ⟨ss', r2, h2, h⟩ := Gen.bind_ok.1 h
    obtain ⟨rfl, rfl⟩ := Gen.pure_ok.1 h
    have l1 := hf x (hp x List.mem_cons_self) _ _ _ hs h1
    exact l1.append (ih (fun y hy => hp y (List.mem_cons_of_mem _ hy)) (l1.styled hs) h2)

end

section
variable {c : Ctx} {p : StrawberryConfig} {sd : SchemaDirectives} {sm : Dict String} {X : String → Prop}

theorem lays_directiveClass (hp : PlainConfig c.config) (hX : ∀ n, Base n → X n) (hl : X "Location") (d : DirectiveDef)
    (r : Reg) (ss : List Stmt) (r' : Reg) (hs : Styled c.env r) (h : directiveClass c p d r = .ok (ss, r')) :
    Lays c.env sm X r r' ss := by
  unfold directiveClass at h
  split at h
  · obtain ⟨rfl, rfl⟩ := Gen.pure_ok.1 h; exact .nil (Soft.refl _)
  split at h
  · obtain ⟨rfl, rfl⟩ := Gen.pure_ok.1 h; exact .nil (Soft.refl _)
  have hb : Berry c.env "" X (do
      let fs ← directiveFields c d.args
      let cfg ← generatePydanticConfig c .directive (some d.name)
      pure (orPass fs ++ cfg)) BodyIn :=
    (berry_directiveFields (hX _ (base_api (a := "field") (by decide) (by decide +kernel))) _).bind fun fs =>
      (berry_generatePydanticConfig hp).bind fun cfg => .pure fun E _ h1 h2 => (orPass_in h2).append h1
  obtain ⟨fs, r1, h1, h⟩ := Gen.bind_ok.1 h
  obtain ⟨cfg, r2, h2, h⟩ := Gen.bind_ok.1 h
  obtain ⟨rfl, rfl⟩ := Gen.pure_ok.1 h
  have hrun := hb.run r (orPass fs ++ cfg) r2 hs
    (Gen.bind_ok.2 ⟨_, _, h1, Gen.bind_ok.2 ⟨_, _, h2, Gen.pure_ok.2 ⟨rfl, rfl⟩⟩⟩)
  refine .plain hrun.1 fun E _ hE n hn => ?_
  simp only [evaluated, List.mem_append] at hn
  rcases hn with (hn | hn) | hn
  · simp only [freeNamesL, freeNames, freeNamesK, List.append_nil, List.mem_append, List.mem_singleton] at hn
    rcases hn with rfl | hn
    · exact hE _ (.inr (.inr (hX _ (base_api (a := "schema_directive") (by decide) (by decide +kernel)))))
    · obtain ⟨e, he, hn⟩ := mem_freeNamesL.1 hn
      obtain ⟨l, _, rfl⟩ := List.mem_map.1 he
      simp only [freeNames, List.mem_singleton] at hn
      exact hE _ (.inr (.inr (hn ▸ hl)))
  · simp [freeNamesL] at hn
  · exact hrun.2 E (fun m hm => hE m (hm.imp id (·.imp (fun x => .inl x.1) id))) n hn

/-- after an import, the imported name is available -/
theorem Lays.import_ {env : Env} {r r1 r' : Reg} {u : Unit} {d m : String} {ss : List Stmt} (h1 : registerImport d r = .ok (u, r1))
    (hm : lastComponent d = m) (l : Lays env sm (fun n => X n ∨ n = m) r1 r' ss) : Lays env sm X r r' ss := by
  obtain ⟨s1, e1⟩ := soft_registerImport h1
  refine .soft s1 ⟨l.styled, l.given, l.imports, l.binds, fun hs E hE => l.resolves hs E fun n hn => ?_⟩
  rcases hn with hn | hn | hn | rfl
  · exact hE n (.inl hn)
  · exact hE n (.inr (.inl hn))
  · exact hE n (.inr (.inr hn))
  · rcases external_split (sm := sm) (e1.at hm) with hg | hh
    · exact hE _ (.inl (l.given _ hg))
    · exact hE _ (.inr (.inl (.inr hh)))

theorem lays_directives (hp : PlainConfig c.config) (hX : ∀ n, Base n → X n)
    {ds : List DirectiveDef} {r r' : Reg} {ss : List Stmt} (hs : Styled c.env r)
    (h : strawberryDirectives c p ds r = .ok (ss, r')) : Lays c.env sm X r r' ss := by
  unfold strawberryDirectives at h
  cases hf : ds.filter fun d => !p.builtinDirectives.contains d.name with
  | nil =>
    rw [hf] at h
    obtain ⟨rfl, rfl⟩ := Gen.pure_ok.1 h
    exact .nil (Soft.refl _)
  | cons d ds' =>
    rw [hf] at h
    obtain ⟨_, r1, h1, h⟩ := Gen.bind_ok.1 h
    refine .import_ h1 (m := "Location") (by decide +kernel) ?_
    exact Lays.loop (f := directiveClass c p) (loop := directiveClasses c p) rfl
      (fun _ _ => rfl) (P := fun _ => True) (fun d _ => lays_directiveClass hp (fun n hn => .inl (hX n hn)) (.inr rfl) d)
      (d :: ds') (fun _ _ => trivial) (hs.soft (soft_registerImport h1).1) h

/-- the classes of the directives are among the statements -/
theorem directives_bound {ds : List DirectiveDef} {r r' : Reg} {ss : List Stmt}
    (h : strawberryDirectives c p ds r = .ok (ss, r')) (d : DirectiveDef) (hd : d ∈ ds) (hb : d.name ∉ p.builtinDirectives)
    (hk : KeptType p d.name) : d.name ∈ boundL ss := by
  have hloop : ∀ (l : List DirectiveDef) {r r' : Reg} {ss : List Stmt}, directiveClasses c p l r = .ok (ss, r') → d ∈ l →
      d.name ∈ boundL ss := by
    intro l
    induction l with
    | nil => intro _ _ _ _ h; cases h
    | cons x l ih =>
      intro r r' ss h hm
      unfold directiveClasses at h
      obtain ⟨s, r1, h1, h⟩ := Gen.bind_ok.1 h
      obtain ⟨ss', r2, h2, h⟩ := Gen.bind_ok.1 h
      obtain ⟨rfl, rfl⟩ := Gen.pure_ok.1 h
      rw [boundL_append, List.mem_append]
      rcases List.mem_cons.1 hm with rfl | hm
      · left
        have hk' := keptType_iff.2 hk
        rw [Bool.or_eq_false_iff] at hk'
        unfold directiveClass at h1
        rw [if_neg (by simp [hk'.1]), if_neg (by simp [hk'.2])] at h1
        obtain ⟨fs, r3, _, h1⟩ := Gen.bind_ok.1 h1
        obtain ⟨cfg, r4, _, h1⟩ := Gen.bind_ok.1 h1
        obtain ⟨rfl, rfl⟩ := Gen.pure_ok.1 h1
        simp [boundL, bound]
      · exact .inr (ih h2 hm)
  have hm : d ∈ ds.filter fun d => !p.builtinDirectives.contains d.name := by
    rw [List.mem_filter]
    exact ⟨hd, by simpa using hb⟩
  unfold strawberryDirectives at h
  cases hf : ds.filter fun d => !p.builtinDirectives.contains d.name with
  | nil => rw [hf] at hm; cases hm
  | cons x l =>
    rw [hf] at h hm
    obtain ⟨_, r1, h1, h⟩ := Gen.bind_ok.1 h
    exact hloop _ h hm

/-! ## scalars -/

theorem lays_scalar (hu : Usable p sd X) (hn : X "NewType") {t : ScalarType} {s : Stmt} {r r' : Reg}
    (h : strawberryScalar p sd t r = .ok (s, r')) : Lays c.env sm X r r' [s] := by
  unfold strawberryScalar at h
  obtain ⟨kws, r1, h1, h⟩ := Gen.bind_ok.1 h
  obtain ⟨_, r2, h2, h⟩ := Gen.bind_ok.1 h
  obtain ⟨rfl, rfl⟩ := Gen.pure_ok.1 h
  obtain ⟨rfl, hk⟩ := typeKeywords_ok hu h1
  cases h2
  refine ⟨fun hs k n cl hk => hs k n cl (by cases k <;> exact hk), fun _ h => h, fun _ h => h, fun n hn => ?_, fun hs E hE =>
    resolves_single fun n hn' => ?_⟩
  · rcases hn with hn | ⟨s, hs, hd⟩
    · refine .inl (.inl ?_)
      rcases hn with ⟨k, u, hn⟩ | hn
      · exact .inl ⟨k, u, by cases k <;> exact hn⟩
      · exact .inr hn
    · change (Dict.set _ _ _).get? s = _ at hs
      rw [Dict.get?_set] at hs
      split at hs
      · cases hs; exact .inr (by simp [boundL, bound])
      · exact .inl (.inr ⟨s, hs, hd⟩)
  · have hx : ∀ m, X m → E m := fun m hm => hE m (.inr (.inr hm))
    simp only [evaluated, freeNames, freeNamesL, freeNamesK, freeNamesK_append, Expr.str, List.append_nil,
      List.nil_append, List.mem_append, List.mem_singleton] at hn'
    rcases hn' with (rfl | rfl | rfl) | (hn' | hn') | hn' | hn'
    · exact hx _ (hu.api (a := "scalar") (by decide) (by decide +kernel))
    · exact hx _ hn
    · exact hE _ (.inl (.inr (.inl (by decide))))
    · exact hx _ (hk n hn')
    · split at hn' <;> simp [freeNamesK, freeNames] at hn'
    · simp at hn'
    · simp at hn'

theorem lays_scalars (hu : Usable p sd X) {r r' : Reg} {ss : List Stmt} (hs : Styled c.env r)
    (h : strawberryScalars c p sd r = .ok (ss, r')) : Lays c.env sm X r r' ss := by
  have hloop : ∀ {Y : String → Prop}, Usable p sd Y → Y "NewType" → ∀ (l : List ScalarType) {r r' : Reg} {ss : List Stmt},
      strawberryScalarLoop p sd l r = .ok (ss, r') → Lays c.env sm Y r r' ss := by
    intro Y hY hn l
    induction l with
    | nil => intro r r' ss h; obtain ⟨rfl, rfl⟩ := Gen.pure_ok.1 h; exact .nil (Soft.refl _)
    | cons t l ih =>
      intro r r' ss h
      unfold strawberryScalarLoop at h
      obtain ⟨s, r1, h1, h⟩ := Gen.bind_ok.1 h
      obtain ⟨ss', r2, h2, h⟩ := Gen.bind_ok.1 h
      obtain ⟨rfl, rfl⟩ := Gen.pure_ok.1 h
      exact (lays_scalar hY hn h1).append (ih h2)
  unfold strawberryScalars at h
  cases hc : customScalars p c.schema with
  | nil =>
    rw [hc] at h
    obtain ⟨rfl, rfl⟩ := Gen.pure_ok.1 h
    exact .nil (Soft.refl _)
  | cons t ts =>
    rw [hc] at h
    obtain ⟨_, r1, h1, h⟩ := Gen.bind_ok.1 h
    refine .import_ h1 (m := "NewType") (by decide +kernel) (hloop ⟨?_, ?_, hu.plain⟩ (.inr rfl) _ h)
    · exact fun n hn => .inl (hu.base n hn)
    · exact fun a ha => .inl (hu.named a ha)

/-! ## enums -/

theorem known_setClass {r : Reg} {k : Kind} {t cls n : String} (h : Known (r.setClass k t cls) n) : Known r n ∨ n = cls := by
  rcases h with h | ⟨i, h⟩
  · exact (registered_setClass h).imp .inl id
  · exact .inl (.inr ⟨i, by cases k <;> exact h⟩)

theorem enumBody_in {E : String → Prop} {d : Option String} {vs : List EnumValueDef} :
    BodyIn E (orPass (descriptionStmts d ++ vs.flatMap enumValueStmts)) := by
  refine orPass_in (descriptionStmts_in.append fun n hn => ?_)
  obtain ⟨s, hs, hn⟩ := mem_evaluatedL.1 hn
  obtain ⟨v, _, hs⟩ := List.mem_flatMap.1 hs
  unfold enumValueStmts at hs
  split at hs
  · simp only [List.mem_cons, List.not_mem_nil, or_false] at hs
    rcases hs with rfl | rfl <;> simp [evaluated, Expr.str, freeNames] at hn
  · simp only [List.mem_cons, List.not_mem_nil, or_false] at hs
    subst hs
    simp [evaluated, Expr.str, freeNames] at hn

theorem lays_enum (hu : Usable p sd X) (t : EnumType) (r : Reg) (ss : List Stmt) (r' : Reg) (hs : Styled c.env r)
    (h : strawberryEnum c p sd t r = .ok (ss, r')) : Lays c.env sm X r r' ss := by
  unfold strawberryEnum at h
  replace h := Gen.bind_ok.1 h
  obtain ⟨kws, r1, h1, h⟩ := h
  obtain ⟨rfl, hk⟩ := typeKeywords_ok hu h1
  split at h
  · obtain ⟨rfl, rfl⟩ := Gen.pure_ok.1 h; exact .nil (Soft.refl _)
  split at h
  · obtain ⟨rfl, rfl⟩ := Gen.pure_ok.1 h; exact .nil (Soft.refl _)
  replace h := Gen.bind_ok.1 h
  obtain ⟨cls, r2, h2, h⟩ := h
  replace h := Gen.bind_ok.1 h
  obtain ⟨_, r3, h3, h⟩ := h
  obtain ⟨rfl, rfl⟩ := Gen.pure_ok.1 h
  obtain ⟨s3, e3⟩ := soft_registerImport h3
  have hst : Styled c.env r1 → Styled c.env r2 := fun hs => styled_generateClass hs h2
  obtain ⟨_, _, rfl⟩ := generateClass_ok h2
  refine .define hst rfl rfl rfl (fun n => known_setClass) s3 fun E _ hE n hn => ?_
  simp only [evaluated, List.mem_append] at hn
  rcases hn with (hn | hn) | hn
  · exact decorator_in (hE _ (.inr (.inr (hu.api (a := "enum") (by decide) (by decide +kernel)))))
      (fun m hm => hE m (.inr (.inr (hk m hm)))) n hn
  · simp only [freeNamesL, freeNames, List.append_nil, List.mem_singleton] at hn
    subst hn
    exact hE _ (.inl (e3.at (by decide +kernel)))
  · exact enumBody_in n hn

theorem lays_enums (hu : Usable p sd X) (ts : List EnumType) {r r' : Reg} {ss : List Stmt} (hs : Styled c.env r)
    (h : strawberryEnums c p sd ts r = .ok (ss, r')) : Lays c.env sm X r r' ss :=
  Lays.loop (f := strawberryEnum c p sd) (loop := strawberryEnums c p sd) rfl (fun _ _ => rfl) (P := fun _ => True)
    (fun t _ => lays_enum hu t) ts (fun _ _ => trivial) hs h

/-! ## inputs -/

theorem lays_input (hp : PlainConfig c.config) (hb : p.inputtypeBases = []) (hu : Usable p sd X) (t : InputType) (r : Reg)
    (ss : List Stmt) (r' : Reg) (hs : Styled c.env r) (h : strawberryInput c p sd t r = .ok (ss, r')) :
    Lays c.env sm X r r' ss := by
  unfold strawberryInput at h
  split at h
  · obtain ⟨rfl, rfl⟩ := Gen.pure_ok.1 h; exact .nil (Soft.refl _)
  replace h := Gen.bind_ok.1 h
  obtain ⟨kws, r1, h1, h⟩ := h
  obtain ⟨rfl, hk⟩ := typeKeywords_ok hu h1
  replace h := Gen.bind_ok.1 h
  obtain ⟨extra, r2, h2, h⟩ := h
  obtain ⟨s2, e2⟩ := soft_additionalBasesFor h2
  replace h := Gen.bind_ok.1 h
  obtain ⟨cls, r3, h3, h⟩ := h
  replace h := Gen.bind_ok.1 h
  obtain ⟨fs, r4, h4, h⟩ := h
  replace h := Gen.bind_ok.1 h
  obtain ⟨cfg, r5, h5, h⟩ := h
  obtain ⟨rfl, rfl⟩ := Gen.pure_ok.1 h
  have hst : Styled c.env r2 → Styled c.env r3 := fun hs => styled_generateClass hs h3
  have hs3 := hst (hs.soft s2)
  obtain ⟨_, _, rfl⟩ := generateClass_ok h3
  obtain ⟨s4, b4⟩ := (berry_inputFields (X := X) (hu.api (a := "field") (by decide) (by decide +kernel)) _).run _ _ _ hs3 h4
  obtain ⟨s5, b5⟩ := (berry_generatePydanticConfig (p := cls) (X := X) hp).run _ _ _ (hs3.soft s4) h5
  refine .soft s2 (.define hst rfl rfl rfl (fun n => known_setClass) (s4.trans s5) fun E _ hE n hn => ?_)
  simp only [evaluated, List.mem_append] at hn
  rcases hn with (hn | hn) | hn
  · refine decorator_in (hE _ (.inr (.inr (hu.api (a := "input") (by decide) (by decide +kernel))))) ?_ n hn
    intro m hm
    rw [freeNamesK_append, List.mem_append] at hm
    rcases hm with hm | hm
    · exact hE m (.inr (.inr (hk m hm)))
    · split at hm <;> simp [freeNamesK, freeNames] at hm
  · rw [hb] at hn
    simp only [baseNames, List.map_nil, List.append_nil] at hn
    exact hE n (.inl ((s4.trans s5).external (external_setClass.2 (e2 n hn))))
  · have hreg : ∀ m, Registered (r2.setClass .input t.name cls) m ∧ m ≠ cls → Known r2 m := fun m hm =>
      .inl ((registered_setClass hm.1).resolve_right hm.2)
    refine BodyIn.append (BodyIn.append descriptionStmts_in (b4 E fun m hm => hE m ?_)) (b5 E fun m hm => hE m ?_) n hn
    · rcases hm with hm | hm | hm
      · exact .inl (s5.external hm)
      · exact .inr (.inl (hreg m hm))
      · exact .inr (.inr hm)
    · rcases hm with hm | hm | hm
      · exact .inl hm
      · exact .inr (.inl (hreg m ⟨s4.registered.1 hm.1, hm.2⟩))
      · exact .inr (.inr hm)

theorem lays_inputs (hp : PlainConfig c.config) (hb : p.inputtypeBases = []) (hu : Usable p sd X) (ts : List InputType)
    {r r' : Reg} {ss : List Stmt} (hs : Styled c.env r)
    (h : strawberryInputs c p sd ts r = .ok (ss, r')) : Lays c.env sm X r r' ss :=
  Lays.loop (f := strawberryInput c p sd) (loop := strawberryInputs c p sd) rfl (fun _ _ => rfl) (P := fun _ => True)
    (fun t _ => lays_input hp hb hu t) ts (fun _ _ => trivial) hs h

/-! ## objects and interfaces -/

theorem berry_strawberryBases_ok {all : List String} : ∀ (is : List String) {r r' : Reg} {bs : List Expr},
    strawberryBases c all is r = .ok (bs, r') → r' = r ∧
      ∀ n ∈ freeNamesL bs, ∃ i ∈ is, r.interfaceBaseclassMap.get? i = some n := by
  intro is
  induction is with
  | nil => intro r r' bs h; obtain ⟨rfl, rfl⟩ := Gen.pure_ok.1 h; exact ⟨rfl, by simp [freeNamesL]⟩
  | cons i is ih =>
    intro r r' bs h
    unfold strawberryBases at h
    split at h
    · obtain ⟨b, r1, h1, h⟩ := Gen.bind_ok.1 h
      obtain ⟨bs', r2, h2, h⟩ := Gen.bind_ok.1 h
      obtain ⟨rfl, rfl⟩ := Gen.pure_ok.1 h
      unfold inheritInterface at h1
      cases hg : r.interfaceBaseclassMap.get? i with
      | none => rw [hg] at h1; cases h1
      | some b' =>
        rw [hg] at h1
        cases h1
        obtain ⟨rfl, hn⟩ := ih h2
        refine ⟨rfl, fun n hm => ?_⟩
        simp only [freeNamesL, freeNames, List.mem_append, List.mem_singleton] at hm
        rcases hm with rfl | hm
        · exact ⟨i, List.mem_cons_self, hg⟩
        · obtain ⟨j, hj, hj'⟩ := hn n hm
          exact ⟨j, List.mem_cons_of_mem _ hj, hj'⟩
    · obtain ⟨rfl, hn⟩ := ih h
      refine ⟨rfl, fun n hm => ?_⟩
      obtain ⟨j, hj, hj'⟩ := hn n hm
      exact ⟨j, List.mem_cons_of_mem _ hj, hj'⟩

/-- registering the class -/
theorem registerType_ok {env : Env} {t : CompositeType} {cls : String} {r r1 : Reg} (hs : Styled env r)
    (h : strawberryClassName env t r = .ok (cls, r1)) : Styled env r1 ∧ r1.imports = r.imports ∧ r1.builtins = r.builtins ∧
      r1.scalarMap = r.scalarMap ∧ (∀ n, Known r1 n → Known r n ∨ n = cls) ∧
      (∀ n, Registered r1 n → Registered r n ∨ n = cls) ∧
      ∀ i n, i ≠ t.name → r1.interfaceBaseclassMap.get? i = some n → Known r n := by
  unfold strawberryClassName at h
  split at h
  · unfold generateInterface at h
    split at h
    · cases h
    cases hst : styleInterface env t.name with
    | error e => rw [hst] at h; cases h
    | ok n =>
      rw [hst] at h
      cases h
      refine ⟨fun k m cl h => hs k m cl (by cases k <;> exact h), rfl, rfl, rfl, ?_, ?_, ?_⟩
      · rintro m (⟨k, u, h⟩ | ⟨i, h⟩)
        · exact .inl (.inl ⟨k, u, by cases k <;> exact h⟩)
        · change (Dict.set _ _ _).get? i = _ at h
          rw [Dict.get?_set] at h
          split at h
          · cases h; exact .inr rfl
          · exact .inl (.inr ⟨i, h⟩)
      · rintro m ⟨k, u, h⟩
        exact .inl ⟨k, u, by cases k <;> exact h⟩
      · intro i m hi h
        change (Dict.set _ _ _).get? i = _ at h
        rw [Dict.get?_set_ne _ _ (Ne.symm hi)] at h
        exact .inr ⟨i, h⟩
  · have hst := styled_generateClass hs h
    obtain ⟨_, _, rfl⟩ := generateClass_ok h
    exact ⟨hst, rfl, rfl, rfl, fun n => known_setClass, fun n => registered_setClass, fun i n _ h => .inr ⟨i, h⟩⟩

/-- what is assumed of an object or interface: it does not implement itself, and defaults are literals -/
def Sound (t : CompositeType) : Prop :=
  t.name ∉ t.interfaces ∧ ∀ f ∈ t.fields, ∀ a ∈ f.args, ∀ d, a.default = some d → d.closed = true

theorem lays_type (hp : PlainConfig c.config) (hu : Usable p sd X) (t : CompositeType) (ht : Sound t) (r : Reg)
    (ss : List Stmt) (r' : Reg) (hs : Styled c.env r) (h : strawberryType c p sd t r = .ok (ss, r')) :
    Lays c.env sm X r r' ss := by
  unfold strawberryType at h
  replace h := Gen.bind_ok.1 h
  obtain ⟨extra, r1, h1, h⟩ := h
  obtain ⟨s1, e1⟩ := soft_additionalBasesFor h1
  split at h
  · obtain ⟨rfl, rfl⟩ := Gen.pure_ok.1 h; exact .nil s1
  split at h
  · obtain ⟨rfl, rfl⟩ := Gen.pure_ok.1 h; exact .nil s1
  replace h := Gen.bind_ok.1 h
  obtain ⟨kws, r2, h2, h⟩ := h
  obtain ⟨rfl, hk⟩ := typeKeywords_ok hu h2
  replace h := Gen.bind_ok.1 h
  obtain ⟨cls, r3, h3, h⟩ := h
  replace h := Gen.bind_ok.1 h
  obtain ⟨bs, r4, h4, h⟩ := h
  replace h := Gen.bind_ok.1 h
  obtain ⟨fs, r5, h5, h⟩ := h
  replace h := Gen.bind_ok.1 h
  obtain ⟨cfg, r6, h6, h⟩ := h
  obtain ⟨rfl, rfl⟩ := Gen.pure_ok.1 h
  obtain ⟨hs3, hi, hb, hsm, hkn, hreg, hbase⟩ := registerType_ok (hs.soft s1) h3
  obtain ⟨rfl, hbs⟩ := berry_strawberryBases_ok _ h4
  obtain ⟨s5, b5⟩ := (berry_fields (X := X) hu _ ht.2).run _ _ _ hs3 h5
  obtain ⟨s6, b6⟩ := (berry_generatePydanticConfig (p := cls) (X := X) hp).run _ _ _ (hs3.soft s5) h6
  refine .soft s1 (.define (fun _ => hs3) hi hb hsm hkn (s5.trans s6) fun E _ hE n hn => ?_)
  simp only [evaluated, List.mem_append] at hn
  rcases hn with (hn | hn) | hn
  · refine decorator_in (hE _ (.inr (.inr ?_))) (fun m hm => hE m (.inr (.inr (hk m hm)))) n hn
    split
    · exact hu.api (a := "interface") (by decide) (by decide +kernel)
    · exact hu.api (a := "type") (by decide) (by decide +kernel)
  · obtain ⟨e, he, hn⟩ := mem_freeNamesL.1 hn
    rcases List.mem_append.1 he with he | he
    · have := e1 n (mem_freeNamesL.2 ⟨e, he, hn⟩)
      refine hE n (.inl ((s5.trans s6).external ?_))
      unfold External at *
      rw [hi, hb, hsm]
      exact this
    · obtain ⟨i, hi', hg⟩ := hbs n (mem_freeNamesL.2 ⟨e, he, hn⟩)
      exact hE n (.inr (.inl (hbase i n (by rintro rfl; exact ht.1 hi') hg)))
  · have hr : ∀ m, Registered r4 m ∧ m ≠ cls → Known r2 m := fun m hm => .inl ((hreg m hm.1).resolve_right hm.2)
    refine BodyIn.append (BodyIn.append descriptionStmts_in (b5 E fun m hm => hE m ?_)) (b6 E fun m hm => hE m ?_) n hn
    · rcases hm with hm | hm | hm
      · exact .inl (s6.external hm)
      · exact .inr (.inl (hr m hm))
      · exact .inr (.inr hm)
    · rcases hm with hm | hm | hm
      · exact .inl hm
      · exact .inr (.inl (hr m ⟨s5.registered.1 hm.1, hm.2⟩))
      · exact .inr (.inr hm)

theorem lays_types (hp : PlainConfig c.config) (hu : Usable p sd X) (ht : ∀ t, CompositeOf c.schema t → Sound t)
    {r r' : Reg} {ss : List Stmt} (hs : Styled c.env r)
    (h : strawberryTypes c p sd r = .ok (ss, r')) : Lays c.env sm X r r' ss := by
  unfold strawberryTypes at h
  replace h := Gen.bind_ok.1 h
  obtain ⟨_, r1, h1, h⟩ := h
  have s1 := (soft_registerImport h1).1
  exact .soft s1 (Lays.loop (f := strawberryType c p sd) (loop := strawberryTypeLoop c p sd) rfl (fun _ _ => rfl)
    (P := Sound) (fun t ht => lays_type hp hu t ht) _ (fun t h => ht t (mem_sortedComposites.1 h)) (hs.soft s1) h)

/-! ## the plugin -/

theorem lays_whenEnabled {env : Env} {b : Bool} {g : Gen (List Stmt)} {r r' : Reg} {ss : List Stmt}
    (hg : b = true → g r = .ok (ss, r') → Lays env sm X r r' ss) (h : whenEnabled b g r = .ok (ss, r')) :
    Lays env sm X r r' ss := by
  rcases whenEnabled_ok h with ⟨hb, h⟩ | ⟨_, rfl, rfl⟩
  · exact hg hb h
  · exact .nil (Soft.refl _)

theorem strawberry_resolves (hp : PlainConfig c.config) (hb : p.inputtypeBases = []) (hd : DirectivesUsable p sd)
    (ht : ∀ t, CompositeOf c.schema t → Sound t) {r r' : Reg} {ss : List Stmt} (hs : Styled c.env r)
    (h : strawberryPlugin c p sd r = .ok (ss, r')) : Resolves (Provided r r') ss := by
  unfold strawberryPlugin at h
  replace h := Gen.bind_ok.1 h
  obtain ⟨_, r0, h0, h⟩ := h
  replace h := Gen.bind_ok.1 h
  obtain ⟨ds, r1, h1, h⟩ := h
  replace h := Gen.bind_ok.1 h
  obtain ⟨sc, r2, h2, h⟩ := h
  replace h := Gen.bind_ok.1 h
  obtain ⟨es, r3, h3, h⟩ := h
  replace h := Gen.bind_ok.1 h
  obtain ⟨is, r4, h4, h⟩ := h
  replace h := Gen.bind_ok.1 h
  obtain ⟨ts, r5, h5, h⟩ := h
  obtain ⟨rfl, rfl⟩ := Gen.pure_ok.1 h
  obtain ⟨s0, _⟩ := soft_registerImport h0
  have hs0 := hs.soft s0
  have l1 : Lays c.env r.scalarMap Base r0 r1 ds :=
    lays_whenEnabled (fun _ h => lays_directives hp (fun _ h => h) hs0 h) h1
  let Y : String → Prop := fun n => Base n ∨ n ∈ boundL ds
  have hu : Usable p sd Y := by
    refine ⟨fun n hn => .inl hn, fun a ha => .inr ?_, hd.plain⟩
    obtain ⟨hg, d, hdm, hn, hk⟩ := hd.generated a ha
    rcases whenEnabled_ok h1 with ⟨_, h1⟩ | ⟨hf, _⟩
    · rw [← hn]
      exact directives_bound h1 d hdm (hn ▸ ha.1) hk
    · rw [hg] at hf; cases hf
  have hs1 := l1.styled hs0
  have l2 : Lays c.env r.scalarMap Y r1 r2 sc := lays_whenEnabled (fun _ h => lays_scalars hu hs1 h) h2
  have hs2 := l2.styled hs1
  have l3 : Lays c.env r.scalarMap Y r2 r3 es := lays_whenEnabled (fun _ h => lays_enums hu _ hs2 h) h3
  have hs3 := l3.styled hs2
  have l4 : Lays c.env r.scalarMap Y r3 r4 is := lays_whenEnabled (fun _ h => lays_inputs hp hb hu _ hs3 h) h4
  have hs4 := l4.styled hs3
  have l5 : Lays c.env r.scalarMap Y r4 r5 ts := lays_whenEnabled (fun _ h => lays_types hp hu ht hs4 h) h5
  have l := l2.append (l3.append (l4.append l5))
  have himp : "strawberry" ∈ r5.imports := by
    refine l.imports _ (l1.imports _ ?_)
    unfold registerImport at h0
    rw [if_neg (by decide)] at h0
    cases h0
    exact (mem_setAdd _ _ _).2 (.inr rfl)
  have hbase : ∀ n, Base n → Provided r r5 n := by
    rintro n (h | rfl)
    · exact .inr (.inl ⟨himp, h⟩)
    · exact .inr (.inr (.inl rfl))
  have hhere : ∀ n, Here r0 n → Provided r r5 n := by
    intro n hn
    rcases s0.here.1 hn with hn | hn
    · exact .inr (.inr (.inr hn))
    · exact .inl (.inr (.inr (.inr hn)))
  rw [show ds ++ sc ++ es ++ is ++ ts = ds ++ (sc ++ (es ++ (is ++ ts))) by simp only [List.append_assoc]]
  refine resolves_join.2 ⟨l1.resolves hs0 _ fun n hn => ?_, l.resolves hs1 _ fun n hn => ?_⟩
  · rcases hn with hn | hn | hn
    · exact .inl (l.given n hn)
    · exact hhere n hn
    · exact hbase n hn
  · rcases hn with hn | hn | hn | hn
    · exact .inl (.inl hn)
    · rcases l1.binds n hn with hn | hn
      · exact .inl (hhere n hn)
      · exact .inr hn
    · exact .inl (hbase n hn)
    · exact .inr hn

end

end Turms
