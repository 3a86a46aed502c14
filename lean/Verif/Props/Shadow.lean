import Verif.Lemmas.Shadow
import Verif.Props.ResponseScope
import Verif.Props.Inputs
import Verif.Props.Objects

/-!
# C61: attributes that hide the types of their class
-/

namespace Turms.Props
open Turms Turms.Spec Turms.Fragments

theorem unshadowed_of_resolves {E : String → Prop} {ss : List Stmt} (hr : Resolves E ss) {cls : String} {bases ds : List Expr}
    {body : List Stmt} (hc : .classDef cls bases body ds ∈ ss) (hfree : ∀ n ∈ storedL body, ¬ E n ∧ n ∉ boundL ss) :
    Unshadowed [] body := by
  refine unshadowed_of_disjoint (fun x hx hs => ?_) (fun x _ h => by cases h)
  have he : x ∈ evaluatedL ss := mem_evaluatedL.2 ⟨_, hc, by simp [evaluated, hx]⟩
  rcases resolves_evaluated hr he with h | h
  · exact (hfree x hs).1 h
  · exact (hfree x hs).2 h

/-- C61 for input models: if no attribute that gets a value in the class body is called like an import, a builtin type, a
helper class, a scalar's Python type or a class of the module, then no attribute hides a name the class body uses.
Missing: attributes that are called like one of these, which do hide them (counterexamples). -/
theorem C61_inputs_partial (c : Ctx) (p : InputsConfig) (ops : List Op) (ss : List Stmt) (r' : Reg)
    (hp : PlainConfig c.config) (hn : c.schema.types.keys.Nodup)
    (h : generateInputs c p (stateAfter c.env ops) = .ok (ss, r'))
    (cls : String) (bases ds : List Expr) (body : List Stmt) (hc : .classDef cls bases body ds ∈ ss)
    (hfree : ∀ n ∈ storedL body, ¬ External r' n ∧ ¬ Registered (stateAfter c.env ops) n ∧ n ∉ boundL ss) :
    Unshadowed [] body := by
  refine unshadowed_of_resolves (C60_inputs_resolve c p ops ss r' hp hn h) hc fun n hm => ⟨?_, (hfree n hm).2.2⟩
  rintro (h | h)
  · exact (hfree n hm).1 h
  · exact (hfree n hm).2.1 h

/-- C61 for object models, likewise -/
theorem C61_objects_partial (c : Ctx) (p : ObjectsConfig) (ops : List Op) (ss : List Stmt) (r' : Reg)
    (hp : PlainConfig c.config) (hv : ValidComposites c.schema)
    (h : generateTypes c p (stateAfter c.env ops) = .ok (ss, r'))
    (cls : String) (bases ds : List Expr) (body : List Stmt) (hc : .classDef cls bases body ds ∈ ss)
    (hfree : ∀ n ∈ storedL body, ¬ External r' n ∧ ¬ Known (stateAfter c.env ops) n ∧ n ∉ boundL ss) :
    Unshadowed [] body := by
  refine unshadowed_of_resolves (C60_objects_resolve c p ops ss r' hp hv h) hc fun n hm => ⟨?_, (hfree n hm).2.2⟩
  rintro (h | h)
  · exact (hfree n hm).1 h
  · exact (hfree n hm).2.1 h

/-- C61 for a module of enums, inputs, fragments and operations, under the assumptions of C60 on the document and the
configuration -/
theorem C61_module_partial {prep : List Char → List Char} {c : Ctx} {pe : EnumsConfig} {pi : InputsConfig}
    {pf : FragmentsConfig} {po : OperationsConfig} {doc : Document} {r1 r2 r3 r4 : Reg} {ss1 ss2 ss3 ss4 : List Stmt}
    (henums : generateEnums c pe (Reg.init c.env) = .ok (ss1, r1))
    (hinputs : generateInputs c pi r1 = .ok (ss2, r2))
    (hfrag : fragmentsPlugin prep c pf doc r2 = .ok (ss3, r3))
    (hops : operationsPlugin prep c po doc r3 = .ok (ss4, r4))
    (hplain : PlainConfig c.config) (hnodup : c.schema.types.keys.Nodup)
    (hdef : ∀ d ∈ fragmentsOf doc, ∀ x, Spreads d.sels x → x ∈ (fragmentsOf doc).map (·.name))
    (hdefO : ∀ o ∈ operationsOf doc, ∀ x, Spreads o.sels x → x ∈ (fragmentsOf doc).map (·.name))
    (hcyc : ∀ n d, lookup (fragmentsOf doc) n = some d → ¬ Needs (fragmentsOf doc) d.sels n)
    (hinl : ∀ d ∈ fragmentsOf doc, NoInlineSpread d.sels)
    (hbases : ∀ b ∈ c.config.objectBases, External r4 (lastComponent b))
    (hfield : NeedsField c po doc → External r4 "Field")
    (cls : String) (bases ds : List Expr) (body : List Stmt)
    (hc : .classDef cls bases body ds ∈ ss1 ++ (ss2 ++ (ss3 ++ ss4)))
    (hfree : ∀ n ∈ storedL body, ¬ External r4 n ∧ ¬ InterfaceFragmentAtUnion c doc n ∧
      n ∉ boundL (ss1 ++ (ss2 ++ (ss3 ++ ss4)))) :
    Unshadowed [] body := by
  refine unshadowed_of_resolves (C60_module_resolves_partial henums hinputs hfrag hops hplain hnodup hdef hdefO hcyc hinl
    hbases hfield) hc fun n hm => ⟨?_, (hfree n hm).2.2⟩
  rintro (h | h)
  · exact (hfree n hm).1 h
  · exact (hfree n hm).2.1 h

/-- C61 fails for *every* input type with a field that may be omitted and is called (after styling) like the Python type
of its scalar, at any nesting depth: `input F { str: [String] }` gives `str: Optional[List[Optional[str]]] = None`, whose
annotation is evaluated after `str` is `None`. -/
theorem C61_input_counterexample (c : Ctx) (p : InputsConfig) (ops : List Op) (ss : List Stmt) (r' : Reg)
    (hp : PlainConfig c.config) (hn : c.schema.types.keys.Nodup)
    (h : generateInputs c p (stateAfter c.env ops) = .ok (ss, r')) (t : InputType)
    (ht : InputOf c.schema t) (hm : ¬ IsMember p t) (hk : Kept p t.name) (hone : ¬ OneOf t.directives)
    (halone : ∀ t', InputOf c.schema t' → ¬ MemberOf p t' t.name)
    (f : InputFieldDef) (hf : f ∈ t.fields) (py : String) (hl : c.schema.lookup f.type.base = some .scalar)
    (hs : (stateAfter c.env ops).scalarMap.get? f.type.base = some py)
    (hname : generateNodeName c.env.stylers f.name = .ok (lastComponent py))
    (ho : f.type.isNonNull = false ∨ f.default ≠ none) :
    ∃ cls bases body ds, Kind.input.style c.env t.name = .ok cls ∧ .classDef cls bases body ds ∈ ss ∧
      ¬ Unshadowed [] body := by
  obtain ⟨_, _, _, hplain, _⟩ := generateInputs_ok (styled_stateAfter _ _) hp hn h
  obtain ⟨s, hsm, r1, r2, cls, hst, hsc, hcls, hgen⟩ := hplain t ht hm hk hone halone
  unfold generateInputType at hgen
  obtain ⟨extra, ra, ha, hgen⟩ := Gen.bind_ok.1 hgen
  obtain ⟨lits, rb, hb, hgen⟩ := Gen.bind_ok.1 hgen
  obtain ⟨fs, rc, hfs, hgen⟩ := Gen.bind_ok.1 hgen
  obtain ⟨cfg, rd, hcfg, hgen⟩ := Gen.bind_ok.1 hgen
  obtain ⟨rfl, _⟩ := Gen.pure_ok.1 hgen
  obtain ⟨rfl, rfl⟩ := Gen.pure_ok.1 hb
  have ha := (soft_additionalBasesFor ha).1
  have hom : omittableField f = true := by
    unfold omittableField
    rcases ho with h | h
    · simp [h]
    · cases hd : f.default with
      | none => exact absurd hd h
      | some _ => simp
  obtain ⟨s, hs', hbad⟩ := inputFields_hides hl hname hom hf (hst.soft ha) hfs (by rw [ha.frame.1, hsc]; exact hs)
  refine ⟨cls, _, _, _, hcls, hsm, fun hu => hbad (unshadowed_mem ?_ hu)⟩
  simp [hs']

/-! ## cases that meet the hypotheses, and concrete classes that hide their types -/

theorem contains_false {l : List String} {x : String} : l.contains x = false ↔ x ∉ l := by
  rw [← List.contains_iff_mem, Bool.not_eq_true]

/-- `Clear`, computed -/
def clearTest (held : List String) : Stmt → Bool
  | .annAssign n a (some v) => (freeNames v).all (fun x => !held.contains x) && (freeNames a).all (fun x => !(n :: held).contains x)
  | s => (evaluated s).all (fun x => !held.contains x)

/-- `Unshadowed`, computed -/
def unshadowedTest (held : List String) : List Stmt → Bool
  | [] => true
  | s :: ss => clearTest held s && unshadowedTest (stored s ++ held) ss

theorem clear_test {held : List String} {s : Stmt} (h : Clear held s) : clearTest held s = true := by
  unfold clearTest
  split
  · simp only [Bool.and_eq_true, List.all_eq_true, Bool.not_eq_true', contains_false]
    exact h
  · rename_i hne
    unfold Clear at h
    split at h
    · exact absurd rfl (hne _ _ _)
    · simp only [List.all_eq_true, Bool.not_eq_true', contains_false]
      exact h

theorem unshadowed_test {ss : List Stmt} : ∀ {held : List String}, Unshadowed held ss → unshadowedTest held ss = true := by
  induction ss with
  | nil => intros; rfl
  | cons s ss ih =>
    intro held h
    unfold unshadowedTest
    rw [clear_test h.1, ih h.2]; rfl

/-- the body of a generated class of that name hides a name it uses -/
def hides (cls : String) (ss : List Stmt) : Bool := ss.any fun
  | .classDef n _ body _ => n == cls && !unshadowedTest [] body
  | _ => false

theorem hides_ok {cls : String} {ss : List Stmt} (h : hides cls ss = true) :
    ∃ bases body ds, .classDef cls bases body ds ∈ ss ∧ ¬ Unshadowed [] body := by
  unfold hides at h
  obtain ⟨s, hs, ht⟩ := List.any_eq_true.1 h
  clear h
  split at ht
  · rename' ht => h
    simp only [Bool.and_eq_true, beq_iff_eq, Bool.not_eq_true'] at h
    obtain ⟨rfl, h⟩ := h
    exact ⟨_, _, _, hs, fun hu => by rw [unshadowed_test hu] at h; cases h⟩
  · cases ht

/-- the class of that name stores something, and nothing it stores is provided from outside or bound by the module -/
def plainNames (cls : String) (ss : List Stmt) (r : Reg) : Bool := ss.any fun
  | .classDef n _ body _ => n == cls && !(storedL body).isEmpty &&
      (storedL body).all (fun x => !externalTest r x && !(boundL ss).contains x)
  | _ => false

theorem plainNames_ok {cls : String} {ss : List Stmt} {r : Reg} (h : plainNames cls ss r = true) :
    ∃ bases body ds, .classDef cls bases body ds ∈ ss ∧ storedL body ≠ [] ∧ ∀ n ∈ storedL body, ¬ External r n ∧ n ∉ boundL ss := by
  unfold plainNames at h
  obtain ⟨s, hs, ht⟩ := List.any_eq_true.1 h
  clear h
  split at ht
  · rename' ht => h
    simp only [Bool.and_eq_true, beq_iff_eq, Bool.not_eq_true', List.all_eq_true, contains_false] at h
    obtain ⟨⟨rfl, h1⟩, h⟩ := h
    refine ⟨_, _, _, hs, fun e => (by rw [e] at h1; cases h1), fun n hn => ⟨fun he => ?_, (h n hn).2⟩⟩
    have := (h n hn).1
    rw [external_test he] at this; cases this
  · cases ht

theorem nothing_registered {env : Env} {n : String} : ¬ Registered (stateAfter env []) n := by
  rintro ⟨k, t, h⟩
  cases k <;> cases h

/-- The theorem applies to the class of an input type of the example schema. -/
example : ∃ ss r bases body ds, generateInputs inputsCtx {} (stateAfter {} []) = .ok (ss, r) ∧
    .classDef "Filter" bases body ds ∈ ss ∧ storedL body ≠ [] ∧ Unshadowed [] body := by
  have h : (match generateInputs inputsCtx {} (stateAfter {} []) with
    | .ok (ss, r) => plainNames "Filter" ss r
    | .error _ => false) = true := by decide +kernel
  split at h
  · rename_i ss r e
    obtain ⟨bases, body, ds, hm, hne, hfree⟩ := plainNames_ok h
    exact ⟨ss, r, bases, body, ds, e, hm, hne, C61_inputs_partial _ _ [] _ _ (fun t l hl => by cases hl) (by decide +kernel) e _ _ _ _ hm
      fun n hn => ⟨(hfree n hn).1, nothing_registered, (hfree n hn).2⟩⟩
  · cases h

/-- a schema with fields called like Python types -/
def hidingSchema : Schema := { query := some "Query", types := [
  ("String", ⟨.scalar, none⟩),
  ("Int", ⟨.scalar, none⟩),
  ("F", ⟨.input [⟨"str", .list (.named "String"), none, none, none⟩, ⟨"n", .named "Int", none, none, none⟩] [], none⟩),
  ("Row", ⟨.object [plainField "int" (.named "Int"), plainField "name" (.named "String")] [], none⟩),
  ("Cell", ⟨.object [plainField "Optional" (.nonNull (.named "String")), plainField "float" (.named "Int")] [], none⟩),
  ("Query", ⟨.object [plainField "str" (.named "String"), plainField "row" (.named "Row")] [], none⟩)] }

/-- The hypotheses of the counterexample can be met. -/
example : ∃ ss r cls bases body ds, generateInputs { schema := hidingSchema } {} (stateAfter {} []) = .ok (ss, r) ∧
    Kind.input.style {} "F" = .ok cls ∧ .classDef cls bases body ds ∈ ss ∧ ¬ Unshadowed [] body := by
  have h : (generateInputs { schema := hidingSchema } {} (stateAfter {} [])).toOption.isSome = true := by decide +kernel
  cases e : generateInputs { schema := hidingSchema } {} (stateAfter {} []) with
  | error x => rw [e] at h; cases h
  | ok x =>
    have hcyc : ∀ t', InputOf hidingSchema t' → t'.directives = [] := by
      intro t' ht'
      have := mem_inputTypes.2 ht'
      have hall : ∀ t ∈ inputTypes hidingSchema, t.directives.isEmpty = true := by decide +kernel
      exact List.isEmpty_iff.1 (hall t' this)
    have hno : ∀ t', InputOf hidingSchema t' → ∀ v, ¬ MemberOf {} t' v := by
      rintro t' ht' v ⟨dn, k, ⟨d, hd, _⟩, _⟩
      rw [hcyc t' ht'] at hd; cases hd
    have ht : InputOf hidingSchema ⟨"F", none, [⟨"str", .list (.named "String"), none, none, none⟩,
        ⟨"n", .named "Int", none, none, none⟩], []⟩ := mem_inputTypes.1 (by simp [inputTypes, hidingSchema])
    obtain ⟨cls, bases, body, ds, h1, h2, h3⟩ := C61_input_counterexample { schema := hidingSchema } {} [] x.1 x.2
      (fun t l hl => by cases hl) (by decide +kernel) e _ ht
      (fun hm => by obtain ⟨v, hv⟩ := hm; exact hno _ ht v hv)
      ⟨fun l h => (by cases h), fun h => absurd h.2 (by decide +kernel)⟩ (by simp [OneOf]) (fun t' ht' => hno t' ht' _)
      _ List.mem_cons_self "str" rfl rfl rfl (.inl rfl)
    exact ⟨x.1, x.2, cls, bases, body, ds, rfl, h1, h2, h3⟩

/-- C61 fails for object models, `type Row { int: Int ... }` with the default configuration -/
theorem C61_object_counterexample : ∃ ss r bases body ds,
    generateTypes { schema := hidingSchema } {} (stateAfter {} []) = .ok (ss, r) ∧
    .classDef "Row" bases body ds ∈ ss ∧ ¬ Unshadowed [] body := by
  have h : (match generateTypes { schema := hidingSchema } {} (stateAfter {} []) with
    | .ok (ss, _) => hides "Row" ss
    | .error _ => false) = true := by decide +kernel
  split at h
  · rename_i ss r e
    obtain ⟨bases, body, ds, h1, h2⟩ := hides_ok h
    exact ⟨ss, r, bases, body, ds, e, h1, h2⟩
  · cases h

/-- C61 fails for operations: `query Q { str row { name } }` with the default configuration -/
theorem C61_operation_counterexample : ∃ ss r bases body ds,
    moduleOf { schema := hidingSchema } {} [.operation ⟨.query, some "Q", [], [ask "str", ask "row" [ask "name"]]⟩]
      (Reg.init {}) = .ok (ss, r) ∧ .classDef "Q" bases body ds ∈ ss ∧ ¬ Unshadowed [] body := by
  obtain ⟨ss, r, h, ht⟩ := module_ok (c := { schema := hidingSchema }) (po := {})
    (doc := [.operation ⟨.query, some "Q", [], [ask "str", ask "row" [ask "name"]]⟩])
    (test := fun ss _ => hides "Q" ss) (by decide +kernel)
  obtain ⟨bases, body, ds, h1, h2⟩ := hides_ok ht
  exact ⟨ss, r, bases, body, ds, h, h1, h2⟩

end Turms.Props
