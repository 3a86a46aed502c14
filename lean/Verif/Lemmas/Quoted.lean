import Verif.Lemmas.ScopePlugins
import Verif.Spec.ForwardNames

/-! # Which names the generated classes quote -/

namespace Turms
open Spec

/-! ## the logic -/

/-- helper classes are only added, and the result has the property if the helper classes registered in the end are
all in `B` -/
structure Quotes {α : Type} (B : String → Prop) (g : Gen α) (Q : α → Prop) : Prop where
  run : ∀ r a r', g r = .ok (a, r') →
    (∀ b ∈ r.builtins, b ∈ r'.builtins) ∧ ((∀ b ∈ r'.builtins, B b) → Q a)

section
variable {α β : Type} {B : String → Prop}

theorem Quotes.pure {a : α} {Q : α → Prop} (h : Q a) : Quotes B (pure a : Gen α) Q := by
  constructor
  intro r b r' e
  obtain ⟨rfl, rfl⟩ := Gen.pure_ok.1 e
  exact ⟨fun _ h => h, fun _ => h⟩

theorem Quotes.fail {e : Err} {Q : α → Prop} : Quotes B (Gen.fail e : Gen α) Q :=
  ⟨fun _ _ _ h => (Gen.fail_ok.1 h).elim⟩

theorem Quotes.lift {x : Except Err α} {Q : α → Prop} (h : ∀ a, x = .ok a → Q a) : Quotes B (Gen.lift x) Q := by
  constructor
  intro r a r' e
  obtain ⟨hx, rfl⟩ := Gen.lift_ok.1 e
  exact ⟨fun _ h => h, fun _ => h a hx⟩

theorem Quotes.bind {x : Gen α} {f : α → Gen β} {P : α → Prop} {Q : β → Prop}
    (hx : Quotes B x P) (hf : ∀ a, Quotes B (f a) fun b => P a → Q b) : Quotes B (x >>= f) Q := by
  constructor
  intro r b r' h
  obtain ⟨a, r1, h1, h2⟩ := Gen.bind_ok.1 h
  obtain ⟨s1, hp⟩ := hx.run r a r1 h1
  obtain ⟨s2, hq⟩ := (hf a).run r1 b r' h2
  exact ⟨fun b hb => s2 b (s1 b hb), fun hB => hq hB (hp fun b hb => hB b (s2 b hb))⟩

theorem Quotes.mono {x : Gen α} {P Q : α → Prop} (hx : Quotes B x P) (h : ∀ a, P a → Q a) : Quotes B x Q :=
  ⟨fun r a r' e => ⟨(hx.run r a r' e).1, fun hB => h a ((hx.run r a r' e).2 hB)⟩⟩

/-- ignore what is known about the first part -/
theorem Quotes.then {x : Gen α} {f : α → Gen β} {P : α → Prop} {Q : β → Prop}
    (hx : Quotes B x P) (hf : ∀ a, Quotes B (f a) Q) : Quotes B (x >>= f) Q :=
  hx.bind fun a => (hf a).mono fun _ h _ => h

theorem Quotes.ite {p : Prop} [Decidable p] {x y : Gen α} {Q : α → Prop}
    (hx : p → Quotes B x Q) (hy : ¬ p → Quotes B y Q) : Quotes B (if p then x else y) Q := by
  split
  · exact hx ‹_›
  · exact hy ‹_›

/-- a generator that leaves the helper classes alone -/
theorem Quotes.of_same {g : Gen α} (h : ∀ r a r', g r = .ok (a, r') → r'.builtins = r.builtins) :
    Quotes B g fun _ => True :=
  ⟨fun r a r' e => ⟨fun b hb => by rw [h r a r' e]; exact hb, fun _ => trivial⟩⟩
end

/-! ## the names quoted in expressions and statements -/

/-- every quoted name is in the set -/
def QIn (E : String → Prop) (e : Expr) : Prop := ∀ n ∈ quoted e, E n
/-- of a list -/
def QInL (E : String → Prop) (es : List Expr) : Prop := ∀ n ∈ quotedL es, E n
/-- of a block -/
def QBody (E : String → Prop) (ss : List Stmt) : Prop := ∀ n ∈ quotedInL ss, E n

section
variable {E : String → Prop}

theorem qin_name {n : String} : QIn E (.name n) := by intro m hm; simp [quoted] at hm
theorem qin_str {n : String} (h : E n) : QIn E (.str n) := by
  intro m hm
  simp only [Expr.str, quoted, List.mem_singleton] at hm
  exact hm ▸ h
theorem qin_call {f : Expr} {as : List Expr} {ks : List (Option String × Expr)} : QIn E (.call f as ks) := by
  intro m hm; simp [quoted] at hm
theorem qin_ellipsis : QIn E (.const .ellipsis) := by intro m hm; simp [quoted] at hm

theorem qinL_nil : QInL E [] := by intro m hm; simp [quotedL] at hm
theorem qinL_cons {e : Expr} {es : List Expr} (h : QIn E e) (hs : QInL E es) : QInL E (e :: es) := by
  intro m hm
  rw [quotedL] at hm
  rcases List.mem_append.1 hm with hm | hm
  · exact h m hm
  · exact hs m hm
theorem qin_tuple {es : List Expr} (h : QInL E es) : QIn E (.tuple es) := by
  intro m hm
  rw [quoted] at hm
  exact h m hm
theorem qin_sub {f : String} {e : Expr} (h : QIn E e) : QIn E (sub f e) := by
  intro m hm
  unfold sub at hm
  rw [quoted] at hm
  split at hm
  · cases hm
  · rw [show quoted (.name f) = [] from by simp [quoted], List.nil_append] at hm
    exact h m hm
theorem qin_literal {e : Expr} : QIn E (sub "Literal" e) := by
  intro m hm
  simp [sub, quoted] at hm
theorem qinL_names {l : List String} : QInL E (names l) := by
  induction l with
  | nil => exact qinL_nil
  | cons a l ih => exact qinL_cons qin_name ih
theorem qinL_append {a b : List Expr} (ha : QInL E a) (hb : QInL E b) : QInL E (a ++ b) := by
  induction a with
  | nil => exact hb
  | cons e es ih =>
    exact qinL_cons (fun m hm => ha m (by rw [quotedL]; exact List.mem_append_left _ hm))
      (ih fun m hm => ha m (by rw [quotedL]; exact List.mem_append_right _ hm))

theorem quotedInL_append (a b : List Stmt) : quotedInL (a ++ b) = quotedInL a ++ quotedInL b := by
  induction a with
  | nil => simp [quotedInL]
  | cons s ss ih => simp [quotedInL, ih, List.append_assoc]

theorem QBody.nil : QBody E [] := by intro m hm; simp [quotedInL] at hm
theorem QBody.cons {s : Stmt} {ss : List Stmt} (h : ∀ n ∈ quotedIn s, E n) (hs : QBody E ss) : QBody E (s :: ss) := by
  intro m hm
  rw [quotedInL] at hm
  rcases List.mem_append.1 hm with hm | hm
  · exact h m hm
  · exact hs m hm
theorem QBody.append {a b : List Stmt} (ha : QBody E a) (hb : QBody E b) : QBody E (a ++ b) := by
  intro m hm
  rw [quotedInL_append] at hm
  rcases List.mem_append.1 hm with hm | hm
  · exact ha m hm
  · exact hb m hm
theorem QBody.one {s : Stmt} (h : ∀ n ∈ quotedIn s, E n) : QBody E [s] := .cons h .nil
theorem qb_class {n : String} {bs ds : List Expr} {body : List Stmt} (h : QBody E body) :
    ∀ m ∈ quotedIn (.classDef n bs body ds), E m := by
  intro m hm
  rw [quotedIn] at hm
  exact h m hm
theorem qb_expr {e : Expr} : ∀ m ∈ quotedIn (.expr e), E m := by intro m hm; simp [quotedIn] at hm
theorem qb_ann {n : String} {a : Expr} {v : Option Expr} (h : QIn E a) : ∀ m ∈ quotedIn (.annAssign n a v), E m := by
  intro m hm
  rw [quotedIn] at hm
  exact h m hm
theorem qb_call {t : Expr} {f : Expr} {as : List Expr} {ks : List (Option String × Expr)} :
    ∀ m ∈ quotedIn (.assign t (.call f as ks)), E m := by intro m hm; simp [quotedIn, quotedValue] at hm
theorem qb_str {t : Expr} {s : String} : ∀ m ∈ quotedIn (.assign t (.str s)), E m := by
  intro m hm; simp [quotedIn, quotedValue, Expr.str] at hm
theorem qb_alias {t : Expr} {s : String} : ∀ m ∈ quotedIn (.assign t (.name s)), E m := by
  intro m hm; simp [quotedIn, quotedValue] at hm
theorem qb_sub {t : Expr} {f : String} {x : Expr} (h : QIn E x) : ∀ m ∈ quotedIn (.assign t (sub f x)), E m := by
  intro m hm
  exact qin_sub (f := f) h m (by simpa only [sub, quotedIn, quotedValue] using hm)
theorem QBody.flatten {l : List (List Stmt)} (h : ∀ b ∈ l, QBody E b) : QBody E l.flatten := by
  induction l with
  | nil => exact .nil
  | cons a l ih => exact (h a (List.mem_cons_self ..)).append (ih fun b hb => h b (List.mem_cons_of_mem _ hb))
theorem qb_docStmt {d : Option String} : ∀ m ∈ quotedIn (docStmt d), E m := qb_expr
end

/-! ## leaves -/

section
variable {B E : String → Prop} {c : Ctx}

theorem mem_setAdd_left {l : List String} {a b : String} (h : b ∈ l) : b ∈ setAdd l a := by
  unfold setAdd
  split
  · exact h
  · exact List.mem_append_left _ h

theorem q_registerImport {n : String} : Quotes B (registerImport n) fun _ => True :=
  .of_same fun r a r' h => by
    unfold registerImport at h
    split at h <;> · cases h; rfl

theorem q_registerImports (l : List String) : Quotes B (registerImports l) fun _ => True := by
  induction l with
  | nil => exact .pure trivial
  | cons a l ih => unfold registerImports; exact q_registerImport.then fun _ => ih

theorem q_optionalWrap {o : Bool} {x : Expr} : Quotes B (optionalWrap o x) fun e => QIn E x → QIn E e := by
  unfold optionalWrap
  exact .ite (fun _ => q_registerImport.then fun _ => .pure qin_sub) fun _ => .pure id

theorem q_listImport {b : Bool} : Quotes B (listImport b) fun _ => True := q_registerImport

theorem q_listBuilder {b : Bool} {x : Expr} (h : QIn E x) : QIn E (listBuilder b x) := by
  unfold listBuilder
  split
  · exact qin_sub (qin_tuple (qinL_cons h (qinL_cons qin_ellipsis qinL_nil)))
  · exact qin_sub h

theorem q_referenceScalar {n : String} : Quotes B (referenceScalar n) (QIn E) := by
  constructor
  intro r a r' h
  unfold referenceScalar at h
  split at h
  · cases h
  · split at h
    · split at h
      · cases h
      · rename_i hi
        cases h
        exact ⟨(q_registerImport (B := B)).run _ _ _ hi |>.1, fun _ => qin_name⟩
    · cases h
      exact ⟨fun _ h => h, fun _ => qin_name⟩

theorem addForward_builtins (r : Reg) (p : String) : (r.addForward p).builtins = r.builtins := rfl

/-- an enum is quoted under its class name, or as a helper class that is registered -/
theorem q_referenceEnum {n parent : String} {fw : Bool}
    (hB : ∀ b, B b → b ∈ builtinNames → E b)
    (hE : fw = true → n ∉ builtinNames → ∀ m, Kind.enum.style c.env n = .ok m → E m) :
    Quotes B (referenceEnum c.env n parent fw) (QIn E) := by
  constructor
  intro r a r' h
  unfold referenceEnum at h
  split at h
  · rename_i hb
    cases h
    refine ⟨fun b hb => mem_setAdd_left hb, fun hall => qin_str (hB n (hall n ?_) (List.contains_iff_mem.1 hb))⟩
    exact (mem_setAdd _ _ _).2 (.inr rfl)
  · rename_i hb
    split at h
    · cases h
    · rename_i m hm
      split at h
      · split at h
        · cases h
        · rename_i hf
          cases h
          exact ⟨fun _ h => h, fun _ => qin_str (hE (by simpa using hf)
            (fun hb' => hb (List.contains_iff_mem.2 hb')) m hm)⟩
      · cases h
        exact ⟨fun _ h => h, fun _ => qin_name⟩

theorem q_referenceInput {n parent : String} {fw : Bool}
    (hE : fw = true → ∀ m, Kind.input.style c.env n = .ok m → E m) :
    Quotes B (referenceInput c.env n parent fw) (QIn E) := by
  constructor
  intro r a r' h
  unfold referenceInput at h
  split at h
  · cases h
  · rename_i m hm
    split at h
    · split at h
      · cases h
      · rename_i hf
        cases h
        exact ⟨fun _ h => h, fun _ => qin_str (hE (by simpa using hf) m hm)⟩
    · split at h
      · cases h
      · cases h
        exact ⟨fun _ h => h, fun _ => qin_name⟩

theorem q_referenceGeneric {k : Kind} {n parent : String}
    (hE : ∀ m, k.style c.env n = .ok m → E m) :
    Quotes B (referenceGeneric c.env k n parent) (QIn E) := by
  constructor
  intro r a r' h
  unfold referenceGeneric at h
  split at h
  · cases h
  · rename_i m hm
    split at h
    · split at h
      · cases h
      · cases h
        exact ⟨fun _ h => h, fun _ => qin_str (hE m hm)⟩
    · cases h
      exact ⟨fun _ h => h, fun _ => qin_name⟩

theorem q_referenceInterface {n parent : String} (hE : ∀ m, styleInterface c.env n = .ok m → E m) :
    Quotes B (referenceInterface c.env n parent) (QIn E) := by
  constructor
  intro r a r' h
  unfold referenceInterface at h
  split at h
  · cases h
  · rename_i m hm
    cases h
    exact ⟨fun _ h => h, fun _ => qin_str (hE m hm)⟩

theorem q_registerBuiltin {n : String} : Quotes B (registerBuiltin n) fun _ => True := by
  constructor
  intro r a r' h
  cases h
  exact ⟨fun b hb => mem_setAdd_left hb, fun _ => trivial⟩

theorem q_referenceMarker {o : Option String} {b l : String} : Quotes B (referenceMarker o b l) fun _ => True := by
  constructor
  intro r a r' h
  refine ⟨?_, fun _ => trivial⟩
  unfold referenceMarker at h
  split at h
  · split at h
    · cases h
      exact fun b hb => mem_setAdd_left hb
    · split at h
      · cases h
      · rename_i hi
        cases h
        exact ((q_registerImport (B := fun _ => True)).run _ _ _ hi).1
  · cases h
    exact fun b hb => mem_setAdd_left hb

theorem q_markerCall {g : Gen Expr} {a : Option Expr} (hg : Quotes B g fun _ => True) :
    Quotes B (markerCall g a) (QInL E) := by
  unfold markerCall
  split
  · exact hg.then fun _ => .pure (qinL_cons qin_call qinL_nil)
  · exact .pure qinL_nil

theorem q_annotateFieldMetadata {env : Env} {a : Expr} {d : Option Expr} {dep : Option String} :
    Quotes B (annotateFieldMetadata env a d dep) fun e => QIn E a → QIn E e := by
  unfold annotateFieldMetadata
  refine (q_markerCall (E := E) q_referenceMarker).bind fun m1 =>
    (q_markerCall (E := E) q_referenceMarker).bind fun m2 => ?_
  refine .ite (fun _ => .pure fun _ _ h => h) fun _ => q_registerImport.then fun _ => .pure fun h2 h1 ha => ?_
  exact qin_sub (qin_tuple (qinL_cons ha (qinL_append h1 h2)))

theorem q_nodeName {n : String} {env : Env} : Quotes B (nodeName env n) fun _ => True := .lift fun _ _ => trivial
theorem q_parameterName {n : String} {env : Env} : Quotes B (parameterName env n) fun _ => True := .lift fun _ _ => trivial

theorem q_objectFieldValue {n : String} {f : FieldDef} : Quotes B (objectFieldValue n f) fun _ => True := by
  unfold objectFieldValue
  exact .ite (fun _ => q_registerImport.then fun _ => .pure trivial) fun _ =>
    .ite (fun _ => q_registerImport.then fun _ => .pure trivial) fun _ => .pure trivial

theorem quotedValue_pyDefault (d : PyDefault) : quotedValue d.expr = [] := by
  cases d <;> simp [PyDefault.expr, quotedValue, Expr.str]

theorem quotedValue_entries {g : GQLType} {t : Option String} {p : String × Expr} {cf : GenConfig}
    (h : p ∈ configClassEntries cf g t) : quotedValue p.2 = [] := by
  unfold configClassEntries at h
  simp only [List.mem_append] at h
  rcases h with (h | h) | h
  · split at h
    · rw [List.mem_singleton.1 h]; rfl
    · cases h
  · split at h
    · simp only [List.mem_append] at h
      have opt : ∀ {n : String} {o : Option Bool}, p ∈ optEntry n o → quotedValue p.2 = [] := by
        intro n o hp
        unfold optEntry at hp
        split at hp
        · rw [List.mem_singleton.1 hp]; rfl
        · cases hp
      rcases h with ((((h | h) | h) | h) | h) | h
      · exact opt h
      · unfold extraEntry at h
        split at h
        · rw [List.mem_singleton.1 h]; rfl
        · cases h
      · exact opt h
      · exact opt h
      · exact opt h
      · exact opt h
    · cases h
  · unfold additionalEntries at h
    split at h
    · obtain ⟨q, _, rfl⟩ := List.mem_map.1 h
      exact quotedValue_pyDefault _
    · cases h

theorem q_config {g : GQLType} {t : Option String} : Quotes B (generatePydanticConfig c g t) (QBody E) := by
  unfold generatePydanticConfig
  refine .ite (fun _ => ?_) fun _ => ?_
  · unfold generateConfigDict
    exact .ite (fun _ => .pure .nil) fun _ => q_registerImport.then fun _ => .pure (.one qb_call)
  · unfold generateConfigClass
    dsimp only
    split
    · exact .pure .nil
    · refine .pure (.one (qb_class (.cons qb_expr ?_)))
      have : ∀ l : List (String × Expr), (∀ p ∈ l, quotedValue p.2 = []) →
          QBody E (l.map fun p => Stmt.assign (.name p.1) p.2) := by
        intro l
        induction l with
        | nil => exact fun _ => .nil
        | cons p l ih =>
          intro h
          refine .cons ?_ (ih fun q hq => h q (List.mem_cons_of_mem _ hq))
          intro m hm
          rw [quotedIn, h p (List.mem_cons_self ..)] at hm
          cases hm
      exact this _ fun p hp => quotedValue_entries hp

theorem q_additionalBasesFor {t : String} : Quotes B (additionalBasesFor c t) fun _ => True := by
  unfold additionalBasesFor
  split
  · exact (q_registerImports _).then fun _ => .pure trivial
  · exact .pure trivial

theorem q_interfaceBasesOf : Quotes B (interfaceBasesOf c) fun _ => True := by
  unfold interfaceBasesOf
  exact (q_registerImports _).then fun _ => .pure trivial

theorem q_generateClass {env : Env} {k : Kind} {t : String} :
    Quotes B (generateClass env k t) fun n => k.style env t = .ok n := by
  constructor
  intro r a r' h
  unfold generateClass at h
  split at h
  · cases h
  · split at h
    · cases h
    · rename_i hm
      cases h
      refine ⟨fun b hb => ?_, fun _ => hm⟩
      cases k <;> exact hb

end
end Turms
