import Verif.Spec.Responses

/-!
# Documents with `@include` and `@skip`, and what a server answers

Independent of the generator.
-/

namespace Turms.Spec.Conditional
open Turms Spec

/-- `@include(if: …)` or `@skip(if: …)` -/
inductive Condition where
  | include_ (test : Value)
  | skip (test : Value)
deriving Repr

/-- a selection as written, with its conditions -/
inductive CSel where
  | field (name : String) (alias : Option String) (args : List (String × Value)) (conds : List Condition) (sub : List CSel)
  | spread (name : String) (conds : List Condition)
  | inline (typeCondition : Option String) (conds : List Condition) (sub : List CSel)
deriving Repr

/-- a fragment -/
structure CFrag where
  name : String
  typeCondition : String
  sels : List CSel
deriving Repr

/-- an operation -/
structure COp where
  kind : OpKind
  name : Option String
  vars : List VarDef := []
  sels : List CSel
deriving Repr

/-- a definition -/
inductive CDefn where
  | operation (o : COp)
  | fragment (f : CFrag)
deriving Repr

mutual
/-- the selection without its conditions -/
def CSel.plain : CSel → Sel
  | .field n a args _ sub => .field n a args (plains sub)
  | .spread n _ => .spread n
  | .inline t _ sub => .inline t (plains sub)

/-- the selections without their conditions -/
def plains : List CSel → List Sel
  | [] => []
  | x :: xs => x.plain :: plains xs
end

/-- the fragment without conditions -/
def CFrag.plain (f : CFrag) : FragDef := ⟨f.name, f.typeCondition, plains f.sels⟩

/-- the operation without conditions -/
def COp.plain (o : COp) : OpDef := ⟨o.kind, o.name, o.vars, plains o.sels⟩

/-- the definition without conditions -/
def CDefn.plain : CDefn → Defn
  | .operation o => .operation o.plain
  | .fragment f => .fragment f.plain

/-- the fragments of a document by name (the last one, should the document define several) -/
def fragments (doc : List CDefn) : Dict CFrag :=
  (doc.filterMap fun | .fragment f => some (f.name, f) | _ => none).reverse

/-- the value of a condition, given the Boolean variables of the request -/
def isTrue (vars : String → Bool) : Value → Bool
  | .bool b => b
  | .variable x => vars x
  | _ => false

/-- is the selection to be answered? -/
def Condition.holds (vars : String → Bool) : Condition → Bool
  | .include_ v => isTrue vars v
  | .skip v => !isTrue vars v

/-- `CPicks s defs o sels key name conds sub`: for an object of type `o`, the selection set asks for the field `name`
under the key `key` with the sub-selections `sub`, if all of `conds` hold: the conditions of the field and of the
fragments it is in. -/
inductive CPicks (s : Schema) (defs : Dict CFrag) (o : String) :
    List CSel → String → String → List Condition → List CSel → Prop
  | field {sels name alias args conds sub} : CSel.field name alias args conds sub ∈ sels →
      CPicks s defs o sels (alias.getD name) name conds sub
  | spread {sels f cs d key name conds sub} : CSel.spread f cs ∈ sels → defs.get? f = some d →
      Possible s d.typeCondition o → CPicks s defs o d.sels key name conds sub →
      CPicks s defs o sels key name (cs ++ conds) sub
  | inline {sels t cs inner key name conds sub} : CSel.inline (some t) cs inner ∈ sels → Possible s t o →
      CPicks s defs o inner key name conds sub → CPicks s defs o sels key name (cs ++ conds) sub
  | inlineAny {sels cs inner key name conds sub} : CSel.inline none cs inner ∈ sels →
      CPicks s defs o inner key name conds sub → CPicks s defs o sels key name (cs ++ conds) sub

/-- all conditions hold -/
def Hold (vars : String → Bool) (conds : List Condition) : Prop := ∀ c ∈ conds, c.holds vars = true

/-- `Sends s defs leaf vars t sels v`: `v` is a possible answer for a field of type `t` with the selection set `sels`, in
a request with the Boolean variables `vars`.  Objects have entries for exactly the selections whose conditions hold. -/
inductive Sends (s : Schema) (defs : Dict CFrag) (leaf : String → Val → Prop) (vars : String → Bool) :
    TypeNode → List CSel → Val → Prop
  | null {t sels} : t.isNonNull = false → Sends s defs leaf vars t sels .null
  | nonNull {t sels v} : v ≠ .null → Sends s defs leaf vars t sels v → Sends s defs leaf vars (.nonNull t) sels v
  | list {t sels l} : (∀ x ∈ l, Sends s defs leaf vars t sels x) → Sends s defs leaf vars (.list t) sels (.list l)
  | leaf {n sels v} : IsLeaf s n → leaf n v → Sends s defs leaf vars (.named n) sels v
  | object {n o sels kvs} : Possible s n o →
      (∀ key, Val.entry kvs key ≠ none ↔ ∃ name conds sub, CPicks s defs o sels key name conds sub ∧ Hold vars conds) →
      (∀ key name conds sub t x, CPicks s defs o sels key name conds sub → Hold vars conds → FieldType s o name t →
        Val.entry kvs key = some x → Sends s defs leaf vars t sub x) →
      (∀ key conds sub, CPicks s defs o sels key "__typename" conds sub → Hold vars conds →
        Val.entry kvs key = some (.atom o)) →
      (∀ x, Val.entry kvs "__typename" = some x → x = .atom o) →
      Sends s defs leaf vars (.named n) sels (.obj kvs)

/-- the same for the entries of an object of type `o` -/
structure SendsObject (s : Schema) (defs : Dict CFrag) (leaf : String → Val → Prop) (vars : String → Bool) (o : String)
    (sels : List CSel) (kvs : List (String × Val)) : Prop where
  keys : ∀ key, Val.entry kvs key ≠ none ↔ ∃ name conds sub, CPicks s defs o sels key name conds sub ∧ Hold vars conds
  values : ∀ key name conds sub t x, CPicks s defs o sels key name conds sub → Hold vars conds → FieldType s o name t →
    Val.entry kvs key = some x → Sends s defs leaf vars t sub x
  typename : ∀ key conds sub, CPicks s defs o sels key "__typename" conds sub → Hold vars conds →
    Val.entry kvs key = some (.atom o)
  reserved : ∀ x, Val.entry kvs "__typename" = some x → x = .atom o

/-- A conditional selection that may be dropped: the field is nullable, or it is selected unconditionally as well; and
the key is not used for anything else. -/
structure Droppable (s : Schema) (defs : Dict CFrag) (o : String) (sels : List CSel) (key name : String)
    (sub : List CSel) : Prop where
  alone : ∀ name' conds' sub', CPicks s defs o sels key name' conds' sub' → name' = name ∧ sub' = sub
  nullable : (name ≠ "__typename" ∧ ∀ t, FieldType s o name t → t.isNonNull = false) ∨
    ∃ sub', CPicks s defs o sels key name [] sub'

/-- all conditional selections, at every depth, may be dropped -/
inductive Tolerable (s : Schema) (defs : Dict CFrag) : String → List CSel → Prop
  | intro {n sels} :
      (∀ o key name conds sub, Possible s n o → CPicks s defs o sels key name conds sub → conds ≠ [] →
        Droppable s defs o sels key name sub) →
      (∀ o key name conds sub t, Possible s n o → CPicks s defs o sels key name conds sub → FieldType s o name t →
        Tolerable s defs t.base sub) →
      Tolerable s defs n sels

end Turms.Spec.Conditional
