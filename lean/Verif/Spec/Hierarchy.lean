import Verif.Spec.Kept

/-!
# Executing class statements

Independent of the generator.  When Python executes `class X(A, B): …`, it computes the method resolution order of `X`
from those of the bases (the C3 algorithm, `pmerge` and `mro_implementation` in CPython's `typeobject.c`), and raises
`TypeError` if there is none — in particular if a base is named twice.
-/

namespace Turms.Spec
open Turms

/-- the first head that occurs in no tail -/
def c3Pick (ls : List (List String)) : Option String :=
  (ls.filterMap List.head?).find? fun h => ls.all fun l => !l.tail.contains h

/-- removes the class from the lists it is the head of -/
def c3Drop (h : String) (ls : List (List String)) : List (List String) :=
  ls.map fun l => if l.head? = some h then l.tail else l

/-- the merge of the C3 algorithm, in at most `n` steps -/
def c3Merge : Nat → List (List String) → Option (List String)
  | 0, _ => none
  | n + 1, ls =>
    if ls.all List.isEmpty then some []
    else
      match c3Pick ls with
      | none => none
      | some h => (c3Merge n (c3Drop h ls)).map (h :: ·)

/-- The merge of the C3 algorithm. Every step shortens a list, so the number of steps suffices. -/
def c3 (ls : List (List String)) : Option (List String) := c3Merge ((ls.map List.length).sum + 1) ls

/-- the classes bound at some point of the execution of a module, with their method resolution orders -/
abbrev Classes := String → Option (List String)

/-- the method resolution orders of the named classes -/
def lookupAll (env : Classes) : List Expr → Option (List (List String))
  | [] => some []
  | .name b :: bs =>
    match env b, lookupAll env bs with
    | some l, some ls => some (l :: ls)
    | _, _ => none
  | _ => none

/-- the names of base classes -/
def nameIds (bases : List Expr) : List String := bases.filterMap fun
  | .name b => some b
  | _ => none

/-- the method resolution order of a new class: itself and the merge of those of the bases and the list of bases; a
class without bases inherits from `object` -/
def newMro (env : Classes) (n : String) (bases : List Expr) : Option (List String) :=
  if bases.isEmpty then some [n, "object"]
  else
    match lookupAll env bases with
    | none => none
    | some ls => (c3 (ls ++ [nameIds bases])).map (n :: ·)

/-- executes the class statements of a module; other assignments unbind the name as a class -/
def runClasses (env : Classes) : List Stmt → Option Classes
  | [] => some env
  | .classDef n bases _ _ :: rest =>
    match newMro env n bases with
    | none => none
    | some l => runClasses (fun x => if x = n then some l else env x) rest
  | .assign (.name n) _ :: rest => runClasses (fun x => if x = n then none else env x) rest
  | _ :: rest => runClasses env rest

/-- With the imported classes `ext`, all class statements at the top level of the module succeed: every base is a class bound before,
and there is a method resolution order. -/
def ClassesExecute (ext : Classes) (T : List Stmt) : Prop := (runClasses ext T).isSome = true

/-- the names a module binds, as classes or as type expressions -/
def boundNames (T : List Stmt) : List String :=
  T.filterMap fun
    | .classDef n _ _ _ => some n
    | .assign (.name n) _ => some n
    | _ => none

/-! ## The selections covered -/

/-- the fragments spread in a selection set, not looking into nested ones -/
def spreadsOf (sels : List Sel) : List String := sels.filterMap fun
  | .spread f => some f
  | _ => none

/-- the fragments spread in a selection set or in its inline fragments on `o` -/
def spreadsFor (o : String) (sels : List Sel) : List String := sels.flatMap fun
  | .spread f => [f]
  | .inline (some t) inner => if t = o then spreadsOf inner else []
  | _ => []

/-- `Inherits defs f g`: `g` is `f`, or it is spread in `f` (beside its fields or in an inline fragment) or in a
fragment that is, and so on.  Spreads in the sub-selections of fields do not count. -/
inductive Inherits (defs : Dict FragDef) : String → String → Prop
  | refl {f} : Inherits defs f f
  | spread {f d g h} : defs.get? f = some d → Sel.spread g ∈ d.sels → Inherits defs g h → Inherits defs f h
  | inline {f d t inner g h} : defs.get? f = some d → Sel.inline (some t) inner ∈ d.sels → Sel.spread g ∈ inner →
      Inherits defs g h → Inherits defs f h

/-- the fragments are all different, and no two of them inherit from the same fragment -/
def Unrelated (defs : Dict FragDef) (fs : List String) : Prop :=
  fs.Pairwise fun f g => ∀ h, Inherits defs f h → ¬ Inherits defs g h

/-- `Inheritable c defs t sels`: the selection sets (on a field of type `t`) for which the hierarchy of the generated
classes is consistent: the fragments spread beside each other are unrelated, and they are of types that give a class.

* an object: its spreads are of fragments on that object type or on one of its interfaces;
* an interface: any spreads;
* a union: the spreads in its inline fragments are of fragments on objects. -/
inductive Inheritable (c : Ctx) (defs : Dict FragDef) : TypeNode → List Sel → Prop
  | leaf {t sels} : IsLeaf c.schema t.base → Inheritable c defs t sels
  | object {t sels fs is} : c.schema.lookup t.base = some (.object fs is) →
      (∀ f, Sel.spread f ∈ sels → ∃ d, defs.get? f = some d ∧ (d.typeCondition = t.base ∨
        (IsInterface c.schema d.typeCondition ∧ Possible c.schema d.typeCondition t.base))) →
      Unrelated defs (spreadsOf sels) →
      (∀ name alias args sub fd, Sel.field name alias args sub ∈ sels → name ≠ "__typename" →
        fd ∈ fs → fd.name = name → Inheritable c defs fd.type sub) →
      Inheritable c defs t sels
  | interface {t sels fs is} : c.schema.lookup t.base = some (.interface fs is) →
      Unrelated defs (spreadsOf sels) →
      (∀ name alias args sub fd, Sel.field name alias args sub ∈ sels → name ≠ "__typename" →
        fd ∈ fs → fd.name = name → Inheritable c defs fd.type sub) →
      (∀ o inner name alias args sub t', Sel.inline (some o) inner ∈ sels →
        Sel.field name alias args sub ∈ inner → name ≠ "__typename" → FieldType c.schema o name t' →
        Inheritable c defs t' sub) →
      Inheritable c defs t sels
  | union {t sels ms} : c.schema.lookup t.base = some (.union ms) →
      (∀ o inner f, Sel.inline (some o) inner ∈ sels → Sel.spread f ∈ inner →
        ∃ d, defs.get? f = some d ∧ IsObject c.schema d.typeCondition) →
      (∀ o inner, Sel.inline (some o) inner ∈ sels → Unrelated defs (spreadsOf inner)) →
      (∀ o inner name alias args sub t', Sel.inline (some o) inner ∈ sels →
        Sel.field name alias args sub ∈ inner → name ≠ "__typename" → FieldType c.schema o name t' →
        Inheritable c defs t' sub) →
      Inheritable c defs t sels

/-- `InheritableFragment c defs d`: the fragments for which the hierarchy of the generated classes is consistent.

* on an object: spreads are of fragments on that object type or on one of its interfaces;
* on an interface: any spreads;
* on a union: spreads in inline fragments are of fragments on objects, whose class is named like the fragment. -/
inductive InheritableFragment (c : Ctx) (defs : Dict FragDef) : FragDef → Prop
  | object {d} : IsObject c.schema d.typeCondition →
      (∀ f, Sel.spread f ∈ d.sels → ∃ d', defs.get? f = some d' ∧ (d'.typeCondition = d.typeCondition ∨
        (IsInterface c.schema d'.typeCondition ∧ Possible c.schema d'.typeCondition d.typeCondition))) →
      Unrelated defs (spreadsOf d.sels) →
      (∀ name alias args sub t, Sel.field name alias args sub ∈ d.sels → name ≠ "__typename" →
        FieldType c.schema d.typeCondition name t → Inheritable c defs t sub) →
      InheritableFragment c defs d
  | interface {d fs is} : c.schema.lookup d.typeCondition = some (.interface fs is) →
      Unrelated defs (spreadsOf d.sels) →
      (∀ name alias args sub fd, Sel.field name alias args sub ∈ d.sels → name ≠ "__typename" →
        fd ∈ fs → fd.name = name → Inheritable c defs fd.type sub) →
      (∀ o inner, Sel.inline (some o) inner ∈ d.sels → IsObject c.schema o) →
      (∀ o inner name alias args sub t', Sel.inline (some o) inner ∈ d.sels →
        Sel.field name alias args sub ∈ inner → name ≠ "__typename" → FieldType c.schema o name t' →
        Inheritable c defs t' sub) →
      InheritableFragment c defs d
  | union {d ms} : c.schema.lookup d.typeCondition = some (.union ms) →
      (∀ o inner, Sel.inline (some o) inner ∈ d.sels → IsObject c.schema o) →
      (∀ o inner f, Sel.inline (some o) inner ∈ d.sels → Sel.spread f ∈ inner →
        styled c.env.stylers Styler.fragmentName f = .ok f ∧
        ∃ d', defs.get? f = some d' ∧ IsObject c.schema d'.typeCondition) →
      (∀ o ∈ ms, Unrelated defs (spreadsFor o d.sels)) →
      (∀ o inner name alias args sub t, Sel.inline (some o) inner ∈ d.sels →
        Sel.field name alias args sub ∈ inner → name ≠ "__typename" → FieldType c.schema o name t →
        Inheritable c defs t sub) →
      InheritableFragment c defs d

end Turms.Spec
