import Verif.Model.Objects
import Verif.Spec.Scope
import Verif.Spec.Annotations

/-!
# What the objects plugin is supposed to generate
-/

namespace Turms.Spec
open Turms

/-- `t` is an object or interface type of the schema -/
def CompositeOf (s : Schema) (t : CompositeType) : Prop :=
  ∃ e, (t.name, e) ∈ s.types ∧ e.description = t.description ∧
    e.defn = (if t.isInterface then .interface t.fields t.interfaces else .object t.fields t.interfaces)

/-- the type is not skipped for leading underscores -/
def KeptObject (p : ObjectsConfig) (name : String) : Prop :=
  ¬ (p.skipUnderscore = true ∧ name.toList.head? = some '_') ∧
  ¬ (p.skipDoubleUnderscore = true ∧ name.toList.take 2 = ['_', '_'])

/-- the class of a composite type: the styled name, with `Base` appended for interfaces -/
def CompositeClass (env : Env) (t : CompositeType) (cls : String) : Prop :=
  ∃ n, styled env.stylers Styler.objectName t.name = .ok n ∧ cls = if t.isInterface then n ++ "Base" else n

/-- `i` is implemented by another interface in the list: inheriting from that one already inherits `i` -/
def ExtendedWithin (s : Schema) (i : String) (all : List String) : Prop :=
  ∃ j ∈ all, j ≠ i ∧ ∃ fs is, (s.lookup j = some (.interface fs is) ∨ s.lookup j = some (.object fs is)) ∧ i ∈ is

/-- names known from registration: classes of every kind, and base classes of interfaces -/
def Known (r : Reg) (n : String) : Prop := Registered r n ∨ ∃ i, r.interfaceBaseclassMap.get? i = some n

/-- in state `r`, a field of class `parent` can refer to the type `n`, which is not a union: its scalar is
mapped, its name can be styled, and an enum is already generated where plugins must run in order -/
def LeafReady (c : Ctx) (r : Reg) (parent n : String) : Prop :=
  match c.schema.lookup n with
  | some .scalar => ∃ p, r.scalarMap.get? n = some p
  | some (.interface _ _) => ∃ m, styled c.env.stylers Styler.objectName n = .ok m
  | some (.object _ _) => ∃ m, styled c.env.stylers Styler.objectName n = .ok m
  | some (.enum _) => n ∈ builtinNames ∨ ∃ m, styled c.env.stylers Styler.enumName n = .ok m ∧
      (c.config.forcePluginOrder = false ∨ ((∃ cl, r.enumMap.get? n = some cl) ∧ parent ≠ m))
  | _ => False

/-- the same for any output type: a union needs all its members -/
def FieldReady (c : Ctx) (r : Reg) (parent n : String) : Prop :=
  match c.schema.lookup n with
  | some (.union ms) => ∀ m ∈ ms, LeafReady c r parent m
  | _ => LeafReady c r parent n

/-- what a type needs to be generated: its name is new and can be styled, and its fields are ready -/
structure TypeReady (c : Ctx) (r : Reg) (t : CompositeType) : Prop where
  fresh : if t.isInterface then r.interfaceBaseclassMap.get? t.name = none else r.objectMap.get? t.name = none
  named : ∃ m, styled c.env.stylers Styler.objectName t.name = .ok m
  fields : ∀ cls, CompositeClass c.env t cls → ∀ f ∈ t.fields,
    FieldReady c r cls f.type.base ∧ ∃ m, styled c.env.stylers Styler.nodeName f.name = .ok m

end Turms.Spec
