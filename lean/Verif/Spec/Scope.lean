import Verif.Spec.Registry

/-!
# Name resolution in a generated module

A module is executed top to bottom after its imports and helper classes.  A statement evaluates the names
it mentions outside of string constants (quoted forward references) and outside of function bodies.
-/

namespace Turms.Spec
open Turms

mutual
/-- the names an expression evaluates (those of a lambda when it is called: its only parameter is `value`) -/
def freeNames : Expr → List String
  | .name n => [n]
  | .const _ => []
  | .subscript a b => freeNames a ++ freeNames b
  | .tuple l => freeNamesL l
  | .list l => freeNamesL l
  | .dict ks vs => freeNamesL ks ++ freeNamesL vs
  | .attr a _ => freeNames a
  | .call f as ks => freeNames f ++ freeNamesL as ++ freeNamesK ks
  | .isNot a b => freeNames a ++ freeNames b
  | .await a => freeNames a
  | .lambda a => (freeNames a).filter (· != "value")
/-- of a list -/
def freeNamesL : List Expr → List String
  | [] => []
  | e :: es => freeNames e ++ freeNamesL es
/-- of keyword arguments -/
def freeNamesK : List (Option String × Expr) → List String
  | [] => []
  | (_, e) :: es => freeNames e ++ freeNamesK es
end

/-- names of an optional expression -/
def freeNamesO : Option Expr → List String
  | none => []
  | some e => freeNames e

mutual
/-- the names evaluated when a statement is executed: a class statement executes its bases and its body, a
function definition its defaults and annotations but not its body -/
def evaluated : Stmt → List String
  | .import_ _ => []
  | .importFrom _ _ => []
  | .expr e => freeNames e
  | .assign _ v => freeNames v
  | .annAssign _ a v => freeNames a ++ freeNamesO v
  | .ifStmt t b => freeNames t ++ evaluatedL b
  | .return_ e => freeNames e
  | .pass_ => []
  | .classDef _ bs body ds => freeNamesL ds ++ freeNamesL bs ++ evaluatedL body
  | .funcDef _ _ as ds _ de re =>
    freeNamesL de ++ freeNamesL ds ++ as.flatMap (fun a => freeNamesO a.annotation) ++ freeNamesO re
  | .forYield _ i y => freeNames i ++ freeNames y
/-- of a block -/
def evaluatedL : List Stmt → List String
  | [] => []
  | s :: ss => evaluated s ++ evaluatedL ss
end

/-- the name a module-level statement binds -/
def bound : Stmt → List String
  | .assign (.name n) _ => [n]
  | .annAssign n _ _ => [n]
  | .classDef n _ _ _ => [n]
  | .funcDef _ n _ _ _ _ _ => [n]
  | _ => []

/-- Executing the statements in order never meets an unknown name: every evaluated name is external or bound
by an earlier statement. -/
def Resolves (external : String → Prop) : List Stmt → Prop
  | [] => True
  | s :: ss => (∀ n ∈ evaluated s, external n) ∧ Resolves (fun n => external n ∨ n ∈ bound s) ss

/-- Names provided before the generated statements run: imported ones, Python's builtin types, the helper
classes the registry emits, and scalars mapped to an undotted Python type. -/
def External (r : Reg) (n : String) : Prop :=
  (∃ d ∈ r.imports, lastComponent d = n) ∨ n ∈ neverImported ∨ (∃ b ∈ r.builtins, n ∈ helperNames b) ∨
  (∃ s, r.scalarMap.get? s = some n ∧ hasDot n = false)

/-- `n` is the class of a registered definition (emitted by an earlier plugin or earlier in this one) -/
def Registered (r : Reg) (n : String) : Prop := ∃ k t, (r.classMap k).get? t = some n

end Turms.Spec
