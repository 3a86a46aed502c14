import Mathlib.Data.List.Forall2
import Verif.Spec.Funcs
import Verif.Spec.Annotations

/-! # Specification: what the docstrings of functions and factories say -/

namespace Turms.Spec
open Turms

/-- the text of a literal: Python's `str` of the value of the GraphQL literal -/
inductive LiteralText : Value → String → Prop
  | int (t) : LiteralText (.int t) t
  | float (t) : LiteralText (.float t) t
  | string (t) : LiteralText (.string t) t
  | true : LiteralText (.bool true) "True"
  | false : LiteralText (.bool false) "False"
  | enum (n) : LiteralText (.enum n) n

/-- The descriptions, in order, of the arguments of root fields to which the variable `v` is given and which have the name of
the variable themselves. -/
def givenTo (s : Schema) (root v : String) (sels : List Sel) : List String :=
  sels.flatMap fun
    | .field n _ args _ => args.flatMap fun a =>
      match a.2, getFieldDef s root n with
      | .variable w, some f =>
        if w = v then
          match f.args.find? (·.name == v) with
          | some d => if truthy d.description then [d.description.getD ""] else []
          | none => []
        else []
      | _, _ => []
    | _ => []

/-- descriptions in one sentence -/
def joinAnd : List String → String
  | [] => "No description"
  | [x] => x
  | x :: y :: l => x ++ " AND " ++ joinAnd (y :: l)

/-- what is said about a variable -/
def saidOf (s : Schema) (root v : String) (sels : List Sel) : String := joinAnd (givenTo s root v sels)

/-- the line for a variable -/
inductive VariableLine (env : Env) (said : String) (v : VarDef) : String → Prop
  | required {param label} : RequiredVar v → ParamOf env v.name param →
      VariableLine env said v ("    " ++ param ++ " (" ++ label ++ "): " ++ said ++ "\n")
  | optional {param label} : ¬ RequiredVar v → v.default = none → ParamOf env v.name param →
      VariableLine env said v ("    " ++ param ++ " (" ++ label ++ ", optional): " ++ said ++ ". " ++ "\n")
  | default {param label x text} : v.default = some x → LiteralText x text → ParamOf env v.name param →
      VariableLine env said v ("    " ++ param ++ " (" ++ label ++ ", optional): " ++ said ++ ". " ++ ("Defaults to " ++ text) ++ "\n")

/-- a line for the parameter `name` -/
def LineFor (name line : String) : Prop := ∃ rest, line = "    " ++ name ++ " (" ++ rest ++ "\n"

/-- the docstring of a function -/
def docOf : Stmt → Option String
  | .funcDef _ _ _ _ (.expr (.str t) :: _) _ _ => some t
  | _ => none

/-- its parameters -/
def paramsOf : Stmt → List String
  | .funcDef _ _ args _ _ _ _ => args.map (·.arg)
  | _ => []

/-- The docstring has a section of arguments with one line for each parameter of the function, in the order of the
parameters, and no others; among them are those of the operation's variables, with description and default. -/
def DocumentsParameters (c : Ctx) (o : OpDef) (f : Stmt) : Prop :=
  ∃ head lines label root, c.schema.root o.kind = some root ∧
    docOf f = some (head ++ "\n\nArgs:\n" ++ String.join lines ++ "\nReturns:\n    " ++ label ++ "\n") ∧
    List.Forall₂ LineFor (paramsOf f) lines ∧
    ∀ v ∈ o.vars, ∃ l ∈ lines, VariableLine c.env (saidOf c.schema root v.name o.sels) v l

/-- The root field selected under `key` has the description `text`. -/
def RootDescription (s : Schema) (root : String) (sels : List Sel) (key text : String) : Prop :=
  ∃ name al args sub f, Sel.field name al args sub ∈ sels ∧ key = al.getD name ∧ getFieldDef s root name = some f ∧
    f.description = some text ∧ text ≠ ""

/-- The docstring begins with the name of the operation.  The comments above the operation follow, if there are any and
they are wanted; otherwise there is one line for each key of the answer whose field has a description, or only that
description if the function returns the only field. -/
def DocumentsOperation (c : Ctx) (p : FuncsConfig) (o : OpDef) (f : Stmt) : Prop :=
  ∃ root name about rest, c.schema.root o.kind = some root ∧ o.name.getD "" = name ∧
    docOf f = some (name ++ " \n" ++ about ++ "\n\nArgs:\n" ++ rest) ∧
    ((p.extractDocumentation = true ∧ p.documentation o = some about ∧ about ≠ "") ∨
      (p.extractDocumentation = true → ∀ x, p.documentation o = some x → x = "") ∧
      ∃ told : List (String × String), (told.map (·.1)).Nodup ∧
        (∀ key text, (key, text) ∈ told → RootDescription c.schema root o.sels key text) ∧
        (∀ key text, RootDescription c.schema root o.sels key text → key ∈ told.map (·.1)) ∧
        about = String.join (told.map fun t =>
          if p.collapseLonely = true ∧ o.sels.length = 1 then "\n" ++ t.2 else "\n" ++ t.1 ++ ": " ++ t.2))

/-- the function returns the only field of the answer -/
def ReturnsOnlyField (p : FuncsConfig) (o : OpDef) : Prop := p.collapseLonely = true ∧ o.sels.length = 1

/-- a type written in Python, with `leaf` for the named type -/
def writtenType (leaf : String) : TypeNode → Bool → String
  | .nonNull t, _ => writtenType leaf t false
  | .list t, nullable =>
    if nullable then "Optional[List[" ++ writtenType leaf t true ++ "]]" else "List[" ++ writtenType leaf t true ++ "]"
  | .named _, nullable => if nullable then "Optional[" ++ leaf ++ "]" else leaf

/-- What the docstring says is returned: the class of the operation, or the type of its only field. The named type is
written as the class of the enum, or as the class of the selection if fields are selected (and not one fragment). -/
inductive ReturnLabel (c : Ctx) (p : FuncsConfig) (o : OpDef) : String → Prop
  | operation {cls} : ¬ ReturnsOnlyField p o → OperationClass c o cls → ReturnLabel c p o cls
  | field {root name al args sub f leaf cls} : ReturnsOnlyField p o → OperationClass c o cls → c.schema.root o.kind = some root →
      o.sels = [.field name al args sub] → getFieldDef c.schema root name = some f →
      (∀ vs, c.schema.lookup f.type.base = some (.enum vs) → enumClass c.env f.type.base = some leaf) →
      ((∃ fs is, c.schema.lookup f.type.base = some (.object fs is) ∨ c.schema.lookup f.type.base = some (.interface fs is)) →
        (∀ x ∈ sub, ∀ g, x ≠ .spread g) → leaf = cls ++ pyCapitalize (al.getD name)) →
      ReturnLabel c p o (writtenType leaf f.type true)

/-- The docstring ends with what is returned. -/
def DocumentsReturn (c : Ctx) (p : FuncsConfig) (o : OpDef) (f : Stmt) : Prop :=
  ∃ rest label, docOf f = some (rest ++ "\nReturns:\n    " ++ label ++ "\n") ∧ ReturnLabel c p o label

/-- the line for a field of an input type: its description, if it has one -/
def FieldLine (env : Env) (g : InputFieldDef) (line : String) : Prop :=
  ∃ param said, ParamOf env g.name param ∧ (truthy g.description = true → g.description = some said) ∧
    line = "    " ++ param ++ ": " ++ said ++ "\n"

/-- The docstring of a factory names the class and has one line for each field, in the order of the fields. -/
def DocumentsFields (env : Env) (fields : List InputFieldDef) (cls : String) (f : Stmt) : Prop :=
  ∃ lines, docOf f = some ("Creates a " ++ cls ++ "\n\nArguments:\n" ++ String.join lines) ∧
    List.Forall₂ (FieldLine env) fields lines

end Turms.Spec
