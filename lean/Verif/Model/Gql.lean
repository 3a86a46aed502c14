import Verif.Model.Basic

/-!
# GraphQL documents (the part of graphql-core's AST the generator looks at)

Third-party data types (`graphql.language.ast`); locations and descriptions are dropped.
-/

namespace Turms

/-- `ValueNode` -/
inductive Value where
  | variable (name : String)
  | int (text : String)
  | float (text : String)
  | string (text : String)
  | bool (b : Bool)
  | null
  | enum (name : String)
  | list (items : List Value)
  | object (fields : List (String × Value))
deriving Repr

/-- `SelectionNode`.  An absent selection set is the empty list (the parser rejects `{}`). Directives are
dropped. -/
inductive Sel where
  | field (name : String) (alias : Option String) (args : List (String × Value)) (sub : List Sel)
  | spread (name : String)
  | inline (typeCondition : Option String) (sub : List Sel)
deriving Repr

/-- `FragmentDefinitionNode` -/
structure FragDef where
  name : String
  typeCondition : String
  sels : List Sel
deriving Repr

/-- `TypeNode` (types as written in documents) -/
inductive TypeNode where
  | named (name : String)
  | list (t : TypeNode)
  | nonNull (t : TypeNode)
deriving DecidableEq, Repr

/-- `VariableDefinitionNode` -/
structure VarDef where
  name : String
  type : TypeNode
  default : Option Value := none
deriving Repr

/-- kind of an operation -/
inductive OpKind where
  | query | mutation | subscription
deriving DecidableEq, Repr

/-- `OperationDefinitionNode` -/
structure OpDef where
  kind : OpKind
  name : Option String
  vars : List VarDef := []
  sels : List Sel
deriving Repr

/-- a definition of an executable document -/
inductive Defn where
  | operation (o : OpDef)
  | fragment (f : FragDef)
deriving Repr

/-- `DocumentNode` -/
abbrev Document := List Defn

end Turms
