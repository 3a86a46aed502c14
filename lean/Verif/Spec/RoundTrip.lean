import Verif.Spec.Funcs
import Verif.Spec.Delivers

/-!
# What a caller gets back

Independent of the generator: what reading an attribute of a pydantic model yields, and what a call of a generated
function hands back when the server answers.
-/

namespace Turms.Spec
open Turms

/-- `Reads T cls kvs a x`: in the instance of the model `cls` made from the JSON object `kvs`, the attribute `a` is a
field and holds what the JSON value `x` stands for: the entry under the wire key, or the default `None` if there is no
such entry.  (If the attribute is declared more than once, this holds for all declarations.) -/
def Reads (T : List Stmt) (cls : String) (kvs : List (String × Val)) (a : String) (x : Val) : Prop :=
  privateName a = false ∧ (∃ st, Declared T cls st ∧ attrOf st = some a) ∧
  ∀ st f, Declared T cls st → attrOf st = some a → fieldOf st = some f →
    Val.entry kvs f.key = some x ∨ (Val.entry kvs f.key = none ∧ defaultOf st = some (.const .none) ∧ x = .null)

/-- what the call hands back when the proxy returns an instance of the model `cls` made from `kvs` (for a subscription:
for each such instance the proxy yields) -/
def GivesBack (T : List Stmt) (cls : String) (out : Outcome) (kvs : List (String × Val)) (x : Val) : Prop :=
  match out.attr with
  | none => x = .obj kvs
  | some a => Reads T cls kvs a x

/-- `RoundTrip c p T isa answers promise d o f`: every call of the function `f` that Python accepts sends the operation
(`Performs`), and for every answer (an object that `answers` for the root type and the operation) the value handed back
is what `promise` says: `promise root whole A kvs x`, where `whole` tells whether the whole answer is handed back and
`A` is the annotation of the function (without the iterator around it). -/
def RoundTrip (c : Ctx) (p : FuncsConfig) (T : List Stmt)
    (answers : String → String → List (String × Val) → Prop)
    (promise : String → Option Sel → Expr → List (String × Val) → Val → Prop)
    (d : FuncDefinition) (o : OpDef) (f : Stmt) : Prop :=
  ∃ name args defaults body cls A root,
    f = .funcDef d.isAsync name args defaults body [] (some (handsBack d o A)) ∧
    OperationClass c o cls ∧ IsClass T cls ∧ c.schema.root o.kind = some root ∧
    ∀ M pos kw L, Hygienic c p d o cls args → (UsesUnset c p o → unsetName c.env ∈ M) → cls ∈ M →
      lastComponent d.use ∈ M → bindCall M args defaults pos kw = some L →
      ∃ out, callFunc M f pos kw = some out ∧ Performs c p d o cls L out ∧
        ∀ kvs, answers cls root kvs → ∃ x, GivesBack T cls out kvs x ∧
          ((out.attr = none ∧ promise root none A kvs x) ∨
            ∃ s, out.attr ≠ none ∧ o.sels = [s] ∧ promise root (some s) A kvs x)

/-- The value handed back is of the type the function is annotated with: the whole answer, or the server's value for the
only root field. -/
def OfAnnotatedType (T : List Stmt) (isa : String → Val → Prop) (_root : String) (only : Option Sel) (A : Expr)
    (kvs : List (String × Val)) (x : Val) : Prop :=
  Takes T isa A x ∧
  match only with
  | some (.field name al _ _) => Val.entry kvs (al.getD name) = some x
  | some _ => False
  | none => x = .obj kvs

/-- The value handed back has everything the operation's selections and the schema promise: the whole answer does, or the
value is one for the type and the sub-selections of the only root field. -/
def Promised (s : Schema) (defs : Dict FragDef) (leaf : String → Val → Prop) (catchAll : Bool) (sels : List Sel)
    (root : String) (only : Option Sel) (kvs : List (String × Val)) (x : Val) : Prop :=
  match only with
  | some (.field name _ _ sub) => name ≠ "__typename" → ∃ t, FieldAt s root name t ∧ Delivers s defs leaf catchAll t sub x
  | some _ => False
  | none => x = .obj kvs ∧ DeliversFields s defs leaf catchAll root root sels kvs

end Turms.Spec
