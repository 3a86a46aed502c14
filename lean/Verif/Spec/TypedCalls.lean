import Verif.Spec.Funcs
import Verif.Spec.Variables

/-!
# Calls that respect the annotations of the parameters

`wire` is what the client serialises a Python object to, `WellTyped` what a type checker allows a caller to pass.
-/

namespace Turms.Spec
open Turms

mutual
/-- The JSON value a Python object is serialised to: for an object of the caller that is part of the object, `None` is null and
a dictionary is an object.  Module-level objects (classes, the `UNSET` marker) cannot be serialised. -/
def wire : PyVal → Option Val
  | .given w => some w
  | .const .none => some .null
  | .dict kvs =>
    match wireEntries kvs with
    | some ws => some (.obj ws)
    | none => none
  | _ => none
/-- the entries of a dictionary -/
def wireEntries : List (String × PyVal) → Option (List (String × Val))
  | [] => some []
  | e :: es =>
    match wire e.2, wireEntries es with
    | some w, some ws => some ((e.1, w) :: ws)
    | _, _ => none
end

/-- the name under which the module knows the type of the `UNSET` marker: the configured one, else `UnsetType` -/
def unsetTypeName (env : Env) : String :=
  match env.config.unsetTypeClass with
  | some o => if o = "" then "UnsetType" else lastComponent o
  | none => "UnsetType"

/-- the classes of a module with the statements `T`: a class accepts the values its instances are serialised to -/
def serialWorld (T : List Stmt) (isa : String → Val → Prop) : World where
  isa n v := Sends T isa (.name n) v

/-- `WellTyped W unset unsetType A x`: a type checker lets `x` pass for the annotation `A`.  Either `x` is the marker `unset`
and `A` is a union with its type `unsetType`, or `x` is something serialisable that `A` accepts. -/
inductive WellTyped (W : World) (unset unsetType : String) : Expr → PyVal → Prop
  | marker {ts} : Expr.name unsetType ∈ ts → WellTyped W unset unsetType (.subscript (.name "Union") (.tuple ts)) (.global unset)
  | value {A x w} : wire x = some w → Accepts W A w → WellTyped W unset unsetType A x

/-- every argument is well typed -/
def TypedArguments (W : World) (env : Env) (args : List Arg) (L : Locals) : Prop :=
  ∀ a ∈ args, ∀ A, a.annotation = some A → ∀ x, L.find a.arg = some x → WellTyped W (unsetName env) (unsetTypeName env) A x

/-- `SafeCoercions c co T isa leaf`: what the configured coercions allow instead of a type is serialised to a legal value of that
type.  A coercion for an input is not for something else, and none of the classes is the type of the `UNSET` marker. -/
structure SafeCoercions (c : Ctx) (co : Coercions) (T : List Stmt) (isa : String → Val → Prop) (leaf : String → Val → Prop) : Prop where
  target : ∀ n q, co.scalars.get? n = some q ∨ co.inputs.get? n = some q → q ≠ "" ∧ lastComponent q ≠ unsetTypeName c.env
  legal : ∀ n q, co.scalars.get? n = some q ∨ co.inputs.get? n = some q → ∀ w, Sends T isa (.name (lastComponent q)) w →
    w ≠ .null ∧ InputValue c.schema leaf (.named n) w
  inputs : ∀ n q, co.inputs.get? n = some q → ∃ fs ds, c.schema.lookup n = some (.input fs ds)

/-- `ExpandableVariable c v`: the variable is required, and its type is an input whose fields may be given independently of each
other -/
def ExpandableVariable (c : Ctx) (v : VarDef) : Prop :=
  RequiredVar v ∧ ∀ fs ds, c.schema.lookup v.type.base = some (.input fs ds) → ¬ OneOf ds ∧ (fs.map (·.name)).Nodup

/-- Every call of `f` that Python accepts and whose arguments are well typed calls the proxy with the class of the operation and a
dictionary of variables that is serialised to something the server accepts.  `M` are the names the module defines, `T` the
statements that define its inputs. -/
def SendsAccepted (c : Ctx) (p : FuncsConfig) (T : List Stmt) (isa leaf : String → Val → Prop) (d : FuncDefinition) (o : OpDef)
    (f : Stmt) : Prop :=
  ∃ name args defaults body returns cls, f = .funcDef d.isAsync name args defaults body [] returns ∧
    OperationClass c o cls ∧
    ∀ M pos kw L, Hygienic c p d o cls args → (UsesUnset c p o → unsetName c.env ∈ M) → cls ∈ M → lastComponent d.use ∈ M →
      bindCall M args defaults pos kw = some L → TypedArguments (serialWorld T isa) c.env args L →
      ∃ out xs kvs ws, callFunc M f pos kw = some out ∧ out.call.func = lastComponent d.use ∧
        out.call.args = xs ++ [.global cls, .dict kvs] ∧ wireEntries kvs = some ws ∧ VariableValues c.schema leaf o.vars ws

/-- Every call of the factory `f` for the input type `n` that Python accepts and whose arguments are well typed builds the class
of that type from keyword arguments which are serialised to a legal value of the type, and which the class accepts. -/
def BuildsAccepted (c : Ctx) (T : List Stmt) (isa leaf : String → Val → Prop) (n : String) (fields : List InputFieldDef) (f : Stmt) :
    Prop :=
  ∃ cls, Kind.input.style c.env n = .ok cls ∧
    ∃ name args defaults body, f = .funcDef false name args defaults body [] (some (.name cls)) ∧
      ∀ M pos kw L, "data" ∉ args.map (·.arg) → (∀ g ∈ [unsetName c.env, cls], g ≠ "data" ∧ g ∉ args.map (·.arg)) →
        ((∃ g ∈ fields, ¬ RequiredField g) → unsetName c.env ∈ M) → cls ∈ M →
        bindCall M args defaults pos kw = some L → TypedArguments (serialWorld T isa) c.env args L →
        ∃ out ws, callFunc M f pos kw = some out ∧ out.call.func = cls ∧ out.call.args = [] ∧
          wireEntries out.call.kwargs = some ws ∧ InputValue c.schema leaf (.named n) (.obj ws) ∧ Sends T isa (.name cls) (.obj ws)

/-- `Holds c p o q v f`: the parameter `q` of the function for the operation `o` holds the variable `v`, or its field if it is
expanded -/
inductive Holds (c : Ctx) (p : FuncsConfig) (o : OpDef) : String → String → Option String → Prop
  | variable_ {v q} : v ∈ o.vars → v.name ∉ p.expandInputTypes → ParamOf c.env v.name q → Holds c p o q v.name none
  | field {v fs f q} : v ∈ o.vars → v.name ∈ p.expandInputTypes → FieldsOfVar c.schema v fs → f ∈ fs → FieldParamOf c.env f.name q →
      Holds c p o q v.name (some f.name)

/-- the two JSON values are equal, or objects with the same entries -/
def SameValue (w w' : Val) : Prop := w = w' ∨ ∃ a b, w = .obj a ∧ w' = .obj b ∧ ∀ k x, (k, x) ∈ a ↔ (k, x) ∈ b

/-- the two maps have the same keys and values -/
def SameMap (ws ws' : List (String × Val)) : Prop :=
  (∀ k w, (k, w) ∈ ws → ∃ w', (k, w') ∈ ws' ∧ SameValue w w') ∧ ∀ k w', (k, w') ∈ ws' → ∃ w, (k, w) ∈ ws ∧ SameValue w w'

/-- Every map of variables that the server accepts can be sent by a well-typed call of `f`.  It may be any call that is well typed
in the other arguments (`L0`), with keyword arguments for all parameters. -/
def ReachesAccepted (c : Ctx) (p : FuncsConfig) (T : List Stmt) (isa leaf : String → Val → Prop) (d : FuncDefinition) (o : OpDef)
    (f : Stmt) : Prop :=
  ∃ name args defaults body returns cls, f = .funcDef d.isAsync name args defaults body [] returns ∧
    OperationClass c o cls ∧
    ∀ M pos kw0 L0, Hygienic c p d o cls args → (UsesUnset c p o → unsetName c.env ∈ M) → cls ∈ M → lastComponent d.use ∈ M →
      (∀ q v f v' f', Holds c p o q v f → Holds c p o q v' f' → v = v' ∧ f = f') →
      bindCall M args defaults pos kw0 = some L0 → TypedArguments (serialWorld T isa) c.env args L0 →
      ∀ ws, VariableValues c.schema leaf o.vars ws →
      ∃ kw L out xs kvs ws', bindCall M args defaults [] kw = some L ∧ TypedArguments (serialWorld T isa) c.env args L ∧
        (∀ q, (∀ v f, ¬ Holds c p o q v f) → L.find q = L0.find q) ∧ callFunc M f [] kw = some out ∧
        out.call.func = lastComponent d.use ∧ out.call.args = xs ++ [.global cls, .dict kvs] ∧ wireEntries kvs = some ws' ∧
        SameMap ws ws'

end Turms.Spec
