import Verif.Model.Schema

/-!
# What freeze and option settings are supposed to do
-/

namespace Turms.Spec
open Turms

/-- A settings block (freeze or options) selects a class: it is enabled, the kind is listed, the type is not
excluded and, if there is an include list, the type is on it. -/
def Selects (enabled : Bool) (types : List GQLType) (exclude include_ : Option (List String)) (g : GQLType)
    (typename : Option String) : Prop :=
  enabled = true ∧ g ∈ types ∧
  (∀ l, exclude = some l → ∀ t, typename = some t → t ∉ l) ∧
  (∀ l, include_ = some l → l ≠ [] → ∃ t, typename = some t ∧ t ∈ l)

/-- the setting `key = value` requested by the options block; `population` is the name pydantic gives to
"populate by field name" -/
def OptionSets (population : String) (o : OptionsConfig) (key : String) (value : Expr) : Prop :=
  (key = "allow_mutation" ∧ ∃ b, o.allowMutation = some b ∧ value = .const (.bool b)) ∨
  (key = "extra" ∧ ∃ x, o.extra = some x ∧ value = .const (.str x)) ∨
  (key = "validate_assignment" ∧ ∃ b, o.validateAssignment = some b ∧ value = .const (.bool b)) ∨
  (key = population ∧ ∃ b, o.allowPopulationByFieldName = some b ∧ value = .const (.bool b)) ∨
  (key = "orm_mode" ∧ ∃ b, o.ormMode = some b ∧ value = .const (.bool b)) ∨
  (key = "use_enum_values" ∧ ∃ b, o.useEnumValues = some b ∧ value = .const (.bool b))

/-- the settings a class body carries, read off the Python: `model_config = ConfigDict(k=v, ...)` or a
nested `class Config` with assignments `k = v` -/
def assignments : List Stmt → List (String × Expr)
  | [] => []
  | .assign (.name k) v :: ss => (k, v) :: assignments ss
  | _ :: ss => assignments ss

/-- keyword arguments with a name -/
def named : List (Option String × Expr) → List (String × Expr)
  | [] => []
  | (some k, v) :: ks => (k, v) :: named ks
  | (none, _) :: ks => named ks

/-- see `assignments` -/
def settings : List Stmt → List (String × Expr)
  | [] => []
  | .assign (.name x) (.call (.name f) [] kws) :: ss =>
    if x = "model_config" ∧ f = "ConfigDict" then named kws ++ settings ss else settings ss
  | .classDef n [] body _ :: ss => if n = "Config" then assignments body ++ settings ss else settings ss
  | _ :: ss => settings ss

/-- the name of the "populate by field name" setting in each pydantic version -/
def populationKey (v2 : Bool) : String := if v2 then "populate_by_name" else "allow_population_by_field_name"

mutual
/-- the literal of a configuration value mentions no names, unless the value is opaque -/
def _root_.Turms.PyDefault.closed : PyDefault → Bool
  | .opaque _ => false
  | .list l => PyDefault.closedL l
  | .dict d => PyDefault.closedD d
  | _ => true
/-- elements -/
def _root_.Turms.PyDefault.closedL : List PyDefault → Bool
  | [] => true
  | x :: xs => x.closed && PyDefault.closedL xs
/-- values -/
def _root_.Turms.PyDefault.closedD : List (String × PyDefault) → Bool
  | [] => true
  | (_, x) :: xs => x.closed && PyDefault.closedD xs
end

/-- the configuration contains plain values only (it is read from a YAML or TOML file) -/
def PlainConfig (config : GenConfig) : Prop :=
  ∀ t l, config.additionalConfig.get? t = some l → ∀ p ∈ l, p.2.closed = true

end Turms.Spec
