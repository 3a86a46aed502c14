import Verif.Model.Pipeline
import Verif.Model.Loading

/-!
# Validation of the configuration (`turms/config.py`)

`pythonBuiltins` is `dir(builtins)`.  Only the validators written in turms are modelled; the checks pydantic derives
from the types of the fields are not.
-/

namespace Turms

/-- a field of type `Dict[str, PythonType]`: pydantic runs `PythonType.validate` on every value —
`turms/config.py:57-71, 242-259` -/
def validateTypeMap (pythonBuiltins : List String) : Dict String → Except Err Unit
  | [] => .ok ()
  | (_, v) :: rest =>
    match validatePythonType pythonBuiltins v with
    | .error e => .error e
    | .ok _ => validateTypeMap pythonBuiltins rest

/-- a field of type `Optional[PythonType]` — `turms/config.py:260-288` -/
def validateOptionalType (pythonBuiltins : List String) : Option String → Except Err Unit
  | none => .ok ()
  | some v =>
    match validatePythonType pythonBuiltins v with
    | .error e => .error e
    | .ok _ => .ok ()

/-- the bases of one type — the inner loop of `validate_additional_bases`, `turms/config.py:390-398` -/
def validateBaseList (pythonBuiltins : List String) : List String → Except Err Unit
  | [] => .ok ()
  | v :: rest =>
    if !pythonBuiltins.contains v && !v.toList.contains '.' then .error (.invalid v)
    else validateBaseList pythonBuiltins rest

/-- `validate_additional_bases` — `turms/config.py:384-399` -/
def validateBases (pythonBuiltins : List String) : Dict (List String) → Except Err Unit
  | [] => .ok ()
  | (_, vs) :: rest =>
    match validateBaseList pythonBuiltins vs with
    | .error e => .error e
    | .ok () => validateBases pythonBuiltins rest

/-- `validate_importable` — `turms/config.py:362-372`; `imports` is `import_string` -/
def validateImportable {A : Type} (imports : String → Except Err A) : List String → Except Err Unit
  | [] => .ok ()
  | t :: rest =>
    match imports t with
    | .error _ => .error (.invalid t)
    | .ok _ => validateImportable imports rest

/-- The validators of `GeneratorConfig` that concern Python names, in the order in which pydantic runs them: the fields
as declared, then the model validator — `turms/config.py:242-399`. -/
def validateNames (pythonBuiltins : List String) (config : RegConfig) (additionalBases : Dict (List String)) :
    Except Err Unit :=
  match validateTypeMap pythonBuiltins config.scalarDefinitions with
  | .error e => .error e
  | .ok () =>
    match validateOptionalType pythonBuiltins config.graphqlDefaultClass with
    | .error e => .error e
    | .ok () =>
      match validateOptionalType pythonBuiltins config.deprecatedClass with
      | .error e => .error e
      | .ok () =>
        match validateOptionalType pythonBuiltins config.unsetTypeClass with
        | .error e => .error e
        | .ok () =>
          match validateOptionalType pythonBuiltins config.unsetInstance with
          | .error e => .error e
          | .ok () =>
            match validateBases pythonBuiltins additionalBases with
            | .error e => .error e
            | .ok () => validateUnset config.unsetTypeClass config.unsetInstance

end Turms
