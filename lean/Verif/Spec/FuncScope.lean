import Verif.Spec.Funcs
import Verif.Spec.ResponseScope

/-! # What calling the functions of a module needs -/

namespace Turms.Spec
open Turms

/-- `M` contains the names a function of the module finds when it is called: everything imported or built in, and
everything bound at module level (before or after the function). -/
def ModuleNames (r : Reg) (ss : List Stmt) (M : List String) : Prop := ∀ n, External r n ∨ n ∈ boundL ss → n ∈ M

/-- Every call of `f` that Python accepts performs the operation, in a module made of `ss`. -/
def Callable (c : Ctx) (p : FuncsConfig) (r : Reg) (ss : List Stmt) (d : FuncDefinition) (o : OpDef) (f : Stmt) : Prop :=
  ∃ name args defaults body returns cls, f = .funcDef d.isAsync name args defaults body [] returns ∧
    OperationClass c o cls ∧
    ∀ M pos kw L, ModuleNames r ss M → Hygienic c p d o cls args → bindCall M args defaults pos kw = some L →
      ∃ out, callFunc M f pos kw = some out ∧ Performs c p d o cls L out

/-- Every call of the factory `f` that Python accepts builds `cls` from exactly the supplied fields, in a module made
of `ss`.  (The parameters must not be called `data` or like the two module-level objects a factory uses.) -/
def CallableFactory (c : Ctx) (r : Reg) (ss : List Stmt) (fields : List InputFieldDef) (cls : String) (f : Stmt) : Prop :=
  ∃ name args defaults body, f = .funcDef false name args defaults body [] (some (.name cls)) ∧
    ∀ M pos kw L, ModuleNames r ss M → "data" ∉ args.map (·.arg) →
      (∀ g ∈ [unsetName c.env, cls], g ≠ "data" ∧ g ∉ args.map (·.arg)) → bindCall M args defaults pos kw = some L →
      ∃ out, callFunc M f pos kw = some out ∧ out.call.func = cls ∧ out.call.args = [] ∧
        FieldPayload c.env L fields out.call.kwargs

/-- some extra keyword parameter has the default `None`: its annotation uses `Optional`, which the plugin does not
import -/
def NeedsOptional (p : FuncsConfig) : Prop :=
  ∃ d ∈ p.definitions, ∃ k ∈ p.globalKwargs ++ d.extraKwargs, k.default = .none

end Turms.Spec
