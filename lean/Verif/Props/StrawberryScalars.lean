import Verif.Lemmas.StrawberryScalars
import Verif.Props.Strawberry

/-! # C66: what strawberry modules say about scalars and enums -/

namespace Turms.Props
open Turms Spec

/-- C66: every custom scalar is defined under its name, with its description and custom directives, and passes values
as they are. -/
theorem C66_scalars_marked (c : Ctx) (p : StrawberryConfig) (sd : SchemaDirectives) (ops : List Op)
    (ss : List Stmt) (r' : Reg) (hg : p.generateDirectives = true)
    (h : strawberryPlugin c p sd (stateAfter c.env ops) = .ok (ss, r')) (n : String) (d : Option String)
    (hn : (n, ⟨.scalar, d⟩) ∈ c.schema.types) (hb : n ∉ p.builtinScalars) : ∃ s ∈ ss, ScalarTold p sd n d s := by
  have hc : (⟨n, d⟩ : ScalarType) ∈ customScalars p c.schema := by
    unfold customScalars
    rw [List.mem_filterMap]
    exact ⟨_, hn, by simp [hb]⟩
  exact (strawberryPlugin_leaves h).1 hg _ hc

/-- C66: the class of a kept enum is decorated as an enum with the custom directives of the schema, and starts with the
description. -/
theorem C66_enums_marked (c : Ctx) (p : StrawberryConfig) (sd : SchemaDirectives) (ops : List Op)
    (ss : List Stmt) (r' : Reg) (hg : p.generateEnums = true)
    (h : strawberryPlugin c p sd (stateAfter c.env ops) = .ok (ss, r')) (t : EnumType) (ht : EnumOf c.schema t)
    (hk : KeptType p t.name) :
    ∃ cls bases body d, Kind.enum.style c.env t.name = .ok cls ∧ .classDef cls bases body [d] ∈ ss ∧
      calledName d = "strawberry.enum" ∧ CarriesDirectives p (sd.onType t.name) (.classDef cls bases body [d]) ∧
      ∀ e, told t.description = some e → body.head? = some (.expr e) := by
  obtain ⟨s, hs, cls, bases, body, d, hc, rfl, hd, hx, he⟩ := (strawberryPlugin_leaves h).2 hg t (mem_enumTypes.2 ht) hk
  exact ⟨cls, bases, body, d, hc, hs, hd, hx, he⟩

/-- a described scalar and enum with `@beta` -/
def leafSchema : Schema where
  types := [("Token", ⟨.scalar, some "opaque"⟩), ("Size", ⟨.enum [⟨"S", none, none⟩, ⟨"L", none, none⟩], some "how big"⟩)]

/-- `@beta` on both -/
def leafDirectives : SchemaDirectives where
  onType _ := [⟨"beta", []⟩]

example : ((strawberryPlugin { schema := leafSchema } {} leafDirectives (stateAfter {} [])).toOption.map
    fun x => x.1.map fun s => (markOf "description" s, markOf "directives" s, decoratorNames s)) = some [
      (some (.const (.str "opaque")), some (.list [.call (.name "beta") [] []]), []),
      (none, some (.list [.call (.name "beta") [] []]), ["strawberry.enum"])] := by decide +kernel

end Turms.Props
