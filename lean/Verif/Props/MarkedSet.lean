import Verif.Props.Inputs

/-!
# C62: discriminators are sent although nobody sets them
-/

namespace Turms.Props
open Turms Turms.Spec

/-- C62: with pydantic 2 the class of a member of a discriminated union tells pydantic, whenever an instance is made, that
exactly its discriminators are set, so they are not left out when unset fields are; with pydantic 1 there is no such
function. -/
theorem C62_discriminators_marked_set (c : Ctx) (p : InputsConfig) (ops : List Op) (ss : List Stmt) (r' : Reg)
    (hp : PlainConfig c.config) (hn : c.schema.types.keys.Nodup)
    (h : generateInputs c p (stateAfter c.env ops) = .ok (ss, r')) (t : InputType) (ht : InputOf c.schema t)
    (hm : IsMember p t) :
    ∃ cls bases before marks after, Kind.input.style c.env t.name = .ok cls ∧
      .classDef cls bases (before ++ marks ++ after) [] ∈ ss ∧
      (c.env.config.pydanticV2 = false → marks = []) ∧
      (c.env.config.pydanticV2 = true → ∃ dns : List String,
        marks = [.funcDef false "model_post_init" [{ arg := "self" }, { arg := "context" }] []
          [.expr (.call (.attr (.attr (.name "self") "__pydantic_fields_set__") "update") [.list (dns.map .str)] [])] [] none] ∧
        dns.Nodup ∧ ∀ dn, dn ∈ dns ↔ ∃ u k, Declares t u dn k ∧ Referenced p u) := by
  obtain ⟨_, hc, _⟩ := generateInputs_ok (styled_stateAfter _ _) hp hn h
  obtain ⟨s, hs, r1, r2, cls, ds, _, _, hcls, hg, hnd, hds⟩ := hc t ht hm
  have hne : ds ≠ [] := by
    obtain ⟨u, dn, k, hd, hr⟩ := hm
    exact List.ne_nil_of_mem ((hds dn k).2 ⟨u, hd, hr⟩)
  unfold generateInputType at hg
  obtain ⟨extra, _, _, hg⟩ := Gen.bind_ok.1 hg
  obtain ⟨lits, _, _, hg⟩ := Gen.bind_ok.1 hg
  obtain ⟨fs, _, _, hg⟩ := Gen.bind_ok.1 hg
  obtain ⟨cfg, _, _, hg⟩ := Gen.bind_ok.1 hg
  obtain ⟨rfl, _⟩ := Gen.pure_ok.1 hg
  refine ⟨cls, extra ++ baseNames p.bases, docOrDefault t.description :: (lits ++ fs), _, cfg, hcls, hs, fun hv => ?_, fun hv => ?_⟩
  · rw [hv, Bool.and_false]; rfl
  · have he : (!ds.isEmpty && c.env.config.pydanticV2) = true := by
      rw [hv, Bool.and_true, Bool.not_eq_true', List.isEmpty_eq_false_iff]; exact hne
    refine ⟨ds.map (·.discriminator), ?_, hnd, fun dn => ?_⟩
    · rw [if_pos he, postInit, List.map_map]; rfl
    · rw [List.mem_map]
      constructor
      · rintro ⟨⟨dn', k⟩, hx, rfl⟩
        obtain ⟨u, h⟩ := (hds dn' k).1 hx
        exact ⟨u, k, h⟩
      · rintro ⟨u, k, h⟩
        exact ⟨⟨dn, k⟩, (hds dn k).2 ⟨u, h⟩, rfl⟩

/-- a union with a member -/
example : (generateInputs { schema := { types := [("Int", ⟨.scalar, none⟩), ("U", ⟨.input [] [], none⟩),
        ("A", ⟨.input [⟨"n", .named "Int", none, none, none⟩] [
          ⟨"unionElementOf", [("union", "U"), ("discriminator", "kind"), ("key", "A")]⟩], none⟩)] } } {}
      (stateAfter {} [])).toOption.map (fun x => definedNames x.1) = some ["A", "U"] := by decide +kernel

end Turms.Props
