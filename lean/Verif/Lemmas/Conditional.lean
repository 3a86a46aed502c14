import Verif.Spec.Conditional
import Verif.Lemmas.Responses

/-! # Answers to documents with conditions are sparse results -/

namespace Turms
open Spec Spec.Conditional

namespace Conditional

theorem plains_eq : ∀ l : List CSel, plains l = l.map CSel.plain
  | [] => by unfold plains; rfl
  | x :: xs => by unfold plains; rw [plains_eq xs]; rfl

theorem mem_plains {l : List CSel} {x : Sel} (h : x ∈ plains l) : ∃ y ∈ l, y.plain = x := by
  rw [plains_eq] at h
  exact List.mem_map.1 h

/-- the dictionary of plain fragments -/
def plainDefs (defs : Dict CFrag) : Dict FragDef := defs.map fun p => (p.1, p.2.plain)

theorem plainDefs_get? (defs : Dict CFrag) (f : String) : (plainDefs defs).get? f = (defs.get? f).map CFrag.plain := by
  induction defs with
  | nil => rfl
  | cons p defs ih =>
    show (if p.1 = f then some p.2.plain else (plainDefs defs).get? f) =
      (if p.1 = f then some p.2 else Dict.get? defs f).map CFrag.plain
    rw [ih]
    split <;> rfl

section
variable {s : Schema} {defs : Dict CFrag} {leaf : String → Val → Prop} {vars : String → Bool}

theorem picks_plain {o : String} {sels : List Sel} {key name : String} {sub : List Sel}
    (h : Picks s (plainDefs defs) o sels key name sub) : ∀ {csels : List CSel}, sels = plains csels →
    ∃ conds csub, sub = plains csub ∧ CPicks s defs o csels key name conds csub := by
  induction h with
  | field hm =>
    rintro csels rfl
    obtain ⟨y, hy, he⟩ := mem_plains hm
    cases y with
    | field n a args conds sub =>
      unfold CSel.plain at he
      cases he
      exact ⟨conds, sub, rfl, .field hy⟩
    | spread => unfold CSel.plain at he; cases he
    | inline => unfold CSel.plain at he; cases he
  | spread hm hd hp _ ih =>
    rintro csels rfl
    obtain ⟨y, hy, he⟩ := mem_plains hm
    rw [plainDefs_get?, Option.map_eq_some_iff] at hd
    obtain ⟨d, hd, rfl⟩ := hd
    obtain ⟨conds, csub, h1, h2⟩ := ih (csels := d.sels) rfl
    cases y with
    | field => unfold CSel.plain at he; cases he
    | spread n cs =>
      unfold CSel.plain at he
      cases he
      exact ⟨cs ++ conds, csub, h1, .spread hy hd hp h2⟩
    | inline => unfold CSel.plain at he; cases he
  | inline hm hp _ ih =>
    rintro csels rfl
    obtain ⟨y, hy, he⟩ := mem_plains hm
    cases y with
    | field => unfold CSel.plain at he; cases he
    | spread => unfold CSel.plain at he; cases he
    | inline t cs inner =>
      unfold CSel.plain at he
      cases he
      obtain ⟨conds, csub, h1, h2⟩ := ih (csels := inner) rfl
      exact ⟨cs ++ conds, csub, h1, .inline hy hp h2⟩
  | inlineAny hm _ ih =>
    rintro csels rfl
    obtain ⟨y, hy, he⟩ := mem_plains hm
    cases y with
    | field => unfold CSel.plain at he; cases he
    | spread => unfold CSel.plain at he; cases he
    | inline t cs inner =>
      unfold CSel.plain at he
      cases he
      obtain ⟨conds, csub, h1, h2⟩ := ih (csels := inner) rfl
      exact ⟨cs ++ conds, csub, h1, .inlineAny hy h2⟩

theorem hold_or {conds : List Condition} : Hold vars conds ∨ (¬ Hold vars conds ∧ conds ≠ []) := by
  by_cases h : Hold vars conds
  · exact .inl h
  · refine .inr ⟨h, ?_⟩
    rintro rfl
    exact h fun c hc => by cases hc

theorem hold_nil : Hold vars [] := fun c hc => by cases hc

/-- what is sent for an object, if what is sent for its fields is sparse -/
theorem sparseResult {n o : String} {sels : List CSel} {kvs : List (String × Val)} (hp : Possible s n o)
    (htol : ∀ o key name conds sub, Possible s n o → CPicks s defs o sels key name conds sub → conds ≠ [] →
      Droppable s defs o sels key name sub)
    (hk : ∀ key, Val.entry kvs key ≠ none ↔ ∃ name conds sub, CPicks s defs o sels key name conds sub ∧ Hold vars conds)
    (hv : ∀ key name conds sub t x, CPicks s defs o sels key name conds sub → Hold vars conds → FieldType s o name t →
      Val.entry kvs key = some x → SparseConforms s (plainDefs defs) leaf t (plains sub) x)
    (ht : ∀ key conds sub, CPicks s defs o sels key "__typename" conds sub → Hold vars conds →
      Val.entry kvs key = some (.atom o))
    (hr : ∀ x, Val.entry kvs "__typename" = some x → x = .atom o) :
    SparseResult s (plainDefs defs) leaf o (plains sels) kvs := by
  refine ⟨fun key name sub p => ?_, fun key name sub t x p hf hx => ?_, fun key sub p => ?_, hr⟩
  · obtain ⟨conds, csub, rfl, q⟩ := picks_plain p rfl
    rcases hold_or (vars := vars) (conds := conds) with h | ⟨_, hne⟩
    · exact .inr ((hk key).2 ⟨name, conds, csub, q, h⟩)
    · rcases (htol o key name conds csub hp q hne).nullable with ⟨_, h⟩ | ⟨sub', h⟩
      · exact .inl h
      · exact .inr ((hk key).2 ⟨name, [], sub', h, hold_nil⟩)
  · obtain ⟨conds, csub, rfl, q⟩ := picks_plain p rfl
    rcases hold_or (vars := vars) (conds := conds) with h | ⟨_, hne⟩
    · exact hv key name conds csub t x q h hf hx
    · obtain ⟨name', conds', sub', q', h'⟩ := (hk key).1 (by rw [hx]; simp)
      obtain ⟨rfl, rfl⟩ := (htol o key name conds csub hp q hne).alone _ _ _ q'
      exact hv key _ conds' _ t x q' h' hf hx
  · obtain ⟨conds, csub, rfl, q⟩ := picks_plain p rfl
    rcases hold_or (vars := vars) (conds := conds) with h | ⟨_, hne⟩
    · exact ht key conds csub q h
    · rcases (htol o key _ conds csub hp q hne).nullable with ⟨h, _⟩ | ⟨sub', h⟩
      · exact (h rfl).elim
      · exact ht key [] sub' h hold_nil

theorem sends_sparse {t : TypeNode} {sels : List CSel} {v : Val} (h : Sends s defs leaf vars t sels v) :
    Tolerable s defs t.base sels → SparseConforms s (plainDefs defs) leaf t (plains sels) v := by
  induction h with
  | null h => exact fun _ => .null h
  | nonNull h _ ih => exact fun ht => .nonNull h (ih ht)
  | list _ ih => exact fun ht => .list fun x hx => ih x hx ht
  | leaf h1 h2 => exact fun _ => .leaf h1 h2
  | object hp hk _ h4 h5 ih =>
    intro ht
    cases ht with
    | intro t1 t2 =>
      have := sparseResult hp t1 hk
        (fun key name conds sub t x q h hf hx => ih key name conds sub t x q h hf hx (t2 _ _ _ _ _ _ hp q hf)) h4 h5
      exact .object hp this.present this.conforms this.typename this.reserved

theorem sendsObject_sparse {o : String} {sels : List CSel} {kvs : List (String × Val)} (ho : IsObject s o)
    (ht : Tolerable s defs o sels) (h : SendsObject s defs leaf vars o sels kvs) :
    SparseResult s (plainDefs defs) leaf o (plains sels) kvs := by
  cases ht with
  | intro t1 t2 =>
    exact sparseResult (.object ho) t1 h.keys (fun key name conds sub t x q hh hf hx =>
      sends_sparse (h.values key name conds sub t x q hh hf hx) (t2 _ _ _ _ _ _ (.object ho) q hf)) h.typename h.reserved

theorem definitions_plain (doc : List CDefn) : definitions (doc.map CDefn.plain) = plainDefs (fragments doc) := by
  unfold definitions fragments plainDefs
  rw [List.map_reverse, List.map_reverse]
  congr 1
  induction doc with
  | nil => rfl
  | cons d doc ih =>
    cases d with
    | operation o => simpa [fragmentsOf, CDefn.plain] using ih
    | fragment f => simpa [fragmentsOf, CDefn.plain, CFrag.plain] using ih

end
end Conditional
end Turms
