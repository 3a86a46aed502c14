import Verif.Lemmas.SyntaxParse
import Verif.Model.Reparse

/-!
# Reading a printed document gives it back
-/

namespace Turms.Syntax
open Turms.Spec Turms.Spec.Lex Turms.Spec.Syntax Turms.Documents

theorem next_of_ne {c d : Char} (h : d ≠ c) (r : List Token) : next c (.punct d :: r) = false := by
  rw [next_punct]
  cases hb : (d == c) with
  | false => rfl
  | true => rw [beq_iff_eq] at hb; exact absurd hb h

theorem bang_no (t : TypeNode) {r : List Token} (h : next '!' r = false) : bang t r = (t, r) := by
  unfold bang; rw [h]; rfl

theorem bang_yes (t : TypeNode) (r : List Token) : bang t (.punct '!' :: r) = (.nonNull t, r) := by
  unfold bang; rw [next_punct]; rfl

/-- the type is marked already -/
def marked : TypeNode → Bool
  | .nonNull _ => true
  | _ => false

/-- a type, and the exclamation mark after it unless it has one already -/
def closeType (t : TypeNode) (r : List Token) : TypeNode × List Token :=
  if marked t then (t, r) else bang t r

theorem closeType_no (t : TypeNode) {r : List Token} (h : next '!' r = false) : closeType t r = (t, r) := by
  unfold closeType
  split
  · rfl
  · exact bang_no t h

theorem tokType_pos (t : TypeNode) : 1 ≤ (tokType t).length := by
  induction t with
  | named n => simp [tokType]
  | list t ih => simp [tokType]
  | nonNull t ih => simp [tokType]

theorem type_close : ∀ (t : TypeNode), goodType t = true → ∀ (n : Nat) (r : List Token), (tokType t).length ≤ n →
    type n (tokType t ++ r) = some (closeType t r)
  | t, _, 0, r, hn => absurd hn (by have := tokType_pos t; omega)
  | .named s, _, n + 1, r, _ => by
    rw [tokType, List.cons_append, List.nil_append, type, ofList_toList]
    rfl
  | .list t, h, n + 1, r, hn => by
    rw [goodType] at h
    rw [tokType] at hn ⊢
    simp only [List.length_cons, List.length_append, List.length_nil] at hn
    rw [List.cons_append, List.append_assoc, type, type_close t h n _ (by omega),
      closeType_no t (by exact next_of_ne (by decide) _)]
    simp only [List.cons_append, List.nil_append]
    rw [next_punct]
    rfl
  | .nonNull t, h, n + 1, r, hn => by
    rw [tokType] at hn ⊢
    simp only [List.length_append, List.length_cons, List.length_nil] at hn
    have ht : goodType t = true ∧ marked t = false := by
      cases t with
      | nonNull t => rw [goodType] at h; cases h
      | named s => exact ⟨h, rfl⟩
      | list t => exact ⟨h, rfl⟩
    rw [List.append_assoc, type_close t ht.1 (n + 1) _ (by omega)]
    unfold closeType
    rw [ht.2]
    simp only [List.cons_append, List.nil_append, Bool.false_eq_true, if_false]
    rw [bang_yes]
    rfl

theorem type_tok (t : TypeNode) (h : goodType t = true) (n : Nat) (r : List Token) (hn : (tokType t).length ≤ n)
    (hr : next '!' r = false) : type n (tokType t ++ r) = some (t, r) := by
  rw [type_close t h n r hn, closeType_no t hr]

/-- what follows a variable definition -/
theorem next_vars (c : Char) (hc : c ≠ '$') (hc' : c ≠ ')') (l : List VarDef) (r : List Token) :
    next c ((l.map tokVar).flatten ++ .punct ')' :: r) = false := by
  cases l with
  | nil => exact next_of_ne (fun h => hc' h.symm) _
  | cons v l =>
    rw [List.map_cons, List.flatten_cons]
    unfold tokVar
    rw [List.append_assoc, List.cons_append]
    exact next_of_ne (fun h => hc h.symm) _

/-- the tokens of a default value -/
def tokDefault : Option Value → List Token
  | none => []
  | some d => .punct '=' :: tokValue d

theorem tokVar_eq (v : VarDef) :
    tokVar v = .punct '$' :: .name v.name.toList :: .punct ':' :: (tokType v.type ++ tokDefault v.default) := by
  unfold tokVar tokDefault
  cases v.default <;> rfl

theorem default_tok (d : Option Value) (h : (match d with | none => true | some d => goodValue d) = true) (n : Nat)
    (r : List Token) (hn : (tokDefault d).length ≤ n) (hr : next '=' r = false) :
    defaultValue n (tokDefault d ++ r) = some (d, r) := by
  cases d with
  | none =>
    show defaultValue n r = _
    unfold defaultValue
    rw [hr]
    rfl
  | some d =>
    unfold tokDefault at hn ⊢
    simp only [List.length_cons] at hn
    unfold defaultValue
    rw [List.cons_append, next_punct]
    simp only [beq_self_eq_true, if_true, List.tail_cons]
    rw [value_tok d h n r (by omega)]
    rfl

theorem variables_tok : ∀ (l : List VarDef), l.all goodVar = true → ∀ (n : Nat) (r : List Token),
    (l.map tokVar).flatten.length + 1 ≤ n →
    variables n ((l.map tokVar).flatten ++ .punct ')' :: r) = some (l, r)
  | _, _, 0, _, hn => absurd hn (by omega)
  | [], _, n + 1, r, _ => by
    rw [List.map_nil, List.flatten_nil, List.nil_append, variables, next_punct]
    rfl
  | v :: l, h, n + 1, r, hn => by
    simp only [List.all_cons, Bool.and_eq_true] at h
    have hv := h.1
    unfold goodVar at hv
    simp only [Bool.and_eq_true] at hv
    rw [List.map_cons, List.flatten_cons, tokVar_eq] at hn ⊢
    simp only [List.length_append, List.length_cons] at hn
    simp only [List.cons_append, List.append_assoc]
    rw [variables, next_of_ne (by decide), next_punct]
    simp only [Bool.false_eq_true, if_false, beq_self_eq_true, if_true, List.tail_cons, takeKey]
    rw [type_tok v.type hv.1.2 n _ (by omega) (by
      cases hd : v.default with
      | none => exact next_vars '!' (by decide) (by decide) l r
      | some d => exact next_of_ne (by decide) _)]
    simp only
    rw [default_tok v.default hv.2 n _ (by omega) (next_vars '=' (by decide) (by decide) l r)]
    simp only
    rw [variables_tok l h.2 n r (by omega), ofList_toList]
    rfl

theorem variableDefinitions_tok (l : List VarDef) (h : l.all goodVar = true) (n : Nat) (r : List Token)
    (hn : (if l.isEmpty then ([] : List Token) else .punct '(' :: ((l.map tokVar).flatten ++ [.punct ')'])).length ≤ n)
    (hr : next '(' r = false) :
    variableDefinitions n ((if l.isEmpty then [] else .punct '(' :: ((l.map tokVar).flatten ++ [.punct ')'])) ++ r) =
      some (l, r) := by
  unfold variableDefinitions
  cases l with
  | nil => simp [hr]
  | cons v l =>
    simp only [List.isEmpty_cons, Bool.false_eq_true, if_false, List.length_cons, List.length_append,
      List.length_nil] at hn ⊢
    rw [List.cons_append, next_punct, List.append_assoc]
    simp only [beq_self_eq_true, if_true, List.tail_cons, List.cons_append, List.nil_append]
    rw [variables_tok (v :: l) h n r (by omega)]

theorem next_set (l : List Sel) (r : List Token) : next '(' (tokSet l ++ r) = false := by
  unfold tokSet
  rw [List.cons_append]
  exact next_of_ne (by decide) _

theorem ne_nil_of {α : Type} {l : List α} (h : l.isEmpty = false) : l ≠ [] := by
  intro he; rw [he] at h; cases h

theorem operation_tok (name : String) (o : OpDef) (h : goodOp name o = true) (n : Nat) (r : List Token)
    (hn : 2 * (tokOperation name o).length ≤ n) :
    definition n (tokOperation name o ++ r) = some (.operation { o with name := some name }, r) := by
  unfold goodOp at h
  simp only [Bool.and_eq_true, Bool.not_eq_true'] at h
  obtain ⟨⟨⟨_, hv⟩, hne⟩, hs⟩ := h
  unfold tokOperation at hn ⊢
  simp only [List.length_cons, List.length_append] at hn
  have hl := tokSet_length o.sels
  have key : operation n o.kind (.name name.toList ::
      (((if o.vars.isEmpty then [] else .punct '(' :: ((o.vars.map tokVar).flatten ++ [.punct ')'])) ++ tokSet o.sels)
        ++ r)) = some (.operation { o with name := some name }, r) := by
    rw [operation]
    unfold operationRest
    rw [List.append_assoc, variableDefinitions_tok o.vars hv n _ (by omega) (next_set _ _)]
    simp only
    rw [selectionSet_tok o.sels hs n r (by omega) (ne_nil_of hne), ofList_toList]
    rfl
  rw [List.cons_append, List.cons_append]
  unfold definition
  simp only
  cases hk : o.kind with
  | query =>
    rw [hk] at key
    rw [if_pos (by rfl)]
    exact key
  | mutation =>
    rw [hk] at key
    rw [if_neg (by decide), if_pos (by rfl)]
    exact key
  | subscription =>
    rw [hk] at key
    rw [if_neg (by decide), if_neg (by decide), if_pos (by rfl)]
    exact key

theorem fragment_tok (f : FragDef) (h : goodFrag f = true) (n : Nat) (r : List Token)
    (hn : 2 * (tokFragment f).length ≤ n) :
    definition n (tokFragment f ++ r) = some (.fragment f, r) := by
  unfold goodFrag at h
  simp only [Bool.and_eq_true, Bool.not_eq_true', bne_iff_ne, ne_eq] at h
  obtain ⟨⟨⟨⟨_, hon⟩, _⟩, hne⟩, hs⟩ := h
  unfold tokFragment at hn ⊢
  simp only [List.length_cons] at hn
  have hl := tokSet_length f.sels
  simp only [List.cons_append]
  unfold definition
  simp only
  rw [if_neg (by decide), if_neg (by decide), if_neg (by decide), if_pos (by simp), fragment,
    if_pos ⟨fun he => hon (toList_eq he), rfl⟩, selectionSet_tok f.sels hs n r (by omega) (ne_nil_of hne),
    ofList_toList, ofList_toList]
  rfl

def tokDefn : Defn → List Token
  | .operation o => tokOperation (o.name.getD "") o
  | .fragment f => tokFragment f

theorem closed_defn (d : Defn) (h : goodDefn d = true) : Closed (printDefn d) (tokDefn d) := by
  cases d with
  | operation o =>
    unfold goodDefn at h
    simp only [Bool.and_eq_true] at h
    exact closed_operation _ _ h.2
  | fragment f => exact closed_fragment f h

theorem defn_tok (d : Defn) (h : goodDefn d = true) (n : Nat) (r : List Token) (hn : 2 * (tokDefn d).length ≤ n) :
    definition n (tokDefn d ++ r) = some (d, r) := by
  cases d with
  | operation o =>
    unfold goodDefn at h
    simp only [Bool.and_eq_true] at h
    have := operation_tok (o.name.getD "") o h.2 n r hn
    obtain ⟨name, hname⟩ := Option.isSome_iff_exists.1 h.1
    have ho : { o with name := some (o.name.getD "") } = o := by
      rw [hname]
      cases o
      simp only at hname
      subst hname
      rfl
    rw [ho] at this
    exact this
  | fragment f => exact fragment_tok f h n r hn

theorem tokDefn_cons (d : Defn) : ∃ t r, tokDefn d = t :: r := by
  cases d with
  | operation o => exact ⟨_, _, rfl⟩
  | fragment f => exact ⟨_, _, rfl⟩

theorem definitions_tok : ∀ (l : List Defn), (∀ d ∈ l, goodDefn d = true) → ∀ n : Nat,
    2 * ((l.map tokDefn).flatten).length + 1 ≤ n → definitions n (l.map tokDefn).flatten = some l
  | [], _, n, _ => by
    rw [List.map_nil, List.flatten_nil]
    cases n <;> rw [definitions]
  | d :: l, h, 0, hn => absurd hn (by omega)
  | d :: l, h, n + 1, hn => by
    rw [List.map_cons, List.flatten_cons] at hn ⊢
    rw [List.length_append] at hn
    obtain ⟨t, q, ht⟩ := tokDefn_cons d
    have hpos : 1 ≤ (tokDefn d).length := by rw [ht]; simp
    rw [definitions]
    · rw [defn_tok d (h d (by simp)) n _ (by omega)]
      simp only
      rw [definitions_tok l (fun x hx => h x (by simp [hx])) n (by omega)]
      rfl
    · intro he
      rw [ht] at he
      cases he

theorem closed_blankLine : Closed ['\n', '\n'] [] := closed_newline.append closed_newline

theorem closed_join {sep : List Char} (hsep : Closed sep []) : ∀ (l : List Defn), (∀ d ∈ l, goodDefn d = true) →
    Closed (joinS sep (l.map printDefn)) (l.map tokDefn).flatten
  | [], _ => closed_nil
  | [d], h => by
    rw [List.map_cons, List.map_nil, joinS, List.map_cons, List.map_nil, List.flatten_cons, List.flatten_nil,
      List.append_nil]
    exact closed_defn d (h d (by simp))
  | d :: e :: l, h => by
    have ih := closed_join hsep (e :: l) (fun x hx => h x (by simp [hx]))
    rw [List.map_cons, List.map_cons, joinS, List.map_cons, List.flatten_cons]
    have := hsep.append ih
    rw [List.nil_append] at this
    exact (closed_defn d (h d (by simp))).append this

/-- printed definitions, separated by blank lines, are read as these definitions -/
theorem read_printed (l : List Defn) (hne : l ≠ []) (h : ∀ d ∈ l, goodDefn d = true) :
    read (['\n', '\n'].intercalate (l.map printDefn)) = some l := by
  have hl := (closed_join closed_blankLine l h).lex
  rw [joinS_eq_intercalate] at hl
  unfold Spec.Syntax.read
  rw [hl]
  simp only [Option.bind_some]
  rw [definitions_tok l h _ (by omega)]
  cases l with
  | nil => exact absurd rfl hne
  | cons d l => rfl

end Turms.Syntax
