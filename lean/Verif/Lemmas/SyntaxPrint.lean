import Verif.Lemmas.SyntaxLex

/-!
# The tokens a syntax tree is printed as
-/

namespace Turms.Syntax
open Turms.Spec Turms.Spec.Lex Turms.Spec.Syntax Turms.Documents

mutual
def tokValue : Value → List Token
  | .variable n => [.punct '$', .name n.toList]
  | .int t => [.number t.toList]
  | .float t => [.number t.toList]
  | .string t => [.str t.toList]
  | .bool b => [.name (if b then "true".toList else "false".toList)]
  | .null => [.name "null".toList]
  | .enum n => [.name n.toList]
  | .list l => .punct '[' :: ((tokValues l).flatten ++ [.punct ']'])
  | .object l => .punct '{' :: ((tokFields l).flatten ++ [.punct '}'])
def tokValues : List Value → List (List Token)
  | [] => []
  | v :: l => tokValue v :: tokValues l
def tokFields : List (String × Value) → List (List Token)
  | [] => []
  | (n, v) :: l => (.name n.toList :: .punct ':' :: tokValue v) :: tokFields l
end

def tokArgs (args : List (String × Value)) : List Token :=
  if args.isEmpty then [] else .punct '(' :: ((tokFields args).flatten ++ [.punct ')'])

def tokHead (name : String) : Option String → List Token
  | none => [.name name.toList]
  | some a => [.name a.toList, .punct ':', .name name.toList]

def tokCondition : Option String → List Token
  | none => []
  | some n => [.name "on".toList, .name n.toList]

mutual
def tokSel : Sel → List Token
  | .field n a args sub => tokHead n a ++ (tokArgs args ++
      (if sub.isEmpty then [] else .punct '{' :: ((tokSels sub).flatten ++ [.punct '}'])))
  | .spread n => [.spread, .name n.toList]
  | .inline t sub => .spread :: (tokCondition t ++ (.punct '{' :: ((tokSels sub).flatten ++ [.punct '}'])))
def tokSels : List Sel → List (List Token)
  | [] => []
  | s :: l => tokSel s :: tokSels l
end

def tokSet (sels : List Sel) : List Token := .punct '{' :: ((tokSels sels).flatten ++ [.punct '}'])

def tokFragment (f : FragDef) : List Token :=
  .name "fragment".toList :: .name f.name.toList :: .name "on".toList :: .name f.typeCondition.toList :: tokSet f.sels

def tokType : TypeNode → List Token
  | .named n => [.name n.toList]
  | .list t => .punct '[' :: (tokType t ++ [.punct ']'])
  | .nonNull t => tokType t ++ [.punct '!']

def tokVar (v : VarDef) : List Token :=
  .punct '$' :: .name v.name.toList :: .punct ':' :: (tokType v.type ++
    (match v.default with
     | none => []
     | some d => .punct '=' :: tokValue d))

def tokKind : OpKind → List Char
  | .query => "query".toList
  | .mutation => "mutation".toList
  | .subscription => "subscription".toList

def tokOperation (name : String) (o : OpDef) : List Token :=
  .name (tokKind o.kind) :: .name name.toList ::
    ((if o.vars.isEmpty then [] else .punct '(' :: ((o.vars.map tokVar).flatten ++ [.punct ')'])) ++ tokSet o.sels)

inductive OpenEach : List (List Char) → List (List Token) → Prop
  | nil : OpenEach [] []
  | cons {a : List Char} {ts : List Token} {l : List (List Char)} {tss : List (List Token)} :
      Open a ts → OpenEach l tss → OpenEach (a :: l) (ts :: tss)

theorem open_join {sep : List Char} (hsep : Closed sep []) (hs : SafeHead sep) {l : List (List Char)}
    {tss : List (List Token)} (h : OpenEach l tss) : Open (joinS sep l) tss.flatten := by
  induction h with
  | nil => exact open_nil
  | cons ha hl ih =>
    rename_i a ts l tss
    cases hl with
    | nil => simpa [joinS] using ha
    | cons hb hl' =>
      rw [joinS, List.flatten_cons]
      refine ha.append ?_ (hs.append _)
      simpa using hsep.opens ih

theorem punct_of (c : Char) (h : step .between c = some ([.punct c], .between) := by rfl) (hc : c ≠ '\n' := by decide) :
    Closed [c] [.punct c] := closed_punct h hc

theorem safeHead_of (c : Char) (r : List Char) (h : safe c = true := by decide) : SafeHead (c :: r) := ⟨c, r, rfl, h⟩

/-- an opening punctuator in front -/
theorem cons_open (c : Char) {a : List Char} {ts : List Token} (ha : Open a ts)
    (h : step .between c = some ([.punct c], .between) := by rfl) (hc : c ≠ '\n' := by decide) :
    Open (c :: a) (.punct c :: ts) := (closed_punct h hc).opens ha

theorem cons_closed (c : Char) {a : List Char} {ts : List Token} (ha : Closed a ts)
    (h : step .between c = some ([.punct c], .between) := by rfl) (hc : c ≠ '\n' := by decide) :
    Closed (c :: a) (.punct c :: ts) := (closed_punct h hc).append ha

theorem cons_space {a : List Char} {ts : List Token} (ha : Open a ts) : Open (' ' :: a) ts := closed_space.opens ha

theorem cons_space_closed {a : List Char} {ts : List Token} (ha : Closed a ts) : Closed (' ' :: a) ts :=
  closed_space.append ha

theorem cons_newline_closed {a : List Char} {ts : List Token} (ha : Closed a ts) : Closed ('\n' :: a) ts :=
  closed_newline.append ha

/-- a list between brackets on one line -/
theorem closed_line (l r : Char) {items : List (List Char)} {tss : List (List Token)} (h : OpenEach items tss)
    (hl : step .between l = some ([.punct l], .between) := by rfl) (hl' : l ≠ '\n' := by decide)
    (hr : step .between r = some ([.punct r], .between) := by rfl) (hr' : r ≠ '\n' := by decide)
    (hrs : safe r = true := by decide) :
    Closed (l :: (joinS [',', ' '] items ++ [r])) (.punct l :: (tss.flatten ++ [.punct r])) :=
  (closed_punct hl hl').append
    ((open_join closed_comma (safeHead_of ',' _) h).closes (closed_punct hr hr') (safeHead_of r _ hrs))

/-- a list between brackets, one item a line -/
theorem closed_lines (l r : Char) {items : List (List Char)} {tss : List (List Token)} (h : OpenEach items tss)
    (hl : step .between l = some ([.punct l], .between) := by rfl) (hl' : l ≠ '\n' := by decide)
    (hr : step .between r = some ([.punct r], .between) := by rfl) (hr' : r ≠ '\n' := by decide) :
    Closed (l :: '\n' :: ' ' :: ' ' :: (indentLines (joinS ['\n'] items) ++ ['\n', r]))
      (.punct l :: (tss.flatten ++ [.punct r])) :=
  (closed_punct hl hl').append (cons_newline_closed (cons_space_closed (cons_space_closed
    ((open_join closed_newline (safeHead_of '\n' _) h).indent.closes
      (cons_newline_closed (closed_punct hr hr')) (safeHead_of '\n' _)))))

theorem closed_block {items : List (List Char)} {tss : List (List Token)} (h : OpenEach items tss) :
    Closed (block items) (.punct '{' :: (tss.flatten ++ [.punct '}'])) := closed_lines '{' '}' h

theorem open_word (s : String) (h : isName s = true := by decide) : Open s.toList [.name s.toList] := open_name h

mutual
theorem open_value : ∀ v : Value, goodValue v = true → Open (printValue v) (tokValue v)
  | .variable n, h => by
    rw [goodValue] at h; rw [printValue, tokValue]
    exact cons_open '$' (open_name h)
  | .int t, h => by rw [goodValue] at h; rw [printValue, tokValue]; exact open_number h
  | .float t, h => by rw [goodValue] at h; rw [printValue, tokValue]; exact open_number h
  | .string t, h => by rw [goodValue] at h; rw [printValue, tokValue]; exact open_str h
  | .bool b, _ => by
    rw [printValue, tokValue]
    cases b
    · exact open_word "false"
    · exact open_word "true"
  | .null, _ => by rw [printValue, tokValue]; exact open_word "null"
  | .enum n, h => by
    rw [goodValue] at h; rw [printValue, tokValue]
    simp only [Bool.and_eq_true] at h
    exact open_name h.1.1.1
  | .list l, h => by
    rw [goodValue] at h; rw [printValue, tokValue]
    exact (closed_line '[' ']' (open_values l h)).isOpen
  | .object l, h => by
    rw [goodValue] at h; rw [printValue, tokValue]
    exact (closed_line '{' '}' (open_fields l h)).isOpen
theorem open_values : ∀ l : List Value, goodValues l = true → OpenEach (printValues l) (tokValues l)
  | [], _ => by rw [printValues, tokValues]; exact .nil
  | v :: l, h => by
    rw [goodValues] at h
    simp only [Bool.and_eq_true] at h
    rw [printValues, tokValues]
    exact .cons (open_value v h.1) (open_values l h.2)
theorem open_fields : ∀ l : List (String × Value), goodFields l = true → OpenEach (printFields l) (tokFields l)
  | [], _ => by rw [printFields, tokFields]; exact .nil
  | (n, v) :: l, h => by
    rw [goodFields] at h
    simp only [Bool.and_eq_true] at h
    rw [printFields, tokFields]
    exact .cons ((open_name h.1.1).append (cons_open ':' (cons_space (open_value v h.1.2))) (safeHead_of ':' _))
      (open_fields l h.2)
end

theorem printArgs_cases (before : List Char) (args : List (String × Value)) (h : goodFields args = true) :
    (args.isEmpty = true ∧ printArgs before args = [] ∧ tokArgs args = []) ∨
    (Closed (printArgs before args) (tokArgs args) ∧ SafeHead (printArgs before args)) := by
  unfold printArgs tokArgs
  cases he : args.isEmpty with
  | true => exact .inl ⟨rfl, rfl, rfl⟩
  | false =>
    refine .inr ?_
    simp only [Bool.false_eq_true, if_false]
    split
    · exact ⟨closed_lines '(' ')' (open_fields args h), safeHead_of '(' _⟩
    · exact ⟨closed_line '(' ')' (open_fields args h), safeHead_of '(' _⟩

theorem open_head (n : String) (a : Option String) (hn : isName n = true)
    (ha : isNameIfAny a = true) : Open (printHead n a) (tokHead n a) := by
  cases a with
  | none => exact open_name hn
  | some a => exact (open_name ha).append (cons_open ':' (cons_space (open_name hn))) (safeHead_of ':' _)

mutual
theorem open_sel : ∀ s : Sel, goodSel s = true → Open (printSel s) (tokSel s)
  | .field n a args sub, h => by
    rw [goodSel] at h
    simp only [Bool.and_eq_true] at h
    obtain ⟨⟨⟨hn, ha⟩, hargs⟩, hsub⟩ := h
    rw [printSel, tokSel]
    have hh := open_head n a hn ha
    have hs : sub.isEmpty = true ∨ (sub.isEmpty = false ∧ Closed (' ' :: block (printSels sub))
        (.punct '{' :: ((tokSels sub).flatten ++ [.punct '}']))) := by
      cases he : sub.isEmpty with
      | true => exact .inl rfl
      | false => exact .inr ⟨rfl, cons_space_closed (closed_block (open_sels sub hsub))⟩
    rcases printArgs_cases (printHead n a) args hargs with ⟨_, h1, h2⟩ | ⟨h1, h2⟩
    · rw [h1, h2]
      rcases hs with hs | ⟨hs, hc⟩
      · rw [hs]; simpa using hh
      · rw [hs]; exact (hh.append hc.isOpen (safeHead_of ' ' _))
    · rcases hs with hs | ⟨hs, hc⟩
      · rw [hs]; simpa using hh.append h1.isOpen h2
      · rw [hs]; exact hh.append (h1.append hc).isOpen (h2.append _)
  | .spread n, h => by
    rw [goodSel] at h
    simp only [Bool.and_eq_true] at h
    rw [printSel, tokSel]
    exact closed_spread.opens (open_name h.1)
  | .inline t sub, h => by
    rw [goodSel] at h
    simp only [Bool.and_eq_true] at h
    rw [printSel, tokSel]
    have hb := closed_block (open_sels sub h.2)
    refine (closed_spread.append (cons_space_closed ?_)).isOpen
    cases t with
    | none => exact hb
    | some t =>
      have h1 : Closed ("on".toList ++ (' ' :: (t.toList ++ (' ' :: block (printSels sub)))))
          ([.name "on".toList] ++ ([.name t.toList] ++ (.punct '{' :: ((tokSels sub).flatten ++ [.punct '}'])))) :=
        (open_word "on").closes (cons_space_closed ((open_name h.1.1).closes (cons_space_closed hb) (safeHead_of ' ' _)))
          (safeHead_of ' ' _)
      have e : printCondition (some t) ++ block (printSels sub) =
          "on".toList ++ (' ' :: (t.toList ++ (' ' :: block (printSels sub)))) := by simp [printCondition]
      rw [e]
      exact h1
theorem open_sels : ∀ l : List Sel, goodSels l = true → OpenEach (printSels l) (tokSels l)
  | [], _ => by rw [printSels, tokSels]; exact .nil
  | s :: l, h => by
    rw [goodSels] at h
    simp only [Bool.and_eq_true] at h
    rw [printSels, tokSels]
    exact .cons (open_sel s h.1) (open_sels l h.2)
end

theorem closed_set (sels : List Sel) (h : goodSels sels = true) : Closed (block (printSels sels)) (tokSet sels) :=
  closed_block (open_sels sels h)

theorem closed_fragment (f : FragDef) (h : goodFrag f = true) : Closed (printFragment f) (tokFragment f) := by
  unfold goodFrag at h
  simp only [Bool.and_eq_true] at h
  obtain ⟨⟨⟨⟨h1, _⟩, h2⟩, _⟩, h3⟩ := h
  have key : Closed ("fragment".toList ++ (' ' :: (f.name.toList ++ (' ' :: ("on".toList ++ (' ' ::
      (f.typeCondition.toList ++ (' ' :: block (printSels f.sels)))))))))
      ([.name "fragment".toList] ++ ([.name f.name.toList] ++ ([.name "on".toList] ++
        ([.name f.typeCondition.toList] ++ tokSet f.sels)))) :=
    (open_word "fragment").closes (cons_space_closed ((open_name h1).closes (cons_space_closed
      ((open_word "on").closes (cons_space_closed ((open_name h2).closes (cons_space_closed (closed_set _ h3))
        (safeHead_of ' ' _))) (safeHead_of ' ' _))) (safeHead_of ' ' _))) (safeHead_of ' ' _)
  have e : printFragment f = "fragment".toList ++ (' ' :: (f.name.toList ++ (' ' :: ("on".toList ++ (' ' ::
      (f.typeCondition.toList ++ (' ' :: block (printSels f.sels)))))))) := by
    unfold printFragment
    rw [show "fragment ".toList = "fragment".toList ++ [' '] by decide, show " on ".toList = ' ' :: ("on".toList ++ [' ']) by decide]
    simp only [List.append_assoc, List.cons_append, List.nil_append]
  rw [e]
  exact key

theorem open_type : ∀ t : TypeNode, goodType t = true → Open (printType t) (tokType t)
  | .named n, h => by rw [goodType] at h; exact open_name h
  | .list t, h => by
    rw [goodType] at h
    rw [printType, tokType]
    exact cons_open '[' ((open_type t h).append (punct_of ']').isOpen (safeHead_of ']' _))
  | .nonNull t, h => by
    have ht : goodType t = true := by
      cases t with
      | nonNull t => rw [goodType] at h; cases h
      | named n => exact h
      | list t => exact h
    rw [printType, tokType]
    exact (open_type t ht).append (punct_of '!').isOpen (safeHead_of '!' _)

theorem open_var (v : VarDef) (h : goodVar v = true) : Open (printVar v) (tokVar v) := by
  unfold goodVar at h
  simp only [Bool.and_eq_true] at h
  obtain ⟨⟨h1, h2⟩, h3⟩ := h
  unfold printVar tokVar
  refine cons_open '$' ((open_name h1).append (cons_open ':' (cons_space ?_)) (safeHead_of ':' _))
  cases hd : v.default with
  | none => simpa using open_type _ h2
  | some d =>
    rw [hd] at h3
    exact (open_type _ h2).append (cons_space (cons_open '=' (cons_space (open_value d h3)))) (safeHead_of ' ' _)

theorem open_vars (l : List VarDef) (h : l.all goodVar = true) : OpenEach (l.map printVar) (l.map tokVar) := by
  induction l with
  | nil => exact .nil
  | cons v l ih =>
    simp only [List.all_cons, Bool.and_eq_true] at h
    exact .cons (open_var v h.1) (ih h.2)

theorem open_kind (k : OpKind) : Open (printKind k) [.name (tokKind k)] := by
  cases k
  · exact open_word "query"
  · exact open_word "mutation"
  · exact open_word "subscription"

theorem closed_operation (name : String) (o : OpDef) (h : goodOp name o = true) :
    Closed (printOperation name o) (tokOperation name o) := by
  unfold goodOp at h
  simp only [Bool.and_eq_true] at h
  obtain ⟨⟨⟨h1, h2⟩, _⟩, h3⟩ := h
  unfold printOperation tokOperation
  refine (open_kind o.kind).closes (cons_space_closed ?_) (safeHead_of ' ' _)
  have hs := cons_space_closed (closed_set _ h3)
  cases he : o.vars.isEmpty with
  | true => exact (open_name h1).closes hs (safeHead_of ' ' _)
  | false =>
    exact (open_name h1).closes ((closed_line '(' ')' (open_vars _ h2)).append hs)
      ((safeHead_of '(' _).append _)

/-- the tokens of a whole text -/
theorem Closed.lex {text : List Char} {ts : List Token} (h : Closed text ts) : lex text = some ts := by
  have := h 0 []
  rw [ind_zero, List.append_nil] at this
  unfold Lex.lex
  rw [this]
  simp [run, pre, finish]

end Turms.Syntax
