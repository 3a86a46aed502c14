import Verif.Model.Merge
import Verif.Lemmas.Basic

namespace Turms.Merge
variable {α : Type}

theorem get?_collect (key : α → Option String) (ns : List α) (d : Dict α) (k : String) (v : α) :
    (collect key ns d).get? k = some v →
      (key v = some k ∧ v ∈ ns) ∨ d.get? k = some v := by
  induction ns generalizing d with
  | nil => intro h; exact .inr h
  | cons n ns ih =>
    intro h
    unfold collect at h
    split at h
    · rename_i k' hk
      rcases ih _ h with h | h
      · exact .inl ⟨h.1, by simp [h.2]⟩
      · rw [Dict.get?_set] at h
        split at h
        · rename_i e; cases h; rw [e] at hk; exact .inl ⟨hk, by simp⟩
        · exact .inr h
    · rcases ih _ h with h | h
      · exact .inl ⟨h.1, by simp [h.2]⟩
      · exact .inr h

theorem mem_keys_collect (key : α → Option String) (ns : List α) (d : Dict α) (k : String) :
    k ∈ (collect key ns d).keys ↔ (∃ n ∈ ns, key n = some k) ∨ k ∈ d.keys := by
  induction ns generalizing d with
  | nil => simp [collect]
  | cons n ns ih =>
    unfold collect
    split
    · rename_i k' hk
      rw [ih, Dict.mem_keys_set]
      simp [hk]
      grind
    · rename_i hk
      rw [ih]
      simp [hk]

theorem nodup_collect (key : α → Option String) (ns : List α) (d : Dict α) (h : d.keys.Nodup) :
    (collect key ns d).keys.Nodup := by
  induction ns generalizing d with
  | nil => exact h
  | cons n ns ih =>
    unfold collect
    split
    · exact ih _ (Dict.nodup_keys_set _ _ _ h)
    · exact ih _ h

/-- with distinct names the collected dictionary is just the list of named statements -/
theorem collect_of_nodup (key : α → Option String) (ns : List α) (d : Dict α)
    (hn : (ns.filterMap key).Nodup) (hd : ∀ k ∈ ns.filterMap key, k ∉ d.keys) :
    collect key ns d = d ++ ns.filterMap (fun n => (key n).map (fun k => (k, n))) := by
  induction ns generalizing d with
  | nil => simp [collect]
  | cons n ns ih =>
    unfold collect
    split
    · rename_i k hk
      rw [List.filterMap_cons_some hk] at hn hd
      rw [List.nodup_cons] at hn
      rw [Dict.keys_set_of_not_mem _ _ _ (hd k (by simp))]
      rw [ih _ hn.2]
      · rw [List.filterMap_cons_some (by simp [hk]; rfl)]
        simp
      · intro x hx
        simp only [Dict.keys, List.map_append, List.map_cons, List.map_nil, List.mem_append,
          List.mem_singleton]
        rintro (h | h)
        · exact hd x (List.mem_cons_of_mem _ hx) h
        · subst h; exact hn.1 hx
    · rename_i hk
      rw [List.filterMap_cons_none hk] at hn hd
      rw [ih _ hn hd, List.filterMap_cons_none (by simp [hk])]

/-! ### the second loop -/

/-- how one existing statement ends up in `new_body` -/
inductive StepTo (key : α → Option String) (merge : α → α → Except Err α) (symbols : Dict α) (n m : α) : Prop
  | keep (h : ∀ k, key n = some k → symbols.get? k = none) (e : m = n)
  | merged (k : String) (x : α) (hk : key n = some k) (hx : symbols.get? k = some x) (hm : merge x n = .ok m)

/-- is the statement one that the generated file also names? -/
def implKey (key : α → Option String) (symbols : Dict α) (n : α) : Option String :=
  match key n with
  | none => none
  | some k => if symbols.contains k then some k else none

theorem implKey_eq_some (key : α → Option String) (symbols : Dict α) (n : α) (k : String) :
    implKey key symbols n = some k ↔ key n = some k ∧ k ∈ symbols.keys := by
  unfold implKey
  split
  · simp_all
  · rename_i k' hk
    rw [hk, ← Dict.contains_iff]
    by_cases h : symbols.contains k' = true
    · simp [h]; intro e; rw [← e]; exact h
    · simp [h]; intro e; rw [← e]; simpa using h

theorem loop_spec (key : α → Option String) (merge : α → α → Except Err α) (symbols : Dict α)
    (hkey : ∀ x n m k, key n = some k → symbols.get? k = some x → merge x n = .ok m → key m = some k)
    (ns : List α) (s s' : Loop α) (h : loop key merge symbols ns s = .ok s')
    (hs : ∀ k ∈ s.implemented, ∃ (i : Nat) (m : α), s.position.get? k = some i ∧ s.newBody[i]? = some m ∧ key m = some k) :
    (∃ ms : List α, s'.newBody = s.newBody ++ ms ∧ ms.length = ns.length ∧
      ∀ (i : Nat) n m, ns[i]? = some n → ms[i]? = some m → StepTo key merge symbols n m) ∧
    s'.implemented = s.implemented ++ ns.filterMap (implKey key symbols) ∧
    (∀ k ∈ s'.implemented, ∃ (i : Nat) (m : α), s'.position.get? k = some i ∧ s'.newBody[i]? = some m ∧ key m = some k) := by
  induction ns generalizing s with
  | nil =>
    simp [loop] at h; subst h
    exact ⟨⟨[], by simp⟩, by simp, hs⟩
  | cons n ns ih =>
    unfold loop at h
    split at h
    · cases h
    · rename_i s1 h1
      have keepcase : s1 = { s with newBody := s.newBody ++ [n] } →
          (∀ k, key n = some k → symbols.get? k = none) → implKey key symbols n = none →
          (∃ ms : List α, s'.newBody = s.newBody ++ ms ∧ ms.length = (n :: ns).length ∧
            ∀ (i : Nat) a m, (n :: ns)[i]? = some a → ms[i]? = some m → StepTo key merge symbols a m) ∧
          s'.implemented = s.implemented ++ (n :: ns).filterMap (implKey key symbols) ∧
          (∀ k ∈ s'.implemented, ∃ (i : Nat) (m : α), s'.position.get? k = some i ∧
            s'.newBody[i]? = some m ∧ key m = some k) := by
        intro e hk himp
        have := ih s1 h (by
          rw [e]; intro k hk
          obtain ⟨i, m, h1, h2, h3⟩ := hs k hk
          refine ⟨i, m, h1, ?_, h3⟩
          exact (List.getElem?_append_left (List.getElem?_eq_some_iff.1 h2).1).trans h2)
        obtain ⟨⟨ms, h2, hl, h3⟩, h4, h5⟩ := this
        refine ⟨⟨n :: ms, by rw [h2, e]; simp, by simp [hl], ?_⟩, ?_, h5⟩
        · intro i a b ha hb
          cases i with
          | zero => simp at ha hb; subst ha hb; exact .keep hk rfl
          | succ i => exact h3 i a b (by simpa using ha) (by simpa using hb)
        · rw [h4, e, List.filterMap_cons_none himp]
      unfold loopStep at h1
      split at h1
      · rename_i hk
        cases h1
        exact keepcase rfl (by simp [hk]) (by simp [implKey, hk])
      · rename_i name hk
        split at h1
        · rename_i hget
          cases h1
          refine keepcase rfl (by intro k hk'; rw [hk] at hk'; cases hk'; exact hget) ?_
          simp [implKey, hk, Dict.contains_eq_isSome, hget]
        · rename_i x hget
          split at h1
          · cases h1
          · rename_i m hm
            cases h1
            have hkm := hkey x n m name hk hget hm
            have := ih _ h (by
              intro k hk'
              simp at hk'
              by_cases hkn : name = k
              · subst hkn
                refine ⟨s.newBody.length, m, by simp [Dict.get?_set], by simp, hkm⟩
              · rcases hk' with hk' | hk'
                · obtain ⟨i, m', h1, h2, h3⟩ := hs k hk'
                  refine ⟨i, m', by simp [Dict.get?_set, hkn, h1], ?_, h3⟩
                  exact (List.getElem?_append_left (List.getElem?_eq_some_iff.1 h2).1).trans h2
                · exact absurd hk'.symm hkn)
            obtain ⟨⟨ms, h2, hl, h3⟩, h4, h5⟩ := this
            refine ⟨⟨m :: ms, by rw [h2]; simp, by simp [hl], ?_⟩, ?_, h5⟩
            · intro i a b ha hb
              cases i with
              | zero => simp at ha hb; subst ha hb; exact .merged name x hk hget hm
              | succ i => exact h3 i a b (by simpa using ha) (by simpa using hb)
            · rw [h4, List.filterMap_cons_some (b := name) (by
                simp [implKey, hk, Dict.contains_eq_isSome, hget])]
              simp

/-! ### placement -/

theorem placeOne_spec (e : String) (keys missing : List String) (hn : missing.Nodup) :
    ((placeOne e keys missing).1 ++ (placeOne e keys missing).2).Perm missing ∧
    (placeOne e keys missing).2.Sublist missing ∧
    ∀ k ∈ (placeOne e keys missing).1, ∃ a b, keys = a ++ k :: b ∧ e ∉ a ∧ e ≠ k := by
  induction keys generalizing missing with
  | nil => simp [placeOne]
  | cons key keys ih =>
    unfold placeOne
    split
    · simp
    · rename_i he
      split
      · rename_i hc
        simp at hc
        obtain ⟨h1, h2, h3⟩ := ih (missing.erase key) (hn.erase _)
        refine ⟨?_, ?_, ?_⟩
        · simp only [List.cons_append]
          exact (List.Perm.cons key h1).trans (List.perm_cons_erase hc).symm
        · exact h2.trans List.erase_sublist
        · intro k hk
          rcases List.mem_cons.1 hk with rfl | hk
          · exact ⟨[], keys, rfl, by simp, he⟩
          · obtain ⟨a, b, h4, h5, h6⟩ := h3 k hk
            exact ⟨key :: a, b, by simp [h4], by simp [h5]; exact he, h6⟩
      · obtain ⟨h1, h2, h3⟩ := ih missing hn
        refine ⟨h1, h2, ?_⟩
        intro k hk
        obtain ⟨a, b, h4, h5, h6⟩ := h3 k hk
        exact ⟨key :: a, b, by simp [h4], by simp [h5]; exact he, h6⟩

/-- what is still missing after one round is not listed before `e` -/
theorem placeOne_rest (e : String) (keys missing : List String) (hn : missing.Nodup) :
    ∀ a k b, keys = a ++ k :: b → e ∉ a → e ≠ k → k ∉ (placeOne e keys missing).2 := by
  induction keys generalizing missing with
  | nil => intro a k b h; simp at h
  | cons key keys ih =>
    intro a k b h ha hk
    unfold placeOne
    have hek : e ≠ key := by
      cases a with
      | nil => simp at h; rw [h.1]; exact hk
      | cons x a => simp at h ha; rw [h.1]; exact ha.1
    rw [if_neg hek]
    split
    · rename_i hc
      simp only
      cases a with
      | nil =>
        simp at h
        intro hmem
        have := (placeOne_spec e keys (missing.erase key) (hn.erase _)).2.1.subset hmem
        rw [h.1] at this
        exact (List.Nodup.mem_erase_iff hn).1 this |>.1 rfl
      | cons x a =>
        simp at h ha
        exact ih _ (hn.erase _) a k b h.2 ha.2 hk
    · rename_i hc
      cases a with
      | nil =>
        simp at h
        intro hmem
        have := (placeOne_spec e keys missing hn).2.1.subset hmem
        rw [← h.1] at this
        simp at hc; exact hc this
      | cons x a =>
        simp at h ha
        exact ih _ hn a k b h.2 ha.2 hk

theorem place_spec (keys : List String) (position : Dict Nat) (impl missing : List String)
    (hn : missing.Nodup) (before : List (Nat × String)) (rest : List String)
    (h : place keys position impl missing = .ok (before, rest)) :
    (before.map (·.2) ++ rest).Perm missing ∧
    (∀ i k, (i, k) ∈ before → ∃ pre e post, impl = pre ++ e :: post ∧ position.get? e = some i ∧
        (∃ a b, keys = a ++ k :: b ∧ e ∉ a ∧ e ≠ k) ∧
        (∀ e' ∈ pre, ¬ ∃ a b, keys = a ++ k :: b ∧ e' ∉ a ∧ e' ≠ k)) ∧
    (∀ k ∈ rest, ∀ e ∈ impl, ¬ ∃ a b, keys = a ++ k :: b ∧ e ∉ a ∧ e ≠ k) := by
  induction impl generalizing missing before rest with
  | nil =>
    simp [place] at h
    obtain ⟨rfl, rfl⟩ := h
    simp
  | cons e es ih =>
    unfold place at h
    cases hp : placeOne e keys missing with
    | mk moved missing' =>
      rw [hp] at h
      simp only at h
      split at h
      · cases h
      · rename_i p hpos
        split at h
        · cases h
        · rename_i before' rest' hrec
          cases h
          have hpos' : position.get? e = some p := by
            unfold Dict.get at hpos; split at hpos <;> cases hpos; assumption
          have s1 := placeOne_spec e keys missing hn
          have s2 := placeOne_rest e keys missing hn
          rw [hp] at s1 s2
          simp only at s1 s2
          obtain ⟨h1, h2, h3⟩ := s1
          have hn' : missing'.Nodup := h2.nodup hn
          obtain ⟨i1, i2, i3⟩ := ih missing' hn' before' rest hrec
          have hsub : ∀ k, (k ∈ before'.map (·.2) ∨ k ∈ rest) → k ∈ missing' := by
            intro k hk
            exact i1.subset (by simpa using hk)
          refine ⟨?_, ?_, ?_⟩
          · have : (moved.map (fun k => (p, k)) ++ before').map (·.2) = moved ++ before'.map (·.2) := by
              rw [List.map_append, List.map_map]
              congr 1
              exact List.map_id' moved
            rw [this, List.append_assoc]
            exact (List.Perm.append_left moved i1).trans h1
          · intro i k hik
            rcases List.mem_append.1 hik with hik | hik
            · simp at hik
              obtain ⟨hk, rfl⟩ := hik
              exact ⟨[], e, es, rfl, hpos', h3 k hk, by simp⟩
            · obtain ⟨pre, e', post, h4, h5, h6, h7⟩ := i2 i k hik
              refine ⟨e :: pre, e', post, by simp [h4], h5, h6, ?_⟩
              intro e'' he''
              rcases List.mem_cons.1 he'' with rfl | he''
              · rintro ⟨a, b, h8, h9, h10⟩
                exact s2 a k b h8 h9 h10 (hsub k (.inl (List.mem_map_of_mem (f := (·.2)) hik)))
              · exact h7 e'' he''
          · intro k hk e' he'
            rcases List.mem_cons.1 he' with rfl | he'
            · rintro ⟨a, b, h8, h9, h10⟩
              exact s2 a k b h8 h9 h10 (hsub k (.inr hk))
            · exact i3 k hk e' he'

theorem place_ok (keys : List String) (position : Dict Nat) (impl missing : List String)
    (h : ∀ e ∈ impl, ∃ i, position.get? e = some i) :
    ∃ r, place keys position impl missing = .ok r := by
  induction impl generalizing missing with
  | nil => exact ⟨_, rfl⟩
  | cons e es ih =>
    unfold place
    cases hp : placeOne e keys missing with
    | mk moved missing' =>
      obtain ⟨i, hi⟩ := h e (by simp)
      obtain ⟨r, hr⟩ := ih missing' (fun e he => h e (by simp [he]))
      obtain ⟨b, r⟩ := r
      simp only [Dict.get, hi, hr]
      exact ⟨_, rfl⟩

theorem place_nil (keys : List String) (position : Dict Nat) (impl : List String)
    (h : ∀ e ∈ impl, ∃ i, position.get? e = some i) :
    place keys position impl [] = .ok ([], []) := by
  induction impl with
  | nil => rfl
  | cons e es ih =>
    have hp : placeOne e keys [] = ([], []) := by
      clear ih h
      induction keys with
      | nil => rfl
      | cons k ks ih => unfold placeOne; split <;> simp_all
    unfold place
    obtain ⟨i, hi⟩ := h e (by simp)
    simp [hp, Dict.get, hi, ih (fun e he => h e (by simp [he]))]

/-! ### weaving -/

theorem lookupAll_ok (symbols : Dict α) (ks : List String) (h : ∀ k ∈ ks, k ∈ symbols.keys) :
    ∃ ns, lookupAll symbols ks = .ok ns := by
  induction ks with
  | nil => exact ⟨_, rfl⟩
  | cons k ks ih =>
    obtain ⟨ns, hns⟩ := ih (fun k hk => h k (by simp [hk]))
    have := (Dict.get?_isSome_iff symbols k).2 (h k (by simp))
    obtain ⟨n, hn⟩ := Option.isSome_iff_exists.1 this
    exact ⟨n :: ns, by simp [lookupAll, Dict.get, hn, hns]⟩

theorem lookupAll_eq (symbols : Dict α) (ks : List String) (ns : List α)
    (h : lookupAll symbols ks = .ok ns) : ks.map symbols.get? = ns.map some := by
  induction ks generalizing ns with
  | nil => simp [lookupAll] at h; subst h; rfl
  | cons k ks ih =>
    unfold lookupAll at h
    split at h
    · cases h
    · rename_i n hn
      split at h
      · cases h
      · rename_i ns' hns'
        cases h
        have : symbols.get? k = some n := by
          unfold Dict.get at hn; split at hn <;> cases hn; assumption
        simp [this, ih _ hns']

theorem weave_cons (symbols : Dict α) (before : List (Nat × String)) (after : Option (Nat × List String))
    (i : Nat) (node : α) (nodes r : List α) :
    weave symbols before after i (node :: nodes) = .ok r ↔
      ∃ pre post rest, lookupAll symbols ((before.filter (fun p => p.1 == i)).map (·.2)) = .ok pre ∧
        lookupAll symbols (afterAt after i) = .ok post ∧
        weave symbols before after (i + 1) nodes = .ok rest ∧ r = pre ++ node :: post ++ rest := by
  constructor
  · intro h
    unfold weave at h
    split at h
    · cases h
    · rename_i pre hpre
      split at h
      · cases h
      · rename_i post hpost
        split at h
        · cases h
        · rename_i rest hrest
          cases h
          exact ⟨pre, post, rest, hpre, hpost, hrest, rfl⟩
  · rintro ⟨pre, post, rest, h1, h2, h3, rfl⟩
    unfold weave
    simp only [h1, h2, h3]

theorem weave_ok (symbols : Dict α) (before : List (Nat × String)) (after : Option (Nat × List String))
    (hb : ∀ p ∈ before, p.2 ∈ symbols.keys) (ha : ∀ i, ∀ k ∈ afterAt after i, k ∈ symbols.keys)
    (i : Nat) (nodes : List α) : ∃ r, weave symbols before after i nodes = .ok r := by
  induction nodes generalizing i with
  | nil => exact ⟨_, rfl⟩
  | cons n nodes ih =>
    obtain ⟨pre, h1⟩ := lookupAll_ok symbols ((before.filter (fun p => p.1 == i)).map (·.2)) (by
      intro k hk
      obtain ⟨p, hp, rfl⟩ := List.mem_map.1 hk
      exact hb _ (List.mem_filter.1 hp).1)
    obtain ⟨post, h2⟩ := lookupAll_ok symbols (afterAt after i) (ha i)
    obtain ⟨rest, h3⟩ := ih (i + 1)
    exact ⟨_, (weave_cons ..).2 ⟨pre, post, rest, h1, h2, h3, rfl⟩⟩

theorem weave_sublist (symbols : Dict α) (before : List (Nat × String)) (after : Option (Nat × List String))
    (i : Nat) (nodes r : List α) (h : weave symbols before after i nodes = .ok r) : nodes.Sublist r := by
  induction nodes generalizing i r with
  | nil => simp
  | cons n nodes ih =>
    obtain ⟨pre, post, rest, _, _, h3, rfl⟩ := (weave_cons ..).1 h
    have := ih _ _ h3
    simp only [List.append_assoc]
    exact (List.Sublist.cons_cons n (this.trans (List.sublist_append_right post rest))).trans
      (List.sublist_append_right pre _)

/-- the keys that weaving inserts when it starts at index `i` with `len` nodes left -/
def inserted (before : List (Nat × String)) (after : Option (Nat × List String)) : Nat → Nat → List String
  | _, 0 => []
  | i, len + 1 => (before.filter (fun p => p.1 == i)).map (·.2) ++ afterAt after i ++ inserted before after (i + 1) len

theorem weave_perm (symbols : Dict α) (before : List (Nat × String)) (after : Option (Nat × List String))
    (i : Nat) (nodes r : List α) (h : weave symbols before after i nodes = .ok r) :
    ∃ ins, lookupAll symbols (inserted before after i nodes.length) = .ok ins ∧ r.Perm (nodes ++ ins) := by
  have lookupAll_append : ∀ (a b : List String) (x y : List α), lookupAll symbols a = .ok x →
      lookupAll symbols b = .ok y → lookupAll symbols (a ++ b) = .ok (x ++ y) := by
    intro a b x y ha hb
    induction a generalizing x with
    | nil => simp [lookupAll] at ha; subst ha; exact hb
    | cons k a ih =>
      unfold lookupAll at ha
      split at ha
      · cases ha
      · rename_i n hn
        split at ha
        · cases ha
        · rename_i ns hns
          cases ha
          simp [lookupAll, hn, ih _ hns]
  induction nodes generalizing i r with
  | nil => simp [weave] at h; subst h; exact ⟨[], by simp [inserted, lookupAll], by simp⟩
  | cons n nodes ih =>
    obtain ⟨pre, post, rest, h1, h2, h3, rfl⟩ := (weave_cons ..).1 h
    obtain ⟨ins, h4, h5⟩ := ih _ _ h3
    refine ⟨pre ++ post ++ ins, lookupAll_append _ _ _ _ (lookupAll_append _ _ _ _ h1 h2) h4, ?_⟩
    have e1 : (pre ++ n :: post ++ rest).Perm (n :: (pre ++ post ++ rest)) := by
      simp only [List.append_assoc, List.cons_append]
      exact List.perm_middle
    refine e1.trans ?_
    simp only [List.cons_append]
    refine List.Perm.cons n ?_
    have : (pre ++ post ++ rest).Perm (pre ++ post ++ (nodes ++ ins)) := List.Perm.append_left _ h5
    refine this.trans ?_
    rw [← List.append_assoc, ← List.append_assoc]
    exact List.Perm.append_right ins List.perm_append_comm

theorem count_inserted_before (before : List (Nat × String)) (i len : Nat) :
    (inserted before none i len).Perm ((before.filter (fun p => decide (i ≤ p.1) && decide (p.1 < i + len))).map (·.2)) := by
  induction len generalizing i with
  | zero =>
    have : before.filter (fun p => decide (i ≤ p.1) && decide (p.1 < i + 0)) = [] := by
      rw [List.filter_eq_nil_iff]; intro p _; simp
    rw [this]; simp [inserted]
  | succ len ih =>
    simp only [inserted, afterAt, List.append_nil]
    have split_ : ∀ l : List (Nat × String),
        ((l.filter (fun p => p.1 == i)) ++ l.filter (fun p => decide (i + 1 ≤ p.1) && decide (p.1 < i + 1 + len))).Perm
          (l.filter (fun p => decide (i ≤ p.1) && decide (p.1 < i + (len + 1)))) := by
      intro l
      induction l with
      | nil => simp
      | cons p l ihl =>
        by_cases h1 : p.1 = i
        · have hc1 : (p.1 == i) = true := by simp [h1]
          have hc2 : (decide (i + 1 ≤ p.1) && decide (p.1 < i + 1 + len)) = false := by
            rw [h1]; simp; omega
          have hc3 : (decide (i ≤ p.1) && decide (p.1 < i + (len + 1))) = true := by simp; omega
          simp only [List.filter_cons, hc1, hc2, hc3, if_true, Bool.false_eq_true, if_false]
          exact List.Perm.cons p ihl
        · have hc1 : (p.1 == i) = false := by simp [h1]
          by_cases h2 : (decide (i + 1 ≤ p.1) && decide (p.1 < i + 1 + len)) = true
          · have hc3 : (decide (i ≤ p.1) && decide (p.1 < i + (len + 1))) = true := by
              simp at h2 ⊢; omega
            simp only [List.filter_cons, hc1, h2, hc3, if_true, Bool.false_eq_true, if_false]
            exact List.perm_middle.trans (List.Perm.cons p ihl)
          · have hc3 : ¬ (decide (i ≤ p.1) && decide (p.1 < i + (len + 1))) = true := by
              simp at h2 ⊢; omega
            simp only [List.filter_cons, hc1, h2, hc3, Bool.false_eq_true, if_false]
            exact ihl
    have := (split_ before).map (·.2)
    rw [List.map_append] at this
    exact (List.Perm.append_left _ (ih (i + 1))).trans this

theorem inserted_after (before : List (Nat × String)) (j : Nat) (ks : List String) (i len : Nat)
    (h : i ≤ j ∧ j < i + len) :
    (inserted before (some (j, ks)) i len).Perm (inserted before none i len ++ ks) := by
  have out : ∀ i len, (j < i) → inserted before (some (j, ks)) i len = inserted before none i len := by
    intro i len
    induction len generalizing i with
    | zero => intro _; rfl
    | succ len ih =>
      intro hlt
      simp only [inserted, afterAt]
      rw [if_neg (by omega), ih (i + 1) (by omega)]
  induction len generalizing i with
  | zero => omega
  | succ len ih =>
    simp only [inserted]
    by_cases hij : j = i
    · subst hij
      rw [out (j + 1) len (by omega)]
      simp only [afterAt, if_true, List.append_nil]
      simp only [List.append_assoc]
      exact List.Perm.append_left _ List.perm_append_comm
    · simp only [afterAt, if_neg hij, List.append_nil, List.append_assoc]
      exact List.Perm.append_left _ (ih (i + 1) (by omega))

theorem weave_id (symbols : Dict α) (after : Option (Nat × List String))
    (ha : ∀ i, afterAt after i = []) (i : Nat) (nodes : List α) :
    weave symbols [] after i nodes = .ok nodes := by
  induction nodes generalizing i with
  | nil => rfl
  | cons n nodes ih =>
    exact (weave_cons ..).2 ⟨[], [], nodes, by simp [lookupAll], by rw [ha]; rfl, ih _, by simp⟩

/-- everything before index `j`, the node at `j` and what surrounds it -/
theorem weave_at (symbols : Dict α) (before : List (Nat × String)) (after : Option (Nat × List String))
    (i j : Nat) (nodes r : List α) (node : α) (h : weave symbols before after i nodes = .ok r)
    (hj : nodes[j]? = some node) :
    ∃ A pre post B, r = A ++ pre ++ node :: post ++ B ∧
      lookupAll symbols ((before.filter (fun p => p.1 == i + j)).map (·.2)) = .ok pre ∧
      lookupAll symbols (afterAt after (i + j)) = .ok post := by
  induction nodes generalizing i j r with
  | nil => simp at hj
  | cons n nodes ih =>
    obtain ⟨pre, post, rest, h1, h2, h3, rfl⟩ := (weave_cons ..).1 h
    cases j with
    | zero =>
      simp at hj; subst hj
      exact ⟨[], pre, post, rest, by simp, h1, h2⟩
    | succ j =>
      obtain ⟨A, pre', post', B, h4, h5, h6⟩ := ih (i + 1) j rest h3 (by simpa using hj)
      refine ⟨pre ++ n :: post ++ A, pre', post', B, by rw [h4]; simp, ?_, ?_⟩
      · rw [show i + (j + 1) = i + 1 + j by omega]; exact h5
      · rw [show i + (j + 1) = i + 1 + j by omega]; exact h6

end Turms.Merge
