import Verif.JsonTextThm
/-!
# What Python's `json.dump` writes for any value

With the default separators, and with `indent`.  `json` is not part of the project; its model follows
the documented behaviour of `json.encoder._make_iterencode`.
-/
namespace Verif.JsonText
open Verif Verif.Reader

/-- A new line with `k` blanks for each level, for `indent=k`; nothing without it. -/
def newline (k : Option Nat) (level : Nat) : Text :=
  match k with
  | none => []
  | some k => 10 :: List.replicate (k * level) 32

/-- What is between the comma and the next item. -/
def gap (k : Option Nat) (level : Nat) : Text :=
  match k with
  | none => [32]
  | some k => newline (some k) level

mutual
/-- `json.dump`; `level` is how deep the value is. -/
def dump (k : Option Nat) : Nat → Value → Text
  | _, .null => [110, 117, 108, 108]
  | _, .bool true => [116, 114, 117, 101]
  | _, .bool false => [102, 97, 108, 115, 101]
  | _, .int n => showInt n
  | _, .float t => t
  | _, .infinite false => [73, 110, 102, 105, 110, 105, 116, 121]
  | _, .infinite true => [45, 73, 110, 102, 105, 110, 105, 116, 121]
  | _, .nan => [78, 97, 78]
  | _, .str s => dumpStr s
  | _, .arr [] => [91, 93]
  | level, .arr (v :: l) =>
    91 :: (newline k (level + 1) ++ (dump k (level + 1) v ++ (dumpRest k (level + 1) l ++ (newline k level ++ [93]))))
  | _, .obj [] => [123, 125]
  | level, .obj ((key, v) :: l) =>
    123 :: (newline k (level + 1) ++ (dumpStr key ++ 58 :: 32 :: (dump k (level + 1) v ++
      (dumpPairs k (level + 1) l ++ (newline k level ++ [125])))))
/-- The items after the first. -/
def dumpRest (k : Option Nat) : Nat → List Value → Text
  | _, [] => []
  | level, v :: l => 44 :: (gap k level ++ (dump k level v ++ dumpRest k level l))
/-- The items of an object after the first. -/
def dumpPairs (k : Option Nat) : Nat → List (Text × Value) → Text
  | _, [] => []
  | level, (key, v) :: l => 44 :: (gap k level ++ (dumpStr key ++ 58 :: 32 :: (dump k level v ++ dumpPairs k level l)))
end

mutual
/-- The values which Python has: strings are texts of characters, a float is given by the text Python
shows for it, and a dictionary has every key once. -/
def Genuine : Value → Prop
  | .float t => number t = some (.float t, [])
  | .str s => Plain s
  | .arr l => Genuines l
  | .obj l => GenuinePairs l ∧ (l.map (·.1)).Nodup
  | _ => True
def Genuines : List Value → Prop
  | [] => True
  | v :: l => Genuine v ∧ Genuines l
def GenuinePairs : List (Text × Value) → Prop
  | [] => True
  | (key, v) :: l => Plain key ∧ Genuine v ∧ GenuinePairs l
end

/-! ## Whitespace -/

def Spaces (w : Text) : Prop := ∀ c ∈ w, isSpace c = true

theorem spaces_newline (k : Option Nat) (level : Nat) : Spaces (newline k level) := by
  cases k with
  | none => exact fun _ h => by cases h
  | some k =>
    intro c hc
    rcases List.mem_cons.1 hc with rfl | hc
    · rfl
    · rw [(List.mem_replicate.1 hc).2]; rfl

theorem spaces_gap (k : Option Nat) (level : Nat) : Spaces (gap k level) := by
  cases k with
  | none => intro c hc; simp only [gap, List.mem_singleton] at hc; subst hc; rfl
  | some k => exact spaces_newline (some k) level

theorem ws_spaces {w : Text} (h : Spaces w) (t : Text) : ws (w ++ t) = ws t := by
  induction w with
  | nil => rfl
  | cons c w ih =>
    have h1 := h c (List.mem_cons_self ..)
    have := ih (fun c hc => h c (List.mem_cons_of_mem _ hc))
    simp only [ws, List.cons_append, List.dropWhile_cons, h1, if_true] at this ⊢
    exact this

theorem ws_spaces_cons {w : Text} (h : Spaces w) {c : Nat} (hc : isSpace c = false) (t : Text) : ws (w ++ c :: t) = c :: t := by
  rw [ws_spaces h, ws_cons hc]

theorem stop_spaces {w : Text} (h : Spaces w) {c : Nat} (hc : isSpace c = false ∧ isDigit c = false ∧ c ≠ 46 ∧ c ≠ 101 ∧ c ≠ 69) (t : Text) :
    Stop (w ++ c :: t) := by
  have := stop_space (t := w ++ c :: t) (ws_spaces_cons h hc.1 t) hc.2 []
  simpa using this

/-! ## Items -/

/-- One item, and it is the last. -/
theorem element_last {v : Value} {t w r : Text} (acc : List Value) (hw : Spaces w)
    (hv : Reads (t ++ (w ++ 93 :: r)) v (w ++ 93 :: r)) : ReadsElements acc (t ++ (w ++ 93 :: r)) (.arr (acc ++ [v])) r := by
  obtain ⟨n, hn⟩ := hv
  refine ⟨n + 1, ?_⟩
  simp only [elements, hn, ws_spaces_cons hw (show isSpace 93 = false from rfl), eat_self]

/-- One item, and others after it. -/
theorem element_more {v o : Value} {t w u r : Text} (acc : List Value) (hw : Spaces w)
    (hv : Reads (t ++ 44 :: (w ++ u)) v (44 :: (w ++ u))) (hu : ws u = u) (hm : ReadsElements (acc ++ [v]) u o r) :
    ReadsElements acc (t ++ 44 :: (w ++ u)) o r := by
  obtain ⟨n, hn⟩ := hv
  obtain ⟨m, hm⟩ := hm
  refine ⟨max n m + 1, ?_⟩
  simp only [elements, value_mono hn (Nat.le_max_left ..), ws_cons (show isSpace 44 = false from rfl),
    eat_ne (show (44 : Nat) ≠ 93 by decide), eat_self, ws_spaces hw, hu, elements_mono hm (Nat.le_max_right ..)]

theorem member_last {k t w r : Text} {v : Value} {acc : List (Text × Value)} (hk : Plain k) (hw : Spaces w)
    (hv : Reads (t ++ (w ++ 125 :: r)) v (w ++ 125 :: r)) :
    ReadsMembers acc (dumpStr k ++ 58 :: 32 :: (t ++ (w ++ 125 :: r))) (.obj (Assoc.put acc k v)) r := by
  obtain ⟨n, hn⟩ := id hv
  refine ⟨n + 1, ?_⟩
  have h1 : ws (32 :: (t ++ (w ++ 125 :: r))) = t ++ (w ++ 125 :: r) := by
    show ws (t ++ _) = _; exact hv.head
  rw [dumpStr_append]
  simp only [members, eat_self, scan_dump hk, ws_cons (show isSpace 58 = false from rfl), h1, hn,
    ws_spaces_cons hw (show isSpace 125 = false from rfl)]

theorem member_more {k t w u r : Text} {v o : Value} {acc : List (Text × Value)} (hk : Plain k) (hw : Spaces w)
    (hv : Reads (t ++ 44 :: (w ++ u)) v (44 :: (w ++ u))) (hu : ws u = u) (hm : ReadsMembers (Assoc.put acc k v) u o r) :
    ReadsMembers acc (dumpStr k ++ 58 :: 32 :: (t ++ 44 :: (w ++ u))) o r := by
  obtain ⟨n, hn⟩ := id hv
  obtain ⟨m, hm⟩ := hm
  refine ⟨max n m + 1, ?_⟩
  have h1 : ws (32 :: (t ++ 44 :: (w ++ u))) = t ++ 44 :: (w ++ u) := by
    show ws (t ++ _) = _; exact hv.head
  rw [dumpStr_append]
  simp only [members, eat_self, scan_dump hk, ws_cons (show isSpace 58 = false from rfl), h1,
    value_mono hn (Nat.le_max_left ..), ws_cons (show isSpace 44 = false from rfl), eat_ne (show (44 : Nat) ≠ 125 by decide),
    ws_spaces hw, hu, members_mono hm (Nat.le_max_right ..)]

theorem arr_of {w t r : Text} {o : Value} (hw : Spaces w) (hh : ws t = t) (he : eat 93 t = none) (h : ReadsElements [] t o r) :
    Reads (91 :: (w ++ t)) o r := by
  obtain ⟨n, hn⟩ := h
  refine ⟨n + 1, ?_⟩
  simp only [value, eat_ne (show (91 : Nat) ≠ 34 by decide), eat_ne (show (91 : Nat) ≠ 123 by decide), eat_self, ws_spaces hw, hh, he, hn]

theorem obj_of {w k t r : Text} {o : Value} (hw : Spaces w) (h : ReadsMembers [] (dumpStr k ++ t) o r) :
    Reads (123 :: (w ++ (dumpStr k ++ t))) o r := by
  obtain ⟨n, hn⟩ := h
  refine ⟨n + 1, ?_⟩
  rw [dumpStr_append] at hn ⊢
  simp only [value, eat_ne (show (123 : Nat) ≠ 34 by decide), eat_self, ws_spaces hw, ws_cons (show isSpace 34 = false from rfl),
    eat_ne (show (34 : Nat) ≠ 125 by decide), hn]

theorem reads_word {w t r : Text} {v : Value} (c : Nat) (hw : w = c :: t) (hc : c ≠ 34 ∧ c ≠ 123 ∧ c ≠ 91)
    (ha : ∀ r, atom (w ++ r) = some (v, r)) : Reads (w ++ r) v r := by
  refine ⟨1, ?_⟩
  have h := ha r
  rw [hw, List.cons_append] at h ⊢
  simp only [value, eat_ne hc.1, eat_ne hc.2.1, eat_ne hc.2.2, h]

/-- A list does not begin with its end. -/
theorem Reads.not_close {t r : Text} {v : Value} (h : Reads t v r) : eat 93 t = none := by
  obtain ⟨n, hn⟩ := h
  rcases he : eat 93 t with _ | q
  · rfl
  · exfalso
    rw [eat_some he] at hn
    cases n with
    | zero => simp [value] at hn
    | succ n =>
      have : atom (93 :: q) = none := by
        have hw : ∀ c w, c ≠ 93 → word (c :: w) (93 :: q) = none := fun c w h => word_other (Ne.symm h)
        unfold atom
        rw [hw 110 _ (by decide), hw 116 _ (by decide), hw 102 _ (by decide), hw 78 _ (by decide), hw 73 _ (by decide), hw 45 _ (by decide)]
        rfl
      simp only [value, eat_ne (show (93 : Nat) ≠ 34 by decide), eat_ne (show (93 : Nat) ≠ 123 by decide),
        eat_ne (show (93 : Nat) ≠ 91 by decide), this] at hn
      cases hn

mutual
/-- What is written for a value is read as the value. -/
theorem reads_dump (k : Option Nat) : ∀ (v : Value) (level : Nat) (r : Text), Genuine v → v.Solid ∨ Stop r →
    Reads (dump k level v ++ r) v r
  | .null, level, r, _, _ => by simp only [dump]; exact reads_word 110 rfl (by decide) (fun r => by simp [atom, word, eat])
  | .bool true, level, r, _, _ => by simp only [dump]; exact reads_word 116 rfl (by decide) (fun r => by simp [atom, word, eat])
  | .bool false, level, r, _, _ => by simp only [dump]; exact reads_word 102 rfl (by decide) (fun r => by simp [atom, word, eat])
  | .int n, level, r, _, hs => by
    simp only [dump]
    exact reads_number (number_showInt n) (hs.resolve_left id)
  | .float t, level, r, hg, hs => by
    simp only [dump]
    exact reads_number (by simpa [Genuine] using hg) (hs.resolve_left id)
  | .infinite false, level, r, _, _ => by simp only [dump]; exact reads_word 73 rfl (by decide) (fun r => by simp [atom, word, eat])
  | .infinite true, level, r, _, _ => by simp only [dump]; exact reads_word 45 rfl (by decide) (fun r => by simp [atom, word, eat])
  | .nan, level, r, _, _ => by simp only [dump]; exact reads_word 78 rfl (by decide) (fun r => by simp [atom, word, eat])
  | .str s, level, r, hg, _ => by
    simp only [dump]
    exact reads_str (by simpa [Genuine] using hg) r
  | .arr [], level, r, _, _ => ⟨1, by simp [dump, value, eat, ws, isSpace]⟩
  | .arr (v :: l), level, r, hg, _ => by
    simp only [Genuine, Genuines] at hg
    have h := reads_rest k l (level + 1) (dump k (level + 1) v) [] v (newline k level) r hg.2 (spaces_newline _ _)
      (fun r hr => reads_dump k v (level + 1) r hg.1 (.inr hr))
    have hhead : Reads (dump k (level + 1) v ++ (dumpRest k (level + 1) l ++ (newline k level ++ 93 :: r))) v
        (dumpRest k (level + 1) l ++ (newline k level ++ 93 :: r)) :=
      reads_dump k v (level + 1) _ hg.1 (.inr (by
        cases l with
        | nil => exact stop_spaces (spaces_newline _ _) (by decide) _
        | cons a l => simp only [dumpRest]; exact stop_of 44 _))
    have := arr_of (spaces_newline k (level + 1)) hhead.head hhead.not_close h
    simpa [dump] using this
  | .obj [], level, r, _, _ => ⟨1, by simp [dump, value, eat, ws, isSpace]⟩
  | .obj ((key, v) :: l), level, r, hg, _ => by
    simp only [Genuine, GenuinePairs] at hg
    have h := reads_pairs k l (level + 1) key (dump k (level + 1) v) [] v (newline k level) r hg.1.1 hg.1.2.2
      (by simpa using hg.2) (spaces_newline _ _) (fun r hr => reads_dump k v (level + 1) r hg.1.2.1 (.inr hr))
    have := obj_of (spaces_newline k (level + 1)) h
    simpa [dump] using this
theorem reads_rest (k : Option Nat) : ∀ (l : List Value) (level : Nat) (t : Text) (acc : List Value) (v : Value) (w r : Text),
    Genuines l → Spaces w → (∀ r, Stop r → Reads (t ++ r) v r) →
    ReadsElements acc (t ++ (dumpRest k level l ++ (w ++ 93 :: r))) (.arr (acc ++ v :: l)) r
  | [], level, t, acc, v, w, r, _, hw, hv => by
    simp only [dumpRest, List.nil_append]
    exact element_last acc hw (hv _ (stop_spaces hw (by decide) _))
  | v' :: l, level, t, acc, v, w, r, hg, hw, hv => by
    simp only [Genuines] at hg
    have ih := reads_rest k l level (dump k level v') (acc ++ [v]) v' w r hg.2 hw
      (fun r hr => reads_dump k v' level r hg.1 (.inr hr))
    have hhead : Reads (dump k level v' ++ (dumpRest k level l ++ (w ++ 93 :: r))) v' (dumpRest k level l ++ (w ++ 93 :: r)) :=
      reads_dump k v' level _ hg.1 (.inr (by
        cases l with
        | nil => exact stop_spaces hw (by decide) _
        | cons a l => simp only [dumpRest]; exact stop_of 44 _))
    have := element_more (t := t) acc (spaces_gap k level) (hv _ (stop_of 44 _)) hhead.head ih
    simpa [dumpRest] using this
theorem reads_pairs (k : Option Nat) : ∀ (l : List (Text × Value)) (level : Nat) (key t : Text) (acc : List (Text × Value)) (v : Value) (w r : Text),
    Plain key → GenuinePairs l → ((acc ++ (key, v) :: l).map (·.1)).Nodup → Spaces w → (∀ r, Stop r → Reads (t ++ r) v r) →
    ReadsMembers acc (dumpStr key ++ 58 :: 32 :: (t ++ (dumpPairs k level l ++ (w ++ 125 :: r)))) (.obj (acc ++ (key, v) :: l)) r
  | [], level, key, t, acc, v, w, r, hk, _, hn, hw, hv => by
    have hput : Assoc.put acc key v = acc ++ [(key, v)] := put_new (by
      simp only [List.map_append, List.map_cons, List.nodup_append, List.mem_cons] at hn
      exact fun h => hn.2.2 _ h _ (.inl rfl) rfl)
    have := member_last (acc := acc) (r := r) hk hw (hv _ (stop_spaces hw (by decide) _))
    rw [hput] at this
    simp only [dumpPairs, List.nil_append]
    exact this
  | (key', v') :: l, level, key, t, acc, v, w, r, hk, hg, hn, hw, hv => by
    simp only [GenuinePairs] at hg
    have hput : Assoc.put acc key v = acc ++ [(key, v)] := put_new (by
      simp only [List.map_append, List.map_cons, List.nodup_append, List.mem_cons] at hn
      exact fun h => hn.2.2 _ h _ (.inl rfl) rfl)
    have ih := reads_pairs k l level key' (dump k level v') (acc ++ [(key, v)]) v' w r hg.1 hg.2.2 (by simpa using hn) hw
      (fun r hr => reads_dump k v' level r hg.2.1 (.inr hr))
    have hhead : ws (dumpStr key' ++ 58 :: 32 :: (dump k level v' ++ (dumpPairs k level l ++ (w ++ 125 :: r)))) =
        dumpStr key' ++ 58 :: 32 :: (dump k level v' ++ (dumpPairs k level l ++ (w ++ 125 :: r))) := by
      rw [dumpStr_append]; exact ws_cons rfl _
    rw [← hput] at ih
    have := member_more (acc := acc) (t := t) hk (spaces_gap k level) (hv _ (stop_of 44 _)) hhead ih
    rw [hput] at this
    simpa [dumpPairs] using this
end

/-- A text which Python's `json` has written is read as the value which was written, with `indent` and
without; for values which are not just a number. -/
theorem loads_dump {v : Value} (h : Genuine v) (hs : v.Solid) (k : Option Nat) : loads (dump k 0 v) = .ok v := by
  have := reads_dump k v 0 [] h (.inl hs)
  rw [List.append_nil] at this
  exact loads_of_reads this rfl

/-- If only the beginning of the text of a dictionary is there, it is refused. -/
theorem torn_dump {items : List (Text × Value)} (h : Genuine (.obj items)) {k : Option Nat} {p s : Text}
    (hp : p ++ s = dump k 0 (.obj items)) (hs : s ≠ []) : loads p = .error .decode := by
  have hall : Reads (p ++ s) (.obj items) [] := by
    have := reads_dump k (.obj items) 0 [] h (.inl trivial)
    rw [List.append_nil, ← hp] at this
    exact this
  have hhead : ∃ q, dump k 0 (.obj items) = 123 :: q := by
    cases items with
    | nil => exact ⟨[125], by simp [dump]⟩
    | cons e l => obtain ⟨a, b⟩ := e; exact ⟨_, by simp only [dump]; rfl⟩
  unfold loads
  rcases hv : value (2 * p.length + 1) (ws p) with e | ⟨v, r⟩
  · cases e with
    | decode => rfl
    | fuel =>
      have h3 := ws_length p
      exact absurd hv ((enough _).1 _ (by omega))
  · simp only
    by_cases hr : ws r = []
    · exfalso
      cases p with
      | nil => simp [value, ws, eat, atom, word, number, unsigned, intPart, digits1] at hv
      | cons c q =>
        obtain ⟨q', hq'⟩ := hhead
        obtain rfl : c = 123 := by
          rw [hq', List.cons_append, List.cons.injEq] at hp
          exact hp.1
        rw [ws_cons rfl] at hv
        have hsol : v.Solid := by
          have hv' := hv
          simp only [value, eat_ne (show (123 : Nat) ≠ 34 by decide), eat_self] at hv'
          split at hv'
          · cases hv'; trivial
          · exact members_solid hv'
        have h1 := (longer s _).1 _ _ _ hv (.inl hsol)
        obtain ⟨n, hn⟩ := hall
        have h2 := value_mono h1 (Nat.le_max_left _ n)
        have h3 := value_mono hn (Nat.le_max_right (2 * (123 :: q).length + 1) n)
        rw [h2] at h3
        simp only [Except.ok.injEq, Prod.mk.injEq, List.append_eq_nil_iff] at h3
        exact hs h3.2.2
    · rw [if_neg hr]

end Verif.JsonText
