import Verif.JsonTextLemmas
import Verif.GraphThm
/-! # A stored graph is read back, and no part of its text is (C08, C113) -/
namespace Verif.JsonText
open Verif Verif.Reader

/-- The reader reads the value from the beginning of the text. -/
def Reads (t : Text) (v : Value) (r : Text) : Prop := ∃ n, value n t = .ok (v, r)
def ReadsMembers (acc : List (Text × Value)) (t : Text) (v : Value) (r : Text) : Prop := ∃ n, members n acc t = .ok (v, r)
def ReadsElements (acc : List Value) (t : Text) (v : Value) (r : Text) : Prop := ∃ n, elements n acc t = .ok (v, r)

theorem value_mono {n m : Nat} {t : Text} {x : Value × Text} (h : value n t = .ok x) (hm : n ≤ m) : value m t = .ok x := by
  rw [(stable n m hm).1 t (by rw [h]; exact fun e => by cases e), h]
theorem members_mono {n m : Nat} {acc} {t : Text} {x : Value × Text} (h : members n acc t = .ok x) (hm : n ≤ m) :
    members m acc t = .ok x := by
  rw [(stable n m hm).2.1 acc t (by rw [h]; exact fun e => by cases e), h]
theorem elements_mono {n m : Nat} {acc} {t : Text} {x : Value × Text} (h : elements n acc t = .ok x) (hm : n ≤ m) :
    elements m acc t = .ok x := by
  rw [(stable n m hm).2.2 acc t (by rw [h]; exact fun e => by cases e), h]

/-! ## Strings -/

theorem hexValue_hexDigit {n : Nat} (h : n < 16) : hexValue (hexDigit n) = some n := by
  unfold hexDigit hexValue
  split
  · rw [if_pos (by omega)]; congr 1; omega
  · rw [if_neg (by omega), if_pos (by omega)]; congr 1; omega

theorem hex4_digits {n : Nat} (h : n < 65536) :
    hex4 (hexDigit (n / 4096 % 16)) (hexDigit (n / 256 % 16)) (hexDigit (n / 16 % 16)) (hexDigit (n % 16)) = some n := by
  unfold hex4
  rw [hexValue_hexDigit (by omega), hexValue_hexDigit (by omega), hexValue_hexDigit (by omega), hexValue_hexDigit (by omega)]
  show some _ = some _
  congr 1
  omega

/-- No first half of a character is followed by a second half: true of every text Python gets from a
file name, as such a pair is one character. -/
def NoPair : Text → Prop
  | a :: b :: t => ¬ (isHigh a = true ∧ isLow b = true) ∧ NoPair (b :: t)
  | _ => True

theorem scan_unicode {h : Option Nat} {u : Nat} (hu : u < 65536) (r : Text) :
    scanString h (unicodeEscape u ++ r) =
      match h with
      | some hi =>
        if isLow u then prepend [65536 + (hi - 55296) * 1024 + (u - 56320)] (scanString none r)
        else if isHigh u then prepend [hi] (scanString (some u) r)
        else prepend [hi, u] (scanString none r)
      | none =>
        if isHigh u then scanString (some u) r
        else prepend [u] (scanString none r) := by
  have := hex4_digits hu
  unfold unicodeEscape
  simp only [List.cons_append, List.nil_append]
  rw [scanString.eq_def]
  simp only [this]
  cases h <;> rfl

theorem scan_simple {h : Option Nat} {e x : Nat} (he : simpleEscape e = some x) (r : Text) :
    scanString h (92 :: e :: r) = prepend (h.toList ++ [x]) (scanString none r) := by
  have h117 : e ≠ 117 := by rintro rfl; simp [simpleEscape] at he
  rw [scanString.eq_def]
  simp [h117, he]

/-- Reading an escaped string gives the string. -/
theorem scan_escape (r : Text) : ∀ (s : Text) (h : Option Nat), (∀ c ∈ s, c < 1114112) → (∀ hi ∈ h, isHigh hi = true) →
    NoPair (h.toList ++ s) → scanString h (escape s ++ 34 :: r) = .ok (h.toList ++ s, r)
  | [], h, _, _, _ => by
    show scanString h (34 :: r) = _
    rw [scanString.eq_def]; simp
  | c :: s, h, hs, hh, hp => by
    have hc := hs c (List.mem_cons_self ..)
    have ih := fun h' => scan_escape r s h' (fun c hc => hs c (List.mem_cons_of_mem _ hc))
    have hp' : NoPair (c :: s) := by
      cases h with
      | none => exact hp
      | some hi => exact hp.2
    have hp0 : NoPair s := by
      cases s with
      | nil => trivial
      | cons d s => exact hp'.2
    have ih0 : scanString none (escape s ++ 34 :: r) = .ok (s, r) := by
      simpa using ih none (fun _ h => by cases h) (by simpa using hp0)
    show scanString h (escapeChar c ++ escape s ++ 34 :: r) = _
    have simple : ∀ e, simpleEscape e = some c → escapeChar c = [92, e] →
        scanString h (escapeChar c ++ escape s ++ 34 :: r) = .ok (h.toList ++ c :: s, r) := by
      intro e h1 h2
      rw [h2]
      show scanString h (92 :: e :: (escape s ++ 34 :: r)) = _
      rw [scan_simple h1, ih0]
      simp [prepend]
    unfold escapeChar
    repeat' split
    · next e => subst e; exact simple 34 rfl rfl
    · next e => subst e; exact simple 92 rfl rfl
    · next e => subst e; exact simple 98 rfl rfl
    · next e => subst e; exact simple 102 rfl rfl
    · next e => subst e; exact simple 110 rfl rfl
    · next e => subst e; exact simple 114 rfl rfl
    · next e => subst e; exact simple 116 rfl rfl
    · next h1 h2 _ _ _ _ _ h3 =>
      show scanString h (c :: (escape s ++ 34 :: r)) = _
      rw [scanString.eq_def]
      simp only
      rw [if_neg h1, if_neg h2, if_neg (by omega), ih0]
      simp [prepend]
    · next h3 =>
      rw [List.append_assoc, scan_unicode h3]
      cases h with
      | none =>
        simp only [Option.toList_none, List.nil_append]
        split
        · next hi => exact ih (some c) (by simpa using hi) hp'
        · rw [ih0]; rfl
      | some hi =>
        have h1 : isLow c = false := by
          have := hp.1
          have h2 := hh hi rfl
          cases hl : isLow c
          · rfl
          · exact absurd ⟨h2, hl⟩ this
        simp only [h1, Bool.false_eq_true, if_false]
        split
        · next hi' =>
          rw [ih (some c) (by simpa using hi') hp']; rfl
        · rw [ih0]; rfl
    · next h3 =>
      have b1 : (c - 65536) / 1024 < 1024 := by omega
      have b2 : (c - 65536) % 1024 < 1024 := by omega
      have hi1 : isHigh (55296 + (c - 65536) / 1024) = true := by simp [isHigh]; omega
      have hl1 : isLow (55296 + (c - 65536) / 1024) = false := by simp [isLow]; omega
      have hl2 : isLow (56320 + (c - 65536) % 1024) = true := by simp [isLow]; omega
      have hval : 65536 + (55296 + (c - 65536) / 1024 - 55296) * 1024 + (56320 + (c - 65536) % 1024 - 56320) = c := by omega
      rw [List.append_assoc, List.append_assoc, scan_unicode (by omega)]
      cases h with
      | none =>
        simp only [hi1, if_true]
        rw [scan_unicode (by omega)]
        simp only [hl2, if_true, hval, ih0]
        rfl
      | some hi =>
        simp only [hl1, hi1, if_true, Bool.false_eq_true, if_false]
        rw [scan_unicode (by omega)]
        simp only [hl2, if_true, hval, ih0]
        rfl

/-- A string which Python writes and reads back. -/
def Plain (s : Text) : Prop := (∀ c ∈ s, c < 1114112) ∧ NoPair s

theorem scan_dump {s : Text} (h : Plain s) (r : Text) : scanString none (escape s ++ 34 :: r) = .ok (s, r) := by
  simpa using scan_escape r s none h.1 (fun _ h => by cases h) (by simpa using h.2)

theorem dumpStr_append (s r : Text) : dumpStr s ++ r = 34 :: (escape s ++ 34 :: r) := by simp [dumpStr]

theorem reads_str {s : Text} (h : Plain s) (r : Text) : Reads (dumpStr s ++ r) (.str s) r := by
  refine ⟨1, ?_⟩
  rw [dumpStr_append]
  simp only [value, eat_self, scan_dump h]

/-- The strings of Lean are such. -/
theorem plain_txt (s : String) : Plain (txt s) := by
  have key : ∀ l : List Char, Plain (l.map Char.toNat) := by
    intro l
    refine ⟨fun c hc => ?_, ?_⟩
    · obtain ⟨x, _, rfl⟩ := List.mem_map.1 hc
      have := x.valid
      rcases this with h | h <;> (simp only [Char.toNat]; omega)
    · induction l with
      | nil => trivial
      | cons a l ih =>
        cases l with
        | nil => trivial
        | cons b l =>
          refine ⟨fun h => ?_, ih⟩
          have := a.valid
          simp only [isHigh, Bool.and_eq_true, decide_eq_true_eq] at h
          have ha : a.toNat = a.val.toNat := rfl
          rcases this with h' | h' <;> omega
  exact key _

/-! ## Lists of strings -/

theorem reads_elements {l : List Text} (hl : ∀ s ∈ l, Plain s) (hne : l ≠ []) (acc : List Value) (r : Text) :
    ReadsElements acc (commas (l.map dumpStr) ++ 93 :: r) (.arr (acc ++ l.map .str)) r := by
  induction l generalizing acc with
  | nil => exact absurd rfl hne
  | cons s l ih =>
    cases l with
    | nil =>
      obtain ⟨n, hn⟩ := reads_str (hl s (List.mem_cons_self ..)) (93 :: r)
      refine ⟨n + 1, ?_⟩
      show elements (n + 1) acc (dumpStr s ++ 93 :: r) = _
      simp only [elements, hn, ws_cons (show isSpace 93 = false from rfl), eat_self]
      rfl
    | cons b l =>
      obtain ⟨m, hm⟩ := ih (fun s hs => hl s (List.mem_cons_of_mem _ hs)) (by simp) (acc ++ [.str s])
      obtain ⟨n, hn⟩ := reads_str (hl s (List.mem_cons_self ..)) (44 :: 32 :: (commas ((b :: l).map dumpStr) ++ 93 :: r))
      refine ⟨max n m + 1, ?_⟩
      have e : commas ((s :: b :: l).map dumpStr) ++ 93 :: r =
          dumpStr s ++ 44 :: 32 :: (commas ((b :: l).map dumpStr) ++ 93 :: r) := by
        simp [commas]
      have hw : ws (32 :: (commas ((b :: l).map dumpStr) ++ 93 :: r)) = commas ((b :: l).map dumpStr) ++ 93 :: r := by
        have : ∃ q, commas ((b :: l).map dumpStr) ++ 93 :: r = 34 :: q := by
          cases l with
          | nil => exact ⟨_, rfl⟩
          | cons c l => exact ⟨_, rfl⟩
        obtain ⟨q, hq⟩ := this
        rw [hq]; rfl
      rw [e]
      simp only [elements, value_mono hn (Nat.le_max_left ..), ws_cons (show isSpace 44 = false from rfl), eat_self,
        eat_ne (show (44 : Nat) ≠ 93 by decide), hw, members_mono, elements_mono hm (Nat.le_max_right ..)]
      simp

theorem reads_strs {l : List Text} (hl : ∀ s ∈ l, Plain s) (r : Text) : Reads (dumpStrs l ++ r) (.arr (l.map .str)) r := by
  cases l with
  | nil => exact ⟨1, rfl⟩
  | cons s l =>
    obtain ⟨n, hn⟩ := reads_elements hl (by simp) [] r
    refine ⟨n + 1, ?_⟩
    have e : dumpStrs (s :: l) ++ r = 91 :: (commas ((s :: l).map dumpStr) ++ 93 :: r) := by simp [dumpStrs]
    have : ∃ q, commas ((s :: l).map dumpStr) ++ 93 :: r = 34 :: q := by
      cases l with
      | nil => exact ⟨_, rfl⟩
      | cons c l => exact ⟨_, rfl⟩
    obtain ⟨q, hq⟩ := this
    rw [e]
    simp only [value, eat_self, eat_ne (show (91 : Nat) ≠ 34 by decide), eat_ne (show (91 : Nat) ≠ 123 by decide)]
    rw [hq] at hn ⊢
    simp only [ws_cons (show isSpace 34 = false from rfl), eat_ne (show (34 : Nat) ≠ 93 by decide), hn]
    rfl

/-! ## Numbers -/

theorem natOf_append (a b : Text) (acc : Nat) : (a ++ b).foldl (fun a d => a * 10 + (d - 48)) acc =
    b.foldl (fun a d => a * 10 + (d - 48)) (a.foldl (fun a d => a * 10 + (d - 48)) acc) := List.foldl_append ..

theorem natOf_digits (l : List Nat) : natOf (l.reverse.map (48 + ·)) = Nat.ofDigits 10 l := by
  induction l with
  | nil => rfl
  | cons d l ih =>
    unfold natOf at ih ⊢
    rw [List.reverse_cons, List.map_append, natOf_append, ih, Nat.ofDigits_cons]
    simp only [List.map_cons, List.map_nil, List.foldl_cons, List.foldl_nil]
    omega

theorem natOf_showNat (n : Nat) : natOf (showNat n) = n := by
  unfold showNat
  split
  · next h => rw [h]; rfl
  · rw [natOf_digits, Nat.ofDigits_digits]

theorem showNat_digits {n c : Nat} (h : c ∈ showNat n) : isDigit c = true := by
  unfold showNat at h
  split at h
  · simp only [List.mem_singleton] at h; subst h; rfl
  · obtain ⟨d, hd, rfl⟩ := List.mem_map.1 h
    have := Nat.digits_lt_base (by decide : 1 < 10) (List.mem_reverse.1 hd)
    simp [isDigit]; omega

theorem showNat_cons {n : Nat} (h : n ≠ 0) : ∃ d q, showNat n = d :: q ∧ d ≠ 48 := by
  unfold showNat
  rw [if_neg h]
  have hne : Nat.digits 10 n ≠ [] := Nat.digits_ne_nil_iff_ne_zero.2 h
  have hl := Nat.getLast_digit_ne_zero 10 h
  obtain ⟨l, d, hd⟩ : ∃ l d, Nat.digits 10 n = l ++ [d] := ⟨_, _, (List.dropLast_append_getLast hne).symm⟩
  have : (Nat.digits 10 n).getLast hne = d := by simp [hd]
  rw [hd]
  refine ⟨48 + d, l.reverse.map (48 + ·), by simp, ?_⟩
  rw [this] at hl
  omega

theorem unsigned_showNat (neg : Bool) (n : Nat) :
    unsigned neg (showNat n) = some (.int (if neg then - (n : Int) else n), []) := by
  have hi : intPart (showNat n) = some (showNat n, []) := by
    by_cases h : n = 0
    · subst h; rfl
    · obtain ⟨d, q, e, hd⟩ := showNat_cons h
      have hall : ∀ c ∈ showNat n, isDigit c = true := fun c hc => showNat_digits hc
      rw [e] at hall ⊢
      have hq : ∀ c ∈ q, isDigit c = true := fun c hc => hall c (List.mem_cons_of_mem _ hc)
      have hspan : ∀ q : Text, (∀ c ∈ q, isDigit c = true) → q.takeWhile isDigit = q ∧ q.dropWhile isDigit = [] := by
        intro q
        induction q with
        | nil => exact fun _ => ⟨rfl, rfl⟩
        | cons c q ih =>
          intro h
          have := ih (fun c hc => h c (List.mem_cons_of_mem _ hc))
          simp [h c (List.mem_cons_self ..), this.1, this.2]
      obtain ⟨h1, h2⟩ := hspan q hq
      simp only [intPart, eat_ne hd, digits1, hall d (List.mem_cons_self ..), if_true, h1, h2]
  simp only [unsigned, hi]
  rw [show fracPart [] = ([], []) from rfl, show expPart [] = ([], []) from rfl]
  simp [natOf_showNat]

theorem number_showInt (n : Int) : number (showInt n) = some (.int n, []) := by
  cases n with
  | ofNat n =>
    have : eat 45 (showNat n) = none := by
      cases h : showNat n with
      | nil => rfl
      | cons c q =>
        have hc := showNat_digits (n := n) (c := c) (by rw [h]; exact List.mem_cons_self ..)
        refine eat_ne ?_ _
        rintro rfl
        cases hc
    show number (showNat n) = _
    rw [number, this]
    exact unsigned_showNat false n
  | negSucc n =>
    show number (45 :: showNat (n + 1)) = _
    rw [number, eat_self]
    simp only [unsigned_showNat]
    rfl

theorem stop_of (c : Nat) (r : Text) (h : isDigit c = false ∧ c ≠ 46 ∧ c ≠ 101 ∧ c ≠ 69 := by decide) : Stop (c :: r) := ⟨c, r, rfl, h⟩

theorem reads_number {t r : Text} {v : Value} (h : number t = some (v, [])) (hr : Stop r) : Reads (t ++ r) v r := by
  refine ⟨1, ?_⟩
  have ha := number_append h hr
  obtain ⟨d, q, hd, ht⟩ := number_head ha
  have hb : 48 ≤ d ∧ d ≤ 57 := by simpa [isDigit] using hd
  have hat := (atom_number hd ht).trans ha
  have he : ∀ c, c ≠ 45 → ¬ (48 ≤ c ∧ c ≤ 57) → eat c (t ++ r) = none := by
    intro c h1 h2
    rcases ht with h | h <;> rw [h]
    · exact eat_ne (by rintro rfl; exact h2 hb) _
    · exact eat_ne (fun e => h1 e.symm) _
  simp only [value, he 34 (by decide) (by decide), he 123 (by decide) (by decide), he 91 (by decide) (by decide), hat,
    List.nil_append]

/-! ## Objects -/

theorem dumpStr_cons (s : Text) : ∃ q, dumpStr s = 34 :: q := ⟨_, rfl⟩

/-- The first character of a value is not whitespace. -/
theorem Reads.head {t r : Text} {v : Value} (h : Reads t v r) : ws t = t := by
  obtain ⟨n, hn⟩ := h
  cases t with
  | nil => rfl
  | cons c t =>
    by_cases hc : isSpace c = true
    · exfalso
      have : c = 32 ∨ c = 9 ∨ c = 10 ∨ c = 13 := by simpa [isSpace, or_assoc] using hc
      cases n with
      | zero => simp [value] at hn
      | succ n =>
        have ha : atom (c :: t) = none := by
          rcases hx : atom (c :: t) with _ | ⟨v, r⟩
          · rfl
          · exfalso
            have hw : ∀ d w, word (d :: w) (c :: t) = some r → d = c := by
              intro d w h
              obtain ⟨q, hq⟩ := word_head h
              cases hq; rfl
            rcases atom_cases hx with hnum | ⟨d, w, hd, hall⟩
            · obtain ⟨d, q, hd, hq⟩ := number_head hnum
              have hb : 48 ≤ d ∧ d ≤ 57 := by simpa [isDigit] using hd
              rcases hq with hq | hq <;> cases hq <;> omega
            · unfold atom at hx
              repeat' split at hx
              all_goals first
                | (next e => cases hx; have := hw _ _ e; omega)
                | (obtain ⟨d, q, hd, hq⟩ := number_head hx
                   have hb : 48 ≤ d ∧ d ≤ 57 := by simpa [isDigit] using hd
                   rcases hq with hq | hq <;> cases hq <;> omega)
        have he : ∀ d, d ≠ 32 → d ≠ 9 → d ≠ 10 → d ≠ 13 → eat d (c :: t) = none := by
          intro d h1 h2 h3 h4
          exact eat_ne (by omega) _
        simp only [value, he 34 (by decide) (by decide) (by decide) (by decide),
          he 123 (by decide) (by decide) (by decide) (by decide),
          he 91 (by decide) (by decide) (by decide) (by decide), ha] at hn
        cases hn
    · exact ws_cons (by simpa using hc) t

/-- One key with its value, and more after a comma. -/
theorem reads_member {k t u r : Text} {v o : Value} {acc : List (Text × Value)} (hk : Plain k) {sp : Text}
    (hsp : sp = [] ∨ sp = [32]) {sq : Text} (hsq : sq = [] ∨ sq = [32])
    (hv : Reads (t ++ 44 :: (sq ++ u)) v (44 :: (sq ++ u))) (hu : ws u = u)
    (hm : ReadsMembers (Assoc.put acc k v) u o r) :
    ReadsMembers acc (dumpStr k ++ 58 :: (sp ++ (t ++ 44 :: (sq ++ u)))) o r := by
  obtain ⟨n, hn⟩ := id hv
  obtain ⟨m, hm⟩ := hm
  refine ⟨max n m + 1, ?_⟩
  have h1 : ws (sp ++ (t ++ 44 :: (sq ++ u))) = t ++ 44 :: (sq ++ u) := by
    rcases hsp with rfl | rfl
    · exact hv.head
    · show ws (t ++ _) = _; exact hv.head
  have h2 : ws (sq ++ u) = u := by
    rcases hsq with rfl | rfl
    · exact hu
    · exact hu
  rw [dumpStr_append]
  simp only [members, eat_self, scan_dump hk, ws_cons (show isSpace 58 = false from rfl), h1,
    value_mono hn (Nat.le_max_left ..), ws_cons (show isSpace 44 = false from rfl), eat_ne (show (44 : Nat) ≠ 125 by decide),
    h2, members_mono hm (Nat.le_max_right ..)]

/-- The last key with its value. -/
theorem reads_last {k t r : Text} {v : Value} {acc : List (Text × Value)} (hk : Plain k) {sp : Text}
    (hsp : sp = [] ∨ sp = [32]) (hv : Reads (t ++ 125 :: r) v (125 :: r)) :
    ReadsMembers acc (dumpStr k ++ 58 :: (sp ++ (t ++ 125 :: r))) (.obj (Assoc.put acc k v)) r := by
  obtain ⟨n, hn⟩ := id hv
  refine ⟨n + 1, ?_⟩
  have h1 : ws (sp ++ (t ++ 125 :: r)) = t ++ 125 :: r := by
    rcases hsp with rfl | rfl
    · exact hv.head
    · show ws (t ++ _) = _; exact hv.head
  rw [dumpStr_append]
  simp only [members, eat_self, scan_dump hk, ws_cons (show isSpace 58 = false from rfl), h1, hn,
    ws_cons (show isSpace 125 = false from rfl)]

theorem reads_obj {k t r : Text} {o : Value} (h : ReadsMembers [] (dumpStr k ++ t) o r) : Reads (123 :: (dumpStr k ++ t)) o r := by
  obtain ⟨n, hn⟩ := h
  refine ⟨n + 1, ?_⟩
  rw [dumpStr_append] at hn ⊢
  simp only [value, eat_ne (show (123 : Nat) ≠ 34 by decide), eat_self, ws_cons (show isSpace 34 = false from rfl),
    eat_ne (show (34 : Nat) ≠ 125 by decide), hn]

/-! ## The graph -/

/-- Python's floats, and the JSON of them, for one value: what is written is the text of a number,
and reading it gives the value again.  This is what the documentation of `float.__repr__` says of
every finite float, and of the digits of an integer. -/
def Floats.Exact (F : Floats) (q : Rat) : Prop := ∃ v, number (F.shown q) = some (v, []) ∧ v.num F = some q

def metaValue (m : Graph.Meta) (mt : Value) : Value :=
  .obj [(txt "filesize", .int m.filesize), (txt "mtime", mt), (txt "inode", .int m.inode)]

theorem reads_meta {F : Floats} {m : Graph.Meta} {mt : Value} (h : number (F.shown m.mtime) = some (mt, [])) (r : Text) :
    Reads (metaText F m ++ r) (metaValue m mt) r := by
  have e : metaText F m ++ r = 123 :: (dumpStr (txt "filesize") ++ 58 :: ([32] ++ (showInt m.filesize ++ 44 :: ([32] ++
    (dumpStr (txt "mtime") ++ 58 :: ([32] ++ (F.shown m.mtime ++ 44 :: ([32] ++
      (dumpStr (txt "inode") ++ 58 :: ([32] ++ (showInt m.inode ++ 125 :: r))))))))))) := by
    simp [metaText]
  have hws : ∀ k t, ws (dumpStr k ++ t) = dumpStr k ++ t := fun k t => by
    rw [dumpStr_append]; exact ws_cons rfl _
  have h3 := reads_last (acc := Assoc.put (Assoc.put [] (txt "filesize") (.int m.filesize)) (txt "mtime") mt)
    (plain_txt "inode") (.inr rfl) (reads_number (number_showInt m.inode) (stop_of 125 r))
  have h2 := reads_member (acc := Assoc.put [] (txt "filesize") (.int m.filesize)) (plain_txt "mtime") (.inr rfl) (.inr rfl)
    (reads_number h (stop_of 44 _)) (hws _ _) h3
  have h1 := reads_member (acc := []) (plain_txt "filesize") (.inr rfl) (.inr rfl)
    (reads_number (number_showInt m.filesize) (stop_of 44 _)) (hws _ _) h2
  rw [e]
  exact reads_obj h1

def nodeValue (n : Graph.Node) (mt : Value) : Value :=
  .obj [(txt "parents", .arr ((n.parents.map txt).map .str)), (txt "children", .arr ((n.children.map txt).map .str)),
    (txt "metadata", metaValue n.info mt)]

theorem reads_node {F : Floats} {n : Graph.Node} {mt : Value} (h : number (F.shown n.info.mtime) = some (mt, [])) (r : Text) :
    Reads (nodeText F n ++ r) (nodeValue n mt) r := by
  have e : nodeText F n ++ r = 123 :: (dumpStr (txt "parents") ++ 58 :: ([] ++ (dumpStrs (n.parents.map txt) ++ 44 :: ([] ++
    (dumpStr (txt "children") ++ 58 :: ([] ++ (dumpStrs (n.children.map txt) ++ 44 :: ([] ++
      (dumpStr (txt "metadata") ++ 58 :: ([] ++ (metaText F n.info ++ 125 :: r))))))))))) := by
    simp [nodeText]
  have hws : ∀ k t, ws (dumpStr k ++ t) = dumpStr k ++ t := fun k t => by
    rw [dumpStr_append]; exact ws_cons rfl _
  have hpl : ∀ l : List String, ∀ s ∈ l.map txt, Plain s := by
    intro l s hs
    obtain ⟨x, _, rfl⟩ := List.mem_map.1 hs
    exact plain_txt x
  have h3 := reads_last (acc := Assoc.put (Assoc.put [] (txt "parents") (.arr ((n.parents.map txt).map .str)))
    (txt "children") (.arr ((n.children.map txt).map .str)))
    (plain_txt "metadata") (.inl rfl) (reads_meta h (125 :: r))
  have h2 := reads_member (acc := Assoc.put [] (txt "parents") (.arr ((n.parents.map txt).map .str)))
    (plain_txt "children") (.inl rfl) (.inl rfl) (reads_strs (hpl n.children) _) (hws _ _) h3
  have h1 := reads_member (acc := []) (plain_txt "parents") (.inl rfl) (.inl rfl)
    (reads_strs (hpl n.parents) _) (hws _ _) h2
  rw [e]
  exact reads_obj h1

/-- What is read from the text of a float. -/
def shownValue (F : Floats) (q : Rat) : Value := ((number (F.shown q)).map (·.1)).getD .null

theorem Floats.Exact.value {F : Floats} {q : Rat} (h : F.Exact q) :
    number (F.shown q) = some (shownValue F q, []) ∧ (shownValue F q).num F = some q := by
  obtain ⟨v, h1, h2⟩ := h
  have : shownValue F q = v := by simp [shownValue, h1]
  rw [this]; exact ⟨h1, h2⟩

def graphItems (F : Floats) (g : Graph.Graph) : List (Text × Value) :=
  g.map (fun e => (txt e.1, nodeValue e.2 (shownValue F e.2.info.mtime)))

theorem put_new {d : List (Text × Value)} {k : Text} {v : Value} (h : k ∉ d.map (·.1)) : Assoc.put d k v = d ++ [(k, v)] := by
  induction d with
  | nil => rfl
  | cons p d ih =>
    simp only [List.map_cons, List.mem_cons, not_or] at h
    simp only [Assoc.put]
    rw [if_neg (fun e => h.1 e.symm), ih h.2]
    rfl

/-- The mtimes of all files of the graph are floats which Python writes and reads. -/
def FloatsFit (F : Floats) (g : Graph.Graph) : Prop := ∀ p n, (p, n) ∈ g → F.Exact n.info.mtime

theorem reads_nodes {F : Floats} {g : Graph.Graph} (hne : g ≠ []) (hF : FloatsFit F g) (acc : List (Text × Value))
    (hn : ((acc ++ graphItems F g).map (·.1)).Nodup) (r : Text) :
    ReadsMembers acc (nodesText F g ++ 125 :: r) (.obj (acc ++ graphItems F g)) r := by
  induction g generalizing acc with
  | nil => exact absurd rfl hne
  | cons e g ih =>
    obtain ⟨p, n⟩ := e
    have hx := (hF p n (List.mem_cons_self ..)).value
    have hput : ∀ v, Assoc.put acc (txt p) v = acc ++ [(txt p, v)] := by
      intro v
      apply put_new
      simp only [graphItems, List.map_append, List.map_cons, List.nodup_append, List.mem_cons] at hn
      intro h
      exact hn.2.2 _ h _ (.inl rfl) rfl
    cases g with
    | nil =>
      have := reads_last (acc := acc) (plain_txt p) (.inl rfl) (reads_node hx.1 (125 :: r))
      rw [hput] at this
      simpa [nodesText, graphItems] using this
    | cons e g =>
      have h2 := ih (by simp) (fun p n h => hF p n (List.mem_cons_of_mem _ h))
        (acc ++ [(txt p, nodeValue n (shownValue F n.info.mtime))]) (by simpa [graphItems] using hn)
      have hws : ws (nodesText F (e :: g) ++ 125 :: r) = nodesText F (e :: g) ++ 125 :: r := by
        cases g with
        | nil => exact ws_cons (c := 34) rfl _
        | cons e' g => exact ws_cons (c := 34) rfl _
      have := reads_member (acc := acc) (plain_txt p) (.inl rfl) (.inl rfl) (reads_node hx.1 _) hws
        (by rw [hput]; exact h2)
      simpa [nodesText, graphItems] using this

theorem txt_inj {a b : String} (h : txt a = txt b) : a = b := by
  have key : ∀ l m : List Char, l.map Char.toNat = m.map Char.toNat → l = m := by
    intro l
    induction l with
    | nil => intro m h; cases m with
      | nil => rfl
      | cons c m => cases h
    | cons c l ih =>
      intro m h
      cases m with
      | nil => cases h
      | cons d m =>
        simp only [List.map_cons, List.cons.injEq] at h
        rw [ih m h.2, Char.toNat_inj.1 h.1]
  exact String.ext (key _ _ h)

theorem untxt_txt (s : String) : untxt (txt s) = s := by
  unfold untxt txt
  rw [List.map_map]
  have : (Char.ofNat ∘ Char.toNat) = id := by
    funext c; exact Char.ofNat_toNat c
  rw [this, List.map_id, String.ofList_toList]

/-- The text up to the last brace. -/
theorem reads_closed {F : Floats} {g : Graph.Graph} (hg : g.NodupKeys) (hF : FloatsFit F g) (r : Text) :
    Reads (123 :: (nodesText F g ++ 125 :: r)) (.obj (graphItems F g)) r := by
  cases g with
  | nil => exact ⟨1, rfl⟩
  | cons e g =>
    have hn : ((graphItems F (e :: g)).map (·.1)).Nodup := by
      have : (graphItems F (e :: g)).map (·.1) = ((e :: g).map (·.1)).map txt := by
        simp [graphItems, Function.comp_def]
      rw [this]
      exact hg.map (fun a b h => txt_inj h)
    have h := reads_nodes (by simp) hF [] (by simpa using hn) r
    have e1 : ∃ t, nodesText F (e :: g) ++ 125 :: r = dumpStr (txt e.1) ++ t := by
      cases g with
      | nil => exact ⟨58 :: (nodeText F e.2 ++ 125 :: r), by simp [nodesText]⟩
      | cons e' g => exact ⟨58 :: (nodeText F e.2 ++ 44 :: (nodesText F (e' :: g) ++ 125 :: r)), by simp [nodesText]⟩
    obtain ⟨t, ht⟩ := e1
    rw [ht] at h
    have := reads_obj h
    rw [← ht] at this
    exact this

/-- The whole text, and nothing is left but the newline. -/
theorem reads_store {F : Floats} {g : Graph.Graph} (hg : g.NodupKeys) (hF : FloatsFit F g) :
    Reads (storeText F g) (.obj (graphItems F g)) [10] := reads_closed hg hF [10]

theorem asStrs_txt (l : List String) : (Value.arr ((l.map txt).map .str)).asStrs = some l := by
  show ((l.map txt).map Value.str).mapM Value.asStr = some l
  induction l with
  | nil => rfl
  | cons a l ih =>
    rw [List.map_cons, List.map_cons, List.mapM_cons, ih]
    simp [Value.asStr, untxt_txt]

theorem entry_node {F : Floats} {n : Graph.Node} {mt : Value} (h : mt.num F = some n.info.mtime) :
    entry F (nodeValue n mt) = some (n.parents, n.children, n.info) := by
  have k1 : (nodeValue n mt).key "metadata" = some (metaValue n.info mt) := rfl
  have k2 : (nodeValue n mt).key "parents" = some (.arr ((n.parents.map txt).map .str)) := rfl
  have k3 : (nodeValue n mt).key "children" = some (.arr ((n.children.map txt).map .str)) := rfl
  have k4 : (metaValue n.info mt).key "mtime" = some mt := rfl
  have k5 : (metaValue n.info mt).key "filesize" = some (.int n.info.filesize) := rfl
  have k6 : (metaValue n.info mt).key "inode" = some (.int n.info.inode) := rfl
  unfold entry
  simp only [k1, k2, k3, k4, k5, k6, h, asStrs_txt, Value.asInt, Option.bind_eq_bind, Option.bind_some, Option.pure_def]

theorem entries_graph {F : Floats} {g : Graph.Graph} (hF : FloatsFit F g) :
    entries F (.obj (graphItems F g)) = some (Graph.store g) := by
  show (graphItems F g).mapM _ = _
  induction g with
  | nil => rfl
  | cons e g ih =>
    have hx := (hF e.1 e.2 (List.mem_cons_self ..)).value
    have := ih (fun p n h => hF p n (List.mem_cons_of_mem _ h))
    simp only [graphItems, List.map_cons, List.mapM_cons, entry_node hx.2, Option.map_some, untxt_txt] at this ⊢
    rw [this]
    rfl

theorem loads_of_reads {t : Text} {v : Value} {r : Text} (h : Reads t v r) (hr : ws r = []) : loads t = .ok v := by
  have hv : value (2 * t.length + 1) t = .ok (v, r) := by
    obtain ⟨n, hn⟩ := id h
    have h1 := (enough (2 * t.length + 1)).1 t (le_refl _)
    rcases Nat.le_total n (2 * t.length + 1) with hle | hle
    · exact value_mono hn hle
    · rw [← (stable _ _ hle).1 t h1, hn]
  unfold loads
  rw [h.head, hv]
  simp [hr]

/-- C08, with the text: the text of a stored graph is read as that graph. -/
theorem loadText_storeText {F : Floats} {g : Graph.Graph} (hg : g.NodupKeys) (hF : FloatsFit F g) :
    loadText F (storeText F g) = .ok (Graph.load (Graph.store g)) := by
  unfold loadText
  rw [loads_of_reads (reads_store hg hF) rfl]
  simp only [entries_graph hF]

/-- C08, with the text of the file: a graph which is stored after any history of calls is read from its
text with the same files, metadata and ordered parent and child lists, and `==` says so. -/
theorem C08_text {F : Floats} {g : Graph.Graph} (hg : Graph.Valid g) (hF : FloatsFit F g) :
    ∃ g', loadText F (storeText F g) = .ok g' ∧ Graph.SameContent g' g ∧ Graph.graphEq g' g = some true :=
  ⟨_, loadText_storeText hg.wf.nodup hF, Graph.C08_store_load_history hg⟩

/-- C113: of the texts which `store` has written when it is interrupted, only the complete one, with or
without the newline at its end, is read; every other one is refused. -/
theorem C113_torn {F : Floats} {g : Graph.Graph} (hg : Graph.Valid g) (hF : FloatsFit F g) {p s : Text}
    (h : p ++ s = storeText F g) :
    (s = [] ∨ s = [10] → loadText F p = loadText F (storeText F g)) ∧
      (s ≠ [] → s ≠ [10] → loadText F p = .error .valueError) := by
  have hall := reads_store hg.wf.nodup hF
  have key : ∀ {v r}, value (2 * p.length + 1) (ws p) = .ok (v, r) → ws r = [] →
      v = .obj (graphItems F g) ∧ r ++ s = [10] := by
    intro v r hv hr
    have hp : p ≠ [] := by
      rintro rfl
      simp [value, ws, eat, atom, word, number, unsigned, intPart, digits1] at hv
    obtain ⟨q, hq⟩ : ∃ q, p = 123 :: q := by
      cases p with
      | nil => exact absurd rfl hp
      | cons c q =>
        have : c = 123 := by
          have := h
          simp only [storeText, List.cons_append, List.cons.injEq] at this
          exact this.1
        exact ⟨q, by rw [this]⟩
    have hw : ws p = p := by rw [hq]; exact ws_cons rfl _
    rw [hw] at hv
    have hsol : v.Solid := by
      have hv' := hv
      rw [hq] at hv'
      simp only [value, eat_ne (show (123 : Nat) ≠ 34 by decide), eat_self] at hv'
      split at hv'
      · cases hv'; trivial
      · exact members_solid hv'
    have h1 := (longer s _).1 _ _ _ hv (.inl hsol)
    rw [h] at h1
    obtain ⟨n, hn⟩ := hall
    have h2 := value_mono h1 (Nat.le_max_left (2 * p.length + 1) n)
    have h3 := value_mono hn (Nat.le_max_right (2 * p.length + 1) n)
    rw [h2] at h3
    simp only [Except.ok.injEq, Prod.mk.injEq] at h3
    exact h3
  constructor
  · rintro (rfl | rfl)
    · rw [← h, List.append_nil]
    · have hp : p = 123 :: (nodesText F g ++ [125]) := by
        have : p ++ [10] = 123 :: (nodesText F g ++ [125]) ++ [10] := by rw [h]; simp [storeText]
        exact (List.append_left_inj _).1 this
      unfold loadText
      rw [loads_of_reads (reads_store hg.wf.nodup hF) rfl, hp, loads_of_reads (reads_closed hg.wf.nodup hF []) rfl]
  · intro h1 h2
    have hl : loads p = .error .decode := by
      unfold loads
      rcases hv : value (2 * p.length + 1) (ws p) with e | ⟨v, r⟩
      · cases e with
        | decode => rfl
        | fuel =>
          have h3 := ws_length p
          exact absurd hv ((enough _).1 _ (by omega))
      · simp only
        by_cases hr : ws r = []
        · exfalso
          have h3 := (key hv hr).2
          cases r with
          | nil => exact h2 h3
          | cons c r =>
            simp only [List.cons_append, List.cons.injEq, List.append_eq_nil_iff] at h3
            exact h1 h3.2.2
        · rw [if_neg hr]
    unfold loadText
    rw [hl]

end Verif.JsonText
