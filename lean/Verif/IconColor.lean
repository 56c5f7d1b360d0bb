import Verif.JsTok

/-!
Model of `vanillaplusjs/build/css/manips/icons/color.py`, and C51.

`int(s, 16)` is a parameter, of which only the value for two hexadecimal digits is used.
-/

namespace Verif.Icons

open Verif.Reader Verif.Js

/-- color.py:4-10. -/
structure Color where
  red : Int
  green : Int
  blue : Int
  deriving DecidableEq, Repr

inductive Err where
  /-- IndexError of `hex_str[0]` for the empty string -/
  | index
  | value
  deriving DecidableEq, Repr

/-- The three components. -/
def three (a b c : Option Int) : Except Err Color :=
  match a, b, c with
  | some r, some g, some b => .ok ⟨r, g, b⟩
  | _, _, _ => .error .value

/-- color.py:12-35; `int16 s` is `int(s, 16)`. -/
def fromHex (int16 : Text → Option Int) (s : Text) : Except Err Color :=
  match s with
  | [] => .error .index
  | c :: _ =>
    if c ≠ 35 then .error .value
    else if s.length = 7 then
      three (int16 ((s.drop 1).take 2)) (int16 ((s.drop 3).take 2)) (int16 ((s.drop 5).take 2))
    else if s.length = 4 then
      three (int16 ((s.drop 1).take 1 ++ (s.drop 1).take 1)) (int16 ((s.drop 2).take 1 ++ (s.drop 2).take 1))
        (int16 ((s.drop 3).take 1 ++ (s.drop 3).take 1))
    else .error .value

/-- A digit in upper case. -/
def upperHex (d : Nat) : Nat := if d < 10 then 48 + d else 55 + d

/-- The digits of a number, at least one. -/
def upperDigits : Nat → Nat → Text
  | 0, _ => []
  | fuel + 1, n => (if n < 16 then [] else upperDigits fuel (n / 16)) ++ [upperHex (n % 16)]

/-- `f"{n:02X}"`: at least two characters, zeros behind the sign. -/
def format02X (n : Int) : Text :=
  let ds := upperDigits (n.natAbs + 1) n.natAbs
  if n < 0 then 45 :: ds else if ds.length < 2 then 48 :: ds else ds

/-- color.py:37-38. -/
def toHex (c : Color) : Text := 35 :: (format02X c.red ++ format02X c.green ++ format02X c.blue)

/-! ## Specification -/

/-- Every component is a byte. -/
def Color.Valid (c : Color) : Prop :=
  (0 ≤ c.red ∧ c.red ≤ 255) ∧ (0 ≤ c.green ∧ c.green ≤ 255) ∧ (0 ≤ c.blue ∧ c.blue ≤ 255)

/-- What `int(s, 16)` does with two hexadecimal digits. -/
def HexPairs (int16 : Text → Option Int) : Prop :=
  ∀ a b, isHex a = true → isHex b = true → int16 [a, b] = some ((16 * hexVal a + hexVal b : Nat) : Int)

/-- Upper case of a hexadecimal digit. -/
def toUpper (c : Nat) : Nat := if 97 ≤ c ∧ c ≤ 122 then c - 32 else c

/-! ## C51 -/

theorem isHex_upper {d : Nat} (h : d < 16) : isHex (upperHex d) = true ∧ hexVal (upperHex d) = d := by
  unfold upperHex isHex hexVal
  split
  · constructor
    · simp; omega
    · split
      · omega
      · omega
  · constructor
    · simp; omega
    · split
      · omega
      · split
        · omega
        · omega

theorem upper_hexVal {c : Nat} (h : isHex c = true) : hexVal c < 16 ∧ upperHex (hexVal c) = toUpper c := by
  simp only [isHex, Bool.or_eq_true, Bool.and_eq_true, decide_eq_true_eq] at h
  unfold hexVal upperHex toUpper
  constructor
  · split <;> (try split) <;> omega
  · split <;> (try split) <;> (try split) <;> (try split) <;> omega

theorem format_byte {n : Int} (h0 : 0 ≤ n) (h1 : n ≤ 255) :
    format02X n = [upperHex (n.toNat / 16), upperHex (n.toNat % 16)] := by
  obtain ⟨k, rfl⟩ := Int.eq_ofNat_of_zero_le h0
  have hk : k ≤ 255 := by omega
  have e : ((k : Int).natAbs) = k := by simp
  have e' : ((k : Int).toNat) = k := by simp
  have hneg : ¬ (k : Int) < 0 := by omega
  simp only [format02X, e, e', if_neg hneg]
  by_cases h : k < 16
  · have : upperDigits (k + 1) k = [upperHex (k % 16)] := by simp [upperDigits, h]
    rw [this]
    have h2 : k / 16 = 0 := by omega
    simp [h2, upperHex]
  · have hd : k / 16 < 16 := by omega
    have : upperDigits (k + 1) k = [upperHex (k / 16), upperHex (k % 16)] := by
      obtain ⟨m, hm⟩ : ∃ m, k = m + 1 := ⟨k - 1, by omega⟩
      have h3 : upperDigits k (k / 16) = [upperHex (k / 16)] := by
        rw [hm] at hd ⊢
        simp only [upperDigits, if_pos hd, List.nil_append]
        rw [Nat.mod_eq_of_lt hd]
      simp only [upperDigits, if_neg h, h3]
      simp
    rw [this]
    simp

/-- C51: parsing the hex form of a color gives the color back. -/
theorem C51_parse {int16 : Text → Option Int} (hi : HexPairs int16) {c : Color} (hc : c.Valid) :
    fromHex int16 (toHex c) = .ok c := by
  obtain ⟨⟨r0, r1⟩, ⟨g0, g1⟩, ⟨b0, b1⟩⟩ := hc
  have key : ∀ n : Int, 0 ≤ n → n ≤ 255 → int16 [upperHex (n.toNat / 16), upperHex (n.toNat % 16)] = some n := by
    intro n h0 h1
    have ha := isHex_upper (d := n.toNat / 16) (by omega)
    have hb := isHex_upper (d := n.toNat % 16) (by omega)
    rw [hi _ _ ha.1 hb.1, ha.2, hb.2]
    congr 1
    omega
  simp only [toHex, format_byte r0 r1, format_byte g0 g1, format_byte b0 b1, fromHex]
  simp only [List.cons_append, List.nil_append, ne_eq, not_true_eq_false, if_false, List.length_cons, List.length_nil,
    List.drop_succ_cons, List.drop_zero, List.take_succ_cons, List.take_zero]
  rw [key _ r0 r1, key _ g0 g1, key _ b0 b1]
  rfl

/-- C51: formatting a parsed #RRGGBB gives its upper-case form. -/
theorem C51_format {int16 : Text → Option Int} (hi : HexPairs int16) {a b c d e f : Nat}
    (h : ∀ x ∈ [a, b, c, d, e, f], isHex x = true) :
    ∃ col, fromHex int16 [35, a, b, c, d, e, f] = .ok col ∧ col.Valid ∧ toHex col = [35, a, b, c, d, e, f].map toUpper := by
  simp only [List.mem_cons, List.not_mem_nil, or_false, forall_eq_or_imp, forall_eq] at h
  obtain ⟨ha, hb, hc, hd, he, hf⟩ := h
  have byte : ∀ x y, isHex x = true → isHex y = true →
      (0 : Int) ≤ ((16 * hexVal x + hexVal y : Nat) : Int) ∧ ((16 * hexVal x + hexVal y : Nat) : Int) ≤ 255 ∧
      format02X ((16 * hexVal x + hexVal y : Nat) : Int) = [toUpper x, toUpper y] := by
    intro x y hx hy
    have h1 := upper_hexVal hx
    have h2 := upper_hexVal hy
    refine ⟨by omega, by omega, ?_⟩
    rw [format_byte (by omega) (by omega)]
    have e1 : ((16 * hexVal x + hexVal y : Nat) : Int).toNat / 16 = hexVal x := by omega
    have e2 : ((16 * hexVal x + hexVal y : Nat) : Int).toNat % 16 = hexVal y := by omega
    rw [e1, e2, h1.2, h2.2]
  refine ⟨⟨((16 * hexVal a + hexVal b : Nat) : Int), ((16 * hexVal c + hexVal d : Nat) : Int), ((16 * hexVal e + hexVal f : Nat) : Int)⟩, ?_, ?_, ?_⟩
  · simp only [fromHex, ne_eq, not_true_eq_false, if_false, List.length_cons, List.length_nil, List.drop_succ_cons, List.drop_zero,
      List.take_succ_cons, List.take_zero]
    rw [hi _ _ ha hb, hi _ _ hc hd, hi _ _ he hf]
    rfl
  · exact ⟨⟨(byte a b ha hb).1, (byte a b ha hb).2.1⟩, ⟨(byte c d hc hd).1, (byte c d hc hd).2.1⟩, ⟨(byte e f he hf).1, (byte e f he hf).2.1⟩⟩
  · simp only [toHex, (byte a b ha hb).2.2, (byte c d hc hd).2.2, (byte e f he hf).2.2]
    rfl

/-- C51, the short form: #RGB is #RRGGBB. -/
theorem C51_short {int16 : Text → Option Int} (a b c : Nat) :
    fromHex int16 [35, a, b, c] = fromHex int16 [35, a, a, b, b, c, c] := rfl

/-- What Python does with two hexadecimal digits, and nothing else. -/
def demoInt16 : Text → Option Int
  | [a, b] => if isHex a && isHex b then some ((16 * hexVal a + hexVal b : Nat) : Int) else none
  | _ => none

/-- The hypotheses hold for an example. -/
theorem C51_case : HexPairs demoInt16 ∧ (⟨255, 10, 0⟩ : Color).Valid ∧ toHex ⟨255, 10, 0⟩ = txt "#FF0A00" ∧
    fromHex demoInt16 (txt "#ff0a00") = .ok ⟨255, 10, 0⟩ ∧ fromHex demoInt16 (txt "#f09") = .ok ⟨255, 0, 153⟩ := by
  refine ⟨fun a b ha hb => by simp [demoInt16, ha, hb], by unfold Color.Valid; decide, by decide, ?_, ?_⟩
  · have : txt "#ff0a00" = [35, 102, 102, 48, 97, 48, 48] := by decide
    rw [this]; rfl
  · have : txt "#f09" = [35, 102, 48, 57] := by decide
    rw [this]; rfl

end Verif.Icons
