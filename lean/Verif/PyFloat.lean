import Mathlib.Tactic.LinearCombination
import Verif.ExternalText
import Verif.Num

/-!
How Python writes a float and reads it again, C118.

`float.__repr__` writes the shortest decimal number which is read as the same float: 17 digits are always enough.
graph.py:232 and external_files/state.py write mtimes with it through `json.dump`, graph.py:264 reads them.  The format is
that of CPython (`pystrtod.c`, `format_float_short` with the format code `r`, and `float_repr_style = 'short'`): digits
without an exponent if the point is near them, an exponent of two digits or more otherwise.

Simplified: among the decimal numbers with the fewest digits Python takes the one nearest to the float, the model takes the
float rounded to that many digits (ties to even).  Exponent limits (infinities and subnormal numbers) and the
negative zero are left out as in `Verif.Num`.
-/

namespace Verif.PyFloat

open Verif.Reader (Text)
open Verif.JsonText
open Verif.Num

/-! ## Seventeen digits are enough -/

theorem roundEven_near {x : ℚ} {m : ℤ} (h : |x - m| < 1 / 2) : roundEven x = m := by
  have h1 := roundEven_le x
  have h2 := le_roundEven x
  obtain ⟨h3, h4⟩ := abs_lt.1 h
  have a : ((roundEven x : ℤ) : ℚ) < ((m + 1 : ℤ) : ℚ) := by push_cast; linarith
  have b : ((m - 1 : ℤ) : ℚ) < ((roundEven x : ℤ) : ℚ) := by push_cast; linarith
  have a' := Int.cast_lt.1 a
  have b' := Int.cast_lt.1 b
  omega

theorem roundSig_abs_err {b p : ℕ} (hb : 1 < b) {q : ℚ} (hq : q ≠ 0) :
    |roundSig b p q - q| ≤ |q| / (2 * (b : ℚ) ^ ((p : ℤ) - 1)) := by
  have hb0 : (0 : ℚ) < b := by exact_mod_cast (by omega : 0 < b)
  have hq0 : 0 < |q| := abs_pos.2 hq
  have hl := pow_log_le hb hq0
  have hpp : (0 : ℚ) < (b : ℚ) ^ ((p : ℤ) - 1) := zpow_pos hb0 _
  unfold roundSig
  rw [if_neg hq]
  generalize hM : Int.log b |q| = M at *
  have hu : (0 : ℚ) < (b : ℚ) ^ (M - ((p : ℤ) - 1)) := zpow_pos hb0 _
  have e : (b : ℚ) ^ (M - ((p : ℤ) - 1)) * (b : ℚ) ^ ((p : ℤ) - 1) = (b : ℚ) ^ M := by
    rw [← zpow_add₀ hb0.ne']; congr 1; ring
  generalize (b : ℚ) ^ (M - ((p : ℤ) - 1)) = u at *
  generalize (b : ℚ) ^ ((p : ℤ) - 1) = w at *
  have h1 := roundEven_le (q / u)
  have h2 := le_roundEven (q / u)
  have hx : q = q / u * u := by field_simp
  have : |(roundEven (q / u) : ℚ) * u - q| ≤ u / 2 := by
    rw [abs_le]
    constructor
    · nlinarith
    · nlinarith
  refine this.trans ?_
  rw [le_div_iff₀ (by positivity)]
  nlinarith

/-- A number near enough to a float is read as it. -/
theorem fl_near {q d : ℚ} (hq : fl q = q) (h0 : q ≠ 0) (h : |d - q| < |q| / 2 ^ 54) : fl d = q := by
  have hqa : 0 < |q| := abs_pos.2 h0
  have hlo := pow_log_le (b := 2) (by decide) hqa
  have hhi := lt_pow_log (b := 2) (by decide) |q|
  have hd0 : d ≠ 0 := by
    rintro rfl
    rw [zero_sub, abs_neg] at h
    have : |q| / 2 ^ 54 ≤ |q| := div_le_self hqa.le (by norm_num)
    linarith
  have hda : 0 < |d| := abs_pos.2 hd0
  have hdlo := pow_log_le (b := 2) (by decide) hda
  have hdhi := lt_pow_log (b := 2) (by decide) |d|
  -- q is a multiple of its last digit
  have hm : ∃ m : ℤ, q = m * (2 : ℚ) ^ (Int.log 2 |q| - 52) := by
    refine ⟨roundEven (q / (2 : ℚ) ^ (Int.log 2 |q| - 52)), ?_⟩
    have := hq
    unfold fl roundSig at this
    rw [if_neg h0] at this
    norm_num at this
    exact this.symm
  obtain ⟨m, hm⟩ := hm
  have hfl : fl d = roundEven (d / (2 : ℚ) ^ (Int.log 2 |d| - 52)) * (2 : ℚ) ^ (Int.log 2 |d| - 52) := by
    unfold fl roundSig
    rw [if_neg hd0]
    norm_num
  rw [hfl]
  push_cast at hlo hhi hdlo hdhi
  generalize Int.log 2 |q| = L at *
  generalize Int.log 2 |d| = K at *
  have hdiff : |(|d| - |q|)| ≤ |d - q| := abs_abs_sub_abs_le_abs_sub d q
  obtain ⟨hd1, hd2⟩ := abs_le.1 hdiff
  set u : ℚ := (2 : ℚ) ^ (L - 52) with hu
  have hu0 : 0 < u := zpow_pos (by norm_num) _
  have e1 : (2 : ℚ) ^ L = 2 ^ 52 * u := by
    rw [hu, ← zpow_natCast, ← zpow_add₀ (by norm_num)]; congr 1; push_cast; ring
  have e2 : (2 : ℚ) ^ (L + 1) = 2 ^ 53 * u := by
    rw [zpow_add_one₀ (by norm_num), e1]; ring
  rw [e1] at hlo
  rw [e2] at hhi
  have hqm : |q| = |m| * u := by rw [hm, abs_mul, abs_of_pos hu0, Int.cast_abs]
  have hclose : |d - q| < u / 2 := by
    refine h.trans_le ?_
    rw [div_le_iff₀ (by norm_num)]
    nlinarith
  have hmlo : (2 : ℤ) ^ 52 ≤ |m| := by
    have : ((2 : ℚ) ^ 52) ≤ |m| := by
      rw [hqm] at hlo
      exact le_of_mul_le_mul_right hlo hu0
    exact_mod_cast this
  have hmhi : |m| < (2 : ℤ) ^ 53 := by
    have : ((|m| : ℤ) : ℚ) < 2 ^ 53 := by
      rw [hqm] at hhi
      have := lt_of_mul_lt_mul_right hhi hu0.le
      exact_mod_cast this
    exact_mod_cast this
  rcases lt_trichotomy K L with hlt | heq | hgt
  · -- below a power of two
    have hdL : |d| < (2 : ℚ) ^ L := hdhi.trans_le (zpow_le_zpow_right₀ (by norm_num) (by omega))
    rw [e1] at hdL
    have hm52 : |m| = 2 ^ 52 := by
      have : ((|m| : ℤ) : ℚ) < ((2 ^ 52 + 1 : ℤ) : ℚ) := by
        have hx : ((|m| : ℤ) : ℚ) * u < (2 ^ 52 + 1) * u := by
          have : |q| = ((|m| : ℤ) : ℚ) * u := by rw [hqm]
          nlinarith
        have := lt_of_mul_lt_mul_right hx hu0.le
        push_cast at this ⊢
        norm_num at this ⊢
        exact this
      have := Int.cast_lt.1 this
      omega
    have hqv : |q| = 2 ^ 52 * u := by
      rw [hqm]
      have : ((|m| : ℤ) : ℚ) = 2 ^ 52 := by rw [hm52]; norm_num
      rw [← this]
    have hK : K = L - 1 := by
      by_contra hne
      have hle : K + 1 ≤ L - 1 := by omega
      have h3 : |d| < (2 : ℚ) ^ (L - 1) := hdhi.trans_le (zpow_le_zpow_right₀ (by norm_num) hle)
      have h4 : (2 : ℚ) ^ (L - 1) * 2 = 2 ^ L := by
        rw [← zpow_add_one₀ (by norm_num)]; congr 1; ring
      rw [e1] at h4
      nlinarith
    subst hK
    have e3 : (2 : ℚ) ^ (L - 1 - 52) = u / 2 := by
      rw [hu, show L - 1 - 52 = (L - 52) - 1 by ring, zpow_sub_one₀ (by norm_num)]; rfl
    rw [e3]
    have : roundEven (d / (u / 2)) = 2 * m := by
      apply roundEven_near
      have : d / (u / 2) - ((2 * m : ℤ) : ℚ) = (d - q) * (2 / u) := by
        rw [hm]; push_cast; field_simp
      rw [this, abs_mul, abs_of_pos (show (0 : ℚ) < 2 / u by positivity)]
      rw [hqv] at h
      rw [mul_div_assoc', div_lt_iff₀ hu0]
      nlinarith
    rw [this]
    conv_rhs => rw [hm]
    push_cast
    ring
  · subst heq
    have : roundEven (d / u) = m := by
      apply roundEven_near
      have : d / u - (m : ℚ) = (d - q) * (1 / u) := by
        rw [hm]; field_simp
      rw [this, abs_mul, abs_of_pos (show (0 : ℚ) < 1 / u by positivity), mul_one_div, div_lt_iff₀ hu0]
      linarith
    rw [← hu, this]
    exact hm.symm
  · exfalso
    have h3 : (2 : ℚ) ^ (L + 1) ≤ |d| := (zpow_le_zpow_right₀ (by norm_num) (by omega)).trans hdlo
    rw [e2] at h3
    have h5 : ((|m| : ℤ) : ℚ) ≤ ((2 ^ 53 - 1 : ℤ) : ℚ) := Int.cast_le.2 (by omega)
    have h6 : |q| ≤ (2 ^ 53 - 1) * u := by
      have : |q| = ((|m| : ℤ) : ℚ) * u := by rw [hqm]
      rw [this]
      push_cast at h5 ⊢
      norm_num at h5 ⊢
      exact mul_le_mul_of_nonneg_right h5 hu0.le
    nlinarith

/-- Rounding to 17 decimal digits and then to a float gives the float again. -/
theorem seventeen {q : ℚ} (hq : fl q = q) : fl (roundSig 10 17 q) = q := by
  by_cases h0 : q = 0
  · subst h0
    rw [roundSig_zero]; exact roundSig_zero 2 53
  · refine fl_near hq h0 ((roundSig_abs_err (by decide) h0).trans_lt ?_)
    have hqa : 0 < |q| := abs_pos.2 h0
    refine div_lt_div_of_pos_left hqa (by norm_num) ?_
    norm_num

/-! ## Writing -/

/-- The fewest digits which are read as the float again. -/
def shortest (q : ℚ) : ℕ := ((List.range 17).find? (fun i => decide (fl (roundSig 10 (i + 1) q) = q))).getD 16 + 1

/-- The place of the last of `n` digits. -/
def place (q : ℚ) (n : ℕ) : ℤ := Int.log 10 |q| - ((n : ℤ) - 1)

/-- The digits of a number rounded to `n` digits. -/
def mantissa (q : ℚ) (n : ℕ) : ℕ := (roundEven (q / (10 : ℚ) ^ place q n)).natAbs

def zeros (n : ℕ) : Text := List.replicate n 48

/-- Without the zeros at the end. -/
def stripped (ds : Text) : Text := (ds.reverse.dropWhile (· == 48)).reverse

/-- The exponent, of two digits at least. -/
def exponent (k : ℤ) : Text :=
  (if k < 0 then 45 else 43) :: (if (showNat k.natAbs).length < 2 then 48 :: showNat k.natAbs else showNat k.natAbs)

/-- CPython's `format_float_short` with the format code `r`: the digits `ds` with the decimal point after the first `pt` of them. -/
def layout (ds : Text) (pt : ℤ) : Text :=
  if -4 < pt ∧ pt ≤ 16 then
    if pt ≤ 0 then 48 :: 46 :: (zeros (-pt).toNat ++ ds)
    else if pt < ds.length then ds.take pt.toNat ++ 46 :: ds.drop pt.toNat
    else ds ++ zeros (pt - ds.length).toNat ++ [46, 48]
  else ds.take 1 ++ (if ds.length ≤ 1 then [] else 46 :: ds.drop 1) ++ 101 :: exponent (pt - 1)

/-- `float.__repr__`, which `json.dump` calls for a float. -/
def shown (q : ℚ) : Text :=
  if q = 0 then [48, 46, 48]
  else
    let ds := showNat (mantissa q (shortest q))
    (if q < 0 then [45] else []) ++ layout (stripped ds) (ds.length + place q (shortest q))

/-! ## Reading -/

/-- The exponent after its letter. -/
def expValue : Text → ℤ
  | 45 :: ds => - (natOf ds : ℤ)
  | 43 :: ds => natOf ds
  | ds => natOf ds

/-- The number which a literal of these parts stands for. -/
def literal (i f e : Text) : ℚ := natOf (i ++ f.drop 1) * (10 : ℚ) ^ (expValue (e.drop 1) - (f.drop 1).length)

/-- A literal without its sign. -/
def magnitude (t : Text) : Option ℚ :=
  match intPart t with
  | none => none
  | some (i, r) =>
    let f := fracPart r
    let e := expPart f.2
    if e.2 = [] then some (literal i f.1 e.1) else none

/-- `float(text)` for the texts for which `json.loads` calls it (`json.scanner.NUMBER_RE`): the float nearest to the number. -/
def read (t : Text) : Option ℚ :=
  match eat 45 t with
  | some r => (magnitude r).map (fun v => fl (-v))
  | none => (magnitude t).map fl

/-- Python's floats. -/
def python : Floats := ⟨shown, read⟩

/-! ## Proofs -/

theorem fl_shortest {q : ℚ} (hq : fl q = q) : fl (roundSig 10 (shortest q) q) = q := by
  unfold shortest
  cases h : (List.range 17).find? (fun i => decide (fl (roundSig 10 (i + 1) q) = q)) with
  | none => exact seventeen hq
  | some i =>
    have := List.find?_some h
    simpa using this

theorem shortest_least {q : ℚ} {n : ℕ} (h0 : 0 < n) (hn : n < shortest q) : fl (roundSig 10 n q) ≠ q := by
  unfold shortest at hn
  cases h : (List.range 17).find? (fun i => decide (fl (roundSig 10 (i + 1) q) = q)) with
  | none =>
    rw [h] at hn
    have := List.find?_eq_none.1 h (n - 1) (List.mem_range.2 (by simp at hn; omega))
    rw [Nat.sub_add_cancel h0] at this
    simpa using this
  | some i =>
    rw [h] at hn
    obtain ⟨_, as, bs, e, hall⟩ := List.find?_eq_some_iff_append.1 h
    have hi : n - 1 < i := by simp at hn; omega
    have hlen : as.length = i := by
      have := congrArg (fun l => l[as.length]?) e
      simp at this
      by_cases hx : as.length < 17
      · rw [List.getElem?_range hx] at this
        exact Option.some.inj this
      · have h2 := congrArg List.length e
        simp at h2
        omega
    have hmem : n - 1 ∈ as := by
      have h2 : (List.range 17)[n - 1]? = (as ++ i :: bs)[n - 1]? := by rw [e]
      have hi17 : i < 17 := by
        have h2 := congrArg List.length e
        simp at h2
        omega
      rw [List.getElem?_range (by omega), List.getElem?_append_left (by omega)] at h2
      exact List.mem_of_getElem? h2.symm
    have := hall _ hmem
    rw [Nat.sub_add_cancel h0] at this
    simpa using this

theorem natOf_acc (b : Text) (a : ℕ) : b.foldl (fun a d => a * 10 + (d - 48)) a = a * 10 ^ b.length + natOf b := by
  induction b generalizing a with
  | nil => simp [natOf]
  | cons c b ih =>
    unfold natOf
    rw [List.foldl_cons, List.foldl_cons, ih, ih, List.length_cons]
    ring

theorem natOf_app (a b : Text) : natOf (a ++ b) = natOf a * 10 ^ b.length + natOf b := by
  rw [← natOf_acc, natOf, List.foldl_append]
  rfl

theorem natOf_zeros (n : ℕ) : natOf (zeros n) = 0 := by
  induction n with
  | zero => rfl
  | succ n ih =>
    rw [zeros, List.replicate_succ', natOf_app, ← zeros, ih]
    rfl

/-- Digits, the first of which is not zero. -/
def Digits (ds : Text) : Prop := ds ≠ [] ∧ (∀ c ∈ ds, isDigit c = true) ∧ ds.head? ≠ some 48

theorem stripped_split (ds : Text) : ∃ n, ds = stripped ds ++ zeros n := by
  refine ⟨(ds.reverse.takeWhile (· == 48)).length, ?_⟩
  have hz : (ds.reverse.takeWhile (· == 48)).reverse = zeros (ds.reverse.takeWhile (· == 48)).length := by
    rw [zeros, List.eq_replicate_iff]
    refine ⟨List.length_reverse, fun c hc => ?_⟩
    have := List.all_eq_true.1 List.all_takeWhile c (List.mem_reverse.1 hc)
    simpa using this
  rw [← hz, stripped, ← List.reverse_append, List.takeWhile_append_dropWhile, List.reverse_reverse]

theorem stripped_digits {ds : Text} (h : Digits ds) : Digits (stripped ds) := by
  obtain ⟨n, e⟩ := stripped_split ds
  obtain ⟨hne, hd, hh⟩ := h
  cases hs : stripped ds with
  | nil =>
    rw [hs] at e
    cases n with
    | zero => exact absurd e hne
    | succ n => exact absurd (by rw [e]; rfl) hh
  | cons c r =>
    rw [hs] at e
    refine ⟨by simp, fun x hx => hd x (by rw [e]; exact List.mem_append_left _ hx), ?_⟩
    rw [e] at hh
    exact hh

/-- The number of some digits with the point after the first `pt`. -/
def pointed (ds : Text) (pt : ℤ) : ℚ := natOf ds * (10 : ℚ) ^ (pt - ds.length)

theorem pointed_stripped (ds : Text) (pt : ℤ) : pointed (stripped ds) pt = pointed ds pt := by
  obtain ⟨n, e⟩ := stripped_split ds
  generalize hs : stripped ds = s at *
  subst e
  unfold pointed
  rw [natOf_app, natOf_zeros, List.length_append]
  have : (zeros n).length = n := List.length_replicate
  rw [this]
  push_cast
  rw [add_zero, mul_assoc, ← zpow_natCast, ← zpow_add₀ (by norm_num)]
  congr 2
  ring

theorem showNat_isDigits {n : ℕ} (h : n ≠ 0) : Digits (showNat n) := by
  obtain ⟨d, q, e, hd⟩ := showNat_cons h
  refine ⟨by simp [e], fun c hc => showNat_digits hc, ?_⟩
  simp [e, hd]

/-- The parts of a literal. -/
structure Parts (i f e : Text) : Prop where
  int : i = [48] ∨ Digits i
  frac : f = [] ∨ ∃ ds, f = 46 :: ds ∧ ds ≠ [] ∧ ∀ c ∈ ds, isDigit c = true
  exp : e = [] ∨ ∃ s ds, e = 101 :: s :: ds ∧ (s = 43 ∨ s = 45) ∧ ds ≠ [] ∧ ∀ c ∈ ds, isDigit c = true
  float : ¬ (f = [] ∧ e = [])

theorem span_digits {ds r : Text} (h : ∀ c ∈ ds, isDigit c = true) (hr : ∀ c ∈ r.head?, isDigit c = false) :
    (ds ++ r).takeWhile isDigit = ds ∧ (ds ++ r).dropWhile isDigit = r := by
  induction ds with
  | nil =>
    cases r with
    | nil => exact ⟨rfl, rfl⟩
    | cons c r =>
      have := hr c rfl
      simp [this]
  | cons d ds ih =>
    obtain ⟨h1, h2⟩ := ih (fun c hc => h c (List.mem_cons_of_mem _ hc))
    have hd := h d List.mem_cons_self
    simp only [List.cons_append, List.takeWhile_cons, List.dropWhile_cons, hd, if_true, h1, h2, and_self]

theorem digits1_eq {ds r : Text} (hne : ds ≠ []) (h : ∀ c ∈ ds, isDigit c = true) (hr : ∀ c ∈ r.head?, isDigit c = false) :
    digits1 (ds ++ r) = some (ds, r) := by
  cases ds with
  | nil => exact absurd rfl hne
  | cons d ds =>
    obtain ⟨h1, h2⟩ := span_digits (fun c hc => h c (List.mem_cons_of_mem _ hc)) hr
    simp only [List.cons_append, digits1, h d List.mem_cons_self, if_true, h1, h2]

theorem Parts.expPart {i f e : Text} (h : Parts i f e) : expPart e = (e, []) := by
  rcases h.exp with rfl | ⟨s, ds, rfl, hs, hne, hd⟩
  · rfl
  · have := digits1_eq (r := []) hne hd (by simp)
    rw [List.append_nil] at this
    rcases hs with rfl | rfl <;> simp [JsonText.expPart, either, this]

theorem Parts.expHead {i f e : Text} (h : Parts i f e) : ∀ c ∈ e.head?, isDigit c = false ∧ c ≠ 46 := by
  rcases h.exp with rfl | ⟨s, ds, rfl, _⟩
  · simp
  · intro c hc
    simp at hc
    subst hc
    decide

theorem Parts.fracPart {i f e : Text} (h : Parts i f e) : fracPart (f ++ e) = (f, e) := by
  rcases h.frac with rfl | ⟨ds, rfl, hne, hd⟩
  · cases e with
    | nil => rfl
    | cons c e =>
      have := (h.expHead c rfl).2
      simp [JsonText.fracPart, eat, this]
  · have := digits1_eq hne hd (fun c hc => (h.expHead c hc).1)
    simp [JsonText.fracPart, eat, this]

theorem Parts.restHead {i f e : Text} (h : Parts i f e) : ∀ c ∈ (f ++ e).head?, isDigit c = false := by
  rcases h.frac with rfl | ⟨ds, rfl, hne, hd⟩
  · exact fun c hc => (h.expHead c hc).1
  · intro c hc
    simp at hc
    subst hc
    decide

theorem Parts.intPart {i f e : Text} (h : Parts i f e) : intPart (i ++ (f ++ e)) = some (i, f ++ e) := by
  rcases h.int with rfl | ⟨hne, hd, hh⟩
  · simp [JsonText.intPart, eat]
  · cases i with
    | nil => exact absurd rfl hne
    | cons c i =>
      have hc : c ≠ 48 := by simpa using hh
      have := digits1_eq hne hd h.restHead
      rw [JsonText.intPart, this]
      simp [eat, hc]

theorem Parts.head {i f e : Text} (h : Parts i f e) : eat 45 (i ++ (f ++ e)) = none := by
  rcases h.int with rfl | ⟨hne, hd, hh⟩
  · rfl
  · cases i with
    | nil => exact absurd rfl hne
    | cons c i =>
      have hc := hd c List.mem_cons_self
      have : c ≠ 45 := by rintro rfl; exact absurd hc (by decide)
      simp [eat, this]

/-- Reading a literal of these parts with a sign. -/
theorem Parts.read {i f e : Text} (h : Parts i f e) (neg : Bool) :
    number ((if neg then [45] else []) ++ (i ++ (f ++ e))) =
      some (.float ((if neg then [45] else []) ++ (i ++ (f ++ e))), []) ∧
    read ((if neg then [45] else []) ++ (i ++ (f ++ e))) = some (fl (if neg then - literal i f e else literal i f e)) := by
  have hm : magnitude (i ++ (f ++ e)) = some (literal i f e) := by
    simp [magnitude, h.intPart, h.fracPart, h.expPart]
  have hu : ∀ n, unsigned n (i ++ (f ++ e)) = some (.float ((if n then [45] else []) ++ (i ++ (f ++ e))), []) := by
    intro n
    simp [unsigned, h.intPart, h.fracPart, h.expPart, h.float]
  cases neg with
  | false =>
    simp only [Bool.false_eq_true, if_false, List.nil_append]
    refine ⟨?_, ?_⟩
    · rw [number, h.head]
      simpa using hu false
    · rw [PyFloat.read, h.head]
      simp [hm]
  | true =>
    simp only [if_true, List.cons_append, List.nil_append]
    refine ⟨?_, ?_⟩
    · rw [number, eat, if_pos rfl]
      simpa using hu true
    · rw [PyFloat.read, eat, if_pos rfl]
      simp [hm]

theorem pow_congr {a b : ℚ} {x y : ℤ} (h : a = b) (e : x = y) : a * (10 : ℚ) ^ x = b * (10 : ℚ) ^ y := by rw [h, e]

theorem isDigit_zeros {n c : ℕ} (h : c ∈ zeros n) : isDigit c = true := by
  rw [List.eq_of_mem_replicate h]; rfl

theorem expValue_exponent (k : ℤ) : expValue (exponent k) = k := by
  have hp : natOf (if (showNat k.natAbs).length < 2 then 48 :: showNat k.natAbs else showNat k.natAbs) = k.natAbs := by
    split
    · rw [show (48 :: showNat k.natAbs) = [48] ++ showNat k.natAbs from rfl, natOf_app, natOf_showNat]
      simp [natOf]
    · exact natOf_showNat _
  unfold exponent
  split
  · next h => simp only [expValue, hp]; omega
  · next h => simp only [expValue, hp]; omega

theorem exponent_shape (k : ℤ) : ∃ s ds, exponent k = s :: ds ∧ (s = 43 ∨ s = 45) ∧ ds ≠ [] ∧ ∀ c ∈ ds, isDigit c = true := by
  have hd : ∀ c ∈ showNat k.natAbs, isDigit c = true := fun c hc => showNat_digits hc
  refine ⟨_, _, rfl, by split <;> simp, ?_, ?_⟩
  · split
    · simp
    · next h => intro e; rw [e] at h; simp at h
  · split
    · intro c hc
      rcases List.mem_cons.1 hc with rfl | hc
      · rfl
      · exact hd c hc
    · exact hd

/-- What is laid out is a literal of the number. -/
theorem layout_parts {ds : Text} (h : Digits ds) (pt : ℤ) :
    ∃ i f e, Parts i f e ∧ layout ds pt = i ++ (f ++ e) ∧ literal i f e = pointed ds pt := by
  obtain ⟨hne, hd, hh⟩ := h
  have hlen : 0 < ds.length := List.length_pos_of_ne_nil hne
  unfold layout
  split
  · split
    · next h1 h2 =>
      refine ⟨[48], 46 :: (zeros (-pt).toNat ++ ds), [], ⟨.inl rfl, .inr ⟨_, rfl, by simp [hne], ?_⟩, .inl rfl, by simp⟩, by simp, ?_⟩
      · intro c hc
        rcases List.mem_append.1 hc with hc | hc
        · exact isDigit_zeros hc
        · exact hd c hc
      · have h3 : (zeros (-pt).toNat).length = (-pt).toNat := List.length_replicate
        refine pow_congr ?_ ?_
        · show (natOf ([48] ++ (zeros (-pt).toNat ++ ds)) : ℚ) = natOf ds
          rw [natOf_app, natOf_app, natOf_zeros]
          simp [natOf]
        · show (0 : ℤ) - ((zeros (-pt).toNat ++ ds).length : ℤ) = _
          rw [List.length_append, h3]
          push_cast
          omega
    · split
      · next h1 h2 h3 =>
        have hp : pt.toNat < ds.length := by omega
        refine ⟨ds.take pt.toNat, 46 :: ds.drop pt.toNat, [], ⟨.inr ⟨?_, ?_, ?_⟩, .inr ⟨_, rfl, ?_, ?_⟩, .inl rfl, by simp⟩, by simp, ?_⟩
        · intro e
          have := congrArg List.length e
          rw [List.length_take, List.length_nil] at this
          omega
        · exact fun c hc => hd c (List.mem_of_mem_take hc)
        · cases ds with
          | nil => exact absurd rfl hne
          | cons c r =>
            obtain ⟨k, hk⟩ : ∃ k, pt.toNat = k + 1 := ⟨pt.toNat - 1, by omega⟩
            rw [hk]
            simpa using hh
        · intro e
          have := congrArg List.length e
          rw [List.length_drop, List.length_nil] at this
          omega
        · exact fun c hc => hd c (List.mem_of_mem_drop hc)
        · refine pow_congr ?_ ?_
          · show (natOf (ds.take pt.toNat ++ ds.drop pt.toNat) : ℚ) = natOf ds
            rw [List.take_append_drop]
          · show (0 : ℤ) - ((ds.drop pt.toNat).length : ℤ) = _
            rw [List.length_drop]
            omega
      · next h1 h2 h3 =>
        have h4 : (zeros (pt - ds.length).toNat).length = (pt - ds.length).toNat := List.length_replicate
        refine ⟨ds ++ zeros (pt - ds.length).toNat, [46, 48], [], ⟨.inr ⟨by simp [hne], ?_, ?_⟩, .inr ⟨[48], rfl, by simp, by simp [isDigit]⟩, .inl rfl, by simp⟩, by simp, ?_⟩
        · intro c hc
          rcases List.mem_append.1 hc with hc | hc
          · exact hd c hc
          · exact isDigit_zeros hc
        · cases ds with
          | nil => exact absurd rfl hne
          | cons c r => simpa using hh
        · show (natOf (ds ++ zeros (pt - ds.length).toNat ++ [48]) : ℚ) * (10 : ℚ) ^ ((0 : ℤ) - ((1 : ℕ) : ℤ)) = _
          rw [natOf_app, natOf_app, natOf_zeros, h4]
          unfold pointed
          have e1 : (10 : ℚ) ^ (pt - ds.length) = 10 ^ (pt - ds.length).toNat := by
            rw [← zpow_natCast]; congr 1; omega
          rw [e1]
          simp [natOf]
  · next h1 =>
    obtain ⟨s, es, he, hs, hne', hd'⟩ := exponent_shape (pt - 1)
    cases ds with
    | nil => exact absurd rfl hne
    | cons c r =>
      have hi : Digits [c] := ⟨by simp, fun x hx => hd x (by simp at hx; simp [hx]), by simpa using hh⟩
      cases r with
      | nil =>
        refine ⟨[c], [], 101 :: exponent (pt - 1), ⟨.inr hi, .inl rfl, .inr ⟨s, es, by rw [he], hs, hne', hd'⟩, by simp⟩, by simp, ?_⟩
        refine pow_congr rfl ?_
        show expValue (exponent (pt - 1)) - ((0 : ℕ) : ℤ) = pt - ((1 : ℕ) : ℤ)
        rw [expValue_exponent]
        push_cast
        ring
      | cons d r =>
        refine ⟨[c], 46 :: d :: r, 101 :: exponent (pt - 1), ⟨.inr hi, .inr ⟨_, rfl, by simp, fun x hx => hd x (List.mem_cons_of_mem _ hx)⟩, .inr ⟨s, es, by rw [he], hs, hne', hd'⟩, by simp⟩, by simp, ?_⟩
        refine pow_congr rfl ?_
        show expValue (exponent (pt - 1)) - ((d :: r).length : ℤ) = pt - ((c :: d :: r).length : ℤ)
        rw [expValue_exponent]
        simp only [List.length_cons]
        push_cast
        ring

theorem roundEven_sign (x : ℚ) : (0 ≤ x → 0 ≤ roundEven x) ∧ (x ≤ 0 → roundEven x ≤ 0) := by
  have h0 : roundEven 0 = 0 := by simpa using roundEven_int 0
  exact ⟨fun h => by have := roundEven_mono h; omega, fun h => by have := roundEven_mono h; omega⟩

/-- A float rounded to `n` digits, by its sign, digits and place. -/
theorem roundSig_mantissa {q : ℚ} (h0 : q ≠ 0) (n : ℕ) :
    roundSig 10 n q = (if q < 0 then -1 else 1) * ((mantissa q n : ℚ) * (10 : ℚ) ^ place q n) := by
  have hu : (0 : ℚ) < (10 : ℚ) ^ place q n := zpow_pos (by norm_num) _
  have e : roundSig 10 n q = roundEven (q / (10 : ℚ) ^ place q n) * (10 : ℚ) ^ place q n := by
    unfold roundSig
    rw [if_neg h0]
    rfl
  rw [e]
  unfold mantissa
  split
  · next h =>
    have := (roundEven_sign (q / (10 : ℚ) ^ place q n)).2 (div_nonpos_of_nonpos_of_nonneg h.le hu.le)
    have hx : ((roundEven (q / (10 : ℚ) ^ place q n)).natAbs : ℚ) = - (roundEven (q / (10 : ℚ) ^ place q n) : ℚ) := by
      rw [Nat.cast_natAbs, abs_of_nonpos this]; push_cast; rfl
    rw [hx]; ring
  · next h =>
    have := (roundEven_sign (q / (10 : ℚ) ^ place q n)).1 (div_nonneg (not_lt.1 h) hu.le)
    have hx : ((roundEven (q / (10 : ℚ) ^ place q n)).natAbs : ℚ) = (roundEven (q / (10 : ℚ) ^ place q n) : ℚ) := by
      rw [Nat.cast_natAbs, abs_of_nonneg this]
    rw [hx]; ring

/-- What Python writes is a literal, and reading it gives the float. -/
theorem shown_parts {q : ℚ} (hq : fl q = q) : ∃ i f e, Parts i f e ∧ shown q = (if decide (q < 0) then [45] else []) ++ (i ++ (f ++ e)) ∧
    fl (if decide (q < 0) then - literal i f e else literal i f e) = q := by
  by_cases h0 : q = 0
  · subst h0
    refine ⟨[48], [46, 48], [], ⟨.inl rfl, .inr ⟨[48], rfl, by simp, by simp [isDigit]⟩, .inl rfl, by simp⟩, by simp [shown], ?_⟩
    have : literal [48] [46, 48] [] = 0 := by simp [literal, natOf]
    rw [this]
    simpa using hq
  · have hf := fl_shortest hq
    have hr := roundSig_mantissa h0 (shortest q)
    generalize hn : shortest q = n at *
    have hm : mantissa q n ≠ 0 := by
      intro e
      rw [e] at hr
      rw [hr] at hf
      simp [fl, roundSig_zero] at hf
      exact h0 hf.symm
    obtain ⟨i, f, e, hp, hl, hv⟩ := layout_parts (stripped_digits (showNat_isDigits hm)) ((showNat (mantissa q n)).length + place q n)
    refine ⟨i, f, e, hp, ?_, ?_⟩
    · rw [← hl, shown, if_neg h0, hn]
      simp
    · rw [hv, pointed_stripped]
      have hpv : pointed (showNat (mantissa q n)) ((showNat (mantissa q n)).length + place q n) =
          (mantissa q n : ℚ) * (10 : ℚ) ^ place q n := by
        unfold pointed
        rw [natOf_showNat]
        congr 2
        ring
      rw [hpv]
      refine Eq.trans ?_ hf
      congr 1
      rw [hr]
      by_cases h : q < 0 <;> simp [h]

/-- C118: what Python writes for a float is the text of a float and is read as the same float. -/
theorem C118_float {q : ℚ} (hq : fl q = q) : number (shown q) = some (.float (shown q), []) ∧ read (shown q) = some q := by
  obtain ⟨i, f, e, hp, hs, hv⟩ := shown_parts hq
  have := hp.read (decide (q < 0))
  rw [← hs] at this
  exact ⟨this.1, this.2.trans (congrArg some hv)⟩

/-- The characters of a float. -/
theorem shown_chars {q : ℚ} (hq : fl q = q) {c : ℕ} (h : c ∈ shown q) : isDigit c = true ∨ c = 43 ∨ c = 45 ∨ c = 46 ∨ c = 101 := by
  obtain ⟨i, f, e, hp, hs, -⟩ := shown_parts hq
  rw [hs] at h
  rcases List.mem_append.1 h with h | h
  · split at h
    · exact .inr (.inr (.inl (List.mem_singleton.1 h)))
    · cases h
  · rcases List.mem_append.1 h with h | h
    · rcases hp.int with rfl | ⟨-, hd, -⟩
      · rw [List.mem_singleton.1 h]; exact .inl rfl
      · exact .inl (hd c h)
    · rcases List.mem_append.1 h with h | h
      · rcases hp.frac with rfl | ⟨ds, rfl, -, hd⟩
        · cases h
        · rcases List.mem_cons.1 h with rfl | h
          · simp
          · exact .inl (hd c h)
      · rcases hp.exp with rfl | ⟨s, ds, rfl, hs, -, hd⟩
        · cases h
        · rcases List.mem_cons.1 h with rfl | h
          · simp
          · rcases List.mem_cons.1 h with rfl | h
            · rcases hs with rfl | rfl <;> simp
            · exact .inl (hd c h)

/-- No shorter rounding of the float is read as it. -/
theorem C118_shortest {q : ℚ} {n : ℕ} (h0 : 0 < n) (hn : n < shortest q) : fl (roundSig 10 n q) ≠ q :=
  shortest_least h0 hn

theorem exact {q : ℚ} (hq : fl q = q) : python.Exact q :=
  ⟨_, (C118_float hq).1, (C118_float hq).2⟩

/-! ## Times -/

/-- CPython's `fill_time`: `st_mtime`, which file_signature.py:51 takes, is `sec + 1e-9 * nsec` in floats. -/
def mtimeOf (sec : ℤ) (nsec : ℕ) : ℚ := fl (fl sec + fl (fl (1 / 10 ^ 9) * fl nsec))

/-- Rounding gives a float. -/
theorem fl_fl (q : ℚ) : fl (fl q) = fl q := by
  by_cases h0 : q = 0
  · subst h0; simp [fl, roundSig_zero]
  · have e : fl q = roundEven (q / (2 : ℚ) ^ (Int.log 2 |q| - 52)) * (2 : ℚ) ^ (Int.log 2 |q| - 52) := by
      unfold fl roundSig
      rw [if_neg h0]
      norm_num
    have hhi := lt_pow_log (b := 2) (by decide) |q|
    push_cast at hhi
    generalize Int.log 2 |q| = L at *
    have hu0 : (0 : ℚ) < (2 : ℚ) ^ (L - 52) := zpow_pos (by norm_num) _
    have e2 : (2 : ℚ) ^ (L + 1) = 2 ^ 53 * (2 : ℚ) ^ (L - 52) := by
      rw [← zpow_natCast, ← zpow_add₀ (by norm_num)]; congr 1; push_cast; ring
    rw [e2] at hhi
    have hx : |q / (2 : ℚ) ^ (L - 52)| < 2 ^ 53 := by
      rw [abs_div, abs_of_pos hu0, div_lt_iff₀ hu0]
      exact hhi
    obtain ⟨hx1, hx2⟩ := abs_lt.1 hx
    have k1 := roundEven_mono hx2.le
    have k2 := roundEven_mono hx1.le
    have k3 : roundEven ((2 : ℚ) ^ 53) = 2 ^ 53 := by
      have := roundEven_int (2 ^ 53); push_cast at this; norm_num at this ⊢; exact this
    have k4 : roundEven (-(2 : ℚ) ^ 53) = - 2 ^ 53 := by
      have := roundEven_int (- 2 ^ 53); push_cast at this; norm_num at this ⊢; exact this
    rw [k3] at k1
    rw [k4] at k2
    rw [e]
    generalize roundEven (q / (2 : ℚ) ^ (L - 52)) = R at *
    by_cases hR : |R| < 2 ^ 53
    · have := roundSig_exact (b := 2) (by decide) (p := 53) (n := R) (k := L - 52) (by exact_mod_cast hR)
      exact_mod_cast this
    · have hR' : R = 2 ^ 53 ∨ R = - 2 ^ 53 := by
        rcases abs_cases R with ⟨h, _⟩ | ⟨h, _⟩ <;> omega
      have e3 : ∃ s : ℤ, |s| = 1 ∧ (R : ℚ) * (2 : ℚ) ^ (L - 52) = s * (2 : ℚ) ^ (L + 1) := by
        rcases hR' with h | h
        · exact ⟨1, rfl, by rw [h, e2]; push_cast; ring⟩
        · exact ⟨-1, rfl, by rw [h, e2]; push_cast; ring⟩
      obtain ⟨s, hs, e3⟩ := e3
      rw [e3]
      have := roundSig_exact (b := 2) (by decide) (p := 53) (n := s) (k := L + 1) (by rw [hs]; norm_num)
      exact_mod_cast this

/-- The times of files are floats. -/
def Times (g : Graph.Graph) : Prop := ∀ p n, (p, n) ∈ g → ∃ sec nsec, n.info.mtime = mtimeOf sec nsec

theorem fit {g : Graph.Graph} (h : Times g) : FloatsFit python g := by
  intro p n hp
  obtain ⟨s, ns, e⟩ := h p n hp
  rw [e]
  exact exact (fl_fl _)

/-- C118: whatever the times of the files are, a graph is read from its text with the same files, metadata and edges, and
a file which has not changed is not taken for a changed one, nor the other way round. -/
theorem C118_graph {g : Graph.Graph} (hg : Graph.Valid g) (ht : Times g) :
    ∃ g', loadText python (storeText python g) = .ok g' ∧ Graph.SameContent g' g ∧
      ∀ a m, Graph.checkFile g' a m = Graph.checkFile g a m := by
  obtain ⟨g', h1, h2, _⟩ := C08_text hg (fit ht)
  refine ⟨g', h1, h2, fun a m => ?_⟩
  rw [Bool.eq_iff_iff]
  exact (h2 a).2.1 m

/-- C118: the state of external files is read from its text with the same times. -/
theorem C118_state {d : Dict Ext.Rec} (hn : d.NodupKeys) (ht : ∀ p ∈ d, ∃ sec nsec, p.2.sig.mtime = mtimeOf sec nsec) :
    Ext.readState python (Ext.stateText python d) = .ok d := by
  refine Ext.C114_state (fun p hp => ?_) hn
  obtain ⟨s, ns, e⟩ := ht p hp
  rw [e]
  exact C118_float (fl_fl _)

/-! ## Cases -/

theorem C118_case :
    shown (fl (1 / 10)) = [48, 46, 49] ∧
    -- 1637000000.1234567
    shown (mtimeOf 1637000000 123456789) = [49, 54, 51, 55, 48, 48, 48, 48, 48, 48, 46, 49, 50, 51, 52, 53, 54, 55] ∧
    -- -3.3333333333333335e-05
    shown (fl (-1 / 30000)) = [45, 51, 46, 51, 51, 51, 51, 51, 51, 51, 51, 51, 51, 51, 51, 51, 51, 51, 53, 101, 45, 48, 53] ∧
    -- 1e+23
    shown (fl (10 ^ 23)) = [49, 101, 43, 50, 51] ∧ fl (10 ^ 23) ≠ 10 ^ 23 ∧
    -- 1637000000.0
    shown (mtimeOf 1637000000 0) = [49, 54, 51, 55, 48, 48, 48, 48, 48, 48, 46, 48] := by
  decide +kernel

/-- Sixteen digits are not enough. -/
theorem C118_sixteen : ∃ q, fl q = q ∧ fl (roundSig 10 16 q) ≠ q := by
  refine ⟨fl (-1 / 30000), fl_fl _, ?_⟩
  decide +kernel

/-- Times less than about 0.2 microseconds apart are the same float: a file which is changed twice in that time, with the same
size, is not seen to have changed. -/
theorem C118_coarse : mtimeOf 1637000000 100 = mtimeOf 1637000000 0 ∧ mtimeOf 1637000000 1000 ≠ mtimeOf 1637000000 0 := by
  decide +kernel

/-- Two files, one of which depends on the other. -/
def twoFiles : Graph.Graph :=
  [("src/public/a.html", ⟨⟨120, mtimeOf 1637000000 123456789, 11⟩, [], ["src/public/b.js"]⟩),
    ("src/public/b.js", ⟨⟨7, mtimeOf 1637000001 5, 12⟩, ["src/public/a.html"], []⟩)]

theorem twoFiles_valid : Graph.Valid twoFiles :=
  ⟨[.call (.add "src/public/a.html" ⟨120, mtimeOf 1637000000 123456789, 11⟩ []), .call (.add "src/public/b.js" ⟨7, mtimeOf 1637000001 5, 12⟩ []),
    .call (.setChildren "src/public/a.html" ["src/public/b.js"] true)], by decide +kernel⟩

theorem twoFiles_times : Times twoFiles := by
  intro p n h
  simp only [twoFiles, List.mem_cons, List.not_mem_nil, or_false, Prod.mk.injEq] at h
  rcases h with ⟨_, rfl⟩ | ⟨_, rfl⟩
  · exact ⟨_, _, rfl⟩
  · exact ⟨_, _, rfl⟩

theorem C118_graph_case : ∃ g', loadText python (storeText python twoFiles) = .ok g' ∧
    Graph.checkFile g' "src/public/a.html" ⟨120, mtimeOf 1637000000 123456789, 11⟩ = true ∧
    Graph.checkFile g' "src/public/a.html" ⟨120, mtimeOf 1637000000 123457789, 11⟩ = false := by
  obtain ⟨g', h1, _, h3⟩ := C118_graph twoFiles_valid twoFiles_times
  refine ⟨g', h1, ?_, ?_⟩ <;> rw [h3] <;> decide +kernel

end Verif.PyFloat
