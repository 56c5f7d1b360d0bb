import Mathlib.Data.Int.Log
import Mathlib.Data.Rat.Floor
import Mathlib.Tactic.Linarith
import Mathlib.Tactic.Positivity
import Mathlib.Tactic.Ring
import Mathlib.Tactic.FieldSimp
import Mathlib.Tactic.NormNum

/-!
Rounded arithmetic of Python numbers over the rationals.

A `float` is a rational with 53 binary digits, a `decimal.Decimal` under the default context a rational with 28
decimal digits; both round to nearest, ties to even.  Exponent limits (overflow, underflow, subnormals) are not
modelled: the theorems which use these functions bound their arguments far inside the range where they matter.
-/

namespace Verif.Num

/-- Python's `round(x)` for a float and the rounding of the last kept digit: to the nearest integer, ties to even. -/
def roundEven (q : ℚ) : ℤ :=
  if 2 * (q - ⌊q⌋) < 1 then ⌊q⌋
  else if 1 < 2 * (q - ⌊q⌋) then ⌊q⌋ + 1
  else if ⌊q⌋ % 2 = 0 then ⌊q⌋ else ⌊q⌋ + 1

/-- Python's `int(x)` for a float or Decimal: towards zero. -/
def trunc (q : ℚ) : ℤ := if 0 ≤ q then ⌊q⌋ else ⌈q⌉

/-- Rounding to `p` digits in base `b`. -/
def roundSig (b p : ℕ) (q : ℚ) : ℚ :=
  if q = 0 then 0
  else roundEven (q / (b : ℚ) ^ (Int.log b |q| - (p - 1))) * (b : ℚ) ^ (Int.log b |q| - (p - 1))

/-- The float nearest to a rational (IEEE 754 binary64 without exponent limits). -/
def fl (q : ℚ) : ℚ := roundSig 2 53 q

/-- The Decimal nearest to a rational (28 digits, the default context). -/
def dec (q : ℚ) : ℚ := roundSig 10 28 q

theorem roundEven_cases (q : ℚ) :
    (roundEven q = ⌊q⌋ ∧ 2 * (q - ⌊q⌋) ≤ 1) ∨ (roundEven q = ⌊q⌋ + 1 ∧ 1 ≤ 2 * (q - ⌊q⌋)) := by
  unfold roundEven
  split
  · exact .inl ⟨rfl, by linarith⟩
  · split
    · exact .inr ⟨rfl, by linarith⟩
    · split
      · exact .inl ⟨rfl, by linarith⟩
      · exact .inr ⟨rfl, by linarith⟩

theorem roundEven_le (q : ℚ) : (roundEven q : ℚ) ≤ q + 1 / 2 := by
  have h1 := Int.floor_le q
  rcases roundEven_cases q with ⟨h, g⟩ | ⟨h, g⟩ <;> rw [h] <;> push_cast <;> linarith

theorem le_roundEven (q : ℚ) : q - 1 / 2 ≤ (roundEven q : ℚ) := by
  have h1 := Int.lt_floor_add_one q
  rcases roundEven_cases q with ⟨h, g⟩ | ⟨h, g⟩ <;> rw [h] <;> push_cast <;> linarith

theorem roundEven_int (n : ℤ) : roundEven (n : ℚ) = n := by
  unfold roundEven
  simp

theorem roundEven_mono {a b : ℚ} (h : a ≤ b) : roundEven a ≤ roundEven b := by
  have hf : ⌊a⌋ ≤ ⌊b⌋ := Int.floor_le_floor h
  rcases lt_or_eq_of_le hf with hlt | heq
  · rcases roundEven_cases a with ⟨ha, _⟩ | ⟨ha, _⟩ <;> rcases roundEven_cases b with ⟨hb, _⟩ | ⟨hb, _⟩ <;> omega
  · unfold roundEven
    rw [heq]
    split_ifs <;> first | omega | (exfalso; linarith)

variable {b : ℕ}

theorem roundSig_zero (b p : ℕ) : roundSig b p 0 = 0 := by simp [roundSig]

theorem pow_log_le (hb : 1 < b) {q : ℚ} (hq : 0 < q) : (b : ℚ) ^ Int.log b q ≤ q :=
  Int.zpow_log_le_self hb hq

theorem lt_pow_log (hb : 1 < b) (q : ℚ) : q < (b : ℚ) ^ (Int.log b q + 1) :=
  Int.lt_zpow_succ_log_self hb q

/-- Numbers with few digits are not changed. -/
theorem roundSig_exact (hb : 1 < b) {p : ℕ} {n k : ℤ} (hn : |n| < (b : ℤ) ^ p) :
    roundSig b p (n * (b : ℚ) ^ k) = n * (b : ℚ) ^ k := by
  have hb0 : (0 : ℚ) < b := by exact_mod_cast (by omega : 0 < b)
  have hb1 : (1 : ℚ) < b := by exact_mod_cast hb
  unfold roundSig
  split
  · next h => exact h.symm
  · next h =>
    set q : ℚ := n * (b : ℚ) ^ k with hq
    set e := Int.log b |q| - (p - 1) with he
    have hpos : 0 < |q| := abs_pos.2 h
    have hlt : |q| < (b : ℚ) ^ (k + p) := by
      rw [hq, abs_mul, abs_of_pos (zpow_pos hb0 k), zpow_add₀ hb0.ne', mul_comm]
      refine mul_lt_mul_of_pos_left ?_ (zpow_pos hb0 k)
      have : ((|n| : ℤ) : ℚ) < ((b : ℤ) ^ p : ℤ) := by exact_mod_cast hn
      push_cast at this
      simpa using this
    have hlog : (b : ℚ) ^ Int.log b |q| < (b : ℚ) ^ (k + p) := lt_of_le_of_lt (pow_log_le hb hpos) hlt
    have hek : e ≤ k := by
      have := (zpow_lt_zpow_iff_right₀ hb1).1 hlog
      omega
    have hdiv : q / (b : ℚ) ^ e = ((n * (b : ℤ) ^ (k - e).toNat : ℤ) : ℚ) := by
      rw [hq]
      push_cast
      rw [div_eq_iff (zpow_pos hb0 e).ne', mul_assoc]
      congr 1
      rw [← zpow_natCast, ← zpow_add₀ hb0.ne']
      congr 1
      omega
    rw [hdiv, roundEven_int, ← hdiv, div_mul_cancel₀ _ (zpow_pos hb0 e).ne']

theorem roundSig_nonneg {p : ℕ} {q : ℚ} (hq : 0 ≤ q) : 0 ≤ roundSig b p q := by
  unfold roundSig
  split
  · exact le_rfl
  · have hz : (0 : ℚ) ≤ (b : ℚ) ^ (Int.log b |q| - (p - 1)) := zpow_nonneg (by positivity) _
    refine mul_nonneg ?_ hz
    have h0 : roundEven (0 : ℤ) ≤ roundEven (q / (b : ℚ) ^ (Int.log b |q| - (p - 1))) :=
      roundEven_mono (by push_cast; exact div_nonneg hq hz)
    rw [roundEven_int] at h0
    exact_mod_cast h0

/-- The rounding error is at most half a unit in the last place. -/
theorem roundSig_err (hb : 1 < b) {p : ℕ} {q : ℚ} (hq : 0 < q) :
    |roundSig b p q - q| ≤ q * (b : ℚ) ^ (1 - p : ℤ) / 2 := by
  have hb0 : (0 : ℚ) < b := by exact_mod_cast (by omega : 0 < b)
  unfold roundSig
  rw [if_neg hq.ne', abs_of_pos hq]
  set u := (b : ℚ) ^ (Int.log b q - (p - 1)) with hu
  have hu0 : 0 < u := zpow_pos hb0 _
  have h1 := roundEven_le (q / u)
  have h2 := le_roundEven (q / u)
  have hqu : q / u * u = q := div_mul_cancel₀ _ hu0.ne'
  have hule : u ≤ q * (b : ℚ) ^ (1 - p : ℤ) := by
    have : u = (b : ℚ) ^ Int.log b q * (b : ℚ) ^ (1 - p : ℤ) := by
      rw [hu, ← zpow_add₀ hb0.ne']; congr 1; ring
    rw [this]
    exact mul_le_mul_of_nonneg_right (pow_log_le hb hq) (zpow_pos hb0 _).le
  have h3 := mul_le_mul_of_nonneg_right h1 hu0.le
  have h4 := mul_le_mul_of_nonneg_right h2 hu0.le
  rw [add_mul, hqu] at h3
  rw [sub_mul, hqu] at h4
  rw [abs_le]
  constructor <;> linarith

/-- Rounding is monotone. -/
theorem roundSig_mono (hb : 1 < b) {p : ℕ} (hp : 0 < p) {x y : ℚ} (hx : 0 ≤ x) (h : x ≤ y) :
    roundSig b p x ≤ roundSig b p y := by
  have hb0 : (0 : ℚ) < b := by exact_mod_cast (by omega : 0 < b)
  have hb1 : (1 : ℚ) < b := by exact_mod_cast hb
  rcases hx.eq_or_lt with rfl | hx0
  · rw [roundSig_zero]; exact roundSig_nonneg h
  have hy0 : 0 < y := lt_of_lt_of_le hx0 h
  have hlog : Int.log b x ≤ Int.log b y := Int.log_mono_right hx0 h
  unfold roundSig
  rw [if_neg hx0.ne', if_neg hy0.ne', abs_of_pos hx0, abs_of_pos hy0]
  rcases hlog.eq_or_lt with heq | hlt
  · rw [heq]
    have hu0 : (0 : ℚ) < (b : ℚ) ^ (Int.log b y - (p - 1)) := zpow_pos hb0 _
    refine mul_le_mul_of_nonneg_right ?_ hu0.le
    exact_mod_cast roundEven_mono (div_le_div_of_nonneg_right h hu0.le)
  · set ux := (b : ℚ) ^ (Int.log b x - (p - 1)) with hux
    set uy := (b : ℚ) ^ (Int.log b y - (p - 1)) with huy
    have hux0 : 0 < ux := zpow_pos hb0 _
    have huy0 : 0 < uy := zpow_pos hb0 _
    have e1 : (roundEven (x / ux) : ℚ) * ux ≤ (b : ℚ) ^ (Int.log b x + 1) := by
      have hle : x / ux ≤ (((b : ℤ) ^ p : ℤ) : ℚ) := by
        rw [div_le_iff₀ hux0]
        refine (lt_pow_log hb x).le.trans (le_of_eq ?_)
        push_cast
        rw [hux, ← zpow_natCast, ← zpow_add₀ hb0.ne']
        congr 1; ring
      have h1 := roundEven_mono hle
      rw [roundEven_int] at h1
      have h2 : (roundEven (x / ux) : ℚ) ≤ (((b : ℤ) ^ p : ℤ) : ℚ) := by exact_mod_cast h1
      refine (mul_le_mul_of_nonneg_right h2 hux0.le).trans (le_of_eq ?_)
      push_cast
      rw [hux, ← zpow_natCast, ← zpow_add₀ hb0.ne']
      congr 1; ring
    have e2 : (b : ℚ) ^ Int.log b y ≤ (roundEven (y / uy) : ℚ) * uy := by
      have hpow : (((b : ℤ) ^ (p - 1) : ℤ) : ℚ) * uy = (b : ℚ) ^ Int.log b y := by
        push_cast
        rw [huy, ← zpow_natCast, ← zpow_add₀ hb0.ne']
        congr 1
        push_cast [Nat.cast_sub (show 1 ≤ p from hp)]
        ring
      have hle : (((b : ℤ) ^ (p - 1) : ℤ) : ℚ) ≤ y / uy := by
        rw [le_div_iff₀ huy0, hpow]
        exact pow_log_le hb hy0
      have h1 := roundEven_mono hle
      rw [roundEven_int] at h1
      have h2 : (((b : ℤ) ^ (p - 1) : ℤ) : ℚ) ≤ (roundEven (y / uy) : ℚ) := by exact_mod_cast h1
      rw [← hpow]
      exact mul_le_mul_of_nonneg_right h2 huy0.le
    refine e1.trans (le_trans ?_ e2)
    exact zpow_le_zpow_right₀ hb1.le (by omega)

/-! ## Floats and Decimals -/

theorem fl_mono {x y : ℚ} (hx : 0 ≤ x) (h : x ≤ y) : fl x ≤ fl y := roundSig_mono (by decide) (by decide) hx h

theorem fl_nonneg {q : ℚ} (hq : 0 ≤ q) : 0 ≤ fl q := roundSig_nonneg hq

theorem fl_int {n : ℤ} (hn : |n| < 2 ^ 53) : fl n = n := by
  have := roundSig_exact (b := 2) (by decide) (p := 53) (n := n) (k := 0) (by simpa using hn)
  simpa [fl] using this

theorem fl_err {q : ℚ} (hq : 0 ≤ q) : |fl q - q| ≤ q / 2 ^ 53 := by
  rcases hq.eq_or_lt with rfl | h
  · simp [fl, roundSig_zero]
  · refine (roundSig_err (by decide) h).trans (le_of_eq ?_)
    norm_num [zpow_neg]
    ring

theorem dec_mono {x y : ℚ} (hx : 0 ≤ x) (h : x ≤ y) : dec x ≤ dec y := roundSig_mono (by decide) (by decide) hx h

theorem dec_nonneg {q : ℚ} (hq : 0 ≤ q) : 0 ≤ dec q := roundSig_nonneg hq

theorem dec_exact {n k : ℤ} (hn : |n| < 10 ^ 28) : dec (n * 10 ^ k) = n * 10 ^ k := by
  have := roundSig_exact (b := 10) (by decide) (p := 28) (n := n) (k := k) (by simpa using hn)
  simpa [dec] using this

theorem dec_int {n : ℤ} (hn : |n| < 10 ^ 28) : dec n = n := by
  simpa using dec_exact (k := 0) hn

theorem dec_err {q : ℚ} (hq : 0 ≤ q) : |dec q - q| ≤ q / (2 * 10 ^ 27) := by
  rcases hq.eq_or_lt with rfl | h
  · simp [dec, roundSig_zero]
  · refine (roundSig_err (by decide) h).trans (le_of_eq ?_)
    norm_num [zpow_neg]
    ring

theorem trunc_nonneg_eq {q : ℚ} (hq : 0 ≤ q) : trunc q = ⌊q⌋ := by simp [trunc, hq]

end Verif.Num
