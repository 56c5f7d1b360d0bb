import Verif.ImgFit
import Mathlib.Algebra.Order.Archimedean.Basic

/-! C39 and C40: crop rectangles and resolutions. -/

namespace Verif.Img

open Verif.Num

/-! ## Crop rectangles -/

/-- A side of the fit: `n` is what rounding makes of `d * s / e`, where the source has `s` pixels in the kept
direction and `t > d * s / e` in the cropped one. -/
theorem side_bounds {s t d e : ℤ} (hs : 0 < s) (hd : 0 < d) (he : 0 < e) (ht : t < 2 ^ 50) (hd' : d < 2 ^ 53)
    (h : (d : ℚ) * s / e < t) :
    0 ≤ roundEven (fl (fl d * fl (s / e))) ∧ roundEven (fl (fl d * fl (s / e))) ≤ t ∧
    |fl (fl d * fl (s / e)) - (d : ℚ) * s / e| ≤ (d : ℚ) * s / e * (1 / 2 ^ 52 + 1 / 2 ^ 106) := by
  have hs' : (0 : ℚ) < s := by exact_mod_cast hs
  have hd0 : (0 : ℚ) < d := by exact_mod_cast hd
  have he' : (0 : ℚ) < e := by exact_mod_cast he
  have hfd : fl (d : ℚ) = d := fl_int (by rw [abs_of_pos hd]; exact hd')
  rw [hfd]
  set q : ℚ := s / e with hq
  have hq0 : 0 < q := div_pos hs' he'
  have hv : (d : ℚ) * s / e = d * q := by rw [hq]; ring
  rw [hv] at h ⊢
  have e1 := abs_le.1 (fl_err hq0.le)
  have hn : 0 ≤ (d : ℚ) * fl q := mul_nonneg hd0.le (fl_nonneg hq0.le)
  have e2 := abs_le.1 (fl_err hn)
  have hdq : 0 < (d : ℚ) * q := mul_pos hd0 hq0
  have k1 : (d : ℚ) * fl q ≤ d * q + d * q / 2 ^ 53 := by
    have := mul_le_mul_of_nonneg_left (show fl q ≤ q + q / 2 ^ 53 by linarith) hd0.le
    linarith
  have k2 : d * q - d * q / 2 ^ 53 ≤ (d : ℚ) * fl q := by
    have := mul_le_mul_of_nonneg_left (show q - q / 2 ^ 53 ≤ fl q by linarith) hd0.le
    linarith
  have herr : |fl (d * fl q) - d * q| ≤ d * q * (1 / 2 ^ 52 + 1 / 2 ^ 106) := by
    rw [abs_le]
    constructor <;> nlinarith
  refine ⟨?_, ?_, herr⟩
  · have := roundEven_mono (a := ((0 : ℤ) : ℚ)) (b := fl (d * fl q)) (by push_cast; exact fl_nonneg hn)
    rwa [roundEven_int] at this
  · have hup := (abs_le.1 herr).2
    have ht' : (t : ℚ) < 2 ^ 50 := by exact_mod_cast ht
    have hlt : fl (d * fl q) < t + 1 / 2 := by
      have : d * q * (1 / 2 ^ 52 + 1 / 2 ^ 106) < 1 / 2 := by nlinarith
      linarith
    have hr := roundEven_le (fl (d * fl q))
    have : (roundEven (fl (d * fl q)) : ℚ) < t + 1 := by linarith
    have : roundEven (fl (d * fl q)) < t + 1 := by exact_mod_cast this
    omega

/-- The offset of a crop lies between 0 and the removed pixels, and less than a pixel away from the given share. -/
theorem offset_bounds {m : ℤ} {p : ℚ} (hm : 0 ≤ m) (hm' : m < 10 ^ 28) (hp : 0 ≤ p) (hp1 : p ≤ 1) :
    0 ≤ trunc (dec ((m : ℚ) * p)) ∧ trunc (dec ((m : ℚ) * p)) ≤ m ∧
    |(trunc (dec ((m : ℚ) * p)) : ℚ) - p * m| < 1 := by
  have hm0 : (0 : ℚ) ≤ m := by exact_mod_cast hm
  have h0 : 0 ≤ (m : ℚ) * p := mul_nonneg hm0 hp
  have hle : (m : ℚ) * p ≤ m := by nlinarith
  rw [trunc_nonneg_eq (dec_nonneg h0)]
  set v := (m : ℚ) * p with hv
  have hf0 : 0 ≤ ⌊v⌋ := Int.floor_nonneg.2 h0
  have hfm : ⌊v⌋ ≤ m := by
    have : ⌊v⌋ ≤ ⌊(m : ℚ)⌋ := Int.floor_le_floor hle
    simpa using this
  have hcm : ⌈v⌉ ≤ m := Int.ceil_le.2 hle
  have hc0 : 0 ≤ ⌈v⌉ := Int.ceil_nonneg h0
  have h1 : dec v ≤ dec (⌈v⌉ : ℚ) := dec_mono h0 (Int.le_ceil v)
  rw [dec_int (by rw [abs_of_nonneg hc0]; omega)] at h1
  have h2 : dec (⌊v⌋ : ℚ) ≤ dec v := dec_mono (by exact_mod_cast hf0) (Int.floor_le v)
  rw [dec_int (by rw [abs_of_nonneg hf0]; omega)] at h2
  have h3 : ⌊v⌋ ≤ ⌊dec v⌋ := Int.le_floor.2 h2
  have h4 : ⌊dec v⌋ ≤ ⌈v⌉ := by
    have : ⌊dec v⌋ ≤ ⌊((⌈v⌉ : ℤ) : ℚ)⌋ := Int.floor_le_floor h1
    simpa using this
  refine ⟨by omega, by omega, ?_⟩
  have h3' : (⌊v⌋ : ℚ) ≤ ⌊dec v⌋ := by exact_mod_cast h3
  have h4' : (⌊dec v⌋ : ℚ) ≤ ⌈v⌉ := by exact_mod_cast h4
  have h5 := Int.lt_floor_add_one v
  have h6 := Int.ceil_lt_add_one v
  rw [show p * m = v by rw [hv]; ring, abs_lt]
  constructor <;> linarith

/-- Comparing the rounded ratios agrees with comparing products. -/
theorem ratio_lt {a b c d : ℤ} (hb : 0 < b) (hc : 0 < c) (hd : 0 < d) (h : fl ((a : ℚ) / b) < fl ((c : ℚ) / d)) (ha : 0 < a) :
    a * d < c * b := by
  by_contra hn
  have hn : (c : ℚ) * b ≤ a * d := by exact_mod_cast not_lt.1 hn
  have hb' : (0 : ℚ) < b := by exact_mod_cast hb
  have hd' : (0 : ℚ) < d := by exact_mod_cast hd
  have hc' : (0 : ℚ) < c := by exact_mod_cast hc
  have : (c : ℚ) / d ≤ a / b := by
    rw [div_le_div_iff₀ hd' hb']; exact hn
  exact absurd h (not_lt.2 (fl_mono (div_pos hc' hd').le this))

/-- Equal rounded ratios of small numbers are equal. -/
theorem ratio_eq {a b c d : ℤ} (ha : 0 < a) (hb : 0 < b) (hc : 0 < c) (hd : 0 < d) (h : fl ((a : ℚ) / b) = fl ((c : ℚ) / d))
    (h1 : a * d < 2 ^ 50) (h2 : c * b < 2 ^ 50) : a * d = c * b := by
  have ha' : (0 : ℚ) < a := by exact_mod_cast ha
  have hb' : (0 : ℚ) < b := by exact_mod_cast hb
  have hc' : (0 : ℚ) < c := by exact_mod_cast hc
  have hd' : (0 : ℚ) < d := by exact_mod_cast hd
  have e1 := abs_le.1 (fl_err (div_pos ha' hb').le)
  have e2 := abs_le.1 (fl_err (div_pos hc' hd').le)
  rw [h] at e1
  have hbd : (0 : ℚ) < b * d := mul_pos hb' hd'
  have k1 : (a : ℚ) / b * (b * d) = a * d := by field_simp
  have k2 : (c : ℚ) / d * (b * d) = c * b := by field_simp
  have h1' : (a : ℚ) * d < 2 ^ 50 := by exact_mod_cast h1
  have h2' : (c : ℚ) * b < 2 ^ 50 := by exact_mod_cast h2
  have l1 : (a : ℚ) / b - c / d ≤ a / b / 2 ^ 53 + c / d / 2 ^ 53 := by linarith
  have l2 : (c : ℚ) / d - a / b ≤ a / b / 2 ^ 53 + c / d / 2 ^ 53 := by linarith
  have m1 := mul_le_mul_of_nonneg_right l1 hbd.le
  have m2 := mul_le_mul_of_nonneg_right l2 hbd.le
  have r1 : ((a : ℚ) / b / 2 ^ 53 + c / d / 2 ^ 53) * (b * d) = a * d / 2 ^ 53 + c * b / 2 ^ 53 := by
    rw [← k1, ← k2]; ring
  rw [sub_mul, k1, k2, r1] at m1
  rw [sub_mul, k1, k2, r1] at m2
  have n1 : (a : ℚ) * d - c * b < 1 := by linarith
  have n2 : (c : ℚ) * b - a * d < 1 := by linarith
  have n1' : a * d - c * b < 1 := by exact_mod_cast n1
  have n2' : c * b - a * d < 1 := by exact_mod_cast n2
  omega

/-- The rounded side is the integer nearest to the exact one. -/
theorem side_near {s d e : ℤ} (hs : 0 < s) (hd : 0 < d) (he : 0 < e) {v : ℚ} (hds : d * s < 2 ^ 50)
    (hv : |v - (d : ℚ) * s / e| ≤ (d : ℚ) * s / e * (1 / 2 ^ 52 + 1 / 2 ^ 106)) :
    2 * |roundEven v * e - d * s| ≤ e := by
  have he' : (0 : ℚ) < e := by exact_mod_cast he
  have hds' : (d : ℚ) * s < 2 ^ 50 := by exact_mod_cast hds
  have hds0 : (0 : ℚ) < (d : ℚ) * s := by exact_mod_cast mul_pos hd hs
  have h1 := roundEven_le v
  have h2 := le_roundEven v
  obtain ⟨v1, v2⟩ := abs_le.1 hv
  have k : (d : ℚ) * s / e * e = d * s := by field_simp
  have a1 := mul_le_mul_of_nonneg_right (show (roundEven v : ℚ) ≤ d * s / e + d * s / e * (1 / 2 ^ 52 + 1 / 2 ^ 106) + 1 / 2 by linarith) he'.le
  have a2 := mul_le_mul_of_nonneg_right (show (d : ℚ) * s / e - d * s / e * (1 / 2 ^ 52 + 1 / 2 ^ 106) - 1 / 2 ≤ roundEven v by linarith) he'.le
  have b1 : (roundEven v : ℚ) * e ≤ d * s + d * s * (1 / 2 ^ 52 + 1 / 2 ^ 106) + e / 2 := by
    calc _ ≤ _ := a1
      _ = d * s / e * e + d * s / e * e * (1 / 2 ^ 52 + 1 / 2 ^ 106) + e / 2 := by ring
      _ = _ := by rw [k]
  have b2 : (d : ℚ) * s - d * s * (1 / 2 ^ 52 + 1 / 2 ^ 106) - e / 2 ≤ roundEven v * e := by
    have r2 : ((d : ℚ) * s / e - d * s / e * (1 / 2 ^ 52 + 1 / 2 ^ 106) - 1 / 2) * e =
        d * s / e * e - d * s / e * e * (1 / 2 ^ 52 + 1 / 2 ^ 106) - e / 2 := by ring
    rw [r2, k] at a2
    exact a2
  have c1 : 2 * ((roundEven v : ℚ) * e - d * s) < e + 1 := by linarith
  have c2 : -(e + 1 : ℚ) < 2 * ((roundEven v : ℚ) * e - d * s) := by linarith
  have c1' : 2 * (roundEven v * e - d * s) < e + 1 := by exact_mod_cast c1
  have c2' : -(e + 1) < 2 * (roundEven v * e - d * s) := by exact_mod_cast c2
  rcases abs_cases (roundEven v * e - d * s) with ⟨h, _⟩ | ⟨h, _⟩ <;> rw [h] <;> omega

/-- What a user expects of a crop rectangle: it lies inside the part of the image left by the pre-crops, spans its
full height or its full width, the other side is the integer nearest to the requested aspect ratio, and the
pixels removed are split between the sides as requested, to within less than a pixel. -/
structure GoodCrop (sw sh dw dh : ℤ) (pl pt : ℚ) (ct cl cb cr : ℤ) (r : Rect) : Prop where
  left : cl ≤ r.x
  right : r.x + r.w ≤ sw - cr
  top : ct ≤ r.y
  bottom : r.y + r.h ≤ sh - cb
  width : 0 ≤ r.w
  height : 0 ≤ r.h
  full : (r.h = sh - ct - cb ∧ 2 * |r.w * dh - dw * r.h| ≤ dh) ∨ (r.w = sw - cl - cr ∧ 2 * |r.h * dw - dh * r.w| ≤ dw)
  shareX : |((r.x - cl : ℤ) : ℚ) - pl * (sw - cl - cr - r.w : ℤ)| < 1
  shareY : |((r.y - ct : ℤ) : ℚ) - pt * (sh - ct - cb - r.h : ℤ)| < 1

theorem coverBase_good {sw sh dw dh : ℤ} {pl pt : ℚ} (hsw : 0 < sw) (hsh : 0 < sh) (hdw : 0 < dw) (hdh : 0 < dh)
    (h1 : sw * dh < 2 ^ 50) (h2 : sh * dw < 2 ^ 50) (hpl : 0 ≤ pl ∧ pl ≤ 1) (hpt : 0 ≤ pt ∧ pt ≤ 1) :
    ∃ r, coverBase sw sh dw dh pl pt = .ok r ∧ GoodCrop sw sh dw dh pl pt 0 0 0 0 r := by
  have hsw' : (0 : ℚ) < sw := by exact_mod_cast hsw
  have hsh' : (0 : ℚ) < sh := by exact_mod_cast hsh
  have hdw' : (0 : ℚ) < dw := by exact_mod_cast hdw
  have hdh' : (0 : ℚ) < dh := by exact_mod_cast hdh
  have b1 : sw < 2 ^ 50 := by nlinarith
  have b2 : sh < 2 ^ 50 := by nlinarith
  have b3 : dw < 2 ^ 50 := by nlinarith
  have b4 : dh < 2 ^ 50 := by nlinarith
  unfold coverBase
  rw [if_neg hsh.ne', if_neg hdh.ne']
  split
  · next h =>
    have hr := ratio_lt hdh hsw hsh h hdw
    have hv : (dw : ℚ) * sh / dh < sw := by
      rw [div_lt_iff₀ hdh']; exact_mod_cast hr
    obtain ⟨w0, w1, w2⟩ := side_bounds hsh hdw hdh b1 (by omega) hv
    have hnear := side_near hsh hdw hdh (by rw [mul_comm]; exact h2) w2
    obtain ⟨o0, o1, o2⟩ := offset_bounds (m := sw - roundEven (fl (fl dw * fl (sh / dh)))) (by omega) (by omega) hpl.1 hpl.2
    refine ⟨_, rfl, ⟨o0, ?_, le_rfl, ?_, w0, hsh.le, .inl ⟨?_, hnear⟩, ?_, ?_⟩⟩
    · dsimp only; omega
    · simp
    · simp
    · simpa using o2
    · simp
  · next hn =>
    split
    · next h =>
      rw [if_neg hdw.ne']
      have hr := ratio_lt hsh hdw hdh h hsw
      have hv : (dh : ℚ) * sw / dw < sh := by
        rw [div_lt_iff₀ hdw']
        have : (sw : ℚ) * dh < dw * sh := by exact_mod_cast hr
        linarith
      obtain ⟨w0, w1, w2⟩ := side_bounds hsw hdh hdw b2 (by omega) hv
      have hnear := side_near hsw hdh hdw (by rw [mul_comm]; exact h1) w2
      obtain ⟨o0, o1, o2⟩ := offset_bounds (m := sh - roundEven (fl (fl dh * fl (sw / dw)))) (by omega) (by omega) hpt.1 hpt.2
      refine ⟨_, rfl, ⟨le_rfl, ?_, o0, ?_, hsw.le, w0, .inr ⟨?_, hnear⟩, ?_, ?_⟩⟩
      · simp
      · dsimp only; omega
      · simp
      · simp
      · simpa using o2
    · next hn2 =>
      have heq : fl ((sw : ℚ) / sh) = fl ((dw : ℚ) / dh) := le_antisymm (not_lt.1 hn) (not_lt.1 hn2)
      have := ratio_eq hsw hsh hdw hdh heq h1 (by rw [mul_comm]; exact h2)
      refine ⟨_, rfl, ⟨le_rfl, ?_, le_rfl, ?_, hsw.le, hsh.le, .inl ⟨?_, ?_⟩, ?_, ?_⟩⟩ <;> simp
      rw [this]; simp; omega

/-- **C39.**  For every image and target of positive size and all pre-crops which leave part of the image, a
rectangle as described by `GoodCrop` is returned; if they leave nothing a ValueError is raised.  (The products
bound the sizes to those for which floats are exact enough; Pillow refuses images beyond 2·10⁹ pixels.) -/
theorem C39 {sw sh dw dh : ℤ} {pl pt : ℚ} {ct cl cb cr : ℤ} (hsw : 0 < sw) (hsh : 0 < sh) (hdw : 0 < dw) (hdh : 0 < dh)
    (h1 : sw * dh < 2 ^ 50) (h2 : sh * dw < 2 ^ 50) (hpl : 0 ≤ pl ∧ pl ≤ 1) (hpt : 0 ≤ pt ∧ pt ≤ 1)
    (hct : 0 ≤ ct) (hcl : 0 ≤ cl) (hcb : 0 ≤ cb) (hcr : 0 ≤ cr) :
    (cl + cr < sw ∧ ct + cb < sh ∧
      ∃ r, coverFit sw sh dw dh pl pt ct cl cb cr = .ok r ∧ GoodCrop sw sh dw dh pl pt ct cl cb cr r) ∨
    ((sw ≤ cl + cr ∨ sh ≤ ct + cb) ∧ coverFit sw sh dw dh pl pt ct cl cb cr = .error .valueError) := by
  unfold coverFit
  split
  · next hc =>
    split
    · next h => exact .inr ⟨.inl (by omega), rfl⟩
    · next hw =>
      split
      · next h => exact .inr ⟨.inr (by omega), rfl⟩
      · next hh =>
        obtain ⟨r, hr, g⟩ := coverBase_good (sw := sw - cl - cr) (sh := sh - ct - cb) (dw := dw) (dh := dh) (pl := pl) (pt := pt)
          (by omega) (by omega) hdw hdh (by nlinarith) (by nlinarith) hpl hpt
        rw [hr]
        refine .inl ⟨by omega, by omega, _, rfl, ?_⟩
        have := g.left; have := g.right; have := g.top; have := g.bottom
        refine ⟨?_, ?_, ?_, ?_, g.width, g.height, ?_, ?_, ?_⟩
        · dsimp only; omega
        · dsimp only; omega
        · dsimp only; omega
        · dsimp only; omega
        · have := g.full
          simpa using this
        · have := g.shareX
          simpa using this
        · have := g.shareY
          simpa using this
  · next hc =>
    have hc : ct = 0 ∧ cl = 0 ∧ cb = 0 ∧ cr = 0 := by
      refine ⟨?_, ?_, ?_, ?_⟩ <;> by_contra hne <;> exact hc (by simp [hne])
    obtain ⟨rfl, rfl, rfl, rfl⟩ := hc
    obtain ⟨r, hr, g⟩ := coverBase_good hsw hsh hdw hdh h1 h2 hpl hpt
    exact .inl ⟨by omega, by omega, r, hr, g⟩

/-- The rounded side is at least the requested one if the kept side is. -/
theorem side_ge {s d e : ℤ} (hd : 0 < d) (he : 0 < e) (hd' : d < 2 ^ 53) (h : e ≤ s) :
    d ≤ roundEven (fl (fl d * fl (s / e))) := by
  have he' : (0 : ℚ) < e := by exact_mod_cast he
  have hd0 : (0 : ℚ) < d := by exact_mod_cast hd
  have hfd : fl (d : ℚ) = d := fl_int (by rw [abs_of_pos hd]; exact hd')
  have h1 : (1 : ℚ) ≤ s / e := by
    rw [le_div_iff₀ he', one_mul]; exact_mod_cast h
  have h2 : (1 : ℚ) ≤ fl (s / e) := by
    have := fl_mono zero_le_one h1
    have e1 : fl (1 : ℚ) = 1 := by simpa using fl_int (n := 1) (by decide)
    rwa [e1] at this
  rw [hfd]
  have h3 : fl (d : ℚ) ≤ fl (d * fl (s / e)) := fl_mono hd0.le (by nlinarith)
  rw [hfd] at h3
  have := roundEven_mono h3
  rwa [roundEven_int] at this

/-- **C39, no enlargement.**  If what the pre-crops leave is at least as large as the target, so is the rectangle:
the image is never scaled up. -/
theorem C39_no_upscale {sw sh dw dh : ℤ} {pl pt : ℚ} {ct cl cb cr : ℤ} (hdw : 0 < dw) (hdh : 0 < dh)
    (h1 : sw * dh < 2 ^ 50) (h2 : sh * dw < 2 ^ 50) (hct : 0 ≤ ct) (hcl : 0 ≤ cl) (hcb : 0 ≤ cb) (hcr : 0 ≤ cr)
    (hw : dw ≤ sw - cl - cr) (hh : dh ≤ sh - ct - cb) {r : Rect}
    (hr : coverFit sw sh dw dh pl pt ct cl cb cr = .ok r) : dw ≤ r.w ∧ dh ≤ r.h := by
  have base : ∀ {sw sh : ℤ} {r : Rect}, dw ≤ sw → dh ≤ sh → sw * dh < 2 ^ 50 → sh * dw < 2 ^ 50 →
      coverBase sw sh dw dh pl pt = .ok r → dw ≤ r.w ∧ dh ≤ r.h := by
    intro sw sh r hw hh h1 h2 hr
    have b3 : dw < 2 ^ 50 := by nlinarith
    have b4 : dh < 2 ^ 50 := by nlinarith
    unfold coverBase at hr
    rw [if_neg (by omega), if_neg (by omega)] at hr
    split at hr
    · cases hr; exact ⟨side_ge hdw hdh (by omega) hh, hh⟩
    · split at hr
      · rw [if_neg (by omega)] at hr
        cases hr; exact ⟨hw, side_ge hdh hdw (by omega) hw⟩
      · cases hr; exact ⟨hw, hh⟩
  unfold coverFit at hr
  split at hr
  · rw [if_neg (by omega), if_neg (by omega)] at hr
    split at hr
    · cases hr
    · next q hq =>
      cases hr
      exact base (r := q) hw hh (by nlinarith) (by nlinarith) hq
  · next hc =>
    exact base (by omega) (by omega) h1 h2 hr

deriving instance DecidableEq for Except

/-- The hypotheses of C39 are met: a photograph cropped to a portrait, with and without pre-crops. -/
theorem C39_case : coverFit 640 480 100 150 (1 / 2) (1 / 2) 0 0 0 0 = .ok ⟨160, 0, 320, 480⟩ ∧
    coverFit 640 480 100 150 (1 / 4) (1 / 2) 30 40 50 60 = .ok ⟨108, 30, 267, 400⟩ ∧
    coverFit 640 480 100 150 (1 / 4) (1 / 2) 300 40 180 60 = .error .valueError := by decide +kernel

/-- With pre-crops a rectangle smaller than the target can result, which the exporter then enlarges, although the
image itself is large enough; and it can have no pixels at all. -/
theorem C39_upscale : coverFit 100 100 100 100 (1 / 2) (1 / 2) 0 99 0 0 = .ok ⟨99, 49, 1, 1⟩ ∧
    coverFit 1000 1000 10 100 (1 / 2) (1 / 2) 0 0 999 0 = .ok ⟨500, 0, 0, 1⟩ := by decide +kernel

/-! ## Resolutions -/

/-- The `i`-th resolution is wanted: the target at `1 + i * step` times its size fits in the source, and the
resolution does not exceed the maximum. -/
def Wanted (s : Steps) (sw sh dw dh : ℤ) (i : ℕ) : Prop :=
  (dw : ℚ) * (1 + i * s.step) ≤ sw ∧ (dh : ℚ) * (1 + i * s.step) ≤ sh ∧ 1 + i * s.step ≤ (s.maximum : ℚ)

theorem Wanted.anti {s : Steps} {sw sh dw dh : ℤ} (hs : 0 < s.step) (hdw : 0 ≤ dw) (hdh : 0 ≤ dh) {i j : ℕ} (h : i ≤ j)
    (hj : Wanted s sw sh dw dh j) : Wanted s sw sh dw dh i := by
  obtain ⟨h1, h2, h3⟩ := hj
  have hij : (i : ℚ) ≤ j := by exact_mod_cast h
  have hm : (1 : ℚ) + i * s.step ≤ 1 + j * s.step := by nlinarith
  have hdw' : (0 : ℚ) ≤ dw := by exact_mod_cast hdw
  have hdh' : (0 : ℚ) ≤ dh := by exact_mod_cast hdh
  exact ⟨(mul_le_mul_of_nonneg_left hm hdw').trans h1, (mul_le_mul_of_nonneg_left hm hdh').trans h2, hm.trans h3⟩

/-- The number of wanted resolutions is finite. -/
theorem wanted_count {s : Steps} {sw sh dw dh : ℤ} (hs : 0 < s.step) (hdw : 0 ≤ dw) (hdh : 0 ≤ dh) :
    ∃ n, ∀ i, i < n ↔ Wanted s sw sh dw dh i := by
  classical
  have hex : ∃ i, ¬ Wanted s sw sh dw dh i := by
    obtain ⟨i, hi⟩ := exists_nat_gt ((s.maximum : ℚ) / s.step)
    refine ⟨i, fun h => ?_⟩
    rw [div_lt_iff₀ hs] at hi
    have := h.2.2
    linarith
  refine ⟨Nat.find hex, fun i => ⟨fun h => ?_, fun h => ?_⟩⟩
  · exact Classical.not_not.1 (Nat.find_min hex h)
  · by_contra hn
    exact Nat.find_spec hex (h.anti hs hdw hdh (not_lt.1 hn))

/-- The sizes for a step with `k` decimals are computed without rounding. -/
theorem resolutions_exact {s : Steps} {sw sh dw dh a : ℤ} {k : ℕ} (ha : 0 < a) (hstep : s.step = a / 10 ^ k)
    (hdw : 0 < dw) (hdh : 0 < dh)
    (hw : dw * ((1 + |s.maximum|) * 10 ^ k + a) < 10 ^ 28) (hh : dh * ((1 + |s.maximum|) * 10 ^ k + a) < 10 ^ 28)
    {n : ℕ} (hn : ∀ i, i < n ↔ Wanted s sw sh dw dh i) (m i fuel : ℕ) (him : i + m = n) (hf : m < fuel)  :
    resolutionsFrom s sw sh dw dh fuel (1 + i * s.step) = ((List.range' i m).map (fun j : ℕ => 1 + (j : ℚ) * s.step), true) ∧
    ∀ j ∈ List.range' i m, dec (dw * (1 + (j : ℚ) * s.step)) = dw * (1 + j * s.step) ∧
      dec (dh * (1 + (j : ℚ) * s.step)) = dh * (1 + j * s.step) := by
  have hk : (0 : ℚ) < 10 ^ k := by positivity
  have hk' : (0 : ℤ) < 10 ^ k := by positivity
  have hform : ∀ j : ℕ, (1 : ℚ) + j * s.step = ((10 ^ k + j * a : ℤ) : ℚ) * 10 ^ (-(k : ℤ)) := by
    intro j
    rw [hstep, zpow_neg, zpow_natCast]
    push_cast
    field_simp
  have hsize : ∀ j : ℕ, (j = 0 ∨ Wanted s sw sh dw dh (j - 1)) → 10 ^ k + j * a ≤ (1 + |s.maximum|) * 10 ^ k + a := by
    intro j hj
    have hm0 := abs_nonneg s.maximum
    have hm1 := le_abs_self s.maximum
    rcases hj with rfl | hj
    · push_cast; nlinarith
    · cases j with
      | zero => push_cast; nlinarith
      | succ j =>
        have := hj.2.2
        simp only [Nat.add_sub_cancel] at this
        rw [hform j, zpow_neg, zpow_natCast, ← div_eq_mul_inv, div_le_iff₀ hk] at this
        have : 10 ^ k + j * a ≤ s.maximum * 10 ^ k := by exact_mod_cast this
        push_cast
        nlinarith
  have hdec : ∀ d : ℤ, 0 < d → d * ((1 + |s.maximum|) * 10 ^ k + a) < 10 ^ 28 → ∀ j : ℕ,
      (j = 0 ∨ Wanted s sw sh dw dh (j - 1)) → dec (d * (1 + (j : ℚ) * s.step)) = d * (1 + j * s.step) := by
    intro d hd hb j hj
    have e : (d : ℚ) * (1 + j * s.step) = ((d * (10 ^ k + j * a) : ℤ) : ℚ) * 10 ^ (-(k : ℤ)) := by
      rw [hform]; push_cast; ring
    rw [e]
    refine dec_exact ?_
    have h1 := hsize j hj
    have h0 : 0 ≤ 10 ^ k + (j : ℤ) * a := by positivity
    rw [abs_of_nonneg (mul_nonneg hd.le h0)]
    exact lt_of_le_of_lt (mul_le_mul_of_nonneg_left h1 hd.le) hb
  have hone : ∀ j : ℕ, Wanted s sw sh dw dh j → dec (1 + (j : ℚ) * s.step + s.step) = 1 + ((j + 1 : ℕ) : ℚ) * s.step := by
    intro j hj
    have hb : (1 : ℤ) * ((1 + |s.maximum|) * 10 ^ k + a) < 10 ^ 28 := by
      have : 0 ≤ (1 + |s.maximum|) * 10 ^ k + a := by positivity
      nlinarith
    have := hdec 1 one_pos hb (j + 1) (.inr (by simpa using hj))
    simp only [Int.cast_one, one_mul] at this
    rw [← this]
    congr 1
    push_cast
    ring
  induction m generalizing i fuel with
  | zero =>
    obtain ⟨fuel, rfl⟩ : ∃ f, fuel = f + 1 := ⟨fuel - 1, by omega⟩
    have hnw : ¬ Wanted s sw sh dw dh i := fun h => by have := (hn i).2 h; omega
    have hprev : i = 0 ∨ Wanted s sw sh dw dh (i - 1) := by
      rcases Nat.eq_zero_or_pos i with h | h
      · exact .inl h
      · exact .inr ((hn _).1 (by omega))
    refine ⟨?_, fun j hj => by simp at hj⟩
    unfold resolutionsFrom
    rw [hdec dw hdw hw i hprev, hdec dh hdh hh i hprev, if_neg (show ¬ (_ ∧ _ ∧ _) from hnw)]
    rfl
  | succ m ih =>
    obtain ⟨fuel, rfl⟩ : ∃ f, fuel = f + 1 := ⟨fuel - 1, by omega⟩
    have hwi : Wanted s sw sh dw dh i := (hn i).1 (by omega)
    have hprev : i = 0 ∨ Wanted s sw sh dw dh (i - 1) := by
      rcases Nat.eq_zero_or_pos i with h | h
      · exact .inl h
      · exact .inr ((hn _).1 (by omega))
    obtain ⟨r1, r2⟩ := ih (i + 1) fuel (by omega) (by omega)
    refine ⟨?_, ?_⟩
    · unfold resolutionsFrom
      rw [hdec dw hdw hw i hprev, hdec dh hdh hh i hprev, if_pos (show _ ∧ _ ∧ _ from hwi), hone i hwi, r1]
      rfl
    · intro j hj
      rw [List.range'_succ, List.mem_cons] at hj
      rcases hj with rfl | hj
      · exact ⟨hdec dw hdw hw _ hprev, hdec dh hdh hh _ hprev⟩
      · exact r2 j hj

/-- **C40.**  For a step with `k` decimals (and sizes for which 28 digits suffice) the enumeration ends, and the
sizes are exactly those of the target enlarged 1, 1 + step, 1 + 2 step, ... times (rounded down) as long as they
fit in the source and the factor does not exceed the maximum. -/
theorem C40 {s : Steps} {sw sh dw dh a : ℤ} {k : ℕ} (ha : 0 < a) (hstep : s.step = a / 10 ^ k)
    (hdw : 0 < dw) (hdh : 0 < dh)
    (hw : dw * ((1 + |s.maximum|) * 10 ^ k + a) < 10 ^ 28) (hh : dh * ((1 + |s.maximum|) * 10 ^ k + a) < 10 ^ 28) :
    ∃ n, (∀ i, i < n ↔ Wanted s sw sh dw dh i) ∧ ∀ fuel, n < fuel → sizes s sw sh dw dh fuel =
      ((List.range n).map (fun i : ℕ => (⌊(dw : ℚ) * (1 + i * s.step)⌋, ⌊(dh : ℚ) * (1 + i * s.step)⌋)), true) := by
  have hs : 0 < s.step := by rw [hstep]; exact div_pos (by exact_mod_cast ha) (by positivity)
  obtain ⟨n, hn⟩ := wanted_count (sw := sw) (sh := sh) hs hdw.le hdh.le
  refine ⟨n, hn, fun fuel hf => ?_⟩
  obtain ⟨r1, r2⟩ := resolutions_exact ha hstep hdw hdh hw hh hn n 0 fuel (by omega) hf
  have e1 : (1 : ℚ) + ((0 : ℕ) : ℚ) * s.step = 1 := by simp
  rw [e1] at r1
  unfold sizes resolutions
  rw [r1, List.range_eq_range']
  simp only [List.map_map]
  congr 1
  refine List.map_congr_left fun i hi => ?_
  obtain ⟨d1, d2⟩ := r2 i hi
  have hdw' : (0 : ℚ) < dw := by exact_mod_cast hdw
  have hdh' : (0 : ℚ) < dh := by exact_mod_cast hdh
  have hp : (0 : ℚ) ≤ 1 + i * s.step := by positivity
  show (trunc (dec (dw * (1 + i * s.step))), trunc (dec (dh * (1 + i * s.step)))) = _
  rw [d1, d2, trunc_nonneg_eq (mul_nonneg hdw'.le hp), trunc_nonneg_eq (mul_nonneg hdh'.le hp)]

theorem trunc_le {q : ℚ} {n : ℤ} (h : q ≤ n) : trunc q ≤ n := by
  unfold trunc
  split
  · have : ⌊q⌋ ≤ ⌊(n : ℚ)⌋ := Int.floor_le_floor h
    simpa using this
  · exact Int.ceil_le.2 h

/-- **C40, bounds.**  Whatever the step, no size exceeds the source and no resolution the maximum. -/
theorem C40_bounded (s : Steps) (sw sh dw dh : ℤ) (fuel : ℕ) :
    (∀ p ∈ (sizes s sw sh dw dh fuel).1, p.1 ≤ sw ∧ p.2 ≤ sh) ∧
    (∀ r ∈ (resolutions s sw sh dw dh fuel).1, r ≤ s.maximum) := by
  have main : ∀ (fuel : ℕ) (r0 : ℚ), ∀ r ∈ (resolutionsFrom s sw sh dw dh fuel r0).1,
      dec (dw * r) ≤ sw ∧ dec (dh * r) ≤ sh ∧ r ≤ s.maximum := by
    intro fuel
    induction fuel with
    | zero => intro r0 r hr; simp [resolutionsFrom] at hr
    | succ n ih =>
      intro r0 r hr
      unfold resolutionsFrom at hr
      split at hr
      · next h =>
        rcases List.mem_cons.1 hr with rfl | hr
        · exact h
        · exact ih _ r hr
      · cases hr
  refine ⟨fun p hp => ?_, fun r hr => (main fuel 1 r hr).2.2⟩
  obtain ⟨r, hr, rfl⟩ := List.mem_map.1 hp
  obtain ⟨h1, h2, _⟩ := main fuel 1 r hr
  exact ⟨trunc_le h1, trunc_le h2⟩

/-- **C40, first size.**  If the source is at least as large as the target and the maximum at least 1, the first
size is the target itself, whatever the step. -/
theorem C40_first {s : Steps} {sw sh dw dh : ℤ} (hdw : 0 ≤ dw) (hdh : 0 ≤ dh) (hdw' : dw < 10 ^ 28) (hdh' : dh < 10 ^ 28)
    (hw : dw ≤ sw) (hh : dh ≤ sh) (hm : 1 ≤ s.maximum) (fuel : ℕ) :
    (sizes s sw sh dw dh (fuel + 1)).1.head? = some (dw, dh) := by
  have e1 : dec ((dw : ℚ) * 1) = dw := by rw [mul_one]; exact dec_int (by rw [abs_of_nonneg hdw]; exact hdw')
  have e2 : dec ((dh : ℚ) * 1) = dh := by rw [mul_one]; exact dec_int (by rw [abs_of_nonneg hdh]; exact hdh')
  have t1 : trunc (dw : ℚ) = dw := by rw [trunc_nonneg_eq (by exact_mod_cast hdw)]; simp
  have t2 : trunc (dh : ℚ) = dh := by rw [trunc_nonneg_eq (by exact_mod_cast hdh)]; simp
  unfold sizes resolutions resolutionsFrom
  rw [e1, e2, if_pos ⟨by exact_mod_cast hw, by exact_mod_cast hh, by exact_mod_cast hm⟩]
  simp [sizeOf, e1, e2, t1, t2]
  rw [mul_one] at e1 e2
  rw [e1, e2]
  exact ⟨t1, t2⟩

/-- **C40, termination for any step** which is not lost in the 28 digits of a Decimal: the enumeration ends, after
at most `2 * maximum / step` rounds, and the `i`-th resolution is `1 + i * step` up to rounding in the 28th digit. -/
theorem C40_terminates {s : Steps} {sw sh dw dh : ℤ} (hs : 0 < s.step) (hbig : s.maximum + s.step ≤ s.step * 10 ^ 27) :
    ∃ n, ∀ fuel, n ≤ fuel → (resolutions s sw sh dw dh fuel).2 = true ∧
      ∀ i (h : i < (resolutions s sw sh dw dh fuel).1.length),
        |(resolutions s sw sh dw dh fuel).1[i] - (1 + i * s.step)| ≤ i * ((s.maximum + s.step) / (2 * 10 ^ 27)) := by
  have hnext : ∀ r : ℚ, 0 ≤ r → r ≤ s.maximum → r + s.step / 2 ≤ dec (r + s.step) ∧
      |dec (r + s.step) - (r + s.step)| ≤ (s.maximum + s.step) / (2 * 10 ^ 27) := by
    intro r hr hm
    have he := dec_err (q := r + s.step) (by linarith)
    have he2 : (r + s.step) / (2 * 10 ^ 27) ≤ (s.maximum + s.step) / (2 * 10 ^ 27) :=
      div_le_div_of_nonneg_right (by linarith) (by positivity)
    refine ⟨?_, he.trans he2⟩
    have h1 := (abs_le.1 he).1
    have h2 : (r + s.step) / (2 * 10 ^ 27) ≤ s.step / 2 := by
      rw [div_le_iff₀ (by positivity)]
      linarith
    linarith
  have main : ∀ (n fuel : ℕ) (i : ℕ) (r : ℚ), 0 ≤ r → (s.maximum : ℚ) < r + n * (s.step / 2) → n < fuel →
      |r - (1 + i * s.step)| ≤ i * ((s.maximum + s.step) / (2 * 10 ^ 27)) →
      (resolutionsFrom s sw sh dw dh fuel r).2 = true ∧
      ∀ j (h : j < (resolutionsFrom s sw sh dw dh fuel r).1.length),
        |(resolutionsFrom s sw sh dw dh fuel r).1[j] - (1 + ((i + j : ℕ) : ℚ) * s.step)| ≤
          ((i + j : ℕ) : ℚ) * ((s.maximum + s.step) / (2 * 10 ^ 27)) := by
    intro n
    induction n with
    | zero =>
      intro fuel i r hr hlt hf hi
      obtain ⟨fuel, rfl⟩ : ∃ f, fuel = f + 1 := ⟨fuel - 1, by omega⟩
      have e : resolutionsFrom s sw sh dw dh (fuel + 1) r = ([], true) := by
        unfold resolutionsFrom
        rw [if_neg]
        rintro ⟨_, _, h⟩
        simp at hlt
        linarith
      rw [e]
      exact ⟨rfl, fun j h => by simp at h⟩
    | succ n ih =>
      intro fuel i r hr hlt hf hi
      obtain ⟨fuel, rfl⟩ : ∃ f, fuel = f + 1 := ⟨fuel - 1, by omega⟩
      by_cases hc : dec (dw * r) ≤ sw ∧ dec (dh * r) ≤ sh ∧ r ≤ s.maximum
      · obtain ⟨g1, g2⟩ := hnext r hr hc.2.2
        have e : resolutionsFrom s sw sh dw dh (fuel + 1) r =
            (r :: (resolutionsFrom s sw sh dw dh fuel (dec (r + s.step))).1,
              (resolutionsFrom s sw sh dw dh fuel (dec (r + s.step))).2) := by
          rw [resolutionsFrom, if_pos hc]
        obtain ⟨k1, k2⟩ := ih fuel (i + 1) (dec (r + s.step)) (by linarith) (by push_cast at hlt; linarith) (by omega) (by
          rw [abs_le] at hi g2 ⊢
          push_cast
          constructor <;> linarith [hi.1, hi.2, g2.1, g2.2])
        rw [e]
        refine ⟨k1, fun j h => ?_⟩
        cases j with
        | zero => simpa using hi
        | succ j =>
          have := k2 j (by simpa using h)
          rw [show i + (j + 1) = i + 1 + j by omega]
          simpa using this
      · have e : resolutionsFrom s sw sh dw dh (fuel + 1) r = ([], true) := by
          rw [resolutionsFrom, if_neg hc]
        rw [e]
        exact ⟨rfl, fun j h => by simp at h⟩
  obtain ⟨n, hn⟩ := exists_nat_gt ((s.maximum : ℚ) / (s.step / 2))
  rw [div_lt_iff₀ (by linarith)] at hn
  refine ⟨n + 1, fun fuel hf => ?_⟩
  obtain ⟨m1, m2⟩ := main n fuel 0 1 zero_le_one (by linarith) (by omega) (by simp)
  refine ⟨m1, fun i h => ?_⟩
  have := m2 i h
  simp only [Nat.zero_add] at this
  exact this

/-- The hypotheses of C40 are met: half steps up to three times the size. -/
theorem C40_case : sizes ⟨3, 1 / 2⟩ 275 300 100 75 10 = ([(100, 75), (150, 112), (200, 150), (250, 187)], true) ∧
    (1 / 2 : ℚ) = (5 : ℤ) / 10 ^ 1 ∧ 100 * ((1 + |(3 : ℤ)|) * 10 ^ 1 + 5) < 10 ^ 28 := by decide +kernel

/-- C40 is false for a tiny step: the sum is rounded to 1 and the enumeration never ends. -/
theorem C40_false (fuel : ℕ) : resolutions ⟨3, 1 / 10 ^ 40⟩ 100 100 10 10 fuel = (List.replicate fuel 1, false) := by
  have h1 : dec (1 + 1 / 10 ^ 40) = 1 := by decide +kernel
  have h2 : dec (((10 : ℤ) : ℚ) * 1) ≤ ((100 : ℤ) : ℚ) := by decide +kernel
  unfold resolutions
  induction fuel with
  | zero => rfl
  | succ n ih =>
    rw [resolutionsFrom, if_pos ⟨h2, h2, by decide +kernel⟩]
    simp only [h1, ih]
    rfl

end Verif.Img
