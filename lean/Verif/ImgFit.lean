import Verif.Num

/-!
Model of `vanillaplusjs/build/html/manips/images/cover_fit.py` and
`vanillaplusjs/build/html/manips/images/resolutions.py`.
-/

namespace Verif.Img

open Verif.Num

/-- Exceptions of the image code. -/
inductive Err where
  | valueError
  | zeroDivision
  | typeError
  | notFound
  | asserted
  | keyError
  | stopIteration
  deriving DecidableEq, Repr

/-- cover_fit.py:51-53: the returned tuple `(x, y, w, h)`. -/
structure Rect where
  x : ℤ
  y : ℤ
  w : ℤ
  h : ℤ
  deriving DecidableEq, Repr

/-- cover_fit.py:59-60, 94-113: the fit without pre-cropping.  Percentages are given as the rationals which
`Decimal(...)` of them denotes (that conversion is exact); `/` of integers and `int * float` round to floats,
`int * Decimal` to a Decimal. -/
def coverBase (sw sh dw dh : ℤ) (pl pt : ℚ) : Except Err Rect :=
  if sh = 0 then .error .zeroDivision
  else if dh = 0 then .error .zeroDivision
  else if fl (dw / dh) < fl (sw / sh) then
    let cw := roundEven (fl (fl dw * fl (sh / dh)))
    .ok ⟨trunc (dec (((sw - cw : ℤ) : ℚ) * pl)), 0, cw, sh⟩
  else if fl (sw / sh) < fl (dw / dh) then
    if dw = 0 then .error .zeroDivision
    else
      let ch := roundEven (fl (fl dh * fl (sw / dw)))
      .ok ⟨0, trunc (dec (((sh - ch : ℤ) : ℚ) * pt)), sw, ch⟩
  else .ok ⟨0, 0, sw, sh⟩

/-- cover_fit.py:5-113.  The pre-crops are those of the top, left, bottom and right. -/
def coverFit (sw sh dw dh : ℤ) (pl pt : ℚ) (ct cl cb cr : ℤ) : Except Err Rect :=
  if ct ≠ 0 ∨ cl ≠ 0 ∨ cb ≠ 0 ∨ cr ≠ 0 then
    if sw - cl - cr ≤ 0 then .error .valueError
    else if sh - ct - cb ≤ 0 then .error .valueError
    else match coverBase (sw - cl - cr) (sh - ct - cb) dw dh pl pt with
      | .error e => .error e
      | .ok r => .ok ⟨cl + r.x, ct + r.y, r.w, r.h⟩
  else coverBase sw sh dw dh pl pt

/-- Settings used by resolutions.py (settings.py:117, 147-150). -/
structure Steps where
  maximum : ℤ
  step : ℚ

/-- resolutions.py:33-38: the loop, for at most `n` rounds, from the given resolution; the flag tells whether the
generator was exhausted. -/
def resolutionsFrom (s : Steps) (sw sh dw dh : ℤ) : ℕ → ℚ → List ℚ × Bool
  | 0, _ => ([], false)
  | n + 1, r =>
    if dec (dw * r) ≤ sw ∧ dec (dh * r) ≤ sh ∧ r ≤ s.maximum then
      let t := resolutionsFrom s sw sh dw dh n (dec (r + s.step))
      (r :: t.1, t.2)
    else ([], true)

/-- resolutions.py:6-40. -/
def resolutions (s : Steps) (sw sh dw dh : ℤ) (n : ℕ) : List ℚ × Bool := resolutionsFrom s sw sh dw dh n 1

/-- resolutions.py:57: the size for a resolution. -/
def sizeOf (dw dh : ℤ) (r : ℚ) : ℤ × ℤ := (trunc (dec (dw * r)), trunc (dec (dh * r)))

/-- resolutions.py:43-57. -/
def sizes (s : Steps) (sw sh dw dh : ℤ) (n : ℕ) : List (ℤ × ℤ) × Bool :=
  let t := resolutions s sw sh dw dh n
  (t.1.map (sizeOf dw dh), t.2)

end Verif.Img
