import Verif.ImgFit
import Verif.Reader

/-!
Model of the settings hash in `vanillaplusjs/build/html/manips/images/metadata.py` (lines 383-457).

Dictionaries are lists of items with different keys.  Floats and decimals are given by what `str` makes of them
(equal values of these types with different `str` are therefore different settings here).
-/

namespace Verif.Img

open Verif.Reader

/-- Values in the settings; `other` stands for lists and dictionaries. -/
inductive Value where
  | none
  | bool (b : Bool)
  | int (i : ℤ)
  | float (shown : Text)
  | decimal (shown : Text)
  | str (s : Text)
  | other
  deriving DecidableEq, Repr

/-- settings.py:8-35. -/
structure ExportOpts where
  minArea : Option ℤ
  maxArea : Option ℤ
  preference : ℤ
  kwargs : List (Text × Value)

/-- settings.py:64-78. -/
structure FormatOpts where
  exports : List (Text × ExportOpts)
  minUnit : ℤ

/-- settings.py:102-125; the step is given by its `str`. -/
structure Settings where
  formats : List (Text × FormatOpts)
  defaultFormat : Text
  maximum : ℤ
  step : Text

/-- metadata.py:418-420: `n & 0xFFFFFFFFFFFFFFFF`, for negative numbers as well. -/
def overflow (n : ℤ) : ℤ := n % 2 ^ 64

/-- metadata.py:449-457. -/
def hashStr (s : Text) : ℤ := List.foldl (fun (r : ℤ) (c : ℕ) => overflow (r * 31 + c)) 1 s

/-- metadata.py:423-446. -/
def stableHash : Value → Except Err ℤ
  | .none => .ok 447684351148253
  | .bool true => .ok 945172902943441
  | .bool false => .ok 596202892359953
  | .int i => .ok i
  | .float s => .ok (overflow (31 * hashStr s + 843027630870857))
  | .decimal s => .ok (overflow (31 * hashStr s + 563112335098849))
  | .str s => .ok (hashStr s)
  | .other => .error .valueError

/-- Comparison of strings by code points, `<=` of Python. -/
def textLe : Text → Text → Bool
  | [], _ => true
  | _ :: _, [] => false
  | a :: s, b :: t => if a < b then true else if a = b then textLe s t else false

/-- `sorted(d.keys())` followed by looking up each key (metadata.py:388-390, 393-395, 401-403). -/
def sortItems {α : Type} (d : List (Text × α)) : List (Text × α) := d.mergeSort (fun a b => textLe a.1 b.1)

/-- `result = overflow(result * prime + stable_hash(v))`. -/
def mix (r : Except Err ℤ) (v : Value) : Except Err ℤ :=
  match r with
  | .error e => .error e
  | .ok r =>
    match stableHash v with
    | .error e => .error e
    | .ok h => .ok (overflow (r * 31 + h))

/-- `Optional[int]`. -/
def optInt : Option ℤ → Value
  | none => .none
  | some i => .int i

/-- metadata.py:401-408; both branches of the last condition do the same. -/
def mixKwargs (r : Except Err ℤ) (l : List (Text × Value)) : Except Err ℤ :=
  (sortItems l).foldl (fun r kv => mix (mix r (.str kv.1)) kv.2) r

/-- metadata.py:393-408. -/
def mixExports (r : Except Err ℤ) (l : List (Text × ExportOpts)) : Except Err ℤ :=
  (sortItems l).foldl (fun r x =>
    mixKwargs (mix (mix (mix (mix r (.str x.1)) (optInt x.2.minArea)) (optInt x.2.maxArea)) (.int x.2.preference)) x.2.kwargs) r

/-- metadata.py:388-410. -/
def mixFormats (r : Except Err ℤ) (l : List (Text × FormatOpts)) : Except Err ℤ :=
  (sortItems l).foldl (fun r x => mix (mixExports (mix r (.str x.1)) x.2.exports) (.int x.2.minUnit)) r

/-- metadata.py:383-415. -/
def hashSettings (s : Settings) : Except Err ℤ :=
  mix (mix (mix (mixFormats (.ok 1) s.formats) (.str s.defaultFormat)) (.int s.maximum)) (.decimal s.step)

end Verif.Img
