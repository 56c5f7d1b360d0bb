import Verif.ImgFit
import Verif.Reader
import Mathlib.Data.Nat.Digits.Defs

/-!
Model of `vanillaplusjs/build/html/manips/images/settings.py` and of the production and selection of images in
`vanillaplusjs/build/html/manips/images/exporter.py` (lines 180-298).

A folder is a map from file names to file sizes: of the produced images only the size matters for the selection.
-/

namespace Verif.Img

open Verif.Reader

/-- settings.py:8-35 without the formatter arguments, which only `produce_image` looks at. -/
structure Export where
  minArea : Option ℤ
  maxArea : Option ℤ
  preference : ℤ
  deriving DecidableEq, Repr

/-- settings.py:37-44. -/
def Export.appliesTo (e : Export) (w h : ℕ) : Bool :=
  (match e.minArea with
    | none => true
    | some m => decide (m ≤ (w * h : ℕ))) &&
  (match e.maxArea with
    | none => true
    | some m => decide ((w * h : ℕ) ≤ m))

/-- settings.py:47-61. -/
def compare (a : Export) (sizeA : ℤ) (b : Export) (sizeB : ℤ) : ℤ := sizeA * b.preference - sizeB * a.preference

/-- settings.py:64-78. -/
structure Format where
  name : Text
  exports : List (Text × Export)
  minUnit : ℤ
  deriving DecidableEq, Repr

/-- settings.py:81-99. -/
def compareIn (f : Format) (a : Export) (sizeA : ℤ) (b : Export) (sizeB : ℤ) : ℤ :=
  compare a (max sizeA f.minUnit) b (max sizeB f.minUnit)

/-- `str(n)` of a natural number. -/
def digits (n : ℕ) : Text := if n = 0 then [48] else (Nat.digits 10 n).reverse.map (· + 48)

/-- exporter.py:196, 227: `f"{out_width}x{out_height}-{export_name}.{format_name}"`. -/
def candName (w h : ℕ) (exp fmt : Text) : Text :=
  digits w ++ 120 :: (digits h ++ 45 :: (exp ++ 46 :: fmt))

/-- exporter.py:253: `f"{out_width}x{out_height}.{format_name}"`. -/
def outName (w h : ℕ) (fmt : Text) : Text := digits w ++ 120 :: (digits h ++ 46 :: fmt)

/-- Files of a folder, by name, with their sizes. -/
abbrev Folder := Text → Option ℕ

/-- Write or, with `none`, remove a file. -/
def Folder.set (d : Folder) (p : Text) (v : Option ℕ) : Folder := fun q => if q = p then v else d q

/-- exporter.py:182-211 for one size and format: the images which are produced.  `enc` is `produce_image`: the
size of the file it writes.  The executor runs all of them before the first failure is raised; here the first
failure ends the run (nothing later looks at the files then). -/
def produceExports (enc : ℕ → ℕ → Text → Text → Except Err ℕ) (w h : ℕ) (fmt : Text) :
    List (Text × Export) → Folder → Except Err Folder
  | [], d => .ok d
  | (n, e) :: es, d =>
    if e.appliesTo w h then
      match enc w h n fmt with
      | .error x => .error x
      | .ok size => produceExports enc w h fmt es (d.set (candName w h n fmt) (some size))
    else produceExports enc w h fmt es d

/-- exporter.py:182-211; the nested loops over sizes and formats are written as one loop over the pairs. -/
def produceAll (enc : ℕ → ℕ → Text → Text → Except Err ℕ) : List ((ℕ × ℕ) × Format) → Folder → Except Err Folder
  | [], d => .ok d
  | ((w, h), f) :: ts, d =>
    match produceExports enc w h f.name f.exports d with
    | .error x => .error x
    | .ok d1 => produceAll enc ts d1

/-- exporter.py:217-220: the best export so far, with its size. -/
structure Best where
  name : Text
  opt : Export
  size : ℕ
  deriving DecidableEq, Repr

/-- exporter.py:221-248.  `os.lstat` and `os.remove` raise for a missing file. -/
def tournament (w h : ℕ) (f : Format) : List (Text × Export) → Option Best → Folder → Except Err (Option Best × Folder)
  | [], best, d => .ok (best, d)
  | (n, e) :: es, best, d =>
    if e.appliesTo w h then
      match d (candName w h n f.name) with
      | none => .error .notFound
      | some size =>
        match best with
        | none => tournament w h f es (some ⟨n, e, size⟩) d
        | some b =>
          if compareIn f b.opt b.size e size > 0 then
            match d (candName w h b.name f.name) with
            | none => .error .notFound
            | some _ => tournament w h f es (some ⟨n, e, size⟩) (d.set (candName w h b.name f.name) none)
          else tournament w h f es (some b) (d.set (candName w h n f.name) none)
    else tournament w h f es best d

/-- metadata.py:124-142: an output; its path is determined by size and format (exporter.py:270-275). -/
structure Output where
  width : ℕ
  height : ℕ
  choice : Text
  deriving DecidableEq, Repr

/-- exporter.py:261-266: append to the list of a format. -/
def addOutput (f : Text) (o : Output) : List (Text × List Output) → List (Text × List Output)
  | [] => [(f, [o])]
  | (g, os) :: r => if g = f then (g, os ++ [o]) :: r else (g, os) :: addOutput f o r

/-- The target folder below artifacts, the one below out/www, and `outputs`. -/
structure Exported where
  art : Folder
  www : Folder
  outputs : List (Text × List Output)

/-- exporter.py:216-298 for one size and format.  With symlinks, an existing file in out/www is an error
(FileExistsError, here `asserted`). -/
def selectOne (symlinks : Bool) (w h : ℕ) (f : Format) (s : Exported) : Except Err Exported :=
  match tournament w h f f.exports none s.art with
  | .error x => .error x
  | .ok (none, d) => .ok { s with art := d }
  | .ok (some b, d) =>
    match d (candName w h b.name f.name) with
    | none => .error .notFound
    | some size =>
      let art := (d.set (candName w h b.name f.name) none).set (outName w h f.name) (some size)
      if symlinks ∧ s.www (outName w h f.name) ≠ none then .error .asserted
      else .ok ⟨art, s.www.set (outName w h f.name) (some size), addOutput f.name ⟨w, h, b.name⟩ s.outputs⟩

/-- exporter.py:213-298. -/
def selectAll (symlinks : Bool) : List ((ℕ × ℕ) × Format) → Exported → Except Err Exported
  | [], s => .ok s
  | ((w, h), f) :: ts, s =>
    match selectOne symlinks w h f s with
    | .error x => .error x
    | .ok s1 => selectAll symlinks ts s1

/-- exporter.py:182-185, 213-216: every size with every format. -/
def tasks (sizes : List (ℕ × ℕ)) (formats : List Format) : List ((ℕ × ℕ) × Format) :=
  sizes.flatMap fun s => formats.map fun f => (s, f)

/-- exporter.py:180-298: produce and select, into an `outputs` which is empty to begin with. -/
def exportAll (symlinks : Bool) (enc : ℕ → ℕ → Text → Text → Except Err ℕ) (sizes : List (ℕ × ℕ)) (formats : List Format)
    (art www : Folder) : Except Err Exported :=
  match produceAll enc (tasks sizes formats) art with
  | .error x => .error x
  | .ok d => selectAll symlinks (tasks sizes formats) ⟨d, www, []⟩

end Verif.Img
