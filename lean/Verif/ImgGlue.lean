import Verif.ImgFiles

/-!
# Image modules

Model of vanillaplusjs/build/handlers/image_glue.py: files such as admin.images.json, which list images, and the modules made of
them.

`json.load` and `json.dump` are parameters (what is written is in ImgModule.lean); a dictionary is the list of its items, with every key once.  Placeholders are in
`Verif.Hot`.  A path which is a folder counts as missing here (`Image.open` raises IsADirectoryError).
-/

namespace Verif.Img.Glue

open Verif.Reader (Text txt)
open Verif.Paths (join)
open Verif.Handlers (Bytes Fs Scan Built hashScan hashBuild imagesOut)
open Verif.Img.Files
open Verif.Num

/-- The numbers of `json.load`: int, float, and the floats Infinity, -Infinity and NaN. -/
inductive Number where
  | int (n : ℤ)
  | float (q : ℚ)
  | inf
  | ninf
  | nan
  deriving DecidableEq, Repr

/-- What `json.load` gives. -/
inductive Json where
  | null
  | bool (b : Bool)
  | num (x : Number)
  | str (t : Text)
  | arr (l : List Json)
  | obj (items : List (Text × Json))

/-- The value of a number, if it is finite. -/
def Number.value : Number → Option ℚ
  | .int n => some n
  | .float q => some q
  | _ => none

/-- Python's `<`, which is exact between int and float. -/
def Number.lt (a b : Number) : Bool :=
  match a.value, b.value with
  | some x, some y => decide (x < y)
  | some _, none => decide (b = .inf)
  | none, some _ => decide (a = .ninf)
  | none, none => decide (a = .ninf) && decide (b = .inf)

/-- Python's `<=` -/
def Number.le (a b : Number) : Bool :=
  match a.value, b.value with
  | some x, some y => decide (x ≤ y)
  | some _, none => decide (b = .inf)
  | none, some _ => decide (a = .ninf)
  | none, none => (decide (a = .ninf) && decide (b ≠ .nan)) || (decide (a ≠ .nan) && decide (b = .inf))

/-- Python's `-`: exact for ints, otherwise in floats. -/
def Number.sub : Number → Number → Number
  | .int a, .int b => .int (a - b)
  | a, b =>
    match a.value, b.value with
    | some x, some y => .float (fl (fl x - fl y))
    | some _, none => if b = .inf then .ninf else if b = .ninf then .inf else .nan
    | none, some _ => a
    | none, none => if a = .nan ∨ b = .nan ∨ a = b then .nan else a

/-- `isinstance(x, int)`: a bool is one. -/
def Json.int? : Json → Option ℤ
  | .bool b => some (if b then 1 else 0)
  | .num (.int n) => some n
  | _ => none

/-- What can be compared with a number. -/
def Json.number? : Json → Option Number
  | .bool b => some (.int (if b then 1 else 0))
  | .num x => some x
  | _ => none

/-- `crop_settings.get(key, default)`, which is then compared or subtracted: a TypeError unless it is a number. -/
def setting (cs : List (Text × Json)) (key : Text) (default : Number) : Except Err Number :=
  match cs.lookup key with
  | none => .ok default
  | some v =>
    match v.number? with
    | none => .error .typeError
    | some x => .ok x

/-- image_glue.py:325-332 -/
def validKeys : List Text :=
  [txt "pre_top_crop", txt "pre_left_crop", txt "pre_right_crop", txt "pre_bottom_crop", txt "crop_left_percentage", txt "crop_top_percentage"]

/-- image_glue.py:337-345 -/
def checkSigns (cs : List (Text × Json)) : List Text → Except Err Bool
  | [] => .ok true
  | k :: ks =>
    match setting cs k (.int 0) with
    | .error e => .error e
    | .ok x => if x.lt (.int 0) then .ok false else checkSigns cs ks

/-- image_glue.py:347-356 -/
def checkPercentages (cs : List (Text × Json)) : List Text → Except Err Bool
  | [] => .ok true
  | k :: ks =>
    match setting cs k (.float (1 / 2)) with
    | .error e => .error e
    | .ok x => if (Number.int 0).le x && x.le (.int 1) then checkPercentages cs ks else .ok false

/-- image_glue.py:358-374 -/
def checkSize (cs : List (Text × Json)) (size : ℤ × ℤ) (w h : ℤ) : Except Err Bool :=
  match setting cs (txt "pre_left_crop") (.int 0), setting cs (txt "pre_right_crop") (.int 0),
      setting cs (txt "pre_top_crop") (.int 0), setting cs (txt "pre_bottom_crop") (.int 0) with
  | .ok l, .ok r, .ok t, .ok b =>
    if (((Number.int size.1).sub l).sub r).lt (.int w) || (((Number.int size.2).sub t).sub b).lt (.int h) then .ok false else .ok true
  | _, _, _, _ => .error .typeError

/-- image_glue.py:320-374 -/
def checkCrop (cs : List (Text × Json)) (size : ℤ × ℤ) (w h : ℤ) : Except Err Bool :=
  if cs.any fun x => !validKeys.contains x.1 then .ok false
  else
    match checkSigns cs [txt "pre_top_crop", txt "pre_left_crop", txt "pre_right_crop", txt "pre_bottom_crop"] with
    | .error e => .error e
    | .ok false => .ok false
    | .ok true =>
      match checkPercentages cs [txt "crop_left_percentage", txt "crop_top_percentage"] with
      | .error e => .error e
      | .ok false => .ok false
      | .ok true => checkSize cs size w h

/-- image_glue.py:302-318: the size, and what comes behind. -/
def checkTarget (items : List (Text × Json)) (size : ℤ × ℤ) : Except Err Bool :=
  match (items.lookup (txt "width")).bind Json.int? with
  | none => .ok false
  | some w =>
    if w ≤ 0 ∨ size.1 < w then .ok false
    else
      match (items.lookup (txt "height")).bind Json.int? with
      | none => .ok false
      | some h =>
        if h ≤ 0 ∨ size.2 < h then .ok false
        else
          match (items.lookup (txt "crop_style")).getD (.str (txt "cover")) with
          | .str style =>
            if style ≠ txt "cover" then .ok false
            else
              match (items.lookup (txt "crop_settings")).getD (.obj []) with
              | .obj cs => checkCrop cs size w h
              | _ => .ok false
          | _ => .ok false

variable {C : Type} [DecidableEq C]

/-- image_glue.py:273-374: one image. -/
def checkImage (env : Env Json C) (fs : Fs) (v : Json) : Except Err Bool :=
  match v with
  | .obj items =>
    match items.lookup (txt "path") with
    | some (.str (47 :: rest)) =>
      match fs (source rest) with
      | none => .ok false
      | some b =>
        match env.dims b with
        | none => .ok false
        | some size => checkTarget items size
    | _ => .ok false
  | _ => .ok false

/-- image_glue.py:273-376: all of them. -/
def checkImages (env : Env Json C) (fs : Fs) : List (Text × Json) → Except Err Bool
  | [] => .ok true
  | x :: xs =>
    match checkImage env fs x.2 with
    | .error e => .error e
    | .ok false => .ok false
    | .ok true => checkImages env fs xs

/-- image_glue.py:266-376 (`sanity_check_images_json`) -/
def check (env : Env Json C) (fs : Fs) (data : Json) : Except Err Bool :=
  match data with
  | .obj items => checkImages env fs items
  | _ => .ok false

/-- image_glue.py:157-164, 208-215: the command for an image.  `lazy` is not looked at by scans and exports. -/
def command (v : Json) : Except Err (Command Json) :=
  match v with
  | .obj items =>
    match items.lookup (txt "path"), (items.lookup (txt "width")).bind Json.int?, (items.lookup (txt "height")).bind Json.int?,
        (items.lookup (txt "crop_style")).getD (.str (txt "cover")) with
    | some (.str path), some w, some h, .str style => .ok ⟨path, w, h, style, (items.lookup (txt "crop_arguments")).getD (.obj []), true⟩
    | _, _, _, _ => .error .keyError
  | _ => .error .keyError

/-- image_glue.py:156-170 -/
def scanAll (env : Env Json C) (file : Text) : List (Text × Json) → Scan → Fs → Except Err (Scan × Fs)
  | [], s, fs => .ok (s, fs)
  | x :: xs, s, fs =>
    match command x.2 with
    | .error e => .error e
    | .ok c =>
      match scanCommand env file fs c with
      | .error e => .error e
      | .ok (t, fs) => scanAll env file xs ⟨s.dependencies ++ t.dependencies, s.produces ++ t.produces⟩ fs

/-- image_glue.py:234-241 -/
def picJson (p : Pic) : Json :=
  .obj [(txt "width", .num (.int p.width)), (txt "height", .num (.int p.height)), (txt "url", .str (47 :: p.relpath)),
    (txt "choice", .str p.choice)]

/-- image_glue.py:222-249; `fields` is `dataclasses.asdict` of the crop settings. -/
def imageJson (fields : C → Json) (m : Metadata C) : Json :=
  .obj [(txt "target", .obj [
    (txt "settings", .obj [(txt "width", .num (.int m.target.width)), (txt "height", .num (.int m.target.height)),
      (txt "crop", .str m.target.crop), (txt "crop_settings", fields m.target.settings)]),
    (txt "outputs", .obj (m.outputs.map fun x => (x.1, .arr (x.2.map picJson))))])]

/-- image_glue.py:207-249: `output_dictionary`, what is reported, and the files. -/
def exportAll (env : Env Json C) (fields : C → Json) (file : Text) :
    List (Text × Json) → List (Text × Json) → Built → Fs → Except Err (List (Text × Json) × Built × Fs)
  | [], out, r, fs => .ok (out, r, fs)
  | x :: xs, out, r, fs =>
    match command x.2 with
    | .error e => .error e
    | .ok c =>
      match exportCommand env file fs c with
      | .error e => .error e
      | .ok (m, t, fs) => exportAll env fields file xs (out ++ [(x.1, imageJson fields m)])
          ⟨r.children ++ t.children, r.produced ++ t.produced, r.reused ++ t.reused⟩ fs

/-- The handler: the images, and reading and writing JSON; `dumps` is `json.dump` with sorted keys. -/
structure Tools (C : Type) where
  env : Env Json C
  loads : Bytes → Option Json
  dumps : Json → Text
  fields : C → Json

/-- image_glue.py:131-135, 188-192: the file, if it is accepted. -/
def load (t : Tools C) (rel : Text) (fs : Fs) : Except Err (Option (List (Text × Json))) :=
  match fs rel with
  | none => .error .notFound
  | some b =>
    match t.loads b with
    | none => .error .valueError
    | some data =>
      match check t.env fs data with
      | .error e => .error e
      | .ok false => .ok none
      | .ok true =>
        match data with
        | .obj items => .ok (some items)
        | _ => .ok none

/-- image_glue.py:125-179 -/
def scanFile (t : Tools C) (rel : Text) (fs : Fs) : Except Err (Scan × Fs) :=
  if (txt ".images.js").isSuffixOf rel then .ok (⟨[], []⟩, fs)
  else
    match load t rel fs with
    | .error e => .error e
    | .ok none => .ok (⟨[], []⟩, fs)
    | .ok (some items) =>
      match scanAll t.env (join t.env.folder rel) items ⟨[], [imagesOut rel]⟩ fs with
      | .error e => .error e
      | .ok (s, fs) => .ok (⟨s.dependencies ++ (hashScan (imagesOut rel)).dependencies, s.produces ++ (hashScan (imagesOut rel)).produces⟩, fs)

/-- image_glue.py:252-255: the text of the module. -/
def moduleText (t : Tools C) (out : List (Text × Json)) : Text := txt "export default " ++ t.dumps (.obj out) ++ txt ";" ++ [10]

/-- image_glue.py:182-263; the hash of a file which was just written is never missing. -/
def buildFile (t : Tools C) (rel : Text) (fs : Fs) : Except Err (Built × Fs) :=
  if (txt ".images.js").isSuffixOf rel then .ok (⟨[], [], []⟩, fs)
  else
    match load t rel fs with
    | .error e => .error e
    | .ok none => .ok (⟨[], [], []⟩, fs)
    | .ok (some items) =>
      match exportAll t.env t.fields (join t.env.folder rel) items [] ⟨[], [], []⟩ fs with
      | .error e => .error e
      | .ok (out, r, fs) =>
        match hashBuild (fun b => t.env.encode (t.env.digest b)) (imagesOut rel) (fs.write (imagesOut rel) (t.env.encode (moduleText t out))) with
        | .error _ => .error .notFound
        | .ok (h, fs) => .ok (⟨r.children ++ h.children, r.produced ++ [imagesOut rel] ++ h.produced, r.reused ++ h.reused⟩, fs)

end Verif.Img.Glue
