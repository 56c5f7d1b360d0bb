import Verif.ImgExport
import Verif.ImgCommand
import Verif.ImgTarget
import Verif.CssData
import Verif.Handlers

/-!
# The files of images

Model of vanillaplusjs/build/html/manips/images/scanner.py, of vanillaplusjs/build/html/manips/images/exporter.py and of
`get_target`, `reserve_target` and `get_or_reserve_target` in vanillaplusjs/build/html/manips/images/metadata.py, on the files of
a project.

Paths are relative to the project.  Where the code computes `os.path.relpath` of a path it has joined to the folder of the
project itself (or to artifacts), the result is that path again, as long as it has no components `.` or `..`; the model leaves
the round trip out.  A symbolic link has the contents of the file it points to; one to a missing file does not exist.
This is so for pictures if the project is given by an absolute path (C93 in `Verif.LinksThm`), which `Lawful` asks for.
-/

namespace Verif.Img.Files

open Verif.Reader (Text txt)
open Verif.Paths (join)
open Verif.Handlers (Bytes Fs Scan Built)
open Verif.Css.Data (root)

/-- metadata.py:90-105; `C` are the crop settings (metadata.py:55-87). -/
structure Target (C : Type) where
  width : ℤ
  height : ℤ
  crop : Text
  settings : C
  deriving DecidableEq, Repr

/-- metadata.py:124-142 -/
structure Pic where
  width : ℕ
  height : ℕ
  relpath : Text
  choice : Text
  deriving DecidableEq, Repr

/-- metadata.py:145-176, with the parts of `ImageSource` (metadata.py:38-52) and `ImageTarget`. -/
structure Metadata (C : Type) where
  settingsHash : ℤ
  path : Text
  width : ℤ
  height : ℤ
  contentsHash : Text
  target : Target C
  outputs : List (Text × List Pic)

/-- What the code is given: the settings, and what is outside of the model. -/
structure Env (J C : Type) where
  cwd : Text
  folder : Text
  symlinks : Bool
  formats : List Format
  settingsHash : Except Err ℤ
  /-- resolutions.py:43-57 (modelled in ImgFit): the sizes for the size of the source and that of the target -/
  sizes : ℤ × ℤ → ℤ × ℤ → List (ℕ × ℕ)
  /-- `CropSettingsCover(**arguments)`; `none` is the TypeError for unknown arguments -/
  crop : J → Option C
  /-- `int` of a text -/
  int : Text → Option ℤ
  /-- `Image.open`: width and height; `none` if it is not an image -/
  dims : Bytes → Option (ℤ × ℤ)
  /-- exporter.py:324-369, `produce_image`: the image which is written -/
  draw : Bytes → Target C → ℕ → ℕ → Text → Text → Except Err Bytes
  /-- handlers/hash.py `calculate_hash` -/
  digest : Bytes → Text
  decode : Bytes → Text
  encode : Text → Bytes
  /-- `os.scandir`: the names in a folder, in some order, and whether they are folders; `none` if it does not exist -/
  dirs : Fs → Text → Option (List (Text × Bool))
  /-- placeholder.json: `json.dump(dataclasses.asdict(target))` and metadata.py:108-121; `none` is an exception -/
  dumpTarget : Target C → Bytes
  loadTarget : Bytes → Option (Target C)
  /-- metadata.json: metadata.py:179-217 -/
  dumpMeta : Metadata C → Bytes
  loadMeta : Bytes → Option (Metadata C)

variable {J C : Type} [DecidableEq C]

/-- `str(n)` -/
def idText (n : ℤ) : Text := if n < 0 then txt "-" ++ digits n.natAbs else digits n.natAbs

/-- `os.remove` -/
def remove (fs : Fs) (p : Text) : Fs := fun q => if q = p then none else fs q

/-- `Path.touch`, and `fasteners.InterProcessLock`, which opens the file to append to it: the file exists afterwards. -/
def touch (fs : Fs) (p : Text) : Fs := if (fs p).isSome then fs else fs.write p []

/-! ## The places -/

/-- metadata.py:249-250, 343-344, scanner.py:48-52: the folder of an image; `rel` is relative to src/public. -/
def art (rel : Text) : Text := join (txt "artifacts") (root rel)

/-- scanner.py:53-56: the folder of a target -/
def artDir (rel : Text) (n : ℤ) : Text := join (art rel) (idText n)

/-- scanner.py:57-59 -/
def outDir (rel : Text) (n : ℤ) : Text := join (join (join (txt "out") (txt "www")) (root rel)) (idText n)

/-- metadata.py:330-334 -/
def lockFile (rel : Text) : Text := join (join (join (txt "out") (txt "locks")) (root rel)) (txt "reserve_target.lock")

/-- metadata.py:350 -/
def counterFile (rel : Text) : Text := join (art rel) (txt "counter.txt")

/-- metadata.py:279, scanner.py:65 -/
def metaFile (dir : Text) : Text := join dir (txt "metadata.json")

/-- metadata.py:361 -/
def placeFile (dir : Text) : Text := join dir (txt "placeholder.json")

/-- metadata.py:246, scanner.py:76, exporter.py:160 -/
def source (rel : Text) : Text := join (join (txt "src") (txt "public")) rel

/-- metadata.py:254, exporter.py:167 -/
def hashFile (rel : Text) : Text := join (join (txt "out") (txt "www")) (rel ++ txt ".hash")

/-! ## metadata.py -/

/-- metadata.py:268-325: the entries of the folder, one after the other. -/
def find (env : Env J C) (rel : Text) (hash : ℤ) (contents : Text) (target : Target C) :
    List (Text × Bool) → Fs → Except Err (Option ℤ × Fs)
  | [], fs => .ok (none, fs)
  | (name, isDir) :: es, fs =>
    let found (fs : Fs) : Except Err (Option ℤ × Fs) := match env.int name with
      | none => .error .valueError
      | some n => .ok (some n, fs)
    if isDir = false then find env rel hash contents target es fs
    else match fs (metaFile (join (art rel) name)) with
      | none =>
        let fs := touch fs (lockFile rel)
        match fs (placeFile (join (art rel) name)) with
        | none => find env rel hash contents target es fs
        | some b =>
          match env.loadTarget b with
          | none => .error .valueError
          | some p => if p = target then found fs else find env rel hash contents target es fs
      | some b =>
        match env.loadMeta b with
        | none => .error .valueError
        | some m =>
          if m.settingsHash ≠ hash then find env rel hash contents target es fs
          else if m.contentsHash ≠ contents then .error .typeError
          else if m.target ≠ target then find env rel hash contents target es fs
          else found fs

/-- metadata.py:254-264: the hash beside the output, or else that of the source. -/
def contentsOf (env : Env J C) (fs : Fs) (rel : Text) : Text :=
  match fs (hashFile rel) with
  | some b => env.decode b
  | none => env.digest ((fs (source rel)).getD [])

/-- metadata.py:220-327 -/
def getTarget (env : Env J C) (rel : Text) (target : Target C) (fs : Fs) : Except Err (Option ℤ × Fs) :=
  match fs (source rel) with
  | none => .ok (none, fs)
  | some _ =>
    match env.dirs fs (art rel) with
    | none => .ok (none, fs)
    | some es =>
      match env.settingsHash with
      | .error e => .error e
      | .ok h => find env rel h (contentsOf env fs rel) target es fs

/-- metadata.py:337-366 -/
def reserve (env : Env J C) (rel : Text) (target : Target C) (fs : Fs) : Except Err (ℤ × Fs) :=
  let fs := touch fs (lockFile rel)
  let counter := match fs (counterFile rel) with
    | none => some 0
    | some b => env.int (env.decode b)
  match counter with
  | none => .error .valueError
  | some c => .ok (c + 1, (fs.write (counterFile rel) (env.encode (idText (c + 1)))).write (placeFile (artDir rel (c + 1))) (env.dumpTarget target))

/-- metadata.py:369-380 -/
def getOrReserve (env : Env J C) (rel : Text) (target : Target C) (fs : Fs) : Except Err (ℤ × Fs) :=
  match getTarget env rel target fs with
  | .error e => .error e
  | .ok (some n, fs) => .ok (n, fs)
  | .ok (none, fs) => reserve env rel target fs

/-! ## scanner.py -/

/-- scanner.py:39-45, exporter.py:62-68 -/
def targetOf (env : Env J C) (c : Command J) : Except Err (Target C) :=
  match env.crop c.cropArgs with
  | none => .error .typeError
  | some s => .ok ⟨c.width, c.height, c.cropStyle, s⟩

/-- scanner.py:32-37, exporter.py:55-60: the source, relative to src/public. -/
def relOf (env : Env J C) (file : Text) (c : Command J) : Text :=
  (sourcePath env.cwd env.folder file c).drop ((join (txt "src") (txt "public")).length + 1)

/-- scanner.py:81-87 -/
def announced (rel : Text) (n : ℤ) (ts : List ((ℕ × ℕ) × Format)) : List Text :=
  ts.flatMap fun t => [join (artDir rel n) (outName t.1.1 t.1.2 t.2.name), join (outDir rel n) (outName t.1.1 t.1.2 t.2.name)]

/-- `Image.open` -/
def openImage (env : Env J C) (fs : Fs) (p : Text) : Except Err (Bytes × (ℤ × ℤ)) :=
  match fs p with
  | none => .error .notFound
  | some b =>
    match env.dims b with
    | none => .error .valueError
    | some d => .ok (b, d)

/-- scanner.py:18-92 -/
def scanCommand (env : Env J C) (file : Text) (fs : Fs) (c : Command J) : Except Err (Scan × Fs) :=
  let rel := relOf env file c
  match targetOf env c with
  | .error e => .error e
  | .ok target =>
    match getOrReserve env rel target fs with
    | .error e => .error e
    | .ok (n, fs) =>
      match openImage env fs (source rel) with
      | .error e => .error e
      | .ok (_, dims) =>
        .ok (⟨[sourcePath env.cwd env.folder file c],
          [metaFile (artDir rel n), counterFile rel, placeFile (artDir rel n), lockFile rel] ++
            announced rel n (tasks (env.sizes dims (c.width, c.height)) env.formats)⟩, fs)

/-! ## exporter.py -/

/-- exporter.py:186-205: the images for one size and format.  (See `Verif.Img.produceExports` about the executor.) -/
def produceExports (draw : ℕ → ℕ → Text → Text → Except Err Bytes) (dir : Text) (w h : ℕ) (fmt : Text) :
    List (Text × Export) → Fs → Except Err Fs
  | [], fs => .ok fs
  | (n, e) :: es, fs =>
    if e.appliesTo w h then
      match draw w h n fmt with
      | .error x => .error x
      | .ok b => produceExports draw dir w h fmt es (fs.write (join dir (candName w h n fmt)) b)
    else produceExports draw dir w h fmt es fs

/-- exporter.py:180-211 -/
def produceAll (draw : ℕ → ℕ → Text → Text → Except Err Bytes) (dir : Text) : List ((ℕ × ℕ) × Format) → Fs → Except Err Fs
  | [], fs => .ok fs
  | ((w, h), f) :: ts, fs =>
    match produceExports draw dir w h f.name f.exports fs with
    | .error x => .error x
    | .ok fs => produceAll draw dir ts fs

/-- exporter.py:221-248 -/
def tournament (dir : Text) (w h : ℕ) (f : Format) : List (Text × Export) → Option Best → Fs → Except Err (Option Best × Fs)
  | [], best, fs => .ok (best, fs)
  | (n, e) :: es, best, fs =>
    if e.appliesTo w h then
      match fs (join dir (candName w h n f.name)) with
      | none => .error .notFound
      | some b =>
        match best with
        | none => tournament dir w h f es (some ⟨n, e, b.length⟩) fs
        | some a =>
          if compareIn f a.opt a.size e b.length > 0 then
            match fs (join dir (candName w h a.name f.name)) with
            | none => .error .notFound
            | some _ => tournament dir w h f es (some ⟨n, e, b.length⟩) (remove fs (join dir (candName w h a.name f.name)))
          else tournament dir w h f es (some a) (remove fs (join dir (candName w h n f.name)))
    else tournament dir w h f es best fs

/-- exporter.py:261-278: append to the list of a format. -/
def addPic (f : Text) (o : Pic) : List (Text × List Pic) → List (Text × List Pic)
  | [] => [(f, [o])]
  | (g, os) :: r => if g = f then (g, os ++ [o]) :: r else (g, os) :: addPic f o r

/-- `outputs`, the part of `produced` which is made in the loop, and the files. -/
structure Sel where
  fs : Fs
  outputs : List (Text × List Pic)
  produced : List Text

/-- exporter.py:216-298 for one size and format. -/
def selectOne (symlinks : Bool) (rel : Text) (id : ℤ) (w h : ℕ) (f : Format) (s : Sel) : Except Err Sel :=
  match tournament (artDir rel id) w h f f.exports none s.fs with
  | .error x => .error x
  | .ok (none, fs) => .ok { s with fs := fs }
  | .ok (some b, fs) =>
    match fs (join (artDir rel id) (candName w h b.name f.name)) with
    | none => .error .notFound
    | some img =>
      let fs := (remove fs (join (artDir rel id) (candName w h b.name f.name))).write (join (artDir rel id) (outName w h f.name)) img
      let out := join (outDir rel id) (outName w h f.name)
      if symlinks ∧ (fs out).isSome then .error .asserted
      else .ok ⟨fs.write out img,
        addPic f.name ⟨w, h, join (join (root rel) (idText id)) (outName w h f.name), b.name⟩ s.outputs,
        s.produced ++ [join (artDir rel id) (outName w h f.name), out]⟩

/-- exporter.py:213-298 -/
def selectAll (symlinks : Bool) (rel : Text) (id : ℤ) : List ((ℕ × ℕ) × Format) → Sel → Except Err Sel
  | [], s => .ok s
  | ((w, h), f) :: ts, s =>
    match selectOne symlinks rel id w h f s with
    | .error x => .error x
    | .ok s => selectAll symlinks rel id ts s

/-- exporter.py:115-138: the exports of a target which was made before.  `first` is `we_are_first`; `shutil.copy` raises for a
missing file, `os.symlink` does not. -/
structure Reuse where
  fs : Fs
  first : Bool
  produced : List Text
  reused : List Text

/-- exporter.py:118-138 -/
def reuseOne (symlinks : Bool) (p : Pic) (s : Reuse) : Except Err Reuse :=
  let a := join (txt "artifacts") p.relpath
  let out := join (join (txt "out") (txt "www")) p.relpath
  if (s.fs out).isSome then .ok ⟨s.fs, false, s.produced, s.reused ++ [a, out]⟩
  else
    match s.fs a with
    | some b => .ok ⟨s.fs.write out b, s.first, s.produced ++ [out], s.reused ++ [a]⟩
    | none => if symlinks then .ok ⟨s.fs, s.first, s.produced ++ [out], s.reused ++ [a]⟩ else .error .notFound

/-- exporter.py:115-138 -/
def reuseAll (symlinks : Bool) : List Pic → Reuse → Except Err Reuse
  | [], s => .ok s
  | p :: ps, s =>
    match reuseOne symlinks p s with
    | .error x => .error x
    | .ok s => reuseAll symlinks ps s

/-- exporter.py:97-151: metadata.json exists. -/
def exportAgain (env : Env J C) (path rel : Text) (n : ℤ) (b : Bytes) (fs : Fs) : Except Err (Metadata C × Built × Fs) :=
  match env.loadMeta b with
  | none => .error .valueError
  | some m =>
    match reuseAll env.symlinks (m.outputs.flatMap (·.2))
        ⟨fs, true, [], [metaFile (artDir rel n), counterFile rel, placeFile (artDir rel n)]⟩ with
    | .error e => .error e
    | .ok s =>
      if s.first then .ok (m, ⟨[path], s.produced ++ [lockFile rel], s.reused⟩, touch s.fs (lockFile rel))
      else .ok (m, ⟨[path], s.produced, s.reused ++ [lockFile rel]⟩, s.fs)

/-- exporter.py:153-321: it does not. -/
def exportNew (env : Env J C) (path rel : Text) (n : ℤ) (target : Target C) (fs : Fs) : Except Err (Metadata C × Built × Fs) :=
  match openImage env fs (source rel) with
  | .error e => .error e
  | .ok (img, dims) =>
    match fs (hashFile rel) with
    | none => .error .notFound
    | some hash =>
      match env.settingsHash with
      | .error e => .error e
      | .ok h =>
        let ts := tasks (env.sizes dims (target.width, target.height)) env.formats
        match produceAll (env.draw img target) (artDir rel n) ts fs with
        | .error e => .error e
        | .ok fs =>
          match selectAll env.symlinks rel n ts
              ⟨fs, [], [metaFile (artDir rel n), counterFile rel, placeFile (artDir rel n), lockFile rel]⟩ with
          | .error e => .error e
          | .ok s =>
            let m : Metadata C := ⟨h, path, dims.1, dims.2, env.decode hash, target, s.outputs⟩
            .ok (m, ⟨[path], s.produced, []⟩, s.fs.write (metaFile (artDir rel n)) (env.dumpMeta m))

/-- exporter.py:40-321 -/
def exportCommand (env : Env J C) (file : Text) (fs : Fs) (c : Command J) : Except Err (Metadata C × Built × Fs) :=
  let rel := relOf env file c
  let path := sourcePath env.cwd env.folder file c
  match targetOf env c with
  | .error e => .error e
  | .ok target =>
    match getTarget env rel target fs with
    | .error e => .error e
    | .ok (none, _) => .error .asserted
    | .ok (some n, fs) =>
      match fs (metaFile (artDir rel n)) with
      | some b => exportAgain env path rel n b fs
      | none => exportNew env path rel n target fs

end Verif.Img.Files
