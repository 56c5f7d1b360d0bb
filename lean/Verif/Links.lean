import Verif.Handlers
/-!
# Symbolic links

Model of the code which makes symbolic links, on a file system in which links are entries of their own: build_file in
vanillaplusjs/build/handlers/copy.py and hash.py, the lines of vanillaplusjs/build/html/manips/images/exporter.py which
put a picture below out/www, and `detect_symlink_support` in vanillaplusjs/runners/build.py.  (In `Verif.Handlers` and
`Verif.Img.Files` a link is a file with the contents of the file it leads to.)

A place is the list of the components of an absolute path.  Folders are not modelled: they are made as needed
(`makedirs_safely`) and are no links themselves.
-/
namespace Verif.Links
open Verif.Reader (Text txt)
open Verif.Paths (join abspath comps isAbs walk)
open Verif.Handlers (Bytes Built copyTarget hashTarget)

abbrev Place := List Text

inductive Entry where
  | file (content : Bytes)
  | link (target : Text)
deriving DecidableEq

abbrev Fs := Place → Option Entry

/-- FileNotFoundError, FileExistsError, the OSError of too many links, PermissionError. -/
inductive Err where
  | notFound
  | exists_
  | loop
  | denied
deriving DecidableEq

/-- Where a path leads from the working folder. -/
def place (cwd p : Text) : Place := comps (abspath cwd p)

def setAt (fs : Fs) (p : Place) (e : Option Entry) : Fs := fun q => if q = p then e else fs q

/-- Where a link leads: a relative target starts at the folder of the link (path_resolution(7)). -/
def leads (p : Place) (target : Text) : Place := walk (if isAbs target then [] else p.dropLast) (comps target)

/-- The end of a chain of at most so many links. -/
def final (fs : Fs) : Nat → Place → Option Place
  | 0, p =>
    match fs p with
    | some (.link _) => none
    | _ => some p
  | n + 1, p =>
    match fs p with
    | some (.link t) => final fs n (leads p t)
    | _ => some p

/-- What reading a path gives; the system follows 40 links. -/
def read (fs : Fs) (p : Place) : Option Bytes :=
  match final fs 40 p with
  | none => none
  | some q =>
    match fs q with
    | some (.file b) => some b
    | _ => none

/-- Opening for writing and writing follow links, too. -/
def write (fs : Fs) (p : Place) (b : Bytes) : Except Err Fs :=
  match final fs 40 p with
  | none => .error .loop
  | some q => .ok (setAt fs q (some (.file b)))

/-- `os.symlink(target, p)` -/
def symlink (fs : Fs) (p : Place) (target : Text) : Except Err Fs :=
  if (fs p).isSome then .error .exists_ else .ok (setAt fs p (some (.link target)))

/-- `os.unlink` and `os.remove` -/
def unlink (fs : Fs) (p : Place) : Except Err Fs :=
  if (fs p).isSome then .ok (setAt fs p none) else .error .notFound

/-- `shutil.copyfile` and `shutil.copy` -/
def copyfile (fs : Fs) (s d : Place) : Except Err Fs :=
  match read fs s with
  | none => .error .notFound
  | some b => write fs d b

/-- The working folder and `context.folder`, `context.symlinks`. -/
structure Ctx where
  cwd : Text
  folder : Text
  symlinks : Bool

/-- `os.path.join(context.folder, relpath)` -/
def Ctx.path (c : Ctx) (rel : Text) : Text := join c.folder rel

def Ctx.place (c : Ctx) (rel : Text) : Place := Links.place c.cwd (c.path rel)

/-- handlers/copy.py:35-58 -/
def copyBuild (c : Ctx) (rel : Text) (fs : Fs) : Except Err (Built × Fs) :=
  match copyTarget rel with
  | none => .ok (⟨[], [], []⟩, fs)
  | some t =>
    if (read fs (c.place t)).isSome then .ok (⟨[], [], [t]⟩, fs)
    else
      match (if c.symlinks then symlink fs (c.place t) (abspath c.cwd (c.path rel)) else copyfile fs (c.place rel) (c.place t)) with
      | .error e => .error e
      | .ok fs => .ok (⟨[], [t], []⟩, fs)

/-- handlers/hash.py:44-68; `digest` is the text of the sha256. -/
def hashBuild (digest : Bytes → Bytes) (c : Ctx) (rel : Text) (fs : Fs) : Except Err (Built × Fs) :=
  match hashTarget rel with
  | none => .ok (⟨[], [], []⟩, fs)
  | some t =>
    if (read fs (c.place t)).isSome then .ok (⟨[], [], [t]⟩, fs)
    else
      match read fs (c.place rel) with
      | none => .error .notFound
      | some b =>
        match write fs (c.place t) (digest b) with
        | .error e => .error e
        | .ok fs => .ok (⟨[], [t], []⟩, fs)

/-- exporter.py:119: where the picture is served, relative to the project. -/
def served (relpath : Text) : Text := join (join (txt "out") (txt "www")) relpath

/-- exporter.py:131 and 286: where it is kept, as it is given to `os.symlink`. -/
def Ctx.kept (c : Ctx) (relpath : Text) : Text := join (join c.folder (txt "artifacts")) relpath

/-- exporter.py:118-138: one picture of a target which was made before. -/
def oldPicture (c : Ctx) (relpath : Text) (fs : Fs) : Except Err (Built × Fs) :=
  let kept := join (txt "artifacts") relpath
  if (read fs (c.place (served relpath))).isSome then .ok (⟨[], [], [kept, served relpath]⟩, fs)
  else
    match (if c.symlinks then symlink fs (c.place (served relpath)) (c.kept relpath)
        else copyfile fs (place c.cwd (c.kept relpath)) (c.place (served relpath))) with
    | .error e => .error e
    | .ok fs => .ok (⟨[], [served relpath], [kept]⟩, fs)

/-- exporter.py:281-298: one picture of a new target, which is in artifacts already. -/
def newPicture (c : Ctx) (relpath : Text) (fs : Fs) : Except Err (Built × Fs) :=
  match (if c.symlinks then symlink fs (c.place (served relpath)) (c.kept relpath)
      else copyfile fs (place c.cwd (c.kept relpath)) (c.place (served relpath))) with
  | .error e => .error e
  | .ok fs => .ok (⟨[], [served relpath], []⟩, fs)

/-! ## Whether links can be made -/

def test1 : Text := txt "___symlink_test___.txt"
def test2 : Text := txt "___symlink_test___2.txt"

/-- What the system allows in the working folder: making files, and making links. -/
structure System where
  writable : Bool
  supported : Bool

/-- runners/build.py:191-200: the answer, and what is there after each step, the last one first. -/
def tryLink (s : System) (cwd : Text) (fs : Fs) : Bool × List Fs :=
  if s.writable = false then (false, [fs])
  else
    match write fs (place cwd test1) [], write fs (place cwd test1) (txt "test") with
    | .ok empty, .ok full =>
      if s.supported = false then (false, [full, empty, fs])
      else
        match symlink full (place cwd test2) test1 with
        | .error _ => (false, [full, empty, fs])
        | .ok linked => (true, [linked, full, empty, fs])
    | _, _ => (false, [fs])

/-- runners/build.py:201-204: the exception, if any, and what is there after each step, the last one first. -/
def tidyUp (s : System) (cwd : Text) (fs : Fs) : Option Err × List Fs :=
  if s.writable = false then (some (if (read fs (place cwd test2)).isSome ∨ (fs (place cwd test1)).isSome then .denied else .notFound), [])
  else
    match (if (read fs (place cwd test2)).isSome then unlink fs (place cwd test2) else .ok fs) with
    | .error e => (some e, [])
    | .ok fs1 =>
      match unlink fs1 (place cwd test1) with
      | .error e => (some e, [fs1])
      | .ok fs2 => (none, [fs2, fs1])

/-- runners/build.py:191-204: the answer or the exception, and what is there at the end and before. -/
def detect (s : System) (cwd : Text) (fs : Fs) : Except Err Bool × List Fs :=
  let r := tryLink s cwd fs
  let e := tidyUp s cwd (r.2.headD fs)
  (match e.1 with
    | none => .ok r.1
    | some x => .error x, e.2 ++ r.2)

end Verif.Links
