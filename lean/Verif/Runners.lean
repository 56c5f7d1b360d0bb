import Verif.Graph
import Verif.Paths

/-!
Model of `vanillaplusjs/runners/clean.py` and `vanillaplusjs/runners/init.py` with `makedirs_safely` of
`vanillaplusjs/build/ioutil.py`, over a file system without symbolic links in which every file can be read and written.
-/

namespace Verif.Runners

open Verif.Reader (Text txt)
open Verif.Paths (join abspath comps)
open Verif.Graph (Graph)

inductive Entry where
  | file (content : Text)
  | dir
  deriving DecidableEq

/-- A file system: what is at the absolute path with these components. -/
abbrev Fs := List Text → Option Entry

/-- Where a path leads. -/
def place (cwd p : Text) : List Text := comps (abspath cwd p)

def setAt (fs : Fs) (p : List Text) (e : Option Entry) : Fs := fun q => if q = p then e else fs q

inductive Err where
  /-- SystemExit -/
  | exit
  | notFound
  | isDir
  | notDir
  | exists_
  /-- what `FileDependencyGraph.load` raises -/
  | load
  deriving DecidableEq

/-- `os.remove` -/
def remove (fs : Fs) (p : List Text) : Except Err Fs :=
  match fs p with
  | none => .error .notFound
  | some .dir => .error .isDir
  | some (.file _) => .ok (setAt fs p none)

/-- `shutil.rmtree(…, ignore_errors=True)`: nothing happens if there is no such folder. -/
def rmtree (fs : Fs) (p : List Text) : Fs :=
  if fs p = some .dir then fun q => if p <+: q then none else fs q else fs

/-- clean.py:63-65, 92-95: the nodes with parents, in the order of the graph. -/
def placeholders (g : Graph) : List String := (g.filter fun p => !p.2.parents.isEmpty).map (·.1)

/-- clean.py:63-65 -/
def removeAll (cwd folder : Text) : List String → Fs → Option Err × Fs
  | [], fs => (none, fs)
  | f :: files, fs =>
    match remove fs (place cwd (join folder (txt f))) with
    | .error e => (some e, fs)
    | .ok fs' => removeAll cwd folder files fs'

/-- clean.py:57-65 -/
def cleanPlaceholders (load : Text → Option Graph) (cwd folder : Text) (fs : Fs) : Option Err × Fs :=
  match fs (place cwd (join (join folder (txt "out")) (txt "placeholder_graph.json"))) with
  | none => (none, fs)
  | some .dir => (some .isDir, fs)
  | some (.file content) =>
    match load content with
    | none => (some .load, fs)
    | some g => removeAll cwd folder (placeholders g) fs

/-- clean.py:45-68; the exception, if any, and what is left. -/
def clean (load : Text → Option Graph) (cwd folder : Text) (asked : Bool) (fs : Fs) : Option Err × Fs :=
  if (fs (place cwd (join folder (txt "vanillaplusjs.json")))).isNone then (some .exit, fs)
  else
    match (if asked then cleanPlaceholders load cwd folder fs else (none, fs)) with
    | (some e, fs') => (some e, fs')
    | (none, fs') =>
      (none, rmtree (rmtree fs' (place cwd (join folder (txt "out")))) (place cwd (join folder (txt "artifacts"))))

/-- clean.py:109-116: the answers of the user; `none` if they end (EOFError). -/
def answer : List Text → Option Bool
  | [] => none
  | a :: rest => if a = txt "y" then some true else if a = txt "n" then some false else answer rest

/-- clean.py:71-116: the files which are listed (none if the user is not asked) and the choice.  `input().lower()` is
already applied to the answers. -/
def prompt (load : Text → Option Graph) (cwd folder : Text) (answers : List Text) (fs : Fs) :
    Except Err (List String × Option Bool) :=
  match fs (place cwd (join (join folder (txt "out")) (txt "placeholder_graph.json"))) with
  | none => .ok ([], some false)
  | some .dir => .error .isDir
  | some (.file content) =>
    match load content with
    | none => .error .load
    | some g =>
      if g = [] then .ok ([], some false)
      else if placeholders g = [] then .ok ([], some false)
      else .ok (placeholders g, answer answers)

/-- `open(path, "w")` followed by writing: the file systems in between and the end; opening leaves an empty file. -/
def write (fs : Fs) (p : List Text) (content : Text) : Except Err (List Fs × Fs) :=
  match fs p with
  | some .dir => .error .isDir
  | _ =>
    match fs p.dropLast with
    | none => .error .notFound
    | some (.file _) => .error .notDir
    | some .dir => .ok ([setAt fs p (some (.file []))], setAt fs p (some (.file content)))

/-- The folders on the way to a path, the outermost first. -/
def steps (p : List Text) : List (List Text) := (List.range (p.length + 1)).map fun n => p.take n

/-- `os.makedirs`: one folder after the other. -/
def mkSteps (fs : Fs) : List (List Text) → List Fs × Fs
  | [] => ([], fs)
  | p :: ps =>
    match fs p with
    | none => let r := mkSteps (setAt fs p (some .dir)) ps; (setAt fs p (some .dir) :: r.1, r.2)
    | some _ => mkSteps fs ps

/-- ioutil.py:193-228 without PermissionError: `os.stat` fails if there is a file on the way and 216 if there is a file
at the path, otherwise the missing folders are created. -/
def makedirs (fs : Fs) (p : List Text) : Except Err (List Fs × Fs) :=
  match (steps p).find? (fun q => match fs q with | some (.file _) => true | _ => false) with
  | some q => .error (if q = p then .exists_ else .notDir)
  | none => .ok (mkSteps fs (steps p))

/-- One statement after the other: all the file systems on the way and the last one. -/
def andThen (r : List Fs × Option Err × Fs) (f : Fs → Except Err (List Fs × Fs)) : List Fs × Option Err × Fs :=
  match r with
  | (t, some e, fs) => (t, some e, fs)
  | (t, none, fs) =>
    match f fs with
    | .error e => (t, some e, fs)
    | .ok (t', fs') => (t ++ t' ++ [fs'], none, fs')

/-- init.py:55-56, 169-170: a file which is written unless there is something already. -/
def unlessThere (p : List Text) (content : Text) (fs : Fs) : Except Err (List Fs × Fs) :=
  if (fs p).isSome then .ok ([], fs) else write fs p content

/-- init.py:34-180: all the file systems on the way, the exception, if any, and the last file system.  The texts which
are written are parameters. -/
def init (config index : Text) (cwd folder : Text) (fs : Fs) : List Fs × Option Err × Fs :=
  let r := andThen ([fs], none, fs) (unlessThere (place cwd (join folder (txt "vanillaplusjs.json"))) config)
  let r := andThen r fun fs => makedirs fs (place cwd (join (join (join folder (txt "src")) (txt "public")) (txt "img")))
  let r := andThen r fun fs => makedirs fs (place cwd (join (join (join folder (txt "src")) (txt "public")) (txt "js")))
  let r := andThen r fun fs => makedirs fs (place cwd (join (join folder (txt "src")) (txt "partials")))
  andThen r (unlessThere (place cwd (join (join (join folder (txt "src")) (txt "public")) (txt "index.html"))) index)

end Verif.Runners
