import Verif.LinksThm
/-!
# What the web server answers

`run` and `dev` serve the folder out/www with `StaticFiles(directory=".", html=True)` of starlette, mounted at `/`
(vanillaplusjs/http_server.py:32-36; vanillaplusjs/runners/run.py:50-66 and dev.py:108-130 change into out/www first).

`StaticFiles` is not code of the project.  It is modelled after version 0.20.4, which requirements.txt names:
`get_path`, `get_response` and `lookup_path` of starlette/staticfiles.py; this is part of the trusted base.  Requests are GET
requests without conditions (no etags, no ranges); permissions, names which are too long and characters which no file name
can have are left out.  The path is the decoded one, as uvicorn passes it on, and begins with a slash.

Files and links are those of `Verif.Links`; here links may be anywhere on the way, and folders are listed.
-/
namespace Verif.Static
open Verif.Reader (Text txt)
open Verif.Paths
open Verif.Handlers (Bytes)
open Verif.Links (Place Entry)

/-- Files and links, and which places are folders. -/
structure Disk where
  fs : Links.Fs
  isDir : Place → Bool

/-- `os.path.realpath` (Lib/posixpath.py, `_joinrealpath`) from a folder which is no link, with so many steps: names are looked up
one after the other, and a link is replaced by its target. -/
def real (fs : Links.Fs) : Nat → Place → List Text → Option Place
  | 0, _, _ => none
  | _ + 1, acc, [] => some acc
  | n + 1, acc, c :: cs =>
    if c = [] ∨ c = [46] then real fs n acc cs
    else if c = [46, 46] then real fs n acc.dropLast cs
    else match fs (acc ++ [c]) with
      | some (.link t) => real fs n (if isAbs t then [] else acc) (split t ++ cs)
      | _ => real fs n (acc ++ [c]) cs

/-- The text of an absolute path. -/
def render (p : Place) : Text := p.flatMap fun x => 47 :: x

/-- What `os.stat` says. -/
inductive Found where
  | file (content : Bytes)
  | folder
  | nothing
deriving DecidableEq

def stat (d : Disk) (q : Place) : Found :=
  match d.fs q with
  | some (.file b) => .file b
  | _ => if d.isDir q then .folder else .nothing

/-- `StaticFiles.get_path`: `os.path.normpath(os.path.join(*path.split("/")))` -/
def getPath (path : Text) : Text := normpath (joinMany (split path))

/-- `StaticFiles.lookup_path`: only what is below the folder is looked at; this is tested with `os.path.commonprefix`, which
compares characters.  No result: too many links. -/
def lookup (n : Nat) (d : Disk) (dir : Place) (path : Text) : Option Found :=
  match real d.fs n dir (split path) with
  | none => none
  | some q => if (render dir).isPrefixOf (render q) then some (stat d q) else some .nothing

/-- The answer: 200 with a file, 307 to another URL, 404 with the page 404.html if there is one, 500. -/
inductive Response where
  | ok (content : Bytes)
  | redirect (url : Text)
  | notFound (page : Option Bytes)
  | failed
deriving DecidableEq

/-- The end of `StaticFiles.get_response` -/
def missing (n : Nat) (d : Disk) (dir : Place) : Response :=
  match lookup n d dir (txt "404.html") with
  | none => .failed
  | some (.file b) => .notFound (some b)
  | some _ => .notFound none

/-- `StaticFiles.get_response` with `html=True` for a GET request -/
def get (n : Nat) (d : Disk) (dir : Place) (path : Text) : Response :=
  match lookup n d dir (getPath path) with
  | none => .failed
  | some (.file b) => .ok b
  | some .nothing => missing n d dir
  | some .folder =>
    match lookup n d dir (join (getPath path) (txt "index.html")) with
    | none => .failed
    | some (.file b) => if path.getLast? = some 47 then .ok b else .redirect (path ++ [47])
    | some _ => missing n d dir

end Verif.Static
