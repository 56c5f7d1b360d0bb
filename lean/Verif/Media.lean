import Verif.Static
/-!
# The media types which the web server names

`StaticFiles` answers with a `FileResponse` (starlette 0.20.4, starlette/responses.py), which takes the type of the content from
`mimetypes.guess_type` of the path of the file; vanillaplusjs/http_server.py:12-22 enters nine types into the tables of
`mimetypes` when it is imported.  What was in the tables before comes from the machine (mimetypes.py, `init`: files like
/etc/mime.types, the registry) and is arbitrary here.

`guess_type` is modelled after Lib/mimetypes.py of Python 3.11 for absolute paths, which have no scheme.  Lower case is taken for
ASCII letters only.  The tables of the non-standard types are left out, they are not used (`strict=True`).
-/
namespace Verif.Media
open Verif.Reader (Text txt)
open Verif.Paths
open Verif.Handlers (Bytes)
open Verif.Links (Place Entry)
open Verif.Static

/-- The tables of `mimetypes`: the keys are extensions with their dot. -/
structure Tables where
  types : Text → Option Text
  suffixes : Text → Option Text
  encodings : Text → Option Text

/-- `MimeTypes.add_type` -/
def Tables.add (t : Tables) (type ext : Text) : Tables :=
  { t with types := fun x => if x = ext then some type else t.types x }

/-- vanillaplusjs/http_server.py:13-22 -/
def registered : List (Text × Text) :=
  [ (txt "text/css", txt ".css"), (txt "text/javascript", txt ".js"), (txt "text/html", txt ".html"),
    (txt "image/svg+xml", txt ".svg"), (txt "image/jpeg", txt ".jpg"), (txt "image/jpeg", txt ".jpeg"),
    (txt "image/png", txt ".png"), (txt "image/gif", txt ".gif"), (txt "image/webp", txt ".webp") ]

/-- The tables once vanillaplusjs/http_server.py is imported. -/
def imported (machine : Tables) : Tables := registered.foldl (fun t r => t.add r.1 r.2) machine

/-- `str.lower`, for ASCII -/
def lower (s : Text) : Text := s.map fun c => if 65 ≤ c ∧ c ≤ 90 then c + 32 else c

/-- `posixpath.splitext` (Lib/genericpath.py, `_splitext`): the extension begins with the last dot of the name, unless there are
only dots before it. -/
def splitext (p : Text) : Text × Text :=
  match p.reverse.dropWhile (fun c => c != 46 && c != 47) with
  | 46 :: before =>
    if (before.takeWhile (· != 47)).all (· == 46) then (p, [])
    else (before.reverse, 46 :: (p.reverse.takeWhile fun c => c != 46 && c != 47).reverse)
  | _ => (p, [])

/-- The loop of `guess_type` over the table of suffixes, with so many rounds. -/
def resolve (t : Tables) : Nat → Text × Text → Option (Text × Text)
  | 0, _ => none
  | k + 1, (base, ext) =>
    match t.suffixes (lower ext) with
    | none => some (base, ext)
    | some s => resolve t k (splitext (base ++ s))

/-- `guess_type(path)[0]`; no result: the loop does not end. -/
def guess (k : Nat) (t : Tables) (p : Text) : Option (Option Text) :=
  match resolve t k (splitext p) with
  | none => none
  | some (base, ext) =>
    match t.encodings ext with
    | some _ => some (t.types (lower (splitext base).2))
    | none => some (t.types (lower ext))

/-- The header content-type: `FileResponse.__init__`, and `Response.init_headers` which adds the charset. -/
def contentType (k : Nat) (t : Tables) (p : Text) : Option Text :=
  match guess k t p with
  | none => none
  | some g =>
    let type := g.getD (txt "text/plain")
    some (if (txt "text/").isPrefixOf type then type ++ txt "; charset=utf-8" else type)

/-- The header of the answer 200: the file is looked up as in `Static.get`, and the type is that of its real path. -/
def header (k : Nat) (t : Tables) (n : Nat) (d : Disk) (dir : Place) (path : Text) : Option Text :=
  match Static.lookup n d dir (getPath path) with
  | some (.file _) => (real d.fs n dir (split (getPath path))).bind fun q => contentType k t (render q)
  | some .folder =>
    match Static.lookup n d dir (join (getPath path) (txt "index.html")) with
    | some (.file _) =>
      (real d.fs n dir (split (join (getPath path) (txt "index.html")))).bind fun q => contentType k t (render q)
    | _ => none
  | _ => none

end Verif.Media
