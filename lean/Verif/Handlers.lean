import Verif.Paths
/-!
# The handlers

Model of vanillaplusjs/build/scan_file.py, build_file.py and of the handlers copy, hash, copy_and_hash,
js_constants, image_glue, html, css and js in vanillaplusjs/build/handlers.

Paths are relative to the project folder, which the code prepends before every access.  The file system gives
the bytes of a path; a symbolic link to the source is a file with the bytes of the source (copy.py:46-50), and
folders are created as needed (`makedirs_safely`).  What the manipulators make of a document, what the constants
and the image exports are, and the digest are parameters.
-/
namespace Verif.Handlers
open Verif.Reader (Text txt)

/-- Contents of a file. -/
abbrev Bytes := List Nat

/-- The files. -/
abbrev Fs := Text → Option Bytes

/-- Replace a file. -/
def Fs.write (fs : Fs) (p : Text) (b : Bytes) : Fs := fun q => if q = p then some b else fs q

/-- `notFound` is FileNotFoundError, `typeError` is the TypeError of `os.path.join(folder, None)`, `asserted` an
AssertionError, `failed` anything raised by a manipulator or an image export. -/
inductive Err where
  | notFound
  | typeError
  | asserted
  | failed
deriving DecidableEq, Repr

/-- build/scan_file_result.py (without placeholders) -/
structure Scan where
  dependencies : List Text
  produces : List Text
deriving DecidableEq, Repr

/-- build/build_file_result.py -/
structure Built where
  children : List Text
  produced : List Text
  reused : List Text
deriving DecidableEq, Repr

def srcPublic : Text := txt "src/public"
def outWww : Text := txt "out/www/"

/-- handlers/copy.py:13-24 -/
def copyTarget (rel : Text) : Option Text :=
  if srcPublic.isPrefixOf rel then some (outWww ++ rel.drop (srcPublic.length + 1)) else none

/-- handlers/hash.py:16-33 -/
def hashTarget (rel : Text) : Option Text :=
  if (srcPublic ++ txt "/").isPrefixOf rel then
    some (outWww ++ rel.drop (srcPublic ++ txt "/").length ++ txt ".hash")
  else if outWww.isPrefixOf rel then some (outWww ++ rel.drop outWww.length ++ txt ".hash")
  else none

/-- handlers/copy.py:27-32 -/
def copyScan (rel : Text) : Scan :=
  match copyTarget rel with
  | none => ⟨[], []⟩
  | some t => ⟨[], [t]⟩

/-- handlers/hash.py:36-41 -/
def hashScan (rel : Text) : Scan :=
  match hashTarget rel with
  | none => ⟨[], []⟩
  | some t => ⟨[], [t]⟩

/-- handlers/copy.py:35-58 -/
def copyBuild (rel : Text) (fs : Fs) : Except Err (Built × Fs) :=
  match copyTarget rel with
  | none => .ok (⟨[], [], []⟩, fs)
  | some t =>
    match fs t with
    | some _ => .ok (⟨[], [], [t]⟩, fs)
    | none =>
      match fs rel with
      | none => .error .notFound
      | some b => .ok (⟨[], [t], []⟩, fs.write t b)

/-- handlers/hash.py:44-68; `digest` is the text of the sha256. -/
def hashBuild (digest : Bytes → Bytes) (rel : Text) (fs : Fs) : Except Err (Built × Fs) :=
  match hashTarget rel with
  | none => .ok (⟨[], [], []⟩, fs)
  | some t =>
    match fs t with
    | some _ => .ok (⟨[], [], [t]⟩, fs)
    | none =>
      match fs rel with
      | none => .error .notFound
      | some b => .ok (⟨[], [t], []⟩, fs.write t (digest b))

/-- handlers/copy_and_hash.py:9-16 -/
def copyAndHashScan (rel : Text) : Scan :=
  ⟨(copyScan rel).dependencies ++ (hashScan rel).dependencies, (copyScan rel).produces ++ (hashScan rel).produces⟩

/-- handlers/copy_and_hash.py:19-27 -/
def copyAndHashBuild (digest : Bytes → Bytes) (rel : Text) (fs : Fs) : Except Err (Built × Fs) :=
  match copyBuild rel fs with
  | .error e => .error e
  | .ok (c, fs1) =>
    match hashBuild digest rel fs1 with
    | .error e => .error e
    | .ok (h, fs2) => .ok (⟨c.children ++ h.children, c.produced ++ h.produced, c.reused ++ h.reused⟩, fs2)

/-- handlers/js_constants.py:14-22, reached only for the file of the constants (scan_file.py:28). -/
def constantsScan (rel : Text) : Except Err Scan :=
  match copyTarget rel with
  | none => .error .asserted
  | some t => .ok ⟨[], [t, t ++ txt ".hash"]⟩

/-- handlers/js_constants.py:25-60; `text` are the lines written. -/
def constantsBuild (digest : Bytes → Bytes) (text : Bytes) (rel : Text) (fs : Fs) : Except Err (Built × Fs) :=
  match copyTarget rel with
  | none => .error .typeError
  | some t =>
    let first : List Text × List Text × Fs :=
      match fs t with
      | some _ => ([], [t], fs)
      | none => ([t], [], fs.write t text)
    match hashBuild digest t first.2.2 with
    | .error e => .error e
    | .ok (h, fs2) => .ok (⟨h.children, first.1 ++ h.produced, first.2.1 ++ h.reused⟩, fs2)

/-- What the manipulators of a document do: the scan, and the build with the new document; the files which they
write themselves are in the file system returned. -/
structure Doc where
  scan : Fs → Except Err Scan
  build : Fs → Except Err (Bytes × Built × Fs)

/-- handlers/html.py:53-79, css.py:40-62, js.py:34-56.  `html` says whether a file without target is skipped
(html.py:58-59). -/
def docScan (html : Bool) (m : Doc) (rel : Text) (fs : Fs) : Except Err Scan :=
  if html ∧ copyTarget rel = none then .ok ⟨[], []⟩
  else
    match m.scan fs with
    | .error e => .error e
    | .ok s => .ok ⟨(copyScan rel).dependencies ++ (hashScan rel).dependencies ++ s.dependencies,
        (copyScan rel).produces ++ (hashScan rel).produces ++ s.produces⟩

/-- handlers/html.py:82-118, css.py:65-99, js.py:59-91.  In html.py and css.py (`strict`) something reused which
is known to be produced is not listed; the results are looked at in order: hash, then the manipulators.  The
output is written after the manipulators have run through the document (manipulate_and_serialize writes while
reading; the manipulators do not read the output). -/
def docBuild (html strict : Bool) (digest : Bytes → Bytes) (m : Doc) (rel : Text) (fs : Fs) : Except Err (Built × Fs) :=
  match copyTarget rel with
  | none => if html then .ok (⟨[], [], []⟩, fs) else .error .typeError
  | some t =>
    match m.build fs with
    | .error e => .error e
    | .ok (b, r, fs1) =>
      match hashBuild digest t (fs1.write t b) with
      | .error e => .error e
      | .ok (h, fs2) =>
        let produced := [t] ++ h.produced ++ r.produced
        .ok (⟨h.children ++ r.children, produced,
          h.reused.filter (fun x => !strict || !([t] ++ h.produced).contains x) ++
          r.reused.filter (fun x => !strict || !produced.contains x)⟩, fs2)

/-- handlers/image_glue.py:109-122 -/
def handlesImages (rel : Text) : Bool :=
  srcPublic.isPrefixOf rel && ((txt ".images.json").isSuffixOf rel || (txt ".images.js").isSuffixOf rel)

/-- image_glue.py:138-142, 193-197 -/
def imagesOut (rel : Text) : Text :=
  let p := rel.drop (srcPublic.length + 1)
  outWww ++ p.take (p.length - (txt ".images.json").length) ++ txt ".images.js"

/-- The commands of a file of images: whether they are accepted, what the scan of all of them gives, and the
build with the text of the module. -/
structure Glue where
  sane : Fs → Except Err Bool
  scan : Fs → Except Err Scan
  build : Fs → Except Err (Bytes × Built × Fs)

/-- image_glue.py:125-179 (placeholders are in `Verif.Hot`) -/
def glueScan (m : Glue) (rel : Text) (fs : Fs) : Except Err Scan :=
  if (txt ".images.js").isSuffixOf rel then .ok ⟨[], []⟩
  else
    match m.sane fs with
    | .error e => .error e
    | .ok false => .ok ⟨[], []⟩
    | .ok true =>
      match m.scan fs with
      | .error e => .error e
      | .ok s => .ok ⟨s.dependencies ++ (hashScan (imagesOut rel)).dependencies,
          [imagesOut rel] ++ s.produces ++ (hashScan (imagesOut rel)).produces⟩

/-- image_glue.py:182-263 -/
def glueBuild (digest : Bytes → Bytes) (m : Glue) (rel : Text) (fs : Fs) : Except Err (Built × Fs) :=
  if (txt ".images.js").isSuffixOf rel then .ok (⟨[], [], []⟩, fs)
  else
    match m.sane fs with
    | .error e => .error e
    | .ok false => .ok (⟨[], [], []⟩, fs)
    | .ok true =>
      match m.build fs with
      | .error e => .error e
      | .ok (b, r, fs1) =>
        match hashBuild digest (imagesOut rel) (fs1.write (imagesOut rel) b) with
        | .error e => .error e
        | .ok (h, fs2) =>
          .ok (⟨r.children ++ h.children, r.produced ++ [imagesOut rel] ++ h.produced, r.reused ++ h.reused⟩, fs2)

/-- The configuration, and what the manipulators make of each file. -/
structure Env where
  constants : Text
  text : Bytes
  digest : Bytes → Bytes
  doc : Text → Doc
  glue : Text → Glue

/-- scan_file.py:11-38 -/
def scanFile (env : Env) (rel : Text) (fs : Fs) : Except Err Scan :=
  if rel = env.constants then constantsScan rel
  else if handlesImages rel then glueScan (env.glue rel) rel fs
  else if (txt ".html").isSuffixOf rel then docScan true (env.doc rel) rel fs
  else if (txt ".css").isSuffixOf rel then docScan false (env.doc rel) rel fs
  else if (txt ".js").isSuffixOf rel then docScan false (env.doc rel) rel fs
  else .ok (copyAndHashScan rel)

/-- build_file.py:12-47 (`delay_files` only waits) -/
def buildFile (env : Env) (rel : Text) (fs : Fs) : Except Err (Built × Fs) :=
  if rel = env.constants then constantsBuild env.digest env.text rel fs
  else if handlesImages rel then glueBuild env.digest (env.glue rel) rel fs
  else if (txt ".html").isSuffixOf rel then docBuild true true env.digest (env.doc rel) rel fs
  else if (txt ".css").isSuffixOf rel then docBuild false true env.digest (env.doc rel) rel fs
  else if (txt ".js").isSuffixOf rel then docBuild false false env.digest (env.doc rel) rel fs
  else copyAndHashBuild env.digest rel fs

end Verif.Handlers
