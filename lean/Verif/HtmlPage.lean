import Verif.HtmlTemplate
import Verif.CssPage
import Verif.ImgCommand
import Verif.ImgExport

/-!
# Pages

Model of vanillaplusjs/build/handlers/html.py with all its manipulators, of
vanillaplusjs/build/html/manips/outline.py and of vanillaplusjs/build/html/manips/images/manip.py.

Paths are relative to the project folder, as in `Verif.Handlers`.  Parameters are what html5lib does (the tokens of a page,
and the text of tokens), the handlers for scripts and stylesheets, and the scan and export of an image command.
-/

namespace Verif.Html.Page

open Verif.Reader (Text txt)
open Verif.Build
open Verif.Assoc (item put ofList keys)
open Verif.Paths (join)
open Verif.Handlers (Bytes Fs Scan Built copyScan hashScan copyTarget hashBuild)
open Verif.Icons (addAll)
open Verif.Css.Page (merge)
open Verif.Img (digits)

/-- `os.remove` -/
def remove (fs : Fs) (p : Text) : Fs := fun q => if q = p then none else fs q

/-- handlers/handler.py: a handler for files of one kind. -/
structure Handler (E : Type) where
  scan : Fs → Text → Except E Scan
  build : Fs → Text → Except E (Built × Fs)

/-- images/metadata.py:124-142: a file which was exported, its path relative to out/www. -/
structure Pic where
  width : Int
  height : Int
  relpath : Text
  deriving DecidableEq, Repr

/-- An exception of one of the parts. -/
inductive PErr (E : Type) where
  | html (e : HErr)
  | image (e : Img.Err)
  | files (e : Handlers.Err)
  /-- of the handler for scripts or stylesheets -/
  | handler (e : E)
  /-- the StopIteration of images/manip.py:92 -/
  | noStandard

/-- outline.py:64: what is being outlined. -/
inductive Kind where
  | script
  | style
  deriving DecidableEq, Repr

/-- What the manipulators are given. -/
structure Env (E J : Type) where
  scan : Bool
  /-- the page, relative to the project -/
  rel : Text
  host : Option Text
  strip : Text → Text
  enc : Nat → Text
  tpl : TplEnv
  js : Handler E
  css : Handler E
  py : Img.Py J
  /-- width and height of an image -/
  image : Text → Option (Int × Int)
  cwd : Text
  folder : Text
  /-- images/scanner.py:17-92, with the files it makes -/
  scanImage : Fs → Img.Command J → Except Img.Err (Scan × Fs)
  /-- images/exporter.py:41-332: the exported files by format -/
  exportImage : Fs → Img.Command J → Except Img.Err (List (Text × List Pic) × Built × Fs)
  /-- images/settings.py:107 -/
  defaultFormat : Text
  /-- outline.py:136-147: whether the folder for the generated files of a kind holds something else, so that it is still
  there after an element -/
  kept : Kind → Bool
  digest : Bytes → Bytes
  decode : Bytes → Text
  encode : Text → Bytes
  /-- html/tokenizer.py:7-82; `none` for a file which cannot be parsed -/
  parse : Bytes → Option (List HTok)
  /-- the serializer of html5lib -/
  write : List HTok → Bytes

/-- outline.py:64-69: an element which is being outlined, with the text written so far. -/
structure Job where
  kind : Kind
  path : Text
  attrs : List (Text × Text)
  text : Text

/-- The states of the manipulators, and the files. -/
structure St where
  fs : Fs
  /-- link_hash.py: dependencies or children -/
  links : List Text
  imgScan : Scan
  imgBuilt : Built
  scripts : Nat
  styles : Nat
  job : Option Job
  outScan : Scan
  outBuilt : Built
  tpl : TplSt

/-- template.py:54-64 and the other constructors. -/
def St.new (fs : Fs) (rel : Text) : St where
  fs := fs
  links := []
  imgScan := ⟨[], []⟩
  imgBuilt := ⟨[], [], []⟩
  scripts := 0
  styles := 0
  job := none
  outScan := ⟨[], []⟩
  outBuilt := ⟨[], [], []⟩
  tpl := ⟨[], [], ⟨rel, []⟩⟩

variable {E J : Type}

/-! ## The manipulators without a state of their own files -/

def Env.canonEnv (env : Env E J) : CanonEnv := { scan := env.scan, host := env.host, relpath := env.rel }

/-- The files are those of the moment. -/
def Env.linkEnv (env : Env E J) (fs : Fs) : LinkEnv where
  scan := env.scan
  folder := []
  read p := (fs p).map env.decode
  strip := env.strip
  enc := env.enc

/-- link_rel_canonical.py -/
def canon (env : Env E J) : Manip St HTok (PErr E) where
  start s t := match canonStart env.canonEnv s t with
    | .error e => .error (.html e)
    | .ok r => .ok r
  cont s t := match canonCont env.canonEnv s t with
    | .error e => .error (.html e)
    | .ok r => .ok r

/-- link_hash.py -/
def links (env : Env E J) : Manip St HTok (PErr E) where
  start s t := match linkStart (env.linkEnv s.fs) s.links t with
    | .error e => .error (.html e)
    | .ok (b, l) => .ok (b, { s with links := l })
  cont s t := match linkCont (env.linkEnv s.fs) s.links t with
    | .error e => .error (.html e)
    | .ok (r, l) => .ok (r, { s with links := l })

/-- template.py -/
def templates (env : Env E J) : Manip St HTok (PErr E) where
  start s t := match tplStart env.tpl s.tpl t with
    | .error e => .error (.html e)
    | .ok (b, x) => .ok (b, { s with tpl := x })
  cont s t := match tplCont env.tpl s.tpl t with
    | .error e => .error (.html e)
    | .ok (r, x) => .ok (r, { s with tpl := x })

/-! ## images/manip.py -/

/-- images/manip.py:117-137 -/
def command (env : Env E J) : HTok → Except Img.Err (Option (Img.Command J))
  | .comment data => Img.getCommand env.py env.image env.cwd env.folder env.rel data
  | _ => .ok none

def addScan (r x : Scan) : Scan := ⟨addAll r.dependencies x.dependencies, addAll r.produces x.produces⟩

def addBuilt (r x : Built) : Built := ⟨addAll r.children x.children, addAll r.produced x.produced, addAll r.reused x.reused⟩

/-- images/manip.py:44-57 -/
def imageStart (env : Env E J) (s : St) (t : HTok) : Except (PErr E) (Bool × St) :=
  match command env t with
  | .error e => .error (.image e)
  | .ok none => .ok (false, s)
  | .ok (some c) =>
    if env.scan then
      match env.scanImage s.fs c with
      | .error e => .error (.image e)
      | .ok (r, fs) => .ok (false, { s with fs := fs, imgScan := addScan s.imgScan r })
    else .ok (true, s)

/-- `str(n)` of an integer -/
def showInt (n : Int) : Text := if n < 0 then txt "-" ++ digits n.natAbs else digits n.natAbs

/-- `", ".join(xs)` -/
def commaJoin : List Text → Text
  | [] => []
  | [x] => x
  | x :: y :: xs => x ++ txt ", " ++ commaJoin (y :: xs)

/-- images/manip.py:81-84 and 106-109 -/
def srcset (ps : List Pic) : Text := commaJoin (ps.map fun p => txt "/" ++ p.relpath ++ txt " " ++ showInt p.width ++ txt "w")

/-- images/manip.py:67-115 -/
def picture (format : Text) (c : Img.Command J) (outputs : List (Text × List Pic)) : Except (PErr E) (List HTok) :=
  match item outputs format with
  | none => .error (.html .keyErr)
  | some ps =>
    match ps.find? fun p => p.width = c.width ∧ p.height = c.height with
    | none => .error .noStandard
    | some p =>
      .ok (.startTag (txt "picture") [] ::
        ((outputs.filter fun o => o.1 ≠ format).map fun o => .emptyTag (txt "source") [((none, txt "srcset"), srcset o.2)]) ++
        [.emptyTag (txt "img") ([((none, txt "width"), showInt c.width), ((none, txt "height"), showInt c.height),
            ((none, txt "src"), txt "/" ++ p.relpath), ((none, txt "srcset"), srcset ps)] ++
            if c.lazy then [((none, txt "loading"), txt "lazy")] else []),
          .endTag (txt "picture")])

/-- images/manip.py:59-115 -/
def imageCont (env : Env E J) (s : St) (t : HTok) : Except (PErr E) (Option (List HTok) × St) :=
  match command env t with
  | .error e => .error (.image e)
  | .ok none => .error (.html .asserted)
  | .ok (some c) =>
    match env.exportImage s.fs c with
    | .error e => .error (.image e)
    | .ok (outputs, r, fs) =>
      match picture env.defaultFormat c outputs with
      | .error e => .error e
      | .ok res => .ok (some res, { s with fs := fs, imgBuilt := addBuilt s.imgBuilt r })

def images (env : Env E J) : Manip St HTok (PErr E) := ⟨imageStart env, imageCont env⟩

/-! ## outline.py -/

/-- outline.py:206-214: whether the token begins something to outline, and its attributes. -/
def outlined : HTok → Option (Kind × Attrs)
  | .startTag name attrs =>
    if name = txt "script" ∧ item attrs (none, txt "src") = none then some (.script, attrs)
    else if name = txt "style" then some (.style, attrs)
    else none
  | _ => none

/-- outline.py:50-54: the page without extension and without src/public/ -/
def genName (rel : Text) : Text :=
  let p := Css.Data.root rel
  if (txt "src/public").isPrefixOf p then p.drop ((txt "src/public").length + 1) else p

/-- outline.py:56-62: below src/public, or below out/www -/
def genFolder (root : Text) (kind : Kind) (rel : Text) : Text :=
  join (join (join root (match kind with | .script => txt "js" | .style => txt "css")) (txt "gen")) (genName rel)

/-- outline.py:85-88, 103-106, 160-173: the file for the element with the number `n` -/
def genFile (root : Text) (kind : Kind) (rel : Text) (n : Nat) : Text :=
  join (genFolder root kind rel) (digits n ++ match kind with | .script => txt ".js" | .style => txt ".css")

/-- outline.py:93-95 -/
def scriptAttrs (attrs : Attrs) : List (Text × Text) := ofList (attrs.map fun p => (p.1.2, p.2))

/-- outline.py:111-113: iterates over the keys of the dictionary as if they were its items: each is a namespace, which is
unpacked, and a name.  Namespaces are None, or longer than two characters. -/
def styleAttrs : Attrs → Except HErr (List (Text × Text))
  | [] => .ok []
  | ((none, _), _) :: _ => .error .typeErr
  | ((some _, _), _) :: _ => .error .value

/-- outline.py:71-75 -/
def outlineStart (s : St) (t : HTok) : Except (PErr E) (Bool × St) := .ok ((outlined t).isSome, s)

/-- outline.py:78-116: the file is created and the attributes are kept.  The folder is made before the first element only
(outline.py:81-84 and 99-102), and removed after each unless something else is in it (outline.py:136-147). -/
def outlineOpen (env : Env E J) (s : St) (t : HTok) : Except (PErr E) (Option (List HTok) × St) :=
  match outlined t with
  | some (.script, attrs) =>
    let p := genFile (txt "src/public") .script env.rel (s.scripts + 1)
    if s.scripts ≠ 0 ∧ env.kept .script = false then .error (.files .notFound)
    else .ok (none, { s with scripts := s.scripts + 1, fs := s.fs.write p [], job := some ⟨.script, p, scriptAttrs attrs, []⟩ })
  | some (.style, attrs) =>
    let p := genFile (txt "src/public") .style env.rel (s.styles + 1)
    if s.styles ≠ 0 ∧ env.kept .style = false then .error (.files .notFound)
    else match styleAttrs attrs with
    | .error e => .error (.html e)
    | .ok a => .ok (none, { s with styles := s.styles + 1, fs := s.fs.write p [], job := some ⟨.style, p, a, []⟩ })
  | none => .error (.html .value)

/-- outline.py:180-195: the tokens which replace the element. -/
def outlineTags (j : Job) (url : Text) : List HTok :=
  let a := match j.kind with
    | .script => put j.attrs (txt "src") url
    | .style => put (put j.attrs (txt "href") url) (txt "rel") (txt "stylesheet")
  let data : Attrs := ofList ((sortKeys (keys a)).map fun k => ((none, k), (item a k).getD []))
  match j.kind with
  | .script => [.startTag (txt "script") data, .endTag (txt "script")]
  | .style => [.emptyTag (txt "link") data]

def Env.handler (env : Env E J) : Kind → Handler E
  | .script => env.js
  | .style => env.css

/-- The number of elements of the kind so far. -/
def St.count (s : St) : Kind → Nat
  | .script => s.scripts
  | .style => s.styles

/-- outline.py:118-200: at the end tag.  The text is written when the file is closed, nothing reads it before.  Folders which
have become empty are removed (136-147). -/
def outlineClose (env : Env E J) (s : St) (j : Job) : Except (PErr E) (Option (List HTok) × St) :=
  let fs := s.fs.write j.path (env.encode j.text)
  let url := j.path.drop (txt "src/public").length
  if env.scan then
    match (env.handler j.kind).scan fs j.path with
    | .error e => .error (.handler e)
    | .ok r => .ok (some (outlineTags j (url ++ txt "?v=tmp&pv=1")), { s with fs := remove fs j.path, job := none, outScan := addScan s.outScan r })
  else
    match (env.handler j.kind).build fs j.path with
    | .error e => .error (.handler e)
    | .ok (r, fs) =>
      match fs j.path with
      | none => .error (.files .notFound)
      | some _ =>
        match remove fs j.path (genFile (txt "out/www") j.kind env.rel (s.count j.kind) ++ txt ".hash") with
        | none => .error (.files .notFound)
        | some h => .ok (some (outlineTags j (url ++ txt "?" ++ cacheQuery env.enc (env.decode h))),
            { s with fs := remove fs j.path, job := none, outBuilt := addBuilt s.outBuilt r })

/-- outline.py:77-204 -/
def outlineCont (env : Env E J) (s : St) (t : HTok) : Except (PErr E) (Option (List HTok) × St) :=
  match s.job with
  | none => outlineOpen env s t
  | some j =>
    match t with
    | .endTag _ => outlineClose env s j
    | .characters d => .ok (none, { s with job := some { j with text := j.text ++ d } })
    | .spaces d => .ok (none, { s with job := some { j with text := j.text ++ d } })
    | _ => .error (.html .asserted)

def outline (env : Env E J) : Manip St HTok (PErr E) := ⟨outlineStart, outlineCont env⟩

/-! ## The page -/

/-- html.py:25-50 -/
def manips (env : Env E J) : List (Manip St HTok (PErr E)) := [canon env, links env, images env, outline env, templates env]

/-- html/manipulate_and_serialize.py:22-35: all tokens, then the output. -/
def allTokens (ts : List HTok) : List (Op HTok) := ts.map .token ++ [.consume]

/-- html.py:57-79; template.py:263-275 raises if the stack is not empty. -/
def scanFile (fuel : Nat) (env : Env E J) (fs : Fs) : Option (Except (PErr E) (Scan × Fs)) :=
  match copyTarget env.rel with
  | none => some (.ok (⟨[], []⟩, fs))
  | some _ =>
    match fs env.rel with
    | none => some (.error (.files .notFound))
    | some b =>
      match env.parse b with
      | none => some (.error (.html .value))
      | some ts =>
        (runOps (manips env) fuel (State.new (St.new fs env.rel)) [] (ts.map .token)).map fun
          | .error e => .error e
          | .ok (_, b) =>
            match tplResult b.st.tpl with
            | .error e => .error (.html e)
            | .ok deps => .ok ([copyScan env.rel, hashScan env.rel, ⟨b.st.links, []⟩, b.st.imgScan, b.st.outScan, ⟨deps, []⟩].foldl addScan ⟨[], []⟩,
                b.st.fs)

/-- html.py:87-118 -/
def buildFile (fuel : Nat) (env : Env E J) (fs : Fs) : Option (Except (PErr E) (Built × Fs)) :=
  match copyTarget env.rel with
  | none => some (.ok (⟨[], [], []⟩, fs))
  | some target =>
    match fs env.rel with
    | none => some (.error (.files .notFound))
    | some b =>
      match env.parse b with
      | none => some (.error (.html .value))
      | some ts =>
        (runOps (manips env) fuel (State.new (St.new fs env.rel)) [] (allTokens ts)).map fun
          | .error e => .error e
          | .ok (out, b) =>
            match hashBuild env.digest target (b.st.fs.write target (env.write out)) with
            | .error e => .error (.files e)
            | .ok (h, fs) =>
              match tplResult b.st.tpl with
              | .error e => .error (.html e)
              | .ok deps => .ok ([h, ⟨b.st.links, [], []⟩, b.st.imgBuilt, b.st.outBuilt, ⟨deps, [], []⟩].foldl merge ⟨[], [target], []⟩, fs)

end Verif.Html.Page
