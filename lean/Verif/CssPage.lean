import Verif.BuilderThm
import Verif.Nest
import Verif.CssUrls
import Verif.CssData
import Verif.Handlers

/-!
# Stylesheets

Model of vanillaplusjs/build/handlers/css.py, with all its manipulators.
-/

namespace Verif.Css.Page

open Verif.Reader (Text txt)
open Verif.Css (Uni Tok tokenize serializeMany)
open Verif.Build
open Verif.Handlers (Bytes Fs Scan Built copyScan hashScan copyTarget hashBuild)
open Verif.Icons (addAll)

/-- What the manipulators are given (css.py:47 and 75).  The tokens of other files in `nest` are those at the beginning of the
build. -/
structure Env where
  nest : Nest.Env
  icon : Icons.Env
  data : Data.Env
  urls : Urls.Env
  /-- the text of a file, and back -/
  decode : Bytes → Text
  encode : Text → Bytes

/-- An exception of one of the parts. -/
inductive Err where
  | nest (e : Nest.Err)
  | icon (e : Icons.MErr)
  | data (e : Handlers.Err)
  | urls (e : Urls.Err)
  | tokens (e : Css.Err)
  | files (e : Handlers.Err)

/-- The states of the manipulators.  There is one file system: `fs`; the copies of it in the parts are not used. -/
structure St where
  fs : Fs
  nest : Nest.St
  /-- the dependencies of the import commands, when scanning -/
  imports : List Text
  icon : Icons.St
  data : Data.St
  urls : Urls.St

/-- icons/manip.py:36-56, outline_image_data.py:28-55, version_urls.py:32-46 and nest.py:297-324: the new manipulators. -/
def St.new (fs : Fs) : St where
  fs := fs
  nest := .new
  imports := []
  icon := ⟨fs, [], [], [], [], []⟩
  data := ⟨fs, [], [], [], [], [], [], 0, false, none, []⟩
  urls := ⟨fs, [], [], false⟩

/-- A manipulator as a part of all. -/
def part {A E : Type} (look : St → A) (store : St → A → St) (err : E → Err) (m : Manip A Tok E) : Manip St Tok Err where
  start s t := match m.start (look s) t with
    | .error e => .error (err e)
    | .ok (b, a) => .ok (b, store s a)
  cont s t := match m.cont (look s) t with
    | .error e => .error (err e)
    | .ok (r, a) => .ok (r, store s a)

/-- nest.py:222-627 when scanning -/
def importScan (env : Nest.Env) : Manip (List Text) Tok Nest.Err where
  start ds t := .ok (false, Nest.scan env ds t)
  cont _ _ := .error .assertion

def icons (scan : Bool) (env : Env) : Manip St Tok Err :=
  part (fun s => { s.icon with fs := s.fs }) (fun s a => { s with fs := a.fs, icon := a }) .icon
    (if scan then Icons.iconsScan env.icon else Icons.icons env.icon)

def data (scan : Bool) (env : Env) : Manip St Tok Err :=
  part (fun s => { s.data with fs := s.fs }) (fun s a => { s with fs := a.fs, data := a }) .data (Data.outlineData scan env.data)

def urls (scan : Bool) (env : Env) : Manip St Tok Err :=
  part (fun s => { s.urls with fs := s.fs }) (fun s a => { s with fs := a.fs, urls := a }) .urls (Urls.versionUrls scan env.urls)

def imports (n : Nat) (env : Env) : Manip St Tok Err :=
  part (·.nest) (fun s a => { s with nest := a }) .nest (Nest.nest env.nest n)

/-- css.py:24-29 and 75; `n` bounds the loops which resolve the imports. -/
def buildManips (n : Nat) (env : Env) : List (Manip St Tok Err) := [imports n env, icons false env, data false env, urls false env]

/-- css.py:24-29 and 47 -/
def scanManips (env : Env) : List (Manip St Tok Err) :=
  [part (·.imports) (fun s a => { s with imports := a }) .nest (importScan env.nest), icons true env, data true env, urls true env]

/-- css/manipulate_and_serialize.py:34-37: the tokens one after the other, the output being collected after each. -/
def perToken (ts : List Tok) : List (Op Tok) := ts.flatMap fun t => [.token t, .consume]

/-- css.py:52-62: the results together. -/
def scanResult (rel : Text) (s : St) : Scan where
  dependencies := [(copyScan rel).dependencies, (hashScan rel).dependencies, s.imports, s.icon.dependencies, s.data.dependencies,
    s.urls.dependencies].foldl addAll []
  produces := [(copyScan rel).produces, (hashScan rel).produces, s.icon.produces, s.data.produces].foldl addAll []

/-- css.py:40-62 for a file `.css`.  `none`: the fuel does not suffice. -/
def scanFile (fuel : Nat) (env : Env) (rel : Text) (fs : Fs) : Option (Except Err Scan) :=
  match fs rel with
  | none => some (.error (.files .notFound))
  | some b =>
    match tokenize env.nest.uni (env.decode b) with
    | .error e => some (.error (.tokens e))
    | .ok ts =>
      (runOps (scanManips env) fuel (State.new (St.new fs)) [] (perToken ts)).map fun
        | .error e => .error e
        | .ok (_, b) => .ok (scanResult rel b.st)

/-- css.py:90-95: what is reused, and not among what has been produced so far. -/
def merge (r : Built) (x : Built) : Built where
  children := addAll r.children x.children
  produced := addAll r.produced x.produced
  reused := addAll r.reused (x.reused.filter fun p => !(addAll r.produced x.produced).contains p)

/-- css.py:85-99 -/
def buildResult (target : Text) (h : Built) (s : St) : Built :=
  [h, ⟨s.nest.children, [], []⟩, ⟨s.icon.children, s.icon.produced, s.icon.reused⟩,
    ⟨s.data.children, s.data.produced, s.data.reused⟩, ⟨s.urls.children, [], []⟩].foldl merge ⟨[], [target], []⟩

/-- css.py:65-99 for a file `.css`.  The output is written at the end (manipulate_and_serialize.py writes while it reads; no
manipulator reads the output). -/
def buildFile (fuel n : Nat) (env : Env) (rel : Text) (fs : Fs) : Option (Except Err (Built × Fs)) :=
  match copyTarget rel with
  | none => some (.error (.files .typeError))
  | some target =>
    match fs rel with
    | none => some (.error (.files .notFound))
    | some b =>
      match tokenize env.nest.uni (env.decode b) with
      | .error e => some (.error (.tokens e))
      | .ok ts =>
        (runOps (buildManips n env) fuel (State.new (St.new fs)) [] (perToken ts)).map fun
          | .error e => .error e
          | .ok (out, b) =>
            match hashBuild env.data.digest target (b.st.fs.write target (env.encode (serializeMany env.nest.uni out))) with
            | .error e => .error (.files e)
            | .ok (h, fs) => .ok (buildResult target h b.st, fs)

end Verif.Css.Page
