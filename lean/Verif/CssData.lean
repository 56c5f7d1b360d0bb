import Verif.CssTok
import Verif.Builder
import Verif.Handlers
import Verif.IconCmd

/-!
# Images in stylesheets

Model of vanillaplusjs/build/css/manips/outline_image_data.py.  Paths are those of Unix.
-/

namespace Verif.Css.Data

open Verif.Reader (Text txt)
open Verif.Css (Tok)
open Verif.Assoc
open Verif.Paths (join basename)
open Verif.Handlers (Bytes Fs hashScan hashBuild srcPublic)
open Verif.Icons (add addAll)

/-- The exceptions are those of the handlers. -/
abbrev DErr := Handlers.Err

/-- What the manipulator is given. -/
structure Env where
  /-- `self.relpath` -/
  self : Text
  /-- `os.path.lexists` of a path which is not prefixed with the folder of the project, for the files of the project -/
  lexists : Fs → Text → Bool
  /-- `unquote`, written to a file -/
  unquoted : Text → Bytes
  /-- the text of the sha256 -/
  digest : Bytes → Bytes
  /-- `urlencode({"v": hash_value, "pv": PROCESSOR_VERSION})` for the bytes of a hash file -/
  query : Bytes → Text

/-- outline_image_data.py:46 -/
inductive Stage where
  | url
  | string
deriving DecidableEq, Repr

/-- outline_image_data.py:28-55; the files of the project are part of the state. -/
structure St where
  fs : Fs
  dependencies : List Text
  produces : List Text
  children : List Text
  produced : List Text
  reused : List Text
  byData : List (Text × Text)
  counter : Nat
  skip : Bool
  stage : Option Stage
  stack : List Tok

/-- `os.path.splitext(p)[0]` -/
def root (p : Text) : Text :=
  let base := basename p
  let tail := base.reverse.takeWhile (· != 46)
  let stem := base.take (base.length - tail.length - 1)
  if 46 ∈ base ∧ stem.any (· != 46) then p.take (p.length - tail.length - 1) else p

/-- outline_image_data.py:49-55 -/
def folder (env : Env) : Text :=
  let p := root env.self
  join (txt "out/www/img/gen") (if srcPublic.isPrefixOf p then p.drop (srcPublic.length + 1) else p)

/-- outline_image_data.py:16-18, 92-101: the type and the data.  The type ends at the first of `;` and `,`. -/
def dataOf (v : Text) : Option (Text × Text) :=
  if (txt "data:image/").isPrefixOf v then
    let r := v.drop (txt "data:image/").length
    let type := r.takeWhile fun c => c != 59 && c != 44
    match r.drop type.length with
    | [] => none
    | _ :: data => if type = [] ∨ data = [] ∨ 34 ∈ data then none else some (type, data)
  else none

/-- outline_image_data.py:85-98 -/
def tokData (t : Tok) : Option (Text × Text) :=
  match t with
  | .str v => dataOf v
  | _ => none

/-- outline_image_data.py:57-67 -/
def start (st : St) (t : Tok) : Except DErr (Bool × St) :=
  match t with
  | .function v =>
    if v ≠ txt "url" then .ok (false, st)
    else if st.skip then .ok (false, { st with skip := false })
    else .ok (true, { st with stage := some .url, stack := [] })
  | _ => .ok (false, st)

/-- outline_image_data.py:100-110: the path of the image, and whether it is new. -/
def allot (env : Env) (st : St) (type data : Text) : Text × Bool × St :=
  match item st.byData data with
  | some p => (p, false, st)
  | none =>
    let n := st.counter + 1
    let p := join (folder env) (txt (toString n) ++ txt "." ++ type.takeWhile (· != 43))
    (p, true, { st with counter := n, byData := put st.byData data p })

/-- outline_image_data.py:125-131 -/
def announce (isNew : Bool) (p : Text) (st : St) : St :=
  if isNew then
    { st with
      dependencies := addAll st.dependencies (hashScan p).dependencies
      produces := addAll (add st.produces p) (hashScan p).produces }
  else st

/-- outline_image_data.py:134-141 -/
def store (env : Env) (p data : Text) (st : St) : St :=
  if env.lexists st.fs p then { st with reused := add st.reused p }
  else { st with produced := add st.produced p, fs := st.fs.write p (env.unquoted data) }

/-- outline_image_data.py:133-149 -/
def make (env : Env) (isNew : Bool) (p data : Text) (st : St) : Except DErr (Bytes × St) :=
  let made : Except DErr St :=
    if isNew then
      let st := store env p data st
      match hashBuild env.digest p st.fs with
      | .error e => .error e
      | .ok (r, fs) => .ok { st with
          fs := fs
          children := addAll st.children r.children
          produced := addAll st.produced r.produced
          reused := addAll st.reused r.reused }
    else .ok st
  match made with
  | .error e => .error e
  | .ok st =>
    match st.fs (p ++ txt ".hash") with
    | none => .error .notFound
    | some b => .ok (b, st)

/-- outline_image_data.py:69-155; `scan` is `self.mode == "scan"`. -/
def cont (scan : Bool) (env : Env) (st : St) (t : Tok) : Except DErr (Option (List Tok) × St) :=
  let stack := st.stack ++ [t]
  match st.stage with
  | none => .error .asserted
  | some .url =>
    if t = .function (txt "url") then .ok (none, { st with stage := some .string, stack := stack })
    else .error .asserted
  | some .string =>
    let st := { st with skip := true, stage := none, stack := [] }
    match tokData t with
    | none => .ok (some stack, st)
    | some (type, data) =>
      let a := allot env st type data
      let url := a.1.drop (txt "out/www").length
      if scan then .ok (some (stack.take 1 ++ [.str url]), announce a.2.1 a.1 a.2.2)
      else
        match make env a.2.1 a.1 data a.2.2 with
        | .error e => .error e
        | .ok (b, st) => .ok (some (stack.take 1 ++ [.str (url ++ txt "?" ++ env.query b)]), st)

/-- outline_image_data.py:22-170 -/
def outlineData (scan : Bool) (env : Env) : Build.Manip St Tok DErr where
  start := start
  cont := cont scan env

end Verif.Css.Data
