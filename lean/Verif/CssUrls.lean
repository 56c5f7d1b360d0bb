import Verif.CssTok
import Verif.Builder
import Verif.Handlers
import Verif.IconCmd

/-!
# URLs in stylesheets

Model of vanillaplusjs/build/css/manips/version_urls.py.  Paths are those of Unix, so that `url[1:].replace("/", os.path.sep)`
is `url[1:]`.
-/

namespace Verif.Css.Urls

open Verif.Reader (Text txt)
open Verif.Css (Tok)
open Verif.Paths (join)
open Verif.Handlers (Bytes Fs)
open Verif.Icons (add)

/-- What the manipulator is given. -/
structure Env where
  /-- `self.relpath` -/
  self : Text
  /-- `str.lower` -/
  lower : Text → Text
  /-- `urlencode({"v": hash_value, "pv": PROCESSOR_VERSION})` for the bytes of a hash file -/
  query : Bytes → Text

inductive Err where
  /-- FileNotFoundError of `open` at 107-110 -/
  | notFound
  /-- an AttributeError or KeyError: a token without a value in `continue_mark` -/
  | value
deriving DecidableEq, Repr

/-- version_urls.py:32-46; the files of the project are part of the state. -/
structure St where
  fs : Fs
  dependencies : List Text
  children : List Text
  inUrl : Bool

/-- version_urls.py:80-99: the file with the hash. -/
def hashOf (env : Env) (url : Text) : Option Text :=
  match url with
  | [] => none
  | c :: rest =>
    if c ≠ 47 then none
    else if 63 ∈ url then none
    else if join (join (txt "src") (txt "public")) rest = env.self then none
    else some (join (join (txt "out") (txt "www")) (rest ++ txt ".hash"))

/-- version_urls.py:48-78; `scan` is `self.mode == "scan"`. -/
def start (scan : Bool) (env : Env) (st : St) (t : Tok) : Except Err (Bool × St) :=
  if st.inUrl then
    match t with
    | .rightParens => .ok (false, { st with inUrl := false })
    | .str v =>
      match hashOf env v with
      | some h => if scan then .ok (false, { st with dependencies := add st.dependencies h }) else .ok (true, st)
      | none => .ok (false, st)
    | _ => .ok (false, st)
  else
    match t with
    | .url v =>
      match hashOf env v with
      | some h => if scan then .ok (false, { st with dependencies := add st.dependencies h }) else .ok (true, st)
      | none => .ok (false, st)
    | .function v => if env.lower v = txt "url" then .ok (false, { st with inUrl := true }) else .ok (false, st)
    | _ => .ok (false, st)

/-- version_urls.py:102-113: the value with the suffix. -/
def suffixed (env : Env) (st : St) (v : Text) : Except Err (Text × St) :=
  match hashOf env v with
  | none => .ok (v, st)
  | some h =>
    match st.fs h with
    | none => .error .notFound
    | some b => .ok (v ++ txt "?" ++ env.query b, { st with children := add st.children h })

/-- version_urls.py:101-117 -/
def cont (env : Env) (st : St) (t : Tok) : Except Err (Option (List Tok) × St) :=
  match t with
  | .str v =>
    match suffixed env st v with
    | .error e => .error e
    | .ok (w, st) => .ok (some [.str w], st)
  | .url v =>
    match suffixed env st v with
    | .error e => .error e
    | .ok (w, st) => .ok (some [.url w], st)
  | _ => .error .value

/-- version_urls.py:26-129 -/
def versionUrls (scan : Bool) (env : Env) : Build.Manip St Tok Err where
  start := start scan env
  cont := cont env

end Verif.Css.Urls
