import Verif.ImgFit
import Verif.Paths

/-!
Model of `vanillaplusjs/build/html/manips/images/command.py` and of `_get_command` in
`vanillaplusjs/build/html/manips/images/manip.py`.

`str.isspace`, `int(str)` and `json.loads` are parameters: the latter two give `none` where Python raises.
-/

namespace Verif.Img

open Verif.Reader Verif.Paths

/-- What Python knows: whitespace, integers and JSON objects. -/
structure Py (J : Type) where
  space : ℕ → Bool
  int : Text → Option ℤ
  json : Text → Option J
  /-- `dict()` -/
  empty : J

/-- command.py:14-45. -/
structure Command (J : Type) where
  path : Text
  width : ℤ
  height : ℤ
  cropStyle : Text
  cropArgs : J
  lazy : Bool
  deriving DecidableEq, Repr

/-- `str.split(maxsplit=n)`: words separated by whitespace; after `n` words the rest is one item, with what
whitespace there is at its end. -/
def splitMax (space : ℕ → Bool) : ℕ → Text → List Text
  | 0, s => if s.dropWhile space = [] then [] else [s.dropWhile space]
  | n + 1, s =>
    if s.dropWhile space = [] then []
    else (s.dropWhile space).takeWhile (fun c => !space c) ::
      splitMax space n ((s.dropWhile space).dropWhile (fun c => !space c))

/-- command.py:131-150: the crop arguments up to the first closing bracket, and the rest; `none` is the ValueError
of 134 or 142. -/
def cutObject (s : Text) : Option (Text × Text) :=
  match s with
  | 123 :: cs =>
    match cs.dropWhile (· ≠ 125) with
    | [] => none
    | _ :: rest => some (123 :: cs.takeWhile (· ≠ 125) ++ [125], rest)
  | _ => none

/-- command.py:129-163: crop arguments and `lazy`, from the fifth item.  If the rest does not begin with a blank it is
ignored (151), otherwise it is compared together with that blank (163). -/
def parseCrop {J : Type} (py : Py J) (item : Text) : Except Err (J × Bool) :=
  match cutObject item with
  | none => .error .valueError
  | some (obj, rest) =>
    match py.json obj with
    | none => .error .valueError
    | some j => .ok (j, if rest.head? = some 32 then decide (rest = txt "lazy") else true)

/-- command.py:66-172; every failure is a ValueError. -/
def parseCommand {J : Type} (py : Py J) (args : Text) : Except Err (Command J) :=
  match splitMax py.space 4 args with
  | path :: w :: h :: more =>
    match py.int w, py.int h with
    | some width, some height =>
      match more with
      | [] => .ok ⟨path, width, height, txt "cover", py.empty, true⟩
      | style :: items =>
        if style ≠ txt "cover" then .error .valueError
        else match items with
          | [] => .ok ⟨path, width, height, style, py.empty, true⟩
          | item :: _ =>
            match parseCrop py item with
            | .error e => .error e
            | .ok (j, lazy) => .ok ⟨path, width, height, style, j, lazy⟩
    | _, _ => .error .valueError
  | _ => .error .valueError

/-- manip.py:21, 123-127: the arguments in a comment, `^\s*\[\s*IMAGE\s*:\s+(?P<args>.*)\]\s*$`.  The first `\s+`
takes all whitespace there is (`.*` may be empty), `.*` ends before the last bracket, and has no newline. -/
def imageArgs (space : ℕ → Bool) (comment : Text) : Option Text :=
  match comment.dropWhile space with
  | 91 :: s1 =>
    let s2 := s1.dropWhile space
    if (txt "IMAGE").isPrefixOf s2 then
      match (s2.drop 5).dropWhile space with
      | 58 :: s3 =>
        if s3.takeWhile space = [] then none
        else
          let r := (s3.dropWhile space).reverse
          match r.dropWhile space with
          | 93 :: a => if a.contains 10 then none else some a.reverse
          | _ => none
      | _ => none
    else none
  | _ => none

/-- command.py:47-63; `cwd` is the current folder, `file` the path of the document. -/
def sourcePath {J : Type} (cwd folder file : Text) (c : Command J) : Text :=
  if isAbs c.path then join (join (txt "src") (txt "public")) (c.path.drop 1)
  else relpath cwd (abspath cwd (join (dirname file) c.path)) folder

/-- command.py:175-196; `image` gives width and height of an image, `none` if there is none or it cannot be
identified. -/
def validate {J : Type} (image : Text → Option (ℤ × ℤ)) (cwd folder file : Text) (c : Command J) : Bool :=
  let p := sourcePath cwd folder file c
  (join (txt "src") (txt "public")).isPrefixOf p &&
    match image (join folder p) with
    | none => false
    | some (w, h) => decide (c.width ≤ w) && decide (c.height ≤ h)

/-- manip.py:117-137 for a comment; other tokens have no command. -/
def getCommand {J : Type} (py : Py J) (image : Text → Option (ℤ × ℤ)) (cwd folder relpath comment : Text) :
    Except Err (Option (Command J)) :=
  match imageArgs py.space comment with
  | none => .ok none
  | some args =>
    match parseCommand py args with
    | .error e => .error e
    | .ok c => .ok (if validate image cwd folder (join folder relpath) c then some c else none)

end Verif.Img
