import Verif.Html

/-!
Model of `vanillaplusjs/build/html/manips/template.py`.

`json.loads`, `json.dumps`, the whitespace of `re` and the tokens of a file (`tokenize(f, fragment=True)`) are
parameters.
-/

namespace Verif.Html

open Verif.Reader (Text txt)
open Verif.Build (Manip)
open Verif.Assoc (item put ofList keys)
open Verif.Paths (join)

/-- A parsed JSON value; a number is given by its `str`. -/
inductive Json where
  | null
  | bool (b : Bool)
  | num (shown : Text)
  | str (s : Text)
  | arr (l : List Json)
  | obj (items : List (Text × Json))

structure TplEnv where
  space : Nat → Bool
  /-- `none` for JSONDecodeError -/
  loads : Text → Option Json
  dumps : Json → Text
  folder : Text
  /-- the tokens of a file, `none` if it cannot be opened -/
  files : Text → Option (List HTok)

/-- template.py:278-290. -/
structure Frame where
  relpath : Text
  vars : List (Text × Json)

/-- template.py:54-64: `dependencies` or `children`, in the order in which they are added; the stack, its top first;
the current frame. -/
structure TplSt where
  deps : List Text
  stack : List Frame
  cur : Frame

/-- template.py:14-20: the arguments in a comment, `^\s*\[\s*KEYWORD\s*:\s+(?P<args>.*)\]\s*$`.  `\s+` takes all
whitespace there is, `.*` ends before the last bracket and, unless `dotall`, has no newline. -/
def bracketArgs (space : Nat → Bool) (kw : Text) (dotall : Bool) (comment : Text) : Option Text :=
  match comment.dropWhile space with
  | 91 :: s1 =>
    let s2 := s1.dropWhile space
    if kw.isPrefixOf s2 then
      match (s2.drop kw.length).dropWhile space with
      | 58 :: s3 =>
        if s3.takeWhile space = [] then none
        else
          match (s3.dropWhile space).reverse.dropWhile space with
          | 93 :: a => if !dotall && a.contains 10 then none else some a.reverse
          | _ => none
      | _ => none
    else none
  | _ => none

/-- template.py:236-261; the result is the list, whose first element is a string. -/
def tryCommand (env : TplEnv) (kw : Text) (dotall : Bool) (t : HTok) : Option (List Json) :=
  match t with
  | .comment data =>
    match bracketArgs env.space kw dotall data with
    | none => none
    | some args =>
      match env.loads args with
      | some (.arr (.str s :: l)) => some (.str s :: l)
      | _ => none
  | _ => none

def stackArgs (env : TplEnv) (t : HTok) : Option (List Json) := tryCommand env (txt "STACK") false t
def templateArgs (env : TplEnv) (t : HTok) : Option (List Json) := tryCommand env (txt "TEMPLATE") true t

/-- template.py:66-75. -/
def tplStart (env : TplEnv) (s : TplSt) (t : HTok) : Except HErr (Bool × TplSt) :=
  .ok ((stackArgs env t).isSome || (templateArgs env t).isSome, s)

/-- template.py:119-122: `str(value)` for the types in the assertion (a bool is an int). -/
def Json.shown : Json → Option Text
  | .str s => some s
  | .num s => some s
  | .bool true => some (txt "True")
  | .bool false => some (txt "False")
  | _ => none

/-- template.py:88-123, 157-189.  The empty key of a retrieve is falsy at 98. -/
def stackCommand (s : TplSt) (l : List Json) : Except HErr (List HTok × TplSt) :=
  match l with
  | .str op :: rest =>
    match op == txt "push", rest with
    | true, .str p :: _ => .ok ([], { s with stack := s.cur :: s.stack, cur := ⟨p, []⟩ })
    | _, _ =>
      if op = txt "pop" then
        match s.stack with
        | [] => .error .asserted
        | f :: stack => .ok ([], { s with stack := stack, cur := f })
      else if op = txt "define" then
        match rest with
        | [.str k, v] => .ok ([], { s with cur := { s.cur with vars := put s.cur.vars k v } })
        | _ => .ok ([], s)
      else if op = txt "retrieve" then
        match rest with
        | [.str k] =>
          if k = [] then .ok ([], s)
          else match item s.cur.vars k with
            | none => .error .asserted
            | some v => match v.shown with
              | none => .error .asserted
              | some text => .ok ([.characters text], s)
        | _ => .ok ([], s)
      else .ok ([], s)
  | _ => .ok ([], s)

/-- template.py:219-230: a variable of the current frame as an argument. -/
def substVar (vars : List (Text × Json)) (v : Json) : Json :=
  match v with
  | .obj o =>
    match item o (txt "type"), item o (txt "name") with
    | some (.str ty), some (.str n) =>
      if ty = txt "variable" then (item vars n).getD v else v
    | _, _ => v
  | v => v

/-- template.py:207-217. -/
def templatePath (cur path : Text) : Text :=
  if path.head? = some 47 then join (join (txt "src") (txt "partials")) (path.drop 1) else join cur path

/-- template.py:191-234. -/
def templateImport (cur : Frame) (l : List Json) : Option (Text × List (Text × Json)) :=
  match l with
  | .str path :: rest =>
    match rest with
    | [] => some (templatePath cur.relpath path, [])
    | .obj o :: _ => some (templatePath cur.relpath path, o.map fun p => (p.1, substVar cur.vars p.2))
    | _ => none
  | _ => none

/-- The comment for a stack command (template.py:138-148, 152-154). -/
def stackComment (env : TplEnv) (l : List Json) : HTok := .comment (txt "[STACK: " ++ env.dumps (.arr l) ++ txt "]")

/-- template.py:125-155. -/
def templateCommand (env : TplEnv) (s : TplSt) (l : List Json) : Except HErr (List HTok × TplSt) :=
  match templateImport s.cur l with
  | none => .ok ([], s)
  | some (rel, vars) =>
    match env.files (join env.folder rel) with
    | none => .error (.notFound (join env.folder rel))
    | some body =>
      .ok (stackComment env [.str (txt "push"), .str rel] ::
        (vars.map fun p => stackComment env [.str (txt "define"), .str p.1, p.2]) ++ body ++
        [stackComment env [.str (txt "pop")]], { s with deps := s.deps ++ [rel] })

/-- template.py:77-86. -/
def tplCont (env : TplEnv) (s : TplSt) (t : HTok) : Except HErr (Option (List HTok) × TplSt) :=
  match stackArgs env t with
  | some l => (stackCommand s l).map fun p => (some p.1, p.2)
  | none =>
    match templateArgs env t with
    | some l => (templateCommand env s l).map fun p => (some p.1, p.2)
    | none => .ok (some [], s)

def template (env : TplEnv) : Manip TplSt HTok HErr := { start := tplStart env, cont := tplCont env }

/-- template.py:263-275: the result, unless the stack is not empty. -/
def tplResult (s : TplSt) : Except HErr (List Text) := if s.stack = [] then .ok s.deps else .error .asserted

end Verif.Html
