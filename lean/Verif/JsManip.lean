import Verif.Builder
import Verif.JsTok
/-!
# The JavaScript manipulators

Model of vanillaplusjs/build/js/yield_manipulator.py:43-122, js/manips/hash_imports.py:12-207,
js/manips/type_hints.py:18-56 and of handlers/js.py:20-23.

A generator is modelled by the positions at which it is suspended.
-/
namespace Verif.Js
open Verif.Reader (Text txt)
open Verif.Build (Manip)

/-- How the body of `handle` goes on to its next suspension or to its end: it gives `False`, gives a list of
tokens, or yields at the position `g`. -/
inductive Act (G τ : Type) where
  | pass
  | replace (l : List τ)
  | yield (g : G)

/-- A generator: `handle` runs from the call to the first suspension, `resume` from one suspension to the
next.  `P` are the attributes of the object.  `resume` is given `self.stack`, which ends with the token sent. -/
structure YManip (P G τ E : Type) where
  handle : P → τ → Except E (P × Act G τ)
  resume : P → G → List τ → Except E (P × Act G τ)
  /-- `node["type"] == JSTokenType.eof` -/
  isEof : τ → Bool
  /-- the exceptions of the base class: RuntimeError at 65 and 104, AssertionError at 59 and 85 -/
  yieldedOnEof : E
  asserted : E

/-- yield_manipulator.py:45-56 -/
inductive YSt (G τ : Type) where
  | unmarked
  | replacing (stack : List τ)
  | skipping (stack : List τ) (g : G)
  | marking (stack : List τ) (g : G)

variable {P G τ E : Type}

/-- yield_manipulator.py:58-82 -/
def YManip.start (y : YManip P G τ E) (s : P × YSt G τ) (t : τ) : Except E (Bool × (P × YSt G τ)) :=
  match s.2 with
  | .unmarked =>
    match y.handle s.1 t with
    | .error e => .error e
    | .ok (p, .yield g) => if y.isEof t then .error y.yieldedOnEof else .ok (true, (p, .skipping [t] g))
    | .ok (p, .pass) => .ok (false, (p, .unmarked))
    | .ok (p, .replace l) => .ok (true, (p, .replacing l))
  | _ => .error y.asserted

/-- yield_manipulator.py:84-122 -/
def YManip.cont (y : YManip P G τ E) (s : P × YSt G τ) (t : τ) : Except E (Option (List τ) × (P × YSt G τ)) :=
  match s.2 with
  | .unmarked => .error y.asserted
  | .replacing l => .ok (some l, (s.1, .unmarked))
  | .skipping stack g => .ok (none, (s.1, .marking stack g))
  | .marking stack g =>
    match y.resume s.1 g (stack ++ [t]) with
    | .error e => .error e
    | .ok (p, .yield g') => if y.isEof t then .error y.yieldedOnEof else .ok (none, (p, .marking (stack ++ [t]) g'))
    | .ok (p, .pass) => .ok (some (stack ++ [t]), (p, .unmarked))
    | .ok (p, .replace l) => .ok (some l, (p, .unmarked))

def YManip.toManip (y : YManip P G τ E) : Manip (P × YSt G τ) τ E := { start := y.start, cont := y.cont }

/-! ## hash_imports.py -/

/-- The exceptions.  `notFound` is the FileNotFoundError of hash_imports.py:154. -/
inductive MErr where
  | notFound (path : Text)
  | yieldedOnEof
  | asserted
deriving DecidableEq, Repr

/-- What the manipulator reads: the mode; `resolve s` is, for an import path `s`, `rel_to_root` and the
import path from the root (hash_imports.py:123-139: left open here, computed in `Verif.JsResolve`);
`hash p` are the contents of the hash file belonging to `rel_to_root = p`, or `none` if it is missing
(148-157); `query h` is `urlencode({"v": h, "pv": PROCESSOR_VERSION})` (160); `typeName` is the type of a
token in a formatted string (200). -/
structure HiEnv where
  scan : Bool
  resolve : Text → Text × Text
  hash : Text → Option Text
  query : Text → Text
  typeName : Tok → Text

/-- hash_imports.py:24-27: `deps` are `dependencies` or `children`, in the order in which they are added. -/
structure HiP where
  skip : Bool
  deps : List Text
deriving DecidableEq, Repr

/-- The suspensions of `handle`, by the line of the call of `_skip_types` (hash_imports.py:167-173). -/
inductive Pos where
  | l42 | l48 | l50 | l53 | l59 | l64 | l66 | l69 | l75 | l80 | l83 | l85 | l90 | l103 | l111
deriving DecidableEq, Repr

/-- hash_imports.py:12 -/
def isGap : Tok → Bool
  | .whitespace _ => true
  | .lineTerminator => true
  | _ => false

/-- hash_imports.py:204-207 -/
def isSkipMark : Tok → Bool
  | .comment v => (txt "PREPROCESSOR: ignore-import").isPrefixOf v
  | _ => false

/-- hash_imports.py:196-202 -/
def markBad (env : HiEnv) (stack : List Tok) (hint : Text) : Act Pos Tok :=
  .replace (.comment (txt "PREPROCESSOR: ignore-import " ++ hint ++ txt "; final token: " ++
    env.typeName (stack.getLast?.getD .eof)) :: stack)

/-- hash_imports.py:118-121 -/
def prefixOk (s : Text) : Bool := [txt "/", txt "./", txt "../"].any fun p => p.isPrefixOf s

/-- hash_imports.py:117-165 -/
def handleImport (env : HiEnv) (p : HiP) (stack : List Tok) (s : Text) : Except MErr (HiP × Act Pos Tok) :=
  if !prefixOk s then .ok (p, markBad env stack (txt "unexpected path format"))
  else if (txt "?#").any (fun c => s.contains c) then .ok (p, markBad env stack (txt "path contains invalid characters"))
  else
    let rel := (env.resolve s).1
    if env.scan then .ok ({ skip := true, deps := p.deps ++ [rel] }, .pass)
    else
      match env.hash rel with
      | none => .error (.notFound rel)
      | some h => .ok ({ skip := true, deps := p.deps ++ [rel] },
          .replace (stack.dropLast ++ [.str ((env.resolve s).2 ++ txt "?" ++ env.query h)]))

/-- hash_imports.py:108-110 -/
def expectFrom (env : HiEnv) (stack : List Tok) (t : Tok) : Act Pos Tok :=
  match t with
  | .kwFrom => .yield .l111
  | _ => markBad env stack (txt "expected from")

/-- hash_imports.py:81-82, 100-103: the head of the loop. -/
def curlyHead (env : HiEnv) (stack : List Tok) (t : Tok) : Act Pos Tok :=
  match t with
  | .closeCurly => .yield .l103
  | .identifier _ => .yield .l83
  | _ => markBad env stack (txt "expected named export")

/-- hash_imports.py:42-115: what is done with the first token `t` after the suspension which is no gap. -/
def hiResumeAt (env : HiEnv) (p : HiP) (stack : List Tok) (t : Tok) : Pos → Except MErr (HiP × Act Pos Tok)
  | .l42 =>
    match t with
    | .str s => handleImport env p stack s
    | .identifier _ => .ok (p, .yield .l48)
    | .asterisk => .ok (p, .yield .l64)
    | .openCurly => .ok (p, .yield .l80)
    | _ => .ok (p, markBad env stack (txt "expected next import"))
  | .l48 =>
    match t with
    | .kwAs => .ok (p, .yield .l50)
    | .comma => .ok (p, .yield .l59)
    | _ => .ok (p, expectFrom env stack t)
  | .l50 =>
    match t with
    | .identifier _ => .ok (p, .yield .l53)
    | _ => .ok (p, markBad env stack (txt "expected alias for default export"))
  | .l53 =>
    match t with
    | .comma => .ok (p, .yield .l59)
    | _ => .ok (p, expectFrom env stack t)
  | .l59 =>
    match t with
    | .asterisk => .ok (p, .yield .l64)
    | .openCurly => .ok (p, .yield .l80)
    | _ => .ok (p, markBad env stack (txt "expected next import"))
  | .l64 =>
    match t with
    | .kwAs => .ok (p, .yield .l66)
    | .comma => .ok (p, .yield .l75)
    | _ => .ok (p, expectFrom env stack t)
  | .l66 =>
    match t with
    | .identifier _ => .ok (p, .yield .l69)
    | _ => .ok (p, markBad env stack (txt "expected alias for asterisk"))
  | .l69 =>
    match t with
    | .comma => .ok (p, .yield .l75)
    | _ => .ok (p, expectFrom env stack t)
  | .l75 =>
    match t with
    | .openCurly => .ok (p, .yield .l80)
    | _ => .ok (p, markBad env stack (txt "expected next import"))
  | .l80 => .ok (p, curlyHead env stack t)
  | .l83 =>
    match t with
    | .kwAs => .ok (p, .yield .l85)
    | .comma => .ok (p, .yield .l80)
    | _ => .ok (p, curlyHead env stack t)
  | .l85 =>
    match t with
    | .identifier _ => .ok (p, .yield .l90)
    | _ => .ok (p, markBad env stack (txt "expected alias for named export"))
  | .l90 =>
    match t with
    | .comma => .ok (p, .yield .l80)
    | .closeCurly => .ok (p, curlyHead env stack t)
    | _ => .ok (p, markBad env stack (txt "expected comma or close curly bracket"))
  | .l103 => .ok (p, expectFrom env stack t)
  | .l111 =>
    match t with
    | .str s => handleImport env p stack s
    | _ => .ok (p, markBad env stack (txt "expected string literal after from"))

/-- hash_imports.py:167-173: `_skip_types` around `hiResumeAt`. -/
def hiResume (env : HiEnv) (p : HiP) (g : Pos) (stack : List Tok) : Except MErr (HiP × Act Pos Tok) :=
  let t := stack.getLast?.getD .eof
  if isGap t then .ok (p, .yield g) else hiResumeAt env p stack t g

/-- hash_imports.py:32-42 -/
def hiHandle (p : HiP) (t : Tok) : Except MErr (HiP × Act Pos Tok) :=
  if !p.skip && isSkipMark t then .ok ({ p with skip := true }, .pass)
  else if t ≠ .kwImport then .ok (p, .pass)
  else if p.skip then .ok ({ p with skip := false }, .pass)
  else .ok (p, .yield .l42)

/-- js/token.py: whether the type is EOF. -/
def isEof (t : Tok) : Bool := t == .eof

def hashImports (env : HiEnv) : YManip HiP Pos Tok MErr :=
  { handle := hiHandle, resume := hiResume env, isEof := isEof, yieldedOnEof := .yieldedOnEof, asserted := .asserted }

/-! ## type_hints.py -/

/-- `str.strip` with the whitespace of the given classification. -/
def strip (space : Nat → Bool) (s : Text) : Text := ((s.dropWhile space).reverse.dropWhile space).reverse

/-- The mode and `str.isspace`. -/
structure ThEnv where
  scan : Bool
  space : Nat → Bool

/-- type_hints.py:40-44 -/
def isHint (env : ThEnv) : Tok → Bool
  | .comment v => strip env.space v == txt "@@type-hint"
  | _ => false

/-- type_hints.py:39 -/
def endsLine (t : Tok) : Bool := t == .lineTerminator || t == .eof

/-- type_hints.py:39-56, from the head of the loop with `token = t`; `ex` is `should_exclude_line`, `stack`
is `self.stack`, which ends with `t`. -/
def thLoop (env : ThEnv) (ex : Bool) (stack : List Tok) (t : Tok) : Bool × Act Bool Tok :=
  if !endsLine t then (false, .yield (ex || isHint env t))
  else if !ex then (true, .pass)
  else (false, .replace [.comment (serializeMany stack.dropLast), t])

/-- type_hints.py:31-56; the state is `_skip_next_line`.  Before the first yield `self.stack` is not set, and
not used either: a line which ends at once is not excluded. -/
def thHandle (env : ThEnv) (skip : Bool) (t : Tok) : Except MErr (Bool × Act Bool Tok) :=
  if env.scan then .ok (skip, .pass)
  else if skip then .ok (t ≠ .lineTerminator, .pass)
  else .ok (thLoop env false [t] t)

def thResume (env : ThEnv) (_skip : Bool) (ex : Bool) (stack : List Tok) : Except MErr (Bool × Act Bool Tok) :=
  .ok (thLoop env ex stack (stack.getLast?.getD .eof))

def typeHints (env : ThEnv) : YManip Bool Bool Tok MErr :=
  { handle := thHandle env, resume := thResume env, isEof := isEof, yieldedOnEof := .yieldedOnEof, asserted := .asserted }

/-! ## handlers/js.py -/

/-- A manipulator with the states of two. -/
def onFirst {A B τ E : Type} (m : Manip A τ E) : Manip (A × B) τ E :=
  { start := fun s t => (m.start s.1 t).map fun r => (r.1, (r.2, s.2)),
    cont := fun s t => (m.cont s.1 t).map fun r => (r.1, (r.2, s.2)) }

def onSecond {A B τ E : Type} (m : Manip B τ E) : Manip (A × B) τ E :=
  { start := fun s t => (m.start s.2 t).map fun r => (r.1, (s.1, r.2)),
    cont := fun s t => (m.cont s.2 t).map fun r => (r.1, (s.1, r.2)) }

/-- The states of the two manipulators. -/
abbrev JsSt := (Bool × YSt Bool Tok) × (HiP × YSt Pos Tok)

/-- handlers/js.py:20-23, 41, 69 -/
def jsManips (te : ThEnv) (he : HiEnv) : List (Manip JsSt Tok MErr) :=
  [onFirst (typeHints te).toManip, onSecond (hashImports he).toManip]

/-- The new objects. -/
def jsInit : JsSt := ((false, .unmarked), ({ skip := false, deps := [] }, .unmarked))

end Verif.Js
