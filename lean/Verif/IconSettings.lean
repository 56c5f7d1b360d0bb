import Verif.IconCmd
import Verif.IconNames

/-!
Model of vanillaplusjs/build/css/manips/icons/settings.py.

The stylesheet is given by its tokens: an exception of the tokenizer, and a stylesheet which does not exist, are left out (of
the second, nothing is read).  Values of the configuration which are neither null nor of the type which is expected (`dict`,
`str`) are left out.
-/

namespace Verif.Icons

open Verif.Reader (Text txt)
open Verif.Css (Tok)
open Verif.Js (isHex)
open Verif.Assoc

namespace Load

/-! ## The configuration -/

/-- A value of a JSON object: the key is not there, or its value is null, or something. -/
inductive Field (α : Type) where
  | missing
  | null
  | value (a : α)
deriving DecidableEq, Repr

/-- `d.get(key, default)` -/
def Field.get {α : Type} (f : Field α) (default : α) : Option α :=
  match f with
  | .missing => some default
  | .null => none
  | .value a => some a

/-- The configuration of a button. -/
structure ButtonConfig where
  active : Field Text
  hover : Field Text
  disabled : Field Text
deriving DecidableEq, Repr

/-- `icons` in the configuration. -/
structure IconsConfig where
  default : Field ButtonConfig
  /-- the items of the object, the keys of which are distinct -/
  named : Field (List (Text × ButtonConfig))
deriving DecidableEq, Repr

inductive LErr where
  /-- AttributeError of `None.active_color` -/
  | attribute
deriving DecidableEq, Repr

/-- settings.py:63-70 -/
def builtin : Button := ⟨txt "primary", txt "primary-dark", txt "disabled"⟩

/-- settings.py:79-92, 113-126: the three colors; `none` unless all three are there. -/
def button (c : ButtonConfig) (d : Button) : Option Button :=
  match c.active.get d.active, c.hover.get d.hover, c.disabled.get d.disabled with
  | some a, some h, some x => some ⟨a, h, x⟩
  | _, _, _ => none

/-- settings.py:74-102 -/
def defaultButton (c : Field ButtonConfig) : Option Button :=
  match c.get ⟨.missing, .missing, .missing⟩ with
  | none => none
  | some c => some ((button c builtin).getD builtin)

/-- settings.py:112-138: the buttons in their order. -/
def namedButtons (d : Option Button) : List (Text × ButtonConfig) → List (Text × Button) → Except LErr (List (Text × Button))
  | [], acc => .ok acc
  | (k, c) :: l, acc =>
    match d with
    | none => .error .attribute
    | some b =>
      match button c b with
      | some x => namedButtons d l (put acc k x)
      | none => namedButtons d l acc

/-- settings.py:63-138; `none` if `icons` is missing or null. -/
def buttons (c : Option IconsConfig) : Except LErr Buttons :=
  match c with
  | none => .ok ⟨some builtin, []⟩
  | some c =>
    let d := defaultButton c.default
    match c.named.get [] with
    | none => .ok ⟨d, []⟩
    | some l =>
      match namedButtons d l [] with
      | .error e => .error e
      | .ok n => .ok ⟨d, n⟩

/-! ## Colors -/

/-- settings.py:368-395; `lower` is `str.lower`.  `none` also if `Color.from_hex` raises, which it does not (`interpret_hex`). -/
def interpret (lower : Text → Text) (int16 : Text → Option Int) (ts : List Tok) : Option Color :=
  match ts with
  | [.ident v] => item named (lower v)
  | [.hash v _] =>
    if v.length ≠ 3 ∧ v.length ≠ 6 then none
    else if v.all isHex then
      match fromHex int16 (35 :: v) with
      | .ok c => some c
      | .error _ => none
    else none
  | _ => none

/-! ## The stylesheet -/

/-- Whitespace or a comment. -/
def isGap : Tok → Bool
  | .whitespace _ => true
  | .comment _ => true
  | _ => false

/-- settings.py:147-151 (`next_significant`); `none` for StopIteration. -/
def sig : List Tok → Option (Tok × List Tok)
  | [] => none
  | t :: ts => if isGap t then sig ts else some (t, ts)

/-- settings.py:158-163: what is behind the block; `n` is `nest_level`. -/
def skipBlock : Nat → List Tok → Option (List Tok)
  | 0, ts => some ts
  | _ + 1, [] => none
  | n + 1, .leftCurly :: ts => skipBlock (n + 2) ts
  | n + 1, .rightCurly :: ts => skipBlock n ts
  | n + 1, _ :: ts => skipBlock (n + 1) ts

/-- settings.py:154-179: what is behind the `{` of the first `:root {`, where `t :: ts` are the token and what follows it;
`fuel` bounds the number of rounds, each of which takes a token. -/
def findRoot : Nat → List Tok → Option (List Tok)
  | 0, _ => none
  | _ + 1, [] => none
  | n + 1, .leftCurly :: ts =>
    match skipBlock 1 ts with
    | none => none
    | some ts => findRoot n ts
  | n + 1, .colon :: ts =>
    match sig ts with
    | some (.ident v, ts') =>
      if v = txt "root" then
        match sig ts' with
        | some (.leftCurly, ts'') => some ts''
        | some (u, ts'') => findRoot n (u :: ts'')
        | none => none
      else findRoot n (.ident v :: ts')
    | some (u, ts') => findRoot n (u :: ts')
    | none => none
  | n + 1, _ :: ts =>
    match sig ts with
    | none => none
    | some (u, ts') => findRoot n (u :: ts')

/-- settings.py:195-198: the rest of a function, with its `)`; `fuel` bounds the number of tokens. -/
def args : Nat → List Tok → Option (List Tok × List Tok)
  | 0, _ => none
  | n + 1, ts =>
    match sig ts with
    | none => none
    | some (.rightParens, ts) => some ([.rightParens], ts)
    | some (t, ts) =>
      match args n ts with
      | none => none
      | some (l, ts) => some (t :: l, ts)

/-- settings.py:193-198 -/
def value (ts : List Tok) : Option (List Tok × List Tok) :=
  match sig ts with
  | none => none
  | some (.function f, ts') =>
    match args (ts'.length + 1) ts' with
    | none => none
    | some (l, ts'') => some (.function f :: l, ts'')
  | some (t, ts') => some ([t], ts')

/-- settings.py:182-204: the name and the value of a declaration, and what is behind its semicolon; `none` at the end of the
block, at a parse error and at the end of the tokens. -/
def declaration (ts : List Tok) : Option ((Text × List Tok) × List Tok) :=
  match sig ts with
  | some (.ident n, ts) =>
    match sig ts with
    | some (.colon, ts) =>
      match value ts with
      | none => none
      | some (v, ts) =>
        match sig ts with
        | some (.semicolon, ts) =>
          match sig ts with
          | none => none
          | some _ => some ((n, v), ts)
        | _ => none
    | _ => none
  | _ => none

/-- settings.py:182-204: the declarations in their order. -/
def declarations : Nat → List Tok → List (Text × List Tok)
  | 0, _ => []
  | n + 1, ts =>
    match declaration ts with
    | none => []
    | some (d, ts) => d :: declarations n ts

/-- settings.py:206-211 -/
def record (lower : Text → Text) (int16 : Text → Option Int) (s : List (Text × Color) × List Text) (d : Text × List Tok) :
    List (Text × Color) × List Text :=
  if (txt "--col-").isPrefixOf d.1 then
    match interpret lower int16 d.2 with
    | some c => (put s.1 (d.1.drop 6) c, s.2)
    | none => s
  else if (txt "--icon-size-").isPrefixOf d.1 then (s.1, s.2 ++ [d.1.drop 12])
  else s

/-- settings.py:140-214: the colors and the sizes, which are made distinct at 219. -/
def stylesheet (lower : Text → Text) (int16 : Text → Option Int) (ts : List Tok) : List (Text × Color) × List Text :=
  match sig ts with
  | none => ([], [])
  | some (t, ts) =>
    match findRoot (ts.length + 1) (t :: ts) with
    | none => ([], [])
    | some ts =>
      let r := (declarations ts.length ts).foldl (record lower int16) ([], [])
      (r.1, distinct (fun _ => true) r.2)

/-- settings.py:58-220 (`load_icon_settings`); `none` if the stylesheet does not exist. -/
def load (lower : Text → Text) (int16 : Text → Option Int) (config : Option IconsConfig) (css : Option (List Tok)) :
    Except LErr Settings :=
  match buttons config with
  | .error e => .error e
  | .ok b =>
    let s := match css with
      | none => ([], [])
      | some ts => stylesheet lower int16 ts
    .ok ⟨s.1, s.2, some b⟩

end Load

end Verif.Icons
