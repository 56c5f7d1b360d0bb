import Verif.Nest
import Verif.IconColor
import Verif.Handlers

/-!
Model of vanillaplusjs/build/css/manips/icons: tokenizer.py, parser.py, command.py and manip.py.

The icon settings of the build context are parameters.  Logging is left out.
-/

namespace Verif.Icons

open Verif.Reader (Text txt substitute)
open Verif.Css (Uni Tok isWs isIdentStart isIdentSequence isNumber isDigit consumeIdent consumeNumber stringLoop)
open Verif.Assoc
open Verif.Paths (join)
open Verif.Nest (after)
open Verif.Handlers (Bytes Fs Scan Built hashBuild)

/-! ## tokenizer.py -/

/-- icons/token.py:5-43; `raised` stands at the end if the tokenizer raises an exception.  The values which nobody uses
are left out. -/
inductive ITok where
  | ws
  | comment
  | ident (v : Text)
  | str (v : Text)
  | badStr
  | num
  | colon
  | comma
  | openCurly
  | closeCurly
  | openSquare
  | closeSquare
  | delim
  | tru
  | fls
  | null
  | eof
  | raised
deriving DecidableEq, Repr

/-- tokenizer.py:144-152 -/
def identTok (v : Text) : ITok :=
  if v = txt "true" then .tru else if v = txt "false" then .fls else if v = txt "null" then .null else .ident v

/-- tokenizer.py:181-186 -/
def numTok (U : Uni) (s : Text) : Option (ITok × Text) :=
  match consumeNumber U s with
  | .error _ => none
  | .ok (_, r) => some (.num, r)

/-- tokenizer.py:43-127, 132-178: one round of the loop, for the text `c :: cs`; `none` if it raises. -/
def istep (U : Uni) (c : Nat) (cs : Text) : Option (ITok × Text) :=
  let s := c :: cs
  if s.take 2 = [47, 47] then some (.comment, ((s.drop 2).dropWhile (· ≠ 10)).drop 1)
  else if isWs c then some (.ws, s.dropWhile isWs)
  else if isIdentStart c then some (identTok (consumeIdent U s).1, (consumeIdent U s).2)
  else if c = 39 ∨ c = 34 then
    match stringLoop c (cs.length + 1) [] cs with
    | (.str v, r) => some (.str v, r)
    | (_, r) => some (.badStr, r)
  else if c = 58 then some (.colon, cs)
  else if c = 44 then some (.comma, cs)
  else if c = 123 then some (.openCurly, cs)
  else if c = 125 then some (.closeCurly, cs)
  else if c = 91 then some (.openSquare, cs)
  else if c = 93 then some (.closeSquare, cs)
  else if c = 46 then
    if isNumber U (s.take 3) then numTok U s else some (.delim, cs)
  else if isDigit U c then numTok U s
  else if c = 43 then
    if isNumber U (s.take 3) then numTok U s else some (.delim, cs)
  else if c = 45 then
    if isNumber U (s.take 3) then numTok U s
    else if isIdentSequence (s.take 3) then some (identTok (consumeIdent U s).1, (consumeIdent U s).2)
    else some (.delim, cs)
  else some (.delim, cs)

/-- tokenizer.py:25-129; every round takes at least one character, `fuel` bounds their number. -/
def itokenLoop (U : Uni) : Nat → Text → List ITok
  | _, [] => [.eof]
  | 0, _ :: _ => []
  | n + 1, c :: cs =>
    match istep U c cs with
    | none => [.raised]
    | some (t, r) => t :: itokenLoop U n r

/-- tokenizer.py:25-129 -/
def itokenize (U : Uni) (s : Text) : List ITok := itokenLoop U s.length s

/-! ## parser.py -/

inductive PErr where
  /-- ValueError -/
  | value
  /-- an exception of the tokenizer -/
  | tokens
  /-- the tokens end before the command does: manip.py:480 -/
  | out
deriving DecidableEq, Repr

/-- settings.py:12-23 -/
structure Button where
  active : Text
  hover : Text
  disabled : Text
deriving DecidableEq, Repr

/-- settings.py:26-36 -/
structure Buttons where
  default : Option Button
  named : List (Text × Button)
deriving DecidableEq, Repr

/-- The `button` of a command: the literal "default", or settings, or None. -/
inductive ButtonArg where
  | default
  | none
  | some (b : Buttons)
deriving DecidableEq, Repr

/-- command.py:7-32; `none` stands for all colors and all sizes. -/
structure Command where
  name : Text
  initial : Text
  colors : Option (List Text)
  sizes : Option (List Text)
  button : ButtonArg
deriving DecidableEq, Repr

/-- parser.py:85-92 -/
def next : List ITok → Except PErr (ITok × List ITok)
  | [] => .error .out
  | .ws :: ts => next ts
  | .comment :: ts => next ts
  | .raised :: _ => .error .tokens
  | t :: ts => .ok (t, ts)

/-- parser.py:110-128.  The list is used up by the rounds, `fuel` bounds their number. -/
def strings : Nat → Bool → List Text → List ITok → Except PErr (List Text × List ITok)
  | 0, _, _, _ => .error .out
  | n + 1, needComma, acc, ts =>
    match next ts with
    | .error e => .error e
    | .ok (.closeSquare, ts) => .ok (acc, ts)
    | .ok (t, ts) =>
      if needComma then
        if t = .comma then strings n false acc ts else .error .value
      else
        match t with
        | .str v => strings n true (acc ++ [v]) ts
        | _ => .error .value

/-- parser.py:95-128 -/
def stringList (ts : List ITok) : Except PErr (List Text × List ITok) := strings (ts.length + 1) false [] ts

/-- parser.py:165-175: behind the name of a button. -/
def buttonColors (ts : List ITok) : Except PErr (Button × List ITok) :=
  match next ts with
  | .error e => .error e
  | .ok (.colon, ts) =>
    match next ts with
    | .error e => .error e
    | .ok (.openSquare, ts) =>
      match stringList ts with
      | .error e => .error e
      | .ok ([a, b, c], ts) => .ok (⟨a, b, c⟩, ts)
      | .ok _ => .error .value
    | .ok _ => .error .value
  | .ok _ => .error .value

/-- parser.py:177-188 -/
def setButton (bs : Buttons) (name : Text) (b : Button) : Buttons :=
  if name = txt "default" then { bs with default := some b } else { bs with named := put bs.named name b }

/-- parser.py:148-190 -/
def buttons : Nat → Bool → Buttons → List ITok → Except PErr (Buttons × List ITok)
  | 0, _, _, _ => .error .out
  | n + 1, needComma, bs, ts =>
    match next ts with
    | .error e => .error e
    | .ok (.closeCurly, ts) => .ok (bs, ts)
    | .ok (t, ts) =>
      if needComma then
        if t = .comma then buttons n false bs ts else .error .value
      else
        match t with
        | .str v =>
          match buttonColors ts with
          | .error e => .error e
          | .ok (b, ts) => buttons n true (setButton bs v b) ts
        | _ => .error .value

/-- parser.py:131-190 -/
def buttonSettings (ts : List ITok) : Except PErr (Buttons × List ITok) := buttons (ts.length + 1) false ⟨none, []⟩ ts

/-- parser.py:25-29 and 31-35 -/
def identifier (ts : List ITok) : Except PErr (Text × List ITok) :=
  match next ts with
  | .error e => .error e
  | .ok (.ident v, ts) => .ok (v, ts)
  | .ok _ => .error .value

/-- parser.py:37-43 and 45-51 -/
def listOr (word : Text) (ts : List ITok) : Except PErr (Option (List Text) × List ITok) :=
  match next ts with
  | .error e => .error e
  | .ok (.openSquare, ts) =>
    match stringList ts with
    | .error e => .error e
    | .ok (l, ts) => .ok (some l, ts)
  | .ok (.ident v, ts) => if v = word then .ok (none, ts) else .error .value
  | .ok _ => .error .value

/-- parser.py:53-75 -/
def buttonArg (ts : List ITok) : Except PErr ButtonArg :=
  match next ts with
  | .error e => .error e
  | .ok (.eof, _) => .ok .default
  | .ok (.openCurly, ts) =>
    match buttonSettings ts with
    | .error e => .error e
    | .ok (b, _) => .ok (.some b)
  | .ok (.ident v, _) =>
    if v = txt "no-btn" then .ok .none
    else if v = txt "btn" ∨ v = txt "default" then .ok .default
    else .error .value
  | .ok _ => .error .value

/-- parser.py:8-83.  What follows is not read. -/
def parse (ts : List ITok) : Except PErr Command :=
  match identifier ts with
  | .error e => .error e
  | .ok (name, ts) =>
    match identifier ts with
    | .error e => .error e
    | .ok (initial, ts) =>
      match listOr (txt "all-colors") ts with
      | .error e => .error e
      | .ok (colors, ts) =>
        match listOr (txt "all-sizes") ts with
        | .error e => .error e
        | .ok (sizes, ts) =>
          match buttonArg ts with
          | .error e => .error e
          | .ok button => .ok ⟨name, initial, colors, sizes, button⟩

/-! ## manip.py -/

/-- settings.py:39-56 -/
structure Settings where
  colors : List (Text × Color)
  sizes : List Text
  buttons : Option Buttons

/-- What the manipulator is given. -/
structure Env where
  uni : Uni
  /-- `str.isspace` for one character -/
  space : Nat → Bool
  /-- `context.default_css_file` -/
  main : Text
  /-- `self.relpath` -/
  self : Text
  settings : Settings
  /-- reading and writing of text files -/
  decode : Bytes → Text
  encode : Text → Bytes
  /-- what is written into a hash file -/
  digest : Bytes → Bytes

inductive MErr where
  /-- ValueError of the parser, or an exception of the tokenizer -/
  | parse (e : PErr)
  /-- ValueError of unpacking a name at 544 -/
  | unpack
  /-- AttributeError: a name in the place of the settings of a button -/
  | attribute
  /-- KeyError of the color map -/
  | key
  /-- AssertionError at 72 -/
  | assertion
  /-- an exception of the file system -/
  | fs (e : Handlers.Err)
deriving DecidableEq, Repr

/-- A value of `button_by_identifier` behind 539-547: the settings, or a letter of a name. -/
inductive Entry where
  | button (b : Button)
  | letter (c : Nat)
deriving DecidableEq, Repr

/-- The command with the real colors, sizes and buttons (manip.py:549-551). -/
structure Icon where
  name : Text
  initial : Text
  colors : List Text
  sizes : List Text
  /-- `none` for no buttons -/
  button : Option (Option Button × List (Text × Entry))
deriving DecidableEq, Repr

/-- manip.py:20-26 and 468-472: the argument of
`^\s*!\s*PREPROCESSOR\s*:\s+icon\s+(?P<args>.*)\s*$`, where `.` is every character. -/
def iconArgs (space : Nat → Bool) (v : Text) : Option Text :=
  (after (txt "!") (v.dropWhile space)).bind fun s1 =>
  (after (txt "PREPROCESSOR") (s1.dropWhile space)).bind fun s2 =>
  (after (txt ":") (s2.dropWhile space)).bind fun s3 =>
  if (s3.head?.map space).getD false then
    (after (txt "icon") (s3.dropWhile space)).bind fun s4 =>
    if (s4.head?.map space).getD false then some (s4.dropWhile space) else none
  else none

/-- `list(dict((x, None) for x in xs if p(x)))` -/
def distinct (p : Text → Bool) (xs : List Text) : List Text :=
  (xs.filter p).foldl (fun acc x => if x ∈ acc then acc else acc ++ [x]) []

/-- `color in color_map` -/
def Env.known (env : Env) (c : Text) : Bool := (item env.settings.colors c).isSome

/-- manip.py:521-527 -/
def Env.bad (env : Env) (b : Button) : Bool := !env.known b.active || !env.known b.hover || !env.known b.disabled

/-- manip.py:542-546: the pairs which the generator gives for the keys of the dictionary (sic), `none` if a key does not
consist of two letters. -/
def purged (purge : List Text) : List Text → Option (List (Text × Entry))
  | [] => some []
  | [a, b] :: ks => (purged purge ks).map fun r => if [a] ∈ purge then r else ([a], .letter b) :: r
  | _ :: _ => none

/-- manip.py:529-547 -/
def realButtons (env : Env) (bs : Buttons) : Except MErr (Option Button × List (Text × Entry)) :=
  let default := match bs.default with
    | some b => if env.bad b then none else some b
    | none => none
  let purge := (bs.named.filter fun x => env.bad x.2).map (·.1)
  if purge = [] then .ok (default, bs.named.map fun x => (x.1, .button x.2))
  else match purged purge (bs.named.map (·.1)) with
    | none => .error .unpack
    | some r => .ok (default, ofList r)

/-- manip.py:484-551 -/
def realize (env : Env) (c : Command) : Except MErr (Option Icon) :=
  if env.known c.initial then
    let colors := match c.colors with
      | some l => distinct env.known l
      | none => keys env.settings.colors
    let sizes := match c.sizes with
      | some l => distinct (fun s => decide (s ∈ env.settings.sizes)) l
      | none => env.settings.sizes
    if colors = [] ∨ sizes = [] then .ok none
    else
      let bs := match c.button with
        | .default => env.settings.buttons
        | .none => none
        | .some b => some b
      match bs with
      | none => .ok (some ⟨c.name, c.initial, colors, sizes, none⟩)
      | some bs =>
        match realButtons env bs with
        | .error e => .error e
        | .ok b => .ok (some ⟨c.name, c.initial, colors, sizes, some b⟩)
  else .ok none

/-- manip.py:464-551 -/
def getIcon (env : Env) : Tok → Except MErr (Option Icon)
  | .comment v =>
    match iconArgs env.space v with
    | none => .ok none
    | some a =>
      match parse (itokenize env.uni (substitute a)) with
      | .error .out => .ok none
      | .error e => .error (.parse e)
      | .ok c => realize env c
  | _ => .ok none

/-- command.py:34-37 -/
def Icon.input (i : Icon) : Text := join (join (join (join (txt "src") (txt "public")) (txt "img")) (txt "icons")) (i.name ++ txt ".svg")

/-- command.py:39-42 -/
def Icon.folder (i : Icon) : Text := join (join (join (join (txt "out") (txt "www")) (txt "img")) (txt "icons")) i.name

/-- manip.py:82 and 564 -/
def Icon.output (i : Icon) (color : Text) : Text := join i.folder (color ++ txt ".svg")

/-- command.py:44-46 -/
def Icon.web (i : Icon) (color : Text) : Text := txt "/img/icons/" ++ i.name ++ txt "/" ++ color ++ txt ".svg"

/-- `s.replace(old, new)` for `old` which is not empty. -/
def replaceAll (old new : Text) : Nat → Text → Text
  | 0, s => s
  | _ + 1, [] => []
  | n + 1, c :: s =>
    if old.isPrefixOf (c :: s) then new ++ replaceAll old new n ((c :: s).drop old.length)
    else c :: replaceAll old new n s

/-- `f'"{color.to_hex()}"'` -/
def quoted (c : Color) : Text := txt "\"" ++ toHex c ++ txt "\""

structure St where
  fs : Fs
  dependencies : List Text
  produces : List Text
  children : List Text
  produced : List Text
  reused : List Text

/-- `s.add(x)` -/
def add (s : List Text) (x : Text) : List Text := if x ∈ s then s else s ++ [x]

/-- `s.update(xs)` -/
def addAll (s xs : List Text) : List Text := xs.foldl add s

/-- manip.py:81-111: one color.  The input is read for each color, while the code keeps the text of the first time. -/
def produce (env : Env) (i : Icon) (st : St) (color : Text) : Except MErr St :=
  let out := i.output color
  if (st.fs out).isSome then .ok { st with reused := add st.reused out }
  else
    match st.fs i.input with
    | none => .error (.fs .notFound)
    | some svg =>
      match item env.settings.colors i.initial, item env.settings.colors color with
      | some og, some target =>
        let text := env.decode svg
        let fs := st.fs.write out (env.encode (replaceAll (quoted og) (quoted target) (text.length + 1) text))
        match hashBuild env.digest out fs with
        | .error e => .error (.fs e)
        | .ok (r, fs) => .ok { st with
            fs := fs
            produced := addAll (add st.produced out) r.produced
            children := addAll st.children r.children
            reused := addAll st.reused r.reused }
      | _, _ => .error .key

/-- manip.py:81-111 -/
def produceAll (env : Env) (i : Icon) : St → List Text → Except MErr St
  | st, [] => .ok st
  | st, c :: cs =>
    match produce env i st c with
    | .error e => .error e
    | .ok st => produceAll env i st cs

def indent : Tok := .whitespace (txt "\n    ")
def sp : Tok := .whitespace (txt " ")
def word (s : String) : Tok := .ident (txt s)

/-- `name: value;` behind an indentation -/
def decl (name : String) (value : List Tok) : List Tok := [indent, word name, .colon, sp] ++ value ++ [.semicolon]

/-- The size of an icon. -/
def sizeVar (size : Text) : List Tok := [.function (txt "var"), .ident (txt "--icon-size-" ++ size), .rightParens]

def urlTo (path : Text) : List Tok := [.function (txt "url"), .str path, .rightParens]

/-- `.sel { .. }` -/
def block (sel : Text) (body : List Tok) : List Tok :=
  [.delim (txt "."), .ident sel, sp, .leftCurly] ++ body ++ [.whitespace (txt "\n"), .rightCurly]

/-- manip.py:129-191 and 345-407: the declarations of an icon.  The value of a percentage is a string in the code; it is
written in the same way. -/
def iconDecls (size path : Text) : List Tok :=
  decl "background" [word "no-repeat", sp, word "center", sp, word "center"] ++
  decl "display" [word "inline-block"] ++
  decl "vertical-align" [word "middle"] ++
  decl "content" [.str []] ++
  decl "width" (sizeVar size) ++
  decl "height" (sizeVar size) ++
  decl "background-size" [.percentage (.int 100) true, sp, .percentage (.int 100) true] ++
  decl "background-image" (urlTo path)

def gap : Tok := .whitespace (txt "\n\n")

/-- manip.py:120-194: the class for a size and a color. -/
def iconClass (i : Icon) (size color : Text) : List Tok :=
  block (txt "icon-" ++ i.name ++ txt "-" ++ size ++ txt "-" ++ color) (iconDecls size (i.web color))

/-- manip.py:113-194 -/
def iconClasses (i : Icon) : List Tok :=
  (i.sizes.flatMap fun s => i.colors.map fun c => (s, c)).foldl
    (fun acc x => (if acc = [] then acc else acc ++ [gap]) ++ iconClass i x.1 x.2) []

/-- manip.py:196-452 -/
def buttonClass (i : Icon) (size suffix : Text) (b : Button) : List Tok :=
  let name := txt "icon-btn-" ++ i.name ++ txt "-" ++ size ++ suffix
  [gap] ++ block name (
    decl "-webkit-appearance" [word "none"] ++ decl "appearance" [word "none"] ++ decl "background" [word "transparent"] ++
    decl "border" [word "none"] ++ decl "border-radius" [word "0"] ++ decl "box-shadow" [word "none"] ++
    decl "outline" [word "none"] ++ decl "padding" [word "0"] ++ decl "margin" [word "0"] ++
    decl "text-align" [word "center"] ++ decl "display" [word "inline-block"] ++ decl "cursor" [word "pointer"]) ++
  [gap] ++ block (name ++ txt ":disabled") (decl "cursor" [word "not-allowed"]) ++
  [gap] ++ block (name ++ txt " .icon-btn--icon") (iconDecls size (i.web b.active)) ++
  [gap] ++ block (name ++ txt ":hover .icon-btn--icon") (decl "background-image" (urlTo (i.web b.hover))) ++
  [gap] ++ block (name ++ txt ":disabled .icon-btn--icon") (decl "background-image" (urlTo (i.web b.disabled)))

/-- manip.py:459-460 -/
def namedClasses (i : Icon) (size : Text) : List (Text × Entry) → Except MErr (List Tok)
  | [] => .ok []
  | (_, .letter _) :: _ => .error .attribute
  | (iden, .button b) :: es =>
    match namedClasses i size es with
    | .error e => .error e
    | .ok ts => .ok (buttonClass i size (txt "-" ++ iden) b ++ ts)

/-- manip.py:455-460 -/
def buttonClasses (i : Icon) (default : Option Button) (named : List (Text × Entry)) : List Text → Except MErr (List Tok)
  | [] => .ok []
  | size :: sizes =>
    match namedClasses i size named with
    | .error e => .error e
    | .ok ts =>
      match buttonClasses i default named sizes with
      | .error e => .error e
      | .ok rest => .ok ((match default with
          | some b => buttonClass i size [] b
          | none => []) ++ ts ++ rest)

/-- manip.py:113-462 -/
def output (i : Icon) : Except MErr (List Tok) :=
  match i.button with
  | none => .ok (iconClasses i)
  | some (default, named) =>
    match buttonClasses i default named i.sizes with
    | .error e => .error e
    | .ok ts => .ok (iconClasses i ++ ts)

/-- manip.py:70-462 -/
def cont (env : Env) (st : St) (t : Tok) : Except MErr (Option (List Tok) × St) :=
  match getIcon env t with
  | .error e => .error e
  | .ok none => .error .assertion
  | .ok (some i) =>
    match produceAll env i (if env.self = env.main then st else { st with children := add st.children env.main }) i.colors with
    | .error e => .error e
    | .ok st =>
      match output i with
      | .error e => .error e
      | .ok ts => .ok (some ts, st)

/-- manip.py:58-68 when building -/
def start (env : Env) (st : St) (t : Tok) : Except MErr (Bool × St) :=
  match getIcon env t with
  | .error e => .error e
  | .ok none => .ok (false, st)
  | .ok (some _) => .ok (true, st)

/-- manip.py:553-573 -/
def scanIcon (env : Env) (i : Icon) (st : St) : St :=
  let st := if env.self = env.main then st else { st with dependencies := add st.dependencies env.main }
  let st := { st with dependencies := add st.dependencies i.input }
  i.colors.foldl (fun st c => { st with
    produces := add (add st.produces (i.output c)) (i.output c ++ txt ".hash")
    dependencies := add st.dependencies (i.output c ++ txt ".hash") }) st

/-- manip.py:58-68 when scanning -/
def scanStart (env : Env) (st : St) (t : Tok) : Except MErr (Bool × St) :=
  match getIcon env t with
  | .error e => .error e
  | .ok none => .ok (false, st)
  | .ok (some i) => .ok (false, scanIcon env i st)

/-- manip.py:29-588 when building -/
def icons (env : Env) : Build.Manip St Tok MErr where
  start := start env
  cont := cont env

/-- manip.py:29-588 when scanning -/
def iconsScan (env : Env) : Build.Manip St Tok MErr where
  start := scanStart env
  cont := cont env

end Verif.Icons
