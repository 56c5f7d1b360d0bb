import Verif.JsTok
/-!
# The CSS tokenizer and serializer

Model of vanillaplusjs/build/css/tokenizer.py:11-590 and css/serializer.py:5-79 (the serialisation of
strings, lines 82-127, is in `Verif.JsTok`).

The reader is replaced by the normalised text which is left, as in `Verif.JsTok`.  At the end of the text
`peek` gives `None`; where the code then takes its length or adds it to a string, Python raises a
`TypeError`, which the model records with its place.
-/
namespace Verif.Css
open Verif.Reader (Text txt)
open Verif.Js (isHex hexNum serializeString serializeStringAuto multiLine)

/-- What Python knows about characters beyond ASCII and about floating point numbers. -/
structure Uni where
  /-- `c.isdigit()` -/
  digit : Nat → Bool
  /-- The value of `c` in `int(..)` and `float(..)`, `none` if these raise a `ValueError`. -/
  val : Nat → Option Nat
  /-- `str(float(s))` -/
  floatStr : Text → Text

/-- The exceptions which tokenising can raise. -/
inductive Err where
  /-- `len(None)` at line 48: `#` at the end of the text. -/
  | hashAtEnd
  /-- `len(None)` at line 542: `@` at the end of the text. -/
  | atAtEnd
  /-- `len(None)` at line 542: a number at the end of the text. -/
  | numberAtEnd
  /-- `consumed + None` at line 490: the text ends in a bad url. -/
  | badUrlAtEnd
  /-- `ValueError` of `int` and `float`. -/
  | badNumber
  /-- Unpacking `None` at line 391. -/
  | noNumber
deriving DecidableEq, Repr

/-- The value of a number token: an `int`, or a `float` with the text it was made of. -/
inductive Num where
  | int (i : Int)
  | float (src : Text)
deriving DecidableEq, Repr

/-- css/token.py:14-54, 57-83; `integer` is `type_flag == "integer"`, `id` is `type_flag == "id"`. -/
inductive Tok where
  | whitespace (v : Text)
  | str (v : Text)
  | badString (v : Text)
  | hash (v : Text) (id : Bool)
  | delim (v : Text)
  | leftParens
  | rightParens
  | number (v : Num) (integer : Bool)
  | percentage (v : Num) (integer : Bool)
  | dimension (v : Num) (integer : Bool) (unit : Text)
  | comma
  | cdc
  | ident (v : Text)
  | function (v : Text)
  | url (v : Text)
  | badUrl
  | colon
  | semicolon
  | cdo
  | atKeyword (v : Text)
  | leftSquare
  | rightSquare
  | leftCurly
  | rightCurly
  | comment (v : Text)
  | eof
deriving DecidableEq, Repr

/-- css/tokenizer.py:223, 502-507, one character -/
def isWs (c : Nat) : Bool := c == 10 || c == 9 || c == 32

/-- `c.isdigit()` -/
def isDigit (U : Uni) (c : Nat) : Bool := (48 ≤ c && c ≤ 57) || (128 ≤ c && U.digit c)

/-- css/tokenizer.py:510-513.  Below U+0080 `isalpha` is true for the letters only. -/
def isIdentStart (c : Nat) : Bool :=
  (65 ≤ c && c ≤ 90) || (97 ≤ c && c ≤ 122) || 128 ≤ c || c == 95

/-- css/tokenizer.py:516-519 -/
def isIdentChar (U : Uni) (c : Nat) : Bool := isIdentStart c || isDigit U c || c == 45

/-- css/tokenizer.py:522-531 -/
def isValidEscape (two : Text) : Bool :=
  match two with
  | [a, b] => a == 92 && b != 10
  | _ => false

/-- css/tokenizer.py:534-558 -/
def isIdentSequence (three : Text) : Bool :=
  match three with
  | [a, b, c] =>
    if a = 45 then isIdentStart b || b == 45 || isValidEscape [b, c]
    else if isIdentStart a then true
    else if a = 92 then isValidEscape [a, b]
    else false
  | _ => false

/-- css/tokenizer.py:561-576 -/
def isNumber (U : Uni) (three : Text) : Bool :=
  match three with
  | [a, b, c] =>
    if a = 43 ∨ a = 45 then isDigit U b || (b == 46 && isDigit U c)
    else if a = 46 then isDigit U b
    else isDigit U a
  | _ => false

/-- css/tokenizer.py:579-590 -/
def isNonPrintable (c : Nat) : Bool := c ≤ 8 || c == 0xB || (0xE ≤ c && c ≤ 0x1F) || c == 0x7F

/-- css/tokenizer.py:292-295 -/
def escapeChar (n : Nat) : Nat :=
  if n = 0 ∨ (0xD800 ≤ n ∧ n ≤ 0xDFFF) ∨ n > 0x10FFFF then 0xFFFD else n

/-- css/tokenizer.py:289-290 -/
def dropWs1 : Text → Text
  | c :: cs => if isWs c then cs else c :: cs
  | [] => []

/-- css/tokenizer.py:281-300; the text begins behind the backslash. -/
def consumeEscaped (s : Text) : Nat × Text :=
  match s with
  | [] => (0xFFFD, [])
  | c :: cs =>
    if isHex c then
      let hs := (s.take 6).takeWhile isHex
      (escapeChar (hexNum hs), dropWs1 (s.drop hs.length))
    else (c, cs)

/-- css/tokenizer.py:303-318; `fuel` bounds the number of rounds. -/
def identLoop (U : Uni) : Nat → Text → Text → Text × Text
  | 0, res, s => (res, s)
  | fuel + 1, res, s =>
    match s with
    | [] => (res, [])
    | c :: cs =>
      if isIdentChar U c then identLoop U fuel (res ++ [c]) cs
      else if isValidEscape (s.take 2) then
        identLoop U fuel (res ++ [(consumeEscaped cs).1]) (consumeEscaped cs).2
      else (res, s)

/-- css/tokenizer.py:303-318 -/
def consumeIdent (U : Uni) (s : Text) : Text × Text := identLoop U (s.length + 1) [] s

/-- The value of a digit for `int` and `float`. -/
def digitVal (U : Uni) (c : Nat) : Option Nat := if 48 ≤ c ∧ c ≤ 57 then some (c - 48) else U.val c

/-- The value of a sequence of digits, `none` if one of them is not accepted. -/
def digitsVal (U : Uni) : Nat → Text → Option Nat
  | n, [] => some n
  | n, c :: cs => match digitVal U c with
    | none => none
    | some d => digitsVal U (10 * n + d) cs

/-- `int(repr)` -/
def toInt (U : Uni) (sign : Option Nat) (ds : Text) : Except Err Num :=
  match (if ds = [] then none else digitsVal U 0 ds) with
  | none => .error .badNumber
  | some n => .ok (.int (if sign = some 45 then -(n : Int) else n))

/-- `float(repr)`: raises a `ValueError` exactly if a digit is not accepted (the text has the form of a
number).  `src` is the whole text. -/
def toFloat (U : Uni) (src : Text) : Except Err Num :=
  if src.all (fun c => !isDigit U c || (digitVal U c).isSome) then .ok (.float src) else .error .badNumber

/-- css/tokenizer.py:321-383, from line 363 on: the exponent. -/
def consumeExponent (U : Uni) (sign : Option Nat) (ds src : Text) (integer : Bool) (s : Text) :
    Except Err ((Num × Bool) × Text) :=
  if s.length < 2 then
    match toFloat U src with
    | .error e => .error e
    | .ok n => .ok ((n, integer), s)
  else
    let a := s.headD 0
    let b := (s.drop 1).headD 0
    if (a = 101 ∨ a = 69) ∧ (isDigit U b ∨ ((b = 43 ∨ b = 45) ∧ ((s.drop 2).head?.any (isDigit U)))) then
      match toFloat U (src ++ s.take 2 ++ (s.drop 2).takeWhile (isDigit U)) with
      | .error e => .error e
      | .ok n => .ok ((n, false), (s.drop 2).dropWhile (isDigit U))
    else if integer then
      match toInt U sign ds with
      | .error e => .error e
      | .ok n => .ok ((n, true), s)
    else
      match toFloat U src with
      | .error e => .error e
      | .ok n => .ok ((n, false), s)

/-- css/tokenizer.py:321-383.  The `None` of line 333 and 342 is the error of line 391. -/
def consumeNumber (U : Uni) (s : Text) : Except Err ((Num × Bool) × Text) :=
  let sign := if s.head? = some 43 ∨ s.head? = some 45 then s.head? else none
  let s1 := if s.head? = some 43 ∨ s.head? = some 45 then s.drop 1 else s
  let ds := s1.takeWhile (isDigit U)
  let s2 := s1.dropWhile (isDigit U)
  if s2 = [] ∧ ds = [] then .error .noNumber
  else if s2.length < 2 then
    match toInt U sign ds with
    | .error e => .error e
    | .ok n => .ok ((n, true), s2)
  else if s2.head? = some 46 ∧ (s2.drop 1).head?.any (isDigit U) then
    let src := sign.toList ++ ds ++ [46] ++ (s2.drop 1).takeWhile (isDigit U)
    let s3 := (s2.drop 1).dropWhile (isDigit U)
    consumeExponent U sign ds src false s3
  else consumeExponent U sign ds (sign.toList ++ ds) true s2

/-- css/tokenizer.py:386-413 -/
def consumeNumeric (U : Uni) (s : Text) : Except Err (Tok × Text) :=
  match consumeNumber U s with
  | .error e => .error e
  | .ok ((n, integer), r) =>
    if r = [] then .error .numberAtEnd
    else if isIdentSequence (r.take 3) then
      .ok (.dimension n integer (consumeIdent U r).1, (consumeIdent U r).2)
    else if r.head? = some 37 then .ok (.percentage n integer, r.drop 1)
    else .ok (.number n integer, r)

/-- css/tokenizer.py:251-278; `fuel` bounds the number of rounds. -/
def stringLoop (q : Nat) : Nat → Text → Text → Tok × Text
  | 0, res, s => (.str res, s)
  | fuel + 1, res, s =>
    match s with
    | [] => (.str res, [])
    | c :: cs =>
      if c = q then (.str res, cs)
      else if c = 10 then (.badString res, s)
      else if c = 92 then
        match cs with
        | [] => stringLoop q fuel res []
        | d :: ds =>
          if d = 10 then stringLoop q fuel res ds
          else stringLoop q fuel (res ++ [(consumeEscaped cs).1]) (consumeEscaped cs).2
      else stringLoop q fuel (res ++ [c]) cs

/-- css/tokenizer.py:481-492; `fuel` bounds the number of rounds. -/
def badUrlLoop : Nat → Text → Except Err Text
  | 0, s => .ok s
  | fuel + 1, s =>
    match s with
    | [] => .ok []
    | c :: cs =>
      if c = 41 then .ok cs
      else if cs = [] then .error .badUrlAtEnd
      else if isValidEscape (c :: cs.take 1) then badUrlLoop fuel (consumeEscaped cs).2
      else badUrlLoop fuel cs

/-- css/tokenizer.py:454-478; `fuel` bounds the number of rounds. -/
def urlLoop : Nat → Text → Text → Except Err (Tok × Text)
  | 0, res, s => .ok (.url res, s)
  | fuel + 1, res, s =>
    match s with
    | [] => .ok (.url res, [])
    | c :: cs =>
      if c = 41 then .ok (.url res, cs)
      else if isWs c then urlLoop fuel res cs
      else if c = 34 ∨ c = 39 ∨ c = 40 ∨ isNonPrintable c then
        match badUrlLoop (s.length + 1) s with
        | .error e => .error e
        | .ok r => .ok (.badUrl, r)
      else if c = 92 ∧ isValidEscape (s.take 2) then
        urlLoop fuel (res ++ [(consumeEscaped cs).1]) (consumeEscaped cs).2
      else urlLoop fuel (res ++ [c]) cs

/-- css/tokenizer.py:424-428: while the next two characters are whitespace, skip one. -/
def skipWs : Text → Text
  | a :: b :: s => if isWs a && isWs b then skipWs (b :: s) else a :: b :: s
  | s => s

/-- `string.lower() == "url"` (no other character has one of these letters as lower case). -/
def isUrlName (v : Text) : Bool :=
  match v with
  | [u, r, l] => (u == 117 || u == 85) && (r == 114 || r == 82) && (l == 108 || l == 76)
  | _ => false

/-- css/tokenizer.py:416-444 -/
def consumeIdentLike (U : Uni) (s : Text) : Except Err (Tok × Text) :=
  let v := (consumeIdent U s).1
  let r := (consumeIdent U s).2
  if isUrlName v ∧ r.head? = some 40 then
    let t := skipWs (r.drop 1)
    match t with
    | [] => .ok (.ident v, [])
    | a :: t' =>
      if a = 34 ∨ a = 39 ∨ (isWs a ∧ (t'.head? = some 34 ∨ t'.head? = some 39)) then .ok (.function v, t)
      else urlLoop (t.length + 1) [] t
  else if r.head? = some 40 then .ok (.function v, r.drop 1)
  else .ok (.ident v, r)

/-- css/tokenizer.py:32-187: one round of the loop, for the text `c :: cs`.  Line 33: an unfinished comment
is read to the end and then, `peeked` still being `/`, line 187 gives a delimiter. -/
def step (U : Uni) (c : Nat) (cs : Text) : Except Err (Tok × Text) :=
  let s := c :: cs
  if s.take 2 = [47, 42] then
    if s.drop 2 = (multiLine (s.drop 2)).1 then .ok (.delim [47], [])
    else .ok (.comment (multiLine (s.drop 2)).1, (multiLine (s.drop 2)).2)
  else if isWs c then .ok (.whitespace (s.takeWhile isWs), s.dropWhile isWs)
  else if c = 34 ∨ c = 39 then .ok (stringLoop c (cs.length + 1) [] cs)
  else if c = 35 then
    match cs with
    | [] => .error .hashAtEnd
    | d :: _ =>
      if isIdentChar U d ∨ isValidEscape (cs.take 2) then
        .ok (.hash (consumeIdent U cs).1 (isIdentSequence (cs.take 3)), (consumeIdent U cs).2)
      else .ok (.delim [35], cs)
  else if c = 40 then .ok (.leftParens, cs)
  else if c = 41 then .ok (.rightParens, cs)
  else if c = 43 then
    if isNumber U (s.take 3) then consumeNumeric U s else .ok (.delim [43], cs)
  else if c = 44 then .ok (.comma, cs)
  else if c = 45 then
    if isNumber U (s.take 3) then consumeNumeric U s
    else if s.take 3 = [45, 45, 62] then .ok (.cdc, s.drop 3)
    else if isIdentSequence (s.take 3) then consumeIdentLike U s
    else .ok (.delim [45], cs)
  else if c = 46 then
    if isNumber U (s.take 3) then consumeNumeric U s else .ok (.delim [46], cs)
  else if c = 58 then .ok (.colon, cs)
  else if c = 59 then .ok (.semicolon, cs)
  else if c = 60 then
    if s.take 4 = [60, 33, 45, 45] then .ok (.cdo, s.drop 4) else .ok (.delim [60], cs)
  else if c = 64 then
    if cs = [] then .error .atAtEnd
    else if isIdentSequence (cs.take 3) then .ok (.atKeyword (consumeIdent U cs).1, (consumeIdent U cs).2)
    else .ok (.delim [64], cs)
  else if c = 91 then .ok (.leftSquare, cs)
  else if c = 92 then
    if isValidEscape (s.take 2) then consumeIdentLike U s else .ok (.delim [92], cs)
  else if c = 93 then .ok (.rightSquare, cs)
  else if c = 123 then .ok (.leftCurly, cs)
  else if c = 125 then .ok (.rightCurly, cs)
  else if isDigit U c then consumeNumeric U s
  else if isIdentStart c then consumeIdentLike U s
  else .ok (.delim [c], cs)

/-- css/tokenizer.py:32-189; `fuel` bounds the number of rounds. -/
def tokenLoop (U : Uni) : Nat → Text → Except Err (List Tok)
  | _, [] => .ok [.eof]
  | 0, _ :: _ => .ok []
  | fuel + 1, c :: cs =>
    match step U c cs with
    | .error e => .error e
    | .ok (t, rest) =>
      match tokenLoop U fuel rest with
      | .error e => .error e
      | .ok ts => .ok (t :: ts)

/-- css/tokenizer.py:11-189, on the normalised text.  (The tokens are handed out one by one, so that the
tokens before an exception may already have been used; the caller does not keep its result then.) -/
def tokenize (U : Uni) (s : Text) : Except Err (List Tok) := tokenLoop U s.length s

/-! ## Serialising -/

/-- `str(value)` of a number -/
def numStr (U : Uni) : Num → Text
  | .int i => txt (toString i)
  | .float src => U.floatStr src

/-- css/serializer.py:5-74 -/
def serialize (U : Uni) : Tok → Text
  | .whitespace v => v
  | .str v => serializeStringAuto v
  | .badString _ => [34, 10]
  | .hash v _ => 35 :: v
  | .delim v => v
  | .leftParens => [40]
  | .rightParens => [41]
  | .number n _ => numStr U n
  | .percentage n _ => numStr U n ++ [37]
  | .dimension n _ unit => numStr U n ++ unit
  | .comma => [44]
  | .cdc => [45, 45, 62]
  | .ident v => v
  | .function v => v ++ [40]
  | .url v => [117, 114, 108, 40] ++ serializeString v none [34, 39, 40, 92] ++ [41]
  | .badUrl => [117, 114, 108, 40, 40, 41]
  | .colon => [58]
  | .semicolon => [59]
  | .cdo => [60, 33, 45, 45]
  | .atKeyword v => 64 :: v
  | .leftSquare => [91]
  | .rightSquare => [93]
  | .leftCurly => [123]
  | .rightCurly => [125]
  | .comment v => [47, 42] ++ v ++ [42, 47]
  | .eof => []

/-- css/serializer.py:77-79 -/
def serializeMany (U : Uni) (ts : List Tok) : Text := ts.flatMap (serialize U)

end Verif.Css
