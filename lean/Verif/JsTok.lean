import Verif.Reader
import Verif.JsIdent
/-!
# The JavaScript tokenizer and serializer

Model of vanillaplusjs/build/js/tokenizer.py:16-345, js/serializer.py:6-54, css/serializer.py:82-127 and
handlers/js_constants.py:63-76.

The reader is replaced by the text which is left, already normalised: by `Verif.Reader.C25_stream_partial`,
for a text without CR (files are opened in text mode), `peek(n)` and `read(n)` give the next `n` or all
remaining characters of the normalised text, and `None` exactly at the end.  `none` in the model is
Python's `TypeError` from adding `None` to a string; `C26_total` shows that it does not happen.
-/
namespace Verif.Js
open Verif.Reader (Text txt)

/-- js/token.py:12-54, 57-78: token type with its value. -/
inductive Tok where
  | whitespace (v : Text)
  | lineTerminator
  | comment (v : Text)
  | openCurly
  | closeCurly
  | asterisk
  | kwAs
  | kwImport
  | kwFrom
  | comma
  | identifier (v : Text)
  | str (v : Text)
  | semicolon
  | regex (v flags : Text)
  | invalid (v : Text)
  | eof
deriving DecidableEq, Repr

/-- js/tokenizer.py:307-314 -/
def isWhitespace (c : Nat) : Bool :=
  [0x9, 0xB, 0xC, 0xFEFF, 0x20, 0xA0, 0x1680, 0x2000, 0x2001, 0x2002, 0x2003, 0x2004, 0x2005, 0x2006, 0x2007,
    0x2008, 0x2009, 0x200A, 0x202F, 0x205F, 0x3000].contains c

/-- js/tokenizer.py:317-320 -/
def isNewline (c : Nat) : Bool := c == 0xA || c == 0x2028 || c == 0x2029

/-- Python's `c in string.hexdigits`. -/
def isHex (c : Nat) : Bool := (48 ≤ c && c ≤ 57) || (97 ≤ c && c ≤ 102) || (65 ≤ c && c ≤ 70)

/-- The value of a hexadecimal digit. -/
def hexVal (c : Nat) : Nat := if c ≤ 57 then c - 48 else if c ≤ 70 then c - 55 else c - 87

/-- Python's `int(s, 16)` for hexadecimal digits. -/
def hexNum (s : Text) : Nat := s.foldl (fun n c => 16 * n + hexVal c) 0

/-- js/tokenizer.py:334-343: the loop over `nine[2 .. len - 2]`; `acc` are the digits seen. -/
def braceScan : Text → Text → Bool
  | [], _ => false
  | c :: cs, acc =>
    if c = 125 then
      if acc = [] then false else decide (hexNum acc ≤ 0x10FFFF)
    else if isHex c then braceScan cs (acc ++ [c])
    else false

/-- js/tokenizer.py:323-345 -/
def isUnicodeEscape (nine : Text) : Bool :=
  if nine.length < 2 then false
  else if nine.head? ≠ some 117 then false
  else if (nine.drop 1).head? = some 123 then braceScan (nine.drop 2).dropLast []
  else decide (5 ≤ nine.length) && ((nine.drop 1).take 4).all isHex

/-- js/tokenizer.py:187-224; the text begins behind the backslash.  `none` is Python's `None`. -/
def consumeUnicode (s : Text) : Option (Nat × Text) :=
  match s with
  | 117 :: 123 :: t =>
    let digits := t.takeWhile (· ≠ 125)
    match t.dropWhile (· ≠ 125) with
    | [] => none
    | _ :: rest => if digits.all isHex then some (hexNum digits, rest) else none
  | 117 :: t =>
    if (t.take 4).length = 4 ∧ (t.take 4).all isHex then some (hexNum (t.take 4), t.drop 4) else none
  | _ => none

/-- js/tokenizer.py:104-114 -/
def consumeWhitespace (s : Text) : Option (Tok × Text) :=
  if s.takeWhile isWhitespace = [] then none
  else some (.whitespace (s.takeWhile isWhitespace), s.dropWhile isWhitespace)

/-- js/tokenizer.py:148-153: the characters before `*/` and what is behind it. -/
def multiLine : Text → Text × Text
  | [] => ([], [])
  | c :: cs =>
    if (c :: cs).take 2 = [42, 47] then ([], cs.drop 1)
    else (c :: (multiLine cs).1, (multiLine cs).2)

/-- js/tokenizer.py:117-154 -/
def consumeComment (s : Text) : Option (Tok × Text) :=
  if s.take 2 = [47, 47] then
    some (.comment ((s.drop 2).takeWhile (!isNewline ·)), (s.drop 2).dropWhile (!isNewline ·))
  else if s.take 2 = [47, 42] then
    some (.comment (multiLine (s.drop 2)).1, (multiLine (s.drop 2)).2)
  else none

/-- js/tokenizer.py:166-176; `fuel` bounds the number of rounds. -/
def identLoop : Nat → Text → Text → Option (Text × Text)
  | 0, res, s => some (res, s)
  | fuel + 1, res, s =>
    match s with
    | [] => some (res, [])
    | c :: cs =>
      if c = 92 ∧ isUnicodeEscape (cs.take 9) then
        match consumeUnicode cs with
        | none => none
        | some (u, rest) => identLoop fuel (res ++ [u]) rest
      else if res = [] ∧ idStart c then identLoop fuel (res ++ [c]) cs
      else if res ≠ [] ∧ (c = 36 ∨ c = 0x200C ∨ c = 0x200D ∨ idContinue c) then identLoop fuel (res ++ [c]) cs
      else some (res, s)

/-- js/tokenizer.py:157-184: the token for the characters of an identifier. -/
def identTok (v : Text) : Tok :=
  if v = [97, 115] then .kwAs
  else if v = [102, 114, 111, 109] then .kwFrom
  else if v = [105, 109, 112, 111, 114, 116] then .kwImport
  else .identifier v

/-- js/tokenizer.py:251-266 -/
def unescape (c : Nat) : Nat :=
  if c = 110 then 10 else if c = 114 then 13 else if c = 116 then 9 else if c = 98 then 8
  else if c = 102 then 12 else if c = 118 then 11 else if c = 48 then 0 else c

/-- js/tokenizer.py:232-268; `fuel` bounds the number of rounds. -/
def stringLoop (quote : Nat) : Nat → Text → Text → Option (Tok × Text)
  | 0, res, s => some (.invalid (quote :: res), s)
  | fuel + 1, res, s =>
    match s with
    | [] => some (.invalid (quote :: res), [])
    | c :: cs =>
      if isNewline c then some (.invalid (quote :: res), s)
      else if c = quote then some (.str res, cs)
      else if c = 92 then
        if isUnicodeEscape (cs.take 9) then
          match consumeUnicode cs with
          | none => none
          | some (u, rest) => stringLoop quote fuel (res ++ [u]) rest
        else
          match cs with
          | [] => some (.invalid (quote :: (res ++ [92])), [])
          | e :: rest => stringLoop quote fuel (res ++ [unescape e]) rest
      else stringLoop quote fuel (res ++ [c]) cs

/-- js/tokenizer.py:294 `igmsuyd` -/
def isFlag (c : Nat) : Bool := [105, 103, 109, 115, 117, 121, 100].contains c

/-- js/tokenizer.py:276-304; `fuel` bounds the number of rounds. -/
def regexLoop : Nat → Nat → Text → Text → Tok × Text
  | 0, _, res, s => (.invalid (47 :: res), s)
  | fuel + 1, group, res, s =>
    match s with
    | [] => (.invalid (47 :: res), [])
    | c :: cs =>
      if isNewline c then (.invalid (47 :: res), s)
      else if group = 0 ∧ c = 47 then (.regex res (cs.takeWhile isFlag), cs.dropWhile isFlag)
      else if c = 92 ∧ cs.head? = some 47 then regexLoop fuel group (res ++ [92, 47]) (cs.drop 1)
      else
        let group := if group > 0 ∧ c = 93 then group - 1 else group
        let group := if c = 91 then group + 1 else group
        regexLoop fuel group (res ++ [c]) cs

/-- js/tokenizer.py:49-91: what follows when there is no whitespace, comment or identifier. -/
def punctuation (c : Nat) (cs : Text) : Option (Tok × Text) :=
  if isNewline c then some (.lineTerminator, cs)
  else if c = 123 then some (.openCurly, cs)
  else if c = 125 then some (.closeCurly, cs)
  else if c = 42 then some (.asterisk, cs)
  else if c = 44 then some (.comma, cs)
  else if c = 59 then some (.semicolon, cs)
  else if c = 34 ∨ c = 39 then stringLoop c (cs.length + 1) [] cs
  else if c = 47 then some (regexLoop (cs.length + 1) 0 [] cs)
  else some (.invalid [c], cs)

/-- js/tokenizer.py:36-91: one round of the loop, for the text `c :: cs`. -/
def step (c : Nat) (cs : Text) : Option (Tok × Text) :=
  match consumeWhitespace (c :: cs) with
  | some r => some r
  | none =>
    match consumeComment (c :: cs) with
    | some r => some r
    | none =>
      match identLoop (cs.length + 2) [] (c :: cs) with
      | none => none
      | some (v, rest) => if v = [] then punctuation c cs else some (identTok v, rest)

/-- js/tokenizer.py:36-93; `fuel` bounds the number of rounds. -/
def tokenLoop : Nat → Text → Option (List Tok)
  | _, [] => some [.eof]
  | 0, _ :: _ => some []
  | fuel + 1, c :: cs =>
    match step c cs with
    | none => none
    | some (t, rest) =>
      match tokenLoop fuel rest with
      | none => none
      | some ts => some (t :: ts)

/-- js/tokenizer.py:16-93, on the normalised text. -/
def tokenize (s : Text) : Option (List Tok) := tokenLoop s.length s

/-! ## Serialising -/

/-- A hexadecimal digit as Python's `hex` writes it. -/
def hexChar (d : Nat) : Nat := if d < 10 then 48 + d else 87 + d

/-- Hexadecimal digits of a number, lowest last; `fuel` bounds their number. -/
def hexDigits : Nat → Nat → Text
  | 0, _ => []
  | fuel + 1, n => (if n < 16 then [] else hexDigits fuel (n / 16)) ++ [hexChar (n % 16)]

/-- Python's `hex(n)[2:]`. -/
def hexStr (n : Nat) : Text := hexDigits (n + 1) n

/-- css/serializer.py:92-100 -/
def specialEscape (c : Nat) : Option Nat :=
  if c = 10 then some 110 else if c = 13 then some 114 else if c = 9 then some 116 else if c = 8 then some 98
  else if c = 12 then some 102 else if c = 11 then some 118 else if c = 0 then some 48 else none

/-- css/serializer.py:106-125: one character.  An empty `quote` is `none`. -/
def serializeChar (quote : Option Nat) (simple : List Nat) (c : Nat) : Text :=
  if some c = quote ∨ c ∈ simple then [92, c]
  else match specialEscape c with
    | some e => [92, e]
    | none =>
      if c ≤ 8 ∨ c = 0xB ∨ (0xE ≤ c ∧ c ≤ 0x1F) ∨ c ≥ 0x7F then 92 :: hexStr c
      else [c]

/-- css/serializer.py:103-127 -/
def serializeString (s : Text) (quote : Option Nat) (simple : List Nat) : Text :=
  quote.toList ++ s.flatMap (serializeChar quote simple) ++ quote.toList

/-- css/serializer.py:82-89 -/
def autoQuote (s : Text) : Nat := if 34 ∉ s then 34 else if 39 ∉ s then 39 else 34

/-- css/serializer.py:82-89 -/
def serializeStringAuto (s : Text) : Text := serializeString s (some (autoQuote s)) [92]

/-- js/serializer.py:20 `value.replace("*/", "*\\/")` -/
def cleanComment : Text → Text
  | 42 :: 47 :: cs => 42 :: 92 :: 47 :: cleanComment cs
  | c :: cs => c :: cleanComment cs
  | [] => []

/-- js/serializer.py:6-49 -/
def serialize : Tok → Text
  | .whitespace v => v
  | .lineTerminator => [10]
  | .comment v => [47, 42] ++ cleanComment v ++ [42, 47]
  | .openCurly => [123]
  | .closeCurly => [125]
  | .asterisk => [42]
  | .kwAs => [97, 115]
  | .kwImport => [105, 109, 112, 111, 114, 116]
  | .kwFrom => [102, 114, 111, 109]
  | .comma => [44]
  | .identifier v => v
  | .str v => serializeStringAuto v
  | .regex v f => [47] ++ v ++ [47] ++ f
  | .semicolon => [59]
  | .invalid v => v
  | .eof => []

/-- js/serializer.py:52-54 -/
def serializeMany (ts : List Tok) : Text := ts.flatMap serialize

end Verif.Js
