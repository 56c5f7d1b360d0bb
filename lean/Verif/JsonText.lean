import Verif.Graph
import Verif.Reader
import Verif.Assoc
import Mathlib.Data.Nat.Digits.Defs
/-!
# The text of a stored graph

`FileDependencyGraph.store` writes JSON by hand, with `json.dump` for the parts, and
`FileDependencyGraph.load` reads it with `json.load`.  This is the model of both texts: what Python's
`json` writes for strings, lists of strings, integers and floats, and how Python's `json` reads a text.

Texts are lists of code points.  `json` is not part of the project: its model follows the
documented behaviour of the standard library (`json.encoder`, `json.decoder`, `json.scanner` with
the default arguments).  Not modelled: the limits of Python on the depth of nested values and on the
number of digits of an integer, and how `float` and `repr` of floats work, which are parameters (`PyFloat` models them).
-/
namespace Verif.JsonText
open Verif Verif.Reader

/-! ## Writing -/

/-- The digit of a number below 16, in lower case. -/
def hexDigit (n : Nat) : Nat := if n < 10 then 48 + n else 87 + n

/-- `\uXXXX` for a number below 2^16. -/
def unicodeEscape (n : Nat) : Text :=
  [92, 117, hexDigit (n / 4096 % 16), hexDigit (n / 256 % 16), hexDigit (n / 16 % 16), hexDigit (n % 16)]

/-- `json.encoder.encode_basestring_ascii`, one character: `ensure_ascii` is on by default. -/
def escapeChar (c : Nat) : Text :=
  if c = 34 then [92, 34]
  else if c = 92 then [92, 92]
  else if c = 8 then [92, 98]
  else if c = 12 then [92, 102]
  else if c = 10 then [92, 110]
  else if c = 13 then [92, 114]
  else if c = 9 then [92, 116]
  else if 32 ≤ c ∧ c ≤ 126 then [c]
  else if c < 65536 then unicodeEscape c
  else unicodeEscape (55296 + (c - 65536) / 1024) ++ unicodeEscape (56320 + (c - 65536) % 1024)

/-- `json.encoder.encode_basestring_ascii` without the quotes. -/
def escape (s : Text) : Text := s.flatMap escapeChar

/-- `json.dump` of a string. -/
def dumpStr (s : Text) : Text := 34 :: (escape s ++ [34])

/-- The items with `, ` between them. -/
def commas : List Text → Text
  | [] => []
  | [a] => a
  | a :: b :: l => a ++ 44 :: 32 :: commas (b :: l)

/-- `json.dump` of a list of strings. -/
def dumpStrs (l : List Text) : Text := 91 :: (commas (l.map dumpStr) ++ [93])

/-- The decimal digits of a number. -/
def showNat (n : Nat) : Text := if n = 0 then [48] else (Nat.digits 10 n).reverse.map (48 + ·)

/-- `json.dump` of an integer. -/
def showInt : Int → Text
  | .ofNat n => showNat n
  | .negSucc n => 45 :: showNat (n + 1)

/-- Python's conversions between floats and texts: `shown` is what `json.dump` writes for an mtime
(`float.__repr__`, or the digits of an integer), `read` is `float(text)`. -/
structure Floats where
  shown : Rat → Text
  read : Text → Option Rat

/-- graph.py:230-237 `json.dump` of the dictionary with the metadata. -/
def metaText (F : Floats) (m : Graph.Meta) : Text :=
  123 :: (dumpStr (txt "filesize") ++ 58 :: 32 :: (showInt m.filesize ++ 44 :: 32 ::
    (dumpStr (txt "mtime") ++ 58 :: 32 :: (F.shown m.mtime ++ 44 :: 32 ::
      (dumpStr (txt "inode") ++ 58 :: 32 :: (showInt m.inode ++ [125]))))))

/-- graph.py:224-238 what is written for the value of one node. -/
def nodeText (F : Floats) (n : Graph.Node) : Text :=
  123 :: (dumpStr (txt "parents") ++ 58 :: (dumpStrs (n.parents.map txt) ++ 44 ::
    (dumpStr (txt "children") ++ 58 :: (dumpStrs (n.children.map txt) ++ 44 ::
      (dumpStr (txt "metadata") ++ 58 :: (metaText F n.info ++ [125]))))))

/-- graph.py:220-238 the loop, with a comma before every node but the first. -/
def nodesText (F : Floats) : Graph.Graph → Text
  | [] => []
  | [(p, n)] => dumpStr (txt p) ++ 58 :: nodeText F n
  | (p, n) :: e :: g => dumpStr (txt p) ++ 58 :: (nodeText F n ++ 44 :: nodesText F (e :: g))

/-- graph.py:206-240 `store`: the text of the file. -/
def storeText (F : Floats) (g : Graph.Graph) : Text := 123 :: (nodesText F g ++ [125, 10])

/-! ## Reading -/

/-- A JSON value as Python reads it.  An object is a dictionary; a number with a fraction or an
exponent is given by its text, to which `float` is applied. -/
inductive Value where
  | null
  | bool (b : Bool)
  | int (n : Int)
  | float (literal : Text)
  | infinite (neg : Bool)
  | nan
  | str (s : Text)
  | arr (l : List Value)
  | obj (items : List (Text × Value))

/-- `decode` is `JSONDecodeError`; `fuel` is not an exception of Python: the model has run out of
its bound, which is proved not to happen. -/
inductive Fail where
  | decode | fuel
deriving DecidableEq, Repr

/-- The text after an expected character. -/
def eat (c : Nat) : Text → Option Text
  | [] => none
  | d :: r => if d = c then some r else none

/-- `json.decoder.WHITESPACE`. -/
def isSpace (c : Nat) : Bool := c == 32 || c == 9 || c == 10 || c == 13

/-- The text without leading whitespace. -/
def ws (t : Text) : Text := t.dropWhile isSpace

/-- The value of a hexadecimal digit. -/
def hexValue (c : Nat) : Option Nat :=
  if 48 ≤ c ∧ c ≤ 57 then some (c - 48)
  else if 97 ≤ c ∧ c ≤ 102 then some (c - 87)
  else if 65 ≤ c ∧ c ≤ 70 then some (c - 55)
  else none

/-- `json.decoder._decode_uXXXX`. -/
def hex4 (a b c d : Nat) : Option Nat := do
  let a ← hexValue a
  let b ← hexValue b
  let c ← hexValue c
  let d ← hexValue d
  pure (((a * 16 + b) * 16 + c) * 16 + d)

/-- `json.decoder.BACKSLASH`. -/
def simpleEscape (c : Nat) : Option Nat :=
  if c = 34 then some 34
  else if c = 92 then some 92
  else if c = 47 then some 47
  else if c = 98 then some 8
  else if c = 102 then some 12
  else if c = 110 then some 10
  else if c = 114 then some 13
  else if c = 116 then some 9
  else none

/-- The first and the second half of a character above U+FFFF. -/
def isHigh (c : Nat) : Bool := 55296 ≤ c && c ≤ 56319
def isLow (c : Nat) : Bool := 56320 ≤ c && c ≤ 57343

/-- Add characters in front of what has been read. -/
def prepend (l : Text) : Except Fail (Text × Text) → Except Fail (Text × Text)
  | .error e => .error e
  | .ok (s, r) => .ok (l ++ s, r)

/-- `json.decoder.scanstring` after the opening quote, strict.  The first argument is the first half
of a character above U+FFFF when the text before was its escape: Python looks ahead for the second
half at that point, with the same result. -/
def scanString : Option Nat → Text → Except Fail (Text × Text)
  | _, [] => .error .decode
  | h, c :: r =>
    if c = 34 then .ok (h.toList, r)
    else if c = 92 then
      match r with
      | [] => .error .decode
      | e :: r =>
        if e = 117 then
          match r with
          | a :: b :: c :: d :: r =>
            match hex4 a b c d with
            | none => .error .decode
            | some u =>
              match h with
              | some hi =>
                if isLow u then prepend [65536 + (hi - 55296) * 1024 + (u - 56320)] (scanString none r)
                else if isHigh u then prepend [hi] (scanString (some u) r)
                else prepend [hi, u] (scanString none r)
              | none =>
                if isHigh u then scanString (some u) r
                else prepend [u] (scanString none r)
          | _ => .error .decode
        else match simpleEscape e with
          | none => .error .decode
          | some x => prepend (h.toList ++ [x]) (scanString none r)
    else if c < 32 then .error .decode
    else prepend (h.toList ++ [c]) (scanString none r)

def isDigit (c : Nat) : Bool := 48 ≤ c && c ≤ 57

/-- The value of a list of digits. -/
def natOf (ds : Text) : Nat := ds.foldl (fun a d => a * 10 + (d - 48)) 0

/-- One digit or more. -/
def digits1 : Text → Option (Text × Text)
  | [] => none
  | c :: r => if isDigit c then some (c :: r.takeWhile isDigit, r.dropWhile isDigit) else none

/-- `json.scanner.NUMBER_RE`, first group without the sign: `0` or digits which do not begin with it. -/
def intPart (t : Text) : Option (Text × Text) :=
  match eat 48 t with
  | some r => some ([48], r)
  | none => digits1 t

/-- `json.scanner.NUMBER_RE`, second group, if it is there. -/
def fracPart (t : Text) : Text × Text :=
  match eat 46 t with
  | none => ([], t)
  | some r => match digits1 r with
    | none => ([], t)
    | some (ds, r') => (46 :: ds, r')

/-- One of two characters, if it is there. -/
def either (a b : Nat) : Text → Text × Text
  | [] => ([], [])
  | c :: r => if c = a ∨ c = b then ([c], r) else ([], c :: r)

/-- `json.scanner.NUMBER_RE`, third group, if it is there. -/
def expPart (t : Text) : Text × Text :=
  let e := either 101 69 t
  if e.1 = [] then ([], t)
  else
    let s := either 43 45 e.2
    match digits1 s.2 with
    | none => ([], t)
    | some (ds, r') => (e.1 ++ s.1 ++ ds, r')

/-- A number after its sign. -/
def unsigned (neg : Bool) (t : Text) : Option (Value × Text) :=
  match intPart t with
  | none => none
  | some (i, r) =>
    let f := fracPart r
    let e := expPart f.2
    if f.1 = [] ∧ e.1 = [] then some (.int (if neg then - (natOf i : Int) else natOf i), e.2)
    else some (.float ((if neg then [45] else []) ++ i ++ f.1 ++ e.1), e.2)

/-- `json.scanner.NUMBER_RE` and what is made of it. -/
def number (t : Text) : Option (Value × Text) :=
  match eat 45 t with
  | some r => unsigned true r
  | none => unsigned false t

/-- The rest of a text which begins with a word. -/
def word : Text → Text → Option Text
  | [], t => some t
  | c :: w, t => match eat c t with
    | none => none
    | some r => word w r

/-- `json.scanner.py_make_scanner`, `_scan_once`: the values which are not strings, objects or lists. -/
def atom (t : Text) : Option (Value × Text) :=
  match word [110, 117, 108, 108] t with -- null
  | some r => some (.null, r)
  | none => match word [116, 114, 117, 101] t with -- true
  | some r => some (.bool true, r)
  | none => match word [102, 97, 108, 115, 101] t with -- false
  | some r => some (.bool false, r)
  | none => match word [78, 97, 78] t with -- NaN
  | some r => some (.nan, r)
  | none => match word [73, 110, 102, 105, 110, 105, 116, 121] t with -- Infinity
  | some r => some (.infinite false, r)
  | none => match word [45, 73, 110, 102, 105, 110, 105, 116, 121] t with -- -Infinity
  | some r => some (.infinite true, r)
  | none => number t

mutual
/-- `json.scanner.py_make_scanner`, `_scan_once`. -/
def value : Nat → Text → Except Fail (Value × Text)
  | 0, _ => .error .fuel
  | n + 1, t =>
    match eat 34 t with
    | some r => (match scanString none r with
      | .error e => .error e
      | .ok (s, r) => .ok (.str s, r))
    | none => match eat 123 t with
      | some r => (match eat 125 (ws r) with
        | some r => .ok (.obj [], r)
        | none => members n [] (ws r))
      | none => match eat 91 t with
        | some r => (match eat 93 (ws r) with
          | some r => .ok (.arr [], r)
          | none => elements n [] (ws r))
        | none => match atom t with
          | some x => .ok x
          | none => .error .decode
/-- `json.decoder.JSONObject`, from the quote of a key; a key which was there before gets the new
value. -/
def members : Nat → List (Text × Value) → Text → Except Fail (Value × Text)
  | 0, _, _ => .error .fuel
  | n + 1, acc, t =>
    match eat 34 t with
    | none => .error .decode
    | some r => match scanString none r with
      | .error e => .error e
      | .ok (k, r) => match eat 58 (ws r) with
        | none => .error .decode
        | some r => match value n (ws r) with
          | .error e => .error e
          | .ok (v, r) => match eat 125 (ws r) with
            | some r' => .ok (.obj (Assoc.put acc k v), r')
            | none => match eat 44 (ws r) with
              | some r' => members n (Assoc.put acc k v) (ws r')
              | none => .error .decode
/-- `json.decoder.JSONArray`, from the first character of an item. -/
def elements : Nat → List Value → Text → Except Fail (Value × Text)
  | 0, _, _ => .error .fuel
  | n + 1, acc, t =>
    match value n t with
    | .error e => .error e
    | .ok (v, r) => match eat 93 (ws r) with
      | some r' => .ok (.arr (acc ++ [v]), r')
      | none => match eat 44 (ws r) with
        | some r' => elements n (acc ++ [v]) (ws r')
        | none => .error .decode
end

/-- `json.load`: one value with whitespace around it and nothing else. -/
def loads (t : Text) : Except Fail Value :=
  match value (2 * t.length + 1) (ws t) with
  | .error e => .error e
  | .ok (v, r) => if ws r = [] then .ok v else .error .decode

/-! ## The graph of a text -/

/-- What `load` can raise: `JSONDecodeError`, which is a `ValueError`; or, for JSON which is not the
text of a graph, something else. -/
inductive LoadErr where
  | valueError | other | fuel
deriving DecidableEq, Repr

/-- The value of a finite number. -/
def Value.num (F : Floats) : Value → Option Rat
  | .int n => some n
  | .float t => F.read t
  | _ => none

def Value.asInt : Value → Option Int
  | .int n => some n
  | _ => none

def Value.key (k : String) : Value → Option Value
  | .obj items => Assoc.item items (txt k)
  | _ => none

/-- The texts of a string as the model of the graph has them. -/
def untxt (t : Text) : String := String.ofList (t.map Char.ofNat)

def Value.asStr : Value → Option String
  | .str s => some (untxt s)
  | _ => none

def Value.asStrs : Value → Option (List String)
  | .arr l => l.mapM Value.asStr
  | _ => none

/-- graph.py:264-280: the accesses `load` makes to one item.  Python does not look at the types of the
metadata and takes any; here they are numbers. -/
def entry (F : Floats) (v : Value) : Option (List String × List String × Graph.Meta) := do
  let m ← v.key "metadata"
  let mtime ← (← m.key "mtime").num F
  let filesize ← (← m.key "filesize").asInt
  let inode ← (← m.key "inode").asInt
  let parents ← (← v.key "parents").asStrs
  let children ← (← v.key "children").asStrs
  pure (parents, children, ⟨filesize, mtime, inode⟩)

/-- graph.py:259 `json.load(fp).items()` with the accesses to the items. -/
def entries (F : Floats) : Value → Option (List (String × (List String × List String × Graph.Meta)))
  | .obj items => items.mapM (fun p => (entry F p.2).map (fun e => (untxt p.1, e)))
  | _ => none

/-- graph.py:242-285 `load`, from the text of the file. -/
def loadText (F : Floats) (t : Text) : Except LoadErr Graph.Graph :=
  match loads t with
  | .error .decode => .error .valueError
  | .error .fuel => .error .fuel
  | .ok v => match entries F v with
    | none => .error .other
    | some rs => .ok (Graph.load rs)

end Verif.JsonText
