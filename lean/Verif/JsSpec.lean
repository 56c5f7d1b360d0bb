import Verif.JsTok
/-! # Specification for the JavaScript rewriting

What a reader of the claims needs: string values as in ECMA-262, what may be changed in a source text, and
"the first `*/` is at the end". -/
namespace Verif.Js
open Verif.Reader (Text txt)

/-- A decimal digit. -/
def Digit (c : Nat) : Prop := 48 ≤ c ∧ c ≤ 57

/-- A hexadecimal digit. -/
def HexDigit (c : Nat) : Prop := Digit c ∨ (97 ≤ c ∧ c ≤ 102) ∨ (65 ≤ c ∧ c ≤ 70)

/-- Line terminators of normalised text (ECMA-262 12.3). -/
def LineEnd (c : Nat) : Prop := c = 10 ∨ c = 0x2028 ∨ c = 0x2029

/-- The characters with a meaning of their own behind a backslash and this meaning (ECMA-262 table 34). -/
def singleEscapes : List (Nat × Nat) :=
  [(98, 8), (116, 9), (110, 10), (118, 11), (102, 12), (114, 13), (34, 34), (39, 39), (92, 92)]

/-- The value `v` of the string literal with quote `q` and text `b` between the quotes, in code points
(ECMA-262 12.9.4, strict mode: a module).  Escapes denoting a lone surrogate are left out. -/
inductive SV (q : Nat) : Text → Text → Prop
  | nil : SV q [] []
  | char {c b v} : c ≠ q → c ≠ 92 → c ≠ 10 → c ≠ 13 → SV q b v → SV q (c :: b) (c :: v)
  | single {e c b v} : (e, c) ∈ singleEscapes → SV q b v → SV q (92 :: e :: b) (c :: v)
  | other {c b v} : c ∉ singleEscapes.map Prod.fst → ¬ Digit c → c ≠ 120 → c ≠ 117 → c ≠ 13 → ¬ LineEnd c →
      SV q b v → SV q (92 :: c :: b) (c :: v)
  | nul {b v} : (∀ d, b.head? = some d → ¬ Digit d) → SV q b v → SV q (92 :: 48 :: b) (0 :: v)
  | hex {x y b v} : HexDigit x → HexDigit y → SV q b v →
      SV q (92 :: 120 :: x :: y :: b) (hexNum [x, y] :: v)
  | u4 {hs b v} : hs.length = 4 → (∀ h ∈ hs, HexDigit h) → ¬ (0xD800 ≤ hexNum hs ∧ hexNum hs ≤ 0xDFFF) →
      SV q b v → SV q (92 :: 117 :: (hs ++ b)) (hexNum hs :: v)
  | ubrace {hs b v} : hs ≠ [] → (∀ h ∈ hs, HexDigit h) → hexNum hs ≤ 0x10FFFF →
      ¬ (0xD800 ≤ hexNum hs ∧ hexNum hs ≤ 0xDFFF) →
      SV q b v → SV q (92 :: 117 :: 123 :: (hs ++ 125 :: b)) (hexNum hs :: v)
  | continuation {c b v} : LineEnd c → SV q b v → SV q (92 :: c :: b) v

/-- The texts behind the backslashes which start an escape. -/
def escapeTails : Text → List Text
  | 92 :: e :: b => (e :: b) :: escapeTails b
  | _ :: b => escapeTails b
  | [] => []

/-- The escapes of a literal which the tokenizer reads as ECMA-262 does: no `\xHH`, no line continuation,
and the `}` of `\u{..}` is among the next eight characters. -/
def SupportedEscapes (b : Text) : Prop :=
  ∀ t ∈ escapeTails b, t.head? ≠ some 120 ∧ (∀ c, t.head? = some c → ¬ LineEnd c) ∧
    (t.take 2 = [117, 123] → 125 ∈ t.take 8)

/-- The strings which the serializer writes as ECMA-262 reads them: printable ASCII characters, those with
a short escape, and NUL unless a digit follows. -/
def WritableValue (v : Text) : Prop :=
  (∀ c ∈ v, (32 ≤ c ∧ c < 127) ∨ (8 ≤ c ∧ c ≤ 13) ∨ c = 0) ∧
  (∀ pre d post, v = pre ++ 0 :: d :: post → ¬ Digit d)

/-- `*/` occurs nowhere in the text. -/
def NoEnd (v : Text) : Prop := ∀ pre post, v ≠ pre ++ 42 :: 47 :: post

/-- Not a quote and not a slash. -/
def Ordinary (c : Nat) : Prop := c ≠ 34 ∧ c ≠ 39 ∧ c ≠ 47

/-- `p` is (part of) an identifier, possibly written with unicode escapes, and `v` its characters. -/
inductive IdentValue : Text → Text → Prop
  | nil : IdentValue [] []
  | char {c p v} : c ≠ 92 → Ordinary c → IdentValue p v → IdentValue (c :: p) (c :: v)
  | u4 {hs p v} : hs.length = 4 → (∀ h ∈ hs, HexDigit h) → IdentValue p v →
      IdentValue (92 :: 117 :: (hs ++ p)) (hexNum hs :: v)
  | ubrace {hs p v} : hs ≠ [] → (∀ h ∈ hs, HexDigit h) → hexNum hs ≤ 0x10FFFF → IdentValue p v →
      IdentValue (92 :: 117 :: 123 :: (hs ++ 125 :: p)) (hexNum hs :: v)

/-- The text between the quotes `q`: the quote, line terminators and the backslash occur only behind a
backslash. -/
inductive StrBody (q : Nat) : Text → Prop
  | nil : StrBody q []
  | char {c b} : c ≠ q → c ≠ 92 → ¬ LineEnd c → StrBody q b → StrBody q (c :: b)
  | esc {c b} : StrBody q b → StrBody q (92 :: c :: b)

/-- The line ends (or the file does). -/
def AtLineEnd (next : Text) : Prop := ∀ c, next.head? = some c → LineEnd c

/-- What the rewriting may do to a piece of the source: `Renders p next o` with `next` the source behind
the piece.  The piece is determined by the way it starts: a quote starts a string literal, `//` and `/*`
comments, another `/` a regular expression (or a division). -/
inductive Renders : Text → Text → Text → Prop
  /-- Text without quotes and slashes is kept. -/
  | plain {p next} : (∀ c ∈ p, Ordinary c) → Renders p next p
  /-- The other line terminators become LF. -/
  | lineEnd {c next} : LineEnd c → Renders [c] next [10]
  /-- Escapes in an identifier are written as characters. -/
  | identifier {p next v} : IdentValue p v → Renders p next v
  /-- A comment up to the end of the line becomes a block comment with the same text, except that a `*/`
  in it is broken up. -/
  | lineComment {v next w} : (∀ c ∈ v, ¬ LineEnd c) → AtLineEnd next →
      NoEnd w → (NoEnd v → w = v) → Renders ([47, 47] ++ v) next ([47, 42] ++ w ++ [42, 47])
  /-- A block comment is kept. -/
  | blockComment {v next} : NoEnd v → Renders ([47, 42] ++ v ++ [42, 47]) next ([47, 42] ++ v ++ [42, 47])
  /-- An unfinished block comment at the end of the file is closed. -/
  | openComment {v} : NoEnd v → Renders ([47, 42] ++ v) [] ([47, 42] ++ v ++ [42, 47])
  /-- A regular expression, or what looks like one, is kept. -/
  | regex {v f next} : v.head? ≠ some 42 → v ≠ [] → (∀ c ∈ v, ¬ LineEnd c) → (∀ c ∈ f, 97 ≤ c ∧ c ≤ 122) →
      Renders ([47] ++ v ++ [47] ++ f) next ([47] ++ v ++ [47] ++ f)
  /-- A slash with no second one in its line is kept, with the rest of the line. -/
  | slash {v next} : v.head? ≠ some 42 → v.head? ≠ some 47 → (∀ c ∈ v, ¬ LineEnd c) → AtLineEnd next →
      Renders ([47] ++ v) next ([47] ++ v)
  /-- A string literal is written anew: with the same value, if it is supported. -/
  | string {q b next q' b'} : (q = 34 ∨ q = 39) → StrBody q b → (q' = 34 ∨ q' = 39) →
      (∀ v, SV q b v → SupportedEscapes b → WritableValue v → StrBody q' b' ∧ SV q' b' v) →
      Renders (q :: b ++ [q]) next (q' :: b' ++ [q'])
  /-- A quote without partner in its line is kept, with the rest of the line, if there is no backslash. -/
  | unfinished {q b next o} : (q = 34 ∨ q = 39) → (StrBody q b ∨ ∃ b', b = b' ++ [92] ∧ StrBody q b') →
      AtLineEnd next → (92 ∉ b → o = q :: b) → Renders (q :: b) next o

/-- `out` is the source `text` with every piece rewritten as `Renders` allows. -/
inductive Rewrites : Text → Text → Prop
  | nil : Rewrites [] []
  | cons {p next o out} : p ≠ [] → Renders p next o → Rewrites next out → Rewrites (p ++ next) (o ++ out)

end Verif.Js
