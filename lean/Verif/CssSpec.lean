import Verif.CssTok
import Verif.JsSpec
/-! # Specification for the CSS rewriting

The lexical grammar of CSS as far as the claims need it (https://www.w3.org/TR/css-syntax-3/): escapes,
string values, names, numbers and urls, and what the rewriting may do to each piece of a stylesheet. -/
namespace Verif.Css
open Verif.Reader (Text txt)
open Verif.Js (hexNum HexDigit NoEnd)

/-- Whitespace. -/
def Space (c : Nat) : Prop := c = 10 ∨ c = 9 ∨ c = 32

/-- The code point of a hexadecimal escape: NUL, surrogates and too large numbers give U+FFFD. -/
inductive CodePoint : Nat → Nat → Prop
  | good {n} : n ≠ 0 → ¬ (0xD800 ≤ n ∧ n ≤ 0xDFFF) → n ≤ 0x10FFFF → CodePoint n n
  | bad {n} : n = 0 ∨ (0xD800 ≤ n ∧ n ≤ 0xDFFF) ∨ n > 0x10FFFF → CodePoint n 0xFFFD

/-- `Escape p next c`: the text `p` behind a backslash, with `next` behind it, is an escape for `c`: a
character which is neither a line break nor a hexadecimal digit, or up to six hexadecimal digits, as many
as there are, and one whitespace character if there is one. -/
inductive Escape : Text → Text → Nat → Prop
  | char {c next} : ¬ HexDigit c → c ≠ 10 → Escape [c] next c
  | hex {hs next n} : hs ≠ [] → hs.length ≤ 6 → (∀ h ∈ hs, HexDigit h) →
      (∀ d, next.head? = some d → ¬ Space d ∧ (hs.length < 6 → ¬ HexDigit d)) →
      CodePoint (hexNum hs) n → Escape hs next n
  | hexSpace {hs w next n} : hs ≠ [] → hs.length ≤ 6 → (∀ h ∈ hs, HexDigit h) → Space w →
      CodePoint (hexNum hs) n → Escape (hs ++ [w]) next n

/-- `v` is the value of the string written as `b` between quotes `q`. -/
inductive StrValue (q : Nat) : Text → Text → Prop
  | nil : StrValue q [] []
  | char {c b v} : c ≠ q → c ≠ 10 → c ≠ 92 → StrValue q b v → StrValue q (c :: b) (c :: v)
  | continuation {b v} : StrValue q b v → StrValue q (92 :: 10 :: b) v
  | escape {p b n v} : Escape p b n → StrValue q b v → StrValue q (92 :: (p ++ b)) (n :: v)

/-- The strings which the serializer writes as CSS reads them: no control character with a C escape, and no
hexadecimal digit or space behind a character which is written as an escape. -/
def WritableStr (v : Text) : Prop :=
  (∀ c ∈ v, c ≠ 0 ∧ ¬ (8 ≤ c ∧ c ≤ 13) ∧ ¬ (0xD800 ≤ c ∧ c ≤ 0xDFFF) ∧ c ≤ 0x10FFFF) ∧
  (∀ pre c d post, v = pre ++ c :: d :: post → c < 32 ∨ 127 ≤ c → ¬ HexDigit d ∧ d ≠ 32)

/-- A digit, as Python's `isdigit` sees it. -/
def Dig (U : Uni) (c : Nat) : Prop := (48 ≤ c ∧ c ≤ 57) ∨ (128 ≤ c ∧ U.digit c = true)

/-- A character which can start a name. -/
def NameStart (c : Nat) : Prop := (65 ≤ c ∧ c ≤ 90) ∨ (97 ≤ c ∧ c ≤ 122) ∨ 128 ≤ c ∨ c = 95

/-- A character of a name. -/
def NameChar (U : Uni) (c : Nat) : Prop := NameStart c ∨ Dig U c ∨ c = 45

/-- The text begins with an escape (a backslash not at the end of the line or file). -/
def EscapeStart (s : Text) : Prop := ∃ d t, s = 92 :: d :: t ∧ d ≠ 10

/-- No name goes on here. -/
def NameEnds (U : Uni) (next : Text) : Prop := (∀ c, next.head? = some c → ¬ NameChar U c) ∧ ¬ EscapeStart next

/-- `p` is a name, possibly empty, written with escapes or not, with `next` behind it; `v` is the name. -/
inductive NameValue (U : Uni) (next : Text) : Text → Text → Prop
  | nil : NameEnds U next → NameValue U next [] []
  | char {c p v} : NameChar U c → NameValue U next p v → NameValue U next (c :: p) (c :: v)
  | escape {e p n v} : Escape e (p ++ next) n → NameValue U next p v →
      NameValue U next (92 :: (e ++ p)) (n :: v)

/-- `url`, in any case -/
def UrlName (v : Text) : Prop :=
  ∃ u r l, v = [u, r, l] ∧ (u = 117 ∨ u = 85) ∧ (r = 114 ∨ r = 82) ∧ (l = 108 ∨ l = 76)

/-- A number starts here (and at least three characters are left). -/
def NumberStart (U : Uni) (s : Text) : Prop :=
  ∃ a b c t, s = a :: b :: c :: t ∧
    (Dig U a ∨ (a = 46 ∧ Dig U b) ∨ ((a = 43 ∨ a = 45) ∧ (Dig U b ∨ (b = 46 ∧ Dig U c))))

/-- A name starts here (and at least three characters are left, except behind a name character). -/
def HyphenName (s : Text) : Prop :=
  ∃ b c t, s = 45 :: b :: c :: t ∧ (NameStart b ∨ b = 45 ∨ (b = 92 ∧ c ≠ 10))

/-- The value of a sequence of ASCII digits. -/
def decimal (ds : Text) : Nat := ds.foldl (fun n c => 10 * n + (c - 48)) 0

/-- The value of an integer with its sign. -/
def signed (sg : Text) (n : Nat) : Int := if sg = [45] then -(n : Int) else n

/-- No sign, or one. -/
def Sign (sg : Text) : Prop := sg = [] ∨ sg = [43] ∨ sg = [45]

/-- Digits, at least one. -/
def Digits (U : Uni) (ds : Text) : Prop := ds ≠ [] ∧ ∀ c ∈ ds, Dig U c

/-- `p` is a number with `next` behind it, written as `o`: an integer in decimal without leading zeros and
without a plus sign, another number as Python writes a `float`. -/
inductive Number (U : Uni) : Text → Text → Text → Prop
  | int {sg ds next o} : Sign sg → Digits U ds →
      (∀ c, next.head? = some c → ¬ Dig U c) →
      (∀ d t, next = 46 :: d :: t → ¬ Dig U d) →
      (∀ e d t, next = e :: d :: t → e = 101 ∨ e = 69 →
        ¬ Dig U d ∧ ((d = 43 ∨ d = 45) → ∀ c, t.head? = some c → ¬ Dig U c)) →
      ((∀ c ∈ ds, c ≤ 57) → o = txt (toString (signed sg (decimal ds)))) →
      Number U (sg ++ ds) next o
  | float {sg ds fr ex next} : Sign sg → (∀ c ∈ ds, Dig U c) →
      (fr = [] ∨ ∃ fs, fr = 46 :: fs ∧ Digits U fs) →
      (ex = [] ∨ ∃ e sg' es, (e = 101 ∨ e = 69) ∧ Sign sg' ∧ Digits U es ∧ ex = e :: (sg' ++ es)) →
      ds ≠ [] ∨ fr ≠ [] → fr ≠ [] ∨ ex ≠ [] →
      (∀ c, next.head? = some c → ¬ Dig U c) →
      Number U (sg ++ ds ++ fr ++ ex) next (U.floatStr (sg ++ ds ++ fr ++ ex))

/-- The characters which make an unquoted url invalid. -/
def BadInUrl (c : Nat) : Prop :=
  c = 34 ∨ c = 39 ∨ c = 40 ∨ c ≤ 8 ∨ c = 11 ∨ (14 ≤ c ∧ c ≤ 31) ∨ c = 127

/-- `v` is the url written as `b` between the brackets; whitespace is skipped. -/
inductive UrlValue : Text → Text → Prop
  | nil : UrlValue [] []
  | space {c b v} : Space c → UrlValue b v → UrlValue (c :: b) v
  | char {c b v} : c ≠ 41 → ¬ Space c → ¬ BadInUrl c → (c = 92 → ¬ EscapeStart (c :: b)) →
      UrlValue b v → UrlValue (c :: b) (c :: v)
  | escape {p b n v} : Escape p b n → UrlValue b v → UrlValue (92 :: (p ++ b)) (n :: v)

/-- The urls which are written as CSS reads them. -/
def WritableUrl (v : Text) : Prop :=
  WritableStr v ∧ (∀ c ∈ v, c ≠ 32 ∧ c ≠ 41)

/-- Some `)` in the text is not behind a backslash. -/
def HasClose (s : Text) : Prop := ∃ a b, s = a ++ 41 :: b ∧ a.getLast? ≠ some 92

/-- What the rewriting may do to a piece of the stylesheet: `Renders U p next o` with `next` the text
behind the piece. -/
inductive Renders (U : Uni) : Text → Text → Text → Prop
  /-- Whitespace is kept. -/
  | space {p next} : (∀ c ∈ p, Space c) → Renders U p next p
  /-- Comments are kept. -/
  | comment {v next} : NoEnd v → Renders U ([47, 42] ++ v ++ [42, 47]) next ([47, 42] ++ v ++ [42, 47])
  /-- An unfinished comment at the end of the file becomes `/`. -/
  | openComment {v} : NoEnd v → Renders U ([47, 42] ++ v) [] [47]
  /-- A character which starts nothing longer is kept. -/
  | delim {c next} : c ≠ 34 → c ≠ 39 → ¬ Space c → ¬ Dig U c → ¬ NameStart c →
      ¬ EscapeStart (c :: next) → ¬ NumberStart U (c :: next) → ¬ HyphenName (c :: next) →
      (c = 47 → next.head? ≠ some 42) →
      (c = 35 → NameEnds U next) → Renders U [c] next [c]
  /-- `-->` and `<!--` are kept. -/
  | marker {p next} : p = txt "-->" ∨ p = txt "<!--" → Renders U p next p
  /-- `#` with a name, `@` with a name: the escapes in the name are replaced. -/
  | prefixed {c p next v} : c = 35 ∨ c = 64 → p ≠ [] → NameValue U next p v → Renders U (c :: p) next (c :: v)
  /-- A name which is not that of a url: the escapes are replaced. -/
  | name {p next v} : p ≠ [] → (∀ c, p.head? = some c → ¬ Dig U c) → ¬ NumberStart U (p ++ next) → NameValue U next p v →
      ¬ (UrlName v ∧ next.head? = some 40) → Renders U p next v
  /-- A function: a name with a bracket. -/
  | function {p next v} : p ≠ [] → (∀ c, p.head? = some c → ¬ Dig U c) → ¬ NumberStart U (p ++ 40 :: next) →
      NameValue U (40 :: next) p v → ¬ UrlName v → Renders U (p ++ [40]) next (v ++ [40])
  /-- A number. -/
  | number {p next o} : Number U p next o → Renders U p next o
  /-- A number with a percent sign. -/
  | percentage {p next o} : Number U p (37 :: next) o → Renders U (p ++ [37]) next (o ++ [37])
  /-- A number with a unit. -/
  | dimension {p o u v next} : Number U p (u ++ next) o → u ≠ [] → NameValue U next u v →
      Renders U (p ++ u) next (o ++ v)
  /-- A string literal is written anew, with the same value if it can be written. -/
  | string {q b next v q' b'} : (q = 34 ∨ q = 39) → StrValue q b v → (q' = 34 ∨ q' = 39) →
      (WritableStr v → StrValue q' b' v) → Renders U (q :: b ++ [q]) next (q' :: b' ++ [q'])
  /-- A string which is open at the end of the file is closed. -/
  | openString {q b e v q' b'} : (q = 34 ∨ q = 39) → StrValue q b v → (e = [] ∨ e = [92]) →
      (q' = 34 ∨ q' = 39) → (WritableStr v → StrValue q' b' v) →
      Renders U (q :: (b ++ e)) [] (q' :: b' ++ [q'])
  /-- A string which is open at the end of the line is lost. -/
  | badString {q b next v} : (q = 34 ∨ q = 39) → StrValue q b v → next.head? = some 10 →
      Renders U (q :: b) next [34, 10]
  /-- A url without quotes. -/
  | url {p b next v w u} : NameValue U (40 :: (b ++ 41 :: next)) p w → UrlName w → UrlValue b v →
      (WritableUrl v → UrlValue u v) → Renders U (p ++ 40 :: (b ++ [41])) next (txt "url(" ++ u ++ txt ")")
  /-- A url which is open at the end of the file is closed, or loses its bracket. -/
  | openUrl {p b v w u} : NameValue U (40 :: b) p w → UrlName w → b ≠ [] → UrlValue b v →
      (WritableUrl v → UrlValue u v) → Renders U (p ++ 40 :: b) [] (txt "url(" ++ u ++ txt ")")
  | emptyUrl {p w} : NameValue U [40] p w → UrlName w → Renders U (p ++ [40]) [] w
  /-- An invalid url, up to the next `)`, is lost. -/
  | badUrl {p a c b next v w} : NameValue U (40 :: (a ++ c :: (b ++ next))) p w → UrlName w → UrlValue a v →
      BadInUrl c → ¬ HasClose (c :: b.dropLast) →
      Renders U (p ++ 40 :: (a ++ c :: b)) next (txt "url(()")
  /-- A url with quotes: the whitespace behind the bracket is removed, but for the last character. -/
  | quotedUrl {p b next w} : NameValue U (40 :: (b ++ next)) p w → UrlName w → (∀ c ∈ b, Space c) →
      (next.head? = some 34 ∨ next.head? = some 39 ∨
        (∃ s, Space s ∧ (next.take 2 = [s, 34] ∨ next.take 2 = [s, 39]))) →
      Renders U (p ++ 40 :: b) next (w ++ [40])

/-- `out` is the stylesheet `text` with every piece rewritten as `Renders` allows. -/
inductive Rewrites (U : Uni) : Text → Text → Prop
  | nil : Rewrites U [] []
  | cons {p next o out} : p ≠ [] → Renders U p next o → Rewrites U next out →
      Rewrites U (p ++ next) (o ++ out)

end Verif.Css
