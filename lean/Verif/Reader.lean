/-!
# Peekable and preprocessed readers

Model of `PeekableTextIO` and `PreprocessedTextIO` (vanillaplusjs/build/ioutil.py:15-190).  Text is a
list of code points (`Nat`, since Python strings may hold surrogates).  The wrapped file object is
the text not read yet; its `read` returns at most as many characters as asked for, fewer only at the
end, and all of them for a negative number, as `io.TextIOWrapper` and `io.StringIO` do (neither ever
returns `None`, so lines 58-62 and 87-91 are not reached).
-/
namespace Verif.Reader

/-- Text as code points. -/
abbrev Text := List Nat

/-- Code points of a literal, for examples. -/
def txt (s : String) : Text := s.toList.map Char.toNat

/-- Python's `s[:n]`. -/
def sliceTo (s : Text) (n : Int) : Text := if 0 ≤ n then s.take n.toNat else s.take (s.length + n).toNat
/-- Python's `s[n:]`. -/
def sliceFrom (s : Text) (n : Int) : Text := if 0 ≤ n then s.drop n.toNat else s.drop (s.length + n).toNat

/-- `fp.read(n)` of the wrapped file: what is returned and what is left. -/
def fpRead (under : Text) (n : Int) : Text × Text :=
  if n < 0 then (under, []) else (under.take n.toNat, under.drop n.toNat)

/-- ioutil.py:19-25 -/
structure Peekable where
  under : Text
  buffer : Text
  seenEof : Bool
deriving DecidableEq, Repr

/-- ioutil.py:22-25 -/
def Peekable.init (text : Text) : Peekable := ⟨text, [], false⟩

/-- ioutil.py:27-66 -/
def Peekable.read (s : Peekable) (n : Int) : Option Text × Peekable :=
  if s.seenEof then
    if s.buffer.isEmpty then (none, s)
    else if n = -1 ∨ (s.buffer.length : Int) ≤ n then (some s.buffer, { s with buffer := [] })
    else (some (sliceTo s.buffer n), { s with buffer := sliceFrom s.buffer n })
  else if n = -1 then
    (some (s.buffer ++ (fpRead s.under (-1)).1), ⟨(fpRead s.under (-1)).2, [], true⟩)
  else if (s.buffer.length : Int) ≥ n then
    (some (sliceTo s.buffer n), { s with buffer := sliceFrom s.buffer n })
  else
    let r := fpRead s.under (n - s.buffer.length)
    (some (s.buffer ++ r.1), ⟨r.2, [], decide ((r.1.length : Int) < n - s.buffer.length)⟩)

/-- ioutil.py:68-98 -/
def Peekable.peek (s : Peekable) (n : Int) : Option Text × Peekable :=
  if s.seenEof then
    if s.buffer.isEmpty then (none, s)
    else if n = -1 ∨ (s.buffer.length : Int) ≤ n then (some s.buffer, s)
    else (some (sliceTo s.buffer n), s)
  else if (s.buffer.length : Int) ≥ n then (some (sliceTo s.buffer n), s)
  else
    let r := fpRead s.under (n - s.buffer.length)
    (some (s.buffer ++ r.1), ⟨r.2, s.buffer ++ r.1, decide ((r.1.length : Int) < n - s.buffer.length)⟩)

/-! ## Preprocessing -/

/-- ioutil.py:15, 122: `CARRIAGE_RETURN_LIKE.sub("\n", ..)`. -/
def subNewlines : Text → Text
  | [] => []
  | c :: cs =>
    if c = 13 then
      match cs with
      | [] => [10]
      | d :: ds => if d = 10 then 10 :: subNewlines ds else 10 :: subNewlines (d :: ds)
    else if c = 12 then 10 :: subNewlines cs
    else c :: subNewlines cs

/-- ioutil.py:16, 123: `SURROGATE.sub("�", ..)`. -/
def subSurrogates (s : Text) : Text := s.map (fun c => if 0xD800 ≤ c ∧ c ≤ 0xDFFF then 0xFFFD else c)

/-- ioutil.py:122-123, 144-145 -/
def substitute (s : Text) : Text := subSurrogates (subNewlines s)

/-- ioutil.py:106-124.  The state is that of the wrapped `PeekableTextIO`; `n` is at least one or minus
one. -/
def readOnce (s : Peekable) (n : Int) : Option Text × Peekable :=
  match s.read n with
  | (none, s1) => (none, s1)
  | (some res, s1) =>
    if (res.length : Int) = n ∧ res.getLast? = some 13 then
      let p := s1.peek 1
      if p.1 = some [10] then (some (substitute res.dropLast), p.2) else (some (substitute res), p.2)
    else (some (substitute res), s1)

/-- ioutil.py:126-146 -/
def peekOnce (s : Peekable) (n : Int) : Option Text × Peekable :=
  match s.peek (if n < 1 then n else n + 1) with
  | (none, s1) => (none, s1)
  | (some res, s1) =>
    if n ≥ 1 ∧ (res.length : Int) = n + 1 then
      if res.drop (res.length - 2) = [13, 10] then (some (substitute (sliceTo res (-2))), s1)
      else (some (substitute res.dropLast), s1)
    else (some (substitute res), s1)

/-- ioutil.py:161-167; `fuel` bounds the number of rounds. -/
def readLoop : Nat → Text → Peekable → Int → Option Text × Peekable
  | 0, res, s, _ => (some res, s)
  | fuel + 1, res, s, n =>
    if (res.length : Int) < n then
      match readOnce s (n - res.length) with
      | (none, s1) => (some res, s1)
      | (some more, s1) => readLoop fuel (res ++ more) s1 n
    else (some res, s)

/-- How many characters are left in the wrapped reader. -/
def Peekable.left (s : Peekable) : Nat := s.buffer.length + s.under.length

/-- ioutil.py:148-167.  Every round but two takes a character, so `left + 3` rounds are enough. -/
def preRead (s : Peekable) (n : Int) : Option Text × Peekable :=
  match readOnce s n with
  | (none, s1) => (none, s1)
  | (some res, s1) =>
    if n < 1 ∨ (res.length : Int) = n then (some res, s1)
    else if res.isEmpty then (none, s1)
    else readLoop (s1.left + 3) res s1 n

/-- ioutil.py:182-190; `fuel` bounds the number of rounds.  The inner result is never `None` here since
the first peek returned something. -/
def peekLoop : Nat → Text → Peekable → Int → Int → Option Text × Peekable
  | 0, res, s, _, _ => (some res, s)
  | fuel + 1, res, s, n, attempted =>
    let next := attempted + (n - res.length)
    match peekOnce s next with
    | (none, s1) => (none, s1)
    | (some res', s1) =>
      if (res'.length : Int) = n ∨ res'.length = res.length then (some res', s1)
      else peekLoop fuel res' s1 n next

/-- ioutil.py:169-190 -/
def prePeek (s : Peekable) (n : Int) : Option Text × Peekable :=
  match peekOnce s n with
  | (none, s1) => (none, s1)
  | (some res, s1) =>
    if n < 1 ∨ (res.length : Int) = n then (some res, s1)
    else if res.isEmpty then (none, s1)
    else peekLoop (n.toNat + 2) res s1 n n

end Verif.Reader
