import Verif.Assoc
import Verif.CssTok
import Verif.Builder
import Verif.Paths
import Verif.JsManip

/-!
Model of vanillaplusjs/build/css/manips/nest.py.

Sets are lists without duplicates.  The order in which Python goes through a set does not matter where the elements
are all treated (lines 175 and 195); where one element is chosen (line 591) the choice is the parameter `pick`.
A file which is being read is the list of the tokens which are still to come; if the tokenizer ends or raises before
there is an `eof` token, reading on is the error `ended`.  Loops which need not come to an end have fuel, and
`Err.fuel` says that it did not suffice.  Messages of exceptions and `processed_files`, which nothing uses, are left
out.
-/

namespace Verif.Nest

open Verif.Reader Verif.Css Verif.Assoc
open Verif.Js (strip)
open Verif.Paths (join)

/-- nest.py:36-44 -/
structure Ref where
  relpath : Text
  prelude : Text
deriving DecidableEq, Repr

/-- How a build ends early. -/
inductive Err where
  /-- ValueError at 145: the rule is already available. -/
  | already
  /-- ValueError at 475, 481, 488, 493, 508, 552 or 561: the end of the file. -/
  | notFound
  /-- The file cannot be opened (433, 452). -/
  | noFile
  /-- The tokens end without `eof`: StopIteration, or an exception of the tokenizer. -/
  | ended
  /-- KeyError, or ValueError of `list.remove`. -/
  | key
  /-- AssertionError at 394. -/
  | assertion
  /-- Not an exception: the fuel of the model did not suffice. -/
  | fuel
deriving DecidableEq, Repr

/-- nest.py:47-55; of the rule only the block is used. -/
structure Unresolved where
  block : List Tok
  missing : List Ref
deriving DecidableEq, Repr

/-- nest.py:58-116 -/
structure Rules where
  avail : List (Ref × List Tok)
  unres : List (Ref × Unresolved)
  waiting : List (Ref × List Ref)
  counts : List (Text × Int)
  resolvable : List Ref
deriving DecidableEq, Repr

/-- nest.py:313-318 -/
def Rules.empty : Rules := ⟨[], [], [], [], []⟩

/-- `s.add(x)` -/
def add (s : List Ref) (x : Ref) : List Ref := if x ∈ s then s else s ++ [x]

/-- nest.py:155-157 and 204-213: one reference less for the file, the key is removed at 0. -/
def decCount (counts : List (Text × Int)) (p : Text) : Except Err (List (Text × Int)) :=
  match item counts p with
  | none => .error .key
  | some n => .ok (if n - 1 = 0 then del counts p else put counts p (n - 1))

/-- nest.py:159-163: the rules `ws` no longer wait for `ref`. -/
def release (ref : Ref) : List Ref → Rules → Except Err Rules
  | [], rs => .ok rs
  | w :: ws, rs =>
    match item rs.unres w with
    | none => .error .key
    | some u =>
      if ref ∈ u.missing then
        release ref ws { rs with
          unres := put rs.unres w ⟨u.block, u.missing.erase ref⟩
          resolvable := if u.missing.erase ref = [] then add rs.resolvable w else rs.resolvable }
      else .error .key

/-- nest.py:178-193: `ref` waits for `m`. -/
def await (ref : Ref) (rs : Rules) (m : Ref) : Rules :=
  { rs with
    waiting := put rs.waiting m (match item rs.waiting m with
      | none => [ref]
      | some l => l ++ [ref])
    counts := put rs.counts m.relpath ((item rs.counts m.relpath).getD 0 + 1) }

/-- nest.py:198-213: `ref` no longer waits for `m`. -/
def unawait (ref : Ref) (rs : Rules) (m : Ref) : Except Err Rules :=
  match item rs.waiting m with
  | none => .error .key
  | some l =>
    if ref ∈ l then
      if l.erase ref = [] then
        match decCount rs.counts m.relpath with
        | .error e => .error e
        | .ok counts => .ok { rs with waiting := del rs.waiting m, counts := counts }
      else .ok { rs with waiting := put rs.waiting m (l.erase ref) }
    else .error .key

/-- nest.py:195-213 -/
def unawaitAll (ref : Ref) : List Ref → Rules → Except Err Rules
  | [], rs => .ok rs
  | m :: ms, rs =>
    match unawait ref rs m with
    | .error e => .error e
    | .ok rs' => unawaitAll ref ms rs'

/-- nest.py:118-213 -/
def setRule (rs : Rules) (ref : Ref) (block : List Tok) (missing : List Ref) : Except Err Rules :=
  if (item rs.avail ref).isSome then .error .already
  else if missing = [] then
    let rs1 := { rs with
      unres := del rs.unres ref
      resolvable := rs.resolvable.filter (· ≠ ref)
      avail := put rs.avail ref block }
    match item rs.waiting ref with
    | none => .ok rs1
    | some ws =>
      match decCount rs.counts ref.relpath with
      | .error e => .error e
      | .ok counts => release ref ws { rs1 with waiting := del rs.waiting ref, counts := counts }
  else
    let old := match item rs.unres ref with
      | some u => u.missing
      | none => []
    let rs1 := { rs with unres := put (del rs.unres ref) ref ⟨block, missing⟩ }
    let rs2 := (missing.filter (· ∉ old)).foldl (await ref) rs1
    unawaitAll ref (old.filter (· ∉ missing)) rs2

/-- What the manipulator is given: `BuildContext`, the file, the contents of the files, and what Python knows. -/
structure Env where
  uni : Uni
  /-- `str.isspace` for one character -/
  space : Nat → Bool
  /-- `str.lower` -/
  lower : Text → Text
  /-- `context.default_css_file` -/
  main : Text
  /-- `self.relpath` -/
  self : Text
  /-- The tokens of a file below the folder; `none` if it cannot be opened. -/
  files : Text → Option (List Tok)
  /-- `next(iter(s))` of a set -/
  pick : List Ref → Ref

/-- The text behind a word at the beginning. -/
def after (word s : Text) : Option Text := if word.isPrefixOf s then some (s.drop word.length) else none

/-- nest.py:217-219 and 361-366: the argument of the regular expression
`^\s*!\s*PREPROCESSOR\s*:\s+import\s+(?P<args>.*)\s*$`, stripped.  `\s` is `str.isspace`, and `.` is everything but a line
break; thus it matches if the stripped argument has no line break. -/
def importArgs (space : Nat → Bool) (v : Text) : Option Text :=
  (after (txt "!") (v.dropWhile space)).bind fun s1 =>
  (after (txt "PREPROCESSOR") (s1.dropWhile space)).bind fun s2 =>
  (after (txt ":") (s2.dropWhile space)).bind fun s3 =>
  if (s3.head?.map space).getD false then
    (after (txt "import") (s3.dropWhile space)).bind fun s4 =>
    if (s4.head?.map space).getD false ∧ 10 ∉ strip space s4 then some (strip space s4) else none
  else none

/-- `s.index(word)`, `none` if it raises a ValueError. -/
def indexOf (word : Text) : Text → Option Nat
  | [] => if word = [] then some 0 else none
  | c :: s => if word.isPrefixOf (c :: s) then some 0 else (indexOf word s).map (· + 1)

/-- nest.py:367-390 -/
def refOf (env : Env) (args : Text) : Option Ref :=
  match indexOf (txt "from") (env.lower args) with
  | none => some ⟨env.main, strip env.space args⟩
  | some i =>
    let arg := strip env.space (args.drop (i + 4))
    if arg.head? ≠ some 47 ∨ 32 ∈ arg then none
    else some ⟨join (join (txt "src") (txt "public")) (arg.drop 1), strip env.space (args.take i)⟩

/-- nest.py:354-390 -/
def getImport (env : Env) : Tok → Option Ref
  | .comment v => (importArgs env.space v).bind (refOf env)
  | _ => none

/-- Is it whitespace? -/
def isBlank : Tok → Bool
  | .whitespace _ => true
  | _ => false

/-- nest.py:478-481: behind the next `-->`. -/
def skipCdc : List Tok → Except Err (List Tok)
  | [] => .error .ended
  | .eof :: _ => .error .notFound
  | .cdc :: ts => .ok ts
  | _ :: ts => skipCdc ts

/-- nest.py:485-488: behind the next `{`. -/
def skipOpen : List Tok → Except Err (List Tok)
  | [] => .error .ended
  | .eof :: _ => .error .notFound
  | .leftCurly :: ts => .ok ts
  | _ :: ts => skipOpen ts

/-- nest.py:489-497 and 557-566: up to the bracket which closes the `n` open ones: what is read and what is left. -/
def takeBlock : Nat → List Tok → Except Err (List Tok × List Tok)
  | 0, ts => .ok ([], ts)
  | _ + 1, [] => .error .ended
  | _ + 1, .eof :: _ => .error .notFound
  | n + 1, t :: ts =>
    match takeBlock (if t = .leftCurly then n + 2 else if t = .rightCurly then n else n + 1) ts with
    | .error e => .error e
    | .ok (xs, r) => .ok (t :: xs, r)

/-- nest.py:505-523: the prelude up to the next `{`, and what is left. -/
def takePrelude : List Tok → Except Err (List Tok × List Tok)
  | [] => .error .ended
  | .eof :: _ => .error .notFound
  | .leftCurly :: ts => .ok ([], ts)
  | t :: ts =>
    match takePrelude ts with
    | .error e => .error e
    | .ok (xs, r) => .ok (t :: xs, r)

/-- nest.py:534: the next token, with the stack and the file behind it. -/
def popTok : List Tok → List Tok → Option (Tok × List Tok × List Tok)
  | t :: stack, g => some (t, stack, g)
  | [], t :: g => some (t, [], g)
  | [], [] => none

/-- nest.py:533-572: the block of a rule, the references which are missing, and what is left of the file. -/
def takeBody (env : Env) (avail : List (Ref × List Tok)) :
    Nat → List Tok → List Tok → List Ref → List Tok → Except Err (List Tok × List Ref × List Tok)
  | 0, _, _, _, _ => .error .fuel
  | n + 1, stack, value, missing, g =>
    match popTok stack g with
    | none => .error .ended
    | some (t, stack, g) =>
      if value = [] ∧ isBlank t then takeBody env avail n stack value missing g
      else
        match getImport env t with
        | some r =>
          match item avail r with
          | some b => takeBody env avail n (b ++ stack) value missing g
          | none => takeBody env avail n stack (value ++ [t]) (add missing r) g
        | none =>
          if t = .eof then .error .notFound
          else if t = .leftCurly then
            match takeBlock 1 g with
            | .error e => .error e
            | .ok (xs, g) => takeBody env avail n stack (value ++ t :: xs) missing g
          else if t = .rightCurly then .ok (value, missing, g)
          else takeBody env avail n stack (value ++ [t]) missing g

/-- nest.py:574-575 -/
def popBlank (value : List Tok) : List Tok := (value.reverse.dropWhile isBlank).reverse

/-- nest.py:598-608 -/
def expand (env : Env) (avail : List (Ref × List Tok)) : Nat → List Tok → List Tok → Except Err (List Tok)
  | 0, _, _ => .error .fuel
  | _ + 1, [], nodes => .ok nodes
  | n + 1, t :: stack, nodes =>
    match getImport env t with
    | none => expand env avail n stack (nodes ++ [t])
    | some r =>
      match item avail r with
      | none => .error .key
      | some b => expand env avail n (b ++ stack) nodes

/-- nest.py:595-615 -/
def resolve (env : Env) (n : Nat) (r : Ref) (rs : Rules) : Except Err Rules :=
  match item rs.unres r with
  | none => .error .key
  | some u =>
    match expand env rs.avail n u.block [] with
    | .error e => .error e
    | .ok nodes => setRule rs r nodes []

/-- nest.py:588-593 -/
def resolveAll (env : Env) : Nat → Rules → Except Err Rules
  | 0, _ => .error .fuel
  | n + 1, rs =>
    if rs.resolvable = [] then .ok rs
    else
      match resolve env n (env.pick rs.resolvable) rs with
      | .error e => .error e
      | .ok rs' => resolveAll env n rs'

/-- nest.py:525-527 -/
def nameOf (env : Env) (prelude : List Tok) : Text := strip env.space (serializeMany env.uni prelude)

/-- nest.py:503-586: the rule which begins with the token `t`; what is left of the file. -/
def readRule (env : Env) (n : Nat) (imp : Ref) (t : Tok) (g : List Tok) (rs : Rules) : Except Err (List Tok × Rules) :=
  match takePrelude g with
  | .error e => .error e
  | .ok (pre, g1) =>
    match takeBody env rs.avail n [] [] [] g1 with
    | .error e => .error e
    | .ok (value, missing, g2) =>
      match setRule rs ⟨imp.relpath, nameOf env (t :: pre)⟩ (popBlank value) missing with
      | .error e => .error e
      | .ok rs' => .ok (g2, rs')

/-- nest.py:473-586: what is read at the top level, beginning with the next token. -/
def readNext (env : Env) (n : Nat) (imp : Ref) (g : List Tok) (rs : Rules) : Except Err (List Tok × Rules) :=
  match g with
  | [] => .error .ended
  | .eof :: _ => .error .notFound
  | .cdo :: g =>
    match skipCdc g with
    | .error e => .error e
    | .ok g => .ok (g, rs)
  | .atKeyword _ :: g =>
    match skipOpen g with
    | .error e => .error e
    | .ok g =>
      match takeBlock 1 g with
      | .error e => .error e
      | .ok (_, g) => .ok (g, rs)
  | .whitespace _ :: g => .ok (g, rs)
  | .comment _ :: g => .ok (g, rs)
  | t :: g => readRule env n imp t g rs

/-- nest.py:458-586 -/
def ensureUsing (env : Env) (imp : Ref) : Nat → List Tok → Rules → Except Err (List Tok × Rules)
  | 0, _, _ => .error .fuel
  | n + 1, g, rs =>
    match resolveAll env n rs with
    | .error e => .error e
    | .ok rs =>
      if (item rs.avail imp).isSome then .ok (g, rs)
      else
        match readNext env n imp g rs with
        | .error e => .error e
        | .ok (g, rs) => ensureUsing env imp n g rs

/-- The rules, the files which are being read (`resumable_imports`), and `children`.  A generator in
`resumable_imports` is never `None` before the end, so that 428-431 and 447-450 are not reached. -/
structure St where
  rules : Rules
  gens : Text → Option (List Tok)
  children : List Text

/-- nest.py:311-324 -/
def St.new : St := ⟨.empty, fun _ => none, []⟩

/-- nest.py:421-424 and 445: where the tokens of a file come from, its output or for the file itself its source. -/
def source (env : Env) (relpath : Text) : Text :=
  if relpath = env.self then relpath
  else join (join (txt "out") (txt "www")) (relpath.drop ((join (txt "src") (txt "public")).length + 1))

/-- nest.py:399-456 -/
def ensureResolved (env : Env) (n : Nat) (imp : Ref) (st : St) : Except Err St :=
  match resolveAll env n st.rules with
  | .error e => .error e
  | .ok rs =>
    if (item rs.avail imp).isSome then .ok { st with rules := rs }
    else
      match (st.gens (source env imp.relpath)).or (env.files (source env imp.relpath)) with
      | none => .error .noFile
      | some g =>
        match ensureUsing env imp n g rs with
        | .error e => .error e
        | .ok (g', rs') => .ok { st with
            rules := rs'
            gens := fun p => if p = source env imp.relpath then some g' else st.gens p }

/-- nest.py:334-352 when building.  Closing the files at `eof` is left out. -/
def start (env : Env) (st : St) (t : Tok) : Except Err (Bool × St) :=
  match getImport env t with
  | none => .ok (false, st)
  | some r => .ok (true, if r.relpath = env.self ∨ r.relpath ∈ st.children then st
      else { st with children := st.children ++ [r.relpath] })

/-- nest.py:392-397 -/
def cont (env : Env) (n : Nat) (st : St) (t : Tok) : Except Err (Option (List Tok) × St) :=
  match getImport env t with
  | none => .error .assertion
  | some r =>
    match ensureResolved env n r st with
    | .error e => .error e
    | .ok st' =>
      match item st'.rules.avail r with
      | none => .error .key
      | some b => .ok (some b, st')

/-- nest.py:222-627 -/
def nest (env : Env) (n : Nat) : Build.Manip St Tok Err where
  start := start env
  cont := cont env n

/-- nest.py:334-348 when scanning: the dependencies of a file. -/
def scan (env : Env) (deps : List Text) (t : Tok) : List Text :=
  match getImport env t with
  | none => deps
  | some r => if r.relpath = env.self ∨ r.relpath ∈ deps then deps else deps ++ [r.relpath]

end Verif.Nest
