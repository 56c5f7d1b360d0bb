import Verif.ImgFit
import Verif.Reader

/-!
Model of target ids in `vanillaplusjs/build/html/manips/images/metadata.py` (lines 220-380).

Reservations are processes whose steps interleave arbitrarily and which may die at any point; the operating system
releases the lock of a process which dies.  `open(path, "w")` empties the file; the single short `write` which
follows is taken to be atomic.
-/

namespace Verif.Img

open Verif.Reader

/-! ## reserve_target -/

/-- Where a reservation is in metadata.py:343-366. -/
inductive Pc where
  | idle
  /-- started, waiting for the lock (348) -/
  | waiting
  /-- has the lock, before reading the counter (349) -/
  | locked
  /-- has the number of the counter file (355) -/
  | got (c : ℕ)
  /-- has emptied the counter file (357) -/
  | cut (c : ℕ)
  /-- has written the new number `c` (360) -/
  | counted (c : ℕ)
  /-- the folder exists (363) -/
  | made (c : ℕ)
  /-- has emptied the placeholder (364) -/
  | opened (c : ℕ)
  /-- has written the placeholder (366) -/
  | placed (c : ℕ)
  /-- has released the lock and returned `c` -/
  | done (c : ℕ)
  /-- raised an exception -/
  | failed
  /-- was killed -/
  | dead
  deriving DecidableEq, Repr

/-- Contents of a file which is only ever created, emptied and written: absent, empty, or a value. -/
inductive File (α : Type) where
  | absent
  | empty
  | full (a : α)
  deriving DecidableEq, Repr

/-- The folder of an image, the lock, and the reservations.  `want` is the target each asks for, `log` lists the ids
returned, latest first, and `seen` what `log` was when the reservation started. -/
structure Res (τ : Type) where
  counter : File ℕ
  placeholder : ℕ → File τ
  lock : Option ℕ
  pc : ℕ → Pc
  want : ℕ → τ
  log : List ℕ
  seen : ℕ → List ℕ

def upd {α : Type} (f : ℕ → α) (i : ℕ) (a : α) : ℕ → α := fun j => if j = i then a else f j

/-- One step of one reservation, metadata.py:343-366. -/
inductive Step {τ : Type} : Res τ → Res τ → Prop
  /-- 343-347 -/
  | start {s : Res τ} {i : ℕ} (t : τ) (h : s.pc i = .idle) :
      Step s { s with pc := upd s.pc i .waiting, want := upd s.want i t, seen := upd s.seen i s.log }
  /-- 348 -/
  | acquire {s : Res τ} {i : ℕ} (h : s.pc i = .waiting) (hl : s.lock = none) :
      Step s { s with pc := upd s.pc i .locked, lock := some i }
  /-- 350-351 -/
  | read {s : Res τ} {i c : ℕ} (h : s.pc i = .locked) (hc : s.counter = .full c) : Step s { s with pc := upd s.pc i (.got c) }
  /-- 352-353 -/
  | fresh {s : Res τ} {i : ℕ} (h : s.pc i = .locked) (hc : s.counter = .absent) : Step s { s with pc := upd s.pc i (.got 0) }
  /-- 351: `int("")` raises ValueError; the lock is released -/
  | torn {s : Res τ} {i : ℕ} (h : s.pc i = .locked) (hc : s.counter = .empty) :
      Step s { s with pc := upd s.pc i .failed, lock := none }
  /-- 357 -/
  | cut {s : Res τ} {i c : ℕ} (h : s.pc i = .got c) : Step s { s with pc := upd s.pc i (.cut c), counter := .empty }
  /-- 355, 358 -/
  | count {s : Res τ} {i c : ℕ} (h : s.pc i = .cut c) : Step s { s with pc := upd s.pc i (.counted (c + 1)), counter := .full (c + 1) }
  /-- 360-362 -/
  | make {s : Res τ} {i c : ℕ} (h : s.pc i = .counted c) : Step s { s with pc := upd s.pc i (.made c) }
  /-- 363 -/
  | opens {s : Res τ} {i c : ℕ} (h : s.pc i = .made c) :
      Step s { s with pc := upd s.pc i (.opened c), placeholder := upd s.placeholder c .empty }
  /-- 364 -/
  | place {s : Res τ} {i c : ℕ} (h : s.pc i = .opened c) :
      Step s { s with pc := upd s.pc i (.placed c), placeholder := upd s.placeholder c (.full (s.want i)) }
  /-- 366 -/
  | release {s : Res τ} {i c : ℕ} (h : s.pc i = .placed c) :
      Step s { s with pc := upd s.pc i (.done c), lock := none, log := c :: s.log }
  /-- the process is killed -/
  | kill {s : Res τ} {i : ℕ} (h : s.pc i ≠ .idle) (hd : ∀ c, s.pc i ≠ .done c) :
      Step s { s with pc := upd s.pc i .dead, lock := if s.lock = some i then none else s.lock }

/-- A folder before any of the reservations considered, with nothing locked. -/
def Start {τ : Type} (s : Res τ) : Prop := s.lock = none ∧ (∀ i, s.pc i = .idle) ∧ s.log = []

inductive Reach {τ : Type} (s0 : Res τ) : Res τ → Prop
  | refl : Reach s0 s0
  | step {s t : Res τ} (h : Reach s0 s) (hs : Step s t) : Reach s0 t

/-! ## get_target -/

/-- metadata.py:160-207: what is compared of a metadata file. -/
structure Meta (τ : Type) where
  settingsHash : ℤ
  contentsHash : Text
  target : τ
  deriving DecidableEq, Repr

/-- An entry of the folder of an image: metadata.json and placeholder.json, if they exist, as parsed or with the
error that parsing them raises. -/
structure Entry (τ : Type) where
  name : Text
  isDir : Bool
  metadata : Option (Except Err (Meta τ))
  placeholder : Option (Except Err τ)

/-- metadata.py:268-325.  `int` is Python's conversion of a string to a number.  Line 309 indexes an object which has
no `__getitem__`. -/
def scanEntries {τ : Type} [DecidableEq τ] (int : Text → Option ℤ) (settingsHash : ℤ) (contentsHash : Text) (target : τ) :
    List (Entry τ) → Except Err (Option ℤ)
  | [] => .ok none
  | e :: es =>
    let found : Except Err (Option ℤ) := match int e.name with
      | none => .error .valueError
      | some n => .ok (some n)
    if e.isDir = false then scanEntries int settingsHash contentsHash target es
    else match e.metadata with
      | none => match e.placeholder with
        | none => scanEntries int settingsHash contentsHash target es
        | some (.error x) => .error x
        | some (.ok p) => if p = target then found else scanEntries int settingsHash contentsHash target es
      | some (.error x) => .error x
      | some (.ok m) =>
        if m.settingsHash ≠ settingsHash then scanEntries int settingsHash contentsHash target es
        else if m.contentsHash ≠ contentsHash then .error .typeError
        else if m.target ≠ target then scanEntries int settingsHash contentsHash target es
        else found

/-- What get_target looks at besides the entries. -/
structure Image where
  /-- the source exists (246) -/
  source : Bool
  /-- contents of the hash file in out/www (254-257) -/
  hashFile : Option Text
  /-- `calculate_hash` of the source (264) -/
  calculated : Text

/-- metadata.py:254-264. -/
def Image.contentsHash (i : Image) : Text := i.hashFile.getD i.calculated

/-- metadata.py:246-327; `entries` is `none` if the folder does not exist. -/
def getTarget {τ : Type} [DecidableEq τ] (int : Text → Option ℤ) (image : Image) (settingsHash : Except Err ℤ)
    (entries : Option (List (Entry τ))) (target : τ) : Except Err (Option ℤ) :=
  if image.source = false then .ok none
  else match entries with
    | none => .ok none
    | some es =>
      match settingsHash with
      | .error x => .error x
      | .ok h => scanEntries int h image.contentsHash target es

end Verif.Img
