/-!
# Making folders while other processes do

The files of a project are built by several processes.  Each makes the folders it writes to, and removes folders it has emptied
(`build/ioutil.py`, `build/html/manips/outline.py`).  Here the calls of the operating system are single steps, and the processes take their steps
in any order.
-/
namespace Verif.Folders

/-- The names on the way to a file or folder, from a folder which is always there (the root, or the working directory). -/
abbrev Path := List String

inductive Kind where
  | dir
  | file
deriving DecidableEq, Repr

/-- What is at a path. -/
abbrev Disk := Path → Option Kind

inductive Err where
  /-- FileNotFoundError -/
  | missing
  /-- FileExistsError -/
  | exists
  /-- NotADirectoryError -/
  | notDir
  /-- PermissionError -/
  | refused
  /-- OSError, ENOTEMPTY -/
  | notEmpty
deriving DecidableEq, Repr

/-! ## The operating system -/

/-- Some folder on the way to the path is a file. -/
def blocked (d : Disk) (p : Path) : Bool := (List.range p.length).any fun k => d (p.take k) == some .file

/-- `os.stat` -/
def stat (d : Disk) (p : Path) : Except Err Kind :=
  match d p with
  | some k => .ok k
  | none => if blocked d p then .error .notDir else .error .missing

/-- `os.path.exists`; a refused call counts as no. -/
def pathExists (d : Disk) (p : Path) (refused : Bool) : Bool := !refused && (d p).isSome

/-- `os.path.isdir`; a refused call counts as no. -/
def isDir (d : Disk) (p : Path) (refused : Bool) : Bool := !refused && d p == some .dir

def set (d : Disk) (p : Path) (k : Option Kind) : Disk := fun q => if q = p then k else d q

/-- `os.mkdir` -/
def mkdir (d : Disk) (p : Path) : Except Err Disk :=
  if (d p).isSome then .error .exists
  else if blocked d p then .error .notDir
  else if d p.dropLast = none then .error .missing
  else .ok (set d p (some .dir))

/-! ## makedirs_safely -/

/-- Where a process is in `makedirs_safely(path)`.  `i` counts the attempts from 0, `k` is the number of names of the folder `os.makedirs` is
at. -/
inductive Pc where
  /-- ioutil.py:213 -/
  | stat (i : Nat)
  /-- `os.path.exists` of the parent, in `os.makedirs` -/
  | look (i k : Nat)
  /-- `os.mkdir`, in `os.makedirs` -/
  | make (i k : Nat)
  /-- `os.path.isdir` after `os.mkdir` has failed, in `os.makedirs` -/
  | check (i k : Nat) (e : Err)
  | done
  | raised (e : Err)
deriving DecidableEq, Repr

/-- ioutil.py:225-228: `os.makedirs` has raised. -/
def failed (i : Nat) (e : Err) : Pc :=
  if e = .refused then (if i = 4 then .raised .refused else .stat (i + 1)) else .raised e

/-- `os.makedirs`: the folder of `k` names is there. -/
def proceed (p : Path) (i k : Nat) : Pc := if k < p.length then .make i (k + 1) else .done

/-- One call of the operating system by `makedirs_safely(p)`; `refused` says that it raises PermissionError.
ioutil.py:208-229, and CPython's `os.makedirs` with `exist_ok`, which asks for the parent, makes it if it is not there (passing over
FileExistsError), and makes the folder, where any error is passed over if it is a folder afterwards.  The sleeping between attempts has no effect
here. -/
def next (p : Path) (refused : Bool) (d : Disk) : Pc → Disk × Pc
  | .stat i =>
    if refused then (d, .look i p.length)
    else match stat d p with
      | .ok .dir => (d, .done)
      | .ok .file => (d, .raised .exists)
      | .error .missing => (d, .look i p.length)
      | .error e => (d, .raised e)
  | .look i k =>
    if k ≤ 1 then (d, .make i k)
    else if pathExists d (p.take (k - 1)) refused then (d, .make i k)
    else (d, .look i (k - 1))
  | .make i k =>
    if refused then (d, .check i k .refused)
    else match mkdir d (p.take k) with
      | .ok d' => (d', proceed p i k)
      | .error e => (d, .check i k e)
  | .check i k e =>
    if isDir d (p.take k) refused then (d, proceed p i k)
    else if k < p.length ∧ e = .exists then (d, .make i (k + 1))
    else (d, failed i e)
  | .done => (d, .done)
  | .raised e => (d, .raised e)

/-! ## Many processes -/

structure Sys where
  disk : Disk
  pcs : List Pc

/-- What happens next: a process takes a step, or something else changes the disk. -/
inductive Act where
  | step (j : Nat) (refused : Bool)
  | other (d : Disk)

def act (ps : List Path) (s : Sys) : Act → Sys
  | .step j refused =>
    match ps[j]?, s.pcs[j]? with
    | some p, some c => ⟨(next p refused s.disk c).1, s.pcs.set j (next p refused s.disk c).2⟩
    | _, _ => s
  | .other d => ⟨d, s.pcs⟩

/-- The processes make the folders `ps`. -/
def start (ps : List Path) (d : Disk) : Sys := ⟨d, ps.map fun _ => .stat 0⟩

def run (ps : List Path) (d : Disk) (l : List Act) : Sys := l.foldl (act ps) (start ps d)

/-! ## Inline elements of pages

`outline.py` writes the text of an inline script to a file of its own, builds it, removes it, and removes the folders which are empty then. -/

/-- `os.rmdir` among the paths `all`. -/
def rmdir (all : List Path) (d : Disk) (p : Path) : Except Err Disk :=
  match d p with
  | none => .error .missing
  | some .file => .error .notDir
  | some .dir => if all.any (fun q => decide (q ≠ [] ∧ q.dropLast = p) && (d q).isSome) then .error .notEmpty else .ok (set d p none)

inductive Outline where
  /-- outline.py:82-84 and 100-102 -/
  | making (c : Pc)
  /-- outline.py:91-93 and 109-111 -/
  | opening
  /-- outline.py:132 -/
  | removing
  /-- outline.py:138-147; `k` is the number of names of the folder. -/
  | cleaning (k : Nat)
  | done
  | raised (e : Err)
deriving DecidableEq, Repr

/-- One call of the operating system for a page whose inline script is in the folder `p`, which has at least three names.  The reading and
writing of other files is left out. -/
def outline (all : List Path) (p : Path) (file : String) (d : Disk) : Outline → Disk × Outline
  | .making .done => (d, .opening)
  | .making (.raised e) => (d, .raised e)
  | .making c => ((next p false d c).1, .making (next p false d c).2)
  | .opening =>
    if d p = some .dir then (set d (p ++ [file]) (some .file), .removing) else (d, .raised .missing)
  | .removing =>
    if d (p ++ [file]) = some .file then (set d (p ++ [file]) none, .cleaning p.length) else (d, .raised .missing)
  | .cleaning k =>
    if k ≤ 3 then (d, .done)
    else match rmdir all d (p.take k) with
      | .ok d' => (d', .cleaning (k - 1))
      | .error .missing => (d, .done)
      | .error .refused => (d, .done)
      | .error .notEmpty => (d, .done)
      | .error e => (d, .raised e)
  | .done => (d, .done)
  | .raised e => (d, .raised e)

/-- Two pages, with their folders. -/
def two (all : List Path) (p1 p2 : Path) (file : String) (s : Disk × Outline × Outline) (first : Bool) : Disk × Outline × Outline :=
  if first then
    let r := outline all p1 file s.1 s.2.1
    (r.1, r.2, s.2.2)
  else
    let r := outline all p2 file s.1 s.2.2
    (r.1, s.2.1, r.2)

end Verif.Folders
