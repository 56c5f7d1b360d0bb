import Verif.Graph
/-!
# External files

Model of `check_external_files` and its helpers (vanillaplusjs/build/cold_incremental_rebuild.py).
The downloads run in a process pool, so each one is a little program which makes one system call per
step, and a schedule says which download moves next.  A schedule which stops early is a process
killed at that point.

Not modelled: `makedirs_safely` (folders are assumed to be there), the network (what a server answers
is a parameter of the job) and the digest functions (`digest` is a parameter: what comparing a content
with an integrity string does).
-/
namespace Verif.Ext
open Verif

/-- build/file_signature.py: size, modification time, inode. -/
abbrev Sig := Graph.Meta

/-- A file: its bytes and the signature which `get_file_signature` returns for it. -/
structure File where
  bytes : List Nat
  sig : Sig
deriving DecidableEq

/-- The files on disk. -/
abbrev Fs := String → Option File

/-- Replace what is at a path. -/
def Fs.upd (fs : Fs) (p : String) (v : Option File) : Fs := fun q => if q = p then v else fs q

/-- What can be raised. -/
inductive Err where
  | fileNotFound
  | integrityMismatch
  /-- requests.get, raise_for_status, or an interrupted body -/
  | network
  /-- `integrity.split("-")` without exactly two parts, an unknown digest, or an unreadable state file -/
  | valueError
deriving DecidableEq, Repr

/-- What the server answers: an error before the file is opened, or chunks of the body, possibly
followed by an interruption. -/
inductive Resp where
  | refused
  | body (chunks : List (List Nat)) (broken : Bool)
deriving DecidableEq

/-- One entry of `context.external_files`, with the temporary path its download would use
(`secrets.token_urlsafe`, line 244) and the answer of the server. -/
structure Job where
  relpath : String
  integrity : String
  temp : String
  resp : Resp
deriving DecidableEq

/-- The parameters of the model.  `digest i b` is the comparison of content `b` with integrity `i`:
`none` if the integrity string cannot be interpreted.  `sigOf p b` is the signature of the file at
path `p` once `b` has been written to it. -/
structure World where
  digest : String → List Nat → Option Bool
  sigOf : String → List Nat → Sig

/-- cold_incremental_rebuild.py:269-294.  The integrity string is interpreted before the file is
opened. -/
def ensureIntegrity (w : World) (fs : Fs) (path integrity : String) : Except Err Unit :=
  match w.digest integrity [] with
  | none => .error .valueError
  | some _ =>
    match fs path with
    | none => .error .fileNotFound
    | some f =>
      match w.digest integrity f.bytes with
      | some true => .ok ()
      | some false => .error .integrityMismatch
      | none => .error .valueError

/-- How far a call of `handle_external_file` has come. -/
inductive Pc where
  | start
  | get
  | writing (rest : List (List Nat)) (broken : Bool)
  | verify
  | unlinkTarget
  | replacing
  | cleanup (r : Except Err Unit)
  | done (r : Except Err Unit)

/-- cold_incremental_rebuild.py:220-266, one system call. -/
def step (w : World) (j : Job) (fs : Fs) : Pc → Fs × Pc
  -- 231-237
  | .start =>
    match ensureIntegrity w fs j.relpath j.integrity with
    | .ok _ => (fs, .done (.ok ()))
    | .error .fileNotFound => (fs, .get)
    | .error .integrityMismatch => (fs, .get)
    | .error e => (fs, .done (.error e))
  -- 246-248
  | .get =>
    match j.resp with
    | .refused => (fs, .cleanup (.error .network))
    | .body cs broken => (fs.upd j.temp (some ⟨[], w.sigOf j.temp []⟩), .writing cs broken)
  -- 249-250
  | .writing (c :: cs) broken =>
    let old := match fs j.temp with
      | some f => f.bytes
      | none => []
    (fs.upd j.temp (some ⟨old ++ c, w.sigOf j.temp (old ++ c)⟩), .writing cs broken)
  | .writing [] true => (fs, .cleanup (.error .network))
  | .writing [] false => (fs, .verify)
  -- 252
  | .verify =>
    match ensureIntegrity w fs j.temp j.integrity with
    | .ok _ => (fs, .unlinkTarget)
    | .error e => (fs, .cleanup (.error e))
  -- 253-256
  | .unlinkTarget => (fs.upd j.relpath none, .replacing)
  -- 260
  | .replacing =>
    match fs j.temp with
    | some f => ((fs.upd j.temp none).upd j.relpath (some f), .cleanup (.ok ()))
    | none => (fs, .cleanup (.error .fileNotFound))
  -- 262-266
  | .cleanup r => (fs.upd j.temp none, .done r)
  | .done r => (fs, .done r)

/-- The downloads in flight: the files, and how far the job with each target has come. -/
structure Pool where
  fs : Fs
  pc : String → Pc

/-- One step of the job with target `p`, if there is one. -/
def Pool.move (w : World) (jobs : List Job) (s : Pool) (p : String) : Pool :=
  match jobs.find? (fun j => j.relpath = p) with
  | none => s
  | some j =>
    let r := step w j s.fs (s.pc p)
    ⟨r.1, fun q => if q = p then r.2 else s.pc q⟩

/-- cold_incremental_rebuild.py:157-162: run the submitted downloads in the order given by the
schedule. -/
def Pool.run (w : World) (jobs : List Job) (sched : List String) (s : Pool) : Pool :=
  sched.foldl (Pool.move w jobs) s

/-- The pool before anything has run. -/
def Pool.init (fs : Fs) : Pool := ⟨fs, fun _ => .start⟩

/-- build_context.py:38-62: what is recorded for one external file. -/
structure Rec where
  integrity : String
  sig : Sig
deriving DecidableEq

/-- The state file; `torn` is one whose writing was interrupted. -/
inductive StateFile where
  | missing
  | torn
  | has (d : Dict Rec)

/-- The project as far as external files are concerned. -/
structure Proj where
  fs : Fs
  state : StateFile

/-- cold_incremental_rebuild.py:125-128 -/
def StateFile.load : StateFile → Except Err (Dict Rec)
  | .missing => .ok []
  | .torn => .error .valueError
  | .has d => .ok d

/-- cold_incremental_rebuild.py:134-137 -/
def removeDropped (jobs : List Job) : List String → Fs → Except Err Unit × Fs
  | [], fs => (.ok (), fs)
  | p :: ps, fs =>
    if jobs.any (fun j => j.relpath = p) then removeDropped jobs ps fs
    else match fs p with
      | none => (.error .fileNotFound, fs)
      | some _ => removeDropped jobs ps (fs.upd p none)

/-- cold_incremental_rebuild.py:191-217 -/
def skippable (d : Dict Rec) (fs : Fs) (j : Job) : Bool :=
  match d.get? j.relpath with
  | none => false
  | some r =>
    if r.integrity ≠ j.integrity then false
    else match fs j.relpath with
      | none => false
      | some f => f.sig = r.sig

/-- cold_incremental_rebuild.py:145-158: the jobs which are submitted. -/
def submitted (d : Dict Rec) (fs : Fs) (jobs : List Job) : List Job := jobs.filter (fun j => !skippable d fs j)

/-- cold_incremental_rebuild.py:149-151: what is kept for the files which are skipped. -/
def keptRecs (d : Dict Rec) (fs : Fs) : List Job → Dict Rec → Dict Rec
  | [], acc => acc
  | j :: js, acc =>
    if skippable d fs j then
      match d.get? j.relpath with
      | some r => keptRecs d fs js (acc.set j.relpath r)
      | none => keptRecs d fs js acc
    else keptRecs d fs js acc

/-- cold_incremental_rebuild.py:167-168: the first failure among the results. -/
def firstFailure (s : Pool) : List Job → Except Err Unit
  | [] => .ok ()
  | j :: js =>
    match s.pc j.relpath with
    | .done (.error e) => .error e
    | _ => firstFailure s js

/-- cold_incremental_rebuild.py:170-183 -/
def addRecs (fs : Fs) : List Job → Dict Rec → Except Err (Dict Rec)
  | [], acc => .ok acc
  | j :: js, acc =>
    if acc.has j.relpath then addRecs fs js acc
    else match fs j.relpath with
      | none => .error .fileNotFound
      | some f => addRecs fs js (acc.set j.relpath ⟨j.integrity, f.sig⟩)

/-- Every job has come to its end (line 162 waits for this). -/
def Pool.allDone (s : Pool) (jobs : List Job) : Prop := ∀ j ∈ jobs, ∃ r, s.pc j.relpath = .done r

/-- cold_incremental_rebuild.py:115-188: `check_external_files`, with the state afterwards.  The
schedule is meant to end every job; `killedAt` (below) is for the ones which do not. -/
def check (w : World) (jobs : List Job) (sched : List String) (s : Proj) : Except Err Unit × Proj :=
  if jobs.isEmpty then (.ok (), s)
  else match s.state.load with
    | .error e => (.error e, s)
    | .ok d =>
      match removeDropped jobs d.keys s.fs with
      | (.error e, fs) => (.error e, { s with fs := fs })
      | (.ok _, fs) =>
        let subs := submitted d fs jobs
        if subs.isEmpty then (.ok (), { s with fs := fs })
        else
          let pool := (Pool.init fs).run w subs sched
          match firstFailure pool subs with
          | .error e => (.error e, { s with fs := pool.fs })
          | .ok _ =>
            match addRecs pool.fs jobs (keptRecs d fs jobs []) with
            | .error e => (.error e, { s with fs := pool.fs })
            | .ok d' => (.ok (), ⟨pool.fs, .has d'⟩)

/-- The downloads of this call of `check_external_files` were all carried out to their end. -/
def Completed (w : World) (jobs : List Job) (sched : List String) (s : Proj) : Prop :=
  ∀ d fs, s.state.load = .ok d → removeDropped jobs d.keys s.fs = (.ok (), fs) →
    ((Pool.init fs).run w (submitted d fs jobs) sched).allDone (submitted d fs jobs)

/-- The states in which `check_external_files` leaves the project when it is killed: while the files
which are no longer configured are removed (after `k` of the recorded ones were looked at), while
downloads are in flight, or while the state file is written. -/
inductive KilledAt (w : World) (jobs : List Job) (s : Proj) : Proj → Prop
  | removing (d : Dict Rec) (k : Nat) : s.state.load = .ok d → jobs ≠ [] →
      KilledAt w jobs s { s with fs := (removeDropped jobs (d.keys.take k) s.fs).2 }
  | downloading (d : Dict Rec) (fs : Fs) (sched : List String) : s.state.load = .ok d → jobs ≠ [] →
      removeDropped jobs d.keys s.fs = (.ok (), fs) →
      KilledAt w jobs s { s with fs := ((Pool.init fs).run w (submitted d fs jobs) sched).fs }
  | storing (sched : List String) (s' : Proj) : Completed w jobs sched s →
      check w jobs sched s = (.ok (), s') → KilledAt w jobs s ⟨s'.fs, .torn⟩

end Verif.Ext
