import Verif.Graph
/-!
# Model of `vanillaplusjs/build/hot_incremental_rebuild.py`

The builders, scanners, process pool and file system are the environment: what a scan or a build
returns, which running builds have completed when the loop wakes up, the signatures of files and
the iteration order of Python sets are parameters, and the theorems hold for all their values.

* Python sets are lists used only through membership, insertion and removal of all occurrences;
  where a set is turned into a list its order is a parameter.
* The disk is the set of files and folders (by path relative to the project) plus the mode file.
* `get_file_depends_on` is evaluated by the code for every waiting file in the first pass, before
  any build is started, and never changes its answer, so its exception is raised up front.
-/
namespace Verif.Hot
open Verif Verif.Graph

/-- build/file_signature.py:5-22 -/
abbrev Sig := Graph.Meta

/-- build/scan_file_result.py:5-31 (placeholder contents dropped). -/
structure ScanResult where
  dependencies : List String
  produces : List String
  placeholders : List String
deriving DecidableEq, Repr

/-- build/build_file_result.py:5-22 -/
structure BuildResult where
  children : List String
  produced : List String
  reused : List String
deriving DecidableEq, Repr

/-- Exceptions: `cyclic` is CyclicDependencyException, `notFound` FileNotFoundError, `buildFailed`
anything raised inside a scanner or builder, `fuel` a search that has not ended within the model's
bound. -/
inductive Err where
  | valueError | keyError | cyclic | notFound | buildFailed | fuel
deriving DecidableEq, Repr

/-- Exceptions of the graph API. -/
def liftErr : Graph.Err → Err
  | .valueError => .valueError
  | .keyError => .keyError
  | .fuel => .fuel

/-- Result of a graph query. -/
def liftQ {α : Type} : Except Graph.Err α → Except Err α
  | .ok a => .ok a
  | .error e => .error (liftErr e)

/-- Result of a graph update: an exception ends the rebuild. -/
def liftG (r : Graph.Res) : Except Err Graph :=
  match r.1 with
  | .ok _ => .ok r.2
  | .error e => .error (liftErr e)

/-- `str.startswith`. -/
def startsWith (s pre : String) : Bool := pre.toList.isPrefixOf s.toList

/-- "dev" or "prod". -/
inductive Mode where
  | dev | prod
deriving DecidableEq, Repr

/-- What the rebuild sees and changes on disk. -/
structure Disk where
  files : List String
  dirs : List String
  mode : Option Mode
deriving DecidableEq, Repr

/-! ## Scanning (127-164) -/

/-- State of the scanning loop: 129-130 and the arguments it extends. -/
structure ScanState where
  updated : Dict ScanResult
  newPh : Dict String
  added : Dict Sig
  disk : Disk

/-- What a scan of a file returns, given the disk at that time. -/
abbrev Scanner := Disk → String → Except Err ScanResult

/-- hot_incremental_rebuild.py:614-642 `scan_files`; the first failing future raises. -/
def scanFiles (scan : Scanner) (d : Disk) : List String → Except Err (List (String × ScanResult))
  | [] => .ok []
  | f :: fs =>
    match scan d f with
    | .error e => .error e
    | .ok r => match scanFiles scan d fs with
      | .error e => .error e
      | .ok rs => .ok ((f, r) :: rs)

/-- hot_incremental_rebuild.py:142-164: create the missing placeholders of one file.  (The parent
folder is assumed to exist, `open(..., "w")` would raise otherwise.) -/
def makePlaceholders (sig : String → Sig) (f : String) : List String → ScanState → ScanState × List String
  | [], st => (st, [])
  | p :: ps, st =>
    if st.disk.files.contains p || st.disk.dirs.contains p then makePlaceholders sig f ps st
    else
      let r := makePlaceholders sig f ps
        { st with newPh := st.newPh.set p f, added := st.added.set p (sig p),
                  disk := { st.disk with files := st.disk.files ++ [p] } }
      (r.1, p :: r.2)

/-- hot_incremental_rebuild.py:140-164 over all results of one round. -/
def makeAll (sig : String → Sig) : List (String × ScanResult) → ScanState → ScanState × List String
  | [], st => (st, [])
  | (f, r) :: rs, st =>
    let a := makePlaceholders sig f r.placeholders st
    let b := makeAll sig rs a.1
    (b.1, a.2 ++ b.2)

/-- `dict.update`. -/
def updateAll (rs : List (String × ScanResult)) (d : Dict ScanResult) : Dict ScanResult :=
  rs.foldl (fun d x => d.set x.1 x.2) d

/-- hot_incremental_rebuild.py:132-164 the scanning loop; `fuel` bounds the number of rounds. -/
def scanLoop (scan : Scanner) (sig : String → Sig) : Nat → List String → ScanState → Except Err Unit × ScanState
  | _, [], st => (.ok (), st)
  | 0, _ :: _, st => (.error .fuel, st)
  | n + 1, f :: fs, st =>
    match scanFiles scan st.disk (f :: fs) with
    | .error e => (.error e, st)
    | .ok rs =>
      -- 642: `dict(zip(files, mapped_files))`
      let r := makeAll sig (updateAll rs []) { st with updated := updateAll (updateAll rs []) st.updated }
      scanLoop scan sig n r.2 r.1

/-! ## Output dependencies (166-207) -/

/-- hot_incremental_rebuild.py:170-173 -/
def outMapOf (updated : Dict ScanResult) : Dict String :=
  updated.foldl (fun m x => x.2.produces.foldl (fun m o => m.set o x.1) m) []

/-- `out` or `artifacts` prefix, hot_incremental_rebuild.py:179-181, 377. -/
def isOutput (p : String) : Bool := startsWith p "out" || startsWith p "artifacts"

/-- hot_incremental_rebuild.py:178-204 for one scanned file.  The result is a set. -/
def reinterpDeps (oldOut : Graph) (deleted : List String) :
    List String → List String → Dict String → Except Err (List String × Dict String)
  | [], acc, m => .ok (acc, m)
  | d :: ds, acc, m =>
    if !isOutput d then reinterpDeps oldOut deleted ds (acc ++ [d]) m
    else match m.get? d with
      | some p => reinterpDeps oldOut deleted ds (acc ++ [p]) m
      | none =>
        match oldOut.get? d with
        | none => .error .valueError
        | some n =>
          match n.parents.find? (fun p => !deleted.contains p) with
          | none => .error .valueError
          | some p => reinterpDeps oldOut deleted ds (acc ++ [p]) (m.set d p)

/-- hot_incremental_rebuild.py:175-207 over all scanned files; 206-207 drop the file itself. -/
def reinterpAll (oldOut : Graph) (deleted : List String) :
    List (String × ScanResult) → Dict String → Except Err (List (String × ScanResult) × Dict String)
  | [], m => .ok ([], m)
  | (f, r) :: rs, m =>
    match reinterpDeps oldOut deleted r.dependencies [] m with
    | .error e => .error e
    | .ok (ds, m1) =>
      match reinterpAll oldOut deleted rs m1 with
      | .error e => .error e
      | .ok (rest, m2) => .ok ((f, { r with dependencies := ds.filter (· ≠ f) }) :: rest, m2)

/-! ## Affected files (209-247) -/

/-- hot_incremental_rebuild.py:227-229, 233-235: push the parents not yet known.  The stack's head
is its top. -/
def pushNew : List String → List String → List String → List String × List String
  | [], seen, stack => (seen, stack)
  | p :: ps, seen, stack =>
    if seen.contains p then pushNew ps seen stack
    else pushNew ps (seen ++ [p]) (p :: stack)

/-- hot_incremental_rebuild.py:222-242: returns the set of files and the files popped, in order. -/
def closeLoop (dep ph : String → List String) : Nat → List String → List String → List String →
    Option (List String × List String)
  | _, seen, [], popped => some (seen, popped)
  | 0, _, _ :: _, _ => none
  | n + 1, seen, f :: stack, popped =>
    let a := pushNew (dep f) seen stack
    let b := pushNew (ph f) a.1 a.2
    closeLoop dep ph n b.1 b.2 (popped ++ [f])

/-- Insert into a set. -/
def insertAll (xs : List String) (seen : List String) : List String :=
  xs.foldl (fun s x => if s.contains x then s else s ++ [x]) seen

/-- hot_incremental_rebuild.py:209-242 -/
def closure (oldDep oldPh : Graph) (updated deleted : List String) : Option (List String × List String) :=
  closeLoop (pars oldDep) (pars oldPh)
    ((updated ++ deleted).length + oldDep.length + oldPh.length)
    (insertAll (updated ++ deleted) []) (updated ++ deleted).reverse []

/-- hot_incremental_rebuild.py:237-242: recorded outputs of the popped files, by kind. -/
def dirtyOutputs (oldOut : Graph) (popped : List String) : List String :=
  (popped.flatMap (kids oldOut)).filter (fun o => !startsWith o "artifacts")
@[inherit_doc dirtyOutputs]
def dirtyArtifacts (oldOut : Graph) (popped : List String) : List String :=
  (popped.flatMap (kids oldOut)).filter (fun o => startsWith o "artifacts")

/-- `os.path.dirname` of a relative path without repeated slashes. -/
def dirname (p : String) : String :=
  String.ofList (((p.toList.reverse.dropWhile (· ≠ '/')).drop 1).reverse)

/-- hot_incremental_rebuild.py:255-258: all folders above a file. -/
def ancestors : Nat → String → List String
  | 0, _ => []
  | n + 1, p => if dirname p = "" then [] else dirname p :: ancestors n (dirname p)

/-- All folders above a file; each step shortens the path. -/
def foldersOf (p : String) : List String := ancestors p.toList.length p

/-! ## Scheduler (270-451) -/

/-- What the process pool reports for one file when the loop wakes up: `none` still running. -/
abbrev Batch := String → Option (Except Err BuildResult)

/-- What is observable of the running of builds. -/
inductive Event where
  | started (f : String)
  | finished (f : String) (r : BuildResult)
deriving DecidableEq, Repr

/-- Fixed tables of the loop. -/
structure Tables where
  deps : String → List String
  creates : String → List String
  affected : List String
  dirtyArt : List String
  scanned : String → Bool
  oldDep : Graph
  oldOut : Graph

/-- Loop variables: 244, 170, 270-275, with the history of events and the files on disk. -/
structure Sched where
  todo : List String
  running : List String
  results : Dict BuildResult
  stillOut : List String
  pendOut : List String
  stillArt : List String
  pendArt : List String
  outMap : Dict String
  disk : Disk
  log : List Event

/-- hot_incremental_rebuild.py:309-321 -/
def depBlocked (T : Tables) (s : Sched) (f : String) : Bool :=
  (T.deps f).any (fun c => !s.results.has c && T.affected.contains c)

/-- hot_incremental_rebuild.py:326-334 -/
def outBlocked (T : Tables) (pO pA : List String) (f : String) : Bool :=
  (T.creates f).any (fun o => pO.contains o || pA.contains o)

/-- hot_incremental_rebuild.py:340-344 -/
def claim (T : Tables) (stillOut : List String) : List String → List String → List String →
    List String × List String
  | [], pO, pA => (pO, pA)
  | o :: os, pO, pA =>
    if stillOut.contains o then claim T stillOut os (o :: pO) pA
    else if T.dirtyArt.contains o then claim T stillOut os pO (o :: pA)
    else claim T stillOut os pO pA

/-- hot_incremental_rebuild.py:304-344: choose the files to start in this pass. -/
def pick (T : Tables) (s : Sched) : List String → List String → List String →
    List String × List String × List String
  | [], pO, pA => ([], pO, pA)
  | f :: fs, pO, pA =>
    if depBlocked T s f || outBlocked T pO pA f then pick T s fs pO pA
    else
      let c := claim T s.stillOut (T.creates f) pO pA
      let r := pick T s fs c.1 c.2
      (f :: r.1, r.2.1, r.2.2)

/-- hot_incremental_rebuild.py:304-360: one pass over the waiting files. -/
def submit (T : Tables) (s : Sched) : Except Err Sched :=
  let r := pick T s s.todo s.pendOut s.pendArt
  if r.1 = [] ∧ s.running = [] then .error .cyclic
  else .ok { s with
    todo := r.1.foldl (fun t f => t.erase f) s.todo
    running := s.running ++ r.1
    pendOut := r.2.1
    pendArt := r.2.2
    log := s.log ++ r.1.map .started }

/-- hot_incremental_rebuild.py:399-404 -/
def pushUnseenDeps : List String → List String → List String → List String × List String
  | [], stack, seen => (stack, seen)
  | c :: cs, stack, seen =>
    if seen.contains c then pushUnseenDeps cs stack seen
    else pushUnseenDeps cs (c :: stack) (c :: seen)

/-- hot_incremental_rebuild.py:383-404: who produced an output in the previous build. -/
def innerSearch (T : Tables) (child : String) : Nat → List String → List String → Except Err (Option String)
  | _, [], _ => .ok none
  | 0, _ :: _, _ => .error .fuel
  | n + 1, f :: stack, seen =>
    match liftQ (getChildren T.oldOut f) with
    | .error e => .error e
    | .ok outs =>
      if outs.contains child then .ok (some f)
      else match liftQ (getChildren T.oldDep f) with
        | .error e => .error e
        | .ok cs =>
          let r := pushUnseenDeps cs stack seen
          innerSearch T child n r.1 r.2

/-- hot_incremental_rebuild.py:371-413: replace outputs among the reported children by their
producers. -/
def reinterpChildren (T : Tables) (f : String) :
    List String → List String → Dict String → Except Err (List String × Dict String)
  | [], acc, m => .ok (acc, m)
  | c :: cs, acc, m =>
    match m.get? c with
    | some p => reinterpChildren T f cs (if p = f then acc else acc ++ [p]) m
    | none =>
      if isOutput c then
        if T.scanned f then .error .valueError
        else match innerSearch T c (T.oldDep.length + 2) [f] [] with
          | .error e => .error e
          | .ok none => .error .valueError
          | .ok (some p) => reinterpChildren T f cs (if p = f then acc else acc ++ [p]) (m.set c p)
      else reinterpChildren T f cs (acc ++ [c]) m

/-- Remove from a set. -/
def del (x : String) (l : List String) : List String := l.filter (· ≠ x)

/-- The four sets of pending work. -/
structure Dirty where
  stillOut : List String
  pendOut : List String
  stillArt : List String
  pendArt : List String
deriving DecidableEq, Repr

/-- hot_incremental_rebuild.py:418-430 and, with the same effects, 432-451; `set.remove` of an
absent element raises KeyError. -/
def settle (T : Tables) (o : String) (d : Dirty) : Except Err Dirty :=
  if d.stillOut.contains o then
    if d.pendOut.contains o then
      .ok { d with stillOut := del o d.stillOut, pendOut := del o d.pendOut }
    else .error .keyError
  else if d.stillArt.contains o then
    if d.pendArt.contains o then
      .ok { d with stillArt := del o d.stillArt, pendArt := del o d.pendArt }
    else .error .keyError
  else if T.dirtyArt.contains o then
    if d.pendArt.contains o then .ok { d with pendArt := del o d.pendArt }
    else .error .keyError
  else .ok d

/-- The loops 417-430 and 431-451. -/
def settleAll (T : Tables) : List String → Dirty → Except Err Dirty
  | [], d => .ok d
  | o :: os, d => match settle T o d with
    | .error e => .error e
    | .ok d1 => settleAll T os d1

/-- The files a build wrote, and the folders above them. -/
def Disk.write (d : Disk) (fs : List String) : Disk :=
  { d with files := d.files ++ fs, dirs := d.dirs ++ fs.flatMap foldersOf }

/-- hot_incremental_rebuild.py:367-451: a completed build.  The files the build wrote appear on
disk no later than its completion. -/
def finish (T : Tables) (s : Sched) (f : String) (r : BuildResult) : Except Err Unit × Sched :=
  let s0 := { s with disk := s.disk.write r.produced, log := s.log ++ [.finished f r] }
  match reinterpChildren T f r.children [] s0.outMap with
  | .error e => (.error e, s0)
  | .ok (cs, m) =>
    let s1 := { s0 with
      outMap := m
      results := s0.results.set f { r with children := cs }
      running := s0.running.erase f }
    match settleAll T (r.produced ++ r.reused) ⟨s1.stillOut, s1.pendOut, s1.stillArt, s1.pendArt⟩ with
    | .error e => (.error e, s1)
    | .ok d => (.ok (), { s1 with
        stillOut := d.stillOut, pendOut := d.pendOut, stillArt := d.stillArt, pendArt := d.pendArt })

/-- hot_incremental_rebuild.py:365-451: handle the completed builds in submission order. -/
def drain (T : Tables) (b : Batch) : List String → Sched → Except Err Unit × Sched
  | [], s => (.ok (), s)
  | f :: fs, s =>
    match b f with
    | none => drain T b fs s
    | some (.error e) => (.error e, s)
    | some (.ok r) =>
      match finish T s f r with
      | (.error e, s1) => (.error e, s1)
      | (.ok _, s1) => drain T b fs s1

/-- How far the loop got: `waiting` when the schedule ends while builds are running. -/
inductive Status where
  | finished | waiting | failed (e : Err)
deriving DecidableEq, Repr

/-- hot_incremental_rebuild.py:303-451 -/
def schedLoop (T : Tables) : List Batch → Sched → Status × Sched
  | bs, s =>
    if s.todo = [] ∧ s.running = [] then (.finished, s)
    else match submit T s with
      | .error e => (.failed e, s)
      | .ok s1 => match bs with
        | [] => (.waiting, s1)
        | b :: bs => match drain T b s1.running s1 with
          | (.error e, s2) => (.failed e, s2)
          | (.ok _, s2) => schedLoop T bs s2
termination_by bs => bs.length

/-! ## Cleaning up (455-466) -/

/-- hot_incremental_rebuild.py:260-268: a missing file is ignored. -/
def unlinkLenient (fs : List String) (d : Disk) : Disk :=
  { d with files := d.files.filter (fun x => !fs.contains x) }

/-- hot_incremental_rebuild.py:455-457: a missing file raises. -/
def unlinkStrict : List String → Disk → Except Err Unit × Disk
  | [], d => (.ok (), d)
  | f :: fs, d =>
    if d.files.contains f then unlinkStrict fs { d with files := del f d.files }
    else (.error .notFound, d)

/-- A folder has no entries. -/
def isEmptyDir (d : Disk) (p : String) : Bool :=
  !(d.files.any (fun f => dirname f == p)) && !(d.dirs.any (fun f => dirname f == p))

/-- hot_incremental_rebuild.py:459-466 over the folders, longest path first. -/
def removeEmptyDirs : List String → Disk → Except Err Unit × Disk
  | [], d => (.ok (), d)
  | p :: ps, d =>
    if d.dirs.contains p then
      if isEmptyDir d p then removeEmptyDirs ps { d with dirs := del p d.dirs }
      else removeEmptyDirs ps d
    else (.error .notFound, d)

/-- `sorted(.., key=lambda s: -len(s))` of a set: stable insertion by decreasing length. -/
def insertByLen (p : String) : List String → List String
  | [] => [p]
  | q :: qs => if q.toList.length < p.toList.length then p :: q :: qs else q :: insertByLen p qs
@[inherit_doc insertByLen]
def sortByLen (ps : List String) : List String := ps.foldl (fun acc p => insertByLen p acc) []

/-! ## New graphs (468-593) -/

/-- hot_incremental_rebuild.py:482-491 -/
def newSig (oldDep : Graph) (changed added : Dict Sig) (f : String) : Except Err Sig :=
  match changed.get? f with
  | some s => .ok s
  | none => match added.get? f with
    | some s => .ok s
    | none => match oldDep.get? f with
      | some n => .ok n.info
      | none => .error .keyError

/-- hot_incremental_rebuild.py:481-502; the three graphs get the same node. -/
def addInputs (oldDep : Graph) (changed added : Dict Sig) : List String → Graph → Except Err Graph
  | [], g => .ok g
  | f :: fs, g =>
    match newSig oldDep changed added f with
    | .error e => .error e
    | .ok s => match liftG (addFile g f s []) with
      | .error e => .error e
      | .ok g1 => addInputs oldDep changed added fs g1

/-- hot_incremental_rebuild.py:504-522: keep the nodes of old outputs. Returns the graph and
`possibly_empty_output_nodes`. -/
def keepOutputs (deleted : List String) (rebuilt : String → Bool) :
    List (String × Node) → Graph → List String → Except Err (Graph × List String)
  | [], g, e => .ok (g, e)
  | (f, n) :: rest, g, e =>
    if contains g f then keepOutputs deleted rebuilt rest g e
    else if n.parents.isEmpty && deleted.contains f then keepOutputs deleted rebuilt rest g e
    else
      let e1 := if !n.parents.isEmpty && n.parents.any (fun p => deleted.contains p) &&
        !(n.parents.any (fun p => !deleted.contains p && !rebuilt p)) then e ++ [f] else e
      match liftG (addFile g f n.info []) with
      | .error x => .error x
      | .ok g1 => keepOutputs deleted rebuilt rest g1 e1

/-- hot_incremental_rebuild.py:524-545: carry over the placeholders whose generator still exists.
`set.remove` raises KeyError if the element was already removed. -/
def keepPlaceholders : List (String × Node) → Graph → List String → Except Err (Graph × List String)
  | [], g, e => .ok (g, e)
  | (f, n) :: rest, g, e =>
    if !contains g f then keepPlaceholders rest g e
    else match n.parents.find? (fun p => contains g p) with
      | none => keepPlaceholders rest g e
      | some p =>
        match liftG (setChildren g p (kids g p ++ [f]) true) with
        | .error x => .error x
        | .ok g1 =>
          if !e.contains p then .error .keyError
          else if !(del p e).contains f then .error .keyError
          else keepPlaceholders rest g1 (del f (del p e))

/-- hot_incremental_rebuild.py:547-551 -/
def addPlaceholders : List (String × String) → Graph → Except Err Graph
  | [], g => .ok g
  | (p, gen) :: rest, g =>
    match liftQ (getChildren g gen) with
    | .error e => .error e
    | .ok cs => match liftG (setChildren g gen (if cs.contains p then cs else cs ++ [p]) true) with
      | .error e => .error e
      | .ok g1 => addPlaceholders rest g1

/-- hot_incremental_rebuild.py:573-578; the signature of a missing output raises. -/
def addOutputNodes (sig : String → Sig) (d : Disk) : List String → Graph → Except Err Graph
  | [], g => .ok g
  | o :: os, g =>
    if contains g o then addOutputNodes sig d os g
    else if !d.files.contains o then .error .notFound
    else match liftG (addFile g o (sig o) []) with
      | .error e => .error e
      | .ok g1 => addOutputNodes sig d os g1

/-- hot_incremental_rebuild.py:564-571 -/
def newOutputs (oldOut : Graph) (results : Dict BuildResult) (f : String) : List String :=
  match results.get? f with
  | some r => r.produced ++ r.reused
  | none => kids oldOut f

/-- hot_incremental_rebuild.py:553-583 -/
def linkInputs (oldDep oldOut : Graph) (results : Dict BuildResult) (sig : String → Sig) (d : Disk) :
    List String → Graph → Graph → Except Err (Graph × Graph)
  | [], gd, go => .ok (gd, go)
  | f :: fs, gd, go =>
    match (match results.get? f with
      | some r => (Except.ok r.children : Except Err (List String))
      | none => liftQ (getChildren oldDep f)) with
    | .error e => .error e
    | .ok cs => match liftG (setChildren gd f cs true) with
      | .error e => .error e
      | .ok gd1 => match addOutputNodes sig d (newOutputs oldOut results f) go with
        | .error e => .error e
        | .ok go1 => match liftG (setChildren go1 f (newOutputs oldOut results f) true) with
          | .error e => .error e
          | .ok go2 => linkInputs oldDep oldOut results sig d fs gd1 go2

/-- hot_incremental_rebuild.py:585-587 -/
def dropEmptyOutputs : List String → Graph → Except Err Graph
  | [], g => .ok g
  | o :: os, g =>
    match liftQ (getParents g o) with
    | .error e => .error e
    | .ok ps =>
      if ps.isEmpty then match liftG (removeFile g o false false) with
        | .error e => .error e
        | .ok g1 => dropEmptyOutputs os g1
      else dropEmptyOutputs os g

/-- hot_incremental_rebuild.py:589-593 -/
def dropEmptyPlaceholders : List String → Graph → Except Err Graph
  | [], g => .ok g
  | o :: os, g =>
    match liftQ (getParents g o), liftQ (getChildren g o) with
    | .ok ps, .ok cs =>
      if ps.isEmpty && cs.isEmpty then match liftG (removeFile g o false false) with
        | .error e => .error e
        | .ok g1 => dropEmptyPlaceholders os g1
      else dropEmptyPlaceholders os g
    | .error e, _ => .error e
    | _, .error e => .error e

/-- The three graphs of a build: dependencies, outputs, placeholders. -/
structure Graphs where
  dep : Graph
  out : Graph
  ph : Graph

/-- hot_incremental_rebuild.py:472-478: `order` is the iteration order of the frozenset. -/
def allInputs (order : List String → List String) (oldDep : Graph) (results : Dict BuildResult)
    (deleted : List String) : List String :=
  (order (insertAll (results.keys ++ oldDep.keys) [])).filter (fun f => !deleted.contains f)

/-- hot_incremental_rebuild.py:468-593 -/
def newGraphs (order : List String → List String) (sig : String → Sig) (old : Graphs)
    (changed added : Dict Sig) (deleted : List String) (newPh : Dict String)
    (results : Dict BuildResult) (d : Disk) : Except Err Graphs :=
  let inputs := allInputs order old.dep results deleted
  match addInputs old.dep changed added inputs [] with
  | .error e => .error e
  | .ok g0 => match keepOutputs deleted results.has old.out g0 [] with
    | .error e => .error e
    | .ok (go, emptyOut) => match keepPlaceholders old.ph g0 inputs with
      | .error e => .error e
      | .ok (gp, emptyPh) => match addPlaceholders newPh gp with
        | .error e => .error e
        | .ok gp1 => match linkInputs old.dep old.out results sig d inputs g0 go with
          | .error e => .error e
          | .ok (gd1, go1) => match dropEmptyOutputs emptyOut go1 with
            | .error e => .error e
            | .ok go2 => match dropEmptyPlaceholders emptyPh gp1 with
              | .error e => .error e
              | .ok gp2 => .ok ⟨gd1, go2, gp2⟩

/-! ## The whole rebuild -/

/-- Everything the rebuild does not control. -/
structure Env where
  scan : Scanner
  sig : String → Sig
  /-- iteration order of the sets turned into lists at 244-246, 455 and 472-478 -/
  order : List String → List String
  batches : List Batch
  scanFuel : Nat

/-- The arguments of the call. -/
structure Args where
  constants : String
  mode : Mode
  old : Graphs
  changed : Dict Sig
  added : Dict Sig
  deleted : List String

/-- hot_incremental_rebuild.py:90-121: the mode file, written before anything is built.  Returns
the changed files and the disk. -/
def modeStep (a : Args) (sig : String → Sig) (d : Disk) : Dict Sig × Disk :=
  if d.files.contains a.constants then
    if d.mode ≠ some a.mode then
      (if !a.changed.has a.constants && !a.added.has a.constants then
          a.changed.set a.constants (sig a.constants) else a.changed,
        { d with mode := some a.mode })
    else (a.changed, d)
  else (a.changed, { d with mode := none })

/-- hot_incremental_rebuild.py:277-293 `get_file_depends_on`. -/
def dependsOnOf (old : Graphs) (updated : Dict ScanResult) (newPh : Dict String) (f : String) :
    Except Err (List String) :=
  match updated.get? f with
  | some r =>
    match newPh.get? f with
    | some g => .ok (r.dependencies ++ [g])
    | none => .ok (r.dependencies ++ pars old.ph f)
  | none =>
    match liftQ (getChildren old.dep f) with
    | .error e => .error e
    | .ok cs => .ok (cs ++ pars old.ph f)

/-- hot_incremental_rebuild.py:295-301 `get_file_creates`. -/
def createsOf (old : Graphs) (updated : Dict ScanResult) (f : String) : List String :=
  match updated.get? f with
  | some r => r.produces
  | none => kids old.out f

/-- What a rebuild leaves behind. -/
structure Outcome where
  status : Status
  disk : Disk
  /-- builds started and finished -/
  log : List Event
  /-- the graphs written at 601-608, if the rebuild got there -/
  stored : Option Graphs
  /-- the files scanned, with their results -/
  scanned : Dict ScanResult
  /-- the placeholders created by this run, with the file which asked for each -/
  generated : Dict String

/-- First exception among the dependency lookups. -/
def firstErr (g : String → Except Err (List String)) : List String → Option Err
  | [] => none
  | f :: fs => match g f with
    | .error e => some e
    | .ok _ => firstErr g fs

/-- The value of a lookup which did not raise. -/
def okOr (r : Except Err (List String)) : List String :=
  match r with
  | .ok l => l
  | .error _ => []

/-- The tables of the build loop, from the phases before it. -/
def tablesOf (old : Graphs) (updated : Dict ScanResult) (newPh : Dict String) (affected dirtyArt : List String) : Tables :=
  { deps := fun f => okOr (dependsOnOf old updated newPh f)
    creates := createsOf old updated
    affected := affected
    dirtyArt := dirtyArt
    scanned := updated.has
    oldDep := old.dep
    oldOut := old.out }

/-- hot_incremental_rebuild.py:270-275, 244-247: the loop variables before the first pass. -/
def initSched (affected : List String) (outMap : Dict String) (dO dA : List String) (d : Disk) : Sched :=
  { todo := affected, running := [], results := [], stillOut := dO, pendOut := [], stillArt := dA,
    pendArt := [], outMap := outMap, disk := d, log := [] }

/-- hot_incremental_rebuild.py:453-608: after the build loop. -/
def finalize (env : Env) (a : Args) (changed added : Dict Sig) (newPh : Dict String)
    (folders : List String) (scanned : Dict ScanResult) (s : Sched) : Outcome :=
  match unlinkStrict s.stillArt s.disk with
  | (.error e, d) => ⟨.failed e, d, s.log, none, scanned, newPh⟩
  | (.ok _, d) => match removeEmptyDirs (sortByLen (insertAll folders [])) d with
    | (.error e, d1) => ⟨.failed e, d1, s.log, none, scanned, newPh⟩
    | (.ok _, d1) =>
      match newGraphs env.order env.sig a.old changed added a.deleted newPh s.results d1 with
      | .error e => ⟨.failed e, d1, s.log, none, scanned, newPh⟩
      | .ok gs => ⟨.finished, d1, s.log, some gs, scanned, newPh⟩

/-- hot_incremental_rebuild.py:209-608: from the scan results on. -/
def buildPhase (env : Env) (a : Args) (changed : Dict Sig) (st : ScanState) : Outcome :=
  match reinterpAll a.old.out a.deleted st.updated (outMapOf st.updated) with
  | .error e => ⟨.failed e, st.disk, [], none, st.updated, st.newPh⟩
  | .ok (updated, outMap) =>
    match closure a.old.dep a.old.ph (Dict.keys updated) a.deleted with
    | none => ⟨.failed .fuel, st.disk, [], none, st.updated, st.newPh⟩
    | some (seen, popped) =>
      let affected := (env.order seen).filter (fun f => !a.deleted.contains f)
      let dO := insertAll (dirtyOutputs a.old.out popped) []
      let dA := env.order (insertAll (dirtyArtifacts a.old.out popped) [])
      let d1 := unlinkLenient dO st.disk
      match firstErr (dependsOnOf a.old updated st.newPh) affected with
      | some e => ⟨.failed e, d1, [], none, st.updated, st.newPh⟩
      | none =>
        match schedLoop (tablesOf a.old updated st.newPh affected dA) env.batches
            (initSched affected outMap dO dA d1) with
        | (.finished, s) => finalize env a changed st.added st.newPh ((dO ++ dA).flatMap foldersOf) st.updated s
        | (x, s) => ⟨x, s.disk, s.log, none, st.updated, st.newPh⟩

/-- hot_incremental_rebuild.py:20-611 `hot_incremental_rebuild`. -/
def hotRebuild (env : Env) (a : Args) (d : Disk) : Outcome :=
  let m := modeStep a env.sig d
  if m.1.isEmpty && a.added.isEmpty && a.deleted.isEmpty then ⟨.finished, m.2, [], none, [], []⟩
  else
    match scanLoop env.scan env.sig env.scanFuel (m.1.keys ++ a.added.keys)
        { updated := [], newPh := [], added := a.added, disk := m.2 } with
    | (.error e, st) => ⟨.failed e, st.disk, [], none, st.updated, st.newPh⟩
    | (.ok _, st) => buildPhase env a m.1 st

end Verif.Hot
