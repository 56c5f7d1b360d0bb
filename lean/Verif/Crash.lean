import Verif.Cold
/-!
# What a rebuild writes, in order

`effects` lists every change a rebuild makes to files, one system call at a time, so that the state
after the process died at any point is the state after a prefix of the list.  Opening a graph file
for writing empties it (`open(.., "w")`), and its content is there once it is closed.
-/
namespace Verif.Crash
open Verif Verif.Graph Verif.Hot

/-- One of the three graph files, in the order in which they are stored. -/
inductive Which where
  | dep | out | ph
deriving DecidableEq, Repr

/-- The content of a graph file; `torn` is one which was opened for writing and not finished, which
is not valid JSON (`JsonText.C113_crash`). -/
inductive GraphFile where
  | missing | torn | has (g : Graph)
deriving DecidableEq

/-- Everything on disk which a build reads or writes. -/
structure Store where
  disk : Disk
  dep : GraphFile
  out : GraphFile
  ph : GraphFile
deriving DecidableEq

/-- One change to the file system. -/
inductive Effect where
  | setMode (m : Option Mode)
  | create (f : String)
  | unlink (f : String)
  | write (f : String)
  | rmdir (p : String)
  | openGraph (w : Which)
  | closeGraph (w : Which) (g : Graph)
deriving DecidableEq

/-- Replace a graph file. -/
def Store.setGraph (s : Store) (w : Which) (x : GraphFile) : Store :=
  match w with
  | .dep => { s with dep := x }
  | .out => { s with out := x }
  | .ph => { s with ph := x }

/-- Perform one change. -/
def Effect.apply (s : Store) : Effect → Store
  | .setMode m => { s with disk := { s.disk with mode := m } }
  | .create f => { s with disk := { s.disk with files := s.disk.files ++ [f] } }
  | .unlink f => { s with disk := { s.disk with files := del f s.disk.files } }
  | .write f => { s with disk := s.disk.write [f] }
  | .rmdir p => { s with disk := { s.disk with dirs := del p s.disk.dirs } }
  | .openGraph w => s.setGraph w .torn
  | .closeGraph w g => s.setGraph w (.has g)

/-- Perform the changes in order. -/
def applyAll (es : List Effect) (s : Store) : Store := es.foldl Effect.apply s

/-- hot_incremental_rebuild.py:107-121: the mode file is written or removed when it does not fit. -/
def modeEffects (a : Args) (d : Disk) : List Effect :=
  if d.files.contains a.constants then
    if d.mode ≠ some a.mode then [.setMode (some a.mode)] else []
  else [.setMode none]

/-- hot_incremental_rebuild.py:151-156: the placeholders created by the scanning loop are the files
it appended. -/
def scanEffects (before after : Disk) : List Effect := (after.files.drop before.files.length).map .create

/-- The outputs written by the completed builds. -/
def logEffects (log : List Event) : List Effect :=
  log.flatMap (fun e => match e with
    | .started _ => []
    | .finished _ r => r.produced.map .write)

/-- hot_incremental_rebuild.py:455-457 -/
def strictEffects : List String → Disk → List Effect
  | [], _ => []
  | f :: fs, d =>
    if d.files.contains f then .unlink f :: strictEffects fs { d with files := del f d.files } else []

/-- hot_incremental_rebuild.py:459-466 -/
def dirEffects : List String → Disk → List Effect
  | [], _ => []
  | p :: ps, d =>
    if d.dirs.contains p then
      if isEmptyDir d p then .rmdir p :: dirEffects ps { d with dirs := del p d.dirs }
      else dirEffects ps d
    else []

/-- hot_incremental_rebuild.py:601-608 -/
def storeEffects (gs : Graphs) : List Effect :=
  [.openGraph .dep, .closeGraph .dep gs.dep, .openGraph .out, .closeGraph .out gs.out,
   .openGraph .ph, .closeGraph .ph gs.ph]

/-- hot_incremental_rebuild.py:453-608 -/
def finalizeEffects (env : Env) (a : Args) (changed added : Dict Sig) (newPh : Dict String)
    (folders : List String) (s : Sched) : List Effect :=
  strictEffects s.stillArt s.disk ++
  match unlinkStrict s.stillArt s.disk with
  | (.error _, _) => []
  | (.ok _, d) =>
    dirEffects (sortByLen (insertAll folders [])) d ++
    match removeEmptyDirs (sortByLen (insertAll folders [])) d with
    | (.error _, _) => []
    | (.ok _, d1) =>
      match newGraphs env.order env.sig a.old changed added a.deleted newPh s.results d1 with
      | .error _ => []
      | .ok gs => storeEffects gs

/-- hot_incremental_rebuild.py:209-608 -/
def buildEffects (env : Env) (a : Args) (changed : Dict Sig) (st : ScanState) : List Effect :=
  match reinterpAll a.old.out a.deleted st.updated (outMapOf st.updated) with
  | .error _ => []
  | .ok (updated, outMap) =>
    match closure a.old.dep a.old.ph (Dict.keys updated) a.deleted with
    | none => []
    | some (seen, popped) =>
      let affected := (env.order seen).filter (fun f => !a.deleted.contains f)
      let dO := insertAll (dirtyOutputs a.old.out popped) []
      let dA := env.order (insertAll (dirtyArtifacts a.old.out popped) [])
      let d1 := unlinkLenient dO st.disk
      dO.map .unlink ++
      match firstErr (dependsOnOf a.old updated st.newPh) affected with
      | some _ => []
      | none =>
        let r := schedLoop (tablesOf a.old updated st.newPh affected dA) env.batches (initSched affected outMap dO dA d1)
        logEffects r.2.log ++
        match r with
        | (.finished, s) => finalizeEffects env a changed st.added st.newPh ((dO ++ dA).flatMap foldersOf) s
        | _ => []

/-- hot_incremental_rebuild.py:20-611: all changes made by the rebuild. -/
def effects (env : Env) (a : Args) (d : Disk) : List Effect :=
  let m := modeStep a env.sig d
  modeEffects a d ++
  if m.1.isEmpty && a.added.isEmpty && a.deleted.isEmpty then []
  else
    let r := scanLoop env.scan env.sig env.scanFuel (m.1.keys ++ a.added.keys)
        { updated := [], newPh := [], added := a.added, disk := m.2 }
    scanEffects d r.2.disk ++
    match r with
    | (.error _, _) => []
    | (.ok _, st) => buildEffects env a m.1 st

/-- The state of the project once the process has died after `k` of these changes; `k` at least
their number is a run which is not interrupted. -/
def crashAfter (k : Nat) (env : Env) (a : Args) (s : Store) : Store := applyAll ((effects env a s.disk).take k) s

/-- runners/build.py:147-163: a missing graph file is an empty graph, an unreadable one raises. -/
def GraphFile.load : GraphFile → Except Hot.Err Graph
  | .missing => .ok []
  | .torn => .error .valueError
  | .has g => .ok (Graph.load (Graph.store g))

/-- runners/build.py:147-163 -/
def Store.load (s : Store) : Except Hot.Err Graphs :=
  match s.dep.load with
  | .error e => .error e
  | .ok d => match s.out.load with
    | .error e => .error e
    | .ok o => match s.ph.load with
      | .error e => .error e
      | .ok p => .ok ⟨d, o, p⟩

end Verif.Crash
