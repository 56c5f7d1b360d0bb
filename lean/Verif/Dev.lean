/-!
# The watch mode of the dev server

Model of `DevEventHandler` (vanillaplusjs/runners/dev.py:162-362).  Events arrive on the watcher's
thread and rebuilds run on the main thread, so an action is either an event, or the main thread taking
the pending files (lines 193-212), or the end of the rebuild (293-317); events may come between the
last two.

Simplifications: paths are the absolute paths of the events; events about directories are ignored by
the code (323, 332, 344, 358) and not represented; debouncing only delays a rebuild, so taking the
pending files may happen at any time at which the other conditions hold.  An exception raised outside
of the `try` (216-257: unreadable configuration, a pending file which vanished) ends the whole command
and is not an action.
-/
namespace Verif.Dev

/-- `set.add` -/
def add (p : String) (l : List String) : List String := if p ∈ l then l else p :: l
/-- `set.remove` -/
def rem (p : String) (l : List String) : List String := l.filter (fun q => q ≠ p)

/-- Three disjoint kinds of pending files. -/
structure Pending where
  deleted : List String
  changed : List String
  created : List String
deriving DecidableEq, Repr

/-- dev.py:169-189 -/
structure Handler where
  pend : Pending
  unbuildable : Bool
  /-- the local copies `deleted`, `changed`, `created` of a rebuild which is running (206-208) -/
  flight : Option Pending
deriving DecidableEq, Repr

/-- The state after `__init__`. -/
def Handler.init : Handler := ⟨⟨[], [], []⟩, false, none⟩

/-- An event of the watcher. -/
inductive Ev where
  | modified (p : String)
  | created (p : String)
  | deleted (p : String)
  | moved (src dest : String)
deriving DecidableEq, Repr

/-- dev.py:326-327 -/
def onModified (p : String) (s : Pending) : Pending :=
  if p ∈ s.created then s else { s with changed := add p s.changed }

/-- dev.py:335-339 -/
def onCreated (p : String) (s : Pending) : Pending :=
  if p ∈ s.deleted then { s with deleted := rem p s.deleted, changed := add p s.changed }
  else { s with created := add p s.created }

/-- dev.py:347-353 -/
def onDeleted (p : String) (s : Pending) : Pending :=
  if p ∈ s.changed then { s with changed := rem p s.changed, deleted := add p s.deleted }
  else if p ∈ s.created then { s with created := rem p s.created }
  else { s with deleted := add p s.deleted }

/-- dev.py:322-362 -/
def onEvent (e : Ev) (s : Pending) : Pending :=
  match e with
  | .modified p => onModified p s
  | .created p => onCreated p s
  | .deleted p => onDeleted p s
  | .moved src dest => onCreated dest (onDeleted src s)

/-- dev.py:298-303 -/
def mergeChanged (exist : String → Bool) : List String → Pending → Pending
  | [], s => s
  | f :: fs, s =>
    if exist f then
      let s1 := if f ∈ s.created then s else { s with changed := add f s.changed }
      mergeChanged exist fs (if f ∈ s1.deleted then { s1 with deleted := rem f s1.deleted } else s1)
    else mergeChanged exist fs s

/-- dev.py:304-309 -/
def mergeCreated (exist : String → Bool) : List String → Pending → Pending
  | [], s => s
  | f :: fs, s =>
    if exist f then
      let s1 := if f ∈ s.changed then s else { s with created := add f s.created }
      mergeCreated exist fs (if f ∈ s1.deleted then { s1 with deleted := rem f s1.deleted } else s1)
    else mergeCreated exist fs s

/-- dev.py:310-316 -/
def mergeDeleted (exist : String → Bool) : List String → Pending → Pending
  | [], s => s
  | f :: fs, s =>
    if exist f then mergeDeleted exist fs s
    else
      let s1 := if f ∈ s.changed then { s with changed := rem f s.changed } else s
      let s2 := if f ∈ s1.created then { s1 with created := rem f s1.created } else s1
      mergeDeleted exist fs { s2 with deleted := add f s2.deleted }

/-- dev.py:298-316, `exist` is `os.path.lexists` -/
def merge (exist : String → Bool) (fl s : Pending) : Pending :=
  mergeDeleted exist fl.deleted (mergeCreated exist fl.created (mergeChanged exist fl.changed s))

/-- What can happen. -/
inductive Act where
  | ev (e : Ev)
  /-- the main thread takes the pending files and starts a rebuild -/
  | take
  | success
  | failure
deriving DecidableEq, Repr

/-- One action; `exist` says which files there are.  `take` does nothing where the code returns early
(195-202). -/
def step (exist : String → Bool) (h : Handler) : Act → Handler
  | .ev e => { h with pend := onEvent e h.pend, unbuildable := false }
  | .take =>
    match h.flight with
    | some _ => h
    | none =>
      if h.unbuildable then h
      else if h.pend.deleted.isEmpty && h.pend.changed.isEmpty && h.pend.created.isEmpty then h
      else { h with pend := ⟨[], [], []⟩, flight := some h.pend }
  | .success =>
    match h.flight with
    | some _ => { h with flight := none, unbuildable := false }
    | none => h
  | .failure =>
    match h.flight with
    | some fl => { pend := merge exist fl h.pend, flight := none, unbuildable := true }
    | none => h

end Verif.Dev
