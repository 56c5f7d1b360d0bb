import Verif.Hot
import Verif.GraphSpec
/-!
# Specification vocabulary for incremental rebuilds

Only the arguments of the call, the graph API and what is observable of the run (which builds were
started and finished, with which results, and the files on disk) are used.
-/
namespace Verif.Hot
open Verif Verif.Graph

/-- `f` used `g` in the previous build: it depended on it, or it generated it as a placeholder. -/
def Uses (old : Graphs) (f g : String) : Prop := Edge old.dep f g ∨ Edge old.ph f g

/-- `f` is one of the given files or used one of them, directly or through others. -/
def Affected (old : Graphs) (seeds : List String) (f : String) : Prop :=
  f ∈ seeds ∨ ∃ s ∈ seeds, Path (Uses old) f s

/-- Files whose content is new in this run: those scanned (changed, added, generated) and deleted. -/
def touchedSources (a : Args) (out : Outcome) : List String := out.scanned.keys ++ a.deleted

/-- The outputs recorded in the previous build for a file which is rebuilt or deleted now. -/
def WasOutput (a : Args) (out : Outcome) (o : String) : Prop :=
  ∃ x, Affected a.old (touchedSources a out) x ∧ Edge a.old.out x o

/-- What a file intends to produce: what its scan says, or its recorded outputs if not scanned. -/
def Announced (a : Args) (out : Outcome) (f o : String) : Prop :=
  match out.scanned.get? f with
  | some r => o ∈ r.produces
  | none => Edge a.old.out f o

/-- The file taken as producer of an output: the last scanned file which announces it, or else the
first recorded producer which is not deleted. -/
def producerOf (a : Args) (out : Outcome) (o : String) : Option String :=
  match out.scanned.reverse.find? (fun x => x.2.produces.contains o) with
  | some x => some x.1
  | none => (pars a.old.out o).find? (fun p => !a.deleted.contains p)

/-- `p` stands for the file `c` which it makes: `p` is the last scanned file which announces `c`, or,
when no scanned file does, `p` was recorded as producing `c`. -/
def MadeBy (a : Args) (out : Outcome) (c p : String) : Prop :=
  match out.scanned.reverse.find? (fun x => x.2.produces.contains c) with
  | some x => p = x.1
  | none => Edge a.old.out p c

/-- Some scanned file announces `c`. -/
def Ann (out : Outcome) (c : String) : Prop := ∃ x ∈ out.scanned, c ∈ x.2.produces

/-- The signature the rebuild has for a file: the given one if it changed or was added, the one just
taken if it was generated now or is the constants file of another mode, and else the recorded one. -/
def Observed (env : Env) (a : Args) (d : Disk) (out : Outcome) (f : String) (s : Sig) : Prop :=
  if f ∈ a.changed.keys then a.changed.get? f = some s
  else if f ∈ a.added.keys ∧ f ∉ out.generated.keys then a.added.get? f = some s
  else if f ∈ out.generated.keys ∨ (f = a.constants ∧ f ∈ d.files ∧ d.mode ≠ some a.mode) then s = env.sig f
  else HasMeta a.old.dep f s

/-- `f` depends on `g` in this run.  A scanned file depends on the files its scan lists, with an
output standing for its producer; any other file on its recorded dependencies; and a placeholder
depends on the file which generates it. -/
def Needs (a : Args) (out : Outcome) (f g : String) : Prop :=
  (match out.scanned.get? f with
    | some r => g ≠ f ∧ ((g ∈ r.dependencies ∧ isOutput g = false) ∨
        ∃ o ∈ r.dependencies, isOutput o = true ∧ producerOf a out o = some g)
    | none => Edge a.old.dep f g) ∨
  (match out.generated.get? f with
    | some g' => g = g'
    | none => Edge a.old.ph g f)

/-- The files which a run that gets to building rebuilds. -/
def Rebuilt (a : Args) (out : Outcome) (f : String) : Prop :=
  f ∉ a.deleted ∧ Affected a.old (touchedSources a out) f

/-- Dependencies among the rebuilt files. -/
def NeedsIn (a : Args) (out : Outcome) (f g : String) : Prop :=
  Rebuilt a out f ∧ Rebuilt a out g ∧ Needs a out f g

/-- Some build completed so far lists `o` as produced or reused. -/
def Made (log : List Event) (o : String) : Prop :=
  ∃ f r, Event.finished f r ∈ log ∧ o ∈ r.produced ++ r.reused

/-- The files whose builds were started, in order. -/
def startsOf (log : List Event) : List String :=
  log.filterMap (fun e => match e with | .started f => some f | _ => none)

/-- The files whose builds were finished, in order. -/
def endsOf (log : List Event) : List String :=
  log.filterMap (fun e => match e with | .finished f _ => some f | _ => none)

/-- The build of `f` has started and has not finished at this point of the log. -/
def Running (log : List Event) (f : String) : Prop := Event.started f ∈ log ∧ ∀ r, Event.finished f r ∉ log

/-- A set's iteration order: some permutation of its elements. -/
def ValidOrder (env : Env) : Prop := ∀ l, (env.order l).Perm l

/-- The recorded graphs came out of graph operations and save/load cycles. -/
structure ValidGraphs (g : Graphs) : Prop where
  dep : Valid g.dep
  out : Valid g.out
  ph : Valid g.ph

/-- `r` is what some run of the builder returned for `f`. -/
def Returned (env : Env) (f : String) (r : BuildResult) : Prop := ∃ b ∈ env.batches, b f = some (.ok r)

end Verif.Hot
