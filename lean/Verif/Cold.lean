import Verif.Hot
/-!
# Model of the change detection in `vanillaplusjs/build/cold_incremental_rebuild.py`

The walk over the src folder is the list of its files, relative to the project, with their
signatures.
-/
namespace Verif.Cold
open Verif Verif.Graph Verif.Hot

/-- What the detection collects: cold_incremental_rebuild.py:74-76. -/
structure Found where
  changed : Dict Sig
  added : Dict Sig
  deleted : List String
deriving DecidableEq

/-- cold_incremental_rebuild.py:84-95; `set.remove` of an absent element raises KeyError. -/
def detectLoop (g : Graph) : List (String × Sig) → Found → Except Hot.Err Found
  | [], r => .ok r
  | (f, s) :: rest, r =>
    if contains g f then
      if !r.deleted.contains f then .error .keyError
      else detectLoop g rest
        { r with deleted := del f r.deleted, changed := if checkFile g f s then r.changed else r.changed.set f s }
    else detectLoop g rest { r with added := r.added.set f s }

/-- cold_incremental_rebuild.py:74-95 -/
def detect (g : Graph) (walk : List (String × Sig)) : Except Hot.Err Found := detectLoop g walk ⟨[], [], g.keys⟩

/-- cold_incremental_rebuild.py:26-112 without the external files: detect, then rebuild.  The arguments
`changed`, `added` and `deleted` of `a` are replaced by what is detected. -/
def coldRebuild (env : Env) (a : Args) (walk : List (String × Sig)) (d : Disk) : Outcome :=
  match detect a.old.dep walk with
  | .error e => ⟨.failed e, d, [], none, [], []⟩
  | .ok r => hotRebuild env { a with changed := r.changed, added := r.added, deleted := r.deleted } d

end Verif.Cold
