import Verif.Dict
/-!
# Model of `vanillaplusjs/build/graph.py`

Nodes are Python objects that reference each other; here an edge is the *path* of the node it
references.  This is faithful as long as every referenced object is the one stored in the graph's
dictionary under its path, i.e. as long as edges are closed, which `C01` proves for every history.
`list.remove(node)` compares with `==`, whose first test is the path (graph.py:65), so within one
graph it removes the first entry with the same path.

Operations return the state *after* the call together with the outcome, also when they raise.
-/
namespace Verif.Graph
open Verif

/-- graph.py:35-42 metadata of a node. `mtime` is a finite float, modelled by its rational value. -/
structure Meta where
  filesize : Int
  mtime : Rat
  inode : Int
deriving DecidableEq, Repr

/-- graph.py:25-48 `FileDependencyGraphNode` (the `path` field is the dictionary key). -/
structure Node where
  info : Meta
  parents : List String
  children : List String
deriving DecidableEq, Repr

/-- graph.py:179-181 `self.nodes`. -/
abbrev Graph := Dict Node

/-- graph.py:179-181 `__init__`. -/
def empty : Graph := []

/-- The exceptions the operations can raise (message dropped).  `fuel` is not a Python exception:
it stands for a search that has not finished within the model's bound (proved unreachable). -/
inductive Err where
  | valueError
  | keyError
  | fuel
deriving DecidableEq, Repr

/-- Outcome of a call together with the state after the call. -/
abbrev Res := Except Err Unit × Graph

/-- graph.py:287-296 `__contains__`. -/
def contains (g : Graph) (a : String) : Bool := g.has a

/-- graph.py:298-318 `check_file`. -/
def checkFile (g : Graph) (a : String) (m : Meta) : Bool :=
  match g.get? a with
  | none => false
  | some n => n.info.filesize == m.filesize && n.info.mtime == m.mtime && n.info.inode == m.inode

/-- graph.py:424-440 `get_parents`. -/
def getParents (g : Graph) (a : String) : Except Err (List String) :=
  match g.get? a with
  | none => .error .valueError
  | some n => .ok n.parents

/-- graph.py:442-458 `get_children`. -/
def getChildren (g : Graph) (a : String) : Except Err (List String) :=
  match g.get? a with
  | none => .error .valueError
  | some n => .ok n.children

/-- graph.py:8-21 `FileRelationship`. -/
inductive Relationship where
  | parent | child | cyclic | unrelated
deriving DecidableEq, Repr

/-- graph.py:320-354 `check_direct_relationship`. -/
def checkDirect (g : Graph) (a b : String) : Except Err Relationship :=
  if a = b then .error .valueError else
  match g.get? a with
  | none => .error .valueError
  | some n =>
    let bIsParent := n.parents.any (· == b)
    let bIsChild := n.children.any (· == b)
    if bIsParent && bIsChild then .ok .cyclic
    else if bIsParent then .ok .child
    else if bIsChild then .ok .parent
    else if !contains g b then .error .valueError
    else .ok .unrelated

/-- The neighbour lists of an item as read through the node object (graph.py:401,406). -/
def kids (g : Graph) (a : String) : List String := ((g.get? a).map (·.children)).getD []
@[inherit_doc kids]
def pars (g : Graph) (a : String) : List String := ((g.get? a).map (·.parents)).getD []

/-- graph.py:401-404 / 406-409: append the unseen neighbours to the queue, marking them seen. -/
def pushUnseen : List String → List String → List String → List String × List String
  | [], queue, seen => (queue, seen)
  | c :: cs, queue, seen =>
    if seen.contains c then pushUnseen cs queue seen
    else pushUnseen cs (queue ++ [c]) (seen ++ [c])

/-- graph.py:394-411 the `while queue` loop of `check_tree`; `none` when the fuel runs out. -/
def bfsLoop (next : String → List String) (b : String) :
    Nat → List String → List String → Option Bool
  | _, [], _ => some false
  | 0, _ :: _, _ => none
  | fuel + 1, item :: queue, seen =>
    if item = b then some true
    else
      let r := pushUnseen (next item) queue seen
      bfsLoop next b fuel r.1 r.2

/-- graph.py:379-411 `check_tree`: the first level is queued unconditionally.  The fuel is the
initial queue length plus the number of nodes. -/
def checkTree (g : Graph) (next : String → List String) (a b : String) : Option Bool :=
  bfsLoop next b ((next a).length + g.length) (next a) (next a)

/-- graph.py:356-422 `check_nested_relationship`. -/
def checkNested (g : Graph) (a b : String) : Except Err Relationship :=
  if a = b then .error .valueError else
  match g.get? a with
  | none => .error .valueError
  | some _ =>
    if !contains g b then .error .valueError else
    match checkTree g (pars g) a b with
    | none => .error .fuel
    | some bIsParent =>
      match checkTree g (kids g) a b with
      | none => .error .fuel
      | some bIsChild =>
        if bIsParent && bIsChild then .ok .cyclic
        else if bIsParent then .ok .child
        else if bIsChild then .ok .parent
        else .ok .unrelated

/-- graph.py:491-494: link every child to the node under construction, which is not yet stored. -/
def linkParents (a : String) : List String → Graph → Res
  | [], g => (.ok (), g)
  | c :: cs, g =>
    match g.get? c with
    | none => (.error .keyError, g)
    | some n => linkParents a cs (g.set c { n with parents := n.parents ++ [a] })

/-- graph.py:460-496 `add_file`. -/
def addFile (g : Graph) (a : String) (m : Meta) (children : List String) : Res :=
  if contains g a then (.error .valueError, g)
  else if children.any (fun c => !contains g c) then (.error .valueError, g)
  else match linkParents a children g with
    | (.error e, g1) => (.error e, g1)
    | (.ok _, g1) => (.ok (), g1.set a { info := m, parents := [], children := children })

/-- graph.py:532-533: `for parent in node.parents: parent.children.remove(node)`. -/
def unlinkChildren (a : String) : List String → Graph → Res
  | [], g => (.ok (), g)
  | p :: ps, g =>
    match g.get? p with
    | none => (.error .keyError, g)
    | some n =>
      if n.children.contains a then
        unlinkChildren a ps (g.set p { n with children := n.children.erase a })
      else (.error .valueError, g)

/-- graph.py:537-538 and 582-583: `for child in node.children: child.parents.remove(node)`. -/
def unlinkParents (a : String) : List String → Graph → Res
  | [], g => (.ok (), g)
  | c :: cs, g =>
    match g.get? c with
    | none => (.error .keyError, g)
    | some n =>
      if n.parents.contains a then
        unlinkParents a cs (g.set c { n with parents := n.parents.erase a })
      else (.error .valueError, g)

/-- `node.parents.clear()` (graph.py:534). -/
def clearParents (g : Graph) (a : String) : Graph :=
  match g.get? a with
  | none => g
  | some n => g.set a { n with parents := [] }

/-- `node.children.clear()` (graph.py:539, 584). -/
def clearChildren (g : Graph) (a : String) : Graph :=
  match g.get? a with
  | none => g
  | some n => g.set a { n with children := [] }

/-- graph.py:498-541 `remove_file`. -/
def removeFile (g : Graph) (a : String) (clearP clearC : Bool) : Res :=
  match g.get? a with
  | none => (.error .valueError, g)
  | some n =>
    if !n.parents.isEmpty && !clearP then (.error .valueError, g)
    else if !n.children.isEmpty && !clearC then (.error .valueError, g)
    else match unlinkChildren a n.parents g with
      | (.error e, g1) => (.error e, g1)
      | (.ok _, g1) =>
        let g2 := clearParents g1 a
        match unlinkParents a (kids g2 a) g2 with
        | (.error e, g3) => (.error e, g3)
        | (.ok _, g3) => (.ok (), Dict.erase (clearChildren g3 a) a)

/-- graph.py:567-571: the generator given to `any`: stops at the first hit or exception. -/
def anyCycle (g : Graph) (a : String) : List String → Except Err Bool
  | [] => .ok false
  | c :: cs =>
    match checkNested g a c with
    | .error e => .error e
    | .ok .cyclic => .ok true
    | .ok .child => .ok true
    | .ok _ => anyCycle g a cs

/-- graph.py:585-588: append the new edges one by one. -/
def linkBoth (a : String) : List String → Graph → Res
  | [], g => (.ok (), g)
  | c :: cs, g =>
    match g.get? c with
    | none => (.error .keyError, g)
    | some n =>
      let g1 := g.set c { n with parents := n.parents ++ [a] }
      match g1.get? a with
      | none => (.error .keyError, g1)
      | some na => linkBoth a cs (g1.set a { na with children := na.children ++ [c] })

/-- graph.py:582-588: replace the children. -/
def replaceChildren (g : Graph) (a : String) (old new : List String) : Res :=
  match unlinkParents a old g with
  | (.error e, g1) => (.error e, g1)
  | (.ok _, g1) => linkBoth a new (clearChildren g1 a)

/-- graph.py:543-588 `set_children`. -/
def setChildren (g : Graph) (a : String) (children : List String) (preventCycles : Bool) : Res :=
  match g.get? a with
  | none => (.error .valueError, g)
  | some n =>
    if children.any (fun c => !contains g c) then (.error .valueError, g)
    else
      match (if preventCycles then anyCycle g a children else .ok false) with
      | .error e => (.error e, g)
      | .ok true => (.error .valueError, g)
      | .ok false => replaceChildren g a n.children children

/-- The mutating calls of the class. -/
inductive Op where
  | add (a : String) (m : Meta) (children : List String)
  | remove (a : String) (clearP clearC : Bool)
  | setChildren (a : String) (children : List String) (preventCycles : Bool)
deriving DecidableEq, Repr

/-- One call. -/
def step (g : Graph) : Op → Res
  | .add a m cs => addFile g a m cs
  | .remove a p c => removeFile g a p c
  | .setChildren a cs pc => setChildren g a cs pc

/-- A history of calls on a graph; a caller may catch exceptions and go on. -/
def run (g : Graph) (ops : List Op) : Graph := ops.foldl (fun g op => (step g op).2) g

/-- graph.py:206-240 `store` as the sequence of records written: path, parents, children, metadata.
The JSON text which is written is `JsonText.storeText`, and `JsonText.C08_text` is about reading it. -/
def store (g : Graph) : List (String × (List String × List String × Meta)) :=
  g.map (fun (p, n) => (p, (n.parents, n.children, n.info)))

/-- graph.py:259-262, 269-272, 276-279: node for a path, created with zero metadata if new. -/
def ensure (g : Graph) (p : String) : Graph :=
  match g.get? p with
  | some _ => g
  | none => g.set p { info := ⟨0, 0, 0⟩, parents := [], children := [] }

/-- graph.py:268-273 -/
def loadParents (p : String) : List String → Graph → Graph
  | [], g => g
  | q :: qs, g =>
    let g1 := ensure g q
    loadParents p qs (match g1.get? p with
      | none => g1
      | some n => g1.set p { n with parents := n.parents ++ [q] })

/-- graph.py:275-280 -/
def loadChildren (p : String) : List String → Graph → Graph
  | [], g => g
  | q :: qs, g =>
    let g1 := ensure g q
    loadChildren p qs (match g1.get? p with
      | none => g1
      | some n => g1.set p { n with children := n.children ++ [q] })

/-- graph.py:259-280 body of the loop of `load`. -/
def loadOne (g : Graph) (r : String × (List String × List String × Meta)) : Graph :=
  let g1 := ensure g r.1
  let g2 := match g1.get? r.1 with
    | none => g1
    | some n => g1.set r.1 { n with info := r.2.2.2 }
  loadChildren r.1 r.2.2.1 (loadParents r.1 r.2.1 g2)

/-- graph.py:242-285 `load`. -/
def load (rs : List (String × (List String × List String × Meta))) : Graph := rs.foldl loadOne empty

end Verif.Graph
