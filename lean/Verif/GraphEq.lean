import Verif.Graph
/-!
# Model of the `==` operators of graph.py

Two graphs are compared, `g` on the left and `h` on the right.  A node object of one graph is
identified by its path, so `x is y` on nodes of one graph is equality of paths.  `cmp` returns
`False` on different paths before it looks at the memo tables, therefore the table entry
`my_seen_nodes[path] = [(mine, [(others, r)])]` has one possible pair per path and
`other_seen_nodes` always mirrors it: both are one dictionary from path to `r`.
-/
namespace Verif.Graph
open Verif

/-- graph.py:74-91 the memo tables (`none` = comparison in progress). -/
abbrev Memo := Dict (Option Bool)

/-- Result of a comparison: outer `none` only if the fuel ran out or a reference dangles. -/
abbrev CmpRes := Option (Option Bool) × Memo

/-- graph.py:150-152 / 158-160: `any(cmp(a, b) is False for a, b in zip(..., ...))`. -/
def anyMismatch (f : Memo → String → String → CmpRes) : Memo → List String → List String → Option Bool × Memo
  | memo, a :: as, b :: bs =>
    match f memo a b with
    | (none, memo) => (none, memo)
    | (some (some false), memo) => (some true, memo)
    | (some _, memo) => anyMismatch f memo as bs
  | memo, _, _ => (some false, memo)

/-- graph.py:93-169 `cmp`. -/
def cmp (g h : Graph) : Nat → Memo → String → String → CmpRes
  | 0, memo, _, _ => (none, memo)
  | fuel + 1, memo, p, q =>
    match g.get? p, h.get? q with
    | some n, some m =>
      if p ≠ q then (some (some false), memo)
      else if n.info.filesize ≠ m.info.filesize then (some (some false), memo)
      else if n.info.mtime ≠ m.info.mtime then (some (some false), memo)
      else if n.info.inode ≠ m.info.inode then (some (some false), memo)
      else if n.parents.length ≠ m.parents.length then (some (some false), memo)
      else if n.children.length ≠ m.children.length then (some (some false), memo)
      else match memo.get? p with
        | some r => (some r, memo)
        | none =>
          match anyMismatch (cmp g h fuel) (memo.set p none) n.parents m.parents with
          | (none, memo) => (none, memo)
          | (some true, memo) => (some (some false), memo.set p (some false))
          | (some false, memo) =>
            match anyMismatch (cmp g h fuel) memo n.children m.children with
            | (none, memo) => (none, memo)
            | (some true, memo) => (some (some false), memo.set p (some false))
            | (some false, memo) => (some (some true), memo.set p (some true))
    | _, _ => (none, memo)

/-- graph.py:50-171 `FileDependencyGraphNode.__eq__` (the checks of lines 65-72 are repeated by
`cmp`). -/
def nodeEq (g h : Graph) (p q : String) : Option Bool :=
  match g.get? p, h.get? q with
  | some n, some m =>
    if p ≠ q then some false
    else if n.info.filesize ≠ m.info.filesize then some false
    else if n.info.mtime ≠ m.info.mtime then some false
    else if n.info.inode ≠ m.info.inode then some false
    else match (cmp g h (g.length + 1) [] p q).1 with
      | none => none
      | some r => some (r == some true)
  | _, _ => none

/-- graph.py:199-204 the loop over the nodes. -/
def allEq (g h : Graph) : List String → Option Bool
  | [] => some true
  | p :: ps =>
    if !contains h p then some false
    else match nodeEq g h p p with
      | none => none
      | some false => some false
      | some true => allEq g h ps

/-- graph.py:183-204 `FileDependencyGraph.__eq__`. -/
def graphEq (g h : Graph) : Option Bool :=
  if g.length ≠ h.length then some false else allEq g h g.keys

end Verif.Graph
