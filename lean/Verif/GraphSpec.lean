import Verif.Graph
/-!
# Specification vocabulary for the dependency graph

Only API observations (`contains`, `getChildren`, `getParents`, `checkFile`) are used.
-/
namespace Verif.Graph
open Verif

/-- `a` depends directly on `b`: `b in graph.get_children(a)`. -/
def Edge (g : Graph) (a b : String) : Prop := ∃ cs, getChildren g a = .ok cs ∧ b ∈ cs

/-- One or more steps of a relation. -/
inductive Path (E : String → String → Prop) : String → String → Prop where
  | one {a b} : E a b → Path E a b
  | more {a b c} : E a b → Path E b c → Path E a c

/-- `a` depends, directly or through other files, on `b`. -/
abbrev DependsOn (g : Graph) : String → String → Prop := Path (Edge g)

/-- No file depends on itself, directly or through other files. -/
def Acyclic (g : Graph) : Prop := ∀ a, ¬ DependsOn g a a

/-- The graph is in some state a program can bring it to. -/
def Reachable (g : Graph) : Prop := ∃ ops, g = run empty ops

/-- A history of calls and save/load cycles. -/
inductive PersistOp where
  | call (op : Op)
  | saveLoad

/-- One step of it. -/
def persistStep (g : Graph) : PersistOp → Graph
  | .call op => (step g op).2
  | .saveLoad => load (store g)

/-- The graph is in some state a program can bring it to, storing and loading it on the way. -/
def Valid (g : Graph) : Prop := ∃ ops : List PersistOp, g = ops.foldl persistStep empty

/-- The metadata recorded for a file, as observed with `check_file`. -/
def HasMeta (g : Graph) (a : String) (m : Meta) : Prop := checkFile g a m = true

/-- Edges after replacing the children of `a` by `cs`. -/
def EdgeAfter (g : Graph) (a : String) (cs : List String) (x y : String) : Prop :=
  (x = a ∧ y ∈ cs) ∨ (x ≠ a ∧ Edge g x y)

/-- The call does not switch off the cycle check. -/
def Op.keepsCheck : Op → Prop
  | .setChildren _ _ pc => pc = true
  | _ => True

/-- Same files, same metadata, same ordered parents and children. -/
def SameContent (g h : Graph) : Prop :=
  ∀ a, contains g a = contains h a ∧ (∀ m, HasMeta g a m ↔ HasMeta h a m) ∧
    getParents g a = getParents h a ∧ getChildren g a = getChildren h a

end Verif.Graph
