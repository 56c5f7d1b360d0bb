import Verif.Links
import Verif.Cold
/-!
# Sources which are symbolic links

`get_file_signature` (build/file_signature.py:33-54) uses `os.lstat`, which tells about the link and not about the file it leads to.
-/
namespace Verif.Links
open Verif Verif.Hot
open Verif.Reader (Text txt)
open Verif.Handlers (Bytes)

/-- The entries, and what `os.lstat` says about them: time, size and inode. -/
structure Stamped where
  fs : Fs
  sig : Place → Sig

/-- Somebody writes to a path; the file which is written gets another signature. -/
def edit (s : Stamped) (p : Place) (b : Bytes) (new : Sig) : Except Err Stamped :=
  match final s.fs 40 p with
  | none => .error .loop
  | some q => .ok ⟨setAt s.fs q (some (.file b)), fun x => if x = q then new else s.sig x⟩

/-- The walk over the sources: cold_incremental_rebuild.py:78-83. -/
def walked (s : Stamped) (names : List (String × Place)) : List (String × Sig) := names.map fun x => (x.1, s.sig x.2)

theorem final_plain {fs : Fs} : ∀ (n : Nat) {p q : Place}, final fs n p = some q → ∀ t, fs q ≠ some (.link t) := by
  intro n
  induction n with
  | zero =>
    intro p q h
    unfold final at h
    split at h
    · cases h
    · next hno => cases h; exact hno
  | succ n ih =>
    intro p q h
    unfold final at h
    split at h
    · exact ih h
    · next hno => cases h; exact hno

/-- **A part of C91**: an edit through whatever path gives the file which is written its new signature, and is noticed if the source is that
file. -/
theorem C91_plain {s s' : Stamped} {p : Place} {b : Bytes} {new : Sig} (h : edit s p b new = .ok s') :
    ∃ q, final s.fs 40 p = some q ∧ s'.sig q = new ∧ (∀ x, x ≠ q → s'.sig x = s.sig x ∧ s'.fs x = s.fs x) := by
  unfold edit at h
  split at h
  · cases h
  · next q hq =>
    cases h
    exact ⟨q, hq, by simp, fun x hx => by simp [setAt, hx]⟩

/-- **C91 is false for links**: no edit, through the link or through any other path, changes the signature of a link, so if the sources are
links nothing is found, whatever the edits are. -/
theorem C91_false_links {s s' : Stamped} {p : Place} {b : Bytes} {new : Sig} (h : edit s p b new = .ok s')
    {names : List (String × Place)} (hl : ∀ x ∈ names, ∃ t, s.fs x.2 = some (.link t)) (g : Graph.Graph) :
    Cold.detect g (walked s' names) = Cold.detect g (walked s names) ∧ (∀ x ∈ names, s'.fs x.2 = s.fs x.2) := by
  obtain ⟨q, hq, -, h2⟩ := C91_plain h
  have key : ∀ x ∈ names, x.2 ≠ q := by
    intro x hx e
    obtain ⟨t, ht⟩ := hl x hx
    exact final_plain 40 hq t (e ▸ ht)
  refine ⟨?_, fun x hx => (h2 x.2 (key x hx)).2⟩
  congr 1
  unfold walked
  exact List.map_congr_left fun x hx => by rw [(h2 x.2 (key x hx)).1]

namespace LinkToy

local instance {α β : Type} [DecidableEq α] [DecidableEq β] : DecidableEq (Except α β) := fun
  | .ok a, .ok b => if h : a = b then isTrue (by rw [h]) else isFalse (by simp [h])
  | .error a, .error b => if h : a = b then isTrue (by rw [h]) else isFalse (by simp [h])
  | .ok _, .error _ => isFalse (by simp)
  | .error _, .ok _ => isFalse (by simp)

def src : Place := [txt "site", txt "src", txt "public", txt "a.txt"]
def shared : Place := [txt "shared", txt "a.txt"]

/-- The source is a link to a file outside of the project. -/
def before : Stamped :=
  ⟨fun p => if p = src then some (.link (txt "/shared/a.txt")) else if p = shared then some (.file (txt "old")) else none, fun _ => ⟨3, 1, 1⟩⟩

def graph : Graph.Graph := (Graph.addFile [] "src/public/a.txt" ⟨3, 1, 1⟩ []).2

/-- The file is written, through the link even; what is read from the source is something else now, and nothing is found to have changed. -/
theorem C91_false_link_case : ∃ s', edit before src (txt "new contents") ⟨12, 2, 1⟩ = .ok s' ∧ read before.fs src = some (txt "old") ∧
    read s'.fs src = some (txt "new contents") ∧
    Cold.detect graph (walked s' [("src/public/a.txt", src)]) = .ok ⟨[], [], []⟩ := by
  refine ⟨_, rfl, by decide, by decide, by decide⟩

end LinkToy
end Verif.Links
