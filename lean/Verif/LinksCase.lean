import Verif.LinksDetect
/-!
# Examples of links

The hypotheses of C92 and C93 are met; C93 is false of a project in the working folder.
-/
namespace Verif.Links
open Verif.Reader (Text txt)
open Verif.Paths
open Verif.Handlers (Bytes Built copyTarget hashTarget)

namespace Case

def digest (b : Bytes) : Bytes := b.length :: b.take 1

def ctx : Ctx := ⟨txt "/", txt "/home/p", true⟩

def source : Text := txt "src/public/a.txt"
def target : Text := txt "out/www/a.txt"
def hash : Text := txt "out/www/a.txt.hash"
def picture : Text := txt "img/1/2x2.png"

/-- A file and a picture which was made before. -/
def start : Fs := fun p =>
  if p = ctx.place source then some (.file [1]) else if p = place ctx.cwd (ctx.kept picture) then some (.file [7]) else none

def l1 : Fs := setAt start (ctx.place target) (some (.link (txt "/home/p/src/public/a.txt")))
def l2 : Fs := setAt l1 (ctx.place hash) (some (.file [1, 1]))
def l3 : Fs := setAt l2 (ctx.place source) (some (.file [2, 2]))
def l4 : Fs := setAt l3 (ctx.place target) none
def l5 : Fs := setAt l4 (ctx.place hash) none
def l6 : Fs := setAt l5 (ctx.place target) (some (.link (txt "/home/p/src/public/a.txt")))
def l7 : Fs := setAt l6 (ctx.place hash) (some (.file [2, 2]))
def l8 : Fs := setAt l7 (ctx.place (served picture)) (some (.link (txt "/home/p/artifacts/img/1/2x2.png")))

def ops : List Op := [.copy source, .hash source, .put (ctx.place source) [2, 2], .remove (ctx.place target),
  .remove (ctx.place hash), .copy source, .hash source, .picture picture]

theorem copy_run {fs : Fs} (h : read fs (ctx.place target) = none) (h2 : fs (ctx.place target) = none) :
    (Op.copy source).run digest ctx fs = .ok (some ⟨[], [target], []⟩,
      setAt fs (ctx.place target) (some (.link (txt "/home/p/src/public/a.txt")))) := by
  have ht : copyTarget source = some target := by decide +kernel
  have ha : abspath ctx.cwd (ctx.path source) = txt "/home/p/src/public/a.txt" := by decide +kernel
  have hs : ctx.symlinks = true := rfl
  simp [Op.run, copyBuild, ht, h, symlink, h2, ha, hs, Except.map]

theorem hash_run {fs : Fs} {b : Bytes} (h2 : fs (ctx.place hash) = none)
    (h3 : fs (ctx.place source) = some (.file b)) :
    (Op.hash source).run digest ctx fs = .ok (some ⟨[], [hash], []⟩, setAt fs (ctx.place hash) (some (.file (digest b)))) := by
  have ht : hashTarget source = some hash := by decide +kernel
  simp [Op.run, hashBuild, ht, read_none h2, read_file h3, write_self (fs := fs) (p := ctx.place hash) (by simp [h2]), Except.map]

theorem put_run {fs : Fs} {p : Place} (h : ∀ t, fs p ≠ some (.link t)) (b : Bytes) :
    (Op.put p b).run digest ctx fs = .ok (none, setAt fs p (some (.file b))) := by
  simp [Op.run, write_self h, Except.map]

theorem remove_run {fs : Fs} {p : Place} (h : fs p ≠ none) :
    (Op.remove p).run digest ctx fs = .ok (none, setAt fs p none) := by
  simp [Op.run, unlink, Option.isSome_iff_ne_none.2 h, Except.map]

theorem picture_run {fs : Fs} (h2 : fs (ctx.place (served picture)) = none) :
    (Op.picture picture).run digest ctx fs = .ok (some ⟨[], [served picture], [join (txt "artifacts") picture]⟩,
      setAt fs (ctx.place (served picture)) (some (.link (txt "/home/p/artifacts/img/1/2x2.png")))) := by
  have ha : ctx.kept picture = txt "/home/p/artifacts/img/1/2x2.png" := by decide +kernel
  have hs : ctx.symlinks = true := rfl
  simp [Op.run, oldPicture, read_none h2, symlink, h2, ha, hs, Except.map]

theorem below_picture : Below picture := by
  refine ⟨by decide +kernel, by decide +kernel, ?_⟩
  have : comps picture = [txt "img", txt "1", txt "2x2.png"] := by decide +kernel
  rw [this]
  intro x hx
  simp only [List.mem_cons, List.not_mem_nil, or_false] at hx
  rcases hx with rfl | rfl | rfl <;> exact name_lit (by decide)

/-- A file and a picture are built, the file is edited, and they are built again. -/
theorem C92_case : ∃ S, History digest ctx (fun _ => False) start ops S l8 ∧ (∀ p t, start p ≠ some (.link t)) ∧
    (∀ p, ¬ S p) ∧ read l8 (ctx.place target) = some [2, 2] ∧ read l8 (ctx.place (served picture)) = some [7] ∧
    read l3 (ctx.place target) = some [2, 2] ∧ read l2 (ctx.place target) = some [1] := by
  have hsource : ∀ t, copyTarget source = some t → t = target := by
    intro t ht
    have h2 : copyTarget source = some target := by decide +kernel
    rw [h2] at ht
    exact (Option.some.inj ht).symm
  have hhash : ∀ t, hashTarget source = some t → t = hash := by
    intro t ht
    have h2 : hashTarget source = some hash := by decide +kernel
    rw [h2] at ht
    exact (Option.some.inj ht).symm
  have hst : ∀ p t, start p ≠ some (.link t) := by
    intro p t
    unfold start
    split
    · simp
    · split <;> simp
  have hl2 : ∀ q p, LinkedTo l2 q p → q = ctx.place target := by
    rintro q p ⟨t, ht, _⟩
    unfold l2 l1 setAt at ht
    split at ht
    · simp at ht
    · split at ht
      · assumption
      · exact absurd ht (hst _ _)
  have hl3 : ∀ q p, LinkedTo l3 q p → q = ctx.place target := by
    rintro q p ⟨t, ht, h2⟩
    unfold l3 setAt at ht
    split at ht
    · simp at ht
    · exact hl2 q p ⟨t, ht, h2⟩
  have hl4 : ∀ q p, ¬ LinkedTo l4 q p := by
    rintro q p ⟨t, ht, h2⟩
    unfold l4 setAt at ht
    split at ht
    · simp at ht
    · next hne => exact hne (hl3 q p ⟨t, ht, h2⟩)
  refine ⟨fun q => q ≠ ctx.place hash ∧ ((q ≠ ctx.place target ∧ ((False ∨ LinkedTo l2 q (ctx.place source)) ∨
    LinkedTo l3 q (ctx.place target))) ∨ LinkedTo l4 q (ctx.place hash)), ?_, hst, ?_, by decide +kernel, by decide +kernel, by decide +kernel, by decide +kernel⟩
  · refine .cons ⟨⟨[1], by decide +kernel⟩, fun _ _ h => h⟩ (copy_run (by decide +kernel) (by decide +kernel)) ?_
    refine .cons ⟨⟨[1], by decide +kernel⟩, fun _ _ h => h⟩ (hash_run (b := [1]) (by decide +kernel) (by decide +kernel)) ?_
    refine .cons (fs1 := l3) (by intro t; have : l2 (ctx.place source) = some (.file [1]) := by decide +kernel
                                 exact fun e => by rw [show l2 (ctx.place source) = _ from e] at this; cases this)
      (put_run (by intro t; have : l2 (ctx.place source) = some (.file [1]) := by decide +kernel
                   exact fun e => by rw [show l2 (ctx.place source) = _ from e] at this; cases this) _) ?_
    refine .cons (fs1 := l4) (show l3 (ctx.place target) ≠ none by decide +kernel) (remove_run (by decide +kernel)) ?_
    refine .cons (fs1 := l5) (show l4 (ctx.place hash) ≠ none by decide +kernel) (remove_run (by decide +kernel)) ?_
    refine .cons (fs1 := l6) ⟨⟨[2, 2], by decide +kernel⟩, ?_⟩ (copy_run (by decide +kernel) (by decide +kernel)) ?_
    · rintro t ht ⟨_, ⟨h, _⟩ | h⟩
      · exact h (by rw [hsource t ht])
      · exact hl4 _ _ h
    refine .cons (fs1 := l7) ⟨⟨[2, 2], by decide +kernel⟩, ?_⟩ (hash_run (b := [2, 2]) (by decide +kernel) (by decide +kernel)) ?_
    · rintro t ht ⟨h, _⟩
      exact h (by rw [hhash t ht])
    refine .cons (fs1 := l8) ⟨below_picture, ⟨[7], by decide +kernel⟩, ?_⟩ (picture_run (by decide +kernel)) .nil
    rintro ⟨_, ⟨_, (h | h) | h⟩ | h⟩
    · exact h
    · exact absurd (hl2 _ _ h) (by decide +kernel)
    · exact absurd (hl3 _ _ h) (by decide +kernel)
    · exact hl4 _ _ h
  · rintro p ⟨_, ⟨hne, (h | h) | h⟩ | h⟩
    · exact h
    · exact hne (hl2 _ _ h)
    · exact hne (hl3 _ _ h)
    · exact hl4 _ _ h

/-- The hypotheses of C93_partial are met. -/
theorem C93_case : isAbs ctx.cwd = true ∧ isAbs ctx.folder = true ∧ Below picture ∧
    ∃ b fs', Puts ctx picture start b fs' ∧ served picture ∈ b.produced ∧ read fs' (ctx.place (served picture)) = some [7] := by
  refine ⟨rfl, rfl, below_picture, ⟨[], [served picture], [join (txt "artifacts") picture]⟩,
    setAt start (ctx.place (served picture)) (some (.link (txt "/home/p/artifacts/img/1/2x2.png"))), .old ?_, by simp, by decide +kernel⟩
  have h2 : start (ctx.place (served picture)) = none := by decide +kernel
  have ha : ctx.kept picture = txt "/home/p/artifacts/img/1/2x2.png" := by decide +kernel
  have hs : ctx.symlinks = true := rfl
  simp [oldPicture, read_none h2, symlink, h2, ha, hs]

/-- `vanillaplusjs build` in the folder of the project (runners/build.py:38), on a system with links. -/
def here : Ctx := ⟨txt "/home/p", txt ".", true⟩

/-- The same files. -/
theorem here_same : here.place source = ctx.place source ∧ place here.cwd (here.kept picture) = place ctx.cwd (ctx.kept picture) := by
  decide +kernel

/-- C93 is false in the folder of the project, which is the default: the picture is put below out/www successfully, by the first page
which has it, but cannot be read there; and the next page which has it cannot be built. -/
theorem C93_false_default : ∃ b fs', newPicture here picture start = .ok (b, fs') ∧ b.produced = [served picture] ∧
    fs' (here.place (served picture)) = some (.link (txt "./artifacts/img/1/2x2.png")) ∧
    read fs' (here.place (served picture)) = none ∧ read fs' (place here.cwd (here.kept picture)) = some [7] ∧
    oldPicture here picture fs' = .error .exists_ := by
  have h2 : start (here.place (served picture)) = none := by decide +kernel
  have ha : here.kept picture = txt "./artifacts/img/1/2x2.png" := by decide +kernel
  have hs : here.symlinks = true := rfl
  refine ⟨⟨[], [served picture], []⟩,
    setAt start (here.place (served picture)) (some (.link (txt "./artifacts/img/1/2x2.png"))), ?_, rfl, by decide +kernel,
    by decide +kernel, by decide +kernel, ?_⟩
  · simp [newPicture, symlink, h2, ha, hs]
  · exact C93_false_again hs (x := txt "./artifacts/img/1/2x2.png") (by decide +kernel) (by decide +kernel)

end Case

end Verif.Links
