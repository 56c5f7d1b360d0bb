import Verif.ImgFresh
import Verif.ImgFilesCase

/-!
# C102: a project for which it says something

The project of `C71_case`, whose image is replaced after it has been exported.
-/

namespace Verif.Img.Files.Case

open Verif.Reader (Text txt)
open Verif.Paths (join isAbs Seg)
open Verif.Handlers (Bytes Fs Scan Built)
open Verif.Css.Data (root)

/-- All images: their hashes are different. -/
def anyImage : Bytes → Prop := fun _ => True

theorem toy_sizes : ([(10, 10), (20, 20)] : List (ℕ × ℕ)).Nodup := by decide

theorem hashed0 : Hashed toy anyImage f0 := by
  intro rel img d _ hs hd
  refine ⟨?_, trivial⟩
  unfold contentsOf
  split
  · next x hx => exact start.hashes rel x img hx hs (by rw [hd]; simp)
  · rw [hs]; rfl

theorem Hashed.keep {f g : Fs} (h : Hashed toy anyImage f) (hi : ∀ p, g p ≠ f p → ImageFile p) : Hashed toy anyImage g := by
  intro rel img d hp hs hd
  obtain ⟨k1, k2⟩ := sources_kept (env := toy) hi rel hp
  rw [k1] at hs
  rw [k2]
  exact h rel img d hp hs hd

theorem hashed1 : Hashed toy anyImage f1 := Hashed.keep hashed0 fun _ h => reservedFs_image h

theorem lived0 : Lived toy anyImage f0 := .start start.finite start.art start.locked

theorem lived1 : Lived toy anyImage f1 := by
  obtain ⟨s, hs⟩ := scan_run
  exact .scan lived0 hashed0 proper hs

theorem pictured1 : Pictured toy f1 (relOf toy page command) := ⟨[1], (100, 100), by rw [rel_is, source_is]; exact f1_source, rfl⟩

theorem lived4 : Lived toy anyImage f4 := by
  obtain ⟨l, p, h⟩ := export_run
  exact .export_ lived1 hashed1 proper pictured1 (fun _ _ _ _ _ _ => toy_sizes) h

theorem hashed4 : Hashed toy anyImage f4 := by
  obtain ⟨l, p, h⟩ := export_run
  obtain ⟨T, n, d, -, x⟩ := export_spec toy_lawful (h := 7) rfl proper C71_case.2.2.2.2.2.2.1 pictured1 h
  exact Hashed.keep hashed1 x.image

/-- The image is replaced by another one, whose hash is written. -/
noncomputable def f5 : Fs := (f4.write (txt "src/public/img/a.png") [2]).write (txt "out/www/img/a.png.hash") [2]

theorem f5_art {p : Text} (h : InArt p) : f5 p = f4 p := by
  have h1 : p ≠ txt "src/public/img/a.png" := by
    rintro rfl
    revert h
    unfold InArt
    decide
  have h2 : p ≠ txt "out/www/img/a.png.hash" := by
    rintro rfl
    revert h
    unfold InArt
    decide
  simp only [f5, Fs.write, if_neg h1, if_neg h2]

theorem f5_out {p : Text} (h1 : p ≠ txt "out/www/img/a.png.hash") (h : InOut p) : f5 p = f4 p := by
  have h2 : p ≠ txt "src/public/img/a.png" := by
    rintro rfl
    revert h
    unfold InOut
    decide
  simp only [f5, Fs.write, if_neg h1, if_neg h2]

theorem f5_pic (s : Text) (n : ℤ) (w h : ℕ) (f : Text) (hf : 47 ∉ f) :
    f5 (outFile s (idText n) (outName w h f)) = f4 (outFile s (idText n) (outName w h f)) := by
  refine f5_out ?_ (out_out _ _ _)
  intro he
  have e : txt "out/www/img/a.png.hash" = txt "out/www/img" ++ 47 :: txt "a.png.hash" := by decide
  rw [e] at he
  unfold outFile at he
  exact out_ne 97 (by decide) (by omega) (split_unique_last (out_slash hf) (by decide) he).2

theorem f5_lock (s : Text) : f5 (lockPath s) = f4 (lockPath s) := by
  refine f5_out ?_ (lock_out _)
  have e1 : txt "out/www/img/a.png.hash" = 111 :: 117 :: 116 :: 47 :: 119 :: txt "ww/img/a.png.hash" := by decide
  have e2 : txt "out/locks/" = 111 :: 117 :: 116 :: 47 :: 108 :: txt "ocks/" := by decide
  rw [lockPath, e1, e2]
  simp

theorem f5_locked : AllLocked f5 := by
  have h4 : AllLocked f4 := (lived4.core toy_lawful (h := 7) rfl toy_formats (fun _ _ _ _ e => e)).locked
  intro s hs
  rcases h4 s hs with h | h
  · exact .inl (by rw [f5_lock]; exact h)
  · exact .inr fun n w h' f hf => by rw [f5_pic _ _ _ _ _ hf]; exact h n w h' f hf

theorem f5_finite : Finite f5 := (f4_finite.write _ _).write _ _

theorem lived5 : Lived toy anyImage f5 :=
  .edit lived4 f5_finite (fun p h => .inl (f5_art h)) (fun s n w h k hk _ => .inl (f5_pic s n w h k hk)) f5_locked

/-- There is only one entry. -/
theorem f5_entry {name : Text} (hn : Seg name) {b : Bytes} (h : f5 (entryFile (txt "img/a") name (txt "metadata.json")) = some b) : b = dump recorded := by
  rw [f5_art (entry_art _ _ _)] at h
  rcases f4_art _ (entry_art _ _ _) (by rw [h]; rfl) with e | ⟨file, e⟩
  · exact absurd e (entry_ne_counter (by decide) (by decide))
  · have : name = idText 1 := by
      unfold entryFile at e
      simp only [List.append_assoc, List.cons_append] at e
      have h1 := List.append_cancel_left (List.append_cancel_left e)
      simp only [List.cons.injEq, true_and] at h1
      exact (split_unique hn.2 (idText_slash 1) h1).1
    subst this
    have e := f4_meta
    rw [← dir_is, meta_is] at e
    rw [e] at h
    exact (Option.some.inj h).symm

theorem recorded_load : toy.loadMeta (dump recorded) = some recorded := load_dump _

theorem f5_contents : contentsOf toy f5 (txt "img/a.png") = [2] := by
  unfold contentsOf
  rw [hash_is]
  simp only [f5, Fs.write, if_true]
  rfl

theorem replaced5 : Replaced toy 7 f5 (relOf toy page command) := by
  rw [rel_is]
  refine ⟨f5_finite, by rw [stem_is]; exact plain, ?_, ?_, ?_, ?_⟩
  · rw [source_is]
    have h : txt "src/public/img/a.png" ≠ txt "out/www/img/a.png.hash" := by decide
    simp only [f5, Fs.write, if_neg h, if_true]
    rfl
  · refine ⟨1, dump recorded, recorded, ?_, recorded_load, rfl⟩
    rw [stem_is, f5_art (entry_art _ _ _), ← meta_is, dir_is]
    exact f4_meta
  · intro name b m hn hb hm _
    rw [stem_is] at hb
    rw [f5_entry hn hb, recorded_load] at hm
    cases hm
    rw [f5_contents]
    unfold recorded
    decide
  · intro name hn hs
    rw [stem_is] at hs ⊢
    rw [f5_art (entry_art _ _ _)] at hs
    have : name = idText 1 := by
      rcases f4_art _ (entry_art _ _ _) hs with e | ⟨file, e⟩
      · exact absurd e (entry_ne_counter (by decide) (by decide))
      · unfold entryFile at e
        simp only [List.append_assoc, List.cons_append] at e
        have h1 := List.append_cancel_left (List.append_cancel_left e)
        simp only [List.cons.injEq, true_and] at h1
        exact (split_unique hn.2 (idText_slash 1) h1).1
    subst this
    rw [f5_art (entry_art _ _ _), ← meta_is, dir_is, f4_meta]
    rfl

/-- The case for C102: the project before its first build, after the scan, after the export - which succeeds once more -, and after
its image has been replaced, when neither scans nor exports succeed any more. -/
theorem C102_case : Lawful toy ∧ (∀ f ∈ toy.formats, GoodFormat f) ∧ 
    (∀ a b, anyImage a → anyImage b → toy.digest a = toy.digest b → a = b) ∧ Lived toy anyImage f1 ∧ Hashed toy anyImage f1 ∧ Proper toy page command ∧
    Pictured toy f1 (relOf toy page command) ∧ Distinct toy f1 page command ∧ (∃ r, exportCommand toy page f1 command = .ok (recorded, r, f4)) ∧ flat recorded.outputs ≠ [] ∧
    Lived toy anyImage f4 ∧ Hashed toy anyImage f4 ∧ (∃ r, exportCommand toy page f4 command = .ok (recorded, r, f4)) ∧
    Lived toy anyImage f5 ∧ Replaced toy 7 f5 (relOf toy page command) ∧ (∃ e, scanCommand toy page f5 command = .error e) ∧
    ∃ e, exportCommand toy page f5 command = .error e := by
  refine ⟨toy_lawful, toy_formats, fun _ _ _ _ e => e, lived1, hashed1, proper, pictured1, fun _ _ _ _ _ _ => toy_sizes, ?_, by decide, lived4, hashed4, again_run, lived5,
    replaced5, C102_false_stuck toy_lawful rfl replaced5⟩
  obtain ⟨l, p, h⟩ := export_run
  exact ⟨_, h⟩

end Verif.Img.Files.Case
