import Verif.ImgRecordThm
/-!
# A record, its text, and a torn one
-/
namespace Verif.ImgRecord.Case
open Verif Verif.Reader Verif.JsonText Verif.ImgRecord
open Verif.Img.Files
open Verif.Handlers (Bytes Fs)
open Classical

def crop : Crop := ⟨.int 0, .int (-3), .int 0, .int 12, .float (txt "0.5"), .float (txt "1e-07")⟩

theorem crop_genuine : GenuineCrop crop := by
  refine ⟨trivial, trivial, trivial, trivial, ?_, ?_⟩ <;> simp only [Genuine, crop] <;> rfl

def target : Target PyCrop := ⟨10, 20, txt "cover", ⟨crop, crop_genuine⟩⟩

/-- The file is called é.png. -/
def made : Metadata PyCrop :=
  ⟨-7, [47, 233, 46, 112, 110, 103], 100, 200, txt "ab\"c", target,
    [(txt "webp", [⟨10, 20, txt "a/1/10x20.webp", txt "q"⟩, ⟨20, 40, txt "a/1/20x40.webp", txt "r"⟩]), (txt "png", [])]⟩

theorem made_genuine : GenuineMeta (rawMeta made) := by
  refine ⟨⟨by decide, by simp [NoPair, rawMeta, made, isHigh]⟩, plain_txt _, ⟨plain_txt _, crop_genuine⟩, ?_, by decide⟩
  intro o ho
  simp only [rawMeta, made, List.mem_cons, List.not_mem_nil, or_false] at ho
  rcases ho with rfl | rfl
  · refine ⟨plain_txt _, fun p hp => ?_⟩
    simp only [List.mem_cons, List.not_mem_nil, or_false] at hp
    rcases hp with rfl | rfl <;> exact ⟨plain_txt _, plain_txt _⟩
  · exact ⟨plain_txt _, fun p hp => by cases hp⟩

theorem small_text :
    dump (some 2) 0 (.obj [(txt "a", .arr [.int (-1), picValue ⟨1, 2, [233], [34]⟩]), (txt "b", .obj []), (txt "c", .arr [])]) = txt "{
  \"a\": [
    -1,
    {
      \"width\": 1,
      \"height\": 2,
      \"relpath\": \"\\u00e9\",
      \"choice\": \"\\\"\"
    }
  ],
  \"b\": {},
  \"c\": []
}" := by
  simp only [dump, dumpRest, dumpPairs, picValue]
  decide +kernel

theorem text_ne : metaText (rawMeta made) ≠ [] := by
  obtain ⟨q, hq⟩ := dump_head (some 2) (txt "settings_hash", .int made.settingsHash) _
  intro h
  exact absurd (hq.symm.trans h) (by simp)

/-- A project with one image, é.png, for which one entry exists. -/
noncomputable def env : Env Unit PyCrop where
  cwd := txt "/p"
  folder := txt "."
  symlinks := false
  formats := []
  settingsHash := .ok (-7)
  sizes := fun _ _ => [(10, 20)]
  crop := fun _ => some ⟨crop, crop_genuine⟩
  int := fun _ => some 1
  dims := fun _ => some (100, 200)
  draw := fun _ _ _ _ _ _ => .ok []
  digest := id
  decode := id
  encode := id
  dirs := fun _ _ => some [(txt "1", true)]
  dumpTarget := fun _ => []
  loadTarget := fun _ => none
  dumpMeta := fun _ => []
  loadMeta := fun _ => none

def rel : Text := [233, 46, 112, 110, 103]

/-- Its metadata.json was opened and not yet written. -/
noncomputable def torn : Fs := fun p => if p = source rel then some [1] else if p = metaFile (Paths.join (art rel) (txt "1")) then some [] else none

theorem C114_case :
    readTarget (targetText (rawTarget target)) = some (rawTarget target) ∧
    readMeta (metaText (rawMeta made)) = some (rawMeta made) ∧
    (∃ p s, p ++ s = metaText (rawMeta made) ∧ p ≠ [] ∧ s = [125] ∧ readMeta p = none) ∧
    (∀ t, (recorded env).loadTarget ((recorded env).dumpTarget t) = some t) ∧
    (∀ m, (recorded env).loadMeta ((recorded env).dumpMeta m) = some m) ∧
    (recorded env).dumpMeta made = metaText (rawMeta made) ∧
    ∀ T, getOrReserve (recorded env) rel T torn = .error .valueError := by
  have hl := C114_lawful (env := env) (fun _ => rfl) (fun _ => rfl)
  refine ⟨C114_target made_genuine.2.2.1, C114_metadata made_genuine, ?_, hl.1, hl.2.1, hl.2.2.2.1 _ made_genuine, fun T => ?_⟩
  · obtain ⟨q, h1, h2⟩ := dump_last (some 2) (txt "settings_hash", .int made.settingsHash) _
    exact ⟨q, [125], h2, h1, rfl, (C114_torn_metadata made_genuine h2 (by decide)).2⟩
  · have h1 : (recorded env).loadMeta [] = none := by
      rw [(hl.2.2.2.2 [] (by simp)).2]
      rw [show readMeta (env.decode []) = none from (C114_torn_metadata made_genuine (p := []) rfl text_ne).2]
      rfl
    have h2 : torn (source rel) = some [1] := by simp [torn]
    have h3 : torn (metaFile (Paths.join (art rel) (txt "1"))) = some [] := by
      have : metaFile (Paths.join (art rel) (txt "1")) ≠ source rel := by decide +kernel
      simp [torn, this]
    have h4 : (recorded env).dirs torn (art rel) = some [(txt "1", true)] := rfl
    have h5 : (recorded env).settingsHash = .ok (-7) := rfl
    unfold getOrReserve getTarget
    simp only [h2, h4, h5, find, h3, h1, Bool.true_eq_false, if_false]

end Verif.ImgRecord.Case
