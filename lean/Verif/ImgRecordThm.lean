import Verif.ImgRecord
import Verif.ImgFilesCase
/-!
# C114: the records of images, and what a torn record does
-/
namespace Verif.ImgRecord
open Verif Verif.Reader Verif.JsonText
open Verif.Img.Files
open Verif.Handlers (Bytes Fs)
open Classical

/-- The crop settings Python can have. -/
abbrev PyCrop : Type := {c : Crop // GenuineCrop c}

def rawTarget (t : Target PyCrop) : Target Crop := ⟨t.width, t.height, t.crop, t.settings.1⟩

def rawMeta (m : Metadata PyCrop) : Metadata Crop :=
  ⟨m.settingsHash, m.path, m.width, m.height, m.contentsHash, rawTarget m.target, m.outputs⟩

noncomputable def pyTarget (t : Target Crop) : Option (Target PyCrop) :=
  if h : GenuineCrop t.settings then some ⟨t.width, t.height, t.crop, ⟨t.settings, h⟩⟩ else none

noncomputable def pyMeta (m : Metadata Crop) : Option (Metadata PyCrop) :=
  (pyTarget m.target).map fun t => ⟨m.settingsHash, m.path, m.width, m.height, m.contentsHash, t, m.outputs⟩

theorem pyTarget_raw (t : Target PyCrop) : pyTarget (rawTarget t) = some t := by
  unfold pyTarget rawTarget
  rw [dif_pos t.settings.2]

theorem pyMeta_raw (m : Metadata PyCrop) : pyMeta (rawMeta m) = some m := by
  simp only [pyMeta, rawMeta, pyTarget_raw, Option.map_some]

instance : Countable PyCrop :=
  Function.Injective.countable (f := fun c : PyCrop => dump none 0 (cropValue c.1)) (by
    intro a b h
    have ha := loads_dump (genuine_crop a.2) trivial none
    have hb := loads_dump (genuine_crop b.2) trivial none
    simp only at h
    rw [h, hb] at ha
    have := loadCrop_value a.1
    rw [← Except.ok.inj ha, loadCrop_value b.1] at this
    exact Subtype.ext (Option.some.inj this).symm)

instance : Countable (Target PyCrop) :=
  Function.Injective.countable (f := fun t : Target PyCrop => (t.width, t.height, t.crop, t.settings)) (by
    intro a b h
    cases a; cases b
    simpa using h)

instance : Countable (Metadata PyCrop) :=
  Function.Injective.countable
    (f := fun t : Metadata PyCrop => (t.settingsHash, t.path, t.width, t.height, t.contentsHash, t.target, t.outputs)) (by
    intro a b h
    cases a; cases b
    simpa using h)

/-- The environment in which records are written and read as metadata.py does.  The types of the model have values
Python cannot have, such as outputs with a format twice; for these the records are other bytes, which no JSON is. -/
noncomputable def recorded {J : Type} (env : Env J PyCrop) : Env J PyCrop :=
  { env with
    dumpTarget := fun t => if GenuineTarget (rawTarget t) then env.encode (targetText (rawTarget t)) else 0 :: Case.dump t
    loadTarget := fun b => if b.head? = some 0 then Case.load b.tail else (readTarget (env.decode b)).bind pyTarget
    dumpMeta := fun m => if GenuineMeta (rawMeta m) then env.encode (metaText (rawMeta m)) else 0 :: Case.dump m
    loadMeta := fun b => if b.head? = some 0 then Case.load b.tail else (readMeta (env.decode b)).bind pyMeta }

theorem dump_head (k : Option Nat) (e : Text × Value) (l : List (Text × Value)) : ∃ q, dump k 0 (.obj (e :: l)) = 123 :: q := by
  obtain ⟨a, b⟩ := e
  exact ⟨_, by simp only [dump]; rfl⟩

theorem dump_last (k : Option Nat) (e : Text × Value) (l : List (Text × Value)) :
    ∃ q, q ≠ [] ∧ q ++ [125] = dump k 0 (.obj (e :: l)) := by
  obtain ⟨a, b⟩ := e
  refine ⟨123 :: (newline k 1 ++ (dumpStr a ++ 58 :: 32 :: (dump k 1 b ++ (dumpPairs k 1 l ++ newline k 0)))), by simp, ?_⟩
  simp [dump]

/-- C114: the model of the code writes and reads records as C71 to C77, C80 and the builds with images assume it. -/
theorem C114_lawful {J : Type} {env : Env J PyCrop} (ht : ∀ t, env.decode (env.encode t) = t)
    (hb : ∀ t, (env.encode (123 :: t)).head? = some 123) :
    (∀ t, (recorded env).loadTarget ((recorded env).dumpTarget t) = some t) ∧
    (∀ m, (recorded env).loadMeta ((recorded env).dumpMeta m) = some m) ∧
    (∀ t, GenuineTarget (rawTarget t) → (recorded env).dumpTarget t = env.encode (targetText (rawTarget t))) ∧
    (∀ m, GenuineMeta (rawMeta m) → (recorded env).dumpMeta m = env.encode (metaText (rawMeta m))) ∧
    (∀ b, b.head? ≠ some 0 → (recorded env).loadTarget b = (readTarget (env.decode b)).bind pyTarget ∧
      (recorded env).loadMeta b = (readMeta (env.decode b)).bind pyMeta) := by
  refine ⟨fun t => ?_, fun m => ?_, fun t h => if_pos h, fun m h => if_pos h, fun b h => ⟨if_neg h, if_neg h⟩⟩
  · show (if _ then _ else _) = _
    show (if (if GenuineTarget (rawTarget t) then env.encode (targetText (rawTarget t)) else 0 :: Case.dump t).head? = some 0 then _ else _) = _
    by_cases h : GenuineTarget (rawTarget t)
    · obtain ⟨q, hq⟩ : ∃ q, targetText (rawTarget t) = 123 :: q := dump_head ..
      have h1 : (env.encode (targetText (rawTarget t))).head? ≠ some 0 := by rw [hq, hb]; decide
      simp only [recorded, if_pos h, if_neg h1, ht, C114_target h, Option.bind_some, pyTarget_raw]
    · simp only [recorded, if_neg h, List.head?_cons, if_true, List.tail_cons, Case.load_dump]
  · show (if (if GenuineMeta (rawMeta m) then env.encode (metaText (rawMeta m)) else 0 :: Case.dump m).head? = some 0 then _ else _) = _
    by_cases h : GenuineMeta (rawMeta m)
    · obtain ⟨q, hq⟩ : ∃ q, metaText (rawMeta m) = 123 :: q := dump_head ..
      have h1 : (env.encode (metaText (rawMeta m))).head? ≠ some 0 := by rw [hq, hb]; decide
      simp only [recorded, if_pos h, if_neg h1, ht, C114_metadata h, Option.bind_some, pyMeta_raw]
    · simp only [recorded, if_neg h, List.head?_cons, if_true, List.tail_cons, Case.load_dump]

/-! ## A torn record -/

theorem touch_kept {fs : Fs} {p q : Text} {b : Bytes} (h : fs q = some b) : touch fs p q = some b := by
  unfold touch
  split
  · exact h
  · next hn =>
    by_cases hq : q = p
    · subst hq; rw [h] at hn; simp at hn
    · simp [Fs.write, hq, h]

theorem find_stuck {J C : Type} [DecidableEq C] {env : Env J C} {rel : Text} {hash : ℤ} {contents : Text} {T : Target C} {name : Text} {b : Bytes}
    (hl : env.loadMeta b = none) : ∀ {es : List (Text × Bool)} {fs fs' : Fs} {r : Option ℤ}, (name, true) ∈ es →
    fs (metaFile (Paths.join (art rel) name)) = some b → find env rel hash contents T es fs = .ok (r, fs') → r ≠ none
  | [], _, _, _, hm, _, _ => by cases hm
  | (n, d) :: es, fs, fs', r, hm, hf, h => by
    have hfound : ∀ {fs : Fs}, (match env.int n with | none => Except.error Img.Err.valueError | some k => .ok (some k, fs)) = .ok (r, fs') → r ≠ none := by
      intro fs h
      split at h
      · cases h
      · cases h; simp
    by_cases hn : (n, d) = (name, true)
    · simp only [Prod.mk.injEq] at hn
      obtain ⟨rfl, rfl⟩ := hn
      simp only [find, hf, hl, Bool.true_eq_false, if_false] at h
      cases h
    · have hm' : (name, true) ∈ es := by
        rcases List.mem_cons.1 hm with h | h
        · exact absurd h.symm hn
        · exact h
      simp only [find] at h
      split at h
      · exact find_stuck hl hm' hf h
      · split at h
        · split at h
          · exact find_stuck hl hm' (touch_kept hf) h
          · split at h
            · cases h
            · split at h
              · exact hfound h
              · exact find_stuck hl hm' (touch_kept hf) h
        · split at h
          · cases h
          · split at h
            · exact find_stuck hl hm' hf h
            · split at h
              · cases h
              · split at h
                · exact find_stuck hl hm' hf h
                · exact hfound h

/-- C114, a finding: a build which ends while metadata.json is written, or just after it was opened, leaves the image in a
state in which no picture of another size or crop can be asked for: every later build raises until the file is
removed. -/
theorem C114_stuck {J : Type} {env : Env J PyCrop} {m : Metadata PyCrop} (hg : GenuineMeta (rawMeta m)) {p s : Text}
    (hp : p ++ s = metaText (rawMeta m)) (hs : s ≠ []) {rel name : Text} {fs : Fs} {es : List (Text × Bool)}
    (ht : env.decode (env.encode p) = p) (hz : (env.encode p).head? ≠ some 0)
    (hsrc : (fs (source rel)).isSome) (hes : env.dirs fs (art rel) = some es) (hname : (name, true) ∈ es)
    (hfile : fs (metaFile (Paths.join (art rel) name)) = some (env.encode p)) (T : Target PyCrop) :
    (∃ e, getOrReserve (recorded env) rel T fs = .error e) ∨
    ∃ n fs', getTarget (recorded env) rel T fs = .ok (some n, fs') ∧ getOrReserve (recorded env) rel T fs = .ok (n, fs') := by
  have hl : (recorded env).loadMeta (env.encode p) = none := by
    show (if (env.encode p).head? = some 0 then _ else _) = none
    rw [if_neg hz, ht, (C114_torn_metadata hg hp hs).2]
    rfl
  rcases h : getTarget (recorded env) rel T fs with e | ⟨r, fs'⟩
  · exact .inl ⟨e, by unfold getOrReserve; rw [h]⟩
  · have hr : r ≠ none := by
      have h' := h
      unfold getTarget at h'
      obtain ⟨src, hsrc⟩ := Option.isSome_iff_exists.1 hsrc
      have hes' : (recorded env).dirs fs (art rel) = some es := hes
      simp only [hsrc, hes'] at h'
      split at h'
      · cases h'
      · exact find_stuck hl hname hfile h'
    cases r with
    | none => exact absurd rfl hr
    | some n => exact .inr ⟨n, fs', rfl, by unfold getOrReserve; rw [h]⟩

end Verif.ImgRecord
