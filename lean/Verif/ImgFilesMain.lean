import Verif.ImgFilesRun

/-!
# C71: targets keep their numbers, so that exports report what scans announced
-/

namespace Verif.Img.Files

open Verif.Reader (Text txt)
open Verif.Paths (join isAbs Seg)
open Verif.Handlers (Bytes Fs Scan Built)
open Verif.Css.Data (root)

variable {J C : Type} [DecidableEq C]

/-! ## Specification -/

/-- There is an image at this path below src/public. -/
def Pictured (env : Env J C) (fs : Fs) (rel : Text) : Prop := ∃ b d, fs (source rel) = some b ∧ env.dims b = some d

/-- The files of a finished target. -/
structure Made (env : Env J C) (fs : Fs) (stem : Text) (n : ℤ) (m : Metadata C) : Prop where
  place : (fs (entryFile stem (idText n) (txt "placeholder.json"))).isSome
  /-- what is recorded is one of the sizes and formats, and exists -/
  pics : ∀ g p, Has m.outputs g p → ∃ t ∈ tasks (env.sizes (m.width, m.height) (m.target.width, m.target.height)) env.formats,
    g = t.2.name ∧ p.width = t.1.1 ∧ p.height = t.1.2 ∧ p.relpath = picPath stem n t ∧
      (fs (entryFile stem (idText n) (outName t.1.1 t.1.2 t.2.name))).isSome
  distinct : ((flat m.outputs).map (·.relpath)).Nodup
  /-- an image with the recorded hash has the recorded size -/
  dims : ∀ rel b d, root rel = stem → m.contentsHash = contentsOf env fs rel → fs (source rel) = some b → env.dims b = some d → d = (m.width, m.height)

/-- The artifacts are in order, for the settings with hash `h`. -/
structure Good (env : Env J C) (h : ℤ) (fs : Fs) : Prop where
  finite : Finite fs
  /-- entries are numbers up to the counter -/
  counted : ∀ stem name, Plain stem → Seg name →
    (fs (entryFile stem name (txt "placeholder.json"))).isSome ∨ (fs (entryFile stem name (txt "metadata.json"))).isSome →
    ∃ n b c, name = idText n ∧ fs (counterPath stem) = some b ∧ env.int (env.decode b) = some c ∧ n ≤ c
  /-- one entry for each target -/
  unique : ∀ stem T name name', Plain stem → Seg name → Seg name' → Match env h fs stem T name → Match env h fs stem T name' → name = name'
  made : ∀ stem n b m, Plain stem → fs (entryFile stem (idText n) (txt "metadata.json")) = some b → env.loadMeta b = some m → m.settingsHash = h →
    Made env fs stem n m
  /-- images with the same hash have the same size -/
  same : ∀ rel rel' b b', Plain (root rel) → root rel = root rel' → contentsOf env fs rel = contentsOf env fs rel' → fs (source rel) = some b →
    fs (source rel') = some b' → ∀ d d', env.dims b = some d → env.dims b' = some d' → d = d'

/-- The image a command is about has a proper path. -/
def Proper (env : Env J C) (file : Text) (c : Command J) : Prop := Plain (root (relOf env file c))

/-- What happens to the files: scans and exports of images, and anything else which leaves artifacts, images and their hashes
as they are (or writes the right hash).  All other files, with their hashes, may change. -/
inductive Step (env : Env J C) : Fs → Fs → Prop
  | scan {file : Text} {c : Command J} {f g : Fs} {s : Scan} (hp : Proper env file c) (h : scanCommand env file f c = .ok (s, g)) : Step env f g
  | export_ {file : Text} {c : Command J} {f g : Fs} {m : Metadata C} {r : Built} (hp : Proper env file c) (hi : Pictured env f (relOf env file c))
      (h : exportCommand env file f c = .ok (m, r, g)) : Step env f g
  | other {f g : Fs} (h0 : Finite g) (h1 : ∀ p, InArt p → g p = f p)
      (h2 : ∀ rel, Plain (root rel) → Pictured env f rel ∨ Pictured env g rel →
        g (source rel) = f (source rel) ∧ contentsOf env g rel = contentsOf env f rel) : Step env f g

inductive Steps (env : Env J C) : Fs → Fs → Prop
  | refl {f : Fs} : Steps env f f
  | step {f g g' : Fs} (h : Steps env f g) (hs : Step env g g') : Steps env f g'

/-! ## Images and hashes are left alone -/

/-- A file which scans and exports of images may change. -/
def ImageFile (p : Text) : Prop :=
  InArt p ∨ (∃ s, p = lockPath s) ∨ ∃ s n w h f, 46 ∉ f ∧ f ≠ txt "hash" ∧ p = outFile s n (outName w h f)

theorem root_prefix (p : Text) : root p <+: p := by
  unfold root
  dsimp only
  split
  · exact List.take_prefix _ _
  · exact List.prefix_refl _

theorem rel_first {rel : Text} (h : Plain (root rel)) : rel.head? ≠ some 47 := by
  obtain ⟨t, ht⟩ := root_prefix rel
  intro hh
  apply h.first
  cases hs : root rel with
  | nil => exact absurd hs h.empty
  | cons c cs =>
    rw [← ht, hs] at hh
    simpa using hh

theorem source_eq {rel : Text} (h : Plain (root rel)) : source rel = txt "src/public/" ++ rel := by
  have e : txt "src/public/" = join (txt "src") (txt "public") ++ [47] := by decide
  unfold source
  rw [join_plain (by decide) (by decide) (rel_first h), e]
  simp

theorem hash_eq {rel : Text} (h : Plain (root rel)) : hashFile rel = txt "out/www/" ++ rel ++ txt ".hash" := by
  have e : txt "out/www/" = join (txt "out") (txt "www") ++ [47] := by decide
  unfold hashFile
  rw [join_plain (by decide) (by decide) ?_, e]
  · simp
  · cases hr : rel with
    | nil => decide
    | cons c cs =>
      have := rel_first h
      rw [hr] at this
      simpa using this

theorem image_source {p rel : Text} (hr : Plain (root rel)) (h : ImageFile p) : p ≠ source rel := by
  have e : txt "src/public/" = 115 :: txt "rc/public/" := by decide
  have e1 : txt "artifacts/" = 97 :: txt "rtifacts/" := by decide
  have e2 : txt "out/" = 111 :: txt "ut/" := by decide
  have ho : ∀ {q}, InOut q → q ≠ source rel := by
    rintro q ⟨t, rfl⟩
    rw [source_eq hr, e, e2]
    simp
  rcases h with ⟨t, rfl⟩ | ⟨s, rfl⟩ | ⟨s, n, w, h, f, -, -, rfl⟩
  · rw [source_eq hr, e, e1]; simp
  · exact ho (lock_out s)
  · exact ho (out_out _ _ _)

theorem image_hash {p rel : Text} (hr : Plain (root rel)) (h : ImageFile p) : p ≠ hashFile rel := by
  have e1 : txt "out/www/" = txt "out/" ++ txt "www/" := by decide
  have e2 : txt "out/www/" = 111 :: 117 :: 116 :: 47 :: 119 :: txt "ww/" := by decide
  have e3 : txt "out/locks/" = 111 :: 117 :: 116 :: 47 :: 108 :: txt "ocks/" := by decide
  have e4 : txt ".hash" = 46 :: txt "hash" := by decide
  rw [hash_eq hr]
  rcases h with h | ⟨s, rfl⟩ | ⟨s, n, w, h, f, h1, h2, rfl⟩
  · refine art_ne_out h ?_
    simp only [InOut, e1, List.append_assoc]
    exact List.prefix_append _ _
  · rw [lockPath, e2, e3]; simp
  · intro he
    have : txt "out/www/" ++ s ++ 47 :: n ++ 47 :: (digits w ++ 120 :: digits h) ++ 46 :: f = (txt "out/www/" ++ rel) ++ 46 :: txt "hash" := by
      rw [e4] at he
      rw [← he]
      simp [outFile, outName]
    exact h2 (split_unique_last h1 (by decide) this).2

omit [DecidableEq C] in
theorem sources_kept {env : Env J C} {fs fs' : Fs} (h : ∀ p, fs' p ≠ fs p → ImageFile p) (rel : Text) (hr : Plain (root rel)) :
    fs' (source rel) = fs (source rel) ∧ contentsOf env fs' rel = contentsOf env fs rel := by
  have h1 : fs' (source rel) = fs (source rel) := by
    by_contra hne
    exact image_source hr (h _ hne) rfl
  have h2 : fs' (hashFile rel) = fs (hashFile rel) := by
    by_contra hne
    exact image_hash hr (h _ hne) rfl
  exact ⟨h1, by unfold contentsOf; rw [h1, h2]⟩

/-! ## Steps keep the artifacts in order -/

omit [DecidableEq C] in
/-- The sources are as before, and so is what the entries consist of. -/
theorem Made.keep {env : Env J C} {fs fs' : Fs} {stem : Text} {n : ℤ} {m : Metadata C} (hm : Made env fs stem n m) (hp : Plain stem)
    (h1 : ∀ rel, Plain (root rel) → Pictured env fs' rel → fs' (source rel) = fs (source rel) ∧ contentsOf env fs' rel = contentsOf env fs rel)
    (h2 : (fs (entryFile stem (idText n) (txt "placeholder.json"))).isSome → (fs' (entryFile stem (idText n) (txt "placeholder.json"))).isSome)
    (h3 : ∀ t ∈ tasks (env.sizes (m.width, m.height) (m.target.width, m.target.height)) env.formats,
      (fs (entryFile stem (idText n) (outName t.1.1 t.1.2 t.2.name))).isSome → (fs' (entryFile stem (idText n) (outName t.1.1 t.1.2 t.2.name))).isSome) :
    Made env fs' stem n m := by
  refine ⟨h2 hm.place, ?_, hm.distinct, ?_⟩
  · intro g p hh
    obtain ⟨t, ht, k1, k2, k3, k4, k5⟩ := hm.pics g p hh
    exact ⟨t, ht, k1, k2, k3, k4, h3 t ht k5⟩
  · intro rel b d hr hc hs hd
    have hp' : Plain (root rel) := by rw [hr]; exact hp
    have k := h1 rel hp' ⟨b, d, hs, hd⟩
    rw [k.2] at hc
    rw [k.1] at hs
    exact hm.dims rel b d hr hc hs hd

omit [DecidableEq C] in
theorem Good.same' {env : Env J C} {h : ℤ} {fs fs' : Fs} (hg : Good env h fs)
    (h1 : ∀ rel, Plain (root rel) → Pictured env fs' rel → fs' (source rel) = fs (source rel) ∧ contentsOf env fs' rel = contentsOf env fs rel)
    (rel rel' : Text) (b b' : Bytes) (hp : Plain (root rel)) (hr : root rel = root rel') (hc : contentsOf env fs' rel = contentsOf env fs' rel')
    (hb : fs' (source rel) = some b) (hb' : fs' (source rel') = some b') (d d' : ℤ × ℤ) (hd : env.dims b = some d) (hd' : env.dims b' = some d') :
    d = d' := by
  have hp' : Plain (root rel') := by rw [← hr]; exact hp
  have k := h1 rel hp ⟨b, d, hb, hd⟩
  have k' := h1 rel' hp' ⟨b', d', hb', hd'⟩
  rw [k.2, k'.2] at hc
  rw [k.1] at hb
  rw [k'.1] at hb'
  exact hg.same rel rel' b b' hp hr hc hb hb' d d' hd hd'

omit [DecidableEq C] in
/-- The artifacts are the same. -/
theorem Good.keep {env : Env J C} {h : ℤ} {fs fs' : Fs} (hg : Good env h fs) (hf : Finite fs') (h0 : ∀ p, InArt p → fs' p = fs p)
    (h1 : ∀ rel, Plain (root rel) → Pictured env fs' rel → fs' (source rel) = fs (source rel) ∧ contentsOf env fs' rel = contentsOf env fs rel) : Good env h fs' := by
  have e : ∀ s n f, fs' (entryFile s n f) = fs (entryFile s n f) := fun s n f => h0 _ (entry_art _ _ _)
  refine ⟨hf, ?_, ?_, ?_, hg.same' h1⟩
  · intro stem name hp hs hh
    rw [e, e] at hh
    rw [h0 _ (counter_art stem)]
    exact hg.counted stem name hp hs hh
  · intro stem T name name' hp hn hn' hm hm'
    exact hg.unique stem T name name' hp hn hn' ((Match.congr (e _ _ _) (e _ _ _)).1 hm) ((Match.congr (e _ _ _) (e _ _ _)).1 hm')
  · intro stem n b m hp hb hl hm
    rw [e] at hb
    exact (hg.made stem n b m hp hb hl hm).keep hp h1 (by rw [e]; exact id) (fun t _ => by rw [e]; exact id)

omit [DecidableEq C] in
theorem Good.touch {env : Env J C} {h : ℤ} {fs : Fs} (hg : Good env h fs) (stem : Text) : Good env h (touch fs (lockPath stem)) := by
  refine hg.keep (hg.finite.touch _) (fun p hp => touch_ne (art_ne_out hp (lock_out _))) (fun rel hr _ => sources_kept (fun p hp => ?_) rel hr)
  by_contra hc
  exact hp (touch_ne fun he => hc (.inr (.inl ⟨stem, he⟩)))

omit [DecidableEq C] in
theorem Good.lock {env : Env J C} {h : ℤ} {fs fs' : Fs} (hg : Good env h fs) {stem : Text} (hf : fs' = fs ∨ fs' = Files.touch fs (lockPath stem)) :
    Good env h fs' := by
  rcases hf with rfl | rfl
  · exact hg
  · exact hg.touch stem

omit [DecidableEq C] in
/-- A name of an entry is the text of its number. -/
theorem Good.name {env : Env J C} (hl : Lawful env) {h : ℤ} {fs : Fs} (hg : Good env h fs) {stem name : Text} {T : Target C} (hp : Plain stem)
    (hs : Seg name) (hm : Match env h fs stem T name) {n : ℤ} (hi : env.int name = some n) : name = idText n := by
  have : (fs (entryFile stem name (txt "placeholder.json"))).isSome ∨ (fs (entryFile stem name (txt "metadata.json"))).isSome := by
    rcases hm with ⟨-, b, hb, -⟩ | ⟨b, m, hb, -⟩
    · exact .inl (by rw [hb]; rfl)
    · exact .inr (by rw [hb]; rfl)
  obtain ⟨k, b, c, rfl, -, -, -⟩ := hg.counted stem name hp hs this
  rw [hl.int] at hi
  cases hi
  rfl

/-! ### Scans -/

/-- The files after a number has been reserved. -/
def reservedFs (env : Env J C) (stem : Text) (n : ℤ) (T : Target C) (fs : Fs) : Fs :=
  ((touch fs (lockPath stem)).write (counterPath stem) (env.encode (idText n))).write (entryFile stem (idText n) (txt "placeholder.json")) (env.dumpTarget T)

/-- The number of a target which is new. -/
def Fresh (env : Env J C) (stem : Text) (fs : Fs) (n : ℤ) : Prop :=
  ∃ c, n = c + 1 ∧ (fs (counterPath stem) = none ∧ c = 0 ∨ ∃ b, fs (counterPath stem) = some b ∧ env.int (env.decode b) = some c)

theorem getOrReserve_spec {env : Env J C} (hl : Lawful env) {h : ℤ} (hh : env.settingsHash = .ok h) {rel stem : Text} (hr : root rel = stem)
    (hp : Plain stem) {T : Target C} {fs fs' : Fs} {n : ℤ} (hg : getOrReserve env rel T fs = .ok (n, fs')) :
    ((fs' = fs ∨ fs' = touch fs (lockPath stem)) ∧ ∃ name, env.int name = some n ∧ Found env h (contentsOf env fs rel) fs stem T name fs') ∨
    (((fs (source rel)).isSome → Finite fs → ∀ name, Seg name → ¬ Match env h fs stem T name) ∧ Fresh env stem fs n ∧ fs' = reservedFs env stem n T fs) := by
  unfold getOrReserve at hg
  split at hg
  · cases hg
  · next n' fs1 h1 =>
    cases hg
    obtain ⟨k1, k2, -⟩ := getTarget_spec hl hr hp h1
    obtain ⟨-, h', name, e, hi, hf⟩ := k2 _ rfl
    rw [hh] at e
    cases e
    exact .inl ⟨k1, name, hi, hf⟩
  · next fs1 h1 =>
    obtain ⟨k1, -, k3⟩ := getTarget_spec hl hr hp h1
    refine .inr ⟨fun hs fin => k3 rfl hs fin h hh, ?_⟩
    have e1 : touch fs1 (lockPath stem) = touch fs (lockPath stem) := by
      rcases k1 with rfl | rfl
      · rfl
      · exact touch_touch _ _
    have e2 : touch fs (lockPath stem) (counterPath stem) = fs (counterPath stem) := touch_ne (art_ne_out (counter_art _) (lock_out _))
    have e3 : ∀ k, placeFile (artDir rel k) = entryFile stem (idText k) (txt "placeholder.json") := fun k => place_eq hr hp (idText_seg k)
    unfold reserve at hg
    simp only [lock_eq hr hp, counter_eq hr hp, e1, e2, e3] at hg
    split at hg
    · cases hg
    · next c hc =>
      cases hg
      refine ⟨⟨c, rfl, ?_⟩, rfl⟩
      split at hc
      · next hb => cases hc; exact .inl ⟨hb, rfl⟩
      · next b hb => exact .inr ⟨b, hb, hc⟩

omit [DecidableEq C] in
theorem reservedFs_ne {env : Env J C} {stem : Text} {n : ℤ} {T : Target C} {fs : Fs} {p : Text} (h1 : p ≠ lockPath stem) (h2 : p ≠ counterPath stem)
    (h3 : p ≠ entryFile stem (idText n) (txt "placeholder.json")) : reservedFs env stem n T fs p = fs p := by
  simp [reservedFs, Fs.write, h2, h3, touch_ne h1]

omit [DecidableEq C] in
theorem reservedFs_image {env : Env J C} {stem : Text} {n : ℤ} {T : Target C} {fs : Fs} {p : Text} (h : reservedFs env stem n T fs p ≠ fs p) : ImageFile p := by
  by_contra hc
  exact h (reservedFs_ne (fun e => hc (.inr (.inl ⟨stem, e⟩))) (fun e => hc (.inl (e ▸ counter_art stem))) (fun e => hc (.inl (e ▸ entry_art _ _ _))))

omit [DecidableEq C] in
theorem reservedFs_place {env : Env J C} {stem : Text} {n : ℤ} {T : Target C} {fs : Fs} :
    reservedFs env stem n T fs (entryFile stem (idText n) (txt "placeholder.json")) = some (env.dumpTarget T) := by
  simp [reservedFs, Fs.write]

omit [DecidableEq C] in
theorem reservedFs_counter {env : Env J C} {stem : Text} {n : ℤ} {T : Target C} {fs : Fs} :
    reservedFs env stem n T fs (counterPath stem) = some (env.encode (idText n)) := by
  have : counterPath stem ≠ entryFile stem (idText n) (txt "placeholder.json") := (entry_ne_counter (by decide) (by decide)).symm
  simp [reservedFs, Fs.write, this]

omit [DecidableEq C] in
/-- Other files of entries -/
theorem reservedFs_entry {env : Env J C} {stem stem' name file : Text} {n : ℤ} {T : Target C} {fs : Fs} (hn : 47 ∉ name) (hf : 47 ∉ file)
    (hc : file ≠ txt "counter.txt") (h : ¬ (stem' = stem ∧ name = idText n ∧ file = txt "placeholder.json")) :
    reservedFs env stem n T fs (entryFile stem' name file) = fs (entryFile stem' name file) := by
  refine reservedFs_ne (art_ne_out (entry_art _ _ _) (lock_out _)) (entry_ne_counter hf hc) (fun e => h ?_)
  exact entryFile_inj hn (idText_slash n) hf (by decide) e

omit [DecidableEq C] in
theorem fresh_none {env : Env J C} {h : ℤ} {fs : Fs} (hg : Good env h fs) {stem : Text} (hp : Plain stem) {n : ℤ} (hf : Fresh env stem fs n) :
    fs (entryFile stem (idText n) (txt "placeholder.json")) = none ∧ fs (entryFile stem (idText n) (txt "metadata.json")) = none := by
  by_contra hc
  have : (fs (entryFile stem (idText n) (txt "placeholder.json"))).isSome ∨ (fs (entryFile stem (idText n) (txt "metadata.json"))).isSome := by
    rw [Option.isSome_iff_ne_none, Option.isSome_iff_ne_none]
    tauto
  obtain ⟨k, b, c, h1, h2, h3, h4⟩ := hg.counted stem _ hp (idText_seg n) this
  have := idText_inj h1
  subst this
  obtain ⟨c', h5, ⟨h6, -⟩ | ⟨b', h6, h7⟩⟩ := hf
  · rw [h2] at h6; cases h6
  · rw [h2] at h6; cases h6
    rw [h3] at h7; cases h7
    omega

omit [DecidableEq C] in
theorem Good.reserved {env : Env J C} (hl : Lawful env) {h : ℤ} {fs : Fs} (hg : Good env h fs) {stem : Text} (hp : Plain stem) {n : ℤ} {T : Target C}
    (hf : Fresh env stem fs n) (hno : ∀ name, Seg name → ¬ Match env h fs stem T name) :
    Good env h (reservedFs env stem n T fs) ∧ Match env h (reservedFs env stem n T fs) stem T (idText n) := by
  obtain ⟨n1, n2⟩ := fresh_none hg hp hf
  have hmeta : ∀ s name, 47 ∉ name → reservedFs env stem n T fs (entryFile s name (txt "metadata.json")) = fs (entryFile s name (txt "metadata.json")) :=
    fun s name hn => reservedFs_entry hn (by decide) (by decide) (by rintro ⟨-, -, h⟩; revert h; decide)
  have hplace : ∀ s name, 47 ∉ name → ¬ (s = stem ∧ name = idText n) →
      reservedFs env stem n T fs (entryFile s name (txt "placeholder.json")) = fs (entryFile s name (txt "placeholder.json")) :=
    fun s name hn hh => reservedFs_entry hn (by decide) (by decide) (fun h => hh ⟨h.1, h.2.1⟩)
  have hmatch : ∀ s name T', Seg name → ¬ (s = stem ∧ name = idText n) → (Match env h (reservedFs env stem n T fs) s T' name ↔ Match env h fs s T' name) :=
    fun s name T' hn hh => Match.congr (hmeta s name hn.2) (hplace s name hn.2 hh)
  have hsrc := sources_kept (env := env) (fun p => reservedFs_image (env := env) (stem := stem) (n := n) (T := T) (fs := fs) (p := p))
  have hnew : ∀ T', Match env h (reservedFs env stem n T fs) stem T' (idText n) → T' = T := by
    rintro T' (⟨-, b, hb, hload⟩ | ⟨b, m, hb, -⟩)
    · rw [reservedFs_place] at hb; cases hb
      rw [hl.target] at hload; cases hload
      rfl
    · rw [hmeta _ _ (idText_slash n), n2] at hb; cases hb
  refine ⟨⟨((hg.finite.touch _).write _ _).write _ _, ?_, ?_, ?_, hg.same' fun rel hr _ => hsrc rel hr⟩, .inl ⟨by rw [hmeta _ _ (idText_slash n)]; exact n2, _, reservedFs_place, hl.target T⟩⟩
  · intro s name hps hs hh
    by_cases hc : s = stem
    · subst hc
      rw [reservedFs_counter]
      by_cases hn : name = idText n
      · exact ⟨n, _, n, hn, rfl, by rw [hl.text, hl.int], le_refl _⟩
      · rw [hplace _ _ hs.2 (by tauto), hmeta _ _ hs.2] at hh
        obtain ⟨k, b, c, k1, k2, k3, k4⟩ := hg.counted s name hps hs hh
        refine ⟨k, _, n, k1, rfl, by rw [hl.text, hl.int], ?_⟩
        obtain ⟨c', h5, ⟨h6, -⟩ | ⟨b', h6, h7⟩⟩ := hf
        · rw [k2] at h6; cases h6
        · rw [k2] at h6; cases h6
          rw [k3] at h7; cases h7
          omega
    · rw [hplace _ _ hs.2 (by tauto), hmeta _ _ hs.2] at hh
      obtain ⟨k, b, c, k1, k2, k3, k4⟩ := hg.counted s name hps hs hh
      refine ⟨k, b, c, k1, ?_, k3, k4⟩
      rw [reservedFs_ne (art_ne_out (counter_art _) (lock_out _)) (fun e => hc (counterPath_inj e)) (entry_ne_counter (by decide) (by decide)).symm]
      exact k2
  · intro s T' name name' hps hs hs' hm hm'
    by_cases h1 : s = stem ∧ name = idText n
    · obtain ⟨rfl, rfl⟩ := h1
      by_cases h2 : name' = idText n
      · exact h2.symm
      · have := hnew T' hm
        subst this
        exact absurd ((hmatch s name' T' hs' (by tauto)).1 hm') (hno name' hs')
    · by_cases h2 : s = stem ∧ name' = idText n
      · obtain ⟨rfl, rfl⟩ := h2
        have := hnew T' hm'
        subst this
        exact absurd ((hmatch s name T' hs h1).1 hm) (hno name hs)
      · exact hg.unique s T' name name' hps hs hs' ((hmatch s name T' hs h1).1 hm) ((hmatch s name' T' hs' h2).1 hm')
  · intro s k b m hps hb hload hm
    rw [hmeta _ _ (idText_slash k)] at hb
    refine (hg.made s k b m hps hb hload hm).keep hps (fun rel hr _ => hsrc rel hr) ?_ ?_
    · intro hh
      by_cases hc : s = stem ∧ idText k = idText n
      · obtain ⟨rfl, hc⟩ := hc
        rw [hc, reservedFs_place]; rfl
      · rw [hplace _ _ (idText_slash k) hc]; exact hh
    · intro t ht hh
      have hf := hl.format t.2 (mem_tasks.1 ht).2
      rw [reservedFs_entry (idText_slash k) (out_slash hf.2.1) (out_ne 99 (by decide) (by omega))
        (fun h => out_ne 112 (by decide) (by omega) h.2.2)]
      exact hh

/-- Everything about a scan. -/
structure Scanned (env : Env J C) (h : ℤ) (file : Text) (c : Command J) (fs fs' : Fs) (s : Scan) (T : Target C) (n : ℤ) (b : Bytes) (d : ℤ × ℤ) : Prop where
  target : targetOf env c = .ok T
  source : fs (source (relOf env file c)) = some b
  dims : env.dims b = some d
  dependencies : s.dependencies = [sourcePath env.cwd env.folder file c]
  produces : ∀ p, p ∈ s.produces ↔ p = entryFile (root (relOf env file c)) (idText n) (txt "metadata.json") ∨ p = counterPath (root (relOf env file c)) ∨
    p = entryFile (root (relOf env file c)) (idText n) (txt "placeholder.json") ∨ p = lockPath (root (relOf env file c)) ∨
    Files (root (relOf env file c)) n (tasks (env.sizes d (T.width, T.height)) env.formats) p
  files : fs' = fs ∨ fs' = touch fs (lockPath (root (relOf env file c))) ∨ fs' = reservedFs env (root (relOf env file c)) n T fs
  good : Good env h fs → Good env h fs' ∧ Match env h fs' (root (relOf env file c)) T (idText n)
  kept : Good env h fs → ∀ s T' name, Seg name → Match env h fs s T' name → Match env h fs' s T' name

omit [DecidableEq C] in
theorem targetOf_size {env : Env J C} {c : Command J} {T : Target C} (h : targetOf env c = .ok T) : c.width = T.width ∧ c.height = T.height := by
  unfold targetOf at h
  split at h
  · cases h
  · cases h; exact ⟨rfl, rfl⟩

theorem scan_spec {env : Env J C} (hl : Lawful env) {h : ℤ} (hh : env.settingsHash = .ok h) {file : Text} {c : Command J} (hp : Proper env file c)
    {fs fs' : Fs} {s : Scan} (hs : scanCommand env file fs c = .ok (s, fs')) : ∃ T n b d, Scanned env h file c fs fs' s T n b d := by
  unfold scanCommand at hs
  simp only at hs
  split at hs
  · cases hs
  · next T hT =>
    split at hs
    · cases hs
    · next n fs1 h1 =>
      split at hs
      · cases hs
      · next b d ho =>
        cases hs
        have hspec := getOrReserve_spec hl hh rfl hp h1
        have hsrc : fs' (source (relOf env file c)) = fs (source (relOf env file c)) := by
          refine (sources_kept (env := env) (fun p hne => ?_) _ hp).1
          rcases hspec with ⟨rfl | rfl, -⟩ | ⟨-, -, rfl⟩
          · exact absurd rfl hne
          · by_contra hc
            exact hne (touch_ne fun he => hc (.inr (.inl ⟨_, he⟩)))
          · exact reservedFs_image hne
        unfold openImage at ho
        split at ho
        · cases ho
        · next b' hb =>
          split at ho
          · cases ho
          · next d' hd =>
            cases ho
            rw [hsrc] at hb
            obtain ⟨w, w'⟩ := targetOf_size hT
            refine ⟨T, n, b, d, hT, hb, hd, rfl, fun p => ?_, ?_, fun hg => ?_, fun hg s T' name hn hm => ?_⟩
            · have e1 : metaFile (artDir (relOf env file c) n) = entryFile (root (relOf env file c)) (idText n) (txt "metadata.json") :=
                meta_eq rfl hp (idText_seg n)
              have e2 : placeFile (artDir (relOf env file c) n) = entryFile (root (relOf env file c)) (idText n) (txt "placeholder.json") :=
                place_eq rfl hp (idText_seg n)
              simp only [List.mem_append, List.mem_cons, List.not_mem_nil, or_false, mem_announced rfl hp, e1, e2, counter_eq rfl hp, lock_eq rfl hp, w, w', or_assoc]
            · rcases hspec with ⟨h | h, -⟩ | ⟨-, -, h⟩
              · exact .inl h
              · exact .inr (.inl h)
              · exact .inr (.inr h)
            · rcases hspec with ⟨hk, name, hi, hf⟩ | ⟨hno, hfr, rfl⟩
              · have hn := hg.name hl hp hf.seg hf.isFor hi
                refine ⟨hg.lock hk, ?_⟩
                rw [← hn]
                rcases hk with rfl | rfl
                · exact hf.isFor
                · exact Match.touch.2 hf.isFor
              · exact hg.reserved hl hp hfr (hno (by rw [hb]; rfl) hg.finite)
            · rcases hspec with ⟨rfl | rfl, -⟩ | ⟨-, hfr, rfl⟩
              · exact hm
              · exact Match.touch.2 hm
              · obtain ⟨n1, n2⟩ := fresh_none hg hp hfr
                have hne : ¬ (s = root (relOf env file c) ∧ name = idText n) := by
                  rintro ⟨rfl, rfl⟩
                  rcases hm with ⟨-, b, hb, -⟩ | ⟨b, m, hb, -⟩
                  · rw [n1] at hb; cases hb
                  · rw [n2] at hb; cases hb
                refine (Match.congr ?_ ?_).2 hm
                · exact reservedFs_entry hn.2 (by decide) (by decide) (fun h => hne ⟨h.1, h.2.1⟩)
                · exact reservedFs_entry hn.2 (by decide) (by decide) (fun h => hne ⟨h.1, h.2.1⟩)

/-! ### Exports -/

omit [DecidableEq C] in
theorem tasks_noSlash {env : Env J C} (hl : Lawful env) (sz : List (ℕ × ℕ)) : NoSlash (tasks sz env.formats) := fun t ht =>
  hl.format t.2 (mem_tasks.1 ht).2

omit [DecidableEq C] in
theorem files_image {env : Env J C} (hl : Lawful env) {stem : Text} {n : ℤ} {sz : List (ℕ × ℕ)} {p : Text} (h : Files stem n (tasks sz env.formats) p) :
    ImageFile p := by
  obtain ⟨t, ht, rfl | rfl⟩ := h
  · exact .inl (entry_art _ _ _)
  · exact .inr (.inr ⟨_, _, _, _, _, (hl.format t.2 (mem_tasks.1 ht).2).1, hl.hash t.2 (mem_tasks.1 ht).2, rfl⟩)

/-- The lock is there, or no image of this name is in out/www. -/
def Locked (fs : Fs) (stem : Text) : Prop :=
  (fs (lockPath stem)).isSome ∨ ∀ n w h f, 47 ∉ f → fs (outFile stem (idText n) (outName w h f)) = none

/-- What exports have in common. -/
structure Exported (env : Env J C) (h : ℤ) (rel stem path : Text) (fs fs' : Fs) (m : Metadata C) (r : Built) (T : Target C) (n : ℤ) (d : ℤ × ℤ) : Prop where
  source : ∃ b, fs (source rel) = some b ∧ env.dims b = some d
  children : r.children = [path]
  reported : ∀ p, p ∈ r.produced ∨ p ∈ r.reused → p = entryFile stem (idText n) (txt "metadata.json") ∨
    p = counterPath stem ∨ p = entryFile stem (idText n) (txt "placeholder.json") ∨
    p = lockPath stem ∨ Files stem n (tasks (env.sizes d (T.width, T.height)) env.formats) p
  before : Match env h fs stem T (idText n)
  changed : Locked fs stem → ∀ p, fs' p ≠ fs p → ¬ Cand p → p ∈ r.produced
  image : ∀ p, fs' p ≠ fs p → ImageFile p
  kept : ∀ p, ¬ Cand p → (fs p).isSome → (fs' p).isSome
  exist : Locked fs stem → ∀ p, p ∈ r.produced ∨ p ∈ r.reused → (fs' p).isSome
  locked : Locked fs stem → (fs' (lockPath stem)).isSome
  finished : ∃ b, fs' (entryFile stem (idText n) (txt "metadata.json")) = some b ∧ env.loadMeta b = some m
  isFor : m.settingsHash = h ∧ m.target = T ∧ m.contentsHash = contentsOf env fs rel ∧ (m.width, m.height) = d
  made : Made env fs' stem n m
  outs : ∀ g p, Has m.outputs g p → (fs' (join (txt "artifacts") p.relpath)).isSome ∧ (fs' (join (join (txt "out") (txt "www")) p.relpath)).isSome
  /-- all other entries are as they were -/
  others : ∀ s name f, f = txt "metadata.json" ∨ f = txt "placeholder.json" → 47 ∉ name →
    ¬ (s = stem ∧ name = idText n ∧ f = txt "metadata.json") → fs' (entryFile s name f) = fs (entryFile s name f)
  counters : ∀ s, fs' (counterPath s) = fs (counterPath s)
  finite : Finite fs → Finite fs'

omit [DecidableEq C] in
/-- What a matching entry consists of. -/
theorem Good.complete {env : Env J C} {h : ℤ} {fs : Fs} (hg : Good env h fs) {stem : Text} (hp : Plain stem) {T : Target C} {n : ℤ}
    (hm : Match env h fs stem T (idText n)) :
    (fs (entryFile stem (idText n) (txt "placeholder.json"))).isSome ∧ (fs (counterPath stem)).isSome := by
  have h1 : (fs (entryFile stem (idText n) (txt "placeholder.json"))).isSome := by
    rcases hm with ⟨-, b, hb, -⟩ | ⟨b, m, hb, hl, hh, -⟩
    · rw [hb]; rfl
    · exact (hg.made stem n b m hp hb hl hh).place
  obtain ⟨_, b, _, _, hb, _⟩ := hg.counted stem _ hp (idText_seg n) (.inl h1)
  exact ⟨h1, by rw [hb]; rfl⟩

omit [DecidableEq C] in
theorem again_spec {env : Env J C} (hl : Lawful env) {h : ℤ} {rel stem path : Text} (hr : root rel = stem) (hp : Plain stem) {fs fs1 fs' : Fs}
    (hg : Good env h fs) (h1 : fs1 = fs ∨ fs1 = touch fs (lockPath stem)) {T : Target C} {n : ℤ} (hm : Match env h fs stem T (idText n))
    (hc : ∀ b m, fs (entryFile stem (idText n) (txt "metadata.json")) = some b → env.loadMeta b = some m → m.contentsHash = contentsOf env fs rel)
    {b img : Bytes} (hb : fs (entryFile stem (idText n) (txt "metadata.json")) = some b) (hi : fs (source rel) = some img) {d : ℤ × ℤ} (hd : env.dims img = some d)
    {m : Metadata C} {r : Built} (he : exportAgain env path rel n b fs1 = .ok (m, r, fs')) :
    ∃ d, Exported env h rel stem path fs fs' m r T n d := by
  obtain ⟨hplace, hcounter⟩ := hg.complete hp hm
  have q1 : ∀ p, InArt p → fs1 p = fs p := by
    intro p ha
    rcases h1 with rfl | rfl
    · rfl
    · exact touch_ne (art_ne_out ha (lock_out _))
  have q2 : ∀ n f, fs1 (outFile stem n f) = fs (outFile stem n f) := by
    intro n f
    rcases h1 with rfl | rfl
    · rfl
    · exact touch_ne lock_ne_outFile.symm
  have q3 : ∀ p, (fs p).isSome → fs1 p = fs p := by
    intro p hs
    rcases h1 with rfl | rfl
    · rfl
    · unfold touch
      split
      · rfl
      · next hn =>
        have : p ≠ lockPath stem := by rintro rfl; exact hn hs
        simp [Fs.write, this]
  have q4 : ∀ p, p ≠ lockPath stem → fs1 p = fs p := by
    intro p hne
    rcases h1 with rfl | rfl
    · rfl
    · exact touch_ne hne
  have e1 : metaFile (artDir rel n) = entryFile stem (idText n) (txt "metadata.json") := meta_eq hr hp (idText_seg n)
  have e2 : placeFile (artDir rel n) = entryFile stem (idText n) (txt "placeholder.json") := place_eq hr hp (idText_seg n)
  unfold exportAgain at he
  rw [e1, e2, counter_eq hr hp, lock_eq hr hp] at he
  split at he
  · cases he
  · next m' hload =>
    split at he
    · cases he
    · next s hs =>
      have hm' : m'.settingsHash = h ∧ m'.target = T := by
        rcases hm with ⟨hn, -⟩ | ⟨b', m'', hb', hl', k1, k2⟩
        · rw [hn] at hb; cases hb
        · rw [hb] at hb'; cases hb'
          rw [hload] at hl'; cases hl'
          exact ⟨k1, k2⟩
      have hmade := hg.made stem n b m' hp hb hload hm'.1
      have hdims : env.dims img = some (m'.width, m'.height) := by rw [hd, hmade.dims rel img d hr (hc b m' hb hload) hi hd]
      have pics : ∀ p ∈ flat m'.outputs, ∃ t ∈ tasks (env.sizes (m'.width, m'.height) (T.width, T.height)) env.formats,
          picArt p = entryFile stem (idText n) (outName t.1.1 t.1.2 t.2.name) ∧ picOut p = outFile stem (idText n) (outName t.1.1 t.1.2 t.2.name) ∧
          p.relpath = picPath stem n t ∧ (fs (picArt p)).isSome := by
        intro p hpf
        obtain ⟨g, hg'⟩ := mem_flat.1 hpf
        obtain ⟨t, ht, -, -, -, k, k'⟩ := hmade.pics g p hg'
        rw [hm'.2] at ht
        have ea : picArt p = entryFile stem (idText n) (outName t.1.1 t.1.2 t.2.name) := by
          unfold picArt; rw [k]; exact (again_eq hp).1
        have eo : picOut p = outFile stem (idText n) (outName t.1.1 t.1.2 t.2.name) := by
          unfold picOut; rw [k]; exact (again_eq hp).2
        exact ⟨t, ht, ea, eo, k, by rw [ea]; exact k'⟩
      have hslash : ∀ t ∈ tasks (env.sizes (m'.width, m'.height) (T.width, T.height)) env.formats, 47 ∉ t.2.name :=
        fun t ht => (tasks_noSlash hl _ t ht).2.1
      have R : Reused (flat m'.outputs) _ s := reuseAll_spec (fun p hp' q hq => by
        obtain ⟨t, _, ha, _⟩ := pics p hp'
        obtain ⟨t', _, _, ho, _⟩ := pics q hq
        rw [ha, ho]
        exact art_ne_out (entry_art _ _ _) (out_out _ _ _)) hs
      have a0 : ∀ p, InArt p → s.fs p = fs p := by
        intro p hpa
        rw [R.frame p ?_]
        · exact q1 p hpa
        · intro q hq
          obtain ⟨t, _, _, ho, _⟩ := pics q hq
          rw [ho]
          exact art_ne_out hpa (out_out _ _ _)
      have a1 : ∀ p, (fs p).isSome → (s.fs p).isSome := by
        intro p hs'
        have k : (fs1 p).isSome := by rw [q3 p hs']; exact hs'
        rw [R.kept p k]
        exact k
      have a2 : ∀ p, s.fs p ≠ fs1 p → p ∈ s.produced ∧ (s.fs p).isSome ∧ ImageFile p := by
        intro p hne
        have : ∃ q ∈ flat m'.outputs, p = picOut q := by
          by_contra hcon
          push Not at hcon
          exact hne (R.frame p hcon)
        obtain ⟨q, hq, rfl⟩ := this
        refine ⟨(R.produced _).2 (.inr ⟨q, hq, rfl, ?_⟩), R.changed _ hne, ?_⟩
        · by_contra hsome
          exact hne (R.kept _ (by rw [Option.isSome_iff_ne_none]; exact hsome))
        · obtain ⟨t, ht, _, ho, _⟩ := pics q hq
          rw [ho]
          exact .inr (.inr ⟨_, _, _, _, _, (tasks_noSlash hl _ t ht).1, hl.hash t.2 (mem_tasks.1 ht).2, rfl⟩)
      have a3 : ∀ p, p ∈ s.produced ∨ p ∈ s.reused → (p = entryFile stem (idText n) (txt "metadata.json") ∨
          p = counterPath stem ∨ p = entryFile stem (idText n) (txt "placeholder.json") ∨
          Files stem n (tasks (env.sizes (m'.width, m'.height) (T.width, T.height)) env.formats) p) ∧ (s.fs p).isSome := by
        intro p hp'
        rcases hp' with hp' | hp'
        · rcases (R.produced p).1 hp' with hx | ⟨q, hq, rfl, -⟩
          · simp at hx
          · obtain ⟨t, ht, ha, ho, _, hart⟩ := pics q hq
            refine ⟨.inr (.inr (.inr ⟨t, ht, .inr ho⟩)), R.out q hq ?_⟩
            dsimp only
            rw [q3 _ hart]
            exact hart
        · rcases R.reused p hp' with hx | ⟨q, hq, rfl | ⟨rfl, hsome⟩⟩
          · simp only [List.mem_cons, List.not_mem_nil, or_false] at hx
            rcases hx with rfl | rfl | rfl
            · exact ⟨.inl rfl, a1 _ (by rw [hb]; rfl)⟩
            · exact ⟨.inr (.inl rfl), a1 _ hcounter⟩
            · exact ⟨.inr (.inr (.inl rfl)), a1 _ hplace⟩
          · obtain ⟨t, ht, ha, ho, _, hart⟩ := pics q hq
            exact ⟨.inr (.inr (.inr ⟨t, ht, .inl ha⟩)), a1 _ hart⟩
          · obtain ⟨t, ht, ha, ho, _, hart⟩ := pics q hq
            exact ⟨.inr (.inr (.inr ⟨t, ht, .inr ho⟩)), hsome⟩
      -- the lock, when somebody else was first
      have a4 : s.first = false → Locked fs stem → (fs (lockPath stem)).isSome := by
        rintro hfirst (hlk | hlk)
        · exact hlk
        · have hinj : ∀ x ∈ flat m'.outputs, ∀ y ∈ flat m'.outputs, picOut x = picOut y → x.relpath = y.relpath := by
            intro x hx y hy hxy
            obtain ⟨t, ht, _, ho, hre, _⟩ := pics x hx
            obtain ⟨t', ht', _, ho', hre', _⟩ := pics y hy
            rw [ho, ho'] at hxy
            have := (outFile_inj (idText_slash n) (idText_slash n) (out_slash (hslash t ht)) (out_slash (hslash t' ht')) hxy).2.2
            rw [hre, hre', picPath, picPath, this]
          rcases R.notFirst hfirst hmade.distinct hinj with hx | ⟨q, hq, hsome⟩
          · cases hx
          · obtain ⟨t, ht, ha, ho, _⟩ := pics q hq
            dsimp only at hsome
            rw [ho, q2, hlk _ _ _ _ (hslash t ht)] at hsome
            cases hsome
      -- with any file system which differs by the lock
      have fin : ∀ fsx, (fsx = s.fs ∨ fsx = touch s.fs (lockPath stem)) →
          (∀ p, fsx p ≠ fs p → ImageFile p) ∧ (∀ p, (s.fs p).isSome → (fsx p).isSome) ∧ (∀ p, InArt p → fsx p = fs p) := by
        intro fsx hx
        have k1 : ∀ p, p ≠ lockPath stem → fsx p = s.fs p := by
          intro p hne
          rcases hx with rfl | rfl
          · rfl
          · exact touch_ne hne
        refine ⟨fun p hne => ?_, fun p hsome => ?_, fun p hpa => ?_⟩
        · by_cases hpl : p = lockPath stem
          · exact .inr (.inl ⟨stem, hpl⟩)
          · rw [k1 p hpl, ← q4 p hpl] at hne
            exact (a2 p hne).2.2
        · by_cases hpl : p = lockPath stem
          · rcases hx with rfl | rfl
            · exact hsome
            · rw [hpl]; exact touch_some _ _
          · rw [k1 p hpl]; exact hsome
        · rw [k1 p (art_ne_out hpa (lock_out _)), a0 p hpa]
      have common : ∀ fsx, (fsx = s.fs ∨ fsx = touch s.fs (lockPath stem)) → ∀ r : Built, r.children = [path] →
          (∀ p, p ∈ r.produced ∨ p ∈ r.reused → (p ∈ s.produced ∨ p ∈ s.reused) ∨ p = lockPath stem) →
          (∀ p, p ∈ s.produced → p ∈ r.produced) → (Locked fs stem → (fsx (lockPath stem)).isSome) →
          (Locked fs stem → fsx (lockPath stem) ≠ fs (lockPath stem) → lockPath stem ∈ r.produced) →
          Exported env h rel stem path fs fsx m' r T n (m'.width, m'.height) := by
        intro fsx hx r c1 c2 c3 c4 c5
        obtain ⟨f1, f2, f3⟩ := fin fsx hx
        have hsrc := sources_kept (env := env) f1
        have hmade' : Made env fsx stem n m' := 
          hmade.keep hp (fun rel hr _ => hsrc rel hr) (fun k => (congrArg _ (f3 _ (entry_art stem (idText n) (txt "placeholder.json")))).trans k)
            (fun t _ k => (congrArg _ (f3 _ (entry_art stem (idText n) (outName t.1.1 t.1.2 t.2.name)))).trans k)
        refine ⟨⟨img, hi, hdims⟩, c1, ?_, hm, ?_, f1, fun p _ hs' => f2 p (a1 p hs'), ?_, c4, ⟨b, (f3 _ (entry_art stem (idText n) (txt "metadata.json"))).trans hb, hload⟩,
          ⟨hm'.1, hm'.2, hc b m' hb hload, rfl⟩, hmade', ?_, fun s name f _ _ _ => f3 _ (entry_art _ _ _), fun s => f3 _ (counter_art _), ?_⟩
        · intro p hpr
          rcases c2 p hpr with hx | hx
          · rcases (a3 p hx).1 with k | k | k | k
            · exact .inl k
            · exact .inr (.inl k)
            · exact .inr (.inr (.inl k))
            · exact .inr (.inr (.inr (.inr k)))
          · exact .inr (.inr (.inr (.inl hx)))
        · intro hlk p hne _
          by_cases hpl : p = lockPath stem
          · subst hpl
            exact c5 hlk hne
          · have k1 : fsx p = s.fs p := by
              rcases hx with rfl | rfl
              · rfl
              · exact touch_ne hpl
            rw [k1, ← q4 p hpl] at hne
            exact c3 p (a2 p hne).1
        · intro hlk p hpr
          rcases c2 p hpr with hx | rfl
          · exact f2 p (a3 p hx).2
          · exact c4 hlk
        · intro g p hh
          obtain ⟨t, ht, ha, ho, _, hart⟩ := pics p (mem_flat.2 ⟨g, hh⟩)
          refine ⟨f2 _ (a1 _ hart), f2 _ (R.out p (mem_flat.2 ⟨g, hh⟩) ?_)⟩
          dsimp only
          rw [q3 _ hart]
          exact hart
        · intro hfin
          have k1 : Finite fs1 := by
            rcases h1 with rfl | rfl
            · exact hfin
            · exact hfin.touch _
          have k2 : Finite s.fs := reuseAll_finite hs k1
          rcases hx with rfl | rfl
          · exact k2
          · exact k2.touch _
      split at he
      · next hfirst =>
        cases he
        refine ⟨_, common _ (.inr rfl) _ rfl ?_ ?_ (fun _ => touch_some _ _) (fun _ _ => by simp)⟩
        · intro p hp'
          simp only [List.mem_append, List.mem_cons, List.not_mem_nil, or_false] at hp'
          tauto
        · intro p hp'
          simp [hp']
      · next hfirst =>
        cases he
        have hf : s.first = false := by simpa using hfirst
        refine ⟨_, common _ (.inl rfl) _ rfl ?_ (fun _ h => h) (fun hlk => a1 _ (a4 hf hlk)) (fun hlk hne => ?_)⟩
        · intro p hp'
          simp only [List.mem_append, List.mem_cons, List.not_mem_nil, or_false] at hp'
          tauto
        · have k := a4 hf hlk
          have k' : (fs1 (lockPath stem)).isSome := by rw [q3 _ k]; exact k
          exact absurd ((R.kept _ k').trans (q3 _ k)) hne

theorem picPath_key {stem : Text} {n : ℤ} {t t' : (ℕ × ℕ) × Format} (h : picPath stem n t = picPath stem n t') : key t = key t' := by
  have := List.append_cancel_left h
  simp only [List.cons.injEq, true_and] at this
  obtain ⟨h1, h2, h3⟩ := outName_inj this
  exact Prod.ext (Prod.ext h1 h2) h3

theorem nodup_paths {stem : Text} {n : ℤ} {us : List ((ℕ × ℕ) × Format)} (h : (us.map key).Nodup) : (us.map (picPath stem n)).Nodup := by
  induction us with
  | nil => simp
  | cons u us ih =>
    rw [List.map_cons, List.nodup_cons] at h ⊢
    refine ⟨fun hm => ?_, ih h.2⟩
    obtain ⟨v, hv, he⟩ := List.mem_map.1 hm
    exact h.1 (List.mem_map.2 ⟨v, hv, picPath_key he⟩)

omit [DecidableEq C] in
theorem new_spec {env : Env J C} (hl : Lawful env) {h : ℤ} (hh : env.settingsHash = .ok h) {rel stem path : Text} (hr : root rel = stem) (hp : Plain stem)
    {fs fs1 fs' : Fs} (hg : Good env h fs) (h1 : fs1 = fs ∨ fs1 = touch fs (lockPath stem)) {T : Target C} {n : ℤ} (hm : Match env h fs stem T (idText n))
    (hb : fs (entryFile stem (idText n) (txt "metadata.json")) = none) (hlock : (fs1 (lockPath stem)).isSome)
    {m : Metadata C} {r : Built} (he : exportNew env path rel n T fs1 = .ok (m, r, fs')) :
    ∃ d, Exported env h rel stem path fs fs' m r T n d := by
  obtain ⟨hplace, hcounter⟩ := hg.complete hp hm
  have q3 : ∀ p, (fs p).isSome → fs1 p = fs p := by
    intro p hs
    rcases h1 with rfl | rfl
    · rfl
    · unfold touch
      split
      · rfl
      · next hn =>
        have : p ≠ lockPath stem := by rintro rfl; exact hn hs
        simp [Fs.write, this]
  have q4 : ∀ p, p ≠ lockPath stem → fs1 p = fs p := by
    intro p hne
    rcases h1 with rfl | rfl
    · rfl
    · exact touch_ne hne
  have qi : ∀ p, fs1 p ≠ fs p → ImageFile p := fun p hne => by
    by_contra hc
    exact hne (q4 p fun e => hc (.inr (.inl ⟨stem, e⟩)))
  have hp' : Plain (root rel) := by rw [hr]; exact hp
  have src1 := sources_kept (env := env) qi rel hp'
  have e1 : metaFile (artDir rel n) = entryFile stem (idText n) (txt "metadata.json") := meta_eq hr hp (idText_seg n)
  have e2 : placeFile (artDir rel n) = entryFile stem (idText n) (txt "placeholder.json") := place_eq hr hp (idText_seg n)
  unfold exportNew at he
  simp only [e1, e2, counter_eq hr hp, lock_eq hr hp] at he
  split at he
  · cases he
  · next img d ho =>
    have himg : fs (source rel) = some img ∧ env.dims img = some d := by
      unfold openImage at ho
      rw [src1.1] at ho
      split at ho
      · cases ho
      · next b' hb' =>
        split at ho
        · cases ho
        · next d' hd => cases ho; exact ⟨hb', hd⟩
    split at he
    · cases he
    · next hash hhash =>
      have hcont : env.decode hash = contentsOf env fs rel := by
        rw [← src1.2]
        unfold contentsOf
        rw [hhash]
      rw [hh] at he
      dsimp only at he
      split at he
      · cases he
      · next fs2 h2 =>
        split at he
        · cases he
        · next s hs =>
          have hns := tasks_noSlash hl (env.sizes d (T.width, T.height))
          have f2 := produceAll_frame hr hp hns h2
          have S := selectAll_frame hr hp hns hs
          obtain ⟨l, S1, S2, S3⟩ := S.produced
          dsimp only at S1 S3
          have hmc : ¬ Cand (entryFile stem (idText n) (txt "metadata.json")) := meta_not_cand (idText_slash n)
          have hmf : ¬ Files stem n (tasks (env.sizes d (T.width, T.height)) env.formats) (entryFile stem (idText n) (txt "metadata.json")) := by
            rintro ⟨t, ht, e | e⟩
            · exact out_ne 109 (by decide) (by omega) (entryFile_inj (idText_slash n) (idText_slash n) (by decide) (out_slash (hns t ht).2.1) e).2.2.symm
            · exact art_ne_out (entry_art _ _ _) (out_out _ _ _) e
          -- everything which is not produced is as before
          have frame : ∀ p, ¬ Cand p → p ≠ entryFile stem (idText n) (txt "metadata.json") → p ≠ lockPath stem → p ∉ l →
              (s.fs.write (entryFile stem (idText n) (txt "metadata.json")) (env.dumpMeta ⟨h, path, d.1, d.2, env.decode hash, T, s.outputs⟩)) p = fs p := by
            intro p hc hpm hpl hnl
            simp only [Fs.write, if_neg hpm]
            rw [S3 p hc hnl, f2 p hc, q4 p hpl]
          have kept : ∀ p, ¬ Cand p → (fs1 p).isSome →
              ((s.fs.write (entryFile stem (idText n) (txt "metadata.json")) (env.dumpMeta ⟨h, path, d.1, d.2, env.decode hash, T, s.outputs⟩)) p).isSome := by
            intro p hc hsome
            unfold Fs.write
            split
            · rfl
            · exact S.kept p hc (by dsimp only; rw [f2 p hc]; exact hsome)
          have kept' : ∀ p, ¬ Cand p → (fs p).isSome →
              ((s.fs.write (entryFile stem (idText n) (txt "metadata.json")) (env.dumpMeta ⟨h, path, d.1, d.2, env.decode hash, T, s.outputs⟩)) p).isSome :=
            fun p hc hsome => kept p hc (by rw [q3 p hsome]; exact hsome)
          have hlc : ¬ Cand (lockPath stem) := not_cand_of_out (lock_out _)
          cases he
          generalize hfs' : (s.fs.write (entryFile stem (idText n) (txt "metadata.json")) (env.dumpMeta ⟨h, path, d.1, d.2, env.decode hash, T, s.outputs⟩)) = fs' at frame kept kept' ⊢
          have himage : ∀ p, fs' p ≠ fs p → ImageFile p := by
            intro p hne
            by_contra hc
            refine hne (frame p (fun ⟨_, _, _, _, _, _, _, _, e⟩ => hc (.inl (e ▸ entry_art _ _ _))) (fun e => hc (.inl (e ▸ entry_art _ _ _)))
              (fun e => hc (.inr (.inl ⟨_, e⟩))) (fun hpl => hc (files_image hl (S2 p hpl).1)))
          have hsrc := sources_kept (env := env) himage
          have hx : ∀ p, p ∈ l → (fs' p).isSome := by
            intro p hpl
            rw [← hfs']
            unfold Fs.write
            split
            · rfl
            · exact (S2 p hpl).2
          have hx' : ∀ p, (s.fs p).isSome → (fs' p).isSome := by
            intro p hpl
            rw [← hfs']
            unfold Fs.write
            split
            · rfl
            · exact hpl
          have pics : ∀ g p, Has s.outputs g p → ∃ t ∈ tasks (env.sizes d (T.width, T.height)) env.formats,
              g = t.2.name ∧ p.width = t.1.1 ∧ p.height = t.1.2 ∧ p.relpath = picPath stem n t ∧
              (s.fs (entryFile stem (idText n) (outName t.1.1 t.1.2 t.2.name))).isSome ∧ (s.fs (outFile stem (idText n) (outName t.1.1 t.1.2 t.2.name))).isSome := by
            intro g p hhas
            rcases S.outputs g p hhas with ⟨x, hx, -⟩ | hx
            · simp at hx
            · exact hx
          refine ⟨d, ⟨img, himg.1, himg.2⟩, rfl, ?_, hm, ?_, himage, kept', ?_, fun _ => kept _ hlc hlock, ?_, ⟨rfl, rfl, hcont, rfl⟩, ⟨?_, ?_, ?_, ?_⟩, ?_, ?_, ?_, ?_⟩
          · intro p hpr
            simp only [S1, List.mem_append, List.mem_cons, List.not_mem_nil, or_false] at hpr
            rcases hpr with (k | k | k | k) | k
            · exact .inl k
            · exact .inr (.inl k)
            · exact .inr (.inr (.inl k))
            · exact .inr (.inr (.inr (.inl k)))
            · exact .inr (.inr (.inr (.inr (S2 p k).1)))
          · intro _ p hne hc
            by_contra hcon
            simp only [S1, List.mem_append, List.mem_cons, List.not_mem_nil, or_false, not_or] at hcon
            exact hne (frame p hc hcon.1.1 hcon.1.2.2.2 hcon.2)
          · intro _ p hpr
            simp only [S1, List.mem_append, List.mem_cons, List.not_mem_nil, or_false] at hpr
            rcases hpr with (rfl | rfl | rfl | rfl) | k
            · rw [← hfs']; simp [Fs.write]
            · exact kept' _ counter_not_cand hcounter
            · exact kept' _ (place_not_cand (idText_slash n)) hplace
            · exact kept _ hlc hlock
            · exact hx p k
          · exact ⟨_, by rw [← hfs']; simp [Fs.write], hl.metadata _⟩
          · exact kept' _ (place_not_cand (idText_slash n)) hplace
          · intro g p hhas
            obtain ⟨t, ht, k1, k2, k3, k4, k5, k6⟩ := pics g p hhas
            exact ⟨t, ht, k1, k2, k3, k4, hx' _ k5⟩
          · obtain ⟨us, u1, u2, -, u4⟩ := S.flat
            refine (u2.nodup_iff).2 ?_
            simp only [flat, List.flatMap_nil, List.map_nil, List.nil_append]
            refine nodup_paths (u4 fun t ht t' ht' he => ?_)
            exact List.inj_on_of_nodup_map hl.formats (mem_tasks.1 ht).2 (mem_tasks.1 ht').2 he
          · intro rel' b' d' hr' hc' hb' hd'
            have hp'' : Plain (root rel') := by rw [hr']; exact hp
            rw [(hsrc rel' hp'').1] at hb'
            dsimp only at hc' ⊢
            rw [(hsrc rel' hp'').2, hcont] at hc'
            exact (hg.same rel rel' img b' hp' (by rw [hr, hr']) hc' himg.1 hb' d d' himg.2 hd').symm
          · intro g p hhas
            obtain ⟨t, ht, k1, k2, k3, k4, k5, k6⟩ := pics g p hhas
            rw [k4]
            constructor
            · rw [picPath, (again_eq hp).1]; exact hx' _ k5
            · rw [picPath, (again_eq hp).2]; exact hx' _ k6
          · intro s' name f hf hn hne
            refine frame _ ?_ ?_ (art_ne_out (entry_art _ _ _) (lock_out _)) ?_
            · rcases hf with rfl | rfl
              · exact meta_not_cand hn
              · exact place_not_cand hn
            · intro e
              exact hne (entryFile_inj hn (idText_slash n) (by rcases hf with rfl | rfl <;> decide) (by decide) e)
            · intro hmem
              obtain ⟨t, ht, e | e⟩ := (S2 _ hmem).1
              · have := (entryFile_inj hn (idText_slash n) (by rcases hf with rfl | rfl <;> decide) (out_slash (hns t ht).2.1) e).2.2
                rcases hf with rfl | rfl
                · exact out_ne 109 (by decide) (by omega) this.symm
                · exact out_ne 112 (by decide) (by omega) this.symm
              · exact art_ne_out (entry_art _ _ _) (out_out _ _ _) e
          · intro s'
            refine frame _ counter_not_cand (entry_ne_counter (by decide) (by decide)).symm (art_ne_out (counter_art _) (lock_out _)) ?_
            intro hmem
            obtain ⟨t, ht, e | e⟩ := (S2 _ hmem).1
            · exact entry_ne_counter (out_slash (hns t ht).2.1) (out_ne 99 (by decide) (by omega)) e.symm
            · exact art_ne_out (counter_art _) (out_out _ _ _) e
          · intro hfin
            have k1 : Finite fs1 := by
              rcases h1 with rfl | rfl
              · exact hfin
              · exact hfin.touch _
            rw [← hfs']
            exact (selectAll_finite hs (produceAll_finite h2 k1)).write _ _

theorem export_spec {env : Env J C} (hl : Lawful env) {h : ℤ} (hh : env.settingsHash = .ok h) {file : Text} {c : Command J} (hp : Proper env file c)
    {fs fs' : Fs} (hg : Good env h fs) (hi : Pictured env fs (relOf env file c)) {m : Metadata C} {r : Built}
    (he : exportCommand env file fs c = .ok (m, r, fs')) :
    ∃ T n d, targetOf env c = .ok T ∧
      Exported env h (relOf env file c) (root (relOf env file c)) (sourcePath env.cwd env.folder file c) fs fs' m r T n d := by
  unfold exportCommand at he
  simp only at he
  split at he
  · cases he
  · next T hT =>
    split at he
    · cases he
    · cases he
    · next n fs1 h1 =>
      obtain ⟨k1, k2, -⟩ := getTarget_spec hl rfl hp h1
      obtain ⟨hsrc, h', name, e, hi', hf⟩ := k2 n rfl
      rw [hh] at e
      cases e
      have hn := hg.name hl hp hf.seg hf.isFor hi'
      subst hn
      have em : metaFile (artDir (relOf env file c) n) = entryFile (root (relOf env file c)) (idText n) (txt "metadata.json") := meta_eq rfl hp (idText_seg n)
      have eq : fs1 (entryFile (root (relOf env file c)) (idText n) (txt "metadata.json")) = fs (entryFile (root (relOf env file c)) (idText n) (txt "metadata.json")) := by
        rcases k1 with rfl | rfl
        · rfl
        · exact touch_ne (art_ne_out (entry_art _ _ _) (lock_out _))
      rw [em, eq] at he
      split at he
      · next b hb =>
        obtain ⟨img, d, himg, hdim⟩ := hi
        obtain ⟨d, hd⟩ := again_spec hl rfl hp hg k1 hf.isFor hf.contents hb himg hdim he
        exact ⟨T, n, d, hT, hd⟩
      · next hb =>
        obtain ⟨d, hd⟩ := new_spec hl hh rfl hp hg k1 hf.isFor hb (hf.locked hb) he
        exact ⟨T, n, d, hT, hd⟩

omit [DecidableEq C] in
/-- An entry is for one target. -/
theorem Match.target {env : Env J C} {h : ℤ} {fs : Fs} {s name : Text} {T T' : Target C} (hm : Match env h fs s T name) (hm' : Match env h fs s T' name) : T = T' := by
  rcases hm with ⟨h1, b, h2, h3⟩ | ⟨b, m, h1, h2, -, h3⟩
  · rcases hm' with ⟨-, b', h2', h3'⟩ | ⟨b', m', h1', -⟩
    · rw [h2] at h2'; cases h2'
      rw [h3] at h3'; cases h3'; rfl
    · rw [h1] at h1'; cases h1'
  · rcases hm' with ⟨h1', -⟩ | ⟨b', m', h1', h2', -, h3'⟩
    · rw [h1] at h1'; cases h1'
    · rw [h1] at h1'; cases h1'
      rw [h2] at h2'; cases h2'
      rw [← h3, ← h3']

omit [DecidableEq C] in
theorem Exported.after {env : Env J C} {h : ℤ} {rel stem path : Text} {fs fs' : Fs} {m : Metadata C} {r : Built} {T : Target C} {n : ℤ} {d : ℤ × ℤ}
    (x : Exported env h rel stem path fs fs' m r T n d) : Match env h fs' stem T (idText n) := by
  obtain ⟨b, h1, h2⟩ := x.finished
  exact .inr ⟨b, m, h1, h2, x.isFor.1, x.isFor.2.1⟩

omit [DecidableEq C] in
theorem Exported.matches {env : Env J C} {h : ℤ} {rel stem path : Text} {fs fs' : Fs} {m : Metadata C} {r : Built} {T : Target C} {n : ℤ} {d : ℤ × ℤ}
    (x : Exported env h rel stem path fs fs' m r T n d) {s : Text} {T' : Target C} {name : Text} (hn : 47 ∉ name) :
    Match env h fs' s T' name ↔ Match env h fs s T' name := by
  by_cases hc : s = stem ∧ name = idText n
  · obtain ⟨rfl, rfl⟩ := hc
    constructor
    · intro hm
      rw [← x.after.target hm]
      exact x.before
    · intro hm
      rw [← x.before.target hm]
      exact x.after
  · exact Match.congr (x.others _ _ _ (.inl rfl) hn (fun h => hc ⟨h.1, h.2.1⟩)) (x.others _ _ _ (.inr rfl) hn (fun h => hc ⟨h.1, h.2.1⟩))

omit [DecidableEq C] in
theorem Exported.good {env : Env J C} (hl : Lawful env) {h : ℤ} {rel stem path : Text} (hp : Plain stem) {fs fs' : Fs} {m : Metadata C} {r : Built} {T : Target C} {n : ℤ}
    {d : ℤ × ℤ} (x : Exported env h rel stem path fs fs' m r T n d) (hg : Good env h fs) : Good env h fs' := by
  have hsrc := sources_kept (env := env) x.image
  refine ⟨x.finite hg.finite, ?_, ?_, ?_, hg.same' fun rel hr _ => hsrc rel hr⟩
  · intro s name hs hn hh
    rw [x.counters]
    by_cases hc : s = stem ∧ name = idText n
    · obtain ⟨rfl, rfl⟩ := hc
      exact hg.counted s _ hs hn (.inl (hg.complete hp x.before).1)
    · rw [x.others _ _ _ (.inl rfl) hn.2 (fun h => hc ⟨h.1, h.2.1⟩), x.others _ _ _ (.inr rfl) hn.2 (fun h => hc ⟨h.1, h.2.1⟩)] at hh
      exact hg.counted s name hs hn hh
  · intro s T' name name' hs hn hn' hm hm'
    exact hg.unique s T' name name' hs hn hn' ((x.matches hn.2).1 hm) ((x.matches hn'.2).1 hm')
  · intro s k b m' hs hb hload hm
    by_cases hc : s = stem ∧ idText k = idText n
    · obtain ⟨rfl, hk⟩ := hc
      have := idText_inj hk
      subst this
      obtain ⟨b', h1, h2⟩ := x.finished
      rw [h1] at hb; cases hb
      rw [h2] at hload; cases hload
      exact x.made
    · rw [x.others _ _ _ (.inl rfl) (idText_slash k) (fun h => hc ⟨h.1, h.2.1⟩)] at hb
      exact (hg.made s k b m' hs hb hload hm).keep hs (fun rel hr _ => hsrc rel hr) (x.kept _ (place_not_cand (idText_slash k)))
        (fun t ht => x.kept _ (art_not_cand (idText_slash k) (out_slash (tasks_noSlash hl _ t ht).2.1) (fun _ _ _ _ => cand_ne_out)))

/-! ## Histories -/

theorem Step.keeps {env : Env J C} (hl : Lawful env) {h : ℤ} (hh : env.settingsHash = .ok h) {f g : Fs} (hs : Step env f g) (hg : Good env h f) :
    Good env h g ∧ (∀ s T name, Seg name → Match env h f s T name → Match env h g s T name) ∧
    ∀ rel, Plain (root rel) → Pictured env f rel → g (source rel) = f (source rel) := by
  cases hs with
  | scan hp hx =>
    obtain ⟨T, n, b, d, x⟩ := scan_spec hl hh hp hx
    refine ⟨(x.good hg).1, x.kept hg, fun rel hr _ => (sources_kept (env := env) (fun p hne => ?_) rel hr).1⟩
    rcases x.files with e | e | e
    · exact absurd (congrFun e p) hne
    · by_contra hc
      exact hne (by rw [e]; exact touch_ne fun he => hc (.inr (.inl ⟨_, he⟩)))
    · rw [e] at hne; exact reservedFs_image hne
  | export_ hp hi hx =>
    obtain ⟨T, n, d, -, x⟩ := export_spec hl hh hp hg hi hx
    exact ⟨x.good hl hp hg, fun s T' name hn hm => (x.matches hn.2).2 hm, fun rel hr _ => (sources_kept (env := env) x.image rel hr).1⟩
  | other h0 h1 h2 =>
    exact ⟨hg.keep h0 h1 fun rel hr hi => h2 rel hr (.inr hi), fun s T name hn hm => (Match.congr (h1 _ (entry_art _ _ _)) (h1 _ (entry_art _ _ _))).2 hm,
      fun rel hr hi => (h2 rel hr (.inl hi)).1⟩

theorem Steps.keeps {env : Env J C} (hl : Lawful env) {h : ℤ} (hh : env.settingsHash = .ok h) {f g : Fs} (hs : Steps env f g) (hg : Good env h f) :
    Good env h g ∧ (∀ s T name, Seg name → Match env h f s T name → Match env h g s T name) ∧
    ∀ rel, Plain (root rel) → Pictured env f rel → g (source rel) = f (source rel) := by
  induction hs with
  | refl => exact ⟨hg, fun _ _ _ _ h => h, fun _ _ _ => rfl⟩
  | step h1 h2 ih =>
    obtain ⟨a1, a2, a3⟩ := ih
    obtain ⟨b1, b2, b3⟩ := h2.keeps hl hh a1
    exact ⟨b1, fun s T name hn hm => b2 s T name hn (a2 s T name hn hm), fun rel hr hi => by
      have k := a3 rel hr hi
      refine (b3 rel hr ?_).trans k
      obtain ⟨b, d, e1, e2⟩ := hi
      exact ⟨b, d, k.trans e1, e2⟩⟩

/-- **C71**: whatever else has been scanned and exported in between, the export of an image reports only files which the scan
of the image announced, and the image itself. -/
theorem C71 {env : Env J C} (hl : Lawful env) {h : ℤ} (hh : env.settingsHash = .ok h) {file : Text} {c : Command J} (hp : Proper env file c)
    {f f' g g' : Fs} (hg : Good env h f) {s : Scan} (hs : scanCommand env file f c = .ok (s, f')) (ht : Steps env f' g)
    {m : Metadata C} {r : Built} (he : exportCommand env file g c = .ok (m, r, g')) :
    r.children = s.dependencies ∧ ∀ p, p ∈ r.produced ∨ p ∈ r.reused → p ∈ s.produces := by
  obtain ⟨T, n, b, d, x⟩ := scan_spec hl hh hp hs
  obtain ⟨g1, g2⟩ := x.good hg
  obtain ⟨k1, k2, k3⟩ := ht.keeps hl hh g1
  have hx : f' (source (relOf env file c)) = f (source (relOf env file c)) := (Step.keeps hl hh (.scan hp hs) hg).2.2 _ hp ⟨b, d, x.source, x.dims⟩
  have hg0 := k3 _ hp ⟨b, d, hx.trans x.source, x.dims⟩
  obtain ⟨T', n', d', hT, y⟩ := export_spec hl hh hp k1 ⟨b, d, (hg0.trans hx).trans x.source, x.dims⟩ he
  rw [x.target] at hT
  cases hT
  have hn := idText_inj (k1.unique _ T _ _ hp (idText_seg n) (idText_seg n') (k2 _ _ _ (idText_seg n) g2) y.before)
  subst hn
  have hd : d' = d := by
    obtain ⟨b', e1, e2⟩ := y.source
    rw [hg0, hx, x.source] at e1
    cases e1
    rw [x.dims] at e2
    cases e2
    rfl
  subst hd
  exact ⟨y.children.trans x.dependencies.symm, fun p hpr => (x.produces p).2 (y.reported p hpr)⟩

/-- **C71**: scanning again, whatever has happened in between, announces the same. -/
theorem C71_scan {env : Env J C} (hl : Lawful env) {h : ℤ} (hh : env.settingsHash = .ok h) {file : Text} {c : Command J} (hp : Proper env file c)
    {f f' g g' : Fs} (hg : Good env h f) {s s' : Scan} (hs : scanCommand env file f c = .ok (s, f')) (ht : Steps env f' g)
    (he : scanCommand env file g c = .ok (s', g')) :
    s'.dependencies = s.dependencies ∧ (∀ p, p ∈ s'.produces ↔ p ∈ s.produces) ∧ ∀ p, p ∉ s.produces → g' p = g p := by
  obtain ⟨T, n, b, d, x⟩ := scan_spec hl hh hp hs
  obtain ⟨g1, g2⟩ := x.good hg
  obtain ⟨k1, k2, k3⟩ := ht.keeps hl hh g1
  obtain ⟨T', n', b', d', y⟩ := scan_spec hl hh hp he
  have hT := y.target
  rw [x.target] at hT
  cases hT
  have hn := idText_inj ((y.good k1).1.unique _ T _ _ hp (idText_seg n) (idText_seg n') (y.kept k1 _ _ _ (idText_seg n) (k2 _ _ _ (idText_seg n) g2)) (y.good k1).2)
  subst hn
  have hd : d' = d := by
    have e1 := y.source
    have hx : f' (source (relOf env file c)) = f (source (relOf env file c)) :=
      (Step.keeps hl hh (.scan hp hs) hg).2.2 _ hp ⟨b, d, x.source, x.dims⟩
    rw [k3 _ hp ⟨b, d, hx.trans x.source, x.dims⟩, hx, x.source] at e1
    cases e1
    have e2 := y.dims
    rw [x.dims] at e2
    cases e2
    rfl
  subst hd
  refine ⟨y.dependencies.trans x.dependencies.symm, fun p => by rw [x.produces, y.produces], fun p hnp => ?_⟩
  rw [x.produces] at hnp
  simp only [not_or] at hnp
  rcases y.files with rfl | rfl | rfl
  · rfl
  · exact touch_ne hnp.2.2.2.1
  · exact reservedFs_ne hnp.2.2.2.1 hnp.2.1 hnp.2.2.1

end Verif.Img.Files
