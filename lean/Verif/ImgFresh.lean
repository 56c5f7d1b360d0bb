import Verif.ImgFilesDraw

/-!
# C102: pictures show the image as it is now

`C71` to `C74` are about histories in which images stay as they are.  Here images are replaced, too.
-/

namespace Verif.Img.Files

open Verif.Reader (Text txt)
open Verif.Paths (join isAbs Seg)
open Verif.Handlers (Bytes Fs Scan Built)
open Verif.Css.Data (root)

variable {J C : Type} [DecidableEq C]

/-! ## Specification -/

/-- The hash by which each image goes (that beside its output, or else that of its source) is the one of the image as it is now,
and all images are among those of the history. -/
def Hashed (env : Env J C) (I : Bytes → Prop) (fs : Fs) : Prop :=
  ∀ rel img d, Plain (root rel) → fs (source rel) = some img → env.dims img = some d → contentsOf env fs rel = env.digest img ∧ I img

/-- The sizes in which the image is exported are different (they are not if it is shown in a size of few pixels, and steps are small). -/
def Distinct (env : Env J C) (fs : Fs) (file : Text) (c : Command J) : Prop :=
  ∀ T img d, targetOf env c = .ok T → fs (source (relOf env file c)) = some img → env.dims img = some d → (env.sizes d (T.width, T.height)).Nodup

/-- A file of an entry which is not finished, other than its placeholder. -/
def Unfinished (fs : Fs) (p : Text) : Prop :=
  ∃ s n file, 47 ∉ file ∧ file ≠ txt "metadata.json" ∧ file ≠ txt "placeholder.json" ∧ file ≠ txt "counter.txt" ∧
    p = entryFile s (idText n) file ∧ fs (entryFile s (idText n) (txt "metadata.json")) = none

/-- The projects there can be: without any artifacts; after a scan or an export, with hashes which are right; and after any edits
of images, hashes, pages and other files, which leave the artifacts as they are, but for the pictures of entries which are not
finished (so that exports may have been interrupted).  Edits may remove pictures from out/www. -/
inductive Lived (env : Env J C) (I : Bytes → Prop) : Fs → Prop
  | start {f : Fs} (h0 : Finite f) (h1 : ∀ p, InArt p → f p = none) (h2 : AllLocked f) : Lived env I f
  | scan {file : Text} {c : Command J} {f g : Fs} {s : Scan} (hf : Lived env I f) (hc : Hashed env I f) (hp : Proper env file c)
      (h : scanCommand env file f c = .ok (s, g)) : Lived env I g
  | export_ {file : Text} {c : Command J} {f g : Fs} {m : Metadata C} {r : Built} (hf : Lived env I f) (hc : Hashed env I f) (hp : Proper env file c)
      (hi : Pictured env f (relOf env file c)) (hz : Distinct env f file c) (h : exportCommand env file f c = .ok (m, r, g)) : Lived env I g
  | edit {f g : Fs} (hf : Lived env I f) (h0 : Finite g) (h1 : ∀ p, InArt p → g p = f p ∨ Unfinished f p)
      (h2 : ∀ s n w h k, 47 ∉ k → (f (entryFile s (idText n) (txt "metadata.json"))).isSome →
        g (outFile s (idText n) (outName w h k)) = f (outFile s (idText n) (outName w h k)) ∨ g (outFile s (idText n) (outName w h k)) = none)
      (h3 : AllLocked g) : Lived env I g

/-- The pictures which are recorded are those which are drawn from this image, for all sizes and formats, and the best of each. -/
structure Complete (env : Env J C) (img : Bytes) (d : ℤ × ℤ) (T : Target C) (outputs : List (Text × List Pic)) : Prop where
  all : ∀ s ∈ env.sizes d (T.width, T.height), ∀ k ∈ env.formats, Applicable k s.1 s.2 →
    ∃ p, Has outputs k.name p ∧ p.width = s.1 ∧ p.height = s.2
  best : ∀ g p, Has outputs g p → ∃ k ∈ env.formats, k.name = g ∧ (p.width, p.height) ∈ env.sizes d (T.width, T.height) ∧
    Chosen k p.width p.height (fun e => (drawn env img T p.width p.height e g).length) p.choice

/-- The pictures of an entry are those of this image. -/
structure DrawnFrom (env : Env J C) (fs : Fs) (stem : Text) (n : ℤ) (m : Metadata C) (img : Bytes) : Prop where
  hash : env.digest img = m.contentsHash
  dims : env.dims img = some (m.width, m.height)
  complete : Complete env img (m.width, m.height) m.target m.outputs
  art : ∀ g p, Has m.outputs g p → fs (entryFile stem (idText n) (outName p.width p.height g)) = some (drawn env img m.target p.width p.height p.choice g)
  out : ∀ g p, Has m.outputs g p → fs (outFile stem (idText n) (outName p.width p.height g)) = none ∨
    fs (outFile stem (idText n) (outName p.width p.height g)) = some (drawn env img m.target p.width p.height p.choice g)

/-- What holds at all times, whatever the hashes are. -/
structure Core (env : Env J C) (h : ℤ) (I : Bytes → Prop) (fs : Fs) : Prop where
  finite : Finite fs
  counted : ∀ stem name, Plain stem → Seg name →
    (fs (entryFile stem name (txt "placeholder.json"))).isSome ∨ (fs (entryFile stem name (txt "metadata.json"))).isSome →
    ∃ n b c, name = idText n ∧ fs (counterPath stem) = some b ∧ env.int (env.decode b) = some c ∧ n ≤ c
  unique : ∀ stem T name name', Plain stem → Seg name → Seg name' → Match env h fs stem T name → Match env h fs stem T name' → name = name'
  place : ∀ stem n b m, Plain stem → fs (entryFile stem (idText n) (txt "metadata.json")) = some b → env.loadMeta b = some m → m.settingsHash = h →
    (fs (entryFile stem (idText n) (txt "placeholder.json"))).isSome
  pics : ∀ stem n b m, Plain stem → fs (entryFile stem (idText n) (txt "metadata.json")) = some b → env.loadMeta b = some m → m.settingsHash = h →
    ∀ g p, Has m.outputs g p → ∃ t ∈ tasks (env.sizes (m.width, m.height) (m.target.width, m.target.height)) env.formats,
      g = t.2.name ∧ p.width = t.1.1 ∧ p.height = t.1.2 ∧ p.relpath = picPath stem n t
  distinct : ∀ stem n b m, Plain stem → fs (entryFile stem (idText n) (txt "metadata.json")) = some b → env.loadMeta b = some m → m.settingsHash = h →
    ((flat m.outputs).map (·.relpath)).Nodup
  from_ : ∀ stem n b m, Plain stem → fs (entryFile stem (idText n) (txt "metadata.json")) = some b → env.loadMeta b = some m → m.settingsHash = h →
    ∃ img, I img ∧ DrawnFrom env fs stem n m img
  locked : AllLocked fs

omit [DecidableEq C] in
/-- With hashes which are right, the artifacts are in order. -/
theorem Core.good {env : Env J C} {h : ℤ} {I : Bytes → Prop} (hI : ∀ a b, I a → I b → env.digest a = env.digest b → a = b) {fs : Fs}
    (x : Core env h I fs) (hc : Hashed env I fs) : Good env h fs := by
  refine ⟨x.finite, x.counted, x.unique, fun stem n b m hp hb hl hm => ?_, ?_⟩
  · obtain ⟨img, hi, hd⟩ := x.from_ stem n b m hp hb hl hm
    refine ⟨x.place stem n b m hp hb hl hm, fun g p hh => ?_, x.distinct stem n b m hp hb hl hm, ?_⟩
    · obtain ⟨t, ht, k1, k2, k3, k4⟩ := x.pics stem n b m hp hb hl hm g p hh
      refine ⟨t, ht, k1, k2, k3, k4, ?_⟩
      have := hd.art g p hh
      rw [k2, k3, k1] at this
      rw [this]; rfl
    · intro rel b' d hr hch hs hd'
      obtain ⟨k1, k2⟩ := hc rel b' d (by rw [hr]; exact hp) hs hd'
      have : img = b' := hI _ _ hi k2 (by rw [hd.hash, hch, k1])
      subst this
      rw [hd.dims] at hd'
      cases hd'
      rfl
  · intro rel rel' b b' hp hr hcc hb hb' d d' hd hd'
    obtain ⟨k1, k2⟩ := hc rel b d hp hb hd
    obtain ⟨k3, k4⟩ := hc rel' b' d' (by rw [← hr]; exact hp) hb' hd'
    have : b = b' := hI _ _ k2 k4 (by rw [← k1, ← k3, hcc])
    subst this
    rw [hd] at hd'
    cases hd'
    rfl

omit [DecidableEq C] in
/-- The files of the entry are the same, but that pictures may be missing in out/www. -/
theorem DrawnFrom.keep {env : Env J C} {fs fs' : Fs} {stem : Text} {n : ℤ} {m : Metadata C} {img : Bytes} (x : DrawnFrom env fs stem n m img)
    (h1 : ∀ g p, Has m.outputs g p → fs' (entryFile stem (idText n) (outName p.width p.height g)) = fs (entryFile stem (idText n) (outName p.width p.height g)))
    (h2 : ∀ g p, Has m.outputs g p → fs' (outFile stem (idText n) (outName p.width p.height g)) = fs (outFile stem (idText n) (outName p.width p.height g)) ∨
      fs' (outFile stem (idText n) (outName p.width p.height g)) = none) : DrawnFrom env fs' stem n m img := by
  refine ⟨x.hash, x.dims, x.complete, fun g p hh => (h1 g p hh).trans (x.art g p hh), fun g p hh => ?_⟩
  rcases h2 g p hh with e | e
  · rw [e]; exact x.out g p hh
  · exact .inl e

omit [DecidableEq C] in
/-- Names of recorded formats have no slashes. -/
theorem Core.slash {env : Env J C} (hl : Lawful env) {h : ℤ} {I : Bytes → Prop} {fs : Fs} (x : Core env h I fs) {stem : Text} {n : ℤ} {b : Bytes}
    {m : Metadata C} (hp : Plain stem) (hb : fs (entryFile stem (idText n) (txt "metadata.json")) = some b) (hm : env.loadMeta b = some m)
    (hh : m.settingsHash = h) {g : Text} {p : Pic} (hhas : Has m.outputs g p) : 47 ∉ g := by
  obtain ⟨t, ht, rfl, -⟩ := x.pics stem n b m hp hb hm hh g p hhas
  exact (tasks_noSlash hl _ t ht).2.1

omit [DecidableEq C] in
theorem Core.edit {env : Env J C} (hl : Lawful env) {h : ℤ} {I : Bytes → Prop} {f g : Fs} (x : Core env h I f) (h0 : Finite g)
    (h1 : ∀ p, InArt p → g p = f p ∨ Unfinished f p)
    (h2 : ∀ s n w h k, 47 ∉ k → (f (entryFile s (idText n) (txt "metadata.json"))).isSome →
        g (outFile s (idText n) (outName w h k)) = f (outFile s (idText n) (outName w h k)) ∨ g (outFile s (idText n) (outName w h k)) = none)
    (h3 : AllLocked g) : Core env h I g := by
  have em : ∀ s name, 47 ∉ name → g (entryFile s name (txt "metadata.json")) = f (entryFile s name (txt "metadata.json")) := by
    intro s name hn
    rcases h1 _ (entry_art s name _) with e | ⟨s', k, file, e1, e2, -, -, e, -⟩
    · exact e
    · exact absurd (entryFile_inj hn (idText_slash k) (by decide) e1 e).2.2.symm e2
  have ep : ∀ s name, 47 ∉ name → g (entryFile s name (txt "placeholder.json")) = f (entryFile s name (txt "placeholder.json")) := by
    intro s name hn
    rcases h1 _ (entry_art s name _) with e | ⟨s', k, file, e1, -, e2, -, e, -⟩
    · exact e
    · exact absurd (entryFile_inj hn (idText_slash k) (by decide) e1 e).2.2.symm e2
  have ec : ∀ s, g (counterPath s) = f (counterPath s) := by
    intro s
    rcases h1 _ (counter_art s) with e | ⟨s', k, file, e1, -, -, e2, e, -⟩
    · exact e
    · exact absurd e.symm (entry_ne_counter e1 e2)
  have eq : ∀ s n w h k, 47 ∉ k → (f (entryFile s (idText n) (txt "metadata.json"))).isSome →
      g (entryFile s (idText n) (outName w h k)) = f (entryFile s (idText n) (outName w h k)) := by
    intro s n w h k hk hs
    rcases h1 _ (entry_art s (idText n) _) with e | ⟨s', k', file, e1, -, -, -, e, e'⟩
    · exact e
    · obtain ⟨q1, q2, -⟩ := entryFile_inj (idText_slash n) (idText_slash k') (out_slash hk) e1 e
      rw [q1, q2, e'] at hs
      cases hs
  refine ⟨h0, ?_, ?_, ?_, ?_, ?_, ?_, h3⟩
  · intro s name hp hn hh
    rw [em _ _ hn.2, ep _ _ hn.2] at hh
    rw [ec]
    exact x.counted s name hp hn hh
  · intro s T name name' hp hn hn' hm hm'
    exact x.unique s T name name' hp hn hn' ((Match.congr (em _ _ hn.2) (ep _ _ hn.2)).1 hm) ((Match.congr (em _ _ hn'.2) (ep _ _ hn'.2)).1 hm')
  · intro s n b m hp hb hm hh
    rw [em _ _ (idText_slash n)] at hb
    rw [ep _ _ (idText_slash n)]
    exact x.place s n b m hp hb hm hh
  · intro s n b m hp hb hm hh
    rw [em _ _ (idText_slash n)] at hb
    exact x.pics s n b m hp hb hm hh
  · intro s n b m hp hb hm hh
    rw [em _ _ (idText_slash n)] at hb
    exact x.distinct s n b m hp hb hm hh
  · intro s n b m hp hb hm hh
    rw [em _ _ (idText_slash n)] at hb
    obtain ⟨img, hi, hd⟩ := x.from_ s n b m hp hb hm hh
    have hs : (f (entryFile s (idText n) (txt "metadata.json"))).isSome := by rw [hb]; rfl
    exact ⟨img, hi, hd.keep (fun g p hhas => eq _ _ _ _ _ (x.slash hl hp hb hm hh hhas) hs) (fun g p hhas => h2 _ _ _ _ _ (x.slash hl hp hb hm hh hhas) hs)⟩

omit [DecidableEq C] in
theorem Core.of_good {env : Env J C} {h : ℤ} {I : Bytes → Prop} {fs : Fs} (hg : Good env h fs) (hk : AllLocked fs)
    (hd : ∀ stem n b m, Plain stem → fs (entryFile stem (idText n) (txt "metadata.json")) = some b → env.loadMeta b = some m → m.settingsHash = h →
      ∃ img, I img ∧ DrawnFrom env fs stem n m img) : Core env h I fs :=
  ⟨hg.finite, hg.counted, hg.unique, fun s n b m hp hb hm hh => (hg.made s n b m hp hb hm hh).place,
    fun s n b m hp hb hm hh g p hhas => by
      obtain ⟨t, ht, k1, k2, k3, k4, -⟩ := (hg.made s n b m hp hb hm hh).pics g p hhas
      exact ⟨t, ht, k1, k2, k3, k4⟩,
    fun s n b m hp hb hm hh => (hg.made s n b m hp hb hm hh).distinct, hd, hk⟩

omit [DecidableEq C] in
theorem Core.start {env : Env J C} {h : ℤ} {I : Bytes → Prop} {f : Fs} (h0 : Finite f) (h1 : ∀ p, InArt p → f p = none) (h2 : AllLocked f) :
    Core env h I f := by
  have e : ∀ s n k, f (entryFile s n k) = none := fun s n k => h1 _ (entry_art _ _ _)
  refine ⟨h0, ?_, ?_, ?_, ?_, ?_, ?_, h2⟩
  · intro s name _ _ hh
    rw [e, e] at hh
    simp at hh
  · rintro s T name name' - - - (⟨-, b, hb, -⟩ | ⟨b, m, hb, -⟩)
    · rw [e] at hb; cases hb
    · rw [e] at hb; cases hb
  all_goals
    intro s n b m _ hb
    rw [e] at hb; cases hb

theorem Core.scan {env : Env J C} (hl : Lawful env) {h : ℤ} (hh : env.settingsHash = .ok h) {I : Bytes → Prop}
    (hI : ∀ a b, I a → I b → env.digest a = env.digest b → a = b) {file : Text} {c : Command J} {f g : Fs} {s : Scan} (x : Core env h I f)
    (hc : Hashed env I f) (hp : Proper env file c) (hs : scanCommand env file f c = .ok (s, g)) : Core env h I g := by
  obtain ⟨T, n, b, d, y⟩ := scan_spec hl hh hp hs
  have hg := x.good hI hc
  refine Core.of_good (y.good hg).1 (y.allLocked x.locked) fun stem k b' m hps hb hm hms => ?_
  have same : ∀ file, 47 ∉ file → file ≠ txt "counter.txt" → file ≠ txt "placeholder.json" → ∀ s k, g (entryFile s (idText k) file) = f (entryFile s (idText k) file) := by
    intro file q1 q2 q3 s k
    rcases y.files with rfl | rfl | rfl
    · rfl
    · exact touch_entry
    · exact reservedFs_entry (idText_slash k) q1 q2 (fun e => q3 e.2.2)
  rw [same _ (by decide) (by decide) (by decide)] at hb
  obtain ⟨img, hi, hd⟩ := x.from_ stem k b' m hps hb hm hms
  refine ⟨img, hi, hd.keep (fun g' p hhas => same _ (out_slash (x.slash hl hps hb hm hms hhas)) (out_ne 99 (by decide) (by omega)) (out_ne 112 (by decide) (by omega)) _ _)
    (fun g' p hhas => .inl ?_)⟩
  rcases y.files with rfl | rfl | rfl
  · rfl
  · exact touch_ne lock_ne_outFile.symm
  · exact reservedFs_ne lock_ne_outFile.symm (art_ne_out (counter_art _) (out_out _ _ _)).symm (art_ne_out (entry_art _ _ _) (out_out _ _ _)).symm

/-! ## Exports -/

theorem reuse_content {sym : Bool} : ∀ {ps : List Pic} {s s' : Reuse}, (∀ p ∈ ps, ∀ q ∈ ps, picArt p ≠ picOut q) →
    (∀ p ∈ ps, ∀ q ∈ ps, picOut p = picOut q → picArt p = picArt q) → reuseAll sym ps s = .ok s' → ∀ p ∈ ps, ∀ b, s.fs (picArt p) = some b →
    s.fs (picOut p) = none ∨ s.fs (picOut p) = some b → s'.fs (picOut p) = some b := by
  intro ps
  induction ps with
  | nil => intro s s' _ _ _ p hp; simp at hp
  | cons q ps ih =>
    intro s s' hd hi h p hp b hb ho
    unfold reuseAll at h
    split at h
    · cases h
    · next s1 h1 =>
      have hd' : ∀ p ∈ ps, ∀ q ∈ ps, picArt p ≠ picOut q := fun x hx y hy => hd x (List.mem_cons_of_mem _ hx) y (List.mem_cons_of_mem _ hy)
      have hi' : ∀ p ∈ ps, ∀ q ∈ ps, picOut p = picOut q → picArt p = picArt q := fun x hx y hy => hi x (List.mem_cons_of_mem _ hx) y (List.mem_cons_of_mem _ hy)
      have R := reuseAll_spec hd' h
      have hart : s1.fs (picArt p) = some b := by
        rcases reuseOne_cases h1 with ⟨-, rfl⟩ | ⟨-, y, -, rfl⟩ | ⟨-, -, rfl⟩
        · exact hb
        · simp only [Fs.write]
          rw [if_neg (hd p hp q (by simp))]
          exact hb
        · exact hb
      have hout : s1.fs (picOut p) = none ∨ s1.fs (picOut p) = some b := by
        rcases reuseOne_cases h1 with ⟨-, rfl⟩ | ⟨-, y, hy, rfl⟩ | ⟨-, -, rfl⟩
        · exact ho
        · simp only [Fs.write]
          split
          · next e =>
            rw [← hi p hp q (by simp) e, hb] at hy
            exact .inr hy.symm
          · exact ho
        · exact ho
      rcases List.mem_cons.1 hp with rfl | hp'
      · have : s1.fs (picOut p) = some b := by
          rcases reuseOne_cases h1 with ⟨hs, rfl⟩ | ⟨-, y, hy, rfl⟩ | ⟨-, hn, rfl⟩
          · rcases ho with e | e
            · rw [e] at hs; cases hs
            · exact e
          · simp only [Fs.write, if_true]
            rw [hb] at hy
            exact hy.symm
          · rw [hb] at hn; cases hn
        rw [R.kept _ (by rw [this]; rfl)]
        exact this
      · exact ih hd' hi' h p hp' b hart hout

omit [DecidableEq C] in
theorem picPath_id {stem : Text} {n n' : ℤ} {t t' : (ℕ × ℕ) × Format} (h1 : 47 ∉ t.2.name) (h2 : 47 ∉ t'.2.name) (h : picPath stem n t = picPath stem n' t') :
    n = n' := by
  unfold picPath at h
  have k := (split_unique_last (out_slash h1) (out_slash h2) h).1
  exact idText_inj (split_unique_last (idText_slash n) (idText_slash n') k).2

/-- What is used again was finished before. -/
theorem export_again {env : Env J C} {file : Text} {c : Command J} {f g : Fs} {m : Metadata C} {r : Built}
    (he : exportCommand env file f c = .ok (m, r, g)) (hr : r.reused ≠ []) :
    ∃ T n f1 b, targetOf env c = .ok T ∧ getTarget env (relOf env file c) T f = .ok (some n, f1) ∧ f1 (metaFile (artDir (relOf env file c) n)) = some b ∧
      exportAgain env (sourcePath env.cwd env.folder file c) (relOf env file c) n b f1 = .ok (m, r, g) := by
  unfold exportCommand at he
  simp only at he
  split at he
  · cases he
  · next T hT =>
    split at he
    · cases he
    · cases he
    · next n f1 h1 =>
      split at he
      · next b hb => exact ⟨T, n, f1, b, hT, h1, hb, he⟩
      · unfold exportNew at he
        split at he
        · cases he
        · split at he
          · cases he
          · split at he
            · cases he
            · dsimp only at he
              split at he
              · cases he
              · split at he
                · cases he
                · cases he
                  exact absurd rfl hr

/-- What is in the folders after an export: the pictures of the image as it is now. -/
theorem export_now {env : Env J C} (hl : Lawful env) {h : ℤ} (hh : env.settingsHash = .ok h) (hformats : ∀ f ∈ env.formats, GoodFormat f)
    {I : Bytes → Prop}
    (hI : ∀ a b, I a → I b → env.digest a = env.digest b → a = b) {file : Text} {c : Command J} {f g : Fs} {m : Metadata C} {r : Built} (x : Core env h I f)
    (hc : Hashed env I f) (hp : Proper env file c) (hi : Pictured env f (relOf env file c)) (hz : Distinct env f file c) (he : exportCommand env file f c = .ok (m, r, g))
    {T : Target C} {n : ℤ} {d : ℤ × ℤ} (y : Exported env h (relOf env file c) (root (relOf env file c)) (sourcePath env.cwd env.folder file c) f g m r T n d) :
    ∃ img, I img ∧ f (source (relOf env file c)) = some img ∧ DrawnFrom env g (root (relOf env file c)) n m img ∧
      ∀ k p, Has m.outputs k p → g (outFile (root (relOf env file c)) (idText n) (outName p.width p.height k)) =
        some (drawn env img m.target p.width p.height p.choice k) := by
  have hg := x.good hI hc
  obtain ⟨img, hsrc, hdims⟩ := y.source
  obtain ⟨hcon, hIimg⟩ := hc _ _ _ hp hsrc hdims
  by_cases hr : r.reused = []
  · obtain ⟨T', n', img', d', hT', hsrc', hdims', hm, hnd, hdrawn⟩ := C74 hl hh hformats hp hg hi he hr
    rw [hsrc] at hsrc'; cases hsrc'
    rw [hdims] at hdims'; cases hdims'
    obtain ⟨k1, k2⟩ := hdrawn (hz T' img d hT' hsrc hdims)
    have hT : m.target = T' := by rw [hm]
    have hd : (m.width, m.height) = d := by rw [hm]
    have hch : env.digest img = m.contentsHash := by rw [hm, hcon]
    -- all about one picture
    have one : ∀ k p, Has m.outputs k p → n' = n ∧ ∃ s ∈ env.sizes d (T'.width, T'.height), ∃ q ∈ env.formats, k = q.name ∧ p.width = s.1 ∧ p.height = s.2 ∧
        Chosen q s.1 s.2 (fun e => (drawn env img T' s.1 s.2 e q.name).length) p.choice ∧
        g (entryFile (root (relOf env file c)) (idText n') (outName s.1 s.2 q.name)) = some (drawn env img T' s.1 s.2 p.choice q.name) ∧
        g (outFile (root (relOf env file c)) (idText n') (outName s.1 s.2 q.name)) = some (drawn env img T' s.1 s.2 p.choice q.name) := by
      intro k p hhas
      obtain ⟨s, hs, q, hq, e1, e2, e3, e4, happ⟩ := k2 k p hhas
      obtain ⟨ch, c1, c2, c3, c4⟩ := (k1 s hs q hq).best happ
      obtain ⟨t, ht, -, -, -, e5, -⟩ := y.made.pics k p hhas
      have hn : n' = n := by
        rw [e4] at e5
        exact picPath_id (hl.format q hq).2.1 (tasks_noSlash hl _ t ht).2.1 e5
      have hpp : p = ⟨s.1, s.2, picPath (root (relOf env file c)) n' ((s.1, s.2), q), ch⟩ :=
        List.inj_on_of_nodup_map hnd (mem_flat.2 ⟨k, hhas⟩) (mem_flat.2 ⟨q.name, c4⟩) e4
      have hch : p.choice = ch := by rw [hpp]
      exact ⟨hn, s, hs, q, hq, e1, e2, e3, by rw [hch]; exact c1, by rw [hch]; exact c2, by rw [hch]; exact c3⟩
    refine ⟨img, hIimg, hsrc, ⟨hch, by rw [hd]; exact hdims, ⟨?_, ?_⟩, ?_, ?_⟩, ?_⟩
    · rw [hd, hT]
      intro s hs q hq happ
      obtain ⟨ch, -, -, -, c4⟩ := (k1 s hs q hq).best happ
      exact ⟨_, c4, rfl, rfl⟩
    · rw [hd, hT]
      intro k p hhas
      obtain ⟨-, s, hs, q, hq, e1, e2, e3, e4, -⟩ := one k p hhas
      refine ⟨q, hq, e1.symm, by rw [e2, e3]; exact hs, ?_⟩
      rw [e1, e2, e3]
      exact e4
    · intro k p hhas
      obtain ⟨rfl, s, hs, q, hq, e1, e2, e3, -, e4, -⟩ := one k p hhas
      rw [hT, e1, e2, e3]
      exact e4
    · intro k p hhas
      obtain ⟨rfl, s, hs, q, hq, e1, e2, e3, -, -, e4⟩ := one k p hhas
      rw [hT, e1, e2, e3]
      exact .inr e4
    · intro k p hhas
      obtain ⟨rfl, s, hs, q, hq, e1, e2, e3, -, -, e4⟩ := one k p hhas
      rw [hT, e1, e2, e3]
      exact e4
  · obtain ⟨T', n', f1, b, hT', h1, hb, ha⟩ := export_again he hr
    obtain ⟨k1, k2, -⟩ := getTarget_spec hl rfl hp h1
    obtain ⟨-, h', name, e, hint, hf⟩ := k2 n' rfl
    rw [hh] at e
    cases e
    have hname := hg.name hl hp hf.seg hf.isFor hint
    subst hname
    rw [show metaFile (artDir (relOf env file c) n') = entryFile (root (relOf env file c)) (idText n') (txt "metadata.json") from meta_eq rfl hp (idText_seg n')] at hb
    have q1 : ∀ p, InArt p → f1 p = f p := by
      intro p hpa
      rcases k1 with rfl | rfl
      · rfl
      · exact touch_ne (art_ne_out hpa (lock_out _))
    have q2 : ∀ n k, f1 (outFile (root (relOf env file c)) n k) = f (outFile (root (relOf env file c)) n k) := by
      intro n k
      rcases k1 with rfl | rfl
      · rfl
      · exact touch_ne lock_ne_outFile.symm
    rw [q1 _ (entry_art _ _ _)] at hb
    unfold exportAgain at ha
    split at ha
    · cases ha
    · next m' hload =>
      split at ha
      · cases ha
      · next s hs =>
        have hmm : m' = m := by
          split at ha <;> (cases ha; rfl)
        subst hmm
        have hTT : m'.target = T' ∧ m'.settingsHash = h := by
          rcases hf.isFor with ⟨e, -⟩ | ⟨b', m'', e1, e2, e3, e4⟩
          · rw [e] at hb; cases hb
          · rw [hb] at e1; cases e1
            rw [hload] at e2; cases e2
            exact ⟨e4, e3⟩
        have hT : T' = T := hTT.1.symm.trans y.isFor.2.1
        subst hT
        have hn : n' = n := idText_inj (hg.unique _ _ _ _ hp (idText_seg n') (idText_seg n) hf.isFor y.before)
        subst hn
        obtain ⟨img', hi', hd'⟩ := x.from_ _ _ _ _ hp hb hload hTT.2
        have hsame : img' = img := hI _ _ hi' hIimg (by rw [hd'.hash, y.isFor.2.2.1, hcon])
        subst hsame
        have hgs : ∀ p, p ≠ lockPath (root (relOf env file c)) → g p = s.fs p := by
          intro p hne
          rw [lock_eq rfl hp] at ha
          split at ha
          · cases ha; exact touch_ne hne
          · cases ha; rfl
        -- the recorded pictures
        have pic : ∀ k p, Has m'.outputs k p → picArt p = entryFile (root (relOf env file c)) (idText n') (outName p.width p.height k) ∧
            picOut p = outFile (root (relOf env file c)) (idText n') (outName p.width p.height k) := by
          intro k p hhas
          obtain ⟨t, ht, e1, e2, e3, e4⟩ := x.pics _ _ _ _ hp hb hload hTT.2 k p hhas
          unfold picArt picOut
          rw [e4, e1, e2, e3]
          exact again_eq hp
        have hdis : ∀ p ∈ flat m'.outputs, ∀ q ∈ flat m'.outputs, picArt p ≠ picOut q := by
          intro p hpf q hqf
          obtain ⟨k, hk⟩ := mem_flat.1 hpf
          obtain ⟨k', hk'⟩ := mem_flat.1 hqf
          rw [(pic k p hk).1, (pic k' q hk').2]
          exact art_ne_out (entry_art _ _ _) (out_out _ _ _)
        have hinj : ∀ p ∈ flat m'.outputs, ∀ q ∈ flat m'.outputs, picOut p = picOut q → picArt p = picArt q := by
          intro p hpf q hqf e
          obtain ⟨k, hk⟩ := mem_flat.1 hpf
          obtain ⟨k', hk'⟩ := mem_flat.1 hqf
          rw [(pic k p hk).2, (pic k' q hk').2] at e
          rw [(pic k p hk).1, (pic k' q hk').1, out_cancel e]
        have R := reuseAll_spec hdis hs
        have out : ∀ k p, Has m'.outputs k p → g (outFile (root (relOf env file c)) (idText n') (outName p.width p.height k)) =
            some (drawn env img' m'.target p.width p.height p.choice k) := by
          intro k p hhas
          obtain ⟨e1, e2⟩ := pic k p hhas
          rw [hgs _ lock_ne_outFile.symm, ← e2]
          refine reuse_content hdis hinj hs p (mem_flat.2 ⟨k, hhas⟩) _ ?_ ?_
          · dsimp only
            rw [e1, q1 _ (entry_art _ _ _)]
            exact hd'.art k p hhas
          · dsimp only
            rw [e2, q2]
            exact hd'.out k p hhas
        refine ⟨img', hi', hsrc, ⟨hd'.hash, hd'.dims, hd'.complete, fun k p hhas => ?_, fun k p hhas => .inr (out k p hhas)⟩, out⟩
        rw [hgs _ (art_ne_out (entry_art _ _ _) (lock_out _)), R.frame _ ?_]
        · dsimp only
          rw [q1 _ (entry_art _ _ _)]
          exact hd'.art k p hhas
        · intro q hq
          obtain ⟨k', hk'⟩ := mem_flat.1 hq
          rw [(pic k' q hk').2]
          exact art_ne_out (entry_art _ _ _) (out_out _ _ _)

theorem Core.export_ {env : Env J C} (hl : Lawful env) {h : ℤ} (hh : env.settingsHash = .ok h) (hformats : ∀ f ∈ env.formats, GoodFormat f)
    {I : Bytes → Prop}
    (hI : ∀ a b, I a → I b → env.digest a = env.digest b → a = b) {file : Text} {c : Command J} {f g : Fs} {m : Metadata C} {r : Built} (x : Core env h I f)
    (hc : Hashed env I f) (hp : Proper env file c) (hi : Pictured env f (relOf env file c)) (hz : Distinct env f file c) (he : exportCommand env file f c = .ok (m, r, g)) :
    Core env h I g := by
  have hg := x.good hI hc
  obtain ⟨T, n, d, hT, y⟩ := export_spec hl hh hp hg hi he
  have hns := tasks_noSlash hl (env.sizes d (T.width, T.height))
  refine Core.of_good (y.good hl hp hg) (y.allLocked hl hp x.locked) fun stem k b m' hps hb hm hms => ?_
  by_cases hown : stem = root (relOf env file c) ∧ idText k = idText n
  · obtain ⟨rfl, hk⟩ := hown
    have := idText_inj hk
    subst this
    obtain ⟨b', hb', hm'⟩ := y.finished
    rw [hb'] at hb; cases hb
    rw [hm'] at hm; cases hm
    obtain ⟨img, h1, -, h2, -⟩ := export_now hl hh hformats hI x hc hp hi hz he y
    exact ⟨img, h1, h2⟩
  · rw [y.others _ _ _ (.inl rfl) (idText_slash k) (fun h => hown ⟨h.1, h.2.1⟩)] at hb
    obtain ⟨img, h1, h2⟩ := x.from_ stem k b m' hps hb hm hms
    refine ⟨img, h1, h2.keep (fun g' p hhas => ?_) (fun g' p hhas => .inl ?_)⟩
    · have hsl := x.slash hl hps hb hm hms hhas
      by_contra hne
      have := y.reported _ (.inl (y.changed (x.locked _ hp) _ hne (art_not_cand (idText_slash k) (out_slash hsl) (fun _ _ _ _ => cand_ne_out))))
      rcases this with e | e | e | e | ⟨t, ht, e | e⟩
      · exact hown ⟨(entryFile_inj (idText_slash k) (idText_slash n) (out_slash hsl) (by decide) e).1, (entryFile_inj (idText_slash k) (idText_slash n) (out_slash hsl) (by decide) e).2.1⟩
      · exact entry_ne_counter (out_slash hsl) (out_ne 99 (by decide) (by omega)) e
      · exact hown ⟨(entryFile_inj (idText_slash k) (idText_slash n) (out_slash hsl) (by decide) e).1, (entryFile_inj (idText_slash k) (idText_slash n) (out_slash hsl) (by decide) e).2.1⟩
      · exact art_ne_out (entry_art _ _ _) (lock_out _) e
      · have := entryFile_inj (idText_slash k) (idText_slash n) (out_slash hsl) (out_slash (hns t ht).2.1) e
        exact hown ⟨this.1, this.2.1⟩
      · exact art_ne_out (entry_art _ _ _) (out_out _ _ _) e
    · have hsl := x.slash hl hps hb hm hms hhas
      by_contra hne
      have := y.reported _ (.inl (y.changed (x.locked _ hp) _ hne out_not_cand))
      rcases this with e | e | e | e | ⟨t, ht, e | e⟩
      · exact art_ne_out (entry_art _ _ _) (out_out _ _ _) e.symm
      · exact art_ne_out (counter_art _) (out_out _ _ _) e.symm
      · exact art_ne_out (entry_art _ _ _) (out_out _ _ _) e.symm
      · exact lock_ne_outFile e.symm
      · exact art_ne_out (entry_art _ _ _) (out_out _ _ _) e.symm
      · have := outFile_inj (idText_slash k) (idText_slash n) (out_slash hsl) (out_slash (hns t ht).2.1) e
        exact hown ⟨this.1, this.2.1⟩

theorem Lived.core {env : Env J C} (hl : Lawful env) {h : ℤ} (hh : env.settingsHash = .ok h) (hformats : ∀ f ∈ env.formats, GoodFormat f)
    {I : Bytes → Prop}
    (hI : ∀ a b, I a → I b → env.digest a = env.digest b → a = b) {f : Fs} (x : Lived env I f) : Core env h I f := by
  induction x with
  | start h0 h1 h2 => exact Core.start h0 h1 h2
  | scan _ hc hp hs ih => exact ih.scan hl hh hI hc hp hs
  | export_ _ hc hp hi hz he ih => exact ih.export_ hl hh hformats hI hc hp hi hz he
  | edit _ h0 h1 h2 h3 ih => exact ih.edit hl h0 h1 h2 h3

/-! ## C102 -/

/-- **C102** in part: whatever was done before - images replaced, exports interrupted, pictures removed -, after an export which
succeeds the pictures it reports are in out/www, each is drawn from the image *as it is now*, there is one for every size and format,
and each is the best of its kind. -/
theorem C102_partial {env : Env J C} (hl : Lawful env) {h : ℤ} (hh : env.settingsHash = .ok h) (hformats : ∀ f ∈ env.formats, GoodFormat f)
    {I : Bytes → Prop}
    (hI : ∀ a b, I a → I b → env.digest a = env.digest b → a = b) {file : Text} {c : Command J} {f g : Fs} {m : Metadata C} {r : Built} (x : Lived env I f)
    (hc : Hashed env I f) (hp : Proper env file c) (hi : Pictured env f (relOf env file c)) (hz : Distinct env f file c) (he : exportCommand env file f c = .ok (m, r, g)) :
    ∃ img d T, f (source (relOf env file c)) = some img ∧ env.dims img = some d ∧ targetOf env c = .ok T ∧ Complete env img d T m.outputs ∧
      ∀ k p, Has m.outputs k p → g (join (join (txt "out") (txt "www")) p.relpath) = some (drawn env img T p.width p.height p.choice k) := by
  have y := x.core hl hh hformats hI
  have hg := y.good hI hc
  obtain ⟨T, n, d, hT, z⟩ := export_spec hl hh hp hg hi he
  obtain ⟨img, -, hs, hd, ho⟩ := export_now hl hh hformats hI y hc hp hi hz he z
  obtain ⟨-, e1, -, e2⟩ := z.isFor
  refine ⟨img, d, T, hs, by rw [← e2]; exact hd.dims, hT, by rw [← e2, ← e1]; exact hd.complete, fun k p hhas => ?_⟩
  obtain ⟨t, ht, k1, k2, k3, k4, -⟩ := z.made.pics k p hhas
  rw [← e1, ← ho k p hhas, k4, k1, k2, k3]
  rw [show picPath (root (relOf env file c)) n t = root (relOf env file c) ++ 47 :: idText n ++ 47 :: outName t.1.1 t.1.2 t.2.name from rfl, (again_eq hp).2]

/-- **C102** in part: at any time, a picture of a finished entry which is in out/www was drawn from an image with the hash which the
entry has recorded: pictures of different images are never mixed up. -/
theorem C102_unmixed {env : Env J C} (hl : Lawful env) {h : ℤ} (hh : env.settingsHash = .ok h) (hformats : ∀ f ∈ env.formats, GoodFormat f)
    {I : Bytes → Prop}
    (hI : ∀ a b, I a → I b → env.digest a = env.digest b → a = b) {f : Fs} (x : Lived env I f) {stem : Text} (hp : Plain stem) {n : ℤ} {b : Bytes} {m : Metadata C}
    (hb : f (entryFile stem (idText n) (txt "metadata.json")) = some b) (hm : env.loadMeta b = some m) (hs : m.settingsHash = h) :
    ∃ img, I img ∧ env.digest img = m.contentsHash ∧ ∀ k p, Has m.outputs k p →
      f (outFile stem (idText n) (outName p.width p.height k)) = none ∨
      f (outFile stem (idText n) (outName p.width p.height k)) = some (drawn env img m.target p.width p.height p.choice k) := by
  obtain ⟨img, h1, h2⟩ := (x.core hl hh hformats hI).from_ stem n b m hp hb hm hs
  exact ⟨img, h1, h2.hash, h2.out⟩

/-! ## After an image has been replaced -/

/-- An image has been exported, and then replaced: there are entries for the present settings, all with another hash than that of the
image, and no target is waiting for its export. -/
structure Replaced (env : Env J C) (h : ℤ) (fs : Fs) (rel : Text) : Prop where
  finite : Finite fs
  plain : Plain (root rel)
  source : (fs (source rel)).isSome
  /-- it has been exported -/
  before : ∃ n b m, fs (entryFile (root rel) (idText n) (txt "metadata.json")) = some b ∧ env.loadMeta b = some m ∧ m.settingsHash = h
  /-- as another image -/
  other : ∀ name b m, Seg name → fs (entryFile (root rel) name (txt "metadata.json")) = some b → env.loadMeta b = some m → m.settingsHash = h →
    m.contentsHash ≠ contentsOf env fs rel
  done : ∀ name, Seg name → (fs (entryFile (root rel) name (txt "placeholder.json"))).isSome → (fs (entryFile (root rel) name (txt "metadata.json"))).isSome

theorem find_replaced {env : Env J C} {rel stem : Text} (hr : root rel = stem) (hp : Plain stem) {h : ℤ} {contents : Text} {T : Target C} :
    ∀ {es : List (Text × Bool)} {fs : Fs}, (∀ e ∈ es, Seg e.1) →
    (∀ name b m, Seg name → fs (entryFile stem name (txt "metadata.json")) = some b → env.loadMeta b = some m → m.settingsHash = h → m.contentsHash ≠ contents) →
    (∀ name, Seg name → (fs (entryFile stem name (txt "placeholder.json"))).isSome → (fs (entryFile stem name (txt "metadata.json"))).isSome) →
    (∃ name b m, (name, true) ∈ es ∧ fs (entryFile stem name (txt "metadata.json")) = some b ∧ env.loadMeta b = some m ∧ m.settingsHash = h) →
    ∃ e, find env rel h contents T es fs = .error e := by
  intro es
  induction es with
  | nil => rintro fs - - - ⟨name, b, m, hm, -⟩; simp at hm
  | cons e es ih =>
    obtain ⟨name, isDir⟩ := e
    rintro fs hs h1 h2 ⟨name', b, m, hin, hb, hm, hh⟩
    have hseg : Seg name := hs (name, isDir) (by simp)
    have hs' : ∀ e ∈ es, Seg e.1 := fun x hx => hs x (List.mem_cons_of_mem _ hx)
    unfold find
    simp only [meta_eq hr hp hseg, place_eq hr hp hseg, lock_eq hr hp]
    split
    · next hd =>
      refine ih hs' h1 h2 ⟨name', b, m, ?_, hb, hm, hh⟩
      rcases List.mem_cons.1 hin with hin | hin
      · cases hin; cases hd
      · exact hin
    · split
      · next hmeta =>
        have hin' : (name', true) ∈ es := by
          rcases List.mem_cons.1 hin with hin | hin
          · cases hin; rw [hmeta] at hb; cases hb
          · exact hin
        have hplace : fs (entryFile stem name (txt "placeholder.json")) = none := by
          by_contra hne
          have := h2 name hseg (Option.isSome_iff_ne_none.2 hne)
          rw [hmeta] at this
          cases this
        rw [touch_entry, hplace]
        refine ih hs' ?_ ?_ ⟨name', b, m, hin', by rw [touch_entry]; exact hb, hm, hh⟩
        · intro x b' m' hx hb'
          rw [touch_entry] at hb'
          exact h1 x b' m' hx hb'
        · intro x hs hx
          rw [touch_entry] at hx ⊢
          exact h2 x hs hx
      · next b' hmeta =>
        split
        · exact ⟨_, rfl⟩
        · next m' hload =>
          split
          · next hne =>
            refine ih hs' h1 h2 ⟨name', b, m, ?_, hb, hm, hh⟩
            rcases List.mem_cons.1 hin with hin | hin
            · cases hin
              rw [hb] at hmeta; cases hmeta
              rw [hm] at hload; cases hload
              exact absurd hh hne
            · exact hin
          · next heq =>
            rw [if_pos (h1 name b' m' hseg hmeta hload (not_not.1 heq))]
            exact ⟨_, rfl⟩

/-- **C102** fails: once an image has been exported and then replaced, no page, sheet or image module which shows it can be scanned or
exported any more, in whatever size. -/
theorem C102_false_stuck {env : Env J C} (hl : Lawful env) {h : ℤ} (hh : env.settingsHash = .ok h) {f : Fs} {file : Text} {c : Command J}
    (x : Replaced env h f (relOf env file c)) :
    (∃ e, scanCommand env file f c = .error e) ∧ ∃ e, exportCommand env file f c = .error e := by
  have key : ∀ T, ∃ e, getTarget env (relOf env file c) T f = .error e := by
    intro T
    obtain ⟨n, b, m, hb, hm, hs⟩ := x.before
    obtain ⟨es, hes, hin⟩ := hl.listed f (txt "artifacts/" ++ root (relOf env file c)) (idText n) (txt "metadata.json") x.finite (idText_seg n) (by
      unfold entryFile at hb; rw [hb]; rfl)
    unfold getTarget
    rw [art_eq rfl x.plain, hes, hh]
    split
    · next e => have := x.source; rw [e] at this; cases this
    · exact find_replaced rfl x.plain (hl.names _ _ _ hes) x.other x.done ⟨_, b, m, hin, hb, hm, hs⟩
  constructor
  · unfold scanCommand
    dsimp only
    split
    · exact ⟨_, rfl⟩
    · next T hT =>
      obtain ⟨e, he⟩ := key T
      unfold getOrReserve
      rw [he]
      exact ⟨_, rfl⟩
  · unfold exportCommand
    dsimp only
    split
    · exact ⟨_, rfl⟩
    · next T hT =>
      obtain ⟨e, he⟩ := key T
      rw [he]
      exact ⟨_, rfl⟩

omit [DecidableEq C] in
/-- **C102** fails for good: removing out/ (as a build from scratch does), editing pages and settings, or replacing the image again by
yet another one does not help, as long as the artifacts are kept. -/
theorem C102_false_forever {env : Env J C} {h : ℤ} {f g : Fs} {rel : Text} (x : Replaced env h f rel) (hfin : Finite g) (hart : ∀ p, InArt p → g p = f p)
    (hsrc : (g (source rel)).isSome) (hnew : ∀ name b m, Seg name → f (entryFile (root rel) name (txt "metadata.json")) = some b → env.loadMeta b = some m →
      m.settingsHash = h → m.contentsHash ≠ contentsOf env g rel) : Replaced env h g rel := by
  have e : ∀ name k, g (entryFile (root rel) name k) = f (entryFile (root rel) name k) := fun _ _ => hart _ (entry_art _ _ _)
  refine ⟨hfin, x.plain, hsrc, ?_, ?_, ?_⟩
  · obtain ⟨n, b, m, hb, hm⟩ := x.before
    exact ⟨n, b, m, (e _ _).trans hb, hm⟩
  · intro name b m hn hb
    rw [e] at hb
    exact hnew name b m hn hb
  · intro name hn hs
    rw [e] at hs ⊢
    exact x.done name hn hs

end Verif.Img.Files
