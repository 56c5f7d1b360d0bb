import Verif.ImgFilesMain

/-!
# C72 and C73: exports report the files they change, and do nothing when they are repeated
-/

namespace Verif.Img.Files

open Verif.Reader (Text txt)
open Verif.Paths (join isAbs Seg)
open Verif.Handlers (Bytes Fs Scan Built)
open Verif.Css.Data (root)

variable {J C : Type} [DecidableEq C]

/-! ## Specification -/

/-- For every image with files in out/www there is the file with which its numbers are locked. -/
def AllLocked (fs : Fs) : Prop := ∀ stem, Plain stem → Locked fs stem

/-- A project before its first build: no artifacts, nothing in out/www is in the way, and hashes of images are right; images with
the same hash have the same size. -/
structure Start (env : Env J C) (fs : Fs) : Prop where
  finite : Finite fs
  art : ∀ p, InArt p → fs p = none
  out : ∀ s n w h f, 47 ∉ f → fs (outFile s (idText n) (outName w h f)) = none
  hashes : ∀ rel b b', fs (hashFile rel) = some b → fs (source rel) = some b' → env.dims b' ≠ none → env.decode b = env.digest b'
  collisions : ∀ b b', env.digest b = env.digest b' → env.dims b = env.dims b'

omit [DecidableEq C] in
theorem Start.good {env : Env J C} {fs : Fs} (hs : Start env fs) (h : ℤ) : Good env h fs := by
  have e : ∀ s n f, fs (entryFile s n f) = none := fun s n f => hs.art _ (entry_art _ _ _)
  have hm : ∀ s T n, ¬ Match env h fs s T n := by
    rintro s T n (⟨-, b, hb, -⟩ | ⟨b, m, hb, -⟩)
    · rw [e] at hb; cases hb
    · rw [e] at hb; cases hb
  refine ⟨hs.finite, ?_, fun s T n n' _ _ _ h1 _ => absurd h1 (hm _ _ _), ?_, ?_⟩
  · intro s n _ _ hh
    rw [e, e] at hh
    simp at hh
  · intro s n b m _ hb
    rw [e] at hb; cases hb
  · have : ∀ rel b d, fs (source rel) = some b → env.dims b = some d → contentsOf env fs rel = env.digest b := by
      intro rel b d hb hd
      unfold contentsOf
      split
      · next x hx =>
        exact hs.hashes rel x b hx hb (by rw [hd]; simp)
      · rw [hb]; rfl
    intro rel rel' b b' _ _ hc hb hb' d d' hd hd'
    rw [this rel b d hb hd, this rel' b' d' hb' hd'] at hc
    have := hs.collisions b b' hc
    rw [hd, hd'] at this
    cases this
    rfl

omit [DecidableEq C] in
theorem Start.locked {env : Env J C} {fs : Fs} (hs : Start env fs) : AllLocked fs := fun _ _ => .inr fun _ _ _ _ hf => hs.out _ _ _ _ _ hf

/-! ## Locks -/

omit [DecidableEq C] in
/-- A scan does not make files in out/www. -/
theorem Scanned.allLocked {env : Env J C} {h : ℤ} {file : Text} {c : Command J} {fs fs' : Fs} {s : Scan} {T : Target C} {n : ℤ} {b : Bytes} {d : ℤ × ℤ}
    (x : Scanned env h file c fs fs' s T n b d) (ha : AllLocked fs) : AllLocked fs' := by
  have k1 : ∀ s, (fs (lockPath s)).isSome → (fs' (lockPath s)).isSome := by
    intro s hs
    by_cases he : s = root (relOf env file c)
    · subst he
      rcases x.files with e | e | e
      · rw [e]; exact hs
      · rw [e]; exact touch_some _ _
      · rw [e, reservedFs]
        have n1 := (art_ne_out (entry_art (root (relOf env file c)) (idText n) (txt "placeholder.json")) (lock_out (root (relOf env file c)))).symm
        have n2 := (art_ne_out (counter_art (root (relOf env file c))) (lock_out (root (relOf env file c)))).symm
        simp only [Fs.write, if_neg n1, if_neg n2]
        exact touch_some _ _
    · have hne : lockPath s ≠ lockPath (root (relOf env file c)) := fun h => he (lockPath_inj h)
      rcases x.files with e | e | e
      · rw [e]; exact hs
      · rw [e, touch_ne hne]; exact hs
      · rw [e, reservedFs_ne hne (art_ne_out (counter_art _) (lock_out _)).symm (art_ne_out (entry_art _ _ _) (lock_out _)).symm]; exact hs
  have k2 : ∀ s k w h f, fs' (outFile s k (outName w h f)) = fs (outFile s k (outName w h f)) := by
    intro s k w h f
    rcases x.files with e | e | e
    · rw [e]
    · rw [e, touch_ne lock_ne_outFile.symm]
    · rw [e, reservedFs_ne lock_ne_outFile.symm (art_ne_out (counter_art _) (out_out _ _ _)).symm (art_ne_out (entry_art _ _ _) (out_out _ _ _)).symm]
  intro s hs
  rcases ha s hs with h | h
  · exact .inl (k1 s h)
  · exact .inr fun k w h' f hf => by rw [k2]; exact h k w h' f hf

omit [DecidableEq C] in
theorem Exported.allLocked {env : Env J C} (hl : Lawful env) {h : ℤ} {rel stem path : Text} (hp : Plain stem) {fs fs' : Fs} {m : Metadata C} {r : Built}
    {T : Target C} {n : ℤ} {d : ℤ × ℤ} (x : Exported env h rel stem path fs fs' m r T n d) (ha : AllLocked fs) : AllLocked fs' := by
  intro s hs
  by_cases hc : s = stem
  · subst hc
    exact .inl (x.locked (ha s hs))
  · rcases ha s hs with h' | h'
    · exact .inl (x.kept _ (not_cand_of_out (lock_out _)) h')
    · refine .inr fun k w h f hf => ?_
      by_contra hne
      have hne' : fs' (outFile s (idText k) (outName w h f)) ≠ fs (outFile s (idText k) (outName w h f)) := by
        rw [h' k w h f hf]; exact hne
      have := x.reported _ (.inl (x.changed (ha stem hp) _ hne' out_not_cand))
      rcases this with e | e | e | e | ⟨t, ht, e | e⟩
      · exact art_ne_out (entry_art _ _ _) (out_out _ _ _) e.symm
      · exact art_ne_out (counter_art _) (out_out _ _ _) e.symm
      · exact art_ne_out (entry_art _ _ _) (out_out _ _ _) e.symm
      · exact lock_ne_outFile e.symm
      · exact art_ne_out (entry_art _ _ _) (out_out _ _ _) e.symm
      · exact hc (outFile_inj (idText_slash k) (idText_slash n) (out_slash hf) (out_slash (tasks_noSlash hl _ t ht).2.1) e).1

/-! ## C72 -/

/-- **C72**: a scan of an image changes only files it announces. -/
theorem C72_scan {env : Env J C} (hl : Lawful env) {h : ℤ} (hh : env.settingsHash = .ok h) {file : Text} {c : Command J} (hp : Proper env file c)
    {f f' : Fs} {s : Scan} (hs : scanCommand env file f c = .ok (s, f')) :
    (∀ p, f' p ≠ f p → p ∈ s.produces ∧ (f' p).isSome) ∧ (AllLocked f → AllLocked f') := by
  obtain ⟨T, n, b, d, x⟩ := scan_spec hl hh hp hs
  refine ⟨fun p hne => ?_, x.allLocked⟩
  rw [x.produces]
  rcases x.files with rfl | rfl | rfl
  · exact absurd rfl hne
  · have : p = lockPath (root (relOf env file c)) := by
      by_contra hc
      exact hne (touch_ne hc)
    exact ⟨.inr (.inr (.inr (.inl this))), by rw [this]; exact touch_some _ _⟩
  · by_cases h1 : p = entryFile (root (relOf env file c)) (idText n) (txt "placeholder.json")
    · exact ⟨.inr (.inr (.inl h1)), by rw [h1, reservedFs_place]; rfl⟩
    by_cases h2 : p = counterPath (root (relOf env file c))
    · exact ⟨.inr (.inl h2), by rw [h2, reservedFs_counter]; rfl⟩
    by_cases h3 : p = lockPath (root (relOf env file c))
    · refine ⟨.inr (.inr (.inr (.inl h3))), ?_⟩
      simp only [reservedFs, Fs.write, if_neg h1, if_neg h2]
      rw [h3]
      exact touch_some _ _
    · exact absurd (reservedFs_ne h3 h2 h1) hne

/-- **C72**: an export reports every file it changes as produced, but for the images it makes for comparison; no file is lost but
for those; and every file it reports is there afterwards. -/
theorem C72 {env : Env J C} (hl : Lawful env) {h : ℤ} (hh : env.settingsHash = .ok h) {file : Text} {c : Command J} (hp : Proper env file c)
    {f f' : Fs} (hg : Good env h f) (hi : Pictured env f (relOf env file c)) (ha : AllLocked f) {m : Metadata C} {r : Built} (he : exportCommand env file f c = .ok (m, r, f')) :
    (∀ p, f' p ≠ f p → p ∈ r.produced ∨ Cand p) ∧ (∀ p, (f p).isSome → (f' p).isSome ∨ Cand p) ∧
    (∀ p, p ∈ r.produced ∨ p ∈ r.reused → (f' p).isSome) ∧ Good env h f' ∧ AllLocked f' := by
  obtain ⟨T, n, d, -, x⟩ := export_spec hl hh hp hg hi he
  refine ⟨fun p hne => ?_, fun p hs => ?_, x.exist (ha _ hp), x.good hl hp hg, x.allLocked hl hp ha⟩
  · by_cases hc : Cand p
    · exact .inr hc
    · exact .inl (x.changed (ha _ hp) p hne hc)
  · by_cases hc : Cand p
    · exact .inr hc
    · exact .inl (x.kept p hc hs)

/-! ## C73 -/

theorem reuse_nothing {sym : Bool} : ∀ {ps : List Pic} {s s' : Reuse}, (∀ p ∈ ps, (s.fs (picOut p)).isSome) → reuseAll sym ps s = .ok s' →
    s'.fs = s.fs ∧ s'.produced = s.produced ∧ (s'.first = true → ps = []) := by
  intro ps
  induction ps with
  | nil => intro s s' _ h; cases h; exact ⟨rfl, rfl, fun _ => rfl⟩
  | cons p ps ih =>
    intro s s' hps h
    unfold reuseAll at h
    split at h
    · cases h
    · next s1 h1 =>
      have hp := hps p (by simp)
      rcases reuseOne_cases h1 with ⟨-, rfl⟩ | ⟨hn, -⟩ | ⟨hn, -⟩
      · obtain ⟨k1, k2, k3⟩ := ih (s := ⟨s.fs, false, s.produced, s.reused ++ [picArt p, picOut p]⟩) (fun q hq => hps q (List.mem_cons_of_mem _ hq)) h
        refine ⟨k1, k2, fun hf => ?_⟩
        have := k3 hf
        subst this
        cases h
        cases hf
      · rw [hn] at hp; cases hp
      · rw [hn] at hp; cases hp

/-- **C73**: exporting the same again changes no file, produces nothing, and has the same metadata - if there was anything to
export at all. -/
theorem C73 {env : Env J C} (hl : Lawful env) {h : ℤ} (hh : env.settingsHash = .ok h) {file : Text} {c : Command J} (hp : Proper env file c)
    {f f' g : Fs} (hg : Good env h f) (hi : Pictured env f (relOf env file c)) (ha : AllLocked f) {m m' : Metadata C} {r r' : Built} (he : exportCommand env file f c = .ok (m, r, f'))
    (he' : exportCommand env file f' c = .ok (m', r', g)) :
    m' = m ∧ r'.children = r.children ∧ (flat m.outputs ≠ [] → g = f' ∧ r'.produced = []) := by
  obtain ⟨T, n, d, hT, x⟩ := export_spec hl hh hp hg hi he
  have hg' := x.good hl hp hg
  have hi' : Pictured env f' (relOf env file c) := by
    obtain ⟨b, d, e1, e2⟩ := hi
    exact ⟨b, d, ((sources_kept (env := env) x.image _ hp).1).trans e1, e2⟩
  obtain ⟨T', n', d', hT', y⟩ := export_spec hl hh hp hg' hi' he'
  rw [hT] at hT'
  cases hT'
  have hn := idText_inj (hg'.unique _ T _ _ hp (idText_seg n) (idText_seg n') x.after y.before)
  subst hn
  obtain ⟨b, hb, hload⟩ := x.finished
  unfold exportCommand at he'
  simp only [hT] at he'
  split at he'
  · cases he'
  · cases he'
  · next k fs1 h1 =>
    obtain ⟨k1, k2, -⟩ := getTarget_spec hl rfl hp h1
    obtain ⟨-, h', name, e, hi, hf⟩ := k2 k rfl
    rw [hh] at e
    cases e
    have hname := hg'.name hl hp hf.seg hf.isFor hi
    subst hname
    have := idText_inj (hg'.unique _ T _ _ hp (idText_seg n) (idText_seg k) x.after hf.isFor)
    subst this
    have hfs : fs1 = f' := by
      rcases k1 with rfl | rfl
      · rfl
      · rw [touch, if_pos (x.locked (ha _ hp))]
    subst hfs
    have em : metaFile (artDir (relOf env file c) n) = entryFile (root (relOf env file c)) (idText n) (txt "metadata.json") := meta_eq rfl hp (idText_seg n)
    rw [em, hb] at he'
    unfold exportAgain at he'
    simp only [hload] at he'
    split at he'
    · cases he'
    · next s hs =>
      obtain ⟨q1, q2, q3⟩ := reuse_nothing (fun p hpf => by
        obtain ⟨g', hg''⟩ := mem_flat.1 hpf
        exact (x.outs g' p hg'').2) hs
      split at he'
      · next hfirst =>
        cases he'
        exact ⟨rfl, by rw [x.children], fun hne => absurd (q3 hfirst) hne⟩
      · cases he'
        exact ⟨rfl, by rw [x.children], fun _ => ⟨q1, q2⟩⟩

/-! ## Histories from the beginning -/

/-- **C71**, from the beginning: any scans and exports, then a scan, anything again, then the export. -/
theorem C71_history {env : Env J C} (hl : Lawful env) {h : ℤ} (hh : env.settingsHash = .ok h) {file : Text} {c : Command J} (hp : Proper env file c)
    {f0 f f' g g' : Fs} (h0 : Start env f0) (h1 : Steps env f0 f) {s : Scan} (hs : scanCommand env file f c = .ok (s, f')) (ht : Steps env f' g)
    {m : Metadata C} {r : Built} (he : exportCommand env file g c = .ok (m, r, g')) :
    r.children = s.dependencies ∧ ∀ p, p ∈ r.produced ∨ p ∈ r.reused → p ∈ s.produces :=
  C71 hl hh hp (h1.keeps hl hh (h0.good h)).1 hs ht he

/-- **C71**: what has been scanned is found by the export, whatever has happened in between: the number of the target is the one
which the scan announced, and the export does not fail for want of one. -/
theorem C71_found {env : Env J C} (hl : Lawful env) {h : ℤ} (hh : env.settingsHash = .ok h) {file : Text} {c : Command J} (hp : Proper env file c)
    {f f' g : Fs} (hg : Good env h f) {s : Scan} (hs : scanCommand env file f c = .ok (s, f')) (ht : Steps env f' g) :
    ∃ T n, targetOf env c = .ok T ∧ entryFile (root (relOf env file c)) (idText n) (txt "metadata.json") ∈ s.produces ∧
      ∀ r g', getTarget env (relOf env file c) T g = .ok (r, g') → r = some n := by
  obtain ⟨T, n, b, d, x⟩ := scan_spec hl hh hp hs
  obtain ⟨g1, g2⟩ := x.good hg
  obtain ⟨k1, k2, k3⟩ := ht.keeps hl hh g1
  refine ⟨T, n, x.target, (x.produces _).2 (.inl rfl), fun r g' hr => ?_⟩
  obtain ⟨-, q2, q3⟩ := getTarget_spec hl rfl hp hr
  have hm := k2 _ _ _ (idText_seg n) g2
  cases r with
  | none =>
    have hx : f' (source (relOf env file c)) = f (source (relOf env file c)) :=
      (Step.keeps hl hh (.scan hp hs) hg).2.2 _ hp ⟨b, d, x.source, x.dims⟩
    exact absurd hm (q3 rfl (by rw [k3 _ hp ⟨b, d, hx.trans x.source, x.dims⟩, hx, x.source]; rfl) k1.finite h hh _ (idText_seg n))
  | some k =>
    obtain ⟨-, h', name, e, hi, hf⟩ := q2 k rfl
    rw [hh] at e
    cases e
    have hname := k1.name hl hp hf.seg hf.isFor hi
    subst hname
    have := idText_inj (k1.unique _ T _ _ hp (idText_seg n) (idText_seg k) hm hf.isFor)
    rw [this]

end Verif.Img.Files
