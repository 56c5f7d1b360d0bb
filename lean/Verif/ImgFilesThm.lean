import Verif.ImgFiles
import Verif.ImgExportThm
import Verif.HtmlFiles

/-!
# The files of images: where they are, and how a target is found
-/

namespace Verif.Img.Files

open Verif.Reader (Text txt)
open Verif.Paths (join isAbs Seg)
open Verif.Handlers (Bytes Fs Scan Built)
open Verif.Css.Data (root)

variable {J C : Type} [DecidableEq C]

/-! ## Specification -/

/-- The path of an image relative to src/public without its extension: not empty, and without a slash at its ends. -/
structure Plain (stem : Text) : Prop where
  empty : stem ≠ []
  first : stem.head? ≠ some 47
  last : stem.getLast? ≠ some 47

/-- A file in the folder of an entry, such as artifacts/img/test/1/metadata.json. -/
def entryFile (stem name file : Text) : Text := txt "artifacts/" ++ stem ++ 47 :: name ++ 47 :: file

/-- artifacts/img/test/counter.txt -/
def counterPath (stem : Text) : Text := txt "artifacts/" ++ stem ++ 47 :: txt "counter.txt"

/-- A file such as out/www/img/test/1/10x20.png. -/
def outFile (stem name file : Text) : Text := txt "out/www/" ++ stem ++ 47 :: name ++ 47 :: file

/-- out/locks/img/test/reserve_target.lock -/
def lockPath (stem : Text) : Text := txt "out/locks/" ++ stem ++ 47 :: txt "reserve_target.lock"

/-- There are finitely many files. -/
def Finite (fs : Fs) : Prop := ∃ l : List Text, ∀ p, (fs p).isSome → p ∈ l

/-- What is assumed of the parts outside of the model. -/
structure Lawful (env : Env J C) : Prop where
  int : ∀ n, env.int (idText n) = some n
  text : ∀ t, env.decode (env.encode t) = t
  target : ∀ t, env.loadTarget (env.dumpTarget t) = some t
  metadata : ∀ m, env.loadMeta (env.dumpMeta m) = some m
  /-- what is listed are names -/
  names : ∀ fs d es, env.dirs fs d = some es → ∀ e ∈ es, Seg e.1
  /-- every folder with a file in it is listed -/
  listed : ∀ fs d name file, Finite fs → Seg name → (fs (d ++ 47 :: name ++ 47 :: file)).isSome → ∃ es, env.dirs fs d = some es ∧ (name, true) ∈ es
  /-- names in the settings have no slashes, those of formats no dots; no format is called hash -/
  format : ∀ f ∈ env.formats, 46 ∉ f.name ∧ 47 ∉ f.name ∧ ∀ x ∈ f.exports, 47 ∉ x.1
  hash : ∀ f ∈ env.formats, f.name ≠ txt "hash"
  /-- `formats` is a dictionary -/
  formats : (env.formats.map (·.name)).Nodup
  /-- pictures are copied, or the project is given by an absolute path: else their links lead nowhere (C93) -/
  linked : env.symlinks = true → Paths.isAbs env.folder = true

/-- The entry is for this target: reserved, or finished with these settings. -/
def Match (env : Env J C) (h : ℤ) (fs : Fs) (stem : Text) (T : Target C) (name : Text) : Prop :=
  (fs (entryFile stem name (txt "metadata.json")) = none ∧
    ∃ b, fs (entryFile stem name (txt "placeholder.json")) = some b ∧ env.loadTarget b = some T) ∨
  ∃ b m, fs (entryFile stem name (txt "metadata.json")) = some b ∧ env.loadMeta b = some m ∧ m.settingsHash = h ∧ m.target = T

/-! ## Paths -/

theorem join_plain {a b : Text} (ha : a ≠ []) (hl : a.getLast? ≠ some 47) (hb : b.head? ≠ some 47) : join a b = a ++ 47 :: b := by
  unfold join isAbs
  rw [if_neg (by simpa using hb), if_neg (by tauto)]

theorem last_append {a b : Text} (hb : b ≠ []) (h : b.getLast? ≠ some 47) : (a ++ b).getLast? ≠ some 47 := by
  rw [List.getLast?_append_of_ne_nil _ hb]; exact h

theorem digits_ne (n : ℕ) : digits n ≠ [] := by
  unfold digits
  split
  · simp
  · next h => simpa [Nat.digits_eq_nil_iff_eq_zero] using h

theorem idText_slash (n : ℤ) : 47 ∉ idText n := by
  have h : 47 ∉ digits n.natAbs := fun h => by have := digits_ge 47 h; omega
  have e : txt "-" = [45] := by decide
  unfold idText
  split <;> simp [e, h]

theorem idText_ne (n : ℤ) : idText n ≠ [] := by
  unfold idText
  split <;> simp [digits_ne]

theorem idText_seg (n : ℤ) : Seg (idText n) := ⟨idText_ne n, idText_slash n⟩

theorem idText_inj {m n : ℤ} (h : idText m = idText n) : m = n := by
  have e : txt "-" = [45] := by decide
  have key : ∀ a b : ℕ, txt "-" ++ digits a ≠ digits b := by
    intro a b hh
    have : (45 : ℕ) ∈ digits b := by rw [← hh, e]; simp
    have := digits_ge 45 this
    omega
  unfold idText at h
  split at h <;> split at h
  · have := digits_inj (List.append_cancel_left h); omega
  · exact absurd h (key _ _)
  · exact absurd h.symm (key _ _)
  · have := digits_inj h; omega

theorem seg_first {x : Text} (h : Seg x) : x.head? ≠ some 47 := by
  intro hh
  cases x with
  | nil => cases hh
  | cons c cs =>
    simp only [List.head?_cons, Option.some.injEq] at hh
    exact h.2 (by simp [hh])

theorem seg_last {x : Text} (h : Seg x) : x.getLast? ≠ some 47 := fun hh => h.2 (List.mem_of_getLast? hh)

theorem candName_ne (w h : ℕ) (n f : Text) : candName w h n f ≠ [] := by simp [candName]

theorem digit_first (w : ℕ) (r : Text) : ∃ c, (digits w ++ r).head? = some c ∧ 48 ≤ c ∧ c < 58 := by
  cases hd : digits w with
  | nil => exact absurd hd (digits_ne w)
  | cons c cs => exact ⟨c, rfl, digits_ge (n := w) c (by simp [hd]), digits_lt (n := w) c (by simp [hd])⟩

theorem cand_first (w h : ℕ) (n f : Text) : (candName w h n f).head? ≠ some 47 := by
  obtain ⟨c, h1, h2, -⟩ := digit_first w (120 :: (digits h ++ 45 :: (n ++ 46 :: f)))
  unfold candName
  rw [h1]
  intro hh
  cases hh
  omega

theorem out_first (w h : ℕ) (f : Text) : (outName w h f).head? ≠ some 47 := by
  obtain ⟨c, h1, h2, -⟩ := digit_first w (120 :: (digits h ++ 46 :: f))
  unfold outName
  rw [h1]
  intro hh
  cases hh
  omega

theorem digits_slash (n : ℕ) : 47 ∉ digits n := fun h => by have := digits_ge 47 h; omega

theorem out_slash {w h : ℕ} {f : Text} (hf : 47 ∉ f) : 47 ∉ outName w h f := by
  simp [outName, digits_slash, hf]

theorem cand_slash {w h : ℕ} {n f : Text} (hn : 47 ∉ n) (hf : 47 ∉ f) : 47 ∉ candName w h n f := by
  simp [candName, digits_slash, hn, hf]

section
variable {rel stem : Text} (hr : root rel = stem) (hp : Plain stem)
include hr hp

theorem art_eq : art rel = txt "artifacts/" ++ stem := by
  have e : txt "artifacts/" = txt "artifacts" ++ [47] := by decide
  unfold art
  rw [hr, join_plain (by decide) (by decide) hp.first, e, List.append_assoc]
  rfl

theorem art_ok : art rel ≠ [] ∧ (art rel).getLast? ≠ some 47 := by
  rw [art_eq hr hp]
  exact ⟨by simp [hp.empty], last_append hp.empty hp.last⟩

theorem entry_eq {name : Text} (hn : Seg name) : join (art rel) name = txt "artifacts/" ++ stem ++ 47 :: name := by
  rw [join_plain (art_ok hr hp).1 (art_ok hr hp).2 (seg_first hn), art_eq hr hp]

theorem file_eq {name file : Text} (hn : Seg name) (hf : file.head? ≠ some 47) :
    join (join (art rel) name) file = entryFile stem name file := by
  have h1 : (47 :: name).getLast? ≠ some 47 := by
    cases name with
    | nil => exact absurd rfl hn.1
    | cons c cs => rw [List.getLast?_cons_cons]; exact seg_last hn
  rw [entry_eq hr hp hn, join_plain (by simp) (last_append (by simp) h1) hf]
  rfl

theorem meta_eq {name : Text} (hn : Seg name) : metaFile (join (art rel) name) = entryFile stem name (txt "metadata.json") :=
  file_eq hr hp hn (by decide)

theorem place_eq {name : Text} (hn : Seg name) : placeFile (join (art rel) name) = entryFile stem name (txt "placeholder.json") :=
  file_eq hr hp hn (by decide)

theorem counter_eq : counterFile rel = counterPath stem := by
  unfold counterFile
  rw [join_plain (art_ok hr hp).1 (art_ok hr hp).2 (by decide), art_eq hr hp]
  rfl

theorem lock_eq : lockFile rel = lockPath stem := by
  have e : txt "out/locks/" = join (txt "out") (txt "locks") ++ [47] := by decide
  unfold lockFile lockPath
  rw [hr, join_plain (a := join _ _) (b := stem) (by decide) (by decide) hp.first, join_plain (by simp) (last_append (by simp) ?_) (by decide), e]
  · simp
  · cases hs : stem with
    | nil => exact absurd hs hp.empty
    | cons c cs => rw [List.getLast?_cons_cons, ← hs]; exact hp.last

theorem out_eq {n : ℤ} {file : Text} (hf : file.head? ≠ some 47) : join (outDir rel n) file = outFile stem (idText n) file := by
  have e : txt "out/www/" = join (txt "out") (txt "www") ++ [47] := by decide
  have h1 : (47 :: stem).getLast? ≠ some 47 := by
    cases hs : stem with
    | nil => exact absurd hs hp.empty
    | cons c cs => rw [List.getLast?_cons_cons, ← hs]; exact hp.last
  have h2 : (47 :: idText n).getLast? ≠ some 47 := by
    cases hs : idText n with
    | nil => exact absurd hs (idText_ne n)
    | cons c cs => rw [List.getLast?_cons_cons, ← hs]; exact seg_last (idText_seg n)
  unfold outDir outFile
  rw [hr, join_plain (a := join (txt "out") (txt "www")) (b := stem) (by decide) (by decide) hp.first,
    join_plain (b := idText n) (by simp) (last_append (by simp) h1) (seg_first (idText_seg n)),
    join_plain (by simp) (last_append (by simp) h2) hf, e]
  simp

/-- `relpath` of an output, below artifacts and below out/www -/
theorem rel_eq {n : ℤ} {file : Text} (hf : file.head? ≠ some 47) :
    join (join (root rel) (idText n)) file = stem ++ 47 :: idText n ++ 47 :: file := by
  have h2 : (47 :: idText n).getLast? ≠ some 47 := by
    cases hs : idText n with
    | nil => exact absurd hs (idText_ne n)
    | cons c cs => rw [List.getLast?_cons_cons, ← hs]; exact seg_last (idText_seg n)
  rw [hr, join_plain (b := idText n) hp.empty hp.last (seg_first (idText_seg n)), join_plain (by simp) (last_append (by simp) h2) hf]

end

theorem again_eq {stem file : Text} {n : ℤ} (hp : Plain stem) :
    join (txt "artifacts") (stem ++ 47 :: idText n ++ 47 :: file) = entryFile stem (idText n) file ∧
    join (join (txt "out") (txt "www")) (stem ++ 47 :: idText n ++ 47 :: file) = outFile stem (idText n) file := by
  have e : txt "artifacts/" = txt "artifacts" ++ [47] := by decide
  have e' : txt "out/www/" = join (txt "out") (txt "www") ++ [47] := by decide
  have hh : (stem ++ 47 :: idText n ++ 47 :: file).head? ≠ some 47 := by
    cases hs : stem with
    | nil => exact absurd hs hp.empty
    | cons c cs =>
      have := hp.first
      rw [hs] at this
      simpa using this
  constructor
  · rw [join_plain (by decide) (by decide) hh, entryFile, e]; simp
  · rw [join_plain (by decide) (by decide) hh, outFile, e']; simp

/-! ### Different places -/

theorem entryFile_inj {s s' n n' f f' : Text} (hn : 47 ∉ n) (hn' : 47 ∉ n') (hf : 47 ∉ f) (hf' : 47 ∉ f')
    (h : entryFile s n f = entryFile s' n' f') : s = s' ∧ n = n' ∧ f = f' := by
  unfold entryFile at h
  obtain ⟨h1, h2⟩ := split_unique_last hf hf' h
  obtain ⟨h3, h4⟩ := split_unique_last hn hn' h1
  exact ⟨List.append_cancel_left h3, h4, h2⟩

theorem outFile_inj {s s' n n' f f' : Text} (hn : 47 ∉ n) (hn' : 47 ∉ n') (hf : 47 ∉ f) (hf' : 47 ∉ f')
    (h : outFile s n f = outFile s' n' f') : s = s' ∧ n = n' ∧ f = f' := by
  unfold outFile at h
  obtain ⟨h1, h2⟩ := split_unique_last hf hf' h
  obtain ⟨h3, h4⟩ := split_unique_last hn hn' h1
  exact ⟨List.append_cancel_left h3, h4, h2⟩

theorem counterPath_inj {s s' : Text} (h : counterPath s = counterPath s') : s = s' := by
  unfold counterPath at h
  exact List.append_cancel_left (List.append_cancel_right h)

theorem lockPath_inj {s s' : Text} (h : lockPath s = lockPath s') : s = s' := by
  unfold lockPath at h
  exact List.append_cancel_left (List.append_cancel_right h)

/-- The place begins with artifacts/. -/
def InArt (p : Text) : Prop := txt "artifacts/" <+: p

/-- The place begins with out/. -/
def InOut (p : Text) : Prop := txt "out/" <+: p

theorem entry_art (s n f : Text) : InArt (entryFile s n f) := by
  simp only [InArt, entryFile, List.append_assoc]; exact List.prefix_append _ _

theorem counter_art (s : Text) : InArt (counterPath s) := by
  simp only [InArt, counterPath, List.append_assoc]; exact List.prefix_append _ _

theorem out_out (s n f : Text) : InOut (outFile s n f) := by
  have e : txt "out/www/" = txt "out/" ++ txt "www/" := by decide
  simp only [InOut, outFile, e, List.append_assoc]; exact List.prefix_append _ _

theorem lock_out (s : Text) : InOut (lockPath s) := by
  have e : txt "out/locks/" = txt "out/" ++ txt "locks/" := by decide
  simp only [InOut, lockPath, e, List.append_assoc]; exact List.prefix_append _ _

theorem art_ne_out {p q : Text} (hp : InArt p) (hq : InOut q) : p ≠ q := by
  obtain ⟨a, rfl⟩ := hp
  obtain ⟨b, rfl⟩ := hq
  have e1 : txt "artifacts/" = 97 :: txt "rtifacts/" := by decide
  have e2 : txt "out/" = 111 :: txt "ut/" := by decide
  rw [e1, e2]
  simp

theorem lock_ne_outFile {s s' n f : Text} : lockPath s ≠ outFile s' n f := by
  have e1 : txt "out/www/" = 111 :: 117 :: 116 :: 47 :: 119 :: txt "ww/" := by decide
  have e2 : txt "out/locks/" = 111 :: 117 :: 116 :: 47 :: 108 :: txt "ocks/" := by decide
  rw [lockPath, outFile, e1, e2]
  simp

theorem entry_ne_counter {s s' n f : Text} (hf : 47 ∉ f) (h : f ≠ txt "counter.txt") : entryFile s n f ≠ counterPath s' := by
  intro he
  unfold entryFile counterPath at he
  exact h (split_unique_last hf (by decide) he).2

theorem out_ne {w h : ℕ} {f x : Text} (c : ℕ) (hx : x.head? = some c) (hc : 58 ≤ c) : outName w h f ≠ x := by
  obtain ⟨d, h1, _, h3⟩ := digit_first w (120 :: (digits h ++ 46 :: f))
  intro he
  have : (outName w h f).head? = some d := h1
  rw [he, hx] at this
  cases this
  omega

theorem cand_ne {w h : ℕ} {n f x : Text} (c : ℕ) (hx : x.head? = some c) (hc : 58 ≤ c) : candName w h n f ≠ x := by
  obtain ⟨d, h1, _, h3⟩ := digit_first w (120 :: (digits h ++ 45 :: (n ++ 46 :: f)))
  intro he
  have : (candName w h n f).head? = some d := h1
  rw [he, hx] at this
  cases this
  omega

/-! ## How a target is found -/

theorem touch_ne {fs : Fs} {p q : Text} (h : q ≠ p) : touch fs p q = fs q := by
  unfold touch
  split
  · rfl
  · simp [Fs.write, h]

theorem touch_some (fs : Fs) (p : Text) : (touch fs p p).isSome := by
  unfold touch
  split
  · assumption
  · simp [Fs.write]

theorem touch_touch (fs : Fs) (p : Text) : touch (touch fs p) p = touch fs p := by
  rw [touch, if_pos (touch_some fs p)]

theorem Finite.more {fs fs' : Fs} (h : Finite fs) {l : List Text} (hl : ∀ p, p ∉ l → (fs' p).isSome → (fs p).isSome) : Finite fs' := by
  obtain ⟨k, hk⟩ := h
  refine ⟨l ++ k, fun p hp => ?_⟩
  by_cases hpl : p ∈ l
  · simp [hpl]
  · simp [hk p (hl p hpl hp)]

theorem Finite.write {fs : Fs} (h : Finite fs) (p : Text) (b : Bytes) : Finite (fs.write p b) :=
  h.more (l := [p]) fun q hq hs => by simpa [Fs.write, List.mem_singleton.not.1 hq] using hs

theorem Finite.remove {fs : Fs} (h : Finite fs) (p : Text) : Finite (remove fs p) :=
  h.more (l := []) fun q _ hs => by
    unfold Files.remove at hs
    split at hs
    · cases hs
    · exact hs

theorem Finite.touch {fs : Fs} (h : Finite fs) (p : Text) : Finite (touch fs p) := by
  unfold Files.touch
  split
  · exact h
  · exact h.write _ _

omit [DecidableEq C] in
theorem Match.congr {env : Env J C} {h : ℤ} {fs fs' : Fs} {stem : Text} {T : Target C} {name : Text}
    (h1 : fs' (entryFile stem name (txt "metadata.json")) = fs (entryFile stem name (txt "metadata.json")))
    (h2 : fs' (entryFile stem name (txt "placeholder.json")) = fs (entryFile stem name (txt "placeholder.json"))) :
    Match env h fs' stem T name ↔ Match env h fs stem T name := by
  unfold Match
  rw [h1, h2]

theorem touch_entry {fs : Fs} {stem stem' name file : Text} : touch fs (lockPath stem') (entryFile stem name file) = fs (entryFile stem name file) :=
  touch_ne (art_ne_out (entry_art _ _ _) (lock_out _))

theorem Match.touch {env : Env J C} {h : ℤ} {fs : Fs} {stem stem' : Text} {T : Target C} {name : Text} :
    Match env h (touch fs (lockPath stem')) stem T name ↔ Match env h fs stem T name := Match.congr touch_entry touch_entry

/-- What has been found. -/
structure Found (env : Env J C) (h : ℤ) (contents : Text) (fs : Fs) (stem : Text) (T : Target C) (name : Text) (fs' : Fs) : Prop where
  seg : Seg name
  isFor : Match env h fs stem T name
  contents : ∀ b m, fs (entryFile stem name (txt "metadata.json")) = some b → env.loadMeta b = some m → m.contentsHash = contents
  locked : fs (entryFile stem name (txt "metadata.json")) = none → (fs' (lockPath stem)).isSome

theorem find_spec {env : Env J C} {rel stem : Text} (hr : root rel = stem) (hp : Plain stem) {h : ℤ} {contents : Text} {T : Target C}
    {es : List (Text × Bool)} (hs : ∀ e ∈ es, Seg e.1) : ∀ {fs fs' : Fs} {r : Option ℤ}, find env rel h contents T es fs = .ok (r, fs') →
    (fs' = fs ∨ fs' = touch fs (lockPath stem)) ∧
    (∀ n, r = some n → ∃ name, (name, true) ∈ es ∧ env.int name = some n ∧ Found env h contents fs stem T name fs') ∧
    (r = none → ∀ name, (name, true) ∈ es → ¬ Match env h fs stem T name) := by
  induction es with
  | nil =>
    intro fs fs' r hf
    cases hf
    exact ⟨.inl rfl, by simp, by simp⟩
  | cons e es ih =>
    obtain ⟨name, isDir⟩ := e
    intro fs fs' r hf
    have hseg : Seg name := hs (name, isDir) (by simp)
    -- going on without a change
    have skip : ¬ (isDir = true ∧ Match env h fs stem T name) → find env rel h contents T es fs = .ok (r, fs') →
        (fs' = fs ∨ fs' = touch fs (lockPath stem)) ∧
        (∀ n, r = some n → ∃ x, (x, true) ∈ (name, isDir) :: es ∧ env.int x = some n ∧ Found env h contents fs stem T x fs') ∧
        (r = none → ∀ x, (x, true) ∈ (name, isDir) :: es → ¬ Match env h fs stem T x) := by
      intro hn hf
      obtain ⟨h1, h2, h3⟩ := ih (fun x hx => hs x (List.mem_cons_of_mem _ hx)) hf
      refine ⟨h1, fun n hn => ?_, fun hn' x hx => ?_⟩
      · obtain ⟨x, hx, hh⟩ := h2 n hn
        exact ⟨x, List.mem_cons_of_mem _ hx, hh⟩
      · rcases List.mem_cons.1 hx with hx | hx
        · cases hx
          exact fun hm => hn ⟨rfl, hm⟩
        · exact h3 hn' x hx
    -- going on with the lock
    have skip' : ¬ Match env h fs stem T name → find env rel h contents T es (touch fs (lockPath stem)) = .ok (r, fs') →
        (fs' = fs ∨ fs' = touch fs (lockPath stem)) ∧
        (∀ n, r = some n → ∃ x, (x, true) ∈ (name, isDir) :: es ∧ env.int x = some n ∧ Found env h contents fs stem T x fs') ∧
        (r = none → ∀ x, (x, true) ∈ (name, isDir) :: es → ¬ Match env h fs stem T x) := by
      intro hn hf
      obtain ⟨h1, h2, h3⟩ := ih (fun x hx => hs x (List.mem_cons_of_mem _ hx)) hf
      rw [touch_touch] at h1
      refine ⟨.inr (by tauto), fun n hn => ?_, fun hn' x hx => ?_⟩
      · obtain ⟨x, hx, hi, ⟨k1, k2, k3, k4⟩⟩ := h2 n hn
        rw [touch_entry] at k4
        refine ⟨x, List.mem_cons_of_mem _ hx, hi, k1, Match.touch.1 k2, ?_, k4⟩
        intro b m hb hm
        exact k3 b m (by rw [touch_entry]; exact hb) hm
      · rcases List.mem_cons.1 hx with hx | hx
        · cases hx
          exact hn
        · exact fun hm => h3 hn' x hx (Match.touch.2 hm)
    unfold find at hf
    simp only [meta_eq hr hp hseg, place_eq hr hp hseg, lock_eq hr hp] at hf
    split at hf
    · next hd => exact skip (by simp [hd]) hf
    · next hd =>
      have hd' : isDir = true := by simpa using hd
      split at hf
      · next hmeta =>
        rw [touch_entry] at hf
        split at hf
        · next hplace =>
          refine skip' ?_ hf
          rintro (⟨-, b, hb, -⟩ | ⟨b, m, hb, -⟩)
          · rw [hplace] at hb; cases hb
          · rw [hmeta] at hb; cases hb
        · next b hplace =>
          split at hf
          · cases hf
          · next p hload =>
            split at hf
            · next hpt =>
              subst hpt
              split at hf
              · cases hf
              · next n hn =>
                cases hf
                refine ⟨.inr rfl, fun k hk => ?_, fun h => by cases h⟩
                cases hk
                refine ⟨name, by simp [hd'], hn, hseg, .inl ⟨hmeta, b, hplace, hload⟩, ?_, fun _ => touch_some _ _⟩
                intro b' m hb
                rw [hmeta] at hb; cases hb
            · next hpt =>
              refine skip' ?_ hf
              rintro (⟨-, b', hb, hl⟩ | ⟨b', m, hb, -⟩)
              · rw [hplace] at hb; cases hb
                rw [hload] at hl; cases hl
                exact hpt rfl
              · rw [hmeta] at hb; cases hb
      · next b hmeta =>
        split at hf
        · cases hf
        · next m hload =>
          have other : ¬ (m.settingsHash = h ∧ m.target = T) → ¬ Match env h fs stem T name := by
            rintro hn (⟨hb, -⟩ | ⟨b', m', hb, hl, h1, h2⟩)
            · rw [hmeta] at hb; cases hb
            · rw [hmeta] at hb; cases hb
              rw [hload] at hl; cases hl
              exact hn ⟨h1, h2⟩
          split at hf
          · next h1 => exact skip (fun hh => other (by tauto) hh.2) hf
          · next h1 =>
            split at hf
            · cases hf
            · next h2 =>
              split at hf
              · next h3 => exact skip (fun hh => other (by tauto) hh.2) hf
              · next h3 =>
                split at hf
                · cases hf
                · next n hn =>
                  cases hf
                  refine ⟨.inl rfl, fun k hk => ?_, fun h => by cases h⟩
                  cases hk
                  refine ⟨name, by simp [hd'], hn, hseg, .inr ⟨b, m, hmeta, hload, by tauto, by tauto⟩, ?_, fun hb => by rw [hmeta] at hb; cases hb⟩
                  intro b' m' hb hl
                  rw [hmeta] at hb; cases hb
                  rw [hload] at hl; cases hl
                  tauto

theorem getTarget_spec {env : Env J C} (hl : Lawful env) {rel stem : Text} (hr : root rel = stem) (hp : Plain stem) {T : Target C} {fs fs' : Fs}
    {r : Option ℤ} (hg : getTarget env rel T fs = .ok (r, fs')) :
    (fs' = fs ∨ fs' = touch fs (lockPath stem)) ∧
    (∀ n, r = some n → (fs (source rel)).isSome ∧
      ∃ h name, env.settingsHash = .ok h ∧ env.int name = some n ∧ Found env h (contentsOf env fs rel) fs stem T name fs') ∧
    (r = none → (fs (source rel)).isSome → Finite fs → ∀ h, env.settingsHash = .ok h → ∀ name, Seg name → ¬ Match env h fs stem T name) := by
  unfold getTarget at hg
  rw [art_eq hr hp] at hg
  split at hg
  · next hsrc =>
    cases hg
    exact ⟨.inl rfl, by simp, fun _ h => by simp [hsrc] at h⟩
  · next b hsrc =>
    have listed : Finite fs → ∀ h name, Seg name → Match env h fs stem T name →
        ∃ es, env.dirs fs (txt "artifacts/" ++ stem) = some es ∧ (name, true) ∈ es := by
      rintro fin h name hn (⟨-, b, hb, -⟩ | ⟨b, m, hb, -⟩)
      · exact hl.listed fs _ name _ fin hn (by unfold entryFile at hb; rw [hb]; rfl)
      · exact hl.listed fs _ name _ fin hn (by unfold entryFile at hb; rw [hb]; rfl)
    split at hg
    · next hd =>
      cases hg
      refine ⟨.inl rfl, by simp, fun _ _ fin h _ name hn hm => ?_⟩
      obtain ⟨es, he, -⟩ := listed fin h name hn hm
      rw [hd] at he; cases he
    · next es hd =>
      split at hg
      · cases hg
      · next h hh =>
        obtain ⟨h1, h2, h3⟩ := find_spec hr hp (hl.names _ _ _ hd) hg
        refine ⟨h1, fun n hn => ?_, fun hn _ fin h' he name hseg hm => ?_⟩
        · obtain ⟨name, _, hi, hf⟩ := h2 n hn
          exact ⟨by rw [hsrc]; rfl, h, name, hh, hi, hf⟩
        · rw [hh] at he
          cases he
          obtain ⟨es', he, hin⟩ := listed fin h name hseg hm
          rw [hd] at he; cases he
          exact h3 hn name hin hm

end Verif.Img.Files
