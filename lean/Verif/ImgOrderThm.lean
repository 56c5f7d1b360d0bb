import Verif.ImgOrder

/-!
# C95: the artifacts are those of the order in which targets were asked for
-/

namespace Verif.Img.Files

open Verif.Reader (Text txt)
open Verif.Paths (join isAbs Seg)
open Verif.Handlers (Bytes Fs Scan Built)
open Verif.Css.Data (root)

variable {J C : Type} [DecidableEq C]

/-! ## What was asked for -/

theorem asked_snoc (env : Env J C) (stem : Text) (u : List (Ev J)) (e : Ev J) : asked env stem (u ++ [e]) = askedFor env stem (asked env stem u) e := by
  simp [asked]

theorem asked_export (env : Env J C) (stem : Text) (u : List (Ev J)) (file : Text) (c : Command J) : asked env stem (u ++ [.export_ file c]) = asked env stem u := by
  rw [asked_snoc]; rfl

omit [DecidableEq C] in
theorem exports_scan {env : Env J C} {u : List (Ev J)} {file : Text} {c : Command J} {stem : Text} {T : Target C} :
    Exports env (u ++ [.scan file c]) stem T ↔ Exports env u stem T := by
  simp [Exports]

omit [DecidableEq C] in
theorem exports_export {env : Env J C} {u : List (Ev J)} {file : Text} {c : Command J} {T' : Target C} (hT : targetOf env c = .ok T') {stem : Text} {T : Target C} :
    Exports env (u ++ [.export_ file c]) stem T ↔ Exports env u stem T ∨ (root (relOf env file c) = stem ∧ T' = T) := by
  unfold Exports
  constructor
  · rintro ⟨file', c', hm, h1, h2⟩
    rcases List.mem_append.1 hm with hm | hm
    · exact .inl ⟨file', c', hm, h1, h2⟩
    · simp only [List.mem_singleton, Ev.export_.injEq] at hm
      obtain ⟨rfl, rfl⟩ := hm
      rw [hT] at h2
      cases h2
      exact .inr ⟨h1, rfl⟩
  · rintro (⟨file', c', hm, h1, h2⟩ | ⟨h1, rfl⟩)
    · exact ⟨file', c', List.mem_append_left _ hm, h1, h2⟩
    · exact ⟨file, c, by simp, h1, hT⟩

/-! ## The artifacts during a build -/

/-- The number of the target which was asked for after `i` others. -/
def num (i : ℕ) : Text := idText (i + 1 : ℕ)

theorem num_inj {i j : ℕ} (h : num i = num j) : i = j := by
  have := idText_inj h
  omega

theorem num_seg (i : ℕ) : Seg (num i) := idText_seg _

/-- The export whose files are those in artifacts. -/
structure Export1 (env : Env J C) (f0 : Fs) (u : List (Ev J)) (stem : Text) (i : ℕ) (T : Target C) (f : Fs) (file : Text) (c : Command J) (g g' : Fs)
    (m : Metadata C) (r : Built) : Prop where
  mem : .export_ file c ∈ u
  of : root (relOf env file c) = stem
  target : targetOf env c = .ok T
  source : g (source (relOf env file c)) = f0 (source (relOf env file c))
  contents : contentsOf env g (relOf env file c) = contentsOf env f0 (relOf env file c)
  place : g (entryFile stem (num i) (txt "placeholder.json")) = some (env.dumpTarget T)
  bare : ∀ name, 47 ∉ name → name ≠ txt "counter.txt" → name ≠ txt "placeholder.json" → g (entryFile stem (num i) name) = none
  run : exportNew env (sourcePath env.cwd env.folder file c) (relOf env file c) ((i + 1 : ℕ) : ℤ) T g = .ok (m, r, g')
  files : ∀ name, 47 ∉ name → name ≠ txt "counter.txt" → f (entryFile stem (num i) name) = g' (entryFile stem (num i) name)

/-- The artifacts after a build. -/
structure Stands (env : Env J C) (f0 : Fs) (u : List (Ev J)) (f : Fs) : Prop where
  nodup : ∀ stem, (asked env stem u).Nodup
  counter : ∀ stem, Plain stem → f (counterPath stem) = if asked env stem u = [] then none else some (env.encode (idText (asked env stem u).length))
  place : ∀ stem i T, Plain stem → (asked env stem u)[i]? = some T → f (entryFile stem (num i) (txt "placeholder.json")) = some (env.dumpTarget T)
  waiting : ∀ stem i T, Plain stem → (asked env stem u)[i]? = some T → ¬ Exports env u stem T →
    ∀ name, 47 ∉ name → name ≠ txt "counter.txt" → name ≠ txt "placeholder.json" → f (entryFile stem (num i) name) = none
  drawn : ∀ stem i T, Plain stem → (asked env stem u)[i]? = some T → Exports env u stem T → ∃ file c g g' m r, Export1 env f0 u stem i T f file c g g' m r
  rest : ∀ stem name file, Plain stem → Seg name → 47 ∉ file → file ≠ txt "counter.txt" → (∀ i < (asked env stem u).length, name ≠ num i) →
    f (entryFile stem name file) = none
  only : ∀ p, InArt p → f p ≠ none → ∃ stem, Plain stem ∧ (p = counterPath stem ∨ ∃ name file, Seg name ∧ 47 ∉ file ∧ file ≠ txt "counter.txt" ∧ p = entryFile stem name file)
  sources : ∀ rel, Plain (root rel) → Pictured env f0 rel ∨ Pictured env f rel → f (source rel) = f0 (source rel) ∧ contentsOf env f rel = contentsOf env f0 rel
  /-- what has been exported had been asked for -/
  exported : ∀ stem T, Exports env u stem T → T ∈ asked env stem u

/-- Artifacts stay as they are. -/
theorem Stands.same {env : Env J C} {f0 f f' : Fs} {u : List (Ev J)} (s : Stands env f0 u f) (h1 : ∀ p, InArt p → f' p = f p)
    (h2 : ∀ rel, Plain (root rel) → Pictured env f rel ∨ Pictured env f' rel → f' (source rel) = f (source rel) ∧ contentsOf env f' rel = contentsOf env f rel) :
    Stands env f0 u f' where
  nodup := s.nodup
  counter := fun stem hp => by rw [h1 _ (counter_art _)]; exact s.counter stem hp
  place := fun stem i T hp h => by rw [h1 _ (entry_art _ _ _)]; exact s.place stem i T hp h
  waiting := fun stem i T hp h he name a b c => by rw [h1 _ (entry_art _ _ _)]; exact s.waiting stem i T hp h he name a b c
  drawn := fun stem i T hp h he => by
    obtain ⟨file, c, g, g', m, r, x⟩ := s.drawn stem i T hp h he
    exact ⟨file, c, g, g', m, r, { x with files := fun name a b => by rw [h1 _ (entry_art _ _ _)]; exact x.files name a b }⟩
  rest := fun stem name file hp a b c d => by rw [h1 _ (entry_art _ _ _)]; exact s.rest stem name file hp a b c d
  only := fun p hp h => s.only p hp (by rw [← h1 p hp]; exact h)
  sources := by
    intro rel hp h
    have key : Pictured env f rel → f' (source rel) = f0 (source rel) ∧ contentsOf env f' rel = contentsOf env f0 rel := fun hh => by
      obtain ⟨a, b⟩ := h2 rel hp (.inl hh)
      obtain ⟨a', b'⟩ := s.sources rel hp (.inr hh)
      exact ⟨a.trans a', b.trans b'⟩
    rcases h with h | h
    · obtain ⟨a, -⟩ := s.sources rel hp (.inl h)
      obtain ⟨b, d, hb, hd⟩ := h
      exact key ⟨b, d, a.trans hb, hd⟩
    · obtain ⟨a, -⟩ := h2 rel hp (.inr h)
      obtain ⟨b, d, hb, hd⟩ := h
      exact key ⟨b, d, a.symm.trans hb, hd⟩
  exported := s.exported

/-- Entries are the targets which were asked for. -/
theorem Stands.match_iff {env : Env J C} (hl : Lawful env) {h : ℤ} (hh : env.settingsHash = .ok h) {f0 f : Fs} {u : List (Ev J)} (s : Stands env f0 u f)
    {stem : Text} (hp : Plain stem) {T : Target C} {name : Text} (hn : Seg name) :
    Match env h f stem T name ↔ ∃ i, (asked env stem u)[i]? = some T ∧ name = num i := by
  -- the targets match
  have one : ∀ i T', (asked env stem u)[i]? = some T' → Match env h f stem T' (num i) := by
    intro i T' hi
    by_cases he : Exports env u stem T'
    · obtain ⟨file, c, g, g', m, r, x⟩ := s.drawn stem i T' hp hi he
      obtain ⟨-, k1, k2, k3⟩ := exportNew_only hl hh x.of hp x.run
      refine .inr ⟨_, m, ?_, hl.metadata m, k3, k2⟩
      rw [x.files (txt "metadata.json") (by decide) (by decide)]
      exact k1
    · exact .inl ⟨s.waiting stem i T' hp hi he _ (by decide) (by decide) (by decide), _, s.place stem i T' hp hi, hl.target _⟩
  constructor
  · intro hm
    by_cases hex : ∃ i < (asked env stem u).length, name = num i
    · obtain ⟨i, hi, rfl⟩ := hex
      have hg : (asked env stem u)[i]? = some (asked env stem u)[i] := List.getElem?_eq_getElem hi
      have := Match.target hm (one i _ hg)
      exact ⟨i, by rw [hg, this], rfl⟩
    · exfalso
      push Not at hex
      have e := fun file (a : 47 ∉ file) b => s.rest stem name file hp hn a b hex
      rcases hm with ⟨-, b, hb, -⟩ | ⟨b, m, hb, -⟩
      · rw [e _ (by decide) (by decide)] at hb; cases hb
      · rw [e _ (by decide) (by decide)] at hb; cases hb
  · rintro ⟨i, hi, rfl⟩
    exact one i T hi

/-- Another description of what happened. -/
theorem Stands.congr {env : Env J C} {f0 f : Fs} {u v : List (Ev J)} (s : Stands env f0 u f) (h1 : ∀ stem, asked env stem v = asked env stem u)
    (h2 : ∀ stem T, Exports env v stem T ↔ Exports env u stem T) (h3 : ∀ e ∈ u, e ∈ v) : Stands env f0 v f where
  nodup := fun stem => by rw [h1]; exact s.nodup stem
  counter := fun stem hp => by rw [h1]; exact s.counter stem hp
  place := fun stem i T hp h => s.place stem i T hp (by rw [← h1]; exact h)
  waiting := fun stem i T hp h he => s.waiting stem i T hp (by rw [← h1]; exact h) (fun hx => he ((h2 _ _).2 hx))
  drawn := fun stem i T hp h he => by
    obtain ⟨file, c, g, g', m, r, x⟩ := s.drawn stem i T hp (by rw [← h1]; exact h) ((h2 _ _).1 he)
    exact ⟨file, c, g, g', m, r, { x with mem := h3 _ x.mem }⟩
  rest := fun stem name file hp a b c d => s.rest stem name file hp a b c (by rw [← h1]; exact d)
  only := s.only
  sources := s.sources
  exported := fun stem T h => by rw [h1]; exact s.exported stem T ((h2 _ _).1 h)

theorem touch_art {f f' : Fs} {stem : Text} (h : f' = f ∨ f' = touch f (lockPath stem)) : ∀ p, InArt p → f' p = f p := by
  intro p hp
  rcases h with rfl | rfl
  · rfl
  · exact touch_ne (art_ne_out hp (lock_out _))

theorem Stands.begin {env : Env J C} {f0 : Fs} (h : ∀ p, InArt p → f0 p = none) : Stands env f0 [] f0 where
  nodup := fun _ => List.nodup_nil
  counter := fun stem _ => by rw [h _ (counter_art _)]; rfl
  place := fun stem i T _ h => by simp [asked] at h
  waiting := fun stem i T _ h => by simp [asked] at h
  drawn := fun stem i T _ h => by simp [asked] at h
  rest := fun stem name file _ _ _ _ _ => h _ (entry_art _ _ _)
  only := fun p hp hne => absurd (h p hp) hne
  sources := fun _ _ _ => ⟨rfl, rfl⟩
  exported := fun stem T ⟨_, _, h, _⟩ => by cases h

theorem asked_other {env : Env J C} {u : List (Ev J)} {file : Text} {c : Command J} {stem : Text} (h : root (relOf env file c) ≠ stem) :
    asked env stem (u ++ [.scan file c]) = asked env stem u := by
  rw [asked_snoc, askedFor, if_neg h]

theorem asked_same {env : Env J C} {u : List (Ev J)} {file : Text} {c : Command J} {T : Target C} (hT : targetOf env c = .ok T) :
    asked env (root (relOf env file c)) (u ++ [.scan file c]) =
      if T ∈ asked env (root (relOf env file c)) u then asked env (root (relOf env file c)) u else asked env (root (relOf env file c)) u ++ [T] := by
  rw [asked_snoc, askedFor, if_pos rfl, hT]

/-- After a scan -/
theorem Stands.scan {env : Env J C} (hl : Lawful env) {h : ℤ} (hh : env.settingsHash = .ok h) {f0 f f' : Fs} {u : List (Ev J)} (s : Stands env f0 u f)
    (fin : Finite f) {file : Text} {c : Command J} (hp : Proper env file c) {sc : Scan} (hs : scanCommand env file f c = .ok (sc, f')) :
    Stands env f0 (u ++ [.scan file c]) f' := by
  obtain ⟨T, n, b, d, x⟩ := scan_spec hl hh hp hs
  have hT := x.target
  have hsrc := x.source
  have himg : ∀ p, f' p ≠ f p → ImageFile p := by
    intro p hne
    rcases x.files with e | e | e
    · exact absurd (by rw [e]) hne
    · subst e
      by_contra hc
      exact hne (touch_ne fun e => hc (.inr (.inl ⟨_, e⟩)))
    · subst e
      exact reservedFs_image hne
  have hkept := sources_kept (env := env) himg
  clear x
  obtain ⟨k, hg⟩ : ∃ n, getOrReserve env (relOf env file c) T f = .ok (n, f') := by
    unfold scanCommand at hs
    simp only [hT] at hs
    split at hs
    · cases hs
    · next n' fs1 h1 =>
      split at hs
      · cases hs
      · cases hs
        exact ⟨n', h1⟩
  have hpl : Plain (root (relOf env file c)) := hp
  rcases getOrReserve_spec hl hh rfl hpl hg with ⟨k1, name, hi, hf⟩ | ⟨hno, ⟨cn, hk, hcn⟩, rfl⟩
  · obtain ⟨i, hi', -⟩ := (s.match_iff hl hh hpl hf.seg).1 hf.isFor
    have hmem : T ∈ asked env (root (relOf env file c)) u := List.mem_of_getElem? hi'
    refine (s.same (touch_art k1) fun rel hr _ => hkept rel hr).congr (fun stem => ?_) (fun _ _ => exports_scan) (fun e he => List.mem_append_left _ he)
    by_cases hst : root (relOf env file c) = stem
    · subst hst
      rw [asked_same hT, if_pos hmem]
    · exact asked_other hst
  · have hmem : T ∉ asked env (root (relOf env file c)) u := by
      intro hm
      obtain ⟨i, hi⟩ := List.getElem?_of_mem hm
      exact hno (by rw [hsrc]; rfl) fin _ (num_seg i) ((s.match_iff hl hh hpl (num_seg i)).2 ⟨i, hi, rfl⟩)
    have hasked : asked env (root (relOf env file c)) (u ++ [.scan file c]) = asked env (root (relOf env file c)) u ++ [T] := by rw [asked_same hT, if_neg hmem]
    generalize hstem : root (relOf env file c) = stem0 at *
    -- the number
    have hlen : k = ((asked env stem0 u).length + 1 : ℕ) := by
      have := s.counter stem0 hpl
      rcases hcn with ⟨h1, rfl⟩ | ⟨b, h1, h2⟩
      · rw [h1] at this
        split at this
        · next he => rw [he, hk]; rfl
        · cases this
      · rw [h1] at this
        split at this
        · cases this
        · cases this
          rw [hl.text, hl.int] at h2
          cases h2
          rw [hk]; push_cast; rfl
    subst hlen
    have hnum : idText (((asked env stem0 u).length + 1 : ℕ) : ℤ) = num (asked env stem0 u).length := rfl
    have hother : ∀ stem, stem ≠ stem0 → asked env stem (u ++ [.scan file c]) = asked env stem u := fun stem hne => asked_other (by rw [hstem]; exact fun e => hne e.symm)
    -- files of entries
    have hentry : ∀ stem name file', 47 ∉ name → 47 ∉ file' → file' ≠ txt "counter.txt" →
        ¬ (stem = stem0 ∧ name = num (asked env stem0 u).length ∧ file' = txt "placeholder.json") →
        reservedFs env stem0 (((asked env stem0 u).length + 1 : ℕ) : ℤ) T f (entryFile stem name file') = f (entryFile stem name file') :=
      fun stem name file' a b c d => reservedFs_entry a b c d
    -- asked for before
    have hold : ∀ stem i T', (asked env stem (u ++ [.scan file c]))[i]? = some T' →
        (asked env stem u)[i]? = some T' ∨ (stem = stem0 ∧ i = (asked env stem0 u).length ∧ T' = T) := by
      intro stem i T' hi
      by_cases hst : stem = stem0
      · subst hst
        rw [hasked] at hi
        by_cases hlt : i < (asked env stem u).length
        · rw [List.getElem?_append_left hlt] at hi
          exact .inl hi
        · rw [List.getElem?_append_right (by omega)] at hi
          have : i - (asked env stem u).length = 0 := by
            by_contra hne
            rw [List.getElem?_eq_none (by simp; omega)] at hi
            cases hi
          rw [this] at hi
          cases hi
          exact .inr ⟨rfl, by omega, rfl⟩
      · rw [hother stem hst] at hi
        exact .inl hi
    have holdi : ∀ stem i T', (asked env stem u)[i]? = some T' → ¬ (stem = stem0 ∧ num i = num (asked env stem0 u).length) := by
      rintro stem i T' hi ⟨rfl, e⟩
      have := num_inj e
      rw [List.getElem?_eq_none (by omega)] at hi
      cases hi
    refine ⟨fun stem => ?_, fun stem hps => ?_, fun stem i T' hps hi => ?_, fun stem i T' hps hi he name a b c' => ?_, fun stem i T' hps hi he => ?_,
      fun stem name file' hps a b c' d => ?_, fun p hpa hne => ?_, fun rel hr hpic => ?_, fun stem T' he => ?_⟩
    · by_cases hst : stem = stem0
      · subst hst
        rw [hasked]
        exact List.nodup_append.2 ⟨s.nodup stem, by simp, fun a ha b hb => by simp at hb; rintro rfl; exact hmem (hb ▸ ha)⟩
      · rw [hother stem hst]; exact s.nodup stem
    · by_cases hst : stem = stem0
      · subst hst
        rw [reservedFs_counter, hasked, if_neg (by simp)]
        simp
      · rw [hother stem hst, reservedFs_ne (art_ne_out (counter_art _) (lock_out _)) (fun e => hst (counterPath_inj e))
          (entry_ne_counter (by decide) (by decide)).symm]
        exact s.counter stem hps
    · rcases hold stem i T' hi with hi | ⟨rfl, rfl, rfl⟩
      · rw [hentry _ _ _ (num_seg i).2 (by decide) (by decide) (fun e => holdi stem i T' hi ⟨e.1, e.2.1⟩)]
        exact s.place stem i T' hps hi
      · exact reservedFs_place
    · rcases hold stem i T' hi with hi | ⟨rfl, rfl, rfl⟩
      · rw [hentry _ _ _ (num_seg i).2 a b (fun e => c' e.2.2)]
        exact s.waiting stem i T' hps hi (fun hx => he (exports_scan.2 hx)) name a b c'
      · rw [hentry _ _ _ (num_seg _).2 a b (fun e => c' e.2.2)]
        exact s.rest stem _ name hps (num_seg _) a b (fun i hi e => by have := num_inj e; omega)
    · rcases hold stem i T' hi with hi | ⟨rfl, rfl, rfl⟩
      · obtain ⟨file', c', g, g', m, r, x⟩ := s.drawn stem i T' hps hi (exports_scan.1 he)
        refine ⟨file', c', g, g', m, r, { x with mem := List.mem_append_left _ x.mem, files := fun name a b => ?_ }⟩
        rw [hentry _ _ _ (num_seg i).2 a b (fun e => holdi stem i T' hi ⟨e.1, e.2.1⟩)]
        exact x.files name a b
      · exact absurd (s.exported stem T' (exports_scan.1 he)) hmem
    · by_cases hst : stem = stem0
      · subst hst
        rw [hasked] at d
        rw [hentry _ _ _ a.2 b c' (fun e => d (asked env stem u).length (by simp) e.2.1)]
        exact s.rest stem name file' hps a b c' (fun i hi => d i (by simp; omega))
      · rw [hother stem hst] at d
        rw [hentry _ _ _ a.2 b c' (fun e => hst e.1)]
        exact s.rest stem name file' hps a b c' d
    · by_cases hf : f p = none
      · by_cases h1 : p = counterPath stem0
        · exact ⟨stem0, hpl, .inl h1⟩
        · by_cases h2 : p = entryFile stem0 (num (asked env stem0 u).length) (txt "placeholder.json")
          · exact ⟨stem0, hpl, .inr ⟨_, _, num_seg _, by decide, by decide, h2⟩⟩
          · exact absurd (by rw [reservedFs_ne (art_ne_out hpa (lock_out _)) h1 h2, hf]) hne
      · exact s.only p hpa hf
    · obtain ⟨a, b⟩ := hkept rel hr
      rw [a, b]
      refine s.sources rel hr (hpic.imp id ?_)
      rintro ⟨b', d', hb, hd⟩
      exact ⟨b', d', by rw [← a]; exact hb, hd⟩
    · have := s.exported stem T' (exports_scan.1 he)
      by_cases hst : stem = stem0
      · subst hst
        rw [hasked]
        exact List.mem_append_left _ this
      · rw [hother stem hst]; exact this

/-- After an export -/
theorem Stands.exports {env : Env J C} (hl : Lawful env) {h : ℤ} (hh : env.settingsHash = .ok h) {f0 f f' : Fs} {u : List (Ev J)} (s : Stands env f0 u f)
    (hgood : Good env h f) {file : Text} {c : Command J} (hp : Proper env file c) (hpic : Pictured env f (relOf env file c)) {m : Metadata C} {r : Built}
    (he : exportCommand env file f c = .ok (m, r, f')) : Stands env f0 (u ++ [.export_ file c]) f' := by
  obtain ⟨T0, n0, d0, -, x0⟩ := export_spec hl hh hp hgood hpic he
  have hkept := sources_kept (env := env) x0.image
  clear x0
  have hpl : Plain (root (relOf env file c)) := hp
  obtain ⟨src0, con0⟩ := s.sources _ hpl (.inr hpic)
  unfold exportCommand at he
  simp only at he
  split at he
  · cases he
  · next T hT =>
    split at he
    · cases he
    · cases he
    · next n fs1 h1 =>
      obtain ⟨k1, k2, -⟩ := getTarget_spec hl rfl hpl h1
      obtain ⟨-, h', name, e, hi, hf⟩ := k2 n rfl
      rw [hh] at e
      cases e
      obtain ⟨i, hi', hname⟩ := (s.match_iff hl hh hpl hf.seg).1 hf.isFor
      have hn : n = ((i + 1 : ℕ) : ℤ) := by
        rw [hname, num, hl.int] at hi
        exact (Option.some.inj hi).symm
      subst hn
      have hart := touch_art k1
      have em : metaFile (artDir (relOf env file c) ((i + 1 : ℕ) : ℤ)) = entryFile (root (relOf env file c)) (num i) (txt "metadata.json") :=
        meta_eq rfl hpl (num_seg i)
      rw [em, hart _ (entry_art _ _ _)] at he
      have hmem : T ∈ asked env (root (relOf env file c)) u := List.mem_of_getElem? hi'
      split at he
      · -- made before
        next b hb =>
        have hex : Exports env u (root (relOf env file c)) T := by
          by_contra hex
          rw [s.waiting _ i T hpl hi' hex _ (by decide) (by decide) (by decide)] at hb
          cases hb
        refine (s.same (fun p hpa => (exportAgain_art rfl hpl he p hpa).trans (hart p hpa)) fun rel hr _ => hkept rel hr).congr
          (fun stem => asked_export _ _ _ _ _) (fun stem T' => ?_) (fun e he => List.mem_append_left _ he)
        rw [exports_export hT]
        constructor
        · rintro (h | ⟨rfl, rfl⟩)
          · exact h
          · exact hex
        · exact .inl
      · -- drawn now
        next hb =>
        have hex : ¬ Exports env u (root (relOf env file c)) T := by
          intro hex
          obtain ⟨file', c', g, g', m', r', x⟩ := s.drawn _ i T hpl hi' hex
          have := (exportNew_only hl hh x.of hpl x.run).2.1
          rw [x.files (txt "metadata.json") (by decide) (by decide)] at hb
          rw [show idText ((i + 1 : ℕ) : ℤ) = num i from rfl, hb] at this
          cases this
        have honly := (exportNew_only hl hh rfl hpl he).1
        generalize hstem : root (relOf env file c) = stem0 at *
        -- what an export does not change
        have hsame : ∀ p, InArt p → (∀ name, 47 ∉ name → name ≠ txt "counter.txt" → name ≠ txt "placeholder.json" → p ≠ entryFile stem0 (num i) name) → f' p = f p := by
          intro p hpa hne
          rw [honly p, hart p hpa]
          rintro (⟨name, a, b, c', e⟩ | ho)
          · exact hne name a b c' e
          · exact art_ne_out hpa ho rfl
        have hentry : ∀ stem name file', 47 ∉ name → 47 ∉ file' → ¬ (stem = stem0 ∧ name = num i) → f' (entryFile stem name file') = f (entryFile stem name file') :=
          fun stem name file' a b hne => hsame _ (entry_art _ _ _) fun name' a' _ _ e => hne
            ⟨(entryFile_inj a (num_seg i).2 b a' e).1, (entryFile_inj a (num_seg i).2 b a' e).2.1⟩
        have hidx : ∀ j T', (asked env stem0 u)[j]? = some T' → num j = num i → j = i ∧ T' = T := by
          intro j T' hj e
          have := num_inj e
          subst this
          rw [hi'] at hj
          cases hj
          exact ⟨rfl, rfl⟩
        refine ⟨fun stem => ?_, fun stem hps => ?_, fun stem j T' hps hj => ?_, fun stem j T' hps hj hne name a b c' => ?_, fun stem j T' hps hj hx => ?_,
          fun stem name file' hps a b c' d => ?_, fun p hpa hne => ?_, fun rel hr hpc => ?_, fun stem T' hx => ?_⟩
        · rw [asked_export]; exact s.nodup stem
        · rw [asked_export, hsame _ (counter_art _) (fun name a b _ => (entry_ne_counter a b).symm)]
          exact s.counter stem hps
        · rw [asked_export] at hj
          rw [hsame _ (entry_art _ _ _) (fun name a b c' e => c' (entryFile_inj (num_seg j).2 (num_seg i).2 (by decide) a e).2.2.symm)]
          exact s.place stem j T' hps hj
        · rw [asked_export] at hj
          rw [exports_export hT] at hne
          push Not at hne
          rw [hentry _ _ _ (num_seg j).2 a]
          · exact s.waiting stem j T' hps hj hne.1 name a b c'
          · rintro ⟨rfl, e⟩
            exact hne.2 hstem (hidx j T' hj e).2.symm
        · rw [asked_export] at hj
          by_cases hT' : stem = stem0 ∧ num j = num i
          · obtain ⟨rfl, e⟩ := hT'
            obtain ⟨rfl, rfl⟩ := hidx j T' hj e
            have hk1 := sources_kept (env := env) (fs := f) (fs' := fs1) (fun p hne => by
              rcases k1 with rfl | rfl
              · exact absurd rfl hne
              · by_contra hc
                exact hne (touch_ne fun e => hc (.inr (.inl ⟨_, e⟩)))) (relOf env file c) (by rw [hstem]; exact hpl)
            exact ⟨file, c, fs1, f', m, r, {
              mem := by simp
              of := hstem
              target := hT
              source := hk1.1.trans src0
              contents := hk1.2.trans con0
              place := by rw [hart _ (entry_art _ _ _)]; exact s.place stem j T' hps hj
              bare := fun name a b c' => by rw [hart _ (entry_art _ _ _)]; exact s.waiting stem j T' hps hj hex name a b c'
              run := he
              files := fun _ _ _ => rfl }⟩
          · have hx' : Exports env u stem T' := by
              rcases (exports_export hT).1 hx with hx | ⟨e1, e2⟩
              · exact hx
              · exfalso
                rw [hstem] at e1
                subst e1; subst e2
                refine hT' ⟨rfl, ?_⟩
                obtain ⟨hjl, hj⟩ := List.getElem?_eq_some_iff.1 hj
                obtain ⟨hil, hi⟩ := List.getElem?_eq_some_iff.1 hi'
                rw [(s.nodup stem0).getElem_inj_iff.1 (hj.trans hi.symm)]
            obtain ⟨file', c', g, g', m', r', x⟩ := s.drawn stem j T' hps hj hx'
            refine ⟨file', c', g, g', m', r', { x with mem := List.mem_append_left _ x.mem, files := fun name a b => ?_ }⟩
            rw [hentry _ _ _ (num_seg j).2 a hT']
            exact x.files name a b
        · rw [asked_export] at d
          rw [hentry _ _ _ a.2 b]
          · exact s.rest stem name file' hps a b c' d
          · rintro ⟨rfl, rfl⟩
            exact d i (List.getElem?_eq_some_iff.1 hi').1 rfl
        · by_cases hfp : f p = none
          · by_contra hc
            refine hne ((hsame p hpa fun name a b c' e => ?_).trans hfp)
            exact hc ⟨stem0, hpl, .inr ⟨_, _, num_seg i, a, b, e⟩⟩
          · exact s.only p hpa hfp
        · obtain ⟨a, b⟩ := hkept rel hr
          rw [a, b]
          refine s.sources rel hr (hpc.imp id ?_)
          rintro ⟨b', d', hb', hd'⟩
          exact ⟨b', d', by rw [← a]; exact hb', hd'⟩
        · rw [asked_export]
          rcases (exports_export hT).1 hx with hx | ⟨e1, rfl⟩
          · exact s.exported stem T' hx
          · rw [← e1, hstem]; exact hmem

theorem Trace.stands {env : Env J C} (hl : Lawful env) {h : ℤ} (hh : env.settingsHash = .ok h) {f0 f : Fs} (h0 : Start env f0) {u : List (Ev J)}
    (t : Trace env f0 u f) : Stands env f0 u f ∧ Good env h f := by
  induction t with
  | nil => exact ⟨.begin h0.art, h0.good h⟩
  | scan t hp hs ih => exact ⟨ih.1.scan hl hh ih.2.finite hp hs, (Step.keeps hl hh (.scan hp hs) ih.2).1⟩
  | export_ t hp hi hs ih => exact ⟨ih.1.exports hl hh ih.2 hp hi hs, (Step.keeps hl hh (.export_ hp hi hs) ih.2).1⟩
  | other t a b c ih => exact ⟨ih.1.same b c, (Step.keeps hl hh (.other a b c) ih.2).1⟩

/-! ## C95 -/

/-- **C95** (in part): after two builds of the same project from nothing, with the same settings, in which the same exports of
pictures happened, the artifacts are the same if and only if the targets of each image were first asked for in the same order.
Nothing else about the schedules matters. -/
theorem C95_order_partial {env : Env J C} (hl : Lawful env) {h : ℤ} (hh : env.settingsHash = .ok h) {f0 f g : Fs} (h0 : Start env f0) {u v : List (Ev J)}
    (tf : Trace env f0 u f) (tg : Trace env f0 v g) (hone : OneSource env (u ++ v))
    (hex : ∀ stem T, Exports env u stem T ↔ Exports env v stem T) :
    (∀ p, InArt p → f p = g p) ↔ ∀ stem, Plain stem → asked env stem u = asked env stem v := by
  have sf := (tf.stands hl hh h0).1
  have sg := (tg.stands hl hh h0).1
  constructor
  · intro he stem hp
    have hlen : (asked env stem u).length = (asked env stem v).length := by
      have e := he (counterPath stem) (counter_art _)
      rw [sf.counter stem hp, sg.counter stem hp] at e
      split at e
      · next h1 =>
        split at e
        · next h2 => rw [h1, h2]
        · cases e
      · split at e
        · cases e
        · have e := congrArg env.decode (Option.some.inj e)
          rw [hl.text, hl.text] at e
          have := idText_inj e
          omega
    refine List.ext_getElem hlen fun i h1 h2 => ?_
    have e := he (entryFile stem (num i) (txt "placeholder.json")) (entry_art _ _ _)
    rw [sf.place stem i _ hp (List.getElem?_eq_getElem h1), sg.place stem i _ hp (List.getElem?_eq_getElem h2)] at e
    have e := congrArg env.loadTarget (Option.some.inj e)
    rw [hl.target, hl.target] at e
    exact Option.some.inj e
  · intro ha
    -- the same files of entries
    have entry : ∀ stem name file, Plain stem → Seg name → 47 ∉ file → file ≠ txt "counter.txt" → f (entryFile stem name file) = g (entryFile stem name file) := by
      intro stem name file hp hn hf hc
      by_cases hx : ∃ i < (asked env stem u).length, name = num i
      · obtain ⟨i, hi, rfl⟩ := hx
        have h1 : (asked env stem u)[i]? = some (asked env stem u)[i] := List.getElem?_eq_getElem hi
        have h2 : (asked env stem v)[i]? = some (asked env stem u)[i] := by rw [← ha stem hp]; exact h1
        generalize (asked env stem u)[i] = T at h1 h2
        by_cases hpl : file = txt "placeholder.json"
        · subst hpl
          rw [sf.place stem i T hp h1, sg.place stem i T hp h2]
        · by_cases hxx : Exports env u stem T
          · obtain ⟨file1, c1, a1, b1, m1, r1, x1⟩ := sf.drawn stem i T hp h1 hxx
            obtain ⟨file2, c2, a2, b2, m2, r2, x2⟩ := sg.drawn stem i T hp h2 ((hex _ _).1 hxx)
            have hpath := hone file1 c1 file2 c2 (List.mem_append_left _ x1.mem) (List.mem_append_right _ x2.mem) (x1.of.trans x2.of.symm)
            have hrel : relOf env file1 c1 = relOf env file2 c2 := by unfold relOf; rw [hpath]
            have q1 := x1.run
            rw [hpath, hrel] at q1
            have agree := (exportNew_agree hl x2.of hp (f := a1) (g := a2) (by rw [x2.source, ← hrel, x1.source, hrel]) (by rw [x2.contents, ← hrel, x1.contents, hrel])
              (by
                rintro p ⟨nm, n1, n2, rfl⟩
                by_cases hpn : nm = txt "placeholder.json"
                · subst hpn
                  exact x1.place.trans x2.place.symm
                · exact (x1.bare nm n1 n2 hpn).trans (x2.bare nm n1 n2 hpn).symm) q1 x2.run).2
            rw [x1.files file hf hc, x2.files file hf hc]
            exact agree _ ⟨file, hf, hc, rfl⟩
          · rw [sf.waiting stem i T hp h1 hxx file hf hc hpl, sg.waiting stem i T hp h2 (fun h => hxx ((hex _ _).2 h)) file hf hc hpl]
      · push Not at hx
        rw [sf.rest stem name file hp hn hf hc hx, sg.rest stem name file hp hn hf hc (by rw [← ha stem hp]; exact hx)]
    have all : ∀ p, ((∃ stem, Plain stem ∧ (p = counterPath stem ∨ ∃ name file, Seg name ∧ 47 ∉ file ∧ file ≠ txt "counter.txt" ∧ p = entryFile stem name file))) → f p = g p := by
      rintro p ⟨stem, hp, rfl | ⟨name, file, a, b, c, rfl⟩⟩
      · rw [sf.counter stem hp, sg.counter stem hp, ha stem hp]
      · exact entry stem name file hp a b c
    intro p hpa
    by_cases h1 : f p = none
    · by_cases h2 : g p = none
      · rw [h1, h2]
      · exact all p (sg.only p hpa h2)
    · exact all p (sf.only p hpa h1)

omit [DecidableEq C] in
theorem exports_mem {env : Env J C} {u v : List (Ev J)} (h : ∀ e, e ∈ u ↔ e ∈ v) (stem : Text) (T : Target C) : Exports env u stem T ↔ Exports env v stem T := by
  simp [Exports, h]

/-- What is asked for are the targets of scans. -/
theorem mem_asked {env : Env J C} {stem : Text} {T : Target C} (u : List (Ev J)) :
    T ∈ asked env stem u ↔ ∃ file c, .scan file c ∈ u ∧ root (relOf env file c) = stem ∧ targetOf env c = .ok T := by
  induction u using List.reverseRecOn with
  | nil => simp [asked]
  | append_singleton u e ih =>
    cases e with
    | export_ file c => rw [asked_export, ih]; simp
    | scan file c =>
      have split : (∃ file' c', Ev.scan file' c' ∈ u ++ [.scan file c] ∧ root (relOf env file' c') = stem ∧ targetOf env c' = .ok T) ↔
          (∃ file' c', Ev.scan file' c' ∈ u ∧ root (relOf env file' c') = stem ∧ targetOf env c' = .ok T) ∨
            (root (relOf env file c) = stem ∧ targetOf env c = .ok T) := by
        constructor
        · rintro ⟨file', c', hm, h1, h2⟩
          rcases List.mem_append.1 hm with hm | hm
          · exact .inl ⟨file', c', hm, h1, h2⟩
          · simp only [List.mem_singleton, Ev.scan.injEq] at hm
            obtain ⟨rfl, rfl⟩ := hm
            exact .inr ⟨h1, h2⟩
        · rintro (⟨file', c', hm, h1, h2⟩ | ⟨h1, h2⟩)
          · exact ⟨file', c', List.mem_append_left _ hm, h1, h2⟩
          · exact ⟨file, c, by simp, h1, h2⟩
      rw [split, ← ih, asked_snoc, askedFor]
      split
      · next hst =>
        cases hT : targetOf env c with
        | error e => simp
        | ok T' =>
          dsimp only
          by_cases hm : T' ∈ asked env stem u
          · rw [if_pos hm]
            constructor
            · exact .inl
            · rintro (h | ⟨-, h⟩)
              · exact h
              · cases h; exact hm
          · rw [if_neg hm]
            simp [hst, eq_comm]
      · next hst => simp [hst]

/-- **C95** (in part): two builds of the same project from nothing, with the same settings, leave the same artifacts, whatever
the order of their scans and exports, if they scan and export the same pictures and every image is used for one target only. -/
theorem C95_partial {env : Env J C} (hl : Lawful env) {h : ℤ} (hh : env.settingsHash = .ok h) {f0 f g : Fs} (h0 : Start env f0) {u v : List (Ev J)}
    (tf : Trace env f0 u f) (tg : Trace env f0 v g) (hone : OneSource env u) (hsame : ∀ e, e ∈ u ↔ e ∈ v)
    (hsingle : ∀ file c file' c', .scan file c ∈ u → .scan file' c' ∈ u → root (relOf env file c) = root (relOf env file' c') →
      targetOf env c = targetOf env c') : ∀ p, InArt p → f p = g p := by
  refine (C95_order_partial hl hh h0 tf tg ?_ (exports_mem hsame)).2 fun stem hp => ?_
  · intro file c file' c' h1 h2
    refine hone file c file' c' ?_ ?_
    · rcases List.mem_append.1 h1 with h | h
      · exact h
      · exact (hsame _).2 h
    · rcases List.mem_append.1 h2 with h | h
      · exact h
      · exact (hsame _).2 h
  · have one : ∀ w : List (Ev J), (∀ e, e ∈ u ↔ e ∈ w) → ∀ T ∈ asked env stem w, ∀ T' ∈ asked env stem w, T = T' := by
      intro w hw T hT T' hT'
      obtain ⟨file, c, a, b, k⟩ := (mem_asked w).1 hT
      obtain ⟨file', c', a', b', k'⟩ := (mem_asked w).1 hT'
      have := hsingle file c file' c' ((hw _).2 a) ((hw _).2 a') (b.trans b'.symm)
      rw [k, k'] at this
      cases this
      rfl
    have mem : ∀ T, T ∈ asked env stem u ↔ T ∈ asked env stem v := fun T => by simp only [mem_asked, hsame]
    have nd1 := (tf.stands hl hh h0).1.nodup stem
    have nd2 := (tg.stands hl hh h0).1.nodup stem
    have o1 := one u (fun _ => Iff.rfl)
    have o2 := one v hsame
    generalize asked env stem u = a at *
    generalize asked env stem v = b at *
    have short : ∀ l : List (Target C), l.Nodup → (∀ T ∈ l, ∀ T' ∈ l, T = T') → l = [] ∨ ∃ T, l = [T] := by
      intro l nd ho
      match l, nd, ho with
      | [], _, _ => exact .inl rfl
      | [T], _, _ => exact .inr ⟨T, rfl⟩
      | T :: T' :: l, nd, ho =>
        have := ho T (by simp) T' (by simp)
        subst this
        simp at nd
    rcases short a nd1 o1 with rfl | ⟨T, rfl⟩
    · rcases short b nd2 o2 with rfl | ⟨T', rfl⟩
      · rfl
      · have := (mem T').2 (by simp); simp at this
    · rcases short b nd2 o2 with rfl | ⟨T', rfl⟩
      · have := (mem T).1 (by simp); simp at this
      · have := (mem T).1 (by simp); simp at this; rw [this]

end Verif.Img.Files
