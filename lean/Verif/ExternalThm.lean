import Verif.ExternalLemmas
import Mathlib.Tactic.ByContra
/-! # External files: C21, C22 -/
namespace Verif.Ext
open Verif

/-! ## C21 -/

/-- **C21.** At every point of every interleaving of the downloads (a schedule which stops early is a
crash), the target of each external file holds what it held before, nothing, or content with the
configured digest; and no other file than targets and temporary files is touched. -/
theorem C21_target (w : World) (jobs : List Job) (fs : Fs) (ha : Apart jobs fs) (sched : List String) :
    (∀ j ∈ jobs,
      let now := ((Pool.init fs).run w jobs sched).fs j.relpath
      now = fs j.relpath ∨ now = none ∨ ∃ f, now = some f ∧ w.digest j.integrity f.bytes = some true) ∧
    (∀ q, (∀ j ∈ jobs, q ≠ j.relpath ∧ q ≠ j.temp) → ((Pool.init fs).run w jobs sched).fs q = fs q) := by
  have hp := pool_spec (w := w) ha sched
  refine ⟨fun j hj => ?_, hp.2⟩
  rcases inv_target (hp.1 j hj) with h | h | ⟨f, h1, h2, _⟩
  · exact Or.inl h
  · exact Or.inr (Or.inl h)
  · exact Or.inr (Or.inr ⟨f, h1, h2⟩)

/-- **C21.** A download which has ended leaves no temporary file; it has left verified content at the
target if it ended well, and the target as it was if it ended with an error. -/
theorem C21_outcome (w : World) (jobs : List Job) (fs : Fs) (ha : Apart jobs fs) (sched : List String)
    (j : Job) (hj : j ∈ jobs) (r : Except Err Unit)
    (hr : ((Pool.init fs).run w jobs sched).pc j.relpath = .done r) :
    ((Pool.init fs).run w jobs sched).fs j.temp = none ∧
    match r with
    | .ok _ => ∃ f, ((Pool.init fs).run w jobs sched).fs j.relpath = some f ∧
        w.digest j.integrity f.bytes = some true
    | .error _ => ((Pool.init fs).run w jobs sched).fs j.relpath = fs j.relpath := by
  have hp := (pool_spec (w := w) ha sched).1 j hj
  rw [hr] at hp
  cases r with
  | ok u => exact ⟨hp.1, by obtain ⟨_, f, h1, h2, _⟩ := hp; exact ⟨f, h1, h2⟩⟩
  | error e => exact hp

/-- **C21.** A body which is cut off or whose digest is not the configured one never reaches the
target, which keeps what it had at every point; and unless that already had the right digest the
download does not end well. -/
theorem C21_mismatch (w : World) (jobs : List Job) (fs : Fs) (ha : Apart jobs fs) (sched : List String)
    (j : Job) (hj : j ∈ jobs)
    (hbad : ∀ cs, j.resp = .body cs false → w.digest j.integrity cs.flatten ≠ some true)
    (hold : ∀ f, fs j.relpath = some f → w.digest j.integrity f.bytes ≠ some true) :
    ((Pool.init fs).run w jobs sched).fs j.relpath = fs j.relpath ∧
    ∀ u, ((Pool.init fs).run w jobs sched).pc j.relpath ≠ .done (.ok u) := by
  have hp := (pool_spec (w := w) ha sched).1 j hj
  revert hp
  generalize ((Pool.init fs).run w jobs sched).pc j.relpath = pc
  intro hp
  cases pc with
  | start => exact ⟨hp.1, by simp⟩
  | get => exact ⟨hp.1, by simp⟩
  | writing => exact ⟨hp.1, by simp⟩
  | verify => exact ⟨hp.1, by simp⟩
  | unlinkTarget => exact ⟨hp.1, by simp⟩
  | replacing =>
    obtain ⟨_, cs, f, h1, _, _, h4, h5⟩ := hp
    exact absurd (h4 ▸ h5) (hbad cs h1)
  | cleanup r =>
    cases r with
    | ok =>
      obtain ⟨_, cs, f, h1, _, _, h4, h5⟩ := hp
      exact absurd (h4 ▸ h5) (hbad cs h1)
    | error => exact ⟨hp, by simp⟩
  | done r =>
    cases r with
    | ok =>
      obtain ⟨_, f, h1, h2, h3⟩ := hp
      rcases h3 with h3 | ⟨_, cs, h4, h5⟩
      · exact absurd h2 (hold f (by rw [← h3, h1]))
      · exact absurd (h5 ▸ h2) (hbad cs h4)
    | error => exact ⟨hp.2, by simp⟩

/-! ## What `check_external_files` does to the files -/

theorem any_relpath {jobs : List Job} {j : Job} (h : j ∈ jobs) :
    (jobs.any (fun i => i.relpath = j.relpath)) = true := by
  simp only [List.any_eq_true, decide_eq_true_eq]
  exact ⟨j, h, rfl⟩

/-- The files which a call may leave behind, relative to those before it. -/
def Left (w : World) (jobs : List Job) (s s' : Proj) : Prop :=
  ∃ d fs subs sched, (d = [] ∨ s.state = .has d) ∧ (∃ ps, fs = (removeDropped jobs ps s.fs).2) ∧
    (subs = [] ∨ subs = submitted d fs jobs) ∧ s'.fs = ((Pool.init fs).run w subs sched).fs

theorem load_ok {s : StateFile} {d : Dict Rec} (h : s.load = .ok d) : d = [] ∨ s = .has d := by
  cases s with
  | missing => exact Or.inl (by simpa [StateFile.load] using h.symm)
  | torn => cases h
  | has d' => right; simp only [StateFile.load, Except.ok.injEq] at h; rw [h]

theorem run_nil (w : World) (fs : Fs) : ((Pool.init fs).run w [] []).fs = fs := rfl

theorem check_left (w : World) (jobs : List Job) (sched : List String) (s : Proj) :
    Left w jobs s (check w jobs sched s).2 := by
  unfold check
  split
  · exact ⟨[], s.fs, [], [], Or.inl rfl, ⟨[], rfl⟩, Or.inl rfl, rfl⟩
  · split
    · exact ⟨[], s.fs, [], [], Or.inl rfl, ⟨[], rfl⟩, Or.inl rfl, rfl⟩
    · next d hd =>
      split
      · next e fs hr => exact ⟨d, fs, [], [], load_ok hd, ⟨_, by rw [hr]⟩, Or.inl rfl, rfl⟩
      · next fs hr =>
        dsimp only
        split
        · exact ⟨d, fs, [], [], load_ok hd, ⟨_, by rw [hr]⟩, Or.inl rfl, rfl⟩
        · split
          · exact ⟨d, fs, _, sched, load_ok hd, ⟨_, by rw [hr]⟩, Or.inr rfl, rfl⟩
          · split
            · exact ⟨d, fs, _, sched, load_ok hd, ⟨_, by rw [hr]⟩, Or.inr rfl, rfl⟩
            · exact ⟨d, fs, _, sched, load_ok hd, ⟨_, by rw [hr]⟩, Or.inr rfl, rfl⟩

theorem killed_left {w : World} {jobs : List Job} {s s' : Proj} (h : KilledAt w jobs s s') :
    Left w jobs s s' := by
  cases h with
  | removing d k hd hj => exact ⟨d, _, [], [], load_ok hd, ⟨_, rfl⟩, Or.inl rfl, rfl⟩
  | downloading d fs sched hd hj hr => exact ⟨d, fs, _, sched, load_ok hd, ⟨_, by rw [hr]⟩, Or.inr rfl, rfl⟩
  | storing sched s'' hc ho =>
    have := check_left w jobs sched s
    rw [ho] at this
    exact this

/-- The target of a configured file: as before, gone, or written by the download. -/
theorem left_target {w : World} {jobs : List Job} {s s' : Proj} (ha : Apart jobs s.fs)
    (h : Left w jobs s s') {j : Job} (hj : j ∈ jobs) :
    s'.fs j.relpath = s.fs j.relpath ∨ s'.fs j.relpath = none ∨
    ∃ f, s'.fs j.relpath = some f ∧ Verified w j f ∧ f.sig = w.sigOf j.temp f.bytes := by
  obtain ⟨d, fs, subs, sched, _, ⟨ps, hps⟩, hsubs, hfs⟩ := h
  have hfj : fs j.relpath = s.fs j.relpath := by
    rw [hps]; exact (removeDropped_spec jobs ps s.fs j.relpath).2.1 (any_relpath hj)
  have hap : Apart subs fs := by
    rcases hsubs with rfl | rfl
    · exact ⟨by simp, by simp, by simp, by simp⟩
    · exact ha.submitted d (by rw [hps]; exact ha.removed ps)
  have hp := pool_spec (w := w) hap sched
  rw [hfs]
  by_cases hm : j ∈ subs
  · rcases inv_target (hp.1 j hm) with h | h | ⟨f, h1, h2, h3, _⟩
    · exact Or.inl (h.trans hfj)
    · exact Or.inr (Or.inl h)
    · exact Or.inr (Or.inr ⟨f, h1, h2, h3⟩)
  · left
    rw [hp.2, hfj]
    intro i hi
    have hi' : i ∈ jobs := by
      rcases hsubs with rfl | rfl
      · cases hi
      · exact submitted_sub hi
    exact ⟨fun e => hm (nodup_map_inj ha.targets hj hi' e ▸ hi), fun e => ha.sep i hi' j hj e.symm⟩

/-- **C21**, for the whole of `check_external_files`: however it ends — successfully, with an error, or
killed at any point — the target of every configured file holds what it held before, nothing, or
content with the configured digest. -/
theorem C21_check (w : World) (jobs : List Job) (s s' : Proj) (ha : Apart jobs s.fs)
    (h : (∃ sched, s' = (check w jobs sched s).2) ∨ KilledAt w jobs s s') (j : Job) (hj : j ∈ jobs) :
    s'.fs j.relpath = s.fs j.relpath ∨ s'.fs j.relpath = none ∨
    ∃ f, s'.fs j.relpath = some f ∧ w.digest j.integrity f.bytes = some true := by
  have hl : Left w jobs s s' := by
    rcases h with ⟨sched, rfl⟩ | h
    · exact check_left ..
    · exact killed_left h
  rcases left_target ha hl hj with h | h | ⟨f, h1, h2, _⟩
  · exact Or.inl h
  · exact Or.inr (Or.inl h)
  · exact Or.inr (Or.inr ⟨f, h1, h2⟩)

/-! ## C22 -/

/-- What is recorded is right: a file with the recorded signature has the recorded digest. -/
def Honest (w : World) (s : Proj) : Prop :=
  ∀ d p r f, s.state = .has d → d.get? p = some r → s.fs p = some f → f.sig = r.sig →
    w.digest r.integrity f.bytes = some true

/-- A new download of a file does not have the signature recorded for the version before it (size,
modification time and inode), and the random temporary paths are not recorded external files. -/
structure Fresh (w : World) (jobs : List Job) (s : Proj) : Prop where
  sig : ∀ d j b r, s.state = .has d → j ∈ jobs → d.get? j.relpath = some r → w.sigOf j.temp b ≠ r.sig
  temp : ∀ d p, s.state = .has d → p ∈ d.keys → ∀ j ∈ jobs, p ≠ j.temp

/-- The histories of a project: it starts without a state file; files are edited in any way which
gives a changed file a signature other than the recorded one; and `check_external_files` is called
with any configuration and server answers, and succeeds, fails or is killed. -/
inductive Hist (w : World) : Proj → Prop
  | init (fs : Fs) : Hist w ⟨fs, .missing⟩
  | edit (s : Proj) (fs' : Fs) : Hist w s →
      (∀ d p r f', s.state = .has d → d.get? p = some r → fs' p = some f' → fs' p ≠ s.fs p → f'.sig ≠ r.sig) →
      Hist w ⟨fs', s.state⟩
  | check (s : Proj) (jobs : List Job) (sched : List String) : Hist w s → Apart jobs s.fs →
      Fresh w jobs s → Completed w jobs sched s → Hist w (check w jobs sched s).2
  | killed (s s' : Proj) (jobs : List Job) : Hist w s → Apart jobs s.fs → Fresh w jobs s →
      KilledAt w jobs s s' → Hist w s'

theorem skippable_iff {d : Dict Rec} {fs : Fs} {j : Job} : skippable d fs j = true ↔
    ∃ r f, d.get? j.relpath = some r ∧ r.integrity = j.integrity ∧ fs j.relpath = some f ∧ f.sig = r.sig := by
  unfold skippable
  split
  · next h => simp [h]
  · next r h =>
    split
    · next hi => simp [h]; intro e; exact absurd e hi
    · next hi =>
      have hi' : r.integrity = j.integrity := by simpa using hi
      split
      · next hf => simp [hf]
      · next f hf => simp [h, hf, hi']

/-- The records kept for skipped files. -/
theorem keptRecs_get (d : Dict Rec) (fs : Fs) : ∀ (jobs : List Job) (acc : Dict Rec) (p : String) (r : Rec),
    (keptRecs d fs jobs acc).get? p = some r →
      acc.get? p = some r ∨ (d.get? p = some r ∧ ∃ j ∈ jobs, j.relpath = p ∧ skippable d fs j = true) := by
  intro jobs
  induction jobs with
  | nil => intro acc p r h; exact Or.inl h
  | cons j js ih =>
    intro acc p r h
    unfold keptRecs at h
    split at h
    · next hs =>
      split at h
      · next r' hr' =>
        rcases ih _ _ _ h with h | ⟨h1, i, hi, h2⟩
        · rw [Dict.get?_set] at h
          split at h
          · next e =>
            cases h
            first
              | (subst e; exact Or.inr ⟨hr', j, List.mem_cons_self, rfl, hs⟩)
          · exact Or.inl h
        · exact Or.inr ⟨h1, i, List.mem_cons_of_mem _ hi, h2⟩
      · rcases ih _ _ _ h with h | ⟨h1, i, hi, h2⟩
        · exact Or.inl h
        · exact Or.inr ⟨h1, i, List.mem_cons_of_mem _ hi, h2⟩
    · rcases ih _ _ _ h with h | ⟨h1, i, hi, h2⟩
      · exact Or.inl h
      · exact Or.inr ⟨h1, i, List.mem_cons_of_mem _ hi, h2⟩

theorem keptRecs_has (d : Dict Rec) (fs : Fs) : ∀ (jobs : List Job) (acc : Dict Rec) (p : String),
    (p ∈ acc.keys ∨ ∃ j ∈ jobs, j.relpath = p ∧ skippable d fs j = true) →
      p ∈ (keptRecs d fs jobs acc).keys := by
  intro jobs
  induction jobs with
  | nil => intro acc p h; simpa [keptRecs] using h
  | cons j js ih =>
    intro acc p h
    unfold keptRecs
    split
    · next hs =>
      obtain ⟨r, f, hr, _⟩ := skippable_iff.1 hs
      simp only [hr]
      apply ih
      rcases h with h | ⟨i, hi, rfl, h2⟩
      · exact Or.inl ((Dict.mem_keys_set ..).2 (by simp [h]))
      · rcases List.mem_cons.1 hi with rfl | hi
        · exact Or.inl ((Dict.mem_keys_set ..).2 (by simp))
        · exact Or.inr ⟨i, hi, rfl, h2⟩
    · next hs =>
      apply ih
      rcases h with h | ⟨i, hi, rfl, h2⟩
      · exact Or.inl h
      · rcases List.mem_cons.1 hi with rfl | hi
        · exact absurd h2 hs
        · exact Or.inr ⟨i, hi, rfl, h2⟩

/-- The records which are stored: those kept, and new ones for the other files. -/
theorem addRecs_get (fs : Fs) : ∀ (jobs : List Job) (acc d' : Dict Rec), (jobs.map (·.relpath)).Nodup →
    addRecs fs jobs acc = .ok d' →
    (∀ p r, d'.get? p = some r → acc.get? p = some r ∨
      (acc.get? p = none ∧ ∃ j ∈ jobs, ∃ f, j.relpath = p ∧ fs p = some f ∧ r = ⟨j.integrity, f.sig⟩)) ∧
    (∀ p, (p ∈ acc.keys ∨ ∃ j ∈ jobs, j.relpath = p) → p ∈ d'.keys) := by
  intro jobs
  induction jobs with
  | nil =>
    intro acc d' _ h
    simp only [addRecs, Except.ok.injEq] at h
    subst h
    exact ⟨fun p r h => Or.inl h, fun p h => by simpa using h⟩
  | cons j js ih =>
    intro acc d' hn h
    simp only [List.map_cons, List.nodup_cons] at hn
    unfold addRecs at h
    split at h
    · next hh =>
      obtain ⟨h1, h2⟩ := ih _ _ hn.2 h
      refine ⟨fun p r hp => ?_, fun p hp => h2 p ?_⟩
      · rcases h1 p r hp with h | ⟨h, i, hi, h3⟩
        · exact Or.inl h
        · exact Or.inr ⟨h, i, List.mem_cons_of_mem _ hi, h3⟩
      · rcases hp with hp | ⟨i, hi, rfl⟩
        · exact Or.inl hp
        · rcases List.mem_cons.1 hi with rfl | hi
          · exact Or.inl ((Dict.has_iff ..).1 hh)
          · exact Or.inr ⟨i, hi, rfl⟩
    · next hh =>
      have hnone : acc.get? j.relpath = none := by
        simpa [Dict.has, Option.isSome_iff_ne_none] using hh
      split at h
      · cases h
      · next f hf =>
        obtain ⟨h1, h2⟩ := ih _ _ hn.2 h
        refine ⟨fun p r hp => ?_, fun p hp => h2 p ?_⟩
        · by_cases e : j.relpath = p
          · subst e
            rcases h1 _ r hp with h | ⟨h, _⟩
            · rw [Dict.get?_set_self] at h
              cases h
              exact Or.inr ⟨hnone, j, List.mem_cons_self, f, rfl, hf, rfl⟩
            · rw [Dict.get?_set_self] at h
              cases h
          · rcases h1 p r hp with h | ⟨h, i, hi, h3⟩
            · rw [Dict.get?_set_ne _ _ e] at h
              exact Or.inl h
            · rw [Dict.get?_set_ne _ _ e] at h
              exact Or.inr ⟨h, i, List.mem_cons_of_mem _ hi, h3⟩
        · rcases hp with hp | ⟨i, hi, rfl⟩
          · exact Or.inl ((Dict.mem_keys_set ..).2 (by simp [hp]))
          · rcases List.mem_cons.1 hi with rfl | hi
            · exact Or.inl ((Dict.mem_keys_set ..).2 (by simp))
            · exact Or.inr ⟨i, hi, rfl⟩

theorem firstFailure_ok {s : Pool} : ∀ {jobs : List Job} {u : Unit}, firstFailure s jobs = .ok u →
    ∀ j ∈ jobs, ∀ e, s.pc j.relpath ≠ .done (.error e) := by
  intro jobs
  induction jobs with
  | nil => intro u _ j hj; cases hj
  | cons i js ih =>
    intro u h j hj e he
    unfold firstFailure at h
    split at h
    · cases h
    · next hn =>
      rcases List.mem_cons.1 hj with rfl | hj
      · exact hn e he
      · exact ih h j hj e he

/-- Everything about a successful call. -/
theorem check_ok {w : World} {jobs : List Job} {sched : List String} {s s' : Proj} (ha : Apart jobs s.fs)
    (hh : Honest w s) (hc : Completed w jobs sched s) (hne : jobs ≠ [])
    (h : check w jobs sched s = (.ok (), s')) :
    ∃ d, s.state.load = .ok d ∧
      (∀ j ∈ jobs, ∃ f, s'.fs j.relpath = some f ∧ Verified w j f) ∧
      (∀ p ∈ d.keys, (∀ j ∈ jobs, j.relpath ≠ p) → s'.fs p = none) ∧
      ((s'.state = s.state ∧ (∀ j ∈ jobs, skippable d s.fs j = true) ∧
          s'.fs = (removeDropped jobs d.keys s.fs).2) ∨
        ((∃ j ∈ jobs, skippable d s.fs j = false) ∧ ∃ d', s'.state = .has d' ∧
          (∀ p r, d'.get? p = some r → ∃ j ∈ jobs, ∃ f, j.relpath = p ∧ s'.fs p = some f ∧
            r = ⟨j.integrity, f.sig⟩) ∧
          (∀ j ∈ jobs, j.relpath ∈ d'.keys))) := by
  unfold check at h
  rw [if_neg (by simpa using hne)] at h
  split at h
  · cases h
  · next d hd =>
    refine ⟨d, hd, ?_⟩
    split at h
    · cases h
    · next fs hr =>
      have hfsj : ∀ j ∈ jobs, fs j.relpath = s.fs j.relpath := by
        intro j hj
        have := (removeDropped_spec jobs d.keys s.fs j.relpath).2.1 (any_relpath hj)
        rwa [hr] at this
      have hskip : ∀ j ∈ jobs, skippable d fs j = skippable d s.fs j := by
        intro j hj; unfold skippable; rw [hfsj j hj]
      have hver : ∀ j ∈ jobs, skippable d s.fs j = true → ∃ f, s.fs j.relpath = some f ∧ Verified w j f := by
        intro j hj hs
        obtain ⟨r, f, h1, h2, h3, h4⟩ := skippable_iff.1 hs
        rcases load_ok hd with rfl | hsd
        · simp at h1
        · exact ⟨f, h3, by have := hh d _ r f hsd h1 h3 h4; rwa [h2] at this⟩
      have hdrop : ∀ p ∈ d.keys, (∀ j ∈ jobs, j.relpath ≠ p) → fs p = none := by
        intro p hp hj
        have := (removeDropped_spec jobs d.keys s.fs p).2.2.2 (by rw [hr]) hp (by simpa using hj)
        rwa [hr] at this
      dsimp only at h
      split at h
      · next he =>
        simp only [Prod.mk.injEq, true_and] at h
        subst h
        have hall : ∀ j ∈ jobs, skippable d s.fs j = true := by
          intro j hj
          rw [← hskip j hj]
          have he' : submitted d fs jobs = [] := by simpa using he
          by_contra hn
          have : j ∈ submitted d fs jobs := List.mem_filter.2 ⟨hj, by simpa using hn⟩
          rw [he'] at this
          cases this
        refine ⟨fun j hj => ?_, hdrop, Or.inl ⟨rfl, hall, by rw [hr]⟩⟩
        obtain ⟨f, h1, h2⟩ := hver j hj (hall j hj)
        exact ⟨f, by dsimp only; rw [hfsj j hj]; exact h1, h2⟩
      · next he =>
        have hap : Apart (submitted d fs jobs) fs := by
          have := ha.removed d.keys
          rw [hr] at this
          exact ha.submitted d this
        have hp := pool_spec (w := w) hap sched
        have hdone := hc d fs hd hr
        split at h
        · cases h
        · next hff =>
          have hok := firstFailure_ok hff
          have hsub : ∀ j ∈ submitted d fs jobs, ∃ f,
              ((Pool.init fs).run w (submitted d fs jobs) sched).fs j.relpath = some f ∧ Verified w j f ∧
              ((Pool.init fs).run w (submitted d fs jobs) sched).fs j.temp = none := by
            intro j hj
            obtain ⟨r, hr'⟩ := hdone j hj
            have := hp.1 j hj
            rw [hr'] at this
            cases r with
            | ok u => obtain ⟨h0, f, h1, h2, _⟩ := this; exact ⟨f, h1, h2, h0⟩
            | error e => exact absurd hr' (hok j hj e)
          have hout : ∀ j ∈ jobs, j ∉ submitted d fs jobs →
              ((Pool.init fs).run w (submitted d fs jobs) sched).fs j.relpath = fs j.relpath := by
            intro j hj hm
            apply hp.2
            intro i hi
            exact ⟨fun e => hm (nodup_map_inj ha.targets hj (submitted_sub hi) e ▸ hi),
              fun e => ha.sep i (submitted_sub hi) j hj e.symm⟩
          split at h
          · cases h
          · next d' hd' =>
            simp only [Prod.mk.injEq, true_and] at h
            subst h
            refine ⟨fun j hj => ?_, fun p hpk hpj => ?_, Or.inr ⟨?_, d', rfl, ?_, ?_⟩⟩
            · by_cases hm : j ∈ submitted d fs jobs
              · obtain ⟨f, h1, h2, _⟩ := hsub j hm; exact ⟨f, h1, h2⟩
              · have hs : skippable d fs j = true := by
                  by_contra hn
                  exact hm (List.mem_filter.2 ⟨hj, by simpa using hn⟩)
                obtain ⟨f, h1, h2⟩ := hver j hj (by rw [← hskip j hj]; exact hs)
                exact ⟨f, by dsimp only; rw [hout j hj hm, hfsj j hj]; exact h1, h2⟩
            · dsimp only
              by_cases ht : ∃ i ∈ submitted d fs jobs, p = i.temp
              · obtain ⟨i, hi, rfl⟩ := ht
                obtain ⟨_, _, _, h3⟩ := hsub i hi
                exact h3
              · rw [hp.2 p (fun i hi => ⟨fun e => hpj i (submitted_sub hi) e.symm, fun e => ht ⟨i, hi, e⟩⟩)]
                exact hdrop p hpk hpj
            · have he' : submitted d fs jobs ≠ [] := by simpa using he
              obtain ⟨j, hj⟩ := List.exists_mem_of_ne_nil _ he'
              refine ⟨j, submitted_sub hj, ?_⟩
              rw [← hskip j (submitted_sub hj)]
              simpa using (List.mem_filter.1 hj).2
            · intro p r hp'
              rcases (addRecs_get _ _ _ _ ha.targets hd').1 p r hp' with h | ⟨_, j, hj, f, h1, h2, h3⟩
              · rcases keptRecs_get _ _ _ _ _ _ h with h | ⟨h1, j, hj, h2, h3⟩
                · simp at h
                · obtain ⟨r', f, h4, h5, h6, h7⟩ := skippable_iff.1 h3
                  have hm : j ∉ submitted d fs jobs := by
                    intro hm
                    have := (List.mem_filter.1 hm).2
                    rw [h3] at this
                    cases this
                  subst h2
                  rw [h1] at h4
                  cases h4
                  refine ⟨j, hj, f, rfl, ?_, ?_⟩
                  · dsimp only; rw [hout j hj hm]; exact h6
                  · rw [← h5, h7]
              · exact ⟨j, hj, f, h1, h2, h3⟩
            · intro j hj
              exact (addRecs_get _ _ _ _ ha.targets hd').2 _ (Or.inr ⟨j, hj, rfl⟩)

theorem check_error_state {w : World} {jobs : List Job} {sched : List String} {s s' : Proj} {e : Err}
    (h : check w jobs sched s = (.error e, s')) : s'.state = s.state := by
  unfold check at h
  split at h
  · cases h
  · split at h
    · cases h; rfl
    · split at h
      · cases h; rfl
      · dsimp only at h
        split at h
        · cases h
        · split at h
          · cases h; rfl
          · split at h
            · cases h; rfl
            · cases h

/-- Files of a project which are not configured can only disappear. -/
theorem left_other {w : World} {jobs : List Job} {s s' : Proj} (ha : Apart jobs s.fs)
    (h : Left w jobs s s') {p : String} (hp : ∀ j ∈ jobs, p ≠ j.relpath ∧ p ≠ j.temp) :
    s'.fs p = s.fs p ∨ s'.fs p = none := by
  obtain ⟨d, fs, subs, sched, _, ⟨ps, hps⟩, hsubs, hfs⟩ := h
  have hap : Apart subs fs := by
    rcases hsubs with rfl | rfl
    · exact ⟨by simp, by simp, by simp, by simp⟩
    · exact ha.submitted d (by rw [hps]; exact ha.removed ps)
  rw [hfs, (pool_spec (w := w) hap sched).2 p, hps]
  · exact (removeDropped_spec jobs ps s.fs p).1
  · intro i hi
    rcases hsubs with rfl | rfl
    · cases hi
    · exact hp i (submitted_sub hi)

theorem honest_left {w : World} {jobs : List Job} {s s' : Proj} (ha : Apart jobs s.fs)
    (hfr : Fresh w jobs s) (hh : Honest w s) (hl : Left w jobs s s') (hst : s'.state = s.state) : Honest w s' := by
  intro d p r f h1 h2 h3 h4
  rw [hst] at h1
  by_cases hp : ∃ j ∈ jobs, p = j.relpath
  · obtain ⟨j, hj, rfl⟩ := hp
    rcases left_target ha hl hj with h | h | ⟨f', h5, _, h6⟩
    · exact hh d _ r f h1 h2 (by rw [← h, h3]) h4
    · rw [h] at h3; cases h3
    · rw [h5] at h3
      cases h3
      exact absurd (h6.symm.trans h4) (hfr.sig d j _ r h1 hj h2)
  · rcases left_other ha hl (p := p) (fun j hj => ⟨fun e => hp ⟨j, hj, e⟩,
        hfr.temp d p h1 (Dict.mem_keys_of_get? h2) j hj⟩) with h | h
    · exact hh d _ r f h1 h2 (by rw [← h, h3]) h4
    · rw [h] at h3; cases h3

theorem honest_check {w : World} {jobs : List Job} {sched : List String} {s : Proj} (ha : Apart jobs s.fs)
    (hfr : Fresh w jobs s) (hh : Honest w s) (hc : Completed w jobs sched s) :
    Honest w (check w jobs sched s).2 := by
  have hl := check_left w jobs sched s
  rcases hr : check w jobs sched s with ⟨r, s'⟩
  rw [hr] at hl
  cases r with
  | error e => exact honest_left ha hfr hh hl (check_error_state hr)
  | ok u =>
    by_cases hne : jobs = []
    · subst hne
      simp only [check, List.isEmpty_nil, if_true, Prod.mk.injEq] at hr
      exact hr.2 ▸ hh
    · obtain ⟨d, hd, hver, _, h | ⟨_, d', h1, h2, _⟩⟩ := check_ok ha hh hc hne hr
      · exact honest_left ha hfr hh hl h.1
      · intro d'' p r f h3 h4 h5 h6
        dsimp only at h3 h5
        rw [h1] at h3
        cases h3
        obtain ⟨j, hj, f', rfl, h7, rfl⟩ := h2 p r h4
        obtain ⟨f'', h8, h9⟩ := hver j hj
        rw [h5] at h8
        cases h8
        exact h9

/-- Over all histories, what is recorded is right. -/
theorem hist_honest {w : World} {s : Proj} (h : Hist w s) : Honest w s := by
  induction h with
  | init fs => intro d p r f h; cases h
  | edit s fs' _ he ih =>
    intro d p r f h1 h2 h3 h4
    dsimp only at h1 h3
    by_cases e : fs' p = s.fs p
    · exact ih d p r f h1 h2 (by rw [← e, h3]) h4
    · exact absurd h4 (he d p r f h1 h2 h3 e)
  | check s jobs sched _ ha hf hc ih => exact honest_check ha hf ih hc
  | killed s s' jobs _ ha hf hk ih =>
    have hl := killed_left hk
    cases hk with
    | removing d k hd hj => exact honest_left ha hf ih hl rfl
    | downloading d fs sched hd hj hr => exact honest_left ha hf ih hl rfl
    | storing sched s'' hc ho => intro d p r f h; cases h

/-- The files which `check_external_files` recorded when it last stored its state. -/
def recorded (s : Proj) : List String :=
  match s.state with
  | .has d => d.keys
  | _ => []

theorem recorded_eq {s : Proj} {d : Dict Rec} (h : s.state.load = .ok d) : recorded s = d.keys := by
  unfold recorded
  cases hs : s.state with
  | missing => rw [hs] at h; simp only [StateFile.load, Except.ok.injEq] at h; subst h; rfl
  | torn => rw [hs] at h; cases h
  | has d' => rw [hs] at h; simp only [StateFile.load, Except.ok.injEq] at h; subst h; rfl

/-- **C22, what holds after success.** After any history, if the check succeeds with a configuration
which is not empty, every configured file is present with the configured digest, and every recorded
file which is not configured any more is gone. -/
theorem C22_converges_partial (w : World) (s s' : Proj) (jobs : List Job) (sched : List String) (hist : Hist w s)
    (ha : Apart jobs s.fs) (hc : Completed w jobs sched s) (hne : jobs ≠ [])
    (h : check w jobs sched s = (.ok (), s')) :
    (∀ j ∈ jobs, ∃ f, s'.fs j.relpath = some f ∧ w.digest j.integrity f.bytes = some true) ∧
    (∀ p ∈ recorded s, (∀ j ∈ jobs, j.relpath ≠ p) → s'.fs p = none) := by
  obtain ⟨d, hd, h1, h2, _⟩ := check_ok ha (hist_honest hist) hc hne h
  exact ⟨h1, by rw [recorded_eq hd]; exact h2⟩

theorem removeDropped_noop {jobs : List Job} {fs : Fs} : ∀ {ps : List String},
    (∀ p ∈ ps, ∃ j ∈ jobs, j.relpath = p) → removeDropped jobs ps fs = (.ok (), fs) := by
  intro ps
  induction ps with
  | nil => intro _; rfl
  | cons p ps ih =>
    intro h
    unfold removeDropped
    rw [if_pos (by simpa using h p List.mem_cons_self)]
    exact ih (fun q hq => h q (List.mem_cons_of_mem _ hq))

theorem check_noop {w : World} {jobs : List Job} {sched : List String} {s : Proj} {d : Dict Rec}
    (hd : s.state.load = .ok d) (h1 : ∀ p ∈ d.keys, ∃ j ∈ jobs, j.relpath = p)
    (h2 : ∀ j ∈ jobs, skippable d s.fs j = true) : check w jobs sched s = (.ok (), s) := by
  unfold check
  split
  · rfl
  · rw [hd]
    dsimp only
    rw [removeDropped_noop h1]
    dsimp only
    have : submitted d s.fs jobs = [] := by
      unfold submitted
      rw [List.filter_eq_nil_iff]
      intro j hj
      simp [h2 j hj]
    rw [this]
    rfl

/-- Two configurations ask for the same files with the same integrity. -/
def SameConfig (jobs jobs' : List Job) : Prop :=
  jobs'.map (fun j => (j.relpath, j.integrity)) = jobs.map (fun j => (j.relpath, j.integrity))

theorem SameConfig.mem {jobs jobs' : List Job} (h : SameConfig jobs jobs') {j : Job} (hj : j ∈ jobs') :
    ∃ i ∈ jobs, i.relpath = j.relpath ∧ i.integrity = j.integrity := by
  have : (j.relpath, j.integrity) ∈ jobs'.map (fun j => (j.relpath, j.integrity)) := List.mem_map.2 ⟨j, hj, rfl⟩
  rw [h] at this
  obtain ⟨i, hi, e⟩ := List.mem_map.1 this
  simp only [Prod.mk.injEq] at e
  exact ⟨i, hi, e⟩

theorem skippable_congr {d : Dict Rec} {fs : Fs} {i j : Job} (h1 : i.relpath = j.relpath)
    (h2 : i.integrity = j.integrity) : skippable d fs i = skippable d fs j := by
  unfold skippable; rw [h1, h2]

/-- **C22, repeating the check.** After a successful check which either had no file to drop or had some
file to bring up to date, checking again with the same configuration succeeds and changes nothing,
whatever the servers would answer. Missing: the other successful checks, for which this is false
(`C22_false_after_drop`), and the empty configuration (`C22_false_empty`). -/
theorem C22_stays_partial (w : World) (s s' : Proj) (jobs : List Job) (sched : List String) (hist : Hist w s)
    (ha : Apart jobs s.fs) (hc : Completed w jobs sched s) (hne : jobs ≠ [])
    (h : check w jobs sched s = (.ok (), s'))
    (hx : (∀ p ∈ recorded s, ∃ j ∈ jobs, j.relpath = p) ∨ s'.state ≠ s.state)
    (jobs' : List Job) (hsame : SameConfig jobs jobs') (sched' : List String) :
    check w jobs' sched' s' = (.ok (), s') := by
  have hsame' : SameConfig jobs' jobs := Eq.symm hsame
  obtain ⟨d, hd, h1, h2, ⟨h3, h4, h5⟩ | ⟨_, d', h3, h4, h5⟩⟩ := check_ok ha (hist_honest hist) hc hne h
  · rcases hx with hx | hx
    · rw [recorded_eq hd] at hx
      rw [removeDropped_noop hx] at h5
      refine check_noop (d := d) (by rw [h3]; exact hd) (fun p hp => ?_) (fun j hj => ?_)
      · obtain ⟨j, hj, rfl⟩ := hx p hp
        obtain ⟨i, hi, e, _⟩ := hsame'.mem hj
        exact ⟨i, hi, e⟩
      · obtain ⟨i, hi, e1, e2⟩ := hsame.mem hj
        rw [h5, ← skippable_congr e1 e2]
        exact h4 i hi
    · exact absurd h3 hx
  · refine check_noop (d := d') (by rw [h3]; rfl) (fun p hp => ?_) (fun j hj => ?_)
    · have := (Dict.get?_isSome_iff d' p).2 hp
      obtain ⟨r, hr⟩ := Option.isSome_iff_exists.1 this
      obtain ⟨j, hj, f, rfl, _⟩ := h4 p r hr
      obtain ⟨i, hi, e, _⟩ := hsame'.mem hj
      exact ⟨i, hi, e⟩
    · obtain ⟨i, hi, e1, e2⟩ := hsame.mem hj
      rw [← skippable_congr e1 e2]
      have := (Dict.get?_isSome_iff d' i.relpath).2 (h5 i hi)
      obtain ⟨r, hr⟩ := Option.isSome_iff_exists.1 this
      obtain ⟨k, hk, f, e, h6, h7⟩ := h4 _ r hr
      have : k = i := nodup_map_inj ha.targets hk hi e
      subst this
      exact skippable_iff.2 ⟨r, f, hr, by rw [h7], h6, by rw [h7]⟩

/-! ## Progress -/

/-- Steps a download still needs at most. -/
def rank : Pc → Nat
  | .start => 1 | .get => 0 | .writing rest _ => rest.length + 6 | .verify => 5 | .unlinkTarget => 4
  | .replacing => 3 | .cleanup _ => 2 | .done _ => 0

/-- Steps the download of a job needs at most from here. -/
def need (j : Job) : Pc → Nat
  | .start => 9 + (match j.resp with | .body cs _ => cs.length | .refused => 0)
  | .get => 8 + (match j.resp with | .body cs _ => cs.length | .refused => 0)
  | pc => rank pc

theorem need_step (w : World) (j : Job) (fs : Fs) (pc : Pc) (h : ∀ r, pc ≠ .done r) :
    need j (step w j fs pc).2 < need j pc := by
  cases pc with
  | start => unfold step; dsimp only; split <;> simp [need, rank] <;> omega
  | get => unfold step; dsimp only; split <;> rename_i h' <;> simp [need, rank, h'] <;> omega
  | writing rest b => cases rest with
    | nil => cases b <;> simp [step, need, rank]
    | cons c cs => simp [step, need, rank]
  | verify => unfold step; dsimp only; split <;> simp [need, rank]
  | unlinkTarget => simp [step, need, rank]
  | replacing => unfold step; dsimp only; split <;> simp [need, rank]
  | cleanup r => simp [step, need, rank]
  | done r => exact absurd rfl (h r)

theorem find_job {jobs : List Job} (hn : (jobs.map (·.relpath)).Nodup) {j : Job} (hj : j ∈ jobs) :
    jobs.find? (fun i => i.relpath = j.relpath) = some j := by
  cases hf : jobs.find? (fun i => i.relpath = j.relpath) with
  | none =>
    have := List.find?_eq_none.1 hf j hj
    simp at this
  | some i =>
    have h1 := List.mem_of_find?_eq_some hf
    have h2 : i.relpath = j.relpath := by simpa using List.find?_some hf
    rw [nodup_map_inj hn h1 hj h2]

theorem run_need {w : World} {jobs : List Job} (hn : (jobs.map (·.relpath)).Nodup) {j : Job} (hj : j ∈ jobs) :
    ∀ (sched : List String) (s : Pool), (∃ r, (s.run w jobs sched).pc j.relpath = .done r) ∨
      need j ((s.run w jobs sched).pc j.relpath) + sched.count j.relpath ≤ need j (s.pc j.relpath) := by
  intro sched
  induction sched with
  | nil => intro s; right; simp [Pool.run]
  | cons p ps ih =>
    intro s
    have hrun : s.run w jobs (p :: ps) = (s.move w jobs p).run w jobs ps := rfl
    rw [hrun]
    rcases ih (s.move w jobs p) with h | h
    · exact Or.inl h
    · by_cases e : p = j.relpath
      · subst e
        by_cases hd : ∃ r, s.pc j.relpath = .done r
        · left
          obtain ⟨r, hr⟩ := hd
          have hm : (s.move w jobs j.relpath).pc j.relpath = .done r := by
            simp [Pool.move, find_job hn hj, hr, step]
          rw [hm] at h
          refine ⟨r, ?_⟩
          clear h ih hrun
          generalize s.move w jobs j.relpath = t at hm
          clear hr
          induction ps generalizing t with
          | nil => exact hm
          | cons q qs ih =>
            have : t.run w jobs (q :: qs) = (t.move w jobs q).run w jobs qs := rfl
            rw [this]
            apply ih
            unfold Pool.move
            split
            · exact hm
            · next k hk =>
              dsimp only
              have hk' : k.relpath = q := by simpa using List.find?_some hk
              split
              · next e => rw [← e, hm]; rfl
              · exact hm
        · right
          have hm : (s.move w jobs j.relpath).pc j.relpath = (step w j s.fs (s.pc j.relpath)).2 := by
            simp [Pool.move, find_job hn hj]
          have := need_step w j s.fs (s.pc j.relpath) (fun r hr => hd ⟨r, hr⟩)
          rw [hm] at h
          rw [List.count_cons_self]
          omega
      · have hm : (s.move w jobs p).pc j.relpath = s.pc j.relpath := by
          unfold Pool.move
          split
          · rfl
          · dsimp only; rw [if_neg (fun e' => e e'.symm)]
        rw [hm] at h
        rw [List.count_cons_of_ne (by simpa using e)]
        exact Or.inr h

/-- **C22, termination.** A download ends after a number of its own steps which depends only on the
length of the body, whatever the other downloads do. -/
theorem C22_downloads_end (w : World) (jobs : List Job) (fs : Fs) (ha : Apart jobs fs) (sched : List String)
    (hs : ∀ j ∈ jobs, 10 + (match j.resp with | .body cs _ => cs.length | .refused => 0) ≤ sched.count j.relpath) :
    ((Pool.init fs).run w jobs sched).allDone jobs := by
  intro j hj
  rcases run_need (w := w) ha.targets hj sched (Pool.init fs) with h | h
  · exact h
  · have := hs j hj
    simp only [Pool.init, need] at h
    cases hr : j.resp with
    | refused => simp only [hr] at h this; omega
    | body cs b => simp only [hr] at h this; omega

/-- A server which answers with the content which is configured. -/
def Serves (w : World) (j : Job) : Prop :=
  (∃ b, w.digest j.integrity [] = some b) ∧ ∃ cs, j.resp = .body cs false ∧ w.digest j.integrity cs.flatten = some true

/-- Not on the way to an error. -/
def NoErr : Pc → Prop
  | .cleanup (.error _) => False
  | .done (.error _) => False
  | _ => True

theorem ensure_err {w : World} {fs : Fs} {p i : String} (hb : ∃ b, w.digest i [] = some b)
    (hd : ∀ b, w.digest i b ≠ none) {e : Err} (h : ensureIntegrity w fs p i = .error e) :
    e = .fileNotFound ∨ e = .integrityMismatch := by
  unfold ensureIntegrity at h
  split at h
  · next h' => obtain ⟨b, hb⟩ := hb; rw [hb] at h'; cases h'
  · split at h
    · cases h; exact Or.inl rfl
    · split at h
      · cases h
      · cases h; exact Or.inr rfl
      · next h' => exact absurd h' (hd _)

theorem step_noErr {w : World} {j : Job} {fs : Fs} {old : Option File} {pc : Pc} (hs : Serves w j)
    (hd : ∀ b, w.digest j.integrity b ≠ none)
    (h : Inv w j old (fs j.relpath) (fs j.temp) pc) (hn : NoErr pc) : NoErr (step w j fs pc).2 := by
  obtain ⟨hb, cs, hr, hcs⟩ := hs
  cases pc with
  | start =>
    unfold step; dsimp only
    split
    · trivial
    · trivial
    · trivial
    · next e h1 h2 he => rcases ensure_err hb hd he with rfl | rfl <;> simp_all
  | get => unfold step; simp [hr, NoErr]
  | writing rest b =>
    obtain ⟨_, cs', f, h2, _⟩ := h
    rw [hr] at h2
    cases h2
    cases rest with
    | nil => trivial
    | cons => trivial
  | verify =>
    obtain ⟨_, cs', f, h2, h3, _, h5⟩ := h
    rw [hr] at h2
    cases h2
    have : ensureIntegrity w fs j.temp j.integrity = .ok () := by
      obtain ⟨b, hb⟩ := hb
      unfold ensureIntegrity
      simp only [hb, h3, h5, hcs]
    unfold step
    simp only [this]
    trivial
  | unlinkTarget => trivial
  | replacing =>
    obtain ⟨_, cs', f, h2, h3, _⟩ := h
    unfold step
    simp only [h3]
    trivial
  | cleanup r => cases r with
    | ok => trivial
    | error => exact hn
  | done r => exact hn

theorem run_noErr {w : World} {jobs : List Job} {fs0 : Fs} (ha : Apart jobs fs0)
    (hd : ∀ j ∈ jobs, ∀ b, w.digest j.integrity b ≠ none) (hs : ∀ j ∈ jobs, Serves w j) :
    ∀ (sched : List String) (s : Pool), PoolInv w jobs fs0 s → (∀ j ∈ jobs, NoErr (s.pc j.relpath)) →
      ∀ j ∈ jobs, NoErr ((s.run w jobs sched).pc j.relpath) := by
  intro sched
  induction sched with
  | nil => intro s _ h; exact h
  | cons p ps ih =>
    intro s hi h
    refine ih _ (poolInv_move ha hi p) (fun j hj => ?_)
    unfold Pool.move
    split
    · exact h j hj
    · next k hk =>
      have hm := List.mem_of_find?_eq_some hk
      have hp : k.relpath = p := by simpa using List.find?_some hk
      subst hp
      dsimp only
      split
      · exact step_noErr (hs k hm) (hd k hm) (hi.1 k hm) (h k hm)
      · exact h j hj

theorem removeDropped_ok {jobs : List Job} : ∀ {ps : List String} {fs : Fs}, ps.Nodup →
    (∀ p ∈ ps, (∃ j ∈ jobs, j.relpath = p) ∨ ∃ f, fs p = some f) → (removeDropped jobs ps fs).1 = .ok () := by
  intro ps
  induction ps with
  | nil => intro fs _ _; rfl
  | cons p ps ih =>
    intro fs hn h
    rw [List.nodup_cons] at hn
    unfold removeDropped
    split
    · exact ih hn.2 (fun q hq => h q (List.mem_cons_of_mem _ hq))
    · next hp =>
      rcases h p List.mem_cons_self with h' | ⟨f, hf⟩
      · exact absurd (by simpa using h') hp
      · simp only [hf]
        refine ih hn.2 (fun q hq => ?_)
        rcases h q (List.mem_cons_of_mem _ hq) with h' | ⟨f', hf'⟩
        · exact Or.inl h'
        · exact Or.inr ⟨f', by rw [upd_ne _ _ (fun e : q = p => hn.1 (by rw [← e]; exact hq))]; exact hf'⟩

theorem addRecs_ok {fs : Fs} : ∀ {jobs : List Job} {acc : Dict Rec},
    (∀ j ∈ jobs, ∃ f, fs j.relpath = some f) → ∃ d', addRecs fs jobs acc = .ok d' := by
  intro jobs
  induction jobs with
  | nil => intro acc _; exact ⟨_, rfl⟩
  | cons j js ih =>
    intro acc h
    unfold addRecs
    split
    · exact ih (fun i hi => h i (List.mem_cons_of_mem _ hi))
    · obtain ⟨f, hf⟩ := h j List.mem_cons_self
      simp only [hf]
      exact ih (fun i hi => h i (List.mem_cons_of_mem _ hi))

theorem firstFailure_of {s : Pool} : ∀ {jobs : List Job}, (∀ j ∈ jobs, NoErr (s.pc j.relpath)) →
    firstFailure s jobs = .ok () := by
  intro jobs
  induction jobs with
  | nil => intro _; rfl
  | cons j js ih =>
    intro h
    unfold firstFailure
    split
    · next e he =>
      have := h j List.mem_cons_self
      rw [he] at this
      exact this.elim
    · exact ih (fun i hi => h i (List.mem_cons_of_mem _ hi))

/-- **C22, success.** If the state file can be read, the recorded files which are no longer configured
are still there, the integrity strings can be interpreted, and the servers have the right content, the
check succeeds under every schedule which ends the downloads. -/
theorem C22_succeeds (w : World) (jobs : List Job) (sched : List String) (s : Proj) (ha : Apart jobs s.fs)
    (hc : Completed w jobs sched s) (d : Dict Rec) (hd : s.state.load = .ok d) (hk : d.NodupKeys)
    (hold : ∀ p ∈ d.keys, (∃ j ∈ jobs, j.relpath = p) ∨ ∃ f, s.fs p = some f)
    (hi : ∀ j ∈ jobs, ∀ b, w.digest j.integrity b ≠ none) (hs : ∀ j ∈ jobs, Serves w j) :
    (check w jobs sched s).1 = .ok () := by
  unfold check
  split
  · rfl
  · rw [hd]
    dsimp only
    have hrm := removeDropped_ok (jobs := jobs) hk hold
    rcases hr : removeDropped jobs d.keys s.fs with ⟨r, fs⟩
    rw [hr] at hrm
    dsimp only at hrm
    subst hrm
    dsimp only
    split
    · rfl
    · have hap : Apart (submitted d fs jobs) fs := by
        have := ha.removed d.keys
        rw [hr] at this
        exact ha.submitted d this
      have hno := run_noErr hap (fun j hj => hi j (submitted_sub hj)) (fun j hj => hs j (submitted_sub hj))
        sched (Pool.init fs) (poolInv_init hap) (fun j hj => trivial)
      rw [firstFailure_of hno]
      dsimp only
      have hp := pool_spec (w := w) hap sched
      have hall : ∀ j ∈ jobs, ∃ f, ((Pool.init fs).run w (submitted d fs jobs) sched).fs j.relpath = some f := by
        intro j hj
        by_cases hm : j ∈ submitted d fs jobs
        · obtain ⟨r, hr'⟩ := hc d fs hd hr j hm
          have h1 := hp.1 j hm
          have h2 := hno j hm
          rw [hr'] at h1 h2
          cases r with
          | ok u => obtain ⟨_, f, h3, _⟩ := h1; exact ⟨f, h3⟩
          | error e => exact h2.elim
        · have hsk : skippable d fs j = true := by
            by_contra hn
            exact hm (List.mem_filter.2 ⟨hj, by simpa using hn⟩)
          obtain ⟨_, f, _, _, h3, _⟩ := skippable_iff.1 hsk
          refine ⟨f, ?_⟩
          rw [hp.2 j.relpath, h3]
          intro i hi
          exact ⟨fun e => hm (nodup_map_inj ha.targets hj (submitted_sub hi) e ▸ hi),
            fun e => ha.sep i (submitted_sub hi) j hj e.symm⟩
      obtain ⟨d', hd'⟩ := addRecs_ok (acc := keptRecs d fs jobs []) hall
      rw [hd']

/-! ## A concrete project -/

deriving instance DecidableEq for Except

/-- The digest `"sha-1"` is that of content beginning with 1, and so on; other strings are malformed. -/
def exW : World where
  digest i b :=
    if i = "sha-1" then some (b.head? = some 1) else if i = "sha-2" then some (b.head? = some 2) else none
  sigOf p b := ⟨b.length, 7, p.length⟩

def exA : Job := ⟨"src/a.js", "sha-1", "out/t1.tmp", .body [[1], [5, 6]] false⟩
def exB : Job := ⟨"src/b.js", "sha-2", "out/t2.tmp", .body [[2, 2]] false⟩
def exSched : List String := ["src/a.js", "src/b.js", "src/b.js", "src/a.js"] ++
  (List.replicate 10 "src/a.js" ++ List.replicate 10 "src/b.js")

/-- Nothing is there yet. -/
def ex0 : Proj := ⟨fun _ => none, .missing⟩
/-- After both files were downloaded. -/
def ex1 : Proj := (check exW [exA, exB] exSched ex0).2

theorem ex_apart (fs : Fs) (h : ∀ p, fs p = none) : Apart [exA, exB] fs :=
  ⟨by decide, by decide, by decide, fun j _ => h _⟩

theorem ex1_ok : (check exW [exA, exB] exSched ex0).1 = .ok () := by decide +kernel

theorem ex1_state : ex1.state =
    .has [("src/a.js", ⟨"sha-1", ⟨3, 7, 10⟩⟩), ("src/b.js", ⟨"sha-2", ⟨2, 7, 10⟩⟩)] := by
  rfl

theorem ex1_fs : ex1.fs "src/a.js" = some ⟨[1, 5, 6], ⟨3, 7, 10⟩⟩ ∧ ex1.fs "src/b.js" = some ⟨[2, 2], ⟨2, 7, 10⟩⟩ ∧
    ex1.fs "out/t1.tmp" = none ∧ ex1.fs "out/t2.tmp" = none := by decide +kernel

theorem ex_completed : Completed exW [exA, exB] exSched ex0 := by
  intro d fs hd hr
  simp only [ex0, StateFile.load, Except.ok.injEq] at hd
  subst hd
  simp only [Dict.keys_nil, removeDropped, Prod.mk.injEq, true_and] at hr
  have ha : Apart (submitted [] fs [exA, exB]) fs :=
    (ex_apart fs (by rw [← hr]; intro p; rfl)).submitted [] (by rw [← hr]; intro j _; rfl)
  refine C22_downloads_end exW _ fs ha _ (fun j hj => ?_)
  have := submitted_sub hj
  simp only [List.mem_cons, List.not_mem_nil, or_false] at this
  rcases this with rfl | rfl <;> decide

/-- The histories include this one. -/
theorem ex1_hist : Hist exW ex1 :=
  Hist.check ex0 [exA, exB] exSched (Hist.init _) (ex_apart _ (fun _ => rfl))
    ⟨fun d j b r h => (by cases h), fun d p h => (by cases h)⟩ ex_completed

example : check exW [exA, exB] [] ex1 = (.ok (), ex1) :=
  C22_stays_partial exW ex0 ex1 [exA, exB] exSched (Hist.init _) (ex_apart _ (fun _ => rfl)) ex_completed
    (by simp) (Prod.ext ex1_ok rfl) (Or.inl (by simp [recorded, ex0])) _ rfl _

/-- A wrong body for `src/a.js`: the old file stays. -/
def exBad : Job := { exA with resp := .body [[3], [1]] false }
def exOld : Fs := fun p => if p = "src/a.js" then some ⟨[9], ⟨1, 1, 1⟩⟩ else none

example : ((Pool.init exOld).run exW [exBad] (List.replicate 20 "src/a.js")).fs "src/a.js" = exOld "src/a.js" :=
  (C21_mismatch exW [exBad] exOld ⟨by decide, by decide, by decide, by intro j hj; simp at hj; subst hj; rfl⟩ _ exBad
    (by simp) (by intro cs h; cases h; decide) (by intro f h; simp [exOld, exBad, exA] at h; subst h; decide)).1

/-- A process killed after the unlink leaves nothing at the target. -/
example : ((Pool.init exOld).run exW [exA] (List.replicate 7 "src/a.js")).fs "src/a.js" = none := by decide +kernel

/-- **C22 is false in general.** `src/b.js` is dropped from the configuration while `src/a.js` is up to
date: the check succeeds and deletes it but does not store that, so the next check fails. -/
theorem C22_false_after_drop :
    Hist exW ex1 ∧ Apart [exA] ex1.fs ∧ Completed exW [exA] [] ex1 ∧
    (check exW [exA] [] ex1).1 = .ok () ∧
    (check exW [exA] [] (check exW [exA] [] ex1).2).1 = .error .fileNotFound := by
  refine ⟨ex1_hist, ⟨by decide, by decide, by decide, ?_⟩, ?_, by decide +kernel, by decide +kernel⟩
  · intro j hj
    simp only [List.mem_cons, List.not_mem_nil, or_false] at hj
    subst hj
    exact ex1_fs.2.2.1
  · intro d fs hd hr j hj
    rw [ex1_state] at hd
    simp only [StateFile.load, Except.ok.injEq] at hd
    subst hd
    have h1 : fs "src/a.js" = ex1.fs "src/a.js" := by
      have := (removeDropped_spec [exA] (Dict.keys (α := Rec) [("src/a.js", ⟨"sha-1", ⟨3, 7, 10⟩⟩), ("src/b.js", ⟨"sha-2", ⟨2, 7, 10⟩⟩)]) ex1.fs "src/a.js").2.1 (by decide)
      rw [hr] at this
      exact this
    have hm := (List.mem_filter.1 hj)
    have hj' := hm.1
    simp only [List.mem_cons, List.not_mem_nil, or_false] at hj'
    subst hj'
    have h2 : skippable [("src/a.js", (⟨"sha-1", ⟨3, 7, 10⟩⟩ : Rec)), ("src/b.js", ⟨"sha-2", ⟨2, 7, 10⟩⟩)] fs exA = true :=
      skippable_iff.2 ⟨⟨"sha-1", ⟨3, 7, 10⟩⟩, ⟨[1, 5, 6], ⟨3, 7, 10⟩⟩, rfl, rfl, by rw [show exA.relpath = "src/a.js" from rfl, h1]; exact ex1_fs.1, rfl⟩
    rw [h2] at hm
    simp at hm

/-- **C22 is false for the empty configuration**: the check succeeds and leaves every external file. -/
theorem C22_false_empty :
    Hist exW ex1 ∧ (check exW [] [] ex1).1 = .ok () ∧ "src/a.js" ∈ recorded ex1 ∧
    ((check exW [] [] ex1).2.fs "src/a.js").isSome = true :=
  ⟨ex1_hist, by decide +kernel, by decide +kernel, by decide +kernel⟩

/-- A state file whose writing was interrupted makes every later check fail. -/
theorem C22_torn (w : World) (jobs : List Job) (sched : List String) (fs : Fs) (h : jobs ≠ []) :
    check w jobs sched ⟨fs, .torn⟩ = (.error .valueError, ⟨fs, .torn⟩) := by
  unfold check
  rw [if_neg (by simpa using h)]
  rfl

end Verif.Ext
