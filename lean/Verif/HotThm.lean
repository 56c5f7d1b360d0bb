import Verif.HotPhases
/-!
# Incremental rebuilds: what is built, in which order, and when it ends (C10-C15)
-/
namespace Verif.Hot
open Verif Verif.Graph

namespace Phases
variable {env : Env} {a : Args} {d : Disk}

theorem eq (P : Phases env a d) : hotRebuild env a d = P.result := by
  unfold hotRebuild
  simp only
  rw [if_neg P.work, P.hscan]
  simp only [buildPhase]
  rw [P.hre]
  simp only [P.hcl]
  rw [P.herr]
  rfl

theorem run (P : Phases env a d) (hv : ValidGraphs a.old) (ho : ValidOrder env) :
    ∃ s1, Steps P.T (Returned env) P.init s1 ∧
      ((P.loop.1 = .finished ∧ P.loop.2 = s1 ∧ s1.todo = [] ∧ s1.running = []) ∨
       (P.loop.1 = .waiting ∧ P.loop.2 = s1) ∨
       (P.loop.1 = .failed .cyclic ∧ P.loop.2 = s1 ∧ s1.running = [] ∧ s1.todo ≠ [] ∧
         ∀ f ∈ s1.todo, depBlocked P.T s1 f = true ∨ outBlocked P.T s1.pendOut s1.pendArt f = true) ∨
       (∃ e, P.loop.1 = .failed e ∧ Crash P.T env.batches (Returned env) s1 P.loop.2 e)) :=
  schedLoop_steps P.T (Returned env) env.batches (fun b hb _ _ h => ⟨b, hb, h⟩) P.init (P.base hv ho) _ _ rfl

theorem log_form (P : Phases env a d) (hv : ValidGraphs a.old) (ho : ValidOrder env) :
    ∃ s1, Steps P.T (Returned env) P.init s1 ∧
      (P.result.log = s1.log ∨
       ∃ f r, f ∈ s1.running ∧ Returned env f r ∧ P.result.log = s1.log ++ [.finished f r]) := by
  obtain ⟨s1, h1, h⟩ := P.run hv ho
  refine ⟨s1, h1, ?_⟩
  rw [P.result_log]
  rcases h with ⟨_, h, _⟩ | ⟨_, h⟩ | ⟨_, h, _⟩ | ⟨e, _, h | ⟨f, r, hf, hr, h⟩⟩
  · exact .inl (by rw [h])
  · exact .inl (by rw [h])
  · exact .inl (by rw [h])
  · exact .inl (by rw [h.1])
  · exact .inr ⟨f, r, hf, hr, (finish_err h).1⟩

theorem rebuilt_iff (P : Phases env a d) (hv : ValidGraphs a.old) (ho : ValidOrder env) (f : String) :
    f ∈ P.affected ↔ Rebuilt a P.result f := by
  rw [P.mem_affected hv ho]
  unfold Rebuilt touchedSources
  rw [P.result_scanned]

theorem announced_iff (P : Phases env a d) (f o : String) : o ∈ P.T.creates f ↔ Announced a P.result f o := by
  rw [P.creates_iff]
  unfold Announced
  rw [P.result_scanned]
  exact Iff.rfl

theorem wasOutput_iff (P : Phases env a d) (hv : ValidGraphs a.old) (ho : ValidOrder env) (o : String) :
    WasOutput a P.result o ↔ o ∈ P.dO ∨ o ∈ P.T.dirtyArt := by
  unfold WasOutput touchedSources
  rw [P.result_scanned]
  constructor
  · intro h
    cases hs : startsWith o "artifacts" with
    | false => exact .inl ((P.mem_dirty hv ho o).1.2 ⟨hs, h⟩)
    | true => exact .inr ((P.mem_dirty hv ho o).2.2 ⟨hs, h⟩)
  · rintro (h | h)
    · exact ((P.mem_dirty hv ho o).1.1 h).2
    · exact ((P.mem_dirty hv ho o).2.1 h).2

theorem done_all (P : Phases env a d) (hv : ValidGraphs a.old) (ho : ValidOrder env)
    (hf : P.result.status = .finished) :
    ∃ s1, Steps P.T (Returned env) P.init s1 ∧ P.loop.2 = s1 ∧ P.result.log = s1.log ∧ s1.results.keys.Perm P.affected ∧
      (startsOf s1.log).Perm P.affected ∧ (endsOf s1.log).Perm P.affected ∧ Base P.T s1 ∧ P.loop.1 = .finished := by
  obtain ⟨s1, h1, h⟩ := P.run hv ho
  have hfin := P.result_finished hf
  rw [hfin] at h
  simp only [reduceCtorEq, false_and, exists_false, or_false, true_and] at h
  obtain ⟨h2, h3, h4⟩ := h
  have hb := (P.base hv ho).steps h1
  have hp := hb.part
  rw [h3, h4] at hp
  simp only [List.nil_append] at hp
  have hs := hb.starts
  rw [h4, List.nil_append] at hs
  refine ⟨s1, h1, h2, by rw [P.result_log, h2], hp, hs.trans hp, hb.ends.trans hp, hb, hfin⟩

end Phases

/-! ## C10, C11 -/

/-- C10: a rebuild which finishes builds exactly the files which are not deleted and are new in this
run (see `C10_touched_sources`) or used, directly or indirectly, a new or deleted file in the
previous build; and no run, however it ends, builds anything else. -/
theorem C10_rebuild_set (env : Env) (a : Args) (d : Disk) (hv : ValidGraphs a.old) (ho : ValidOrder env) :
    let out := hotRebuild env a d
    (∀ f, Event.started f ∈ out.log → f ∉ a.deleted ∧ Affected a.old (touchedSources a out) f) ∧
    (out.status = .finished →
      ∀ f, f ∉ a.deleted → Affected a.old (touchedSources a out) f → Event.started f ∈ out.log) := by
  intro out
  rcases hotRebuild_cases env a d with ⟨h1, _, h3⟩ | ⟨P, hP⟩
  · refine ⟨by simp [out, h1], fun hf f hd ha => ?_⟩
    obtain ⟨e1, e2, _⟩ := h3 hf
    exfalso
    simp [Affected, touchedSources, out, e1, e2, Dict.keys] at ha
  · rw [show out = P.result from hP]
    constructor
    · intro f hf
      rw [← mem_startsOf] at hf
      have hr : f ∈ P.affected := by
        obtain ⟨s1, h1, h⟩ := P.log_form hv ho
        have hb := (P.base hv ho).steps h1
        have hf' : f ∈ startsOf s1.log := by
          rcases h with h | ⟨g, r, _, _, h⟩
          · rw [← h]; exact hf
          · rw [h] at hf; simpa using hf
        rw [hb.starts.mem_iff] at hf'
        have : f ∈ P.T.affected := hb.part.mem_iff.1 (List.mem_append.2 (.inr hf'))
        exact this
      exact (P.rebuilt_iff hv ho f).1 hr
    · intro hs f hd ha
      obtain ⟨s1, _, _, h3, _, h5, _⟩ := P.done_all hv ho hs
      rw [h3, ← mem_startsOf, h5.mem_iff]
      exact (P.rebuilt_iff hv ho f).2 ⟨hd, ha⟩

/-- C10, second half: which files count as new.  In every run which gets to building, the scanned
files are the changed and added ones, the constants file if the recorded mode is not the current
one, and the placeholders which did not exist and which the scan of some scanned file asked for. -/
theorem C10_touched_sources (env : Env) (a : Args) (d : Disk)
    (hr : (hotRebuild env a d).log ≠ [] ∨ (hotRebuild env a d).status = .finished) :
    let out := hotRebuild env a d
    (∀ f, f ∈ a.changed.keys ∨ f ∈ a.added.keys ∨ (f = a.constants ∧ f ∈ d.files ∧ d.mode ≠ some a.mode) →
      f ∈ out.scanned.keys) ∧
    (∀ f ∈ out.scanned.keys,
      f ∈ a.changed.keys ∨ f ∈ a.added.keys ∨ (f = a.constants ∧ f ∈ d.files ∧ d.mode ≠ some a.mode) ∨
      (f ∉ d.files ∧ ∃ g ∈ out.scanned.keys, ∃ dk r, env.scan dk g = .ok r ∧ f ∈ r.placeholders)) := by
  intro out
  have hmode : ∀ f, f ∈ (modeStep a env.sig d).1.keys ∨ f ∈ a.added.keys ↔
      f ∈ a.changed.keys ∨ f ∈ a.added.keys ∨ (f = a.constants ∧ f ∈ d.files ∧ d.mode ≠ some a.mode) := by
    intro f
    unfold modeStep
    by_cases h1 : d.files.contains a.constants = true
    · rw [if_pos h1]
      have h1' : a.constants ∈ d.files := by simpa using h1
      by_cases h2 : d.mode ≠ some a.mode
      · rw [if_pos h2]
        by_cases h3 : (!a.changed.has a.constants && !a.added.has a.constants) = true
        · simp only [h3, if_true, Dict.mem_keys_set]
          constructor
          · rintro ((h | h) | h)
            · exact .inr (.inr ⟨h, h ▸ h1', h2⟩)
            · exact .inl h
            · exact .inr (.inl h)
          · rintro (h | h | ⟨h, _⟩)
            · exact .inl (.inr h)
            · exact .inr h
            · exact .inl (.inl h)
        · simp only [h3]
          simp only [Bool.and_eq_true, Bool.not_eq_true', not_and, Bool.not_eq_false] at h3
          constructor
          · rintro (h | h)
            · exact .inl h
            · exact .inr (.inl h)
          · rintro (h | h | ⟨h, _⟩)
            · exact .inl h
            · exact .inr h
            · subst h
              by_cases h4 : a.changed.has a.constants = true
              · exact .inl ((Dict.has_iff _ _).1 h4)
              · exact .inr ((Dict.has_iff _ _).1 (h3 (by simpa using h4)))
      · rw [if_neg h2]
        constructor
        · rintro (h | h)
          · exact .inl h
          · exact .inr (.inl h)
        · rintro (h | h | ⟨_, _, h⟩)
          · exact .inl h
          · exact .inr h
          · exact absurd h h2
    · rw [if_neg h1]
      have h1' : a.constants ∉ d.files := by simpa using h1
      constructor
      · rintro (h | h)
        · exact .inl h
        · exact .inr (.inl h)
      · rintro (h | h | ⟨h, h', _⟩)
        · exact .inl h
        · exact .inr h
        · exact absurd (h ▸ h') h1'
  have hfiles : (modeStep a env.sig d).2.files = d.files := by
    unfold modeStep
    split
    · split
      · rfl
      · rfl
    · rfl
  rcases hotRebuild_cases env a d with ⟨h1, _, h3⟩ | ⟨P, hP⟩
  · rcases hr with hr | hr
    · exact absurd h1 hr
    · obtain ⟨e1, e2, e3, e4, _⟩ := h3 hr
      have hm : ∀ f, ¬ (f ∈ a.changed.keys ∨ f ∈ a.added.keys ∨ (f = a.constants ∧ f ∈ d.files ∧ d.mode ≠ some a.mode)) := by
        intro f
        rw [← hmode, e3, e4]
        simp [Dict.keys]
      refine ⟨fun f h => absurd h (hm f), fun f h => ?_⟩
      simp [out, e1, Dict.keys] at h
  · have hsp := (scanLoop_spec _ _ _ _ _ _ (by simp [Dict.NodupKeys, Dict.keys]) (by simp [Dict.NodupKeys, Dict.keys]) (by simp) P.hscan)
    obtain ⟨_, _, ⟨new, e1, e2, e3, _⟩, _⟩ := hsp
    rw [show out = P.result from hP, P.result_scanned]
    refine ⟨fun f h => ?_, fun f h => ?_⟩
    · rw [e3]
      exact .inr (.inl (List.mem_append.2 ((hmode f).2 h)))
    · rw [e3] at h
      rcases h with h | h | h
      · simp [Dict.keys] at h
      · rcases (hmode f).1 (List.mem_append.1 h) with h | h | h
        · exact .inl h
        · exact .inr (.inl h)
        · exact .inr (.inr (.inl h))
      · obtain ⟨x1, x2, y, hy, x3⟩ := e2 f h
        exact .inr (.inr (.inr ⟨by simpa [hfiles] using x1, y, hy, x3⟩))

/-- C11: in a rebuild which finishes, every file to rebuild is handed to the builder exactly once,
completes exactly once, and nothing else is built.  However a run ends, no file is built twice and
a build completes only after it was started. -/
theorem C11_built_exactly_once (env : Env) (a : Args) (d : Disk) (hv : ValidGraphs a.old) (ho : ValidOrder env) :
    let out := hotRebuild env a d
    (startsOf out.log).Nodup ∧ (endsOf out.log).Nodup ∧
    (∀ pre f r post, out.log = pre ++ .finished f r :: post → Event.started f ∈ pre) ∧
    (out.status = .finished →
      ∀ f, (f ∈ startsOf out.log ↔ Rebuilt a out f) ∧ (f ∈ endsOf out.log ↔ Rebuilt a out f)) := by
  intro out
  rcases hotRebuild_cases env a d with ⟨h1, _, h3⟩ | ⟨P, hP⟩
  · have hn : ∀ pre (e : Event) post, ([] : List Event) ≠ pre ++ e :: post := by
      intro pre e post h; simp at h
    refine ⟨by simp [out, h1, startsOf], by simp [out, h1, endsOf],
      fun pre f r post h => absurd ((show out.log = [] from h1).symm.trans h) (hn _ _ _), fun hf f => ?_⟩
    obtain ⟨e1, e2, _⟩ := h3 hf
    simp [Rebuilt, Affected, touchedSources, out, e1, e2, Dict.keys, h1, startsOf, endsOf]
  · rw [show out = P.result from hP]
    obtain ⟨s1, h1, h⟩ := P.log_form hv ho
    have hb := (P.base hv ho).steps h1
    have hnd := hb.all_nodup
    rw [List.nodup_append] at hnd
    have hord : ∀ s, Steps P.T (Returned env) P.init s →
        ∀ pre f r post, s.log = pre ++ .finished f r :: post → Event.started f ∈ pre := by
      intro s hs
      induction hs with
      | refl => intro pre f r post h; exact absurd h (by simp [Phases.init, initSched])
      | @tail s2 s3 p q ih =>
        intro pre f r post he
        have hb2 := (P.base hv ho).steps p
        cases q with
        | @start g hg hd ho =>
          change s2.log ++ [.started g] = _ at he
          rcases split_snoc he with ⟨_, _, e2⟩ | ⟨q, _, e2⟩
          · simp at e2
          · exact ih pre f r q e2
        | @finish g r' _ hf hok he' =>
          obtain ⟨cs, m, dd, _, _, e⟩ := finish_ok he'
          rw [e] at he
          change s2.log ++ [.finished g r'] = _ at he
          rcases split_snoc he with ⟨_, e1, e2⟩ | ⟨q, _, e2⟩
          · simp only [Event.finished.injEq] at e2
            obtain ⟨rfl, rfl⟩ := e2
            rw [e1]
            exact ((runningAt_iff hb2 f).2 hf).1
          · exact ih pre f r q e2
    refine ⟨?_, ?_, ?_, ?_⟩
    · rcases h with h | ⟨f, r, _, _, h⟩
      · rw [h]; exact hb.starts.nodup_iff.2 hnd.2.1
      · rw [h]; simp only [startsOf_append, startsOf_f, List.append_nil]; exact hb.starts.nodup_iff.2 hnd.2.1
    · rcases h with h | ⟨f, r, hf, _, h⟩
      · rw [h]; exact hb.ends.nodup_iff.2 (List.nodup_append.1 hnd.2.1).2.1
      · rw [h]
        simp only [endsOf_append, endsOf_f]
        rw [List.nodup_append]
        refine ⟨hb.ends.nodup_iff.2 (List.nodup_append.1 hnd.2.1).2.1, by simp, ?_⟩
        intro x hx y hy
        simp only [List.mem_singleton] at hy
        subst hy
        rintro rfl
        exact hb.running_not_result hf (hb.ends.mem_iff.1 hx)
    · intro pre f r post he
      rcases h with h | ⟨g, r', hg, _, h⟩
      · exact hord s1 h1 pre f r post (h.symm.trans he)
      · rw [h] at he
        rcases split_snoc he with ⟨_, e1, e2⟩ | ⟨q, _, e2⟩
        · simp only [Event.finished.injEq] at e2
          obtain ⟨rfl, rfl⟩ := e2
          rw [e1]
          exact ((runningAt_iff hb f).2 hg).1
        · exact hord s1 h1 pre f r q e2
    · intro hs f
      obtain ⟨s1, _, _, h3, _, h5, h6, _⟩ := P.done_all hv ho hs
      rw [h3, h5.mem_iff, h6.mem_iff, P.rebuilt_iff hv ho]
      exact ⟨Iff.rfl, Iff.rfl⟩

/-! ## C12 -/

/-- C12: whenever a build starts, the builds of all the files it depends on which this run rebuilds
have finished, for every schedule and however the run ends. -/
theorem C12_dependencies_first (env : Env) (a : Args) (d : Disk) (hv : ValidGraphs a.old) (ho : ValidOrder env)
    (pre : List Event) (f : String) (post : List Event) (h : (hotRebuild env a d).log = pre ++ .started f :: post) :
    ∀ g, Needs a (hotRebuild env a d) f g → Rebuilt a (hotRebuild env a d) g → ∃ r, Event.finished g r ∈ pre := by
  rcases hotRebuild_cases env a d with ⟨h1, _, h3⟩ | ⟨P, hP⟩
  · rw [h1] at h; simp at h
  · rw [hP] at h ⊢
    intro g hg hr
    obtain ⟨s1, h1, hl⟩ := P.log_form hv ho
    have hb := (P.base hv ho).steps h1
    have hd : DepsFirst P.T P.result.log := by
      have h0 : DepsFirst P.T s1.log :=
        DepsFirst.steps (P.base hv ho) (by intro pre f post h; simp [Phases.init, initSched] at h) h1
      rcases hl with hl | ⟨f, r, _, _, hl⟩
      · rw [hl]; exact h0
      · rw [hl]; exact h0.snoc_finished
    have hfa : f ∈ P.affected := by
      rw [P.rebuilt_iff hv ho, ← hP]
      exact (C10_rebuild_set env a d hv ho).1 f (by rw [hP, h]; simp)
    exact hd pre f post h g ((P.deps_iff hv f g hfa).2 hg) ((P.rebuilt_iff hv ho g).2 hr)

/-! ## C13 -/

/-- C13, proved part: no two running builds announce the same output, if the output belonged (in the
previous build) to a file rebuilt or deleted now and it was not made yet in this run, or is an
artifact; provided builds make only what was announced.  Missing: outputs which are new in this run
or were already made in it (see `C13_false`). -/
theorem C13_no_shared_output_partial (env : Env) (a : Args) (d : Disk) (hv : ValidGraphs a.old)
    (ho : ValidOrder env)
    (hw : ∀ f r, Returned env f r → ∀ o ∈ r.produced ++ r.reused, Announced a (hotRebuild env a d) f o)
    (pre post : List Event) (h : (hotRebuild env a d).log = pre ++ post) (f g o : String) (hne : f ≠ g)
    (hf : Running pre f) (hg : Running pre g)
    (hof : Announced a (hotRebuild env a d) f o) (hog : Announced a (hotRebuild env a d) g o)
    (hwas : WasOutput a (hotRebuild env a d) o) :
    startsWith o "artifacts" = false ∧ Made pre o := by
  rcases hotRebuild_cases env a d with ⟨h1, _, h3⟩ | ⟨P, hP⟩
  · rw [h1] at h
    have : pre = [] := (List.append_eq_nil_iff.1 h.symm).1
    subst this
    simp [Running] at hf
  · rw [hP] at h hw hof hog hwas
    obtain ⟨s1, h1, hl⟩ := P.log_form hv ho
    have hb := (P.base hv ho).steps h1
    have ht := (P.track hv ho).steps h1
    have hw' : ∀ f r, Returned env f r → Within P.T f r := fun f r hr o ho => (P.announced_iff f o).2 (hw f r hr o ho)
    obtain ⟨he, hx⟩ := excl_steps (P.base hv ho) (P.track hv ho) excl_init
      (by intro pre post h f g _ hf; simp [initSched, Phases.init] at h; rw [h.1] at hf; simp [RunningAt] at hf) hw' h1
    have hX : ExclLog P.T P.dO P.result.log := by
      rcases hl with hl | ⟨f, r, _, _, hl⟩
      · rw [hl]; exact hx
      · rw [hl]; exact ExclLog.snoc_finished hb ht he hx
    obtain ⟨q1, q2⟩ := hX pre post h f g hne hf hg o ((P.announced_iff f o).2 hof) ((P.announced_iff g o).2 hog)
    rcases (P.wasOutput_iff hv ho o).1 hwas with hd | hd
    · exact ⟨((P.mem_dirty hv ho o).1.1 hd).1, q2 hd⟩
    · exact absurd hd q1

/-! ## C14 -/

/-- Whenever the rebuild sleeps it is woken by the completion of at least one running build
(`asyncio.wait(.., FIRST_COMPLETED)`): stated for each `k`, about the run as it stands after `k`
wake-ups. -/
def WokenByCompletion (env : Env) (a : Args) (d : Disk) : Prop :=
  ∀ k b, env.batches[k]? = some b →
    let sofar := hotRebuild { env with batches := env.batches.take k } a d
    sofar.status = .waiting → ∃ f, Running sofar.log f ∧ (b f).isSome = true

theorem submit_running {T : Tables} {s s1 : Sched} (h : submit T s = .ok s1) : s1.running ≠ [] ∧ s1.results = s.results := by
  unfold submit at h
  simp only at h
  split at h
  · simp at h
  · rename_i hc
    simp only [Except.ok.injEq] at h
    subst h
    refine ⟨?_, rfl⟩
    simp only [ne_eq, List.append_eq_nil_iff, not_and]
    intro h1 h2
    exact hc ⟨h2, h1⟩

theorem schedLoop_snoc {T : Tables} (bs : List Batch) (b : Batch) (s s' : Sched)
    (h : schedLoop T (bs ++ [b]) s = (.waiting, s')) :
    ∃ s1 s2, schedLoop T bs s = (.waiting, s1) ∧ drain T b s1.running s1 = (.ok (), s2) ∧ submit T s2 = .ok s' := by
  induction bs generalizing s with
  | nil =>
    rw [List.nil_append] at h
    unfold schedLoop at h
    split at h
    · simp at h
    · rename_i hd
      split at h
      · simp at h
      · rename_i s1 hs1
        simp only at h
        split at h
        · simp at h
        · rename_i s2 hdr
          refine ⟨s1, s2, ?_, hdr, ?_⟩
          · unfold schedLoop
            rw [if_neg hd, hs1]
          · unfold schedLoop at h
            split at h
            · simp at h
            · split at h
              · simp at h
              · rename_i s3 hs3
                simp only [Prod.mk.injEq, true_and] at h
                rw [hs3, h]
  | cons c bs ih =>
    rw [List.cons_append] at h
    unfold schedLoop at h
    split at h
    · simp at h
    · rename_i hd
      split at h
      · simp at h
      · rename_i s1 hs1
        simp only at h
        split at h
        · simp at h
        · rename_i s2 hdr
          obtain ⟨t1, t2, e1, e2, e3⟩ := ih s2 h
          refine ⟨t1, t2, ?_, e2, e3⟩
          unfold schedLoop
          rw [if_neg hd, hs1]
          simp only [hdr, e1]

theorem schedLoop_waiting_running {T : Tables} (bs : List Batch) (s s' : Sched)
    (h : schedLoop T bs s = (.waiting, s')) : s'.running ≠ [] := by
  induction bs generalizing s with
  | nil =>
    unfold schedLoop at h
    split at h
    · simp at h
    · split at h
      · simp at h
      · rename_i s1 hs1
        simp only [Prod.mk.injEq, true_and] at h
        subst h
        exact (submit_running hs1).1
  | cons c bs ih =>
    unfold schedLoop at h
    split at h
    · simp at h
    · split at h
      · simp at h
      · simp only at h
        split at h
        · simp at h
        · exact ih _ h

/-- The same run with another schedule. -/
def Phases.withBatches {env : Env} {a : Args} {d : Disk} (P : Phases env a d) (bs : List Batch) :
    Phases { env with batches := bs } a d :=
  ⟨P.st, P.updated, P.outMap, P.seen, P.popped, P.work, P.hscan, P.hre, P.hcl, P.herr⟩

/-- C14, termination: a rebuild sleeps fewer times than there are files to rebuild.  If it is still
waiting, its schedule had fewer wake-ups than there are files to rebuild. -/
theorem C14_terminates (env : Env) (a : Args) (d : Disk) (hv : ValidGraphs a.old) (ho : ValidOrder env)
    (hfair : WokenByCompletion env a d) (hw : (hotRebuild env a d).status = .waiting) :
    ∃ files : List String, files.Nodup ∧ (∀ f ∈ files, Rebuilt a (hotRebuild env a d) f) ∧
      env.batches.length < files.length := by
  rcases hotRebuild_cases env a d with ⟨h1, h2, h3⟩ | ⟨P, hP⟩
  · exact absurd hw h2.2
  · rw [hP] at hw ⊢
    have hwait : ∀ (env' : Env) (P : Phases env' a d), P.result.status = .waiting → P.loop.1 = .waiting := by
      intro env' P hw
      unfold Phases.result at hw
      rcases hll : P.loop with ⟨x, s⟩
      rw [hll] at hw
      cases x with
      | finished => exfalso; simp only [finalize] at hw; repeat' split at hw
                    all_goals simp at hw
      | waiting => rfl
      | failed e => simp at hw
    have hwait2 : ∀ (env' : Env) (P : Phases env' a d), P.loop.1 = .waiting → P.result.status = .waiting := by
      intro env' P hw
      unfold Phases.result
      rcases hll : P.loop with ⟨x, s⟩
      rw [hll] at hw
      simp only at hw
      subst hw
      rfl
    have hk : ∀ k, k ≤ env.batches.length → ∀ s, schedLoop P.T (env.batches.take k) P.init = (.waiting, s) →
        k ≤ s.results.keys.length ∧ Base P.T s := by
      intro k
      induction k with
      | zero =>
        intro _ s hs
        refine ⟨Nat.zero_le _, ?_⟩
        obtain ⟨s1, q, hq⟩ := schedLoop_steps P.T (fun _ _ => True) _ (by simp) P.init (P.base hv ho) _ _ hs
        have hs1 : s = s1 := by simpa using hq
        rw [hs1]
        exact (P.base hv ho).steps q
      | succ k ih =>
        intro hle s hs
        have hlt : k < env.batches.length := hle
        rw [List.take_add_one, List.getElem?_eq_getElem hlt] at hs
        simp only [Option.toList_some] at hs
        obtain ⟨s1, s2, e1, e2, e3⟩ := schedLoop_snoc _ _ _ _ hs
        obtain ⟨i1, i2⟩ := ih (Nat.le_of_lt hlt) s1 e1
        have hP' : (P.withBatches (env.batches.take k)).loop = (.waiting, s1) := e1
        have hst := hwait2 _ (P.withBatches (env.batches.take k)) (by rw [hP'])
        have hf := hfair k (env.batches[k]) (List.getElem?_eq_getElem hlt)
        simp only at hf
        rw [(P.withBatches (env.batches.take k)).eq] at hf
        obtain ⟨f, hf1, hf2⟩ := hf hst
        rw [Phases.result_log, hP'] at hf1
        have hf1 : f ∈ s1.running := (runningAt_iff i2 f).1 hf1
        obtain ⟨_, m2⟩ := drain_mono e2 i2 i2.running_nodup (fun _ h => h)
        have := m2 ⟨f, hf1, hf2⟩
        have e4 := (submit_running e3).2
        rw [e4]
        refine ⟨by omega, ?_⟩
        obtain ⟨t1, q, hq⟩ := schedLoop_steps P.T (fun _ _ => True) _ (by simp) P.init (P.base hv ho) _ _ hs
        have hs1 : s = t1 := by simpa using hq
        rw [hs1]
        exact (P.base hv ho).steps q
    have hl := hwait _ P hw
    have hrun := schedLoop_waiting_running env.batches P.init P.loop.2 (Prod.ext hl rfl)
    obtain ⟨h1, h2⟩ := hk env.batches.length (Nat.le_refl _) P.loop.2 (by rw [List.take_length]; exact Prod.ext hl rfl)
    have h3 := results_le h2
    have : 0 < P.loop.2.running.length := by
      rcases hq : P.loop.2.running with _ | _
      · exact absurd hq hrun
      · simp
    refine ⟨P.affected, P.affected_nodup hv ho, fun f hf => (P.rebuilt_iff hv ho f).1 hf, ?_⟩
    have : P.T.affected = P.affected := rfl
    rw [this] at h3
    omega

end Verif.Hot
