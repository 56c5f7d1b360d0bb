import Verif.CrashLemmas
/-! # C19: the constants and the mode of the build -/
namespace Verif.Hot
open Verif Verif.Graph

/-! ## The mode file after a run -/

theorem finish_mode (T : Tables) (s : Sched) (f : String) (r : BuildResult) : (finish T s f r).2.disk.mode = s.disk.mode := by
  unfold finish
  dsimp only
  split
  · rfl
  · split <;> rfl

theorem drain_mode (T : Tables) (b : Batch) (fs : List String) (s : Sched) : (drain T b fs s).2.disk.mode = s.disk.mode := by
  induction fs generalizing s with
  | nil => rfl
  | cons f fs ih =>
    unfold drain
    split
    · exact ih s
    · rfl
    · rename_i r _
      have hf := finish_mode T s f r
      split
      · rename_i e s1 he; rw [he] at hf; exact hf
      · rename_i s1 he; rw [he] at hf; exact (ih s1).trans hf

theorem submit_mode {T : Tables} {s s1 : Sched} (h : submit T s = .ok s1) : s1.disk.mode = s.disk.mode := by
  unfold submit at h
  dsimp only at h
  split at h
  · simp at h
  · simp only [Except.ok.injEq] at h
    subst h; rfl

theorem schedLoop_mode (T : Tables) (bs : List Batch) (s : Sched) : (schedLoop T bs s).2.disk.mode = s.disk.mode := by
  induction bs generalizing s with
  | nil =>
    unfold schedLoop
    split
    · rfl
    · split
      · rfl
      · rename_i s1 hs; exact submit_mode hs
  | cons b bs ih =>
    unfold schedLoop
    split
    · rfl
    · split
      · rfl
      · rename_i s1 hs
        have h2 := (drain_mode T b s1.running s1).trans (submit_mode hs)
        dsimp only
        split
        · rename_i e s2 he; rw [he] at h2; exact h2
        · rename_i s2 he; rw [he] at h2; exact (ih s2).trans h2

theorem unlinkStrict_mode (fs : List String) (d : Disk) : (unlinkStrict fs d).2.mode = d.mode := by
  induction fs generalizing d with
  | nil => rfl
  | cons f fs ih =>
    unfold unlinkStrict
    split
    · exact ih _
    · rfl

theorem removeEmptyDirs_mode (ps : List String) (d : Disk) : (removeEmptyDirs ps d).2.mode = d.mode := by
  induction ps generalizing d with
  | nil => rfl
  | cons f fs ih =>
    unfold removeEmptyDirs
    split
    · split
      · exact ih _
      · exact ih _
    · rfl

theorem finalize_mode (env : Env) (a : Args) (changed added : Dict Sig) (newPh : Dict String)
    (folders : List String) (scanned : Dict ScanResult) (s : Sched) :
    (finalize env a changed added newPh folders scanned s).disk.mode = s.disk.mode := by
  have h1 := unlinkStrict_mode s.stillArt s.disk
  unfold finalize
  split
  · rename_i e d he; rw [he] at h1; exact h1
  · rename_i d he
    rw [he] at h1
    have h2 := removeEmptyDirs_mode (sortByLen (insertAll folders [])) d
    split
    · rename_i e d1 hr; rw [hr] at h2; exact h2.trans h1
    · rename_i d1 hr
      rw [hr] at h2
      split
      · exact h2.trans h1
      · exact h2.trans h1

theorem buildPhase_mode (env : Env) (a : Args) (changed : Dict Sig) (st : ScanState) :
    (buildPhase env a changed st).disk.mode = st.disk.mode := by
  unfold buildPhase
  split
  · rfl
  · split
    · rfl
    · dsimp only
      split
      · rfl
      · generalize hT : tablesOf _ _ _ _ _ = T
        generalize hI : initSched _ _ _ _ _ = S0
        have h1 := schedLoop_mode T env.batches S0
        have h0 : S0.disk.mode = st.disk.mode := by subst hI; rfl
        split
        · rename_i s hs
          rw [hs] at h1
          rw [finalize_mode]
          exact h1.trans h0
        · rename_i x s hx hs
          rw [hs] at h1
          exact h1.trans h0

/-- However a rebuild ends, the mode file is what was decided at its start. -/
theorem hotRebuild_mode (env : Env) (a : Args) (d : Disk) :
    (hotRebuild env a d).disk.mode = if a.constants ∈ d.files then some a.mode else none := by
  have hm : (modeStep a env.sig d).2.mode = if a.constants ∈ d.files then some a.mode else none := by
    unfold modeStep
    by_cases h : a.constants ∈ d.files
    · rw [if_pos (by simpa using h), if_pos h]
      split
      · rfl
      · rename_i hc; simpa using hc
    · rw [if_neg (by simpa using h), if_neg h]
  rw [← hm]
  unfold hotRebuild
  dsimp only
  split
  · rfl
  · obtain ⟨new, h⟩ := Crash.scanLoop_disk env.scan env.sig env.scanFuel ((modeStep a env.sig d).1.keys ++ a.added.keys)
      { updated := [], newPh := [], added := a.added, disk := (modeStep a env.sig d).2 }
    split
    · rename_i e st hst; rw [hst] at h; simp only at h; rw [h]
    · rename_i st hst; rw [hst] at h; simp only at h
      rw [buildPhase_mode, h]

/-! ## Histories of builds -/

/-- The mode with which the content of the constants output was written, after a run: a build of the
constants writes it for the mode of the run, unless it found the output there and reused it. -/
def contentAfter (c target : String) (m : Mode) (log : List Event) (before : Option Mode) : Option Mode :=
  if log.any (fun e => match e with | .finished f r => f == c && r.produced.contains target | _ => false)
  then some m else before

theorem contentAfter_eq (c target : String) (m : Mode) (log : List Event) (before : Option Mode) :
    ((∃ r, Event.finished c r ∈ log ∧ target ∈ r.produced) → contentAfter c target m log before = some m) ∧
    ((¬ ∃ r, Event.finished c r ∈ log ∧ target ∈ r.produced) → contentAfter c target m log before = before) := by
  unfold contentAfter
  constructor
  · rintro ⟨r, h1, h2⟩
    rw [if_pos]
    exact List.any_eq_true.2 ⟨_, h1, by simpa using h2⟩
  · intro h
    rw [if_neg]
    intro hc
    obtain ⟨e, he, h2⟩ := List.any_eq_true.1 hc
    cases e with
    | started f => simp at h2
    | finished f r =>
      simp only [Bool.and_eq_true, beq_iff_eq, List.contains_eq_mem, decide_eq_true_eq] at h2
      obtain ⟨rfl, h2⟩ := h2
      exact h ⟨r, he, h2⟩

/-- What the code of the constants builder does (handlers/js_constants.py:28-58): the output is
reused if it is on disk when the build starts and produced otherwise; nobody else makes it. -/
structure ConstantsBuilder (c target : String) (env : Env) (a : Args) (d : Disk) : Prop where
  only : ∀ f r, Event.finished f r ∈ (hotRebuild env a d).log → target ∈ r.produced ++ r.reused → f = c
  made : ∀ r, Event.finished c r ∈ (hotRebuild env a d).log → target ∈ r.produced ∨
    (target ∈ r.reused ∧ target ∈ d.files ∧ ¬ WasOutput a (hotRebuild env a d) target)
  notPlaceholder : ∀ dd y r, env.scan dd y = .ok r → target ∉ r.placeholders

/-- The states of a project between builds, all of which finished: the disk, the recorded graphs and
the mode for which the constants output was written.  Between builds the user may change everything
but the mode file and must not create the output by hand. -/
inductive Hist (c target : String) : Disk → Graphs → Option Mode → Prop where
  | start {d m} : d.mode = none → target ∉ d.files → Hist c target d ⟨[], [], []⟩ m
  | build {d gs m} (env : Env) (a : Args) (d0 : Disk) : Hist c target d gs m →
      d0.mode = d.mode → (target ∈ d0.files → target ∈ d.files) →
      a.constants = c → a.old = gs → (c ∈ d0.files → c ∉ a.deleted) →
      ValidOrder env → ConstantsBuilder c target env a d0 →
      (hotRebuild env a d0).status = .finished →
      Hist c target (hotRebuild env a d0).disk ((hotRebuild env a d0).stored.getD gs)
        (contentAfter c target a.mode (hotRebuild env a d0).log m)

/-- The invariant of such histories. -/
structure HistInv (c target : String) (d : Disk) (gs : Graphs) (m : Option Mode) : Prop where
  valid : ValidGraphs gs
  truth : ∀ x, d.mode = some x → m = some x
  recorded : target ∈ d.files → Edge gs.out c target
  known : Edge gs.out c target → contains gs.dep c = true

theorem validGraphs_empty : ValidGraphs ⟨[], [], []⟩ := ⟨run_valid [], run_valid [], run_valid []⟩

/-- One finished build: the invariant is kept, and the constants fit the mode. -/
theorem HistInv.step {c target : String} {d : Disk} {gs : Graphs} {m : Option Mode} (h : HistInv c target d gs m)
    (env : Env) (a : Args) (d0 : Disk) (hmode : d0.mode = d.mode) (hfile : target ∈ d0.files → target ∈ d.files)
    (hc : a.constants = c) (hold : a.old = gs) (hdel : c ∈ d0.files → c ∉ a.deleted) (ho : ValidOrder env)
    (hb : ConstantsBuilder c target env a d0)
    (hf : (hotRebuild env a d0).status = .finished) :
    HistInv c target (hotRebuild env a d0).disk ((hotRebuild env a d0).stored.getD gs)
        (contentAfter c target a.mode (hotRebuild env a d0).log m) ∧
    (c ∈ d0.files → contentAfter c target a.mode (hotRebuild env a d0).log m = some a.mode) := by
  have hv : ValidGraphs a.old := hold ▸ h.valid
  have h11 := C11_built_exactly_once env a d0 hv ho
  dsimp only at h11
  -- a completed build of the constants wrote the output
  have hwrote : ∀ r, Event.finished c r ∈ (hotRebuild env a d0).log → target ∈ r.produced := by
    intro r hr
    rcases hb.made r hr with h' | ⟨_, h2, h3⟩
    · exact h'
    · exfalso
      apply h3
      have hreb : Rebuilt a (hotRebuild env a d0) c := ((h11.2.2.2 hf c).2).1 ((mem_endsOf _ _).2 ⟨r, hr⟩)
      exact ⟨c, hreb.2, by rw [hold]; exact h.recorded (hfile h2)⟩
  have hcontent : c ∈ d0.files → contentAfter c target a.mode (hotRebuild env a d0).log m = some a.mode := by
    intro hcd
    by_cases hw : ∃ r, Event.finished c r ∈ (hotRebuild env a d0).log ∧ target ∈ r.produced
    · exact (contentAfter_eq ..).1 hw
    · rw [(contentAfter_eq ..).2 hw]
      apply h.truth
      rw [← hmode]
      apply Classical.byContradiction
      intro hne
      have hsc := (C10_touched_sources env a d0 (.inr hf)).1 c (.inr (.inr ⟨hc.symm, hcd, hne⟩))
      have hreb : Rebuilt a (hotRebuild env a d0) c :=
        ⟨hdel hcd, .inl (by unfold touchedSources; simp only [List.mem_append]; exact .inl hsc)⟩
      have := ((h11.2.2.2 hf c).2).2 hreb
      rw [mem_endsOf] at this
      obtain ⟨r, hr⟩ := this
      exact hw ⟨r, hr, hwrote r hr⟩
  refine ⟨?_, hcontent⟩
  have htruth : ∀ x, (hotRebuild env a d0).disk.mode = some x →
      contentAfter c target a.mode (hotRebuild env a d0).log m = some x := by
    intro x hx
    rw [hotRebuild_mode, hc] at hx
    split at hx
    · rename_i hcd
      rw [hcontent hcd]; exact hx
    · simp at hx
  rcases hs : (hotRebuild env a d0).stored with _ | gs'
  · -- nothing was to be done
    refine ⟨h.valid, htruth, ?_, h.known⟩
    intro ht
    apply h.recorded
    apply hfile
    rcases hotRebuild_cases env a d0 with ⟨_, _, h3⟩ | ⟨P, hP⟩
    · obtain ⟨_, _, _, _, e5⟩ := h3 hf
      rw [e5] at ht
      have : (modeStep a env.sig d0).2.files = d0.files := by
        unfold modeStep; split
        · split <;> rfl
        · rfl
      rw [this] at ht; exact ht
    · exfalso
      rw [hP] at hs hf
      have hl := P.result_finished hf
      unfold Phases.result at hs hf
      rcases hl' : P.loop with ⟨x, s⟩
      rw [hl'] at hl; simp only at hl; subst hl
      rw [hl'] at hs hf
      dsimp only at hs hf
      unfold finalize at hs hf
      split at hf
      · simp at hf
      · rename_i q1
        rw [q1] at hs
        dsimp only at hs
        split at hf
        · simp at hf
        · rename_i q2
          rw [q2] at hs
          dsimp only at hs
          split at hf
          · simp at hf
          · rename_i q3
            rw [q3] at hs
            simp at hs
  · obtain ⟨v1, _⟩ := C17_valid env a d0 hv ho gs' hs
    have hout := C17_outputs env a d0 hv ho gs' hs
    have hfl := C17_files env a d0 hv ho gs' hs c
    have hknown : Edge gs'.out c target → contains gs'.dep c = true := by
      intro he
      by_cases hk : contains gs'.dep c = true
      · exact hk
      · exact absurd he (hout.2.2 c (by simpa using hk) target)
    refine ⟨v1, htruth, ?_, hknown⟩
    intro ht
    by_cases hm : Made (hotRebuild env a d0).log target
    · obtain ⟨f, r, h1, h2⟩ := hm
      obtain rfl := hb.only f r h1 h2
      exact ⟨_, hout.1 f r h1, h2⟩
    · have hnw : ¬ WasOutput a (hotRebuild env a d0) target := fun hw =>
        C15_stale_outputs_deleted env a d0 hv ho hf target hw hm ht
      have ht0 : target ∈ d0.files := by
        obtain ⟨P, hP⟩ := stored_phases hs
        rw [hP] at ht hf hm
        rw [P.files_after hv ho hf] at ht
        rcases ht with ⟨ht, _⟩ | ⟨f, r, h1, h2⟩
        · obtain ⟨_, _, ⟨new, n1, n2, _⟩, _⟩ := (scanLoop_spec _ _ _ _ _ _
            (by simp [Dict.NodupKeys, Dict.keys]) (by simp [Dict.NodupKeys, Dict.keys]) (by simp) P.hscan)
          rw [n1] at ht
          have : (modeStep a env.sig d0).2.files = d0.files := by
            unfold modeStep; split
            · split <;> rfl
            · rfl
          simp only [this, List.mem_append] at ht
          rcases ht with ht | ht
          · exact ht
          · obtain ⟨_, _, y, _, dd, r, h1, h2⟩ := n2 target ht
            exact absurd h2 (hb.notPlaceholder dd y r h1)
        · exact absurd ⟨f, r, h1, by simp [h2]⟩ hm
      have hedge : Edge a.old.out c target := hold ▸ h.recorded (hfile ht0)
      have hna : ¬ Affected a.old (touchedSources a (hotRebuild env a d0)) c := fun ha => hnw ⟨c, ha, hedge⟩
      have hnd : c ∉ a.deleted := fun hd => hna (.inl (by unfold touchedSources; simp [hd]))
      have hk : contains gs'.dep c = true := hfl.2 ⟨hnd, .inr (by rw [hold]; exact h.known (hold ▸ hedge))⟩
      exact (hout.2.1 c hk (fun hr => hna hr.2) target).2 hedge

theorem Hist.inv {c target : String} {d : Disk} {gs : Graphs} {m : Option Mode}
    (h : Hist c target d gs m) : HistInv c target d gs m := by
  induction h with
  | start h1 h2 =>
    refine ⟨validGraphs_empty, by simp [h1], fun h => absurd h h2, ?_⟩
    rintro ⟨cs, h, _⟩
    simp [getChildren, Dict.get?] at h
  | build env a d0 _ h1 h2 h3 h4 h5 h6 h7 h8 ih => exact (ih.step env a d0 h1 h2 h3 h4 h5 h6 h7 h8).1

/-- C19, for histories in which every build finishes: after each of them the content of the constants
output was written for the mode of that build, whatever sequence of modes and of changes to the
project came before.  Missing: builds which fail; see `C19_false_after_failure`. -/
theorem C19_constants_fit_mode_partial (c target : String)
    {d : Disk} {gs : Graphs} {m : Option Mode}
    (h : Hist c target d gs m) (env : Env) (a : Args) (d0 : Disk) (hmode : d0.mode = d.mode)
    (hfile : target ∈ d0.files → target ∈ d.files) (hc : a.constants = c) (hold : a.old = gs)
    (hdel : c ∈ d0.files → c ∉ a.deleted) (ho : ValidOrder env) (hb : ConstantsBuilder c target env a d0)
    (hf : (hotRebuild env a d0).status = .finished) (hcd : c ∈ d0.files) :
    contentAfter c target a.mode (hotRebuild env a d0).log m = some a.mode :=
  (h.inv.step env a d0 hmode hfile hc hold hdel ho hb hf).2 hcd

/-! ## A concrete history, and the counterexample -/

/-- A project with a constants file and a page. -/
def cmDisk (mode : Option Mode) (out : List String) : Disk := ⟨["src/c.js", "src/p.html"] ++ out, ["out"], mode⟩

def cmEnv (batches : List Batch) : Env where
  scan := fun _ f => if f = "src/c.js" then .ok ⟨[], ["out/c.js"], []⟩ else .ok ⟨["src/c.js"], ["out/p"], []⟩
  sig := fun _ => sig0
  order := id
  batches := batches
  scanFuel := 3

def cmC : Batch := fun f => if f = "src/c.js" then some (.ok ⟨[], ["out/c.js"], []⟩) else none
def cmReuse : Batch := fun f => if f = "src/c.js" then some (.ok ⟨[], [], ["out/c.js"]⟩) else none
def cmP : Batch := fun f => if f = "src/p.html" then some (.ok ⟨["src/c.js"], ["out/p"], []⟩) else none
def cmFail : Batch := fun f => if f = "src/p.html" then some (.error .buildFailed) else none
def cmFailC : Batch := fun f => if f = "src/c.js" then some (.error .buildFailed) else none

/-- A build of the whole project. -/
def cmFirst (m : Mode) : Args := ⟨"src/c.js", m, ⟨[], [], []⟩, [], [("src/c.js", sig0), ("src/p.html", sig0)], []⟩
/-- A build without any changes. -/
def cmAgain (m : Mode) (gs : Graphs) : Args := ⟨"src/c.js", m, gs, [], [], []⟩

def cmRun1 : Outcome := hotRebuild (cmEnv [cmC, cmP]) (cmFirst .dev) (cmDisk none [])
def cmGraphs : Graphs := cmRun1.stored.getD ⟨[], [], []⟩

/-- The second build, for the other mode. -/
def cmRun2 : Outcome := hotRebuild (cmEnv [cmC, cmP]) (cmAgain .prod cmGraphs) cmRun1.disk

/-- The concrete history. -/
theorem cm_runs : cmRun1.status = .finished ∧ cmRun1.disk.mode = some .dev ∧
    cmRun1.log = [.started "src/c.js", .finished "src/c.js" ⟨[], ["out/c.js"], []⟩,
      .started "src/p.html", .finished "src/p.html" ⟨["src/c.js"], ["out/p"], []⟩] ∧
    cmRun2.status = .finished ∧ cmRun2.disk.mode = some .prod ∧ cmRun2.log = cmRun1.log ∧
    cmRun2.disk.files = ["src/c.js", "src/p.html", "out/c.js", "out/p"] := by
  decide +kernel

theorem cm_builder {batches : List Batch} {a : Args} {d : Disk} (h : (hotRebuild (cmEnv batches) a d).log = cmRun1.log) :
    ConstantsBuilder "src/c.js" "out/c.js" (cmEnv batches) a d := by
  refine ⟨fun f r hm ht => ?_, fun r hm => ?_, fun dd y r hs => ?_⟩
  · rw [h, cm_runs.2.2.1] at hm
    simp only [List.mem_cons, reduceCtorEq, Event.finished.injEq, List.not_mem_nil, or_false, false_or] at hm
    rcases hm with ⟨rfl, rfl⟩ | ⟨rfl, rfl⟩
    · rfl
    · simp at ht
  · rw [h, cm_runs.2.2.1] at hm
    simp only [List.mem_cons, reduceCtorEq, Event.finished.injEq, List.not_mem_nil, or_false, false_or] at hm
    rcases hm with ⟨_, rfl⟩ | ⟨h, rfl⟩
    · simp
    · simp at h
  · simp only [cmEnv] at hs
    split at hs <;> simp only [Except.ok.injEq] at hs <;> subst hs <;> simp

theorem cm_order (batches : List Batch) : ValidOrder (cmEnv batches) := fun _ => List.Perm.refl _

theorem cm_hist : Hist "src/c.js" "out/c.js" cmRun1.disk cmGraphs (some .dev) := by
  have h : contentAfter "src/c.js" "out/c.js" .dev cmRun1.log none = some .dev := by rw [cm_runs.2.2.1]; decide
  rw [← h]
  exact Hist.build (m := none) (cmEnv [cmC, cmP]) (cmFirst .dev) (cmDisk none []) (.start (d := cmDisk none []) rfl (by decide)) rfl
    (fun h => h) rfl rfl (by simp [cmFirst]) (cm_order _) (cm_builder rfl) cm_runs.1

/-- A project built for one mode and then for the other meets the hypotheses of C19. -/
example : contentAfter "src/c.js" "out/c.js" .prod cmRun2.log (some .dev) = some .prod :=
  C19_constants_fit_mode_partial "src/c.js" "out/c.js" cm_hist (cmEnv [cmC, cmP]) (cmAgain .prod cmGraphs) cmRun1.disk rfl
    (fun h => h) rfl rfl (by simp [cmAgain]) (cm_order _) (cm_builder cm_runs.2.2.2.2.2.1) cm_runs.2.2.2.1 (by decide +kernel)

/-- C19 fails after a failed build: the first build of a project, for development, fails after it has
written the constants; the next build, for production, finds them on disk, reuses them as its builder
does, and finishes. -/
theorem C19_false_after_failure :
    let r1 := hotRebuild (cmEnv [cmC, cmFail]) (cmFirst .dev) (cmDisk none [])
    let r2 := hotRebuild (cmEnv [cmReuse, cmP]) (cmFirst .prod) r1.disk
    r1.status = .failed .buildFailed ∧ r1.stored = none ∧ "out/c.js" ∈ r1.disk.files ∧
    r2.status = .finished ∧ r2.disk.mode = some .prod ∧ "out/c.js" ∈ r2.disk.files ∧
    contentAfter "src/c.js" "out/c.js" .prod r2.log (contentAfter "src/c.js" "out/c.js" .dev r1.log none) = some .dev := by
  decide +kernel

/-- C19 fails in another way: a project built for development is built for production, and the
constants do not build; their output is already deleted and the mode file rewritten.  Building again
finds nothing to do, finishes, and there are no constants. -/
theorem C19_missing_after_failure :
    let r2 := hotRebuild (cmEnv [cmFailC]) (cmAgain .prod cmGraphs) cmRun1.disk
    let r3 := hotRebuild (cmEnv [cmC, cmP]) (cmAgain .prod cmGraphs) r2.disk
    r2.status = .failed .buildFailed ∧ r2.stored = none ∧ r3.status = .finished ∧ r3.log = [] ∧
    "src/c.js" ∈ r3.disk.files ∧ "out/c.js" ∉ r3.disk.files := by
  decide +kernel

end Verif.Hot
