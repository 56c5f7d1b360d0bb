import Verif.Course
import Verif.SessionCase
/-!
# C89, C90: concrete courses of work

In the project of C80 a script is edited while the first build is running, and everything is built again; or a rebuild fails after it has
removed outputs, and everything is built again.  And two courses of work after which outputs are not current.
-/
namespace Verif.Hot.Scripts
open Verif Verif.Hot Verif.Graph Verif.Cold
open Verif.Reader (Text txt)
open Verif.Handlers (Bytes)
open Verif.Paths (isAbs)

/-- C89: out/www contains for every source the current copy and hash, with the tool of C80, if nothing was edited during the last build. -/
theorem C89_files_partial {c : Config} (hc : isAbs c.js.cwd = true) (hsp : Js.SpaceOk c.js.space) (hk : Source c.constants)
    {content : String → Sig → Bytes} {m : Mode} {W : Contents Bytes} {gs : Graphs} {dm : Option Mode}
    (h : Course (project c.constants) (tool c) content m W gs dm []) {f : String} {x : Text} (hf : Source f) (hx : Public f x) {b : Bytes}
    (hb : W f = some b) : ∃ y, Current c m W f x b y :=
  upToDate_current hsp (C89_current (lawful _) (tool_lawful hc) hk h) hf hx hb

namespace Site

/-! ## C89 -/

/-- The contents after the first build, when the script was edited while it was running; but with the script as it was before. -/
def mixed : Contents Bytes := tab (outA true ++ outB true ++ outK ++ sources false)

theorem sources_same {c : String} (h : c ≠ "src/public/a.js") (v w : Bool) : tab (sources v) c = tab (sources w) c := by
  simp [tab, sources, Ne.symm h]

/-- The first build, during which the script is edited before it is read. -/
def busy1 : BusyWork (project cfg.constants) (tool cfg) all run1 ["src/public/a.js"] (tab (sources false)) mixed where
  sources c h := by
    simp only [List.mem_singleton] at h
    subst h
    exact source _ (by simp)
  view := view true []
  wrote := wrote true []
  start := tab (sources false)
  start_unlinked c h := absurd h none1
  start_kept c _ := rfl
  ran f r h := ran true f r (log1.1 h)
  sees f r h c hz := by
    rcases view_sees true [] f c with h1 | ⟨h1, h2, h3⟩
    · exact .inl (h1.trans (sources_same (by simpa using hz) true false))
    · refine .inr ⟨"src/public/a.js", rA, by rw [h1]; decide, log1.2 (by simp), h2, ?_⟩
      rw [h3, (wroteA true c h2).1, doneA true [] c h2]
  missing c h := by
    rw [runs.2.1] at h
    rw [mixed, tab_none]
    intro hc
    apply h
    simp only [outA, outB, outK, sources, List.map_append, List.map_cons, List.map_nil, List.mem_append, List.mem_cons, List.not_mem_nil, or_false] at hc ⊢
    grind
  written c _ hc := by
    obtain ⟨g, r, h1, h2⟩ := hc
    refine ⟨g, r, h1, h2, ?_⟩
    obtain ⟨q1, q2, q3, q4, q5, q6, -⟩ := wrotes true
    have key : mixed c = done true c := by
      rcases log1.1 h1 with ⟨rfl, rfl⟩ | ⟨rfl, rfl⟩ | ⟨rfl, rfl⟩ <;>
        simp only [rA, rB, rK, List.mem_cons, List.not_mem_nil, or_false] at h2 <;> rcases h2 with rfl | rfl <;> decide
    rw [key]
    rcases log1.1 h1 with ⟨rfl, rfl⟩ | ⟨rfl, rfl⟩ | ⟨rfl, rfl⟩ <;>
      simp only [rA, rB, rK, List.mem_cons, List.not_mem_nil, or_false] at h2 <;> rcases h2 with rfl | rfl
    · exact q1.symm
    · exact q2.symm
    · exact q3.symm
    · exact q4.symm
    · exact q5.symm
    · exact q6.symm
  kept c _ hc := by
    refine tab_skip fun h => hc ?_
    simp only [List.map_append, List.mem_append] at h
    rcases h with (h | h) | h
    · exact ⟨"src/public/a.js", rA, log1.2 (by simp), h⟩
    · exact ⟨"src/public/b.js", rB, log1.2 (by simp), h⟩
    · exact ⟨"src/public/k.js", rK, log1.2 (by simp), h⟩

theorem during1 : Course (project cfg.constants) (tool cfg) content .dev mixed graphs1 run1.disk.mode ["src/public/a.js"] := by
  have h : BusyRuns (project cfg.constants) (tool cfg) content (fun _ => none) [] args1.old fresh.mode args1.mode mixed
      ((coldRebuild env args1 (walk sig0) fresh).stored.getD args1.old) (coldRebuild env args1 (walk sig0) fresh).disk.mode ["src/public/a.js"] :=
    .mk (W0 := tab (sources false)) order scanned rfl (fun f => tab_ne) (fun o ho => tab_none.2 (not_output ho false)) signed1
      (by unfold WalkOK; decide +kernel)
      (site_walk sig0 (files := fresh.files) (fun f hf => by rw [runs.2.1]; simp only [fresh, List.mem_cons, List.not_mem_nil, or_false] at hf; rcases hf with rfl | rfl | rfl <;> simp)
        (fun f hf => by simpa [fresh] using hf) rfl rfl rfl)
      (by simp) (by rw [cold1]; exact runs.1) (by rw [foundArgs1, cold1]; exact busy1)
  rw [cold1] at h
  exact .first (fun _ _ => rfl) h

/-- What the second build does, from any contents with these sources and the output of the constants. -/
def again {W0 : Contents Bytes} (h0 : ∀ c, c ∉ rA.produced → c ∉ rB.produced → W0 c = tab (outK ++ sources true) c) : Work (tool cfg) edit run2 W0 (done true) where
  view := work2.view
  wrote := work2.wrote
  start := work2.start
  start_unlinked := work2.start_unlinked
  start_kept c h := by
    rw [unlinked2, not_or] at h
    exact (h0 c h.1 h.2).symm
  ran := work2.ran
  sees := work2.sees
  missing := work2.missing
  written := work2.written
  kept := work2.kept

theorem done_keys (v : Bool) (f : String) : done v f ≠ none ↔ f ∈ run1.disk.files := by
  rw [done, tab_ne, runs.2.1]
  simp only [outA, outB, outK, sources, List.map_append, List.map_cons, List.map_nil, List.mem_append, List.mem_cons, List.not_mem_nil, or_false]
  grind

theorem signed3 {W : Contents Bytes} (h : ∀ f ∈ ["src/public/a.js", "src/public/b.js", "src/public/k.js"], W f = tab (sources true) f)
    (hW : ∀ f, W f ≠ none → f ∈ run1.disk.files) : Signed (project cfg.constants) content env2.sig W := by
  intro f y hf hy
  rcases site_source (hW f (by rw [hy]; simp)) hf with rfl | rfl | rfl
  · rw [h _ (by simp)] at hy
    rw [show tab (sources true) "src/public/a.js" = some (script true) by decide] at hy; cases hy; decide +kernel
  · rw [h _ (by simp)] at hy
    rw [show tab (sources true) "src/public/b.js" = some (txt "import './a.js';\n") by decide] at hy; cases hy; decide +kernel
  · rw [h _ (by simp)] at hy
    rw [show tab (sources true) "src/public/k.js" = some (txt "") by decide] at hy; cases hy; decide +kernel

/-- It has another signature than the recorded one. -/
theorem seen2 : ¬ HasMeta graphs1.dep "src/public/a.js" sig1 := by unfold HasMeta; decide +kernel

theorem outputs_same {o : String} (ho : (project cfg.constants).owner o ≠ none) : done true o = mixed o := by
  by_cases h : o ∈ (outA true ++ outB true ++ outK).map (·.1)
  · simp only [outA, outB, outK, List.map_append, List.map_cons, List.map_nil, List.mem_append, List.mem_cons, List.not_mem_nil, or_false] at h
    rcases h with ((rfl | rfl) | (rfl | rfl)) | (rfl | rfl) <;> decide
  · rw [mixed, done, tab_skip h, tab_skip h, tab_none.2 (not_output ho _), tab_none.2 (not_output ho _)]

/-- Everything is built again. -/
theorem after1 : ∃ gs dm, Course (project cfg.constants) (tool cfg) content .dev (done true) gs dm [] := by
  have h : BusyRuns (project cfg.constants) (tool cfg) content mixed ["src/public/a.js"] args2.old run1.disk.mode args2.mode (done true)
      ((coldRebuild env2 args2 (walk sig1) run1.disk).stored.getD args2.old) (coldRebuild env2 args2 (walk sig1) run1.disk).disk.mode [] :=
    .mk (W0 := done true) order2 scanned rfl (done_keys true) (fun o ho => outputs_same ho)
      (signed3 (by decide) fun f hf => (done_keys true f).1 hf)
      (by unfold WalkOK; decide +kernel)
      (site_walk sig1 (fun _ h => h) (fun f hf => by rw [runs.2.1]; rcases hf with rfl | rfl | rfl <;> simp) rfl rfl rfl)
      (fun z hz _ hm => by
        simp only [List.mem_singleton] at hz
        subst hz
        exact absurd hm seen2)
      (by rw [cold2]; exact runs2.1) (by
        rw [foundArgs2, cold2]
        refine (again fun c h1 h2 => ?_).busy
        rw [done, List.append_assoc]
        refine tab_skip fun hc => ?_
        rw [List.map_append, List.mem_append] at hc
        exact hc.elim h1 h2)
  exact ⟨_, _, .build during1 h⟩

/-- The files affected by an edit of the script. -/
theorem affected2 {f : String} : Affected graphs1 ["src/public/a.js"] f ↔ f = "src/public/a.js" ∨ f = "src/public/b.js" := by
  have key := C10_rebuild_set env edit run1.disk up1.2 order
  have ht : ∀ z, z ∈ touchedSources edit run2 ↔ z = "src/public/a.js" := by
    have : touchedSources edit run2 = ["src/public/a.js"] := by decide +kernel
    simp [this]
  have hl : ∀ f, Event.started f ∈ run2.log ↔ f = "src/public/a.js" ∨ f = "src/public/b.js" := by
    intro f
    rw [runs2.2.2.1]
    simp
  rw [← hl]
  constructor
  · intro h
    exact key.2 runs2.1 f (by simp [edit]) (affected_mono (fun z hz => (ht z).2 (by simpa using hz)) h)
  · intro h
    exact affected_mono (fun z hz => by simpa using (ht z).1 hz) (key.1 f h).2

/-- The hypotheses of C89 are met: the script is edited while the first build is running, so that what is built of it is not what was
there when the build began; afterwards everything is built again.  The constants are not affected. -/
theorem C89_case : isAbs cfg.js.cwd = true ∧ Js.SpaceOk cfg.js.space ∧ Source cfg.constants ∧
    Course (project cfg.constants) (tool cfg) content .dev mixed graphs1 run1.disk.mode ["src/public/a.js"] ∧
    mixed "src/public/a.js" = some (txt "x=1;\n") ∧ mixed "out/www/a.js" = some (txt "x=12;\n") ∧
    (∃ gs dm, Course (project cfg.constants) (tool cfg) content .dev (done true) gs dm []) ∧
    (Source "src/public/k.js" ∧ mixed "src/public/k.js" ≠ none ∧ ¬ Affected graphs1 ["src/public/a.js"] "src/public/k.js") :=
  ⟨cwd, C80_case.2.1, C80_case.2.2.1, during1, by decide, by decide, after1, source _ (by simp), by decide, by rw [affected2]; decide⟩

theorem mixed_keys (f : String) : mixed f ≠ none ↔ f ∈ run1.disk.files := by
  rw [mixed, tab_ne, runs.2.1]
  simp only [outA, outB, outK, sources, List.map_append, List.map_cons, List.map_nil, List.mem_append, List.mem_cons, List.not_mem_nil, or_false]
  grind

/-- C89 is false if an edit during a build is undone by moving the old file back, which then has its old signature: the next build
finds nothing to do, and the outputs are those of the contents which the file had while the first build was running. -/
theorem C89_false_undone : Course (project cfg.constants) (tool cfg) content .dev mixed graphs1 run1.disk.mode ["src/public/a.js"] ∧
    Signed (project cfg.constants) content env.sig mixed ∧
    (coldRebuild env args2 (walk sig0) run1.disk).status = .finished ∧ (coldRebuild env args2 (walk sig0) run1.disk).log = [] ∧
    (∀ W', Nonempty (Work (tool cfg) (foundArgs args2 (walk sig0)) (coldRebuild env args2 (walk sig0) run1.disk) mixed W') → W' = mixed) ∧
    mixed "src/public/a.js" = some (txt "x=1;\n") ∧ mixed "out/www/a.js" = some (txt "x=12;\n") := by
  have e1 : foundArgs args2 (walk sig0) = args2 := by unfold foundArgs; rw [found3]; rfl
  have e2 : coldRebuild env args2 (walk sig0) run1.disk = hotRebuild env args2 run1.disk := by unfold coldRebuild; rw [found3]; rfl
  obtain ⟨h1, h2, -, -, h3⟩ := unnoticed (C := Bytes) (env := env) (a := args2) (d := run1.disk) rfl rfl rfl (by decide +kernel) (by rw [runs.2.1]; simp [args2])
  rw [e1, e2]
  refine ⟨during1, fun f y hf hy => ?_, h1, h2, fun W' ⟨X⟩ => h3 _ _ _ mixed_keys X, by decide, by decide⟩
  rcases site_source ((mixed_keys f).1 (by rw [hy]; simp)) hf with rfl | rfl | rfl
  · rw [show mixed "src/public/a.js" = some (script false) by decide] at hy; cases hy; decide +kernel
  · rw [show mixed "src/public/b.js" = some (txt "import './a.js';\n") by decide] at hy; cases hy; decide +kernel
  · rw [show mixed "src/public/k.js" = some (txt "") by decide] at hy; cases hy; decide +kernel

/-! ## C90 -/

/-- The build of the script fails. -/
def envBad : Env := { env2 with batches := [fun f => if f = "src/public/a.js" then some (.error .buildFailed) else none] }
def runBad : Outcome := hotRebuild envBad edit run1.disk

theorem runsBad : runBad.status = .failed .buildFailed ∧ runBad.log = [.started "src/public/a.js"] ∧ runBad.stored = none ∧
    runBad.disk = ⟨["src/public/a.js", "src/public/b.js", "src/public/k.js", "out/www/k.js", "out/www/k.js.hash"], run1.disk.dirs, some .dev⟩ := by
  decide +kernel

theorem again_eq : hotRebuild env2 edit runBad.disk = run2 := by decide +kernel

/-- The contents after the rebuild has failed; and with the script as it was when the build before began. -/
def bare (v : Bool) : Contents Bytes := tab (outK ++ sources v)

theorem bare_keys (v : Bool) (f : String) : bare v f ≠ none ↔ f ∈ runBad.disk.files := by
  rw [bare, tab_ne, runsBad.2.2.2]
  simp only [outK, sources, List.map_append, List.map_cons, List.map_nil, List.mem_append, List.mem_cons, List.not_mem_nil, or_false]
  grind

theorem bare_none {c : String} (h : c ∈ rA.produced ∨ c ∈ rB.produced) (v : Bool) : bare v c = none := by
  rw [bare, tab_none]
  simp only [rA, rB, List.mem_cons, List.not_mem_nil, or_false] at h
  simp only [outK, sources, List.map_append, List.map_cons, List.map_nil, List.mem_append, List.mem_cons, List.not_mem_nil, or_false]
  rcases h with (rfl | rfl) | (rfl | rfl) <;> decide

theorem bare_else {c : String} (h : ¬ (c ∈ rA.produced ∨ c ∈ rB.produced)) (v w : Bool) : tab (outA w ++ outB w ++ outK ++ sources v) c = bare v c := by
  rw [bare, List.append_assoc]
  refine tab_skip fun hc => h ?_
  rw [List.map_append, List.mem_append] at hc
  exact hc

theorem new2 : newIn edit run1.disk = ["src/public/a.js"] := by decide +kernel

theorem broke1 : Breaks (project cfg.constants) (tool cfg) (done false) graphs1 run1.disk.mode (bare false) runBad.disk.mode ["src/public/a.js"] := by
  rw [← new2]
  refine Breaks.mk (a := edit) (env := envBad) (W0 := edited) (W := bare true) (fun _ => List.Perm.refl _) scanned rfl
    (fun o ho => edited_same fun e => ho (by subst e; exact owner_source (source _ (by simp)))) (fun c => ?_) (fun f hf => ?_) (fun o f hof hn => .inl ?_)
    (.inr rfl) (fun f hf => ?_) fun o ho => ?_
  · by_cases hc : c ∈ rA.produced ∨ c ∈ rB.produced
    · refine .inr (.inl ⟨bare_none hc true, ?_⟩)
      obtain ⟨⟨x, h1, h2⟩, -⟩ := unlinked2.2 hc
      refine ⟨x, affected_mono (fun z hz => ?_) h1, h2⟩
      have : touchedSources edit run2 = newIn edit run1.disk := by decide +kernel
      rwa [← this]
    · exact .inl (bare_else hc true false).symm
  · rw [new2, List.mem_singleton] at hf
    subst hf
    exact source _ (by simp)
  · rw [done_keys]
    have := (bare_keys true o).1 hn
    rw [runsBad.2.2.2] at this
    rw [runs.2.1]
    simp only [List.mem_cons, List.not_mem_nil, or_false] at this ⊢
    grind
  · refine (bare_else (fun h => ?_) false false).symm
    have := unlinked2.2 h
    obtain ⟨⟨x, -, h2⟩, -⟩ := this
    have := UpToDate.owned ((tool_lawful cwd).pure (lawful _)) up1.1 h2
    rw [owner_source hf] at this
    cases this
  · by_cases h : o ∈ outK.map (·.1)
    · simp only [outK, List.map_cons, List.map_nil, List.mem_cons, List.not_mem_nil, or_false] at h
      rcases h with rfl | rfl <;> decide
    · rw [bare, bare, tab_skip h, tab_skip h, tab_none.2 (not_output ho _), tab_none.2 (not_output ho _)]

theorem cold3 : coldRebuild env2 args2 (walk sig1) runBad.disk = run2 := by
  rw [← again_eq]; unfold coldRebuild; rw [found2]; rfl

theorem rebuilt3 : BusyRuns (project cfg.constants) (tool cfg) content (bare false) ["src/public/a.js"] graphs1 runBad.disk.mode .dev (done true)
    (run2.stored.getD graphs1) run2.disk.mode [] := by
  have h : BusyRuns (project cfg.constants) (tool cfg) content (bare false) ["src/public/a.js"] args2.old runBad.disk.mode args2.mode (done true)
      ((coldRebuild env2 args2 (walk sig1) runBad.disk).stored.getD args2.old) (coldRebuild env2 args2 (walk sig1) runBad.disk).disk.mode [] :=
    .mk (W0 := bare true) order2 scanned rfl (bare_keys true) (fun o ho => by
        by_cases h : o ∈ outK.map (·.1)
        · simp only [outK, List.map_cons, List.map_nil, List.mem_cons, List.not_mem_nil, or_false] at h
          rcases h with rfl | rfl <;> decide
        · rw [bare, bare, tab_skip h, tab_skip h, tab_none.2 (not_output ho _), tab_none.2 (not_output ho _)])
      (signed3 (by decide) fun f hf => by
        have := (bare_keys true f).1 hf
        rw [runsBad.2.2.2] at this
        rw [runs.2.1]
        simp only [List.mem_cons, List.not_mem_nil, or_false] at this ⊢
        grind)
      (by unfold WalkOK; decide +kernel)
      (site_walk sig1 (fun f hf => by
          rw [runsBad.2.2.2] at hf
          rw [runs.2.1]
          simp only [List.mem_cons, List.not_mem_nil, or_false] at hf ⊢
          grind) (fun f hf => by rw [runsBad.2.2.2]; rcases hf with rfl | rfl | rfl <;> simp) rfl rfl rfl)
      (fun z hz _ hm => by
        simp only [List.mem_singleton] at hz
        subst hz
        exact absurd hm seen2)
      (by rw [cold3]; exact runs2.1) (by
        rw [foundArgs2, cold3]
        exact (again fun c h1 h2 => rfl).busy)
  rw [cold3] at h
  exact h

/-- The hypotheses of C90 are met: the script is edited, and the rebuild fails after it has removed four outputs; the next one finishes. -/
theorem C90_case : Session (project cfg.constants) (tool cfg) content .dev (done false) graphs1 run1.disk.mode ∧
    BreakAll (project cfg.constants) (tool cfg) graphs1 (done false) run1.disk.mode (bare false) runBad.disk.mode ["src/public/a.js"] ∧
    runBad.status = .failed .buildFailed ∧ done false "out/www/b.js" ≠ none ∧ bare false "out/www/b.js" = none ∧
    BusyRuns (project cfg.constants) (tool cfg) content (bare false) ["src/public/a.js"] graphs1 runBad.disk.mode .dev (done true)
      (run2.stored.getD graphs1) run2.disk.mode [] ∧
    (∃ g d, Session (project cfg.constants) (tool cfg) content .dev (done true) g d) :=
  ⟨built1, .more (S := []) .none broke1, runsBad.1, by decide, by decide, rebuilt3, built2⟩

/-! ### The file is back -/

/-- The script has been moved away, and the build of the one which imports it fails. -/
def gone : Args := ⟨"src/public/k.js", .dev, graphs1, [], [], ["src/public/a.js"]⟩
def diskGone : Disk := { run1.disk with files := run1.disk.files.erase "src/public/a.js" }
def envGone : Env := { env with batches := [fun f => if f = "src/public/b.js" then some (.error .notFound) else none] }
def runGone : Outcome := hotRebuild envGone gone diskGone
/-- It has been moved back, with the same signature. -/
def diskBack : Disk := { runGone.disk with files := "src/public/a.js" :: runGone.disk.files }

theorem foundGone : detect graphs1.dep [("src/public/b.js", sig0), ("src/public/k.js", sig0)] = .ok ⟨[], [], ["src/public/a.js"]⟩ := by decide +kernel
theorem runsGone : runGone.status = .failed .notFound ∧ runGone.log = [.started "src/public/b.js"] ∧ runGone.stored = none ∧
    runGone.disk.files = ["src/public/b.js", "src/public/k.js", "out/www/k.js", "out/www/k.js.hash"] ∧ runGone.disk.mode = some .dev := by
  decide +kernel

theorem bare_back (f : String) : bare false f ≠ none ↔ f ∈ diskBack.files := by
  rw [bare_keys, runsBad.2.2.2, diskBack, runsGone.2.2.2.1]

/-- C90 is false if a file which was missing in the failed build is back with the signature which is recorded: the failed build has
removed its outputs and those of the script which imports it; and the next one finds nothing to do, finishes, and leaves them missing. -/
theorem C90_false_restored :
    coldRebuild envGone { gone with deleted := [] } [("src/public/b.js", sig0), ("src/public/k.js", sig0)] diskGone = runGone ∧
    runGone.status = .failed .notFound ∧ (∀ f, f ∈ diskBack.files ↔ f = "src/public/a.js" ∨ f ∈ runGone.disk.files) ∧
    (coldRebuild env args2 (walk sig0) diskBack).status = .finished ∧ (coldRebuild env args2 (walk sig0) diskBack).log = [] ∧
    (∀ W', Nonempty (Work (tool cfg) (foundArgs args2 (walk sig0)) (coldRebuild env args2 (walk sig0) diskBack) (bare false) W') → W' = bare false) ∧
    (∀ f, Source f → bare false f = done false f) ∧ bare false "out/www/a.js" = none ∧ bare false "out/www/b.js" = none ∧
    done false "out/www/a.js" = some (txt "x=1;\n") := by
  have e1 : foundArgs args2 (walk sig0) = args2 := by unfold foundArgs; rw [found3]; rfl
  have e2 : coldRebuild env args2 (walk sig0) diskBack = hotRebuild env args2 diskBack := by unfold coldRebuild; rw [found3]; rfl
  obtain ⟨h1, h2, -, -, h3⟩ := unnoticed (C := Bytes) (env := env) (a := args2) (d := diskBack) rfl rfl rfl (by rw [diskBack, runsGone.2.2.2.2]; rfl)
    (by rw [diskBack, runsGone.2.2.2.1]; simp [args2])
  rw [e1, e2]
  refine ⟨?_, runsGone.1, fun f => by simp [diskBack], h1, h2, fun W' ⟨X⟩ => h3 _ _ _ bare_back X, fun f hf => ?_, by decide, by decide, by decide⟩
  · unfold coldRebuild
    simp only [gone, foundGone]
    rfl
  · refine (bare_else (fun h => ?_) false false).symm
    obtain ⟨⟨x, -, h2⟩, -⟩ := unlinked2.2 h
    have := UpToDate.owned ((tool_lawful cwd).pure (lawful _)) up1.1 h2
    rw [owner_source hf] at this
    cases this

/-! ### What was left is reused -/

/-- The script is built, and then the build of the constants fails. -/
def envFirst : Env := { env with batches := [Triple.wait "src/public/a.js" rA, fun f => if f = "src/public/k.js" then some (.error .buildFailed) else none] }
def runFirst : Outcome := hotRebuild envFirst all fresh
/-- In the next build its copy is written, and its hash is reused. -/
def rA' : BuildResult := ⟨[], ["out/www/a.js"], ["out/www/a.js.hash"]⟩
def bA' : Handlers.Built := ⟨[], [txt "out/www/a.js"], [txt "out/www/a.js.hash"]⟩
def envReuse : Env := { env2 with batches := [Triple.wait "src/public/a.js" rA', Triple.wait "src/public/k.js" rK, Triple.wait "src/public/b.js" rB] }
def all' : Args := ⟨"src/public/k.js", .dev, ⟨[], [], []⟩, [], walk sig1, []⟩
def runReuse : Outcome := hotRebuild envReuse all' runFirst.disk

theorem runsFirst : runFirst.status = .failed .buildFailed ∧ runFirst.stored = none ∧
    runFirst.log = [.started "src/public/a.js", .started "src/public/k.js", .finished "src/public/a.js" rA, .started "src/public/b.js"] ∧
    runFirst.disk.files = ["src/public/a.js", "src/public/b.js", "src/public/k.js", "out/www/a.js", "out/www/a.js.hash"] := by
  decide +kernel

theorem runsReuse : runReuse.status = .finished ∧ runReuse.disk.files = ["src/public/a.js", "src/public/b.js", "src/public/k.js", "out/www/a.js", "out/www/a.js.hash",
      "out/www/a.js", "out/www/k.js", "out/www/k.js.hash", "out/www/b.js", "out/www/b.js.hash"] ∧
    runReuse.log = [.started "src/public/a.js", .started "src/public/k.js", .finished "src/public/a.js" rA', .started "src/public/b.js",
      .finished "src/public/k.js" rK, .finished "src/public/b.js" rB] := by
  decide +kernel

def staleA : List (String × Bytes) := [("out/www/a.js", script true), ("out/www/a.js.hash", txt "5")]
/-- The contents after the next build. -/
def stale : Contents Bytes := tab (staleA ++ outB false ++ outK ++ sources true)
/-- The contents before it: what was left, with the script as it is now. -/
def left : Contents Bytes := tab (outA false ++ sources true)
def viewReuse (f : String) : Contents Bytes := if f = "src/public/b.js" then tab (staleA ++ sources true) else left
def wroteReuse (f : String) : Contents Bytes := fun s => (dispatch cfg .dev (txt f) (fsOf (viewReuse f))).bind fun r => r.2 (txt s)

theorem builtReuse : (dispatch cfg .dev (txt "src/public/a.js") (fsOf (viewReuse "src/public/a.js"))).map (·.1) = some bA' ∧
    (dispatch cfg .dev (txt "src/public/k.js") (fsOf (viewReuse "src/public/k.js"))).map (·.1) = some bK ∧
    (dispatch cfg .dev (txt "src/public/b.js") (fsOf (viewReuse "src/public/b.js"))).map (·.1) = some bB := by
  decide +kernel

theorem wrotesReuse : wroteReuse "src/public/a.js" "out/www/a.js" = stale "out/www/a.js" ∧
    wroteReuse "src/public/b.js" "out/www/b.js" = stale "out/www/b.js" ∧ wroteReuse "src/public/b.js" "out/www/b.js.hash" = stale "out/www/b.js.hash" ∧
    wroteReuse "src/public/k.js" "out/www/k.js" = stale "out/www/k.js" ∧ wroteReuse "src/public/k.js" "out/www/k.js.hash" = stale "out/www/k.js.hash" := by
  decide +kernel

theorem logReuse {f : String} {r : BuildResult} : Event.finished f r ∈ runReuse.log ↔
    f = "src/public/a.js" ∧ r = rA' ∨ f = "src/public/b.js" ∧ r = rB ∨ f = "src/public/k.js" ∧ r = rK := by
  rw [runsReuse.2.2]
  simp only [List.mem_cons, reduceCtorEq, Event.finished.injEq, List.not_mem_nil, or_false, false_or]
  constructor
  · rintro (h | h | h) <;> simp [h]
  · rintro (h | h | h) <;> simp [h]

theorem ranReuse (f : String) (r : BuildResult) (h : f = "src/public/a.js" ∧ r = rA' ∨ f = "src/public/b.js" ∧ r = rB ∨ f = "src/public/k.js" ∧ r = rK) :
    (tool cfg).build .dev f (viewReuse f) = some (r, wroteReuse f) := by
  obtain ⟨h1, h2, h3⟩ := builtReuse
  rcases h with ⟨rfl, rfl⟩ | ⟨rfl, rfl⟩ | ⟨rfl, rfl⟩
  · rw [build_eq h1 (by simp [bA'])]
    simp [bA', rA', str_txt]
    rfl
  · rw [build_eq h3 (by simp only [bB, List.mem_singleton, forall_eq]; exact ⟨_, rfl, .inl ⟨_, pubA⟩⟩)]
    simp [bB, rB, str_txt]
    rfl
  · rw [build_eq h2 (by simp [bK])]
    simp [bK, rK, str_txt]
    rfl

def workReuse : Work (tool cfg) all' runReuse left stale where
  view := viewReuse
  wrote := wroteReuse
  start := left
  start_unlinked c h := by
    obtain ⟨⟨x, -, cs, h, -⟩, -⟩ := h
    simp [all', getChildren] at h
  start_kept c _ := rfl
  ran f r h := ranReuse f r (logReuse.1 h)
  sees f r h c := by
    unfold viewReuse
    split
    · next hf =>
      by_cases hc : c ∈ rA'.produced
      · refine .inr ⟨"src/public/a.js", rA', by rw [hf]; decide, logReuse.2 (by simp), hc, ?_⟩
        simp only [rA', List.mem_singleton] at hc
        subst hc
        rw [wrotesReuse.1]
        decide
      · left
        simp only [rA', List.mem_singleton] at hc
        by_cases hc' : c = "out/www/a.js.hash"
        · subst hc'; decide
        · rw [left, tab_skip, tab_skip]
          · simp [outA, hc, hc']
          · simp [staleA, hc, hc']
    · exact .inl rfl
  missing c h := by
    rw [runsReuse.2.1] at h
    rw [stale, tab_none]
    intro hc
    apply h
    simp only [staleA, outB, outK, sources, List.map_append, List.map_cons, List.map_nil, List.mem_append, List.mem_cons, List.not_mem_nil, or_false] at hc ⊢
    grind
  written c _ hc := by
    obtain ⟨g, r, h1, h2⟩ := hc
    refine ⟨g, r, h1, h2, ?_⟩
    obtain ⟨q1, q2, q3, q4, q5⟩ := wrotesReuse
    rcases logReuse.1 h1 with ⟨rfl, rfl⟩ | ⟨rfl, rfl⟩ | ⟨rfl, rfl⟩ <;>
      simp only [rA', rB, rK, List.mem_cons, List.not_mem_nil, or_false] at h2
    · subst h2; exact q1.symm
    · rcases h2 with rfl | rfl
      · exact q2.symm
      · exact q3.symm
    · rcases h2 with rfl | rfl
      · exact q4.symm
      · exact q5.symm
  kept c _ hc := by
    have hB : c ∉ (outB false).map (·.1) := fun h => hc ⟨"src/public/b.js", rB, logReuse.2 (by simp), h⟩
    have hK : c ∉ outK.map (·.1) := fun h => hc ⟨"src/public/k.js", rK, logReuse.2 (by simp), h⟩
    have hA : c ≠ "out/www/a.js" := fun h => hc ⟨"src/public/a.js", rA', logReuse.2 (by simp), by simp [rA', h]⟩
    by_cases hc' : c = "out/www/a.js.hash"
    · subst hc'; decide
    · rw [stale, left, tab_skip, tab_skip]
      · simp [outA, hA, hc']
      · simp only [List.map_append, List.mem_append, not_or]
        refine ⟨⟨?_, hB⟩, hK⟩
        simp [staleA, hA, hc']

/-- C90 is false if builds which were never finished have left outputs: a first build writes the copy and the hash of the script and
fails; then the script is edited; the next build finishes and writes the new copy, but keeps the old hash, by which the other script
refers to it.  `left` is what the first build has left, with the edit. -/
theorem C90_false_reuse : runFirst.status = .failed .buildFailed ∧ runFirst.stored = none ∧ Event.finished "src/public/a.js" rA ∈ runFirst.log ∧
    (∀ o ∈ rA.produced, left o = wrote false [] "src/public/a.js" o) ∧ (∀ f, left f ≠ none ↔ f ∈ runFirst.disk.files) ∧
    (coldRebuild envReuse args1 (walk sig1) runFirst.disk) = runReuse ∧ foundArgs args1 (walk sig1) = all' ∧
    runReuse.status = .finished ∧ Nonempty (Work (tool cfg) all' runReuse left stale) ∧
    (∃ g d, Session (project cfg.constants) (tool cfg) content .dev (done true) g d) ∧ (∀ f, Source f → stale f = done true f) ∧
    stale "out/www/a.js" = some (txt "x=12;\n") ∧ stale "out/www/a.js.hash" = some (txt "5") ∧ done true "out/www/a.js.hash" = some (txt "6") ∧
    stale "out/www/b.js" = some (txt "import \"/a.js?v=5&pv=1.3.2\";\n") ∧ done true "out/www/b.js" = some (txt "import \"/a.js?v=6&pv=1.3.2\";\n") := by
  have hf : detect args1.old.dep (walk sig1) = .ok ⟨[], walk sig1, []⟩ := by decide +kernel
  refine ⟨runsFirst.1, runsFirst.2.1, by rw [runsFirst.2.2.1]; simp, fun o ho => ?_, fun f => ?_, ?_, ?_, runsReuse.1, ⟨workReuse⟩, built2, fun f hf => ?_,
    by decide, by decide, by decide, by decide, by decide⟩
  · rw [(wroteA false o ho).1]
    simp only [rA, List.mem_cons, List.not_mem_nil, or_false] at ho
    rcases ho with rfl | rfl <;> decide
  · rw [left, tab_ne, runsFirst.2.2.2]
    simp only [outA, sources, List.map_append, List.map_cons, List.map_nil, List.mem_append, List.mem_cons, List.not_mem_nil, or_false]
    grind
  · unfold coldRebuild; rw [hf]; rfl
  · unfold foundArgs; rw [hf]; rfl
  · have hn : ∀ l : List (String × Bytes), l.map (·.1) = (outA true ++ outB true ++ outK).map (·.1) → f ∉ l.map (·.1) := by
      intro l hl h
      rw [hl] at h
      have hno := ((lawful cfg.constants).src f hf).2
      simp only [outA, outB, outK, List.map_append, List.map_cons, List.map_nil, List.mem_append, List.mem_cons, List.not_mem_nil, or_false] at h
      rcases h with ((rfl | rfl) | (rfl | rfl)) | (rfl | rfl) <;> revert hno <;> decide
    rw [stale, done, tab_skip (hn (staleA ++ outB false ++ outK) rfl), tab_skip (hn (outA true ++ outB true ++ outK) rfl)]

end Site
end Verif.Hot.Scripts
