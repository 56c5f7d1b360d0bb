import Verif.HotConfig
/-!
# C83: concrete histories

The project of `HotScriptsCase.lean` is built; then other constants are configured.  If nothing else is done the next build does nothing;
if the file of the constants is touched, the next build writes the new ones.
-/
namespace Verif.Hot.Scripts.Site
open Verif Verif.Hot Verif.Graph
open Verif.Reader (Text txt)
open Verif.Handlers (Bytes Fs)

/-- The constants which are configured later. -/
def text2 : Mode → Bytes := fun m => if m = .dev then txt "new" else txt "prod"

/-- Nothing was done since. -/
def nothing : Args := ⟨"src/public/k.js", .dev, graphs1, [], [], []⟩
def run3 : Outcome := hotRebuild env nothing run1.disk

theorem mode1 : run1.disk.mode = some .dev := by decide +kernel

theorem keys1 (v : Bool) (f : String) : done v f ≠ none ↔ f ∈ run1.disk.files := by
  rw [done, tab_ne, runs.2.1]
  simp only [outA, outB, outK, sources, List.map_append, List.map_cons, List.map_nil, List.mem_append, List.mem_cons, List.not_mem_nil, or_false]
  grind

theorem run3_eq : run3.status = .finished ∧ run3.log = [] ∧ run3.stored = none ∧ run3.disk = run1.disk := by
  have := unnoticed (C := Bytes) (env := env) (a := nothing) (d := run1.disk) rfl rfl rfl mode1 (by rw [runs.2.1]; simp [nothing])
  exact ⟨this.1, this.2.1, this.2.2.1, this.2.2.2.1⟩

def work3 (t : Tool Bytes) : Work t nothing run3 (done false) (done false) where
  view := fun _ => done false
  wrote := fun _ => done false
  start := done false
  start_unlinked c h := by
    obtain ⟨⟨x, hx, -⟩, -⟩ := h
    have hs : run3.scanned = [] := by decide +kernel
    rw [Affected, touchedSources, hs] at hx
    simp [nothing, Dict.keys] at hx
  start_kept c _ := rfl
  ran f r h := by rw [run3_eq.2.1] at h; cases h
  sees f r h := by rw [run3_eq.2.1] at h; cases h
  missing c h := by
    rw [run3_eq.2.2.2, ← keys1 false] at h
    exact Classical.not_not.1 h
  written c _ h := by
    obtain ⟨g, r, h, -⟩ := h
    rw [run3_eq.2.1] at h; cases h
  kept c _ _ := rfl

theorem edits3 : Edits (project cfg.constants) nothing run1.disk (done false) (done false) where
  disk f := keys1 false f
  outputs _ _ := rfl
  same _ _ _ _ _ := rfl
  changed := by simp [nothing, Dict.keys]
  added := by simp [nothing, Dict.keys]
  new f h1 h2 h3 := by
    have := (up1.1.files f).2 ⟨h1, (keys1 false f).2 h2⟩
    rw [show nothing.old = graphs1 from rfl, this] at h3
    cases h3
  deleted f h _ := (keys1 false f).1 ((up1.1.files f).1 h).2
  gone := by simp [nothing]

/-- C83 does not hold in general: after a history with one configuration other constants are configured, and the project is built again,
successfully.  But out/www does not contain the constants of the configuration. -/
theorem C83_false_unnoticed : Worked (project cfg.constants) (tool cfg) .dev (done false) graphs1 run1.disk.mode ∧
    Edits (project cfg.constants) nothing run1.disk (done false) (done false) ∧
    Nonempty (Work (tool (retext cfg text2)) nothing run3 (done false) (done false)) ∧ run3.status = .finished ∧
    ¬ ∃ y, Current (retext cfg text2) .dev (done false) cfg.constants (txt "k.js") (txt "") y := by
  refine ⟨hist1 false, edits3, ⟨work3 _⟩, run3_eq.1, ?_⟩
  rintro ⟨y, h⟩
  have h1 := h.copy
  rw [h.constants rfl] at h1
  revert h1
  decide +kernel

/-! ### The file is touched -/

def outK2 : List (String × Bytes) := [("out/www/k.js", txt "new"), ("out/www/k.js.hash", txt "3")]
def done2 : Contents Bytes := tab (outK2 ++ (outA false ++ outB false ++ sources false))

def touch : Args := ⟨"src/public/k.js", .dev, graphs1, [("src/public/k.js", sig1)], [], []⟩
def env4 : Env where
  scan := scanner
  sig := fun _ => sig0
  order := id
  batches := [Triple.wait "src/public/k.js" rK]
  scanFuel := 4
def run4 : Outcome := hotRebuild env4 touch run1.disk

theorem runs4 : run4.status = .finished ∧ run4.disk.files = ["src/public/a.js", "src/public/b.js", "src/public/k.js", "out/www/a.js", "out/www/a.js.hash",
      "out/www/b.js", "out/www/b.js.hash", "out/www/k.js", "out/www/k.js.hash"] ∧
    run4.log = [.started "src/public/k.js", .finished "src/public/k.js" rK] ∧ run4.stored.isSome := by
  decide +kernel

theorem log4 {f : String} {r : BuildResult} : Event.finished f r ∈ run4.log ↔ f = "src/public/k.js" ∧ r = rK := by
  rw [runs4.2.2.1]
  simp

theorem unlinked4 {c : String} : Unlinked touch run4 c ↔ c ∈ rK.produced := by
  obtain ⟨gs, h⟩ := Option.isSome_iff_exists.1 runs4.2.2.2
  have F := facts up1.2 (fun _ => List.Perm.refl _) h
  constructor
  · rintro ⟨⟨x, h1, h2⟩, -⟩
    obtain ⟨r, hr⟩ := (F.ends x).2 ⟨by simp [touch], h1⟩
    have ho := (owner_iff.1 (UpToDate.owned ((tool_lawful cwd).pure (lawful _)) up1.1 h2)).2
    obtain ⟨rfl, rfl⟩ := log4.1 hr
    rcases outputs pubK ho (s := "out/www/k.js") (t := "out/www/k.js.hash") (by decide) (by decide) with rfl | rfl <;> simp [rK]
  · intro h
    have ho : Output c "src/public/k.js" := by
      refine ⟨_, pubK, ?_⟩
      simp only [rK, List.mem_cons, List.not_mem_nil, or_false] at h
      rcases h with rfl | rfl
      · exact .inl (by decide)
      · exact .inr (by decide)
    have hn : done false c ≠ none := by
      rw [done, tab_ne]
      simp only [rK, List.mem_cons, List.not_mem_nil, or_false] at h
      rcases h with rfl | rfl <;> simp [outK]
    have hw := owner_iff (k := cfg.constants).2 ⟨source _ (by simp), ho⟩
    exact ⟨⟨_, ((F.ends _).1 ⟨rK, log4.2 ⟨rfl, rfl⟩⟩).2, (up1.1.only c _ hw hn).2⟩, (tool_lawful (c := cfg) cwd).plain hw⟩

/-- The contents when it is built. -/
def view4 : Contents Bytes := tab (outA false ++ outB false ++ sources false)

def wrote4 : Contents Bytes := fun s =>
  (dispatch (retext cfg text2) .dev (txt "src/public/k.js") (fsOf view4)).bind fun r => r.2 (txt s)

theorem built4 : (dispatch (retext cfg text2) .dev (txt "src/public/k.js") (fsOf view4)).map (·.1) = some bK ∧
    wrote4 "out/www/k.js" = done2 "out/www/k.js" ∧ wrote4 "out/www/k.js.hash" = done2 "out/www/k.js.hash" := by
  decide +kernel

theorem tab_swap {c : String} (h : c ∉ rK.produced) : view4 c = done false c := by
  unfold view4 done
  by_cases hab : c ∈ (outA false ++ outB false).map (·.1)
  · simp only [outA, outB, List.map_append, List.map_cons, List.map_nil, List.mem_append, List.mem_cons, List.not_mem_nil, or_false] at hab
    rcases hab with (rfl | rfl) | (rfl | rfl) <;> decide
  · rw [tab_skip hab, List.append_assoc, tab_skip hab, tab_skip h]

def work4 : Work (tool (retext cfg text2)) touch run4 (done false) done2 where
  view := fun _ => view4
  wrote := fun _ => wrote4
  start := view4
  start_unlinked c h := by
    rw [unlinked4] at h
    simp only [rK, List.mem_cons, List.not_mem_nil, or_false] at h
    rcases h with rfl | rfl <;> decide
  start_kept c h := by
    rw [unlinked4] at h
    exact tab_swap h
  ran f r h := by
    obtain ⟨rfl, rfl⟩ := log4.1 h
    have h1 := build_eq (c := retext cfg text2) built4.1 (by simp [bK])
    rw [show touch.mode = .dev from rfl, h1]
    simp [bK, rK, str_txt]
    rfl
  sees f r h c := .inl rfl
  missing c h := by
    rw [runs4.2.1] at h
    rw [done2, tab_none]
    intro hc
    apply h
    simp only [outA, outB, outK2, sources, List.map_append, List.map_cons, List.map_nil, List.mem_append, List.mem_cons, List.not_mem_nil, or_false] at hc ⊢
    grind
  written c _ hc := by
    obtain ⟨g, r, h1, h2⟩ := hc
    refine ⟨g, r, h1, h2, ?_⟩
    obtain ⟨rfl, rfl⟩ := log4.1 h1
    simp only [rK, List.mem_cons, List.not_mem_nil, or_false] at h2
    rcases h2 with rfl | rfl
    · exact built4.2.1.symm
    · exact built4.2.2.symm
  kept c _ hc := tab_skip fun h => hc ⟨_, rK, log4.2 ⟨rfl, rfl⟩, h⟩

theorem scanned' : Scanned (tool (retext cfg text2)) env4 := by
  intro d f s h
  obtain ⟨W, hW⟩ := scanned d f s h
  exact ⟨W, hW⟩

theorem reset1 : Reset cfg cfg.text .dev (done false) graphs1 run1.disk.mode := by
  refine Reset.rebuild (text0 := cfg.text) (m0 := .dev) (W := fun _ => none) (env := env) (a := all) (d := fresh) (W0 := tab (sources false))
    (.empty _ _ _ (fun _ _ => rfl) fun _ _ _ _ => rfl) order scanned rfl ?_ (work1 false) runs.1 (.inl rfl)
  refine ⟨fun f => tab_ne, fun o ho => tab_none.2 (not_output ho false), fun f h1 h2 h3 _ => tab_none.2 h3, ?_, fun f hf => ⟨source f hf, hf⟩,
    fun f _ h _ => h, ?_, ?_⟩
  · simp [all, Dict.keys]
  · simp [all, contains, Dict.has]
  · simp [all]

/-- The hypotheses of C83 are met: the project is built, other constants are configured, their file is touched, and the project is built
again. -/
theorem C83_case : Paths.isAbs cfg.js.cwd = true ∧ Js.SpaceOk cfg.js.space ∧ Source cfg.constants ∧
    (∃ gs, Reset cfg text2 .dev done2 gs run4.disk.mode) ∧ text2 .dev ≠ cfg.text .dev ∧
    done false "out/www/k.js" = some (cfg.text .dev) ∧ done2 "out/www/k.js" = some (text2 .dev) := by
  refine ⟨cwd, fun c h1 h2 => by simp [cfg, Js.File.toy]; omega, source _ (by simp [cfg]), ⟨run4.stored.getD touch.old, ?_⟩, by decide, by decide, by decide⟩
  refine Reset.rebuild (m0 := .dev) (W := done false) (env := env4) (a := touch) (d := run1.disk) (W0 := done false) reset1
    (fun _ => List.Perm.refl _) scanned' rfl ?_ work4 runs4.1 (.inr (.inl (by decide)))
  refine ⟨fun f => keys1 false f, fun _ _ => rfl, fun _ _ _ _ _ => rfl, ?_, ?_, fun f h1 h2 h3 => ?_, fun f h1 _ => ?_, ?_⟩
  · simp only [touch, Dict.keys, List.map_cons, List.map_nil, List.mem_singleton, forall_eq]
    exact ⟨source _ (by simp), by rw [runs.2.1]; simp⟩
  · simp [touch, Dict.keys]
  · have := (up1.1.files f).2 ⟨h1, (keys1 false f).2 h2⟩
    rw [show touch.old = graphs1 from rfl, this] at h3
    cases h3
  · exact (keys1 false f).1 ((up1.1.files f).1 h1).2
  · simp [touch]

end Verif.Hot.Scripts.Site
