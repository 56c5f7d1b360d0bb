import Verif.Session
import Verif.HotConfig
/-!
# C88: a concrete session

The project of C80 is built; a script is edited; and it is built again, by another build, or by the watch mode after the event.
-/
namespace Verif.Hot.Scripts
open Verif Verif.Hot Verif.Graph Verif.Cold
open Verif.Reader (Text txt)
open Verif.Handlers (Bytes)
open Verif.Paths (isAbs)

/-- C88: after any session out/www contains for every source the current copy and hash, with the tool of C80. -/
theorem C88_files_partial {c : Config} (hc : isAbs c.js.cwd = true) (hsp : Js.SpaceOk c.js.space) (hk : Source c.constants)
    {content : String → Sig → Bytes} {m : Mode} {W : Contents Bytes} {gs : Graphs} {dm : Option Mode}
    (h : Session (project c.constants) (tool c) content m W gs dm) {f : String} {x : Text} (hf : Source f) (hx : Public f x) {b : Bytes}
    (hb : W f = some b) : ∃ y, Current c m W f x b y :=
  C80_current_partial hc hsp hk (h.worked (lawful _) (tool_lawful hc) hk).1 hf hx hb

namespace Site

deriving instance DecidableEq for Graphs
deriving instance DecidableEq for Outcome

/-- The script has another signature after it has been edited. -/
def env2 : Env := { env with sig := fun f => if f = "src/public/a.js" then sig1 else sig0 }

/-- What a signature tells about the contents. -/
def content (f : String) (s : Sig) : Bytes := if f = "src/public/a.js" then script (decide (s = sig1)) else (tab (sources false) f).getD []

def args1 : Args := ⟨"src/public/k.js", .dev, ⟨[], [], []⟩, [], [], []⟩
def args2 : Args := ⟨"src/public/k.js", .dev, graphs1, [], [], []⟩
def walk (s : Sig) : List (String × Sig) := [("src/public/a.js", s), ("src/public/b.js", sig0), ("src/public/k.js", sig0)]

theorem found1 : detect args1.old.dep (walk sig0) = .ok ⟨[], walk sig0, []⟩ := by decide +kernel
theorem found2 : detect args2.old.dep (walk sig1) = .ok ⟨[("src/public/a.js", sig1)], [], []⟩ := by decide +kernel
/-- With the old signature the edit is not found. -/
theorem found3 : detect args2.old.dep (walk sig0) = .ok ⟨[], [], []⟩ := by decide +kernel

theorem foundArgs1 : foundArgs args1 (walk sig0) = all := by unfold foundArgs; rw [found1]; rfl
theorem foundArgs2 : foundArgs args2 (walk sig1) = edit := by unfold foundArgs; rw [found2]; rfl
theorem cold1 : coldRebuild env args1 (walk sig0) fresh = run1 := by unfold coldRebuild; rw [found1]; rfl
theorem run2_eq : hotRebuild env2 edit run1.disk = run2 := by decide +kernel
theorem cold2 : coldRebuild env2 args2 (walk sig1) run1.disk = run2 := by
  rw [← run2_eq]; unfold coldRebuild; rw [found2]; rfl

theorem site_source {f : String} (hf : f ∈ run1.disk.files) (h : Source f) : f = "src/public/a.js" ∨ f = "src/public/b.js" ∨ f = "src/public/k.js" := by
  have hn := ((lawful cfg.constants).src f h).2
  rw [runs.2.1] at hf
  simp only [List.mem_cons, List.not_mem_nil, or_false] at hf
  rcases hf with h | h | h | h | h | h | h | h | h <;> subst h <;> first | (simp; done) | (exfalso; revert hn; decide)

theorem site_walk (s : Sig) {files : List String} (hfiles : ∀ f ∈ files, f ∈ run1.disk.files) (h3 : ∀ f, f = "src/public/a.js" ∨ f = "src/public/b.js" ∨ f = "src/public/k.js" → f ∈ files)
    {sig : String → Sig} (ha : sig "src/public/a.js" = s) (hb : sig "src/public/b.js" = sig0) (hk : sig "src/public/k.js" = sig0) (f : String) (s' : Sig) :
    (f, s') ∈ walk s ↔ (project cfg.constants).src f ∧ f ∈ files ∧ s' = sig f := by
  constructor
  · intro h
    simp only [walk, List.mem_cons, List.not_mem_nil, or_false, Prod.mk.injEq] at h
    rcases h with ⟨rfl, rfl⟩ | ⟨rfl, rfl⟩ | ⟨rfl, rfl⟩
    · exact ⟨source _ (by simp), h3 _ (by simp), ha.symm⟩
    · exact ⟨source _ (by simp), h3 _ (by simp), hb.symm⟩
    · exact ⟨source _ (by simp), h3 _ (by simp), hk.symm⟩
  · rintro ⟨h1, h2, h3⟩
    rcases site_source (hfiles f h2) h1 with rfl | rfl | rfl
    · rw [h3, ha]; simp [walk]
    · rw [h3, hb]; simp [walk]
    · rw [h3, hk]; simp [walk]

theorem signed1 : Signed (project cfg.constants) content env.sig (tab (sources false)) := by
  intro f y _ hy
  unfold content
  split
  · next h =>
    subst h
    have : tab (sources false) "src/public/a.js" = some (script false) := by decide
    rw [this] at hy
    cases hy
    decide
  · rw [hy]; rfl

/-- The first build. -/
theorem built1 : Session (project cfg.constants) (tool cfg) content .dev (done false) graphs1 run1.disk.mode := by
  have h : Runs (project cfg.constants) (tool cfg) content (fun _ => none) args1.old fresh.mode args1.mode (done false)
      ((coldRebuild env args1 (walk sig0) fresh).stored.getD args1.old) (coldRebuild env args1 (walk sig0) fresh).disk.mode :=
    .mk (W0 := tab (sources false)) order scanned rfl (fun f => tab_ne) (fun o ho => tab_none.2 (not_output ho false)) signed1
      (by unfold WalkOK; decide +kernel)
      (site_walk sig0 (files := fresh.files) (fun f hf => by rw [runs.2.1]; simp only [fresh, List.mem_cons, List.not_mem_nil, or_false] at hf; rcases hf with rfl | rfl | rfl <;> simp)
        (fun f hf => by simpa [fresh] using hf) rfl rfl rfl)
      (by rw [cold1]; exact runs.1) (by rw [foundArgs1, cold1]; exact work1 false)
  rw [cold1] at h
  exact .first (fun _ _ => rfl) h

theorem edited_keys (f : String) : edited f ≠ none ↔ f ∈ run1.disk.files := by
  rw [edited, tab_ne, runs.2.1]
  simp only [outA, outB, outK, sources, List.map_append, List.map_cons, List.map_nil, List.mem_append, List.mem_cons, List.not_mem_nil, or_false]
  grind

theorem edited_same {f : String} (h : f ≠ "src/public/a.js") : edited f = done false f := by
  by_cases h' : f ∈ (outA false ++ outB false ++ outK).map (·.1)
  · simp only [outA, outB, outK, List.map_append, List.map_cons, List.map_nil, List.mem_append, List.mem_cons, List.not_mem_nil, or_false] at h'
    rcases h' with ((rfl | rfl) | (rfl | rfl)) | (rfl | rfl) <;> decide
  · rw [edited, done, tab_skip h', tab_skip h']
    simp [tab, sources, h.symm]

theorem edited_a : edited "src/public/a.js" = some (script true) := by decide
theorem done_a : done false "src/public/a.js" = some (script false) := by decide

theorem signed2 : Signed (project cfg.constants) content env2.sig edited := by
  intro f y hf hy
  rcases site_source ((edited_keys f).1 (by rw [hy]; simp)) hf with rfl | rfl | rfl
  · rw [edited_a] at hy; cases hy; decide +kernel
  · rw [show edited "src/public/b.js" = some (txt "import './a.js';\n") by decide] at hy; cases hy; decide +kernel
  · rw [show edited "src/public/k.js" = some (txt "") by decide] at hy; cases hy; decide +kernel

theorem order2 : ValidOrder env2 := fun _ => List.Perm.refl _

/-- The second build. -/
theorem built2 : ∃ gs dm, Session (project cfg.constants) (tool cfg) content .dev (done true) gs dm := by
  have h : Runs (project cfg.constants) (tool cfg) content (done false) args2.old run1.disk.mode args2.mode (done true)
      ((coldRebuild env2 args2 (walk sig1) run1.disk).stored.getD args2.old) (coldRebuild env2 args2 (walk sig1) run1.disk).disk.mode :=
    .mk (W0 := edited) order2 scanned rfl edited_keys
      (fun o ho => edited_same fun e => ho (by subst e; exact owner_source (source _ (by simp)))) signed2
      (by unfold WalkOK; decide +kernel)
      (site_walk sig1 (fun _ h => h) (fun f hf => by rw [runs.2.1]; rcases hf with rfl | rfl | rfl <;> simp) rfl rfl rfl)
      (by rw [cold2]; exact runs2.1) (by rw [foundArgs2, cold2]; exact work2)
  exact ⟨_, _, .build built1 h⟩

/-- The same by the watch mode. -/
theorem watched2 : ∃ gs dm, Session (project cfg.constants) (tool cfg) content .dev (done true) gs dm := by
  refine ⟨_, _, Session.watch (env := env2) (a := edit) (d := run1.disk) (W0 := edited) (es := [.modified "src/public/a.js"]) built1 ?_ ?_ order2 scanned rfl
    edited_keys signed2 (by rw [run2_eq]; exact runs2.1) (by rw [run2_eq]; exact work2)⟩
  · refine Happened.more (es := []) .nothing (fun f hf => ?_) ⟨by rw [done_a]; simp, by rw [edited_a]; simp, fun g hg => edited_same hg⟩
    have hf : f = "src/public/a.js" := hf
    subst hf
    exact source _ (by simp)
  · refine ⟨fun f s => ?_, fun f s => ?_, fun f => ?_⟩
    · simp only [edit, Dict.get?, List.foldl_cons, List.foldl_nil, Dev.onEvent, Dev.onModified, Dev.add, List.not_mem_nil, if_false, List.mem_singleton]
      by_cases hf : f = "src/public/a.js"
      · subst hf; simp [env2, eq_comm]
      · simp [hf, Ne.symm hf]
    · simp [edit, Dict.get?, Dev.onEvent, Dev.onModified]
    · simp [edit, Dev.onEvent, Dev.onModified]

/-- The hypotheses of C88 are met, and the outputs of the two sessions are those after the edit. -/
theorem C88_case : (∃ gs dm, Session (project cfg.constants) (tool cfg) content .dev (done true) gs dm) ∧
    Session (project cfg.constants) (tool cfg) content .dev (done false) graphs1 run1.disk.mode ∧
    (∀ o, (project cfg.constants).owner o ≠ none → startsWith o "out/" = true) ∧
    done false "out/www/b.js" = some (txt "import \"/a.js?v=5&pv=1.3.2\";\n") ∧ done true "out/www/b.js" = some (txt "import \"/a.js?v=6&pv=1.3.2\";\n") := by
  refine ⟨watched2, built1, fun o ho => ?_, by decide, by decide⟩
  obtain ⟨f, hf⟩ := Option.ne_none_iff_exists'.1 ho
  obtain ⟨r, hr⟩ := output_toList (owner_iff.1 hf).2
  simp [startsWith, hr, List.isPrefixOf]

/-- C88 is false if an edit leaves the signature as it was: it is not noticed, and the output is the old one. -/
theorem C88_false_signature : (coldRebuild env args2 (walk sig0) run1.disk).status = .finished ∧ (coldRebuild env args2 (walk sig0) run1.disk).log = [] ∧
    (∀ W', Nonempty (Work (tool cfg) (foundArgs args2 (walk sig0)) (coldRebuild env args2 (walk sig0) run1.disk) edited W') → W' = edited) ∧
    edited "src/public/a.js" = some (script true) ∧ edited "out/www/a.js" = some (script false) := by
  have e1 : foundArgs args2 (walk sig0) = args2 := by unfold foundArgs; rw [found3]; rfl
  have e2 : coldRebuild env args2 (walk sig0) run1.disk = hotRebuild env args2 run1.disk := by unfold coldRebuild; rw [found3]; rfl
  obtain ⟨h1, h2, -, -, h3⟩ := unnoticed (C := Bytes) (env := env) (a := args2) (d := run1.disk) rfl rfl rfl (by decide +kernel) (by rw [runs.2.1]; simp [args2])
  rw [e1, e2]
  exact ⟨h1, h2, fun W' ⟨X⟩ => h3 _ _ _ edited_keys X, edited_a, by decide⟩

end Site
end Verif.Hot.Scripts
