import Verif.HotBroken
import Verif.HotBuildsPagesCase

/-!
# C111: concrete projects

The project of `HotBuildsPagesCase`, once built, and the same project without the script which the page links to.
-/

namespace Verif.Hot.Scripts
namespace Album
open Verif Verif.Hot Verif.Graph
open Verif.Reader (Text txt)
open Verif.Paths (isAbs)
open Verif.Handlers (Bytes Fs)
open Site (cfg tab tab_none tab_ne tab_skip pub outputs cwd script)

/-! ### What is built -/

theorem stock : Stock (done true) (some true) where
  a := by decide
  b h := by cases h
  x := by decide
  page := by decide
  k := by decide
  only f hf hn := by
    rw [done, tab_ne, List.map_append, List.mem_append] at hn
    have hm := hn.resolve_left (no_output (by decide) hf)
    simp only [sources, List.map_cons, List.map_nil, List.mem_cons, List.not_mem_nil, or_false] at hm
    rcases hm with rfl | rfl | rfl | rfl <;> simp

/-- The hypotheses of C111 are met by the project once it is built: the page links to the script and includes the template. -/
theorem C111_case : isAbs cfg.js.cwd = true ∧ Js.SpaceOk cfg.js.space ∧ PagesOk cfg ∧ Source cfg.constants ∧
    Worked (project cfg.constants) (tool cfg) .dev (done true) graphs1 run1.disk.mode ∧ (∀ f, Source f → done true f ≠ none → Ordered cfg (done true) f) ∧
    Names cfg (done true) "src/public/index.html" "src/public/a.js" ∧ Names cfg (done true) "src/public/index.html" "src/partials/x.html" :=
  ⟨cwd, fun c h1 h2 => by simp [cfg, Js.File.toy]; omega, pagesOk, source _ (by simp [cfg]), hist1 true, fun f h1 h2 => (intact stock f h1 h2).1,
    (names_page pagesOk stock.good _).2 (.inl (.head _)), (names_page pagesOk stock.good _).2 (.inr (.head _))⟩

/-! ### The script is missing -/

def sources4 : List (String × Bytes) := [("src/partials/x.html", piece false), ("src/public/index.html", txt "art"), ("src/public/k.js", txt "")]
def fresh4 : Disk := ⟨["src/partials/x.html", "src/public/index.html", "src/public/k.js"], ["out"], none⟩
def all4 : Args := ⟨"src/public/k.js", .dev, ⟨[], [], []⟩, [], [("src/partials/x.html", sig0), ("src/public/index.html", sig0), ("src/public/k.js", sig0)], []⟩
/-- The build of the page raises. -/
def env4 : Env where
  scan := scanner
  sig := fun _ => sig0
  order := id
  batches := [Triple.wait "src/partials/x.html" rP, fun f => if f = "src/public/index.html" then some (.error .buildFailed) else none]
  scanFuel := 4
def run4 : Outcome := hotRebuild env4 all4 fresh4
def before4 : Contents Bytes := tab sources4

theorem runs4 : run4.status = .failed .buildFailed ∧ run4.disk.files = fresh4.files ∧
    run4.log = [.started "src/partials/x.html", .started "src/public/k.js", .finished "src/partials/x.html" rP, .started "src/public/index.html"] := by
  decide +kernel

theorem log4 {f : String} {r : BuildResult} : Event.finished f r ∈ run4.log ↔ f = "src/partials/x.html" ∧ r = rP := by
  rw [runs4.2.2]
  simp

theorem raises4 : (dispatch cfg .dev (txt "src/partials/x.html") (fsOf before4)).map (·.1) = some bP := by
  decide +kernel

theorem ran4 : (tool cfg).build .dev "src/partials/x.html" before4 =
    some (rP, fun s => (dispatch cfg .dev (txt "src/partials/x.html") (fsOf before4)).bind fun r => r.2 (txt s)) := by
  rw [build_eq raises4 (by simp [bP])]
  simp only [bP, rP, List.map_nil]

theorem keys4 (f : String) : f ∈ sources4.map (·.1) ↔ f ∈ fresh4.files := by
  simp [sources4, fresh4]

theorem made4 {c : String} : ¬ ∃ g r, Event.finished g r ∈ run4.log ∧ c ∈ r.produced := by
  rintro ⟨g, r, hg, hr⟩
  obtain ⟨-, rfl⟩ := log4.1 hg
  simp [rP] at hr

def work4 : Work (tool cfg) all4 run4 before4 before4 where
  view := fun _ => before4
  wrote := fun f s => (dispatch cfg .dev (txt f) (fsOf before4)).bind fun r => r.2 (txt s)
  start := before4
  start_unlinked c h := by
    obtain ⟨⟨x, -, cs, h, -⟩, -⟩ := h
    simp [all4, getChildren] at h
  start_kept c _ := rfl
  ran f r h := by
    obtain ⟨rfl, rfl⟩ := log4.1 h
    exact ran4
  sees f r h c := .inl rfl
  missing c h := by
    rw [runs4.2.1] at h
    exact tab_none.2 fun hc => h ((keys4 c).1 hc)
  written c _ hc := absurd hc made4
  kept c _ _ := rfl

theorem edits4 : Edits (project cfg.constants) all4 fresh4 (fun _ => none) before4 := by
  have hsrc : ∀ f ∈ fresh4.files, Source f := fun f hf => source f (by
    simp only [fresh4, List.mem_cons, List.not_mem_nil, or_false] at hf ⊢
    grind)
  have hall : all4.added.keys = fresh4.files := rfl
  refine ⟨fun f => ?_, fun o ho => ?_, fun f h1 h2 h3 _ => ?_, ?_, fun f hf => ?_, fun f _ h _ => hall ▸ h, ?_, ?_⟩
  · rw [before4, tab_ne]; exact keys4 f
  · exact tab_none.2 fun hc => ho (owner_source (hsrc o ((keys4 o).1 hc)))
  · exact tab_none.2 fun hc => h3 (hall ▸ (keys4 f).1 hc)
  · simp [all4, Dict.keys]
  · rw [hall] at hf; exact ⟨hsrc f hf, hf⟩
  · intro f h; simp [all4, contains, Dict.has] at h
  · simp [all4]

theorem good4 : GoodPage cfg (fsOf before4) "src/public/index.html" (linked (some false)) [txt "src/partials/x.html"] :=
  goodPage (p := some false) (by rw [fsOf_txt]; decide) (by rw [fsOf_txt]; decide)

/-- The hypotheses of C111 are met by a project where the page links to a script which is not there, and the build fails. -/
theorem C111_broken_case : isAbs cfg.js.cwd = true ∧ Js.SpaceOk cfg.js.space ∧ PagesOk cfg ∧ Source cfg.constants ∧
    Worked (project cfg.constants) (tool cfg) .dev (fun _ => none) all4.old fresh4.mode ∧ ValidOrder env4 ∧ Scanned (tool cfg) env4 ∧ all4.constants = cfg.constants ∧
    Edits (project cfg.constants) all4 fresh4 (fun _ => none) before4 ∧ Nonempty (Work (tool cfg) all4 (hotRebuild env4 all4 fresh4) before4 before4) ∧
    Source "src/public/index.html" ∧ before4 "src/public/index.html" ≠ none ∧ Ordered cfg before4 "src/public/index.html" ∧
    Names cfg before4 "src/public/index.html" "src/public/a.js" ∧ Source "src/public/a.js" ∧ before4 "src/public/a.js" = none ∧
    (hotRebuild env4 all4 fresh4).status = .failed .buildFailed :=
  ⟨cwd, fun c h1 h2 => by simp [cfg, Js.File.toy]; omega, pagesOk, source _ (by simp [cfg]), .empty _ _ fun _ _ => rfl, fun _ => List.Perm.refl _, scanned, rfl, edits4,
    ⟨work4⟩, source _ (by simp), by decide, .inr (.inr ⟨_, _, good4⟩), (names_page pagesOk good4 _).2 (.inl (.head _)), source _ (by simp), by decide, runs4.1⟩

end Album
end Verif.Hot.Scripts
