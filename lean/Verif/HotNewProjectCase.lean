import Verif.HotNewProject
import Verif.HotBuildsSheetsCase
/-!
# C120: what `init` leaves, built for the first time
-/
namespace Verif.Hot.Scripts
open Verif Verif.Hot Verif.Graph
open Verif.Reader (Text txt)
open Verif.Paths (split isAbs)
open Verif.Handlers (Bytes Fs Scan)
open Site (tab tab_none tab_ne tab_skip pub)

namespace Fresh

/-- The constants are where `init` says, and the parser knows the first page. -/
def cfg : Config := { Site.cfg with constants := "src/public/js/constants.js", page := { Site.cfg.page with parse := fun b => if b = firstPage then some firstTokens else none } }

theorem pubI : Public "src/public/index.html" (txt "index.html") := pub (by decide) (by decide) (by decide) (by decide)
theorem source : Source "src/public/index.html" := .inl ⟨_, pubI, by decide⟩
theorem constants : Source cfg.constants := by
  refine .inl ⟨txt "js/constants.js", ⟨by decide, fun s hs => ?_⟩, by decide⟩
  have e : split (txt "js/constants.js") = [txt "js", txt "constants.js"] := by decide
  rw [e] at hs
  simp only [List.mem_cons, List.not_mem_nil, or_false] at hs
  rcases hs with rfl | rfl
  · exact ⟨⟨by decide, by decide⟩, by decide, by decide⟩
  · exact ⟨⟨by decide, by decide⟩, by decide, by decide⟩

theorem pagesOk : PagesOk cfg := ⟨Album.pagesOk.host, Album.pagesOk.space, Album.pagesOk.json⟩
theorem parsed : cfg.page.parse firstPage = some firstTokens := by
  decide +kernel

def before : Contents Bytes := tab [("src/public/index.html", firstPage)]
def result : BuildResult := ⟨[], ["out/www/index.html", "out/www/index.html.hash"], []⟩
def env : Env where
  scan := fun _ f => if f = "src/public/index.html" then .ok ⟨[], ["out/www/index.html", "out/www/index.html.hash"], []⟩ else .error .notFound
  sig := fun _ => sig0
  order := id
  batches := [Triple.wait "src/public/index.html" result]
  scanFuel := 4
def disk : Disk := ⟨["src/public/index.html"], [], none⟩
def all : Args := ⟨"src/public/js/constants.js", .dev, ⟨[], [], []⟩, [], [("src/public/index.html", sig0)], []⟩
def run : Outcome := hotRebuild env all disk

theorem runs : run.status = .finished ∧ run.disk.files = ["src/public/index.html", "out/www/index.html", "out/www/index.html.hash"] ∧
    run.log = [.started "src/public/index.html", .finished "src/public/index.html" result] ∧ run.stored.isSome := by
  decide +kernel

theorem isNew : NewProject before := ⟨by decide +kernel, fun f _ h => tab_none.2 (by simpa using h)⟩

theorem only {f : String} (h : before f ≠ none) : f = "src/public/index.html" := by simpa using tab_ne.1 h

theorem page_before : fsOf before (txt "src/public/index.html") = some firstPage := by rw [fsOf_txt]; exact isNew.1
theorem bare_before : fsOf before (hashOf (txt "index.html")) = none := by decide +kernel

/-- What the build of the page leaves. -/
def left : Contents Bytes := fun s =>
  Html.Page.leave (pageEnv cfg false (txt "src/public/index.html") (fsOf before)) (txt "index.html") (fsOf before) firstTokens (txt s)

theorem built : (tool cfg).build .dev "src/public/index.html" before = some (result, left) := by
  have h := inert_build (n := cfg.fuel) (by decide) pubI page_before parsed first_inert bare_before
  have hd : dispatch cfg .dev (txt "src/public/index.html") (fsOf before) = some (Html.Page.report (txt "index.html") [] [],
      Html.Page.leave (pageEnv cfg false (txt "src/public/index.html") (fsOf before)) (txt "index.html") (fsOf before) firstTokens) := by
    unfold dispatch
    rw [if_neg (by decide), if_neg (by decide), if_pos (by decide)]
    unfold pageBuild
    rw [h.1, h.2]
    have e : (Html.Page.report (txt "index.html") [] []).children = [] := by decide
    simp [Except.toOption, e]
  rw [tool]
  dsimp only
  rw [hd]
  dsimp only
  have e : Html.Page.report (txt "index.html") [] [] = ⟨[], [txt "out/www/index.html", txt "out/www/index.html.hash"], []⟩ := by decide
  rw [e, if_pos (by simp)]
  simp [result, str_txt]
  rfl

theorem scans : (tool cfg).scan "src/public/index.html" before = some ⟨[], ["out/www/index.html", "out/www/index.html.hash"], []⟩ := by
  have key : dispatchScan cfg (txt "src/public/index.html") (fsOf before) = some ⟨[], [txt "out/www/index.html", txt "out/www/index.html.hash"]⟩ := by
    decide +kernel
  unfold tool
  dsimp only
  rw [if_pos source, key]
  simp [str_txt]

theorem scansBy : ScansBy (tool cfg) env before := by
  intro d f s
  constructor
  · intro h
    simp only [env] at h
    split at h
    · next hf => subst hf; cases h; exact scans
    · cases h
  · intro hn hs
    cases only hn
    rw [scans] at hs
    cases hs
    rfl

theorem log {f : String} {r : BuildResult} : Event.finished f r ∈ run.log ↔ f = "src/public/index.html" ∧ r = result := by
  rw [runs.2.2.1]
  simp

theorem none1 {c : String} : ¬ Unlinked all run c := by
  rintro ⟨⟨x, -, cs, h, -⟩, -⟩
  simp [all, getChildren] at h

def attempt : Attempt (tool cfg) env all run before where
  view := fun _ => before
  wrote := fun _ => left
  start := before
  start_unlinked c h := absurd h none1
  start_kept c _ := rfl
  ran f r h := by
    obtain ⟨h1, h2⟩ := log.1 h
    rw [h1, h2, show all.mode = .dev from rfl]
    rw [built]
  raised f h := by
    obtain ⟨h1, h2, -⟩ := h
    rw [runs.2.2.1] at h1
    exfalso
    simp only [List.mem_cons, Event.started.injEq, reduceCtorEq, List.not_mem_nil, or_false] at h1
    rw [h1] at h2
    exact h2 result (log.2 ⟨rfl, rfl⟩)
  sees pre f post e c := by
    refine .inl ⟨rfl, ?_⟩
    rw [runs.2.2.1] at e
    rintro ⟨g, r, hg, -⟩
    match pre, e, hg with
    | [], _, h => cases h
    | [x], e, h => simp at e
    | x :: y :: pre, e, h => simp at e

def work : Work (tool cfg) all run before left where
  view := fun _ => before
  wrote := fun _ => left
  start := before
  start_unlinked c h := absurd h none1
  start_kept c _ := rfl
  ran := attempt.ran
  sees f r h c := .inl rfl
  missing c h := by
    rw [runs.2.1] at h
    simp only [List.mem_cons, List.not_mem_nil, or_false, not_or] at h
    have h1 : ¬ txt c = txt "out/www/" ++ txt "index.html" ++ txt ".hash" := fun e => h.2.2 (txt_inj (e.trans (by decide)))
    have h2 : ¬ txt c = txt "out/www/" ++ txt "index.html" := fun e => h.2.1 (txt_inj (e.trans (by decide)))
    show (if _ then _ else if _ then _ else _) = _
    rw [if_neg h1, if_neg h2, fsOf_txt]
    exact tab_none.2 (by simpa using h.1)
  written c _ hc := by
    obtain ⟨g, r, h1, h2⟩ := hc
    exact ⟨g, r, h1, h2, rfl⟩
  kept c _ hc := by
    have h : c ∉ result.produced := fun h => hc ⟨_, _, log.2 ⟨rfl, rfl⟩, h⟩
    simp only [result, List.mem_cons, List.not_mem_nil, or_false, not_or] at h
    have h1 : ¬ txt c = txt "out/www/" ++ txt "index.html" ++ txt ".hash" := fun e => h.2 (txt_inj (e.trans (by decide)))
    have h2 : ¬ txt c = txt "out/www/" ++ txt "index.html" := fun e => h.1 (txt_inj (e.trans (by decide)))
    show (if _ then _ else if _ then _ else _) = _
    rw [if_neg h1, if_neg h2, fsOf_txt]

theorem edits : Edits (project cfg.constants) all disk (fun _ => none) before := by
  have hn : ∀ {o : String}, (project cfg.constants).owner o ≠ none → o ∉ ["src/public/index.html"] := fun h hc => by
    cases List.mem_singleton.1 hc
    exact h (owner_source source)
  refine ⟨fun f => tab_ne, fun o ho => tab_none.2 (hn ho), fun f h1 h2 h3 _ => tab_none.2 h3, ?_, ?_, fun f _ h _ => h, ?_, ?_⟩
  · simp [all, Dict.keys]
  · intro f hf
    cases List.mem_singleton.1 hf
    exact ⟨source, by decide⟩
  · simp [all, contains, Dict.has]
  · simp [all]

/-- The first page is parsed as HTML says, and the first build of the new project is as C120 supposes. -/
theorem C120_case : isAbs cfg.js.cwd = true ∧ Js.SpaceOk cfg.js.space ∧ PagesOk cfg ∧ Icons.Spaces cfg.sheet.icon.space ∧ Source cfg.constants ∧
    cfg.constants ≠ "src/public/index.html" ∧ 0 < cfg.fuel ∧ cfg.page.parse firstPage = some firstTokens ∧ (∀ t ∈ firstTokens, Inert t) ∧
    all.old = ⟨[], [], []⟩ ∧ disk.mode = none ∧ ValidOrder env ∧ ScansBy (tool cfg) env before ∧ 0 < env.scanFuel ∧ all.constants = cfg.constants ∧
    Edits (project cfg.constants) all disk (fun _ => none) before ∧ Housed disk ∧ NewProject before ∧
    Nonempty (Attempt (tool cfg) env all (hotRebuild env all disk) before) ∧ (hotRebuild env all disk).status ≠ .waiting :=
  ⟨Site.cwd, fun c h1 h2 => by simp [cfg, Site.cfg, Js.File.toy]; omega, pagesOk, Garden.spaces, constants, by decide, by decide, parsed, first_inert, rfl, rfl,
    fun _ => List.Perm.refl _, scansBy, by decide, rfl, edits, by intro o ho; revert o; decide +kernel, isNew, ⟨attempt⟩,
    by have := runs.1; unfold run at this; rw [this]; simp⟩

/-- A folder with nothing in it. -/
theorem C120_init_case : let fs := Runners.ofList [([], .dir), ([txt "p"], .dir)]
    isAbs (txt "/") = true ∧ fs (Runners.root (txt "/") (txt "p") ++ [txt "src", txt "public", txt "index.html"]) = none ∧
    (Runners.init (txt "{}") firstPage (txt "/") (txt "p") fs).2.1 = none := by
  refine ⟨by decide, by decide +kernel, ?_⟩
  have hd : ∀ d ∈ Runners.dirs (txt "/") (txt "p"), Runners.ofList [([], .dir), ([txt "p"], .dir)] d = none ∨
      Runners.ofList [([], .dir), ([txt "p"], .dir)] d = some .dir := by decide +kernel
  exact Runners.C54_succeeds _ _ _ (by decide) _ (Runners.tree_ofList (by decide +kernel)) (by decide +kernel)
    fun d h c hc => by rcases hd d h with h | h <;> (rw [h] at hc; cases hc)

/-- And then it is published. -/
theorem C120_published_case : Worked (project cfg.constants) (tool cfg) .dev left (run.stored.getD ⟨[], [], []⟩) run.disk.mode ∧
    IsPage cfg "src/public/index.html" ∧ left "src/public/index.html" = some firstPage :=
  ⟨Worked.rebuild (m0 := .dev) (W := fun _ => none) (env := env) (a := all) (d := disk) (W0 := before) (.empty _ _ fun _ _ => rfl) (fun _ => List.Perm.refl _)
    (fun d f s h => ⟨before, (scansBy d f s).1 h⟩) rfl edits work runs.1, first_source cfg (by decide), by
    have h1 : ¬ txt "src/public/index.html" = txt "out/www/" ++ txt "index.html" ++ txt ".hash" := by decide
    have h2 : ¬ txt "src/public/index.html" = txt "out/www/" ++ txt "index.html" := by decide
    rw [left, Html.Page.leave, Fs.write, Fs.write, if_neg h1, if_neg h2]
    exact page_before⟩

end Fresh
end Verif.Hot.Scripts
