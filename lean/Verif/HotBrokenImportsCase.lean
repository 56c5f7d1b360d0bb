import Verif.HotBrokenImports
import Verif.HotBuildsSheetsCase
import Verif.HotSheetsCase
/-!
# C111 for stylesheets which import rules: concrete projects

The project of `HotSheetsCase` once it is built, without the stylesheet from which a rule is imported, and with one which imports back.
-/
namespace Verif.Hot.Scripts
namespace Sheets
open Verif Verif.Hot Verif.Graph
open Verif.Reader (Text txt)
open Verif.Paths (isAbs)
open Verif.Handlers (Bytes Fs)
open Site (cfg tab tab_none tab_ne tab_skip pub outputs cwd)

theorem isSheet {f : String} (h : f = "src/public/m.css" ∨ f = "src/public/p.css") : IsSheet cfg f := by
  rcases h with rfl | rfl
  · exact ⟨by decide, ⟨_, pubA, by decide⟩, List.isSuffixOf_iff_suffix.1 (by decide)⟩
  · exact ⟨by decide, ⟨_, pubB, by decide⟩, List.isSuffixOf_iff_suffix.1 (by decide)⟩

theorem importsP {W : Contents Bytes} (h : W "src/public/p.css" = some (txt ".e{/*! PREPROCESSOR: import .a */f:url(/m.css)}")) :
    ImportsFrom cfg W "src/public/p.css" "src/public/m.css" :=
  ⟨isSheet (.inr rfl), by decide, _, sheetP, ⟨txt "src/public/m.css", txt ".a"⟩, h, tokensP,
    ⟨.comment (txt "! PREPROCESSOR: import .a "), by decide, by decide +kernel⟩, rfl⟩

/-- The hypotheses of `C111_imports_partial` are met by the project once it is built. -/
theorem C111_imports_case : isAbs cfg.js.cwd = true ∧ Js.SpaceOk cfg.js.space ∧ PagesOk cfg ∧ Icons.Spaces cfg.sheet.icon.space ∧ Source cfg.constants ∧
    Worked (project cfg.constants) (tool cfg) .dev (done true) graphs1 run1.disk.mode ∧ Source "src/public/p.css" ∧ Source "src/public/m.css" ∧
    ImportsFrom cfg (done true) "src/public/p.css" "src/public/m.css" :=
  ⟨cwd, fun c h1 h2 => by simp [cfg, Js.File.toy]; omega, Album.pagesOk, Garden.spaces, source _ (by simp [cfg]), hist1 true, source _ (by simp), source _ (by simp),
    importsP (by decide)⟩

/-! ### The stylesheet is missing -/

def sources3 : List (String × Bytes) := [("src/public/p.css", txt ".e{/*! PREPROCESSOR: import .a */f:url(/m.css)}"), ("src/public/k.js", txt "")]
def fresh3 : Disk := ⟨["src/public/p.css", "src/public/k.js"], ["out"], none⟩
def all3 : Args := ⟨"src/public/k.js", .dev, ⟨[], [], []⟩, [], [("src/public/p.css", sig0), ("src/public/k.js", sig0)], []⟩
def run3 : Outcome := hotRebuild env all3 fresh3

theorem runs3 : run3.status = .failed .valueError ∧ run3.disk.files = fresh3.files ∧ run3.log = [] := by decide +kernel

/-- Nothing is built. -/
def idleWork {a : Args} {run : Outcome} {S : List (String × Bytes)} (ha : a.old = ⟨[], [], []⟩) (hl : ∀ g r, Event.finished g r ∉ run.log)
    (hd : run.disk.files = S.map (·.1)) : Work (tool cfg) a run (tab S) (tab S) where
  view := fun _ => tab S
  wrote := fun _ => tab S
  start := tab S
  start_unlinked c h := by
    obtain ⟨⟨x, -, cs, h, -⟩, -⟩ := h
    rw [ha] at h
    simp [getChildren] at h
  start_kept c _ := rfl
  ran f r h := absurd h (hl f r)
  sees f r h c := .inl rfl
  missing c h := by
    rw [hd] at h
    exact tab_none.2 h
  written c _ hc := by
    obtain ⟨g, r, h, -⟩ := hc
    exact absurd h (hl g r)
  kept c _ _ := rfl

theorem first {a : Args} {d : Disk} {S : List (String × Bytes)} (ha : a.old = ⟨[], [], []⟩) (hch : a.changed = []) (hde : a.deleted = []) (hall : a.added.keys = S.map (·.1))
    (hd : d.files = S.map (·.1)) (hsrc : ∀ f ∈ S.map (·.1), Source f) : Edits (project cfg.constants) a d (fun _ => none) (tab S) := by
  refine ⟨fun f => ?_, fun o ho => ?_, fun f h1 h2 h3 _ => ?_, ?_, fun f hf => ?_, fun f _ h _ => by rw [hall, ← hd]; exact h, ?_, ?_⟩
  · rw [tab_ne, hd]
  · exact tab_none.2 fun hc => ho (owner_source (hsrc o hc))
  · exact tab_none.2 fun hc => h3 (by rw [hall]; exact hc)
  · rw [hch]; simp [Dict.keys]
  · rw [hall] at hf; exact ⟨hsrc f hf, by rw [hd]; exact hf⟩
  · intro f h; rw [ha] at h; simp [contains, Dict.has] at h
  · rw [hde]; simp

/-- The hypotheses of `C111_imports_broken_partial` are met by a project where a rule is imported from a stylesheet which is not there. -/
theorem C111_imports_broken_case : isAbs cfg.js.cwd = true ∧ Source cfg.constants ∧
    Worked (project cfg.constants) (tool cfg) .dev (fun _ => none) all3.old fresh3.mode ∧ ValidOrder env ∧ Scanned (tool cfg) env ∧ all3.constants = cfg.constants ∧
    Edits (project cfg.constants) all3 fresh3 (fun _ => none) (tab sources3) ∧ Nonempty (Work (tool cfg) all3 (hotRebuild env all3 fresh3) (tab sources3) (tab sources3)) ∧
    Source "src/public/p.css" ∧ ImportsFrom cfg (tab sources3) "src/public/p.css" "src/public/m.css" ∧ Source "src/public/m.css" ∧
    tab sources3 "src/public/m.css" = none ∧ (hotRebuild env all3 fresh3).status = .failed .valueError :=
  ⟨cwd, source _ (by simp [cfg]), .empty _ _ fun _ _ => rfl, order, scanned, rfl,
    first rfl rfl rfl rfl rfl (fun f hf => source f (List.mem_cons_of_mem _ hf)), ⟨idleWork rfl (fun g r h => by have := runs3.2.2; unfold run3 at this; rw [this] at h; simp at h) runs3.2.1⟩,
    source _ (by simp), importsP (by decide), source _ (by simp), by decide, runs3.1⟩

/-! ### Imports in a circle -/

def back : Text := txt ".a{/*! PREPROCESSOR: import .e from /p.css */b:c}"
def sheetB : List Css.Tok := [.delim [46], .ident (txt "a"), .leftCurly, .comment (txt "! PREPROCESSOR: import .e from /p.css "), .ident (txt "b"), .colon, .ident (txt "c"),
  .rightCurly, .eof]
theorem tokensB : Css.tokenize cfg.sheet.nest.uni (cfg.js.decode back) = .ok sheetB := by decide +kernel

def sources5 : List (String × Bytes) :=
  [("src/public/m.css", back), ("src/public/p.css", txt ".e{/*! PREPROCESSOR: import .a */f:url(/m.css)}"), ("src/public/k.js", txt "")]
def scanner5 : Scanner := fun d f =>
  if f = "src/public/m.css" then .ok ⟨["src/public/p.css"], ["out/www/m.css", "out/www/m.css.hash"], []⟩ else scanner d f
def env5 : Env where
  scan := scanner5
  sig := fun _ => sig0
  order := id
  batches := [Triple.wait "src/public/k.js" rK]
  scanFuel := 4
def run5 : Outcome := hotRebuild env5 all fresh
def before5 : Contents Bytes := tab sources5
def after5 : Contents Bytes := tab (outK ++ sources5)
def wrote5 : Contents Bytes := fun s => (dispatch cfg .dev (txt "src/public/k.js") (fsOf before5)).bind fun r => r.2 (txt s)

theorem runs5 : run5.status = .failed .cyclic ∧ run5.disk.files = fresh.files ++ ["out/www/k.js", "out/www/k.js.hash"] ∧
    run5.log = [.started "src/public/k.js", .finished "src/public/k.js" rK] := by decide +kernel

theorem built5 : (dispatch cfg .dev (txt "src/public/k.js") (fsOf before5)).map (·.1) = some bK ∧ wrote5 "out/www/k.js" = after5 "out/www/k.js" ∧
    wrote5 "out/www/k.js.hash" = after5 "out/www/k.js.hash" := by decide +kernel

theorem log5 {f : String} {r : BuildResult} : Event.finished f r ∈ run5.log ↔ f = "src/public/k.js" ∧ r = rK := by
  rw [runs5.2.2]
  simp

def work5 : Work (tool cfg) all run5 before5 after5 where
  view := fun _ => before5
  wrote := fun _ => wrote5
  start := before5
  start_unlinked c h := by
    obtain ⟨⟨x, -, cs, h, -⟩, -⟩ := h
    simp [all, getChildren] at h
  start_kept c _ := rfl
  ran f r h := by
    obtain ⟨rfl, rfl⟩ := log5.1 h
    show (tool cfg).build .dev _ _ = _
    rw [build_eq built5.1 (by simp [bK])]
    simp [bK, rK, str_txt]
    rfl
  sees f r h c := .inl rfl
  missing c h := by
    rw [runs5.2.1] at h
    refine tab_none.2 fun hc => h ?_
    simp only [outK, sources5, fresh, List.map_append, List.map_cons, List.map_nil, List.mem_append, List.mem_cons, List.not_mem_nil, or_false] at hc ⊢
    grind
  written c _ hc := by
    obtain ⟨g, r, h1, h2⟩ := hc
    refine ⟨g, r, h1, h2, ?_⟩
    obtain ⟨rfl, rfl⟩ := log5.1 h1
    simp only [rK, List.mem_cons, List.not_mem_nil, or_false] at h2
    rcases h2 with rfl | rfl
    · exact built5.2.1.symm
    · exact built5.2.2.symm
  kept c _ hc := tab_skip fun h => hc ⟨"src/public/k.js", rK, log5.2 ⟨rfl, rfl⟩, h⟩

theorem scanned5 : Scanned (tool cfg) env5 := by
  have key : (dispatchScan cfg (txt "src/public/m.css") (fsOf before5)) = some ⟨[txt "src/public/p.css"], [txt "out/www/m.css", txt "out/www/m.css.hash"]⟩ := by
    decide +kernel
  intro d f s h
  have h : scanner5 d f = .ok s := h
  unfold scanner5 at h
  split at h
  · next hf =>
    subst hf
    cases h
    refine ⟨before5, ?_⟩
    unfold tool
    dsimp only
    rw [if_pos (source _ (by simp)), key]
    simp [str_txt]
  · exact scanned d f s h

theorem importsB : ImportsFrom cfg before5 "src/public/m.css" "src/public/p.css" :=
  ⟨isSheet (.inl rfl), by decide, back, sheetB, ⟨txt "src/public/p.css", txt ".e"⟩, by decide, tokensB,
    ⟨.comment (txt "! PREPROCESSOR: import .e from /p.css "), by decide, by decide +kernel⟩, rfl⟩

/-- The hypotheses of `C111_imports_circular_partial` are met by two stylesheets which import from each other. -/
theorem C111_imports_circular_case : isAbs cfg.js.cwd = true ∧ Js.SpaceOk cfg.js.space ∧ PagesOk cfg ∧ Icons.Spaces cfg.sheet.icon.space ∧ Source cfg.constants ∧
    Worked (project cfg.constants) (tool cfg) .dev (fun _ => none) all.old fresh.mode ∧ ValidOrder env5 ∧ Scanned (tool cfg) env5 ∧ all.constants = cfg.constants ∧
    Edits (project cfg.constants) all fresh (fun _ => none) before5 ∧ Nonempty (Work (tool cfg) all (hotRebuild env5 all fresh) before5 after5) ∧
    Path (fun x y => Source x ∧ before5 x ≠ none ∧ Source y ∧ Needs cfg before5 x y) "src/public/m.css" "src/public/m.css" ∧
    (hotRebuild env5 all fresh).status = .failed .cyclic :=
  ⟨cwd, fun c h1 h2 => by simp [cfg, Js.File.toy]; omega, Album.pagesOk, Garden.spaces, source _ (by simp [cfg]), .empty _ _ fun _ _ => rfl, fun _ => List.Perm.refl _,
    scanned5, rfl, first rfl rfl rfl rfl rfl (fun f hf => source f hf), ⟨work5⟩,
    .more ⟨source _ (by simp), by decide, source _ (by simp), .inl importsB⟩ (.one ⟨source _ (by simp), by decide, source _ (by simp), .inl (importsP (by decide))⟩), runs5.1⟩

end Sheets
end Verif.Hot.Scripts
