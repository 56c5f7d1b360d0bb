import Verif.HotBuildsSheets
import Verif.HotBuildsPagesCase
import Verif.HotSheetsCase
/-!
# C110 and C111: two stylesheets

A website of two stylesheets, one of which has the URL of the other, and constants is built.
-/
namespace Verif.Hot.Scripts
open Verif Verif.Hot Verif.Graph
open Verif.Reader (Text txt)
open Verif.Paths (split isAbs Name Seg)
open Verif.Handlers (Bytes Fs Scan)
open Site (cfg tab tab_none tab_ne tab_skip pub outputs cwd)
open Sheets (pubA pubB pubK source)

namespace Garden

def textM : Text := txt ".a{b:c;}"
def textP : Text := txt ".e{f:url(/m.css)}"

def sources : List (String × Bytes) := [("src/public/m.css", textM), ("src/public/p.css", textP), ("src/public/k.js", txt "")]
def outA : List (String × Bytes) := [("out/www/m.css", textM), ("out/www/m.css.hash", txt "8")]
def outB : List (String × Bytes) := [("out/www/p.css", txt ".e{f:url(/m.css?v=8)}"), ("out/www/p.css.hash", txt "21")]
def outK : List (String × Bytes) := [("out/www/k.js", txt "dev"), ("out/www/k.js.hash", txt "3")]

/-- The contents once everything is built. -/
def done : Contents Bytes := tab (outA ++ outB ++ outK ++ sources)

def rA : BuildResult := ⟨[], ["out/www/m.css", "out/www/m.css.hash"], []⟩
def rB : BuildResult := ⟨["out/www/m.css.hash"], ["out/www/p.css", "out/www/p.css.hash"], []⟩
def rK : BuildResult := ⟨[], ["out/www/k.js", "out/www/k.js.hash"], []⟩
def bA : Handlers.Built := ⟨[], [txt "out/www/m.css", txt "out/www/m.css.hash"], []⟩
def bB : Handlers.Built := ⟨[txt "out/www/m.css.hash"], [txt "out/www/p.css", txt "out/www/p.css.hash"], []⟩
def bK : Handlers.Built := ⟨[], [txt "out/www/k.js", txt "out/www/k.js.hash"], []⟩

/-- What the builds see. -/
def view (f : String) : Contents Bytes := if f = "src/public/p.css" then tab (outA ++ sources) else tab sources

def wrote (f : String) : Contents Bytes := fun s => (dispatch cfg .dev (txt f) (fsOf (view f))).bind fun r => r.2 (txt s)

theorem built : (dispatch cfg .dev (txt "src/public/m.css") (fsOf (view "src/public/m.css"))).map (·.1) = some bA ∧
    (dispatch cfg .dev (txt "src/public/k.js") (fsOf (view "src/public/k.js"))).map (·.1) = some bK ∧
    (dispatch cfg .dev (txt "src/public/p.css") (fsOf (view "src/public/p.css"))).map (·.1) = some bB := by
  decide +kernel

theorem wrotes : wrote "src/public/m.css" "out/www/m.css" = done "out/www/m.css" ∧
    wrote "src/public/m.css" "out/www/m.css.hash" = done "out/www/m.css.hash" ∧
    wrote "src/public/p.css" "out/www/p.css" = done "out/www/p.css" ∧
    wrote "src/public/p.css" "out/www/p.css.hash" = done "out/www/p.css.hash" ∧
    wrote "src/public/k.js" "out/www/k.js" = done "out/www/k.js" ∧
    wrote "src/public/k.js" "out/www/k.js.hash" = done "out/www/k.js.hash" := by
  decide +kernel

theorem childB : ∀ d ∈ bB.children, Child "src/public/p.css" d := by
  intro d hd
  simp only [bB, List.mem_cons, List.not_mem_nil, or_false] at hd
  subst hd
  exact ⟨"out/www/m.css.hash", rfl, .inr (.inl ⟨by decide, _, _, pubA, by decide⟩)⟩

def scanner : Scanner := fun _ f =>
  if f = "src/public/m.css" then .ok ⟨[], ["out/www/m.css", "out/www/m.css.hash"], []⟩
  else if f = "src/public/p.css" then .ok ⟨["out/www/m.css.hash"], ["out/www/p.css", "out/www/p.css.hash"], []⟩
  else if f = "src/public/k.js" then .ok ⟨[], ["out/www/k.js", "out/www/k.js.hash"], []⟩
  else .error .notFound

def env : Env where
  scan := scanner
  sig := fun _ => sig0
  order := id
  batches := [Triple.wait "src/public/m.css" rA, Triple.wait "src/public/k.js" rK, Triple.wait "src/public/p.css" rB]
  scanFuel := 4

def before : Contents Bytes := tab sources

theorem scans : (tool cfg).scan "src/public/m.css" before = some ⟨[], ["out/www/m.css", "out/www/m.css.hash"], []⟩ ∧
    (tool cfg).scan "src/public/p.css" before = some ⟨["out/www/m.css.hash"], ["out/www/p.css", "out/www/p.css.hash"], []⟩ ∧
    (tool cfg).scan "src/public/k.js" before = some ⟨[], ["out/www/k.js", "out/www/k.js.hash"], []⟩ := by
  have key : (dispatchScan cfg (txt "src/public/m.css") (fsOf before)) = some ⟨[], [txt "out/www/m.css", txt "out/www/m.css.hash"]⟩ ∧
      (dispatchScan cfg (txt "src/public/p.css") (fsOf before)) = some ⟨[txt "out/www/m.css.hash"], [txt "out/www/p.css", txt "out/www/p.css.hash"]⟩ ∧
      (dispatchScan cfg (txt "src/public/k.js") (fsOf before)) = some ⟨[], [txt "out/www/k.js", txt "out/www/k.js.hash"]⟩ := by
    decide +kernel
  unfold tool
  dsimp only
  rw [if_pos (source _ (by simp)), if_pos (source _ (by simp)), if_pos (source _ (by simp)), key.1, key.2.1, key.2.2]
  simp [str_txt]

theorem before_sources {f : String} {y : Bytes} (h : before f = some y) :
    f = "src/public/m.css" ∧ y = textM ∨ f = "src/public/p.css" ∧ y = textP ∨ f = "src/public/k.js" := by
  have hn : before f ≠ none := by rw [h]; simp
  rw [before, tab_ne] at hn
  simp only [sources, List.map_cons, List.map_nil, List.mem_cons, List.not_mem_nil, or_false] at hn
  rcases hn with rfl | rfl | rfl
  · have e : before "src/public/m.css" = some textM := by decide
    rw [e] at h
    exact .inl ⟨rfl, (Option.some.inj h).symm⟩
  · have e : before "src/public/p.css" = some textP := by decide
    rw [e] at h
    exact .inr (.inl ⟨rfl, (Option.some.inj h).symm⟩)
  · exact .inr (.inr rfl)

theorem scansBy : ScansBy (tool cfg) env before := by
  obtain ⟨hA, hB, hK⟩ := scans
  intro d f s
  constructor
  · intro h
    have h : scanner d f = .ok s := h
    unfold scanner at h
    split at h
    · next hf => subst hf; cases h; exact hA
    · split at h
      · next hf => subst hf; cases h; exact hB
      · split at h
        · next hf => subst hf; cases h; exact hK
        · cases h
  · intro hn hs
    obtain ⟨y, hy⟩ := Option.ne_none_iff_exists'.1 hn
    show scanner d f = .ok s
    rcases before_sources hy with ⟨rfl, rfl⟩ | ⟨rfl, rfl⟩ | rfl
    · rw [hA] at hs; cases hs; rfl
    · rw [hB] at hs; cases hs; rfl
    · rw [hK] at hs; cases hs; rfl

theorem scanned : Scanned (tool cfg) env := fun d f s h => ⟨before, (scansBy d f s).1 h⟩

def fresh : Disk := ⟨["src/public/m.css", "src/public/p.css", "src/public/k.js"], ["out"], none⟩
def all : Args := ⟨"src/public/k.js", .dev, ⟨[], [], []⟩, [], [("src/public/m.css", sig0), ("src/public/p.css", sig0), ("src/public/k.js", sig0)], []⟩
def run : Outcome := hotRebuild env all fresh
def graphs : Graphs := run.stored.getD ⟨[], [], []⟩

theorem runs : run.status = .finished ∧ run.disk.files = ["src/public/m.css", "src/public/p.css", "src/public/k.js", "out/www/m.css", "out/www/m.css.hash",
      "out/www/k.js", "out/www/k.js.hash", "out/www/p.css", "out/www/p.css.hash"] ∧
    run.log = [.started "src/public/m.css", .started "src/public/k.js", .finished "src/public/m.css" rA, .started "src/public/p.css",
      .finished "src/public/k.js" rK, .finished "src/public/p.css" rB] ∧ run.stored.isSome := by
  decide +kernel

theorem order : ValidOrder env := fun _ => List.Perm.refl _

theorem ran (f : String) (r : BuildResult) (h : f = "src/public/m.css" ∧ r = rA ∨ f = "src/public/p.css" ∧ r = rB ∨ f = "src/public/k.js" ∧ r = rK) :
    (tool cfg).build .dev f (view f) = some (r, wrote f) := by
  obtain ⟨h1, h2, h3⟩ := built
  rcases h with ⟨rfl, rfl⟩ | ⟨rfl, rfl⟩ | ⟨rfl, rfl⟩
  · rw [build_eq h1 (by simp [bA])]
    simp [bA, rA, str_txt]
    rfl
  · rw [build_eq h3 (by exact childB)]
    simp [bB, rB, str_txt]
    rfl
  · rw [build_eq h2 (by simp [bK])]
    simp [bK, rK, str_txt]
    rfl

theorem log {f : String} {r : BuildResult} : Event.finished f r ∈ run.log ↔
    f = "src/public/m.css" ∧ r = rA ∨ f = "src/public/p.css" ∧ r = rB ∨ f = "src/public/k.js" ∧ r = rK := by
  rw [runs.2.2.1]
  simp only [List.mem_cons, reduceCtorEq, Event.finished.injEq, List.not_mem_nil, or_false, false_or]
  constructor
  · rintro (h | h | h) <;> simp [h]
  · rintro (h | h | h) <;> simp [h]

theorem view_sees (f c : String) : (view f c = before c ∧ ¬ (f = "src/public/p.css" ∧ c ∈ rA.produced)) ∨
    f = "src/public/p.css" ∧ c ∈ rA.produced ∧ view f c = wrote "src/public/m.css" c := by
  unfold view
  split
  · next hf =>
    by_cases hc : c ∈ rA.produced
    · refine .inr ⟨hf, hc, ?_⟩
      simp only [rA, List.mem_cons, List.not_mem_nil, or_false] at hc
      rcases hc with rfl | rfl
      · rw [wrotes.1]; rfl
      · rw [wrotes.2.1]; rfl
    · left
      exact ⟨tab_skip hc, fun h => hc h.2⟩
  · next hf => exact .inl ⟨rfl, fun h => hf h.1⟩

theorem none1 {c : String} : ¬ Unlinked all run c := by
  rintro ⟨⟨x, -, cs, h, -⟩, -⟩
  simp [all, getChildren] at h

def work : Work (tool cfg) all run before done where
  view := view
  wrote := wrote
  start := before
  start_unlinked c h := absurd h none1
  start_kept c _ := rfl
  ran f r h := ran f r (log.1 h)
  sees f r h c := by
    rcases view_sees f c with ⟨h1, -⟩ | ⟨h1, h2, h3⟩
    · exact .inl h1
    · exact .inr ⟨"src/public/m.css", rA, by rw [h1]; decide, log.2 (by simp), h2, h3⟩
  missing c h := by
    rw [runs.2.1] at h
    rw [done, tab_none]
    intro hc
    apply h
    simp only [outA, outB, outK, sources, List.map_append, List.map_cons, List.map_nil, List.mem_append, List.mem_cons, List.not_mem_nil, or_false] at hc ⊢
    grind
  written c _ hc := by
    obtain ⟨g, r, h1, h2⟩ := hc
    refine ⟨g, r, h1, h2, ?_⟩
    obtain ⟨q1, q2, q3, q4, q5, q6⟩ := wrotes
    rcases log.1 h1 with ⟨rfl, rfl⟩ | ⟨rfl, rfl⟩ | ⟨rfl, rfl⟩ <;>
      simp only [rA, rB, rK, List.mem_cons, List.not_mem_nil, or_false] at h2 <;> rcases h2 with rfl | rfl
    · exact q1.symm
    · exact q2.symm
    · exact q3.symm
    · exact q4.symm
    · exact q5.symm
    · exact q6.symm
  kept c _ hc := by
    refine tab_skip fun h => hc ?_
    simp only [List.map_append, List.mem_append] at h
    rcases h with (h | h) | h
    · exact ⟨"src/public/m.css", rA, log.2 (by simp), h⟩
    · exact ⟨"src/public/p.css", rB, log.2 (by simp), h⟩
    · exact ⟨"src/public/k.js", rK, log.2 (by simp), h⟩

def attempt : Attempt (tool cfg) env all run before where
  view := view
  wrote := wrote
  start := before
  start_unlinked := work.start_unlinked
  start_kept := work.start_kept
  ran := work.ran
  raised f h := by
    obtain ⟨h1, h2, -⟩ := h
    rw [runs.2.2.1] at h1
    exfalso
    simp only [List.mem_cons, Event.started.injEq, reduceCtorEq, List.not_mem_nil, or_false, false_or] at h1
    rcases h1 with rfl | rfl | rfl
    · exact h2 rA (log.2 (by simp))
    · exact h2 rK (log.2 (by simp))
    · exact h2 rB (log.2 (by simp))
  sees pre f post e c := by
    have hpre : ∀ g r, Event.finished g r ∈ pre → f = "src/public/p.css" ∧ r = rA := by
      rw [runs.2.2.1] at e
      intro g r h
      match pre, e, h with
      | [], _, h => cases h
      | [x], e, h =>
        simp only [List.cons_append, List.nil_append, List.cons.injEq, Event.started.injEq] at e
        obtain ⟨rfl, -⟩ := e
        simp at h
      | [x, y], e, h => simp at e
      | [x, y, z], e, h =>
        simp only [List.cons_append, List.nil_append, List.cons.injEq, Event.started.injEq] at e
        obtain ⟨rfl, rfl, rfl, rfl, -⟩ := e
        simp only [List.mem_cons, reduceCtorEq, Event.finished.injEq, List.not_mem_nil, or_false, false_or] at h
        exact ⟨rfl, h.2⟩
      | [x, y, z, w], e, h => simp at e
      | [x, y, z, w, u], e, h => simp at e
      | x :: y :: z :: w :: u :: v :: pre, e, h => simp at e
    rcases view_sees f c with ⟨h1, h2⟩ | ⟨h1, h2, h3⟩
    · refine .inl ⟨h1, ?_⟩
      rintro ⟨g, r, hg, hr⟩
      obtain ⟨rfl, rfl⟩ := hpre g r hg
      exact h2 ⟨rfl, hr⟩
    · exact .inr ⟨"src/public/m.css", rA, by rw [h1]; decide, log.2 (by simp), h2, h3⟩

theorem edits : Edits (project cfg.constants) all fresh (fun _ => none) before := by
  have hn : ∀ {o : String}, (project cfg.constants).owner o ≠ none → o ∉ sources.map (·.1) := fun h hc => h (owner_source (source _ hc))
  refine ⟨fun f => tab_ne, fun o ho => tab_none.2 (hn ho), fun f h1 h2 h3 _ => tab_none.2 h3, ?_, fun f hf => ⟨source f hf, hf⟩, fun f _ h _ => h, ?_, ?_⟩
  · simp [all, Dict.keys]
  · simp [all, contains, Dict.has]
  · simp [all]

theorem hist : Worked (project cfg.constants) (tool cfg) .dev done graphs run.disk.mode :=
  Worked.rebuild (m0 := .dev) (W := fun _ => none) (env := env) (a := all) (d := fresh) (W0 := before) (.empty _ _ fun _ _ => rfl) order scanned rfl edits work runs.1

/-! ### The stylesheets -/

def toksM : List Css.Tok := [.delim [46], .ident (txt "a"), .leftCurly, .ident (txt "b"), .colon, .ident (txt "c"), .semicolon, .rightCurly, .eof]
def toksP : List Css.Tok := [.delim [46], .ident (txt "e"), .leftCurly, .ident (txt "f"), .colon, .url (txt "/m.css"), .rightCurly, .eof]

theorem tokM : Css.tokenize cfg.sheet.nest.uni (cfg.js.decode textM) = .ok toksM := by decide +kernel
theorem tokP : Css.tokenize cfg.sheet.nest.uni (cfg.js.decode textP) = .ok toksP := by decide +kernel

theorem no_function : ∀ ts ∈ [toksM, toksP], ∀ t ∈ ts, ∀ f, t ≠ .function f := by
  have : ∀ ts ∈ [toksM, toksP], ∀ t ∈ ts, (match t with | .function _ => true | _ => false) = false := by decide
  intro ts hts t ht f e
  have := this ts hts t ht
  rw [e] at this
  cases this

theorem urlsOnly (f : Text) : ∀ ts ∈ [toksM, toksP], Css.Page.UrlsOnly (sheetEnv cfg f fun _ => none) ts := by
  intro ts hts
  have hf := no_function ts hts
  have hc : ∀ ts ∈ [toksM, toksP], ∀ t ∈ ts, (match t with | .comment _ => true | .str _ => true | .url v => (txt "//").isPrefixOf v | _ => false) = false := by decide
  refine ⟨?_, ?_, ?_, ?_⟩
  · rintro r ⟨t, ht, h⟩
    have := hc ts hts t ht
    cases t <;> first | cases h | cases this
  · intro v a hv
    have := hc ts hts _ hv
    cases this
  · rintro k type data ⟨j, v, -, h, -⟩
    exact hf _ (List.mem_of_getElem? h) _ rfl
  · rintro v (hv | hv) hp
    · have := hc ts hts _ hv
      cases this
    · have h2 := hc ts hts _ hv
      dsimp only at h2
      rw [List.isPrefixOf_iff_prefix.2 hp] at h2
      cases h2

theorem outside {ts : List Css.Tok} (hts : ts ∈ [toksM, toksP]) (k : Nat) : ¬ Css.Urls.Inside cfg.sheet.urls.lower ts k := by
  rintro ⟨o, f, -, h, -⟩
  exact no_function ts hts _ (List.mem_of_getElem? h) _ rfl

theorem urlAt {ts : List Css.Tok} (hts : ts ∈ [toksM, toksP]) {k : Nat} {v : Text} (h : Css.Urls.UrlAt cfg.sheet.urls.lower ts k v) : ts = toksP ∧ v = txt "/m.css" := by
  rcases h with ⟨-, h⟩ | ⟨h, -⟩
  · exact absurd h (outside hts k)
  · have hm := List.mem_of_getElem? h
    simp only [List.mem_cons, List.not_mem_nil, or_false] at hts
    rcases hts with rfl | rfl
    · simp [toksM] at hm
    · refine ⟨rfl, ?_⟩
      simp only [toksP, List.mem_cons, List.not_mem_nil, or_false, reduceCtorEq, false_or, Css.Tok.url.injEq] at hm
      exact hm

theorem local_path {f v x : Text} (hv : v = txt "/m.css") (h : Css.Urls.Local f v x) : x = txt "m.css" := by
  have h1 := h.1
  rw [hv, show txt "/m.css" = txt "/" ++ txt "m.css" by decide] at h1
  exact (List.append_cancel_left h1).symm

local macro "kernel_refl" : tactic => `(tactic|
  run_tac (Lean.Elab.Tactic.getMainGoal >>= fun g => g.assign (Lean.mkApp2 (Lean.mkConst ``Eq.refl [1]) (Lean.mkConst ``Bool) (Lean.mkConst ``Bool.true))))

/-- Some files, among them the stylesheet. -/
def given (f : Text) (y : Bytes) (o : Option Bytes) (fs : Fs) : Fs := fun n => if n = f then some y else if n = txt "out/www/m.css.hash" then o else fs n

theorem given_eq {f : Text} {y : Bytes} {fs : Fs} (h : fs f = some y) : fs = given f y (fs (txt "out/www/m.css.hash")) fs := by
  funext n
  unfold given
  split
  · next e => rw [e, h]
  · split
    · next e => rw [e]
    · rfl

theorem scanM (o : Option Bytes) (fs : Fs) : (Css.Page.scanFile 100 (sheetEnv cfg (txt "src/public/m.css") (given (txt "src/public/m.css") textM o fs))
    (txt "src/public/m.css") (given (txt "src/public/m.css") textM o fs)).isSome = true := by
  kernel_refl
theorem buildM (o : Option Bytes) (fs : Fs) : (Css.Page.buildFile 100 60 (sheetEnv cfg (txt "src/public/m.css") (given (txt "src/public/m.css") textM o fs))
    (txt "src/public/m.css") (given (txt "src/public/m.css") textM o fs)).isSome = true := by
  kernel_refl
theorem scanP (o : Option Bytes) (fs : Fs) : (Css.Page.scanFile 100 (sheetEnv cfg (txt "src/public/p.css") (given (txt "src/public/p.css") textP o fs))
    (txt "src/public/p.css") (given (txt "src/public/p.css") textP o fs)).isSome = true := by
  kernel_refl
theorem buildP (o : Option Bytes) (fs : Fs) : (Css.Page.buildFile 100 60 (sheetEnv cfg (txt "src/public/p.css") (given (txt "src/public/p.css") textP o fs))
    (txt "src/public/p.css") (given (txt "src/public/p.css") textP o fs)).isSome = true := by
  cases o <;> kernel_refl

theorem goodM : GoodSheet cfg "src/public/m.css" textM where
  sheet := ⟨by decide, ⟨_, pubA, by decide⟩, List.isSuffixOf_iff_suffix.1 (by decide)⟩
  urls := ⟨toksM, tokM, urlsOnly _ _ (by simp), fun k v x h1 h2 => by
    have := (urlAt (by simp) h1).1
    exact absurd this (by decide)⟩
  enough fs h := by
    rw [given_eq h]
    refine ⟨fun e => ?_, fun e => ?_⟩
    · have := scanM (fs (txt "out/www/m.css.hash")) fs
      rw [show cfg.fuel = 100 from rfl] at e
      rw [e] at this
      cases this
    · have := buildM (fs (txt "out/www/m.css.hash")) fs
      rw [show cfg.fuel = 100 from rfl, show cfg.bound = 60 from rfl] at e
      rw [e] at this
      cases this

theorem goodP : GoodSheet cfg "src/public/p.css" textP where
  sheet := ⟨by decide, ⟨_, pubB, by decide⟩, List.isSuffixOf_iff_suffix.1 (by decide)⟩
  urls := ⟨toksP, tokP, urlsOnly _ _ (by simp), fun k v x h1 h2 => ⟨"src/public/m.css", by
    rw [local_path (urlAt (by simp) h1).2 h2]
    exact pubA⟩⟩
  enough fs h := by
    rw [given_eq h]
    refine ⟨fun e => ?_, fun e => ?_⟩
    · have := scanP (fs (txt "out/www/m.css.hash")) fs
      rw [show cfg.fuel = 100 from rfl] at e
      rw [e] at this
      cases this
    · have := buildP (fs (txt "out/www/m.css.hash")) fs
      rw [show cfg.fuel = 100 from rfl, show cfg.bound = 60 from rfl] at e
      rw [e] at this
      cases this

/-- The files of the website are these. -/
def Holds (W : Contents Bytes) : Prop := ∀ f y, Source f → W f = some y →
  f = "src/public/m.css" ∧ y = textM ∨ f = "src/public/p.css" ∧ y = textP ∨ f = "src/public/k.js"

theorem arranged {W : Contents Bytes} (hW : Holds W) (f : String) (hf : Source f) (hn : W f ≠ none) : Arranged cfg W f := by
  obtain ⟨y, hy⟩ := Option.ne_none_iff_exists'.1 hn
  rcases hW f y hf hy with ⟨rfl, rfl⟩ | ⟨rfl, rfl⟩ | rfl
  · exact .inr ⟨_, hy, goodM⟩
  · exact .inr ⟨_, hy, goodP⟩
  · exact .inl (.inl ⟨y, hy, ⟨_, pubK, by decide⟩, .inl rfl, fun h => absurd rfl h.1⟩)

theorem mentions {W : Contents Bytes} (hW : Holds W) {f g : String} (hf : Source f) (h : Mentions cfg W f g) : f = "src/public/p.css" ∧ g = "src/public/m.css" := by
  have key : ∀ y, W f = some y → f = "src/public/k.js" ∨ IsSheet cfg f ∧ ∃ ts ∈ [toksM, toksP], (ts = toksP → f = "src/public/p.css") ∧
      Css.tokenize cfg.sheet.nest.uni (cfg.js.decode y) = .ok ts := by
    intro y hy
    rcases hW f y hf hy with ⟨rfl, rfl⟩ | ⟨rfl, rfl⟩ | rfl
    · exact .inr ⟨goodM.sheet, toksM, by simp, fun h => absurd h (by decide), tokM⟩
    · exact .inr ⟨goodP.sheet, toksP, by simp, fun _ => rfl, tokP⟩
    · exact .inl rfl
  rcases h with h | ⟨y, hy, hs, ts, k, v, x, h1, h2, h3, h4⟩
  · exfalso
    have hn : ∃ y, W f = some y := by
      rcases h with ⟨y, hy, -⟩ | ⟨-, ls, is, ⟨y, ts, f', h1, -⟩, -⟩
      · exact ⟨y, hy⟩
      · exact ⟨y, by rw [fsOf_txt] at h1; exact h1⟩
    obtain ⟨y, hy⟩ := hn
    rcases key y hy with rfl | ⟨hs, -⟩
    · rcases h with ⟨y, -, h⟩ | ⟨h, -⟩
      · exact h.1.1 rfl
      · exact h.1 rfl
    · exact sheet_no_name hs g h
  · rcases key y hy with rfl | ⟨-, ts', h5, h6, h7⟩
    · exact absurd rfl hs.1
    · rw [h1] at h7
      cases h7
      obtain ⟨h8, h9⟩ := urlAt h5 h2
      refine ⟨h6 h8, txt_inj ?_⟩
      rw [h4, local_path h9 h3]
      decide

theorem mention {W : Contents Bytes} (h : W "src/public/p.css" = some textP) : Mentions cfg W "src/public/p.css" "src/public/m.css" :=
  .inr ⟨textP, h, goodP.sheet, toksP, 5, txt "/m.css", txt "m.css", tokP, .inr ⟨by decide, outside (by simp) _⟩, ⟨by decide, by decide, by decide⟩, by decide⟩

theorem acyclic {W : Contents Bytes} (hW : Holds W) (f : String) (hf : Source f) : ¬ Path (Mentions cfg W) f f := by
  intro h
  cases h with
  | one e => have := mentions hW hf e; rw [this.1] at this; exact absurd this.2 (by decide)
  | more e q =>
    obtain ⟨rfl, rfl⟩ := mentions hW hf e
    cases q with
    | one e => exact absurd (mentions hW (source _ (by simp)) e).1 (by decide)
    | more e _ => exact absurd (mentions hW (source _ (by simp)) e).1 (by decide)

theorem holds_before : Holds before := fun _ _ _ h => before_sources h

theorem holds_done : Holds done := by
  intro f y hf h
  have hno : f ∉ (outA ++ outB ++ outK).map (·.1) := by
    intro hc
    have ho := ((lawful cfg.constants).src f hf).2
    have : ∀ o ∈ (outA ++ outB ++ outK).map (·.1), isOutput o = true := by decide
    rw [this f hc] at ho
    cases ho
  rw [done, tab_skip hno] at h
  exact before_sources h

theorem spaces : Icons.Spaces cfg.sheet.icon.space := by unfold Icons.Spaces; decide

/-- The hypotheses of C110 are met: there are two stylesheets, and one has the URL of the other. -/
theorem C110_case : isAbs cfg.js.cwd = true ∧ Js.SpaceOk cfg.js.space ∧ PagesOk cfg ∧ Icons.Spaces cfg.sheet.icon.space ∧ Source cfg.constants ∧
    Worked (project cfg.constants) (tool cfg) .dev (fun _ => none) all.old fresh.mode ∧ ValidOrder env ∧ ScansBy (tool cfg) env before ∧ 0 < env.scanFuel ∧
    all.constants = cfg.constants ∧ Edits (project cfg.constants) all fresh (fun _ => none) before ∧ Housed fresh ∧
    Nonempty (Attempt (tool cfg) env all (hotRebuild env all fresh) before) ∧
    (∀ f, Source f → before f ≠ none → Arranged cfg before f ∧ ∀ g, Mentions cfg before f g → Source g ∧ before g ≠ none) ∧
    (∀ f, Source f → before f ≠ none → before f = none → IsPage cfg f → (∃ ls is, GoodPage cfg (fsOf fun _ => none) f ls is) ∧
      ∀ g, Names cfg (fun _ => none) f g ↔ Names cfg before f g) ∧
    (∀ f, Source f → ¬ Path (Mentions cfg before) f f) ∧ (hotRebuild env all fresh).status ≠ .waiting ∧
    Mentions cfg before "src/public/p.css" "src/public/m.css" :=
  ⟨cwd, fun c h1 h2 => by simp [cfg, Js.File.toy]; omega, Album.pagesOk, spaces, source _ (by simp [cfg]), .empty _ _ fun _ _ => rfl, order, scansBy, by decide, rfl, edits,
    by intro o ho; revert o; decide +kernel, ⟨attempt⟩,
    fun f hf hn => ⟨arranged holds_before f hf hn, fun g hg => by
      rw [(mentions holds_before hf hg).2]
      exact ⟨source _ (by simp), by decide⟩⟩,
    fun f _ h1 h2 => absurd h2 h1, acyclic holds_before, by have := runs.1; unfold run at this; rw [this]; simp, mention (by decide)⟩

/-- The hypotheses of C111 are met once it is built. -/
theorem C111_case : isAbs cfg.js.cwd = true ∧ Js.SpaceOk cfg.js.space ∧ PagesOk cfg ∧ Icons.Spaces cfg.sheet.icon.space ∧ Source cfg.constants ∧
    Worked (project cfg.constants) (tool cfg) .dev done graphs run.disk.mode ∧ (∀ f, Source f → done f ≠ none → Arranged cfg done f) ∧
    Mentions cfg done "src/public/p.css" "src/public/m.css" :=
  ⟨cwd, fun c h1 h2 => by simp [cfg, Js.File.toy]; omega, Album.pagesOk, spaces, source _ (by simp [cfg]), hist, arranged holds_done, mention (by decide)⟩

end Garden
end Verif.Hot.Scripts
