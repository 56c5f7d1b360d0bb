import Verif.HotPages
import Verif.HotSheetsCase
/-!
# C85: a concrete history

A project of a page, a stylesheet it links to, a template it includes, and constants is built; the stylesheet and the template are changed, and it
is built again; and it is built from scratch.
-/
namespace Verif.Hot.Scripts
open Verif Verif.Hot Verif.Graph
open Verif.Reader (Text txt)
open Verif.Paths (split isAbs Name Seg)
open Verif.Handlers (Bytes Fs Scan)
open Verif.Html (Bal)
open Site (cfg tab tab_none tab_ne tab_skip pub outputs cwd)

namespace Book

def style (v : Bool) : Text := if v then txt ".a{b:cd;}" else txt ".a{b:c;}"
def piece (v : Bool) : Text := if v then txt "new" else txt "old"
/-- What the page becomes. -/
def page (v : Bool) : Text :=
  if v then txt "<link href=https://example.com/i rel=canonical><link href=/m.css?v=9&pv=1.3.2 rel=stylesheet>7B<!--ok-->"
  else txt "<link href=https://example.com/i rel=canonical><link href=/m.css?v=8&pv=1.3.2 rel=stylesheet>A7<!--ok-->"

def sources (v : Bool) : List (String × Bytes) :=
  [("src/public/m.css", style v), ("src/partials/x.html", piece v), ("src/public/index.html", txt "page"), ("src/public/k.js", txt "")]
def outA (v : Bool) : List (String × Bytes) := [("out/www/m.css", style v), ("out/www/m.css.hash", if v then txt "9" else txt "8")]
def outB (v : Bool) : List (String × Bytes) := [("out/www/index.html", page v), ("out/www/index.html.hash", txt "104")]
def outK : List (String × Bytes) := [("out/www/k.js", txt "dev"), ("out/www/k.js.hash", txt "3")]

/-- The contents once everything is built. -/
def done (v : Bool) : Contents Bytes := tab (outA v ++ outB v ++ outK ++ sources v)

def rA : BuildResult := ⟨[], ["out/www/m.css", "out/www/m.css.hash"], []⟩
def rP : BuildResult := ⟨[], [], []⟩
def rB : BuildResult := ⟨["src/public/m.css", "src/partials/x.html"], ["out/www/index.html", "out/www/index.html.hash"], []⟩
def rK : BuildResult := ⟨[], ["out/www/k.js", "out/www/k.js.hash"], []⟩
def bA : Handlers.Built := ⟨[], [txt "out/www/m.css", txt "out/www/m.css.hash"], []⟩
def bP : Handlers.Built := ⟨[], [], []⟩
def bB : Handlers.Built := ⟨[txt "src/public/m.css", txt "src/partials/x.html"], [txt "out/www/index.html", txt "out/www/index.html.hash"], []⟩
def bK : Handlers.Built := ⟨[], [txt "out/www/k.js", txt "out/www/k.js.hash"], []⟩

/-- What the builds see. -/
def view (v : Bool) (rest : List (String × Bytes)) (f : String) : Contents Bytes :=
  if f = "src/public/index.html" then tab (outA v ++ rest ++ sources v) else tab (rest ++ sources v)

def wrote (v : Bool) (rest : List (String × Bytes)) (f : String) : Contents Bytes := fun s =>
  (dispatch cfg .dev (txt f) (fsOf (view v rest f))).bind fun r => r.2 (txt s)

theorem built : ∀ v : Bool, (dispatch cfg .dev (txt "src/public/m.css") (fsOf (view v [] "src/public/m.css"))).map (·.1) = some bA ∧
    (dispatch cfg .dev (txt "src/public/k.js") (fsOf (view v [] "src/public/k.js"))).map (·.1) = some bK ∧
    (dispatch cfg .dev (txt "src/public/index.html") (fsOf (view v [] "src/public/index.html"))).map (·.1) = some bB ∧
    (dispatch cfg .dev (txt "src/public/m.css") (fsOf (view v outK "src/public/m.css"))).map (·.1) = some bA ∧
    (dispatch cfg .dev (txt "src/public/index.html") (fsOf (view v outK "src/public/index.html"))).map (·.1) = some bB ∧
    (dispatch cfg .dev (txt "src/partials/x.html") (fsOf (view v [] "src/partials/x.html"))).map (·.1) = some bP ∧
    (dispatch cfg .dev (txt "src/partials/x.html") (fsOf (view v outK "src/partials/x.html"))).map (·.1) = some bP := by
  decide +kernel

theorem wrotes : ∀ v : Bool, wrote v [] "src/public/m.css" "out/www/m.css" = done v "out/www/m.css" ∧
    wrote v [] "src/public/m.css" "out/www/m.css.hash" = done v "out/www/m.css.hash" ∧
    wrote v [] "src/public/index.html" "out/www/index.html" = done v "out/www/index.html" ∧
    wrote v [] "src/public/index.html" "out/www/index.html.hash" = done v "out/www/index.html.hash" ∧
    wrote v [] "src/public/k.js" "out/www/k.js" = done v "out/www/k.js" ∧
    wrote v [] "src/public/k.js" "out/www/k.js.hash" = done v "out/www/k.js.hash" ∧
    wrote v outK "src/public/m.css" "out/www/m.css" = done v "out/www/m.css" ∧
    wrote v outK "src/public/m.css" "out/www/m.css.hash" = done v "out/www/m.css.hash" ∧
    wrote v outK "src/public/index.html" "out/www/index.html" = done v "out/www/index.html" ∧
    wrote v outK "src/public/index.html" "out/www/index.html.hash" = done v "out/www/index.html.hash" := by
  decide +kernel

theorem pubA : Public "src/public/m.css" (txt "m.css") := pub (by decide) (by decide) (by decide) (by decide)
theorem pubB : Public "src/public/index.html" (txt "index.html") := pub (by decide) (by decide) (by decide) (by decide)
theorem pubK : Public "src/public/k.js" (txt "k.js") := pub (by decide) (by decide) (by decide) (by decide)
theorem partP : Partial "src/partials/x.html" := by
  refine ⟨txt "x.html", by decide, fun s hs => ?_, ⟨txt "src/partials/x", by decide⟩⟩
  have : split (txt "x.html") = [txt "x.html"] := by decide
  rw [this] at hs
  simp only [List.mem_singleton] at hs
  subst hs
  exact ⟨⟨by decide, by decide⟩, by decide, by decide⟩
theorem source : ∀ f ∈ ["src/public/m.css", "src/partials/x.html", "src/public/index.html", "src/public/k.js"], Source f := by
  intro f hf
  simp only [List.mem_cons, List.not_mem_nil, or_false] at hf
  rcases hf with rfl | rfl | rfl | rfl
  · exact .inl ⟨_, pubA, by decide⟩
  · exact .inr partP
  · exact .inl ⟨_, pubB, by decide⟩
  · exact .inl ⟨_, pubK, by decide⟩

theorem childB : ∀ d ∈ bB.children, Child "src/public/index.html" d := by
  intro d hd
  simp only [bB, List.mem_cons, List.not_mem_nil, or_false] at hd
  rcases hd with rfl | rfl
  · exact ⟨_, rfl, .inl ⟨_, pubA⟩⟩
  · exact ⟨_, rfl, .inr (.inr ⟨by decide, partP⟩)⟩

def scanner : Scanner := fun _ f =>
  if f = "src/public/m.css" then .ok ⟨[], ["out/www/m.css", "out/www/m.css.hash"], []⟩
  else if f = "src/public/index.html" then .ok ⟨["src/public/m.css", "src/partials/x.html"], ["out/www/index.html", "out/www/index.html.hash"], []⟩
  else if f = "src/partials/x.html" then .ok ⟨[], [], []⟩
  else if f = "src/public/k.js" then .ok ⟨[], ["out/www/k.js", "out/www/k.js.hash"], []⟩
  else .error .notFound

def env : Env where
  scan := scanner
  sig := fun _ => sig0
  order := id
  batches := [Triple.wait "src/public/m.css" rA, Triple.wait "src/partials/x.html" rP, Triple.wait "src/public/k.js" rK, Triple.wait "src/public/index.html" rB]
  scanFuel := 4

theorem scanned : Scanned (tool cfg) env := by
  have key : (dispatchScan cfg (txt "src/public/m.css") (fsOf (tab (sources true)))) = some ⟨[], [txt "out/www/m.css", txt "out/www/m.css.hash"]⟩ ∧
      (dispatchScan cfg (txt "src/public/index.html") (fsOf (tab (sources true)))) = some ⟨[txt "src/public/m.css", txt "src/partials/x.html"], [txt "out/www/index.html", txt "out/www/index.html.hash"]⟩ ∧
      (dispatchScan cfg (txt "src/partials/x.html") (fsOf (tab (sources true)))) = some ⟨[], []⟩ ∧
      (dispatchScan cfg (txt "src/public/k.js") (fsOf (tab (sources true)))) = some ⟨[], [txt "out/www/k.js", txt "out/www/k.js.hash"]⟩ := by
    decide +kernel
  intro d f s h
  refine ⟨tab (sources true), ?_⟩
  have h : scanner d f = .ok s := h
  unfold scanner at h
  unfold tool
  dsimp only
  split at h
  · next hf => subst hf; cases h; rw [if_pos (source _ (by simp)), key.1]; simp [str_txt]
  · split at h
    · next hf => subst hf; cases h; rw [if_pos (source _ (by simp)), key.2.1]; simp [str_txt]
    · split at h
      · next hf => subst hf; cases h; rw [if_pos (source _ (by simp)), key.2.2.1]; simp
      · split at h
        · next hf => subst hf; cases h; rw [if_pos (source _ (by simp)), key.2.2.2]; simp [str_txt]
        · cases h

def fresh : Disk := ⟨["src/public/m.css", "src/partials/x.html", "src/public/index.html", "src/public/k.js"], ["out"], none⟩
def all : Args := ⟨"src/public/k.js", .dev, ⟨[], [], []⟩, [], [("src/public/m.css", sig0), ("src/partials/x.html", sig0), ("src/public/index.html", sig0), ("src/public/k.js", sig0)], []⟩
def run1 : Outcome := hotRebuild env all fresh
def graphs1 : Graphs := run1.stored.getD ⟨[], [], []⟩
/-- The stylesheet and the template have been changed. -/
def edit : Args := ⟨"src/public/k.js", .dev, graphs1, [("src/public/m.css", sig1), ("src/partials/x.html", sig1)], [], []⟩
def run2 : Outcome := hotRebuild env edit run1.disk

theorem runs : run1.status = .finished ∧ run1.disk.files = ["src/public/m.css", "src/partials/x.html", "src/public/index.html", "src/public/k.js", "out/www/m.css",
      "out/www/m.css.hash", "out/www/k.js", "out/www/k.js.hash", "out/www/index.html", "out/www/index.html.hash"] ∧
    run1.log = [.started "src/public/m.css", .started "src/partials/x.html", .started "src/public/k.js", .finished "src/public/m.css" rA,
      .finished "src/partials/x.html" rP, .started "src/public/index.html", .finished "src/public/k.js" rK, .finished "src/public/index.html" rB] ∧ run1.stored.isSome := by
  decide +kernel

theorem runs2 : run2.status = .finished ∧ run2.disk.files = ["src/public/m.css", "src/partials/x.html", "src/public/index.html", "src/public/k.js",
      "out/www/k.js", "out/www/k.js.hash", "out/www/m.css", "out/www/m.css.hash", "out/www/index.html", "out/www/index.html.hash"] ∧
    run2.log = [.started "src/public/m.css", .started "src/partials/x.html", .finished "src/public/m.css" rA, .finished "src/partials/x.html" rP,
      .started "src/public/index.html", .finished "src/public/index.html" rB] ∧ run2.stored.isSome := by
  decide +kernel

theorem order : ValidOrder env := fun _ => List.Perm.refl _

/-- What the finished builds have reported, and what they have left. -/
theorem ran (v : Bool) (f : String) (r : BuildResult) (h : f = "src/public/m.css" ∧ r = rA ∨ f = "src/partials/x.html" ∧ r = rP ∨ f = "src/public/index.html" ∧ r = rB ∨ f = "src/public/k.js" ∧ r = rK) :
    (tool cfg).build .dev f (view v [] f) = some (r, wrote v [] f) := by
  obtain ⟨h1, h2, h3, -, -, h4, -⟩ := built v
  rcases h with ⟨rfl, rfl⟩ | ⟨rfl, rfl⟩ | ⟨rfl, rfl⟩ | ⟨rfl, rfl⟩
  · rw [build_eq h1 (by simp [bA])]
    simp [bA, rA, str_txt]
    rfl
  · rw [build_eq h4 (by simp [bP])]
    simp [bP, rP]
    rfl
  · rw [build_eq h3 (by exact childB)]
    simp [bB, rB, str_txt]
    rfl
  · rw [build_eq h2 (by simp [bK])]
    simp [bK, rK, str_txt]
    rfl

theorem ran2 (v : Bool) (f : String) (r : BuildResult) (h : f = "src/public/m.css" ∧ r = rA ∨ f = "src/partials/x.html" ∧ r = rP ∨ f = "src/public/index.html" ∧ r = rB) :
    (tool cfg).build .dev f (view v outK f) = some (r, wrote v outK f) := by
  obtain ⟨-, -, -, h1, h2, -, h4⟩ := built v
  rcases h with ⟨rfl, rfl⟩ | ⟨rfl, rfl⟩ | ⟨rfl, rfl⟩
  · rw [build_eq h1 (by simp [bA])]
    simp [bA, rA, str_txt]
    rfl
  · rw [build_eq h4 (by simp [bP])]
    simp [bP, rP]
    rfl
  · rw [build_eq h2 (by exact childB)]
    simp [bB, rB, str_txt]
    rfl

theorem log1 {f : String} {r : BuildResult} : Event.finished f r ∈ run1.log ↔
    f = "src/public/m.css" ∧ r = rA ∨ f = "src/partials/x.html" ∧ r = rP ∨ f = "src/public/index.html" ∧ r = rB ∨ f = "src/public/k.js" ∧ r = rK := by
  rw [runs.2.2.1]
  simp only [List.mem_cons, reduceCtorEq, Event.finished.injEq, List.not_mem_nil, or_false, false_or]
  constructor
  · rintro (h | h | h | h) <;> simp [h]
  · rintro (h | h | h | h) <;> simp [h]

theorem log2 {f : String} {r : BuildResult} : Event.finished f r ∈ run2.log ↔ f = "src/public/m.css" ∧ r = rA ∨ f = "src/partials/x.html" ∧ r = rP ∨ f = "src/public/index.html" ∧ r = rB := by
  rw [runs2.2.2.1]
  simp

theorem view_sees (v : Bool) (rest : List (String × Bytes)) (f c : String) : view v rest f c = tab (rest ++ sources v) c ∨
    f = "src/public/index.html" ∧ c ∈ rA.produced ∧ view v rest f c = tab (outA v ++ rest ++ sources v) c := by
  unfold view
  split
  · next hf =>
    by_cases hc : c ∈ rA.produced
    · exact .inr ⟨hf, hc, rfl⟩
    · left
      rw [List.append_assoc]
      exact tab_skip hc
  · exact .inl rfl

/-! ### The first build -/

theorem none1 {c : String} : ¬ Unlinked all run1 c := by
  rintro ⟨⟨x, -, cs, h, -⟩, -⟩
  simp [all, getChildren] at h

theorem wroteA (v : Bool) : ∀ c ∈ rA.produced, wrote v [] "src/public/m.css" c = done v c ∧ wrote v outK "src/public/m.css" c = done v c := by
  obtain ⟨h1, h2, -, -, -, -, h3, h4, -, -⟩ := wrotes v
  intro c hc
  simp only [rA, List.mem_cons, List.not_mem_nil, or_false] at hc
  rcases hc with rfl | rfl
  · exact ⟨h1, h3⟩
  · exact ⟨h2, h4⟩

theorem doneA (v : Bool) (rest : List (String × Bytes)) : ∀ c ∈ rA.produced, tab (outA v ++ rest ++ sources v) c = done v c := by
  intro c hc
  simp only [rA, List.mem_cons, List.not_mem_nil, or_false] at hc
  rcases hc with rfl | rfl <;> simp [tab, outA, done]

def work1 (v : Bool) : Work (tool cfg) all run1 (tab (sources v)) (done v) where
  view := view v []
  wrote := wrote v []
  start := tab (sources v)
  start_unlinked c h := absurd h none1
  start_kept c _ := rfl
  ran f r h := ran v f r (log1.1 h)
  sees f r h c := by
    rcases view_sees v [] f c with h1 | ⟨h1, h2, h3⟩
    · exact .inl h1
    · refine .inr ⟨"src/public/m.css", rA, by rw [h1]; decide, log1.2 (by simp), h2, ?_⟩
      rw [h3, (wroteA v c h2).1, doneA v [] c h2]
  missing c h := by
    rw [runs.2.1] at h
    rw [done, tab_none]
    intro hc
    apply h
    simp only [outA, outB, outK, sources, List.map_append, List.map_cons, List.map_nil, List.mem_append, List.mem_cons, List.not_mem_nil, or_false] at hc ⊢
    grind
  written c _ hc := by
    obtain ⟨g, r, h1, h2⟩ := hc
    refine ⟨g, r, h1, h2, ?_⟩
    obtain ⟨q1, q2, q3, q4, q5, q6, -⟩ := wrotes v
    rcases log1.1 h1 with ⟨rfl, rfl⟩ | ⟨rfl, rfl⟩ | ⟨rfl, rfl⟩ | ⟨rfl, rfl⟩
    on_goal 2 => simp [rP] at h2
    all_goals simp only [rA, rB, rK, List.mem_cons, List.not_mem_nil, or_false] at h2; rcases h2 with rfl | rfl
    · exact q1.symm
    · exact q2.symm
    · exact q3.symm
    · exact q4.symm
    · exact q5.symm
    · exact q6.symm
  kept c _ hc := by
    refine tab_skip fun h => hc ?_
    simp only [List.map_append, List.mem_append] at h
    rcases h with (h | h) | h
    · exact ⟨"src/public/m.css", rA, log1.2 (by simp), h⟩
    · exact ⟨"src/public/index.html", rB, log1.2 (by simp), h⟩
    · exact ⟨"src/public/k.js", rK, log1.2 (by simp), h⟩

theorem not_output {o : String} (h : (project cfg.constants).owner o ≠ none) (v : Bool) : o ∉ (sources v).map (·.1) :=
  fun hc => h (owner_source (source o hc))

theorem hist1 (v : Bool) : Worked (project cfg.constants) (tool cfg) .dev (done v) graphs1 run1.disk.mode := by
  refine Worked.rebuild (m0 := .dev) (W := fun _ => none) (env := env) (a := all) (d := fresh) (W0 := tab (sources v))
    (.empty _ _ fun _ _ => rfl) order scanned rfl ?_ (work1 v) runs.1
  refine ⟨fun f => tab_ne, fun o ho => tab_none.2 (not_output ho v), fun f h1 h2 h3 _ => tab_none.2 h3, ?_, fun f hf => ⟨source f hf, hf⟩,
    fun f _ h _ => h, ?_, ?_⟩
  · simp [all, Dict.keys]
  · simp [all, contains, Dict.has]
  · simp [all]

/-! ### The second -/

/-- The contents after the script has been changed. -/
def edited : Contents Bytes := tab (outA false ++ outB false ++ outK ++ sources true)

theorem up1 : UpToDate (project cfg.constants) ((tool cfg).builder (project cfg.constants)) .dev (done false) graphs1 ∧ ValidGraphs graphs1 := by
  have := ((hist1 false).history (lawful _) (tool_lawful cwd) (source _ (by simp [cfg, project]))).upToDate (lawful _) ((tool_lawful cwd).pure (lawful _))
  exact ⟨this.1, this.2.1⟩

theorem facts2 : ∃ gs, Facts env edit run1.disk run2 gs := by
  obtain ⟨gs, h⟩ := Option.isSome_iff_exists.1 runs2.2.2.2
  exact ⟨gs, facts up1.2 order h⟩

theorem unlinked2 {c : String} : Unlinked edit run2 c ↔ c ∈ rA.produced ∨ c ∈ rB.produced := by
  obtain ⟨gs, F⟩ := facts2
  constructor
  · rintro ⟨⟨x, h1, h2⟩, -⟩
    obtain ⟨r, hr⟩ := (F.ends x).2 ⟨by simp [edit], h1⟩
    have ho := (owner_iff.1 (UpToDate.owned ((tool_lawful cwd).pure (lawful _)) up1.1 h2)).2
    rcases log2.1 hr with ⟨rfl, rfl⟩ | ⟨rfl, rfl⟩ | ⟨rfl, rfl⟩
    · left
      rcases outputs pubA ho (s := "out/www/m.css") (t := "out/www/m.css.hash") (by decide) (by decide) with rfl | rfl <;> simp [rA]
    · obtain ⟨y, hy, -⟩ := ho
      exact absurd hy partP.not_public
    · right
      rcases outputs pubB ho (s := "out/www/index.html") (t := "out/www/index.html.hash") (by decide) (by decide) with rfl | rfl <;> simp [rB]
  · intro h
    have key : ∀ {f x r}, Event.finished f r ∈ run2.log → Source f → Public f x → (txt c = copyOf x ∨ txt c = hashOf x) → done false c ≠ none → Unlinked edit run2 c := by
      intro f x r hr hf hx ho hn
      have hw := owner_iff (k := cfg.constants).2 ⟨hf, x, hx, ho⟩
      exact ⟨⟨f, ((F.ends f).1 ⟨r, hr⟩).2, (up1.1.only c f hw hn).2⟩, (tool_lawful (c := cfg) cwd).plain hw⟩
    rcases h with h | h
    · refine key (r := rA) (log2.2 (by simp)) (source "src/public/m.css" (by simp)) pubA ?_ ?_
      · simp only [rA, List.mem_cons, List.not_mem_nil, or_false] at h
        rcases h with rfl | rfl
        · exact .inl (by decide)
        · exact .inr (by decide)
      · rw [done, tab_ne]
        simp only [rA, List.mem_cons, List.not_mem_nil, or_false] at h
        rcases h with rfl | rfl <;> simp [outA]
    · refine key (r := rB) (log2.2 (by simp)) (source "src/public/index.html" (by simp)) pubB ?_ ?_
      · simp only [rB, List.mem_cons, List.not_mem_nil, or_false] at h
        rcases h with rfl | rfl
        · exact .inl (by decide)
        · exact .inr (by decide)
      · rw [done, tab_ne]
        simp only [rB, List.mem_cons, List.not_mem_nil, or_false] at h
        rcases h with rfl | rfl <;> simp [outB]

def work2 : Work (tool cfg) edit run2 edited (done true) where
  view := view true outK
  wrote := wrote true outK
  start := tab (outK ++ sources true)
  start_unlinked c h := by
    rw [unlinked2] at h
    simp only [rA, rB, List.mem_cons, List.not_mem_nil, or_false] at h
    rcases h with (rfl | rfl) | (rfl | rfl) <;> decide
  start_kept c h := by
    rw [unlinked2] at h
    rw [edited, List.append_assoc]
    refine (tab_skip fun hc => h ?_).symm
    rw [List.map_append, List.mem_append] at hc
    exact hc
  ran f r h := ran2 true f r (log2.1 h)
  sees f r h c := by
    rcases view_sees true outK f c with h1 | ⟨h1, h2, h3⟩
    · exact .inl h1
    · refine .inr ⟨"src/public/m.css", rA, by rw [h1]; decide, log2.2 (by simp), h2, ?_⟩
      rw [h3, (wroteA true c h2).2, doneA true outK c h2]
  missing c h := by
    rw [runs2.2.1] at h
    rw [done, tab_none]
    intro hc
    apply h
    simp only [outA, outB, outK, sources, List.map_append, List.map_cons, List.map_nil, List.mem_append, List.mem_cons, List.not_mem_nil, or_false] at hc ⊢
    grind
  written c _ hc := by
    obtain ⟨g, r, h1, h2⟩ := hc
    refine ⟨g, r, h1, h2, ?_⟩
    obtain ⟨-, -, -, -, -, -, q1, q2, q3, q4⟩ := wrotes true
    rcases log2.1 h1 with ⟨rfl, rfl⟩ | ⟨rfl, rfl⟩ | ⟨rfl, rfl⟩
    on_goal 2 => simp [rP] at h2
    all_goals simp only [rA, rB, List.mem_cons, List.not_mem_nil, or_false] at h2; rcases h2 with rfl | rfl
    · exact q1.symm
    · exact q2.symm
    · exact q3.symm
    · exact q4.symm
  kept c _ hc := by
    rw [done, List.append_assoc]
    refine tab_skip fun h => hc ?_
    rw [List.map_append, List.mem_append] at h
    rcases h with h | h
    · exact ⟨"src/public/m.css", rA, log2.2 (by simp), h⟩
    · exact ⟨"src/public/index.html", rB, log2.2 (by simp), h⟩

theorem hist2 : ∃ gs, Worked (project cfg.constants) (tool cfg) .dev (done true) gs run2.disk.mode := by
  refine ⟨_, Worked.rebuild (m0 := .dev) (W := done false) (env := env) (a := edit) (d := run1.disk) (W0 := edited)
    (hist1 false) order scanned rfl ?_ work2 runs2.1⟩
  have hrec : ∀ f, contains edit.old.dep f = true ↔ Source f ∧ done false f ≠ none := up1.1.files
  have hkeys : ∀ v w f, f ∈ (outA v ++ outB v ++ outK ++ sources w).map (·.1) ↔ f ∈ run1.disk.files := by
    intro v w f
    rw [runs.2.1]
    simp only [outA, outB, outK, sources, List.map_append, List.map_cons, List.map_nil, List.mem_append, List.mem_cons, List.not_mem_nil, or_false]
    grind
  refine ⟨fun f => ?_, fun o ho => ?_, fun f h1 h2 h3 _ => ?_, ?_, ?_, fun f h1 h2 h3 => ?_, fun f h1 h2 => ?_, ?_⟩
  · rw [edited, tab_ne]; exact hkeys false true f
  · by_cases h : o ∈ (outA false ++ outB false ++ outK).map (·.1)
    · simp only [outA, outB, outK, List.map_append, List.map_cons, List.map_nil, List.mem_append, List.mem_cons, List.not_mem_nil, or_false] at h
      rcases h with ((rfl | rfl) | (rfl | rfl)) | (rfl | rfl) <;> decide
    · rw [edited, done, tab_skip h, tab_skip h, tab_none.2 (not_output ho _), tab_none.2 (not_output ho _)]
  · have h2 : f ≠ "src/public/m.css" ∧ f ≠ "src/partials/x.html" := by simpa [edit, Dict.keys] using h2
    by_cases h : f ∈ (outA false ++ outB false ++ outK).map (·.1)
    · simp only [outA, outB, outK, List.map_append, List.map_cons, List.map_nil, List.mem_append, List.mem_cons, List.not_mem_nil, or_false] at h
      rcases h with ((rfl | rfl) | (rfl | rfl)) | (rfl | rfl) <;> decide
    · rw [edited, done, tab_skip h, tab_skip h]
      simp [tab, sources, h2.1.symm, h2.2.symm]
  · simp only [edit, Dict.keys, List.map_cons, List.map_nil, List.mem_cons, List.not_mem_nil, or_false, forall_eq_or_imp, forall_eq]
    exact ⟨⟨source _ (by simp), by rw [runs.2.1]; simp⟩, source _ (by simp), by rw [runs.2.1]; simp⟩
  · simp [edit, Dict.keys]
  · have := (hrec f).2 ⟨h1, by rw [done, tab_ne]; exact (hkeys false false f).2 h2⟩
    rw [h3] at this
    cases this
  · exact (hkeys false false f).1 (tab_ne.1 ((hrec f).1 h1).2)
  · simp [edit]


/-! ### The hypotheses -/

/-- The tokens of the page, and of the template. -/
def tokens : List Html.HTok :=
  [.emptyTag (txt "link") [((none, txt "rel"), txt "canonical"), ((none, txt "href"), txt "/i")],
    .emptyTag (txt "link") [((none, txt "rel"), txt "stylesheet"), ((none, txt "href"), txt "/m.css")],
    Html.Toy.tpl [.str (txt "/x.html"), .obj [(txt "a", .str (txt "7"))]], .comment (txt "ok")]
def part (v : Bool) : List Html.HTok :=
  if v then [Html.Toy.stk [.str (txt "retrieve"), .str (txt "a")], .characters (txt "B")]
  else [.characters (txt "A"), Html.Toy.stk [.str (txt "retrieve"), .str (txt "a")]]

theorem parsed : cfg.page.parse (txt "page") = some tokens ∧ ∀ v, cfg.page.parse (piece v) = some (part v) := by decide +kernel

/-- The only template. -/
theorem templates {v : Bool} {rel : Text} {body : List Html.HTok} (h : CurrentTemplate cfg (done v) rel body) : body = part v := by
  obtain ⟨⟨y, rfl⟩, b, h1, h2⟩ := h
  have hk : str (txt "src/partials/" ++ y) ∈ (outA v ++ outB v ++ outK ++ sources v).map (·.1) := tab_ne.1 (by rw [show tab _ _ = some b from h1]; simp)
  have hl : ∃ r, (str (txt "src/partials/" ++ y)).toList = "src/partials/".toList ++ r := ⟨y.map Char.ofNat, by simp [str, txt, String.toList_ofList]⟩
  obtain ⟨r, hr⟩ := hl
  generalize str (txt "src/partials/" ++ y) = q at *
  simp only [outA, outB, outK, sources, List.map_append, List.map_cons, List.map_nil, List.mem_append, List.mem_cons, List.not_mem_nil, or_false] at hk
  rcases hk with ((((rfl | rfl) | (rfl | rfl)) | (rfl | rfl)) | (rfl | rfl | rfl | rfl)) <;> simp at hr
  have : done v "src/partials/x.html" = some (piece v) := by cases v <;> decide
  rw [this] at h1
  cases h1
  rw [parsed.2 v] at h2
  exact (Option.some.inj h2).symm

theorem sane_of {ts : List Html.HTok} (h : ∀ t ∈ ts, (Assoc.keys (Html.attrsOf t)).Nodup ∧ (∀ p ∈ Html.attrsOf t, p.1.1 = none) ∧
    (t = .startTag (txt "script") (Html.attrsOf t) → Assoc.item (Html.attrsOf t) (none, txt "href") = none)) : Html.Page.Sane ts := by
  intro t ht
  obtain ⟨h1, h2, h3⟩ := h t ht
  refine ⟨fun _ => ⟨h1, h2⟩, ?_⟩
  intro d hd
  subst hd
  exact h3 rfl

theorem fit (v : Bool) : PagesFit cfg (done v) where
  space := by
    refine ⟨rfl, rfl, fun c h1 h2 => ?_⟩
    have e1 : (c == 32) = false := by simp; omega
    have e2 : (c == 10) = false := by simp; omega
    simp [cfg, Html.Toy.env, e1, e2]
  json := Html.Toy.faithful _
  balanced rel body h := by
    rw [templates h]
    exact Html.Toy.bal_calm (by cases v <;> decide +kernel)
  sane rel body h := by
    rw [templates h]
    exact sane_of (by cases v <;> decide +kernel)

/-- The hypotheses of C85 are met: the project is built, the stylesheet and the template are changed, and it is built again; or it is built from
scratch.  The page had the old hash and the old template, and has the new ones. -/
theorem C85_case : isAbs cfg.js.cwd = true ∧ Js.SpaceOk cfg.js.space ∧ Source cfg.constants ∧
    Worked (project cfg.constants) (tool cfg) .dev (done false) graphs1 run1.disk.mode ∧
    (∃ gs, Worked (project cfg.constants) (tool cfg) .dev (done true) gs run2.disk.mode) ∧
    Worked (project cfg.constants) (tool cfg) .dev (done true) graphs1 run1.disk.mode ∧
    run2.log = [.started "src/public/m.css", .started "src/partials/x.html", .finished "src/public/m.css" rA, .finished "src/partials/x.html" rP,
      .started "src/public/index.html", .finished "src/public/index.html" rB] ∧
    Source "src/public/index.html" ∧ Public "src/public/index.html" (txt "index.html") ∧ (∀ v, PagesFit cfg (done v)) ∧ cfg.page.host = some (txt "example.com") ∧
    Html.Page.PageFile (txt "src/public/index.html") (txt "index") ∧
    cfg.page.parse (txt "page") = some tokens ∧ Bal cfg.page.tpl tokens ∧ Html.Page.Sane tokens ∧
    (∃ t ∈ tokens, Html.Links t (txt "href") (txt "m.css")) ∧
    done false "out/www/index.html" = some (txt "<link href=https://example.com/i rel=canonical><link href=/m.css?v=8&pv=1.3.2 rel=stylesheet>A7<!--ok-->") ∧
    done true "out/www/index.html" = some (txt "<link href=https://example.com/i rel=canonical><link href=/m.css?v=9&pv=1.3.2 rel=stylesheet>7B<!--ok-->") :=
  ⟨cwd, fun c h1 h2 => by simp [cfg, Js.File.toy]; omega, source _ (by simp [cfg]), hist1 false, hist2, hist1 true, runs2.2.2.1, source _ (by simp), pubB, fit, rfl,
    Html.Page.PageToy.pageFile, parsed.1, Html.Toy.bal_calm (by decide +kernel), sane_of (by decide +kernel), ⟨_, .tail _ (.head _), .sheet (by decide) (by decide) (by decide) (by decide)⟩, by decide, by decide⟩

/-- A page with an image, built with images given by `image`: the page, and the children. -/
def pictured (image : Text → Option (Int × Int)) : Option (Option (Option Text × List Text)) :=
  (Html.Page.buildFile 100 { Html.Page.PageToy.env false fun _ => false with
      image := image, parse := fun _ => some [.comment (txt "[IMAGE: /i.png 2 2]"), .comment (txt "ok")] }
    (Html.Page.PageToy.files (txt "page"))).map fun
    | .ok (r, fs) => some (fs (txt "out/www/index.html"), r.children)
    | .error _ => none

/-- What is wrong: of a page with an image which is not there the command is kept, and the image is none of its children.  So when the image is
added nothing tells that the page is to be built again, although it would be another. -/
theorem C85_false_image : pictured (fun _ => none) = some (some (some (txt "<!--[IMAGE: /i.png 2 2]--><!--ok-->"), [])) ∧
    pictured (fun p => if p = txt "p/src/public/i.png" then some (4, 4) else none) =
      some (some (some (txt "<picture><source srcset=/i/2.webp 2w><img width=2 height=2 src=/i/2.jpeg srcset=/i/2.jpeg 2w, /i/4.jpeg 4w loading=lazy></picture><!--ok-->"),
        [txt "src/public/i.png"])) := by
  constructor <;> decide +kernel

end Book
end Verif.Hot.Scripts
