import Verif.HotBuildsPages
import Verif.HotBuildsScriptsCase
import Verif.HotPagesCase
import Verif.HotBuildsPagesRuns
/-!
# C110: a page, a template and a script

A project of a page, a script it links to, a template it includes, and constants is built; the script and the template are changed, and it is built
again.  If instead the template comes to link to a script which is added, the rebuild can fail.
-/
namespace Verif.Hot.Scripts
open Verif Verif.Hot Verif.Graph
open Verif.Reader (Text txt)
open Verif.Paths (split isAbs Name Seg)
open Verif.Handlers (Bytes Fs Scan)
open Site (cfg tab tab_none tab_ne tab_skip pub outputs cwd script)

namespace Album

def piece (v : Bool) : Text := if v then txt "new" else txt "old"
/-- What the page becomes. -/
def page (v : Bool) : Text :=
  if v then txt "<link href=/a.js?v=6&pv=1.3.2 rel=preload>7B<!--ok-->"
  else txt "<link href=/a.js?v=5&pv=1.3.2 rel=preload>A7<!--ok-->"

def sources (v : Bool) : List (String × Bytes) :=
  [("src/public/a.js", script v), ("src/partials/x.html", piece v), ("src/public/index.html", txt "art"), ("src/public/k.js", txt "")]
def outA (v : Bool) : List (String × Bytes) := [("out/www/a.js", script v), ("out/www/a.js.hash", if v then txt "6" else txt "5")]
def outB (v : Bool) : List (String × Bytes) := [("out/www/index.html", page v), ("out/www/index.html.hash", txt "53")]
def outK : List (String × Bytes) := [("out/www/k.js", txt "dev"), ("out/www/k.js.hash", txt "3")]

/-- The contents once everything is built. -/
def done (v : Bool) : Contents Bytes := tab (outA v ++ outB v ++ outK ++ sources v)

def rA : BuildResult := ⟨[], ["out/www/a.js", "out/www/a.js.hash"], []⟩
def rP : BuildResult := ⟨[], [], []⟩
def rB : BuildResult := ⟨["src/public/a.js", "src/partials/x.html"], ["out/www/index.html", "out/www/index.html.hash"], []⟩
def rK : BuildResult := ⟨[], ["out/www/k.js", "out/www/k.js.hash"], []⟩
def bA : Handlers.Built := ⟨[], [txt "out/www/a.js", txt "out/www/a.js.hash"], []⟩
def bP : Handlers.Built := ⟨[], [], []⟩
def bB : Handlers.Built := ⟨[txt "src/public/a.js", txt "src/partials/x.html"], [txt "out/www/index.html", txt "out/www/index.html.hash"], []⟩
def bK : Handlers.Built := ⟨[], [txt "out/www/k.js", txt "out/www/k.js.hash"], []⟩

/-- What the builds see. -/
def view (v : Bool) (rest : List (String × Bytes)) (f : String) : Contents Bytes :=
  if f = "src/public/index.html" then tab (outA v ++ rest ++ sources v) else tab (rest ++ sources v)

def wrote (v : Bool) (rest : List (String × Bytes)) (f : String) : Contents Bytes := fun s =>
  (dispatch cfg .dev (txt f) (fsOf (view v rest f))).bind fun r => r.2 (txt s)

theorem built : ∀ v : Bool, (dispatch cfg .dev (txt "src/public/a.js") (fsOf (view v [] "src/public/a.js"))).map (·.1) = some bA ∧
    (dispatch cfg .dev (txt "src/public/k.js") (fsOf (view v [] "src/public/k.js"))).map (·.1) = some bK ∧
    (dispatch cfg .dev (txt "src/public/index.html") (fsOf (view v [] "src/public/index.html"))).map (·.1) = some bB ∧
    (dispatch cfg .dev (txt "src/public/a.js") (fsOf (view v outK "src/public/a.js"))).map (·.1) = some bA ∧
    (dispatch cfg .dev (txt "src/public/index.html") (fsOf (view v outK "src/public/index.html"))).map (·.1) = some bB ∧
    (dispatch cfg .dev (txt "src/partials/x.html") (fsOf (view v [] "src/partials/x.html"))).map (·.1) = some bP ∧
    (dispatch cfg .dev (txt "src/partials/x.html") (fsOf (view v outK "src/partials/x.html"))).map (·.1) = some bP := by
  decide +kernel

theorem wrotes : ∀ v : Bool, wrote v [] "src/public/a.js" "out/www/a.js" = done v "out/www/a.js" ∧
    wrote v [] "src/public/a.js" "out/www/a.js.hash" = done v "out/www/a.js.hash" ∧
    wrote v [] "src/public/index.html" "out/www/index.html" = done v "out/www/index.html" ∧
    wrote v [] "src/public/index.html" "out/www/index.html.hash" = done v "out/www/index.html.hash" ∧
    wrote v [] "src/public/k.js" "out/www/k.js" = done v "out/www/k.js" ∧
    wrote v [] "src/public/k.js" "out/www/k.js.hash" = done v "out/www/k.js.hash" ∧
    wrote v outK "src/public/a.js" "out/www/a.js" = done v "out/www/a.js" ∧
    wrote v outK "src/public/a.js" "out/www/a.js.hash" = done v "out/www/a.js.hash" ∧
    wrote v outK "src/public/index.html" "out/www/index.html" = done v "out/www/index.html" ∧
    wrote v outK "src/public/index.html" "out/www/index.html.hash" = done v "out/www/index.html.hash" := by
  decide +kernel

theorem pubA : Public "src/public/a.js" (txt "a.js") := pub (by decide) (by decide) (by decide) (by decide)
theorem pubB : Public "src/public/index.html" (txt "index.html") := pub (by decide) (by decide) (by decide) (by decide)
theorem pubK : Public "src/public/k.js" (txt "k.js") := pub (by decide) (by decide) (by decide) (by decide)
theorem partP : Partial "src/partials/x.html" := by
  refine ⟨txt "x.html", by decide, fun s hs => ?_, ⟨txt "src/partials/x", by decide⟩⟩
  have : split (txt "x.html") = [txt "x.html"] := by decide
  rw [this] at hs
  simp only [List.mem_singleton] at hs
  subst hs
  exact ⟨⟨by decide, by decide⟩, by decide, by decide⟩
theorem source : ∀ f ∈ ["src/public/a.js", "src/partials/x.html", "src/public/index.html", "src/public/k.js"], Source f := by
  intro f hf
  simp only [List.mem_cons, List.not_mem_nil, or_false] at hf
  rcases hf with rfl | rfl | rfl | rfl
  · exact .inl ⟨_, pubA, by decide⟩
  · exact .inr partP
  · exact .inl ⟨_, pubB, by decide⟩
  · exact .inl ⟨_, pubK, by decide⟩

theorem childB : ∀ d ∈ bB.children, Child "src/public/index.html" d := by
  intro d hd
  simp only [bB, List.mem_cons, List.not_mem_nil, or_false] at hd
  rcases hd with rfl | rfl
  · exact ⟨_, rfl, .inl ⟨_, pubA⟩⟩
  · exact ⟨_, rfl, .inr (.inr ⟨by decide, partP⟩)⟩

def scanner : Scanner := fun _ f =>
  if f = "src/public/a.js" then .ok ⟨[], ["out/www/a.js", "out/www/a.js.hash"], []⟩
  else if f = "src/public/index.html" then .ok ⟨["src/public/a.js", "src/partials/x.html"], ["out/www/index.html", "out/www/index.html.hash"], []⟩
  else if f = "src/partials/x.html" then .ok ⟨[], [], []⟩
  else if f = "src/public/k.js" then .ok ⟨[], ["out/www/k.js", "out/www/k.js.hash"], []⟩
  else .error .notFound

def env : Env where
  scan := scanner
  sig := fun _ => sig0
  order := id
  batches := [Triple.wait "src/public/a.js" rA, Triple.wait "src/partials/x.html" rP, Triple.wait "src/public/k.js" rK, Triple.wait "src/public/index.html" rB]
  scanFuel := 4

theorem scanned : Scanned (tool cfg) env := by
  have key : (dispatchScan cfg (txt "src/public/a.js") (fsOf (tab (sources true)))) = some ⟨[], [txt "out/www/a.js", txt "out/www/a.js.hash"]⟩ ∧
      (dispatchScan cfg (txt "src/public/index.html") (fsOf (tab (sources true)))) = some ⟨[txt "src/public/a.js", txt "src/partials/x.html"], [txt "out/www/index.html", txt "out/www/index.html.hash"]⟩ ∧
      (dispatchScan cfg (txt "src/partials/x.html") (fsOf (tab (sources true)))) = some ⟨[], []⟩ ∧
      (dispatchScan cfg (txt "src/public/k.js") (fsOf (tab (sources true)))) = some ⟨[], [txt "out/www/k.js", txt "out/www/k.js.hash"]⟩ := by
    decide +kernel
  intro d f s h
  refine ⟨tab (sources true), ?_⟩
  have h : scanner d f = .ok s := h
  unfold scanner at h
  unfold tool
  dsimp only
  split at h
  · next hf => subst hf; cases h; rw [if_pos (source _ (by simp)), key.1]; simp [str_txt]
  · split at h
    · next hf => subst hf; cases h; rw [if_pos (source _ (by simp)), key.2.1]; simp [str_txt]
    · split at h
      · next hf => subst hf; cases h; rw [if_pos (source _ (by simp)), key.2.2.1]; simp
      · split at h
        · next hf => subst hf; cases h; rw [if_pos (source _ (by simp)), key.2.2.2]; simp [str_txt]
        · cases h

def fresh : Disk := ⟨["src/public/a.js", "src/partials/x.html", "src/public/index.html", "src/public/k.js"], ["out"], none⟩
def all : Args := ⟨"src/public/k.js", .dev, ⟨[], [], []⟩, [], [("src/public/a.js", sig0), ("src/partials/x.html", sig0), ("src/public/index.html", sig0), ("src/public/k.js", sig0)], []⟩
def run1 : Outcome := hotRebuild env all fresh
def graphs1 : Graphs := run1.stored.getD ⟨[], [], []⟩
/-- The stylesheet and the template have been changed. -/
def edit : Args := ⟨"src/public/k.js", .dev, graphs1, [("src/public/a.js", sig1), ("src/partials/x.html", sig1)], [], []⟩
def run2 : Outcome := hotRebuild env edit run1.disk

theorem runs : run1.status = .finished ∧ run1.disk.files = ["src/public/a.js", "src/partials/x.html", "src/public/index.html", "src/public/k.js", "out/www/a.js",
      "out/www/a.js.hash", "out/www/k.js", "out/www/k.js.hash", "out/www/index.html", "out/www/index.html.hash"] ∧
    run1.log = [.started "src/public/a.js", .started "src/partials/x.html", .started "src/public/k.js", .finished "src/public/a.js" rA,
      .finished "src/partials/x.html" rP, .started "src/public/index.html", .finished "src/public/k.js" rK, .finished "src/public/index.html" rB] ∧ run1.stored.isSome := by
  decide +kernel

theorem runs2 : run2.status = .finished ∧ run2.disk.files = ["src/public/a.js", "src/partials/x.html", "src/public/index.html", "src/public/k.js",
      "out/www/k.js", "out/www/k.js.hash", "out/www/a.js", "out/www/a.js.hash", "out/www/index.html", "out/www/index.html.hash"] ∧
    run2.log = [.started "src/public/a.js", .started "src/partials/x.html", .finished "src/public/a.js" rA, .finished "src/partials/x.html" rP,
      .started "src/public/index.html", .finished "src/public/index.html" rB] ∧ run2.stored.isSome := by
  decide +kernel

theorem order : ValidOrder env := fun _ => List.Perm.refl _

/-- What the finished builds have reported, and what they have left. -/
theorem ran (v : Bool) (f : String) (r : BuildResult) (h : f = "src/public/a.js" ∧ r = rA ∨ f = "src/partials/x.html" ∧ r = rP ∨ f = "src/public/index.html" ∧ r = rB ∨ f = "src/public/k.js" ∧ r = rK) :
    (tool cfg).build .dev f (view v [] f) = some (r, wrote v [] f) := by
  obtain ⟨h1, h2, h3, -, -, h4, -⟩ := built v
  rcases h with ⟨rfl, rfl⟩ | ⟨rfl, rfl⟩ | ⟨rfl, rfl⟩ | ⟨rfl, rfl⟩
  · rw [build_eq h1 (by simp [bA])]
    simp [bA, rA, str_txt]
    rfl
  · rw [build_eq h4 (by simp [bP])]
    simp [bP, rP]
    rfl
  · rw [build_eq h3 (by exact childB)]
    simp [bB, rB, str_txt]
    rfl
  · rw [build_eq h2 (by simp [bK])]
    simp [bK, rK, str_txt]
    rfl

theorem ran2 (v : Bool) (f : String) (r : BuildResult) (h : f = "src/public/a.js" ∧ r = rA ∨ f = "src/partials/x.html" ∧ r = rP ∨ f = "src/public/index.html" ∧ r = rB) :
    (tool cfg).build .dev f (view v outK f) = some (r, wrote v outK f) := by
  obtain ⟨-, -, -, h1, h2, -, h4⟩ := built v
  rcases h with ⟨rfl, rfl⟩ | ⟨rfl, rfl⟩ | ⟨rfl, rfl⟩
  · rw [build_eq h1 (by simp [bA])]
    simp [bA, rA, str_txt]
    rfl
  · rw [build_eq h4 (by simp [bP])]
    simp [bP, rP]
    rfl
  · rw [build_eq h2 (by exact childB)]
    simp [bB, rB, str_txt]
    rfl

theorem log1 {f : String} {r : BuildResult} : Event.finished f r ∈ run1.log ↔
    f = "src/public/a.js" ∧ r = rA ∨ f = "src/partials/x.html" ∧ r = rP ∨ f = "src/public/index.html" ∧ r = rB ∨ f = "src/public/k.js" ∧ r = rK := by
  rw [runs.2.2.1]
  simp only [List.mem_cons, reduceCtorEq, Event.finished.injEq, List.not_mem_nil, or_false, false_or]
  constructor
  · rintro (h | h | h | h) <;> simp [h]
  · rintro (h | h | h | h) <;> simp [h]

theorem log2 {f : String} {r : BuildResult} : Event.finished f r ∈ run2.log ↔ f = "src/public/a.js" ∧ r = rA ∨ f = "src/partials/x.html" ∧ r = rP ∨ f = "src/public/index.html" ∧ r = rB := by
  rw [runs2.2.2.1]
  simp

theorem view_sees (v : Bool) (rest : List (String × Bytes)) (f c : String) : view v rest f c = tab (rest ++ sources v) c ∨
    f = "src/public/index.html" ∧ c ∈ rA.produced ∧ view v rest f c = tab (outA v ++ rest ++ sources v) c := by
  unfold view
  split
  · next hf =>
    by_cases hc : c ∈ rA.produced
    · exact .inr ⟨hf, hc, rfl⟩
    · left
      rw [List.append_assoc]
      exact tab_skip hc
  · exact .inl rfl

/-! ### The first build -/

theorem none1 {c : String} : ¬ Unlinked all run1 c := by
  rintro ⟨⟨x, -, cs, h, -⟩, -⟩
  simp [all, getChildren] at h

theorem wroteA (v : Bool) : ∀ c ∈ rA.produced, wrote v [] "src/public/a.js" c = done v c ∧ wrote v outK "src/public/a.js" c = done v c := by
  obtain ⟨h1, h2, -, -, -, -, h3, h4, -, -⟩ := wrotes v
  intro c hc
  simp only [rA, List.mem_cons, List.not_mem_nil, or_false] at hc
  rcases hc with rfl | rfl
  · exact ⟨h1, h3⟩
  · exact ⟨h2, h4⟩

theorem doneA (v : Bool) (rest : List (String × Bytes)) : ∀ c ∈ rA.produced, tab (outA v ++ rest ++ sources v) c = done v c := by
  intro c hc
  simp only [rA, List.mem_cons, List.not_mem_nil, or_false] at hc
  rcases hc with rfl | rfl <;> simp [tab, outA, done]

def work1 (v : Bool) : Work (tool cfg) all run1 (tab (sources v)) (done v) where
  view := view v []
  wrote := wrote v []
  start := tab (sources v)
  start_unlinked c h := absurd h none1
  start_kept c _ := rfl
  ran f r h := ran v f r (log1.1 h)
  sees f r h c := by
    rcases view_sees v [] f c with h1 | ⟨h1, h2, h3⟩
    · exact .inl h1
    · refine .inr ⟨"src/public/a.js", rA, by rw [h1]; decide, log1.2 (by simp), h2, ?_⟩
      rw [h3, (wroteA v c h2).1, doneA v [] c h2]
  missing c h := by
    rw [runs.2.1] at h
    rw [done, tab_none]
    intro hc
    apply h
    simp only [outA, outB, outK, sources, List.map_append, List.map_cons, List.map_nil, List.mem_append, List.mem_cons, List.not_mem_nil, or_false] at hc ⊢
    grind
  written c _ hc := by
    obtain ⟨g, r, h1, h2⟩ := hc
    refine ⟨g, r, h1, h2, ?_⟩
    obtain ⟨q1, q2, q3, q4, q5, q6, -⟩ := wrotes v
    rcases log1.1 h1 with ⟨rfl, rfl⟩ | ⟨rfl, rfl⟩ | ⟨rfl, rfl⟩ | ⟨rfl, rfl⟩
    on_goal 2 => simp [rP] at h2
    all_goals simp only [rA, rB, rK, List.mem_cons, List.not_mem_nil, or_false] at h2; rcases h2 with rfl | rfl
    · exact q1.symm
    · exact q2.symm
    · exact q3.symm
    · exact q4.symm
    · exact q5.symm
    · exact q6.symm
  kept c _ hc := by
    refine tab_skip fun h => hc ?_
    simp only [List.map_append, List.mem_append] at h
    rcases h with (h | h) | h
    · exact ⟨"src/public/a.js", rA, log1.2 (by simp), h⟩
    · exact ⟨"src/public/index.html", rB, log1.2 (by simp), h⟩
    · exact ⟨"src/public/k.js", rK, log1.2 (by simp), h⟩

theorem not_output {o : String} (h : (project cfg.constants).owner o ≠ none) (v : Bool) : o ∉ (sources v).map (·.1) :=
  fun hc => h (owner_source (source o hc))

theorem hist1 (v : Bool) : Worked (project cfg.constants) (tool cfg) .dev (done v) graphs1 run1.disk.mode := by
  refine Worked.rebuild (m0 := .dev) (W := fun _ => none) (env := env) (a := all) (d := fresh) (W0 := tab (sources v))
    (.empty _ _ fun _ _ => rfl) order scanned rfl ?_ (work1 v) runs.1
  refine ⟨fun f => tab_ne, fun o ho => tab_none.2 (not_output ho v), fun f h1 h2 h3 _ => tab_none.2 h3, ?_, fun f hf => ⟨source f hf, hf⟩,
    fun f _ h _ => h, ?_, ?_⟩
  · simp [all, Dict.keys]
  · simp [all, contains, Dict.has]
  · simp [all]

/-! ### The second -/

/-- The contents after the script has been changed. -/
def edited : Contents Bytes := tab (outA false ++ outB false ++ outK ++ sources true)

theorem up1 : UpToDate (project cfg.constants) ((tool cfg).builder (project cfg.constants)) .dev (done false) graphs1 ∧ ValidGraphs graphs1 := by
  have := ((hist1 false).history (lawful _) (tool_lawful cwd) (source _ (by simp [cfg, project]))).upToDate (lawful _) ((tool_lawful cwd).pure (lawful _))
  exact ⟨this.1, this.2.1⟩

theorem facts2 : ∃ gs, Facts env edit run1.disk run2 gs := by
  obtain ⟨gs, h⟩ := Option.isSome_iff_exists.1 runs2.2.2.2
  exact ⟨gs, facts up1.2 order h⟩

theorem unlinked2 {c : String} : Unlinked edit run2 c ↔ c ∈ rA.produced ∨ c ∈ rB.produced := by
  obtain ⟨gs, F⟩ := facts2
  constructor
  · rintro ⟨⟨x, h1, h2⟩, -⟩
    obtain ⟨r, hr⟩ := (F.ends x).2 ⟨by simp [edit], h1⟩
    have ho := (owner_iff.1 (UpToDate.owned ((tool_lawful cwd).pure (lawful _)) up1.1 h2)).2
    rcases log2.1 hr with ⟨rfl, rfl⟩ | ⟨rfl, rfl⟩ | ⟨rfl, rfl⟩
    · left
      rcases outputs pubA ho (s := "out/www/a.js") (t := "out/www/a.js.hash") (by decide) (by decide) with rfl | rfl <;> simp [rA]
    · obtain ⟨y, hy, -⟩ := ho
      exact absurd hy partP.not_public
    · right
      rcases outputs pubB ho (s := "out/www/index.html") (t := "out/www/index.html.hash") (by decide) (by decide) with rfl | rfl <;> simp [rB]
  · intro h
    have key : ∀ {f x r}, Event.finished f r ∈ run2.log → Source f → Public f x → (txt c = copyOf x ∨ txt c = hashOf x) → done false c ≠ none → Unlinked edit run2 c := by
      intro f x r hr hf hx ho hn
      have hw := owner_iff (k := cfg.constants).2 ⟨hf, x, hx, ho⟩
      exact ⟨⟨f, ((F.ends f).1 ⟨r, hr⟩).2, (up1.1.only c f hw hn).2⟩, (tool_lawful (c := cfg) cwd).plain hw⟩
    rcases h with h | h
    · refine key (r := rA) (log2.2 (by simp)) (source "src/public/a.js" (by simp)) pubA ?_ ?_
      · simp only [rA, List.mem_cons, List.not_mem_nil, or_false] at h
        rcases h with rfl | rfl
        · exact .inl (by decide)
        · exact .inr (by decide)
      · rw [done, tab_ne]
        simp only [rA, List.mem_cons, List.not_mem_nil, or_false] at h
        rcases h with rfl | rfl <;> simp [outA]
    · refine key (r := rB) (log2.2 (by simp)) (source "src/public/index.html" (by simp)) pubB ?_ ?_
      · simp only [rB, List.mem_cons, List.not_mem_nil, or_false] at h
        rcases h with rfl | rfl
        · exact .inl (by decide)
        · exact .inr (by decide)
      · rw [done, tab_ne]
        simp only [rB, List.mem_cons, List.not_mem_nil, or_false] at h
        rcases h with rfl | rfl <;> simp [outB]

def work2 : Work (tool cfg) edit run2 edited (done true) where
  view := view true outK
  wrote := wrote true outK
  start := tab (outK ++ sources true)
  start_unlinked c h := by
    rw [unlinked2] at h
    simp only [rA, rB, List.mem_cons, List.not_mem_nil, or_false] at h
    rcases h with (rfl | rfl) | (rfl | rfl) <;> decide
  start_kept c h := by
    rw [unlinked2] at h
    rw [edited, List.append_assoc]
    refine (tab_skip fun hc => h ?_).symm
    rw [List.map_append, List.mem_append] at hc
    exact hc
  ran f r h := ran2 true f r (log2.1 h)
  sees f r h c := by
    rcases view_sees true outK f c with h1 | ⟨h1, h2, h3⟩
    · exact .inl h1
    · refine .inr ⟨"src/public/a.js", rA, by rw [h1]; decide, log2.2 (by simp), h2, ?_⟩
      rw [h3, (wroteA true c h2).2, doneA true outK c h2]
  missing c h := by
    rw [runs2.2.1] at h
    rw [done, tab_none]
    intro hc
    apply h
    simp only [outA, outB, outK, sources, List.map_append, List.map_cons, List.map_nil, List.mem_append, List.mem_cons, List.not_mem_nil, or_false] at hc ⊢
    grind
  written c _ hc := by
    obtain ⟨g, r, h1, h2⟩ := hc
    refine ⟨g, r, h1, h2, ?_⟩
    obtain ⟨-, -, -, -, -, -, q1, q2, q3, q4⟩ := wrotes true
    rcases log2.1 h1 with ⟨rfl, rfl⟩ | ⟨rfl, rfl⟩ | ⟨rfl, rfl⟩
    on_goal 2 => simp [rP] at h2
    all_goals simp only [rA, rB, List.mem_cons, List.not_mem_nil, or_false] at h2; rcases h2 with rfl | rfl
    · exact q1.symm
    · exact q2.symm
    · exact q3.symm
    · exact q4.symm
  kept c _ hc := by
    rw [done, List.append_assoc]
    refine tab_skip fun h => hc ?_
    rw [List.map_append, List.mem_append] at h
    rcases h with h | h
    · exact ⟨"src/public/a.js", rA, log2.2 (by simp), h⟩
    · exact ⟨"src/public/index.html", rB, log2.2 (by simp), h⟩

theorem edits2 : Edits (project cfg.constants) edit run1.disk (done false) edited := by
  have hrec : ∀ f, contains edit.old.dep f = true ↔ Source f ∧ done false f ≠ none := up1.1.files
  have hkeys : ∀ v w f, f ∈ (outA v ++ outB v ++ outK ++ sources w).map (·.1) ↔ f ∈ run1.disk.files := by
    intro v w f
    rw [runs.2.1]
    simp only [outA, outB, outK, sources, List.map_append, List.map_cons, List.map_nil, List.mem_append, List.mem_cons, List.not_mem_nil, or_false]
    grind
  refine ⟨fun f => ?_, fun o ho => ?_, fun f h1 h2 h3 _ => ?_, ?_, ?_, fun f h1 h2 h3 => ?_, fun f h1 h2 => ?_, ?_⟩
  · rw [edited, tab_ne]; exact hkeys false true f
  · by_cases h : o ∈ (outA false ++ outB false ++ outK).map (·.1)
    · simp only [outA, outB, outK, List.map_append, List.map_cons, List.map_nil, List.mem_append, List.mem_cons, List.not_mem_nil, or_false] at h
      rcases h with ((rfl | rfl) | (rfl | rfl)) | (rfl | rfl) <;> decide
    · rw [edited, done, tab_skip h, tab_skip h, tab_none.2 (not_output ho _), tab_none.2 (not_output ho _)]
  · have h2 : f ≠ "src/public/a.js" ∧ f ≠ "src/partials/x.html" := by simpa [edit, Dict.keys] using h2
    by_cases h : f ∈ (outA false ++ outB false ++ outK).map (·.1)
    · simp only [outA, outB, outK, List.map_append, List.map_cons, List.map_nil, List.mem_append, List.mem_cons, List.not_mem_nil, or_false] at h
      rcases h with ((rfl | rfl) | (rfl | rfl)) | (rfl | rfl) <;> decide
    · rw [edited, done, tab_skip h, tab_skip h]
      simp [tab, sources, h2.1.symm, h2.2.symm]
  · simp only [edit, Dict.keys, List.map_cons, List.map_nil, List.mem_cons, List.not_mem_nil, or_false, forall_eq_or_imp, forall_eq]
    exact ⟨⟨source _ (by simp), by rw [runs.2.1]; simp⟩, source _ (by simp), by rw [runs.2.1]; simp⟩
  · simp [edit, Dict.keys]
  · have := (hrec f).2 ⟨h1, by rw [done, tab_ne]; exact (hkeys false false f).2 h2⟩
    rw [h3] at this
    cases this
  · exact (hkeys false false f).1 (tab_ne.1 ((hrec f).1 h1).2)
  · simp [edit]



/-! ### The page -/

theorem pagesOk : PagesOk cfg where
  host := by simp [cfg]
  space := (Book.fit true).space
  json := Html.Toy.faithful _

/-- The tokens of the page. -/
def tokens : List Html.HTok := [
  .emptyTag (txt "link") [((none, txt "rel"), txt "preload"), ((none, txt "href"), txt "/a.js")],
  Html.Toy.tpl [.str (txt "/x.html"), .obj [(txt "a", .str (txt "7"))]], .comment (txt "ok")]
/-- The tokens of the template. -/
def part : Option Bool → List Html.HTok
  | some v => Book.part v
  | none => [.emptyTag (txt "link") [((none, txt "rel"), txt "preload"), ((none, txt "href"), txt "/b.js")]]
/-- What the page links to. -/
def linked : Option Bool → List Text
  | some _ => [txt "src/public/a.js"]
  | none => [txt "src/public/a.js", txt "src/public/b.js"]

theorem parsed : cfg.page.parse (txt "art") = some tokens ∧ cfg.page.parse (textOf none) = some (part none) ∧ ∀ v, cfg.page.parse (textOf (some v)) = some (part (some v)) := by
  decide +kernel

theorem parsed_part (p : Option Bool) : cfg.page.parse (textOf p) = some (part p) := match p with
  | none => parsed.2.1
  | some v => parsed.2.2 v

theorem keeps (rel : Text) (fs : Fs) {t : Html.HTok} (h : Html.Page.Calm (pageEnv cfg false rel fs) t) (ho : Html.Ordinary (pageEnv cfg false rel fs).tpl t) :
    Html.Page.Keeps (pageEnv cfg false rel fs) t :=
  Html.Page.Keeps.other (env := (pageEnv cfg false rel fs).templates fun _ => none) (F := (pageEnv cfg false rel fs).tpl.files)
    (Html.Page.keeps_of_calm (fit_none pagesOk rel fs) ⟨h.canon, h.link, h.image, h.inline⟩ ho)

theorem args_same (e : Html.TplEnv) (a : Text) (b : Text → Option (List Html.HTok)) (t : Html.HTok) :
    Html.stackArgs { e with folder := a, files := b } t = Html.stackArgs e t ∧ Html.templateArgs { e with folder := a, files := b } t = Html.templateArgs e t := ⟨rfl, rfl⟩

theorem args : Html.stackArgs cfg.page.tpl (Html.Toy.stk [.str (txt "retrieve"), .str (txt "a")]) = some [.str (txt "retrieve"), .str (txt "a")] ∧
    Html.stackArgs cfg.page.tpl (Html.Toy.tpl [.str (txt "/x.html"), .obj [(txt "a", .str (txt "7"))]]) = none ∧
    Html.templateArgs cfg.page.tpl (Html.Toy.tpl [.str (txt "/x.html"), .obj [(txt "a", .str (txt "7"))]]) = some [.str (txt "/x.html"), .obj [(txt "a", .str (txt "7"))]] ∧
    Html.stackArgs cfg.page.tpl (.comment (txt "ok")) = none ∧ Html.templateArgs cfg.page.tpl (.comment (txt "ok")) = none := by
  refine ⟨Html.stackArgs_comment (Html.Toy.faithful _) _ _, Option.isNone_iff_eq_none.1 (by decide +kernel), ?_,
    Option.isNone_iff_eq_none.1 (by decide +kernel), Option.isNone_iff_eq_none.1 (by decide +kernel)⟩
  have b : Html.bracketArgs cfg.page.tpl.space (txt "TEMPLATE") true (txt "\n [ TEMPLATE : " ++ Html.Toy.enc (.arr [.str (txt "/x.html"), .obj [(txt "a", .str (txt "7"))]]) ++ txt "] ") =
      some (Html.Toy.enc (.arr [.str (txt "/x.html"), .obj [(txt "a", .str (txt "7"))]])) := by decide +kernel
  have l : cfg.page.tpl.loads (Html.Toy.enc (.arr [.str (txt "/x.html"), .obj [(txt "a", .str (txt "7"))]])) = _ :=
    (Html.Toy.faithful fun _ => none).back [.str (txt "/x.html"), .obj [(txt "a", .str (txt "7"))]]
  simp only [Html.templateArgs, Html.tryCommand, Html.Toy.tpl, b, l]

theorem finds_part (p : Option Bool) (fs : Fs) : ∃ f', Html.Page.Finds (pageEnv cfg false (txt "src/public/index.html") fs)
    ⟨txt "src/partials/x.html", Assoc.ofList [(txt "a", .str (txt "7"))]⟩ (part p) (linked p).tail [] f' := by
  have hr : Html.IsRetrieve (pageEnv cfg false (txt "src/public/index.html") fs).tpl (Html.Toy.stk [.str (txt "retrieve"), .str (txt "a")]) (txt "a") := by
    exact (args_same cfg.page.tpl _ _ _).1.trans args.1
  have vars : Assoc.item (Assoc.ofList [(txt "a", Html.Json.str (txt "7"))]) (txt "a") = some (.str (txt "7")) := rfl
  match p with
  | some false => exact ⟨_, .keep (keeps _ _ (Html.Page.calm_text _).1 (Html.Page.calm_text _).2) (.retrieve hr (by decide) vars (.str _) .nil)⟩
  | some true => exact ⟨_, .retrieve hr (by decide) vars (.str _) (.keep (keeps _ _ (Html.Page.calm_text _).1 (Html.Page.calm_text _).2) .nil)⟩
  | none =>
    refine ⟨⟨txt "src/partials/x.html", Assoc.ofList [(txt "a", .str (txt "7"))]⟩, ?_⟩
    have e : Verif.Paths.join (txt "src/public") (txt "b.js") = txt "src/public/b.js" := by decide
    show Html.Page.Finds _ _ _ [txt "src/public/b.js"] _ _
    rw [← e]
    exact .link (.preload (by decide) (by decide) (by decide) (by decide)) .nil

theorem reaches {fs : Fs} {p : Option Bool} (h1 : fs (txt "src/public/index.html") = some (txt "art")) (h2 : fs (txt "src/partials/x.html") = some (textOf p)) :
    Reaches cfg fs "src/public/index.html" (linked p) [txt "src/partials/x.html"] := by
  obtain ⟨f', hp⟩ := finds_part p fs
  refine ⟨_, _, ⟨txt "src/public/index.html", []⟩, h1, parsed.1, ?_⟩
  have e : Verif.Paths.join (txt "src/public") (txt "a.js") = txt "src/public/a.js" := by decide
  have el : linked p = Verif.Paths.join (txt "src/public") (txt "a.js") :: ((linked p).tail ++ []) := by
    rw [e, List.append_nil]
    match p with
    | some _ => rfl
    | none => rfl
  rw [el]
  refine .link (.preload (by decide) (by decide) (by decide) (by decide)) ?_
  have hi : Html.Includes (pageEnv cfg false (txt "src/public/index.html") fs).tpl ⟨txt "src/public/index.html", []⟩
      (Html.Toy.tpl [.str (txt "/x.html"), .obj [(txt "a", .str (txt "7"))]]) (txt "src/partials/x.html") [(txt "a", .str (txt "7"))] := by
    have e2 : Html.templatePath (txt "src/public/index.html") (txt "/x.html") = txt "src/partials/x.html" := by decide
    have := Html.Includes.args (env := (pageEnv cfg false (txt "src/public/index.html") fs).tpl) (f := ⟨txt "src/public/index.html", []⟩)
      (t := Html.Toy.tpl [.str (txt "/x.html"), .obj [(txt "a", .str (txt "7"))]]) (path := txt "/x.html") (o := [(txt "a", .str (txt "7"))])
      (vars := [(txt "a", .str (txt "7"))]) (more := []) ⟨(args_same cfg.page.tpl _ _ _).1.trans args.2.1, (args_same cfg.page.tpl _ _ _).2.trans args.2.2.1⟩ (.cons (.value (by rintro ⟨o, n, x, h, -⟩; cases h)) .nil)
    rw [e2] at this
    exact this
  have hf : (pageEnv cfg false (txt "src/public/index.html") fs).tpl.files
      (Verif.Paths.join (pageEnv cfg false (txt "src/public/index.html") fs).tpl.folder (txt "src/partials/x.html")) = some (part p) := by
    have e3 : Verif.Paths.join [] (txt "src/partials/x.html") = txt "src/partials/x.html" := by decide
    show (if (txt "src/partials/").isPrefixOf (Verif.Paths.join [] (txt "src/partials/x.html")) then (fs (Verif.Paths.join [] (txt "src/partials/x.html"))).bind cfg.page.parse else none) = _
    rw [e3, if_pos (by decide), h2]
    exact parsed_part p
  have calm_ok : Html.Page.command (pageEnv cfg false (txt "src/public/index.html") fs) (.comment (txt "ok")) = .ok none := rfl
  have := Html.Page.Finds.template hi hf hp (.keep (t := .comment (txt "ok")) (keeps _ _ ⟨rfl, rfl, calm_ok, rfl⟩
    ⟨(args_same cfg.page.tpl _ _ _).1.trans args.2.2.2.1, (args_same cfg.page.tpl _ _ _).2.trans args.2.2.2.2⟩) .nil)
  exact this

theorem goodPage {fs : Fs} {p : Option Bool} (h1 : fs (txt "src/public/index.html") = some (txt "art")) (h2 : fs (txt "src/partials/x.html") = some (textOf p)) :
    GoodPage cfg fs "src/public/index.html" (linked p) [txt "src/partials/x.html"] where
  page := ⟨by decide, ⟨_, pubB, by decide⟩, _, Html.Page.PageToy.pageFile⟩
  reaches := reaches h1 h2
  tidy := by
    refine ⟨fun y ts a b => ?_, fun i hi y ts a b => ?_⟩
    · rw [h1] at a; cases a
      rw [parsed.1] at b; cases b
      exact Book.sane_of (by decide +kernel)
    · rw [List.mem_singleton] at hi
      subst hi
      rw [h2] at a; cases a
      rw [parsed_part p] at b; cases b
      match p with
      | some v => exact Book.sane_of (by cases v <;> decide +kernel)
      | none => exact Book.sane_of (by decide +kernel)
  links := by
    have ha : txt "src/public/a.js" ≠ txt "src/public/index.html" ∧ ∃ g x, txt "src/public/a.js" = txt g ∧ Public g x := ⟨by decide, _, _, rfl, pubA⟩
    have hb : txt "src/public/b.js" ≠ txt "src/public/index.html" ∧ ∃ g x, txt "src/public/b.js" = txt g ∧ Public g x := ⟨by decide, _, _, rfl, Site.pubB⟩
    match p with
    | some _ => intro l hl; cases List.mem_singleton.1 hl; exact ha
    | none =>
      intro l hl
      rcases List.mem_cons.1 hl with rfl | hl
      · exact ha
      · cases List.mem_singleton.1 hl; exact hb
  templates := fun i hi => ⟨_, List.mem_singleton.1 hi, partP⟩
  enough := by
    intro fs' e1 e2
    have e := given_eq (e1.trans h1) ((e2 _ (by simp)).trans h2)
    rw [e]
    constructor
    · have := fuel_scan p (fs' (txt "out/www/a.js.hash")) (fs' (txt "out/www/b.js.hash")) fs'
      intro hc
      rw [show cfg.fuel = 100 from rfl] at hc
      rw [hc] at this
      cases this
    · have := fuel_build p (fs' (txt "out/www/a.js.hash")) (fs' (txt "out/www/b.js.hash")) fs'
      intro hc
      rw [show cfg.fuel = 100 from rfl] at hc
      rw [hc] at this
      cases this

/-! ### The scripts -/

open Site (textA toksA tokA orderly enough_of)

theorem imports_none (f : String) (d : Text) : ¬ Js.File.Imports cfg.js (txt f) textA d := by
  have key : Js.Hashed some (Js.File.fileOf cfg.js (txt f)) false toksA toksA [] := by
    have h1 : ∀ t ∈ toksA, t ≠ .kwImport := by decide +kernel
    have h2 : ∀ t ∈ toksA, ¬ Js.IgnoreMark t := by
      have h : ∀ t ∈ toksA, Js.isSkipMark t = false := by decide +kernel
      intro t ht hm
      rw [← Js.isSkipMark_iff, h t ht] at hm
      cases hm
    generalize toksA = l at h1 h2
    induction l with
    | nil => exact .nil
    | cons t l ih => exact .keep (h1 t (by simp)) (.inr (h2 t (by simp))) (ih (fun t h => h1 t (by simp [h])) (fun t h => h2 t (by simp [h])))
  rintro ⟨ts, out, ds, h1, h2, h3⟩
  rw [tokA] at h1
  have h1 := Option.some.inj h1
  subst h1
  have := Js.File.hashed_unique (Js.File.hiEnv cfg.js true (txt f) fun _ => none) key h2
  subst this
  cases h3

set_option maxRecDepth 1000000 in
theorem steps1 (f : Text) (fs : Fs) : (Build.runOps (Js.File.manips cfg.js true f fs) 100 (Build.State.new Js.jsInit) [] (toksA.map .token)).isSome = true := rfl
set_option maxRecDepth 1000000 in
theorem steps2 (f : Text) (fs : Fs) : (Build.runOps (Js.File.manips cfg.js false f fs) 100 (Build.State.new Js.jsInit) [] (Js.File.perToken toksA)).isSome = true := rfl

theorem simple {f : String} (hw : Web f) (hk : f ≠ cfg.constants) (h1 : ¬ txt ".css" <:+ txt f) (h2 : ¬ txt ".html" <:+ txt f) : Simple cfg f textA :=
  ⟨hw, .inr ⟨h1, h2⟩, fun _ => ⟨enough_of tokA (fun fs => steps1 _ fs) (fun fs => steps2 _ fs), orderly tokA (by decide +kernel), fun d h => absurd h (imports_none f d)⟩⟩

/-- What is there: the page, the script, the template, and perhaps another script. -/
structure Stock (W : Contents Bytes) (p : Option Bool) : Prop where
  a : W "src/public/a.js" = some textA
  b : p = none → W "src/public/b.js" = some textA
  x : W "src/partials/x.html" = some (textOf p)
  page : W "src/public/index.html" = some (txt "art")
  k : W "src/public/k.js" = some (txt "")
  only : ∀ f, Source f → W f ≠ none → f = "src/public/a.js" ∨ (f = "src/public/b.js" ∧ p = none) ∨ f = "src/partials/x.html" ∨ f = "src/public/index.html" ∨ f = "src/public/k.js"

theorem Stock.good {W : Contents Bytes} {p : Option Bool} (h : Stock W p) :
    GoodPage cfg (fsOf W) "src/public/index.html" (linked p) [txt "src/partials/x.html"] :=
  goodPage (by rw [fsOf_txt, h.page]) (by rw [fsOf_txt, h.x])

theorem simpleA : Simple cfg "src/public/a.js" textA := simple ⟨_, pubA, by decide⟩ (by decide) (by decide) (by decide)
theorem simpleB : Simple cfg "src/public/b.js" textA := simple ⟨_, Site.pubB, by decide⟩ (by decide) (by decide) (by decide)

theorem names {W : Contents Bytes} {p : Option Bool} (h : Stock W p) {f g : String} (hf : Source f) (hn : Names cfg W f g) :
    f = "src/public/index.html" ∧ (g = "src/public/a.js" ∨ (g = "src/public/b.js" ∧ p = none) ∨ g = "src/partials/x.html") := by
  have hne : W f ≠ none := by
    rcases hn with ⟨y, hy, -⟩ | ⟨-, ls, is, ⟨y, ts, f', hy, -⟩, -⟩
    · rw [hy]; simp
    · rw [fsOf_txt] at hy; rw [hy]; simp
  rcases h.only f hf hne with rfl | ⟨rfl, rfl⟩ | rfl | rfl | rfl
  · obtain ⟨y, hy, hr⟩ := (names_script simpleA g).1 hn
    rw [h.a] at hy; cases hy
    exact absurd hr.2 (imports_none _ _)
  · obtain ⟨y, hy, hr⟩ := (names_script simpleB g).1 hn
    rw [h.b rfl] at hy; cases hy
    exact absurd hr.2 (imports_none _ _)
  · exact absurd hn (names_partial partP g)
  · refine ⟨rfl, ?_⟩
    rcases (names_page pagesOk h.good g).1 hn with hl | hi
    · match p, hl with
      | some _, hl => exact .inl (txt_inj (List.mem_singleton.1 hl))
      | none, hl =>
        rcases List.mem_cons.1 hl with hl | hl
        · exact .inl (txt_inj hl)
        · exact .inr (.inl ⟨txt_inj (List.mem_singleton.1 hl), rfl⟩)
    · exact .inr (.inr (txt_inj (List.mem_singleton.1 hi)))
  · rcases hn with ⟨y, -, hr⟩ | ⟨hp, -⟩
    · exact absurd rfl hr.1.1
    · exact absurd rfl hp.1

theorem source' : ∀ f ∈ ["src/public/a.js", "src/public/b.js", "src/partials/x.html", "src/public/index.html", "src/public/k.js"], Source f := by
  intro f hf
  simp only [List.mem_cons, List.not_mem_nil, or_false] at hf
  rcases hf with rfl | rfl | rfl | rfl | rfl
  · exact source _ (by simp)
  · exact .inl ⟨_, Site.pubB, by decide⟩
  · exact source _ (by simp)
  · exact source _ (by simp)
  · exact source _ (by simp)

/-- All references name files which are there. -/
theorem intact {W : Contents Bytes} {p : Option Bool} (h : Stock W p) (f : String) (hf : Source f) (hn : W f ≠ none) :
    Ordered cfg W f ∧ ∀ g, Names cfg W f g → Source g ∧ W g ≠ none := by
  constructor
  · rcases h.only f hf hn with rfl | ⟨rfl, rfl⟩ | rfl | rfl | rfl
    · exact .inl ⟨_, h.a, simpleA⟩
    · exact .inl ⟨_, h.b rfl, simpleB⟩
    · exact .inr (.inl ⟨partP, by decide⟩)
    · exact .inr (.inr ⟨_, _, h.good⟩)
    · exact .inl ⟨_, h.k, ⟨_, pubK, by decide⟩, .inl rfl, fun h => absurd rfl h.1⟩
  · intro g hg
    obtain ⟨-, rfl | ⟨rfl, rfl⟩ | rfl⟩ := names h hf hg
    · exact ⟨source' _ (by simp), by rw [h.a]; simp⟩
    · exact ⟨source' _ (by simp), by rw [h.b rfl]; simp⟩
    · exact ⟨source' _ (by simp), by rw [h.x]; simp⟩

/-- Nothing refers to itself. -/
theorem acyclic {W : Contents Bytes} {p : Option Bool} (h : Stock W p) (f : String) (hf : Source f) : ¬ Path (Names cfg W) f f := by
  intro hp
  cases hp with
  | one e => obtain ⟨rfl, h1 | ⟨h1, -⟩ | h1⟩ := names h hf e <;> exact absurd h1 (by decide)
  | more e q =>
    have : ∀ g, (g = "src/public/a.js" ∨ (g = "src/public/b.js" ∧ p = none) ∨ g = "src/partials/x.html") → ¬ ∃ z, Names cfg W g z := by
      rintro g hg ⟨z, hz⟩
      have hs : Source g := by rcases hg with rfl | ⟨rfl, -⟩ | rfl <;> exact source' _ (by simp)
      have := (names h hs hz).1
      subst this
      simp at hg
    have := this _ (names h hf e).2
    cases q with
    | one e => exact this ⟨_, e⟩
    | more e _ => exact this ⟨_, e⟩

/-! ### The rebuild -/

theorem stock2 : Stock edited (some true) where
  a := by decide
  b h := by cases h
  x := by decide
  page := by decide
  k := by decide
  only f hf hn := by
    have hno : f ∉ (outA false ++ outB false ++ outK).map (·.1) := by
      intro hc
      have ho := ((lawful cfg.constants).src f hf).2
      have : ∀ o ∈ (outA false ++ outB false ++ outK).map (·.1), isOutput o = true := by decide
      rw [this f hc] at ho
      cases ho
    rw [edited, tab_ne, List.map_append, List.mem_append] at hn
    have hm := hn.resolve_left hno
    simp only [sources, List.map_cons, List.map_nil, List.mem_cons, List.not_mem_nil, or_false] at hm
    rcases hm with rfl | rfl | rfl | rfl <;> simp

/-- The scanner of `W`. -/
theorem scansBy_of {W : Contents Bytes} {env : Env} (s : Scanner) (h0 : env.scan = s)
    (h1 : ∀ d f r, s d f = .ok r → Source f ∧ dispatchScan cfg (txt f) (fsOf W) = some ⟨r.dependencies.map txt, r.produces.map txt⟩ ∧ r.placeholders = [])
    (h2 : ∀ d f, Source f → W f ≠ none → ∃ r, s d f = .ok r) : ScansBy (tool cfg) env W := by
  intro d f r
  rw [h0]
  have key : ∀ r, s d f = .ok r → (tool cfg).scan f W = some r := by
    intro r hr
    obtain ⟨q1, q2, q3⟩ := h1 d f r hr
    unfold tool; dsimp only
    rw [if_pos q1, q2]
    obtain ⟨r1, r2, r3⟩ := r
    dsimp only at q3
    subst q3
    have e : str ∘ txt = id := by funext x; simp [str_txt]
    simp [e]
  refine ⟨key r, fun hn hs => ?_⟩
  have hf : Source f := Classical.byContradiction fun hc => by
    unfold tool at hs; dsimp only at hs
    rw [if_neg hc] at hs
    cases hs
  obtain ⟨r', hr'⟩ := h2 d f hf hn
  have := key r' hr'
  rw [hs] at this
  cases this
  exact hr'

theorem scans : ∀ W ∈ [edited], dispatchScan cfg (txt "src/public/a.js") (fsOf W) = some ⟨[], [txt "out/www/a.js", txt "out/www/a.js.hash"]⟩ ∧
    dispatchScan cfg (txt "src/public/index.html") (fsOf W) = some ⟨[txt "src/public/a.js", txt "src/partials/x.html"], [txt "out/www/index.html", txt "out/www/index.html.hash"]⟩ ∧
    dispatchScan cfg (txt "src/partials/x.html") (fsOf W) = some ⟨[], []⟩ ∧
    dispatchScan cfg (txt "src/public/k.js") (fsOf W) = some ⟨[], [txt "out/www/k.js", txt "out/www/k.js.hash"]⟩ := by
  decide +kernel

theorem scansBy : ScansBy (tool cfg) env edited := by
  obtain ⟨s1, s2, s3, s4⟩ := scans edited (by simp)
  refine scansBy_of scanner rfl (fun d f r h => ?_) fun d f hf hn => ?_
  · unfold scanner at h
    split at h
    · next hf => subst hf; cases h; exact ⟨source _ (by simp), s1, rfl⟩
    · split at h
      · next hf => subst hf; cases h; exact ⟨source _ (by simp), s2, rfl⟩
      · split at h
        · next hf => subst hf; cases h; exact ⟨source _ (by simp), s3, rfl⟩
        · split at h
          · next hf => subst hf; cases h; exact ⟨source _ (by simp), s4, rfl⟩
          · cases h
  · rcases stock2.only f hf hn with rfl | ⟨-, h⟩ | rfl | rfl | rfl
    · exact ⟨_, rfl⟩
    · cases h
    · exact ⟨_, rfl⟩
    · exact ⟨_, rfl⟩
    · exact ⟨_, rfl⟩

theorem housed : Housed run1.disk := by
  intro o ho
  rw [runs.2.1] at ho
  revert o
  decide +kernel

def attempt2 : Attempt (tool cfg) env edit run2 edited where
  view := view true outK
  wrote := wrote true outK
  start := tab (outK ++ sources true)
  start_unlinked := work2.start_unlinked
  start_kept := work2.start_kept
  ran := work2.ran
  raised f h := by
    obtain ⟨h1, h2, -⟩ := h
    rw [runs2.2.2.1] at h1
    exfalso
    simp only [List.mem_cons, Event.started.injEq, reduceCtorEq, List.not_mem_nil, or_false, false_or] at h1
    rcases h1 with rfl | rfl | rfl
    · exact h2 rA (log2.2 (by simp))
    · exact h2 rP (log2.2 (by simp))
    · exact h2 rB (log2.2 (by simp))
  sees pre f post e c := by
    have hpre : ∀ g r, Event.finished g r ∈ pre → f = "src/public/index.html" ∧ (r = rA ∨ r = rP) := by
      rw [runs2.2.2.1] at e
      intro g r h
      match pre, e, h with
      | [], _, h => cases h
      | [x], e, h =>
        simp only [List.cons_append, List.nil_append, List.cons.injEq, Event.started.injEq] at e
        obtain ⟨rfl, rfl, -⟩ := e
        simp at h
      | [x, y], e, h => simp at e
      | [x, y, z], e, h => simp at e
      | [x, y, z, w], e, h =>
        simp only [List.cons_append, List.nil_append, List.cons.injEq, Event.started.injEq] at e
        obtain ⟨rfl, rfl, rfl, rfl, rfl, -⟩ := e
        simp only [List.mem_cons, reduceCtorEq, Event.finished.injEq, List.not_mem_nil, or_false, false_or] at h
        exact ⟨rfl, h.imp (·.2) (·.2)⟩
      | [x, y, z, w, u], e, h => simp at e
      | x :: y :: z :: w :: u :: v :: pre, e, h => simp at e
    by_cases hc : f = "src/public/index.html" ∧ c ∈ rA.produced
    · obtain ⟨rfl, hc⟩ := hc
      refine .inr ⟨"src/public/a.js", rA, by decide, log2.2 (by simp), hc, ?_⟩
      rw [(wroteA true c hc).2, ← doneA true outK c hc]
      rfl
    · rcases view_sees true outK f c with h1 | ⟨h1, h2, -⟩
      · refine .inl ⟨h1, ?_⟩
        rintro ⟨g, r, hg, hr⟩
        obtain ⟨rfl, rfl | rfl⟩ := hpre g r hg
        · exact hc ⟨rfl, hr⟩
        · simp [rP] at hr
      · exact absurd ⟨h1, h2⟩ hc

theorem stock1 : GoodPage cfg (fsOf (done false)) "src/public/index.html" (linked (some false)) [txt "src/partials/x.html"] :=
  goodPage (by rw [fsOf_txt]; decide) (by rw [fsOf_txt]; decide)

/-- The page has not been changed, and refers to the same files as before. -/
theorem keeps2 (f : String) (hf : Source f) (hn : edited f ≠ none) (hp : IsPage cfg f) :
    (∃ ls is, GoodPage cfg (fsOf (done false)) f ls is) ∧ ∀ g, Names cfg (done false) f g ↔ Names cfg edited f g := by
  have : f = "src/public/index.html" := by
    obtain ⟨-, -, -, -, -, -, -, hh, -⟩ := hp.facts
    obtain ⟨h1, ⟨z, hz, -⟩, -⟩ := hp
    rcases stock2.only f hf hn with rfl | ⟨-, h⟩ | rfl | rfl | rfl
    · exact absurd hh (by decide)
    · cases h
    · exact absurd hz partP.not_public
    · rfl
    · exact absurd rfl h1
  subst this
  refine ⟨⟨_, _, stock1⟩, fun g => ?_⟩
  rw [names_page pagesOk stock1, names_page pagesOk stock2.good]
  exact Iff.rfl

/-- The hypotheses of C110 are met: the project has been built, and the script and the template have been changed.  The page links to the script and includes
the template. -/
theorem C110_pages_case : isAbs cfg.js.cwd = true ∧ Js.SpaceOk cfg.js.space ∧ PagesOk cfg ∧ Source cfg.constants ∧
    Worked (project cfg.constants) (tool cfg) .dev (done false) edit.old run1.disk.mode ∧ ValidOrder env ∧ ScansBy (tool cfg) env edited ∧ 0 < env.scanFuel ∧
    edit.constants = cfg.constants ∧ Edits (project cfg.constants) edit run1.disk (done false) edited ∧ Housed run1.disk ∧
    Nonempty (Attempt (tool cfg) env edit (hotRebuild env edit run1.disk) edited) ∧
    (∀ f, Source f → edited f ≠ none → Ordered cfg edited f ∧ ∀ g, Names cfg edited f g → Source g ∧ edited g ≠ none) ∧
    (∀ f, Source f → edited f ≠ none → edited f = done false f → IsPage cfg f → (∃ ls is, GoodPage cfg (fsOf (done false)) f ls is) ∧ ∀ g, Names cfg (done false) f g ↔ Names cfg edited f g) ∧
    (∀ f, Source f → ¬ Path (Names cfg edited) f f) ∧ (hotRebuild env edit run1.disk).status ≠ .waiting ∧
    Names cfg edited "src/public/index.html" "src/public/a.js" ∧ Names cfg edited "src/public/index.html" "src/partials/x.html" ∧
    IsPage cfg "src/public/index.html" ∧ edited "src/public/index.html" = done false "src/public/index.html" ∧
    edited "src/partials/x.html" ≠ done false "src/partials/x.html" ∧ edited "src/public/a.js" ≠ done false "src/public/a.js" :=
  ⟨cwd, fun c h1 h2 => by simp [cfg, Js.File.toy]; omega, pagesOk, source _ (by simp [cfg]), hist1 false, order, scansBy, by decide, rfl, edits2, housed, ⟨attempt2⟩,
    intact stock2, fun f h1 h2 _ h3 => keeps2 f h1 h2 h3, acyclic stock2, by have := runs2.1; unfold run2 at this; rw [this]; simp,
    (names_page pagesOk stock2.good _).2 (.inl (.head _)), (names_page pagesOk stock2.good _).2 (.inr (.head _)), stock2.good.page, by decide, by decide, by decide⟩

/-! ### A template comes to link to another script -/

def sources3 : List (String × Bytes) :=
  [("src/public/b.js", script true), ("src/public/a.js", script true), ("src/partials/x.html", txt "link"), ("src/public/index.html", txt "art"), ("src/public/k.js", txt "")]
/-- The contents after the template has been changed and the script added. -/
def edited3 : Contents Bytes := tab (outA true ++ outB true ++ outK ++ sources3)
/-- The contents when building starts. -/
def start3 : Contents Bytes := tab (outA true ++ outK ++ sources3)
def disk3 : Disk := { run1.disk with files := "src/public/b.js" :: run1.disk.files }
def edit3 : Args := ⟨"src/public/k.js", .dev, graphs1, [("src/partials/x.html", sig1)], [("src/public/b.js", sig0)], []⟩
def scanner3 : Scanner := fun _ f =>
  if f = "src/public/a.js" then .ok ⟨[], ["out/www/a.js", "out/www/a.js.hash"], []⟩
  else if f = "src/public/b.js" then .ok ⟨[], ["out/www/b.js", "out/www/b.js.hash"], []⟩
  else if f = "src/public/index.html" then .ok ⟨["src/public/a.js", "src/public/b.js", "src/partials/x.html"], ["out/www/index.html", "out/www/index.html.hash"], []⟩
  else if f = "src/partials/x.html" then .ok ⟨[], [], []⟩
  else if f = "src/public/k.js" then .ok ⟨[], ["out/www/k.js", "out/www/k.js.hash"], []⟩
  else .error .notFound
/-- The build of the template ends first; the page, of which nothing else is known to have changed, is built then, while the script is still being built. -/
def env3 : Env where
  scan := scanner3
  sig := fun _ => sig0
  order := id
  batches := [Triple.wait "src/partials/x.html" rP, fun f => if f = "src/public/index.html" then some (.error .buildFailed) else none]
  scanFuel := 4
def run3 : Outcome := hotRebuild env3 edit3 disk3

theorem runs3 : run3.status = .failed .buildFailed ∧ run3.log = [.started "src/partials/x.html", .started "src/public/b.js", .finished "src/partials/x.html" rP,
    .started "src/public/index.html"] ∧ run3.scanned.keys = ["src/partials/x.html", "src/public/b.js"] := by
  decide +kernel

theorem raises3 : dispatch cfg .dev (txt "src/public/index.html") (fsOf start3) = none ∧
    (dispatch cfg .dev (txt "src/partials/x.html") (fsOf start3)).map (·.1) = some bP := by
  constructor
  · exact Option.isNone_iff_eq_none.1 (by decide +kernel)
  · decide +kernel

theorem up3 : UpToDate (project cfg.constants) ((tool cfg).builder (project cfg.constants)) .dev (done true) graphs1 ∧ ValidGraphs graphs1 := by
  have := ((hist1 true).history (lawful _) (tool_lawful cwd) (source _ (by simp [cfg, project]))).upToDate (lawful _) ((tool_lawful cwd).pure (lawful _))
  exact ⟨this.1, this.2.1⟩

theorem edges : (∀ f ∈ graphs1.dep.keys, (match getChildren graphs1.dep f with | .ok cs => cs | .error _ => []) =
      if f = "src/public/index.html" then ["src/public/a.js", "src/partials/x.html"] else []) ∧ graphs1.ph.keys.all (fun f => (match getChildren graphs1.ph f with | .ok cs => cs | .error _ => []) = []) = true ∧
    getChildren graphs1.dep "src/public/index.html" = .ok ["src/public/a.js", "src/partials/x.html"] := by
  decide +kernel

theorem uses {f g : String} (h : Hot.Uses graphs1 f g) : f = "src/public/index.html" ∧ (g = "src/public/a.js" ∨ g = "src/partials/x.html") := by
  rcases h with ⟨cs, h, hg⟩ | ⟨cs, h, hg⟩
  · have := edges.1 f (getChildren_ok h).1
    rw [h] at this
    dsimp only at this
    rw [this] at hg
    split at hg
    · next hf => simpa [hf] using hg
    · cases hg
  · have := List.all_eq_true.1 edges.2.1 f (getChildren_ok h).1
    rw [h] at this
    simp only [decide_eq_true_eq] at this
    rw [this] at hg
    cases hg

theorem affected3 {f : String} : Affected graphs1 (touchedSources edit3 run3) f ↔ f = "src/partials/x.html" ∨ f = "src/public/b.js" ∨ f = "src/public/index.html" := by
  have hs : touchedSources edit3 run3 = ["src/partials/x.html", "src/public/b.js"] := by
    unfold touchedSources
    rw [runs3.2.2]
    rfl
  rw [hs]
  constructor
  · rintro (h | ⟨s, -, hp⟩)
    · simp only [List.mem_cons, List.not_mem_nil, or_false] at h
      rcases h with rfl | rfl <;> simp
    · cases hp with
      | one e => rw [(uses e).1]; simp
      | more e _ => rw [(uses e).1]; simp
  · rintro (rfl | rfl | rfl)
    · exact .inl (by simp)
    · exact .inl (by simp)
    · exact .inr ⟨"src/partials/x.html", by simp, .one (.inl ⟨_, edges.2.2, by simp⟩)⟩

theorem unlinked3 {c : String} : Unlinked edit3 run3 c ↔ c ∈ rB.produced := by
  constructor
  · rintro ⟨⟨x, h1, h2⟩, -⟩
    have ho := (owner_iff.1 (UpToDate.owned ((tool_lawful cwd).pure (lawful _)) up3.1 h2)).2
    rcases affected3.1 h1 with rfl | rfl | rfl
    · obtain ⟨y, hy, -⟩ := ho
      exact absurd hy partP.not_public
    · exact absurd (show done true "src/public/b.js" = none by decide) ((up3.1.files _).1 (up3.1.recorded _ _ h2)).2
    · rcases outputs pubB ho (s := "out/www/index.html") (t := "out/www/index.html.hash") (by decide) (by decide) with rfl | rfl <;> simp [rB]
  · intro h
    have hw : (project cfg.constants).owner c = some "src/public/index.html" := by
      refine owner_iff.2 ⟨source _ (by simp), _, pubB, ?_⟩
      simp only [rB, List.mem_cons, List.not_mem_nil, or_false] at h
      rcases h with rfl | rfl
      · exact .inl (by decide)
      · exact .inr (by decide)
    refine ⟨⟨"src/public/index.html", affected3.2 (by simp), (up3.1.only c _ hw ?_).2⟩, (tool_lawful (c := cfg) cwd).plain hw⟩
    rw [done, tab_ne]
    simp only [rB, List.mem_cons, List.not_mem_nil, or_false] at h
    rcases h with rfl | rfl <;> simp [outB]

theorem order3 : ValidOrder env3 := fun _ => List.Perm.refl _

theorem no_output {l : List (String × Bytes)} (h : ∀ o ∈ l.map (·.1), isOutput o = true) {f : String} (hf : Source f) : f ∉ l.map (·.1) := by
  intro hc
  have ho := ((lawful cfg.constants).src f hf).2
  rw [h f hc] at ho
  cases ho

theorem stock3 : Stock edited3 none where
  a := by decide
  b _ := by decide
  x := by decide
  page := by decide
  k := by decide
  only f hf hn := by
    rw [edited3, tab_ne, List.map_append, List.mem_append] at hn
    have hm := hn.resolve_left (no_output (by decide) hf)
    simp only [sources3, List.map_cons, List.map_nil, List.mem_cons, List.not_mem_nil, or_false] at hm
    rcases hm with rfl | rfl | rfl | rfl | rfl <;> simp

theorem scans3 : dispatchScan cfg (txt "src/public/a.js") (fsOf edited3) = some ⟨[], [txt "out/www/a.js", txt "out/www/a.js.hash"]⟩ ∧
    dispatchScan cfg (txt "src/public/b.js") (fsOf edited3) = some ⟨[], [txt "out/www/b.js", txt "out/www/b.js.hash"]⟩ ∧
    dispatchScan cfg (txt "src/public/index.html") (fsOf edited3) = some ⟨[txt "src/public/a.js", txt "src/public/b.js", txt "src/partials/x.html"], [txt "out/www/index.html", txt "out/www/index.html.hash"]⟩ ∧
    dispatchScan cfg (txt "src/partials/x.html") (fsOf edited3) = some ⟨[], []⟩ ∧
    dispatchScan cfg (txt "src/public/k.js") (fsOf edited3) = some ⟨[], [txt "out/www/k.js", txt "out/www/k.js.hash"]⟩ := by
  decide +kernel

theorem scansBy3 : ScansBy (tool cfg) env3 edited3 := by
  obtain ⟨s1, s2, s3, s4, s5⟩ := scans3
  refine scansBy_of scanner3 rfl (fun d f r h => ?_) fun d f hf hn => ?_
  · unfold scanner3 at h
    split at h
    · next hf => subst hf; cases h; exact ⟨source' _ (by simp), s1, rfl⟩
    · split at h
      · next hf => subst hf; cases h; exact ⟨source' _ (by simp), s2, rfl⟩
      · split at h
        · next hf => subst hf; cases h; exact ⟨source' _ (by simp), s3, rfl⟩
        · split at h
          · next hf => subst hf; cases h; exact ⟨source' _ (by simp), s4, rfl⟩
          · split at h
            · next hf => subst hf; cases h; exact ⟨source' _ (by simp), s5, rfl⟩
            · cases h
  · rcases stock3.only f hf hn with rfl | ⟨rfl, -⟩ | rfl | rfl | rfl <;> exact ⟨_, rfl⟩

theorem housed3 : Housed disk3 := by
  intro o ho hi
  rcases List.mem_cons.1 (show o ∈ "src/public/b.js" :: run1.disk.files from ho) with rfl | h
  · exact absurd hi (by decide)
  · exact housed o h hi

theorem edits3 : Edits (project cfg.constants) edit3 disk3 (done true) edited3 := by
  have hrec : ∀ f, contains edit3.old.dep f = true ↔ Source f ∧ done true f ≠ none := up3.1.files
  have hkeys : ∀ f, f ∈ (outA true ++ outB true ++ outK ++ sources3).map (·.1) ↔ f ∈ disk3.files := by
    intro f
    rw [show disk3.files = "src/public/b.js" :: run1.disk.files from rfl, runs.2.1]
    simp only [outA, outB, outK, sources3, List.map_append, List.map_cons, List.map_nil, List.mem_append, List.mem_cons, List.not_mem_nil, or_false]
    grind
  have hold : ∀ f, f ∈ (outA true ++ outB true ++ outK ++ sources true).map (·.1) ↔ f ∈ run1.disk.files := by
    intro f
    rw [runs.2.1]
    simp only [outA, outB, outK, sources, List.map_append, List.map_cons, List.map_nil, List.mem_append, List.mem_cons, List.not_mem_nil, or_false]
    grind
  refine ⟨fun f => ?_, fun o ho => ?_, fun f h1 h2 h3 _ => ?_, ?_, ?_, fun f h1 h2 h3 => ?_, fun f h1 h2 => ?_, ?_⟩
  · rw [edited3, tab_ne]; exact hkeys f
  · by_cases h : o ∈ (outA true ++ outB true ++ outK).map (·.1)
    · simp only [outA, outB, outK, List.map_append, List.map_cons, List.map_nil, List.mem_append, List.mem_cons, List.not_mem_nil, or_false] at h
      rcases h with ((rfl | rfl) | (rfl | rfl)) | (rfl | rfl) <;> decide
    · have h3 : o ∉ sources3.map (·.1) := fun hc => ho (owner_source (source' o (by
        simp only [sources3, List.map_cons, List.map_nil, List.mem_cons, List.not_mem_nil, or_false] at hc ⊢
        grind)))
      rw [edited3, done, tab_skip h, tab_skip h, tab_none.2 h3, tab_none.2 (not_output ho _)]
  · have h2 : f ≠ "src/partials/x.html" := by simpa [edit3, Dict.keys] using h2
    have h3 : f ≠ "src/public/b.js" := by simpa [edit3, Dict.keys] using h3
    rw [edited3, done, tab_skip (no_output (by decide) h1), tab_skip (no_output (by decide) h1)]
    by_cases q1 : f = "src/public/a.js"
    · subst q1; decide
    by_cases q2 : f = "src/public/index.html"
    · subst q2; decide
    by_cases q3 : f = "src/public/k.js"
    · subst q3; decide
    rw [tab_none.2 (by simp [sources3, *]), tab_none.2 (by simp [sources, *])]
  · simp only [edit3, Dict.keys, List.map_cons, List.map_nil, List.mem_cons, List.not_mem_nil, or_false, forall_eq]
    exact ⟨source' _ (by simp), (hkeys _).1 (by simp [sources3])⟩
  · simp only [edit3, Dict.keys, List.map_cons, List.map_nil, List.mem_cons, List.not_mem_nil, or_false, forall_eq]
    exact ⟨source' _ (by simp), (hkeys _).1 (by simp [sources3])⟩
  · have h1 : Source f := h1
    rcases List.mem_cons.1 (show f ∈ "src/public/b.js" :: run1.disk.files from h2) with rfl | h
    · simp [edit3, Dict.keys]
    · have := (hrec f).2 ⟨h1, by rw [done, tab_ne]; exact (hold f).2 h⟩
      rw [h3] at this
      cases this
  · exact List.mem_cons_of_mem _ ((hold f).1 (tab_ne.1 ((hrec f).1 h1).2))
  · simp [edit3]

theorem log3 {f : String} {r : BuildResult} : Event.finished f r ∈ run3.log ↔ f = "src/partials/x.html" ∧ r = rP := by
  rw [runs3.2.1]
  simp

theorem ran3 : (tool cfg).build .dev "src/partials/x.html" start3 =
    some (rP, fun s => (dispatch cfg .dev (txt "src/partials/x.html") (fsOf start3)).bind fun r => r.2 (txt s)) := by
  rw [build_eq raises3.2 (by simp [bP])]
  simp only [bP, rP, List.map_nil]

theorem build_none {m : Mode} {f : String} {W : Contents Bytes} (h : dispatch cfg m (txt f) (fsOf W) = none) : (tool cfg).build m f W = none := by
  simp only [tool, h]

noncomputable def attempt3 : Attempt (tool cfg) env3 edit3 run3 edited3 where
  view := fun _ => start3
  wrote := fun f s => (dispatch cfg .dev (txt f) (fsOf start3)).bind fun r => r.2 (txt s)
  start := start3
  start_unlinked c h := by
    rw [unlinked3] at h
    simp only [rB, List.mem_cons, List.not_mem_nil, or_false] at h
    rcases h with rfl | rfl <;> decide
  start_kept c h := by
    rw [unlinked3] at h
    have hB : c ∉ (outB true).map (·.1) := h
    rw [edited3, start3, List.append_assoc, List.append_assoc, List.append_assoc]
    by_cases hA : c ∈ (outA true).map (·.1)
    · simp only [outA, List.map_cons, List.map_nil, List.mem_cons, List.not_mem_nil, or_false] at hA
      rcases hA with rfl | rfl <;> decide
    · rw [tab_skip hA, tab_skip hA, tab_skip hB]
  ran f r h := by
    obtain ⟨rfl, rfl⟩ := log3.1 h
    exact ran3
  raised f h := by
    obtain ⟨-, h2, b, hb, e, he⟩ := h
    have : f = "src/public/index.html" := by
      simp only [env3, List.mem_cons, List.not_mem_nil, or_false] at hb
      rcases hb with rfl | rfl
      · unfold Triple.wait at he
        split at he <;> cases he
      · by_contra hc
        simp only [if_neg hc] at he
        cases he
    subst this
    exact build_none raises3.1
  sees pre f post e c := by
    refine .inl ⟨rfl, ?_⟩
    rintro ⟨g, r, hg, hr⟩
    have : Event.finished g r ∈ run3.log := by rw [e]; simp [hg]
    obtain ⟨-, rfl⟩ := log3.1 this
    simp [rP] at hr

/-- What is wrong: a project has been built, a script is added, and a template which a page includes comes to link to it.  All files which are referred to are
there, nothing refers to itself, and the scans and builds are those of the handlers; and yet the rebuild fails, since the page, which has not been changed, is not
scanned, and is built before the script. -/
theorem C110_false_template : isAbs cfg.js.cwd = true ∧ Js.SpaceOk cfg.js.space ∧ PagesOk cfg ∧ Source cfg.constants ∧
    Worked (project cfg.constants) (tool cfg) .dev (done true) edit3.old disk3.mode ∧ ValidOrder env3 ∧ ScansBy (tool cfg) env3 edited3 ∧ 0 < env3.scanFuel ∧
    edit3.constants = cfg.constants ∧ Edits (project cfg.constants) edit3 disk3 (done true) edited3 ∧ Housed disk3 ∧
    Nonempty (Attempt (tool cfg) env3 edit3 (hotRebuild env3 edit3 disk3) edited3) ∧
    (∀ f, Source f → edited3 f ≠ none → Ordered cfg edited3 f ∧ ∀ g, Names cfg edited3 f g → Source g ∧ edited3 g ≠ none) ∧
    (∀ f, Source f → ¬ Path (Names cfg edited3) f f) ∧
    (hotRebuild env3 edit3 disk3).status = .failed .buildFailed :=
  ⟨cwd, fun c h1 h2 => by simp [cfg, Js.File.toy]; omega, pagesOk, source _ (by simp [cfg]), hist1 true, order3, scansBy3, by decide, rfl, edits3, housed3, ⟨attempt3⟩,
    intact stock3, acyclic stock3, runs3.1⟩

end Album
end Verif.Hot.Scripts
