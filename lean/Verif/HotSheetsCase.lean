import Verif.HotScriptsCase
/-!
# C84: a concrete history

A project of two stylesheets, one of which imports a rule of the other and names it in a URL, and constants is built; the other stylesheet is
changed, and it is built again; and it is built from scratch.
-/
namespace Verif.Hot.Scripts
open Verif Verif.Hot Verif.Graph
open Verif.Reader (Text txt)
open Verif.Paths (split isAbs Name Seg)
open Verif.Handlers (Bytes Fs Scan)
open Site (cfg tab tab_none tab_ne tab_skip pub outputs cwd)

namespace Sheets

def script (v : Bool) : Text := if v then txt ".a{b:cd;}" else txt ".a{b:c;}"
/-- What the other stylesheet becomes. -/
def other (v : Bool) : Text := if v then txt ".e{b:cd;f:url(/m.css?v=9)}" else txt ".e{b:c;f:url(/m.css?v=8)}"

def sources (v : Bool) : List (String × Bytes) :=
  [("src/public/m.css", script v), ("src/public/p.css", txt ".e{/*! PREPROCESSOR: import .a */f:url(/m.css)}"), ("src/public/k.js", txt "")]
def outA (v : Bool) : List (String × Bytes) := [("out/www/m.css", script v), ("out/www/m.css.hash", if v then txt "9" else txt "8")]
def outB (v : Bool) : List (String × Bytes) := [("out/www/p.css", other v), ("out/www/p.css.hash", if v then txt "26" else txt "25")]
def outK : List (String × Bytes) := [("out/www/k.js", txt "dev"), ("out/www/k.js.hash", txt "3")]

/-- The contents once everything is built. -/
def done (v : Bool) : Contents Bytes := tab (outA v ++ outB v ++ outK ++ sources v)

def rA : BuildResult := ⟨[], ["out/www/m.css", "out/www/m.css.hash"], []⟩
def rB : BuildResult := ⟨["src/public/m.css", "out/www/m.css.hash"], ["out/www/p.css", "out/www/p.css.hash"], []⟩
def rK : BuildResult := ⟨[], ["out/www/k.js", "out/www/k.js.hash"], []⟩
def bA : Handlers.Built := ⟨[], [txt "out/www/m.css", txt "out/www/m.css.hash"], []⟩
def bB : Handlers.Built := ⟨[txt "src/public/m.css", txt "out/www/m.css.hash"], [txt "out/www/p.css", txt "out/www/p.css.hash"], []⟩
def bK : Handlers.Built := ⟨[], [txt "out/www/k.js", txt "out/www/k.js.hash"], []⟩

/-- What the builds see. -/
def view (v : Bool) (rest : List (String × Bytes)) (f : String) : Contents Bytes :=
  if f = "src/public/p.css" then tab (outA v ++ rest ++ sources v) else tab (rest ++ sources v)

def wrote (v : Bool) (rest : List (String × Bytes)) (f : String) : Contents Bytes := fun s =>
  (dispatch cfg .dev (txt f) (fsOf (view v rest f))).bind fun r => r.2 (txt s)

theorem built : ∀ v : Bool, (dispatch cfg .dev (txt "src/public/m.css") (fsOf (view v [] "src/public/m.css"))).map (·.1) = some bA ∧
    (dispatch cfg .dev (txt "src/public/k.js") (fsOf (view v [] "src/public/k.js"))).map (·.1) = some bK ∧
    (dispatch cfg .dev (txt "src/public/p.css") (fsOf (view v [] "src/public/p.css"))).map (·.1) = some bB ∧
    (dispatch cfg .dev (txt "src/public/m.css") (fsOf (view v outK "src/public/m.css"))).map (·.1) = some bA ∧
    (dispatch cfg .dev (txt "src/public/p.css") (fsOf (view v outK "src/public/p.css"))).map (·.1) = some bB := by
  decide +kernel

theorem wrotes : ∀ v : Bool, wrote v [] "src/public/m.css" "out/www/m.css" = done v "out/www/m.css" ∧
    wrote v [] "src/public/m.css" "out/www/m.css.hash" = done v "out/www/m.css.hash" ∧
    wrote v [] "src/public/p.css" "out/www/p.css" = done v "out/www/p.css" ∧
    wrote v [] "src/public/p.css" "out/www/p.css.hash" = done v "out/www/p.css.hash" ∧
    wrote v [] "src/public/k.js" "out/www/k.js" = done v "out/www/k.js" ∧
    wrote v [] "src/public/k.js" "out/www/k.js.hash" = done v "out/www/k.js.hash" ∧
    wrote v outK "src/public/m.css" "out/www/m.css" = done v "out/www/m.css" ∧
    wrote v outK "src/public/m.css" "out/www/m.css.hash" = done v "out/www/m.css.hash" ∧
    wrote v outK "src/public/p.css" "out/www/p.css" = done v "out/www/p.css" ∧
    wrote v outK "src/public/p.css" "out/www/p.css.hash" = done v "out/www/p.css.hash" := by
  decide +kernel

theorem pubA : Public "src/public/m.css" (txt "m.css") := pub (by decide) (by decide) (by decide) (by decide)
theorem pubB : Public "src/public/p.css" (txt "p.css") := pub (by decide) (by decide) (by decide) (by decide)
theorem pubK : Public "src/public/k.js" (txt "k.js") := pub (by decide) (by decide) (by decide) (by decide)
theorem source : ∀ f ∈ ["src/public/m.css", "src/public/p.css", "src/public/k.js"], Source f := by
  intro f hf
  simp only [List.mem_cons, List.not_mem_nil, or_false] at hf
  rcases hf with rfl | rfl | rfl
  · exact .inl ⟨_, pubA, by decide⟩
  · exact .inl ⟨_, pubB, by decide⟩
  · exact .inl ⟨_, pubK, by decide⟩

theorem childB : ∀ d ∈ bB.children, Child "src/public/p.css" d := by
  intro d hd
  simp only [bB, List.mem_cons, List.not_mem_nil, or_false] at hd
  rcases hd with rfl | rfl
  · exact ⟨_, rfl, .inl ⟨_, pubA⟩⟩
  · exact ⟨"out/www/m.css.hash", rfl, .inr (.inl ⟨by decide, _, _, pubA, by decide⟩)⟩

def scanner : Scanner := fun _ f =>
  if f = "src/public/m.css" then .ok ⟨[], ["out/www/m.css", "out/www/m.css.hash"], []⟩
  else if f = "src/public/p.css" then .ok ⟨["src/public/m.css", "out/www/m.css.hash"], ["out/www/p.css", "out/www/p.css.hash"], []⟩
  else if f = "src/public/k.js" then .ok ⟨[], ["out/www/k.js", "out/www/k.js.hash"], []⟩
  else .error .notFound

def env : Env where
  scan := scanner
  sig := fun _ => sig0
  order := id
  batches := [Triple.wait "src/public/m.css" rA, Triple.wait "src/public/k.js" rK, Triple.wait "src/public/p.css" rB]
  scanFuel := 4

theorem scanned : Scanned (tool cfg) env := by
  have key : (dispatchScan cfg (txt "src/public/m.css") (fsOf (tab (sources true)))) = some ⟨[], [txt "out/www/m.css", txt "out/www/m.css.hash"]⟩ ∧
      (dispatchScan cfg (txt "src/public/p.css") (fsOf (tab (sources true)))) = some ⟨[txt "src/public/m.css", txt "out/www/m.css.hash"], [txt "out/www/p.css", txt "out/www/p.css.hash"]⟩ ∧
      (dispatchScan cfg (txt "src/public/k.js") (fsOf (tab (sources true)))) = some ⟨[], [txt "out/www/k.js", txt "out/www/k.js.hash"]⟩ := by
    decide +kernel
  intro d f s h
  refine ⟨tab (sources true), ?_⟩
  have h : scanner d f = .ok s := h
  unfold scanner at h
  unfold tool
  dsimp only
  split at h
  · next hf => subst hf; cases h; rw [if_pos (source _ (by simp)), key.1]; simp [str_txt]
  · split at h
    · next hf => subst hf; cases h; rw [if_pos (source _ (by simp)), key.2.1]; simp [str_txt]
    · split at h
      · next hf => subst hf; cases h; rw [if_pos (source _ (by simp)), key.2.2]; simp [str_txt]
      · cases h

def fresh : Disk := ⟨["src/public/m.css", "src/public/p.css", "src/public/k.js"], ["out"], none⟩
def all : Args := ⟨"src/public/k.js", .dev, ⟨[], [], []⟩, [], [("src/public/m.css", sig0), ("src/public/p.css", sig0), ("src/public/k.js", sig0)], []⟩
def run1 : Outcome := hotRebuild env all fresh
def graphs1 : Graphs := run1.stored.getD ⟨[], [], []⟩
/-- The script which is imported has been changed. -/
def edit : Args := ⟨"src/public/k.js", .dev, graphs1, [("src/public/m.css", sig1)], [], []⟩
def run2 : Outcome := hotRebuild env edit run1.disk

theorem runs : run1.status = .finished ∧ run1.disk.files = ["src/public/m.css", "src/public/p.css", "src/public/k.js", "out/www/m.css", "out/www/m.css.hash",
      "out/www/k.js", "out/www/k.js.hash", "out/www/p.css", "out/www/p.css.hash"] ∧
    run1.log = [.started "src/public/m.css", .started "src/public/k.js", .finished "src/public/m.css" rA, .started "src/public/p.css",
      .finished "src/public/k.js" rK, .finished "src/public/p.css" rB] ∧ run1.stored.isSome := by
  decide +kernel

theorem runs2 : run2.status = .finished ∧ run2.disk.files = ["src/public/m.css", "src/public/p.css", "src/public/k.js",
      "out/www/k.js", "out/www/k.js.hash", "out/www/m.css", "out/www/m.css.hash", "out/www/p.css", "out/www/p.css.hash"] ∧
    run2.log = [.started "src/public/m.css", .finished "src/public/m.css" rA, .started "src/public/p.css", .finished "src/public/p.css" rB] ∧ run2.stored.isSome := by
  decide +kernel

theorem order : ValidOrder env := fun _ => List.Perm.refl _

/-- What the finished builds have reported, and what they have left. -/
theorem ran (v : Bool) (f : String) (r : BuildResult) (h : f = "src/public/m.css" ∧ r = rA ∨ f = "src/public/p.css" ∧ r = rB ∨ f = "src/public/k.js" ∧ r = rK) :
    (tool cfg).build .dev f (view v [] f) = some (r, wrote v [] f) := by
  obtain ⟨h1, h2, h3, -⟩ := built v
  rcases h with ⟨rfl, rfl⟩ | ⟨rfl, rfl⟩ | ⟨rfl, rfl⟩
  · rw [build_eq h1 (by simp [bA])]
    simp [bA, rA, str_txt]
    rfl
  · rw [build_eq h3 (by exact childB)]
    simp [bB, rB, str_txt]
    rfl
  · rw [build_eq h2 (by simp [bK])]
    simp [bK, rK, str_txt]
    rfl

theorem ran2 (v : Bool) (f : String) (r : BuildResult) (h : f = "src/public/m.css" ∧ r = rA ∨ f = "src/public/p.css" ∧ r = rB) :
    (tool cfg).build .dev f (view v outK f) = some (r, wrote v outK f) := by
  obtain ⟨-, -, -, h1, h2⟩ := built v
  rcases h with ⟨rfl, rfl⟩ | ⟨rfl, rfl⟩
  · rw [build_eq h1 (by simp [bA])]
    simp [bA, rA, str_txt]
    rfl
  · rw [build_eq h2 (by exact childB)]
    simp [bB, rB, str_txt]
    rfl

theorem log1 {f : String} {r : BuildResult} : Event.finished f r ∈ run1.log ↔
    f = "src/public/m.css" ∧ r = rA ∨ f = "src/public/p.css" ∧ r = rB ∨ f = "src/public/k.js" ∧ r = rK := by
  rw [runs.2.2.1]
  simp only [List.mem_cons, reduceCtorEq, Event.finished.injEq, List.not_mem_nil, or_false, false_or]
  constructor
  · rintro (h | h | h) <;> simp [h]
  · rintro (h | h | h) <;> simp [h]

theorem log2 {f : String} {r : BuildResult} : Event.finished f r ∈ run2.log ↔ f = "src/public/m.css" ∧ r = rA ∨ f = "src/public/p.css" ∧ r = rB := by
  rw [runs2.2.2.1]
  simp

theorem view_sees (v : Bool) (rest : List (String × Bytes)) (f c : String) : view v rest f c = tab (rest ++ sources v) c ∨
    f = "src/public/p.css" ∧ c ∈ rA.produced ∧ view v rest f c = tab (outA v ++ rest ++ sources v) c := by
  unfold view
  split
  · next hf =>
    by_cases hc : c ∈ rA.produced
    · exact .inr ⟨hf, hc, rfl⟩
    · left
      rw [List.append_assoc]
      exact tab_skip hc
  · exact .inl rfl

/-! ### The first build -/

theorem none1 {c : String} : ¬ Unlinked all run1 c := by
  rintro ⟨⟨x, -, cs, h, -⟩, -⟩
  simp [all, getChildren] at h

theorem wroteA (v : Bool) : ∀ c ∈ rA.produced, wrote v [] "src/public/m.css" c = done v c ∧ wrote v outK "src/public/m.css" c = done v c := by
  obtain ⟨h1, h2, -, -, -, -, h3, h4, -, -⟩ := wrotes v
  intro c hc
  simp only [rA, List.mem_cons, List.not_mem_nil, or_false] at hc
  rcases hc with rfl | rfl
  · exact ⟨h1, h3⟩
  · exact ⟨h2, h4⟩

theorem doneA (v : Bool) (rest : List (String × Bytes)) : ∀ c ∈ rA.produced, tab (outA v ++ rest ++ sources v) c = done v c := by
  intro c hc
  simp only [rA, List.mem_cons, List.not_mem_nil, or_false] at hc
  rcases hc with rfl | rfl <;> simp [tab, outA, done]

def work1 (v : Bool) : Work (tool cfg) all run1 (tab (sources v)) (done v) where
  view := view v []
  wrote := wrote v []
  start := tab (sources v)
  start_unlinked c h := absurd h none1
  start_kept c _ := rfl
  ran f r h := ran v f r (log1.1 h)
  sees f r h c := by
    rcases view_sees v [] f c with h1 | ⟨h1, h2, h3⟩
    · exact .inl h1
    · refine .inr ⟨"src/public/m.css", rA, by rw [h1]; decide, log1.2 (by simp), h2, ?_⟩
      rw [h3, (wroteA v c h2).1, doneA v [] c h2]
  missing c h := by
    rw [runs.2.1] at h
    rw [done, tab_none]
    intro hc
    apply h
    simp only [outA, outB, outK, sources, List.map_append, List.map_cons, List.map_nil, List.mem_append, List.mem_cons, List.not_mem_nil, or_false] at hc ⊢
    grind
  written c _ hc := by
    obtain ⟨g, r, h1, h2⟩ := hc
    refine ⟨g, r, h1, h2, ?_⟩
    obtain ⟨q1, q2, q3, q4, q5, q6, -⟩ := wrotes v
    rcases log1.1 h1 with ⟨rfl, rfl⟩ | ⟨rfl, rfl⟩ | ⟨rfl, rfl⟩ <;>
      simp only [rA, rB, rK, List.mem_cons, List.not_mem_nil, or_false] at h2 <;> rcases h2 with rfl | rfl
    · exact q1.symm
    · exact q2.symm
    · exact q3.symm
    · exact q4.symm
    · exact q5.symm
    · exact q6.symm
  kept c _ hc := by
    refine tab_skip fun h => hc ?_
    simp only [List.map_append, List.mem_append] at h
    rcases h with (h | h) | h
    · exact ⟨"src/public/m.css", rA, log1.2 (by simp), h⟩
    · exact ⟨"src/public/p.css", rB, log1.2 (by simp), h⟩
    · exact ⟨"src/public/k.js", rK, log1.2 (by simp), h⟩

theorem not_output {o : String} (h : (project cfg.constants).owner o ≠ none) (v : Bool) : o ∉ (sources v).map (·.1) :=
  fun hc => h (owner_source (source o hc))

theorem hist1 (v : Bool) : Worked (project cfg.constants) (tool cfg) .dev (done v) graphs1 run1.disk.mode := by
  refine Worked.rebuild (m0 := .dev) (W := fun _ => none) (env := env) (a := all) (d := fresh) (W0 := tab (sources v))
    (.empty _ _ fun _ _ => rfl) order scanned rfl ?_ (work1 v) runs.1
  refine ⟨fun f => tab_ne, fun o ho => tab_none.2 (not_output ho v), fun f h1 h2 h3 _ => tab_none.2 h3, ?_, fun f hf => ⟨source f hf, hf⟩,
    fun f _ h _ => h, ?_, ?_⟩
  · simp [all, Dict.keys]
  · simp [all, contains, Dict.has]
  · simp [all]

/-! ### The second -/

/-- The contents after the script has been changed. -/
def edited : Contents Bytes := tab (outA false ++ outB false ++ outK ++ sources true)

theorem up1 : UpToDate (project cfg.constants) ((tool cfg).builder (project cfg.constants)) .dev (done false) graphs1 ∧ ValidGraphs graphs1 := by
  have := ((hist1 false).history (lawful _) (tool_lawful cwd) (source _ (by simp [cfg, project]))).upToDate (lawful _) ((tool_lawful cwd).pure (lawful _))
  exact ⟨this.1, this.2.1⟩

theorem facts2 : ∃ gs, Facts env edit run1.disk run2 gs := by
  obtain ⟨gs, h⟩ := Option.isSome_iff_exists.1 runs2.2.2.2
  exact ⟨gs, facts up1.2 order h⟩

theorem unlinked2 {c : String} : Unlinked edit run2 c ↔ c ∈ rA.produced ∨ c ∈ rB.produced := by
  obtain ⟨gs, F⟩ := facts2
  constructor
  · rintro ⟨⟨x, h1, h2⟩, -⟩
    obtain ⟨r, hr⟩ := (F.ends x).2 ⟨by simp [edit], h1⟩
    have ho := (owner_iff.1 (UpToDate.owned ((tool_lawful cwd).pure (lawful _)) up1.1 h2)).2
    rcases log2.1 hr with ⟨rfl, rfl⟩ | ⟨rfl, rfl⟩
    · left
      rcases outputs pubA ho (s := "out/www/m.css") (t := "out/www/m.css.hash") (by decide) (by decide) with rfl | rfl <;> simp [rA]
    · right
      rcases outputs pubB ho (s := "out/www/p.css") (t := "out/www/p.css.hash") (by decide) (by decide) with rfl | rfl <;> simp [rB]
  · intro h
    have key : ∀ {f x r}, Event.finished f r ∈ run2.log → Source f → Public f x → (txt c = copyOf x ∨ txt c = hashOf x) → done false c ≠ none → Unlinked edit run2 c := by
      intro f x r hr hf hx ho hn
      have hw := owner_iff (k := cfg.constants).2 ⟨hf, x, hx, ho⟩
      exact ⟨⟨f, ((F.ends f).1 ⟨r, hr⟩).2, (up1.1.only c f hw hn).2⟩, (tool_lawful (c := cfg) cwd).plain hw⟩
    rcases h with h | h
    · refine key (r := rA) (log2.2 (by simp)) (source "src/public/m.css" (by simp)) pubA ?_ ?_
      · simp only [rA, List.mem_cons, List.not_mem_nil, or_false] at h
        rcases h with rfl | rfl
        · exact .inl (by decide)
        · exact .inr (by decide)
      · rw [done, tab_ne]
        simp only [rA, List.mem_cons, List.not_mem_nil, or_false] at h
        rcases h with rfl | rfl <;> simp [outA]
    · refine key (r := rB) (log2.2 (by simp)) (source "src/public/p.css" (by simp)) pubB ?_ ?_
      · simp only [rB, List.mem_cons, List.not_mem_nil, or_false] at h
        rcases h with rfl | rfl
        · exact .inl (by decide)
        · exact .inr (by decide)
      · rw [done, tab_ne]
        simp only [rB, List.mem_cons, List.not_mem_nil, or_false] at h
        rcases h with rfl | rfl <;> simp [outB]

def work2 : Work (tool cfg) edit run2 edited (done true) where
  view := view true outK
  wrote := wrote true outK
  start := tab (outK ++ sources true)
  start_unlinked c h := by
    rw [unlinked2] at h
    simp only [rA, rB, List.mem_cons, List.not_mem_nil, or_false] at h
    rcases h with (rfl | rfl) | (rfl | rfl) <;> decide
  start_kept c h := by
    rw [unlinked2] at h
    rw [edited, List.append_assoc]
    refine (tab_skip fun hc => h ?_).symm
    rw [List.map_append, List.mem_append] at hc
    exact hc
  ran f r h := ran2 true f r (log2.1 h)
  sees f r h c := by
    rcases view_sees true outK f c with h1 | ⟨h1, h2, h3⟩
    · exact .inl h1
    · refine .inr ⟨"src/public/m.css", rA, by rw [h1]; decide, log2.2 (by simp), h2, ?_⟩
      rw [h3, (wroteA true c h2).2, doneA true outK c h2]
  missing c h := by
    rw [runs2.2.1] at h
    rw [done, tab_none]
    intro hc
    apply h
    simp only [outA, outB, outK, sources, List.map_append, List.map_cons, List.map_nil, List.mem_append, List.mem_cons, List.not_mem_nil, or_false] at hc ⊢
    grind
  written c _ hc := by
    obtain ⟨g, r, h1, h2⟩ := hc
    refine ⟨g, r, h1, h2, ?_⟩
    obtain ⟨-, -, -, -, -, -, q1, q2, q3, q4⟩ := wrotes true
    rcases log2.1 h1 with ⟨rfl, rfl⟩ | ⟨rfl, rfl⟩ <;>
      simp only [rA, rB, List.mem_cons, List.not_mem_nil, or_false] at h2 <;> rcases h2 with rfl | rfl
    · exact q1.symm
    · exact q2.symm
    · exact q3.symm
    · exact q4.symm
  kept c _ hc := by
    rw [done, List.append_assoc]
    refine tab_skip fun h => hc ?_
    rw [List.map_append, List.mem_append] at h
    rcases h with h | h
    · exact ⟨"src/public/m.css", rA, log2.2 (by simp), h⟩
    · exact ⟨"src/public/p.css", rB, log2.2 (by simp), h⟩

theorem hist2 : ∃ gs, Worked (project cfg.constants) (tool cfg) .dev (done true) gs run2.disk.mode := by
  refine ⟨_, Worked.rebuild (m0 := .dev) (W := done false) (env := env) (a := edit) (d := run1.disk) (W0 := edited)
    (hist1 false) order scanned rfl ?_ work2 runs2.1⟩
  have hrec : ∀ f, contains edit.old.dep f = true ↔ Source f ∧ done false f ≠ none := up1.1.files
  have hkeys : ∀ v w f, f ∈ (outA v ++ outB v ++ outK ++ sources w).map (·.1) ↔ f ∈ run1.disk.files := by
    intro v w f
    rw [runs.2.1]
    simp only [outA, outB, outK, sources, List.map_append, List.map_cons, List.map_nil, List.mem_append, List.mem_cons, List.not_mem_nil, or_false]
    grind
  refine ⟨fun f => ?_, fun o ho => ?_, fun f h1 h2 h3 _ => ?_, ?_, ?_, fun f h1 h2 h3 => ?_, fun f h1 h2 => ?_, ?_⟩
  · rw [edited, tab_ne]; exact hkeys false true f
  · by_cases h : o ∈ (outA false ++ outB false ++ outK).map (·.1)
    · simp only [outA, outB, outK, List.map_append, List.map_cons, List.map_nil, List.mem_append, List.mem_cons, List.not_mem_nil, or_false] at h
      rcases h with ((rfl | rfl) | (rfl | rfl)) | (rfl | rfl) <;> decide
    · rw [edited, done, tab_skip h, tab_skip h, tab_none.2 (not_output ho _), tab_none.2 (not_output ho _)]
  · have h2 : f ≠ "src/public/m.css" := by simpa [edit, Dict.keys] using h2
    by_cases h : f ∈ (outA false ++ outB false ++ outK).map (·.1)
    · simp only [outA, outB, outK, List.map_append, List.map_cons, List.map_nil, List.mem_append, List.mem_cons, List.not_mem_nil, or_false] at h
      rcases h with ((rfl | rfl) | (rfl | rfl)) | (rfl | rfl) <;> decide
    · rw [edited, done, tab_skip h, tab_skip h]
      simp [tab, sources, h2.symm]
  · simp only [edit, Dict.keys, List.map_cons, List.map_nil, List.mem_singleton, forall_eq]
    exact ⟨source _ (by simp), by rw [runs.2.1]; simp⟩
  · simp [edit, Dict.keys]
  · have := (hrec f).2 ⟨h1, by rw [done, tab_ne]; exact (hkeys false false f).2 h2⟩
    rw [h3] at this
    cases this
  · exact (hkeys false false f).1 (tab_ne.1 ((hrec f).1 h1).2)
  · simp [edit]

/-! ### The hypotheses -/

theorem tokens : ∀ b ts, Css.tokenize cfg.sheet.nest.uni (cfg.js.decode b) = .ok ts → cfg.tokens b = ts := by
  intro b ts h
  have h : Css.tokenize Css.plainU b = .ok ts := h
  have e : cfg.tokens b = match Css.tokenize Css.plainU b with
    | .ok ts => ts
    | .error _ => [] := rfl
  rw [e, h]

theorem pick : ∀ l, l ≠ [] → cfg.sheet.nest.pick l ∈ l := by
  intro l hl
  cases l with
  | nil => exact absurd rfl hl
  | cons x l => exact List.mem_cons_self

/-- The declarations of the rule. -/
def body (v : Bool) : List Css.Tok := [.ident (txt "b"), .colon, .ident (if v then txt "cd" else txt "c"), .semicolon]

theorem rule_eq : ∀ v : Bool, Css.tokenize cfg.sheet.nest.uni (cfg.js.decode (script v)) =
      .ok (.delim [46] :: [.ident (txt "a")] ++ .leftCurly :: body v ++ .rightCurly :: [.eof]) ∧
    Nest.nameOf cfg.sheet.nest [.delim [46], .ident (txt "a")] = txt ".a" := by
  decide +kernel

theorem known (v : Bool) : Known cfg "src/public/p.css" (done v) (· = "src/public/m.css") fun _ => [(txt ".a", body v)] where
  there g hg := by
    subst hg
    refine ⟨txt "m.css", script v, _, pubA, ?_, (rule_eq v).1, ?_⟩
    · rw [if_neg (by decide)]
      cases v <;> decide
    · have := Nest.Sheet.rule (env := cfg.sheet.nest) (t := .delim [46]) (pre := [.ident (txt "a")]) (body := body v) (ts := [.eof]) (rules := [])
        (by simp) (by simp) (by simp) (by simp) (by simp) (by intro t ht; cases v <;> simp [body] at ht <;> rcases ht with rfl | rfl | rfl | rfl <;> simp) .eof
      rw [(rule_eq v).2] at this
      exact this
  distinct g _ := by simp [Assoc.keys]
  closed g _ rule hr r hi := by
    simp only [List.mem_singleton] at hr
    subst hr
    obtain ⟨t, ht, hi⟩ := hi
    have : ∀ v, ∀ t ∈ body v, Nest.getImport cfg.sheet.nest t = none := by decide +kernel
    rw [this v t ht] at hi
    cases hi

/-- The tokens of the stylesheet which imports the rule. -/
def sheetP : List Css.Tok := [.delim [46], .ident (txt "e"), .leftCurly, .comment (txt "! PREPROCESSOR: import .a "), .ident (txt "f"), .colon, .url (txt "/m.css"),
  .rightCurly, .eof]

theorem tokensP : Css.tokenize cfg.sheet.nest.uni (cfg.js.decode (txt ".e{/*! PREPROCESSOR: import .a */f:url(/m.css)}")) = .ok sheetP := by decide +kernel

theorem imports {r : Nest.Ref} (h : Nest.Imports cfg.sheet.nest sheetP r) : r = ⟨txt "src/public/m.css", txt ".a"⟩ := by
  obtain ⟨t, ht, hi⟩ := h
  have : ∀ t ∈ sheetP, Nest.getImport cfg.sheet.nest t = none ∨ Nest.getImport cfg.sheet.nest t = some ⟨txt "src/public/m.css", txt ".a"⟩ := by decide +kernel
  rcases this t ht with h | h <;> rw [h] at hi
  · cases hi
  · exact (Option.some.inj hi).symm

theorem url : Css.Urls.UrlAt cfg.sheet.urls.lower sheetP 6 (txt "/m.css") ∧ Css.Urls.Local (txt "src/public/p.css") (txt "/m.css") (txt "m.css") := by
  refine ⟨.inr ⟨by decide, ?_⟩, by decide, by decide, by decide⟩
  rintro ⟨o, f, h1, h2, -, -⟩
  have : ∀ o, o < 6 → ∀ t, sheetP[o]? = some t → ∀ f, t ≠ .function f := by
    intro o ho t ht f
    have : ∀ o, o < 6 → (sheetP[o]?.any fun t => match t with | .function _ => true | _ => false) = false := by decide
    have := this o ho
    rw [ht] at this
    rintro rfl
    simp at this
  exact this o h1 _ h2 f rfl

/-- The hypotheses of C84 are met: the project is built, one stylesheet is changed, and it is built again; or it is built from scratch.  The
other stylesheet had the old declarations and the old hash, and has the new ones. -/
theorem C84_case : isAbs cfg.js.cwd = true ∧ Js.SpaceOk cfg.js.space ∧ (∀ l, l ≠ [] → cfg.sheet.nest.pick l ∈ l) ∧
    (∀ b ts, Css.tokenize cfg.sheet.nest.uni (cfg.js.decode b) = .ok ts → cfg.tokens b = ts) ∧ Source cfg.constants ∧
    Worked (project cfg.constants) (tool cfg) .dev (done false) graphs1 run1.disk.mode ∧
    (∃ gs, Worked (project cfg.constants) (tool cfg) .dev (done true) gs run2.disk.mode) ∧
    Worked (project cfg.constants) (tool cfg) .dev (done true) graphs1 run1.disk.mode ∧
    run2.log = [.started "src/public/m.css", .finished "src/public/m.css" rA, .started "src/public/p.css", .finished "src/public/p.css" rB] ∧
    (∀ v, Known cfg "src/public/p.css" (done v) (· = "src/public/m.css") fun _ => [(txt ".a", body v)]) ∧
    (∀ r, Nest.Imports cfg.sheet.nest sheetP r → ∃ g, g = "src/public/m.css" ∧ r.relpath = txt g) ∧
    Css.Urls.UrlAt cfg.sheet.urls.lower sheetP 6 (txt "/m.css") ∧ Css.Urls.Local (txt "src/public/p.css") (txt "/m.css") (txt "m.css") ∧
    done false "out/www/p.css" = some (txt ".e{b:c;f:url(/m.css?v=8)}") ∧ done true "out/www/p.css" = some (txt ".e{b:cd;f:url(/m.css?v=9)}") :=
  ⟨cwd, fun c h1 h2 => by simp [cfg, Js.File.toy]; omega, pick, tokens, source _ (by simp [cfg]), hist1 false, hist2, hist1 true, runs2.2.2.1, known,
    fun r h => ⟨_, rfl, by rw [imports h]⟩, url.1, url.2, by decide, by decide⟩

end Sheets
end Verif.Hot.Scripts
