import Verif.HotScripts
import Verif.JsFileCase
import Verif.HotContentsCase
import Verif.CssPageCase
import Verif.HtmlPageCase
/-!
# C80: a concrete history

A project of two scripts, one of which imports the other, and constants is built; the imported script is changed, and it is built again;
and it is built from scratch.
-/
namespace Verif.Hot.Scripts
open Verif Verif.Hot Verif.Graph
open Verif.Reader (Text txt)
open Verif.Paths (split isAbs Name Seg)
open Verif.Handlers (Bytes Fs Scan)

/-- The builder reports `b`. -/
theorem build_eq {c : Config} {m : Mode} {f : String} {W : Contents Bytes} {b : Handlers.Built} (h : (dispatch c m (txt f) (fsOf W)).map (·.1) = some b)
    (hk : ∀ d ∈ b.children, Child f d) :
    (tool c).build m f W = some (⟨b.children.map str, b.produced.map str, b.reused.map str⟩,
      fun s => (dispatch c m (txt f) (fsOf W)).bind fun r => r.2 (txt s)) := by
  obtain ⟨⟨b', fs⟩, h1, h2⟩ := Option.map_eq_some_iff.1 h
  have h2 : b' = b := h2
  subst h2
  simp only [tool, h1]
  rw [if_pos hk]
  rfl

namespace Site

def cfg : Config where
  js := Js.File.toy
  sheet := { Css.Page.PageToy.env with nest := { Css.Page.PageToy.env.nest with main := txt "src/public/m.css" } }
  tokens b := match Css.tokenize Css.plainU b with
    | .ok ts => ts
    | .error _ => []
  bound := 60
  page := {
    host := some (txt "example.com")
    strip := id
    tpl := Html.Toy.env fun _ => none
    parse := fun b =>
      if b = txt "page" then some [
        .emptyTag (txt "link") [((none, txt "rel"), txt "canonical"), ((none, txt "href"), txt "/i")],
        .emptyTag (txt "link") [((none, txt "rel"), txt "stylesheet"), ((none, txt "href"), txt "/m.css")],
        Html.Toy.tpl [.str (txt "/x.html"), .obj [(txt "a", .str (txt "7"))]], .comment (txt "ok")]
      else if b = txt "old" then some [.characters (txt "A"), Html.Toy.stk [.str (txt "retrieve"), .str (txt "a")]]
      else if b = txt "new" then some [Html.Toy.stk [.str (txt "retrieve"), .str (txt "a")], .characters (txt "B")]
      else if b = txt "art" then some [
        .emptyTag (txt "link") [((none, txt "rel"), txt "preload"), ((none, txt "href"), txt "/a.js")],
        Html.Toy.tpl [.str (txt "/x.html"), .obj [(txt "a", .str (txt "7"))]], .comment (txt "ok")]
      else if b = txt "link" then some [.emptyTag (txt "link") [((none, txt "rel"), txt "preload"), ((none, txt "href"), txt "/b.js")]]
      else none
    write := fun ts => ts.flatMap Html.Page.PageToy.spell }
  constants := "src/public/k.js"
  text m := if m = .dev then txt "dev" else txt "prod"
  fuel := 100

/-- A table of contents. -/
def tab (l : List (String × Bytes)) : Contents Bytes := fun c => (l.find? fun e => decide (e.1 = c)).map (·.2)

theorem tab_none {l : List (String × Bytes)} {c : String} : tab l c = none ↔ c ∉ l.map (·.1) := by
  simp only [tab, Option.map_eq_none_iff, List.find?_eq_none, decide_eq_true_eq, List.mem_map, not_exists, not_and]

def script (v : Bool) : Text := if v then txt "x=12;\n" else txt "x=1;\n"
/-- What the other script becomes. -/
def other (v : Bool) : Text := txt "import \"/a.js?v=" ++ (if v then txt "6" else txt "5") ++ txt "&pv=1.3.2\";\n"

def sources (v : Bool) : List (String × Bytes) :=
  [("src/public/a.js", script v), ("src/public/b.js", txt "import './a.js';\n"), ("src/public/k.js", txt "")]
def outA (v : Bool) : List (String × Bytes) := [("out/www/a.js", script v), ("out/www/a.js.hash", if v then txt "6" else txt "5")]
def outB (v : Bool) : List (String × Bytes) := [("out/www/b.js", other v), ("out/www/b.js.hash", txt "29")]
def outK : List (String × Bytes) := [("out/www/k.js", txt "dev"), ("out/www/k.js.hash", txt "3")]

/-- The contents once everything is built. -/
def done (v : Bool) : Contents Bytes := tab (outA v ++ outB v ++ outK ++ sources v)

def rA : BuildResult := ⟨[], ["out/www/a.js", "out/www/a.js.hash"], []⟩
def rB : BuildResult := ⟨["src/public/a.js"], ["out/www/b.js", "out/www/b.js.hash"], []⟩
def rK : BuildResult := ⟨[], ["out/www/k.js", "out/www/k.js.hash"], []⟩
def bA : Handlers.Built := ⟨[], [txt "out/www/a.js", txt "out/www/a.js.hash"], []⟩
def bB : Handlers.Built := ⟨[txt "src/public/a.js"], [txt "out/www/b.js", txt "out/www/b.js.hash"], []⟩
def bK : Handlers.Built := ⟨[], [txt "out/www/k.js", txt "out/www/k.js.hash"], []⟩

/-- What the builds see. -/
def view (v : Bool) (rest : List (String × Bytes)) (f : String) : Contents Bytes :=
  if f = "src/public/b.js" then tab (outA v ++ rest ++ sources v) else tab (rest ++ sources v)

def wrote (v : Bool) (rest : List (String × Bytes)) (f : String) : Contents Bytes := fun s =>
  (dispatch cfg .dev (txt f) (fsOf (view v rest f))).bind fun r => r.2 (txt s)

theorem built : ∀ v : Bool, (dispatch cfg .dev (txt "src/public/a.js") (fsOf (view v [] "src/public/a.js"))).map (·.1) = some bA ∧
    (dispatch cfg .dev (txt "src/public/k.js") (fsOf (view v [] "src/public/k.js"))).map (·.1) = some bK ∧
    (dispatch cfg .dev (txt "src/public/b.js") (fsOf (view v [] "src/public/b.js"))).map (·.1) = some bB ∧
    (dispatch cfg .dev (txt "src/public/a.js") (fsOf (view v outK "src/public/a.js"))).map (·.1) = some bA ∧
    (dispatch cfg .dev (txt "src/public/b.js") (fsOf (view v outK "src/public/b.js"))).map (·.1) = some bB := by
  decide +kernel

theorem wrotes : ∀ v : Bool, wrote v [] "src/public/a.js" "out/www/a.js" = done v "out/www/a.js" ∧
    wrote v [] "src/public/a.js" "out/www/a.js.hash" = done v "out/www/a.js.hash" ∧
    wrote v [] "src/public/b.js" "out/www/b.js" = done v "out/www/b.js" ∧
    wrote v [] "src/public/b.js" "out/www/b.js.hash" = done v "out/www/b.js.hash" ∧
    wrote v [] "src/public/k.js" "out/www/k.js" = done v "out/www/k.js" ∧
    wrote v [] "src/public/k.js" "out/www/k.js.hash" = done v "out/www/k.js.hash" ∧
    wrote v outK "src/public/a.js" "out/www/a.js" = done v "out/www/a.js" ∧
    wrote v outK "src/public/a.js" "out/www/a.js.hash" = done v "out/www/a.js.hash" ∧
    wrote v outK "src/public/b.js" "out/www/b.js" = done v "out/www/b.js" ∧
    wrote v outK "src/public/b.js" "out/www/b.js.hash" = done v "out/www/b.js.hash" := by
  decide +kernel

theorem pub {f : String} {x : Text} (h1 : txt f = txt "src/public/" ++ x) (h2 : split x = [x]) (h3 : x ≠ [] ∧ 47 ∉ x) (h4 : x ≠ [46] ∧ x ≠ [46, 46]) :
    Public f x := by
  refine ⟨h1, fun s hs => ?_⟩
  rw [h2] at hs
  simp only [List.mem_singleton] at hs
  subst hs
  exact ⟨h3, h4⟩

theorem pubA : Public "src/public/a.js" (txt "a.js") := pub (by decide) (by decide) (by decide) (by decide)
theorem pubB : Public "src/public/b.js" (txt "b.js") := pub (by decide) (by decide) (by decide) (by decide)
theorem pubK : Public "src/public/k.js" (txt "k.js") := pub (by decide) (by decide) (by decide) (by decide)
theorem source : ∀ f ∈ ["src/public/a.js", "src/public/b.js", "src/public/k.js"], Source f := by
  intro f hf
  simp only [List.mem_cons, List.not_mem_nil, or_false] at hf
  rcases hf with rfl | rfl | rfl
  · exact .inl ⟨_, pubA, by decide⟩
  · exact .inl ⟨_, pubB, by decide⟩
  · exact .inl ⟨_, pubK, by decide⟩

/-- The outputs of a source. -/
theorem outputs {o f : String} {x : Text} (hx : Public f x) (h : Output o f) {s t : String} (hs : txt s = copyOf x) (ht : txt t = hashOf x) : o = s ∨ o = t := by
  obtain ⟨y, hy, h⟩ := h
  have : y = x := List.append_cancel_left (hy.1.symm.trans hx.1)
  subst this
  exact h.imp (fun h => txt_inj (h.trans hs.symm)) (fun h => txt_inj (h.trans ht.symm))

def scanner : Scanner := fun _ f =>
  if f = "src/public/a.js" then .ok ⟨[], ["out/www/a.js", "out/www/a.js.hash"], []⟩
  else if f = "src/public/b.js" then .ok ⟨["src/public/a.js"], ["out/www/b.js", "out/www/b.js.hash"], []⟩
  else if f = "src/public/k.js" then .ok ⟨[], ["out/www/k.js", "out/www/k.js.hash"], []⟩
  else .error .notFound

def env : Env where
  scan := scanner
  sig := fun _ => sig0
  order := id
  batches := [Triple.wait "src/public/a.js" rA, Triple.wait "src/public/k.js" rK, Triple.wait "src/public/b.js" rB]
  scanFuel := 4

theorem scanned : Scanned (tool cfg) env := by
  have key : (dispatchScan cfg (txt "src/public/a.js") (fsOf (tab (sources true)))) = some ⟨[], [txt "out/www/a.js", txt "out/www/a.js.hash"]⟩ ∧
      (dispatchScan cfg (txt "src/public/b.js") (fsOf (tab (sources true)))) = some ⟨[txt "src/public/a.js"], [txt "out/www/b.js", txt "out/www/b.js.hash"]⟩ ∧
      (dispatchScan cfg (txt "src/public/k.js") (fsOf (tab (sources true)))) = some ⟨[], [txt "out/www/k.js", txt "out/www/k.js.hash"]⟩ := by
    decide +kernel
  intro d f s h
  refine ⟨tab (sources true), ?_⟩
  have h : scanner d f = .ok s := h
  unfold scanner at h
  unfold tool
  dsimp only
  split at h
  · next hf => subst hf; cases h; rw [if_pos (source _ (by simp)), key.1]; simp [str_txt]
  · split at h
    · next hf => subst hf; cases h; rw [if_pos (source _ (by simp)), key.2.1]; simp [str_txt]
    · split at h
      · next hf => subst hf; cases h; rw [if_pos (source _ (by simp)), key.2.2]; simp [str_txt]
      · cases h

def fresh : Disk := ⟨["src/public/a.js", "src/public/b.js", "src/public/k.js"], ["out"], none⟩
def all : Args := ⟨"src/public/k.js", .dev, ⟨[], [], []⟩, [], [("src/public/a.js", sig0), ("src/public/b.js", sig0), ("src/public/k.js", sig0)], []⟩
def run1 : Outcome := hotRebuild env all fresh
def graphs1 : Graphs := run1.stored.getD ⟨[], [], []⟩
/-- The script which is imported has been changed. -/
def edit : Args := ⟨"src/public/k.js", .dev, graphs1, [("src/public/a.js", sig1)], [], []⟩
def run2 : Outcome := hotRebuild env edit run1.disk

theorem runs : run1.status = .finished ∧ run1.disk.files = ["src/public/a.js", "src/public/b.js", "src/public/k.js", "out/www/a.js", "out/www/a.js.hash",
      "out/www/k.js", "out/www/k.js.hash", "out/www/b.js", "out/www/b.js.hash"] ∧
    run1.log = [.started "src/public/a.js", .started "src/public/k.js", .finished "src/public/a.js" rA, .started "src/public/b.js",
      .finished "src/public/k.js" rK, .finished "src/public/b.js" rB] ∧ run1.stored.isSome := by
  decide +kernel

theorem runs2 : run2.status = .finished ∧ run2.disk.files = ["src/public/a.js", "src/public/b.js", "src/public/k.js",
      "out/www/k.js", "out/www/k.js.hash", "out/www/a.js", "out/www/a.js.hash", "out/www/b.js", "out/www/b.js.hash"] ∧
    run2.log = [.started "src/public/a.js", .finished "src/public/a.js" rA, .started "src/public/b.js", .finished "src/public/b.js" rB] ∧ run2.stored.isSome := by
  decide +kernel

theorem order : ValidOrder env := fun _ => List.Perm.refl _

theorem tab_skip {l r : List (String × Bytes)} {c : String} (h : c ∉ l.map (·.1)) : tab (l ++ r) c = tab r c := by
  have : l.find? (fun e => decide (e.1 = c)) = none := by
    rw [List.find?_eq_none]
    intro x hx
    simp only [decide_eq_true_eq]
    rintro rfl
    exact h (List.mem_map_of_mem hx)
  simp [tab, List.find?_append, this]

theorem tab_ne {l : List (String × Bytes)} {c : String} : tab l c ≠ none ↔ c ∈ l.map (·.1) := by
  rw [Ne, tab_none, Classical.not_not]

/-- What the finished builds have reported, and what they have left. -/
theorem ran (v : Bool) (f : String) (r : BuildResult) (h : f = "src/public/a.js" ∧ r = rA ∨ f = "src/public/b.js" ∧ r = rB ∨ f = "src/public/k.js" ∧ r = rK) :
    (tool cfg).build .dev f (view v [] f) = some (r, wrote v [] f) := by
  obtain ⟨h1, h2, h3, -⟩ := built v
  rcases h with ⟨rfl, rfl⟩ | ⟨rfl, rfl⟩ | ⟨rfl, rfl⟩
  · rw [build_eq h1 (by simp [bA])]
    simp [bA, rA, str_txt]
    rfl
  · rw [build_eq h3 (by simp only [bB, List.mem_singleton, forall_eq]; exact ⟨_, rfl, .inl ⟨_, pubA⟩⟩)]
    simp [bB, rB, str_txt]
    rfl
  · rw [build_eq h2 (by simp [bK])]
    simp [bK, rK, str_txt]
    rfl

theorem ran2 (v : Bool) (f : String) (r : BuildResult) (h : f = "src/public/a.js" ∧ r = rA ∨ f = "src/public/b.js" ∧ r = rB) :
    (tool cfg).build .dev f (view v outK f) = some (r, wrote v outK f) := by
  obtain ⟨-, -, -, h1, h2⟩ := built v
  rcases h with ⟨rfl, rfl⟩ | ⟨rfl, rfl⟩
  · rw [build_eq h1 (by simp [bA])]
    simp [bA, rA, str_txt]
    rfl
  · rw [build_eq h2 (by simp only [bB, List.mem_singleton, forall_eq]; exact ⟨_, rfl, .inl ⟨_, pubA⟩⟩)]
    simp [bB, rB, str_txt]
    rfl

theorem log1 {f : String} {r : BuildResult} : Event.finished f r ∈ run1.log ↔
    f = "src/public/a.js" ∧ r = rA ∨ f = "src/public/b.js" ∧ r = rB ∨ f = "src/public/k.js" ∧ r = rK := by
  rw [runs.2.2.1]
  simp only [List.mem_cons, reduceCtorEq, Event.finished.injEq, List.not_mem_nil, or_false, false_or]
  constructor
  · rintro (h | h | h) <;> simp [h]
  · rintro (h | h | h) <;> simp [h]

theorem log2 {f : String} {r : BuildResult} : Event.finished f r ∈ run2.log ↔ f = "src/public/a.js" ∧ r = rA ∨ f = "src/public/b.js" ∧ r = rB := by
  rw [runs2.2.2.1]
  simp

theorem view_sees (v : Bool) (rest : List (String × Bytes)) (f c : String) : view v rest f c = tab (rest ++ sources v) c ∨
    f = "src/public/b.js" ∧ c ∈ rA.produced ∧ view v rest f c = tab (outA v ++ rest ++ sources v) c := by
  unfold view
  split
  · next hf =>
    by_cases hc : c ∈ rA.produced
    · exact .inr ⟨hf, hc, rfl⟩
    · left
      rw [List.append_assoc]
      exact tab_skip hc
  · exact .inl rfl

/-! ### The first build -/

theorem none1 {c : String} : ¬ Unlinked all run1 c := by
  rintro ⟨⟨x, -, cs, h, -⟩, -⟩
  simp [all, getChildren] at h

theorem wroteA (v : Bool) : ∀ c ∈ rA.produced, wrote v [] "src/public/a.js" c = done v c ∧ wrote v outK "src/public/a.js" c = done v c := by
  obtain ⟨h1, h2, -, -, -, -, h3, h4, -, -⟩ := wrotes v
  intro c hc
  simp only [rA, List.mem_cons, List.not_mem_nil, or_false] at hc
  rcases hc with rfl | rfl
  · exact ⟨h1, h3⟩
  · exact ⟨h2, h4⟩

theorem doneA (v : Bool) (rest : List (String × Bytes)) : ∀ c ∈ rA.produced, tab (outA v ++ rest ++ sources v) c = done v c := by
  intro c hc
  simp only [rA, List.mem_cons, List.not_mem_nil, or_false] at hc
  rcases hc with rfl | rfl <;> simp [tab, outA, done]

def work1 (v : Bool) : Work (tool cfg) all run1 (tab (sources v)) (done v) where
  view := view v []
  wrote := wrote v []
  start := tab (sources v)
  start_unlinked c h := absurd h none1
  start_kept c _ := rfl
  ran f r h := ran v f r (log1.1 h)
  sees f r h c := by
    rcases view_sees v [] f c with h1 | ⟨h1, h2, h3⟩
    · exact .inl h1
    · refine .inr ⟨"src/public/a.js", rA, by rw [h1]; decide, log1.2 (by simp), h2, ?_⟩
      rw [h3, (wroteA v c h2).1, doneA v [] c h2]
  missing c h := by
    rw [runs.2.1] at h
    rw [done, tab_none]
    intro hc
    apply h
    simp only [outA, outB, outK, sources, List.map_append, List.map_cons, List.map_nil, List.mem_append, List.mem_cons, List.not_mem_nil, or_false] at hc ⊢
    grind
  written c _ hc := by
    obtain ⟨g, r, h1, h2⟩ := hc
    refine ⟨g, r, h1, h2, ?_⟩
    obtain ⟨q1, q2, q3, q4, q5, q6, -⟩ := wrotes v
    rcases log1.1 h1 with ⟨rfl, rfl⟩ | ⟨rfl, rfl⟩ | ⟨rfl, rfl⟩ <;>
      simp only [rA, rB, rK, List.mem_cons, List.not_mem_nil, or_false] at h2 <;> rcases h2 with rfl | rfl
    · exact q1.symm
    · exact q2.symm
    · exact q3.symm
    · exact q4.symm
    · exact q5.symm
    · exact q6.symm
  kept c _ hc := by
    refine tab_skip fun h => hc ?_
    simp only [List.map_append, List.mem_append] at h
    rcases h with (h | h) | h
    · exact ⟨"src/public/a.js", rA, log1.2 (by simp), h⟩
    · exact ⟨"src/public/b.js", rB, log1.2 (by simp), h⟩
    · exact ⟨"src/public/k.js", rK, log1.2 (by simp), h⟩

theorem not_output {o : String} (h : (project cfg.constants).owner o ≠ none) (v : Bool) : o ∉ (sources v).map (·.1) :=
  fun hc => h (owner_source (source o hc))

theorem hist1 (v : Bool) : Worked (project cfg.constants) (tool cfg) .dev (done v) graphs1 run1.disk.mode := by
  refine Worked.rebuild (m0 := .dev) (W := fun _ => none) (env := env) (a := all) (d := fresh) (W0 := tab (sources v))
    (.empty _ _ fun _ _ => rfl) order scanned rfl ?_ (work1 v) runs.1
  refine ⟨fun f => tab_ne, fun o ho => tab_none.2 (not_output ho v), fun f h1 h2 h3 _ => tab_none.2 h3, ?_, fun f hf => ⟨source f hf, hf⟩,
    fun f _ h _ => h, ?_, ?_⟩
  · simp [all, Dict.keys]
  · simp [all, contains, Dict.has]
  · simp [all]

/-! ### The second -/

/-- The contents after the script has been changed. -/
def edited : Contents Bytes := tab (outA false ++ outB false ++ outK ++ sources true)

theorem cwd : isAbs cfg.js.cwd = true := by decide

theorem up1 : UpToDate (project cfg.constants) ((tool cfg).builder (project cfg.constants)) .dev (done false) graphs1 ∧ ValidGraphs graphs1 := by
  have := ((hist1 false).history (lawful _) (tool_lawful cwd) (source _ (by simp [cfg, project]))).upToDate (lawful _) ((tool_lawful cwd).pure (lawful _))
  exact ⟨this.1, this.2.1⟩

theorem facts2 : ∃ gs, Facts env edit run1.disk run2 gs := by
  obtain ⟨gs, h⟩ := Option.isSome_iff_exists.1 runs2.2.2.2
  exact ⟨gs, facts up1.2 order h⟩

theorem unlinked2 {c : String} : Unlinked edit run2 c ↔ c ∈ rA.produced ∨ c ∈ rB.produced := by
  obtain ⟨gs, F⟩ := facts2
  constructor
  · rintro ⟨⟨x, h1, h2⟩, -⟩
    obtain ⟨r, hr⟩ := (F.ends x).2 ⟨by simp [edit], h1⟩
    have ho := (owner_iff.1 (UpToDate.owned ((tool_lawful cwd).pure (lawful _)) up1.1 h2)).2
    rcases log2.1 hr with ⟨rfl, rfl⟩ | ⟨rfl, rfl⟩
    · left
      rcases outputs pubA ho (s := "out/www/a.js") (t := "out/www/a.js.hash") (by decide) (by decide) with rfl | rfl <;> simp [rA]
    · right
      rcases outputs pubB ho (s := "out/www/b.js") (t := "out/www/b.js.hash") (by decide) (by decide) with rfl | rfl <;> simp [rB]
  · intro h
    have key : ∀ {f x r}, Event.finished f r ∈ run2.log → Source f → Public f x → (txt c = copyOf x ∨ txt c = hashOf x) → done false c ≠ none → Unlinked edit run2 c := by
      intro f x r hr hf hx ho hn
      have hw := owner_iff (k := cfg.constants).2 ⟨hf, x, hx, ho⟩
      exact ⟨⟨f, ((F.ends f).1 ⟨r, hr⟩).2, (up1.1.only c f hw hn).2⟩, (tool_lawful (c := cfg) cwd).plain hw⟩
    rcases h with h | h
    · refine key (r := rA) (log2.2 (by simp)) (source "src/public/a.js" (by simp)) pubA ?_ ?_
      · simp only [rA, List.mem_cons, List.not_mem_nil, or_false] at h
        rcases h with rfl | rfl
        · exact .inl (by decide)
        · exact .inr (by decide)
      · rw [done, tab_ne]
        simp only [rA, List.mem_cons, List.not_mem_nil, or_false] at h
        rcases h with rfl | rfl <;> simp [outA]
    · refine key (r := rB) (log2.2 (by simp)) (source "src/public/b.js" (by simp)) pubB ?_ ?_
      · simp only [rB, List.mem_cons, List.not_mem_nil, or_false] at h
        rcases h with rfl | rfl
        · exact .inl (by decide)
        · exact .inr (by decide)
      · rw [done, tab_ne]
        simp only [rB, List.mem_cons, List.not_mem_nil, or_false] at h
        rcases h with rfl | rfl <;> simp [outB]

def work2 : Work (tool cfg) edit run2 edited (done true) where
  view := view true outK
  wrote := wrote true outK
  start := tab (outK ++ sources true)
  start_unlinked c h := by
    rw [unlinked2] at h
    simp only [rA, rB, List.mem_cons, List.not_mem_nil, or_false] at h
    rcases h with (rfl | rfl) | (rfl | rfl) <;> decide
  start_kept c h := by
    rw [unlinked2] at h
    rw [edited, List.append_assoc]
    refine (tab_skip fun hc => h ?_).symm
    rw [List.map_append, List.mem_append] at hc
    exact hc
  ran f r h := ran2 true f r (log2.1 h)
  sees f r h c := by
    rcases view_sees true outK f c with h1 | ⟨h1, h2, h3⟩
    · exact .inl h1
    · refine .inr ⟨"src/public/a.js", rA, by rw [h1]; decide, log2.2 (by simp), h2, ?_⟩
      rw [h3, (wroteA true c h2).2, doneA true outK c h2]
  missing c h := by
    rw [runs2.2.1] at h
    rw [done, tab_none]
    intro hc
    apply h
    simp only [outA, outB, outK, sources, List.map_append, List.map_cons, List.map_nil, List.mem_append, List.mem_cons, List.not_mem_nil, or_false] at hc ⊢
    grind
  written c _ hc := by
    obtain ⟨g, r, h1, h2⟩ := hc
    refine ⟨g, r, h1, h2, ?_⟩
    obtain ⟨-, -, -, -, -, -, q1, q2, q3, q4⟩ := wrotes true
    rcases log2.1 h1 with ⟨rfl, rfl⟩ | ⟨rfl, rfl⟩ <;>
      simp only [rA, rB, List.mem_cons, List.not_mem_nil, or_false] at h2 <;> rcases h2 with rfl | rfl
    · exact q1.symm
    · exact q2.symm
    · exact q3.symm
    · exact q4.symm
  kept c _ hc := by
    rw [done, List.append_assoc]
    refine tab_skip fun h => hc ?_
    rw [List.map_append, List.mem_append] at h
    rcases h with h | h
    · exact ⟨"src/public/a.js", rA, log2.2 (by simp), h⟩
    · exact ⟨"src/public/b.js", rB, log2.2 (by simp), h⟩

theorem edits2 : Edits (project cfg.constants) edit run1.disk (done false) edited := by
  have hrec : ∀ f, contains edit.old.dep f = true ↔ Source f ∧ done false f ≠ none := up1.1.files
  have hkeys : ∀ v w f, f ∈ (outA v ++ outB v ++ outK ++ sources w).map (·.1) ↔ f ∈ run1.disk.files := by
    intro v w f
    rw [runs.2.1]
    simp only [outA, outB, outK, sources, List.map_append, List.map_cons, List.map_nil, List.mem_append, List.mem_cons, List.not_mem_nil, or_false]
    grind
  refine ⟨fun f => ?_, fun o ho => ?_, fun f h1 h2 h3 _ => ?_, ?_, ?_, fun f h1 h2 h3 => ?_, fun f h1 h2 => ?_, ?_⟩
  · rw [edited, tab_ne]; exact hkeys false true f
  · by_cases h : o ∈ (outA false ++ outB false ++ outK).map (·.1)
    · simp only [outA, outB, outK, List.map_append, List.map_cons, List.map_nil, List.mem_append, List.mem_cons, List.not_mem_nil, or_false] at h
      rcases h with ((rfl | rfl) | (rfl | rfl)) | (rfl | rfl) <;> decide
    · rw [edited, done, tab_skip h, tab_skip h, tab_none.2 (not_output ho _), tab_none.2 (not_output ho _)]
  · have h2 : f ≠ "src/public/a.js" := by simpa [edit, Dict.keys] using h2
    by_cases h : f ∈ (outA false ++ outB false ++ outK).map (·.1)
    · simp only [outA, outB, outK, List.map_append, List.map_cons, List.map_nil, List.mem_append, List.mem_cons, List.not_mem_nil, or_false] at h
      rcases h with ((rfl | rfl) | (rfl | rfl)) | (rfl | rfl) <;> decide
    · rw [edited, done, tab_skip h, tab_skip h]
      simp [tab, sources, h2.symm]
  · simp only [edit, Dict.keys, List.map_cons, List.map_nil, List.mem_singleton, forall_eq]
    exact ⟨source _ (by simp), by rw [runs.2.1]; simp⟩
  · simp [edit, Dict.keys]
  · have := (hrec f).2 ⟨h1, by rw [done, tab_ne]; exact (hkeys false false f).2 h2⟩
    rw [h3] at this
    cases this
  · exact (hkeys false false f).1 (tab_ne.1 ((hrec f).1 h1).2)
  · simp [edit]

theorem hist2 : ∃ gs, Worked (project cfg.constants) (tool cfg) .dev (done true) gs run2.disk.mode :=
  ⟨_, Worked.rebuild (m0 := .dev) (W := done false) (env := env) (a := edit) (d := run1.disk) (W0 := edited)
    (hist1 false) order scanned rfl edits2 work2 runs2.1⟩

/-- The hypotheses of C80 are met: the project is built, one script is changed, and it is built again; or it is built from scratch.  The
script which imports the one which was changed named its old hash, and names the new one. -/
theorem C80_case : isAbs cfg.js.cwd = true ∧ Js.SpaceOk cfg.js.space ∧ Source cfg.constants ∧
    Worked (project cfg.constants) (tool cfg) .dev (done false) graphs1 run1.disk.mode ∧
    (∃ gs, Worked (project cfg.constants) (tool cfg) .dev (done true) gs run2.disk.mode) ∧
    Worked (project cfg.constants) (tool cfg) .dev (done true) graphs1 run1.disk.mode ∧
    run2.log = [.started "src/public/a.js", .finished "src/public/a.js" rA, .started "src/public/b.js", .finished "src/public/b.js" rB] ∧
    done false "out/www/b.js" = some (txt "import \"/a.js?v=5&pv=1.3.2\";\n") ∧ done true "out/www/b.js" = some (txt "import \"/a.js?v=6&pv=1.3.2\";\n") :=
  ⟨cwd, fun c h1 h2 => by simp [cfg, Js.File.toy]; omega, source _ (by simp [cfg]), hist1 false, hist2, hist1 true, runs2.2.2.1, by decide, by decide⟩

end Site
end Verif.Hot.Scripts
