import Verif.Clock
import Verif.CourseCase
/-!
# C91: a concrete life

The project of C80 in a file system: three files are written, everything is built, one of them is written again a second later, and
everything is built again.  And an edit within the second which is not noticed.
-/
namespace Verif.Hot

/-- Only the log, the files, the mode and what was removed matter to `Work`. -/
def Work.congr {C : Type} {t : Tool C} {a a' : Args} {out out' : Outcome} {W0 W : Contents C} (X : Work t a out W0 W) (hl : out'.log = out.log)
    (hd : out'.disk.files = out.disk.files) (hm : a'.mode = a.mode) (hu : ∀ c, Unlinked a' out' c ↔ Unlinked a out c) : Work t a' out' W0 W where
  view := X.view
  wrote := X.wrote
  start := X.start
  start_unlinked c h := X.start_unlinked c ((hu c).1 h)
  start_kept c h := X.start_kept c fun h' => h ((hu c).2 h')
  ran f r h := by rw [hm]; rw [hl] at h; exact X.ran f r h
  sees f r h c := by rw [hl] at h ⊢; exact X.sees f r h c
  missing c h := by rw [hd] at h; exact X.missing c h
  written c h1 h2 := by rw [hd] at h1; rw [hl] at h2 ⊢; exact X.written c h1 h2
  kept c h1 h2 := by rw [hd] at h1; rw [hl] at h2; exact X.kept c h1 h2

namespace Scripts.Site
open Verif Verif.Hot Verif.Graph Verif.Cold
open Verif.Reader (Text txt)
open Verif.Handlers (Bytes)
open Verif.Paths (isAbs)

/-- The size of a file. -/
def bytes (b : Bytes) : Int := b.length

/-! ## The file system -/

def entryA (v : Bool) : Entry Bytes := ⟨script v, if v then 2 else 1, 10⟩
def entryB : Entry Bytes := ⟨txt "import './a.js';\n", 1, 11⟩
def entryK : Entry Bytes := ⟨txt "", 1, 12⟩
def wroteOf (e : Entry Bytes) : Wrote Bytes := ⟨e.inode, e.time, e.data⟩

def store0 : Store Bytes := ⟨fun _ => none, []⟩
def store1 : Store Bytes := ⟨setFile (setFile (setFile store0.files "src/public/a.js" (some (entryA false))) "src/public/b.js" (some entryB)) "src/public/k.js" (some entryK),
  [wroteOf entryK, wroteOf entryB, wroteOf (entryA false)]⟩
def store2 : Store Bytes := ⟨setFile store1.files "src/public/a.js" (some (entryA true)), wroteOf (entryA true) :: store1.writes⟩

theorem touches1 : Touches store0 store1 :=
  .more (.more (.more .none (.write _ _ _ _ (by simp [store0]))) (.write _ _ _ _ (by simp [entryA, store0, entryB])))
    (.write _ _ _ _ (by simp [entryA, entryB, store0, entryK]))

theorem touches2 : Touches store1 store2 :=
  .more .none (.write _ _ _ _ (by simp [store1, wroteOf, entryA, entryB, entryK]))

def sigOf (e : Entry Bytes) : Sig := ⟨bytes e.data, e.time, e.inode⟩
def sigs (v : Bool) (f : String) : Sig :=
  if f = "src/public/a.js" then sigOf (entryA v) else if f = "src/public/b.js" then sigOf entryB else if f = "src/public/k.js" then sigOf entryK else sig0

def storeOf (v : Bool) : Store Bytes := if v then store2 else store1

theorem store_files (v : Bool) (f : String) : (storeOf v).files f =
    if f = "src/public/a.js" then some (entryA v) else if f = "src/public/b.js" then some entryB else if f = "src/public/k.js" then some entryK else none := by
  cases v
  · show store1.files f = _
    simp only [store1, setFile, store0]
    split
    · next h => subst h; rfl
    · split
      · next h => subst h; rfl
      · rfl
  · show store2.files f = _
    simp only [store2, store1, setFile, store0]
    split
    · rfl
    · split
      · next h => subst h; rfl
      · split
        · next h => subst h; rfl
        · rfl

theorem shown (v : Bool) {W : Contents Bytes} (hW : ∀ f, Source f → W f = tab (sources v) f) : Shown (project cfg.constants) bytes (storeOf v) (sigs v) W := by
  refine ⟨fun f hf => ?_, fun f e hf he => ?_⟩
  · rw [hW f hf, store_files]
    split
    · next h => subst h; cases v <;> decide
    · next h1 =>
      split
      · next h => subst h; cases v <;> decide
      · next h2 =>
        split
        · next h => subst h; cases v <;> decide
        · next h3 => rw [tab_none.2 (by simp [sources, h1, h2, h3])]; rfl
  · rw [store_files] at he
    unfold sigs
    split at he
    · next h => rw [if_pos h]; cases he; rfl
    · next h1 =>
      rw [if_neg h1]
      split at he
      · next h => rw [if_pos h]; cases he; rfl
      · next h2 =>
        rw [if_neg h2]
        split at he
        · next h => rw [if_pos h]; cases he; rfl
        · cases he

/-! ## The builds -/

def envT (v : Bool) : Env := { env with sig := sigs v }
def walkT (v : Bool) : List (String × Sig) := ["src/public/a.js", "src/public/b.js", "src/public/k.js"].map fun f => (f, sigs v f)
def allT : Args := { all with added := walkT false }
def runT : Outcome := hotRebuild (envT false) allT fresh
def graphsT : Graphs := runT.stored.getD ⟨[], [], []⟩
def editT : Args := ⟨"src/public/k.js", .dev, graphsT, [("src/public/a.js", sigs true "src/public/a.js")], [], []⟩
def argsT : Args := ⟨"src/public/k.js", .dev, graphsT, [], [], []⟩
def runT2 : Outcome := hotRebuild (envT true) editT runT.disk

theorem runsT : runT.status = .finished ∧ runT.log = run1.log ∧ runT.disk = run1.disk := by decide +kernel
theorem runsT2 : runT2.status = .finished ∧ runT2.log = run2.log ∧ runT2.disk = run2.disk ∧ runT2.stored.isSome := by decide +kernel
theorem foundT1 : detect args1.old.dep (walkT false) = .ok ⟨[], walkT false, []⟩ := by decide +kernel
theorem foundT2 : detect argsT.old.dep (walkT true) = .ok ⟨[("src/public/a.js", sigs true "src/public/a.js")], [], []⟩ := by decide +kernel
theorem foundT3 : detect argsT.old.dep (walkT false) = .ok ⟨[], [], []⟩ := by decide +kernel
theorem coldT1 : coldRebuild (envT false) args1 (walkT false) fresh = runT := by unfold coldRebuild; rw [foundT1]; rfl
theorem coldT2 : coldRebuild (envT true) argsT (walkT true) runT.disk = runT2 := by unfold coldRebuild; rw [foundT2]; rfl
theorem foundArgsT1 : foundArgs args1 (walkT false) = allT := by unfold foundArgs; rw [foundT1]; rfl
theorem foundArgsT2 : foundArgs argsT (walkT true) = editT := by unfold foundArgs; rw [foundT2]; rfl

theorem walkedT (v : Bool) {files : List String} (hfiles : ∀ f ∈ files, f ∈ run1.disk.files)
    (h3 : ∀ f, f = "src/public/a.js" ∨ f = "src/public/b.js" ∨ f = "src/public/k.js" → f ∈ files) (f : String) (s' : Sig) :
    (f, s') ∈ walkT v ↔ (project cfg.constants).src f ∧ f ∈ files ∧ s' = sigs v f := by
  simp only [walkT, List.mem_map, List.mem_cons, List.not_mem_nil, or_false, Prod.mk.injEq]
  constructor
  · rintro ⟨g, hg, rfl, rfl⟩
    exact ⟨source _ (by simpa using hg), h3 _ hg, rfl⟩
  · rintro ⟨h1, h2, rfl⟩
    exact ⟨f, site_source (hfiles f h2) h1, rfl, rfl⟩

theorem keep_source {f : String} (hf : Source f) (v w : Bool) : tab (outA w ++ outB w ++ outK ++ sources v) f = tab (sources v) f := by
  refine tab_skip fun h => ?_
  have hno := ((lawful cfg.constants).src f hf).2
  simp only [outA, outB, outK, List.map_append, List.map_cons, List.map_nil, List.mem_append, List.mem_cons, List.not_mem_nil, or_false] at h
  rcases h with ((rfl | rfl) | (rfl | rfl)) | (rfl | rfl) <;> revert hno <;> decide

/-- The first build. -/
theorem life1 : Life (project cfg.constants) (tool cfg) bytes store1 .dev (done false) graphsT runT.disk.mode := by
  have h : TimedRuns (project cfg.constants) (tool cfg) bytes store1 (fun _ => none) args1.old fresh.mode args1.mode (done false)
      ((coldRebuild (envT false) args1 (walkT false) fresh).stored.getD args1.old) (coldRebuild (envT false) args1 (walkT false) fresh).disk.mode :=
    .mk (W0 := tab (sources false)) (fun _ => List.Perm.refl _) scanned rfl (fun f => tab_ne) (fun o ho => tab_none.2 (not_output ho false))
      (shown false fun f _ => rfl)
      (by unfold WalkOK; decide +kernel)
      (walkedT false (files := fresh.files) (fun f hf => by rw [runs.2.1]; simp only [fresh, List.mem_cons, List.not_mem_nil, or_false] at hf; rcases hf with rfl | rfl | rfl <;> simp)
        (fun f hf => by simpa [fresh] using hf))
      (by rw [coldT1]; exact runsT.1) (by
        rw [foundArgsT1, coldT1]
        refine (work1 false).congr runsT.2.1 (by rw [runsT.2.2]) rfl fun c => ⟨?_, fun h => absurd h none1⟩
        rintro ⟨⟨x, -, cs, h, -⟩, -⟩
        simp [allT, all, getChildren] at h)
  rw [coldT1] at h
  exact .first touches1 (fun _ _ => rfl) h

theorem upT : UpToDate (project cfg.constants) ((tool cfg).builder (project cfg.constants)) .dev (done false) graphsT ∧ ValidGraphs graphsT := by
  have hk : Source cfg.constants := source _ (by simp [cfg])
  refine ⟨C91_current (lawful _) (tool_lawful cwd) hk life1, ?_⟩
  obtain ⟨content, hc⟩ := life1.good.right
  exact ((life1.session hc).course.known (lawful _) (tool_lawful cwd) hk).valid

theorem unlinkedT {c : String} : Unlinked editT runT2 c ↔ Unlinked edit run2 c := by
  rw [unlinked2]
  obtain ⟨gs, hgs⟩ := Option.isSome_iff_exists.1 runsT2.2.2.2
  have F : Facts (envT true) editT runT.disk runT2 gs := facts upT.2 (fun _ => List.Perm.refl _) hgs
  have hlog : ∀ {f r}, Event.finished f r ∈ runT2.log ↔ f = "src/public/a.js" ∧ r = rA ∨ f = "src/public/b.js" ∧ r = rB := by
    intro f r; rw [runsT2.2.1]; exact log2
  constructor
  · rintro ⟨⟨x, h1, h2⟩, -⟩
    obtain ⟨r, hr⟩ := (F.ends x).2 ⟨by simp [editT], h1⟩
    have ho := (owner_iff.1 (UpToDate.owned ((tool_lawful cwd).pure (lawful _)) upT.1 h2)).2
    rcases hlog.1 hr with ⟨rfl, rfl⟩ | ⟨rfl, rfl⟩
    · left
      rcases outputs pubA ho (s := "out/www/a.js") (t := "out/www/a.js.hash") (by decide) (by decide) with rfl | rfl <;> simp [rA]
    · right
      rcases outputs pubB ho (s := "out/www/b.js") (t := "out/www/b.js.hash") (by decide) (by decide) with rfl | rfl <;> simp [rB]
  · intro h
    have key : ∀ {f x r}, Event.finished f r ∈ runT2.log → Source f → Public f x → (txt c = copyOf x ∨ txt c = hashOf x) → done false c ≠ none → Unlinked editT runT2 c := by
      intro f x r hr hf hx ho hn
      have hw := owner_iff (k := cfg.constants).2 ⟨hf, x, hx, ho⟩
      exact ⟨⟨f, ((F.ends f).1 ⟨r, hr⟩).2, (upT.1.only c f hw hn).2⟩, (tool_lawful (c := cfg) cwd).plain hw⟩
    have hn : done false c ≠ none := by
      rw [done_keys, runs.2.1]
      simp only [rA, rB, List.mem_cons, List.not_mem_nil, or_false] at h
      rcases h with (rfl | rfl) | (rfl | rfl) <;> simp
    rcases h with h | h
    · refine key (r := rA) (hlog.2 (by simp)) (source "src/public/a.js" (by simp)) pubA ?_ hn
      simp only [rA, List.mem_cons, List.not_mem_nil, or_false] at h
      rcases h with rfl | rfl
      · exact .inl (by decide)
      · exact .inr (by decide)
    · refine key (r := rB) (hlog.2 (by simp)) (source "src/public/b.js" (by simp)) pubB ?_ hn
      simp only [rB, List.mem_cons, List.not_mem_nil, or_false] at h
      rcases h with rfl | rfl
      · exact .inl (by decide)
      · exact .inr (by decide)

/-- The second. -/
theorem life2 : ∃ gs dm, Life (project cfg.constants) (tool cfg) bytes store2 .dev (done true) gs dm := by
  have h : TimedRuns (project cfg.constants) (tool cfg) bytes store2 (done false) argsT.old runT.disk.mode argsT.mode (done true)
      ((coldRebuild (envT true) argsT (walkT true) runT.disk).stored.getD argsT.old) (coldRebuild (envT true) argsT (walkT true) runT.disk).disk.mode :=
    .mk (W0 := edited) (fun _ => List.Perm.refl _) scanned rfl (by rw [runsT.2.2]; exact edited_keys)
      (fun o ho => edited_same fun e => ho (by subst e; exact owner_source (source _ (by simp)))) (shown true fun f hf => keep_source hf true false)
      (by unfold WalkOK; decide +kernel)
      (walkedT true (fun f hf => by rwa [runsT.2.2] at hf) (fun f hf => by rw [runsT.2.2, runs.2.1]; rcases hf with rfl | rfl | rfl <;> simp))
      (by rw [coldT2]; exact runsT2.1) (by
        rw [foundArgsT2, coldT2]
        exact work2.congr runsT2.2.1 (by rw [runsT2.2.2.1]) rfl fun c => unlinkedT)
  exact ⟨_, _, .build life1 touches2 h⟩

/-- The hypotheses of C91 are met. -/
theorem C91_case : Life (project cfg.constants) (tool cfg) bytes store1 .dev (done false) graphsT runT.disk.mode ∧
    (∃ gs dm, Life (project cfg.constants) (tool cfg) bytes store2 .dev (done true) gs dm) ∧
    done false "out/www/b.js" = some (txt "import \"/a.js?v=5&pv=1.3.2\";\n") ∧ done true "out/www/b.js" = some (txt "import \"/a.js?v=6&pv=1.3.2\";\n") :=
  ⟨life1, life2, by decide, by decide⟩

/-! ## An edit at the same time -/

/-- The script is written again, at the time of the first write, in the same length. -/
def store3 : Store Bytes := ⟨setFile store1.files "src/public/a.js" (some ⟨txt "x=2;\n", 1, 10⟩), ⟨10, 1, txt "x=2;\n"⟩ :: store1.writes⟩
def raced : Contents Bytes := tab (("src/public/a.js", txt "x=2;\n") :: (outA false ++ outB false ++ outK ++ sources false))

theorem raced_same {f : String} (h : f ≠ "src/public/a.js") : raced f = done false f := by
  simp [raced, done, tab, h.symm]

/-- C91 is false if a file is written twice at the same time, in the same length, and there is a build in between: the second write is
not noticed, neither by the next build nor by any later one, until the file is written again. -/
theorem C91_false_raced : Shown (project cfg.constants) bytes store3 (sigs false) raced ∧ (∀ o, (project cfg.constants).owner o ≠ none → raced o = done false o) ∧
    (coldRebuild (envT false) argsT (walkT false) runT.disk).status = .finished ∧ (coldRebuild (envT false) argsT (walkT false) runT.disk).log = [] ∧
    (∀ W', Nonempty (Work (tool cfg) (foundArgs argsT (walkT false)) (coldRebuild (envT false) argsT (walkT false) runT.disk) raced W') → W' = raced) ∧
    raced "src/public/a.js" = some (txt "x=2;\n") ∧ raced "out/www/a.js" = some (txt "x=1;\n") := by
  have e1 : foundArgs argsT (walkT false) = argsT := by unfold foundArgs; rw [foundT3]; rfl
  have e2 : coldRebuild (envT false) argsT (walkT false) runT.disk = hotRebuild (envT false) argsT runT.disk := by unfold coldRebuild; rw [foundT3]; rfl
  have hm : runT.disk.mode = some argsT.mode := by rw [runsT.2.2]; decide +kernel
  obtain ⟨h1, h2, -, -, h3⟩ := unnoticed (C := Bytes) (env := envT false) (a := argsT) (d := runT.disk) rfl rfl rfl hm (by rw [runsT.2.2, runs.2.1]; simp [argsT])
  have S := shown false (W := done false) fun f hf => keep_source hf false false
  rw [e1, e2]
  refine ⟨⟨fun f hf => ?_, fun f e hf he => ?_⟩, fun o ho => raced_same fun e => ho (by subst e; exact owner_source (source _ (by simp))), h1, h2,
    fun W' ⟨X⟩ => h3 _ _ _ (fun f => ?_) X, by decide, by decide⟩
  · by_cases h : f = "src/public/a.js"
    · subst h; decide
    · rw [raced_same h, S.data f hf]
      simp [store3, setFile, h, storeOf]
  · by_cases h : f = "src/public/a.js"
    · subst h
      simp only [store3, setFile, if_true, Option.some.injEq] at he
      subst he
      decide
    · refine S.sig f e hf ?_
      rw [← he]
      simp [store3, setFile, h, storeOf]
  · rw [runsT.2.2]
    by_cases h : f = "src/public/a.js"
    · subst h
      rw [runs.2.1]
      simp [raced, tab]
    · rw [raced_same h, done_keys]

end Scripts.Site
end Verif.Hot
