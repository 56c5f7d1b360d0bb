import Verif.HotBuilds
import Verif.HotScripts
import Verif.JsImports
/-!
# C110: projects of scripts and copied files build

If every import names a file which is there, and no script imports itself through others, then a rebuild finishes.
-/
namespace Verif.Hot.Scripts
open Verif Verif.Hot Verif.Graph
open Verif.Reader (Text txt)
open Verif.Paths (split joinSegs join relpath isAbs Name Seg)
open Verif.Handlers (Bytes Fs Scan)

/-! ## Specification -/

/-- The file is a script, and not that of the constants. -/
def Script (c : Config) (f : String) : Prop := f ≠ c.constants ∧ txt ".js" <:+ txt f

/-- The script `f` with the content `y` imports `g`. -/
def ImportsFile (c : Config) (f : String) (y : Bytes) (g : String) : Prop := Script c f ∧ Js.File.Imports c.js (txt f) y (txt g)

/-- The bound of the model on the steps for one script is not reached, whatever the other files are. -/
def Enough (c : Config) (f : String) (y : Bytes) : Prop := ∀ fs : Fs, fs (txt f) = some y →
  Js.File.scanFile c.fuel c.js (txt f) fs ≠ none ∧ Js.File.buildFile c.fuel c.js (txt f) fs ≠ none

/-- The file of the constants, a copied file, or a script which imports files below src/public, its type hints apart from the imports. -/
def Simple (c : Config) (f : String) (y : Bytes) : Prop := Web f ∧ (f = c.constants ∨ ¬ txt ".css" <:+ txt f ∧ ¬ txt ".html" <:+ txt f) ∧
  (Script c f → Enough c f y ∧ Js.File.Orderly c.js y ∧ ∀ d, Js.File.Imports c.js (txt f) y d → ∃ g x, d = txt g ∧ Public g x)

/-- Every source is a script or a copied file or that of the constants, and every import names a source which is there. -/
def Complete (c : Config) (W : Contents Bytes) : Prop :=
  ∀ f y, Source f → W f = some y → Simple c f y ∧ ∀ g, ImportsFile c f y g → Source g ∧ W g ≠ none

/-- One imports the other. -/
def Uses (c : Config) (W : Contents Bytes) (f g : String) : Prop := ∃ y, W f = some y ∧ ImportsFile c f y g

/-! ## Proofs -/

/-- The file is there and simple. -/
def Plain (c : Config) (W : Contents Bytes) (f : String) : Prop := ∃ y, W f = some y ∧ Simple c f y

theorem scan_simple {c : Config} (hsp : Js.SpaceOk c.js.space) {f : String} {y : Bytes} (hs : Simple c f y) {W : Contents Bytes} (hy : W f = some y) :
    ∃ s, (tool c).scan f W = some s ∧ (∀ g, g ∈ s.dependencies ↔ ImportsFile c f y g) ∧ ∀ o, o ∈ s.produces ↔ (project c.constants).owner o = some f := by
  obtain ⟨hw, hk, hi⟩ := hs
  obtain ⟨x, hx, -⟩ := id hw
  have hsrc : Source f := .inl hw
  have hy' : fsOf W (txt f) = some y := by rw [fsOf_txt, hy]
  have hown : ∀ o, (o = str (copyOf x) ∨ o = str (hashOf x)) ↔ (project c.constants).owner o = some f := by
    intro o
    rw [owner_iff]
    constructor
    · rintro (rfl | rfl)
      · exact ⟨hsrc, x, hx, .inl (txt_copy hx)⟩
      · exact ⟨hsrc, x, hx, .inr (txt_hash hx)⟩
    · rintro ⟨-, x', hx', h⟩
      have : x' = x := List.append_cancel_left (hx'.1.symm.trans hx.1)
      subst this
      exact h.imp (fun h => by rw [← h, str_txt]) (fun h => by rw [← h, str_txt])
  suffices h : ∃ s, dispatchScan c (txt f) (fsOf W) = some s ∧ (∀ d, d ∈ s.dependencies ↔ Script c f ∧ Js.File.Imports c.js (txt f) y d) ∧
      ∀ o, o ∈ s.produces ↔ o = copyOf x ∨ o = hashOf x by
    obtain ⟨s, h1, h2, h3⟩ := h
    refine ⟨⟨s.dependencies.map str, s.produces.map str, []⟩, by simp [tool, hsrc, h1], fun g => ?_, fun o => ?_⟩
    · simp only [List.mem_map]
      constructor
      · rintro ⟨d, hd, rfl⟩
        obtain ⟨h4, h5⟩ := (h2 d).1 hd
        obtain ⟨g, x, rfl, -⟩ := (hi h4).2.2 d h5
        rw [str_txt]
        exact ⟨h4, h5⟩
      · intro h
        exact ⟨txt g, (h2 _).2 h, str_txt g⟩
    · rw [← hown]
      simp only [List.mem_map]
      constructor
      · rintro ⟨d, hd, rfl⟩
        exact ((h3 d).1 hd).imp (fun h => by rw [h]) (fun h => by rw [h])
      · rintro (rfl | rfl)
        · exact ⟨_, (h3 _).2 (.inl rfl), rfl⟩
        · exact ⟨_, (h3 _).2 (.inr rfl), rfl⟩
  have hcs : (Handlers.copyScan (txt "src/public/" ++ x)).produces = [copyOf x] := Handlers.copyScan_produces (Js.File.copyTarget_name x)
  have hhs : (Handlers.hashScan (txt "src/public/" ++ x)).produces = [hashOf x] := Handlers.hashScan_produces (Js.File.hashTarget_name x)
  unfold dispatchScan
  by_cases h1 : f = c.constants
  · rw [if_pos (by rw [h1])]
    unfold Handlers.constantsScan
    rw [hx.1, Js.File.copyTarget_name]
    exact ⟨_, rfl, by simp [Script, h1], by simp [copyOf, hashOf]⟩
  · obtain ⟨h2, h3⟩ := hk.resolve_left h1
    rw [if_neg (fun h => h1 (txt_inj h)), if_neg (by rwa [List.isSuffixOf_iff_suffix]), if_neg (by rwa [List.isSuffixOf_iff_suffix])]
    by_cases h4 : txt ".js" <:+ txt f
    · rw [if_pos (by rwa [List.isSuffixOf_iff_suffix])]
      obtain ⟨hen, hord, -⟩ := hi ⟨h1, h4⟩
      have hf := (hen _ hy').1
      rw [hx.1] at h4 hy' hf ⊢
      obtain ⟨⟨fuel, s, e1, e2, e3⟩, -⟩ := Js.File.C34_imports_partial hsp h4 hy' hord
      obtain ⟨r, hr⟩ := Option.ne_none_iff_exists'.1 hf
      rw [Js.File.scan_unique e1 hr |>.symm] at hr
      rw [hr]
      exact ⟨s, rfl, fun d => by simp [e2, Script, h1, hx.1, h4], fun o => by rw [e3]; rfl⟩
    · rw [if_neg (by rwa [List.isSuffixOf_iff_suffix])]
      refine ⟨_, rfl, fun d => ?_, fun o => ?_⟩
      · have : (Handlers.copyAndHashScan (txt f)).dependencies = [] := by
          simp only [Handlers.copyAndHashScan, Handlers.copyScan, Handlers.hashScan]
          split <;> split <;> rfl
        rw [this]
        simp [Script, h4]
      · simp only [Handlers.copyAndHashScan, hx.1, hcs, hhs]
        simp

/-- The build of a simple file whose outputs are not there. -/
theorem dispatch_simple {c : Config} (hsp : Js.SpaceOk c.js.space) {m : Mode} {f : String} {y : Bytes} (hs : Simple c f y) {x : Text} (hx : Public f x) {fs : Fs}
    (hy : fs (txt f) = some y) (h1 : fs (copyOf x) = none) (h2 : fs (hashOf x) = none) :
    (∀ b fs', dispatch c m (txt f) fs = some (b, fs') → (∀ d, d ∈ b.children ↔ Script c f ∧ Js.File.Imports c.js (txt f) y d) ∧ b.produced = [copyOf x, hashOf x]) ∧
    ((∀ d, Script c f → Js.File.Imports c.js (txt f) y d → fs (Js.File.hashPath c.js d) ≠ none) → dispatch c m (txt f) fs ≠ none) := by
  obtain ⟨hw, hk, hi⟩ := hs
  unfold dispatch
  by_cases h3 : f = c.constants
  · rw [if_pos (by rw [h3]), hx.1, constants_bare h1 h2]
    refine ⟨fun b fs' h => ?_, fun _ h => by cases h⟩
    cases h
    exact ⟨by simp [Script, h3], rfl⟩
  · obtain ⟨h4, h5⟩ := hk.resolve_left h3
    rw [if_neg (fun h => h3 (txt_inj h)), if_neg (by rwa [List.isSuffixOf_iff_suffix]), if_neg (by rwa [List.isSuffixOf_iff_suffix])]
    by_cases h6 : txt ".js" <:+ txt f
    · rw [if_pos (by rwa [List.isSuffixOf_iff_suffix])]
      obtain ⟨hen, hord, -⟩ := hi ⟨h3, h6⟩
      have hf := (hen _ hy).2
      have hscr : Script c f := ⟨h3, h6⟩
      rw [hx.1] at h6 hy hf ⊢
      obtain ⟨r, hr⟩ := Option.ne_none_iff_exists'.1 hf
      obtain ⟨-, hb⟩ := Js.File.C34_imports_partial hsp h6 hy hord
      constructor
      · intro b fs' h
        obtain ⟨q, h7, h8⟩ := Option.bind_eq_some_iff.1 h
        have h8 := toOption_some h8
        subst h8
        obtain ⟨_, _, out, s, -, -, -, hrep, -⟩ := (Js.File.build_bare (List.isSuffixOf_iff_suffix.2 h6) h2).1 h7
        refine ⟨fun d => ?_, ?_⟩
        · rcases hb with ⟨fuel, r', fs1, e1, e2⟩ | ⟨fuel, p, e1, -⟩
          · have := Js.File.build_unique e1 h7
            cases this
            rw [e2]
            exact ⟨fun h => ⟨hscr, h⟩, fun h => h.2⟩
          · have := Js.File.build_unique e1 h7
            cases this
        · rw [hrep]
          have hne := Js.File.hash_ne x
          simp only [Js.File.report, Icons.addAll, Icons.add, List.foldl]
          rw [if_neg]
          · rfl
          · simpa using hne
      · intro hd hn
        rcases hb with ⟨fuel, r', fs1, e1, e2⟩ | ⟨fuel, p, e1, e2, e3⟩
        · have := Js.File.build_unique e1 hr
          subst this
          rw [hr] at hn
          cases hn
        · exact hd p hscr e2 e3
    · rw [if_neg (by rwa [List.isSuffixOf_iff_suffix])]
      rw [hx.1] at hy h6 ⊢
      rw [copy_bare h1 h2 hy]
      refine ⟨fun b fs' h => ?_, fun _ h => by cases h⟩
      cases h
      refine ⟨fun d => ?_, rfl⟩
      simp [Script, hx.1, h6]

theorem itself_public {k f : String} {x : Text} (h : Public f x) : (project k).source f = f := by
  cases ho : (project k).owner f with
  | none => simp [Project.source, ho]
  | some g =>
    obtain ⟨r, hr⟩ := output_toList (owner_iff.1 ho).2
    obtain ⟨r', hr'⟩ := toList_of_txt h.1
    rw [hr'] at hr
    simp at hr

theorem itself_partial {k f : String} (h : Partial f) : (project k).source f = f := source_src (lawful k) (.inr h)

theorem tool_direct {c : Config} (hc : isAbs c.js.cwd = true) (hsp : Js.SpaceOk c.js.space) : (tool c).Direct (project c.constants) (Plain c) (Uses c) where
  scans := by
    rintro f W - ⟨y, hy, h⟩ -
    obtain ⟨s, h1, h2, h3⟩ := scan_simple hsp h hy
    refine ⟨s, h1, fun g => (h2 g).trans ⟨fun h => ⟨y, hy, h⟩, ?_⟩, h3⟩
    rintro ⟨y', hy', h⟩
    rw [hy] at hy'
    cases hy'
    exact h
  builds := by
    rintro m f W V r V' hs ⟨y, hyW, h⟩ - hy hb hr -
    rw [hyW] at hy
    have huse : ∀ g, Uses c W f g ↔ ImportsFile c f y g := fun g => by
      constructor
      · rintro ⟨y', hy', h⟩
        rw [hyW] at hy'
        cases hy'
        exact h
      · exact fun h => ⟨y, hyW, h⟩
    simp only [huse]
    obtain ⟨x, hx, -⟩ := h.1
    obtain ⟨h1, h2⟩ := bare_fs hs hx hb
    obtain ⟨b, fs, h3, h4, rfl, rfl⟩ := build_some hr
    obtain ⟨h5, h6⟩ := (dispatch_simple hsp h hx (by rw [fsOf_txt, hy]) h1 h2).1 b fs h3
    refine ⟨fun g => ?_, fun o => ?_, ?_⟩
    · simp only [List.mem_map]
      constructor
      · rintro ⟨d, hd, rfl⟩
        rw [ImportsFile, child_txt (h4 d hd)]
        exact (h5 d).1 hd
      · intro hg
        exact ⟨txt g, (h5 _).2 hg, str_txt g⟩
    · rw [h6, owner_iff]
      simp only [List.map_cons, List.map_nil, List.mem_cons, List.not_mem_nil, or_false]
      constructor
      · rintro (rfl | rfl)
        · exact ⟨hs, x, hx, .inl (txt_copy hx)⟩
        · exact ⟨hs, x, hx, .inr (txt_hash hx)⟩
      · rintro ⟨-, x', hx', h⟩
        have : x' = x := List.append_cancel_left (hx'.1.symm.trans hx.1)
        subst this
        exact h.imp (fun h => by rw [← h, str_txt]) (fun h => by rw [← h, str_txt])
    · rw [h6]
      have : str (copyOf x) ≠ str (hashOf x) := fun h => hash_ne_copy x (by rw [← txt_copy hx, ← txt_hash hx, h])
      simp [this]
  works := by
    rintro m f W0 W hs ⟨y, hyW, h⟩ - hy hb hr hn
    replace hy : W f = some y := by rw [hy f hs, hyW]
    replace hr : ∀ g, ImportsFile c f y g → W ((tool c).read f g) ≠ none := fun g h => hr g ⟨y, hyW, h⟩
    obtain ⟨x, hx, -⟩ := h.1
    obtain ⟨h1, h2⟩ := bare_fs hs hx hb
    obtain ⟨h3, h4⟩ := dispatch_simple (m := m) hsp h hx (by rw [fsOf_txt, hy]) h1 h2
    have hd : dispatch c m (txt f) (fsOf W) ≠ none := by
      refine h4 fun d h5 h6 => ?_
      obtain ⟨g, x', rfl, hg⟩ := (h.2.2 h5).2.2 d h6
      have := hr g ⟨h5, h6⟩
      have e : readAt c (txt f) (txt g) = Js.File.hashPath c.js (txt g) := by
        unfold readAt
        rw [if_neg, if_neg]
        · intro hh; exact html_js (List.isSuffixOf_iff_suffix.1 hh) h5.2
        · intro hh; exact css_js (List.isSuffixOf_iff_suffix.1 hh) h5.2
      rw [← e]
      exact this
    obtain ⟨⟨b, fs⟩, hbd⟩ := Option.ne_none_iff_exists'.1 hd
    have hch : ∀ d ∈ b.children, Child f d := by
      intro d hd
      obtain ⟨h5, h6⟩ := ((h3 b fs hbd).1 d).1 hd
      obtain ⟨g, x', rfl, hg⟩ := (h.2.2 h5).2.2 d h6
      exact ⟨g, rfl, .inl ⟨x', hg⟩⟩
    simp only [tool, hbd, if_pos hch] at hn
    cases hn
  reads := by
    rintro f W g hs ⟨y, hyW, h⟩ - ⟨y', hyW', hr⟩ hgs
    rw [hyW] at hyW'
    cases hyW'
    left
    obtain ⟨g', x, e, hg⟩ := (h.2.2 hr.1).2.2 _ hr.2
    cases txt_inj e
    rw [itself_public hg] at hgs ⊢
    have e : readAt c (txt f) (txt g) = hashOf x := by
      unfold readAt
      rw [if_neg, if_neg]
      · rw [hg.1]
        exact hashPath_public hc hg.2
      · intro hh; exact html_js (List.isSuffixOf_iff_suffix.1 hh) hr.1.2
      · intro hh; exact css_js (List.isSuffixOf_iff_suffix.1 hh) hr.1.2
    simp only [tool, e]
    exact owner_iff.2 ⟨hgs, x, hg, .inr (txt_hash hg)⟩

/-- **C110.** A project of scripts and copied files, where every import names a file which is there, and no script imports itself, directly or
through others, builds: after any history of rebuilds and any edits, the next rebuild finishes as soon as it waits for no build.  Missing: stylesheets, pages
and templates, images, and scripts with imports in or around lines with type hints. -/
theorem C110_scripts_partial {c : Config} (hc : isAbs c.js.cwd = true) (hsp : Js.SpaceOk c.js.space) (hk : Source c.constants) {m0 : Mode}
    {W W0 : Contents Bytes} {env : Env} {a : Args} {d : Disk} (hist : Worked (project c.constants) (tool c) m0 W a.old d.mode) (ho : ValidOrder env)
    (hscan : ScansBy (tool c) env W0) (hfuel : 0 < env.scanFuel) (hco : a.constants = c.constants) (E : Edits (project c.constants) a d W W0) (hh : Housed d)
    (X : Attempt (tool c) env a (hotRebuild env a d) W0) (hI : Complete c W0) (hac : ∀ f, Source f → ¬ Path (Uses c W0) f f)
    (hw : (hotRebuild env a d).status ≠ .waiting) : (hotRebuild env a d).status = .finished :=
  have J := intact_of_sources (simple := Plain c) (refs := Uses c) (lawful c.constants) (W := W0) fun f hf hn => by
      obtain ⟨y, hy⟩ := Option.ne_none_iff_exists'.1 hn
      refine ⟨⟨y, hy, (hI f y hf hy).1⟩, ?_⟩
      rintro g ⟨y', hy', hg⟩
      exact (hI f y' hf hy').2 g hg
  intact_finishes (lawful c.constants) (tool_lawful hc) hk (tool_direct hc hsp) hist ho hscan hfuel hco E hh X J.1
    (fun f hf hn he => by
      rintro ⟨y, hy, hs⟩
      refine ⟨⟨y, he ▸ hy, hs⟩, fun g => ?_⟩
      simp only [Uses, he]) (fun f h1 h2 => J.2 f h1 h2 (hac f h1)) hw

end Verif.Hot.Scripts
