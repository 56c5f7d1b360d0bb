import Verif.HotScriptsCase
import Verif.Cold
/-!
# C83: changes of the configuration

The handlers depend on vanillaplusjs.json, which is read again for every build (build.py:97-106) but which is no source: changing it
does not make the program build anything.  So a file is as the configuration says only if it has been built since.
-/
namespace Verif.Hot
open Verif Verif.Graph

variable {C : Type}

/-- Like `Worked`, but the handlers may have changed between two rebuilds, to others which keep to the rules; provided that every
source which they build in another way is built in the rebuild which follows. -/
inductive Reconfigured (p : Project) : Tool C → Mode → Contents C → Graphs → Option Mode → Prop
  | empty (t : Tool C) (m : Mode) (W : Contents C) : t.Lawful p → (∀ f, p.src f ∨ p.owner f ≠ none → W f = none) →
      Reconfigured p t m W ⟨[], [], []⟩ none
  | rebuild {t0 t : Tool C} {m0 W W0 W'} {env : Env} {a : Args} {d : Disk} : Reconfigured p t0 m0 W a.old d.mode → t.Lawful p → t.read = t0.read → ValidOrder env →
      Scanned t env → a.constants = p.constants → Edits p a d W W0 → Work t a (hotRebuild env a d) W0 W' →
      (hotRebuild env a d).status = .finished →
      (∀ f, p.src f → (∀ r, Event.finished f r ∉ (hotRebuild env a d).log) → t.build m0 f = t0.build m0 f) →
      Reconfigured p t a.mode W' ((hotRebuild env a d).stored.getD a.old) (hotRebuild env a d).disk.mode

/-- C83: then after the last rebuild every output is what the handlers as they are now give for its source. -/
theorem C83_reconfigured_partial {p : Project} {t : Tool C} (hp : p.Lawful) (hc : p.src p.constants) {m : Mode} {W : Contents C} {gs : Graphs}
    {dm : Option Mode} (h : Reconfigured p t m W gs dm) :
    t.Lawful p ∧ UpToDate p (t.builder p) m W gs ∧ ValidGraphs gs ∧ Acyclic gs.dep ∧ (dm = none ∨ dm = some m) := by
  induction h with
  | empty t m W ht hW => exact ⟨ht, (History.empty (p := p) (B := t.builder p) m W hW).upToDate hp (ht.pure hp)⟩
  | @rebuild t0 t m0 W W0 W' env a d hist ht hrd ho hs hco E X hf hsame ih =>
    obtain ⟨ht0, U, hv, hac, hm⟩ := ih
    obtain ⟨S, hg⟩ := scans_of (a := a) (d := d) ht hs hc hf
    have hB := ht.pure hp
    have hmode : (hotRebuild env a d).disk.mode = none ∨ (hotRebuild env a d).disk.mode = some a.mode := by
      rw [hotRebuild_mode]; split <;> simp
    -- handlers which build a file alike give alike builders
    have key : ∀ f, contains a.old.dep f = true → (∀ r, Event.finished f r ∉ (hotRebuild env a d).log) → (f = a.constants → m0 = a.mode) →
        t.builder p a.mode f W = t0.builder p m0 f W := by
      intro f hf hn h3
      have h2 : t.builder p m0 f W = t0.builder p m0 f W := by
        unfold Tool.builder Tool.product
        rw [hsame f ((U.files f).1 hf).1 hn, hrd]
      by_cases hfc : f = a.constants
      · rw [← h3 hfc, h2]
      · rw [← h2]; exact hB.mode (by rwa [← hco])
    refine ⟨ht, ?_⟩
    cases hst : (hotRebuild env a d).stored with
    | none =>
      have hl := (idle hv ho hf hst).1
      refine ⟨idle_step' hv ho hB U E (fun f hold => ?_) hf hst (X.idle hl hg), hv, hac, hmode⟩
      exact key f hold (by rw [hl]; simp) fun e => idle_mode hv ho U hm E hf hst (e ▸ hold)
    | some gs =>
      obtain ⟨h1, h2, -⟩ := C17_valid env a d hv ho gs hst
      have F := facts hv ho hst
      refine ⟨step' hv hp hB hco S F (ht0.pure hp) U E (X.exec hp ht F S hg hco U E) fun f hold hnd hr => ?_, h1, h2, hmode⟩
      refine key f hold (fun r hr' => hr ((F.ends f).1 ⟨r, hr'⟩)) fun e => ?_
      subst e
      exact F.same_mode hm E hold hnd hr

/-- If no source was added, changed or deleted, and the mode is the same, then nothing is built, whatever the handlers are, and the
contents of the files stay as they are. -/
theorem unnoticed {env : Env} {a : Args} {d : Disk} (hc : a.changed = []) (ha : a.added = []) (hd : a.deleted = []) (hm : d.mode = some a.mode)
    (hin : a.constants ∈ d.files) : (hotRebuild env a d).status = .finished ∧ (hotRebuild env a d).log = [] ∧ (hotRebuild env a d).stored = none ∧
      (hotRebuild env a d).disk = d ∧
      ∀ (t : Tool C) (W W' : Contents C), (∀ f, W f ≠ none ↔ f ∈ d.files) → Work t a (hotRebuild env a d) W W' → W' = W := by
  have hms : modeStep a env.sig d = ([], d) := by
    unfold modeStep
    rw [if_pos (by simpa using hin), if_neg (by simpa using hm), hc]
  have h : hotRebuild env a d = ⟨.finished, d, [], none, [], []⟩ := by
    unfold hotRebuild
    simp [hms, ha, hd]
  rw [h]
  refine ⟨rfl, rfl, rfl, rfl, fun t W W' hW X => ?_⟩
  funext f
  by_cases hf : f ∈ d.files
  · rw [X.kept f hf (by simp)]
    refine X.start_kept f ?_
    rintro ⟨⟨x, hx, -⟩, -⟩
    simp [Affected, touchedSources, hd, Dict.keys] at hx
  · rw [X.missing f hf]
    exact Classical.byContradiction fun hn => hf ((hW f).1 fun h' => hn h'.symm)

namespace Scripts
open Verif.Reader (Text txt)
open Verif.Paths (isAbs)
open Verif.Handlers (Bytes Fs)

/-- The configuration with other constants. -/
def retext (c : Config) (text : Mode → Bytes) : Config := { c with text := text }

theorem retext_build (c : Config) (text : Mode → Bytes) {f : String} (hf : f ≠ c.constants) (m : Mode) : (tool (retext c text)).build m f = (tool c).build m f := by
  have : ∀ fs, dispatch (retext c text) m (txt f) fs = dispatch c m (txt f) fs := by
    intro fs
    unfold dispatch retext
    rw [if_neg fun e => hf (txt_inj e), if_neg fun e => hf (txt_inj e)]
    rfl
  funext W
  simp only [tool, this]

/-- The histories in which the constants may be configured anew, arbitrarily often; but if they are, so that other ones are configured
for the mode of the last build, then the file of the constants is built again in the rebuild which follows: it was touched, or the mode is another. -/
inductive Reset (c : Config) : (Mode → Bytes) → Mode → Contents Bytes → Graphs → Option Mode → Prop
  | empty (text : Mode → Bytes) (m : Mode) (W : Contents Bytes) : (∀ f, Source f → W f = none) → (∀ o f, Source f → Output o f → W o = none) →
      Reset c text m W ⟨[], [], []⟩ none
  | rebuild {text0 text : Mode → Bytes} {m0 W W0 W'} {env : Env} {a : Args} {d : Disk} : Reset c text0 m0 W a.old d.mode → ValidOrder env →
      Scanned (tool (retext c text)) env → a.constants = c.constants → Edits (project c.constants) a d W W0 →
      Work (tool (retext c text)) a (hotRebuild env a d) W0 W' → (hotRebuild env a d).status = .finished →
      (text m0 = text0 m0 ∨ c.constants ∈ a.changed.keys ∨ c.constants ∈ a.added.keys ∨ (c.constants ∈ d.files ∧ d.mode ≠ some a.mode)) →
      Reset c text a.mode W' ((hotRebuild env a d).stored.getD a.old) (hotRebuild env a d).disk.mode

theorem Reset.reconfigured {c : Config} (hc : isAbs c.js.cwd = true) (hk : Source c.constants) {text : Mode → Bytes} {m : Mode} {W : Contents Bytes} {gs : Graphs}
    {dm : Option Mode} (h : Reset c text m W gs dm) : Reconfigured (project c.constants) (tool (retext c text)) m W gs dm := by
  have hlaw : ∀ text, (tool (retext c text)).Lawful (project c.constants) := fun text => tool_lawful (c := retext c text) hc
  induction h with
  | empty text m W h1 h2 =>
    refine .empty _ m W (hlaw text) ?_
    rintro f (h | h)
    · exact h1 f h
    · obtain ⟨g, hg⟩ := Option.ne_none_iff_exists'.1 h
      obtain ⟨h3, h4⟩ := owner_iff.1 hg
      exact h2 f g h3 h4
  | @rebuild text0 text m0 W W0 W' env a d hist ho hs hco E X hf hsame ih =>
    refine .rebuild ih (hlaw text) rfl ho hs hco E X hf fun f hsf hn => ?_
    by_cases hfc : f = c.constants
    · subst hfc
      rcases hsame with h | h
      · funext V
        have : ∀ fs, dispatch (retext c text) m0 (txt c.constants) fs = dispatch (retext c text0) m0 (txt c.constants) fs := by
          intro fs
          unfold dispatch retext
          simp only [if_true, h]
        simp only [tool, this]
      · exfalso
        obtain ⟨-, U, hv, -, -⟩ := C83_reconfigured_partial (lawful c.constants) hk ih
        cases hst : (hotRebuild env a d).stored with
        | none =>
          obtain ⟨h1, h2, -, h4⟩ := C17_finished_stores env a d hv ho hf hst
          rcases h with h | h | ⟨h, h'⟩
          · simp [h1, Dict.keys] at h
          · simp [h2, Dict.keys] at h
          · exact h' (h4 (by rwa [hco]))
        | some gs =>
          have F := facts hv ho hst
          have hin : c.constants ∈ d.files := by
            rcases h with h | h | h
            · exact (E.changed _ h).2
            · exact (E.added _ h).2
            · exact h.1
          have ht : c.constants ∈ (hotRebuild env a d).scanned.keys := (F.touched _).2 (by
            rcases h with h | h | h
            · exact .inl h
            · exact .inr (.inl h)
            · exact .inr (.inr (.inl ⟨hco.symm, h.1, h.2⟩)))
          obtain ⟨r, hr⟩ := (F.ends c.constants).2 ⟨fun h => E.gone _ h hin, .inl (by simp [touchedSources, ht])⟩
          exact hn r hr
    · rw [retext_build c text hfc, retext_build c text0 hfc]

/-- C83: after such a history out/www contains, for every source, what it should according to the configuration as it is now: the
constants it has for the mode of the last build, and scripts which name the hash of these. -/
theorem C83_constants_partial {c : Config} (hc : isAbs c.js.cwd = true) (hsp : Js.SpaceOk c.js.space) (hk : Source c.constants) {text : Mode → Bytes} {m : Mode}
    {W : Contents Bytes} {gs : Graphs} {dm : Option Mode} (h : Reset c text m W gs dm) {f : String} {x : Text} (hf : Source f) (hx : Public f x) {b : Bytes}
    (hb : W f = some b) : ∃ y, Current (retext c text) m W f x b y :=
  upToDate_current (c := retext c text) hsp (C83_reconfigured_partial (lawful c.constants) hk (h.reconfigured hc hk)).2.1 hf hx hb

end Scripts

end Verif.Hot
