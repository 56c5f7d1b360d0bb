import Verif.HotMode
import Verif.HotEx
/-!
# C79: incremental builds and builds from scratch

The model of the rebuild (`Hot.lean`) knows which files exist, and takes what builds return as given.  Here files have contents,
and the builds are those of one builder, which reads files and says which.

* `Project` and `Pure` say what is assumed of a project and of the builder.
* `Edits` says what may happen between two rebuilds.
* `Exec` says what a rebuild does with the contents of the files.
* `UpToDate` is what users rely on: every output is what building its source now would give.
-/
namespace Verif.Hot
open Verif Verif.Graph

/-- The contents of the files. -/
abbrev Contents (C : Type) := String → Option C

/-- What the build of a file gives: the files it reads besides the source, the files it lists as its children, and its outputs with
their contents. -/
structure Product (C : Type) where
  reads : List String
  children : List String
  outputs : List (String × C)

/-- Building a file, in a mode and with these contents of the files; `none` if it fails. -/
abbrev Builder (C : Type) := Mode → String → Contents C → Option (Product C)

/-- Which files are sources, and which source a generated file belongs to. -/
structure Project where
  src : String → Prop
  owner : String → Option String
  constants : String

/-- Outputs belong to sources and can be told from them by their names. -/
structure Project.Lawful (p : Project) : Prop where
  owner : ∀ o f, p.owner o = some f → p.src f ∧ isOutput o = true
  src : ∀ f, p.src f → p.owner f = none ∧ isOutput f = false

/-- The source a file stands for: its owner, if it is generated, or else itself. -/
def Project.source (p : Project) (c : String) : String := (p.owner c).getD c

variable {C : Type}

/-- What is assumed of the builder. -/
structure Pure (p : Project) (B : Builder C) : Prop where
  /-- It writes only files which belong to the source it builds: no two sources share an output. -/
  owned : ∀ {m f W x o y}, B m f W = some x → (o, y) ∈ x.outputs → p.owner o = some f
  /-- It writes each file once. -/
  once : ∀ {m f W x o y z}, B m f W = some x → (o, y) ∈ x.outputs → (o, z) ∈ x.outputs → y = z
  /-- What it reads is there: it fails if a file is missing. -/
  strict : ∀ {m f W x c}, B m f W = some x → c ∈ x.reads → p.source c ≠ f → W c ≠ none
  /-- It reads no artifacts of other sources. -/
  plain : ∀ {m f W x c}, B m f W = some x → c ∈ x.reads → p.owner c ≠ none → p.source c ≠ f → startsWith c "artifacts" = false
  /-- Its result depends on the source and on the files it reads, other than its own outputs, and on nothing else. -/
  reads : ∀ {m f W W' x}, B m f W = some x → W' f = W f → (∀ c ∈ x.reads, p.source c ≠ f → W' c = W c) → B m f W' = some x
  /-- For every file it reads it lists a child which stands for the same source, if its children are files of the project. -/
  covers : ∀ {m f W x c}, B m f W = some x → (∀ c ∈ x.children, p.src c ∨ p.owner c ≠ none) → c ∈ x.reads → p.source c ≠ f →
    ∃ c' ∈ x.children, p.source c' = p.source c
  /-- Only the constants depend on the mode. -/
  mode : ∀ {m m' f W}, f ≠ p.constants → B m f W = B m' f W

/-- Every source is built, and every output is what building its source now would give; the graphs record it; and there are no
other outputs. -/
structure UpToDate (p : Project) (B : Builder C) (m : Mode) (W : Contents C) (gs : Graphs) : Prop where
  files : ∀ f, contains gs.dep f = true ↔ p.src f ∧ W f ≠ none
  built : ∀ f, contains gs.dep f = true → ∃ x, B m f W = some x ∧ (∀ o y, (o, y) ∈ x.outputs → W o = some y) ∧
    (∀ o, Edge gs.out f o ↔ ∃ y, (o, y) ∈ x.outputs) ∧ ∀ c ∈ x.reads, p.source c = f ∨ Edge gs.dep f (p.source c)
  only : ∀ o f, p.owner o = some f → W o ≠ none → contains gs.dep f = true ∧ Edge gs.out f o
  recorded : ∀ f o, Edge gs.out f o → contains gs.dep f = true

/-- What has happened since the last rebuild, which left `W`: sources were added, changed and deleted as the arguments say, and
nothing else. -/
structure Edits (p : Project) (a : Args) (d : Disk) (W W0 : Contents C) : Prop where
  disk : ∀ f, W0 f ≠ none ↔ f ∈ d.files
  outputs : ∀ o, p.owner o ≠ none → W0 o = W o
  same : ∀ f, p.src f → f ∉ a.changed.keys → f ∉ a.added.keys → f ∉ a.deleted → W0 f = W f
  changed : ∀ f ∈ a.changed.keys, p.src f ∧ f ∈ d.files
  added : ∀ f ∈ a.added.keys, p.src f ∧ f ∈ d.files
  new : ∀ f, p.src f → f ∈ d.files → contains a.old.dep f = false → f ∈ a.added.keys
  deleted : ∀ f, contains a.old.dep f = true → f ∉ a.deleted → f ∈ d.files
  gone : ∀ f ∈ a.deleted, f ∉ d.files

/-- The file is removed before building starts. -/
def Unlinked (a : Args) (out : Outcome) (o : String) : Prop := WasOutput a out o ∧ startsWith o "artifacts" = false

/-- What a rebuild does with the contents of the files, from `W0` to `W`. -/
structure Exec (B : Builder C) (a : Args) (out : Outcome) (ph W0 W : Contents C) where
  /-- the contents which the build of a file has seen -/
  view : String → Contents C
  /-- what it gave -/
  prod : String → Product C
  /-- the contents when building starts -/
  start : Contents C
  /-- when building starts placeholders have been written, and recorded outputs removed -/
  start_generated : ∀ c ∈ out.generated.keys, start c = ph c ∧ ph c ≠ none
  start_unlinked : ∀ c, c ∉ out.generated.keys → Unlinked a out c → start c = none
  start_kept : ∀ c, c ∉ out.generated.keys → ¬ Unlinked a out c → start c = W0 c
  /-- every finished build is one of the builder, and has reported what it gave -/
  ran : ∀ f r, Event.finished f r ∈ out.log → B a.mode f (view f) = some (prod f) ∧ r.children = (prod f).children ∧
    ∀ o, o ∈ r.produced ++ r.reused ↔ ∃ y, (o, y) ∈ (prod f).outputs
  /-- a build may reuse what is there; of artifacts it checks the contents, but not of files in `out` -/
  reused : ∀ f r, Event.finished f r ∈ out.log → ∀ o y, (o, y) ∈ (prod f).outputs → o ∉ r.produced → start o ≠ none ∧
    (startsWith o "artifacts" = true → start o = some y)
  /-- builds see files as they were when building started, or as other builds have written them -/
  sees : ∀ f r, Event.finished f r ∈ out.log → ∀ c, view f c = start c ∨
    ∃ g r', Event.finished g r' ∈ out.log ∧ c ∈ r'.produced ∧ ∃ y, (c, y) ∈ (prod g).outputs ∧ view f c = some y
  /-- in the end there are the files which are on disk, as they were written or as they were when building started -/
  missing : ∀ c, c ∉ out.disk.files → W c = none
  written : ∀ c ∈ out.disk.files, (∃ g r, Event.finished g r ∈ out.log ∧ c ∈ r.produced) →
    ∃ g r, Event.finished g r ∈ out.log ∧ c ∈ r.produced ∧ ∃ y, (c, y) ∈ (prod g).outputs ∧ W c = some y
  kept : ∀ c ∈ out.disk.files, (¬ ∃ g r, Event.finished g r ∈ out.log ∧ c ∈ r.produced) → W c = start c

/-- What the scans of a run say about other files than the scanned one: outputs of its own, and sources as placeholders. -/
structure Scans (p : Project) (a : Args) (out : Outcome) : Prop where
  produces : ∀ x ∈ out.scanned, ∀ o ∈ x.2.produces, p.owner o = some x.1
  generated : ∀ f ∈ out.generated.keys, p.src f ∧ f ∉ a.deleted
  constants : p.src p.constants

/-! ## A rebuild which stores its graphs -/

/-- What is needed to know about such a run. -/
structure Facts (env : Env) (a : Args) (d : Disk) (out : Outcome) (gs : Graphs) : Prop where
  finished : out.status = .finished
  valid : ValidGraphs gs
  files : ∀ x, x ∈ out.disk.files ↔ (((x ∈ d.files ∨ x ∈ out.generated.keys) ∧
    (WasOutput a out x → startsWith x "artifacts" = true ∧ Made out.log x)) ∨ ∃ f r, Event.finished f r ∈ out.log ∧ x ∈ r.produced)
  fresh : ∀ x ∈ out.generated.keys, x ∉ d.files ∧ x ∈ out.scanned.keys
  known : ∀ f, Rebuilt a out f → f ∈ out.scanned.keys ∨ contains a.old.dep f = true
  ends : ∀ f, (∃ r, Event.finished f r ∈ out.log) ↔ Rebuilt a out f
  touched : ∀ f, f ∈ out.scanned.keys ↔ f ∈ a.changed.keys ∨ f ∈ a.added.keys ∨ (f = a.constants ∧ f ∈ d.files ∧ d.mode ≠ some a.mode) ∨
    f ∈ out.generated.keys
  recorded : ∀ f, contains gs.dep f = true ↔ f ∉ a.deleted ∧ (Rebuilt a out f ∨ contains a.old.dep f = true)
  single : ∀ f r r', Event.finished f r ∈ out.log → Event.finished f r' ∈ out.log → r' = r
  outputs : ∀ f r, Event.finished f r ∈ out.log → ∀ o, Edge gs.out f o ↔ o ∈ r.produced ++ r.reused
  keptOutputs : ∀ f, contains gs.dep f = true → ¬ Rebuilt a out f → ∀ o, Edge gs.out f o ↔ Edge a.old.out f o
  noOutputs : ∀ f o, Edge gs.out f o → contains gs.dep f = true
  children : ∀ f r, Event.finished f r ∈ out.log → ∀ c ∈ r.children, (isOutput c = false ∧ Edge gs.dep f c) ∨
      ∃ g, MadeBy a out c g ∧ (g = f ∨ Edge gs.dep f g)
  keptChildren : ∀ f, contains gs.dep f = true → ¬ Rebuilt a out f → ∀ g, Edge gs.dep f g ↔ Edge a.old.dep f g

theorem firstErr_none {g : String → Except Err (List String)} : ∀ {fs : List String}, firstErr g fs = none → ∀ f ∈ fs, ∃ l, g f = .ok l
  | [], _ => by simp
  | x :: fs, h => by
    unfold firstErr at h
    split at h
    · cases h
    · next l hl =>
      intro f hf
      rcases List.mem_cons.1 hf with rfl | hf
      · exact ⟨l, hl⟩
      · exact firstErr_none h f hf

theorem ends_single {log : List Event} (h : (endsOf log).Nodup) {f : String} {r r' : BuildResult} (h1 : Event.finished f r ∈ log)
    (h2 : Event.finished f r' ∈ log) : r' = r := by
  induction log with
  | nil => cases h1
  | cons e log ih =>
    have hm : ∀ r, Event.finished f r ∈ log → f ∈ endsOf log := fun r h => (mem_endsOf log f).2 ⟨r, h⟩
    cases e with
    | started g =>
      refine ih (by simpa [endsOf] using h) ?_ ?_
      · simpa using h1
      · simpa using h2
    | finished g r0 =>
      have hn : g ∉ endsOf log ∧ (endsOf log).Nodup := by simpa [endsOf] using h
      simp only [List.mem_cons, Event.finished.injEq] at h1 h2
      rcases h1 with ⟨rfl, rfl⟩ | h1 <;> rcases h2 with ⟨e, rfl⟩ | h2
      · rfl
      · exact absurd (hm _ h2) hn.1
      · subst e; exact absurd (hm _ h1) hn.1
      · exact ih hn.2 h1 h2

theorem facts {env : Env} {a : Args} {d : Disk} (hv : ValidGraphs a.old) (ho : ValidOrder env) {gs : Graphs}
    (h : (hotRebuild env a d).stored = some gs) : Facts env a d (hotRebuild env a d) gs := by
  have h10 := C10_touched_sources env a d
  have h11 := C11_built_exactly_once env a d hv ho
  have hfl := C17_files env a d hv ho gs h
  have hout := C17_outputs env a d hv ho gs h
  have hch := C17_rebuilt_dependencies env a d hv ho gs h
  have hkd := C17_kept_dependencies env a d hv ho gs h
  have hval := (C17_valid env a d hv ho gs h).1
  obtain ⟨P, hP⟩ := stored_phases h
  dsimp only at h11 h10
  rw [hP] at h h10 h11 hfl hout hch hkd ⊢
  have hfin : P.result.status = .finished := by
    obtain ⟨_, _, _, _, _, hf, _⟩ := P.stored_spec hv ho h; exact hf
  have hends : ∀ f, (∃ r, Event.finished f r ∈ P.result.log) ↔ Rebuilt a P.result f := by
    intro f
    rw [← mem_endsOf]
    exact (h11.2.2.2 hfin f).2
  obtain ⟨k1, k2, ⟨new, n1, n2, n3, n4, n5, n6⟩, k3⟩ := (scanLoop_spec _ _ _ _ _ _
      (by simp [Dict.NodupKeys, Dict.keys]) (by simp [Dict.NodupKeys, Dict.keys]) (by simp) P.hscan)
  have hm : (modeStep a env.sig d).2.files = d.files := by
    unfold modeStep; split
    · split <;> rfl
    · rfl
  have hgen : ∀ x, x ∈ P.result.generated.keys ↔ x ∈ new := by intro x; rw [P.result_generated, n4]; simp [Dict.keys]
  have hst : ∀ x, x ∈ P.st.disk.files ↔ x ∈ d.files ∨ x ∈ P.result.generated.keys := by
    intro x; rw [n1, hgen]; simp [hm]
  have hsc : ∀ x, x ∈ P.result.scanned.keys ↔ (x ∈ (modeStep a env.sig d).1.keys ∨ x ∈ a.added.keys) ∨ x ∈ P.result.generated.keys := by
    intro x; rw [P.result_scanned, n3, hgen]; simp [Dict.keys]
  refine ⟨hfin, hval, fun x => ?_, fun x hx => ?_, fun f hf => ?_, hends, fun f => ?_, hfl, fun f r r' h1 h2 => ?_, fun f r hr o => ?_, hout.2.1, fun f o he => ?_, fun f r hr c hc => ?_,
    fun f hf hr g => ?_⟩
  · rw [P.files_after hv ho hfin, hst]
  · refine ⟨?_, (hsc x).2 (.inr hx)⟩
    have := (n2 x ((hgen x).1 hx)).1
    simpa [hm] using this
  · have hmem := (P.rebuilt_iff hv ho f).2 hf
    obtain ⟨l, hl⟩ := firstErr_none P.herr f hmem
    unfold dependsOnOf at hl
    split at hl
    · next r hr =>
      left
      have h1 : f ∈ Dict.keys P.updated := Dict.mem_keys_of_get? hr
      have h2 : Dict.keys P.updated = P.st.updated.keys := reinterpAll_keys P.hre
      rw [P.result_scanned, ← h2]
      exact h1
    · next hr =>
      right
      split at hl
      · cases hl
      · next cs hcs =>
        rw [contains_iff]
        refine Classical.byContradiction fun hn => ?_
        have : getChildren a.old.dep f = .error .valueError ∨ getChildren a.old.dep f = .error .keyError := by
          unfold getChildren
          rw [(Dict.get?_eq_none_iff _ _).2 hn]
          simp
        rcases this with h | h <;> rw [h] at hcs <;> cases hcs
  · have hmode := modeStep_get? a env.sig d f
    constructor
    · intro hf
      rcases (hsc f).1 hf with (hf | hf) | hf
      · have h2 := (Dict.get?_isSome_iff (modeStep a env.sig d).1 f).2 hf
        rw [hmode] at h2
        split at h2
        · next hh => exact .inr (.inr (.inl ⟨hh.1, hh.2.1, hh.2.2.1⟩))
        · exact .inl ((Dict.get?_isSome_iff _ _).1 h2)
      · exact .inr (.inl hf)
      · exact .inr (.inr (.inr hf))
    · rintro (hf | hf | hf | hf)
      · exact (h10 (.inr hfin)).1 f (.inl hf)
      · exact (h10 (.inr hfin)).1 f (.inr (.inl hf))
      · exact (h10 (.inr hfin)).1 f (.inr (.inr hf))
      · exact (hsc f).2 (.inr hf)
  · exact ends_single h11.2.1 h1 h2
  · unfold Edge
    rw [hout.1 f r hr]
    simp
  · refine Classical.byContradiction fun hc => ?_
    exact hout.2.2 f (by simpa using hc) o he
  · rcases (hch f r hr).2 c hc with ⟨h1, -, h3⟩ | h
    · exact .inl ⟨h1, h3⟩
    · exact .inr h
  · unfold Edge
    rw [hkd f hf hr]

/-! ## The step -/

section step
variable {p : Project} {B B0 : Builder C} {env : Env} {a : Args} {d : Disk} {out : Outcome} {gs : Graphs} {m0 : Mode} {ph W W0 W' : Contents C}

/-- A file which is no output has at the end the contents it had when building started. -/
theorem Exec.at_source (hB : Pure p B) (F : Facts env a d out gs) (hU : ∀ f o, Edge a.old.out f o → p.owner o = some f) (E : Edits p a d W W0)
    (X : Exec B a out ph W0 W') {c : String} (hc : p.owner c = none) :
    W' c = X.start c ∧ (∀ f r, Event.finished f r ∈ out.log → X.view f c = X.start c) ∧ (c ∉ out.generated.keys → X.start c = W0 c) := by
  have hnw : ¬ ∃ g r, Event.finished g r ∈ out.log ∧ c ∈ r.produced := by
    rintro ⟨g, r, h1, h2⟩
    obtain ⟨h3, -, h4⟩ := X.ran g r h1
    obtain ⟨y, hy⟩ := (h4 c).1 (by simp [h2])
    rw [hB.owned h3 hy] at hc
    cases hc
  have hnu : ¬ WasOutput a out c := by
    rintro ⟨x, -, hx⟩
    rw [hU x c hx] at hc
    cases hc
  have hk : c ∉ out.generated.keys → X.start c = W0 c := fun hg => X.start_kept c hg fun hu => hnu hu.1
  refine ⟨?_, fun f r hf => ?_, hk⟩
  · by_cases hd : c ∈ out.disk.files
    · exact X.kept c hd hnw
    · rw [X.missing c hd]
      have h1 := mt (F.files c).2 hd
      simp only [not_or, not_and_or] at h1
      have h2 : c ∉ d.files ∧ c ∉ out.generated.keys := by
        rcases h1.1 with h | h
        · exact h
        · exact absurd (fun hw => absurd hw hnu) h
      rw [hk h2.2]
      exact (Classical.byContradiction fun hn => h2.1 ((E.disk c).1 fun hh => hn hh.symm))
  · rcases X.sees f r hf c with h | ⟨g, r', h1, h2, -⟩
    · exact h
    · exact absurd ⟨g, r', h1, h2⟩ hnw

/-- The recorded outputs of a file belong to it. -/
theorem UpToDate.owned (hB : Pure p B) (U : UpToDate p B m0 W gs) {f o : String} (h : Edge gs.out f o) : p.owner o = some f := by
  obtain ⟨x, h1, -, h2, -⟩ := U.built f (U.recorded _ _ h)
  obtain ⟨y, hy⟩ := (h2 o).1 h
  exact hB.owned h1 hy

theorem Exec.writer (hB : Pure p B) (X : Exec B a out ph W0 W') {g : String} {r : BuildResult} (h : Event.finished g r ∈ out.log)
    {c : String} (hc : c ∈ r.produced ++ r.reused) : p.owner c = some g := by
  obtain ⟨h3, -, h4⟩ := X.ran g r h
  obtain ⟨y, hy⟩ := (h4 c).1 hc
  exact hB.owned h3 hy

theorem not_generated (hp : p.Lawful) (S : Scans p a out) {c g : String} (hc : p.owner c = some g) : c ∉ out.generated.keys := by
  intro h
  have := (hp.src c (S.generated c h).1).1
  rw [hc] at this
  cases this

/-- An output which no build has written has the contents it had before, or it is gone. -/
theorem Exec.unwritten (hp : p.Lawful) (S : Scans p a out) (F : Facts env a d out gs) (E : Edits p a d W W0)
    (X : Exec B a out ph W0 W') {c g : String} (hc : p.owner c = some g) (hn : ¬ ∃ g r, Event.finished g r ∈ out.log ∧ c ∈ r.produced)
    (hw : WasOutput a out c → startsWith c "artifacts" = true ∧ Made out.log c) : W' c = W c ∧ X.start c = W c := by
  have hg := not_generated hp S hc
  have hst : X.start c = W0 c := X.start_kept c hg fun hu => by
    have h1 := (hw hu.1).1
    rw [hu.2] at h1
    cases h1
  have he : W0 c = W c := E.outputs c (by simp [hc])
  refine ⟨?_, by rw [hst, he]⟩
  by_cases hd : c ∈ out.disk.files
  · rw [X.kept c hd hn, hst, he]
  · rw [X.missing c hd, ← he]
    refine Classical.byContradiction fun hh => hd ((F.files c).2 (.inl ⟨.inl ((E.disk c).1 fun h => hh h.symm), hw⟩))

/-- An output which some build has written has the contents which that build gave it. -/
theorem Exec.wrote (hB : Pure p B) (F : Facts env a d out gs) (X : Exec B a out ph W0 W') {c g : String} {r : BuildResult}
    (hf : Event.finished g r ∈ out.log) (hc : c ∈ r.produced) {y : C} (hy : (c, y) ∈ (X.prod g).outputs) : W' c = some y := by
  have hd : c ∈ out.disk.files := (F.files c).2 (.inr ⟨g, r, hf, hc⟩)
  obtain ⟨g', r', h1, h2, z, h3, h4⟩ := X.written c hd ⟨g, r, hf, hc⟩
  have e1 := X.writer hB hf (c := c) (by simp [hc])
  have e2 := X.writer hB h1 (c := c) (by simp [h2])
  rw [e1] at e2
  cases e2
  rw [h4, hB.once (X.ran g r hf).1 h3 hy]

/-- A file which is not rebuilt keeps its outputs. -/
theorem Exec.at_kept (hp : p.Lawful) (hB : Pure p B) (S : Scans p a out) (F : Facts env a d out gs) (hU : ∀ f o, Edge a.old.out f o → p.owner o = some f)
    (E : Edits p a d W W0) (X : Exec B a out ph W0 W') {c g : String} (hc : p.owner c = some g) (hr : ¬ Affected a.old (touchedSources a out) g) : W' c = W c := by
  refine (X.unwritten hp S F E hc ?_ ?_).1
  · rintro ⟨g', r, h1, h2⟩
    have e := X.writer hB h1 (c := c) (by simp [h2])
    rw [hc] at e
    cases e
    exact hr ((F.ends g).1 ⟨r, h1⟩).2
  · rintro ⟨x, h1, h2⟩
    have e := hU x c h2
    rw [hc] at e
    cases e
    exact absurd h1 hr

/-- What a build has read is there in the end. -/
theorem Exec.at_read (hp : p.Lawful) (hB : Pure p B) (S : Scans p a out) (F : Facts env a d out gs) (hB0 : Pure p B0) (U : UpToDate p B0 m0 W a.old)
    (E : Edits p a d W W0) (X : Exec B a out ph W0 W') {f : String} {r : BuildResult} (hf : Event.finished f r ∈ out.log) {c : String} (hc : c ∈ (X.prod f).reads)
    (hn : p.source c ≠ f) : W' c = X.view f c := by
  have hran := (X.ran f r hf).1
  cases ho : p.owner c with
  | none =>
    obtain ⟨h1, h2, -⟩ := X.at_source hB F (fun _ _ => U.owned hB0) E ho
    rw [h1, h2 f r hf]
  | some g =>
    have hart := hB.plain hran hc (by simp [ho]) hn
    have hne := hB.strict hran hc hn
    have hst : X.start c ≠ none → ¬ WasOutput a out c := by
      intro h1 h2
      exact h1 (X.start_unlinked c (not_generated hp S ho) ⟨h2, hart⟩)
    by_cases hw : ∃ g r, Event.finished g r ∈ out.log ∧ c ∈ r.produced
    · obtain ⟨g', r', h1, h2⟩ := hw
      have e := X.writer hB h1 (c := c) (by simp [h2])
      rw [ho] at e
      cases e
      rcases X.sees f r hf c with h | ⟨g', r2, h3, h4, y, h5, h6⟩
      · exfalso
        rw [h] at hne
        have hnw := hst hne
        have h7 : X.start c = W0 c := X.start_kept c (not_generated hp S ho) fun hu => hnw hu.1
        rw [h7, E.outputs c (by simp [ho])] at hne
        exact hnw ⟨g, ((F.ends g).1 ⟨r', h1⟩).2, (U.only c g ho hne).2⟩
      · have e := X.writer hB h3 (c := c) (by simp [h4])
        rw [ho] at e
        cases e
        rw [h6, X.wrote hB F h3 h4 h5]
    · rcases X.sees f r hf c with h | ⟨g', r2, h3, h4, -⟩
      · rw [h] at hne
        have hnw := hst hne
        obtain ⟨h1, h2⟩ := X.unwritten hp S F E ho hw fun h => absurd h hnw
        rw [h, h1, h2]
      · exact absurd ⟨g', r2, h3, h4⟩ hw

theorem affected_of_dep {old : Graphs} {seeds : List String} {f g : String} (h : Edge old.dep f g) (hg : Affected old seeds g) : Affected old seeds f := by
  right
  rcases hg with hg | ⟨s, hs, hp⟩
  · exact ⟨g, hg, .one (.inl h)⟩
  · exact ⟨s, hs, .more (.inl h) hp⟩

/-- After a rebuild with another builder everything is up to date, if it builds the files which have not been rebuilt as the one before. -/
theorem step' (hv : ValidGraphs a.old) (hp : p.Lawful) (hB : Pure p B) (hc : a.constants = p.constants) (S : Scans p a out) (F : Facts env a d out gs)
    (hB0 : Pure p B0) (U : UpToDate p B0 m0 W a.old) (E : Edits p a d W W0) (X : Exec B a out ph W0 W')
    (hsame : ∀ f, contains a.old.dep f = true → f ∉ a.deleted → ¬ Rebuilt a out f → B a.mode f W = B0 m0 f W) : UpToDate p B a.mode W' gs := by
  have hU : ∀ f o, Edge a.old.out f o → p.owner o = some f := fun _ _ => U.owned hB0
  have hseed : ∀ f, f ∈ touchedSources a out ↔ f ∈ out.scanned.keys ∨ f ∈ a.deleted := by
    intro f; simp [touchedSources]
  have hsrcS : ∀ f ∈ out.scanned.keys, p.src f := by
    intro f hf
    rcases (F.touched f).1 hf with h | h | h | h
    · exact (E.changed f h).1
    · exact (E.added f h).1
    · rw [h.1, hc]; exact S.constants
    · exact (S.generated f h).1
  have hsrc : ∀ f, contains gs.dep f = true → p.src f := by
    intro f hf
    rcases ((F.recorded f).1 hf).2 with h | h
    · rcases F.known f h with h | h
      · exact hsrcS f h
      · exact ((U.files f).1 h).1
    · exact ((U.files f).1 h).1
  -- a source which is not touched
  have huntouched : ∀ c, p.src c → c ∉ touchedSources a out → W' c = W c := by
    intro c hcs hct
    have hct := mt (hseed c).2 hct
    simp only [not_or] at hct
    have h1 := mt (F.touched c).2 hct.1
    simp only [not_or] at h1
    obtain ⟨h2, -, h3⟩ := X.at_source hB F hU E (hp.src c hcs).1
    rw [h2, h3 h1.2.2.2]
    exact E.same c hcs h1.1 h1.2.1 hct.2
  refine ⟨fun f => ⟨fun hf => ⟨hsrc f hf, ?_⟩, fun ⟨h1, h2⟩ => ?_⟩, fun f hf => ?_, fun o f ho hw => ?_, F.noOutputs⟩
  · -- the file is there
    obtain ⟨h2, -, h3⟩ := X.at_source hB F hU E (hp.src f (hsrc f hf)).1
    rw [h2]
    by_cases hg : f ∈ out.generated.keys
    · obtain ⟨e1, e2⟩ := X.start_generated f hg
      rw [e1]; exact e2
    · rw [h3 hg, E.disk]
      have hr := (F.recorded f).1 hf
      have hold : contains a.old.dep f = true → f ∈ d.files := fun h => E.deleted f h hr.1
      rcases hr.2 with h | h
      · rcases F.known f h with h | h
        · rcases (F.touched f).1 h with h | h | h | h
          · exact (E.changed f h).2
          · exact (E.added f h).2
          · exact h.2.1
          · exact absurd h hg
        · exact hold h
      · exact hold h
  · -- a file which is there is recorded
    obtain ⟨h3, -, h4⟩ := X.at_source hB F hU E (hp.src f h1).1
    rw [F.recorded]
    by_cases hg : f ∈ out.generated.keys
    · exact ⟨(S.generated f hg).2, .inl ⟨(S.generated f hg).2, .inl ((hseed f).2 (.inl (F.fresh f hg).2))⟩⟩
    · rw [h3, h4 hg, E.disk] at h2
      have hnd : f ∉ a.deleted := fun h => E.gone f h h2
      refine ⟨hnd, ?_⟩
      cases hold : contains a.old.dep f with
      | true => exact .inr rfl
      | false =>
        left
        exact ⟨hnd, .inl ((hseed f).2 (.inl ((F.touched f).2 (.inr (.inl (E.new f h1 h2 hold))))))⟩
  · by_cases hr : Rebuilt a out f
    · obtain ⟨r, hrun⟩ := (F.ends f).2 hr
      obtain ⟨h1, h2, h3⟩ := X.ran f r hrun
      have hself : W' f = X.view f f := by
        obtain ⟨e1, e2, -⟩ := X.at_source hB F hU E (hp.src f (hsrc f hf)).1
        rw [e1, e2 f r hrun]
      refine ⟨X.prod f, hB.reads h1 hself fun c hc hn => X.at_read hp hB S F hB0 U E hrun hc hn, fun o y hy => ?_, fun o => ?_, fun c hcr => ?_⟩
      · by_cases hpr : o ∈ r.produced
        · exact X.wrote hB F hrun hpr hy
        · have hown := hB.owned h1 hy
          have hst : X.start o = some y := by
            obtain ⟨hne, hart⟩ := X.reused f r hrun o y hy hpr
            refine hart ?_
            cases hs : startsWith o "artifacts" with
            | true => rfl
            | false =>
              exfalso
              have hng := not_generated hp S hown
              by_cases hu : Unlinked a out o
              · exact hne (X.start_unlinked o hng hu)
              · rw [X.start_kept o hng hu, E.outputs o (by simp [hown])] at hne
                exact hu ⟨⟨f, hr.2, (U.only o f hown hne).2⟩, hs⟩
          have hnw : ¬ ∃ g r, Event.finished g r ∈ out.log ∧ o ∈ r.produced := by
            rintro ⟨g, r', q1, q2⟩
            have e := X.writer hB q1 (c := o) (by simp [q2])
            rw [hown] at e
            cases e
            exact hpr (F.single f r r' hrun q1 ▸ q2)
          obtain ⟨e1, e2⟩ := X.unwritten hp S F E hown hnw fun hw => by
            refine ⟨?_, f, r, hrun, (h3 o).2 ⟨y, hy⟩⟩
            cases hs : startsWith o "artifacts" with
            | true => rfl
            | false =>
              rw [X.start_unlinked o (not_generated hp S hown) ⟨hw, hs⟩] at hst
              cases hst
          rw [e1, ← e2, hst]
      · rw [F.outputs f r hrun, h3]
      · have hchild : ∀ c ∈ (X.prod f).children, (p.src c ∨ p.owner c ≠ none) ∧ (p.source c = f ∨ Edge gs.dep f (p.source c)) := by
          intro c hc
          rcases F.children f r hrun c (by rw [h2]; exact hc) with ⟨q1, q2⟩ | ⟨g, q1, q2⟩
          · have : p.owner c = none := by
              cases hco : p.owner c with
              | none => rfl
              | some g =>
                have := (hp.owner c g hco).2
                rw [q1] at this
                cases this
            exact ⟨.inl (hsrc c ((contains_iff _ _).2 (F.valid.dep.wf.mem_keys_of_kid ((edge_iff _ _ _).1 q2)))),
              .inr (by simpa [Project.source, this] using q2)⟩
          · have hco : p.owner c = some g := by
              unfold MadeBy at q1
              split at q1
              · next x hx =>
                have hm := List.mem_of_find?_eq_some hx
                have hq := List.find?_some hx
                rw [q1]
                exact S.produces x (by simpa using hm) c (by simpa using hq)
              · exact hU _ _ q1
            refine ⟨.inr (by simp [hco]), ?_⟩
            rcases q2 with rfl | q2
            · exact .inl (by simp [Project.source, hco])
            · right; simpa [Project.source, hco] using q2
        by_cases hsf : p.source c = f
        · exact .inl hsf
        · right
          obtain ⟨c', q1, q2⟩ := hB.covers h1 (fun c hc => (hchild c hc).1) hcr hsf
          rw [← q2]
          exact (hchild c' q1).2.resolve_left (by rwa [q2])
    · have hrec := (F.recorded f).1 hf
      have hold := hrec.2.resolve_left hr
      have hna : ¬ Affected a.old (touchedSources a out) f := fun h => hr ⟨hrec.1, h⟩
      obtain ⟨x, h1, h2, h3, h4⟩ := U.built f hold
      have hm : B a.mode f W = some x := by rw [hsame f hold hrec.1 hr]; exact h1
      refine ⟨x, hB.reads hm (huntouched f (hsrc f hf) fun h => hna (.inl h)) fun c hcr hn => ?_, fun o y hy => ?_, fun o => ?_, fun c hcr => ?_⟩
      · have hd := (h4 c hcr).resolve_left hn
        cases hco : p.owner c with
        | none =>
          have hs : p.source c = c := by simp [Project.source, hco]
          rw [hs] at hd
          have hin : contains a.old.dep c = true := (contains_iff _ _).2 (hv.dep.wf.mem_keys_of_kid ((edge_iff _ _ _).1 hd))
          exact huntouched c ((U.files c).1 hin).1 fun h => hna (affected_of_dep hd (.inl h))
        | some g =>
          have hs : p.source c = g := by simp [Project.source, hco]
          rw [hs] at hd
          exact X.at_kept hp hB S F hU E hco fun h => hna (affected_of_dep hd h)
      · rw [X.at_kept hp hB S F hU E (hB.owned hm hy) hna]
        exact h2 o y hy
      · rw [F.keptOutputs f hf hr, h3]
      · rcases h4 c hcr with h | h
        · exact .inl h
        · exact .inr ((F.keptChildren f hf hr _).2 h)
  · -- an output which is there is recorded
    have hd : o ∈ out.disk.files := Classical.byContradiction fun h => hw (X.missing o h)
    have hmade : Made out.log o → contains gs.dep f = true ∧ Edge gs.out f o := by
      rintro ⟨g, r, q1, q2⟩
      have e := X.writer hB q1 q2
      rw [ho] at e
      cases e
      have hr := (F.ends f).1 ⟨r, q1⟩
      exact ⟨(F.recorded f).2 ⟨hr.1, .inl hr⟩, (F.outputs f r q1 o).2 q2⟩
    rcases (F.files o).1 hd with ⟨h1, h2⟩ | ⟨g, r, q1, q2⟩
    · have h1 := h1.resolve_right (not_generated hp S ho)
      have hW : W o ≠ none := by
        rw [← E.outputs o (by simp [ho]), E.disk]
        exact h1
      obtain ⟨e1, e2⟩ := U.only o f ho hW
      by_cases ha : Affected a.old (touchedSources a out) f
      · exact hmade (h2 ⟨f, ha, e2⟩).2
      · have hnd : f ∉ a.deleted := fun h => ha (.inl ((hseed f).2 (.inr h)))
        have hin := (F.recorded f).2 ⟨hnd, .inr e1⟩
        exact ⟨hin, (F.keptOutputs f hin (fun h => ha h.2) o).2 e2⟩
    · exact hmade ⟨g, r, q1, by simp [q2]⟩

/-- If the constants are there and not rebuilt the mode is the same. -/
theorem Facts.same_mode (F : Facts env a d out gs) (hmode : d.mode = none ∨ d.mode = some m0) (E : Edits p a d W W0)
    (hold : contains a.old.dep a.constants = true) (hnd : a.constants ∉ a.deleted) (hr : ¬ Rebuilt a out a.constants) : m0 = a.mode := by
  have hna : ¬ Affected a.old (touchedSources a out) a.constants := fun h => hr ⟨hnd, h⟩
  have hfs : ¬ (a.constants ∈ d.files ∧ d.mode ≠ some a.mode) := fun hh => hna (.inl (by
    simp only [touchedSources, List.mem_append]
    exact .inl ((F.touched _).2 (.inr (.inr (.inl ⟨rfl, hh.1, hh.2⟩))))))
  have hin := E.deleted _ hold hnd
  have hdm : d.mode = some a.mode := Classical.byContradiction fun hh => hfs ⟨hin, hh⟩
  rcases hmode with hh | hh
  · rw [hh] at hdm; cases hdm
  · rw [hh] at hdm; cases hdm; rfl

/-- After a rebuild everything is up to date again. -/
theorem step (hv : ValidGraphs a.old) (hp : p.Lawful) (hB : Pure p B) (hc : a.constants = p.constants) (S : Scans p a out) (F : Facts env a d out gs)
    (U : UpToDate p B m0 W a.old) (hmode : d.mode = none ∨ d.mode = some m0) (E : Edits p a d W W0)
    (X : Exec B a out ph W0 W') : UpToDate p B a.mode W' gs := by
  refine step' hv hp hB hc S F hB U E X fun f hold hnd hr => ?_
  by_cases hfc : f = p.constants
  · rw [← hc] at hfc
    subst hfc
    rw [F.same_mode hmode E hold hnd hr]
  · exact hB.mode hfc

end step

/-! ## A rebuild which has nothing to do -/

theorem idle {env : Env} {a : Args} {d : Disk} (hv : ValidGraphs a.old) (ho : ValidOrder env)
    (hf : (hotRebuild env a d).status = .finished) (hn : (hotRebuild env a d).stored = none) :
    (hotRebuild env a d).log = [] ∧ (hotRebuild env a d).scanned = [] ∧ (hotRebuild env a d).generated = [] ∧
      (hotRebuild env a d).disk.files = d.files := by
  obtain ⟨h1, h2, h3, h4⟩ := C17_finished_stores env a d hv ho hf hn
  have hm : (modeStep a env.sig d).1 = [] := by
    unfold modeStep
    split
    · next hc =>
      rw [if_neg (by simpa using h4 (by simpa using hc))]
      exact h1
    · exact h1
  have hm2 : (modeStep a env.sig d).2.files = d.files := by
    unfold modeStep; split
    · split <;> rfl
    · rfl
  unfold hotRebuild
  simp only
  rw [if_pos (by simp [hm, h2, h3])]
  exact ⟨rfl, rfl, rfl, hm2⟩

theorem idle_step' {p : Project} {B B0 : Builder C} {env : Env} {a : Args} {d : Disk} {m0 : Mode} {W W0 W' ph : Contents C}
    (hv : ValidGraphs a.old) (ho : ValidOrder env) (hB : Pure p B) (U : UpToDate p B0 m0 W a.old) (E : Edits p a d W W0)
    (hsame : ∀ f, contains a.old.dep f = true → B a.mode f W = B0 m0 f W)
    (hf : (hotRebuild env a d).status = .finished) (hn : (hotRebuild env a d).stored = none)
    (X : Exec B a (hotRebuild env a d) ph W0 W') : UpToDate p B a.mode W' a.old := by
  obtain ⟨h1, h2, h3, -⟩ := C17_finished_stores env a d hv ho hf hn
  obtain ⟨i1, i2, i3, i4⟩ := idle hv ho hf hn
  have hW : W' = W0 := by
    funext c
    by_cases hd : c ∈ (hotRebuild env a d).disk.files
    · rw [X.kept c hd (by rw [i1]; simp)]
      refine X.start_kept c (by rw [i3]; simp [Dict.keys]) ?_
      rintro ⟨⟨x, hx, -⟩, -⟩
      simp [Affected, touchedSources, i2, h3, Dict.keys] at hx
    · rw [X.missing c hd]
      rw [i4] at hd
      exact (Classical.byContradiction fun h => hd ((E.disk c).1 fun h' => h h'.symm))
  have hs : ∀ f, p.src f → W0 f = W f := fun f hf => E.same f hf (by simp [h1, Dict.keys]) (by simp [h2, Dict.keys]) (by simp [h3])
  rw [hW]
  have hsrc : ∀ f, contains a.old.dep f = true → p.src f := fun f h => ((U.files f).1 h).1
  refine ⟨fun f => ?_, fun f hf => ?_, fun o f ho' hw => U.only o f ho' (by rwa [← E.outputs o (by simp [ho'])]), U.recorded⟩
  · rw [U.files]
    constructor
    · rintro ⟨q1, q2⟩; exact ⟨q1, by rwa [hs f q1]⟩
    · rintro ⟨q1, q2⟩; exact ⟨q1, by rwa [← hs f q1]⟩
  · obtain ⟨x, q1, q2, q3, q4⟩ := U.built f hf
    have hm : B a.mode f W = some x := by rw [hsame f hf, q1]
    refine ⟨x, hB.reads hm (hs f (hsrc f hf)) fun c hcr hne => ?_, fun o y hy => ?_, q3, q4⟩
    · cases hco : p.owner c with
      | some g => exact E.outputs c (by simp [hco])
      | none =>
        have hd := (q4 c hcr).resolve_left hne
        simp only [Project.source, hco, Option.getD_none] at hd
        exact hs c (hsrc c ((contains_iff _ _).2 (hv.dep.wf.mem_keys_of_kid ((edge_iff _ _ _).1 hd))))
    · rw [E.outputs o (by simp [hB.owned hm hy])]
      exact q2 o y hy

theorem idle_mode {p : Project} {B0 : Builder C} {env : Env} {a : Args} {d : Disk} {m0 : Mode} {W W0 : Contents C}
    (hv : ValidGraphs a.old) (ho : ValidOrder env) (U : UpToDate p B0 m0 W a.old) (hmode : d.mode = none ∨ d.mode = some m0) (E : Edits p a d W W0)
    (hf : (hotRebuild env a d).status = .finished) (hn : (hotRebuild env a d).stored = none) (hold : contains a.old.dep a.constants = true) : m0 = a.mode := by
  obtain ⟨-, -, h3, h4⟩ := C17_finished_stores env a d hv ho hf hn
  have hdm := h4 (E.deleted _ hold (by simp [h3]))
  rcases hmode with hh | hh
  · rw [hh] at hdm; cases hdm
  · rw [hh] at hdm; cases hdm; rfl

theorem idle_step {p : Project} {B : Builder C} {env : Env} {a : Args} {d : Disk} {m0 : Mode} {W W0 W' ph : Contents C}
    (hv : ValidGraphs a.old) (ho : ValidOrder env) (hB : Pure p B) (hc : a.constants = p.constants)
    (U : UpToDate p B m0 W a.old) (hmode : d.mode = none ∨ d.mode = some m0) (E : Edits p a d W W0)
    (hf : (hotRebuild env a d).status = .finished) (hn : (hotRebuild env a d).stored = none)
    (X : Exec B a (hotRebuild env a d) ph W0 W') : UpToDate p B a.mode W' a.old := by
  refine idle_step' hv ho hB U E (fun f hold => ?_) hf hn X
  by_cases hfc : f = p.constants
  · rw [← hc] at hfc
    subst hfc
    rw [idle_mode hv ho U hmode E hf hn hold]
  · exact hB.mode hfc

/-! ## Histories -/

/-- `History p B m W gs dm`: after rebuilds, all of which have finished, the last one in mode `m`, with any edits of the sources
between them, the contents of the files are `W`, the stored graphs `gs` and the stored mode `dm`. -/
inductive History (p : Project) (B : Builder C) : Mode → Contents C → Graphs → Option Mode → Prop
  | empty (m : Mode) (W : Contents C) : (∀ f, p.src f ∨ p.owner f ≠ none → W f = none) → History p B m W ⟨[], [], []⟩ none
  | rebuild {m0 W W0 W' ph} {env : Env} {a : Args} {d : Disk} : History p B m0 W a.old d.mode → ValidOrder env →
      a.constants = p.constants → Edits p a d W W0 → Scans p a (hotRebuild env a d) → Exec B a (hotRebuild env a d) ph W0 W' →
      (hotRebuild env a d).status = .finished →
      History p B a.mode W' ((hotRebuild env a d).stored.getD a.old) (hotRebuild env a d).disk.mode

/-- C79, proved part: after any history of finished rebuilds every source is built, and every output is what building its source
now, in the current mode, would give. -/
theorem History.upToDate {p : Project} {B : Builder C} (hp : p.Lawful) (hB : Pure p B) {m : Mode} {W : Contents C} {gs : Graphs}
    {dm : Option Mode} (h : History p B m W gs dm) :
    UpToDate p B m W gs ∧ ValidGraphs gs ∧ Acyclic gs.dep ∧ (dm = none ∨ dm = some m) := by
  induction h with
  | empty m W hW =>
    have hne : ∀ f, contains [] f = false := fun f => by simp [contains, Dict.has]
    have hed : ∀ f o, ¬ Edge [] f o := fun f o hh => by
      obtain ⟨cs, h1, -⟩ := hh
      simp [getChildren, Dict.get?] at h1
    refine ⟨⟨fun f => ?_, fun f hf => ?_, fun o f ho hw => ?_, fun f o he => absurd he (hed f o)⟩, validGraphs_empty, ?_, .inl rfl⟩
    · simp only [hne]
      constructor
      · intro hh; cases hh
      · rintro ⟨h1, h2⟩; exact absurd (hW f (.inl h1)) h2
    · simp [hne] at hf
    · exact absurd (hW o (.inr (by simp [ho]))) hw
    · intro x hx
      cases hx with
      | one h => exact hed _ _ h
      | more h _ => exact hed _ _ h
  | @rebuild m0 W W0 W' ph env a d hist ho hc E S X hf ih =>
    obtain ⟨U, hv, hac, hm⟩ := ih
    have hmode : (hotRebuild env a d).disk.mode = none ∨ (hotRebuild env a d).disk.mode = some a.mode := by
      rw [hotRebuild_mode]; split <;> simp
    cases hst : (hotRebuild env a d).stored with
    | none => exact ⟨idle_step hv ho hB hc U hm E hf hst X, hv, hac, hmode⟩
    | some gs =>
      obtain ⟨h1, h2, -⟩ := C17_valid env a d hv ho gs hst
      exact ⟨step hv hp hB hc S (facts hv ho hst) U hm E X, h1, h2, hmode⟩

/-! ## What is up to date is determined by the sources -/

theorem acyclic_induction {g : Graph} (hw : WF g) (ha : Acyclic g) {P : String → Prop} (h : ∀ f, (∀ k, Edge g f k → P k) → P f) :
    ∀ f, P f := by
  have key : ∀ n (seen : List String) f, (∀ s ∈ seen, DependsOn g s f) → seen.Nodup → (∀ s ∈ seen, s ∈ g.keys) → f ∈ g.keys →
      g.keys.length ≤ seen.length + n → P f := by
    intro n
    induction n with
    | zero =>
      intro seen f h1 h2 h3 h4 h5
      have hnf : f ∉ seen := fun hh => ha f (h1 f hh)
      have := (List.subperm_of_subset (List.nodup_cons.2 ⟨hnf, h2⟩) (fun x hx => by
        rcases List.mem_cons.1 hx with rfl | hx
        · exact h4
        · exact h3 x hx : f :: seen ⊆ g.keys)).length_le
      simp at this h5
      omega
    | succ n ih =>
      intro seen f h1 h2 h3 h4 h5
      refine h f fun k hk => ih (f :: seen) k ?_ ?_ ?_ ?_ ?_
      · intro s hs
        rcases List.mem_cons.1 hs with rfl | hs
        · exact .one hk
        · exact (h1 s hs).trans (.one hk)
      · exact List.nodup_cons.2 ⟨fun hh => ha f (h1 f hh), h2⟩
      · intro x hx
        rcases List.mem_cons.1 hx with rfl | hx
        · exact h4
        · exact h3 x hx
      · exact hw.mem_keys_of_kid ((edge_iff _ _ _).1 hk)
      · simp; omega
  intro f
  refine h f fun k hk => key g.keys.length [] k (by simp) (by simp) (by simp) (hw.mem_keys_of_kid ((edge_iff _ _ _).1 hk)) (by simp)

theorem UpToDate.unique {p : Project} {B : Builder C} (hB : Pure p B) {m : Mode} {W1 W2 : Contents C} {g1 g2 : Graphs}
    (U1 : UpToDate p B m W1 g1) (U2 : UpToDate p B m W2 g2) (hw : ValidGraphs g1) (ha : Acyclic g1.dep)
    (hs : ∀ f, p.src f → W1 f = W2 f) : ∀ o, p.owner o ≠ none → W1 o = W2 o := by
  have hiff : ∀ f, contains g1.dep f = true ↔ contains g2.dep f = true := by
    intro f
    rw [U1.files, U2.files]
    constructor
    · rintro ⟨h1, h2⟩; exact ⟨h1, by rwa [← hs f h1]⟩
    · rintro ⟨h1, h2⟩; exact ⟨h1, by rwa [hs f h1]⟩
  have key : ∀ f, ∀ o, p.owner o = some f → W1 o = W2 o := by
    refine acyclic_induction hw.dep.wf ha fun f ih o ho => ?_
    by_cases hf : contains g1.dep f = true
    · obtain ⟨x1, a1, a2, a3, a4⟩ := U1.built f hf
      obtain ⟨x2, b1, b2, b3, b4⟩ := U2.built f ((hiff f).1 hf)
      have hx : B m f W2 = some x1 := by
        refine hB.reads a1 (hs f ((U1.files f).1 hf).1).symm fun c hc hn => ?_
        have he := (a4 c hc).resolve_left hn
        cases hco : p.owner c with
        | none =>
          simp only [Project.source, hco, Option.getD_none] at he
          exact (hs c ((U1.files c).1 ((contains_iff _ _).2 (hw.dep.wf.mem_keys_of_kid ((edge_iff _ _ _).1 he)))).1).symm
        | some g =>
          simp only [Project.source, hco, Option.getD_some] at he
          exact (ih g he c hco).symm
      rw [hx] at b1
      cases b1
      by_cases h1 : ∃ y, (o, y) ∈ x1.outputs
      · obtain ⟨y, hy⟩ := h1
        rw [a2 o y hy, b2 o y hy]
      · have e1 : W1 o = none := Classical.byContradiction fun hh => h1 ((a3 o).1 (U1.only o f ho hh).2)
        have e2 : W2 o = none := Classical.byContradiction fun hh => h1 ((b3 o).1 (U2.only o f ho hh).2)
        rw [e1, e2]
    · have e1 : W1 o = none := Classical.byContradiction fun hh => hf (U1.only o f ho hh).1
      have e2 : W2 o = none := Classical.byContradiction fun hh => hf ((hiff f).2 (U2.only o f ho hh).1)
      rw [e1, e2]
  intro o ho
  cases hh : p.owner o with
  | none => exact absurd hh ho
  | some f => exact key f o hh

/-- C79, proved part: two histories of finished rebuilds which end with the same sources and in the same mode end with the same
outputs: the same files with the same contents.  The second one may be a single rebuild of everything. -/
theorem C79_incremental_as_clean_partial {p : Project} {B : Builder C} (hp : p.Lawful) (hB : Pure p B) {m : Mode} {W1 W2 : Contents C}
    {g1 g2 : Graphs} {m1 m2 : Option Mode} (h1 : History p B m W1 g1 m1) (h2 : History p B m W2 g2 m2)
    (hs : ∀ f, p.src f → W1 f = W2 f) : ∀ o, p.owner o ≠ none → W1 o = W2 o := by
  obtain ⟨U1, v1, c1, -⟩ := h1.upToDate hp hB
  obtain ⟨U2, -⟩ := h2.upToDate hp hB
  exact U1.unique hB U2 v1 c1 hs

end Verif.Hot
