import Verif.Session
/-!
# C89, C90: edits during builds, and builds which fail

In `Session.lean` nobody edits files while a build is running, and every build comes to an end.  Here sources may be edited at any
time, and builds may fail or be killed.

What a build records of a source is its signature when the build begins.  So the contents `V` below are those which the sources had
when their recorded signatures were taken, together with the outputs as they are; and `Z` are the sources to which something has
happened in the meantime.
-/
namespace Verif.Hot
open Verif Verif.Graph Verif.Cold

variable {C : Type}

/-- The outputs of `f` are what building it now would give, and the graphs record it. -/
def Fits (p : Project) (B : Builder C) (m : Mode) (V : Contents C) (gs : Graphs) (f : String) : Prop :=
  ∃ x, B m f V = some x ∧ (∀ o y, (o, y) ∈ x.outputs → V o = some y) ∧
    (∀ o, Edge gs.out f o ↔ ∃ y, (o, y) ∈ x.outputs) ∧ ∀ c ∈ x.reads, p.source c = f ∨ Edge gs.dep f (p.source c)

/-- Like `UpToDate`, except for what depends on the files `Z`. -/
structure Nearly (p : Project) (B : Builder C) (m : Mode) (V : Contents C) (gs : Graphs) (Z : List String) : Prop where
  files : ∀ f, contains gs.dep f = true ↔ p.src f ∧ V f ≠ none
  built : ∀ f, contains gs.dep f = true → ¬ Affected gs Z f → Fits p B m V gs f
  only : ∀ o f, p.owner o = some f → V o ≠ none → contains gs.dep f = true ∧ Edge gs.out f o
  recorded : ∀ f o, Edge gs.out f o → contains gs.dep f = true
  owned : ∀ f o, Edge gs.out f o → p.owner o = some f
  marked : ∀ f g, Edge gs.ph f g → contains gs.dep g = true

/-- Like `Exec`, but builds may see anything in place of the sources `Z`. -/
structure Busy (p : Project) (B : Builder C) (a : Args) (out : Outcome) (Z : List String) (ph W0 W : Contents C) where
  sources : ∀ c ∈ Z, p.src c
  view : String → Contents C
  prod : String → Product C
  start : Contents C
  start_generated : ∀ c ∈ out.generated.keys, start c = ph c ∧ ph c ≠ none
  start_unlinked : ∀ c, c ∉ out.generated.keys → Unlinked a out c → start c = none
  start_kept : ∀ c, c ∉ out.generated.keys → ¬ Unlinked a out c → start c = W0 c
  ran : ∀ f r, Event.finished f r ∈ out.log → B a.mode f (view f) = some (prod f) ∧ r.children = (prod f).children ∧
    ∀ o, o ∈ r.produced ++ r.reused ↔ ∃ y, (o, y) ∈ (prod f).outputs
  reused : ∀ f r, Event.finished f r ∈ out.log → ∀ o y, (o, y) ∈ (prod f).outputs → o ∉ r.produced → start o ≠ none ∧
    (startsWith o "artifacts" = true → start o = some y)
  sees : ∀ f r, Event.finished f r ∈ out.log → ∀ c, c ∉ Z → view f c = start c ∨
    ∃ g r', Event.finished g r' ∈ out.log ∧ c ∈ r'.produced ∧ ∃ y, (c, y) ∈ (prod g).outputs ∧ view f c = some y
  missing : ∀ c, c ∉ out.disk.files → W c = none
  written : ∀ c ∈ out.disk.files, (∃ g r, Event.finished g r ∈ out.log ∧ c ∈ r.produced) →
    ∃ g r, Event.finished g r ∈ out.log ∧ c ∈ r.produced ∧ ∃ y, (c, y) ∈ (prod g).outputs ∧ W c = some y
  kept : ∀ c ∈ out.disk.files, (¬ ∃ g r, Event.finished g r ∈ out.log ∧ c ∈ r.produced) → W c = start c

theorem UpToDate.nearly {p : Project} {B : Builder C} {m : Mode} {W : Contents C} {gs : Graphs} (hB : Pure p B) (U : UpToDate p B m W gs)
    (hph : ∀ f g, Edge gs.ph f g → contains gs.dep g = true) (Z : List String) : Nearly p B m W gs Z :=
  ⟨U.files, fun f hf _ => U.built f hf, U.only, U.recorded, fun _ _ => U.owned hB, hph⟩

theorem Nearly.upToDate {p : Project} {B : Builder C} {m : Mode} {W : Contents C} {gs : Graphs} (U : Nearly p B m W gs []) : UpToDate p B m W gs :=
  ⟨U.files, fun f hf => U.built f hf (by simp [Affected]), U.only, U.recorded⟩

section step
variable {Z Z' : List String} {p : Project} {B B0 : Builder C} {env : Env} {a : Args} {d : Disk} {out : Outcome} {gs : Graphs} {m0 : Mode} {ph W W0 W' : Contents C}

/-- A file which is no output has at the end the contents it had when building started. -/
theorem Busy.at_source (hB : Pure p B) (F : Facts env a d out gs) (hU : ∀ f o, Edge a.old.out f o → p.owner o = some f) (E : Edits p a d W W0)
    (X : Busy p B a out Z' ph W0 W') {c : String} (hc : p.owner c = none) :
    W' c = X.start c ∧ (c ∉ Z' → ∀ f r, Event.finished f r ∈ out.log → X.view f c = X.start c) ∧ (c ∉ out.generated.keys → X.start c = W0 c) := by
  have hnw : ¬ ∃ g r, Event.finished g r ∈ out.log ∧ c ∈ r.produced := by
    rintro ⟨g, r, h1, h2⟩
    obtain ⟨h3, -, h4⟩ := X.ran g r h1
    obtain ⟨y, hy⟩ := (h4 c).1 (by simp [h2])
    rw [hB.owned h3 hy] at hc
    cases hc
  have hnu : ¬ WasOutput a out c := by
    rintro ⟨x, -, hx⟩
    rw [hU x c hx] at hc
    cases hc
  have hk : c ∉ out.generated.keys → X.start c = W0 c := fun hg => X.start_kept c hg fun hu => hnu hu.1
  refine ⟨?_, fun hz f r hf => ?_, hk⟩
  · by_cases hd : c ∈ out.disk.files
    · exact X.kept c hd hnw
    · rw [X.missing c hd]
      have h1 := mt (F.files c).2 hd
      simp only [not_or, not_and_or] at h1
      have h2 : c ∉ d.files ∧ c ∉ out.generated.keys := by
        rcases h1.1 with h | h
        · exact h
        · exact absurd (fun hw => absurd hw hnu) h
      rw [hk h2.2]
      exact (Classical.byContradiction fun hn => h2.1 ((E.disk c).1 fun hh => hn hh.symm))
  · rcases X.sees f r hf c hz with h | ⟨g, r', h1, h2, -⟩
    · exact h
    · exact absurd ⟨g, r', h1, h2⟩ hnw

theorem Busy.writer (hB : Pure p B) (X : Busy p B a out Z' ph W0 W') {g : String} {r : BuildResult} (h : Event.finished g r ∈ out.log)
    {c : String} (hc : c ∈ r.produced ++ r.reused) : p.owner c = some g := by
  obtain ⟨h3, -, h4⟩ := X.ran g r h
  obtain ⟨y, hy⟩ := (h4 c).1 hc
  exact hB.owned h3 hy

/-- An output which no build has written has the contents it had before, or it is gone. -/
theorem Busy.unwritten (hp : p.Lawful) (S : Scans p a out) (F : Facts env a d out gs) (E : Edits p a d W W0)
    (X : Busy p B a out Z' ph W0 W') {c g : String} (hc : p.owner c = some g) (hn : ¬ ∃ g r, Event.finished g r ∈ out.log ∧ c ∈ r.produced)
    (hw : WasOutput a out c → startsWith c "artifacts" = true ∧ Made out.log c) : W' c = W c ∧ X.start c = W c := by
  have hg := not_generated hp S hc
  have hst : X.start c = W0 c := X.start_kept c hg fun hu => by
    have h1 := (hw hu.1).1
    rw [hu.2] at h1
    cases h1
  have he : W0 c = W c := E.outputs c (by simp [hc])
  refine ⟨?_, by rw [hst, he]⟩
  by_cases hd : c ∈ out.disk.files
  · rw [X.kept c hd hn, hst, he]
  · rw [X.missing c hd, ← he]
    refine Classical.byContradiction fun hh => hd ((F.files c).2 (.inl ⟨.inl ((E.disk c).1 fun h => hh h.symm), hw⟩))

/-- An output which some build has written has the contents which that build gave it. -/
theorem Busy.wrote (hB : Pure p B) (F : Facts env a d out gs) (X : Busy p B a out Z' ph W0 W') {c g : String} {r : BuildResult}
    (hf : Event.finished g r ∈ out.log) (hc : c ∈ r.produced) {y : C} (hy : (c, y) ∈ (X.prod g).outputs) : W' c = some y := by
  have hd : c ∈ out.disk.files := (F.files c).2 (.inr ⟨g, r, hf, hc⟩)
  obtain ⟨g', r', h1, h2, z, h3, h4⟩ := X.written c hd ⟨g, r, hf, hc⟩
  have e1 := X.writer hB hf (c := c) (by simp [hc])
  have e2 := X.writer hB h1 (c := c) (by simp [h2])
  rw [e1] at e2
  cases e2
  rw [h4, hB.once (X.ran g r hf).1 h3 hy]

/-- A file which is not rebuilt keeps its outputs. -/
theorem Busy.at_kept (hp : p.Lawful) (hB : Pure p B) (S : Scans p a out) (F : Facts env a d out gs) (hU : ∀ f o, Edge a.old.out f o → p.owner o = some f)
    (E : Edits p a d W W0) (X : Busy p B a out Z' ph W0 W') {c g : String} (hc : p.owner c = some g) (hr : ¬ Affected a.old (touchedSources a out) g) : W' c = W c := by
  refine (X.unwritten hp S F E hc ?_ ?_).1
  · rintro ⟨g', r, h1, h2⟩
    have e := X.writer hB h1 (c := c) (by simp [h2])
    rw [hc] at e
    cases e
    exact hr ((F.ends g).1 ⟨r, h1⟩).2
  · rintro ⟨x, h1, h2⟩
    have e := hU x c h2
    rw [hc] at e
    cases e
    exact absurd h1 hr

/-- What a build has read is there in the end. -/
theorem Busy.at_read (hp : p.Lawful) (hB : Pure p B) (S : Scans p a out) (F : Facts env a d out gs) (U : Nearly p B0 m0 W a.old Z)
    (E : Edits p a d W W0) (X : Busy p B a out Z' ph W0 W') {f : String} {r : BuildResult} (hf : Event.finished f r ∈ out.log) {c : String} (hc : c ∈ (X.prod f).reads)
    (hn : p.source c ≠ f) (hz : c ∉ Z') : W' c = X.view f c := by
  have hran := (X.ran f r hf).1
  cases ho : p.owner c with
  | none =>
    obtain ⟨h1, h2, -⟩ := X.at_source hB F (U.owned) E ho
    rw [h1, h2 hz f r hf]
  | some g =>
    have hart := hB.plain hran hc (by simp [ho]) hn
    have hne := hB.strict hran hc hn
    have hst : X.start c ≠ none → ¬ WasOutput a out c := by
      intro h1 h2
      exact h1 (X.start_unlinked c (not_generated hp S ho) ⟨h2, hart⟩)
    by_cases hw : ∃ g r, Event.finished g r ∈ out.log ∧ c ∈ r.produced
    · obtain ⟨g', r', h1, h2⟩ := hw
      have e := X.writer hB h1 (c := c) (by simp [h2])
      rw [ho] at e
      cases e
      rcases X.sees f r hf c hz with h | ⟨g', r2, h3, h4, y, h5, h6⟩
      · exfalso
        rw [h] at hne
        have hnw := hst hne
        have h7 : X.start c = W0 c := X.start_kept c (not_generated hp S ho) fun hu => hnw hu.1
        rw [h7, E.outputs c (by simp [ho])] at hne
        exact hnw ⟨g, ((F.ends g).1 ⟨r', h1⟩).2, (U.only c g ho hne).2⟩
      · have e := X.writer hB h3 (c := c) (by simp [h4])
        rw [ho] at e
        cases e
        rw [h6, X.wrote hB F h3 h4 h5]
    · rcases X.sees f r hf c hz with h | ⟨g', r2, h3, h4, -⟩
      · rw [h] at hne
        have hnw := hst hne
        obtain ⟨h1, h2⟩ := X.unwritten hp S F E ho hw fun h => absurd h hnw
        rw [h, h1, h2]
      · exact absurd ⟨g', r2, h3, h4⟩ hw

/-- After a rebuild with another builder everything is up to date, if it builds the files which have not been rebuilt as the one before. -/
theorem Nearly.step (hv : ValidGraphs a.old) (hp : p.Lawful) (hB : Pure p B) (hc : a.constants = p.constants) (S : Scans p a out) (F : Facts env a d out gs)
    (U : Nearly p B0 m0 W a.old Z) (E : Edits p a d W W0) (X : Busy p B a out Z' ph W0 W')
    (hbad : ∀ f, contains a.old.dep f = true → Affected a.old Z f → Affected a.old (touchedSources a out) f) (hph : ∀ f g, Edge gs.ph f g → contains gs.dep g = true)
    (hsame : ∀ f, contains a.old.dep f = true → f ∉ a.deleted → ¬ Rebuilt a out f → B a.mode f W = B0 m0 f W) : Nearly p B a.mode W' gs Z' := by
  have hU : ∀ f o, Edge a.old.out f o → p.owner o = some f := U.owned
  have hseed : ∀ f, f ∈ touchedSources a out ↔ f ∈ out.scanned.keys ∨ f ∈ a.deleted := by
    intro f; simp [touchedSources]
  have hsrcS : ∀ f ∈ out.scanned.keys, p.src f := by
    intro f hf
    rcases (F.touched f).1 hf with h | h | h | h
    · exact (E.changed f h).1
    · exact (E.added f h).1
    · rw [h.1, hc]; exact S.constants
    · exact (S.generated f h).1
  have hsrc : ∀ f, contains gs.dep f = true → p.src f := by
    intro f hf
    rcases ((F.recorded f).1 hf).2 with h | h
    · rcases F.known f h with h | h
      · exact hsrcS f h
      · exact ((U.files f).1 h).1
    · exact ((U.files f).1 h).1
  -- a source which is not touched
  have huntouched : ∀ c, p.src c → c ∉ touchedSources a out → W' c = W c := by
    intro c hcs hct
    have hct := mt (hseed c).2 hct
    simp only [not_or] at hct
    have h1 := mt (F.touched c).2 hct.1
    simp only [not_or] at h1
    obtain ⟨h2, -, h3⟩ := X.at_source hB F hU E (hp.src c hcs).1
    rw [h2, h3 h1.2.2.2]
    exact E.same c hcs h1.1 h1.2.1 hct.2
  refine ⟨fun f => ⟨fun hf => ⟨hsrc f hf, ?_⟩, fun ⟨h1, h2⟩ => ?_⟩, fun f hf hz' => ?_, fun o f ho hw => ?_, F.noOutputs, fun f o he => ?_, hph⟩
  · -- the file is there
    obtain ⟨h2, -, h3⟩ := X.at_source hB F hU E (hp.src f (hsrc f hf)).1
    rw [h2]
    by_cases hg : f ∈ out.generated.keys
    · obtain ⟨e1, e2⟩ := X.start_generated f hg
      rw [e1]; exact e2
    · rw [h3 hg, E.disk]
      have hr := (F.recorded f).1 hf
      have hold : contains a.old.dep f = true → f ∈ d.files := fun h => E.deleted f h hr.1
      rcases hr.2 with h | h
      · rcases F.known f h with h | h
        · rcases (F.touched f).1 h with h | h | h | h
          · exact (E.changed f h).2
          · exact (E.added f h).2
          · exact h.2.1
          · exact absurd h hg
        · exact hold h
      · exact hold h
  · -- a file which is there is recorded
    obtain ⟨h3, -, h4⟩ := X.at_source hB F hU E (hp.src f h1).1
    rw [F.recorded]
    by_cases hg : f ∈ out.generated.keys
    · exact ⟨(S.generated f hg).2, .inl ⟨(S.generated f hg).2, .inl ((hseed f).2 (.inl (F.fresh f hg).2))⟩⟩
    · rw [h3, h4 hg, E.disk] at h2
      have hnd : f ∉ a.deleted := fun h => E.gone f h h2
      refine ⟨hnd, ?_⟩
      cases hold : contains a.old.dep f with
      | true => exact .inr rfl
      | false =>
        left
        exact ⟨hnd, .inl ((hseed f).2 (.inl ((F.touched f).2 (.inr (.inl (E.new f h1 h2 hold))))))⟩
  · by_cases hr : Rebuilt a out f
    · obtain ⟨r, hrun⟩ := (F.ends f).2 hr
      obtain ⟨h1, h2, h3⟩ := X.ran f r hrun
      have hself : W' f = X.view f f := by
        obtain ⟨e1, e2, -⟩ := X.at_source hB F hU E (hp.src f (hsrc f hf)).1
        rw [e1, e2 (fun h => hz' (.inl h)) f r hrun]
      have hedge : ∀ c ∈ (X.prod f).reads, p.source c = f ∨ Edge gs.dep f (p.source c) := by
        intro c hcr
        have hchild : ∀ c ∈ (X.prod f).children, (p.src c ∨ p.owner c ≠ none) ∧ (p.source c = f ∨ Edge gs.dep f (p.source c)) := by
          intro c hc
          rcases F.children f r hrun c (by rw [h2]; exact hc) with ⟨q1, q2⟩ | ⟨g, q1, q2⟩
          · have : p.owner c = none := by
              cases hco : p.owner c with
              | none => rfl
              | some g =>
                have := (hp.owner c g hco).2
                rw [q1] at this
                cases this
            exact ⟨.inl (hsrc c ((contains_iff _ _).2 (F.valid.dep.wf.mem_keys_of_kid ((edge_iff _ _ _).1 q2)))),
              .inr (by simpa [Project.source, this] using q2)⟩
          · have hco : p.owner c = some g := by
              unfold MadeBy at q1
              split at q1
              · next x hx =>
                have hm := List.mem_of_find?_eq_some hx
                have hq := List.find?_some hx
                rw [q1]
                exact S.produces x (by simpa using hm) c (by simpa using hq)
              · exact hU _ _ q1
            refine ⟨.inr (by simp [hco]), ?_⟩
            rcases q2 with rfl | q2
            · exact .inl (by simp [Project.source, hco])
            · right; simpa [Project.source, hco] using q2
        by_cases hsf : p.source c = f
        · exact .inl hsf
        · right
          obtain ⟨c', q1, q2⟩ := hB.covers h1 (fun c hc => (hchild c hc).1) hcr hsf
          rw [← q2]
          exact (hchild c' q1).2.resolve_left (by rwa [q2])
      refine ⟨X.prod f, hB.reads h1 hself fun c hc hn => X.at_read hp hB S F U E hrun hc hn fun hz => ?_, fun o y hy => ?_, fun o => ?_, hedge⟩
      · have h5 := (hedge c hc).resolve_left hn
        rw [show p.source c = c by simp [Project.source, (hp.src c (X.sources c hz)).1]] at h5
        exact hz' (.inr ⟨c, hz, .one (.inl h5)⟩)
      · by_cases hpr : o ∈ r.produced
        · exact X.wrote hB F hrun hpr hy
        · have hown := hB.owned h1 hy
          have hst : X.start o = some y := by
            obtain ⟨hne, hart⟩ := X.reused f r hrun o y hy hpr
            refine hart ?_
            cases hs : startsWith o "artifacts" with
            | true => rfl
            | false =>
              exfalso
              have hng := not_generated hp S hown
              by_cases hu : Unlinked a out o
              · exact hne (X.start_unlinked o hng hu)
              · rw [X.start_kept o hng hu, E.outputs o (by simp [hown])] at hne
                exact hu ⟨⟨f, hr.2, (U.only o f hown hne).2⟩, hs⟩
          have hnw : ¬ ∃ g r, Event.finished g r ∈ out.log ∧ o ∈ r.produced := by
            rintro ⟨g, r', q1, q2⟩
            have e := X.writer hB q1 (c := o) (by simp [q2])
            rw [hown] at e
            cases e
            exact hpr (F.single f r r' hrun q1 ▸ q2)
          obtain ⟨e1, e2⟩ := X.unwritten hp S F E hown hnw fun hw => by
            refine ⟨?_, f, r, hrun, (h3 o).2 ⟨y, hy⟩⟩
            cases hs : startsWith o "artifacts" with
            | true => rfl
            | false =>
              rw [X.start_unlinked o (not_generated hp S hown) ⟨hw, hs⟩] at hst
              cases hst
          rw [e1, ← e2, hst]
      · rw [F.outputs f r hrun, h3]
    · have hrec := (F.recorded f).1 hf
      have hold := hrec.2.resolve_left hr
      have hna : ¬ Affected a.old (touchedSources a out) f := fun h => hr ⟨hrec.1, h⟩
      obtain ⟨x, h1, h2, h3, h4⟩ := U.built f hold fun h => hna (hbad f hold h)
      have hm : B a.mode f W = some x := by rw [hsame f hold hrec.1 hr]; exact h1
      refine ⟨x, hB.reads hm (huntouched f (hsrc f hf) fun h => hna (.inl h)) fun c hcr hn => ?_, fun o y hy => ?_, fun o => ?_, fun c hcr => ?_⟩
      · have hd := (h4 c hcr).resolve_left hn
        cases hco : p.owner c with
        | none =>
          have hs : p.source c = c := by simp [Project.source, hco]
          rw [hs] at hd
          have hin : contains a.old.dep c = true := (contains_iff _ _).2 (hv.dep.wf.mem_keys_of_kid ((edge_iff _ _ _).1 hd))
          exact huntouched c ((U.files c).1 hin).1 fun h => hna (affected_of_dep hd (.inl h))
        | some g =>
          have hs : p.source c = g := by simp [Project.source, hco]
          rw [hs] at hd
          exact X.at_kept hp hB S F hU E hco fun h => hna (affected_of_dep hd h)
      · rw [X.at_kept hp hB S F hU E (hB.owned hm hy) hna]
        exact h2 o y hy
      · rw [F.keptOutputs f hf hr, h3]
      · rcases h4 c hcr with h | h
        · exact .inl h
        · exact .inr ((F.keptChildren f hf hr _).2 h)
  · -- an output which is there is recorded
    have hd : o ∈ out.disk.files := Classical.byContradiction fun h => hw (X.missing o h)
    have hmade : Made out.log o → contains gs.dep f = true ∧ Edge gs.out f o := by
      rintro ⟨g, r, q1, q2⟩
      have e := X.writer hB q1 q2
      rw [ho] at e
      cases e
      have hr := (F.ends f).1 ⟨r, q1⟩
      exact ⟨(F.recorded f).2 ⟨hr.1, .inl hr⟩, (F.outputs f r q1 o).2 q2⟩
    rcases (F.files o).1 hd with ⟨h1, h2⟩ | ⟨g, r, q1, q2⟩
    · have h1 := h1.resolve_right (not_generated hp S ho)
      have hW : W o ≠ none := by
        rw [← E.outputs o (by simp [ho]), E.disk]
        exact h1
      obtain ⟨e1, e2⟩ := U.only o f ho hW
      by_cases ha : Affected a.old (touchedSources a out) f
      · exact hmade (h2 ⟨f, ha, e2⟩).2
      · have hnd : f ∉ a.deleted := fun h => ha (.inl ((hseed f).2 (.inr h)))
        have hin := (F.recorded f).2 ⟨hnd, .inr e1⟩
        exact ⟨hin, (F.keptOutputs f hin (fun h => ha h.2) o).2 e2⟩
    · exact hmade ⟨g, r, q1, by simp [q2]⟩
  · -- recorded outputs belong to their sources
    by_cases hr : Rebuilt a out f
    · obtain ⟨r, hrun⟩ := (F.ends f).2 hr
      exact X.writer hB hrun ((F.outputs f r hrun o).1 he)
    · exact U.owned f o ((F.keptOutputs f (F.noOutputs f o he) hr o).1 he)

end step

/-! ## Handlers -/

/-- Like `Work`, but builds may see anything in place of the sources `Z`: they have been edited since the build began. -/
structure BusyWork (p : Project) (t : Tool C) (a : Args) (out : Outcome) (Z : List String) (W0 W : Contents C) where
  sources : ∀ c ∈ Z, p.src c
  view : String → Contents C
  wrote : String → Contents C
  start : Contents C
  start_unlinked : ∀ c, Unlinked a out c → start c = none
  start_kept : ∀ c, ¬ Unlinked a out c → start c = W0 c
  ran : ∀ f r, Event.finished f r ∈ out.log → t.build a.mode f (view f) = some (r, wrote f)
  sees : ∀ f r, Event.finished f r ∈ out.log → ∀ c, c ∉ Z → view f c = start c ∨
    ∃ g r', g ≠ f ∧ Event.finished g r' ∈ out.log ∧ c ∈ r'.produced ∧ view f c = wrote g c
  missing : ∀ c, c ∉ out.disk.files → W c = none
  written : ∀ c ∈ out.disk.files, (∃ g r, Event.finished g r ∈ out.log ∧ c ∈ r.produced) →
    ∃ g r, Event.finished g r ∈ out.log ∧ c ∈ r.produced ∧ W c = wrote g c
  kept : ∀ c ∈ out.disk.files, (¬ ∃ g r, Event.finished g r ∈ out.log ∧ c ∈ r.produced) → W c = start c

/-- A build during which nothing is edited. -/
def Work.busy {p : Project} {t : Tool C} {a : Args} {out : Outcome} {W0 W : Contents C} (X : Work t a out W0 W) : BusyWork p t a out [] W0 W where
  sources := by simp
  view := X.view
  wrote := X.wrote
  start := X.start
  start_unlinked := X.start_unlinked
  start_kept := X.start_kept
  ran := X.ran
  sees := fun f r h c _ => X.sees f r h c
  missing := X.missing
  written := X.written
  kept := X.kept

section work
variable {Z Z' : List String} {p : Project} {t : Tool C} {env : Env} {a : Args} {d : Disk} {out : Outcome} {gs : Graphs} {m0 : Mode} {W W0 W' : Contents C}

theorem Facts.src_nearly (F : Facts env a d out gs) (S : Scans p a out) {B : Builder C} (hc : a.constants = p.constants) (U : Nearly p B m0 W a.old Z)
    (E : Edits p a d W W0) {f : String} {r : BuildResult} (h : Event.finished f r ∈ out.log) : p.src f := by
  rcases F.known f ((F.ends f).1 ⟨r, h⟩) with h | h
  · rcases (F.touched f).1 h with h | h | h | h
    · exact (E.changed f h).1
    · exact (E.added f h).1
    · rw [h.1, hc]; exact S.constants
    · exact (S.generated f h).1
  · exact ((U.files f).1 h).1

theorem BusyWork.bare (hp : p.Lawful) (ht : t.Lawful p) (F : Facts env a d out gs) (S : Scans p a out) (hc : a.constants = p.constants)
    {B0 : Builder C} (U : Nearly p B0 m0 W a.old Z) (E : Edits p a d W W0) (X : BusyWork p t a out Z' W0 W') {f : String} {r : BuildResult}
    (h : Event.finished f r ∈ out.log) : Bare p f (X.view f) := by
  intro o ho
  have hz : o ∉ Z' := fun hz => by
    have := (hp.src o (X.sources o hz)).1
    rw [ho] at this
    cases this
  rcases X.sees f r h o hz with h1 | ⟨g, r', h1, h2, h3, -⟩
  · rw [h1]
    refine Classical.byContradiction fun hn => ?_
    by_cases hu : Unlinked a out o
    · exact hn (X.start_unlinked o hu)
    · rw [X.start_kept o hu, E.outputs o (by simp [ho])] at hn
      exact hu ⟨⟨f, ((F.ends f).1 ⟨r, h⟩).2, (U.only o f ho hn).2⟩, ht.plain ho⟩
  · have := ht.own (F.src_nearly S hc U E h2) (X.ran g r' h2) (o := o) (by simp [h3])
    rw [ho] at this
    cases this
    exact absurd rfl h1

theorem BusyWork.product (hp : p.Lawful) (ht : t.Lawful p) (F : Facts env a d out gs) (S : Scans p a out) (hc : a.constants = p.constants)
    {B0 : Builder C} (U : Nearly p B0 m0 W a.old Z) (E : Edits p a d W W0) (X : BusyWork p t a out Z' W0 W') {f : String} {r : BuildResult}
    (h : Event.finished f r ∈ out.log) : t.builder p a.mode f (X.view f) = some (t.product f (r, X.wrote f)) ∧ r.reused = [] ∧
      ∀ o ∈ r.produced, ∃ y, X.wrote f o = some y := by
  have hs := F.src_nearly S hc U E h
  have hb := X.bare hp ht F S hc U E h
  have hr := X.ran f r h
  obtain ⟨V', h1, h2⟩ := ht.reads (V := hide p f (X.view f)) hs hr hb (hide_bare _ _ _) (hide_other (hp.owner_src hs f))
    fun c _ hn => hide_other fun h => hn (source_owner h)
  obtain ⟨h3, h4⟩ := ht.bare hs hr hb
  refine ⟨?_, h3, fun o ho => Option.ne_none_iff_exists'.1 (h4 o ho)⟩
  unfold Tool.builder
  rw [if_pos hs, h1]
  simp only [Option.map_some]
  rw [Tool.product_congr h2]

/-- Such a rebuild is one of the builder. -/
noncomputable def BusyWork.exec (hp : p.Lawful) (ht : t.Lawful p) (F : Facts env a d out gs) (S : Scans p a out) (hg : out.generated = [])
    (hc : a.constants = p.constants) {B0 : Builder C} (U : Nearly p B0 m0 W a.old Z) (E : Edits p a d W W0) (X : BusyWork p t a out Z' W0 W') :
    Busy p (t.builder p) a out Z' (fun _ => none) W0 W' := by
  classical
  have key := fun {f r} (h : Event.finished f r ∈ out.log) => X.product hp ht F S hc U E h
  let prod : String → Product C := fun f => (t.builder p a.mode f (X.view f)).getD ⟨[], [], []⟩
  have hprod : ∀ {f r}, Event.finished f r ∈ out.log → prod f = t.product f (r, X.wrote f) := fun h => by simp [prod, (key h).1]
  have hout : ∀ {f r o}, Event.finished f r ∈ out.log → o ∈ r.produced → ∃ y, (o, y) ∈ (prod f).outputs ∧ X.wrote f o = some y := fun h ho => by
    obtain ⟨y, hy⟩ := (key h).2.2 _ ho
    exact ⟨y, by rw [hprod h]; exact Tool.mem_outputs.2 ⟨ho, hy⟩, hy⟩
  exact {
    sources := X.sources
    view := X.view
    prod := prod
    start := X.start
    start_generated := by rw [hg]; simp [Dict.keys]
    start_unlinked := fun c _ h => X.start_unlinked c h
    start_kept := fun c _ h => X.start_kept c h
    ran := fun f r h => by
      refine ⟨by rw [(key h).1, hprod h], by rw [hprod h]; rfl, fun o => ?_⟩
      rw [(key h).2.1, List.append_nil]
      constructor
      · intro ho
        obtain ⟨y, hy, -⟩ := hout h ho
        exact ⟨y, hy⟩
      · rintro ⟨y, hy⟩
        rw [hprod h] at hy
        exact (Tool.mem_outputs.1 hy).1
    reused := fun f r h o y hy hn => by
      rw [hprod h] at hy
      exact absurd (Tool.mem_outputs.1 hy).1 hn
    sees := fun f r h c hz => by
      rcases X.sees f r h c hz with h1 | ⟨g, r', -, h2, h3, h4⟩
      · exact .inl h1
      · obtain ⟨y, h5, h6⟩ := hout h2 h3
        exact .inr ⟨g, r', h2, h3, y, h5, by rw [h4, h6]⟩
    missing := X.missing
    written := fun c hd hw => by
      obtain ⟨g, r, h1, h2, h3⟩ := X.written c hd hw
      obtain ⟨y, h5, h6⟩ := hout h1 h2
      exact ⟨g, r, h1, h2, y, h5, by rw [h3, h6]⟩
    kept := X.kept }

/-- A rebuild which builds nothing. -/
noncomputable def BusyWork.idle {B : Builder C} (hl : out.log = []) (hg : out.generated = []) (X : BusyWork p t a out Z' W0 W') : Exec B a out (fun _ => none) W0 W' where
  view := X.view
  prod := fun _ => ⟨[], [], []⟩
  start := X.start
  start_generated := by rw [hg]; simp [Dict.keys]
  start_unlinked := fun c _ h => X.start_unlinked c h
  start_kept := fun c _ h => X.start_kept c h
  ran := by rw [hl]; simp
  reused := by rw [hl]; simp
  sees := by rw [hl]; simp
  missing := X.missing
  written := by rw [hl]; simp
  kept := X.kept

/-- Placeholders are recorded. -/
theorem marked_step (hv : ValidGraphs a.old) (ho : ValidOrder env) (hg : (hotRebuild env a d).generated = []) {gs : Graphs}
    (h : (hotRebuild env a d).stored = some gs) {f g : String} (he : Edge gs.ph f g) : contains gs.dep g = true := by
  obtain ⟨P, hP⟩ := stored_phases h
  rw [hP] at h hg
  obtain ⟨s1, -, -, -, -, -, hn⟩ := P.stored_spec hv ho h
  obtain ⟨-, -, -, -, -, -, -, -, k⟩ := newGraphs_spec ho hn
  rcases (k f g).1 ((edge_iff _ _ _).1 he) with h1 | ⟨n, -, h1, -⟩
  · rw [P.result_generated] at hg
    rw [hg] at h1
    cases h1
  · exact (contains_iff _ _).2 h1

/-- What is known of the mode. -/
def ModeKnown (p : Project) (gs : Graphs) (Z : List String) (dm : Option Mode) (m : Mode) : Prop := Affected gs Z p.constants ∨ dm = none ∨ dm = some m

/-- After a finished rebuild everything is up to date except for what depends on the files which have been edited during the build. -/
theorem Nearly.finished (hv : ValidGraphs a.old) (hp : p.Lawful) (ht : t.Lawful p) (ho : ValidOrder env) (hs : Scanned t env) (hsrc : p.src p.constants)
    (hc : a.constants = p.constants) (U : Nearly p (t.builder p) m0 W a.old Z) (hm : ModeKnown p a.old Z d.mode m0) (E : Edits p a d W W0)
    (hbad : ∀ f, contains a.old.dep f = true → Affected a.old Z f → Affected a.old (touchedSources a (hotRebuild env a d)) f)
    (hf : (hotRebuild env a d).status = .finished) (X : BusyWork p t a (hotRebuild env a d) Z' W0 W') :
    Nearly p (t.builder p) a.mode W' ((hotRebuild env a d).stored.getD a.old) Z' ∧ (ValidGraphs ((hotRebuild env a d).stored.getD a.old) ∧
      (Acyclic a.old.dep → Acyclic ((hotRebuild env a d).stored.getD a.old).dep)) ∧
      ModeKnown p ((hotRebuild env a d).stored.getD a.old) Z' (hotRebuild env a d).disk.mode a.mode ∧
      (∀ f, p.src f → W' f = W0 f) := by
  have hB := ht.pure hp
  obtain ⟨S, hg⟩ := scans_of (a := a) (d := d) ht hs hsrc hf
  have hmode : (hotRebuild env a d).disk.mode = none ∨ (hotRebuild env a d).disk.mode = some a.mode := by
    rw [hotRebuild_mode]; split <;> simp
  cases hst : (hotRebuild env a d).stored with
  | none =>
    obtain ⟨e1, e2, e3, -⟩ := C17_finished_stores env a d hv ho hf hst
    have hi := Hot.idle hv ho hf hst
    have hno : ∀ f, contains a.old.dep f = true → ¬ Affected a.old Z f := fun f hf ha => by
      have := hbad f hf ha
      simp [Affected, touchedSources, hi.2.1, e3, Dict.keys] at this
    have U0 : UpToDate p (t.builder p) m0 W a.old := ⟨U.files, fun f hf => U.built f hf (hno f hf), U.only, U.recorded⟩
    have X0 : Exec (t.builder p) a (hotRebuild env a d) (fun _ => none) W0 W' := X.idle hi.1 hg
    have hsame : ∀ f, contains a.old.dep f = true → t.builder p a.mode f W = t.builder p m0 f W := fun f hold => by
      by_cases hfc : f = p.constants
      · rw [← hc] at hfc
        subst hfc
        rw [idle_mode hv ho U0 (hm.resolve_left (by rw [← hc]; exact hno _ hold)) E hf hst hold]
      · exact hB.mode hfc
    refine ⟨(idle_step' hv ho hB U0 E hsame hf hst X0).nearly hB U.marked Z', ⟨hv, id⟩, .inr hmode, fun f hfs => ?_⟩
    have hnu : ¬ Unlinked a (hotRebuild env a d) f := by
      rintro ⟨⟨x, -, hx⟩, -⟩
      have := U.owned x f hx
      rw [(hp.src f hfs).1] at this
      cases this
    by_cases hd : f ∈ (hotRebuild env a d).disk.files
    · rw [X.kept f hd (by rw [hi.1]; simp), X.start_kept f hnu]
    · rw [X.missing f hd]
      rw [hi.2.2.2] at hd
      exact Classical.byContradiction fun h => hd ((E.disk f).1 fun h' => h h'.symm)
  | some gs =>
    have F := facts hv ho hst
    have X' := X.exec hp ht F S hg hc U E
    refine ⟨U.step hv hp hB hc S F E X' hbad (fun f g => marked_step hv ho hg hst) fun f hold hnd hr => ?_, ⟨(C17_valid env a d hv ho gs hst).1, fun _ => (C17_valid env a d hv ho gs hst).2.1⟩, .inr hmode, fun f hfs => ?_⟩
    · by_cases hfc : f = p.constants
      · rw [← hc] at hfc
        subst hfc
        have hna : ¬ Affected a.old Z a.constants := fun h => hr ⟨hnd, hbad _ hold h⟩
        rw [F.same_mode (hm.resolve_left (by rw [← hc]; exact hna)) E hold hnd hr]
      · exact hB.mode hfc
    · obtain ⟨k1, -, k2⟩ := X'.at_source hB F U.owned E (hp.src f hfs).1
      rw [k1, k2 (by rw [hg]; simp [Dict.keys])]
end work

end Verif.Hot
