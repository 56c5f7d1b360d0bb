import Verif.HotBusy
/-!
# C89, C90: courses of work

Sessions as in `Session.lean`, except that sources may be edited while builds are running, and that builds may fail or be killed.
-/
namespace Verif.Hot
open Verif Verif.Graph Verif.Cold

variable {C : Type}

/-! ## Specification -/

/-- The files which are new to a rebuild: those given as such, and the constants if they have been built for another mode. -/
def newIn (a : Args) (d : Disk) : List String :=
  a.changed.keys ++ a.added.keys ++ a.deleted ++ if a.constants ∈ d.files ∧ d.mode ≠ some a.mode then [a.constants] else []

/-- What a rebuild may have done to the files if it has failed, or has been killed before it began to store the graphs: it has
removed recorded outputs of files which it was going to build, and builds which it had started have written something into their
outputs. -/
def Broke (p : Project) (a : Args) (d : Disk) (out : Outcome) (W0 W : Contents C) : Prop :=
  ∀ c, W c = W0 c ∨ (W c = none ∧ ∃ x, Affected a.old (newIn a d) x ∧ Edge a.old.out x c) ∨ ∃ g, Event.started g ∈ out.log ∧ p.owner c = some g

/-- `Breaks p t V gs dm V' dm' S`: a rebuild has been broken off, which has been given the files `S` as new.  It has left no outputs
but recorded ones: if it has built a file then it was not for the first time, nor has it written other outputs than before. -/
inductive Breaks (p : Project) (t : Tool C) (V : Contents C) : Graphs → Option Mode → Contents C → Option Mode → List String → Prop
  | mk {V' W0 W : Contents C} {env : Env} {a : Args} {d : Disk} {dm' : Option Mode} (order : ValidOrder env) (scans : Scanned t env)
      (constants : a.constants = p.constants) (outputs : ∀ o, p.owner o ≠ none → W0 o = V o) (broke : Broke p a d (hotRebuild env a d) W0 W)
      (given : ∀ f ∈ newIn a d, p.src f)
      (left : ∀ o f, p.owner o = some f → W o ≠ none → V o ≠ none ∨ Edge a.old.out f o)
      (mode : dm' = d.mode ∨ dm' = (hotRebuild env a d).disk.mode)
      (sources : ∀ f, p.src f → V' f = V f) (after : ∀ o, p.owner o ≠ none → V' o = W o) :
      Breaks p t V a.old d.mode V' dm' (newIn a d)

/-- Like `Runs`, with edits of the sources `Z'` after the build has begun.  `Z` are the sources to which something has happened since
the last finished build began; unless they are gone each of them has got another signature in the meantime. -/
inductive BusyRuns (p : Project) (t : Tool C) (content : String → Sig → C) (V : Contents C) (Z : List String) :
    Graphs → Option Mode → Mode → Contents C → Graphs → Option Mode → List String → Prop
  | mk {W0 V' : Contents C} {env : Env} {a : Args} {d : Disk} {walk : List (String × Sig)} {Z' : List String} (order : ValidOrder env) (scans : Scanned t env)
      (constants : a.constants = p.constants)
      (disk : ∀ f, W0 f ≠ none ↔ f ∈ d.files) (outputs : ∀ o, p.owner o ≠ none → W0 o = V o)
      (signed : Signed p content env.sig W0)
      (once : WalkOK walk) (walked : ∀ f s, (f, s) ∈ walk ↔ p.src f ∧ f ∈ d.files ∧ s = env.sig f)
      (seen : ∀ z ∈ Z, z ∈ d.files → HasMeta a.old.dep z (env.sig z) → z = a.constants ∧ d.mode ≠ some a.mode)
      (finished : (coldRebuild env a walk d).status = .finished)
      (work : BusyWork p t (foundArgs a walk) (coldRebuild env a walk d) Z' W0 V') :
      BusyRuns p t content V Z a.old d.mode a.mode V' ((coldRebuild env a walk d).stored.getD a.old) (coldRebuild env a walk d).disk.mode Z'

/-- `Course p t content m V gs dm Z`: builds and rebuilds of the watch mode, one after the other, of which some may have failed or been
killed, and during which sources may have been edited.  `m` is the mode of the last one which has finished, `gs` are the graphs it has
stored, `dm` is the stored mode; `Z` are the sources which have been edited since it began, or were given as new to rebuilds which were
broken off since; `V` are the contents of the files, except that sources are as they were when it began. -/
inductive Course (p : Project) (t : Tool C) (content : String → Sig → C) : Mode → Contents C → Graphs → Option Mode → List String → Prop
  | first {m : Mode} {V V' : Contents C} {gs : Graphs} {dm : Option Mode} {Z : List String} : (∀ o, p.owner o ≠ none → V o = none) →
      BusyRuns p t content V [] ⟨[], [], []⟩ none m V' gs dm Z → Course p t content m V' gs dm Z
  | build {m m' : Mode} {V V' : Contents C} {gs gs' : Graphs} {dm dm' : Option Mode} {Z Z' : List String} : Course p t content m V gs dm Z →
      BusyRuns p t content V Z gs dm m' V' gs' dm' Z' → Course p t content m' V' gs' dm' Z'
  /- The handler of the watch mode has collected what has happened since: `C23_given_partial`. -/
  | watch {m : Mode} {V W0 V' : Contents C} {env : Env} {a : Args} {d : Disk} {x : Dev.Pending} {touched : String → Bool} {Z Z' : List String} :
      Course p t content m V a.old d.mode Z → Dev.Exact (spanOf V W0 touched) x → (∀ f, touched f = false → W0 f = V f) →
      (∀ f, touched f = true → p.src f) → (∀ z ∈ Z, touched z = true ∨ (z = a.constants ∧ d.mode ≠ some a.mode)) → Given env.sig x a → ValidOrder env → Scanned t env →
      a.constants = p.constants → (∀ f, W0 f ≠ none ↔ f ∈ d.files) → Signed p content env.sig W0 →
      (hotRebuild env a d).status = .finished → BusyWork p t a (hotRebuild env a d) Z' W0 V' →
      Course p t content a.mode V' ((hotRebuild env a d).stored.getD a.old) (hotRebuild env a d).disk.mode Z'
  | broken {m : Mode} {V V' : Contents C} {gs : Graphs} {dm dm' : Option Mode} {Z S : List String} : Course p t content m V gs dm Z →
      Breaks p t V gs dm V' dm' S → Course p t content m V' gs dm' (Z ++ S)

/-! ## Builds which have been broken off -/

theorem affected_mono {gs : Graphs} {Z Z' : List String} (h : ∀ z ∈ Z, z ∈ Z') {f : String} : Affected gs Z f → Affected gs Z' f := by
  rintro (h1 | ⟨s, h1, h2⟩)
  · exact .inl (h _ h1)
  · exact .inr ⟨s, h s h1, h2⟩

/-- Only files which are affected by the new ones are built. -/
theorem started_affected {p : Project} {t : Tool C} (ht : t.Lawful p) {env : Env} {a : Args} {d : Disk} (hv : ValidGraphs a.old) (ho : ValidOrder env)
    (hs : Scanned t env) {g : String} (h : Event.started g ∈ (hotRebuild env a d).log) : Affected a.old (newIn a d) g := by
  refine affected_mono (fun z hz => ?_) ((C10_rebuild_set env a d hv ho).1 g h).2
  have hne : (hotRebuild env a d).log ≠ [] := List.ne_nil_of_mem h
  rcases List.mem_append.1 hz with hz | hz
  · rcases (C10_touched_sources env a d (.inl hne)).2 z hz with h1 | h1 | ⟨h1, h2, h3⟩ | ⟨-, g', -, d', r, h1, h2⟩
    · simp [newIn, h1]
    · simp [newIn, h1]
    · subst h1
      simp [newIn, h2, h3]
    · obtain ⟨W, h3⟩ := hs _ _ _ h1
      rw [(ht.scans h3).2] at h2
      cases h2
  · simp [newIn, hz]

theorem Nearly.broken {p : Project} {t : Tool C} {B : Builder C} {m : Mode} {V V' : Contents C} {gs : Graphs} {dm dm' : Option Mode} {Z S : List String}
    (hp : p.Lawful) (ht : t.Lawful p) (hB : Pure p B) (hv : ValidGraphs gs) (U : Nearly p B m V gs Z) (hm : ModeKnown p gs Z dm m)
    (h : Breaks p t V gs dm V' dm' S) : Nearly p B m V' gs (Z ++ S) ∧ ModeKnown p gs (Z ++ S) dm' m ∧ ∀ f, p.src f → V' f = V f := by
  obtain ⟨ho, hs, hc, hout, hb, -, hleft, hmode, hsrc, hafter⟩ := h
  rename_i W0 W env a d
  have keep : ∀ {o g}, p.owner o = some g → ¬ Affected a.old (newIn a d) g → V' o = V o := by
    intro o g hog hna
    rw [hafter o (by simp [hog]), ← hout o (by simp [hog])]
    rcases hb o with h | ⟨-, x, h1, h2⟩ | ⟨g', h1, h2⟩
    · exact h
    · have := U.owned x o h2
      rw [hog] at this
      cases this
      exact absurd h1 hna
    · rw [hog] at h2
      cases h2
      exact absurd (started_affected ht hv ho hs h1) hna
  refine ⟨⟨fun f => ?_, fun f hf hna => ?_, fun o f hof hn => ?_, U.recorded, U.owned, U.marked⟩, ?_, hsrc⟩
  · rw [U.files]
    constructor
    · rintro ⟨h1, h2⟩; exact ⟨h1, by rwa [hsrc f h1]⟩
    · rintro ⟨h1, h2⟩; exact ⟨h1, by rwa [← hsrc f h1]⟩
  · have hna1 : ¬ Affected a.old Z f := fun h => hna (affected_mono (by simp +contextual) h)
    have hna2 : ¬ Affected a.old (newIn a d) f := fun h => hna (affected_mono (by simp +contextual) h)
    obtain ⟨x, h1, h2, h3, h4⟩ := U.built f hf hna1
    refine ⟨x, hB.reads h1 (hsrc f ((U.files f).1 hf).1) fun c hcr hn => ?_, fun o y hy => ?_, h3, h4⟩
    · have he := (h4 c hcr).resolve_left hn
      cases hco : p.owner c with
      | none =>
        simp only [Project.source, hco, Option.getD_none] at he
        exact hsrc c ((U.files c).1 ((contains_iff _ _).2 (hv.dep.wf.mem_keys_of_kid ((edge_iff _ _ _).1 he)))).1
      | some g =>
        simp only [Project.source, hco, Option.getD_some] at he
        exact keep hco fun h => hna2 (affected_of_dep he h)
    · rw [keep (hB.owned h1 hy) hna2]
      exact h2 o y hy
  · rw [hafter o (by simp [hof])] at hn
    rcases hleft o f hof hn with h | h
    · exact U.only o f hof h
    · exact ⟨U.recorded f o h, h⟩
  · rcases hm with hm | hm
    · exact .inl (affected_mono (by simp +contextual) hm)
    rcases hmode with e | e
    · rw [e]; exact .inr hm
    · rw [hotRebuild_mode] at e
      split at e
      · next hin =>
        by_cases hd : d.mode = some a.mode
        · rw [e, ← hd]; exact .inr hm
        · left; left
          simp [newIn, hin, hd, hc.symm]
      · exact .inr (.inl e)

/-! ## Builds which finish -/

theorem path_end {r : String → String → Prop} {x z : String} (h : Path r x z) : ∃ y, r y z := by
  induction h with
  | one h => exact ⟨_, h⟩
  | more _ _ ih => exact ih

/-- If the recorded files of `Z` are new in this rebuild then everything is rebuilt which depends on `Z`. -/
theorem Nearly.again {p : Project} {B : Builder C} {m : Mode} {V : Contents C} {gs : Graphs} {Z T : List String} (hv : ValidGraphs gs) (U : Nearly p B m V gs Z)
    (h : ∀ z ∈ Z, contains gs.dep z = true → z ∈ T) {f : String} (hf : contains gs.dep f = true) : Affected gs Z f → Affected gs T f := by
  rintro (h1 | ⟨s, h1, h2⟩)
  · exact .inl (h f h1 hf)
  · refine .inr ⟨s, h s h1 ?_, h2⟩
    obtain ⟨y, hy | hy⟩ := path_end h2
    · exact (contains_iff _ _).2 (hv.dep.wf.mem_keys_of_kid ((edge_iff _ _ _).1 hy))
    · exact U.marked y s hy

/-- What is recorded are the signatures which the files had. -/
theorem recorded_finished {p : Project} {content : String → Sig → C} {V W0 V' : Contents C} {env : Env} {a : Args} {d : Disk} (hv : ValidGraphs a.old)
    (hr : Recorded p content V a.old) (ho : ValidOrder env) (hg : (hotRebuild env a d).generated = []) (hold : ∀ f, contains a.old.dep f = true → p.src f)
    (E : Edits p a d V W0) (hsig : Signed p content env.sig W0) (h1 : ∀ f s, a.changed.get? f = some s → s = env.sig f)
    (h2 : ∀ f s, a.added.get? f = some s → s = env.sig f) (hf : (hotRebuild env a d).status = .finished) (hkeep : ∀ f, p.src f → V' f = W0 f)
    (hnew : ∀ f, contains ((hotRebuild env a d).stored.getD a.old).dep f = true → p.src f ∧ V' f ≠ none) :
    Recorded p content V' ((hotRebuild env a d).stored.getD a.old) := by
  cases hst : (hotRebuild env a d).stored with
  | none =>
    obtain ⟨e1, e2, e3, -⟩ := C17_finished_stores env a d hv ho hf hst
    intro f s hcf hm
    have hfs := hold f hcf
    rw [hkeep f hfs, E.same f hfs (by rw [e1]; simp [Dict.keys]) (by rw [e2]; simp [Dict.keys]) (by rw [e3]; simp)]
    exact hr f s hcf hm
  | some gs =>
    rw [hst] at hnew
    have F := facts hv ho hst
    intro f s hcf hm
    have hcf : contains gs.dep f = true := hcf
    obtain ⟨hfs, hne⟩ := hnew f hcf
    rw [hkeep f hfs] at hne ⊢
    obtain ⟨y, hy⟩ := Option.ne_none_iff_exists'.1 hne
    rw [hy]
    have now : s = env.sig f → some y = some (content f s) := fun e => by rw [e, ← hsig f y hfs hy]
    obtain ⟨s', q1, -, q2⟩ := C17_signatures env a d hv ho gs hst f hcf
    have : s' = s := hasMeta_unique q1 hm
    subst this
    unfold Observed at q2
    split at q2
    · exact now (h1 f s' q2)
    · next n1 =>
      split at q2
      · exact now (h2 f s' q2)
      · next n2 =>
        split at q2
        · exact now q2
        · have n2' : f ∉ a.added.keys := fun h => n2 ⟨h, by rw [hg]; simp [Dict.keys]⟩
          have hnd : f ∉ a.deleted := ((F.recorded f).1 hcf).1
          have h0 := E.same f hfs n1 n2' hnd
          by_cases hco : contains a.old.dep f = true
          · rw [← hy, h0]
            exact hr f s' hco q2
          · exact absurd (E.new f hfs ((E.disk f).1 hne) (by simpa using hco)) n2'

/-- What is known in a course of work. -/
structure Tracked (p : Project) (t : Tool C) (content : String → Sig → C) (m : Mode) (V : Contents C) (gs : Graphs) (dm : Option Mode) (Z : List String) : Prop where
  nearly : Nearly p (t.builder p) m V gs Z
  valid : ValidGraphs gs
  acyclic : Acyclic gs.dep
  mode : ModeKnown p gs Z dm m
  recorded : Recorded p content V gs

theorem Tracked.finished' {p : Project} {t : Tool C} {content : String → Sig → C} (hp : p.Lawful) (ht : t.Lawful p) (hsrc : p.src p.constants)
    {m : Mode} {V W0 V' : Contents C} {env : Env} {a : Args} {d : Disk} {Z Z' : List String} (K : Tracked p t content m V a.old d.mode Z) (ho : ValidOrder env)
    (hs : Scanned t env) (hc : a.constants = p.constants) (E : Edits p a d V W0) (hsig : Signed p content env.sig W0) (h1 : ∀ f s, a.changed.get? f = some s → s = env.sig f)
    (h2 : ∀ f s, a.added.get? f = some s → s = env.sig f) (hseen : ∀ z ∈ Z, contains a.old.dep z = true → z ∈ newIn a d)
    (hf : (hotRebuild env a d).status = .finished) (X : BusyWork p t a (hotRebuild env a d) Z' W0 V') :
    Tracked p t content a.mode V' ((hotRebuild env a d).stored.getD a.old) (hotRebuild env a d).disk.mode Z' ∧ ∀ f, p.src f → V' f = W0 f := by
  obtain ⟨U, hv, hac, hm, hr⟩ := K
  have hbad : ∀ f, contains a.old.dep f = true → Affected a.old Z f → Affected a.old (touchedSources a (hotRebuild env a d)) f := fun f hcf ha =>
    U.again hv (fun z hz hcz => by
      have h10 := (C10_touched_sources env a d (.inr hf)).1 z
      simp only [touchedSources, List.mem_append]
      have := hseen z hz hcz
      simp only [newIn, List.mem_append] at this
      rcases this with ((h | h) | h) | h
      · exact .inl (h10 (.inl h))
      · exact .inl (h10 (.inr (.inl h)))
      · exact .inr h
      · split at h
        · next hh =>
          have hz : z = a.constants := by simpa using h
          exact .inl (h10 (.inr (.inr ⟨hz, hz ▸ hh.1, hh.2⟩)))
        · cases h) hcf ha
  obtain ⟨S, hg⟩ := scans_of (a := a) (d := d) ht hs hsrc hf
  obtain ⟨k1, k2, k3, k4⟩ := U.finished hv hp ht ho hs hsrc hc hm E hbad hf X
  exact ⟨⟨k1, k2.1, k2.2 hac, k3, recorded_finished hv hr ho hg (fun f h => ((U.files f).1 h).1) E hsig h1 h2 hf k4 fun f h => (k1.files f).1 h⟩, k4⟩

theorem Tracked.finished {p : Project} {t : Tool C} {content : String → Sig → C} (hp : p.Lawful) (ht : t.Lawful p) (hsrc : p.src p.constants)
    {m : Mode} {V W0 V' : Contents C} {env : Env} {a : Args} {d : Disk} {Z Z' : List String} (K : Tracked p t content m V a.old d.mode Z) (ho : ValidOrder env)
    (hs : Scanned t env) (hc : a.constants = p.constants) (E : Edits p a d V W0) (hsig : Signed p content env.sig W0) (h1 : ∀ f s, a.changed.get? f = some s → s = env.sig f)
    (h2 : ∀ f s, a.added.get? f = some s → s = env.sig f) (hseen : ∀ z ∈ Z, contains a.old.dep z = true → z ∈ newIn a d)
    (hf : (hotRebuild env a d).status = .finished) (X : BusyWork p t a (hotRebuild env a d) Z' W0 V') :
    Tracked p t content a.mode V' ((hotRebuild env a d).stored.getD a.old) (hotRebuild env a d).disk.mode Z' :=
  (K.finished' hp ht hsrc ho hs hc E hsig h1 h2 hseen hf X).1

/-- Before the first build. -/
theorem Tracked.empty {p : Project} {t : Tool C} (content : String → Sig → C) (hp : p.Lawful) (ht : t.Lawful p) (m : Mode) {V : Contents C}
    (hout : ∀ o, p.owner o ≠ none → V o = none) :
    ∃ V0 : Contents C, (∀ o, p.owner o ≠ none → V0 o = V o) ∧ Tracked p t content m V0 ⟨[], [], []⟩ none [] := by
  classical
  let V0 : Contents C := fun f => if p.src f then none else V f
  have hV : ∀ f, p.src f ∨ p.owner f ≠ none → V0 f = none := by
    rintro f (h | h)
    · simp [V0, h]
    · by_cases hs : p.src f
      · simp [V0, hs]
      · simp [V0, hs, hout f h]
  have hist : History p (t.builder p) m V0 ⟨[], [], []⟩ none := .empty m V0 hV
  obtain ⟨U, hv, hac, hm⟩ := hist.upToDate hp (ht.pure hp)
  refine ⟨V0, fun o ho => by rw [hV o (.inr ho), hout o ho], U.nearly (ht.pure hp) ?_ [], hv, hac, .inr hm, ?_⟩
  · rintro f g ⟨cs, h1, -⟩
    simp [getChildren, Dict.get?] at h1
  · intro f s hc
    simp [contains, Dict.has] at hc

theorem BusyRuns.known {p : Project} {t : Tool C} {content : String → Sig → C} (hp : p.Lawful) (ht : t.Lawful p) (hsrc : p.src p.constants)
    {m m' : Mode} {V V' : Contents C} {gs gs' : Graphs} {dm dm' : Option Mode} {Z Z' : List String} (K : Tracked p t content m V gs dm Z)
    (h : BusyRuns p t content V Z gs dm m' V' gs' dm' Z') : Tracked p t content m' V' gs' dm' Z' := by
  obtain ⟨ho, hs, hc, hd, hou, hsig, honce, hwalk, hseen, hf, X⟩ := h
  rename_i W0 env a d walk
  obtain ⟨r, h0, E, k1, k2⟩ := found_edits (a := a) (env := env) K.nearly.files K.recorded hd hou hsig honce hwalk
  obtain ⟨e1, e2, e3, e4⟩ := cold_eq (env := env) (d := d) h0
  rw [e1] at hf X ⊢
  rw [← e2] at K ⊢
  rw [← e3]
  refine K.finished hp ht hsrc ho hs (e4.trans hc) E hsig k1 k2 (fun z hz hcz => ?_) hf X
  by_cases hin : z ∈ d.files
  · by_cases hmeta : HasMeta a.old.dep z (env.sig z)
    · obtain ⟨q1, q2⟩ := hseen z hz hin hmeta
      simp only [newIn, e3, e4, List.mem_append]
      right
      rw [if_pos ⟨q1 ▸ hin, q2⟩]
      simp [q1]
    · -- another signature
      obtain ⟨r', q0, -, -, q3, -, -⟩ := C20_detect_exact a.old.dep walk honce
      rw [q0] at h0
      cases h0
      have hzs : p.src z := ((K.nearly.files z).1 hcz).1
      rw [e2] at hcz
      have : (foundArgs a walk).changed.get? z = some (env.sig z) := by
        unfold foundArgs
        rw [q0]
        exact (q3 z _).2 ⟨(hwalk _ _).2 ⟨hzs, hin, rfl⟩, hcz, hmeta⟩
      simp [newIn, get?_mem_keys this]
  · have : z ∈ (foundArgs a walk).deleted := Classical.byContradiction fun h => hin (E.deleted z hcz h)
    simp [newIn, this]

/-- All is known in a course of work. -/
theorem Course.known {p : Project} {t : Tool C} {content : String → Sig → C} (hp : p.Lawful) (ht : t.Lawful p) (hsrc : p.src p.constants)
    {m : Mode} {V : Contents C} {gs : Graphs} {dm : Option Mode} {Z : List String} (h : Course p t content m V gs dm Z) : Tracked p t content m V gs dm Z := by
  induction h with
  | @first m V V' gs dm Z hout hr =>
    obtain ⟨V0, h0, K⟩ := Tracked.empty content hp ht m hout
    refine BusyRuns.known hp ht hsrc K ?_
    have aux : ∀ {g : Graphs} {dm0 : Option Mode}, BusyRuns p t content V [] g dm0 m V' gs dm Z → BusyRuns p t content V0 [] g dm0 m V' gs dm Z := by
      rintro g dm0 ⟨ho, hs, hc, hd, hou, hsig, honce, hwalk, hseen, hf, X⟩
      exact .mk ho hs hc hd (fun o ho' => by rw [hou o ho', h0 o ho']) hsig honce hwalk hseen hf X
    exact aux hr
  | build _ hr ih => exact hr.known hp ht hsrc ih
  | @watch m V W0 V' env a d x touched Z Z' _ hx h1 h2 h3 hg ho hs hc hd hsig hf X ih =>
    have E := exact_edits hp ih.nearly.files hx h1 h2 hg hd
    refine ih.finished hp ht hsrc ho hs hc E hsig (fun f s h => ((hg.changed f s).1 h).2) (fun f s h => ((hg.added f s).1 h).2) (fun z hz hcz => ?_) hf X
    have hV := ((ih.nearly.files z).1 hcz).2
    rcases h3 z hz with h | ⟨q1, q2⟩
    · have key := hx z
      have hyes : ∀ {x : Option C}, x ≠ none → x.isSome = true := fun {x} h => by cases x <;> simp_all
      simp only [spanOf, hyes hV, h] at key
      cases hw : W0 z with
      | none =>
        have : z ∈ x.deleted := key.2.1.2 ⟨trivial, by simp [hw]⟩
        simp [newIn, (hg.deleted z).2 this]
      | some y =>
        have : z ∈ x.changed := key.2.2.2 ⟨trivial, by simp [hw], trivial⟩
        simp [newIn, get?_mem_keys ((hg.changed z _).2 ⟨this, rfl⟩)]
    · by_cases hin : z ∈ d.files
      · simp only [newIn, List.mem_append]
        right
        rw [if_pos ⟨q1 ▸ hin, q2⟩]
        simp [q1]
      · have : z ∈ a.deleted := Classical.byContradiction fun h => hin (E.deleted z hcz h)
        simp [newIn, this]
  | broken _ hb ih =>
    obtain ⟨k1, k2, k3⟩ := ih.nearly.broken hp ht (ht.pure hp) ih.valid ih.mode hb
    refine ⟨k1, ih.valid, ih.acyclic, k2, fun f s hcf hm => ?_⟩
    rw [k3 f ((ih.nearly.files f).1 hcf).1]
    exact ih.recorded f s hcf hm

/-! ## C89 and C90 -/

/-- A session is a course of work. -/
theorem Session.course {p : Project} {t : Tool C} {content : String → Sig → C} {m : Mode} {W : Contents C} {gs : Graphs} {dm : Option Mode}
    (h : Session p t content m W gs dm) : Course p t content m W gs dm [] := by
  have runs : ∀ {m : Mode} {W W' : Contents C} {gs gs' : Graphs} {dm dm' : Option Mode}, Runs p t content W gs dm m W' gs' dm' →
      BusyRuns p t content W [] gs dm m W' gs' dm' [] := by
    rintro m W W' gs gs' dm dm' ⟨ho, hs, hc, hd, hou, hsig, honce, hwalk, hf, X⟩
    exact .mk ho hs hc hd hou hsig honce hwalk (by simp) hf X.busy
  induction h with
  | first hout hr => exact .first hout (runs hr)
  | build _ hr ih => exact .build ih (runs hr)
  | watch _ hh hg ho hs hc hd hsig hf X ih =>
    obtain ⟨touched, hx, h1, h2⟩ := happened_exact hh
    exact .watch ih hx h1 h2 (by simp) hg ho hs hc hd hsig hf X.busy

/-- **C89**: if nothing was edited while the last build was running then, whatever has happened during the builds before, every source is
built and every output is what building its source now would give. -/
theorem C89_current {p : Project} {t : Tool C} {content : String → Sig → C} (hp : p.Lawful) (ht : t.Lawful p) (hsrc : p.src p.constants)
    {m : Mode} {W : Contents C} {gs : Graphs} {dm : Option Mode} (h : Course p t content m W gs dm []) : UpToDate p (t.builder p) m W gs :=
  (h.known hp ht hsrc).nearly.upToDate

/-- **C89**: sources which neither have been edited while the last build was running nor depend on ones which have been are up to date. -/
theorem C89_others {p : Project} {t : Tool C} {content : String → Sig → C} (hp : p.Lawful) (ht : t.Lawful p) (hsrc : p.src p.constants)
    {m : Mode} {V : Contents C} {gs : Graphs} {dm : Option Mode} {Z : List String} (h : Course p t content m V gs dm Z) {f : String} (hf : p.src f)
    (hV : V f ≠ none) (hz : ¬ Affected gs Z f) : Fits p (t.builder p) m V gs f :=
  have K := h.known hp ht hsrc
  K.nearly.built f ((K.nearly.files f).2 ⟨hf, hV⟩) hz

/-- **C89**: courses of work which end with the same sources, and in the same mode, end with the same outputs, if nothing was edited
while their last builds were running. -/
theorem C89_same {p : Project} {t : Tool C} {content content' : String → Sig → C} (hp : p.Lawful) (ht : t.Lawful p) (hsrc : p.src p.constants)
    {m : Mode} {W W' : Contents C} {gs gs' : Graphs} {dm dm' : Option Mode} (h : Course p t content m W gs dm []) (h' : Course p t content' m W' gs' dm' [])
    (hs : ∀ f, p.src f → W f = W' f) : ∀ o, p.owner o ≠ none → W o = W' o :=
  have K := h.known hp ht hsrc
  K.nearly.upToDate.unique (ht.pure hp) (C89_current hp ht hsrc h') K.valid K.acyclic hs

/-- Several rebuilds which have been broken off, one after the other. -/
inductive BreakAll (p : Project) (t : Tool C) (gs : Graphs) (V : Contents C) (dm : Option Mode) : Contents C → Option Mode → List String → Prop
  | none : BreakAll p t gs V dm V dm []
  | more {V' V'' : Contents C} {dm' dm'' : Option Mode} {S S' : List String} : BreakAll p t gs V dm V' dm' S → Breaks p t V' gs dm' V'' dm'' S' →
      BreakAll p t gs V dm V'' dm'' (S ++ S')

/-- **C90**: after builds which have failed or have been killed the next one which finishes makes everything up to date, and the outputs
are those which any other session with these sources gives, if it rebuilds what they were going to build: if the files which were new to
them are still there with other signatures than the recorded ones, or gone. -/
theorem C90_recovers_partial {p : Project} {t : Tool C} {content : String → Sig → C} (hp : p.Lawful) (ht : t.Lawful p) (hsrc : p.src p.constants)
    {m m' : Mode} {V V1 V' : Contents C} {gs gs' : Graphs} {dm dm1 dm' : Option Mode} {S : List String} (h : Session p t content m V gs dm)
    (hb : BreakAll p t gs V dm V1 dm1 S) (hr : BusyRuns p t content V1 S gs dm1 m' V' gs' dm' []) :
    UpToDate p (t.builder p) m' V' gs' ∧ ∀ W g d, Session p t content m' W g d → (∀ f, p.src f → W f = V' f) → ∀ o, p.owner o ≠ none → W o = V' o := by
  have hc : Course p t content m V1 gs dm1 S := by
    have aux : ∀ {Z V1 dm1 S}, Course p t content m V gs dm Z → BreakAll p t gs V dm V1 dm1 S → Course p t content m V1 gs dm1 (Z ++ S) := by
      intro Z V1 dm1 S h hb
      induction hb with
      | none => simpa using h
      | more _ q ih => rw [← List.append_assoc]; exact .broken ih q
    exact aux h.course hb
  have hc' : Course p t content m' V' gs' dm' [] := .build hc hr
  exact ⟨C89_current hp ht hsrc hc', fun W g d hW hs => C89_same hp ht hsrc hW.course hc' hs⟩

end Verif.Hot
