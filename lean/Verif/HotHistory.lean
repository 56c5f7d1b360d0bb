import Verif.HotSucceeds
/-!
# C57: rebuild after rebuild

A rebuild which finishes leaves what the next one relies on, so that a whole history of rebuilds
succeeds, whatever the user does to the sources in between. -/
namespace Verif.Hot
open Verif Verif.Graph

/-! ## Specification -/

/-- The folders of every output on disk exist. -/
def Housed (d : Disk) : Prop := ∀ o ∈ d.files, isOutput o = true → ∀ p ∈ foldersOf o, p ∈ d.dirs

/-- Between two rebuilds the user changed only sources: the outputs and their folders are as they were. -/
def EditsSources (d d' : Disk) : Prop :=
  (∀ o, isOutput o = true → (o ∈ d'.files ↔ o ∈ d.files)) ∧ ∀ p ∈ d.dirs, p ∈ d'.dirs

/-- A rebuild in which scans and builds do their part: they succeed, they say what they do, nothing
needs itself, no file generates two placeholders, no output is made both by a file which is rebuilt
or deleted and by one which is neither, and every build which was started has returned. -/
structure GoodRun (env : Env) (a : Args) (d : Disk) : Prop where
  order : ValidOrder env
  scans : GoodScans env a d (hotRebuild env a d)
  builds : GoodBuilds env a d (hotRebuild env a d)
  acyclic : ∀ f, ¬ Path (Needs a (hotRebuild env a d)) f f
  one : ∀ x y z, Generates a (hotRebuild env a d) x y → Generates a (hotRebuild env a d) x z → y = z
  unshared : ∀ f o, Edge a.old.out f o → ¬ Affected a.old (touchedSources a (hotRebuild env a d)) f →
    ¬ WasOutput a (hotRebuild env a d) o
  returned : (hotRebuild env a d).status ≠ .waiting

/-- A history of a project: what is recorded and what is on disk after a number of rebuilds, each of
which may have been given any changes and may even have failed to do its job; `ok` says that all of
them finished. -/
inductive Lifetime : Graphs → Disk → (ok : Prop) → Prop
  /-- A new project: nothing is recorded. -/
  | new (d : Disk) : Housed d → Lifetime ⟨[], [], []⟩ d True
  /-- The user edits sources. -/
  | edit {g d d' ok} : Lifetime g d ok → Housed d' → EditsSources d d' → Lifetime g d' ok
  /-- A rebuild runs, whose scans and builds do their part. -/
  | rebuild {d ok} (env : Env) (a : Args) : Lifetime a.old d ok → GoodRun env a d →
      Lifetime ((hotRebuild env a d).stored.getD a.old) (hotRebuild env a d).disk
        (ok ∧ (hotRebuild env a d).status = .finished)

/-! ## Folders -/

theorem Phases.cleanup {env : Env} {a : Args} {d : Disk} (P : Phases env a d) (hv : ValidGraphs a.old)
    (ho : ValidOrder env) (hf : P.result.status = .finished) :
    ∃ dirs0 : List String, (∀ p, p ∈ d.dirs → p ∈ dirs0) ∧
      (∀ f r o p, Event.finished f r ∈ P.result.log → o ∈ r.produced → p ∈ foldersOf o → p ∈ dirs0) ∧
      (∀ p ∈ dirs0, p ∉ P.result.disk.dirs → isEmptyDir P.result.disk p = true) := by
  obtain ⟨s1, h1, h2, h3, h4, _, _, hb, hfin⟩ := P.done_all hv ho hf
  have ht := (P.track hv ho).steps h1
  have hlog : P.result.log = s1.log := by rw [P.result_log, h2]
  have hres : P.result = finalize env a (modeStep a env.sig d).1 P.st.added P.st.newPh
      ((P.dO ++ P.dA).flatMap foldersOf) P.st.updated s1 := by
    unfold Phases.result
    rcases hl : P.loop with ⟨y, s⟩
    rw [hl] at hfin h2
    simp only at hfin h2
    subst hfin; subst h2
    rfl
  obtain ⟨dd, d2, hu, hr, hd⟩ : ∃ dd d2, unlinkStrict s1.stillArt s1.disk = (.ok (), dd) ∧
      removeEmptyDirs (sortByLen (insertAll ((P.dO ++ P.dA).flatMap foldersOf) [])) dd = (.ok (), d2) ∧
      P.result.disk = d2 := by
    rw [hres] at hf ⊢
    unfold finalize at hf ⊢
    rcases hu : unlinkStrict s1.stillArt s1.disk with ⟨e, dd⟩
    rw [hu] at hf
    cases e with
    | error e => simp at hf
    | ok u =>
      dsimp only at hf ⊢
      rcases hr : removeEmptyDirs (sortByLen (insertAll ((P.dO ++ P.dA).flatMap foldersOf) [])) dd with ⟨e, d2⟩
      rw [hr] at hf
      cases e with
      | error e => simp at hf
      | ok u =>
        refine ⟨dd, d2, rfl, hr, ?_⟩
        dsimp only
        split <;> rfl
  have hne : "" ∉ sortByLen (insertAll ((P.dO ++ P.dA).flatMap foldersOf) []) := by
    rw [mem_sortByLen, (insertAll_spec _ [] List.nodup_nil).2]
    simp only [List.not_mem_nil, false_or, List.mem_flatMap]
    rintro ⟨o, _, h⟩
    exact ancestors_ne _ _ h
  obtain ⟨k1, k2, k3, k4, k5⟩ := removeEmptyDirs_spec (byLen_sort _) hne hr
  have hstd : P.st.disk.dirs = d.dirs := by
    obtain ⟨_, _, ⟨new, n1, _⟩, _⟩ := (scanLoop_spec _ _ _ _ _ _
      (by simp [Dict.NodupKeys, Dict.keys]) (by simp [Dict.NodupKeys, Dict.keys]) (by simp) P.hscan)
    rw [n1]; exact (modeStep_disk a env.sig d).2
  have hq := unlinkStrict_files hu
  refine ⟨s1.disk.dirs, fun p hp => (ht.dirs p).2 (.inl ?_), fun f r o p hfr hom hp => ?_, fun p hp hn => ?_⟩
  · show p ∈ (unlinkLenient P.dO P.st.disk).dirs
    unfold unlinkLenient
    rw [hstd]; exact hp
  · rw [hlog] at hfr
    exact (ht.dirs p).2 (.inr ⟨f, r, hfr, o, hom, hp⟩)
  · rw [hd] at hn ⊢
    exact k4 p (by rw [hq.2.2.1]; exact hp) hn

theorem ancestors_kept {d' : Disk} {dirs0 : List String} (h : ∀ p ∈ dirs0, p ∉ d'.dirs → isEmptyDir d' p = true)
    (n : Nat) (q : String) (hq : q ∈ d'.files ∨ q ∈ d'.dirs) (ha : ∀ p ∈ ancestors n q, p ∈ dirs0) :
    ∀ p ∈ ancestors n q, p ∈ d'.dirs := by
  induction n generalizing q with
  | zero => simp [ancestors]
  | succ n ih =>
    unfold ancestors at ha ⊢
    split at ha
    · rename_i e; simp [e]
    · rename_i e
      rw [if_neg e]
      have h1 : dirname q ∈ d'.dirs := by
        refine Classical.byContradiction fun hc => ?_
        have := h _ (ha _ (by simp)) hc
        have h2 : isEmptyDir d' (dirname q) = false := (not_isEmptyDir _ _).2 (by
          rcases hq with hq | hq
          · exact .inl ⟨q, hq, rfl⟩
          · exact .inr ⟨q, hq, rfl⟩)
        rw [this] at h2; simp at h2
      intro p hp
      rcases List.mem_cons.1 hp with rfl | hp
      · exact h1
      · exact ih _ (.inr h1) (fun x hx => ha x (by simp [hx])) p hp

theorem contains_out_of_dep {env : Env} {a : Args} {d : Disk} (hv : ValidGraphs a.old) (ho : ValidOrder env)
    {gs : Graphs} (h : (hotRebuild env a d).stored = some gs) {f : String} (hf : contains gs.dep f = true) :
    contains gs.out f = true := by
  obtain ⟨s, _, e, _⟩ := C17_signatures env a d hv ho gs h f hf
  unfold HasMeta checkFile at e
  rw [contains_iff, ← Dict.get?_isSome_iff]
  rcases hq : gs.out.get? f with _ | n
  · rw [hq] at e; simp at e
  · rfl

/-- What a file is recorded to have generated after a rebuild, it generated then or before, and it is
still a file of the project. -/
theorem stored_generators {env : Env} {a : Args} {d : Disk} (hv : ValidGraphs a.old) (ho : ValidOrder env)
    (S : GoodScans env a d (hotRebuild env a d)) {gs : Graphs} (h : (hotRebuild env a d).stored = some gs) {x y : String}
    (he : Edge gs.ph x y) : Generates a (hotRebuild env a d) x y ∧ contains gs.dep x = true := by
  have hfiles := C17_files env a d hv ho gs h x
  obtain ⟨P, hP⟩ := stored_phases h
  rw [hP] at h hfiles S ⊢
  obtain ⟨s1, hb, hk, hl, hp, _, hg⟩ := P.stored_spec hv ho h
  obtain ⟨b1, b2, b3, c1, c2, c3, c4, c5, c6⟩ := newGraphs_spec ho hg
  obtain ⟨g1, g2, ⟨new, n1, n2, n3, n4, n5, n6⟩, g3⟩ := scanLoop_spec _ _ _ _ _ _ (by simp [Dict.NodupKeys, Dict.keys])
    (by simp [Dict.NodupKeys, Dict.keys]) (by simp) P.hscan
  rw [edge_iff, c6] at he
  rcases he with he | ⟨n, hn, hy, hx⟩
  · have hgx : P.st.newPh.get? y = some x := Dict.get?_of_mem g2 he
    refine ⟨.inr (by rw [P.result_generated]; exact hgx), hfiles.2 ?_⟩
    have hsc : x ∈ P.result.scanned.keys := by rw [P.result_scanned]; exact g3 y x hgx
    have hnd := (S.sources x hsc).2
    exact ⟨hnd, .inl ⟨hnd, .inl (by simp [touchedSources, hsc])⟩⟩
  · have hm := List.mem_of_find?_eq_some hx
    have hc := List.find?_some hx
    refine ⟨.inl ?_, ?_⟩
    · rw [edge_iff, ← hv.ph.wf.mem_pars_iff, pars_of_get? (Dict.get?_of_mem hv.ph.wf.nodup hn)]
      exact hm
    · rw [contains_iff]; simpa using hc

/-- What a good rebuild stores is a sound history for the next one, every output it records is on
disk, and so are the folders of all outputs. -/
theorem C57_keeps_history_partial (env : Env) (a : Args) (d : Disk) (hv : ValidGraphs a.old)
    (H : SoundHistory a.old d) (hthere : ∀ f o, Edge a.old.out f o → o ∈ d.files) (hh : Housed d)
    (G : GoodRun env a d) (gs : Graphs) (h : (hotRebuild env a d).stored = some gs) :
    ValidGraphs gs ∧ SoundHistory gs (hotRebuild env a d).disk ∧
    (∀ f o, Edge gs.out f o → o ∈ (hotRebuild env a d).disk.files) ∧ Housed (hotRebuild env a d).disk := by
  have ho := G.order
  have hfiles := C17_files env a d hv ho gs h
  have hout := C17_outputs env a d hv ho gs h
  have hthere' : ∀ f o, Edge gs.out f o → o ∈ (hotRebuild env a d).disk.files :=
    C16_outputs_exist_partial env a d hv ho gs h (fun f o he _ hna => ⟨hthere f o he, G.unshared f o he hna⟩)
      G.builds.reused
  have hfin : (hotRebuild env a d).status = .finished := by
    obtain ⟨P, hP⟩ := stored_phases h
    rw [hP] at h ⊢
    obtain ⟨_, _, _, _, _, hf, _⟩ := P.stored_spec hv ho h; exact hf
  have h11 := C11_built_exactly_once env a d hv ho
  dsimp only at h11
  have hhoused : Housed (hotRebuild env a d).disk := by
    obtain ⟨P, hP⟩ := stored_phases h
    have S := G.scans
    rw [hP] at hfin S ⊢
    obtain ⟨dirs0, q1, q2, q3⟩ := P.cleanup hv ho hfin
    intro o hom hio
    refine ancestors_kept q3 _ _ (.inl hom) (fun p hp => ?_)
    rcases (P.files_after hv ho hfin o).1 hom with ⟨hs, _⟩ | ⟨f, r, hfr, hr⟩
    · obtain ⟨g1, g2, ⟨new, n1, n2, n3, n4, n5, n6⟩, g3⟩ := scanLoop_spec _ _ _ _ _ _ (by simp [Dict.NodupKeys, Dict.keys])
        (by simp [Dict.NodupKeys, Dict.keys]) (by simp) P.hscan
      rw [n1] at hs
      simp only [List.mem_append, (modeStep_disk a env.sig d).1] at hs
      rcases hs with hs | hs
      · exact q1 p (hh o hs hio p hp)
      · exfalso
        have hsc : o ∈ P.result.scanned.keys := by
          rw [P.result_scanned, n3]; exact .inr (.inr hs)
        rw [(S.sources o hsc).1] at hio; simp at hio
    · exact q2 f r o p hfr hr hp
  have hmk : ∀ x o, Edge gs.out x o → contains gs.dep x = true ∧ isOutput o = true := by
    intro x o he
    have hx : contains gs.dep x = true := by
      refine Classical.byContradiction fun hc => ?_
      exact hout.2.2 x (by simpa using hc) o he
    refine ⟨hx, ?_⟩
    by_cases hr : Rebuilt a (hotRebuild env a d) x
    · have := ((h11.2.2.2 hfin x).2).2 hr
      rw [mem_endsOf] at this
      obtain ⟨r, hr'⟩ := this
      obtain ⟨cs, hcs, hm⟩ := he
      rw [hout.1 x r hr'] at hcs
      simp only [Except.ok.injEq] at hcs
      subst hcs
      have han := ((G.builds.honest x r hr').1 o).1 hm
      unfold Announced at han
      split at han
      · rename_i sr hsr
        exact G.scans.outputs (x, sr) (Dict.mem_of_get? hsr) o han
      · exact (H.makers x o han).2
    · exact (H.makers x o ((hout.2.1 x hx hr o).1 he)).2
  refine ⟨(C17_valid env a d hv ho gs h).1, ⟨?_, hmk, ?_, ?_, fun x o he _ => hthere' x o he, ?_⟩, hthere', hhoused⟩
  · intro x hx
    refine ⟨contains_out_of_dep hv ho h hx, ?_⟩
    rcases ((hfiles x).1 hx).2 with hr | hr
    · exact (rebuilt_source H G.scans hr).1
    · exact (H.sources x hr).2
  · intro x y he; exact (stored_generators hv ho G.scans h he).2
  · intro x o he p hp; exact hhoused o (hthere' x o he) (hmk x o he).2 p hp
  · intro x y z hy hz
    exact G.one x y z (stored_generators hv ho G.scans h hy).1 (stored_generators hv ho G.scans h hz).1

theorem finished_none {env : Env} {a : Args} {d : Disk} (hv : ValidGraphs a.old) (ho : ValidOrder env)
    (hf : (hotRebuild env a d).status = .finished) (hn : (hotRebuild env a d).stored = none) :
    (hotRebuild env a d).disk = (modeStep a env.sig d).2 := by
  rcases hotRebuild_cases env a d with ⟨_, _, h3⟩ | ⟨P, hP⟩
  · exact (h3 hf).2.2.2.2
  · rw [hP] at hf hn
    exfalso
    obtain ⟨s1, h1, h2, h3, h4, _, _, hb, hfin⟩ := P.done_all hv ho hf
    unfold Phases.result at hf hn
    rcases hl : P.loop with ⟨y, s⟩
    rw [hl] at hf hn hfin
    simp only at hfin
    subst hfin
    dsimp only at hf hn
    unfold finalize at hf hn
    repeat' split at hf
    all_goals simp_all

/-- Every rebuild in a history in which scans and builds do their part finishes; and every output
recorded at the end of it is on disk. -/
theorem C57_history_partial {g : Graphs} {d : Disk} {ok : Prop} (h : Lifetime g d ok) :
    ok ∧ ∀ f o, Edge g.out f o → o ∈ d.files := by
  suffices hs : ok ∧ ValidGraphs g ∧ SoundHistory g d ∧ (∀ f o, Edge g.out f o → o ∈ d.files) ∧ Housed d from
    ⟨hs.1, hs.2.2.2.1⟩
  induction h with
  | new d hd =>
    have he : ∀ x y, ¬ Edge [] x y := by rintro x y ⟨cs, hcs, _⟩; simp [getChildren, Dict.get?] at hcs
    refine ⟨trivial, ⟨run_valid [], run_valid [], run_valid []⟩, ⟨?_, ?_, ?_, ?_, ?_, ?_⟩, fun f o h => absurd h (he f o), hd⟩
    · intro x hx; simp [contains_iff, Dict.keys] at hx
    · intro x y h; exact absurd h (he _ _)
    · intro x y h; exact absurd h (he _ _)
    · intro x y h; exact absurd h (he _ _)
    · intro x y h; exact absurd h (he _ _)
    · intro x y z h; exact absurd h (he _ _)
  | edit _ hh hed ih =>
    obtain ⟨h0, h1, h2, h3, h4⟩ := ih
    have h3' := fun f o he => (hed.1 o (h2.makers f o he).2).2 (h3 f o he)
    exact ⟨h0, h1, ⟨h2.sources, h2.makers, h2.generators, fun x o he p hp => hed.2 p (h2.folders x o he p hp),
      fun x o he _ => h3' x o he, h2.one⟩, h3', hh⟩
  | @rebuild d ok env a _ G ih =>
    obtain ⟨h0, h1, h2, h3, h4⟩ := ih
    have hf := C57_succeeds_partial env a d h1 G.order h2 G.scans G.builds G.acyclic G.returned
    refine ⟨⟨h0, hf⟩, ?_⟩
    rcases hs : (hotRebuild env a d).stored with _ | gs
    · obtain ⟨e1, e2⟩ := modeStep_disk a env.sig d
      rw [finished_none h1 G.order hf hs]
      refine ⟨h1, ⟨h2.sources, h2.makers, h2.generators, ?_, ?_, h2.one⟩, ?_, ?_⟩
      · rw [e2]; exact h2.folders
      · rw [e1]; exact h2.artifacts
      · rw [e1]; exact h3
      · unfold Housed; rw [e1, e2]; exact h4
    · exact C57_keeps_history_partial env a d h1 h2 h3 h4 G gs hs

end Verif.Hot
