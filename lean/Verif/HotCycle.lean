import Verif.HotThm
/-! # Incremental rebuilds: cycles, completion and cleaning (C14, C15) -/
namespace Verif.Hot
open Verif Verif.Graph

/-! ## Which steps can raise the cyclic dependency error -/

theorem liftErr_ne (e : Graph.Err) : liftErr e ≠ .cyclic := by cases e <;> simp [liftErr]

theorem liftQ_ne {α : Type} {r : Except Graph.Err α} {e : Err} (h : liftQ r = .error e) : e ≠ .cyclic := by
  cases r with
  | ok a => simp [liftQ] at h
  | error x => simp only [liftQ, Except.error.injEq] at h; subst h; exact liftErr_ne x

theorem liftG_ne {r : Graph.Res} {e : Err} (h : liftG r = .error e) : e ≠ .cyclic := by
  unfold liftG at h
  split at h
  · simp at h
  · simp only [Except.error.injEq] at h; subst h; exact liftErr_ne _

theorem newSig_ne {o c ad f e} (h : newSig o c ad f = .error e) : e ≠ .cyclic := by
  unfold newSig at h
  repeat' split at h
  all_goals simp at h
  subst h; simp

theorem addInputs_ne {o c ad fs g e} (h : addInputs o c ad fs g = .error e) : e ≠ .cyclic := by
  induction fs generalizing g with
  | nil => simp [addInputs] at h
  | cons f fs ih =>
    simp only [addInputs] at h
    split at h
    · rename_i hx; simp only [Except.error.injEq] at h; subst h; exact newSig_ne hx
    · split at h
      · rename_i hx; simp only [Except.error.injEq] at h; subst h; exact liftG_ne hx
      · exact ih h

theorem keepOutputs_ne {dl rb ns g em e} (h : keepOutputs dl rb ns g em = .error e) : e ≠ .cyclic := by
  induction ns generalizing g em with
  | nil => simp [keepOutputs] at h
  | cons x ns ih =>
    obtain ⟨f, n⟩ := x
    simp only [keepOutputs] at h
    split at h
    · exact ih h
    · split at h
      · exact ih h
      · split at h
        · rename_i hx; simp only [Except.error.injEq] at h; subst h; exact liftG_ne hx
        · exact ih h

theorem keepPlaceholders_ne {ns g em e} (h : keepPlaceholders ns g em = .error e) : e ≠ .cyclic := by
  induction ns generalizing g em with
  | nil => simp [keepPlaceholders] at h
  | cons x ns ih =>
    obtain ⟨f, n⟩ := x
    simp only [keepPlaceholders] at h
    split at h
    · exact ih h
    · split at h
      · exact ih h
      · split at h
        · rename_i hx; simp only [Except.error.injEq] at h; subst h; exact liftG_ne hx
        · split at h
          · simp only [Except.error.injEq] at h; subst h; simp
          · split at h
            · simp only [Except.error.injEq] at h; subst h; simp
            · exact ih h

theorem addPlaceholders_ne {ns g e} (h : addPlaceholders ns g = .error e) : e ≠ .cyclic := by
  induction ns generalizing g with
  | nil => simp [addPlaceholders] at h
  | cons x ns ih =>
    obtain ⟨f, n⟩ := x
    simp only [addPlaceholders] at h
    split at h
    · rename_i hx; simp only [Except.error.injEq] at h; subst h; exact liftQ_ne hx
    · split at h
      · rename_i hx; simp only [Except.error.injEq] at h; subst h; exact liftG_ne hx
      · exact ih h

theorem addOutputNodes_ne {sig d os g e} (h : addOutputNodes sig d os g = .error e) : e ≠ .cyclic := by
  induction os generalizing g with
  | nil => simp [addOutputNodes] at h
  | cons x ns ih =>
    simp only [addOutputNodes] at h
    split at h
    · exact ih h
    · split at h
      · simp only [Except.error.injEq] at h; subst h; simp
      · split at h
        · rename_i hx; simp only [Except.error.injEq] at h; subst h; exact liftG_ne hx
        · exact ih h

theorem linkInputs_ne {od oo rs sig d fs gd go e} (h : linkInputs od oo rs sig d fs gd go = .error e) : e ≠ .cyclic := by
  induction fs generalizing gd go with
  | nil => simp [linkInputs] at h
  | cons x ns ih =>
    simp only [linkInputs] at h
    split at h
    · rename_i hx
      simp only [Except.error.injEq] at h; subst h
      split at hx
      · simp at hx
      · exact liftQ_ne hx
    · split at h
      · rename_i hx; simp only [Except.error.injEq] at h; subst h; exact liftG_ne hx
      · split at h
        · rename_i hx; simp only [Except.error.injEq] at h; subst h; exact addOutputNodes_ne hx
        · split at h
          · rename_i hx; simp only [Except.error.injEq] at h; subst h; exact liftG_ne hx
          · exact ih h

theorem dropEmptyOutputs_ne {os g e} (h : dropEmptyOutputs os g = .error e) : e ≠ .cyclic := by
  induction os generalizing g with
  | nil => simp [dropEmptyOutputs] at h
  | cons x ns ih =>
    simp only [dropEmptyOutputs] at h
    split at h
    · rename_i hx; simp only [Except.error.injEq] at h; subst h; exact liftQ_ne hx
    · split at h
      · split at h
        · rename_i hx; simp only [Except.error.injEq] at h; subst h; exact liftG_ne hx
        · exact ih h
      · exact ih h

theorem dropEmptyPlaceholders_ne {os g e} (h : dropEmptyPlaceholders os g = .error e) : e ≠ .cyclic := by
  induction os generalizing g with
  | nil => simp [dropEmptyPlaceholders] at h
  | cons x ns ih =>
    simp only [dropEmptyPlaceholders] at h
    split at h
    · split at h
      · split at h
        · rename_i hx; simp only [Except.error.injEq] at h; subst h; exact liftG_ne hx
        · exact ih h
      · exact ih h
    · rename_i hx; simp only [Except.error.injEq] at h; subst h; exact liftQ_ne hx
    · rename_i hx _; simp only [Except.error.injEq] at h; subst h; exact liftQ_ne hx

theorem newGraphs_ne {o sig old c ad dl np rs d e} (h : newGraphs o sig old c ad dl np rs d = .error e) : e ≠ .cyclic := by
  unfold newGraphs at h
  simp only at h
  split at h
  · rename_i hx; simp only [Except.error.injEq] at h; subst h; exact addInputs_ne hx
  · split at h
    · rename_i hx; simp only [Except.error.injEq] at h; subst h; exact keepOutputs_ne hx
    · split at h
      · rename_i hx; simp only [Except.error.injEq] at h; subst h; exact keepPlaceholders_ne hx
      · split at h
        · rename_i hx; simp only [Except.error.injEq] at h; subst h; exact addPlaceholders_ne hx
        · split at h
          · rename_i hx; simp only [Except.error.injEq] at h; subst h; exact linkInputs_ne hx
          · split at h
            · rename_i hx; simp only [Except.error.injEq] at h; subst h; exact dropEmptyOutputs_ne hx
            · split at h
              · rename_i hx; simp only [Except.error.injEq] at h; subst h; exact dropEmptyPlaceholders_ne hx
              · simp at h

theorem unlinkStrict_ne {fs d e d'} (h : unlinkStrict fs d = (.error e, d')) : e ≠ .cyclic := by
  induction fs generalizing d with
  | nil => simp [unlinkStrict] at h
  | cons x ns ih =>
    simp only [unlinkStrict] at h
    split at h
    · exact ih h
    · simp only [Prod.mk.injEq, Except.error.injEq] at h; obtain ⟨rfl, _⟩ := h; simp

theorem removeEmptyDirs_ne {fs d e d'} (h : removeEmptyDirs fs d = (.error e, d')) : e ≠ .cyclic := by
  induction fs generalizing d with
  | nil => simp [removeEmptyDirs] at h
  | cons x ns ih =>
    simp only [removeEmptyDirs] at h
    split at h
    · split at h
      · exact ih h
      · exact ih h
    · simp only [Prod.mk.injEq, Except.error.injEq] at h; obtain ⟨rfl, _⟩ := h; simp

theorem finalize_ne {env a c ad np fo sc s} : (finalize env a c ad np fo sc s).status ≠ .failed .cyclic := by
  intro h
  unfold finalize at h
  split at h
  · rename_i hx; simp only [Status.failed.injEq] at h; subst h; exact unlinkStrict_ne hx rfl
  · split at h
    · rename_i hx; simp only [Status.failed.injEq] at h; subst h; exact removeEmptyDirs_ne hx rfl
    · split at h
      · rename_i hx; simp only [Status.failed.injEq] at h; subst h; exact newGraphs_ne hx rfl
      · simp at h

theorem scanFiles_ne {scan : Scanner} (hs : ∀ d f e, scan d f = .error e → e ≠ .cyclic) {d fs e}
    (h : scanFiles scan d fs = .error e) : e ≠ .cyclic := by
  induction fs generalizing e with
  | nil => simp [scanFiles] at h
  | cons x ns ih =>
    simp only [scanFiles] at h
    split at h
    · rename_i hx; simp only [Except.error.injEq] at h; subst h; exact hs _ _ _ hx
    · split at h
      · rename_i hx; simp only [Except.error.injEq] at h; subst h; exact ih hx
      · simp at h

theorem scanLoop_ne {scan : Scanner} (hs : ∀ d f e, scan d f = .error e → e ≠ .cyclic) {sig n fs st e st'}
    (h : scanLoop scan sig n fs st = (.error e, st')) : e ≠ .cyclic := by
  induction n generalizing fs st with
  | zero =>
    cases fs with
    | nil => simp [scanLoop] at h
    | cons => simp only [scanLoop, Prod.mk.injEq, Except.error.injEq] at h; obtain ⟨rfl, _⟩ := h; simp
  | succ n ih =>
    cases fs with
    | nil => simp [scanLoop] at h
    | cons =>
      simp only [scanLoop] at h
      split at h
      · rename_i hx
        simp only [Prod.mk.injEq, Except.error.injEq] at h
        obtain ⟨rfl, _⟩ := h
        exact scanFiles_ne hs hx
      · exact ih h

theorem reinterpDeps_ne {oo dl ds acc m e} (h : reinterpDeps oo dl ds acc m = .error e) : e ≠ .cyclic := by
  induction ds generalizing acc m with
  | nil => simp [reinterpDeps] at h
  | cons x ns ih =>
    simp only [reinterpDeps] at h
    split at h
    · exact ih h
    · split at h
      · exact ih h
      · split at h
        · simp only [Except.error.injEq] at h; subst h; simp
        · split at h
          · simp only [Except.error.injEq] at h; subst h; simp
          · exact ih h

theorem reinterpAll_ne {oo dl rs m e} (h : reinterpAll oo dl rs m = .error e) : e ≠ .cyclic := by
  induction rs generalizing m e with
  | nil => simp [reinterpAll] at h
  | cons x ns ih =>
    simp only [reinterpAll] at h
    split at h
    · rename_i hx; simp only [Except.error.injEq] at h; subst h; exact reinterpDeps_ne hx
    · split at h
      · rename_i hx; simp only [Except.error.injEq] at h; subst h; exact ih hx
      · simp at h

theorem firstErr_ne {old u np fs e} (h : firstErr (dependsOnOf old u np) fs = some e) : e ≠ .cyclic := by
  induction fs with
  | nil => simp [firstErr] at h
  | cons x ns ih =>
    simp only [firstErr] at h
    split at h
    · rename_i hx
      simp only [Option.some.injEq] at h; subst h
      unfold dependsOnOf at hx
      repeat' split at hx
      all_goals simp only [reduceCtorEq, Except.error.injEq] at hx
      rename_i hq
      subst hx
      exact liftQ_ne hq
    · exact ih h

theorem reinterpChildren_ne {T f cs acc m e} (h : reinterpChildren T f cs acc m = .error e) : e ≠ .cyclic := by
  induction cs generalizing acc m e with
  | nil => simp [reinterpChildren] at h
  | cons c cs ih =>
    simp only [reinterpChildren] at h
    split at h
    · exact ih h
    · split at h
      · split at h
        · simp only [Except.error.injEq] at h; subst h; simp
        · split at h
          · rename_i hs
            simp only [Except.error.injEq] at h; subst h
            have : ∀ n st sn e, innerSearch T c n st sn = .error e → e ≠ .cyclic := by
              intro n
              induction n with
              | zero =>
                intro st sn e h
                cases st with
                | nil => simp [innerSearch] at h
                | cons => simp only [innerSearch, Except.error.injEq] at h; subst h; simp
              | succ n ih =>
                intro st sn e h
                cases st with
                | nil => simp [innerSearch] at h
                | cons =>
                  simp only [innerSearch] at h
                  split at h
                  · rename_i hq; simp only [Except.error.injEq] at h; subst h; exact liftQ_ne hq
                  · split at h
                    · simp at h
                    · split at h
                      · rename_i hq; simp only [Except.error.injEq] at h; subst h; exact liftQ_ne hq
                      · exact ih _ _ _ h
            exact this _ _ _ _ hs
          · simp only [Except.error.injEq] at h; subst h; simp
          · exact ih h
      · exact ih h

/-- The cyclic dependency error comes from the build loop only. -/
theorem hotRebuild_cyclic {env : Env} {a : Args} {d : Disk} (hs : ∀ d f e, env.scan d f = .error e → e ≠ .cyclic)
    (h : (hotRebuild env a d).status = .failed .cyclic) :
    ∃ P : Phases env a d, hotRebuild env a d = P.result ∧ P.loop.1 = .failed .cyclic := by
  unfold hotRebuild at h
  simp only at h
  split at h
  · simp at h
  · rename_i hw
    split at h
    · rename_i e st hst
      simp only [Status.failed.injEq] at h; subst h
      exact absurd rfl (scanLoop_ne hs hst)
    · rename_i st hst
      unfold buildPhase at h
      split at h
      · rename_i hx; simp only [Status.failed.injEq] at h; subst h; exact absurd rfl (reinterpAll_ne hx)
      · rename_i updated outMap hre
        split at h
        · simp at h
        · rename_i seen popped hcl
          simp only at h
          split at h
          · rename_i hx; simp only [Status.failed.injEq] at h; subst h; exact absurd rfl (firstErr_ne hx)
          · rename_i herr
            let P : Phases env a d := ⟨st, updated, outMap, seen, popped, hw, hst, hre, hcl, herr⟩
            refine ⟨P, P.eq, ?_⟩
            change P.result.status = _ at h
            unfold Phases.result at h
            rcases hl : P.loop with ⟨x, s⟩
            rw [hl] at h
            cases x with
            | finished => exact absurd h finalize_ne
            | waiting => simp at h
            | failed e => simpa using h

/-! ## Known producers of reported children -/

theorem reinterpDeps_keys {oo dl ds acc m res m'} (h : reinterpDeps oo dl ds acc m = .ok (res, m')) :
    (∀ o ∈ m.keys, o ∈ m'.keys) ∧ ∀ o ∈ ds, isOutput o = true → o ∈ m'.keys := by
  induction ds generalizing acc m with
  | nil => simp [reinterpDeps] at h; obtain ⟨rfl, rfl⟩ := h; simp
  | cons x ns ih =>
    simp only [reinterpDeps] at h
    split at h
    · rename_i hx
      obtain ⟨h1, h2⟩ := ih h
      refine ⟨h1, fun o ho hi => ?_⟩
      rcases List.mem_cons.1 ho with rfl | ho
      · simp [hi] at hx
      · exact h2 o ho hi
    · split at h
      · rename_i p hp
        obtain ⟨h1, h2⟩ := ih h
        refine ⟨h1, fun o ho hi => ?_⟩
        rcases List.mem_cons.1 ho with rfl | ho
        · exact h1 o (Dict.mem_keys_of_get? hp)
        · exact h2 o ho hi
      · split at h
        · simp at h
        · split at h
          · simp at h
          · obtain ⟨h1, h2⟩ := ih h
            refine ⟨fun o ho => h1 o ((Dict.mem_keys_set _ _ _ _).2 (.inr ho)), fun o ho hi => ?_⟩
            rcases List.mem_cons.1 ho with rfl | ho
            · exact h1 o ((Dict.mem_keys_set _ _ _ _).2 (.inl rfl))
            · exact h2 o ho hi

theorem reinterpAll_mapkeys {oo dl rs m rs' m'} (h : reinterpAll oo dl rs m = .ok (rs', m')) :
    (∀ o ∈ m.keys, o ∈ m'.keys) ∧ ∀ x ∈ rs, ∀ o ∈ x.2.dependencies, isOutput o = true → o ∈ m'.keys := by
  induction rs generalizing m rs' m' with
  | nil => simp [reinterpAll] at h; obtain ⟨rfl, rfl⟩ := h; simp
  | cons x ns ih =>
    simp only [reinterpAll] at h
    split at h
    · simp at h
    · rename_i hx
      split at h
      · simp at h
      · rename_i hy
        simp only [Except.ok.injEq, Prod.mk.injEq] at h
        obtain ⟨rfl, rfl⟩ := h
        obtain ⟨a1, a2⟩ := reinterpDeps_keys hx
        obtain ⟨b1, b2⟩ := ih hy
        refine ⟨fun o ho => b1 o (a1 o ho), fun y hy o ho hi => ?_⟩
        rcases List.mem_cons.1 hy with rfl | hy
        · exact b1 o (a2 o ho hi)
        · exact b2 y hy o ho hi

theorem reinterpChildren_known {T f cs acc m} (h : ∀ c ∈ cs, isOutput c = false ∨ c ∈ m.keys) :
    ∃ l, reinterpChildren T f cs acc m = .ok (l, m) := by
  induction cs generalizing acc with
  | nil => exact ⟨acc, rfl⟩
  | cons c cs ih =>
    simp only [reinterpChildren]
    rcases hg : m.get? c with _ | p
    · dsimp only
      have hc : isOutput c = false := by
        rcases h c (by simp) with h | h
        · exact h
        · exact absurd h ((Dict.get?_eq_none_iff _ _).1 hg)
      rw [if_neg (by simp [hc])]
      exact ih (fun c hc => h c (by simp [hc]))
    · exact ih (fun c hc => h c (by simp [hc]))

theorem reinterpChildren_keys {T f cs acc m l m'} (h : reinterpChildren T f cs acc m = .ok (l, m')) :
    ∀ o ∈ m.keys, o ∈ m'.keys := by
  induction cs generalizing acc m with
  | nil => simp [reinterpChildren] at h; obtain ⟨_, rfl⟩ := h; simp
  | cons c cs ih =>
    simp only [reinterpChildren] at h
    split at h
    · exact ih h
    · split at h
      · split at h
        · simp at h
        · split at h
          · simp at h
          · simp at h
          · intro o ho
            exact ih h o ((Dict.mem_keys_set _ _ _ _).2 (.inr ho))
      · exact ih h

theorem steps_outMap {T ok s s'} (hs : Steps T ok s s') : ∀ o ∈ s.outMap.keys, o ∈ s'.outMap.keys := by
  induction hs with
  | refl => exact fun _ h => h
  | @tail s1 s2 p q ih =>
    intro o ho
    have := ih o ho
    cases q with
    | @start f hf hd ho => exact this
    | @finish f r _ hf hok he =>
      obtain ⟨cs, m, dd, h1, _, e⟩ := finish_ok he
      rw [e]
      exact reinterpChildren_keys h1 o this

/-! ## C14: cycles -/

/-- Builds make exactly what was announced for the file, each output once. -/
def HonestBuilds (env : Env) (a : Args) (out : Outcome) : Prop :=
  ∀ f r, Returned env f r → (∀ o, o ∈ r.produced ++ r.reused ↔ Announced a out f o) ∧ (r.produced ++ r.reused).Nodup

theorem Path.mono {R S : String → String → Prop} (h : ∀ x y, R x y → S x y) {x y : String} (p : Path R x y) : Path S x y := by
  induction p with
  | one e => exact .one (h _ _ e)
  | more e _ ih => exact .more (h _ _ e) ih

theorem Phases.depIn_iff {env : Env} {a : Args} {d : Disk} (P : Phases env a d) (hv : ValidGraphs a.old)
    (ho : ValidOrder env) (f g : String) : DepIn P.T f g ↔ NeedsIn a P.result f g := by
  unfold DepIn NeedsIn
  rw [← P.rebuilt_iff hv ho, ← P.rebuilt_iff hv ho]
  constructor
  · rintro ⟨h1, h2, h3⟩; exact ⟨h1, h2, (P.deps_iff hv f g h1).1 h3⟩
  · rintro ⟨h1, h2, h3⟩; exact ⟨h1, h2, (P.deps_iff hv f g h1).2 h3⟩

/-- C14: if builds make exactly what was announced, the cyclic dependency error is raised only if
the dependencies among the rebuilt files contain a cycle. -/
theorem C14_error_means_cycle (env : Env) (a : Args) (d : Disk) (hv : ValidGraphs a.old) (ho : ValidOrder env)
    (hscan : ∀ dk f e, env.scan dk f = .error e → e ≠ .cyclic)
    (hbuild : ∀ b ∈ env.batches, ∀ f e, b f = some (.error e) → e ≠ .cyclic)
    (hh : HonestBuilds env a (hotRebuild env a d)) (h : (hotRebuild env a d).status = .failed .cyclic) :
    ∃ f, Path (NeedsIn a (hotRebuild env a d)) f f := by
  obtain ⟨P, hP, hl⟩ := hotRebuild_cyclic hscan h
  rw [hP] at hh ⊢
  have hh' : ∀ f r, Returned env f r → Honest P.T f r := fun f r hr =>
    ⟨fun o => ((hh f r hr).1 o).trans (P.announced_iff f o).symm, (hh f r hr).2⟩
  obtain ⟨s1, h1, hc⟩ := P.run hv ho
  have hb := (P.base hv ho).steps h1
  have ht := (P.track hv ho).steps h1
  have hheld := held_init.steps (P.base hv ho) (P.track hv ho) hh' h1
  have hx := (excl_steps (P.base hv ho) (P.track hv ho) excl_init
    (by intro pre post h f g _ hf; simp [initSched, Phases.init] at h; rw [h.1] at hf; simp [RunningAt] at hf)
    (fun f r hr o hor => ((hh' f r hr).same o).1 hor) h1).1
  rw [hl] at hc
  simp only [reduceCtorEq, false_and, false_or, true_and, Status.failed.injEq] at hc
  rcases hc with ⟨_, hr, hne, hstuck⟩ | ⟨e, rfl, hcr⟩
  · obtain ⟨f, _, p⟩ := cycle_of_stuck hb hheld hr hne hstuck
    exact ⟨f, p.mono (fun x y => (P.depIn_iff hv ho x y).1)⟩
  · exfalso
    rcases hcr with ⟨_, b, hbm, f, _, hbe⟩ | ⟨f, r, hf, hr, he⟩
    · exact hbuild b hbm f _ hbe rfl
    · rcases (finish_err he).2.2 with he | he
      · exact reinterpChildren_ne he rfl
      · have := settleAll_error he; simp at this

/-- C14: a file on (or, by C12, behind) a dependency cycle among the rebuilt files is never built,
and no run with such a cycle finishes. -/
theorem C14_cycle_never_finishes (env : Env) (a : Args) (d : Disk) (hv : ValidGraphs a.old) (ho : ValidOrder env)
    (f : String) (hc : Path (NeedsIn a (hotRebuild env a d)) f f) :
    Event.started f ∉ (hotRebuild env a d).log ∧ (hotRebuild env a d).status ≠ .finished := by
  have key : Event.started f ∉ (hotRebuild env a d).log := by
    rcases hotRebuild_cases env a d with ⟨h1, _, h3⟩ | ⟨P, hP⟩
    · simp [h1]
    · rw [hP] at hc ⊢
      obtain ⟨s1, h1, hl⟩ := P.log_form hv ho
      have hn := cycle_never_started (P.base hv ho) (by simp [Phases.init, initSched, startsOf]) h1 f
        (hc.mono (fun x y => (P.depIn_iff hv ho x y).2))
      rw [← mem_startsOf]
      rcases hl with hl | ⟨g, r, _, _, hl⟩
      · rw [hl]; exact hn
      · rw [hl]; simpa using hn
  refine ⟨key, fun hf => key ?_⟩
  have hr : Rebuilt a (hotRebuild env a d) f := by
    cases hc with
    | one e => exact e.1
    | more e _ => exact e.1
  exact (C10_rebuild_set env a d hv ho).2 hf f hr.1 hr.2

/-- C14: without a cycle, if builds make exactly what was announced, do not raise, and report as
children only sources and outputs which some scan of this run mentioned, then a run which got to
building and is not waiting has built everything there was to build. -/
theorem C14_acyclic_builds_all (env : Env) (a : Args) (d : Disk) (hv : ValidGraphs a.old) (ho : ValidOrder env)
    (hbuild : ∀ b ∈ env.batches, ∀ f e, b f ≠ some (.error e))
    (hh : HonestBuilds env a (hotRebuild env a d))
    (hkids : ∀ f r, Returned env f r → ∀ c ∈ r.children, isOutput c = false ∨
      ∃ x ∈ (hotRebuild env a d).scanned, c ∈ x.2.produces ∨ c ∈ x.2.dependencies)
    (hac : ∀ f, ¬ Path (NeedsIn a (hotRebuild env a d)) f f)
    (hlog : (hotRebuild env a d).log ≠ []) (hw : (hotRebuild env a d).status ≠ .waiting) :
    ∀ f, Rebuilt a (hotRebuild env a d) f → ∃ r, Event.finished f r ∈ (hotRebuild env a d).log := by
  rcases hotRebuild_cases env a d with ⟨h1, _, h3⟩ | ⟨P, hP⟩
  · exact absurd h1 hlog
  · rw [hP] at hh hkids hac hw ⊢
    have hh' : ∀ f r, Returned env f r → Honest P.T f r := fun f r hr =>
      ⟨fun o => ((hh f r hr).1 o).trans (P.announced_iff f o).symm, (hh f r hr).2⟩
    obtain ⟨s1, h1, hc⟩ := P.run hv ho
    have hb := (P.base hv ho).steps h1
    have ht := (P.track hv ho).steps h1
    have hheld := held_init.steps (P.base hv ho) (P.track hv ho) hh' h1
    have hx := (excl_steps (P.base hv ho) (P.track hv ho) excl_init
      (by intro pre post h f g _ hf; simp [initSched, Phases.init] at h; rw [h.1] at hf; simp [RunningAt] at hf)
      (fun f r hr o hor => ((hh' f r hr).same o).1 hor) h1).1
    rcases hc with ⟨_, e1, e2, e3⟩ | ⟨e1, _⟩ | ⟨_, _, hr, hne, hstuck⟩ | ⟨e, _, hcr⟩
    · intro f hf
      rw [P.result_log, e1, ← mem_endsOf, hb.ends.mem_iff]
      have hp := hb.part
      rw [e2, e3] at hp
      simp only [List.nil_append] at hp
      exact hp.mem_iff.2 ((P.rebuilt_iff hv ho f).2 hf)
    · exfalso
      apply hw
      unfold Phases.result
      rcases hll : P.loop with ⟨x, s⟩
      rw [hll] at e1
      simp only at e1
      subst e1
      rfl
    · obtain ⟨f, _, p⟩ := cycle_of_stuck hb hheld hr hne hstuck
      exact absurd (p.mono (fun x y => (P.depIn_iff hv ho x y).1)) (hac f)
    · exfalso
      rcases hcr with ⟨_, b, hbm, f, _, hbe⟩ | ⟨f, r, hf, hr, he⟩
      · exact hbuild b hbm f _ hbe
      · rcases (finish_err he).2.2 with he | he
        · have hk : ∀ c ∈ r.children, isOutput c = false ∨ c ∈ s1.outMap.keys := by
            intro c hcm
            rcases hkids f r hr c hcm with h | ⟨x, hx, hxc⟩
            · exact .inl h
            · by_cases hi : isOutput c = true
              · right
                refine steps_outMap h1 c ?_
                show c ∈ P.outMap.keys
                rw [P.result_scanned] at hx
                rcases hxc with hxc | hxc
                · refine (reinterpAll_mapkeys P.hre).1 c ?_
                  rw [← Dict.get?_isSome_iff, outMapOf_spec]
                  simp only [Option.isSome_map, List.find?_isSome]
                  exact ⟨x, by simpa using hx, by simpa using hxc⟩
                · exact (reinterpAll_mapkeys P.hre).2 x hx c hxc hi
              · exact .inl (by simpa using hi)
          obtain ⟨l, hl⟩ := reinterpChildren_known (T := P.T) (f := f) (acc := []) hk
          rw [hl] at he; simp at he
        · obtain ⟨dd, hd⟩ := settleAll_no_error (T := P.T) (os := r.produced ++ r.reused)
            (d := ⟨s1.stillOut, s1.pendOut, s1.stillArt, s1.pendArt⟩) ht.hdis ht.hsub (hh' f r hr).once
            (fun o hom hso => hx.claimOut f hf o (((hh' f r hr).same o).1 hom) hso)
            (fun o hom hso => hx.claimArt f hf o (((hh' f r hr).same o).1 hom) hso)
          rw [hd] at he; simp at he

/-! ## C15 -/

theorem unlinkStrict_files {fs : List String} {d d' : Disk} {e : Except Err Unit} (h : unlinkStrict fs d = (e, d')) :
    (∀ x ∈ d'.files, x ∈ d.files) ∧ (e = .ok () → ∀ x, x ∈ d'.files ↔ x ∈ d.files ∧ x ∉ fs) ∧
    d'.dirs = d.dirs ∧ d'.mode = d.mode ∧ (∀ x, x ∉ fs → x ∈ d.files → x ∈ d'.files) := by
  induction fs generalizing d with
  | nil => simp only [unlinkStrict, Prod.mk.injEq] at h; obtain ⟨rfl, rfl⟩ := h; simp
  | cons f fs ih =>
    simp only [unlinkStrict] at h
    split at h
    · obtain ⟨h1, h2, h3, h4, h5⟩ := ih h
      simp only [mem_del] at h1 h2 h5
      refine ⟨fun x hx => (h1 x hx).1, fun he x => ?_, h3, h4, fun x hx hd => ?_⟩
      · rw [h2 he x]
        simp only [List.mem_cons, not_or]
        tauto
      · simp only [List.mem_cons, not_or] at hx
        exact h5 x hx.2 ⟨hd, hx.1⟩
    · simp only [Prod.mk.injEq] at h; obtain ⟨rfl, rfl⟩ := h; simp

theorem removeEmptyDirs_files {fs : List String} {d d' : Disk} {e : Except Err Unit} (h : removeEmptyDirs fs d = (e, d')) :
    d'.files = d.files ∧ d'.mode = d.mode ∧ (∀ x ∈ d'.dirs, x ∈ d.dirs) ∧
    (∀ x ∈ d.dirs, x ∉ fs → x ∈ d'.dirs) ∧
    (∀ x ∈ d.dirs, x ∉ d'.dirs → x ∈ fs ∧ ∀ f ∈ d.files, dirname f ≠ x) := by
  induction fs generalizing d with
  | nil => simp only [removeEmptyDirs, Prod.mk.injEq] at h; obtain ⟨rfl, rfl⟩ := h; simp
  | cons p fs ih =>
    simp only [removeEmptyDirs] at h
    split at h
    · split at h
      · rename_i hem
        obtain ⟨h1, h2, h3, h4, h5⟩ := ih h
        simp only [mem_del] at h3 h4 h5
        refine ⟨h1, h2, fun x hx => (h3 x hx).1, fun x hx hn => ?_, fun x hx hn => ?_⟩
        · simp only [List.mem_cons, not_or] at hn
          exact h4 x ⟨hx, hn.1⟩ hn.2
        · by_cases e : x = p
          · subst e
            refine ⟨by simp, fun f hf => ?_⟩
            unfold isEmptyDir at hem
            simp at hem
            exact hem.1 f hf
          · obtain ⟨q1, q2⟩ := h5 x ⟨hx, e⟩ hn
            exact ⟨by simp [q1], q2⟩
      · obtain ⟨h1, h2, h3, h4, h5⟩ := ih h
        refine ⟨h1, h2, h3, fun x hx hn => ?_, fun x hx hn => ?_⟩
        · simp only [List.mem_cons, not_or] at hn
          exact h4 x hx hn.2
        · obtain ⟨q1, q2⟩ := h5 x hx hn
          exact ⟨by simp [q1], q2⟩
    · simp only [Prod.mk.injEq] at h; obtain ⟨rfl, rfl⟩ := h
      exact ⟨rfl, rfl, fun _ h => h, fun _ h _ => h, fun _ h hn => absurd h hn⟩

theorem made_eq_touched (log : List Event) (o : String) : Made log o ↔ Touched log o := Iff.rfl

/-- What is on disk after a finished run. -/
theorem Phases.files_after {env : Env} {a : Args} {d : Disk} (P : Phases env a d) (hv : ValidGraphs a.old)
    (ho : ValidOrder env) (hf : P.result.status = .finished) (x : String) :
    x ∈ P.result.disk.files ↔
      ((x ∈ P.st.disk.files ∧ (WasOutput a P.result x → startsWith x "artifacts" = true ∧ Made P.result.log x)) ∨
       ∃ f r, Event.finished f r ∈ P.result.log ∧ x ∈ r.produced) := by
  obtain ⟨s1, h1, h2, h3, h4, _, _, hb, hfin⟩ := P.done_all hv ho hf
  have ht := (P.track hv ho).steps h1
  have hres : P.result = finalize env a (modeStep a env.sig d).1 P.st.added P.st.newPh
      ((P.dO ++ P.dA).flatMap foldersOf) P.st.updated s1 := by
    unfold Phases.result
    rcases hl : P.loop with ⟨y, s⟩
    rw [hl] at hfin h2
    simp only at hfin h2
    subst hfin; subst h2
    rfl
  have hdisk : ∀ x, x ∈ P.result.disk.files ↔ x ∈ s1.disk.files ∧ x ∉ s1.stillArt := by
    intro x
    rw [hres] at hf ⊢
    unfold finalize at hf ⊢
    rcases hu : unlinkStrict s1.stillArt s1.disk with ⟨e, dd⟩
    rw [hu] at hf
    cases e with
    | error e => simp at hf
    | ok u =>
      dsimp only at hf ⊢
      have hq := (unlinkStrict_files hu).2.1 rfl x
      rcases hr : removeEmptyDirs (sortByLen (insertAll ((P.dO ++ P.dA).flatMap foldersOf) [])) dd with ⟨e, d2⟩
      rw [hr] at hf
      have hq2 := (removeEmptyDirs_files hr).1
      cases e with
      | error e => simp at hf
      | ok u =>
        dsimp only at hf ⊢
        split
        · rw [hq2]; exact hq
        · rw [hq2]; exact hq
  rw [hdisk, ht.files, ht.art, h3, P.wasOutput_iff hv ho]
  have hd1 : x ∈ P.d1.files ↔ x ∈ P.st.disk.files ∧ x ∉ P.dO := by
    show x ∈ (unlinkLenient P.dO P.st.disk).files ↔ _
    simp [unlinkLenient]
  have hm : (∃ f r, Event.finished f r ∈ s1.log ∧ x ∈ r.produced) → Touched s1.log x := by
    rintro ⟨f, r, h, hx⟩; exact ⟨f, r, h, by simp [hx]⟩
  rw [hd1, made_eq_touched]
  have hart : x ∈ P.T.dirtyArt → startsWith x "artifacts" = true := fun h => ((P.mem_dirty hv ho x).2.1 h).1
  have hout : x ∈ P.dO → startsWith x "artifacts" = false := fun h => ((P.mem_dirty hv ho x).1.1 h).1
  by_cases hprod : ∃ f r, Event.finished f r ∈ s1.log ∧ x ∈ r.produced
  · have := hm hprod
    simp only [hprod, or_true, true_and, this, not_true, and_false, not_false_eq_true]
  · simp only [hprod, or_false]
    constructor
    · rintro ⟨⟨q1, q2⟩, q3⟩
      refine ⟨q1, fun hw => ?_⟩
      rcases hw with hw | hw
      · exact absurd hw q2
      · refine ⟨hart hw, ?_⟩
        exact Classical.byContradiction (fun hc => q3 ⟨hw, hc⟩)
    · rintro ⟨q1, q2⟩
      refine ⟨⟨q1, fun hc => ?_⟩, fun hc => hc.2 (q2 (.inr hc.1)).2⟩
      have e1 := (q2 (.inl hc)).1
      rw [hout hc] at e1; simp at e1

/-- C15: after a finished rebuild, an output recorded for a file rebuilt or deleted now which no
build of this run produced or reused is not on disk. -/
theorem C15_stale_outputs_deleted (env : Env) (a : Args) (d : Disk) (hv : ValidGraphs a.old) (ho : ValidOrder env)
    (hf : (hotRebuild env a d).status = .finished) (o : String)
    (hw : WasOutput a (hotRebuild env a d) o) (hm : ¬ Made (hotRebuild env a d).log o) :
    o ∉ (hotRebuild env a d).disk.files := by
  rcases hotRebuild_cases env a d with ⟨h1, _, h3⟩ | ⟨P, hP⟩
  · obtain ⟨e1, e2, _⟩ := h3 hf
    obtain ⟨x, hx, _⟩ := hw
    simp [Affected, touchedSources, e1, e2, Dict.keys] at hx
  · rw [hP] at hf hw hm ⊢
    rw [P.files_after hv ho hf]
    rintro (⟨_, h⟩ | ⟨f, r, h, hx⟩)
    · exact hm (h hw).2
    · exact hm ⟨f, r, h, by simp [hx]⟩

end Verif.Hot
