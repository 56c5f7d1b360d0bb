import Verif.CrashLemmas
/-! # C18: interrupted and failed rebuilds -/
namespace Verif.Crash
open Verif Verif.Graph Verif.Hot Verif.Cold

/-! ## What a rebuild may touch -/

/-- The effect changes a graph file. -/
def Effect.isGraph : Effect → Bool
  | .openGraph _ => true
  | .closeGraph _ _ => true
  | _ => false

/-- What each kind of effect may touch. -/
def Allowed (env : Env) (a : Args) (d : Disk) : Effect → Prop
  | .create p => p ∉ d.files ∧ ∃ dd y r, env.scan dd y = .ok r ∧ p ∈ r.placeholders
  | .unlink o => ∃ x, Edge a.old.out x o
  | .write o => ∃ f r, Returned env f r ∧ o ∈ r.produced
  | .openGraph _ => (hotRebuild env a d).stored.isSome = true
  | .closeGraph w g => ∃ gs, (hotRebuild env a d).stored = some gs ∧ g = match w with | .dep => gs.dep | .out => gs.out | .ph => gs.ph
  | _ => True

theorem scanLoop_created (scan : Scanner) (sig : String → Sig) (n : Nat) (fs : List String) (st : ScanState) :
    ∃ new, (scanLoop scan sig n fs st).2.disk = { st.disk with files := st.disk.files ++ new } ∧
      ∀ p ∈ new, p ∉ st.disk.files ∧ ∃ dd y r, scan dd y = .ok r ∧ p ∈ r.placeholders := by
  induction n generalizing fs st with
  | zero => cases fs <;> exact ⟨[], by simp [scanLoop]⟩
  | succ n ih =>
    cases fs with
    | nil => exact ⟨[], by simp [scanLoop]⟩
    | cons f fs =>
      unfold scanLoop
      split
      · exact ⟨[], by simp⟩
      · rename_i rs hrs
        obtain ⟨k0, k2⟩ := scanFiles_keys hrs
        have k3 : ∀ y ∈ updateAll rs [], scan st.disk y.1 = .ok y.2 := by
          intro y hy
          have hnd' : (updateAll rs []).NodupKeys := nodup_updateAll rs (by simp [Dict.NodupKeys, Dict.keys])
          rcases mem_updateAll rs [] y.1 y.2 (Dict.get?_of_mem hnd' hy) with h | h
          · exact k2 y h
          · simp at h
        obtain ⟨_, a2, _, _, a5, _⟩ := makeAll_spec sig (updateAll rs []) { st with updated := updateAll (updateAll rs []) st.updated }
        obtain ⟨n2, h2, h3⟩ := ih (makeAll sig (updateAll rs []) { st with updated := updateAll (updateAll rs []) st.updated }).2
          (makeAll sig (updateAll rs []) { st with updated := updateAll (updateAll rs []) st.updated }).1
        refine ⟨(makeAll sig (updateAll rs []) { st with updated := updateAll (updateAll rs []) st.updated }).2 ++ n2,
          by simp only [h2, a2, List.append_assoc], ?_⟩
        intro p hp
        rcases List.mem_append.1 hp with hp | hp
        · obtain ⟨e1, _, y, hy, e3⟩ := a5 p hp
          exact ⟨e1, st.disk, y.1, y.2, k3 y hy, e3⟩
        · obtain ⟨e1, e2⟩ := h3 p hp
          rw [a2] at e1
          simp only [List.mem_append, not_or] at e1
          exact ⟨e1.1, e2⟩

/-- Invariant of the build loop: only recorded artifacts are left to delete, and the completed builds
are results of the builder. -/
def LoopInv (A : List String) (ok : String → BuildResult → Prop) (s : Sched) : Prop :=
  (∀ x ∈ s.stillArt, x ∈ A) ∧ ∀ f r, Event.finished f r ∈ s.log → ok f r

theorem settle_shrinks {T : Tables} {o : String} {d d' : Dirty} (h : settle T o d = .ok d') :
    ∀ x ∈ d'.stillArt, x ∈ d.stillArt := by
  unfold settle at h
  repeat' split at h
  all_goals simp only [Except.ok.injEq, reduceCtorEq] at h
  all_goals subst h
  all_goals intro x hx
  all_goals first | exact hx | exact (List.mem_filter.1 hx).1

theorem settleAll_shrinks {T : Tables} {os : List String} {d d' : Dirty} (h : settleAll T os d = .ok d') :
    ∀ x ∈ d'.stillArt, x ∈ d.stillArt := by
  induction os generalizing d with
  | nil => simp only [settleAll, Except.ok.injEq] at h; subst h; exact fun _ h => h
  | cons o os ih =>
    unfold settleAll at h
    split at h
    · simp at h
    · rename_i d1 h1
      exact fun x hx => settle_shrinks h1 x (ih h x hx)

theorem LoopInv.finish {A ok} {T : Tables} {s : Sched} (h : LoopInv A ok s) {f : String} {r : BuildResult} (hr : ok f r) :
    LoopInv A ok (finish T s f r).2 := by
  have hl : ∀ f' r', Event.finished f' r' ∈ s.log ++ [.finished f r] → ok f' r' := by
    intro f' r' hm
    rcases List.mem_append.1 hm with hm | hm
    · exact h.2 f' r' hm
    · simp only [List.mem_singleton, Event.finished.injEq] at hm
      obtain ⟨rfl, rfl⟩ := hm; exact hr
  unfold Hot.finish
  dsimp only
  split
  · exact ⟨h.1, hl⟩
  · split
    · exact ⟨h.1, hl⟩
    · rename_i d hd
      exact ⟨fun x hx => h.1 x (settleAll_shrinks hd x hx), hl⟩

theorem LoopInv.drain {A ok} {T : Tables} {b : Batch} (hb : ∀ f r, b f = some (.ok r) → ok f r) (fs : List String) {s : Sched}
    (h : LoopInv A ok s) : LoopInv A ok (drain T b fs s).2 := by
  induction fs generalizing s with
  | nil => exact h
  | cons f fs ih =>
    unfold Hot.drain
    split
    · exact ih h
    · exact h
    · rename_i r hr
      have hf := h.finish (T := T) (hb f r hr)
      split
      · rename_i e s1 he; rw [he] at hf; exact hf
      · rename_i s1 he; rw [he] at hf; exact ih hf

theorem LoopInv.schedLoop {A ok} {T : Tables} (bs : List Batch) (hb : ∀ b ∈ bs, ∀ f r, b f = some (.ok r) → ok f r)
    {s : Sched} (h : LoopInv A ok s) : LoopInv A ok (schedLoop T bs s).2 := by
  have sub : ∀ s s1 : Sched, LoopInv A ok s → submit T s = .ok s1 → LoopInv A ok s1 := by
    intro s s1 h hs
    unfold submit at hs
    dsimp only at hs
    split at hs
    · simp at hs
    · simp only [Except.ok.injEq] at hs
      subst hs
      refine ⟨h.1, fun f r hm => ?_⟩
      rcases List.mem_append.1 hm with hm | hm
      · exact h.2 f r hm
      · simp at hm
  induction bs generalizing s with
  | nil =>
    unfold Hot.schedLoop
    split
    · exact h
    · split
      · exact h
      · rename_i s1 hs
        exact sub s s1 h hs
  | cons b bs ih =>
    unfold Hot.schedLoop
    split
    · exact h
    · split
      · exact h
      · rename_i s1 hs
        have h2 := (sub s s1 h hs).drain (T := T) (hb b (by simp)) s1.running
        dsimp only
        split
        · rename_i e s2 he; rw [he] at h2; exact h2
        · rename_i s2 he; rw [he] at h2; exact ih (fun b hb' => hb b (by simp [hb'])) h2

theorem mem_strictEffects {fs : List String} {d : Disk} {e : Effect} (h : e ∈ strictEffects fs d) : ∃ f ∈ fs, e = .unlink f := by
  induction fs generalizing d with
  | nil => simp [strictEffects] at h
  | cons f fs ih =>
    unfold strictEffects at h
    split at h
    · rcases List.mem_cons.1 h with rfl | h
      · exact ⟨f, by simp, rfl⟩
      · obtain ⟨g, hg, rfl⟩ := ih h; exact ⟨g, by simp [hg], rfl⟩
    · simp at h

theorem mem_dirEffects {fs : List String} {d : Disk} {e : Effect} (h : e ∈ dirEffects fs d) : ∃ f, e = .rmdir f := by
  induction fs generalizing d with
  | nil => simp [dirEffects] at h
  | cons f fs ih =>
    unfold dirEffects at h
    split at h
    · split at h
      · rcases List.mem_cons.1 h with rfl | h
        · exact ⟨f, rfl⟩
        · exact ih h
      · exact ih h
    · simp at h

/-- Everything a rebuild does to the file system. -/
theorem effects_allowed (env : Env) (a : Args) (d : Disk) (ho : ValidOrder env) :
    ∀ e ∈ effects env a d, Allowed env a d e := by
  intro e he
  have hmode : e ∈ modeEffects a d → Allowed env a d e := by
    intro h; unfold modeEffects at h
    split at h
    · split at h
      · simp only [List.mem_singleton] at h; subst h; trivial
      · simp at h
    · simp only [List.mem_singleton] at h; subst h; trivial
  by_cases hm : e ∈ modeEffects a d
  · exact hmode hm
  unfold effects at he
  dsimp only at he
  rw [List.mem_append] at he
  replace he := he.resolve_left hm
  split at he
  · simp at he
  rename_i hw
  rw [List.mem_append] at he
  have hf : (modeStep a env.sig d).2.files = d.files := by
    unfold modeStep; split
    · split <;> rfl
    · rfl
  rcases he with he | he
  · obtain ⟨new, h1, h2⟩ := scanLoop_created env.scan env.sig env.scanFuel ((modeStep a env.sig d).1.keys ++ a.added.keys)
      { updated := [], newPh := [], added := a.added, disk := (modeStep a env.sig d).2 }
    unfold scanEffects at he
    rw [h1] at he
    simp only [hf, List.drop_left, List.mem_map] at he
    obtain ⟨p, hp, rfl⟩ := he
    have := h2 p hp
    simp only [hf] at this
    exact this
  · split at he
    · simp at he
    · rename_i st hst
      have hrun : hotRebuild env a d = buildPhase env a (modeStep a env.sig d).1 st := by
        unfold hotRebuild
        dsimp only
        rw [if_neg hw, hst]
      unfold buildEffects at he
      unfold buildPhase at hrun
      split at he
      · simp at he
      · rename_i updated outMap hre
        rw [hre] at hrun
        dsimp only at hrun
        split at he
        · simp at he
        · rename_i seen popped hcl
          rw [hcl] at hrun
          dsimp only at he hrun
          have hedge : ∀ x, x ∈ popped.flatMap (kids a.old.out) → ∃ y, Edge a.old.out y x := by
            intro x hx
            obtain ⟨y, _, hy⟩ := List.mem_flatMap.1 hx
            exact ⟨y, (edge_iff ..).2 hy⟩
          have hdO : ∀ x ∈ insertAll (dirtyOutputs a.old.out popped) [], ∃ y, Edge a.old.out y x := by
            intro x hx
            have := ((insertAll_spec (dirtyOutputs a.old.out popped) [] List.nodup_nil).2 x).1 hx
            simp only [List.not_mem_nil, false_or] at this
            unfold dirtyOutputs at this
            exact hedge x (List.mem_filter.1 this).1
          have hdA : ∀ x ∈ env.order (insertAll (dirtyArtifacts a.old.out popped) []), ∃ y, Edge a.old.out y x := by
            intro x hx
            rw [(ho _).mem_iff] at hx
            have := ((insertAll_spec (dirtyArtifacts a.old.out popped) [] List.nodup_nil).2 x).1 hx
            simp only [List.not_mem_nil, false_or] at this
            unfold dirtyArtifacts at this
            exact hedge x (List.mem_filter.1 this).1
          rw [List.mem_append] at he
          rcases he with he | he
          · obtain ⟨x, hx, rfl⟩ := List.mem_map.1 he
            exact hdO x hx
          · split at he
            · simp at he
            · rename_i herr
              rw [herr] at hrun
              dsimp only at hrun
              generalize hT : tablesOf _ _ _ _ _ = T at he hrun
              generalize hI : initSched _ _ _ _ _ = S0 at he hrun
              have hinv : LoopInv (env.order (insertAll (dirtyArtifacts a.old.out popped) [])) (Returned env) S0 := by
                subst hI; exact ⟨fun _ h => h, by simp [initSched]⟩
              have hinv' := hinv.schedLoop (T := T) env.batches (fun b hb f r h => ⟨b, hb, h⟩)
              rw [List.mem_append] at he
              rcases he with he | he
              · unfold logEffects at he
                obtain ⟨ev, hev, hee⟩ := List.mem_flatMap.1 he
                cases ev with
                | started f => simp at hee
                | finished f r =>
                  simp only [List.mem_map] at hee
                  obtain ⟨o, ho', rfl⟩ := hee
                  exact ⟨f, r, hinv'.2 f r hev, ho'⟩
              · split at he
                · rename_i s hs
                  rw [hs] at hrun hinv'
                  dsimp only at hrun
                  unfold finalizeEffects at he
                  rw [List.mem_append] at he
                  rcases he with he | he
                  · obtain ⟨f, hf', rfl⟩ := mem_strictEffects he
                    exact hdA f (hinv'.1 f hf')
                  · unfold finalize at hrun
                    split at he
                    · simp at he
                    · rename_i dd hu
                      rw [hu] at hrun
                      dsimp only at hrun
                      rw [List.mem_append] at he
                      rcases he with he | he
                      · obtain ⟨f, rfl⟩ := mem_dirEffects he; trivial
                      · split at he
                        · simp at he
                        · rename_i d1 hr
                          rw [hr] at hrun
                          dsimp only at hrun
                          split at he
                          · simp at he
                          · rename_i gs hg
                            rw [hg] at hrun
                            dsimp only at hrun
                            simp only [storeEffects, List.mem_cons, List.not_mem_nil, or_false] at he
                            rcases he with rfl | rfl | rfl | rfl | rfl | rfl
                            · simp [Allowed, hrun]
                            · exact ⟨gs, by rw [hrun], rfl⟩
                            · simp [Allowed, hrun]
                            · exact ⟨gs, by rw [hrun], rfl⟩
                            · simp [Allowed, hrun]
                            · exact ⟨gs, by rw [hrun], rfl⟩
                · simp at he

/-! ## The theorem -/

/-- A file under the source folder. -/
def isSource (f : String) : Bool := startsWith f "src/"

theorem source_not_output {f : String} (h : isSource f = true) : isOutput f = false := by
  unfold isSource isOutput startsWith at *
  rcases hl : f.toList with _ | ⟨c, l⟩
  · rw [hl] at h; simp at h
  · rw [hl] at h
    have e1 : "src/".toList = ['s', 'r', 'c', '/'] := by decide
    have e2 : "out".toList = ['o', 'u', 't'] := by decide
    have e3 : "artifacts".toList = ['a', 'r', 't', 'i', 'f', 'a', 'c', 't', 's'] := by decide
    rw [e1] at h
    simp only [List.isPrefixOf, Bool.and_eq_true, beq_iff_eq] at h
    rw [e2, e3, ← h.1]
    simp [List.isPrefixOf]

/-- A walk over the source folder: every source file once, with its signature. -/
structure WalkFor (d : Disk) (sig : String → Sig) (w : List (String × Sig)) : Prop where
  ok : WalkOK w
  mem : ∀ f s, (f, s) ∈ w ↔ f ∈ d.files ∧ isSource f = true ∧ s = sig f

/-- Effects on files outside the graphs leave the graph files alone, and add a source file only by
creating it. -/
theorem applyAll_frame (es : List Effect) (s : Store) (hg : ∀ e ∈ es, e.isGraph = false)
    (hu : ∀ f, Effect.unlink f ∈ es → isOutput f = true) (hw : ∀ f, Effect.write f ∈ es → isOutput f = true) :
    (applyAll es s).dep = s.dep ∧ (applyAll es s).out = s.out ∧ (applyAll es s).ph = s.ph ∧
    ∀ f, isSource f = true → (f ∈ (applyAll es s).disk.files ↔ f ∈ s.disk.files ∨ Effect.create f ∈ es) := by
  induction es generalizing s with
  | nil => simp [applyAll_nil]
  | cons e es ih =>
    rw [applyAll_cons]
    obtain ⟨h1, h2, h3, h4⟩ := ih (e.apply s) (fun e he => hg e (by simp [he]))
      (fun f hf => hu f (by simp [hf])) (fun f hf => hw f (by simp [hf]))
    have hge := hg e (by simp)
    have key : (e.apply s).dep = s.dep ∧ (e.apply s).out = s.out ∧ (e.apply s).ph = s.ph ∧
        ∀ f, isSource f = true → (f ∈ (e.apply s).disk.files ↔ f ∈ s.disk.files ∨ e = .create f) := by
      cases e with
      | setMode m => exact ⟨rfl, rfl, rfl, by simp [Effect.apply]⟩
      | create p => 
        refine ⟨rfl, rfl, rfl, fun f _ => ?_⟩
        simp only [Effect.apply, List.mem_append, List.mem_singleton, Effect.create.injEq]
        constructor <;> rintro (h | h) <;> simp [h]
      | unlink o =>
        refine ⟨rfl, rfl, rfl, fun f hf => ?_⟩
        have := hu o (by simp)
        simp only [Effect.apply, del, List.mem_filter, decide_eq_true_eq, reduceCtorEq, or_false, and_iff_left_iff_imp]
        rintro _ rfl
        rw [source_not_output hf] at this; simp at this
      | write o =>
        refine ⟨rfl, rfl, rfl, fun f hf => ?_⟩
        have := hw o (by simp)
        simp only [Effect.apply, Disk.write, List.mem_append, List.mem_singleton, reduceCtorEq, or_false, or_iff_left_iff_imp]
        rintro rfl
        rw [source_not_output hf] at this; simp at this
      | rmdir p => exact ⟨rfl, rfl, rfl, by simp [Effect.apply]⟩
      | openGraph w => simp [Effect.isGraph] at hge
      | closeGraph w g => simp [Effect.isGraph] at hge
    obtain ⟨k1, k2, k3, k4⟩ := key
    refine ⟨h1.trans k1, h2.trans k2, h3.trans k3, fun f hf => ?_⟩
    rw [h4 f hf, k4 f hf, List.mem_cons, or_assoc]
    constructor
    · rintro (h | rfl | h) <;> simp [*]
    · rintro (h | h | h)
      · exact .inl h
      · exact .inr (.inl h.symm)
      · exact .inr (.inr h)

/-- The state of the project after the process died: the first `k` effects were performed, and the
builds running at that time had written the outputs `extra` (completely or not). -/
def crashed (k : Nat) (extra : List String) (env : Env) (a : Args) (s : Store) : Store :=
  applyAll (extra.map .write) (crashAfter k env a s)

/-- The run did not get to writing the graph files. -/
def BeforeStore (k : Nat) (env : Env) (a : Args) (s : Store) : Prop :=
  ∀ e ∈ (effects env a s.disk).take k, e.isGraph = false

/-- A rebuild which did not finish did not get to writing the graph files. -/
theorem failed_beforeStore (env : Env) (a : Args) (s : Store) (ho : ValidOrder env) (k : Nat)
    (h : (hotRebuild env a s.disk).status ≠ .finished) : BeforeStore k env a s := by
  intro e he
  have hs : (hotRebuild env a s.disk).stored = none := by
    rcases hotRebuild_cases env a s.disk with h' | ⟨P, hP⟩
    · exact h'.2.1.1
    · rw [hP] at h ⊢
      unfold Phases.result at h ⊢
      rcases hl : P.loop with ⟨st, t⟩
      rw [hl] at h
      cases st with
      | finished =>
        dsimp only at h ⊢
        unfold finalize at h ⊢
        split at h
        · rfl
        · try dsimp only at h ⊢
          split at h
          · rfl
          · try dsimp only at h ⊢
            split at h
            · rfl
            · simp at h
      | waiting => rfl
      | failed e => rfl
  have := effects_allowed env a s.disk ho e (List.mem_of_mem_take he)
  cases e with
  | openGraph w => simp [Allowed, hs] at this
  | closeGraph w g => simp [Allowed, hs] at this
  | _ => rfl

/-- C18 (interrupted or failed before the graphs are written).  The next build reads the same graphs
and again sees every change the interrupted one was given: every changed and added file with its
signature, and every deleted file unless the interrupted run generated it anew as a placeholder, in
which case it is there and counts as changed unless its signature is the recorded one.  Nothing is
invented either: whatever the next build sees besides is a placeholder generated by the interrupted
run.  Missing: a process killed while it writes the three graph files (see `C18_store_points` and
`C18_lost_between_stores`), and the mode of the constants (see C19). -/
theorem C18_nothing_lost_partial (env : Env) (a : Args) (s : Store) (k : Nat) (extra : List String) (ho : ValidOrder env)
    (hload : s.load = .ok a.old) (hk : BeforeStore k env a s)
    (hout : ∀ x o, Edge a.old.out x o → isOutput o = true)
    (hprod : ∀ f r, Returned env f r → ∀ o ∈ r.produced, isOutput o = true)
    (hextra : ∀ o ∈ extra, isOutput o = true)
    (sig sig' : String → Sig) (w w' : List (String × Sig)) (r : Found)
    (hw : WalkFor s.disk sig w) (hr : detect a.old.dep w = .ok r)
    (hw' : WalkFor (crashed k extra env a s).disk sig' w') (hsame : ∀ f ∈ s.disk.files, sig' f = sig f) :
    (crashed k extra env a s).load = .ok a.old ∧
    ∃ r', detect a.old.dep w' = .ok r' ∧
      (∀ f t, r.changed.get? f = some t → r'.changed.get? f = some t) ∧
      (∀ f t, r.added.get? f = some t → r'.added.get? f = some t) ∧
      (∀ f ∈ r.deleted, f ∈ r'.deleted ∨
        (f ∈ (crashed k extra env a s).disk.files ∧ (f ∈ r'.changed.keys ∨ HasMeta a.old.dep f (sig' f)))) ∧
      (∀ f, f ∈ r'.changed.keys ∨ f ∈ r'.added.keys ∨ f ∈ r'.deleted →
        (f ∈ r.changed.keys ∨ f ∈ r.added.keys ∨ f ∈ r.deleted) ∨
          (f ∉ s.disk.files ∧ ∃ dd y q, env.scan dd y = .ok q ∧ f ∈ q.placeholders)) := by
  have hall : ∀ e ∈ (effects env a s.disk).take k, Allowed env a s.disk e :=
    fun e he => effects_allowed env a s.disk ho e (List.mem_of_mem_take he)
  have hcr : crashed k extra env a s = applyAll ((effects env a s.disk).take k ++ extra.map .write) s := by
    unfold crashed crashAfter; rw [applyAll_append]
  obtain ⟨f1, f2, f3, f4⟩ := applyAll_frame ((effects env a s.disk).take k ++ extra.map .write) s
    (by
      intro e he
      rcases List.mem_append.1 he with he | he
      · exact hk e he
      · obtain ⟨_, _, rfl⟩ := List.mem_map.1 he; rfl)
    (by
      intro f hf
      rcases List.mem_append.1 hf with hf | hf
      · obtain ⟨x, hx⟩ := hall _ hf; exact hout x f hx
      · simp at hf)
    (by
      intro f hf
      rcases List.mem_append.1 hf with hf | hf
      · obtain ⟨g, q, hq, hm⟩ := hall _ hf; exact hprod g q hq f hm
      · simp only [List.mem_map, Effect.write.injEq, exists_eq_right] at hf; exact hextra f hf)
  rw [← hcr] at f1 f2 f3 f4
  have hload' : (crashed k extra env a s).load = .ok a.old := by
    rw [← hload]; unfold Store.load; rw [f1, f2, f3]
  refine ⟨hload', ?_⟩
  obtain ⟨q, q1, q2, q3, q4, _⟩ := C20_detect_exact a.old.dep w hw.ok
  rw [hr] at q1; simp only [Except.ok.injEq] at q1; subst q1
  obtain ⟨r', p1, p2, p3, p4, _⟩ := C20_detect_exact a.old.dep w' hw'.ok
  have hmem : ∀ f t, (f, t) ∈ w → (f, t) ∈ w' := by
    intro f t h
    obtain ⟨m1, m2, m3⟩ := (hw.mem f t).1 h
    exact (hw'.mem f t).2 ⟨(f4 f m2).2 (.inl m1), m2, by rw [hsame f m1, m3]⟩
  have hback : ∀ f t, (f, t) ∈ w' → (f, t) ∈ w ∨
      (f ∉ s.disk.files ∧ ∃ dd y q, env.scan dd y = .ok q ∧ f ∈ q.placeholders) := by
    intro f t h
    obtain ⟨m1, m2, m3⟩ := (hw'.mem f t).1 h
    by_cases hin : f ∈ s.disk.files
    · exact .inl ((hw.mem f t).2 ⟨hin, m2, by rw [← hsame f hin, m3]⟩)
    · rcases (f4 f m2).1 m1 with h | h
      · exact absurd h hin
      · rcases List.mem_append.1 h with h | h
        · exact .inr (hall _ h)
        · simp at h
  have hkeys : ∀ (d : Dict Sig) f, f ∈ d.keys ↔ ∃ t, d.get? f = some t := fun d f => by
    rw [← Dict.get?_isSome_iff, Option.isSome_iff_exists]
  refine ⟨r', p1, ?_, ?_, ?_, ?_⟩
  · intro f t h
    rw [q4] at h; rw [p4]
    exact ⟨hmem f t h.1, h.2⟩
  · intro f t h
    rw [q3] at h; rw [p3]
    exact ⟨hmem f t h.1, h.2⟩
  · intro f h
    rw [q2] at h
    by_cases hin : ∃ t, (f, t) ∈ w'
    · obtain ⟨t, ht⟩ := hin
      have m := (hw'.mem f t).1 ht
      refine .inr ⟨m.1, ?_⟩
      by_cases hm : HasMeta a.old.dep f (sig' f)
      · exact .inr hm
      · left
        rw [hkeys]
        refine ⟨t, (p4 f t).2 ⟨ht, h.1, ?_⟩⟩
        rw [m.2.2]; exact hm
    · left
      rw [p2]
      exact ⟨h.1, fun t ht => hin ⟨t, ht⟩⟩
  · intro f h
    simp only [hkeys] at h ⊢
    rcases h with ⟨t, h⟩ | ⟨t, h⟩ | h
    · rw [p4] at h
      rcases hback f t h.1 with h' | h'
      · exact .inl (.inl ⟨t, (q4 f t).2 ⟨h', h.2⟩⟩)
      · exact .inr h'
    · rw [p3] at h
      rcases hback f t h.1 with h' | h'
      · exact .inl (.inr (.inl ⟨t, (q3 f t).2 ⟨h', h.2⟩⟩))
      · exact .inr h'
    · rw [p2] at h
      exact .inl (.inr (.inr ((q2 f).2 ⟨h.1, fun t ht => h.2 t (hmem f t ht)⟩)))

/-- C18, in terms of what is rebuilt: every file which the interrupted rebuild should have rebuilt
because of the changes it was given is again affected by what the next build detects.  Missing: as in
`C18_nothing_lost_partial`. -/
theorem C18_affected_again_partial (env : Env) (a : Args) (s : Store) (k : Nat) (extra : List String) (ho : ValidOrder env)
    (hload : s.load = .ok a.old) (hk : BeforeStore k env a s)
    (hout : ∀ x o, Edge a.old.out x o → isOutput o = true)
    (hprod : ∀ f r, Returned env f r → ∀ o ∈ r.produced, isOutput o = true)
    (hextra : ∀ o ∈ extra, isOutput o = true)
    (sig sig' : String → Sig) (w w' : List (String × Sig)) (r r' : Found)
    (hw : WalkFor s.disk sig w) (hr : detect a.old.dep w = .ok r)
    (hw' : WalkFor (crashed k extra env a s).disk sig' w') (hr' : detect a.old.dep w' = .ok r')
    (hsame : ∀ f ∈ s.disk.files, sig' f = sig f)
    -- a placeholder written anew has a new time or inode
    (hnew : ∀ f ∉ s.disk.files, ¬ HasMeta a.old.dep f (sig' f)) (f : String)
    (hf : Affected a.old (r.changed.keys ++ r.added.keys ++ r.deleted) f) :
    Affected a.old (r'.changed.keys ++ r'.added.keys ++ r'.deleted) f := by
  obtain ⟨_, r2, p1, p2, p3, p4, _⟩ := C18_nothing_lost_partial env a s k extra ho hload hk hout hprod hextra sig sig' w w' r
    hw hr hw' hsame
  rw [hr'] at p1; simp only [Except.ok.injEq] at p1; subst p1
  obtain ⟨q, q1, q2, _⟩ := C20_detect_exact a.old.dep w hw.ok
  rw [hr] at q1; simp only [Except.ok.injEq] at q1; subst q1
  have hkeys : ∀ (d : Dict Sig) f, f ∈ d.keys ↔ ∃ t, d.get? f = some t := fun d f => by
    rw [← Dict.get?_isSome_iff, Option.isSome_iff_exists]
  by_cases hsrc : ∀ x ∈ r.deleted, x ∈ r'.deleted ∨ x ∈ r'.changed.keys
  · have hsub : ∀ x ∈ r.changed.keys ++ r.added.keys ++ r.deleted, x ∈ r'.changed.keys ++ r'.added.keys ++ r'.deleted := by
      intro x hx
      simp only [List.mem_append, hkeys] at hx ⊢
      rcases hx with (⟨t, h⟩ | ⟨t, h⟩) | h
      · exact .inl (.inl ⟨t, p2 x t h⟩)
      · exact .inl (.inr ⟨t, p3 x t h⟩)
      · rcases hsrc x h with h | h
        · exact .inr h
        · exact .inl (.inl ((hkeys _ _).1 h))
    rcases hf with h | ⟨y, hy, p⟩
    · exact .inl (hsub f h)
    · exact .inr ⟨y, hsub y hy, p⟩
  · exfalso
    apply hsrc
    intro x hx
    rcases p4 x hx with h | ⟨h, h' | h'⟩
    · exact .inl h
    · exact .inr h'
    · by_cases hin : x ∈ s.disk.files
      · -- recorded, on disk and deleted: not a source file, so the new walk does not see it either
        left
        obtain ⟨r3, t1, t2, _⟩ := C20_detect_exact a.old.dep w' hw'.ok
        rw [hr'] at t1; simp only [Except.ok.injEq] at t1; subst t1
        rw [t2]
        have hdel := (q2 x).1 hx
        refine ⟨hdel.1, fun t ht => ?_⟩
        obtain ⟨_, m2, _⟩ := (hw'.mem x t).1 ht
        exact hdel.2 (sig x) ((hw.mem x _).2 ⟨hin, m2, rfl⟩)
      · exact absurd h' (hnew x hin)

/-- What a build reads after the process died while the graphs were written: the seven possible
points.  Only the first and the last are consistent; the third and the fifth are read without any
error and mix the graphs of two builds. -/
theorem C18_store_points (gs : Graphs) (s : Store) (old : Graphs) (hload : s.load = .ok old) :
    (applyAll ((storeEffects gs).take 0) s).load = .ok old ∧
    (∃ e, (applyAll ((storeEffects gs).take 1) s).load = .error e) ∧
    (applyAll ((storeEffects gs).take 2) s).load = .ok ⟨load (store gs.dep), old.out, old.ph⟩ ∧
    (∃ e, (applyAll ((storeEffects gs).take 3) s).load = .error e) ∧
    (applyAll ((storeEffects gs).take 4) s).load = .ok ⟨load (store gs.dep), load (store gs.out), old.ph⟩ ∧
    (∃ e, (applyAll ((storeEffects gs).take 5) s).load = .error e) ∧
    (applyAll ((storeEffects gs).take 6) s).load = .ok ⟨load (store gs.dep), load (store gs.out), load (store gs.ph)⟩ := by
  unfold Store.load at hload
  split at hload
  · simp at hload
  · rename_i d hd
    split at hload
    · simp at hload
    · rename_i o ho
      split at hload
      · simp at hload
      · rename_i p hp
        simp only [Except.ok.injEq] at hload
        subst hload
        have l1 : GraphFile.load .torn = .error .valueError := rfl
        have l2 : ∀ g, GraphFile.load (.has g) = .ok (load (store g)) := fun _ => rfl
        simp [storeEffects, applyAll, Effect.apply, Store.setGraph, Store.load, l1, l2, hd, ho, hp]

/-! ## A concrete project -/


/-- A page uses a script; the script was changed since the last build and a style sheet was added. -/
def crSaved : Graphs where
  dep := mkGraph ["src/a.html", "src/b.js"] [("src/a.html", ["src/b.js"])]
  out := mkGraph ["src/a.html", "src/b.js", "out/a", "out/b"] [("src/a.html", ["out/a"]), ("src/b.js", ["out/b"])]
  ph := mkGraph ["src/a.html", "src/b.js"] []

def crOld : Graphs := ⟨load (store crSaved.dep), load (store crSaved.out), load (store crSaved.ph)⟩

def crStore : Store where
  disk := ⟨["src/a.html", "src/b.js", "src/n.css", "out/a", "out/b"], ["out"], none⟩
  dep := .has crSaved.dep
  out := .has crSaved.out
  ph := .has crSaved.ph

def crSig (f : String) : Sig := if f = "src/a.html" then sig0 else sig1

def crWalk : List (String × Sig) := [("src/a.html", sig0), ("src/b.js", sig1), ("src/n.css", sig1)]

def crArgs : Args where
  constants := "const.json"
  mode := .dev
  old := crOld
  changed := [("src/b.js", sig1)]
  added := [("src/n.css", sig1)]
  deleted := []

/-- The script now writes another output, the style sheet one; the page is built last and may fail. -/
def crEnv (fail : Bool) : Env where
  scan := fun _ f =>
    if f = "src/b.js" then .ok ⟨[], ["out/b2"], []⟩ else if f = "src/n.css" then .ok ⟨[], ["out/n"], ["src/ph.css"]⟩
    else .ok ⟨[], [], []⟩
  sig := crSig
  order := id
  batches :=
    [fun f => if f = "src/b.js" then some (.ok ⟨[], ["out/b2"], []⟩) else
       if f = "src/n.css" then some (.ok ⟨[], ["out/n"], []⟩) else none,
     fun f => if f = "src/a.html" then some (if fail then .error .buildFailed else .ok ⟨["src/b.js"], ["out/a"], []⟩)
       else some (.ok ⟨[], [], []⟩)]
  scanFuel := 3

/-- The hypotheses of C18 are met by a failing rebuild, and the conclusion is not vacuous: the next
build sees the same changes and, in addition, the placeholder. -/

theorem cr_failed :
    (hotRebuild (crEnv true) crArgs crStore.disk).status = .failed .buildFailed ∧
    detect crOld.dep crWalk = .ok ⟨crArgs.changed, crArgs.added, crArgs.deleted⟩ ∧
    crStore.load = .ok crArgs.old ∧
    (crashed 100 [] (crEnv true) crArgs crStore).disk.files =
      ["src/a.html", "src/b.js", "src/n.css", "src/ph.css", "out/b2", "out/n"] ∧
    detect crOld.dep (crWalk ++ [("src/ph.css", sig1)]) =
      .ok ⟨crArgs.changed, crArgs.added ++ [("src/ph.css", sig1)], []⟩ := by
  decide +kernel

theorem cr_before (k : Nat) : BeforeStore k (crEnv true) crArgs crStore :=
  failed_beforeStore _ _ _ (fun _ => List.Perm.refl _) k (by rw [cr_failed.1]; simp)

theorem cr_walk : WalkFor crStore.disk crSig crWalk := by
  refine ⟨by unfold WalkOK; decide, fun f s => ?_⟩
  have e1 : isSource "src/a.html" = true := by decide
  have e2 : isSource "src/b.js" = true := by decide
  have e3 : isSource "src/n.css" = true := by decide
  have e4 : isSource "out/a" = false := by decide
  have e5 : isSource "out/b" = false := by decide
  simp only [crWalk, crStore, List.mem_cons, Prod.mk.injEq, List.not_mem_nil, or_false]
  constructor
  · rintro (⟨rfl, rfl⟩ | ⟨rfl, rfl⟩ | ⟨rfl, rfl⟩)
    · exact ⟨by simp, e1, by decide⟩
    · exact ⟨by simp, e2, by decide⟩
    · exact ⟨by simp, e3, by decide⟩
  · rintro ⟨rfl | rfl | rfl | rfl | rfl, h, rfl⟩
    · exact .inl ⟨rfl, by decide⟩
    · exact .inr (.inl ⟨rfl, by decide⟩)
    · exact .inr (.inr ⟨rfl, by decide⟩)
    · rw [e4] at h; simp at h
    · rw [e5] at h; simp at h

theorem cr_out (x o : String) (h : Edge crArgs.old.out x o) : isOutput o = true := by
  have hk : ∀ y ∈ crOld.out.keys, ∀ o ∈ kids crOld.out y, isOutput o = true := by decide +kernel
  rw [edge_iff] at h
  by_cases hx : x ∈ crOld.out.keys
  · exact hk x hx o h
  · change o ∈ kids crOld.out x at h
    rw [kids, (Dict.get?_eq_none_iff _ _).2 hx] at h
    simp at h

/-- Killed after storing the dependency graph and before storing the output graph, the project loads
without an error, the next build detects no change at all, and the graph of outputs still lists the
output the script does not write any more and does not list the one it does: the change is lost. -/
theorem C18_lost_between_stores :
    ∃ k g, (crashAfter k (crEnv false) crArgs crStore).load = .ok g ∧
      (hotRebuild (crEnv false) crArgs crStore.disk).status = .finished ∧
      detect g.dep (crWalk ++ [("src/ph.css", sig1)]) = .ok ⟨[], [], []⟩ ∧
      kids g.out "src/b.js" = ["out/b"] ∧ "out/b" ∉ (crashAfter k (crEnv false) crArgs crStore).disk.files ∧
      "out/b2" ∈ (crashAfter k (crEnv false) crArgs crStore).disk.files := by
  have h : (match (crashAfter 9 (crEnv false) crArgs crStore).load with
      | .error _ => false
      | .ok g => decide ((hotRebuild (crEnv false) crArgs crStore.disk).status = .finished ∧
        detect g.dep (crWalk ++ [("src/ph.css", sig1)]) = .ok ⟨[], [], []⟩ ∧
        kids g.out "src/b.js" = ["out/b"] ∧ "out/b" ∉ (crashAfter 9 (crEnv false) crArgs crStore).disk.files ∧
        "out/b2" ∈ (crashAfter 9 (crEnv false) crArgs crStore).disk.files) : Bool) = true := by
    decide +kernel
  rcases hl : (crashAfter 9 (crEnv false) crArgs crStore).load with e | g
  · rw [hl] at h; simp at h
  · rw [hl] at h; exact ⟨9, g, hl, of_decide_eq_true h⟩


end Verif.Crash
