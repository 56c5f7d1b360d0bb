import Verif.Crash
import Verif.ColdThm
/-! # The list of effects and the rebuild agree -/
namespace Verif.Crash
open Verif Verif.Graph Verif.Hot Verif.Cold

deriving instance DecidableEq for Graphs

theorem applyAll_append (xs ys : List Effect) (s : Store) : applyAll (xs ++ ys) s = applyAll ys (applyAll xs s) :=
  List.foldl_append ..

theorem applyAll_cons (x : Effect) (xs : List Effect) (s : Store) : applyAll (x :: xs) s = applyAll xs (x.apply s) := rfl

theorem applyAll_nil (s : Store) : applyAll [] s = s := rfl

/-- The store with another disk. -/
def Store.withDisk (s : Store) (d : Disk) : Store := { s with disk := d }

@[simp] theorem withDisk_self (s : Store) : s.withDisk s.disk = s := rfl
@[simp] theorem withDisk_disk (s : Store) (d : Disk) : (s.withDisk d).disk = d := rfl
@[simp] theorem withDisk_withDisk (s : Store) (d e : Disk) : (s.withDisk d).withDisk e = s.withDisk e := rfl

theorem modeEffects_apply (a : Args) (sig : String → Sig) (s : Store) :
    applyAll (modeEffects a s.disk) s = s.withDisk (modeStep a sig s.disk).2 := by
  unfold modeEffects modeStep
  split
  · split
    · rfl
    · rfl
  · rfl

theorem create_apply (fs : List String) (s : Store) :
    applyAll (fs.map .create) s = s.withDisk { s.disk with files := s.disk.files ++ fs } := by
  induction fs generalizing s with
  | nil => simp [applyAll_nil, Store.withDisk]
  | cons f fs ih =>
    rw [List.map_cons, applyAll_cons, ih]
    simp [Effect.apply, Store.withDisk]

theorem unlink_apply (fs : List String) (s : Store) :
    applyAll (fs.map .unlink) s = s.withDisk (unlinkLenient fs s.disk) := by
  induction fs generalizing s with
  | nil => simp [applyAll_nil, Store.withDisk, unlinkLenient]; rw [List.filter_eq_self.2 (by simp)]
  | cons f fs ih =>
    rw [List.map_cons, applyAll_cons, ih]
    simp only [Effect.apply, Store.withDisk, unlinkLenient, del, List.filter_filter]
    congr 2
    apply List.filter_congr
    intro x _
    by_cases h : x = f <;> simp [h]

theorem write_apply (fs : List String) (s : Store) :
    applyAll (fs.map .write) s = s.withDisk (s.disk.write fs) := by
  induction fs generalizing s with
  | nil => simp [applyAll_nil, Store.withDisk, Disk.write]
  | cons f fs ih =>
    rw [List.map_cons, applyAll_cons, ih]
    simp [Effect.apply, Store.withDisk, Disk.write]

theorem makePlaceholders_disk (sig : String → Sig) (f : String) (ps : List String) (st : ScanState) :
    ∃ new, (makePlaceholders sig f ps st).1.disk = { st.disk with files := st.disk.files ++ new } := by
  induction ps generalizing st with
  | nil => exact ⟨[], by simp [makePlaceholders]⟩
  | cons p ps ih =>
    unfold makePlaceholders
    split
    · exact ih st
    · obtain ⟨new, h⟩ := ih { st with newPh := st.newPh.set p f, added := st.added.set p (sig p), disk := { st.disk with files := st.disk.files ++ [p] } }
      exact ⟨p :: new, by simp only [h, List.append_assoc, List.cons_append, List.nil_append]⟩

theorem makeAll_disk (sig : String → Sig) (rs : List (String × ScanResult)) (st : ScanState) :
    ∃ new, (makeAll sig rs st).1.disk = { st.disk with files := st.disk.files ++ new } := by
  induction rs generalizing st with
  | nil => exact ⟨[], by simp [makeAll]⟩
  | cons x rs ih =>
    obtain ⟨f, r⟩ := x
    obtain ⟨n1, h1⟩ := makePlaceholders_disk sig f r.placeholders st
    obtain ⟨n2, h2⟩ := ih (makePlaceholders sig f r.placeholders st).1
    exact ⟨n1 ++ n2, by simp only [makeAll, h2, h1, List.append_assoc]⟩

theorem scanLoop_disk (scan : Scanner) (sig : String → Sig) (n : Nat) (fs : List String) (st : ScanState) :
    ∃ new, (scanLoop scan sig n fs st).2.disk = { st.disk with files := st.disk.files ++ new } := by
  induction n generalizing fs st with
  | zero => cases fs <;> exact ⟨[], by simp [scanLoop]⟩
  | succ n ih =>
    cases fs with
    | nil => exact ⟨[], by simp [scanLoop]⟩
    | cons f fs =>
      unfold scanLoop
      split
      · exact ⟨[], by simp⟩
      · rename_i rs _
        obtain ⟨n1, h1⟩ := makeAll_disk sig (updateAll rs []) { st with updated := updateAll (updateAll rs []) st.updated }
        obtain ⟨n2, h2⟩ := ih (makeAll sig (updateAll rs []) { st with updated := updateAll (updateAll rs []) st.updated }).2
          (makeAll sig (updateAll rs []) { st with updated := updateAll (updateAll rs []) st.updated }).1
        exact ⟨n1 ++ n2, by simp only [h2, h1, List.append_assoc]⟩

theorem scanEffects_apply (env : Env) (a : Args) (sig : String → Sig) (d : Disk) (fs : List String) (st : ScanState)
    (s : Store) (hs : s.disk = st.disk) (hd : d.files.length = st.disk.files.length) :
    applyAll (scanEffects d (scanLoop env.scan sig env.scanFuel fs st).2.disk) s =
      s.withDisk (scanLoop env.scan sig env.scanFuel fs st).2.disk := by
  obtain ⟨new, h⟩ := scanLoop_disk env.scan sig env.scanFuel fs st
  rw [h]
  unfold scanEffects
  simp only [hd, List.drop_left]
  rw [create_apply, hs]

/-- The log explains the disk. -/
def Explained (d0 : Disk) (s : Sched) : Prop :=
  ∀ t : Store, t.disk = d0 → applyAll (logEffects s.log) t = t.withDisk s.disk

theorem logEffects_append (l m : List Event) : logEffects (l ++ m) = logEffects l ++ logEffects m := by
  simp [logEffects]

theorem logEffects_started (fs : List String) : logEffects (fs.map .started) = [] := by
  simp [logEffects, List.flatMap_map]

theorem Explained.finish {d0 : Disk} {T : Tables} {s : Sched} (h : Explained d0 s) (f : String) (r : BuildResult) :
    Explained d0 (finish T s f r).2 := by
  have base : ∀ u : Sched, u.disk = s.disk.write r.produced → u.log = s.log ++ [.finished f r] → Explained d0 u := by
    intro u h1 h2 t ht
    rw [h2, logEffects_append, applyAll_append, h t ht]
    simp only [logEffects, List.flatMap_cons, List.flatMap_nil, List.append_nil]
    rw [write_apply, h1]
    rfl
  unfold Hot.finish
  dsimp only
  split
  · exact base _ rfl rfl
  · split
    · exact base _ rfl rfl
    · exact base _ rfl rfl

theorem Explained.drain {d0 : Disk} {T : Tables} (b : Batch) (fs : List String) {s : Sched} (h : Explained d0 s) :
    Explained d0 (drain T b fs s).2 := by
  induction fs generalizing s with
  | nil => exact h
  | cons f fs ih =>
    unfold Hot.drain
    split
    · exact ih h
    · exact h
    · rename_i r _
      have hf := h.finish (T := T) f r
      split
      · rename_i e s1 he; rw [he] at hf; exact hf
      · rename_i s1 he; rw [he] at hf; exact ih hf

theorem Explained.schedLoop {d0 : Disk} {T : Tables} (bs : List Batch) {s : Sched} (h : Explained d0 s) :
    Explained d0 (schedLoop T bs s).2 := by
  induction bs generalizing s with
  | nil =>
    unfold Hot.schedLoop
    split
    · exact h
    · split
      · exact h
      · rename_i s1 hs
        unfold submit at hs
        dsimp only at hs
        split at hs
        · simp at hs
        · simp only [Except.ok.injEq] at hs
          subst hs
          intro t ht
          simp only [logEffects_append, logEffects_started, List.append_nil]
          exact h t ht
  | cons b bs ih =>
    unfold Hot.schedLoop
    split
    · exact h
    · split
      · exact h
      · rename_i s1 hs
        have h1 : Explained d0 s1 := by
          unfold submit at hs
          dsimp only at hs
          split at hs
          · simp at hs
          · simp only [Except.ok.injEq] at hs
            subst hs
            intro t ht
            simp only [logEffects_append, logEffects_started, List.append_nil]
            exact h t ht
        dsimp only
        have h2 := h1.drain (T := T) b s1.running
        split
        · rename_i e s2 he; rw [he] at h2; exact h2
        · rename_i s2 he; rw [he] at h2; exact ih h2

theorem strict_apply (fs : List String) (s : Store) :
    applyAll (strictEffects fs s.disk) s = s.withDisk (unlinkStrict fs s.disk).2 := by
  induction fs generalizing s with
  | nil => rfl
  | cons f fs ih =>
    unfold strictEffects unlinkStrict
    split
    · rw [applyAll_cons]
      exact ih ((Effect.unlink f).apply s)
    · rfl

theorem dir_apply (ps : List String) (s : Store) :
    applyAll (dirEffects ps s.disk) s = s.withDisk (removeEmptyDirs ps s.disk).2 := by
  induction ps generalizing s with
  | nil => rfl
  | cons f fs ih =>
    unfold dirEffects removeEmptyDirs
    split
    · split
      · rw [applyAll_cons]
        exact ih ((Effect.rmdir f).apply s)
      · exact ih s
    · rfl

/-- The store after a rebuild with this outcome. -/
def Store.after (s : Store) (o : Outcome) : Store :=
  match o.stored with
  | some gs => ⟨o.disk, .has gs.dep, .has gs.out, .has gs.ph⟩
  | none => s.withDisk o.disk

theorem finalize_apply (env : Env) (a : Args) (changed added : Dict Sig) (newPh : Dict String)
    (folders : List String) (scanned : Dict ScanResult) (s : Sched) (t : Store) (ht : t.disk = s.disk) :
    applyAll (finalizeEffects env a changed added newPh folders s) t =
      t.after (finalize env a changed added newPh folders scanned s) := by
  unfold finalizeEffects finalize
  rw [applyAll_append, ← ht, strict_apply]
  rcases h1 : unlinkStrict s.stillArt t.disk with ⟨_ | _, d⟩
  · rfl
  · dsimp only
    rw [applyAll_append]
    have := dir_apply (sortByLen (insertAll folders [])) (t.withDisk d)
    rw [withDisk_disk] at this
    rw [this]
    rcases h2 : removeEmptyDirs (sortByLen (insertAll folders [])) d with ⟨_ | _, d1⟩
    · rfl
    · dsimp only
      rcases h3 : newGraphs env.order env.sig a.old changed added a.deleted newPh s.results d1 with _ | gs
      · rfl
      · rfl

theorem build_apply (env : Env) (a : Args) (changed : Dict Sig) (st : ScanState) (t : Store) (ht : t.disk = st.disk) :
    applyAll (buildEffects env a changed st) t = t.after (buildPhase env a changed st) := by
  unfold buildEffects buildPhase
  rcases h1 : reinterpAll a.old.out a.deleted st.updated (outMapOf st.updated) with _ | ⟨updated, outMap⟩
  · simp [applyAll_nil, Store.after, ← ht]
  · dsimp only
    rcases h2 : closure a.old.dep a.old.ph (Dict.keys updated) a.deleted with _ | ⟨seen, popped⟩
    · simp [applyAll_nil, Store.after, ← ht]
    · dsimp only
      rw [applyAll_append, unlink_apply, ht]
      rcases h3 : firstErr (dependsOnOf a.old updated st.newPh) ((env.order seen).filter (fun f => !a.deleted.contains f)) with _ | e
      · dsimp only
        generalize hT : tablesOf _ _ _ _ _ = T
        generalize hI : initSched _ _ _ _ _ = S0
        have hE : Explained S0.disk S0 := by
          subst hI; intro t ht; rw [← ht]; rfl
        have hE' := hE.schedLoop (T := T) env.batches
        rw [applyAll_append, hE' _ (by subst hI; rfl)]
        rcases h4 : schedLoop T env.batches S0 with ⟨st', s⟩
        cases st' with
        | finished => dsimp only; exact finalize_apply _ _ _ _ _ _ _ _ _ rfl
        | waiting => rfl
        | failed e => rfl
      · rfl

/-- Performing all the listed effects gives exactly what the rebuild leaves behind. -/
theorem effects_apply (env : Env) (a : Args) (s : Store) :
    applyAll (effects env a s.disk) s = s.after (hotRebuild env a s.disk) := by
  unfold effects hotRebuild
  dsimp only
  rw [applyAll_append, modeEffects_apply a env.sig]
  split
  · rfl
  · rw [applyAll_append]
    have hf : s.disk.files.length = (modeStep a env.sig s.disk).2.files.length := by
      unfold modeStep; split
      · split <;> rfl
      · rfl
    have := scanEffects_apply env a env.sig s.disk ((modeStep a env.sig s.disk).1.keys ++ a.added.keys)
      { updated := [], newPh := [], added := a.added, disk := (modeStep a env.sig s.disk).2 }
      (s.withDisk (modeStep a env.sig s.disk).2) rfl hf
    rw [this]
    rcases h : scanLoop env.scan env.sig env.scanFuel ((modeStep a env.sig s.disk).1.keys ++ a.added.keys)
      { updated := [], newPh := [], added := a.added, disk := (modeStep a env.sig s.disk).2 } with ⟨_ | _, st⟩
    · rfl
    · dsimp only
      exact build_apply _ _ _ _ _ rfl

end Verif.Crash
