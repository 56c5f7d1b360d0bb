import Verif.External
/-! # Lemmas about the downloads -/
namespace Verif.Ext
open Verif

/-- The content has the configured digest. -/
def Verified (w : World) (j : Job) (f : File) : Prop := w.digest j.integrity f.bytes = some true

/-- Targets are distinct (they are the keys of a dict), and the random temporary paths are distinct,
unused, and not targets. -/
structure Apart (jobs : List Job) (fs : Fs) : Prop where
  targets : (jobs.map (·.relpath)).Nodup
  temps : (jobs.map (·.temp)).Nodup
  sep : ∀ i ∈ jobs, ∀ j ∈ jobs, i.temp ≠ j.relpath
  unused : ∀ j ∈ jobs, fs j.temp = none

@[simp] theorem upd_self (fs : Fs) (p : String) (v : Option File) : fs.upd p v p = v := by simp [Fs.upd]
theorem upd_ne (fs : Fs) {p q : String} (v : Option File) (h : q ≠ p) : fs.upd p v q = fs q := by
  simp [Fs.upd, h]

theorem ensure_ok {w : World} {fs : Fs} {p i : String} {u : Unit} (h : ensureIntegrity w fs p i = .ok u) :
    ∃ f, fs p = some f ∧ w.digest i f.bytes = some true := by
  unfold ensureIntegrity at h
  split at h
  · cases h
  · split at h
    · cases h
    · next f hf =>
      split at h
      · next hd => exact ⟨f, hf, hd⟩
      all_goals cases h

/-- What holds of the target and the temporary file of a job, depending on how far it has come;
`old` is what was at the target before. -/
def Inv (w : World) (j : Job) (old tgt tmp : Option File) : Pc → Prop
  | .start => tgt = old ∧ tmp = none
  | .get => tgt = old ∧ tmp = none
  | .writing rest b => tgt = old ∧ ∃ cs f, j.resp = .body cs b ∧ tmp = some f ∧
      f.sig = w.sigOf j.temp f.bytes ∧ f.bytes ++ rest.flatten = cs.flatten
  | .verify => tgt = old ∧ ∃ cs f, j.resp = .body cs false ∧ tmp = some f ∧
      f.sig = w.sigOf j.temp f.bytes ∧ f.bytes = cs.flatten
  | .unlinkTarget => tgt = old ∧ ∃ cs f, j.resp = .body cs false ∧ tmp = some f ∧
      f.sig = w.sigOf j.temp f.bytes ∧ f.bytes = cs.flatten ∧ Verified w j f
  | .replacing => tgt = none ∧ ∃ cs f, j.resp = .body cs false ∧ tmp = some f ∧
      f.sig = w.sigOf j.temp f.bytes ∧ f.bytes = cs.flatten ∧ Verified w j f
  | .cleanup (.ok _) => tmp = none ∧ ∃ cs f, j.resp = .body cs false ∧ tgt = some f ∧
      f.sig = w.sigOf j.temp f.bytes ∧ f.bytes = cs.flatten ∧ Verified w j f
  | .cleanup (.error _) => tgt = old
  | .done (.ok _) => tmp = none ∧ ∃ f, tgt = some f ∧ Verified w j f ∧
      (tgt = old ∨ (f.sig = w.sigOf j.temp f.bytes ∧ ∃ cs, j.resp = .body cs false ∧ f.bytes = cs.flatten))
  | .done (.error _) => tmp = none ∧ tgt = old

theorem step_inv (w : World) (j : Job) (old : Option File) (fs : Fs) (pc : Pc) (hne : j.temp ≠ j.relpath)
    (h : Inv w j old (fs j.relpath) (fs j.temp) pc) :
    Inv w j old ((step w j fs pc).1 j.relpath) ((step w j fs pc).1 j.temp) (step w j fs pc).2 := by
  have hne' : j.relpath ≠ j.temp := fun e => hne e.symm
  cases pc with
  | start =>
    obtain ⟨h1, h2⟩ := h
    unfold step
    dsimp only
    split
    · next he =>
      obtain ⟨f, hf, hd⟩ := ensure_ok he
      exact ⟨h2, f, hf, hd, Or.inl h1⟩
    · exact ⟨h1, h2⟩
    · exact ⟨h1, h2⟩
    · exact ⟨h2, h1⟩
  | get =>
    obtain ⟨h1, h2⟩ := h
    unfold step
    dsimp only
    split
    · exact h1
    · next cs b hr =>
      refine ⟨by dsimp only; rw [upd_ne _ _ hne']; exact h1, cs, _, hr, upd_self .., ?_, ?_⟩
      · rfl
      · rfl
  | writing rest b =>
    obtain ⟨h1, cs, f, h2, h3, h4, h5⟩ := h
    cases rest with
    | nil =>
      cases b with
      | true => exact h1
      | false => exact ⟨h1, cs, f, h2, h3, h4, by simpa using h5⟩
    | cons c rest =>
      unfold step
      simp only [h3]
      refine ⟨by rw [upd_ne _ _ hne']; exact h1, cs, _, h2, upd_self .., ?_, ?_⟩
      · rfl
      · simpa [List.append_assoc] using h5
  | verify =>
    obtain ⟨h1, cs, f, h2, h3, h4, h5⟩ := h
    unfold step
    dsimp only
    split
    · next he =>
      obtain ⟨f', hf', hd⟩ := ensure_ok he
      rw [h3] at hf'
      cases hf'
      exact ⟨h1, cs, f, h2, h3, h4, h5, hd⟩
    · exact h1
  | unlinkTarget =>
    obtain ⟨h1, cs, f, h2, h3, h4, h5, h6⟩ := h
    unfold step
    exact ⟨upd_self .., cs, f, h2, by dsimp only; rw [upd_ne _ _ hne]; exact h3, h4, h5, h6⟩
  | replacing =>
    obtain ⟨h1, cs, f, h2, h3, h4, h5, h6⟩ := h
    unfold step
    simp only [h3]
    refine ⟨by rw [upd_ne _ _ hne]; simp, cs, f, h2, by simp, h4, h5, h6⟩
  | cleanup r =>
    cases r with
    | ok u =>
      obtain ⟨h1, cs, f, h2, h3, h4, h5, h6⟩ := h
      unfold step
      exact ⟨by simp, f, by dsimp only; rw [upd_ne _ _ hne']; exact h3, h6, Or.inr ⟨h4, cs, h2, h5⟩⟩
    | error e =>
      unfold step
      exact ⟨by simp, by dsimp only; rw [upd_ne _ _ hne']; exact h⟩
  | done r => exact h

/-- A step of a job touches its own target and temporary file only. -/
theorem step_frame (w : World) (j : Job) (fs : Fs) (pc : Pc) (q : String) (h1 : q ≠ j.relpath) (h2 : q ≠ j.temp) :
    (step w j fs pc).1 q = fs q := by
  cases pc with
  | start => unfold step; dsimp only; split <;> rfl
  | get => unfold step; dsimp only; split <;> simp [upd_ne, h2]
  | writing rest b => cases rest with
    | nil => cases b <;> rfl
    | cons c rest => unfold step; simp [upd_ne, h2]
  | verify => unfold step; dsimp only; split <;> rfl
  | unlinkTarget => unfold step; simp [upd_ne, h1]
  | replacing => unfold step; dsimp only; split <;> simp [upd_ne, h1, h2]
  | cleanup r => unfold step; simp [upd_ne, h2]
  | done r => rfl

theorem nodup_map_inj {α : Type} {l : List α} {f : α → String} (h : (l.map f).Nodup) {a b : α}
    (ha : a ∈ l) (hb : b ∈ l) (e : f a = f b) : a = b := by
  induction l with
  | nil => cases ha
  | cons x xs ih =>
    simp only [List.map_cons, List.nodup_cons, List.mem_map, not_exists, not_and] at h
    rcases List.mem_cons.1 ha with rfl | ha'
    · rcases List.mem_cons.1 hb with rfl | hb'
      · rfl
      · exact absurd e.symm (h.1 b hb')
    · rcases List.mem_cons.1 hb with rfl | hb'
      · exact absurd e (h.1 a ha')
      · exact ih h.2 ha' hb'

/-- The invariant of a pool of downloads. -/
def PoolInv (w : World) (jobs : List Job) (fs0 : Fs) (s : Pool) : Prop :=
  (∀ j ∈ jobs, Inv w j (fs0 j.relpath) (s.fs j.relpath) (s.fs j.temp) (s.pc j.relpath)) ∧
  (∀ q, (∀ j ∈ jobs, q ≠ j.relpath ∧ q ≠ j.temp) → s.fs q = fs0 q)

theorem poolInv_init {w : World} {jobs : List Job} {fs : Fs} (h : Apart jobs fs) :
    PoolInv w jobs fs (Pool.init fs) :=
  ⟨fun j hj => ⟨rfl, h.unused j hj⟩, fun _ _ => rfl⟩

theorem poolInv_move {w : World} {jobs : List Job} {fs0 : Fs} (ha : Apart jobs fs0) {s : Pool}
    (h : PoolInv w jobs fs0 s) (p : String) : PoolInv w jobs fs0 (s.move w jobs p) := by
  unfold Pool.move
  split
  · exact h
  · next j hj =>
    have hm := List.mem_of_find?_eq_some hj
    have hp : j.relpath = p := by simpa using List.find?_some hj
    subst hp
    dsimp only
    constructor
    · intro i hi
      by_cases e : i.relpath = j.relpath
      · have : i = j := nodup_map_inj ha.targets hi hm e
        subst this
        simpa using step_inv w i (fs0 i.relpath) s.fs (s.pc i.relpath) (ha.sep i hi i hi) (h.1 i hi)
      · have e2 : i.temp ≠ j.temp := fun e' => e (by rw [nodup_map_inj ha.temps hi hm e'])
        dsimp only
        rw [if_neg e, step_frame _ _ _ _ _ e (fun e' => ha.sep j hm i hi e'.symm),
          step_frame _ _ _ _ _ (ha.sep i hi j hm) e2]
        exact h.1 i hi
    · intro q hq
      dsimp only
      rw [step_frame _ _ _ _ _ (hq j hm).1 (hq j hm).2]
      exact h.2 q hq

theorem poolInv_run {w : World} {jobs : List Job} {fs0 : Fs} (ha : Apart jobs fs0) (sched : List String) :
    ∀ {s : Pool}, PoolInv w jobs fs0 s → PoolInv w jobs fs0 (s.run w jobs sched) := by
  induction sched with
  | nil => intro s h; exact h
  | cons p ps ih => intro s h; exact ih (poolInv_move ha h p)

theorem pool_spec {w : World} {jobs : List Job} {fs : Fs} (ha : Apart jobs fs) (sched : List String) :
    PoolInv w jobs fs ((Pool.init fs).run w jobs sched) := poolInv_run ha sched (poolInv_init ha)

/-- What the invariant says about the target alone. -/
theorem inv_target {w : World} {j : Job} {old tgt tmp : Option File} {pc : Pc} (h : Inv w j old tgt tmp pc) :
    tgt = old ∨ tgt = none ∨ ∃ f, tgt = some f ∧ Verified w j f ∧ f.sig = w.sigOf j.temp f.bytes ∧
      ∃ cs, j.resp = .body cs false ∧ f.bytes = cs.flatten := by
  cases pc with
  | start => exact Or.inl h.1
  | get => exact Or.inl h.1
  | writing => exact Or.inl h.1
  | verify => exact Or.inl h.1
  | unlinkTarget => exact Or.inl h.1
  | replacing => exact Or.inr (Or.inl h.1)
  | cleanup r =>
    cases r with
    | ok =>
      obtain ⟨_, cs, f, h1, h2, h3, h4, h5⟩ := h
      exact Or.inr (Or.inr ⟨f, h2, h5, h3, cs, h1, h4⟩)
    | error => exact Or.inl h
  | done r =>
    cases r with
    | ok =>
      obtain ⟨_, f, h1, h2, h3⟩ := h
      rcases h3 with h3 | ⟨h3, cs, h4, h5⟩
      · exact Or.inl h3
      · exact Or.inr (Or.inr ⟨f, h1, h2, h3, cs, h4, h5⟩)
    | error => exact Or.inl h.2

theorem removeDropped_spec (jobs : List Job) : ∀ (ps : List String) (fs : Fs) (q : String),
    ((removeDropped jobs ps fs).2 q = fs q ∨ (removeDropped jobs ps fs).2 q = none) ∧
    ((jobs.any (fun j => j.relpath = q)) = true → (removeDropped jobs ps fs).2 q = fs q) ∧
    (q ∉ ps → (removeDropped jobs ps fs).2 q = fs q) ∧
    ((removeDropped jobs ps fs).1 = .ok () → q ∈ ps → (jobs.any (fun j => j.relpath = q)) = false →
      (removeDropped jobs ps fs).2 q = none) := by
  intro ps
  induction ps with
  | nil => intro fs q; simp [removeDropped]
  | cons p ps ih =>
    intro fs q
    unfold removeDropped
    split
    · next hp =>
      obtain ⟨h1, h2, h3, h4⟩ := ih fs q
      refine ⟨h1, h2, fun hq => h3 (fun h => hq (List.mem_cons_of_mem _ h)), fun ho hq hj => ?_⟩
      rcases List.mem_cons.1 hq with rfl | hq
      · rw [hp] at hj; cases hj
      · exact h4 ho hq hj
    · next hp =>
      split
      · exact ⟨Or.inl rfl, fun _ => rfl, fun _ => rfl, fun h => by cases h⟩
      · obtain ⟨h1, h2, h3, h4⟩ := ih (fs.upd p none) q
        by_cases e : q = p
        · subst e
          simp only [upd_self, or_self] at h1
          refine ⟨Or.inr h1, fun h => absurd h hp, fun h => absurd List.mem_cons_self h, fun _ _ _ => h1⟩
        · rw [upd_ne _ _ e] at h1 h2 h3
          refine ⟨h1, h2, fun hq => h3 (fun h => hq (List.mem_cons_of_mem _ h)), fun ho hq hj => ?_⟩
          rcases List.mem_cons.1 hq with rfl | hq
          · exact absurd rfl e
          · exact h4 ho hq hj

theorem submitted_sub {d : Dict Rec} {fs : Fs} {jobs : List Job} {j : Job} (h : j ∈ submitted d fs jobs) :
    j ∈ jobs := (List.mem_filter.1 h).1

theorem Apart.submitted {jobs : List Job} {fs fs' : Fs} (h : Apart jobs fs) (d : Dict Rec)
    (hf : ∀ j ∈ jobs, fs' j.temp = none) : Apart (submitted d fs' jobs) fs' where
  targets := h.targets.sublist (List.filter_sublist.map _)
  temps := h.temps.sublist (List.filter_sublist.map _)
  sep i hi j hj := h.sep i (submitted_sub hi) j (submitted_sub hj)
  unused j hj := hf j (submitted_sub hj)

/-- The files after the removal of those no longer configured: the temporary paths are still unused. -/
theorem Apart.removed {jobs : List Job} {fs : Fs} (h : Apart jobs fs) (ps : List String) :
    ∀ j ∈ jobs, (removeDropped jobs ps fs).2 j.temp = none := by
  intro j hj
  rcases (removeDropped_spec jobs ps fs j.temp).1 with h1 | h1
  · rw [h1, h.unused j hj]
  · exact h1

end Verif.Ext
