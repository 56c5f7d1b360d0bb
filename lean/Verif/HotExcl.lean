import Verif.HotSched
/-! # Dirty outputs, mutual exclusion, progress and termination of the build loop -/
namespace Verif.Hot
open Verif Verif.Graph

/-- Some completed build produced or reused `o`. -/
def Touched (log : List Event) (o : String) : Prop :=
  ∃ f r, Event.finished f r ∈ log ∧ o ∈ r.produced ++ r.reused

theorem mem_del (x y : String) (l : List String) : y ∈ del x l ↔ y ∈ l ∧ y ≠ x := by
  simp [del]

theorem touched_snoc_started (log : List Event) (f o : String) :
    Touched (log ++ [.started f]) o ↔ Touched log o := by
  unfold Touched; simp

theorem touched_snoc_finished (log : List Event) (f : String) (r : BuildResult) (o : String) :
    Touched (log ++ [.finished f r]) o ↔ Touched log o ∨ o ∈ r.produced ++ r.reused := by
  unfold Touched
  constructor
  · rintro ⟨g, r', h, ho⟩
    rcases List.mem_append.1 h with h | h
    · exact .inl ⟨g, r', h, ho⟩
    · simp at h; obtain ⟨_, rfl⟩ := h; exact .inr ho
  · rintro (⟨g, r', h, ho⟩ | ho)
    · exact ⟨g, r', by simp [h], ho⟩
    · exact ⟨f, r, by simp, ho⟩

/-! ## Effect of settling -/

theorem settle_ok {T : Tables} {o : String} {d d' : Dirty} (hdis : ∀ x, x ∈ d.stillOut → x ∉ T.dirtyArt)
    (hsub : ∀ x, x ∈ d.stillArt → x ∈ T.dirtyArt)
    (h : settle T o d = .ok d') :
    (∀ x, x ∈ d'.stillOut ↔ x ∈ d.stillOut ∧ x ≠ o) ∧
    (∀ x, x ∈ d'.stillArt ↔ x ∈ d.stillArt ∧ x ≠ o) ∧
    (∀ x, x ∈ d'.pendOut ↔ x ∈ d.pendOut ∧ ¬(x = o ∧ o ∈ d.stillOut)) ∧
    (∀ x, x ∈ d'.pendArt ↔ x ∈ d.pendArt ∧ ¬(x = o ∧ o ∈ T.dirtyArt)) := by
  unfold settle at h
  simp only [List.contains_eq_mem, decide_eq_true_eq] at h
  split at h
  · rename_i h1
    have n1 := hdis o h1
    have n2 : o ∉ d.stillArt := fun h => n1 (hsub o h)
    split at h
    · simp only [Except.ok.injEq] at h; subst h
      refine ⟨fun x => mem_del o x _, fun x => ⟨fun h => ⟨h, ?_⟩, fun h => h.1⟩, fun x => ?_, fun x => ?_⟩
      · rintro rfl; exact n2 h
      · rw [mem_del]; simp [h1]
      · simp [n1]
    · simp at h
  · rename_i h1
    split at h
    · rename_i h2
      have h3 := hsub o h2
      split at h
      · simp only [Except.ok.injEq] at h; subst h
        refine ⟨fun x => ⟨fun h => ⟨h, ?_⟩, fun h => h.1⟩, fun x => mem_del o x _, fun x => ?_, fun x => ?_⟩
        · rintro rfl; exact h1 h
        · simp [h1]
        · rw [mem_del]; simp [h3]
      · simp at h
    · rename_i h2
      split at h
      · rename_i h3
        split at h
        · simp only [Except.ok.injEq] at h; subst h
          refine ⟨fun x => ⟨fun h => ⟨h, ?_⟩, fun h => h.1⟩, fun x => ⟨fun h => ⟨h, ?_⟩, fun h => h.1⟩, fun x => ?_, fun x => ?_⟩
          · rintro rfl; exact h1 h
          · rintro rfl; exact h2 h
          · simp [h1]
          · rw [mem_del]; simp [h3]
        · simp at h
      · rename_i h3
        simp only [Except.ok.injEq] at h; subst h
        refine ⟨fun x => ⟨fun h => ⟨h, ?_⟩, fun h => h.1⟩, fun x => ⟨fun h => ⟨h, ?_⟩, fun h => h.1⟩, fun x => ?_, fun x => ?_⟩
        · rintro rfl; exact h1 h
        · rintro rfl; exact h2 h
        · simp [h1]
        · simp [h3]

theorem settleAll_ok {T : Tables} {os : List String} {d d' : Dirty} (hdis : ∀ x, x ∈ d.stillOut → x ∉ T.dirtyArt)
    (hsub : ∀ x, x ∈ d.stillArt → x ∈ T.dirtyArt)
    (h : settleAll T os d = .ok d') :
    (∀ x, x ∈ d'.stillOut ↔ x ∈ d.stillOut ∧ x ∉ os) ∧
    (∀ x, x ∈ d'.stillArt ↔ x ∈ d.stillArt ∧ x ∉ os) ∧
    (∀ x, x ∈ d'.pendOut ↔ x ∈ d.pendOut ∧ ¬(x ∈ os ∧ x ∈ d.stillOut)) ∧
    (∀ x, x ∈ d'.pendArt ↔ x ∈ d.pendArt ∧ ¬(x ∈ os ∧ x ∈ T.dirtyArt)) := by
  induction os generalizing d with
  | nil => simp [settleAll] at h; subst h; simp
  | cons o os ih =>
    simp only [settleAll] at h
    split at h
    · simp at h
    · rename_i d1 hd1
      obtain ⟨a1, a2, a3, a4⟩ := settle_ok hdis hsub hd1
      obtain ⟨b1, b2, b3, b4⟩ := ih (fun x hx => hdis x ((a1 x).1 hx).1) (fun x hx => hsub x ((a2 x).1 hx).1) h
      refine ⟨?_, ?_, ?_, ?_⟩
      · intro x; rw [b1, a1]; simp only [List.mem_cons]; tauto
      · intro x; rw [b2, a2]; simp only [List.mem_cons]; tauto
      · intro x; rw [b3, a3, a1]; simp only [List.mem_cons]
        by_cases hx : x = o
        · subst hx; simp
        · simp [hx]
      · intro x; rw [b4, a4]; simp only [List.mem_cons]
        by_cases hx : x = o
        · subst hx; simp; tauto
        · simp [hx]

/-- No KeyError while settling, if the tracked outputs are claimed and none is listed twice. -/
theorem settleAll_no_error {T : Tables} {os : List String} {d : Dirty}
    (hdis : ∀ x, x ∈ d.stillOut → x ∉ T.dirtyArt)
    (hsub : ∀ x, x ∈ d.stillArt → x ∈ T.dirtyArt) (hn : os.Nodup)
    (h1 : ∀ o ∈ os, o ∈ d.stillOut → o ∈ d.pendOut) (h2 : ∀ o ∈ os, o ∈ T.dirtyArt → o ∈ d.pendArt) :
    ∃ d', settleAll T os d = .ok d' := by
  induction os generalizing d with
  | nil => exact ⟨d, rfl⟩
  | cons o os ih =>
    rw [List.nodup_cons] at hn
    have hs : ∃ d1, settle T o d = .ok d1 := by
      unfold settle
      simp only [List.contains_eq_mem, decide_eq_true_eq]
      split
      · rename_i h
        rw [if_pos (h1 o (by simp) h)]; exact ⟨_, rfl⟩
      · split
        · rename_i h
          rw [if_pos (h2 o (by simp) (hsub o h))]; exact ⟨_, rfl⟩
        · split
          · rename_i h
            rw [if_pos (h2 o (by simp) h)]; exact ⟨_, rfl⟩
          · exact ⟨_, rfl⟩
    obtain ⟨d1, hd1⟩ := hs
    simp only [settleAll, hd1]
    obtain ⟨a1, a2, a3, a4⟩ := settle_ok hdis hsub hd1
    refine ih (fun x hx => hdis x ((a1 x).1 hx).1) (fun x hx => hsub x ((a2 x).1 hx).1) hn.2 ?_ ?_
    · intro x hx hs
      have hxo : x ≠ o := by rintro rfl; exact hn.1 hx
      rw [a3]
      exact ⟨h1 x (by simp [hx]) ((a1 x).1 hs).1, fun h => hxo h.1⟩
    · intro x hx hs
      have hxo : x ≠ o := by rintro rfl; exact hn.1 hx
      rw [a4]
      exact ⟨h2 x (by simp [hx]) hs, fun h => hxo h.1⟩

theorem settle_error {T : Tables} {o : String} {d : Dirty} {e : Err} (h : settle T o d = .error e) : e = .keyError := by
  unfold settle at h
  repeat' split at h
  all_goals first | (simp at h; done) | (simp only [Except.error.injEq] at h; exact h.symm)

theorem settleAll_error {T : Tables} {os : List String} {d : Dirty} {e : Err} (h : settleAll T os d = .error e) :
    e = .keyError := by
  induction os generalizing d with
  | nil => simp [settleAll] at h
  | cons o os ih =>
    simp only [settleAll] at h
    split at h
    · rename_i e' he
      simp only [Except.error.injEq] at h
      subst h
      exact settle_error he
    · exact ih h

/-! ## Claiming -/

theorem claim_spec (T : Tables) (still os pO pA : List String) :
    (∀ x, x ∈ (claim T still os pO pA).1 ↔ x ∈ pO ∨ (x ∈ os ∧ x ∈ still)) ∧
    (∀ x, x ∈ (claim T still os pO pA).2 ↔ x ∈ pA ∨ (x ∈ os ∧ x ∉ still ∧ x ∈ T.dirtyArt)) := by
  induction os generalizing pO pA with
  | nil => simp [claim]
  | cons o os ih =>
    simp only [claim, List.contains_eq_mem, decide_eq_true_eq]
    split
    · rename_i h
      obtain ⟨a, b⟩ := ih (o :: pO) pA
      refine ⟨fun x => ?_, fun x => ?_⟩
      · rw [a]; simp only [List.mem_cons]
        constructor
        · rintro ((rfl | h') | h')
          · exact .inr ⟨.inl rfl, h⟩
          · exact .inl h'
          · exact .inr ⟨.inr h'.1, h'.2⟩
        · rintro (h' | ⟨rfl | h', h''⟩)
          · exact .inl (.inr h')
          · exact .inl (.inl rfl)
          · exact .inr ⟨h', h''⟩
      · rw [b]; simp only [List.mem_cons]
        constructor
        · rintro (h' | h')
          · exact .inl h'
          · exact .inr ⟨.inr h'.1, h'.2⟩
        · rintro (h' | ⟨rfl | h', h''⟩)
          · exact .inl h'
          · exact absurd h h''.1
          · exact .inr ⟨h', h''⟩
    · rename_i h
      split
      · rename_i h2
        obtain ⟨a, b⟩ := ih pO (o :: pA)
        refine ⟨fun x => ?_, fun x => ?_⟩
        · rw [a]; simp only [List.mem_cons]
          constructor
          · rintro (h' | h')
            · exact .inl h'
            · exact .inr ⟨.inr h'.1, h'.2⟩
          · rintro (h' | ⟨rfl | h', h''⟩)
            · exact .inl h'
            · exact absurd h'' h
            · exact .inr ⟨h', h''⟩
        · rw [b]; simp only [List.mem_cons]
          constructor
          · rintro ((rfl | h') | h')
            · exact .inr ⟨.inl rfl, h, h2⟩
            · exact .inl h'
            · exact .inr ⟨.inr h'.1, h'.2⟩
          · rintro (h' | ⟨rfl | h', h''⟩)
            · exact .inl (.inr h')
            · exact .inl (.inl rfl)
            · exact .inr ⟨h', h''⟩
      · rename_i h2
        obtain ⟨a, b⟩ := ih pO pA
        refine ⟨fun x => ?_, fun x => ?_⟩
        · rw [a]; simp only [List.mem_cons]
          constructor
          · rintro (h' | h')
            · exact .inl h'
            · exact .inr ⟨.inr h'.1, h'.2⟩
          · rintro (h' | ⟨rfl | h', h''⟩)
            · exact .inl h'
            · exact absurd h'' h
            · exact .inr ⟨h', h''⟩
        · rw [b]; simp only [List.mem_cons]
          constructor
          · rintro (h' | h')
            · exact .inl h'
            · exact .inr ⟨.inr h'.1, h'.2⟩
          · rintro (h' | ⟨rfl | h', h''⟩)
            · exact .inl h'
            · exact absurd h''.2 h2
            · exact .inr ⟨h', h''⟩

/-! ## Tracking invariant -/

/-- The dirty sets and the disk as functions of the log. -/
structure Track (T : Tables) (dO : List String) (d0 : Disk) (s : Sched) : Prop where
  out : ∀ o, o ∈ s.stillOut ↔ o ∈ dO ∧ ¬ Touched s.log o
  art : ∀ o, o ∈ s.stillArt ↔ o ∈ T.dirtyArt ∧ ¬ Touched s.log o
  dis : ∀ o ∈ dO, o ∉ T.dirtyArt
  files : ∀ x, x ∈ s.disk.files ↔ x ∈ d0.files ∨ ∃ f r, Event.finished f r ∈ s.log ∧ x ∈ r.produced
  dirs : ∀ x, x ∈ s.disk.dirs ↔ x ∈ d0.dirs ∨ ∃ f r, Event.finished f r ∈ s.log ∧ ∃ p ∈ r.produced, x ∈ foldersOf p
  mode : s.disk.mode = d0.mode

theorem Track.hdis {T dO d0 s} (h : Track T dO d0 s) : ∀ x, x ∈ s.stillOut → x ∉ T.dirtyArt :=
  fun x hx => h.dis x ((h.out x).1 hx).1
theorem Track.hsub {T dO d0 s} (h : Track T dO d0 s) : ∀ x, x ∈ s.stillArt → x ∈ T.dirtyArt :=
  fun x hx => ((h.art x).1 hx).1

theorem write_files (d : Disk) (fs : List String) (x : String) : x ∈ (d.write fs).files ↔ x ∈ d.files ∨ x ∈ fs := by
  simp [Disk.write]
theorem write_dirs (d : Disk) (fs : List String) (x : String) :
    x ∈ (d.write fs).dirs ↔ x ∈ d.dirs ∨ ∃ p ∈ fs, x ∈ foldersOf p := by
  simp [Disk.write]

theorem Track.step {T ok dO d0 s s'} (h : Track T dO d0 s) (hs : Step T ok s s') : Track T dO d0 s' := by
  cases hs with
  | start hf hd ho =>
    refine ⟨?_, ?_, h.dis, ?_, ?_, h.mode⟩
    · intro o; simp only [startOne, touched_snoc_started]; exact h.out o
    · intro o; simp only [startOne, touched_snoc_started]; exact h.art o
    · intro x; simp only [startOne]; rw [h.files]; simp
    · intro x; simp only [startOne]; rw [h.dirs]; simp
  | @finish f r _ hf hok he =>
    obtain ⟨cs, m, dd, _, hse, rfl⟩ := finish_ok he
    obtain ⟨a1, a2, _, _⟩ := settleAll_ok h.hdis h.hsub hse
    refine ⟨?_, ?_, h.dis, ?_, ?_, h.mode⟩
    · intro o
      show o ∈ dd.stillOut ↔ _
      rw [a1, touched_snoc_finished]
      show o ∈ s.stillOut ∧ _ ↔ _
      rw [h.out]; tauto
    · intro o
      show o ∈ dd.stillArt ↔ _
      rw [a2, touched_snoc_finished]
      show o ∈ s.stillArt ∧ _ ↔ _
      rw [h.art]; tauto
    · intro x
      show x ∈ (s.disk.write r.produced).files ↔ _
      rw [write_files, h.files]
      constructor
      · rintro ((h | ⟨g, r', h1, h2⟩) | h)
        · exact .inl h
        · exact .inr ⟨g, r', by simp [h1], h2⟩
        · exact .inr ⟨f, r, by simp, h⟩
      · rintro (h | ⟨g, r', h1, h2⟩)
        · exact .inl (.inl h)
        · rcases List.mem_append.1 h1 with h1 | h1
          · exact .inl (.inr ⟨g, r', h1, h2⟩)
          · simp at h1; obtain ⟨_, rfl⟩ := h1; exact .inr h2
    · intro x
      show x ∈ (s.disk.write r.produced).dirs ↔ _
      rw [write_dirs, h.dirs]
      constructor
      · rintro ((h | ⟨g, r', h1, h2⟩) | h)
        · exact .inl h
        · exact .inr ⟨g, r', by simp [h1], h2⟩
        · exact .inr ⟨f, r, by simp, h⟩
      · rintro (h | ⟨g, r', h1, h2⟩)
        · exact .inl (.inl h)
        · rcases List.mem_append.1 h1 with h1 | h1
          · exact .inl (.inr ⟨g, r', h1, h2⟩)
          · simp at h1; obtain ⟨_, rfl⟩ := h1; exact .inr h2

theorem Track.steps {T ok dO d0 s s'} (h : Track T dO d0 s) (hs : Steps T ok s s') : Track T dO d0 s' := by
  induction hs with
  | refl => exact h
  | tail _ hs ih => exact ih.step hs

theorem track_init {T : Tables} {m dO d} (hdis : ∀ o ∈ dO, o ∉ T.dirtyArt) :
    Track T dO d (initSched T.affected m dO T.dirtyArt d) := by
  refine ⟨?_, ?_, hdis, ?_, ?_, rfl⟩ <;> simp [initSched, Touched]

/-! ## Mutual exclusion -/

structure Excl (T : Tables) (s : Sched) : Prop where
  claimOut : ∀ f ∈ s.running, ∀ o ∈ T.creates f, o ∈ s.stillOut → o ∈ s.pendOut
  claimArt : ∀ f ∈ s.running, ∀ o ∈ T.creates f, o ∈ T.dirtyArt → o ∈ s.pendArt
  sepOut : ∀ f ∈ s.running, ∀ g ∈ s.running, f ≠ g → ∀ o ∈ T.creates f, o ∈ T.creates g → o ∉ s.stillOut
  sepArt : ∀ f ∈ s.running, ∀ g ∈ s.running, f ≠ g → ∀ o ∈ T.creates f, o ∈ T.creates g → o ∉ T.dirtyArt

/-- Results stay within what was announced. -/
def Within (T : Tables) (f : String) (r : BuildResult) : Prop := ∀ o ∈ r.produced ++ r.reused, o ∈ T.creates f

theorem Excl.step {T ok dO d0 s s'} (hb : Base T s) (ht : Track T dO d0 s) (h : Excl T s)
    (hw : ∀ f r, ok f r → Within T f r) (hs : Step T ok s s') : Excl T s' := by
  cases hs with
  | @start f hf hd ho =>
    obtain ⟨c1, c2⟩ := claim_spec T s.stillOut (T.creates f) s.pendOut s.pendArt
    unfold outBlocked at ho
    rw [List.any_eq_false] at ho
    have free : ∀ o ∈ T.creates f, o ∉ s.pendOut ∧ o ∉ s.pendArt := by
      intro o hoc
      have := ho o hoc
      simpa using this
    have memR : ∀ g, g ∈ s.running ++ [f] ↔ g ∈ s.running ∨ g = f := by simp
    refine ⟨?_, ?_, ?_, ?_⟩
    · intro g hg o hog hs
      simp only [startOne] at hg hs ⊢
      rw [c1]
      rcases (memR g).1 hg with hg | rfl
      · exact .inl (h.claimOut g hg o hog hs)
      · exact .inr ⟨hog, hs⟩
    · intro g hg o hog hs
      simp only [startOne] at hg ⊢
      rw [c2]
      rcases (memR g).1 hg with hg | rfl
      · exact .inl (h.claimArt g hg o hog hs)
      · exact .inr ⟨hog, fun hh => ht.hdis o hh hs, hs⟩
    · intro a ha b hb' hab o hoa hob hs
      simp only [startOne] at ha hb' hs
      rcases (memR a).1 ha with ha1 | rfl
      · rcases (memR b).1 hb' with hb1 | rfl
        · exact h.sepOut a ha1 b hb1 hab o hoa hob hs
        · exact (free o hob).1 (h.claimOut a ha1 o hoa hs)
      · rcases (memR b).1 hb' with hb1 | rfl
        · exact (free o hoa).1 (h.claimOut b hb1 o hob hs)
        · exact hab rfl
    · intro a ha b hb' hab o hoa hob hs
      simp only [startOne] at ha hb'
      rcases (memR a).1 ha with ha1 | rfl
      · rcases (memR b).1 hb' with hb1 | rfl
        · exact h.sepArt a ha1 b hb1 hab o hoa hob hs
        · exact (free o hob).2 (h.claimArt a ha1 o hoa hs)
      · rcases (memR b).1 hb' with hb1 | rfl
        · exact (free o hoa).2 (h.claimArt b hb1 o hob hs)
        · exact hab rfl
  | @finish f r _ hf hok he =>
    obtain ⟨cs, m, dd, _, hse, rfl⟩ := finish_ok he
    obtain ⟨a1, a2, a3, a4⟩ := settleAll_ok ht.hdis ht.hsub hse
    have hnd := hb.running_nodup
    have memE : ∀ g, g ∈ s.running.erase f ↔ g ∈ s.running ∧ g ≠ f := by
      intro g; rw [hnd.mem_erase_iff]; tauto
    refine ⟨?_, ?_, ?_, ?_⟩
    · intro g hg o hog hs
      replace hg : g ∈ s.running.erase f := hg
      replace hs : o ∈ dd.stillOut := hs
      show o ∈ dd.pendOut
      rw [memE] at hg
      rw [a1] at hs
      rw [a3]
      exact ⟨h.claimOut g hg.1 o hog hs.1, fun hh => hs.2 hh.1⟩
    · intro g hg o hog hs
      replace hg : g ∈ s.running.erase f := hg
      show o ∈ dd.pendArt
      rw [memE] at hg
      rw [a4]
      refine ⟨h.claimArt g hg.1 o hog hs, fun hh => ?_⟩
      exact h.sepArt g hg.1 f hf hg.2 o hog (hw f r hok o hh.1) hs
    · intro a ha b hb' hab o hoa hob hs
      replace ha : a ∈ s.running.erase f := ha
      replace hb' : b ∈ s.running.erase f := hb'
      replace hs : o ∈ dd.stillOut := hs
      rw [a1] at hs
      exact h.sepOut a ((memE a).1 ha).1 b ((memE b).1 hb').1 hab o hoa hob hs.1
    · intro a ha b hb' hab o hoa hob
      replace ha : a ∈ s.running.erase f := ha
      replace hb' : b ∈ s.running.erase f := hb'
      exact h.sepArt a ((memE a).1 ha).1 b ((memE b).1 hb').1 hab o hoa hob

theorem excl_init {T : Tables} {m dO d} : Excl T (initSched T.affected m dO T.dirtyArt d) := by
  refine ⟨?_, ?_, ?_, ?_⟩ <;> simp [initSched]

/-- A build is running at some point of the log. -/
def RunningAt (log : List Event) (f : String) : Prop := Event.started f ∈ log ∧ ∀ r, Event.finished f r ∉ log

theorem runningAt_iff {T s} (hb : Base T s) (f : String) : RunningAt s.log f ↔ f ∈ s.running := by
  unfold RunningAt
  rw [← mem_startsOf, hb.starts.mem_iff]
  have : (∀ r, Event.finished f r ∉ s.log) ↔ f ∉ s.results.keys := by
    rw [← hb.ends.mem_iff, mem_endsOf]; simp
  rw [this, List.mem_append]
  constructor
  · rintro ⟨h | h, h2⟩
    · exact h
    · exact absurd h h2
  · intro h; exact ⟨.inl h, hb.running_not_result h⟩

/-- At every moment, running builds do not share tracked outputs. -/
def ExclLog (T : Tables) (dO : List String) (log : List Event) : Prop :=
  ∀ pre post, log = pre ++ post → ∀ f g, f ≠ g → RunningAt pre f → RunningAt pre g →
    ∀ o ∈ T.creates f, o ∈ T.creates g → o ∉ T.dirtyArt ∧ (o ∈ dO → Touched pre o)

theorem split_snoc' {α : Type} {l pre post : List α} {x : α} (h : l ++ [x] = pre ++ post) :
    (post = [] ∧ pre = l ++ [x]) ∨ ∃ q, post = q ++ [x] ∧ l = pre ++ q := by
  rcases List.eq_nil_or_concat post with rfl | ⟨q, z, rfl⟩
  · exact .inl ⟨rfl, by simpa using h.symm⟩
  · rw [List.concat_eq_append] at h ⊢
    rw [← List.append_assoc] at h
    have := List.append_inj' h rfl
    simp only [List.cons.injEq, and_true] at this
    exact .inr ⟨q, by rw [this.2], this.1⟩

theorem ExclLog.snoc {T dO s' log e} (hb : Base T s') (ht : Track T dO d0 s') (he : Excl T s')
    (hl : s'.log = log ++ [e]) (h : ExclLog T dO log) : ExclLog T dO s'.log := by
  intro pre post hp f g hfg hf hg o hof hog
  rw [hl] at hp
  rcases split_snoc' hp with ⟨_, e2⟩ | ⟨q, _, e2⟩
  · rw [e2, ← hl] at hf hg ⊢
    rw [runningAt_iff hb] at hf hg
    refine ⟨he.sepArt f hf g hg hfg o hof hog, fun hd => ?_⟩
    have := he.sepOut f hf g hg hfg o hof hog
    rw [ht.out] at this
    exact Classical.not_not.1 (fun hn => this ⟨hd, hn⟩)
  · exact h pre q e2 f g hfg hf hg o hof hog

/-- A crash inside `finish` adds only a `finished` event, which ends a running build. -/
theorem ExclLog.snoc_finished {T dO s f r} (hb : Base T s) (ht : Track T dO d0 s) (he : Excl T s)
    (h : ExclLog T dO s.log) : ExclLog T dO (s.log ++ [.finished f r]) := by
  intro pre post hp a b hab ha hb' o hoa hob
  rcases split_snoc' hp with ⟨_, e2⟩ | ⟨q, _, e2⟩
  · subst e2
    have h1 : RunningAt s.log a := ⟨by have := ha.1; simpa using this, fun r hr => ha.2 r (by simp [hr])⟩
    have h2 : RunningAt s.log b := ⟨by have := hb'.1; simpa using this, fun r hr => hb'.2 r (by simp [hr])⟩
    rw [runningAt_iff hb] at h1 h2
    refine ⟨he.sepArt a h1 b h2 hab o hoa hob, fun hd => ?_⟩
    have := he.sepOut a h1 b h2 hab o hoa hob
    rw [ht.out] at this
    rw [touched_snoc_finished]
    exact .inl (Classical.not_not.1 (fun hn => this ⟨hd, hn⟩))
  · exact h pre q e2 a b hab ha hb' o hoa hob

theorem step_log {T ok s s'} (hs : Step T ok s s') : ∃ e, s'.log = s.log ++ [e] := by
  cases hs with
  | start => exact ⟨_, rfl⟩
  | finish hf hok he => obtain ⟨cs, m, dd, _, _, rfl⟩ := finish_ok he; exact ⟨_, rfl⟩

theorem excl_steps {T ok dO d0 s s'} (hb : Base T s) (ht : Track T dO d0 s) (h : Excl T s) (hl : ExclLog T dO s.log)
    (hw : ∀ f r, ok f r → Within T f r) (hs : Steps T ok s s') : Excl T s' ∧ ExclLog T dO s'.log := by
  induction hs with
  | refl => exact ⟨h, hl⟩
  | tail p hs ih =>
    have hb1 := hb.steps p
    have ht1 := ht.steps p
    have he2 := ih.1.step hb1 ht1 hw hs
    obtain ⟨e, hle⟩ := step_log hs
    exact ⟨he2, ExclLog.snoc (hb1.step hs) (ht1.step hs) he2 hle ih.2⟩

/-! ## Progress -/

/-- Every claim is held by a running build. -/
structure Held (T : Tables) (s : Sched) : Prop where
  out : ∀ o ∈ s.pendOut, o ∈ s.stillOut ∧ ∃ f ∈ s.running, o ∈ T.creates f
  art : ∀ o ∈ s.pendArt, o ∈ T.dirtyArt ∧ ∃ f ∈ s.running, o ∈ T.creates f

/-- Results are exactly what was announced (as sets), each output listed once. -/
structure Honest (T : Tables) (f : String) (r : BuildResult) : Prop where
  same : ∀ o, o ∈ r.produced ++ r.reused ↔ o ∈ T.creates f
  once : (r.produced ++ r.reused).Nodup

theorem Held.step {T ok dO d0 s s'} (hb : Base T s) (ht : Track T dO d0 s) (h : Held T s)
    (hh : ∀ f r, ok f r → Honest T f r) (hs : Step T ok s s') : Held T s' := by
  cases hs with
  | @start f hf hd ho =>
    obtain ⟨c1, c2⟩ := claim_spec T s.stillOut (T.creates f) s.pendOut s.pendArt
    refine ⟨?_, ?_⟩
    · intro o hop
      simp only [startOne] at hop ⊢
      rw [c1] at hop
      rcases hop with hop | ⟨h1, h2⟩
      · obtain ⟨a, g, hg, b⟩ := h.out o hop
        exact ⟨a, g, by simp [hg], b⟩
      · exact ⟨h2, f, by simp, h1⟩
    · intro o hop
      simp only [startOne] at hop ⊢
      rw [c2] at hop
      rcases hop with hop | ⟨h1, h2⟩
      · obtain ⟨a, g, hg, b⟩ := h.art o hop
        exact ⟨a, g, by simp [hg], b⟩
      · exact ⟨h2.2, f, by simp, h1⟩
  | @finish f r _ hf hok he =>
    obtain ⟨cs, m, dd, _, hse, rfl⟩ := finish_ok he
    obtain ⟨a1, a2, a3, a4⟩ := settleAll_ok ht.hdis ht.hsub hse
    have hnd := hb.running_nodup
    have hho := hh f r hok
    refine ⟨?_, ?_⟩
    · intro o hop
      replace hop : o ∈ dd.pendOut := hop
      show o ∈ dd.stillOut ∧ ∃ g ∈ s.running.erase f, o ∈ T.creates g
      rw [a3] at hop
      obtain ⟨p1, g, hg, p2⟩ := h.out o hop.1
      have hno : o ∉ r.produced ++ r.reused := fun hm => hop.2 ⟨hm, p1⟩
      have hgf : g ≠ f := by rintro rfl; exact hno ((hho.same o).2 p2)
      exact ⟨(a1 o).2 ⟨p1, hno⟩, g, (hnd.mem_erase_iff).2 ⟨hgf, hg⟩, p2⟩
    · intro o hop
      replace hop : o ∈ dd.pendArt := hop
      show o ∈ T.dirtyArt ∧ ∃ g ∈ s.running.erase f, o ∈ T.creates g
      rw [a4] at hop
      obtain ⟨p1, g, hg, p2⟩ := h.art o hop.1
      have hno : o ∉ r.produced ++ r.reused := fun hm => hop.2 ⟨hm, p1⟩
      have hgf : g ≠ f := by rintro rfl; exact hno ((hho.same o).2 p2)
      exact ⟨p1, g, (hnd.mem_erase_iff).2 ⟨hgf, hg⟩, p2⟩

theorem Held.steps {T ok dO d0 s s'} (hb : Base T s) (ht : Track T dO d0 s) (h : Held T s)
    (hh : ∀ f r, ok f r → Honest T f r) (hs : Steps T ok s s') : Held T s' := by
  induction hs with
  | refl => exact h
  | tail p hs ih => exact ih.step (hb.steps p) (ht.steps p) hh hs

theorem held_init {T : Tables} {m dO d} : Held T (initSched T.affected m dO T.dirtyArt d) := by
  refine ⟨?_, ?_⟩ <;> simp [initSched]

/-- A finite non-empty set in which every element has a successor contains a cycle. -/
theorem exists_cycle {R : String → String → Prop} (n : Nat) (L : List String) (hn : L.length = n) (hne : L ≠ [])
    (h : ∀ x ∈ L, ∃ y ∈ L, R x y) : ∃ x ∈ L, Path R x x := by
  induction n generalizing L R with
  | zero => exact absurd (List.length_eq_zero_iff.1 hn) hne
  | succ n ih =>
    cases L with
    | nil => exact absurd rfl hne
    | cons x L =>
      obtain ⟨y, hy, hxy⟩ := h x (by simp)
      rcases List.mem_cons.1 hy with rfl | hyL
      · exact ⟨y, by simp, .one hxy⟩
      · by_cases hxL : x ∈ L
        · -- `x` occurs again: drop this occurrence
          obtain ⟨z, hz, p⟩ := ih (R := R) L (by simpa using hn) (by rintro rfl; simp at hxL)
            (fun a ha => by
              obtain ⟨b, hb, hab⟩ := h a (by simp [ha])
              rcases List.mem_cons.1 hb with rfl | hb
              · exact ⟨b, hxL, hab⟩
              · exact ⟨b, hb, hab⟩)
          exact ⟨z, by simp [hz], p⟩
        · obtain ⟨z, hz, p⟩ := ih (R := fun a b => R a b ∨ (R a x ∧ R x b)) L (by simpa using hn)
            (by rintro rfl; simp at hyL)
            (fun a ha => by
              obtain ⟨b, hb, hab⟩ := h a (by simp [ha])
              rcases List.mem_cons.1 hb with rfl | hb
              · exact ⟨y, hyL, .inr ⟨hab, hxy⟩⟩
              · exact ⟨b, hb, .inl hab⟩)
          refine ⟨z, by simp [hz], ?_⟩
          have key : ∀ {u v}, Path (fun a b => R a b ∨ (R a x ∧ R x b)) u v → Path R u v := by
            intro u v p
            induction p with
            | one e =>
              rcases e with e | ⟨e1, e2⟩
              · exact .one e
              · exact .more e1 (.one e2)
            | more e _ ih =>
              rcases e with e | ⟨e1, e2⟩
              · exact .more e ih
              · exact .more e1 (.more e2 ih)
          exact key p

/-- Dependencies among the affected files. -/
def DepIn (T : Tables) (x y : String) : Prop := x ∈ T.affected ∧ y ∈ T.affected ∧ y ∈ T.deps x

/-- Stuck with nothing running and nothing claimed: a cycle among the waiting files. -/
theorem cycle_of_stuck {T s} (hb : Base T s) (hh : Held T s) (hr : s.running = []) (hne : s.todo ≠ [])
    (h : ∀ f ∈ s.todo, depBlocked T s f = true ∨ outBlocked T s.pendOut s.pendArt f = true) :
    ∃ f ∈ T.affected, Path (DepIn T) f f := by
  have p1 : s.pendOut = [] := by
    rcases List.eq_nil_or_concat s.pendOut with h | ⟨l, o, h⟩
    · exact h
    · obtain ⟨_, f, hf, _⟩ := hh.out o (by rw [h]; simp)
      rw [hr] at hf; simp at hf
  have p2 : s.pendArt = [] := by
    rcases List.eq_nil_or_concat s.pendArt with h | ⟨l, o, h⟩
    · exact h
    · obtain ⟨_, f, hf, _⟩ := hh.art o (by rw [h]; simp)
      rw [hr] at hf; simp at hf
  obtain ⟨x, hx, p⟩ := exists_cycle (R := DepIn T) _ s.todo rfl hne (by
    intro f hf
    rcases h f hf with h | h
    · unfold depBlocked at h
      rw [List.any_eq_true] at h
      obtain ⟨c, hc, h⟩ := h
      simp only [Bool.and_eq_true, Bool.not_eq_true', List.contains_eq_mem, decide_eq_true_eq] at h
      have hnr : c ∉ s.results.keys := by
        rw [← Dict.has_iff]; simp [h.1]
      have hct : c ∈ s.todo := by
        rcases (hb.mem c).1 h.2 with h | h | h
        · exact h
        · rw [hr] at h; simp at h
        · exact absurd h hnr
      exact ⟨c, hct, (hb.mem f).2 (.inl hf), h.2, hc⟩
    · unfold outBlocked at h
      rw [p1, p2] at h; simp at h)
  exact ⟨x, (hb.mem x).2 (.inl hx), p⟩

/-- A file on a dependency cycle is never started. -/
theorem cycle_never_started {T ok s s'} (hb : Base T s) (h : ∀ f, Path (DepIn T) f f → f ∉ startsOf s.log)
    (hs : Steps T ok s s') : ∀ f, Path (DepIn T) f f → f ∉ startsOf s'.log := by
  induction hs with
  | refl => exact h
  | @tail s1 s2 p hs ih =>
    have hb1 := hb.steps p
    cases hs with
    | @start f hf hd ho =>
      intro g hg
      show g ∉ startsOf (s1.log ++ [.started f])
      simp only [startsOf_append, startsOf_s, List.mem_append, List.mem_singleton, not_or]
      refine ⟨ih g hg, ?_⟩
      rintro rfl
      -- the next file on the cycle has a result, hence was started
      have : ∃ d, DepIn T g d ∧ Path (DepIn T) d d := by
        cases hg with
        | one e => exact ⟨g, e, .one e⟩
        | more e q => exact ⟨_, e, q.snoc e⟩
      obtain ⟨d, hgd, hdd⟩ := this
      unfold depBlocked at hd
      rw [List.any_eq_false] at hd
      have := hd d hgd.2.2
      simp only [Bool.and_eq_true, Bool.not_eq_true', List.contains_eq_mem, decide_eq_true_eq, not_and] at this
      have hk : d ∈ s1.results.keys := by
        rw [← Dict.has_iff]
        by_cases hh : s1.results.has d = true
        · exact hh
        · exact absurd hgd.2.1 (this (by simpa using hh))
      exact ih d hdd ((hb1.starts.mem_iff).2 (by simp [hk]))
    | finish hf hok he =>
      obtain ⟨cs, m, dd, _, _, rfl⟩ := finish_ok he
      intro g hg
      have := ih g hg
      show g ∉ startsOf (s1.log ++ [_])
      simpa using this

/-! ## Termination -/

/-- Each time the loop sleeps, it is woken by at least one completed build (`asyncio.wait` with
`FIRST_COMPLETED`). -/
def Fair (T : Tables) : List Batch → Sched → Prop
  | bs, s =>
    if s.todo = [] ∧ s.running = [] then True
    else match submit T s with
      | .error _ => True
      | .ok s1 => match bs with
        | [] => True
        | b :: bs => (∃ f ∈ s1.running, (b f).isSome = true) ∧
          match drain T b s1.running s1 with
          | (.error _, _) => True
          | (.ok _, s2) => Fair T bs s2
termination_by bs => bs.length

theorem drain_mono {T b fs s s'} (h : drain T b fs s = (.ok (), s')) (hb : Base T s) (hn : fs.Nodup)
    (hsub : ∀ f ∈ fs, f ∈ s.running) :
    s.results.keys.length ≤ s'.results.keys.length ∧
    ((∃ f ∈ fs, (b f).isSome = true) → s.results.keys.length < s'.results.keys.length) := by
  induction fs generalizing s with
  | nil => simp [drain] at h; subst h; simp
  | cons f fs ih =>
    rw [List.nodup_cons] at hn
    simp only [drain] at h
    split at h
    · rename_i hbf
      obtain ⟨h1, h2⟩ := ih h hb hn.2 (fun g hg => hsub g (by simp [hg]))
      refine ⟨h1, ?_⟩
      rintro ⟨g, hg, hs⟩
      rcases List.mem_cons.1 hg with rfl | hg
      · simp [hbf] at hs
      · exact h2 ⟨g, hg, hs⟩
    · simp at h
    · rename_i r hr
      split at h
      · simp at h
      · rename_i s1 he
        have hb1 := hb.finish (hsub f (by simp)) he
        obtain ⟨h1, h2⟩ := ih h hb1 hn.2 (by
          intro g hg
          obtain ⟨cs, m, d, _, _, rfl⟩ := finish_ok he
          have hgf : g ≠ f := by rintro rfl; exact hn.1 hg
          exact (List.mem_erase_of_ne hgf).2 (hsub g (by simp [hg])))
        have : s1.results.keys.length = s.results.keys.length + 1 := by
          obtain ⟨cs, m, d, _, _, rfl⟩ := finish_ok he
          show (s.results.set f _).keys.length = _
          rw [Dict.keys_set_of_not_mem _ (hb.running_not_result (hsub f (by simp)))]
          simp
        exact ⟨by omega, fun _ => by omega⟩

theorem results_le {T s} (hb : Base T s) : s.results.keys.length + s.running.length + s.todo.length = T.affected.length := by
  have := hb.part.length_eq
  simp at this ⊢; omega

theorem schedLoop_waiting {T : Tables} (bs : List Batch) (s s' : Sched) (hb : Base T s) (hf : Fair T bs s)
    (h : schedLoop T bs s = (.waiting, s')) : s.results.keys.length + bs.length < T.affected.length := by
  induction bs generalizing s with
  | nil =>
    unfold schedLoop at h
    split at h
    · simp at h
    · rename_i hd
      have := results_le hb
      have hne : s.running.length + s.todo.length ≠ 0 := by
        intro h0
        apply hd
        exact ⟨List.length_eq_zero_iff.1 (by omega), List.length_eq_zero_iff.1 (by omega)⟩
      simp; omega
  | cons b bs ih =>
    unfold schedLoop at h
    unfold Fair at hf
    split at h
    · simp at h
    · rename_i hd
      rw [if_neg hd] at hf
      split at h
      · simp at h
      · rename_i s1 he
        rw [he] at hf
        simp only at hf h
        obtain ⟨hs1, _⟩ := submit_ok he
        have p1 : Steps T (fun _ _ => True) s s1 := by
          rw [hs1]; exact pick_steps T _ _ s hb.todo_nodup (fun _ h => h)
        have hb1 := hb.steps p1
        have hres : s1.results = s.results := by rw [hs1]; rfl
        split at h
        · simp at h
        · rename_i s2 hdr
          rw [hdr] at hf
          simp only at hf
          obtain ⟨m1, m2⟩ := drain_mono hdr hb1 hb1.running_nodup (fun _ h => h)
          have := m2 hf.1
          obtain ⟨s3, q1, q2⟩ := drain_steps T (fun _ _ => True) b (fun _ _ _ => trivial) s1.running s1 hb1 hb1.running_nodup
            (fun _ h => h) _ _ hdr
          rcases q2 with ⟨_, rfl⟩ | ⟨e', q, _⟩
          · have := ih s2 (hb1.steps q1) hf.2 h
            rw [hres] at m2
            have := m2 hf.1
            simp; omega
          · simp at q

end Verif.Hot
