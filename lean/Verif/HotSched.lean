import Verif.HotClosure
import Verif.HotSpec
/-! # The build loop as a sequence of atomic steps, and its invariants -/
namespace Verif.Hot
open Verif Verif.Graph

/-- Start one file: the effect of one iteration of 305-344 together with 356-360. -/
def startOne (T : Tables) (s : Sched) (f : String) : Sched :=
  { s with
    todo := s.todo.erase f
    running := s.running ++ [f]
    pendOut := (claim T s.stillOut (T.creates f) s.pendOut s.pendArt).1
    pendArt := (claim T s.stillOut (T.creates f) s.pendOut s.pendArt).2
    log := s.log ++ [.started f] }

/-- The atomic steps of the loop; `ok f r` says that `r` is a possible result of building `f`. -/
inductive Step (T : Tables) (ok : String → BuildResult → Prop) : Sched → Sched → Prop where
  | start {s f} : f ∈ s.todo → depBlocked T s f = false → outBlocked T s.pendOut s.pendArt f = false →
      Step T ok s (startOne T s f)
  | finish {s f r s'} : f ∈ s.running → ok f r → finish T s f r = (.ok (), s') → Step T ok s s'

inductive Steps (T : Tables) (ok : String → BuildResult → Prop) : Sched → Sched → Prop where
  | refl {s} : Steps T ok s s
  | tail {s s1 s2} : Steps T ok s s1 → Step T ok s1 s2 → Steps T ok s s2

theorem Steps.trans {T ok} {a b c : Sched} (h1 : Steps T ok a b) (h2 : Steps T ok b c) : Steps T ok a c := by
  induction h2 with
  | refl => exact h1
  | tail _ h ih => exact .tail ih h

/-! ## Events -/

@[simp] theorem startsOf_append (a b : List Event) : startsOf (a ++ b) = startsOf a ++ startsOf b := by
  simp [startsOf]
@[simp] theorem endsOf_append (a b : List Event) : endsOf (a ++ b) = endsOf a ++ endsOf b := by
  simp [endsOf]
@[simp] theorem startsOf_s (f : String) : startsOf [.started f] = [f] := rfl
@[simp] theorem startsOf_f (f : String) (r) : startsOf [.finished f r] = [] := rfl
@[simp] theorem endsOf_s (f : String) : endsOf [.started f] = [] := rfl
@[simp] theorem endsOf_f (f : String) (r) : endsOf [.finished f r] = [f] := rfl

theorem mem_startsOf (log : List Event) (f : String) : f ∈ startsOf log ↔ Event.started f ∈ log := by
  simp only [startsOf, List.mem_filterMap]
  constructor
  · rintro ⟨e, he, h⟩
    cases e <;> simp at h
    subst h; exact he
  · intro h; exact ⟨_, h, rfl⟩

theorem mem_endsOf (log : List Event) (f : String) : f ∈ endsOf log ↔ ∃ r, Event.finished f r ∈ log := by
  simp only [endsOf, List.mem_filterMap]
  constructor
  · rintro ⟨e, he, h⟩
    cases e <;> simp at h
    rename_i r; subst h; exact ⟨r, he⟩
  · rintro ⟨r, h⟩; exact ⟨_, h, rfl⟩

/-! ## Effect of `finish` -/

theorem finish_ok {T : Tables} {s s' : Sched} {f : String} {r : BuildResult} (h : finish T s f r = (.ok (), s')) :
    ∃ cs m d, reinterpChildren T f r.children [] s.outMap = .ok (cs, m) ∧
      settleAll T (r.produced ++ r.reused) ⟨s.stillOut, s.pendOut, s.stillArt, s.pendArt⟩ = .ok d ∧
      s' = { s with
        disk := s.disk.write r.produced
        log := s.log ++ [.finished f r]
        outMap := m
        results := s.results.set f { r with children := cs }
        running := s.running.erase f
        stillOut := d.stillOut, pendOut := d.pendOut, stillArt := d.stillArt, pendArt := d.pendArt } := by
  unfold finish at h
  simp only at h
  split at h
  · simp at h
  · rename_i cs m hr
    split at h
    · simp at h
    · rename_i d hd
      simp only [Prod.mk.injEq, true_and] at h
      exact ⟨cs, m, d, hr, hd, h.symm⟩

theorem finish_err {T : Tables} {s s' : Sched} {f : String} {r : BuildResult} {e : Err}
    (h : finish T s f r = (.error e, s')) :
    s'.log = s.log ++ [.finished f r] ∧ s'.disk = s.disk.write r.produced ∧
    (reinterpChildren T f r.children [] s.outMap = .error e ∨
      settleAll T (r.produced ++ r.reused) ⟨s.stillOut, s.pendOut, s.stillArt, s.pendArt⟩ = .error e) := by
  unfold finish at h
  simp only at h
  split at h
  · rename_i e' hr
    simp only [Prod.mk.injEq, Except.error.injEq] at h
    obtain ⟨rfl, rfl⟩ := h
    exact ⟨rfl, rfl, .inl hr⟩
  · split at h
    · rename_i e' hd
      simp only [Prod.mk.injEq, Except.error.injEq] at h
      obtain ⟨rfl, rfl⟩ := h
      exact ⟨rfl, rfl, .inr hd⟩
    · simp at h

/-! ## Base invariant -/

/-- Waiting, running and finished files partition the affected files, and agree with the log. -/
structure Base (T : Tables) (s : Sched) : Prop where
  part : (s.todo ++ (s.running ++ s.results.keys)).Perm T.affected
  starts : (startsOf s.log).Perm (s.running ++ s.results.keys)
  ends : (endsOf s.log).Perm s.results.keys
  res : ∀ f r', s.results.get? f = some r' →
    ∃ r, Event.finished f r ∈ s.log ∧ r'.produced = r.produced ∧ r'.reused = r.reused
  nodup : T.affected.Nodup

theorem Base.all_nodup {T s} (h : Base T s) : (s.todo ++ (s.running ++ s.results.keys)).Nodup :=
  h.part.nodup_iff.2 h.nodup

theorem Base.running_nodup {T s} (h : Base T s) : s.running.Nodup :=
  (List.nodup_append.1 (List.nodup_append.1 h.all_nodup).2.1).1

theorem Base.todo_nodup {T s} (h : Base T s) : s.todo.Nodup := (List.nodup_append.1 h.all_nodup).1

theorem Base.running_not_result {T s f} (h : Base T s) (hf : f ∈ s.running) : f ∉ s.results.keys := by
  intro hr
  exact (List.nodup_append.1 (List.nodup_append.1 h.all_nodup).2.1).2.2 f hf f hr rfl

theorem Base.todo_not {T s f} (h : Base T s) (hf : f ∈ s.todo) : f ∉ s.running ∧ f ∉ s.results.keys := by
  have := (List.nodup_append.1 h.all_nodup).2.2 f hf
  constructor
  · intro hr; exact this f (by simp [hr]) rfl
  · intro hr; exact this f (by simp [hr]) rfl

theorem Base.mem {T s} (h : Base T s) (f : String) :
    f ∈ T.affected ↔ f ∈ s.todo ∨ f ∈ s.running ∨ f ∈ s.results.keys := by
  rw [← h.part.mem_iff]; simp

theorem Base.start {T s f} (h : Base T s) (hf : f ∈ s.todo) : Base T (startOne T s f) := by
  refine ⟨?_, ?_, ?_, ?_, h.nodup⟩
  · refine List.Perm.trans ?_ h.part
    show (s.todo.erase f ++ (s.running ++ [f] ++ s.results.keys)).Perm _
    have h1 := List.perm_cons_erase hf
    refine List.Perm.trans ?_ (h1.append_right _).symm
    have : (s.running ++ [f] ++ s.results.keys).Perm (f :: (s.running ++ s.results.keys)) := by
      rw [List.append_assoc]
      exact List.perm_middle
    refine (this.append_left _).trans ?_
    exact List.perm_middle
  · show (startsOf (s.log ++ [.started f])).Perm (s.running ++ [f] ++ s.results.keys)
    rw [startsOf_append, startsOf_s]
    refine (h.starts.append_right [f]).trans ?_
    rw [List.append_assoc, List.append_assoc]
    exact (List.perm_append_comm).append_left _
  · show (endsOf (s.log ++ [.started f])).Perm s.results.keys
    simpa using h.ends
  · intro g r' hg
    obtain ⟨r, h1, h2⟩ := h.res g r' hg
    exact ⟨r, by simp [startOne, h1], h2⟩

theorem Base.finish {T s s' f r} (h : Base T s) (hf : f ∈ s.running) (he : finish T s f r = (.ok (), s')) :
    Base T s' := by
  obtain ⟨cs, m, d, _, _, rfl⟩ := finish_ok he
  have hk : (s.results.set f { r with children := cs }).keys = s.results.keys ++ [f] :=
    Dict.keys_set_of_not_mem _ (h.running_not_result hf)
  have h1 := List.perm_cons_erase hf
  have key : (s.running.erase f ++ (s.results.keys ++ [f])).Perm (s.running ++ s.results.keys) := by
    refine List.Perm.trans ?_ (h1.append_right _).symm
    rw [← List.append_assoc]
    exact (List.perm_append_comm (l₁ := s.running.erase f ++ s.results.keys) (l₂ := [f]))
  refine ⟨?_, ?_, ?_, ?_, h.nodup⟩
  · show (s.todo ++ (s.running.erase f ++ _)).Perm _
    rw [hk]
    exact (key.append_left _).trans h.part
  · show (startsOf (s.log ++ [.finished f r])).Perm (s.running.erase f ++ _)
    rw [hk, startsOf_append, startsOf_f, List.append_nil]
    exact h.starts.trans key.symm
  · show (endsOf (s.log ++ [.finished f r])).Perm _
    simp only [hk, endsOf_append, endsOf_f]
    exact h.ends.append_right _
  · intro g r' hg
    simp only [Dict.get?_set] at hg
    split at hg
    · rename_i e; simp at hg; subst hg; subst e; exact ⟨r, by simp, rfl, rfl⟩
    · obtain ⟨r0, h1, h2⟩ := h.res g r' hg
      exact ⟨r0, by simp [h1], h2⟩

theorem Base.step {T ok s s'} (h : Base T s) (hs : Step T ok s s') : Base T s' := by
  cases hs with
  | start hf _ _ => exact h.start hf
  | finish hf _ he => exact h.finish hf he

theorem Base.steps {T ok s s'} (h : Base T s) (hs : Steps T ok s s') : Base T s' := by
  induction hs with
  | refl => exact h
  | tail _ hs ih => exact ih.step hs

/-! ## The loop is a sequence of steps -/

/-- State after a pass which started `fs`. -/
def applyPick (s : Sched) (r : List String × List String × List String) : Sched :=
  { s with
    todo := r.1.foldl (fun t f => t.erase f) s.todo
    running := s.running ++ r.1
    pendOut := r.2.1
    pendArt := r.2.2
    log := s.log ++ r.1.map .started }

theorem pick_congr (T : Tables) (s s' : Sched) (h1 : s.results = s'.results) (h2 : s.stillOut = s'.stillOut)
    (fs pO pA : List String) : pick T s fs pO pA = pick T s' fs pO pA := by
  induction fs generalizing pO pA with
  | nil => rfl
  | cons f fs ih =>
    have hd : depBlocked T s f = depBlocked T s' f := by simp only [depBlocked, h1]
    simp only [pick, hd, h2, ih]

theorem pick_steps (T : Tables) (ok : String → BuildResult → Prop) (fs : List String) (s : Sched)
    (hn : fs.Nodup) (hsub : ∀ f ∈ fs, f ∈ s.todo) :
    Steps T ok s (applyPick s (pick T s fs s.pendOut s.pendArt)) := by
  induction fs generalizing s with
  | nil => simp only [pick, applyPick, List.foldl_nil, List.append_nil, List.map_nil]; exact .refl
  | cons f fs ih =>
    rw [List.nodup_cons] at hn
    simp only [pick]
    split
    · exact ih s hn.2 (fun g hg => hsub g (by simp [hg]))
    · rename_i hb
      simp only [Bool.or_eq_true, not_or, Bool.not_eq_true] at hb
      have hstep : Step T ok s (startOne T s f) := .start (hsub f (by simp)) hb.1 hb.2
      have := ih (startOne T s f) hn.2 (by
        intro g hg
        have hgf : g ≠ f := by rintro rfl; exact hn.1 hg
        simp only [startOne]
        exact (List.mem_erase_of_ne hgf).2 (hsub g (by simp [hg])))
      have hc : pick T (startOne T s f) fs = pick T s fs := by
        funext a b; exact pick_congr T (startOne T s f) s rfl rfl fs a b
      rw [hc] at this
      refine Steps.trans (.tail .refl hstep) ?_
      have e : applyPick (startOne T s f) (pick T s fs (startOne T s f).pendOut (startOne T s f).pendArt)
          = applyPick s (f :: (pick T s fs (claim T s.stillOut (T.creates f) s.pendOut s.pendArt).1
            (claim T s.stillOut (T.creates f) s.pendOut s.pendArt).2).1,
            (pick T s fs (claim T s.stillOut (T.creates f) s.pendOut s.pendArt).1
            (claim T s.stillOut (T.creates f) s.pendOut s.pendArt).2).2.1,
            (pick T s fs (claim T s.stillOut (T.creates f) s.pendOut s.pendArt).1
            (claim T s.stillOut (T.creates f) s.pendOut s.pendArt).2).2.2) := by
        simp [applyPick, startOne]
      rw [← e]; exact this

theorem pick_nil {T : Tables} {s : Sched} {fs : List String} (pO pA : List String)
    (h : (pick T s fs pO pA).1 = []) : ∀ f ∈ fs, depBlocked T s f = true ∨ outBlocked T pO pA f = true := by
  induction fs with
  | nil => simp
  | cons f fs ih =>
    simp only [pick] at h
    split at h
    · rename_i hb
      intro g hg
      rcases List.mem_cons.1 hg with rfl | hg
      · simpa using hb
      · exact ih h g hg
    · simp at h

theorem submit_ok {T : Tables} {s s1 : Sched} (h : submit T s = .ok s1) :
    s1 = applyPick s (pick T s s.todo s.pendOut s.pendArt) ∧
      ¬((pick T s s.todo s.pendOut s.pendArt).1 = [] ∧ s.running = []) := by
  unfold submit at h
  simp only at h
  split at h
  · simp at h
  · rename_i hc
    simp only [Except.ok.injEq] at h
    exact ⟨h.symm, hc⟩

theorem submit_err {T : Tables} {s : Sched} {e : Err} (h : submit T s = .error e) :
    e = .cyclic ∧ s.running = [] ∧ (pick T s s.todo s.pendOut s.pendArt).1 = [] := by
  unfold submit at h
  simp only at h
  split at h
  · rename_i hc
    simp only [Except.error.injEq] at h
    exact ⟨h.symm, hc.2, hc.1⟩
  · simp at h

/-- Why and where a drain stopped early. -/
def Crash (T : Tables) (bs : List Batch) (ok : String → BuildResult → Prop) (s1 s' : Sched) (e : Err) : Prop :=
  (s' = s1 ∧ ∃ b ∈ bs, ∃ f ∈ s1.running, b f = some (.error e)) ∨
  (∃ f r, f ∈ s1.running ∧ ok f r ∧ finish T s1 f r = (.error e, s'))

theorem drain_steps (T : Tables) (ok : String → BuildResult → Prop) (b : Batch)
    (hok : ∀ f r, b f = some (.ok r) → ok f r) (fs : List String) (s : Sched) (hb : Base T s)
    (hn : fs.Nodup) (hsub : ∀ f ∈ fs, f ∈ s.running) (res : Except Err Unit) (s' : Sched)
    (h : drain T b fs s = (res, s')) :
    ∃ s1, Steps T ok s s1 ∧
      ((res = .ok () ∧ s' = s1) ∨ ∃ e, res = .error e ∧ Crash T [b] ok s1 s' e) := by
  induction fs generalizing s with
  | nil =>
    simp only [drain, Prod.mk.injEq] at h
    exact ⟨s, .refl, .inl ⟨h.1.symm, h.2.symm⟩⟩
  | cons f fs ih =>
    rw [List.nodup_cons] at hn
    simp only [drain] at h
    split at h
    · exact ih s hb hn.2 (fun g hg => hsub g (by simp [hg])) h
    · rename_i e he
      simp only [Prod.mk.injEq] at h
      exact ⟨s, .refl, .inr ⟨e, h.1.symm, .inl ⟨h.2.symm, b, by simp, f, hsub f (by simp), he⟩⟩⟩
    · rename_i r hr
      split at h
      · rename_i e s1 he
        simp only [Prod.mk.injEq] at h
        obtain ⟨rfl, rfl⟩ := h
        exact ⟨s, .refl, .inr ⟨e, rfl, .inr ⟨f, r, hsub f (by simp), hok f r hr, he⟩⟩⟩
      · rename_i s1 he
        have hst : Step T ok s s1 := .finish (hsub f (by simp)) (hok f r hr) he
        obtain ⟨s2, h1, h2⟩ := ih s1 (hb.step hst) hn.2 (by
          intro g hg
          obtain ⟨cs, m, d, _, _, rfl⟩ := finish_ok he
          have hgf : g ≠ f := by rintro rfl; exact hn.1 hg
          exact (List.mem_erase_of_ne hgf).2 (hsub g (by simp [hg]))) h
        exact ⟨s2, .trans (.tail .refl hst) h1, h2⟩

theorem Crash.mono {T bs bs' ok s1 s' e} (h : Crash T bs ok s1 s' e) (hs : ∀ b ∈ bs, b ∈ bs') :
    Crash T bs' ok s1 s' e := by
  rcases h with ⟨h1, b, hb, h⟩ | h
  · exact .inl ⟨h1, b, hs b hb, h⟩
  · exact .inr h

/-- The result of the build loop in terms of atomic steps. -/
theorem schedLoop_steps (T : Tables) (ok : String → BuildResult → Prop) (bs : List Batch)
    (hok : ∀ b ∈ bs, ∀ f r, b f = some (.ok r) → ok f r) (s : Sched) (hb : Base T s)
    (st : Status) (s' : Sched) (h : schedLoop T bs s = (st, s')) :
    ∃ s1, Steps T ok s s1 ∧
      ((st = .finished ∧ s' = s1 ∧ s1.todo = [] ∧ s1.running = []) ∨
       (st = .waiting ∧ s' = s1) ∨
       (st = .failed .cyclic ∧ s' = s1 ∧ s1.running = [] ∧ s1.todo ≠ [] ∧
         ∀ f ∈ s1.todo, depBlocked T s1 f = true ∨ outBlocked T s1.pendOut s1.pendArt f = true) ∨
       (∃ e, st = .failed e ∧ Crash T bs ok s1 s' e)) := by
  induction bs generalizing s with
  | nil =>
    unfold schedLoop at h
    split at h
    · rename_i hd
      simp only [Prod.mk.injEq] at h
      exact ⟨s, .refl, .inl ⟨h.1.symm, h.2.symm, hd.1, hd.2⟩⟩
    · rename_i hd
      split at h
      · rename_i e he
        obtain ⟨rfl, h1, h2⟩ := submit_err he
        simp only [Prod.mk.injEq] at h
        refine ⟨s, .refl, .inr (.inr (.inl ⟨h.1.symm, h.2.symm, h1, fun ht => hd ⟨ht, h1⟩, pick_nil _ _ h2⟩))⟩
      · rename_i s1 he
        obtain ⟨rfl, _⟩ := submit_ok he
        simp only [Prod.mk.injEq] at h
        exact ⟨_, pick_steps T ok _ s hb.todo_nodup (fun _ h => h), .inr (.inl ⟨h.1.symm, h.2.symm⟩)⟩
  | cons b bs ih =>
    unfold schedLoop at h
    split at h
    · rename_i hd
      simp only [Prod.mk.injEq] at h
      exact ⟨s, .refl, .inl ⟨h.1.symm, h.2.symm, hd.1, hd.2⟩⟩
    · rename_i hd
      split at h
      · rename_i e he
        obtain ⟨rfl, h1, h2⟩ := submit_err he
        simp only [Prod.mk.injEq] at h
        refine ⟨s, .refl, .inr (.inr (.inl ⟨h.1.symm, h.2.symm, h1, fun ht => hd ⟨ht, h1⟩, pick_nil _ _ h2⟩))⟩
      · rename_i s1 he
        obtain ⟨hs1, _⟩ := submit_ok he
        have p1 : Steps T ok s s1 := by
          rw [hs1]; exact pick_steps T ok _ s hb.todo_nodup (fun _ h => h)
        have hb1 := hb.steps p1
        simp only at h
        split at h
        · rename_i e s2 hdr
          obtain ⟨s3, q1, q2⟩ := drain_steps T ok b (hok b (by simp)) s1.running s1 hb1 hb1.running_nodup
            (fun _ h => h) _ _ hdr
          simp only [Prod.mk.injEq] at h
          obtain ⟨rfl, rfl⟩ := h
          rcases q2 with ⟨q, _⟩ | ⟨e', q, hc⟩
          · simp at q
          · simp only [Except.error.injEq] at q
            subst q
            exact ⟨s3, p1.trans q1, .inr (.inr (.inr ⟨e, rfl, hc.mono (by simp)⟩))⟩
        · rename_i s2 hdr
          obtain ⟨s3, q1, q2⟩ := drain_steps T ok b (hok b (by simp)) s1.running s1 hb1 hb1.running_nodup
            (fun _ h => h) _ _ hdr
          rcases q2 with ⟨_, rfl⟩ | ⟨e', q, _⟩
          · obtain ⟨s4, r1, r2⟩ := ih (fun b hb => hok b (by simp [hb])) s2 (hb1.steps q1) h
            refine ⟨s4, (p1.trans q1).trans r1, ?_⟩
            rcases r2 with r2 | r2 | r2 | ⟨e, r2, r3⟩
            · exact .inl r2
            · exact .inr (.inl r2)
            · exact .inr (.inr (.inl r2))
            · exact .inr (.inr (.inr ⟨e, r2, r3.mono (fun b hb => by simp [hb])⟩))
          · simp at q

theorem base_init {T : Tables} (h : T.affected.Nodup) (m dO dA d) :
    Base T (initSched T.affected m dO dA d) :=
  ⟨by simp [initSched, Dict.keys], by simp [initSched, Dict.keys, startsOf], by simp [initSched, Dict.keys, endsOf],
    by intro f r hr; simp [initSched] at hr, h⟩

/-! ## Dependency order -/

/-- Every started file had its affected dependencies finished before. -/
def DepsFirst (T : Tables) (log : List Event) : Prop :=
  ∀ pre f post, log = pre ++ .started f :: post → ∀ d ∈ T.deps f, d ∈ T.affected → ∃ r, Event.finished d r ∈ pre

theorem split_snoc {α : Type} {l pre post : List α} {x y : α} (h : l ++ [x] = pre ++ y :: post) :
    (post = [] ∧ pre = l ∧ y = x) ∨ ∃ q, post = q ++ [x] ∧ l = pre ++ y :: q := by
  rcases List.eq_nil_or_concat post with rfl | ⟨q, z, rfl⟩
  · have : l ++ [x] = pre ++ [y] := h
    have := List.append_inj' this rfl
    exact .inl ⟨rfl, this.1.symm, by simpa using this.2.symm⟩
  · rw [List.concat_eq_append] at h ⊢
    have h : l ++ [x] = (pre ++ y :: q) ++ [z] := by rw [h]; simp
    have := List.append_inj' h rfl
    simp only [List.cons.injEq, and_true] at this
    refine .inr ⟨q, by rw [this.2], this.1⟩

theorem DepsFirst.snoc_finished {T log f r} (h : DepsFirst T log) : DepsFirst T (log ++ [.finished f r]) := by
  intro pre g post e d hd ha
  rcases split_snoc e with ⟨_, _, e2⟩ | ⟨q, _, e2⟩
  · simp at e2
  · exact h pre g q e2 d hd ha

theorem DepsFirst.step {T ok s s'} (hb : Base T s) (h : DepsFirst T s.log) (hs : Step T ok s s') :
    DepsFirst T s'.log := by
  cases hs with
  | @start f hf hd ho =>
    intro pre g post e d hdg ha
    rcases split_snoc e with ⟨_, e1, e2⟩ | ⟨q, _, e2⟩
    · simp at e2
      subst e2; subst e1
      unfold depBlocked at hd
      rw [List.any_eq_false] at hd
      have := hd d hdg
      simp only [Bool.and_eq_true, Bool.not_eq_true', List.contains_eq_mem, decide_eq_true_eq, not_and] at this
      have hk : d ∈ s.results.keys := by
        rw [← Dict.has_iff]
        by_cases hh : s.results.has d = true
        · exact hh
        · exact absurd ha (this (by simpa using hh))
      have := (hb.ends.mem_iff).2 hk
      exact (mem_endsOf _ _).1 this
    · exact h pre g q e2 d hdg ha
  | finish hf hok he =>
    obtain ⟨cs, m, dd, _, _, rfl⟩ := finish_ok he
    exact h.snoc_finished

theorem DepsFirst.steps {T ok s s'} (hb : Base T s) (h : DepsFirst T s.log) (hs : Steps T ok s s') :
    DepsFirst T s'.log := by
  induction hs with
  | refl => exact h
  | tail p hs ih => exact ih.step (hb.steps p) hs

end Verif.Hot
