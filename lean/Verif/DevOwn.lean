import Verif.DevThm
/-!
# The watch mode and the files the builder itself writes among the sources

When a page has inline elements a build writes each of them into a file of the source folder, has it
built, and removes it again (build/html/manips/outline.py:82-135).  The watcher watches that folder
(runners/dev.py:139-141), so these files are reported, too, some time after they were written.

A rebuild is only wanted after an edit (C105).  Here is what becomes of that when the builder's own
files are reported, at whatever moments.
-/
namespace Verif.Dev.Own

/-- The command while it watches: the handler, the reports about the builder's own files which the
watcher has not passed on yet, how many rebuilds were started, how often the user edited a file, and
whether the command ended with an error. -/
structure Watch where
  h : Handler
  queue : List Ev
  starts : Nat
  edits : Nat
  ended : Bool
deriving DecidableEq

/-- When the watch mode begins (runners/dev.py:133-143); the first build is over. -/
def Watch.init : Watch := ⟨.init, [], 0, 0, false⟩

/-- What happens. -/
inductive Act where
  /-- the watcher passes on an edit of the user -/
  | edit (e : Ev)
  /-- the watcher passes on the next report about a file of the builder -/
  | report
  /-- the main loop looks whether to rebuild; `exist` are the files there are -/
  | look (exist : String → Bool)
  /-- the rebuild which is running ends well -/
  | success
  /-- the rebuild which is running raises an exception -/
  | failure (exist : String → Bool)

/-- Whether all files to be read exist: `get_file_signature` (runners/dev.py:247-255) raises an
exception otherwise, which nothing catches. -/
def readable (exist : String → Bool) (fl : Pending) : Bool := fl.changed.all exist && fl.created.all exist

/-- runners/dev.py:144-152 and 191-355.  `own n` are the reports about the files which the rebuild
number `n` writes among the sources and removes.  They wait from the start of the rebuild on, so that
each of them may be passed on while it is running or at any moment later. -/
def step (own : Nat → List Ev) (w : Watch) (a : Act) : Watch :=
  if w.ended then w
  else match a with
    | .edit e => { w with h := Dev.step (fun _ => false) w.h (.ev e), edits := w.edits + 1 }
    | .report =>
      match w.queue with
      | [] => w
      | e :: q => { w with h := Dev.step (fun _ => false) w.h (.ev e), queue := q }
    | .look exist =>
      match w.h.flight, (Dev.step exist w.h .take).flight with
      | none, some fl =>
        if readable exist fl then
          { w with h := Dev.step exist w.h .take, queue := w.queue ++ own w.starts, starts := w.starts + 1 }
        else { w with ended := true }
      | _, _ => w
    | .success => { w with h := Dev.step (fun _ => false) w.h .success }
    | .failure exist => { w with h := Dev.step exist w.h .failure }

/-- A whole session. -/
def run (own : Nat → List Ev) : Watch → List Act → Watch := List.foldl (step own)

/-! ## Specification -/

/-- The report is about the file `p`. -/
def about (p : String) : Ev → Bool
  | .modified q => q == p
  | .created q => q == p
  | .deleted q => q == p
  | .moved q r => q == p || r == p

/-- `p` comes and goes, any number of times: it is created, perhaps written to, and deleted. -/
inductive Episodes (p : String) : List Ev → Prop
  | nil : Episodes p []
  | more (n : Nat) {l : List Ev} : Episodes p l →
      Episodes p (.created p :: (List.replicate n (.modified p) ++ .deleted p :: l))

/-- The reports about files of the builder, in any order: each file comes and goes. -/
def Temporary (temp : String → Bool) (l : List Ev) : Prop :=
  (∀ e ∈ l, ∃ p, temp p = true ∧ (e = .created p ∨ e = .modified p ∨ e = .deleted p)) ∧
  ∀ p, Episodes p (l.filter (about p))

/-- The user does not edit the files of the builder, and these do not exist while the main loop looks
whether to rebuild (no build is running then). -/
def Usual (temp : String → Bool) : Act → Prop
  | .edit e => ∀ p, about p e = true → temp p = false
  | .look exist => ∀ p, temp p = true → exist p = false
  | _ => True

/-- All along the session `P` holds of the state and what happens next. -/
def All (P : Watch → Act → Prop) (own : Nat → List Ev) : Watch → List Act → Prop
  | _, [] => True
  | w, a :: as => P w a ∧ All P own (step own w a) as

/-- When a rebuild fails the watcher has passed on everything about the builder's own files. -/
def Timely (w : Watch) : Act → Prop
  | .failure _ => w.queue = []
  | _ => True

/-! ## Proof -/

/-- Some file of the user is pending. -/
def Left (temp : String → Bool) (x : Pending) : Prop :=
  ∃ p, temp p = false ∧ (p ∈ x.deleted ∨ p ∈ x.changed ∨ p ∈ x.created)

theorem Episodes.append {p : String} {l m : List Ev} (h : Episodes p l) (k : Episodes p m) : Episodes p (l ++ m) := by
  induction h with
  | nil => exact k
  | more n _ ih =>
    have := Episodes.more (p := p) n ih
    simpa using this

/-- How a file of the builder stands: gone, or there and about to go. -/
def Stand (p : String) (x : Pending) (q : List Ev) : Prop :=
  p ∉ x.deleted ∧ p ∉ x.changed ∧
  ((p ∉ x.created ∧ Episodes p q) ∨
   (p ∈ x.created ∧ ∃ n l, q = List.replicate n (.modified p) ++ .deleted p :: l ∧ Episodes p l))

structure Inv (temp : String → Bool) (w : Watch) (fresh : Prop) : Prop where
  own : ∀ e ∈ w.queue, ∃ p, temp p = true ∧ (e = .created p ∨ e = .modified p ∨ e = .deleted p)
  stand : ∀ p, temp p = true → Stand p w.h.pend (w.queue.filter (about p))
  flight : ∀ fl, w.h.flight = some fl → ∀ p, temp p = true → p ∉ fl.deleted ∧ p ∉ fl.changed ∧ p ∉ fl.created
  left : Left temp w.h.pend → fresh ∨ (w.h.unbuildable = true ∧ w.queue = [] ∧ w.h.flight = none)

/-- Events about other files leave a file as it is. -/
theorem onEvent_other {p : String} {e : Ev} (he : about p e = false) (x : Pending) :
    (p ∈ (onEvent e x).deleted ↔ p ∈ x.deleted) ∧ (p ∈ (onEvent e x).changed ↔ p ∈ x.changed) ∧
    (p ∈ (onEvent e x).created ↔ p ∈ x.created) := by
  have hm : ∀ q, q ≠ p → ∀ x : Pending, (p ∈ (onModified q x).deleted ↔ p ∈ x.deleted) ∧
      (p ∈ (onModified q x).changed ↔ p ∈ x.changed) ∧ (p ∈ (onModified q x).created ↔ p ∈ x.created) := by
    intro q hq x
    unfold onModified
    split <;> simp [mem_add, Ne.symm hq]
  have hc : ∀ q, q ≠ p → ∀ x : Pending, (p ∈ (onCreated q x).deleted ↔ p ∈ x.deleted) ∧
      (p ∈ (onCreated q x).changed ↔ p ∈ x.changed) ∧ (p ∈ (onCreated q x).created ↔ p ∈ x.created) := by
    intro q hq x
    unfold onCreated
    split <;> simp [mem_add, mem_rem, Ne.symm hq]
  have hd : ∀ q, q ≠ p → ∀ x : Pending, (p ∈ (onDeleted q x).deleted ↔ p ∈ x.deleted) ∧
      (p ∈ (onDeleted q x).changed ↔ p ∈ x.changed) ∧ (p ∈ (onDeleted q x).created ↔ p ∈ x.created) := by
    intro q hq x
    unfold onDeleted
    split
    · simp [mem_add, mem_rem, Ne.symm hq]
    · split <;> simp [mem_add, mem_rem, Ne.symm hq]
  cases e with
  | modified q => exact hm q (by simpa [about] using he) x
  | created q => exact hc q (by simpa [about] using he) x
  | deleted q => exact hd q (by simpa [about] using he) x
  | moved q r =>
    simp only [about, Bool.or_eq_false_iff, beq_eq_false_iff_ne] at he
    obtain ⟨a1, a2, a3⟩ := hd q he.1 x
    obtain ⟨b1, b2, b3⟩ := hc r he.2 (onDeleted q x)
    exact ⟨b1.trans a1, b2.trans a2, b3.trans a3⟩

theorem stand_congr {p : String} {x y : Pending} {q : List Ev} (h : Stand p x q)
    (hd : p ∈ y.deleted ↔ p ∈ x.deleted) (hc : p ∈ y.changed ↔ p ∈ x.changed) (hr : p ∈ y.created ↔ p ∈ x.created) :
    Stand p y q := by
  unfold Stand at h ⊢
  rw [hd, hc, hr]
  exact h

/-- The next report about a file of the builder. -/
theorem stand_next {p : String} {x : Pending} {e : Ev} {q : List Ev} (h : Stand p x (e :: q)) :
    Stand p (onEvent e x) q := by
  obtain ⟨hd, hc, h⟩ := h
  rcases h with ⟨hr, he⟩ | ⟨hr, n, l, hq, hl⟩
  · cases he with
    | more n hl =>
      refine ⟨?_, ?_, .inr ⟨?_, n, _, rfl, hl⟩⟩ <;> simp [onEvent, onCreated, hd, hc, mem_add]
  · cases n with
    | zero =>
      simp only [List.replicate_zero, List.nil_append, List.cons.injEq] at hq
      obtain ⟨rfl, rfl⟩ := hq
      refine ⟨?_, ?_, .inl ⟨?_, hl⟩⟩ <;> simp [onEvent, onDeleted, hd, hc, hr, mem_rem]
    | succ n =>
      simp only [List.replicate_succ, List.cons_append, List.cons.injEq] at hq
      obtain ⟨rfl, rfl⟩ := hq
      refine ⟨?_, ?_, .inr ⟨?_, n, l, rfl, hl⟩⟩ <;> simp [onEvent, onModified, hd, hc, hr]

theorem left_congr {temp : String → Bool} {e : Ev} (he : ∀ p, temp p = false → about p e = false) {x : Pending}
    (h : Left temp (onEvent e x)) : Left temp x := by
  obtain ⟨p, hp, h⟩ := h
  obtain ⟨a, b, c⟩ := onEvent_other (he p hp) x
  rw [a, b, c] at h
  exact ⟨p, hp, h⟩

/-- What counts as edited since the last start after something happened. -/
def freshly (own : Nat → List Ev) (w : Watch) (a : Act) (fresh : Prop) : Prop :=
  match a with
  | .edit _ => True
  | .look _ => (step own w a).starts = w.starts ∧ fresh
  | _ => fresh

theorem take_some {exist : String → Bool} {h : Handler} {fl : Pending} (hn : h.flight = none)
    (hk : (Dev.step exist h .take).flight = some fl) :
    h.unbuildable = false ∧ fl = h.pend ∧ Dev.step exist h .take = { h with pend := ⟨[], [], []⟩, flight := some h.pend } ∧
    (h.pend.deleted.isEmpty && h.pend.changed.isEmpty && h.pend.created.isEmpty) = false := by
  simp only [Dev.step, hn] at hk ⊢
  by_cases hu : h.unbuildable = true
  · rw [if_pos hu, hn] at hk; cases hk
  · rw [if_neg hu] at hk ⊢
    by_cases he : (h.pend.deleted.isEmpty && h.pend.changed.isEmpty && h.pend.created.isEmpty) = true
    · rw [if_pos he, hn] at hk; cases hk
    · rw [if_neg he] at hk ⊢
      simp only [Option.some.injEq] at hk
      exact ⟨by simpa using hu, hk.symm, rfl, by simpa using he⟩

theorem inv_step {temp : String → Bool} {own : Nat → List Ev} (ho : ∀ n, Temporary temp (own n)) {w : Watch} {fresh : Prop}
    (hi : Inv temp w fresh) {a : Act} (hu : Usual temp a) (ht : Timely w a) (hne : w.ended = false) :
    (step own w a).ended = true ∨ Inv temp (step own w a) (freshly own w a fresh) := by
  cases a with
  | edit e =>
    right
    simp only [step, hne, Bool.false_eq_true, if_false, freshly, Dev.step]
    refine ⟨hi.own, fun p hp => ?_, hi.flight, fun _ => .inl trivial⟩
    have he : about p e = false := by
      cases h : about p e with
      | false => rfl
      | true => rw [hu p h] at hp; cases hp
    obtain ⟨a, b, c⟩ := onEvent_other he w.h.pend
    exact stand_congr (hi.stand p hp) a b c
  | report =>
    right
    cases hq : w.queue with
    | nil =>
      simp only [step, hne, Bool.false_eq_true, if_false, freshly, hq]
      exact hi
    | cons e q =>
      simp only [step, hne, Bool.false_eq_true, if_false, freshly, hq, Dev.step]
      obtain ⟨t, htt, hee⟩ := hi.own e (by simp [hq])
      have hab : ∀ p, about p e = (t == p) := by
        intro p
        rcases hee with rfl | rfl | rfl <;> rfl
      refine ⟨fun e' he' => hi.own e' (by simp [hq, he']), fun p hp => ?_, hi.flight, fun hl => .inl ?_⟩
      · have hs := hi.stand p hp
        rw [hq] at hs
        by_cases hpt : about p e = true
        · rw [List.filter_cons_of_pos hpt] at hs
          exact stand_next hs
        · rw [List.filter_cons_of_neg hpt] at hs
          obtain ⟨a, b, c⟩ := onEvent_other (by simpa using hpt) w.h.pend
          exact stand_congr hs a b c
      · have hl' := left_congr (fun p hp => by
          rw [hab]
          cases h : t == p with
          | false => rfl
          | true =>
            have := eq_of_beq h
            rw [← this, htt] at hp
            cases hp) hl
        rcases hi.left hl' with h | ⟨_, h, _⟩
        · exact h
        · rw [hq] at h; cases h
  | success =>
    right
    simp only [step, hne, Bool.false_eq_true, if_false, freshly, Dev.step]
    cases hf : w.h.flight with
    | none =>
      refine ⟨hi.own, hi.stand, hi.flight, hi.left⟩
    | some fl =>
      refine ⟨hi.own, hi.stand, fun fl' h => by (cases h), fun hl => ?_⟩
      rcases hi.left hl with h | ⟨_, _, h⟩
      · exact .inl h
      · rw [hf] at h; cases h
  | failure exist =>
    right
    simp only [step, hne, Bool.false_eq_true, if_false, freshly, Dev.step]
    cases hf : w.h.flight with
    | none =>
      exact ⟨hi.own, hi.stand, hi.flight, hi.left⟩
    | some fl =>
      refine ⟨hi.own, fun p hp => ?_, fun fl' h => by (cases h), fun _ => .inr ⟨rfl, ht, rfl⟩⟩
      obtain ⟨f1, f2, f3⟩ := hi.flight fl hf p hp
      obtain ⟨m1, m2, m3⟩ := mem_merge exist fl w.h.pend p
      exact stand_congr (hi.stand p hp) (by rw [m3]; simp [f1, f2, f3]) (by rw [m1]; simp [f1, f2]) (by rw [m2]; simp [f1, f2, f3])
  | look exist =>
    cases hf : w.h.flight with
    | some fl =>
      right
      have e : step own w (.look exist) = w := by simp [step, hne, hf]
      simp only [freshly, e, true_and]
      exact hi
    | none =>
      cases hk : (Dev.step exist w.h .take).flight with
      | none =>
        right
        have e : step own w (.look exist) = w := by simp [step, hne, hf, hk]
        simp only [freshly, e, true_and]
        exact hi
      | some fl =>
        by_cases hr : readable exist fl = true
        · right
          have e : step own w (.look exist) =
              { w with h := Dev.step exist w.h .take, queue := w.queue ++ own w.starts, starts := w.starts + 1 } := by
            simp [step, hne, hf, hk, hr]
          obtain ⟨hub, rfl, ht', hne'⟩ := take_some hf hk
          have hno : ∀ p, temp p = true → p ∉ w.h.pend.deleted ∧ p ∉ w.h.pend.changed ∧ p ∉ w.h.pend.created := by
            intro p hp
            obtain ⟨s1, s2, _⟩ := hi.stand p hp
            refine ⟨s1, s2, fun s3 => ?_⟩
            simp only [readable, Bool.and_eq_true, List.all_eq_true] at hr
            have := hr.2 p s3
            rw [hu p hp] at this
            cases this
          rw [e, ht']
          refine ⟨?_, ?_, ?_, ?_⟩
          · intro e' he'
            rcases List.mem_append.1 he' with h | h
            · exact hi.own e' h
            · exact (ho w.starts).1 e' h
          · intro p hp
            refine ⟨by simp, by simp, .inl ⟨by simp, ?_⟩⟩
            show Episodes p (List.filter (about p) (w.queue ++ own w.starts))
            rw [List.filter_append]
            refine Episodes.append ?_ ((ho w.starts).2 p)
            rcases (hi.stand p hp).2.2 with ⟨_, h⟩ | ⟨h, _⟩
            · exact h
            · exact absurd h (hno p hp).2.2
          · intro fl' hfl p hp
            simp only [Option.some.injEq] at hfl
            rw [← hfl]
            exact hno p hp
          · rintro ⟨p, _, h⟩
            simp at h
        · left
          simp [step, hne, hf, hk, hr]

/-- When a rebuild starts something was edited since the last one. -/
theorem start_fresh {temp : String → Bool} {own : Nat → List Ev} {w : Watch} {fresh : Prop}
    (hi : Inv temp w fresh) {a : Act} (hu : Usual temp a) (hne : w.ended = false)
    (hs : (step own w a).starts ≠ w.starts) : fresh ∧ (step own w a).starts = w.starts + 1 := by
  cases a with
  | edit e => simp [step, hne] at hs
  | report =>
    cases hq : w.queue <;> simp [step, hne, hq] at hs
  | success => simp [step, hne] at hs
  | failure exist => simp [step, hne] at hs
  | look exist =>
    cases hf : w.h.flight with
    | some fl => simp [step, hne, hf] at hs
    | none =>
      cases hk : (Dev.step exist w.h .take).flight with
      | none => simp [step, hne, hf, hk] at hs
      | some fl =>
        by_cases hr : readable exist fl = true
        · refine ⟨?_, by simp [step, hne, hf, hk, hr]⟩
          obtain ⟨hub, rfl, ht', hne'⟩ := take_some hf hk
          have hno : ∀ p, temp p = true → p ∉ w.h.pend.deleted ∧ p ∉ w.h.pend.changed ∧ p ∉ w.h.pend.created := by
            intro p hp
            obtain ⟨s1, s2, _⟩ := hi.stand p hp
            refine ⟨s1, s2, fun s3 => ?_⟩
            simp only [readable, Bool.and_eq_true, List.all_eq_true] at hr
            have := hr.2 p s3
            rw [hu p hp] at this
            cases this
          have hl : Left temp w.h.pend := by
            have key : ∀ p, p ∈ w.h.pend.deleted ∨ p ∈ w.h.pend.changed ∨ p ∈ w.h.pend.created → Left temp w.h.pend := by
              intro p hp
              refine ⟨p, ?_, hp⟩
              cases h : temp p with
              | false => rfl
              | true =>
                obtain ⟨a, b, c⟩ := hno p h
                rcases hp with hp | hp | hp
                · exact absurd hp a
                · exact absurd hp b
                · exact absurd hp c
            rcases hd : w.h.pend.deleted with _ | ⟨p, l⟩
            · rcases hc : w.h.pend.changed with _ | ⟨p, l⟩
              · rcases hcr : w.h.pend.created with _ | ⟨p, l⟩
                · simp [hd, hc, hcr] at hne'
                · exact key p (by simp [hcr])
              · exact key p (by simp [hc])
            · exact key p (by simp [hd])
          rcases hi.left hl with h | ⟨h, _, _⟩
          · exact h
          · rw [hub] at h; cases h
        · simp [step, hne, hf, hk, hr] at hs

theorem ended_step {own : Nat → List Ev} {w : Watch} (h : w.ended = true) (a : Act) : step own w a = w := by
  simp [step, h]

theorem ended_run {own : Nat → List Ev} {w : Watch} (h : w.ended = true) : ∀ as : List Act, run own w as = w
  | [] => rfl
  | a :: as => by
    show run own (step own w a) as = w
    rw [ended_step h, ended_run h as]

theorem edits_step {own : Nat → List Ev} {w : Watch} {a : Act} (hne : w.ended = false) :
    (step own w a).edits = w.edits + (match a with | .edit _ => 1 | _ => 0) := by
  cases a with
  | edit e => simp [step, hne]
  | report => cases hq : w.queue <;> simp [step, hne, hq]
  | success => simp [step, hne]
  | failure exist => simp [step, hne]
  | look exist =>
    simp only [step, hne, Bool.false_eq_true, if_false]
    cases hf : w.h.flight with
    | some fl => simp
    | none =>
      cases hk : (Dev.step exist w.h .take).flight with
      | none => simp
      | some fl =>
        by_cases hr : readable exist fl = true <;> simp [hr]

/-- The rebuilds which were started, plus the one which is still owed if something was edited since. -/
structure Bound (temp : String → Bool) (w : Watch) (fresh : Prop) : Prop where
  inv : Inv temp w fresh
  le : w.starts ≤ w.edits
  lt : fresh → w.starts + 1 ≤ w.edits

theorem bound_run {temp : String → Bool} {own : Nat → List Ev} (ho : ∀ n, Temporary temp (own n)) :
    ∀ (as : List Act) (w : Watch) (fresh : Prop), Bound temp w fresh → w.ended = false →
      All (fun _ a => Usual temp a) own w as → All Timely own w as →
      (run own w as).starts ≤ (run own w as).edits
  | [], w, fresh, hb, _, _, _ => hb.le
  | a :: as, w, fresh, hb, hne, hu, ht => by
    show (run own (step own w a) as).starts ≤ (run own (step own w a) as).edits
    have hed := edits_step (own := own) (a := a) hne
    have hle : (step own w a).starts ≤ (step own w a).edits := by
      by_cases hs : (step own w a).starts = w.starts
      · have := hb.le; omega
      · obtain ⟨hf, h1⟩ := start_fresh (own := own) hb.inv hu.1 hne hs
        have := hb.lt hf; omega
    cases hen : (step own w a).ended with
    | true => rw [ended_run hen]; exact hle
    | false =>
      rcases inv_step ho hb.inv hu.1 ht.1 hne with h | h
      · rw [h] at hen; cases hen
      · refine bound_run ho as _ _ ⟨h, hle, fun hfr => ?_⟩ hen hu.2 ht.2
        cases a with
        | edit e =>
          have hs : (step own w (.edit e)).starts = w.starts := by simp [step, hne]
          have := hb.le
          simp only at hed
          omega
        | look exist =>
          obtain ⟨h1, h2⟩ := hfr
          have := hb.lt h2
          omega
        | report =>
          have hs : (step own w .report).starts = w.starts := by
            cases hq : w.queue <;> simp [step, hne, hq]
          have := hb.lt hfr
          omega
        | success =>
          have hs : (step own w .success).starts = w.starts := by simp [step, hne]
          have := hb.lt hfr
          omega
        | failure exist =>
          have hs : (step own w (.failure exist)).starts = w.starts := by simp [step, hne]
          have := hb.lt hfr
          omega

/-- **C105, in part.**  However the rebuilds, the edits and the reports about the builder's own files
follow one another, rebuilds start only after edits: there never were more rebuilds than edits.  What is
missing: reports about the builder's own files which are passed on after a rebuild failed
(`C105_false_failing`). -/
theorem C105_partial {temp : String → Bool} {own : Nat → List Ev} (ho : ∀ n, Temporary temp (own n))
    (as : List Act) (hu : All (fun _ a => Usual temp a) own .init as) (ht : All Timely own .init as) :
    (run own .init as).starts ≤ (run own .init as).edits := by
  refine bound_run ho as .init False ⟨⟨?_, ?_, ?_, ?_⟩, Nat.le_refl 0, False.elim⟩ rfl hu ht
  · intro e he; cases he
  · intro p _
    exact ⟨by simp [Watch.init, Handler.init], by simp [Watch.init, Handler.init],
      .inl ⟨by simp [Watch.init, Handler.init], .nil⟩⟩
  · intro fl hfl; cases hfl
  · rintro ⟨p, _, h⟩
    simp [Watch.init, Handler.init] at h

/-! ## Cases -/

/-- The file an inline script of `index.html` is written to. -/
def inline : String := "/p/src/public/js/gen/index/1.js"
def page : String := "/p/src/public/index.html"
def isInline (p : String) : Bool := p == inline

/-- Each rebuild scans the page and builds it. -/
def inlineOwn (_ : Nat) : List Ev :=
  [.created inline, .modified inline, .deleted inline, .created inline, .modified inline, .deleted inline]

theorem inline_temporary (n : Nat) : Temporary isInline (inlineOwn n) := by
  refine ⟨?_, fun p => ?_⟩
  · intro e he
    refine ⟨inline, by decide, ?_⟩
    simp only [inlineOwn, List.mem_cons, List.not_mem_nil, or_false] at he
    rcases he with rfl | rfl | rfl | rfl | rfl | rfl <;> simp
  · by_cases hp : inline = p
    · subst hp
      have : (inlineOwn n).filter (about inline) =
          .created inline :: (List.replicate 1 (.modified inline) ++ .deleted inline ::
            (.created inline :: (List.replicate 1 (.modified inline) ++ .deleted inline :: []))) := by rfl
      rw [this]
      exact .more 1 (.more 1 .nil)
    · have : (inlineOwn n).filter (about p) = [] := by
        simp [inlineOwn, about, hp]
      rw [this]
      exact .nil

/-- The files of the user. -/
def users (p : String) : Bool := p == page

/-- The page is edited, rebuilt, and edited again while the reports come in; the second rebuild fails,
the page is edited once more and built. -/
def session : List Act :=
  [.edit (.modified page), .look users, .report, .report, .success, .report, .report, .edit (.modified page), .report,
   .report, .look users, .report, .report, .report, .report, .report, .report, .failure users, .look users,
   .edit (.modified page), .look users, .report, .report, .report, .success, .report, .report, .report, .look users]

theorem users_usual : ∀ a ∈ session, Usual isInline a := by
  intro a ha
  have hl : Usual isInline (.look users) := by
    intro p hp
    have : p = inline := by simpa [isInline] using hp
    subst this
    decide
  have he : Usual isInline (.edit (.modified page)) := by
    intro p hp
    have : page = p := by simpa [about] using hp
    subst this
    decide
  simp only [session, List.mem_cons, List.not_mem_nil, or_false] at ha
  rcases ha with rfl | rfl | rfl | rfl | rfl | rfl | rfl | rfl | rfl | rfl | rfl | rfl | rfl | rfl | rfl | rfl | rfl | rfl | rfl |
    rfl | rfl | rfl | rfl | rfl | rfl | rfl | rfl | rfl | rfl <;> first | exact he | exact hl | trivial

theorem all_of_mem {P : Act → Prop} {own : Nat → List Ev} : ∀ (as : List Act) (w : Watch), (∀ a ∈ as, P a) →
    All (fun _ a => P a) own w as
  | [], _, _ => trivial
  | a :: as, w, h => ⟨h a (List.mem_cons_self ..), all_of_mem as _ fun b hb => h b (List.mem_cons_of_mem _ hb)⟩

/-- Three edits, three rebuilds, and at the end nothing is left to do. -/
theorem C105_case : (∀ n, Temporary isInline (inlineOwn n)) ∧ All (fun _ a => Usual isInline a) inlineOwn .init session ∧
    All Timely inlineOwn .init session ∧ (run inlineOwn .init session).starts = 3 ∧ (run inlineOwn .init session).edits = 3 ∧
    (run inlineOwn .init session).h.pend = ⟨[], [], []⟩ ∧ (run inlineOwn .init session).ended = false := by
  refine ⟨inline_temporary, all_of_mem _ _ users_usual, ?_, by decide, by decide, by decide, by decide⟩
  simp only [session, All, Timely, true_and, and_true]
  decide

/-- The page is edited once, and the project cannot be built; the reports about the inline script come
in after each failed rebuild. -/
def stuck : Nat → List Act
  | 0 => [.edit (.modified page)]
  | n + 1 => stuck n ++ [.look users, .failure users, .report, .report, .report, .report, .report, .report]

theorem starts_step (l : List Ev) (w : Watch) (n : Nat) (a : Act) :
    step (fun _ => l) { w with starts := w.starts + n } a =
      { step (fun _ => l) w a with starts := (step (fun _ => l) w a).starts + n } := by
  cases hne : w.ended with
  | true => simp [step, hne]
  | false =>
    cases a with
    | edit e => simp [step, hne]
    | report => cases hq : w.queue <;> simp [step, hne, hq]
    | success => simp [step, hne]
    | failure exist => simp [step, hne]
    | look exist =>
      simp only [step, hne, Bool.false_eq_true, if_false]
      cases hf : w.h.flight with
      | some fl => simp [hne]
      | none =>
        cases hk : (Dev.step exist w.h .take).flight with
        | none => simp [hne]
        | some fl =>
          by_cases hr : readable exist fl = true
          · simp [hr]; omega
          · simp [hr]

theorem starts_run (l : List Ev) : ∀ (as : List Act) (w : Watch) (n : Nat),
    run (fun _ => l) { w with starts := w.starts + n } as =
      { run (fun _ => l) w as with starts := (run (fun _ => l) w as).starts + n }
  | [], _, _ => rfl
  | a :: as, w, n => by
    show run _ (step _ _ a) as = _
    rw [starts_step, starts_run l as]
    rfl

theorem stuck_round : run inlineOwn ⟨⟨⟨[], [page], []⟩, false, none⟩, [], 0, 1, false⟩
    [.look users, .failure users, .report, .report, .report, .report, .report, .report] =
    ⟨⟨⟨[], [page], []⟩, false, none⟩, [], 1, 1, false⟩ := by decide +kernel

theorem stuck_state : ∀ n, run inlineOwn .init (stuck n) = ⟨⟨⟨[], [page], []⟩, false, none⟩, [], n, 1, false⟩
  | 0 => by rfl
  | n + 1 => by
    rw [stuck, run, List.foldl_append]
    have := stuck_state n
    rw [run] at this
    rw [this]
    have h := starts_run (inlineOwn 0) [.look users, .failure users, .report, .report, .report, .report, .report, .report]
      ⟨⟨⟨[], [page], []⟩, false, none⟩, [], 0, 1, false⟩ n
    have h1 := stuck_round
    rw [show (fun _ => inlineOwn 0) = inlineOwn from rfl, h1] at h
    simp only [Nat.zero_add] at h
    rw [run] at h
    rw [h, Nat.add_comm]

/-- **C105 is false of projects with inline elements which cannot be built.**  After one edit rebuilds
are started again and again, without end, as the reports about the files which the failed rebuild wrote
and removed count as changes. -/
theorem C105_false_failing (n : Nat) : (∀ k, Temporary isInline (inlineOwn k)) ∧
    All (fun _ a => Usual isInline a) inlineOwn .init (stuck n) ∧
    (run inlineOwn .init (stuck n)).edits = 1 ∧ (run inlineOwn .init (stuck n)).starts = n := by
  refine ⟨inline_temporary, all_of_mem _ _ ?_, by rw [stuck_state], by rw [stuck_state]⟩
  intro a ha
  have hs : a ∈ session ∨ a = .failure users := by
    induction n with
    | zero =>
      simp only [stuck, List.mem_cons, List.not_mem_nil, or_false] at ha
      subst ha
      exact .inl (by simp [session])
    | succ n ih =>
      rcases List.mem_append.1 ha with h | h
      · exact ih h
      · simp only [List.mem_cons, List.not_mem_nil, or_false] at h
        rcases h with rfl | rfl | rfl | rfl | rfl | rfl | rfl | rfl <;> simp [session]
  rcases hs with h | rfl
  · exact users_usual a h
  · trivial

/-- **The watch mode can end without having been stopped**: the rebuild is over, and the main loop looks
after the report that the inline script was created and before the one that it was deleted.  The file
is gone, and the attempt to read it ends the command. -/
theorem C105_false_ended : ∃ as : List Act, All (fun _ a => Usual isInline a) inlineOwn .init as ∧
    All Timely inlineOwn .init as ∧ (run inlineOwn .init as).edits = 1 ∧ (run inlineOwn .init as).ended = true := by
  refine ⟨[.edit (.modified page), .look users, .success, .report, .look users], all_of_mem _ _ ?_, ?_, by decide, by decide⟩
  · intro a ha
    refine users_usual a ?_
    simp only [List.mem_cons, List.not_mem_nil, or_false] at ha
    rcases ha with rfl | rfl | rfl | rfl | rfl <;> simp [session]
  · simp [All, Timely]

end Verif.Dev.Own
