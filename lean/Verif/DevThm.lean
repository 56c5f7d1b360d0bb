import Verif.Dev
/-! # The watch mode: C23, C58 -/
namespace Verif.Dev

theorem mem_add {p q : String} {l : List String} : q ∈ add p l ↔ q = p ∨ q ∈ l := by
  unfold add
  split
  · constructor
    · exact Or.inr
    · rintro (rfl | h)
      · assumption
      · exact h
  · simp

theorem mem_rem {p q : String} {l : List String} : q ∈ rem p l ↔ q ∈ l ∧ q ≠ p := by simp [rem]

/-! ## Specification: what really happens to the files

`seen` are the files which were there when the last successful build took its changes, `now` those
which are there, and `touched` those to which something happened in between.  Nothing here mentions
the handler's sets. -/

/-- What happened since some earlier point: the files which were there then, are there now, and were
touched. -/
structure Span where
  seen : String → Bool
  now : String → Bool
  touched : String → Bool

/-- The same function with another value at one place. -/
def put (f : String → Bool) (p : String) (b : Bool) : String → Bool := fun q => if q = p then b else f q

/-- What an event does to the files. -/
def Span.event (s : Span) : Ev → Span
  | .modified p => { s with touched := put s.touched p true }
  | .created p => { s with now := put s.now p true, touched := put s.touched p true }
  | .deleted p => { s with now := put s.now p false, touched := put s.touched p true }
  | .moved a b => { s with
      now := put (put s.now a false) b true,
      touched := put (put s.touched a true) b true }

/-- The events which can occur: a file is modified, deleted or moved if it is there, and created if it
is not. -/
def Possible (now : String → Bool) : Ev → Prop
  | .modified p => now p = true
  | .created p => now p = false
  | .deleted p => now p = true
  | .moved a b => now a = true ∧ a ≠ b

/-- The file is moved over one which is there. -/
def Overwrites (now : String → Bool) : Ev → Prop
  | .moved _ b => now b = true
  | _ => False

/-- The pending files are exactly the right ones. -/
def Exact (s : Span) (x : Pending) : Prop :=
  ∀ p, (p ∈ x.created ↔ (s.seen p = false ∧ s.now p = true)) ∧
       (p ∈ x.deleted ↔ (s.seen p = true ∧ s.now p = false)) ∧
       (p ∈ x.changed ↔ (s.seen p = true ∧ s.now p = true ∧ s.touched p = true))

/-- The history of a watch session: the handler, what happened since the last successful build, and,
while a rebuild runs, what happened since that rebuild took its files. -/
structure World where
  h : Handler
  since : Span
  during : Option Span

/-- Nothing happened yet. -/
def Span.fresh (now : String → Bool) : Span := ⟨now, now, fun _ => false⟩

/-- The start of the watch session, after a successful build. -/
def World.init (files : String → Bool) : World := ⟨Handler.init, Span.fresh files, none⟩

/-- One action, for the handler and for the files.  A successful rebuild has seen the files of the time
at which it took its changes. -/
def World.step (w : World) (a : Act) : World :=
  match a with
  | .ev e => ⟨Dev.step w.since.now w.h a, w.since.event e, w.during.map (·.event e)⟩
  | .take =>
    ⟨Dev.step w.since.now w.h a, w.since,
      match w.during with
      | some s => some s
      | none => if (Dev.step w.since.now w.h a).flight.isSome then some (Span.fresh w.since.now) else none⟩
  | .success =>
    match w.during with
    | some s => ⟨Dev.step w.since.now w.h a, s, none⟩
    | none => w
  | .failure =>
    match w.during with
    | some _ => ⟨Dev.step w.since.now w.h a, w.since, none⟩
    | none => w

/-- The histories for which the property is proved.  Left out: a file moved over an existing one, and,
while a rebuild which then fails is running, events for files it was given as created or deleted. -/
def Good (w : World) : Act → Prop
  | .ev e => Possible w.since.now e ∧ ¬ Overwrites w.since.now e
  | .failure => ∀ s fl, w.during = some s → w.h.flight = some fl →
      ∀ p, s.touched p = true → p ∉ fl.created ∧ p ∉ fl.deleted
  | _ => True

/-- All histories which can really occur. -/
def Real (w : World) : Act → Prop
  | .ev e => Possible w.since.now e
  | _ => True

/-- The worlds reached by actions satisfying `ok`. -/
inductive Reach (ok : World → Act → Prop) (files : String → Bool) : World → Prop
  | init : Reach ok files (World.init files)
  | step (w : World) (a : Act) : Reach ok files w → ok w a → Reach ok files (w.step a)

/-! ## Proofs -/

theorem onDeleted_exact {s : Span} {x : Pending} (h : Exact s x) {p : String} (hp : s.now p = true) :
    Exact { s with now := put s.now p false, touched := put s.touched p true } (onDeleted p x) := by
  intro q
  obtain ⟨h1, h2, h3⟩ := h p
  obtain ⟨g1, g2, g3⟩ := h q
  unfold onDeleted
  by_cases e : q = p
  · subst e
    by_cases hs : s.seen q = true
    · split
      · simp [put, mem_add, mem_rem, hs, g1]
      · split
        · simp_all
        · next hc _ => simp [put, mem_add, hs, g1, hc]
    · have hs' : s.seen q = false := by simpa using hs
      split
      · simp_all
      · split
        · simp [put, mem_rem, hs', g2, *]
        · simp_all
  · split
    · simp [put, mem_add, mem_rem, e, g1, g2, g3]
    · split
      · simp [put, mem_rem, e, g1, g2, g3]
      · simp [put, mem_add, e, g1, g2, g3]

theorem onCreated_exact {s : Span} {x : Pending} (h : Exact s x) {p : String} (hp : s.now p = false) :
    Exact { s with now := put s.now p true, touched := put s.touched p true } (onCreated p x) := by
  intro q
  obtain ⟨h1, h2, h3⟩ := h p
  obtain ⟨g1, g2, g3⟩ := h q
  unfold onCreated
  by_cases e : q = p
  · subst e
    by_cases hs : s.seen q = true
    · split
      · simp [put, mem_add, mem_rem, hs, g1]
      · simp_all
    · have hs' : s.seen q = false := by simpa using hs
      split
      · simp_all
      · simp [put, mem_add, hs', g3, *]
  · split
    · simp [put, mem_add, mem_rem, e, g1, g2, g3]
    · simp [put, mem_add, e, g1, g2, g3]

theorem onModified_exact {s : Span} {x : Pending} (h : Exact s x) {p : String} (hp : s.now p = true) :
    Exact { s with touched := put s.touched p true } (onModified p x) := by
  intro q
  obtain ⟨h1, h2, h3⟩ := h p
  obtain ⟨g1, g2, g3⟩ := h q
  unfold onModified
  by_cases e : q = p
  · subst e
    by_cases hs : s.seen q = true
    · split
      · simp_all
      · simp [put, mem_add, hs, g1, g2, hp]
    · have hs' : s.seen q = false := by simpa using hs
      split
      · simp [put, hs', g1, g2, g3]
      · simp_all
  · split
    · simp [put, e, g1, g2, g3]
    · simp [put, mem_add, e, g1, g2, g3]

theorem event_exact {s : Span} {x : Pending} (h : Exact s x) {e : Ev} (hp : Possible s.now e)
    (ho : ¬ Overwrites s.now e) : Exact (s.event e) (onEvent e x) := by
  cases e with
  | modified p => exact onModified_exact h hp
  | created p => exact onCreated_exact h hp
  | deleted p => exact onDeleted_exact h hp
  | moved a b =>
    have hb : s.now b = false := by simpa [Overwrites] using ho
    have := onCreated_exact (onDeleted_exact h hp.1) (p := b) (by simp [put, hp.2.symm, hb])
    exact this

theorem fresh_exact (now : String → Bool) : Exact (Span.fresh now) ⟨[], [], []⟩ := by
  intro p
  simp only [Span.fresh, List.not_mem_nil, false_iff]
  cases now p <;> simp

/-- Membership after `mergeChanged`. -/
theorem mem_mergeChanged (exist : String → Bool) : ∀ (l : List String) (s : Pending) (p : String),
    (p ∈ (mergeChanged exist l s).created ↔ p ∈ s.created) ∧
    (p ∈ (mergeChanged exist l s).deleted ↔ p ∈ s.deleted ∧ ¬ (p ∈ l ∧ exist p = true)) ∧
    (p ∈ (mergeChanged exist l s).changed ↔ p ∈ s.changed ∨ (p ∈ l ∧ exist p = true ∧ p ∉ s.created)) := by
  intro l
  induction l with
  | nil => intro s p; simp [mergeChanged]
  | cons f fs ih =>
    intro s p
    unfold mergeChanged
    split
    · next he =>
      dsimp only
      obtain ⟨i1, i2, i3⟩ := ih (if f ∈ (if f ∈ s.created then s else { s with changed := add f s.changed }).deleted
        then { (if f ∈ s.created then s else { s with changed := add f s.changed }) with
          deleted := rem f (if f ∈ s.created then s else { s with changed := add f s.changed }).deleted }
        else (if f ∈ s.created then s else { s with changed := add f s.changed })) p
      rw [i1, i2, i3]
      clear i1 i2 i3 ih
      by_cases hc : f ∈ s.created <;> by_cases hd : f ∈ s.deleted <;> by_cases e : p = f <;>
        simp_all [mem_add, mem_rem]
    · next he =>
      obtain ⟨i1, i2, i3⟩ := ih s p
      rw [i1, i2, i3]
      by_cases e : p = f <;> simp_all

theorem mem_mergeCreated (exist : String → Bool) : ∀ (l : List String) (s : Pending) (p : String),
    (p ∈ (mergeCreated exist l s).changed ↔ p ∈ s.changed) ∧
    (p ∈ (mergeCreated exist l s).deleted ↔ p ∈ s.deleted ∧ ¬ (p ∈ l ∧ exist p = true)) ∧
    (p ∈ (mergeCreated exist l s).created ↔ p ∈ s.created ∨ (p ∈ l ∧ exist p = true ∧ p ∉ s.changed)) := by
  intro l
  induction l with
  | nil => intro s p; simp [mergeCreated]
  | cons f fs ih =>
    intro s p
    unfold mergeCreated
    split
    · next he =>
      dsimp only
      obtain ⟨i1, i2, i3⟩ := ih (if f ∈ (if f ∈ s.changed then s else { s with created := add f s.created }).deleted
        then { (if f ∈ s.changed then s else { s with created := add f s.created }) with
          deleted := rem f (if f ∈ s.changed then s else { s with created := add f s.created }).deleted }
        else (if f ∈ s.changed then s else { s with created := add f s.created })) p
      rw [i1, i2, i3]
      clear i1 i2 i3 ih
      by_cases hc : f ∈ s.changed <;> by_cases hd : f ∈ s.deleted <;> by_cases e : p = f <;>
        simp_all [mem_add, mem_rem]
    · next he =>
      obtain ⟨i1, i2, i3⟩ := ih s p
      rw [i1, i2, i3]
      by_cases e : p = f <;> simp_all

theorem mem_mergeDeleted (exist : String → Bool) : ∀ (l : List String) (s : Pending) (p : String),
    (p ∈ (mergeDeleted exist l s).changed ↔ p ∈ s.changed ∧ ¬ (p ∈ l ∧ exist p = false)) ∧
    (p ∈ (mergeDeleted exist l s).created ↔ p ∈ s.created ∧ ¬ (p ∈ l ∧ exist p = false)) ∧
    (p ∈ (mergeDeleted exist l s).deleted ↔ p ∈ s.deleted ∨ (p ∈ l ∧ exist p = false)) := by
  intro l
  induction l with
  | nil => intro s p; simp [mergeDeleted]
  | cons f fs ih =>
    intro s p
    unfold mergeDeleted
    split
    · next he =>
      obtain ⟨i1, i2, i3⟩ := ih s p
      rw [i1, i2, i3]
      by_cases e : p = f <;> simp_all
    · next he =>
      dsimp only
      obtain ⟨i1, i2, i3⟩ := ih { (if f ∈ (if f ∈ s.changed then { s with changed := rem f s.changed } else s).created
          then { (if f ∈ s.changed then { s with changed := rem f s.changed } else s) with
            created := rem f (if f ∈ s.changed then { s with changed := rem f s.changed } else s).created }
          else (if f ∈ s.changed then { s with changed := rem f s.changed } else s)) with
        deleted := add f (if f ∈ (if f ∈ s.changed then { s with changed := rem f s.changed } else s).created
          then { (if f ∈ s.changed then { s with changed := rem f s.changed } else s) with
            created := rem f (if f ∈ s.changed then { s with changed := rem f s.changed } else s).created }
          else (if f ∈ s.changed then { s with changed := rem f s.changed } else s)).deleted } p
      rw [i1, i2, i3]
      clear i1 i2 i3 ih
      by_cases hc : f ∈ s.changed <;> by_cases hd : f ∈ s.created <;> by_cases e : p = f <;>
        simp_all [mem_add, mem_rem]

/-- What is pending after a failed rebuild, in terms of the files it had taken and those which became
pending meanwhile. -/
theorem mem_merge (exist : String → Bool) (fl s : Pending) (p : String) :
    (p ∈ (merge exist fl s).changed ↔
      (p ∈ s.changed ∨ (p ∈ fl.changed ∧ exist p = true ∧ p ∉ s.created)) ∧ ¬ (p ∈ fl.deleted ∧ exist p = false)) ∧
    (p ∈ (merge exist fl s).created ↔
      (p ∈ s.created ∨ (p ∈ fl.created ∧ exist p = true ∧
        ¬ (p ∈ s.changed ∨ (p ∈ fl.changed ∧ exist p = true ∧ p ∉ s.created)))) ∧
      ¬ (p ∈ fl.deleted ∧ exist p = false)) ∧
    (p ∈ (merge exist fl s).deleted ↔
      ((p ∈ s.deleted ∧ ¬ (p ∈ fl.changed ∧ exist p = true)) ∧ ¬ (p ∈ fl.created ∧ exist p = true)) ∨
      (p ∈ fl.deleted ∧ exist p = false)) := by
  unfold merge
  obtain ⟨a1, a2, a3⟩ := mem_mergeDeleted exist fl.deleted (mergeCreated exist fl.created (mergeChanged exist fl.changed s)) p
  obtain ⟨b1, b2, b3⟩ := mem_mergeCreated exist fl.created (mergeChanged exist fl.changed s) p
  obtain ⟨c1, c2, c3⟩ := mem_mergeChanged exist fl.changed s p
  rw [a1, a2, a3, b1, b2, b3, c1, c2, c3]
  exact ⟨Iff.rfl, Iff.rfl, Iff.rfl⟩

/-- The invariant. -/
def WInv (w : World) : Prop :=
  match w.during, w.h.flight with
  | none, none => Exact w.since w.h.pend
  | some s, some fl =>
    s.now = w.since.now ∧ Exact s w.h.pend ∧
    -- what the running rebuild was given is right for the files of that time, which are `s.seen`
    ∃ t : String → Bool, Exact ⟨w.since.seen, s.seen, t⟩ fl ∧
      ∀ p, w.since.touched p = (t p || s.touched p) ∧ (s.touched p = false → s.seen p = s.now p)
  | _, _ => False

theorem event_now_congr (s t : Span) (e : Ev) (h : s.now = t.now) : (s.event e).now = (t.event e).now := by
  cases e <;> simp [Span.event, h]

theorem winv_init (files : String → Bool) : WInv (World.init files) := fresh_exact files

theorem winv_step {w : World} {a : Act} (h : WInv w) (hg : Good w a) : WInv (w.step a) := by
  obtain ⟨⟨pend, unb, flight⟩, since, during⟩ := w
  unfold WInv at h
  dsimp only at h
  cases a with
  | ev e =>
    obtain ⟨hp, ho⟩ := hg
    cases during with
    | none =>
      cases flight with
      | none => exact event_exact h hp ho
      | some fl => exact h.elim
    | some s =>
      cases flight with
      | none => exact h.elim
      | some fl =>
        obtain ⟨h1, h2, t, h3, h4⟩ := h
        dsimp only at hp ho h1 h4
        refine ⟨event_now_congr s since e h1, event_exact h2 (h1 ▸ hp) (h1 ▸ ho), t, ?_, ?_⟩
        · cases e <;> exact h3
        · intro p
          obtain ⟨k1, k2⟩ := h4 p
          cases e with
          | modified q => by_cases e : p = q <;> simp [World.step, Span.event, put, e, k1] <;> exact k2
          | created q => by_cases e : p = q <;> simp [World.step, Span.event, put, e, k1] <;> exact k2
          | deleted q => by_cases e : p = q <;> simp [World.step, Span.event, put, e, k1] <;> exact k2
          | moved a b =>
            by_cases e : p = b
            · simp [World.step, Span.event, put, e]
            · by_cases e' : p = a <;> simp [World.step, Span.event, put, e, e', k1] <;> exact k2
  | take =>
    cases during with
    | none =>
      cases flight with
      | some fl => exact h.elim
      | none =>
        simp only [World.step, Dev.step]
        cases unb with
        | true => exact h
        | false =>
          simp only [Bool.false_eq_true, if_false]
          split
          · exact h
          · refine ⟨rfl, fresh_exact _, since.touched, h, fun p => ⟨?_, fun _ => rfl⟩⟩
            simp [Span.fresh]
    | some s =>
      cases flight with
      | none => exact h.elim
      | some fl => exact h
  | success =>
    cases during with
    | none => exact h
    | some s =>
      cases flight with
      | none => exact h.elim
      | some fl => exact h.2.1
  | failure =>
    cases during with
    | none => exact h
    | some s =>
      cases flight with
      | none => exact h.elim
      | some fl =>
        obtain ⟨h1, h2, t, h3, h4⟩ := h
        have hg' := hg s fl rfl rfl
        intro p
        obtain ⟨m1, m2, m3⟩ := mem_merge since.now fl pend p
        obtain ⟨e1, e2, e3⟩ := h2 p
        obtain ⟨f1, f2, f3⟩ := h3 p
        obtain ⟨k1, k2⟩ := h4 p
        have hgp := hg' p
        dsimp only at m1 m2 m3 e1 e2 e3 f1 f2 f3 k1 k2 hgp ⊢
        simp only [World.step, Dev.step]
        rw [m1, m2, m3, e1, e2, e3, f1, f2, f3, k1, ← h1]
        rw [f1, f2] at hgp
        clear m1 m2 m3 e1 e2 e3 f1 f2 f3 k1 hg hg' h2 h3 h4
        cases hA : since.seen p <;> cases hB : s.seen p <;> cases hC : s.now p <;> cases hD : s.touched p <;>
          cases hE : t p <;> simp_all

theorem reach_winv {files : String → Bool} {w : World} (h : Reach Good files w) : WInv w := by
  induction h with
  | init => exact winv_init files
  | step w a _ hg ih => exact winv_step ih hg

/-- **C23, partial.** In every history in which no file is moved over an existing one and in which,
during rebuilds which fail, nothing happens to the files they were given as created or deleted:
whenever no rebuild is running, a file is pending as created iff it was not there at the last
successful build and is now, as deleted iff it was and is not, and as changed iff it was and is and
something happened to it. Missing: the histories left out, for which it is false. -/
theorem C23_pending_partial (files : String → Bool) (w : World) (h : Reach Good files w)
    (hidle : w.h.flight = none) (p : String) :
    (p ∈ w.h.pend.created ↔ (w.since.seen p = false ∧ w.since.now p = true)) ∧
    (p ∈ w.h.pend.deleted ↔ (w.since.seen p = true ∧ w.since.now p = false)) ∧
    (p ∈ w.h.pend.changed ↔ (w.since.seen p = true ∧ w.since.now p = true ∧ w.since.touched p = true)) := by
  have := reach_winv h
  unfold WInv at this
  rw [hidle] at this
  cases hd : w.during with
  | none => rw [hd] at this; exact this p
  | some s => rw [hd] at this; exact this.elim

/-- **C23, partial.** The three kinds are disjoint, also while a rebuild runs. -/
theorem C23_disjoint_partial (files : String → Bool) (w : World) (h : Reach Good files w) (p : String) :
    ¬ (p ∈ w.h.pend.created ∧ p ∈ w.h.pend.deleted) ∧ ¬ (p ∈ w.h.pend.created ∧ p ∈ w.h.pend.changed) ∧
    ¬ (p ∈ w.h.pend.deleted ∧ p ∈ w.h.pend.changed) := by
  have hx : ∃ s, Exact s w.h.pend := by
    have := reach_winv h
    unfold WInv at this
    split at this
    · exact ⟨_, this⟩
    · exact ⟨_, this.2.1⟩
    · exact this.elim
  obtain ⟨s, hs⟩ := hx
  obtain ⟨h1, h2, h3⟩ := hs p
  rw [h1, h2, h3]
  clear h1 h2 h3 hs
  cases s.seen p <;> cases s.now p <;> simp

/-- **C23, partial.** A rebuild is given exactly the files which differ from those of the last
successful build, as of the time at which it took them: when it starts, its files are those just
described. -/
theorem C23_given_partial (files : String → Bool) (w : World) (h : Reach Good files w) (hidle : w.h.flight = none)
    (fl : Pending) (hf : (w.step .take).h.flight = some fl) (p : String) :
    (p ∈ fl.created ↔ (w.since.seen p = false ∧ w.since.now p = true)) ∧
    (p ∈ fl.deleted ↔ (w.since.seen p = true ∧ w.since.now p = false)) ∧
    (p ∈ fl.changed ↔ (w.since.seen p = true ∧ w.since.now p = true ∧ w.since.touched p = true)) := by
  have hp := C23_pending_partial files w h hidle p
  simp only [World.step, Dev.step, hidle] at hf
  split at hf
  · rw [hidle] at hf; cases hf
  · split at hf
    · rw [hidle] at hf; cases hf
    · simp only [Option.some.injEq] at hf
      subst hf
      exact hp

/-! ## Concrete histories -/

/-- The histories as lists. -/
def World.run (w : World) (as : List Act) : World := as.foldl World.step w

/-- `a` and `b` were built. -/
def exFiles : String → Bool := fun p => p == "a" || p == "b"

/-- `a` is edited, `c` appears, `b` is renamed to `d`, a rebuild fails, then `c` goes again. -/
def exActs : List Act :=
  [.ev (.modified "a"), .ev (.created "c"), .ev (.moved "b" "d"), .take, .ev (.modified "a"), .failure, .ev (.deleted "c")]

theorem reach_run {ok : World → Act → Prop} {files : String → Bool} : ∀ (as : List Act) {w : World}, Reach ok files w →
    (∀ k, (hk : k < as.length) → ok (w.run (as.take k)) as[k]) → Reach ok files (w.run as) := by
  intro as
  induction as with
  | nil => intro w h _; exact h
  | cons a as ih =>
    intro w h hk
    refine ih (Reach.step w a h (hk 0 (by simp))) (fun k hk' => ?_)
    exact hk (k + 1) (by simpa using hk')

theorem ex_reach : Reach Good exFiles ((World.init exFiles).run exActs) := by
  refine reach_run exActs Reach.init (fun k hk => ?_)
  simp only [exActs, List.length_cons, List.length_nil] at hk
  match k with
  | 0 => exact ⟨by show _ = _; decide, by simp [Overwrites]⟩
  | 1 => exact ⟨by show _ = _; decide, by simp [Overwrites]⟩
  | 2 => exact ⟨⟨by decide, by decide⟩, by show ¬ (_ = true); decide⟩
  | 3 => trivial
  | 4 => exact ⟨by show _ = _; decide, by simp [Overwrites]⟩
  | 5 =>
    intro s fl hs hf p hp
    have hs' : s = (Span.fresh ((World.init exFiles).run (exActs.take 3)).since.now).event (.modified "a") := by
      cases hs; rfl
    have hf' : fl = ⟨["b"], ["a"], ["d", "c"]⟩ := by
      have : ((World.init exFiles).run (exActs.take 5)).h.flight = some ⟨["b"], ["a"], ["d", "c"]⟩ := by decide
      rw [this] at hf
      cases hf
      rfl
    subst hs'
    subst hf'
    have : p = "a" := by
      by_cases e : p = "a"
      · exact e
      · simp [Span.event, Span.fresh, put, e] at hp
    subst this
    decide
  | 6 => exact ⟨by show _ = _; decide, by simp [Overwrites]⟩
  | k + 7 => exact absurd hk (by omega)

example : ((World.init exFiles).run exActs).h.pend = ⟨["b"], ["a"], ["d"]⟩ := by decide

/-- A temporary file is moved over `a`, which then is deleted. -/
def exOver : List Act := [.ev (.created "tmp"), .ev (.moved "tmp" "a")]

/-- **C23 is false when a file is moved over an existing one** (the way many editors save): the file is
pending as created although it was there at the last successful build; and when it is deleted
afterwards nothing is pending, although it is gone. -/
theorem C23_false_move_over :
    Reach Real exFiles ((World.init exFiles).run exOver) ∧
    ((World.init exFiles).run exOver).since.seen "a" = true ∧
    "a" ∈ ((World.init exFiles).run exOver).h.pend.created ∧
    Reach Real exFiles ((World.init exFiles).run (exOver ++ [.ev (.deleted "a")])) ∧
    ((World.init exFiles).run (exOver ++ [.ev (.deleted "a")])).since.seen "a" = true ∧
    ((World.init exFiles).run (exOver ++ [.ev (.deleted "a")])).since.now "a" = false ∧
    ((World.init exFiles).run (exOver ++ [.ev (.deleted "a")])).h.pend = ⟨[], [], []⟩ := by
  refine ⟨?_, by decide, by decide, ?_, by decide, by decide, by decide⟩
  · refine reach_run exOver Reach.init (fun k hk => ?_)
    simp only [exOver, List.length_cons, List.length_nil] at hk
    match k with
    | 0 => show _ = false; decide
    | 1 => exact ⟨by decide, by decide⟩
    | k + 2 => exact absurd hk (by omega)
  · refine reach_run (exOver ++ [.ev (.deleted "a")]) Reach.init (fun k hk => ?_)
    simp only [exOver, List.length_append, List.length_cons, List.length_nil] at hk
    match k with
    | 0 => show _ = false; decide
    | 1 => exact ⟨by decide, by decide⟩
    | 2 => show _ = true; decide
    | k + 3 => exact absurd hk (by omega)

/-- Two ways for something to happen during a rebuild which fails. -/
def exFail1 : List Act := [.ev (.created "c"), .take, .ev (.deleted "c"), .failure]
def exFail2 : List Act := [.ev (.deleted "a"), .take, .ev (.created "a"), .failure]

/-- **C23 is false after failed rebuilds**: a file which was created and, during the failing rebuild,
deleted is pending as deleted although no build ever saw it; one which was deleted and came back is
pending as created although it was there at the last successful build. -/
theorem C23_false_failure :
    Reach Real exFiles ((World.init exFiles).run exFail1) ∧
    ((World.init exFiles).run exFail1).since.seen "c" = false ∧
    "c" ∈ ((World.init exFiles).run exFail1).h.pend.deleted ∧
    Reach Real exFiles ((World.init exFiles).run exFail2) ∧
    ((World.init exFiles).run exFail2).since.seen "a" = true ∧
    "a" ∈ ((World.init exFiles).run exFail2).h.pend.created := by
  refine ⟨?_, by decide, by decide, ?_, by decide, by decide⟩
  · refine reach_run exFail1 Reach.init (fun k hk => ?_)
    simp only [exFail1, List.length_cons, List.length_nil] at hk
    match k with
    | 0 => show _ = false; decide
    | 1 => trivial
    | 2 => show _ = true; decide
    | 3 => trivial
    | k + 4 => exact absurd hk (by omega)
  · refine reach_run exFail2 Reach.init (fun k hk => ?_)
    simp only [exFail2, List.length_cons, List.length_nil] at hk
    match k with
    | 0 => show _ = true; decide
    | 1 => trivial
    | 2 => show _ = false; decide
    | 3 => trivial
    | k + 4 => exact absurd hk (by omega)

/-- **C23 is false when a changed file is moved over**: it is pending both as changed and as created; and
when it is deleted afterwards it is pending as created although it is gone, so that reading its
signature (line 253) ends the watch mode. -/
theorem C23_false_vanished :
    let as : List Act := [.ev (.modified "a"), .ev (.created "tmp"), .ev (.moved "tmp" "a"), .ev (.deleted "a")]
    Reach Real exFiles ((World.init exFiles).run as) ∧
    "a" ∈ ((World.init exFiles).run (as.take 3)).h.pend.created ∧
    "a" ∈ ((World.init exFiles).run (as.take 3)).h.pend.changed ∧
    "a" ∈ ((World.init exFiles).run as).h.pend.created ∧
    ((World.init exFiles).run as).since.now "a" = false := by
  refine ⟨?_, by decide, by decide, by decide, by decide⟩
  refine reach_run _ Reach.init (fun k hk => ?_)
  simp only [List.length_cons, List.length_nil] at hk
  match k with
  | 0 => show _ = true; decide
  | 1 => show _ = false; decide
  | 2 => exact ⟨by decide, by decide⟩
  | 3 => show _ = true; decide
  | k + 4 => exact absurd hk (by omega)

/-! ## What holds in every history -/

/-- Files which are there and to which something happened are pending. -/
def Covers (s : Span) (x : Pending) : Prop :=
  ∀ p, s.now p = true → s.touched p = true → p ∈ x.created ∨ p ∈ x.changed

theorem onDeleted_covers {s : Span} {x : Pending} (h : Covers s x) (p : String) :
    Covers { s with now := put s.now p false, touched := put s.touched p true } (onDeleted p x) := by
  intro q h1 h2
  by_cases e : q = p
  · simp [put, e] at h1
  · simp only [put, e, if_false] at h1 h2
    have := h q h1 h2
    unfold onDeleted
    split
    · simpa [mem_rem, e] using this
    · split
      · simpa [mem_rem, e] using this
      · exact this

theorem onCreated_covers {s : Span} {x : Pending} (h : Covers s x) (p : String) :
    Covers { s with now := put s.now p true, touched := put s.touched p true } (onCreated p x) := by
  intro q h1 h2
  by_cases e : q = p
  · unfold onCreated
    split <;> simp [mem_add, e]
  · simp only [put, e, if_false] at h1 h2
    have := h q h1 h2
    unfold onCreated
    split <;> simpa [mem_add, e] using this

theorem event_covers {s : Span} {x : Pending} (h : Covers s x) (e : Ev) : Covers (s.event e) (onEvent e x) := by
  cases e with
  | created p => exact onCreated_covers h p
  | deleted p => exact onDeleted_covers h p
  | moved a b => exact onCreated_covers (onDeleted_covers h a) b
  | modified p =>
    intro q h1 h2
    simp only [Span.event] at h1 h2
    by_cases e : q = p
    · subst e
      simp only [onEvent, onModified]
      split
      · exact Or.inl (by assumption)
      · exact Or.inr (mem_add.2 (Or.inl rfl))
    · simp only [put, e, if_false] at h2
      have := h q h1 h2
      simp only [onEvent, onModified]
      split
      · exact this
      · simpa [mem_add, e] using this

/-- The invariant for every history. -/
def CInv (w : World) : Prop :=
  match w.during, w.h.flight with
  | none, none => Covers w.since w.h.pend
  | some s, some fl =>
    s.now = w.since.now ∧ Covers s w.h.pend ∧
    ∃ t : String → Bool, Covers ⟨w.since.seen, s.seen, t⟩ fl ∧
      ∀ p, w.since.touched p = (t p || s.touched p) ∧ (s.touched p = false → s.seen p = s.now p)
  | _, _ => False

theorem cinv_step {w : World} {a : Act} (h : CInv w) : CInv (w.step a) := by
  obtain ⟨⟨pend, unb, flight⟩, since, during⟩ := w
  unfold CInv at h
  dsimp only at h
  cases a with
  | ev e =>
    cases during with
    | none =>
      cases flight with
      | none => exact event_covers h e
      | some fl => exact h.elim
    | some s =>
      cases flight with
      | none => exact h.elim
      | some fl =>
        obtain ⟨h1, h2, t, h3, h4⟩ := h
        refine ⟨event_now_congr s since e h1, event_covers h2 e, t, ?_, ?_⟩
        · cases e <;> exact h3
        · intro p
          obtain ⟨k1, k2⟩ := h4 p
          cases e with
          | modified q => by_cases e : p = q <;> simp [World.step, Span.event, put, e, k1] <;> exact k2
          | created q => by_cases e : p = q <;> simp [World.step, Span.event, put, e, k1] <;> exact k2
          | deleted q => by_cases e : p = q <;> simp [World.step, Span.event, put, e, k1] <;> exact k2
          | moved a b =>
            by_cases e : p = b
            · simp [World.step, Span.event, put, e]
            · by_cases e' : p = a <;> simp [World.step, Span.event, put, e, e', k1] <;> exact k2
  | take =>
    cases during with
    | none =>
      cases flight with
      | some fl => exact h.elim
      | none =>
        simp only [World.step, Dev.step]
        cases unb with
        | true => exact h
        | false =>
          simp only [Bool.false_eq_true, if_false]
          split
          · exact h
          · refine ⟨rfl, fun p _ h2 => by simp [Span.fresh] at h2, since.touched, h, fun p => ⟨?_, fun _ => rfl⟩⟩
            simp [Span.fresh]
    | some s =>
      cases flight with
      | none => exact h.elim
      | some fl => exact h
  | success =>
    cases during with
    | none => exact h
    | some s =>
      cases flight with
      | none => exact h.elim
      | some fl => exact h.2.1
  | failure =>
    cases during with
    | none => exact h
    | some s =>
      cases flight with
      | none => exact h.elim
      | some fl =>
        obtain ⟨h1, h2, t, h3, h4⟩ := h
        intro p hp ht
        obtain ⟨m1, m2, m3⟩ := mem_merge since.now fl pend p
        obtain ⟨k1, k2⟩ := h4 p
        have e2 := h2 p
        have e3 := h3 p
        dsimp only at m1 m2 e2 e3 k1 k2
        simp only [World.step, Dev.step] at hp ht ⊢
        rw [m1, m2]
        rw [k1] at ht
        rw [← h1] at hp ⊢
        clear m1 m2 m3 k1 h1 h2 h3 h4
        by_cases c1 : p ∈ pend.created <;> by_cases c2 : p ∈ pend.changed <;> by_cases c3 : p ∈ fl.created <;>
          by_cases c4 : p ∈ fl.changed <;> cases c5 : s.touched p <;> simp_all

/-- **C23, in every history**, whatever events come in whatever order and however rebuilds end: when no
rebuild is running, every file which is there and to which something happened since the last
successful build is pending as created or changed. -/
theorem C23_nothing_lost (files : String → Bool) (w : World) (h : Reach (fun _ _ => True) files w)
    (hidle : w.h.flight = none) (p : String) (hp : w.since.now p = true) (ht : w.since.touched p = true) :
    p ∈ w.h.pend.created ∨ p ∈ w.h.pend.changed := by
  have hc : CInv w := by
    clear hidle hp ht
    induction h with
    | init => intro p _ h2; simp [World.init, Span.fresh] at h2
    | step w a _ _ ih => exact cinv_step ih
  unfold CInv at hc
  rw [hidle] at hc
  cases hd : w.during with
  | none => rw [hd] at hc; exact hc p hp ht
  | some s => rw [hd] at hc; exact hc.elim

/-! ## C58 -/

/-- Whether something happened to the files since the last rebuild was started; part of the
specification. -/
def quietSince : List Act → Bool → Bool
  | [], q => q
  | .ev _ :: as, _ => quietSince as false
  | .take :: as, _ => quietSince as true
  | _ :: as, q => quietSince as q

/-- An event makes the handler willing to rebuild again: whenever the last action was an event and no
rebuild is running, a rebuild starts as soon as something is pending. -/
theorem C58_retries_partial (w : World) (e : Ev) (hidle : w.h.flight = none)
    (hp : (w.step (.ev e)).h.pend ≠ ⟨[], [], []⟩) :
    ((w.step (.ev e)).step .take).h.flight = some (w.step (.ev e)).h.pend := by
  simp only [World.step, Dev.step, hidle] at hp ⊢
  have : ((onEvent e w.h.pend).deleted.isEmpty && (onEvent e w.h.pend).changed.isEmpty &&
      (onEvent e w.h.pend).created.isEmpty) = false := by
    rcases hx : onEvent e w.h.pend with ⟨d, c, r⟩
    rw [hx] at hp
    cases d <;> cases c <;> cases r <;> simp_all
  simp [this]

/-- **C58 is false while a rebuild runs**: `a` is fixed during the rebuild which fails because of it,
and although that change is pending no rebuild starts until something else happens. -/
theorem C58_false :
    let w := (World.init exFiles).run [.ev (.modified "a"), .take, .ev (.modified "a"), .failure]
    w.since.touched "a" = true ∧ "a" ∈ w.h.pend.changed ∧
    quietSince [.ev (.modified "a"), .take, .ev (.modified "a"), .failure] true = false ∧
    (w.step .take).h.flight = none := by decide

end Verif.Dev
