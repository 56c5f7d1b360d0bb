import Verif.DevThm
import Mathlib.Data.List.Induction
/-!
# When the watch mode starts a rebuild

`DevEventHandler` with the time of the last event: dev.py:189, 191-212 and the ends of the event methods.  `Verif.Dev` leaves the time out; here it
is shown that this loses nothing, and when rebuilds start (C98).
-/
namespace Verif.Dev

/-- What happens, at the time which `time.time()` gives then. -/
inductive TAct where
  | ev (e : Ev)
  /-- an event about a folder: dev.py:323, 332, 344, 358 -/
  | folder
  /-- `rebuild_if_appropriate` is called: dev.py:153 -/
  | poll
  | success
  | failure
deriving DecidableEq, Repr

/-- The handler and its `last_change_at`. -/
structure Timed where
  h : Handler
  last : Int
deriving DecidableEq, Repr

/-- dev.py:191-212 and 293-362.  While a rebuild runs the main thread does not poll. -/
def tstep (exist : String → Bool) (debounce : Int) (s : Timed) (x : Int × TAct) : Timed :=
  match x.2 with
  | .ev e => ⟨step exist s.h (.ev e), x.1⟩
  | .folder => s
  | .poll =>
    match s.h.flight with
    | some _ => s
    | none =>
      if s.h.unbuildable then s
      else if s.h.pend.deleted.isEmpty && s.h.pend.changed.isEmpty && s.h.pend.created.isEmpty then s
      else if x.1 - s.last < debounce then s
      else { s with h := { s.h with pend := ⟨[], [], []⟩, flight := some s.h.pend } }
  | .success => { s with h := step exist s.h .success }
  | .failure => { s with h := step exist s.h .failure }

/-- The handler was made at the time `t0`. -/
def trun (exist : String → Bool) (debounce t0 : Int) (l : List (Int × TAct)) : Timed := l.foldl (tstep exist debounce) ⟨.init, t0⟩

/-! ## What is asked for -/

/-- A rebuild starts when the main thread polls at the time `t`. -/
def Starts (exist : String → Bool) (debounce t0 : Int) (l : List (Int × TAct)) (t : Int) : Prop :=
  (trun exist debounce t0 l).h.flight = none ∧ (trun exist debounce t0 (l ++ [(t, .poll)])).h.flight ≠ none

/-- The clock is not set back. -/
def Forward (t0 : Int) (l : List (Int × TAct)) : Prop := (∀ x ∈ l, t0 ≤ x.1) ∧ l.Pairwise fun x y => x.1 ≤ y.1

def isEv : TAct → Bool
  | .ev _ => true
  | _ => false

/-- There is something to build, no rebuild runs, and the last one has not failed without an event since. -/
def Waiting (h : Handler) : Prop :=
  h.flight = none ∧ h.unbuildable = false ∧ ∃ p, p ∈ h.pend.deleted ∨ p ∈ h.pend.changed ∨ p ∈ h.pend.created

/-! ## Proofs -/

theorem trun_snoc (exist : String → Bool) (debounce t0 : Int) (l : List (Int × TAct)) (x : Int × TAct) :
    trun exist debounce t0 (l ++ [x]) = tstep exist debounce (trun exist debounce t0 l) x := by simp [trun, List.foldl_append]

/-- The time which is kept is that of an event, or of the beginning, and no event has been since. -/
theorem last_spec (exist : String → Bool) (debounce t0 : Int) (l : List (Int × TAct)) :
    ((trun exist debounce t0 l).last = t0 ∧ ∀ x ∈ l, isEv x.2 = false) ∨
    ∃ l1 x l2, l = l1 ++ x :: l2 ∧ isEv x.2 = true ∧ (∀ y ∈ l2, isEv y.2 = false) ∧ (trun exist debounce t0 l).last = x.1 := by
  induction l using List.reverseRecOn with
  | nil => left; simp [trun]
  | append_singleton l x ih =>
    rw [trun_snoc]
    cases hx : isEv x.2 with
    | true =>
      right
      refine ⟨l, x, [], rfl, hx, by simp, ?_⟩
      obtain ⟨t, a⟩ := x
      cases a <;> simp [isEv] at hx
      rfl
    | false =>
      have hlast : (tstep exist debounce (trun exist debounce t0 l) x).last = (trun exist debounce t0 l).last := by
        obtain ⟨t, a⟩ := x
        cases a <;> simp [isEv] at hx <;> simp only [tstep]
        split
        · rfl
        · split
          · rfl
          · split
            · rfl
            · split <;> rfl
      rw [hlast]
      rcases ih with ⟨h1, h2⟩ | ⟨l1, y, l2, rfl, h2, h3, h4⟩
      · left
        refine ⟨h1, fun y hy => ?_⟩
        rcases List.mem_append.1 hy with hy | hy
        · exact h2 y hy
        · rw [List.mem_singleton.1 hy]; exact hx
      · right
        refine ⟨l1, y, l2 ++ [x], by simp, h2, fun z hz => ?_, h4⟩
        rcases List.mem_append.1 hz with hz | hz
        · exact h3 z hz
        · rw [List.mem_singleton.1 hz]; exact hx

theorem starts_iff (exist : String → Bool) (debounce t0 : Int) (l : List (Int × TAct)) (t : Int) :
    Starts exist debounce t0 l t ↔ Waiting (trun exist debounce t0 l).h ∧ debounce ≤ t - (trun exist debounce t0 l).last := by
  unfold Starts
  rw [trun_snoc]
  generalize trun exist debounce t0 l = s
  have hempty : (s.h.pend.deleted.isEmpty && s.h.pend.changed.isEmpty && s.h.pend.created.isEmpty) = false ↔
      ∃ p, p ∈ s.h.pend.deleted ∨ p ∈ s.h.pend.changed ∨ p ∈ s.h.pend.created := by
    rcases s.h.pend with ⟨d, c, k⟩
    constructor
    · intro h
      rcases d with _ | ⟨p, d⟩
      · rcases c with _ | ⟨p, c⟩
        · rcases k with _ | ⟨p, k⟩
          · simp at h
          · exact ⟨p, by simp⟩
        · exact ⟨p, by simp⟩
      · exact ⟨p, by simp⟩
    · rintro ⟨p, h | h | h⟩
      · cases d <;> simp at h ⊢
      · cases c <;> simp at h ⊢
      · cases k <;> simp at h ⊢
  unfold Waiting
  constructor
  · rintro ⟨h1, h2⟩
    simp only [tstep, h1] at h2
    split at h2
    · exact absurd h1 h2
    · next hu =>
      split at h2
      · exact absurd h1 h2
      · next he =>
        split at h2
        · exact absurd h1 h2
        · next hd => exact ⟨⟨h1, by simpa using hu, hempty.1 (by simpa using he)⟩, by omega⟩
  · rintro ⟨⟨h1, h2, h3⟩, h4⟩
    have he := hempty.2 h3
    refine ⟨h1, ?_⟩
    simp only [tstep, h1, h2, he]
    rw [if_neg (by simp), if_neg (by simp), if_neg (by omega)]
    simp

/-- **C98: a rebuild starts only when it is quiet.**  Whatever has happened, when a rebuild starts all events are at least the debounce time
ago. -/
theorem C98_quiet {exist : String → Bool} {debounce t0 : Int} {l : List (Int × TAct)} {t : Int} (hf : Forward t0 l)
    (h : Starts exist debounce t0 l t) : ∀ x ∈ l, isEv x.2 = true → x.1 + debounce ≤ t := by
  obtain ⟨-, h⟩ := (starts_iff ..).1 h
  intro x hx he
  rcases last_spec exist debounce t0 l with ⟨-, h2⟩ | ⟨l1, y, l2, rfl, -, h3, h4⟩
  · rw [h2 x hx] at he; cases he
  · have : x.1 ≤ y.1 := by
      rcases List.mem_append.1 hx with hx | hx
      · exact (List.pairwise_append.1 hf.2).2.2 x hx y (by simp)
      · rcases List.mem_cons.1 hx with rfl | hx
        · exact Int.le_refl _
        · rw [h3 x hx] at he; cases he
    omega

/-- **C98: and then it does start.**  If something waits to be built and all events are at least the debounce time ago, the next poll starts a
rebuild with all that waits. -/
theorem C98_starts {exist : String → Bool} {debounce t0 : Int} {l : List (Int × TAct)} {t : Int} (hw : Waiting (trun exist debounce t0 l).h)
    (ht : t0 + debounce ≤ t) (hq : ∀ x ∈ l, isEv x.2 = true → x.1 + debounce ≤ t) : Starts exist debounce t0 l t ∧
      (trun exist debounce t0 (l ++ [(t, .poll)])).h.flight = some (trun exist debounce t0 l).h.pend := by
  have hs : Starts exist debounce t0 l t := by
    refine (starts_iff ..).2 ⟨hw, ?_⟩
    rcases last_spec exist debounce t0 l with ⟨h1, -⟩ | ⟨l1, y, l2, rfl, h2, -, h4⟩
    · rw [h1]; omega
    · have := hq y (by simp) h2
      rw [h4]; omega
  refine ⟨hs, ?_⟩
  obtain ⟨h1, h2⟩ := hs
  rw [trun_snoc] at h2 ⊢
  generalize trun exist debounce t0 l = s at h1 h2 ⊢
  simp only [tstep, h1] at h2 ⊢
  split at h2
  · exact absurd h1 h2
  · split at h2
    · exact absurd h1 h2
    · split at h2
      · exact absurd h1 h2
      · next a b c => rw [if_neg a, if_neg b, if_neg c]

/-- Without the times: what does not start is left out. -/
def forget (exist : String → Bool) (debounce : Int) : Timed → List (Int × TAct) → List Act
  | _, [] => []
  | s, x :: l =>
    (match x.2 with
      | .ev e => [.ev e]
      | .folder => []
      | .poll => if tstep exist debounce s x = s then [] else [.take]
      | .success => [.success]
      | .failure => [.failure]) ++ forget exist debounce (tstep exist debounce s x) l

/-- **C98: times only delay.**  What the handler holds after a history with times is what it holds after a history without, with the same
events, so all that is proved of these (C23, C58) holds of those. -/
theorem C98_only_delays (exist : String → Bool) (debounce : Int) : ∀ (l : List (Int × TAct)) (s : Timed),
    (l.foldl (tstep exist debounce) s).h = (forget exist debounce s l).foldl (step exist) s.h := by
  intro l
  induction l with
  | nil => intro s; rfl
  | cons x l ih =>
    intro s
    simp only [List.foldl_cons, forget, List.foldl_append]
    rw [ih]
    congr 1
    obtain ⟨t, a⟩ := x
    cases a with
    | ev e => rfl
    | folder => rfl
    | success => rfl
    | failure => rfl
    | poll =>
      simp only
      split
      · next h => rw [h]; rfl
      · next h =>
        simp only [List.foldl_cons, List.foldl_nil]
        simp only [tstep] at h ⊢
        simp only [step]
        cases hf : s.h.flight with
        | some x => simp [hf] at h
        | none =>
          simp only [hf] at h ⊢
          split
          · next a => simp [a] at h
          · next a =>
            rw [if_neg a] at h
            split
            · rfl
            · next b =>
              rw [if_neg b] at h
              split
              · next c => rw [if_pos c] at h; exact absurd rfl h
              · rfl

/-- The events alone, in order. -/
def events (l : List Act) : List Ev := l.filterMap fun
  | .ev e => some e
  | _ => none

theorem forget_events (exist : String → Bool) (debounce : Int) : ∀ (l : List (Int × TAct)) (s : Timed),
    events (forget exist debounce s l) = l.filterMap fun x => match x.2 with
      | .ev e => some e
      | _ => none := by
  intro l
  induction l with
  | nil => intro s; rfl
  | cons x l ih =>
    intro s
    obtain ⟨t, a⟩ := x
    simp only [forget, events, List.filterMap_append, List.filterMap_cons] at ih ⊢
    rw [ih]
    cases a <;> simp

/-! ## Cases -/

namespace TimeToy

def save (t : Int) : Int × TAct := (t, .ev (.modified "/p/src/public/a.js"))

/-- Three files are saved with 60 ms between them; the rebuild starts 100 ms after the last one, and has all of them. -/
def burst : List (Int × TAct) :=
  [(1000, .ev (.modified "/p/src/public/a.js")), (1020, .poll), (1060, .ev (.created "/p/src/public/b.js")), (1120, .ev (.modified "/p/src/public/c.js")),
    (1125, .folder), (1130, .poll)]

theorem C98_case : Forward 0 burst ∧ Waiting (trun (fun _ => true) 100 0 burst).h ∧ Starts (fun _ => true) 100 0 burst 1220 ∧
    ¬ Starts (fun _ => true) 100 0 burst 1219 ∧
    (trun (fun _ => true) 100 0 (burst ++ [(1220, .poll)])).h.flight =
      some ⟨[], ["/p/src/public/c.js", "/p/src/public/a.js"], ["/p/src/public/b.js"]⟩ := by
  refine ⟨by unfold Forward; decide, ?_, ?_, ?_, by decide⟩
  · exact ⟨by decide, by decide, "/p/src/public/b.js", Or.inr (Or.inr (by decide))⟩
  · unfold Starts; decide
  · unfold Starts; decide

/-- There is no bound: while a file is written again and again, more often than the debounce time, no rebuild starts, however long it takes. -/
theorem C98_false_bounded (n : Nat) (t : Int) (ht : t < 50 * n + 100) :
    ¬ Starts (fun _ => true) 100 0 ((List.range (n + 1)).map fun (k : Nat) => save (50 * k)) t := by
  intro h
  obtain ⟨-, h⟩ := (starts_iff ..).1 h
  rw [List.range_succ, List.map_append, List.map_singleton, trun_snoc] at h
  simp only [save, tstep] at h
  omega

/-- When the clock is set back the rebuild waits until it has caught up: a file is saved at noon, the clock is set back by an hour, and all
polls of that hour do nothing. -/
theorem C98_false_clock (t : Int) (ht : t < 3600100) : ¬ Starts (fun _ => true) 100 0 [save 3600000] t := by
  intro h
  obtain ⟨-, h⟩ := (starts_iff ..).1 h
  simp [trun, tstep, save] at h
  omega

end TimeToy
end Verif.Dev
