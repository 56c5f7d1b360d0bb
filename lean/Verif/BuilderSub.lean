import Verif.BuilderThm

/-!
# Manipulators which replace single tokens

What a builder with one manipulator does when the manipulator takes single tokens and leaves alone what it has put in
their place.
-/

namespace Verif.Build

variable {S τ E : Type}

/-- What becomes of one token. -/
def sub (m : Manip S τ E) (s : S) (t : τ) : Except E (List τ × S) :=
  match m.start s t with
  | .error e => .error e
  | .ok (false, s') => .ok ([t], s')
  | .ok (true, s1) =>
    match m.cont s1 t with
    | .error e => .error e
    | .ok (some r, s2) => .ok (r, s2)
    | .ok (none, s2) => .ok ([], s2)

/-- What becomes of the tokens, one after the other. -/
def subAll (m : Manip S τ E) : S → List τ → Except E (List τ × S)
  | s, [] => .ok ([], s)
  | s, t :: ts =>
    match sub m s t with
    | .error e => .error e
    | .ok (r, s1) =>
      match subAll m s1 ts with
      | .error e => .error e
      | .ok (out, s2) => .ok (r ++ out, s2)

/-- The manipulator never goes on to a second token, and leaves alone what it has put in place of a token. -/
def Single (m : Manip S τ E) : Prop := ∀ s t s1 o s2, m.start s t = .ok (true, s1) → m.cont s1 t = .ok (o, s2) →
  ∃ r, o = some r ∧ ∀ x ∈ r, ∀ s, m.start s x = .ok (false, s)

/-- The state of the builder behind this. -/
def done (out : List τ) : Except E (List τ × S) → Except E (State S τ E)
  | .error e => .error e
  | .ok (o, s) => .ok ⟨out ++ o, none, s⟩

theorem loop_inert {m : Manip S τ E} {r : List τ} (hr : ∀ x ∈ r, ∀ s, m.start s x = .ok (false, s)) : ∀ (f : Nat) (out ts : List τ) (s : S),
    loop [m] (r.length + f) ⟨out, none, s⟩ (r ++ ts) = loop [m] f ⟨out ++ r, none, s⟩ ts := by
  induction r with
  | nil => intro f out ts s; simp
  | cons x r ih =>
    intro f out ts s
    have e : (x :: r).length + f = (r.length + f) + 1 := by simp; omega
    rw [e]
    simp only [List.cons_append, loop, round, findMark, hr x (by simp) s]
    rw [ih (fun y hy => hr y (by simp [hy]))]
    simp

theorem loop_subAll {m : Manip S τ E} (hm : Single m) : ∀ (ts : List τ) (out : List τ) (s : S),
    ∃ f, loop [m] f ⟨out, none, s⟩ ts = some (done out (subAll m s ts)) := by
  intro ts
  induction ts with
  | nil => intro out s; exact ⟨0, by simp [loop, subAll, done]⟩
  | cons t ts ih =>
    intro out s
    cases hs : m.start s t with
    | error e => exact ⟨1, by simp [loop, round, findMark, hs, subAll, sub, done]⟩
    | ok p =>
      obtain ⟨b, s1⟩ := p
      cases b with
      | false =>
        obtain ⟨f, hf⟩ := ih (out ++ [t]) s1
        refine ⟨f + 1, ?_⟩
        simp only [loop, round, findMark, hs, hf, subAll, sub]
        cases subAll m s1 ts with
        | error e => rfl
        | ok p => simp [done]
      | true =>
        cases hc : m.cont s1 t with
        | error e => exact ⟨1, by simp [loop, round, findMark, hs, continueMark, hc, subAll, sub, done]⟩
        | ok p =>
          obtain ⟨o, s2⟩ := p
          obtain ⟨r, rfl, hr⟩ := hm _ _ _ _ _ hs hc
          obtain ⟨f, hf⟩ := ih (out ++ r) s2
          refine ⟨(r.length + f) + 1, ?_⟩
          simp only [loop, round, findMark, hs, continueMark, hc, subAll, sub]
          rw [loop_inert hr, hf]
          cases subAll m s2 ts with
          | error e => rfl
          | ok p => simp [done]

/-- Whenever the builder comes to an end, this is its result. -/
theorem loop_single {m : Manip S τ E} (hm : Single m) {ts out : List τ} {s : S} {f : Nat} {r : Except E (State S τ E)}
    (h : loop [m] f ⟨out, none, s⟩ ts = some r) : r = done out (subAll m s ts) := by
  obtain ⟨f', hf'⟩ := loop_subAll hm ts out s
  have h1 := loop_mono [m] f f' _ _ _ h
  have h2 := loop_mono [m] f' f _ _ _ hf'
  rw [Nat.add_comm] at h2
  rw [h1] at h2
  exact Option.some.inj h2

theorem subAll_append (m : Manip S τ E) : ∀ (xs ys : List τ) (s : S), subAll m s (xs ++ ys) =
    match subAll m s xs with
    | .error e => .error e
    | .ok (o, s1) =>
      match subAll m s1 ys with
      | .error e => .error e
      | .ok (o', s2) => .ok (o ++ o', s2) := by
  intro xs
  induction xs with
  | nil =>
    intro ys s
    simp only [List.nil_append, subAll]
    split <;> simp_all
  | cons x xs ih =>
    intro ys s
    simp only [List.cons_append, subAll]
    cases sub m s x with
    | error e => rfl
    | ok p =>
      obtain ⟨r, s1⟩ := p
      simp only [ih]
      cases subAll m s1 xs with
      | error e => rfl
      | ok q =>
        simp only
        cases subAll m q.2 ys with
        | error e => rfl
        | ok z => simp

end Verif.Build
