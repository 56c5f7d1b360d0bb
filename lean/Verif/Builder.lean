import Verif.Reader
/-!
# The token builders

Model of vanillaplusjs/build/js/builder.py:6-58; css/builder.py and html/builder.py differ from it only in
the names of the types.

A manipulator is an object with a state; the states of all manipulators together are a value of `S`.  An
exception ends the run.  Replacement tokens are handed to the manipulators again, which need not come to an
end: `fuel` bounds the number of rounds and `none` says that it did not suffice.
-/
namespace Verif.Build

/-- js/manipulator.py:5-50 -/
structure Manip (S τ E : Type) where
  start : S → τ → Except E (Bool × S)
  cont : S → τ → Except E (Option (List τ) × S)

/-- js/builder.py:11-25 -/
structure State (S τ E : Type) where
  output : List τ
  mark : Option (Manip S τ E)
  st : S

variable {S τ E : Type}

/-- js/builder.py:46-49: the first manipulator which marks the token. -/
def findMark : List (Manip S τ E) → S → τ → Except E (Option (Manip S τ E) × S)
  | [], s, _ => .ok (none, s)
  | m :: ms, s, t =>
    match m.start s t with
    | .error e => .error e
    | .ok (true, s') => .ok (some m, s')
    | .ok (false, s') => findMark ms s' t

/-- js/builder.py:55-58 -/
def continueMark (m : Manip S τ E) (b : State S τ E) (s : S) (t : τ) (stack : List τ) :
    Except E (List τ × State S τ E) :=
  match m.cont s t with
  | .error e => .error e
  | .ok (some r, s') => .ok (r ++ stack, { b with mark := none, st := s' })
  | .ok (none, s') => .ok (stack, { b with mark := some m, st := s' })

/-- js/builder.py:44-58: one round of the loop. -/
def round (ms : List (Manip S τ E)) (b : State S τ E) (t : τ) (stack : List τ) : Except E (List τ × State S τ E) :=
  match b.mark with
  | some m => continueMark m b b.st t stack
  | none =>
    match findMark ms b.st t with
    | .error e => .error e
    | .ok (none, s') => .ok (stack, { b with output := b.output ++ [t], st := s' })
    | .ok (some m, s') => continueMark m b s' t stack

/-- js/builder.py:42-58 -/
def loop (ms : List (Manip S τ E)) : Nat → State S τ E → List τ → Option (Except E (State S τ E))
  | _, b, [] => some (.ok b)
  | 0, _, _ :: _ => none
  | fuel + 1, b, t :: stack =>
    match round ms b t stack with
    | .error e => some (.error e)
    | .ok (stack', b') => loop ms fuel b' stack'

/-- js/builder.py:37-58 -/
def handleToken (ms : List (Manip S τ E)) (fuel : Nat) (b : State S τ E) (t : τ) : Option (Except E (State S τ E)) :=
  loop ms fuel b [t]

/-- What is done with a builder: tokens are handed over and the output is collected
(js/manipulate_and_serialize.py:34-37). -/
inductive Op (τ : Type) where
  | token (t : τ)
  | consume

/-- The calls one after the other; `acc` is the output which was collected. -/
def runOps (ms : List (Manip S τ E)) (fuel : Nat) :
    State S τ E → List τ → List (Op τ) → Option (Except E (List τ × State S τ E))
  | b, acc, [] => some (.ok (acc, b))
  | b, acc, .token t :: ops =>
    match handleToken ms fuel b t with
    | none => none
    | some (.error e) => some (.error e)
    | some (.ok b') => runOps ms fuel b' acc ops
  | b, acc, .consume :: ops => runOps ms fuel { b with output := [] } (acc ++ b.output) ops

/-- The tokens which are handed over. -/
def tokensOf : List (Op τ) → List τ
  | [] => []
  | .token t :: ops => t :: tokensOf ops
  | .consume :: ops => tokensOf ops

/-! ## What a builder should do -/

/-- All manipulators decline the token. -/
inductive Declined : List (Manip S τ E) → S → τ → S → Prop
  | nil {s t} : Declined [] s t s
  | cons {m ms s t s' s''} : m.start s t = .ok (false, s') → Declined ms s' t s'' → Declined (m :: ms) s t s''

/-- `m` is the first manipulator which takes the token. -/
inductive Taken : List (Manip S τ E) → S → τ → Manip S τ E → S → Prop
  | head {m ms s t s'} : m.start s t = .ok (true, s') → Taken (m :: ms) s t m s'
  | tail {m ms s t s' m' s''} : m.start s t = .ok (false, s') → Taken ms s' t m' s'' → Taken (m :: ms) s t m' s''

/-- The manipulator goes on through all the tokens. -/
inductive Open (m : Manip S τ E) : S → List τ → S → Prop
  | nil {s} : Open m s [] s
  | cons {s t s' ts s''} : m.cont s t = .ok (none, s') → Open m s' ts s'' → Open m s (t :: ts) s''

/-- The manipulator goes on through all but the last token, and there gives the replacement `r`. -/
def Closed (m : Manip S τ E) (s : S) (run : List τ) (r : List τ) (s' : S) : Prop :=
  ∃ ts t s1, run = ts ++ [t] ∧ Open m s ts s1 ∧ m.cont s1 t = .ok (some r, s')

/-- `Stream ms s ts out m s'`: of the tokens `ts` the manipulators, with state `s`, make `out`.  A token which
all decline is kept; a run of tokens which a manipulator takes is replaced, and the replacement treated in
the same way, followed by the rest.  In the end a run may be open. -/
inductive Stream (ms : List (Manip S τ E)) : S → List τ → List τ → Option (Manip S τ E) → S → Prop
  | nil {s} : Stream ms s [] [] none s
  | keep {s t s' ts out m s''} : Declined ms s t s' → Stream ms s' ts out m s'' →
      Stream ms s (t :: ts) (t :: out) m s''
  | replace {s t m s1 run r s2 rest out m' s3} : Taken ms s t m s1 → run.head? = some t → Closed m s1 run r s2 →
      Stream ms s2 (r ++ rest) out m' s3 → Stream ms s (run ++ rest) out m' s3
  | unfinished {s t m s1 run s2} : Taken ms s t m s1 → run.head? = some t → Open m s1 run s2 →
      Stream ms s run [] (some m) s2

/-- A manipulator raises `e` when it is offered the token, those in front of it having declined. -/
inductive StartFails : List (Manip S τ E) → S → τ → E → Prop
  | head {m ms s t e} : m.start s t = .error e → StartFails (m :: ms) s t e
  | tail {m ms s t s' e} : m.start s t = .ok (false, s') → StartFails ms s' t e → StartFails (m :: ms) s t e

/-- The tokens `ts` lead to the exception `e`. -/
inductive Fails (ms : List (Manip S τ E)) : S → List τ → E → Prop
  | start {s t ts e} : StartFails ms s t e → Fails ms s (t :: ts) e
  | cont {s t m s1 run x s2 rest e} : Taken ms s t m s1 → (run ++ [x]).head? = some t → Open m s1 run s2 →
      m.cont s2 x = .error e → Fails ms s (run ++ x :: rest) e
  | keep {s t s' ts e} : Declined ms s t s' → Fails ms s' ts e → Fails ms s (t :: ts) e
  | replace {s t m s1 run r s2 rest e} : Taken ms s t m s1 → run.head? = some t → Closed m s1 run r s2 →
      Fails ms s2 (r ++ rest) e → Fails ms s (run ++ rest) e

/-! ## The builder does this -/

theorem findMark_none {ms : List (Manip S τ E)} {s s' : S} {t : τ} :
    findMark ms s t = .ok (none, s') ↔ Declined ms s t s' := by
  induction ms generalizing s with
  | nil =>
    constructor
    · intro h; simp only [findMark, Except.ok.injEq, Prod.mk.injEq, true_and] at h; subst h; exact .nil
    · intro h; cases h; rfl
  | cons m ms ih =>
    simp only [findMark]
    constructor
    · intro h
      split at h
      · cases h
      · cases h
      · next hs => exact .cons hs (ih.1 h)
    · intro h
      cases h with
      | cons h1 h2 => rw [h1]; exact ih.2 h2

theorem findMark_some {ms : List (Manip S τ E)} {s s' : S} {t : τ} {m' : Manip S τ E} :
    findMark ms s t = .ok (some m', s') ↔ Taken ms s t m' s' := by
  induction ms generalizing s with
  | nil =>
    constructor
    · intro h; simp [findMark] at h
    · intro h; cases h
  | cons m ms ih =>
    simp only [findMark]
    constructor
    · intro h
      split at h
      · cases h
      · next hs => cases h; exact .head hs
      · next hs => exact .tail hs (ih.1 h)
    · intro h
      cases h with
      | head h1 => rw [h1]
      | tail h1 h2 => rw [h1]; exact ih.2 h2

/-- The rest of a run, from a state in which `m` has a mark. -/
inductive Mid (ms : List (Manip S τ E)) (m : Manip S τ E) : S → List τ → List τ → Option (Manip S τ E) → S → Prop
  | unfinished {s ts s'} : Open m s ts s' → Mid ms m s ts [] (some m) s'
  | closed {s run r s2 rest out m' s3} : Closed m s run r s2 → Stream ms s2 (r ++ rest) out m' s3 →
      Mid ms m s (run ++ rest) out m' s3

theorem Mid.cons {ms : List (Manip S τ E)} {m : Manip S τ E} {m' : Option (Manip S τ E)} {s s' s'' : S} {t : τ} {ts out : List τ}
    (h : m.cont s t = .ok (none, s')) (hm : Mid ms m s' ts out m' s'') : Mid ms m s (t :: ts) out m' s'' := by
  cases hm with
  | unfinished h1 => exact .unfinished (.cons h h1)
  | closed h1 h2 =>
    obtain ⟨a, x, s1, rfl, h3, h4⟩ := h1
    exact .closed (run := t :: (a ++ [x])) ⟨t :: a, x, s1, by simp, .cons h h3, h4⟩ h2

theorem Closed.head {m : Manip S τ E} {s s' : S} {run r rest ts : List τ} {t : τ} (h : Closed m s run r s')
    (hx : t :: ts = run ++ rest) : run.head? = some t := by
  obtain ⟨a, y, s1, rfl, -, -⟩ := h
  cases a with
  | nil => simp at hx; simp [hx.1]
  | cons => simp at hx; simp [hx.1]

theorem Taken.stream {ms : List (Manip S τ E)} {m : Manip S τ E} {m' : Option (Manip S τ E)} {s s1 s' : S} {t : τ}
    {ts out : List τ} (h : Taken ms s t m s1) (hm : Mid ms m s1 (t :: ts) out m' s') : Stream ms s (t :: ts) out m' s' := by
  generalize hx : t :: ts = x at hm
  cases hm with
  | unfinished h1 => exact .unfinished h (by rw [← hx]; rfl) h1
  | closed h1 h2 => exact .replace h (h1.head hx) h1 h2

/-- The builder state `b'` continues `b` with the output `out`. -/
theorem loop_sound (ms : List (Manip S τ E)) : ∀ (fuel : Nat) (b b' : State S τ E) (stack : List τ),
    loop ms fuel b stack = some (.ok b') →
    ∃ out, b'.output = b.output ++ out ∧
      (b.mark = none → Stream ms b.st stack out b'.mark b'.st) ∧
      (∀ m, b.mark = some m → Mid ms m b.st stack out b'.mark b'.st) := by
  intro fuel
  induction fuel with
  | zero =>
    intro b b' stack h
    cases stack with
    | cons t ts => simp [loop] at h
    | nil =>
      simp only [loop, Option.some.injEq, Except.ok.injEq] at h; subst h
      exact ⟨[], by simp, fun hm => by rw [hm]; exact .nil, fun m hm => by rw [hm]; exact .unfinished .nil⟩
  | succ fuel ih =>
    intro b b' stack h
    cases stack with
    | nil =>
      simp only [loop, Option.some.injEq, Except.ok.injEq] at h; subst h
      exact ⟨[], by simp, fun hm => by rw [hm]; exact .nil, fun m hm => by rw [hm]; exact .unfinished .nil⟩
    | cons t stack =>
      simp only [loop] at h
      -- a marked token
      have marked : ∀ (m : Manip S τ E) (s : S) (stack' : List τ) (b1 : State S τ E),
          continueMark m b s t stack = .ok (stack', b1) → loop ms fuel b1 stack' = some (.ok b') →
          ∃ out, b'.output = b.output ++ out ∧ Mid ms m s (t :: stack) out b'.mark b'.st := by
        intro m s stack' b1 hc hl
        unfold continueMark at hc
        split at hc
        · cases hc
        · next r s' hs =>
          cases hc
          obtain ⟨out, h1, h2, -⟩ := ih _ _ _ hl
          exact ⟨out, h1, .closed (run := [t]) ⟨[], t, s, rfl, .nil, hs⟩ (h2 rfl)⟩
        · next s' hs =>
          cases hc
          obtain ⟨out, h1, -, h2⟩ := ih _ _ _ hl
          exact ⟨out, h1, (h2 m rfl).cons hs⟩
      cases hm : b.mark with
      | some m =>
        simp only [round, hm] at h
        split at h
        · cases h
        · next stack' b1 hc =>
          obtain ⟨out, h1, h2⟩ := marked m b.st stack' b1 hc h
          exact ⟨out, h1, by simp, fun m' hm' => by simp at hm'; subst hm'; exact h2⟩
      | none =>
        simp only [round, hm] at h
        cases hf : findMark ms b.st t with
        | error e => rw [hf] at h; simp at h
        | ok p =>
          obtain ⟨m, s'⟩ := p
          rw [hf] at h
          cases m with
          | none =>
            simp only at h
            obtain ⟨out, h1, h2, -⟩ := ih _ _ _ h
            refine ⟨t :: out, by simp [h1], fun _ => .keep (findMark_none.1 hf) (h2 rfl), by simp⟩
          | some m =>
            simp only at h
            split at h
            · cases h
            · next stack' b1 hc =>
              obtain ⟨out, h1, h2⟩ := marked m s' stack' b1 hc h
              exact ⟨out, h1, fun _ => (findMark_some.1 hf).stream h2, by simp⟩

theorem loop_mono (ms : List (Manip S τ E)) : ∀ (fuel k : Nat) (b : State S τ E) (stack : List τ)
    (r : Except E (State S τ E)), loop ms fuel b stack = some r → loop ms (fuel + k) b stack = some r := by
  intro fuel
  induction fuel with
  | zero =>
    intro k b stack r h
    cases stack with
    | cons t ts => simp [loop] at h
    | nil => simp only [loop] at h ⊢; exact h
  | succ fuel ih =>
    intro k b stack r h
    cases stack with
    | nil => simp only [loop] at h ⊢; exact h
    | cons t ts =>
      rw [Nat.succ_add]
      simp only [loop] at h ⊢
      split
      · next hr => simp only [hr] at h; exact h
      · next hr => simp only [hr] at h; exact ih _ _ _ _ h

theorem round_append (ms : List (Manip S τ E)) (b : State S τ E) (t : τ) (stack more : List τ) :
    round ms b t (stack ++ more) =
      match round ms b t stack with
      | .error e => .error e
      | .ok (stack', b') => .ok (stack' ++ more, b') := by
  have hc : ∀ m s, continueMark m b s t (stack ++ more) =
      match continueMark m b s t stack with
      | .error e => .error e
      | .ok (stack', b') => .ok (stack' ++ more, b') := by
    intro m s
    unfold continueMark
    cases m.cont s t with
    | error e => rfl
    | ok p =>
      obtain ⟨r, s'⟩ := p
      cases r with
      | none => rfl
      | some r => simp [List.append_assoc]
  unfold round
  cases b.mark with
  | some m => exact hc m b.st
  | none =>
    cases findMark ms b.st t with
    | error e => rfl
    | ok p =>
      obtain ⟨m, s'⟩ := p
      cases m with
      | none => rfl
      | some m => exact hc m s'

theorem loop_append (ms : List (Manip S τ E)) : ∀ (f1 f2 : Nat) (b b1 : State S τ E) (stack more : List τ)
    (r : Except E (State S τ E)), loop ms f1 b stack = some (.ok b1) → loop ms f2 b1 more = some r →
    loop ms (f1 + f2) b (stack ++ more) = some r := by
  intro f1
  induction f1 with
  | zero =>
    intro f2 b b1 stack more r h1 h2
    cases stack with
    | cons t ts => simp [loop] at h1
    | nil =>
      simp only [loop, Option.some.injEq, Except.ok.injEq] at h1; subst h1
      rw [Nat.zero_add]; exact h2
  | succ f1 ih =>
    intro f2 b b1 stack more r h1 h2
    cases stack with
    | nil =>
      simp only [loop, Option.some.injEq, Except.ok.injEq] at h1; subst h1
      rw [Nat.add_comm]; exact loop_mono ms f2 _ _ _ _ h2
    | cons t ts =>
      rw [Nat.succ_add, List.cons_append]
      simp only [loop] at h1 ⊢
      rw [round_append]
      cases hr : round ms b t ts with
      | error e => simp [hr] at h1
      | ok p =>
        obtain ⟨stack', b'⟩ := p
        simp only [hr] at h1 ⊢
        exact ih _ _ _ _ _ _ h1 h2

theorem loop_split (ms : List (Manip S τ E)) : ∀ (f : Nat) (b b2 : State S τ E) (stack more : List τ),
    loop ms f b (stack ++ more) = some (.ok b2) →
    ∃ b1, loop ms f b stack = some (.ok b1) ∧ loop ms f b1 more = some (.ok b2) := by
  intro f
  induction f with
  | zero =>
    intro b b2 stack more h
    cases stack with
    | cons t ts => simp [loop] at h
    | nil => exact ⟨b, by simp only [loop], h⟩
  | succ f ih =>
    intro b b2 stack more h
    cases stack with
    | nil => exact ⟨b, by simp only [loop], h⟩
    | cons t ts =>
      rw [List.cons_append] at h
      simp only [loop] at h ⊢
      rw [round_append] at h
      cases hr : round ms b t ts with
      | error e => simp only [hr] at h; simp at h
      | ok p =>
        obtain ⟨stack', b'⟩ := p
        simp only [hr] at h ⊢
        obtain ⟨b1, h1, h2⟩ := ih _ _ _ _ h
        exact ⟨b1, h1, loop_mono ms f 1 _ _ _ h2⟩

/-- Output which is there before is not looked at. -/
theorem loop_output (ms : List (Manip S τ E)) (pre : List τ) : ∀ (f : Nat) (b : State S τ E) (stack : List τ),
    loop ms f { b with output := pre ++ b.output } stack =
      (loop ms f b stack).map (fun r => r.map (fun b' => { b' with output := pre ++ b'.output })) := by
  intro f
  induction f with
  | zero => intro b stack; cases stack <;> simp [loop, Except.map]
  | succ f ih =>
    intro b stack
    cases stack with
    | nil => simp [loop, Except.map]
    | cons t ts =>
      have hc : ∀ m s, continueMark m { b with output := pre ++ b.output } s t ts =
          (continueMark m b s t ts).map (fun p => (p.1, { p.2 with output := pre ++ p.2.output })) := by
        intro m s
        unfold continueMark
        cases m.cont s t with
        | error e => rfl
        | ok p => obtain ⟨r, s'⟩ := p; cases r <;> rfl
      have hr : round ms { b with output := pre ++ b.output } t ts =
          (round ms b t ts).map (fun p => (p.1, { p.2 with output := pre ++ p.2.output })) := by
        unfold round
        cases hm : b.mark with
        | some m => exact hc m b.st
        | none =>
          cases findMark ms b.st t with
          | error e => rfl
          | ok p =>
            obtain ⟨m, s'⟩ := p
            cases m with
            | none => simp [Except.map]
            | some m => exact hc m s'
      simp only [loop, hr]
      cases hq : round ms b t ts with
      | error e => simp [Except.map]
      | ok p => simp only [Except.map]; exact ih p.2 p.1

theorem round_keep {ms : List (Manip S τ E)} {b : State S τ E} {t : τ} {s' : S} (stack : List τ) (hm : b.mark = none)
    (h : Declined ms b.st t s') : round ms b t stack = .ok (stack, { b with output := b.output ++ [t], st := s' }) := by
  simp [round, hm, findMark_none.2 h]

theorem loop_open {ms : List (Manip S τ E)} {m : Manip S τ E} : ∀ {s s' : S} {ts : List τ}, Open m s ts s' →
    ∀ (b : State S τ E), b.mark = some m → b.st = s →
    loop ms ts.length b ts = some (.ok { b with st := s' }) := by
  intro s s' ts h
  induction h with
  | nil => intro b hm hs; simp only [loop]; rw [← hs]
  | @cons s t s1 ts s2 h1 h2 ih =>
    intro b hm hs
    subst hs
    rw [List.length_cons]
    simp only [loop, round, hm, continueMark, h1]
    rw [ih { b with mark := some m, st := s1 } rfl rfl, ← hm]

theorem loop_taken_open {ms : List (Manip S τ E)} {m : Manip S τ E} {s s1 s2 : S} {t : τ} {ts : List τ}
    (h : Taken ms s t m s1) (ho : Open m s1 (t :: ts) s2) (b : State S τ E) (hm : b.mark = none) (hs : b.st = s) :
    loop ms (ts.length + 1) b (t :: ts) = some (.ok { b with mark := some m, st := s2 }) := by
  subst hs
  cases ho with
  | @cons _ _ s3 _ _ h1 h2 =>
    simp only [loop, round, hm, findMark_some.2 h, continueMark, h1]
    exact loop_open h2 { b with mark := some m, st := s3 } rfl rfl

/-- What `Stream` says the builder does, if it has fuel. -/
theorem loop_complete {ms : List (Manip S τ E)} {s s' : S} {ts out : List τ} {m : Option (Manip S τ E)}
    (h : Stream ms s ts out m s') : ∀ (b : State S τ E), b.mark = none → b.st = s →
    ∃ fuel, loop ms fuel b ts = some (.ok { output := b.output ++ out, mark := m, st := s' }) := by
  induction h with
  | nil =>
    intro b hm hs
    refine ⟨0, ?_⟩
    simp only [loop, ← hs, ← hm, List.append_nil]
  | @keep s t s1 ts out m s2 h1 h2 ih =>
    intro b hm hs
    subst hs
    obtain ⟨f, hf⟩ := ih { b with output := b.output ++ [t], st := s1 } hm rfl
    refine ⟨f + 1, ?_⟩
    simp only [loop, round_keep ts hm h1, hf, List.append_assoc, List.singleton_append]
  | @unfinished s t m s1 run s2 h1 h2 h3 =>
    intro b hm hs
    cases run with
    | nil => simp at h2
    | cons x run =>
      simp at h2; subst h2
      exact ⟨_, by rw [loop_taken_open h1 h3 b hm hs]; simp⟩
  | @replace s t m s1 run r s2 rest out m' s3 h1 h2 h3 h4 ih =>
    intro b hm hs
    obtain ⟨ts, x, s4, rfl, ho, hx⟩ := h3
    obtain ⟨f, hf⟩ := ih { b with mark := none, st := s2 } rfl rfl
    cases ts with
    | nil =>
      simp at h2; subst h2
      cases ho
      subst hs
      refine ⟨f + 1, ?_⟩
      rw [List.nil_append, List.singleton_append]
      simp only [loop, round, hm, findMark_some.2 h1, continueMark, hx]
      exact hf
    | cons y ts =>
      simp at h2; subst h2
      have := loop_taken_open h1 ho b hm hs
      refine ⟨ts.length + 1 + (f + 1), ?_⟩
      rw [List.append_assoc]
      apply loop_append ms _ _ _ _ _ _ _ this
      rw [List.singleton_append]
      simp only [loop, round, continueMark, hx]
      exact hf

theorem findMark_error {ms : List (Manip S τ E)} {s : S} {t : τ} {e : E} :
    findMark ms s t = .error e ↔ StartFails ms s t e := by
  induction ms generalizing s with
  | nil =>
    constructor
    · intro h; simp [findMark] at h
    · intro h; cases h
  | cons m ms ih =>
    simp only [findMark]
    constructor
    · intro h
      split at h
      · next hs => cases h; exact .head hs
      · cases h
      · next hs => exact .tail hs (ih.1 h)
    · intro h
      cases h with
      | head h1 => rw [h1]
      | tail h1 h2 => rw [h1]; exact ih.2 h2

/-- What `Fails` says happens, if there is fuel. -/
theorem loop_fails {ms : List (Manip S τ E)} {s : S} {ts : List τ} {e : E}
    (h : Fails ms s ts e) : ∀ (b : State S τ E), b.mark = none → b.st = s →
    ∃ fuel, loop ms fuel b ts = some (.error e) := by
  induction h with
  | start h1 =>
    intro b hm hs
    subst hs
    exact ⟨1, by simp only [loop, round, hm, findMark_error.2 h1]⟩
  | @cont s t m s1 run x s2 rest e h1 h2 h3 h4 =>
    intro b hm hs
    cases run with
    | nil =>
      simp at h2; subst h2
      cases h3
      subst hs
      exact ⟨1, by simp only [List.nil_append, loop, round, hm, findMark_some.2 h1, continueMark, h4]⟩
    | cons y ts =>
      simp at h2; subst h2
      have := loop_taken_open h1 h3 b hm hs
      refine ⟨ts.length + 1 + 1, ?_⟩
      apply loop_append ms _ _ _ _ _ _ _ this
      simp only [loop, round, continueMark, h4]
  | @keep s t s1 ts e h1 h2 ih =>
    intro b hm hs
    subst hs
    obtain ⟨f, hf⟩ := ih { b with output := b.output ++ [t], st := s1 } hm rfl
    refine ⟨f + 1, ?_⟩
    simp only [loop, round_keep ts hm h1, hf]
  | @replace s t m s1 run r s2 rest e h1 h2 h3 h4 ih =>
    intro b hm hs
    obtain ⟨ts, x, s4, rfl, ho, hx⟩ := h3
    obtain ⟨f, hf⟩ := ih { b with mark := none, st := s2 } rfl rfl
    cases ts with
    | nil =>
      simp at h2; subst h2
      cases ho
      subst hs
      refine ⟨f + 1, ?_⟩
      rw [List.nil_append, List.singleton_append]
      simp only [loop, round, hm, findMark_some.2 h1, continueMark, hx]
      exact hf
    | cons y ts =>
      simp at h2; subst h2
      have := loop_taken_open h1 ho b hm hs
      refine ⟨ts.length + 1 + (f + 1), ?_⟩
      rw [List.append_assoc]
      apply loop_append ms _ _ _ _ _ _ _ this
      rw [List.singleton_append]
      simp only [loop, round, continueMark, hx]
      exact hf

end Verif.Build
