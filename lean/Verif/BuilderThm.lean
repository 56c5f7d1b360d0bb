import Verif.Builder
/-!
# C32: what a builder makes of a sequence of tokens
-/
namespace Verif.Build

variable {S τ E : Type}

/-- A new builder (js/builder.py:11-25). -/
def State.new (s : S) : State S τ E := { output := [], mark := none, st := s }

/-- The calls come to one loop over all the tokens. -/
theorem runOps_loop (ms : List (Manip S τ E)) (fuel : Nat) : ∀ (ops : List (Op τ)) (b b' : State S τ E)
    (acc acc' : List τ), runOps ms fuel b acc ops = some (.ok (acc', b')) →
    ∃ f, loop ms f { b with output := acc ++ b.output } (tokensOf ops) =
      some (.ok { b' with output := acc' ++ b'.output }) := by
  intro ops
  induction ops with
  | nil =>
    intro b b' acc acc' h
    simp only [runOps, Option.some.injEq, Except.ok.injEq, Prod.mk.injEq] at h
    obtain ⟨rfl, rfl⟩ := h
    exact ⟨0, by simp only [tokensOf, loop]⟩
  | cons op ops ih =>
    intro b b' acc acc' h
    cases op with
    | consume =>
      simp only [runOps] at h
      obtain ⟨f, hf⟩ := ih _ _ _ _ h
      exact ⟨f, by simpa [tokensOf] using hf⟩
    | token t =>
      simp only [runOps] at h
      cases ht : handleToken ms fuel b t with
      | none => simp [ht] at h
      | some r =>
        cases r with
        | error e => simp [ht] at h
        | ok b1 =>
          simp only [ht] at h
          obtain ⟨f, hf⟩ := ih _ _ _ _ h
          refine ⟨fuel + f, ?_⟩
          refine loop_append ms fuel f { b with output := acc ++ b.output } { b1 with output := acc ++ b1.output }
            [t] (tokensOf ops) _ ?_ hf
          rw [loop_output ms acc fuel b [t]]
          simp only [handleToken] at ht
          simp [ht, Except.map]

theorem loop_runOps (ms : List (Manip S τ E)) (f : Nat) : ∀ (ops : List (Op τ)) (b b' : State S τ E)
    (acc : List τ), loop ms f { b with output := acc ++ b.output } (tokensOf ops) = some (.ok b') →
    ∃ acc' rest, runOps ms f b acc ops = some (.ok (acc', { b' with output := rest })) ∧ acc' ++ rest = b'.output := by
  intro ops
  induction ops with
  | nil =>
    intro b b' acc h
    simp only [tokensOf, loop, Option.some.injEq, Except.ok.injEq] at h
    subst h
    exact ⟨acc, b.output, by simp only [runOps], rfl⟩
  | cons op ops ih =>
    intro b b' acc h
    cases op with
    | consume =>
      simp only [runOps]
      exact ih _ _ _ (by simpa [tokensOf] using h)
    | token t =>
      have h' : loop ms f { b with output := acc ++ b.output } ([t] ++ tokensOf ops) = some (.ok b') := h
      obtain ⟨b1, h1, h2⟩ := loop_split ms _ _ _ _ _ h'
      rw [loop_output] at h1
      cases ht : loop ms f b [t] with
      | none => simp [ht] at h1
      | some r =>
        cases r with
        | error e => simp [ht, Except.map] at h1
        | ok b2 =>
          simp only [ht, Option.map, Except.map, Option.some.injEq, Except.ok.injEq] at h1
          subst h1
          simp only [runOps, handleToken, ht]
          exact ih _ _ _ h2

/-- **C32.**  However the tokens are handed over and the output collected, the collected output together with
what has not been collected yet is what `Stream` makes of the tokens: every token which all manipulators
decline, in order; the tokens a manipulator took are gone, and what it gave for them was offered again, in
their place. -/
theorem C32 (ms : List (Manip S τ E)) (fuel : Nat) (s : S) (ops : List (Op τ)) (acc : List τ) (b : State S τ E)
    (h : runOps ms fuel (State.new s) [] ops = some (.ok (acc, b))) :
    Stream ms s (tokensOf ops) (acc ++ b.output) b.mark b.st := by
  obtain ⟨f, hf⟩ := runOps_loop ms fuel ops _ _ _ _ h
  obtain ⟨out, h1, h2, -⟩ := loop_sound ms _ _ _ _ hf
  have h3 := h2 rfl
  simp only [State.new, List.append_nil, List.nil_append] at h1 h3
  rw [h1]
  exact h3

/-- **C32**, the other direction: whatever `Stream` gives the builder gives, given enough rounds. -/
theorem C32_complete (ms : List (Manip S τ E)) (s s' : S) (ops : List (Op τ)) (out : List τ)
    (m : Option (Manip S τ E)) (h : Stream ms s (tokensOf ops) out m s') :
    ∃ fuel acc rest, runOps ms fuel (State.new s) [] ops = some (.ok (acc, { output := rest, mark := m, st := s' })) ∧
      acc ++ rest = out := by
  obtain ⟨f, hf⟩ := loop_complete h (State.new s) rfl rfl
  obtain ⟨acc, rest, h1, h2⟩ := loop_runOps ms f ops (State.new s) _ [] hf
  exact ⟨f, acc, rest, h1, by simpa [State.new] using h2⟩

/-- The result is determined by the tokens alone: neither the times of collection nor the fuel matter. -/
theorem C32_unique (ms : List (Manip S τ E)) (f f' : Nat) (s : S) (ops ops' : List (Op τ)) (acc acc' : List τ)
    (b b' : State S τ E) (h : runOps ms f (State.new s) [] ops = some (.ok (acc, b)))
    (h' : runOps ms f' (State.new s) [] ops' = some (.ok (acc', b'))) (he : tokensOf ops = tokensOf ops') :
    acc ++ b.output = acc' ++ b'.output ∧ b.mark = b'.mark ∧ b.st = b'.st := by
  obtain ⟨g, hg⟩ := runOps_loop ms f ops _ _ _ _ h
  obtain ⟨g', hg'⟩ := runOps_loop ms f' ops' _ _ _ _ h'
  rw [← he] at hg'
  have h1 := loop_mono ms _ g' _ _ _ hg
  have h2 := loop_mono ms _ g _ _ _ hg'
  rw [Nat.add_comm g'] at h2
  rw [h1] at h2
  simp only [Option.some.injEq, Except.ok.injEq, State.mk.injEq] at h2
  exact h2

/-- If no manipulator marks any of the tokens, they pass through unchanged. -/
theorem C32_identity (ms : List (Manip S τ E)) (s : S) (ops : List (Op τ))
    (h : ∀ m ∈ ms, ∀ t ∈ tokensOf ops, ∀ s, m.start s t = .ok (false, s)) :
    ∃ fuel acc rest, runOps ms fuel (State.new s) [] ops = some (.ok (acc, { output := rest, mark := none, st := s })) ∧
      acc ++ rest = tokensOf ops := by
  apply C32_complete
  have hd : ∀ (ms : List (Manip S τ E)) (t : τ), (∀ m ∈ ms, ∀ s, m.start s t = .ok (false, s)) → Declined ms s t s := by
    intro ms t
    induction ms with
    | nil => intro _; exact .nil
    | cons m ms ih =>
      intro h
      exact .cons (h m (by simp) s) (ih fun m' hm => h m' (by simp [hm]))
  generalize tokensOf ops = ts at h
  induction ts with
  | nil => exact .nil
  | cons t ts ih =>
    exact .keep (hd ms t fun m hm => h m hm t (by simp)) (ih fun m hm t ht => h m hm t (by simp [ht]))

/-! ### A case

The manipulator takes every 0 and what follows up to the next 0, and gives the tokens between
followed by a 9. -/

def demo : Manip (List Nat) Nat Unit where
  start := fun s t => .ok (t == 0, s)
  cont := fun s t => .ok (if t == 0 && !s.isEmpty then (some (s.tail ++ [9]), []) else (none, s ++ [t]))

theorem C32_case :
    (runOps [demo] 20 (State.new []) [] [.token 1, .token 0, .token 5, .consume, .token 6, .token 0, .token 2]).map
      (fun r => r.map fun p => (p.1, p.2.output)) = some (.ok ([1], [5, 6, 9, 2])) := rfl

end Verif.Build
