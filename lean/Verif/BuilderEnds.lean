import Verif.Builder
/-!
# When a builder comes to an end

A potential which every round of the loop lowers bounds the number of rounds, over a whole run.
-/
namespace Verif.Build
variable {S τ E : Type}

theorem continueMark_later {m : Manip S τ E} {b : State S τ E} {s : S} {t : τ} {stack : List τ} {x : List τ × State S τ E} (fut : List τ)
    (h : continueMark m b s t stack = .ok x) : continueMark m b s t (stack ++ fut) = .ok (x.1 ++ fut, x.2) := by
  unfold continueMark at h ⊢
  split at h
  · cases h
  · next r s' he => cases h; simp
  · next s' he => cases h; rfl

theorem round_later {ms : List (Manip S τ E)} {b : State S τ E} {t : τ} {stack : List τ} {x : List τ × State S τ E} (fut : List τ)
    (h : round ms b t stack = .ok x) : round ms b t (stack ++ fut) = .ok (x.1 ++ fut, x.2) := by
  unfold round at h ⊢
  split at h
  · exact continueMark_later fut h
  · split at h
    · cases h
    · cases h; rfl
    · exact continueMark_later fut h

section
variable {ms : List (Manip S τ E)} {I : State S τ E → List τ → Prop} {W : State S τ E → List τ → Nat}

theorem loop_ends (hstep : ∀ b t rest stack' b', I b (t :: rest) → round ms b t rest = .ok (stack', b') → I b' stack' ∧ W b' stack' < W b (t :: rest))
    (fut : List τ) :
    ∀ (fuel : Nat) (b : State S τ E) (stack : List τ), I b (stack ++ fut) → W b (stack ++ fut) < fuel →
      ∃ r, loop ms fuel b stack = some r ∧ ∀ b', r = .ok b' → I b' fut ∧ W b' fut ≤ W b (stack ++ fut)
  | fuel, b, [], hI, _ => ⟨.ok b, by unfold loop; rfl, fun b' hb => by cases hb; exact ⟨hI, Nat.le_refl _⟩⟩
  | 0, _, _ :: _, _, h => absurd h (Nat.not_lt_zero _)
  | fuel + 1, b, t :: stack, hI, h => by
    unfold loop
    cases hr : round ms b t stack with
    | error e => exact ⟨.error e, rfl, fun _ h => by cases h⟩
    | ok x =>
      obtain ⟨stack', b'⟩ := x
      obtain ⟨h1, h2⟩ := hstep b t (stack ++ fut) (stack' ++ fut) b' hI (round_later fut hr)
      have h3 : W b' (stack' ++ fut) < fuel := by
        have : W b (t :: (stack ++ fut)) < fuel + 1 := h
        omega
      obtain ⟨r, h4, h5⟩ := loop_ends hstep fut fuel b' stack' h1 h3
      refine ⟨r, h4, fun b'' hb => ?_⟩
      obtain ⟨h6, h7⟩ := h5 b'' hb
      exact ⟨h6, by have : W b' (stack' ++ fut) < W b (t :: stack ++ fut) := h2; omega⟩

/-- A run of a builder ends if every round lowers a potential which collecting the output leaves alone. -/
theorem runOps_ends (hstep : ∀ b t rest stack' b', I b (t :: rest) → round ms b t rest = .ok (stack', b') → I b' stack' ∧ W b' stack' < W b (t :: rest))
    (hI : ∀ b o rest, I b rest → I { b with output := o } rest) (hW : ∀ b o rest, W { b with output := o } rest = W b rest) {fuel : Nat} :
    ∀ (ops : List (Op τ)) (b : State S τ E) (acc : List τ), I b (tokensOf ops) → W b (tokensOf ops) < fuel → runOps ms fuel b acc ops ≠ none
  | [], _, _, _, _ => by unfold runOps; exact Option.some_ne_none _
  | .consume :: ops, b, acc, hb, h => by
    unfold runOps
    exact runOps_ends hstep hI hW ops _ _ (hI b [] _ hb) (by rw [hW]; exact h)
  | .token t :: ops, b, acc, hb, h => by
    unfold runOps handleToken
    obtain ⟨r, h1, h2⟩ := loop_ends hstep (tokensOf ops) fuel b [t] hb h
    rw [h1]
    cases r with
    | error e => exact Option.some_ne_none _
    | ok b' =>
      obtain ⟨h3, h4⟩ := h2 b' rfl
      refine runOps_ends hstep hI hW ops b' acc h3 (Nat.lt_of_le_of_lt h4 h)
end

section
variable {ms : List (Manip S τ E)} {I : Nat → State S τ E → List τ → Prop}

theorem loop_counted (hstep : ∀ n b t rest stack' b', I n b (t :: rest) → round ms b t rest = .ok (stack', b') → ∃ k < n, I k b' stack')
    (fut : List τ) :
    ∀ (fuel n : Nat) (b : State S τ E) (stack : List τ), I n b (stack ++ fut) → n < fuel →
      ∃ r, loop ms fuel b stack = some r ∧ ∀ b', r = .ok b' → ∃ k ≤ n, I k b' fut
  | fuel, n, b, [], hI, _ => ⟨.ok b, by unfold loop; rfl, fun b' hb => by cases hb; exact ⟨n, Nat.le_refl _, hI⟩⟩
  | 0, _, _, _ :: _, _, h => absurd h (Nat.not_lt_zero _)
  | fuel + 1, n, b, t :: stack, hI, h => by
    unfold loop
    cases hr : round ms b t stack with
    | error e => exact ⟨.error e, rfl, fun _ h => by cases h⟩
    | ok x =>
      obtain ⟨stack', b'⟩ := x
      obtain ⟨k, h1, h2⟩ := hstep n b t (stack ++ fut) (stack' ++ fut) b' hI (round_later fut hr)
      obtain ⟨r, h4, h5⟩ := loop_counted hstep fut fuel k b' stack' h2 (by omega)
      refine ⟨r, h4, fun b'' hb => ?_⟩
      obtain ⟨k', h6, h7⟩ := h5 b'' hb
      exact ⟨k', by omega, h7⟩

/-- The same, with the number of remaining steps as a part of the invariant. -/
theorem runOps_counted (hstep : ∀ n b t rest stack' b', I n b (t :: rest) → round ms b t rest = .ok (stack', b') → ∃ k < n, I k b' stack')
    (hI : ∀ n b o rest, I n b rest → I n { b with output := o } rest) {fuel : Nat} :
    ∀ (ops : List (Op τ)) (n : Nat) (b : State S τ E) (acc : List τ), I n b (tokensOf ops) → n < fuel → runOps ms fuel b acc ops ≠ none
  | [], _, _, _, _, _ => by unfold runOps; exact Option.some_ne_none _
  | .consume :: ops, n, b, acc, hb, h => by
    unfold runOps
    exact runOps_counted hstep hI ops n _ _ (hI n b [] _ hb) h
  | .token t :: ops, n, b, acc, hb, h => by
    unfold runOps handleToken
    obtain ⟨r, h1, h2⟩ := loop_counted hstep (tokensOf ops) fuel n b [t] hb h
    rw [h1]
    cases r with
    | error e => exact Option.some_ne_none _
    | ok b' =>
      obtain ⟨k, h3, h4⟩ := h2 b' rfl
      exact runOps_counted hstep hI ops k b' acc h4 (Nat.lt_of_le_of_lt h3 h)
end

end Verif.Build
