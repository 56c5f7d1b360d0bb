import Verif.Builder
import Mathlib.Data.List.Forall2
/-!
# Runs of a builder in other surroundings

If manipulators do in other surroundings what they do here, as long as the result is good, then so do runs of a builder with them.
-/
namespace Verif.Build

/-- An invariant `I` of the states, how they grow (`ext`), which of them are good, and what they are in the other surroundings. -/
structure Follow (S : Type) where
  I : S → Prop
  ext : S → S → Prop
  Good : S → Prop
  move : S → S

structure Follow.Laws {S : Type} (F : Follow S) : Prop where
  refl : ∀ s, F.ext s s
  trans : ∀ {a b c}, F.ext a b → F.ext b c → F.ext a c
  down : ∀ {a b}, F.ext a b → F.Good b → F.Good a

variable {S τ E E' : Type}

/-- `m'` does in the other surroundings what `m` does, one step at a time. -/
structure Steps (F : Follow S) (m : Manip S τ E) (m' : Manip S τ E') : Prop where
  start : ∀ {s t b s'}, F.I s → m.start s t = .ok (b, s') → F.I s' ∧ F.ext s s' ∧ (F.Good s' → m'.start (F.move s) t = .ok (b, F.move s'))
  cont : ∀ {s t b s'}, F.I s → m.cont s t = .ok (b, s') → F.I s' ∧ F.ext s s' ∧ (F.Good s' → m'.cont (F.move s) t = .ok (b, F.move s'))

/-- `m` replaces single tokens, and `m'` does the same in the other surroundings. -/
structure Shots (F : Follow S) (m : Manip S τ E) (m' : Manip S τ E') : Prop where
  decline : ∀ {s t s'}, F.I s → m.start s t = .ok (false, s') → F.I s' ∧ F.ext s s' ∧ (F.Good s' → m'.start (F.move s) t = .ok (false, F.move s'))
  take : ∀ {s t s1 r s2}, F.I s → m.start s t = .ok (true, s1) → m.cont s1 t = .ok (r, s2) → r ≠ none ∧ F.I s2 ∧ F.ext s s2 ∧
    (F.Good s2 → m'.start (F.move s) t = .ok (true, F.move s1) ∧ m'.cont (F.move s1) t = .ok (r, F.move s2))

inductive Pair (F : Follow S) (m : Manip S τ E) (m' : Manip S τ E') : Prop
  | steps (h : Steps F m m')
  | shots (h : Shots F m m')

inductive Marks (F : Follow S) : Option (Manip S τ E) → Option (Manip S τ E') → Prop
  | none : Marks F .none .none
  | some {m m'} : Steps F m m' → Marks F (.some m) (.some m')

variable {F : Follow S} {ms : List (Manip S τ E)} {ms' : List (Manip S τ E')}

theorem Pair.decline {m : Manip S τ E} {m' : Manip S τ E'} (h : Pair F m m') {s : S} {t : τ} {s' : S} (hI : F.I s) (h1 : m.start s t = .ok (false, s')) :
    F.I s' ∧ F.ext s s' ∧ (F.Good s' → m'.start (F.move s) t = .ok (false, F.move s')) := by
  cases h with
  | steps h => exact h.start hI h1
  | shots h => exact h.decline hI h1

theorem findMark_nobody (hF : F.Laws) (h : List.Forall₂ (Pair F) ms ms') {s s' : S} {t : τ} (hI : F.I s) (hf : findMark ms s t = .ok (none, s')) :
    F.I s' ∧ F.ext s s' ∧ (F.Good s' → findMark ms' (F.move s) t = .ok (none, F.move s')) := by
  induction h generalizing s with
  | nil =>
    simp only [findMark, Except.ok.injEq, Prod.mk.injEq, true_and] at hf
    subst hf
    exact ⟨hI, hF.refl _, fun _ => rfl⟩
  | cons hxy _ ih =>
    unfold findMark at hf
    split at hf
    · cases hf
    · simp at hf
    · next s1 h1 =>
      obtain ⟨e1, e2, e3⟩ := hxy.decline hI h1
      obtain ⟨e4, e5, e6⟩ := ih e1 hf
      exact ⟨e4, hF.trans e2 e5, fun hG => by simp only [findMark, e3 (hF.down e5 hG)]; exact e6 hG⟩

theorem findMark_somebody (hF : F.Laws) (h : List.Forall₂ (Pair F) ms ms') {s s' : S} {t : τ} (hI : F.I s) {m : Manip S τ E}
    (hf : findMark ms s t = .ok (some m, s')) : ∃ m' s0, Pair F m m' ∧ F.I s0 ∧ F.ext s s0 ∧ m.start s0 t = .ok (true, s') ∧
      (F.Good s0 → ∀ s1, m'.start (F.move s0) t = .ok (true, s1) → findMark ms' (F.move s) t = .ok (some m', s1)) := by
  induction h generalizing s with
  | nil => simp [findMark] at hf
  | @cons x y xs ys hxy _ ih =>
    unfold findMark at hf
    split at hf
    · cases hf
    · next s1 h1 =>
      simp only [Except.ok.injEq, Prod.mk.injEq, Option.some.injEq] at hf
      obtain ⟨rfl, rfl⟩ := hf
      exact ⟨y, s, hxy, hI, hF.refl _, h1, fun _ s1 h2 => by simp only [findMark, h2]⟩
    · next s1 h1 =>
      obtain ⟨e1, e2, e3⟩ := hxy.decline hI h1
      obtain ⟨m', s0, q1, q2, q3, q4, q5⟩ := ih e1 hf
      exact ⟨m', s0, q1, q2, hF.trans e2 q3, q4, fun hG s2 h2 => by simp only [findMark, e3 (hF.down q3 hG)]; exact q5 hG s2 h2⟩

theorem round_follow (hF : F.Laws) (h : List.Forall₂ (Pair F) ms ms') {b b' : State S τ E} {mk : Option (Manip S τ E')} (hm : Marks F b.mark mk) (hI : F.I b.st)
    {t : τ} {stack stack' : List τ} (hr : Build.round ms b t stack = .ok (stack', b')) :
    F.I b'.st ∧ F.ext b.st b'.st ∧ ∃ mk', Marks F b'.mark mk' ∧
      (F.Good b'.st → Build.round ms' ⟨b.output, mk, F.move b.st⟩ t stack = .ok (stack', ⟨b'.output, mk', F.move b'.st⟩)) := by
  obtain ⟨bo, bm, bs⟩ := b
  dsimp only at hI hm
  -- a manipulator which goes on for several tokens
  have key : ∀ {m : Manip S τ E} {m' : Manip S τ E'} (_ : Steps F m m') {s : S} {bm : Option (Manip S τ E)} (_ : F.I s), continueMark m ⟨bo, bm, bs⟩ s t stack = .ok (stack', b') →
      F.I b'.st ∧ F.ext s b'.st ∧ ∃ mk', Marks F b'.mark mk' ∧ (F.Good b'.st → ∀ mk bs', continueMark m' ⟨bo, mk, bs'⟩ (F.move s) t stack = .ok (stack', ⟨b'.output, mk', F.move b'.st⟩)) := by
    intro m m' ht s bm hs hc
    unfold continueMark at hc
    split at hc
    · cases hc
    · next r s' h1 =>
      simp only [Except.ok.injEq, Prod.mk.injEq] at hc
      obtain ⟨rfl, rfl⟩ := hc
      obtain ⟨e1, e2, e3⟩ := ht.cont hs h1
      exact ⟨e1, e2, _, .none, fun hG mk bs' => by simp only [continueMark, e3 hG]⟩
    · next s' h1 =>
      simp only [Except.ok.injEq, Prod.mk.injEq] at hc
      obtain ⟨rfl, rfl⟩ := hc
      obtain ⟨e1, e2, e3⟩ := ht.cont hs h1
      exact ⟨e1, e2, _, .some ht, fun hG mk bs' => by simp only [continueMark, e3 hG]⟩
  unfold Build.round at hr
  cases hm with
  | @some m m' ht =>
    dsimp only at hr
    obtain ⟨e1, e2, mk', e3, e4⟩ := key ht hI hr
    exact ⟨e1, e2, mk', e3, fun hG => by simp only [Build.round]; exact e4 hG _ _⟩
  | none =>
    dsimp only at hr
    split at hr
    · cases hr
    · next s' hf =>
      simp only [Except.ok.injEq, Prod.mk.injEq] at hr
      obtain ⟨rfl, rfl⟩ := hr
      obtain ⟨e1, e2, e3⟩ := findMark_nobody hF h hI hf
      exact ⟨e1, e2, _, .none, fun hG => by simp only [Build.round, e3 hG]⟩
    · next m s' hf =>
      obtain ⟨m', s0, q1, q2, q3, q4, q5⟩ := findMark_somebody hF h hI hf
      cases q1 with
      | steps ht =>
        obtain ⟨w1, w2, w3⟩ := ht.start q2 q4
        obtain ⟨e1, e2, mk', e3, e4⟩ := key ht w1 hr
        refine ⟨e1, hF.trans q3 (hF.trans w2 e2), mk', e3, fun hG => ?_⟩
        have hG1 := hF.down e2 hG
        simp only [Build.round, q5 (hF.down w2 hG1) _ (w3 hG1)]
        exact e4 hG _ _
      | shots ht =>
        unfold continueMark at hr
        cases hc : m.cont s' t with
        | error e => rw [hc] at hr; cases hr
        | ok x =>
          obtain ⟨r, s2⟩ := x
          rw [hc] at hr
          obtain ⟨w1, w2, w3, w4⟩ := ht.take q2 q4 hc
          cases r with
          | none => exact absurd rfl w1
          | some r =>
            simp only [Except.ok.injEq, Prod.mk.injEq] at hr
            obtain ⟨rfl, rfl⟩ := hr
            refine ⟨w2, hF.trans q3 w3, _, .none, fun hG => ?_⟩
            obtain ⟨u1, u2⟩ := w4 hG
            simp only [Build.round, q5 (hF.down w3 hG) _ u1, continueMark, u2]

theorem loop_follow (hF : F.Laws) (h : List.Forall₂ (Pair F) ms ms') : ∀ {fuel : Nat} {b b' : State S τ E} {mk : Option (Manip S τ E')} {stack : List τ},
    Marks F b.mark mk → F.I b.st → loop ms fuel b stack = some (.ok b') →
    F.I b'.st ∧ F.ext b.st b'.st ∧ ∃ mk', Marks F b'.mark mk' ∧
      (F.Good b'.st → loop ms' fuel ⟨b.output, mk, F.move b.st⟩ stack = some (.ok ⟨b'.output, mk', F.move b'.st⟩)) := by
  intro fuel
  induction fuel with
  | zero =>
    intro b b' mk stack hm hI hl
    cases stack with
    | nil =>
      simp only [loop, Option.some.injEq, Except.ok.injEq] at hl
      subst hl
      exact ⟨hI, hF.refl _, mk, hm, fun _ => by simp only [loop]⟩
    | cons t ts => simp [loop] at hl
  | succ fuel ih =>
    intro b b' mk stack hm hI hl
    cases stack with
    | nil =>
      simp only [loop, Option.some.injEq, Except.ok.injEq] at hl
      subst hl
      exact ⟨hI, hF.refl _, mk, hm, fun _ => by simp only [loop]⟩
    | cons t ts =>
      simp only [loop] at hl
      split at hl
      · simp at hl
      · next stack' b2 hr =>
        obtain ⟨w, e1, mk1, e2, e3⟩ := round_follow hF h hm hI hr
        obtain ⟨w', e4, mk2, e5, e6⟩ := ih e2 w hl
        exact ⟨w', hF.trans e1 e4, mk2, e5, fun hG => by simp only [loop, e3 (hF.down e4 hG)]; exact e6 hG⟩

theorem runOps_follow (hF : F.Laws) (h : List.Forall₂ (Pair F) ms ms') {fuel : Nat} : ∀ {ops : List (Op τ)} {b b' : State S τ E} {mk : Option (Manip S τ E')}
    {acc acc' : List τ}, Marks F b.mark mk → F.I b.st → runOps ms fuel b acc ops = some (.ok (acc', b')) →
    F.I b'.st ∧ F.ext b.st b'.st ∧ ∃ mk', Marks F b'.mark mk' ∧
      (F.Good b'.st → runOps ms' fuel ⟨b.output, mk, F.move b.st⟩ acc ops = some (.ok (acc', ⟨b'.output, mk', F.move b'.st⟩))) := by
  intro ops
  induction ops with
  | nil =>
    intro b b' mk acc acc' hm hI hl
    simp only [runOps, Option.some.injEq, Except.ok.injEq, Prod.mk.injEq] at hl
    obtain ⟨rfl, rfl⟩ := hl
    exact ⟨hI, hF.refl _, mk, hm, fun _ => rfl⟩
  | cons op ops ih =>
    intro b b' mk acc acc' hm hI hl
    cases op with
    | consume =>
      simp only [runOps] at hl
      obtain ⟨w, e1, mk', e2, e3⟩ := ih (b := { b with output := [] }) hm hI hl
      exact ⟨w, e1, mk', e2, fun hG => by simp only [runOps]; exact e3 hG⟩
    | token t =>
      simp only [runOps, handleToken] at hl
      split at hl
      · cases hl
      · simp at hl
      · next b1 h1 =>
        obtain ⟨w, e1, mk1, e2, e3⟩ := loop_follow hF h hm hI h1
        obtain ⟨w', e4, mk2, e5, e6⟩ := ih e2 w hl
        exact ⟨w', hF.trans e1 e4, mk2, e5, fun hG => by simp only [runOps, handleToken, e3 (hF.down e4 hG)]; exact e6 hG⟩

end Verif.Build
