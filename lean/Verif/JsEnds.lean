import Verif.BuilderEnds
import Verif.JsHints
import Verif.JsMain
import Verif.JsFile
/-!
# The handling of a script comes to an end
-/
namespace Verif.Js.Ends
open Verif.Reader (Text txt)
open Verif.Build

/-! ## The bound -/

/-- The steps for `l` imports among `n` tokens. -/
def impSteps : Nat → Nat → Nat
  | 0, _ => 0
  | l + 1, n => (n + 2) * (n + 3) + impSteps l (n + 1)

/-- The steps for `H` type hints, the tokens and imports being `m`. -/
def hintSteps : Nat → Nat → Nat
  | 0, _ => 0
  | H + 1, m => (m + 1) * (m + 2) + impSteps m m + 1 + hintSteps H (2 * m)

/-- The steps left: `k` tokens are still to be handled, `s` lines to be read for hints, `l` imports to be read, among `n` tokens with `H` hints. -/
def left (k s l n H : Nat) : Nat := k + s * (n + 1) + impSteps l n + hintSteps H (n + l)

/-- More steps than a script of `n` tokens needs. -/
def steps (n : Nat) : Nat := left n n n n n + 1

theorem impSteps_mono : ∀ {l l' : Nat}, l ≤ l' → ∀ {n n' : Nat}, n ≤ n' → impSteps l n ≤ impSteps l' n'
  | 0, _, _, _, _, _ => by simp [impSteps]
  | l + 1, 0, h, _, _, _ => absurd h (Nat.not_succ_le_zero _)
  | l + 1, l' + 1, h, n, n', hn => by
    unfold impSteps
    exact Nat.add_le_add (Nat.mul_le_mul (by omega) (by omega)) (impSteps_mono (by omega) (by omega))

theorem hintSteps_mono : ∀ {H H' : Nat}, H ≤ H' → ∀ {m m' : Nat}, m ≤ m' → hintSteps H m ≤ hintSteps H' m'
  | 0, _, _, _, _, _ => by simp [hintSteps]
  | H + 1, 0, h, _, _, _ => absurd h (Nat.not_succ_le_zero _)
  | H + 1, H' + 1, h, m, m', hm => by
    unfold hintSteps
    have h1 := Nat.mul_le_mul (show m + 1 ≤ m' + 1 by omega) (show m + 2 ≤ m' + 2 by omega)
    have h2 := impSteps_mono hm hm
    have h3 := hintSteps_mono (show H ≤ H' by omega) (show 2 * m ≤ 2 * m' by omega)
    omega

theorem left_mono {k k' s s' l l' n n' H H' : Nat} (hk : k' ≤ k) (hs : s' ≤ s) (hl : l' ≤ l) (hn : n' ≤ n) (hH : H' ≤ H) :
    left k' s' l' n' H' ≤ left k s l n H := by
  unfold left
  have h1 := Nat.mul_le_mul hs (show n' + 1 ≤ n + 1 by omega)
  have h2 := impSteps_mono hl hn
  have h3 := hintSteps_mono hH (show n' + l' ≤ n + l by omega)
  omega

theorem left_keep {k k' s s' l l' n n' H H' : Nat} (hk : k' < k) (hs : s' ≤ s) (hl : l' ≤ l) (hn : n' ≤ n) (hH : H' ≤ H) :
    left k' s' l' n' H' < left k s l n H := by
  unfold left
  have h1 := Nat.mul_le_mul hs (show n' + 1 ≤ n + 1 by omega)
  have h2 := impSteps_mono hl hn
  have h3 := hintSteps_mono hH (show n' + l' ≤ n + l by omega)
  omega

theorem left_line {k k' s s' l n H : Nat} (hs : s' + 1 ≤ s) (hk : k' ≤ n) : left k' s' l n H < left k s l n H := by
  unfold left
  have h1 := Nat.mul_le_mul hs (Nat.le_refl (n + 1))
  rw [Nat.add_mul] at h1
  omega

theorem left_import {k k' s s' l l' n n' H H' : Nat} (hl : l' + 1 ≤ l) (hn : n' ≤ n + 1) (hk : k' ≤ n') (hs : s' ≤ n') (hH : H' ≤ H) :
    left k' s' l' n' H' < left k s l n H := by
  unfold left
  have h1 := Nat.mul_le_mul (show s' ≤ n + 1 by omega) (show n' + 1 ≤ n + 2 by omega)
  have h2 := impSteps_mono hl (Nat.le_refl n)
  have h2' : impSteps (l' + 1) n = (n + 2) * (n + 3) + impSteps l' (n + 1) := rfl
  have h4 := impSteps_mono (Nat.le_refl l') hn
  have h3 := hintSteps_mono hH (show n' + l' ≤ n + l by omega)
  have h5 : (n + 2) * (n + 3) = (n + 1) * (n + 2) + 2 * (n + 2) := by rw [Nat.mul_comm (n + 2), ← Nat.add_mul]
  omega

theorem left_hint {k k' s s' l l' n n' H H' : Nat} (hH : H' + 1 ≤ H) (hn : n' ≤ n) (hl : l' ≤ n') (hk : k' ≤ n') (hs : s' ≤ n') :
    left k' s' l' n' H' < left k s l n H := by
  unfold left
  have h1 := Nat.mul_le_mul (show s' ≤ n + l by omega) (show n' + 1 ≤ n + l + 1 by omega)
  have h2 := hintSteps_mono hH (Nat.le_refl (n + l))
  have h2' : hintSteps (H' + 1) (n + l) = (n + l + 1) * (n + l + 2) + impSteps (n + l) (n + l) + 1 + hintSteps H' (2 * (n + l)) := rfl
  have h3 := impSteps_mono (show l' ≤ n + l by omega) (show n' ≤ n + l by omega)
  have h4 := hintSteps_mono (Nat.le_refl H') (show n' + l' ≤ 2 * (n + l) by omega)
  have h5 : (n + l + 1) * (n + l + 2) = (n + l) * (n + l + 1) + 2 * (n + l + 1) := by
    rw [Nat.mul_comm (n + l + 1), ← Nat.add_mul]
  omega

/-! ## What is counted -/

/-- Whether the next line is skipped, after the token `t` of a line which is not taken. -/
def nextA (te : ThEnv) (a : Bool) (t : Tok) : Bool := if te.scan then a else if a then decide (t ≠ .lineTerminator) else true

/-- Whether the token starts a line which is read for hints. -/
def takes (te : ThEnv) (a : Bool) (t : Tok) : Bool := !te.scan && !a && !endsLine t

/-- The lines which are still to be read for hints. -/
def lines (te : ThEnv) : Bool → List Tok → Nat
  | _, [] => 0
  | a, t :: ts => if takes te a t then 1 + lines te (nextA te true t) ts else lines te (nextA te a t) ts

/-- Whether the next import is skipped, after the token `t`. -/
def nextH (h : Bool) (t : Tok) : Bool := if h then decide (t ≠ .kwImport) else isSkipMark t

/-- The imports which are still to be read. -/
def live : Bool → List Tok → Nat
  | _, [] => 0
  | h, t :: ts => (if t = .kwImport ∧ h = false then 1 else 0) + live (nextH h t) ts

theorem lines_le (te : ThEnv) : ∀ (ts : List Tok) (a : Bool), lines te a ts ≤ ts.length
  | [], _ => Nat.le_refl _
  | t :: ts, a => by
    unfold lines
    have h1 := lines_le te ts (nextA te true t)
    have h2 := lines_le te ts (nextA te a t)
    split <;> simp only [List.length_cons] <;> omega

theorem live_le : ∀ (ts : List Tok) (h : Bool), live h ts ≤ ts.length
  | [], _ => Nat.le_refl _
  | t :: ts, h => by
    unfold live
    have h1 := live_le ts (nextH h t)
    split <;> simp only [List.length_cons] <;> omega

theorem live_str (a b : Text) (ys : List Tok) : ∀ (xs : List Tok) (h : Bool), live h (xs ++ .str a :: ys) = live h (xs ++ .str b :: ys)
  | [], h => by simp [live, nextH, isSkipMark]
  | x :: xs, h => by simp only [List.cons_append, live]; rw [live_str a b ys xs]

theorem lines_taken {te : ThEnv} {t : Tok} (h : takes te false t = true) (ts : List Tok) :
    lines te false (t :: ts) = 1 + lines te true (t :: ts) := by
  have h' : takes te true t = false := by simp [takes]
  simp only [lines, h, h', if_true, Bool.false_eq_true, if_false]

/-! ## The manipulators -/

theorem th_start (te : ThEnv) (a : Bool) (t : Tok) : (typeHints te).start (a, .unmarked) t =
    if takes te a t then .ok (true, (false, .skipping [t] (isHint te t))) else .ok (false, (nextA te a t, .unmarked)) := by
  obtain ⟨sc, sp⟩ := te
  cases sc
  · cases a
    · cases he : endsLine t
      · have hne : isEof t = false := by
          simp only [endsLine, Bool.or_eq_false_iff] at he
          simp [isEof, he.2]
        simp [YManip.start, typeHints, thHandle, thLoop, takes, he, hne]
      · simp [YManip.start, typeHints, thHandle, thLoop, takes, nextA, he]
    · simp [YManip.start, typeHints, thHandle, takes, nextA]
  · simp [YManip.start, typeHints, thHandle, takes, nextA]

theorem hi_start (he : HiEnv) (p : HiP) (t : Tok) : (hashImports he).start (p, .unmarked) t =
    if t = .kwImport ∧ p.skip = false then .ok (true, (p, .skipping [t] .l42))
    else .ok (false, ({ p with skip := nextH p.skip t }, .unmarked)) := by
  obtain ⟨s, d⟩ := p
  simp only [YManip.start, hashImports, hiHandle, nextH]
  cases s
  · by_cases ht : t = .kwImport
    · subst ht; simp [isSkipMark, isEof]
    · cases hm : isSkipMark t <;> simp [ht]
  · by_cases ht : t = .kwImport
    · subst ht; simp
    · simp [ht]

theorem bad_mark (he : HiEnv) (stack : List Tok) (hint : Text) : ∃ v, markBad he stack hint = .replace (.comment v :: stack) ∧
    v.head? = some 80 ∧ isSkipMark (.comment v) = true := by
  refine ⟨_, rfl, ?_, ?_⟩
  · rw [show txt "PREPROCESSOR: ignore-import " = 80 :: txt "REPROCESSOR: ignore-import " from by decide]; rfl
  · simp only [isSkipMark, List.isPrefixOf_iff_prefix]
    rw [show txt "PREPROCESSOR: ignore-import " = txt "PREPROCESSOR: ignore-import" ++ [32] from by decide]
    simp only [List.append_assoc]
    exact List.prefix_append _ _

/-- What becomes of an import which is read further. -/
inductive Next (p : HiP) (stack : List Tok) (t : Tok) : HiP → Act Pos Tok → Prop
  | more (g : Pos) : Next p stack t p (.yield g)
  | bad (v : Text) : v.head? = some 80 → isSkipMark (.comment v) = true → Next p stack t p (.replace (.comment v :: (stack ++ [t])))
  | seen (q : HiP) : q.skip = true → Next p stack t q .pass
  | hashed (q : HiP) (s s' : Text) : q.skip = true → t = .str s → Next p stack t q (.replace (stack ++ [.str s']))

theorem Next.mark {p : HiP} {stack : List Tok} {t : Tok} (he : HiEnv) (hint : Text) : Next p stack t p (markBad he (stack ++ [t]) hint) := by
  obtain ⟨v, h1, h2, h3⟩ := bad_mark he (stack ++ [t]) hint
  rw [h1]; exact .bad v h2 h3

theorem handleImport_next {he : HiEnv} {p q : HiP} {stack : List Tok} {s : Text} {act : Act Pos Tok}
    (h : handleImport he p (stack ++ [.str s]) s = .ok (q, act)) : Next p stack (.str s) q act := by
  unfold handleImport at h
  split at h
  · cases h; exact .mark he _
  split at h
  · cases h; exact .mark he _
  dsimp only at h
  split at h
  · cases h; exact .seen _ rfl
  split at h
  · cases h
  · cases h
    rw [List.dropLast_concat]
    exact .hashed _ s _ rfl rfl

theorem expectFrom_next {he : HiEnv} {p : HiP} {stack : List Tok} {t : Tok} : Next p stack t p (expectFrom he (stack ++ [t]) t) := by
  unfold expectFrom
  split
  · exact .more _
  · exact .mark he _

theorem curlyHead_next {he : HiEnv} {p : HiP} {stack : List Tok} {t : Tok} : Next p stack t p (curlyHead he (stack ++ [t]) t) := by
  unfold curlyHead
  split
  · exact .more _
  · exact .more _
  · exact .mark he _

theorem hi_resume {he : HiEnv} {p q : HiP} {g : Pos} {stack : List Tok} {t : Tok} {act : Act Pos Tok}
    (h : hiResume he p g (stack ++ [t]) = .ok (q, act)) : Next p stack t q act := by
  simp only [hiResume, List.getLast?_concat, Option.getD_some] at h
  split at h
  · cases h; exact .more _
  · cases g <;> simp only [hiResumeAt] at h <;> (try split at h) <;>
      first
        | exact handleImport_next h
        | (cases h; first | exact .more _ | exact .mark he _ | exact expectFrom_next | exact curlyHead_next)

theorem first_start {A B : Type} (m : Manip A Tok MErr) (s : A × B) (t : Tok) :
    (onFirst m).start s t = (m.start s.1 t).map fun r => (r.1, (r.2, s.2)) := rfl
theorem first_cont {A B : Type} (m : Manip A Tok MErr) (s : A × B) (t : Tok) :
    (onFirst m).cont s t = (m.cont s.1 t).map fun r => (r.1, (r.2, s.2)) := rfl
theorem second_start {A B : Type} (m : Manip B Tok MErr) (s : A × B) (t : Tok) :
    (onSecond m).start s t = (m.start s.2 t).map fun r => (r.1, (s.1, r.2)) := rfl
theorem second_cont {A B : Type} (m : Manip B Tok MErr) (s : A × B) (t : Tok) :
    (onSecond m).cont s t = (m.cont s.2 t).map fun r => (r.1, (s.1, r.2)) := rfl
theorem manip_start {P G : Type} (y : YManip P G Tok MErr) : y.toManip.start = y.start := rfl
theorem manip_cont {P G : Type} (y : YManip P G Tok MErr) : y.toManip.cont = y.cont := rfl
theorem skipping_cont {P G : Type} (y : YManip P G Tok MErr) (p : P) (l : List Tok) (g : G) (t : Tok) :
    y.cont (p, .skipping l g) t = .ok (none, (p, .marking l g)) := rfl

theorem th_cont (te : ThEnv) (a : Bool) (l : List Tok) (ex : Bool) (t : Tok) : (typeHints te).cont (a, .marking l ex) t =
    if endsLine t then
      if ex then .ok (some [.comment (serializeMany l), t], (false, .unmarked)) else .ok (some (l ++ [t]), (true, .unmarked))
    else .ok (none, (false, .marking (l ++ [t]) (ex || isHint te t))) := by
  simp only [YManip.cont, typeHints, thResume, List.getLast?_concat, Option.getD_some, thLoop, List.dropLast_concat]
  cases he : endsLine t
  · have hne : isEof t = false := by
      simp only [endsLine, Bool.or_eq_false_iff] at he
      simp [isEof, he.2]
    simp [hne]
  · cases ex <;> simp

theorem hi_cont (he : HiEnv) (p : HiP) (l : List Tok) (g : Pos) (t : Tok) : (hashImports he).cont (p, .marking l g) t =
    match hiResume he p g (l ++ [t]) with
    | .error e => .error e
    | .ok (p, .yield g') => if isEof t then .error .yieldedOnEof else .ok (none, (p, .marking (l ++ [t]) g'))
    | .ok (p, .pass) => .ok (some (l ++ [t]), (p, .unmarked))
    | .ok (p, .replace l) => .ok (some l, (p, .unmarked)) := by
  simp only [YManip.cont, hashImports]
  cases hiResume he p g (l ++ [t]) with
  | error e => rfl
  | ok y =>
    obtain ⟨q, act⟩ := y
    cases act <;> rfl

/-! ## The potential -/

/-- The tokens which a manipulator has taken. -/
def held {G τ : Type} : YSt G τ → List τ
  | .unmarked => []
  | .replacing l => l
  | .skipping l _ => l
  | .marking l _ => l

/-- The tokens taken and those which follow. -/
def before (s : JsSt) (rest : List Tok) : List Tok := held s.1.2 ++ held s.2.2 ++ rest

def weight (te : ThEnv) (s : JsSt) (rest : List Tok) : Nat :=
  left rest.length (lines te s.1.1 (before s rest)) (live s.2.1.skip (before s rest)) (before s rest).length
    ((before s rest).countP (isHint te))

/-- The states between two rounds. -/
inductive Ok (te : ThEnv) (he : HiEnv) : State JsSt Tok MErr → Prop
  | free (o : List Tok) (a : Bool) (p : HiP) : Ok te he ⟨o, none, ((a, .unmarked), (p, .unmarked))⟩
  | line (o : List Tok) (x : Tok) (stack : List Tok) (ex : Bool) (p : HiP) : takes te false x = true →
      (ex = true → (x :: stack).any (isHint te) = true) →
      Ok te he ⟨o, some (onFirst (typeHints te).toManip), ((false, .marking (x :: stack) ex), (p, .unmarked))⟩
  | imp (o : List Tok) (a : Bool) (stack : List Tok) (g : Pos) (p : HiP) : p.skip = false →
      Ok te he ⟨o, some (onSecond (hashImports he).toManip), ((a, .unmarked), (p, .marking (.kwImport :: stack) g))⟩

theorem any_countP {te : ThEnv} {l : List Tok} (h : l.any (isHint te) = true) : 1 ≤ l.countP (isHint te) := by
  obtain ⟨x, hx, h⟩ := List.any_eq_true.1 h
  exact List.countP_pos_iff.2 ⟨x, hx, h⟩

theorem step {te : ThEnv} (hs : SpaceOk te.space) (he : HiEnv) (b : State JsSt Tok MErr) (t : Tok) (rest stack' : List Tok) (b' : State JsSt Tok MErr)
    (hb : Ok te he b) (h : Build.round (jsManips te he) b t rest = .ok (stack', b')) :
    Ok te he b' ∧ weight te b'.st stack' < weight te b.st (t :: rest) := by
  cases hb with
  | free o a p =>
    simp only [Build.round, jsManips, findMark, first_start, manip_start, th_start] at h
    by_cases ht : takes te a t = true
    · have ha : a = false := by cases a <;> simp_all [takes]
      subst ha
      simp only [ht, if_true, Except.map, continueMark, first_cont, manip_cont, skipping_cont] at h
      cases h
      refine ⟨.line o t [] _ p ht (by simp), ?_⟩
      simp only [weight, before, held, List.append_nil, List.nil_append, List.singleton_append]
      exact left_keep (by simp) (Nat.le_refl _) (Nat.le_refl _) (Nat.le_refl _) (Nat.le_refl _)
    · simp only [ht, if_false, Except.map, second_start, manip_start, hi_start, Bool.false_eq_true] at h
      by_cases hi : t = .kwImport ∧ p.skip = false
      · simp only [hi, and_self, if_true, continueMark, second_cont, manip_cont, skipping_cont, Except.map] at h
        obtain ⟨rfl, hp⟩ := hi
        have ha : nextA te a .kwImport = a := by
          clear h hs he hp
          obtain ⟨sc, sp⟩ := te
          cases sc <;> cases a <;> simp_all [takes, endsLine, nextA]
        rw [ha] at h
        cases h
        refine ⟨.imp o a [] _ p hp, ?_⟩
        simp only [weight, before, held, List.append_nil, List.nil_append, List.singleton_append]
        exact left_keep (by simp) (Nat.le_refl _) (Nat.le_refl _) (Nat.le_refl _) (Nat.le_refl _)
      · simp only [hi, if_false] at h
        cases h
        refine ⟨.free _ _ _, ?_⟩
        simp only [weight, before, held, List.append_nil, List.nil_append]
        refine left_keep (by simp) ?_ ?_ (by simp) (List.countP_cons ▸ Nat.le_add_right _ _)
        · simp only [lines, ht, if_false, Bool.false_eq_true]; exact Nat.le_refl _
        · simp only [live]; exact Nat.le_add_left _ _
  | line o x stack ex p hx hex =>
    simp only [Build.round, continueMark, first_cont, manip_cont, th_cont] at h
    by_cases hl : endsLine t = true
    · simp only [hl, if_true] at h
      cases ex with
      | false =>
        simp only [Bool.false_eq_true, if_false, Except.map] at h
        cases h
        refine ⟨.free _ _ _, ?_⟩
        simp only [weight, before, held, List.append_nil, List.nil_append, List.cons_append, List.append_assoc, List.singleton_append]
        refine left_line ?_ (Nat.le_refl _)
        rw [lines_taken hx]; omega
      | true =>
        simp only [if_true, Except.map] at h
        cases h
        refine ⟨.free _ _ _, ?_⟩
        simp only [weight, before, held, List.append_nil, List.nil_append]
        refine left_hint ?_ ?_ (live_le _ _) (Nat.le_refl _) (lines_le _ _ _)
        · have hn : isHint te (.comment (serializeMany (x :: stack))) = false := by
            cases hc : isHint te (.comment (serializeMany (x :: stack))) with
            | false => rfl
            | true =>
              obtain ⟨y, hy, hy'⟩ := List.any_eq_true.1 (hex rfl)
              exact absurd ((isHint_iff te hs _).1 hc) (not_hint_of_slash hs (hint_serialized_slash ⟨y, hy, (isHint_iff te hs y).1 hy'⟩))
          have h1 := any_countP (hex rfl)
          simp only [List.cons_append, List.nil_append, List.countP_append, List.countP_cons, hn, Bool.false_eq_true, if_false] at h1 ⊢
          omega
        · simp only [List.cons_append, List.nil_append, List.length_cons, List.length_append]; omega
    · simp only [Bool.not_eq_true] at hl
      simp only [hl, Bool.false_eq_true, if_false, Except.map] at h
      cases h
      refine ⟨.line o x (stack ++ [t]) _ p hx ?_, ?_⟩
      · intro h
        rw [← List.cons_append, List.any_append]
        rcases Bool.or_eq_true_iff.1 h with h | h
        · rw [hex h]; rfl
        · simp [h]
      · simp only [weight, before, held, List.append_nil, List.nil_append, List.cons_append, List.append_assoc, List.singleton_append]
        exact left_keep (by simp) (Nat.le_refl _) (Nat.le_refl _) (Nat.le_refl _) (Nat.le_refl _)
  | imp o a stack g p hp =>
    simp only [Build.round, continueMark, second_cont, manip_cont, hi_cont] at h
    cases hr : hiResume he p g (.kwImport :: stack ++ [t]) with
    | error e => rw [hr] at h; simp only [Except.map] at h; cases h
    | ok y =>
      obtain ⟨q, act⟩ := y
      rw [hr] at h
      cases hi_resume hr with
      | more g' =>
        cases hne : isEof t with
        | true => simp only [hne, if_true, Except.map] at h; cases h
        | false =>
          simp only [hne, Bool.false_eq_true, if_false, Except.map] at h
          cases h
          refine ⟨.imp o a (stack ++ [t]) g' p hp, ?_⟩
          simp only [weight, before, held, List.append_nil, List.nil_append, List.cons_append, List.append_assoc, List.singleton_append]
          exact left_keep (by simp) (Nat.le_refl _) (Nat.le_refl _) (Nat.le_refl _) (Nat.le_refl _)
      | bad v h1 h2 =>
        simp only [Except.map] at h
        cases h
        refine ⟨.free _ _ _, ?_⟩
        simp only [weight, before, held, List.append_nil, List.nil_append, List.cons_append, List.append_assoc, List.singleton_append]
        refine left_import ?_ ?_ (Nat.le_refl _) (lines_le _ _ _) ?_
        · simp only [live, hp, nextH, h2]; simp [isSkipMark]
        · simp
        · have hn : isHint te (.comment v) = false := by
            cases hc : isHint te (.comment v) with
            | false => rfl
            | true => exact absurd ((isHint_iff te hs _).1 hc) (not_hint_of_head hs h1)
          simp [List.countP_cons, hn]
      | seen _ hq =>
        simp only [Except.map] at h
        cases h
        refine ⟨.free _ _ _, ?_⟩
        simp only [weight, before, held, List.append_nil, List.nil_append, List.cons_append, List.append_assoc, List.singleton_append]
        refine left_import ?_ (by simp) (Nat.le_refl _) (lines_le _ _ _) (Nat.le_refl _)
        simp only [live, hp, nextH, hq]; simp [isSkipMark]
      | hashed _ s s' hq ht =>
        subst ht
        simp only [Except.map] at h
        cases h
        refine ⟨.free _ _ _, ?_⟩
        simp only [weight, before, held, List.append_nil, List.nil_append, List.cons_append, List.append_assoc, List.singleton_append]
        refine left_import ?_ (by simp) (Nat.le_refl _) (lines_le _ _ _) ?_
        · simp only [live, hp, nextH, hq]; rw [live_str s' s]; simp [isSkipMark]
        · simp [List.countP_cons, List.countP_append, isHint]

/-- A run over the tokens of a script ends within `steps`. -/
theorem runOps_script {te : ThEnv} (hs : SpaceOk te.space) (he : HiEnv) {fuel : Nat} {ops : List (Op Tok)} (h : steps (tokensOf ops).length ≤ fuel) :
    runOps (jsManips te he) fuel (State.new jsInit) [] ops ≠ none := by
  refine runOps_ends (I := fun b _ => Ok te he b) (W := fun b => weight te b.st) (step hs he) ?_ (fun _ _ _ => rfl) ops _ _ (.free _ _ _) ?_
  · intro b o _ hb
    cases hb with
    | free _ a p => exact .free _ _ _
    | line _ x stack ex p h1 h2 => exact .line _ x stack ex p h1 h2
    | imp _ a stack g p h1 => exact .imp _ a stack g p h1
  · refine Nat.lt_of_lt_of_le (Nat.lt_succ_of_le ?_) h
    simp only [weight, before, held, State.new, jsInit, List.nil_append]
    exact left_mono (Nat.le_refl _) (lines_le _ _ _) (live_le _ _) (Nat.le_refl _) List.countP_le_length

theorem tokens_map (ts : List Tok) : tokensOf (ts.map Op.token) = ts := by
  induction ts with
  | nil => rfl
  | cons t ts ih => simp only [List.map_cons, tokensOf, ih]

theorem tokens_perToken (ts : List Tok) : tokensOf (File.perToken ts) = ts := by
  unfold File.perToken
  induction ts with
  | nil => rfl
  | cons t ts ih => simp only [List.flatMap_cons, List.cons_append, List.nil_append, tokensOf, ih]

end Verif.Js.Ends

namespace Verif.Js.File
open Verif.Reader (Text txt)
open Verif.Build
open Verif.Handlers (Bytes Fs Scan Built)

theorem steady {α β : Type} {f : Nat → Option α} {N : Nat} {r : α} (h : ∀ k, f (N + k) = some r) (g : α → β) :
    ∃ x, ∀ fuel, N ≤ fuel → (f fuel).map g = some x :=
  ⟨g r, fun fuel hf => by obtain ⟨k, rfl⟩ := Nat.le.dest hf; rw [h k]; rfl⟩

/-- **C112** for scripts: scanning and building a script comes to an end, with a result or an exception, within a number of
steps which depends only on its text: not on the other files, its name or the hashes. -/
theorem C112_script (text : Text) : ∃ N, ∀ (env : Env), SpaceOk env.space → ∀ (rel : Text) (fs : Fs) (y : Bytes), fs rel = some y → env.decode y = text →
    (∃ r, ∀ fuel, N ≤ fuel → scanFile fuel env rel fs = some r) ∧ ∃ r, ∀ fuel, N ≤ fuel → buildFile fuel env rel fs = some r := by
  obtain ⟨ts, hts⟩ := C26_total text
  refine ⟨Ends.steps ts.length, fun env hs rel fs y hy ht => ⟨?_, ?_⟩⟩
  · unfold scanFile
    by_cases hr : (!(txt ".js").isSuffixOf rel) = true
    · simp only [hr, if_true]; exact ⟨_, fun _ _ => rfl⟩
    · simp only [hr, if_false, hy, ht, hts, Bool.false_eq_true]
      cases h : runOps (manips env true rel fs) (Ends.steps ts.length) (State.new jsInit) [] (ts.map .token) with
      | none => exact absurd h (Ends.runOps_script (te := ⟨true, env.space⟩) hs _ (by rw [Ends.tokens_map]))
      | some r =>
        exact steady (f := fun fuel => runOps (manips env true rel fs) fuel (State.new jsInit) [] (ts.map .token)) (fun k => runOps_mono _ _ k _ _ _ _ h) _
  · unfold buildFile
    by_cases hr : (!(txt ".js").isSuffixOf rel) = true
    · simp only [hr, if_true]; exact ⟨_, fun _ _ => rfl⟩
    · simp only [hr, if_false, Bool.false_eq_true]
      cases Handlers.copyTarget rel with
      | none => exact ⟨_, fun _ _ => rfl⟩
      | some target =>
        simp only [hy, ht, hts]
        cases h : runOps (manips env false rel fs) (Ends.steps ts.length) (State.new jsInit) [] (perToken ts) with
        | none => exact absurd h (Ends.runOps_script (te := ⟨false, env.space⟩) hs _ (by rw [Ends.tokens_perToken]))
        | some r =>
          exact steady (f := fun fuel => runOps (manips env false rel fs) fuel (State.new jsInit) [] (perToken ts)) (fun k => runOps_mono _ _ k _ _ _ _ h) _

end Verif.Js.File
