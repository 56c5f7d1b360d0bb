import Verif.JsManip
import Verif.BuilderThm
/-!
# C82: manipulators of sequences

The documentation of `JSYieldManipulator` (yield_manipulator.py:8-41) says what becomes of the tokens which the generator of a
manipulator has read when it ends: if it gives `False` they are left as they were, otherwise they are replaced.  The builder offers what
it gets to the manipulators again.
-/
namespace Verif.Js
open Verif.Reader (Text txt)
open Verif.Build (Manip State loop Taken Open Closed Stream Declined)

variable {P G τ E : Type}

/-! ## Specification -/

/-- The generator, suspended at `g` after the tokens `stack`, is sent the tokens, and ends with the last of them: with `False` (`none`) or a list. -/
inductive Sent (y : YManip P G τ E) : P → G → List τ → List τ → P → Option (List τ) → Prop
  | pass {p g stack x p'} : y.resume p g (stack ++ [x]) = .ok (p', .pass) → Sent y p g stack [x] p' none
  | replace {p g stack x p' l} : y.resume p g (stack ++ [x]) = .ok (p', .replace l) → Sent y p g stack [x] p' (some l)
  | more {p g stack x xs p' g' p'' r} : y.resume p g (stack ++ [x]) = .ok (p', .yield g') → y.isEof x = false →
      Sent y p' g' (stack ++ [x]) xs p'' r → Sent y p g stack (x :: xs) p'' r

/-- `handle` is called with the first token and then sent the others, and ends with the last of them. -/
inductive Ended (y : YManip P G τ E) : P → List τ → P → Option (List τ) → Prop
  | pass {p t p'} : y.handle p t = .ok (p', .pass) → Ended y p [t] p' none
  | replace {p t p' l} : y.handle p t = .ok (p', .replace l) → Ended y p [t] p' (some l)
  | more {p t p' g xs p'' r} : y.handle p t = .ok (p', .yield g) → y.isEof t = false → Sent y p' g [t] xs p'' r → Ended y p (t :: xs) p'' r

/-- `handle` gives `False` at once for each of the tokens. -/
inductive Ignored (y : YManip P G τ E) : P → List τ → P → Prop
  | nil {p} : Ignored y p [] p
  | cons {p t p' ts p''} : y.handle p t = .ok (p', .pass) → Ignored y p' ts p'' → Ignored y p (t :: ts) p''

/-! ## Proofs -/

theorem Sent.closed {y : YManip P G τ E} {p p' : P} {g : G} {stack xs : List τ} {r : Option (List τ)} (h : Sent y p g stack xs p' r) :
    Closed y.toManip (p, .marking stack g) xs (r.getD (stack ++ xs)) (p', .unmarked) := by
  induction h with
  | @pass p g stack x p' h => exact ⟨[], x, _, rfl, .nil, by simp [YManip.toManip, YManip.cont, h]⟩
  | @replace p g stack x p' l h => exact ⟨[], x, _, rfl, .nil, by simp [YManip.toManip, YManip.cont, h]⟩
  | @more p g stack x xs p' g' p'' r h he hs ih =>
    obtain ⟨ts, t, s1, rfl, h1, h2⟩ := ih
    refine ⟨x :: ts, t, s1, rfl, .cons ?_ h1, ?_⟩
    · simp [YManip.toManip, YManip.cont, h, he]
    · rw [h2]; simp

/-- A manipulator which has read more than one token, or which replaces the token. -/
theorem Ended.taken {y : YManip P G τ E} {p p' : P} {run : List τ} {r : Option (List τ)} (h : Ended y p run p' r) (hr : r ≠ none ∨ 2 ≤ run.length) :
    ∃ t s1, run.head? = some t ∧ Taken [y.toManip] (p, .unmarked) t y.toManip s1 ∧ Closed y.toManip s1 run (r.getD run) (p', .unmarked) := by
  cases h with
  | pass h => simp at hr
  | @replace t _ l h =>
    refine ⟨t, (p', .replacing l), rfl, .head (by simp [YManip.toManip, YManip.start, h]), [], t, _, rfl, .nil, ?_⟩
    simp [YManip.toManip, YManip.cont]
  | @more t p1 g xs _ _ h he hs =>
    refine ⟨t, (p1, .skipping [t] g), rfl, .head (by simp [YManip.toManip, YManip.start, h, he]), ?_⟩
    obtain ⟨ts, x, s1, rfl, h1, h2⟩ := hs.closed
    exact ⟨t :: ts, x, s1, rfl, .cons (by simp [YManip.toManip, YManip.cont]) h1, by simpa using h2⟩

/-- What the manipulator gives is offered to it again, followed by the rest. -/
theorem C82_replaced {y : YManip P G τ E} {p p' : P} {run rest out : List τ} {r : Option (List τ)} {m : Option (Manip (P × YSt G τ) τ E)} {s : P × YSt G τ}
    (h : Ended y p run p' r) (hr : r ≠ none ∨ 2 ≤ run.length) (hs : Stream [y.toManip] (p', .unmarked) (r.getD run ++ rest) out m s) :
    Stream [y.toManip] (p, .unmarked) (run ++ rest) out m s := by
  obtain ⟨t, s1, h1, h2, h3⟩ := h.taken hr
  exact .replace h2 h1 h3 hs

theorem Ignored.stream {y : YManip P G τ E} {p p' : P} {ts rest out : List τ} {m : Option (Manip (P × YSt G τ) τ E)} {s : P × YSt G τ}
    (h : Ignored y p ts p') (hs : Stream [y.toManip] (p', .unmarked) rest out m s) : Stream [y.toManip] (p, .unmarked) (ts ++ rest) (ts ++ out) m s := by
  induction h with
  | nil => exact hs
  | @cons p t p' ts p'' h _ ih => exact .keep (.cons (s' := (p', .unmarked)) (by simp [YManip.toManip, YManip.start, h]) .nil) (ih hs)

/-- Tokens are left as they were if the generator gives `False` and ignores them when it sees them again. -/
theorem C82_kept_partial {y : YManip P G τ E} {p p' p'' : P} {run rest out : List τ} {m : Option (Manip (P × YSt G τ) τ E)} {s : P × YSt G τ}
    (h : Ended y p run p' none) (h2 : 2 ≤ run.length) (hi : Ignored y p' run p'') (hs : Stream [y.toManip] (p'', .unmarked) rest out m s) :
    Stream [y.toManip] (p, .unmarked) (run ++ rest) (run ++ out) m s :=
  C82_replaced h (.inr h2) (hi.stream hs)

theorem loop_open_more {S : Type} {ms : List (Manip S τ E)} {m : Manip S τ E} {s s' : S} {ts : List τ} (h : Open m s ts s') :
    ∀ (fuel : Nat) (b : State S τ E) (more : List τ), more ≠ [] → b.mark = some m → b.st = s →
      loop ms fuel b (ts ++ more) = none ∨ ts.length ≤ fuel ∧ loop ms fuel b (ts ++ more) = loop ms (fuel - ts.length) { b with st := s' } more := by
  induction h with
  | nil => intro fuel b more _ hm hs; right; simp [← hs]
  | @cons s t s1 ts s2 h1 h2 ih =>
    intro fuel b more hn hm hs
    subst hs
    cases fuel with
    | zero => left; simp [loop]
    | succ fuel =>
      rw [List.cons_append]
      simp only [loop, Build.round, hm, Build.continueMark, h1]
      rcases ih fuel { b with mark := some m, st := s1 } more hn rfl rfl with h | ⟨h3, h⟩
      · exact .inl h
      · right
        refine ⟨by simp; omega, ?_⟩
        rw [h]
        simp [hm]

/-- If a manipulator gives back what it took, and is in the state in which it took it, the builder never ends. -/
theorem loop_again {S : Type} {ms : List (Manip S τ E)} {m : Manip S τ E} {s s1 : S} {run : List τ} {t : τ} (ht : run.head? = some t) (h : Taken ms s t m s1)
    (hc : Closed m s1 run run s) : ∀ (fuel : Nat) (b : State S τ E) (rest : List τ), b.mark = none → b.st = s → loop ms fuel b (run ++ rest) = none := by
  obtain ⟨ts, x, s2, rfl, ho, hx⟩ := hc
  intro fuel
  induction fuel using Nat.strongRecOn with
  | _ fuel ih =>
    intro b rest hm hs
    subst hs
    cases ts with
    | nil =>
      simp at ht; subst ht
      cases ho
      cases fuel with
      | zero => simp [loop]
      | succ fuel =>
        rw [List.nil_append, List.singleton_append]
        simp only [loop, Build.round, hm, Build.findMark_some.2 h, Build.continueMark, hx]
        exact ih fuel (by omega) _ rest rfl rfl
    | cons y ts =>
      simp at ht; subst ht
      cases ho with
      | @cons _ _ s3 _ _ h1 h2 =>
        cases fuel with
        | zero => simp [loop]
        | succ fuel =>
          rw [List.append_assoc, List.cons_append]
          simp only [loop, Build.round, hm, Build.findMark_some.2 h, Build.continueMark, h1]
          rcases loop_open_more (ms := ms) h2 fuel { b with mark := some m, st := s3 } ([x] ++ rest) (by simp) rfl rfl with h4 | ⟨h4, h5⟩
          · exact h4
          · rw [h5]
            generalize hf : fuel - ts.length = f
            cases f with
            | zero => simp [loop]
            | succ f =>
              rw [List.singleton_append]
              simp only [loop, Build.round, Build.continueMark, hx]
              exact ih f (by omega) _ rest rfl rfl

/-- If the generator gives `False` after it has read more than one token, and the object is as it was before, the builder never ends. -/
theorem C82_never_ends {y : YManip P G τ E} {p : P} {run rest out : List τ} (h : Ended y p run p none) (h2 : 2 ≤ run.length) (fuel : Nat) :
    loop [y.toManip] fuel { output := out, mark := none, st := (p, .unmarked) } (run ++ rest) = none := by
  obtain ⟨t, s1, h3, h4, h5⟩ := h.taken (.inr h2)
  exact loop_again h3 h4 h5 fuel _ rest rfl rfl

/-! ## The example of the documentation -/

/-- yield_manipulator.py:27-37: whitespace in front of a comment is removed.  The position of the only `yield` is `()`. -/
def example37 : YManip Unit Unit Tok MErr where
  handle _ t := match t with
    | .whitespace _ => .ok ((), .yield ())
    | _ => .ok ((), .pass)
  resume _ _ stack := match stack.getLast? with
    | some (.comment c) => .ok ((), .replace [.comment c])
    | _ => .ok ((), .pass)
  isEof t := t = .eof
  yieldedOnEof := .yieldedOnEof
  asserted := .asserted

/-- Where the whitespace is followed by a comment it does what it should. -/
theorem C82_case : ∃ fuel, loop [example37.toManip] fuel { output := [], mark := none, st := ((), .unmarked) }
    [.whitespace (txt " "), .comment (txt "c"), .eof] = some (.ok { output := [.comment (txt "c"), .eof], mark := none, st := ((), .unmarked) }) :=
  ⟨10, rfl⟩

/-- The scan of an import: the manipulator of imports remembers to ignore the tokens when it sees them again, and they are kept. -/
theorem C82_kept_case (env : HiEnv) (hs : env.scan = true) :
    let run := [Tok.kwImport, .whitespace (txt " "), .str (txt "./a.js")]
    let deps := [(env.resolve (txt "./a.js")).1]
    Ended (hashImports env) ⟨false, []⟩ run ⟨true, deps⟩ none ∧ 2 ≤ run.length ∧ Ignored (hashImports env) ⟨true, deps⟩ run ⟨false, deps⟩ ∧
      Stream [(hashImports env).toManip] (⟨false, deps⟩, .unmarked) [.eof] [.eof] none (⟨false, deps⟩, .unmarked) := by
  refine ⟨.more (p' := ⟨false, []⟩) (g := .l42) (by rfl) rfl (.more (p' := ⟨false, []⟩) (g' := .l42) rfl rfl (.pass ?_)), by decide,
    .cons (p' := ⟨false, _⟩) (by rfl) (.cons (p' := ⟨false, _⟩) rfl (.cons (p' := ⟨false, _⟩) rfl .nil)), .keep (.cons rfl .nil) .nil⟩
  have h1 : prefixOk (txt "./a.js") = true := by decide
  have h2 : (txt "?#").any (fun c => (txt "./a.js").contains c) = false := by decide
  simp only [hashImports, hiResume, List.cons_append, List.nil_append, List.getLast?_cons_cons, List.getLast?_singleton, Option.getD_some, isGap,
    Bool.false_eq_true, if_false, hiResumeAt, handleImport, h1, h2, hs, Bool.not_true, if_true]

/-- Where it is followed by anything else, the build never ends. -/
theorem C82_false_example (v : Text) (t : Tok) (ht : ∀ c, t ≠ .comment c) (rest : List Tok) (fuel : Nat) :
    loop [example37.toManip] fuel { output := [], mark := none, st := ((), .unmarked) } (.whitespace v :: t :: rest) = none := by
  refine C82_never_ends (y := example37) (p := ()) (run := [.whitespace v, t]) (.more (p' := ()) (g := ()) rfl rfl (.pass ?_)) (by simp) fuel
  cases t with
  | comment c => exact absurd rfl (ht c)
  | _ => rfl

end Verif.Js
