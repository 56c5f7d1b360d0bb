import Verif.CssDataThm
import Verif.BuilderSub

/-!
# What the builder makes of images in stylesheets
-/

namespace Verif.Css.Data

open Verif.Reader (Text txt)
open Verif.Css (Tok)
open Verif.Assoc
open Verif.Paths (join basename)
open Verif.Build
open Verif.Handlers (Bytes Fs hashScan hashBuild hashTarget hashTarget_out outWww srcPublic)
open Verif.Icons (add addAll mem_add join_rel)

/-- What is put in place of the string. -/
def swap (scan : Bool) (env : Env) (st : St) (type data : Text) : Except DErr (Tok × St) :=
  let a := allot env { st with skip := true, stage := none, stack := [] } type data
  let url := a.1.drop (txt "out/www").length
  if scan then .ok (.str url, announce a.2.1 a.1 a.2.2)
  else
    match make env a.2.1 a.1 data a.2.2 with
    | .error e => .error e
    | .ok (b, st) => .ok (.str (url ++ txt "?" ++ env.query b), st)

/-- The data of the token, if it is a string behind `url(`. -/
def found (prev : Bool) (t : Tok) : Option (Text × Text) :=
  if prev then tokData t else none

/-- One token; `prev` says whether `url(` is in front of it. -/
def step (scan : Bool) (env : Env) (prev : Bool) (st : St) (t : Tok) : Except DErr (Tok × St) :=
  match found prev t with
  | none => .ok (t, st)
  | some (type, data) =>
    match swap scan env st type data with
    | .error e => .error e
    | .ok (t', st') => .ok (t', { st' with skip := false })

def isUrl (t : Tok) : Bool := decide (t = .function (txt "url"))

/-- All tokens. -/
def run (scan : Bool) (env : Env) : Bool → St → List Tok → Except DErr (List Tok × St)
  | _, st, [] => .ok ([], st)
  | prev, st, t :: ts =>
    match step scan env prev st t with
    | .error e => .error e
    | .ok (t', st1) =>
      match run scan env (isUrl t) st1 ts with
      | .error e => .error e
      | .ok (out, st2) => .ok (t' :: out, st2)

/-- Between two tokens. -/
def Base (st : St) : Prop := st.skip = false ∧ st.stage = none ∧ st.stack = []

theorem allot_rest (env : Env) (st : St) (type data : Text) : (allot env st type data).2.2.stage = st.stage ∧
    (allot env st type data).2.2.stack = st.stack := by
  unfold allot
  split <;> exact ⟨rfl, rfl⟩

theorem swap_rest {scan : Bool} {env : Env} {st st' : St} {type data : Text} {t : Tok} (h : swap scan env st type data = .ok (t, st')) :
    st'.stage = none ∧ st'.stack = [] ∧ ∃ v, t = .str v := by
  have ha := allot_rest env { st with skip := true, stage := none, stack := [] } type data
  unfold swap at h
  simp only at h
  split at h
  · cases h
    refine ⟨?_, ?_, _, rfl⟩
    · unfold announce; split <;> exact ha.1
    · unfold announce; split <;> exact ha.2
  · split at h
    · cases h
    · next b st1 hm =>
      cases h
      unfold make at hm
      simp only at hm
      split at hm
      · cases hm
      · next st2 hm2 =>
        split at hm
        · cases hm
        · cases hm
          have : st'.stage = (allot env { st with skip := true, stage := none, stack := [] } type data).2.2.stage ∧
              st'.stack = (allot env { st with skip := true, stage := none, stack := [] } type data).2.2.stack := by
            split at hm2
            · split at hm2
              · cases hm2
              · cases hm2
                unfold store
                split <;> exact ⟨rfl, rfl⟩
            · cases hm2; exact ⟨rfl, rfl⟩
          exact ⟨this.1.trans ha.1, this.2.trans ha.2, _, rfl⟩

theorem step_base {scan : Bool} {env : Env} {prev : Bool} {st st' : St} {t t' : Tok} (hb : Base st)
    (h : step scan env prev st t = .ok (t', st')) : Base st' := by
  unfold step at h
  split at h
  · cases h; exact hb
  · split at h
    · cases h
    · next hs =>
      cases h
      obtain ⟨h1, h2, -⟩ := swap_rest hs
      exact ⟨rfl, h1, h2⟩

theorem start_other (st : St) {t : Tok} (h : isUrl t = false) : start st t = .ok (false, st) := by
  unfold start
  split
  · next v =>
    rw [if_pos]
    intro hv
    subst hv
    simp [isUrl] at h
  · rfl

theorem loop_run (scan : Bool) (env : Env) : ∀ (n : Nat) (ts out : List Tok) (st : St), ts.length ≤ n → Base st →
    ts.getLast? ≠ some (.function (txt "url")) →
    ∃ f, loop [outlineData scan env] f ⟨out, none, st⟩ ts = some (done out (run scan env false st ts)) := by
  intro n
  induction n with
  | zero =>
    intro ts out st hn _ _
    have : ts = [] := List.length_eq_zero_iff.1 (by omega)
    subst this
    exact ⟨0, by simp [loop, run, done]⟩
  | succ n ih =>
    intro ts out st hn hb hl
    cases ts with
    | nil => exact ⟨0, by simp [loop, run, done]⟩
    | cons t ts =>
      have hl' : ts.getLast? ≠ some (.function (txt "url")) := by
        intro h
        apply hl
        rw [List.getLast?_cons, h]
        rfl
      cases hu : isUrl t with
      | false =>
        obtain ⟨f, hf⟩ := ih ts (out ++ [t]) st (by simp at hn; omega) hb hl'
        refine ⟨f + 1, ?_⟩
        have hs : (outlineData scan env).start st t = .ok (false, st) := start_other st hu
        simp only [loop, round, findMark, hs, hf, run, step, found, Bool.false_eq_true, if_false, hu]
        cases run scan env false st ts with
        | error e => rfl
        | ok p => simp [done]
      | true =>
        have ht : t = .function (txt "url") := by simpa [isUrl] using hu
        subst ht
        cases ts with
        | nil => exact absurd rfl hl
        | cons u ts =>
          obtain ⟨hb1, hb2, hb3⟩ := hb
          obtain ⟨fs, d1, d2, d3, d4, d5, d6, d7, sk, sg, sa⟩ := st
          simp only at hb1 hb2 hb3
          subst hb1 hb2 hb3
          -- the first two rounds
          have h1 : (outlineData scan env).start ⟨fs, d1, d2, d3, d4, d5, d6, d7, false, none, []⟩ (.function (txt "url")) =
              .ok (true, ⟨fs, d1, d2, d3, d4, d5, d6, d7, false, some .url, []⟩) := by
            simp [outlineData, start]
          have h2 : (outlineData scan env).cont ⟨fs, d1, d2, d3, d4, d5, d6, d7, false, some .url, []⟩ (.function (txt "url")) =
              .ok (none, ⟨fs, d1, d2, d3, d4, d5, d6, d7, false, some .string, [.function (txt "url")]⟩) := by
            simp [outlineData, cont]
          have h3 : ∀ s : St, (outlineData scan env).start { s with skip := true } (.function (txt "url")) = .ok (false, { s with skip := false }) := by
            intro s
            simp [outlineData, start]
          cases hfd : found true u with
          | none =>
            have h4 : (outlineData scan env).cont ⟨fs, d1, d2, d3, d4, d5, d6, d7, false, some .string, [.function (txt "url")]⟩ u =
                .ok (some [.function (txt "url"), u], ⟨fs, d1, d2, d3, d4, d5, d6, d7, true, none, []⟩) := by
              simp only [found, if_true] at hfd
              simp only [outlineData, cont, List.singleton_append, List.cons_append, List.nil_append]
              rw [hfd]
            obtain ⟨f, hf⟩ := ih (u :: ts) (out ++ [.function (txt "url")]) ⟨fs, d1, d2, d3, d4, d5, d6, d7, false, none, []⟩
              (by simp at hn ⊢; omega) ⟨rfl, rfl, rfl⟩ hl'
            have h3' := h3 ⟨fs, d1, d2, d3, d4, d5, d6, d7, true, none, []⟩
            refine ⟨f + 1 + 1 + 1, ?_⟩
            simp only [loop, round, findMark, continueMark, h1, h2, h4, List.cons_append, List.nil_append]
            simp only [loop, round, findMark, h3', hf]
            have e1 : run scan env false ⟨fs, d1, d2, d3, d4, d5, d6, d7, false, none, []⟩ (.function (txt "url") :: u :: ts) =
                match run scan env true ⟨fs, d1, d2, d3, d4, d5, d6, d7, false, none, []⟩ (u :: ts) with
                | .error e => .error e
                | .ok (out, st2) => .ok (.function (txt "url") :: out, st2) := by
              rw [run]; rfl
            have e2 : run scan env true ⟨fs, d1, d2, d3, d4, d5, d6, d7, false, none, []⟩ (u :: ts) =
                run scan env false ⟨fs, d1, d2, d3, d4, d5, d6, d7, false, none, []⟩ (u :: ts) := by
              have : found false u = none := rfl
              simp only [run, step, hfd, this]
            rw [e1, e2]
            cases run scan env false ⟨fs, d1, d2, d3, d4, d5, d6, d7, false, none, []⟩ (u :: ts) with
            | error e => rfl
            | ok p => simp [done]
          | some p =>
            obtain ⟨type, data⟩ := p
            have h4 : (outlineData scan env).cont ⟨fs, d1, d2, d3, d4, d5, d6, d7, false, some .string, [.function (txt "url")]⟩ u =
                match swap scan env ⟨fs, d1, d2, d3, d4, d5, d6, d7, false, none, []⟩ type data with
                | .error e => .error e
                | .ok (t', st') => .ok (some [.function (txt "url"), t'], st') := by
              simp only [found, if_true] at hfd
              simp only [outlineData, cont, List.singleton_append, List.cons_append, List.nil_append, List.take_succ_cons, List.take_zero]
              rw [hfd]
              simp only [swap]
              cases scan
              · simp only [Bool.false_eq_true, if_false]
                split
                · next h => rw [h]
                · next h => rw [h]
              · rfl
            have hrun : run scan env false ⟨fs, d1, d2, d3, d4, d5, d6, d7, false, none, []⟩ (.function (txt "url") :: u :: ts) =
                match swap scan env ⟨fs, d1, d2, d3, d4, d5, d6, d7, false, none, []⟩ type data with
                | .error e => .error e
                | .ok (t', st') =>
                  match run scan env (isUrl u) { st' with skip := false } ts with
                  | .error e => .error e
                  | .ok (out, st2) => .ok (.function (txt "url") :: t' :: out, st2) := by
              rw [run]
              have : step scan env false ⟨fs, d1, d2, d3, d4, d5, d6, d7, false, none, []⟩ (.function (txt "url")) =
                .ok (.function (txt "url"), ⟨fs, d1, d2, d3, d4, d5, d6, d7, false, none, []⟩) := rfl
              rw [this]
              simp only [hu, run, step, hfd]
              cases swap scan env ⟨fs, d1, d2, d3, d4, d5, d6, d7, false, none, []⟩ type data with
              | error e => rfl
              | ok q =>
                simp only
                cases run scan env (isUrl u) { q.2 with skip := false } ts <;> rfl
            rw [hrun]
            cases hsw : swap scan env ⟨fs, d1, d2, d3, d4, d5, d6, d7, false, none, []⟩ type data with
            | error e =>
              rw [hsw] at h4
              refine ⟨2, ?_⟩
              simp [loop, round, findMark, continueMark, h1, h2, h4, done]
            | ok q =>
              obtain ⟨t', st'⟩ := q
              rw [hsw] at h4
              obtain ⟨hs1, hs2, v, rfl⟩ := swap_rest hsw
              have huF : isUrl u = false := by
                unfold found tokData at hfd
                cases u <;> simp [isUrl] at hfd ⊢
              have hskip : st'.skip = true := by
                unfold swap at hsw
                have ha : (allot env ⟨fs, d1, d2, d3, d4, d5, d6, d7, true, none, []⟩ type data).2.2.skip = true := by
                  unfold allot; split <;> rfl
                simp only at hsw
                split at hsw
                · cases hsw; unfold announce; split <;> exact ha
                · split at hsw
                  · cases hsw
                  · next b st1 hm =>
                    cases hsw
                    unfold make at hm
                    simp only at hm
                    split at hm
                    · cases hm
                    · next st2 hm2 =>
                      split at hm
                      · cases hm
                      · cases hm
                        split at hm2
                        · split at hm2
                          · cases hm2
                          · cases hm2
                            unfold store
                            split <;> exact ha
                        · cases hm2; exact ha
              obtain ⟨f, hf⟩ := ih ts (out ++ [.function (txt "url"), .str v]) { st' with skip := false } (by simp at hn; omega) ⟨rfl, hs1, hs2⟩
                (by
                  intro h
                  apply hl'
                  rw [List.getLast?_cons, h]
                  rfl)
              have h3' := h3 st'
              have est : ({ st' with skip := true } : St) = st' := by rw [← hskip]
              rw [est] at h3'
              have h5 : ∀ s, (outlineData scan env).start s (.str v) = .ok (false, s) := fun s => rfl
              refine ⟨f + 1 + 1 + 1 + 1, ?_⟩
              simp only [loop, round, findMark, continueMark, h1, h2, h4, List.cons_append, List.nil_append]
              simp only [loop, round, findMark, h3', h5, List.append_assoc, List.cons_append, List.nil_append, hf]
              rw [huF]
              cases run scan env false { st' with skip := false } ts with
              | error e => rfl
              | ok p => simp [done]

/-- Whether `url(` is in front of the next token. -/
def behind (prev : Bool) (ts : List Tok) : Bool :=
  match ts.getLast? with
  | none => prev
  | some t => isUrl t

theorem run_snoc (scan : Bool) (env : Env) : ∀ (ts : List Tok) (prev : Bool) (st : St) (u : Tok), run scan env prev st (ts ++ [u]) =
    match run scan env prev st ts with
    | .error e => .error e
    | .ok (out, st1) =>
      match step scan env (behind prev ts) st1 u with
      | .error e => .error e
      | .ok (t', st2) => .ok (out ++ [t'], st2) := by
  intro ts
  induction ts with
  | nil =>
    intro prev st u
    simp only [List.nil_append, run, behind, List.getLast?_nil]
  | cons t ts ih =>
    intro prev st u
    simp only [List.cons_append, run, ih]
    cases step scan env prev st t with
    | error e => rfl
    | ok p =>
      simp only
      cases run scan env (isUrl t) p.2 ts with
      | error e => rfl
      | ok q =>
        have : behind (isUrl t) ts = behind prev (t :: ts) := by
          unfold behind
          rw [List.getLast?_cons]
          cases ts.getLast? <;> rfl
        rw [this]
        simp only
        cases step scan env (behind prev (t :: ts)) q.2 u <;> rfl

end Verif.Css.Data
