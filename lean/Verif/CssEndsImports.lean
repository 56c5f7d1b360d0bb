import Verif.CssEnds
import Verif.NestThm
/-!
# The handling of a stylesheet which imports rules comes to an end
-/
namespace Verif.Build
variable {S τ E : Type}

theorem round_error {ms : List (Manip S τ E)} {b : State S τ E} {t : τ} {e : E} (h : round ms b t [] = .error e) (stack : List τ) :
    round ms b t stack = .error e := by
  cases hr : round ms b t stack with
  | error e' =>
    have : ∀ (m : Manip S τ E) s l l', continueMark m b s t l = .error e' → continueMark m b s t l' = .error e' := by
      intro m s l l' h
      unfold continueMark at h ⊢
      split at h
      · exact h
      · cases h
      · cases h
    have h' : round ms b t [] = .error e' := by
      unfold round at hr ⊢
      split at hr
      · exact this _ _ _ _ hr
      · split at hr
        · exact hr
        · cases hr
        · exact this _ _ _ _ hr
    rw [h] at h'
    exact h'.symm
  | ok x =>
    have : ∀ (m : Manip S τ E) s l l' x, continueMark m b s t l = .ok x → ∃ y, continueMark m b s t l' = .ok y := by
      intro m s l l' x h
      unfold continueMark at h ⊢
      split at h
      · cases h
      · exact ⟨_, rfl⟩
      · exact ⟨_, rfl⟩
    have h' : ∃ y, round ms b t [] = .ok y := by
      unfold round at hr ⊢
      split at hr
      · exact this _ _ _ _ _ hr
      · split at hr
        · cases hr
        · exact ⟨_, rfl⟩
        · exact this _ _ _ _ _ hr
    obtain ⟨y, h'⟩ := h'
    rw [h] at h'
    cases h'

section
variable {ms : Nat → List (Manip S τ E)} {I : State S τ E → List τ → Prop} {Q : E → Prop} {W : State S τ E → List τ → Nat × Nat}

/-- What a round does if the parameter is large enough. -/
def Settles (ms : Nat → List (Manip S τ E)) (I : State S τ E → List τ → Prop) (Q : E → Prop) (W : State S τ E → List τ → Nat × Nat) : Prop :=
  ∀ b t rest, I b (t :: rest) → (∃ e N, Q e ∧ ∀ n, N ≤ n → round (ms n) b t [] = .error e) ∨
    ∃ new b' N, (∀ n, N ≤ n → round (ms n) b t [] = .ok (new, b')) ∧ I b' (new ++ rest) ∧
      Prod.Lex (· < ·) (· < ·) (W b' (new ++ rest)) (W b (t :: rest))

theorem loop_settles (hstep : Settles ms I Q W) (fut : List τ) (m : Nat × Nat) : ∀ (b : State S τ E) (stack : List τ), W b (stack ++ fut) = m → I b (stack ++ fut) →
    ∃ N r, (∀ n, N ≤ n → ∀ fuel, N ≤ fuel → loop (ms n) fuel b stack = some r) ∧ (∀ e, r = .error e → Q e) ∧ ∀ b', r = .ok b' → I b' fut := by
  induction m using (Prod.lex (⟨(· < ·), Nat.lt_wfRel.wf⟩ : WellFoundedRelation Nat) (⟨(· < ·), Nat.lt_wfRel.wf⟩ : WellFoundedRelation Nat)).wf.induction with
  | _ m ih =>
    intro b stack hm hI
    cases stack with
    | nil =>
      refine ⟨0, .ok b, fun n _ fuel _ => by unfold loop; rfl, fun _ h => (by cases h), fun b' hb => ?_⟩
      cases hb
      exact hI
    | cons t stack =>
      rcases hstep b t (stack ++ fut) hI with ⟨e, N, h1, h2⟩ | ⟨new, b', N, h1, h2, h3⟩
      · refine ⟨N + 1, .error e, fun n hn fuel hf => ?_, fun e' h => (by cases h; exact h1), fun _ h => nomatch h⟩
        obtain ⟨k, rfl⟩ : ∃ k, fuel = k + 1 := ⟨fuel - 1, by omega⟩
        unfold loop
        rw [round_error (h2 n (by omega)) stack]
      · rw [← List.append_assoc] at h2 h3
        obtain ⟨M, r, k1, k2, k3⟩ := ih _ (hm ▸ h3) b' (new ++ stack) rfl h2
        refine ⟨N + M + 1, r, fun n hn fuel hf => ?_, k2, k3⟩
        obtain ⟨k, rfl⟩ : ∃ k, fuel = k + 1 := ⟨fuel - 1, by omega⟩
        unfold loop
        have := round_later stack (h1 n (by omega))
        rw [List.nil_append] at this
        rw [this]
        exact k1 n (by omega) k (by omega)

/-- A run whose rounds depend on a parameter has a result which does not depend on it, if it is large enough, nor on the bound of the steps. -/
theorem runOps_settles (hstep : Settles ms I Q W) (hI : ∀ b o rest, I b rest → I { b with output := o } rest) :
    ∀ (ops : List (Op τ)) (b : State S τ E) (acc : List τ), I b (tokensOf ops) →
      ∃ N r, (∀ n, N ≤ n → ∀ fuel, N ≤ fuel → runOps (ms n) fuel b acc ops = some r) ∧ ∀ e, r = .error e → Q e
  | [], b, acc, _ => ⟨0, .ok (acc, b), fun n _ fuel _ => by unfold runOps; rfl, fun _ h => by cases h⟩
  | .consume :: ops, b, acc, hb => by
    obtain ⟨N, r, h1, h2⟩ := runOps_settles hstep hI ops _ (acc ++ b.output) (hI b [] _ hb)
    exact ⟨N, r, fun n hn fuel hf => by unfold runOps; exact h1 n hn fuel hf, h2⟩
  | .token t :: ops, b, acc, hb => by
    obtain ⟨N, r, h1, h2, h3⟩ := loop_settles hstep (tokensOf ops) _ b [t] rfl hb
    cases r with
    | error e =>
      exact ⟨N, .error e, fun n hn fuel hf => by unfold runOps handleToken; rw [h1 n hn fuel hf], fun e' h => by cases h; exact h2 e rfl⟩
    | ok b' =>
      obtain ⟨M, r, k1, k2⟩ := runOps_settles hstep hI ops b' acc (h3 b' rfl)
      refine ⟨N + M, r, fun n hn fuel hf => ?_, k2⟩
      unfold runOps handleToken
      rw [h1 n (by omega) fuel (by omega)]
      exact k1 n (by omega) fuel (by omega)
end

end Verif.Build

namespace Verif.Css.Page.Ends
open Verif.Reader (Text txt)
open Verif.Css (Tok)
open Verif.Build
open Verif.Handlers (Fs)
open Verif.Assoc (item)
open Verif.Nest (Project Good Imports ensureResolved_spec)

/-- The manipulators behind the imports. -/
def others (env : Env) : List (Manip St Tok Err) := [icons false env, data false env, urls false env]

theorem part_keeps {A E : Type} {look : St → A} {store : St → A → St} {err : E → Err} {m : Manip A Tok E} (hs : ∀ s a, (store s a).nest = s.nest)
    (he : ∀ e x, err e ≠ .nest x) (s : St) (t : Tok) :
    (∀ b s', (part look store err m).start s t = .ok (b, s') → s'.nest = s.nest) ∧ (∀ b s', (part look store err m).cont s t = .ok (b, s') → s'.nest = s.nest) ∧
      (∀ e x, (part look store err m).start s t = .error e → e ≠ .nest x) ∧ ∀ e x, (part look store err m).cont s t = .error e → e ≠ .nest x := by
  refine ⟨fun b s' h => ?_, fun b s' h => ?_, fun e x h => ?_, fun e x h => ?_⟩
  · obtain ⟨a, -, rfl⟩ := part_start_iff.1 h; exact hs _ _
  · obtain ⟨a, -, rfl⟩ := part_cont_iff.1 h; exact hs _ _
  · unfold part at h
    dsimp only at h
    split at h
    · cases h; exact he _ _
    · cases h
  · unfold part at h
    dsimp only at h
    split at h
    · cases h; exact he _ _
    · cases h

theorem others_keep {env : Env} {m : Manip St Tok Err} (h : m ∈ others env) (s : St) (t : Tok) :
    (∀ b s', m.start s t = .ok (b, s') → s'.nest = s.nest) ∧ (∀ b s', m.cont s t = .ok (b, s') → s'.nest = s.nest) ∧
      (∀ e x, m.start s t = .error e → e ≠ .nest x) ∧ ∀ e x, m.cont s t = .error e → e ≠ .nest x := by
  simp only [others, List.mem_cons, List.not_mem_nil, or_false] at h
  rcases h with rfl | rfl | rfl
  · unfold icons; refine part_keeps ?_ ?_ s t <;> intros <;> simp
  · unfold data; refine part_keeps ?_ ?_ s t <;> intros <;> simp
  · unfold urls; refine part_keeps ?_ ?_ s t <;> intros <;> simp

theorem find_keep {env : Env} : ∀ {ms : List (Manip St Tok Err)}, (∀ m ∈ ms, m ∈ others env) → ∀ (s : St) (t : Tok),
    (∀ m s', findMark ms s t = .ok (m, s') → s'.nest = s.nest ∧ ∀ x, m = some x → x ∈ others env) ∧ ∀ e x, findMark ms s t = .error e → e ≠ .nest x
  | [], _, s, t => ⟨fun m s' h => by cases h; exact ⟨rfl, fun x h => by cases h⟩, fun e x h => by cases h⟩
  | m :: ms, hm, s, t => by
    obtain ⟨k1, -, k3, -⟩ := others_keep (hm m (by simp)) s t
    refine ⟨fun m' s' h => ?_, fun e x h => ?_⟩
    · unfold findMark at h
      split at h
      · cases h
      · next s1 h1 =>
        cases h
        exact ⟨k1 _ _ h1, fun x hx => by cases hx; exact hm m (by simp)⟩
      · next s1 h1 =>
        obtain ⟨h2, h3⟩ := (find_keep (fun m hm' => hm m (by simp [hm'])) s1 t).1 _ _ h
        exact ⟨h2.trans (k1 _ _ h1), h3⟩
    · unfold findMark at h
      split at h
      · next h1 => cases h; exact k3 _ _ h1
      · cases h
      · next s1 h1 => exact (find_keep (fun m hm' => hm m (by simp [hm'])) s1 t).2 e x h

theorem cont_keep {env : Env} {m : Manip St Tok Err} (hm : m ∈ others env) {b : State St Tok Err} {s : St} {t : Tok} {stack : List Tok} :
    (∀ y, continueMark m b s t stack = .ok y → y.2.st.nest = s.nest) ∧ ∀ e x, continueMark m b s t stack = .error e → e ≠ .nest x := by
  obtain ⟨-, k2, -, k4⟩ := others_keep hm s t
  refine ⟨fun y h => ?_, fun e x h => ?_⟩
  · unfold continueMark at h
    split at h
    · cases h
    · next h1 => cases h; exact k2 _ _ h1
    · next h1 => cases h; exact k2 _ _ h1
  · unfold continueMark at h
    split at h
    · next h1 => cases h; exact k4 _ _ h1
    · cases h
    · cases h

/-- A token which is not taken for an import: what is done with it does not depend on the bound for the imports, and leaves the rules alone. -/
theorem round_other {env : Env} {b : State St Tok Err} {t : Tok} (hb : Ok false env b) (hi : b.mark = none → Nest.getImport env.nest t = none) :
    (∀ n, Build.round (buildManips n env) b t [] = Build.round (buildManips 0 env) b t []) ∧
    (∀ y, Build.round (buildManips 0 env) b t [] = .ok y → y.2.st.nest = b.st.nest) ∧ ∀ e x, Build.round (buildManips 0 env) b t [] = .error e → e ≠ .nest x := by
  obtain ⟨o, mark, st⟩ := b
  rcases hb.open' with hm | ⟨hm, -⟩
  · dsimp only at hm
    subst hm
    have key : ∀ n, Build.round (buildManips n env) ⟨o, none, st⟩ t [] = Build.round (others env) ⟨o, none, st⟩ t [] := by
      intro n
      have : findMark (buildManips n env) st t = findMark (others env) st t := by
        have hs : (imports n env).start st t = .ok (false, st) := by
          simp [imports, part, Nest.nest, Nest.start, hi rfl]
        unfold buildManips
        rw [findMark, hs]
        rfl
      simp only [Build.round, this]
    refine ⟨fun n => (key n).trans (key 0).symm, fun y h => ?_, fun e x h => ?_⟩
    · rw [key 0] at h
      simp only [Build.round] at h
      obtain ⟨f1, -⟩ := find_keep (env := env) (fun m h => h) st t
      split at h
      · cases h
      · next s1 h1 => cases h; exact (f1 _ _ h1).1
      · next m s1 h1 =>
        obtain ⟨g1, g2⟩ := f1 _ _ h1
        exact ((cont_keep (g2 m rfl)).1 _ h).trans g1
    · rw [key 0] at h
      simp only [Build.round] at h
      obtain ⟨f1, f2⟩ := find_keep (env := env) (fun m h => h) st t
      split at h
      · next h1 => cases h; exact f2 _ _ h1
      · cases h
      · next m s1 h1 =>
        obtain ⟨g1, g2⟩ := f1 _ _ h1
        exact (cont_keep (g2 m rfl)).2 _ _ h
  · dsimp only at hm
    subst hm
    have hd : data false env ∈ others env := by simp [others]
    refine ⟨fun n => rfl, fun y h => ?_, fun e x h => ?_⟩
    · simp only [Build.round] at h
      exact (cont_keep hd).1 _ h
    · simp only [Build.round] at h
      exact (cont_keep hd).2 _ _ h

/-- What is to be handled, with the imports first. -/
def importWeight (env : Env) (b : State St Tok Err) (rest : List Tok) : Nat × Nat :=
  (rest.countP fun t => (Nest.getImport env.nest t).isSome, buildWeight env b rest)

/-- The state and the tokens to come. -/
structure Going (env : Env) (paths : Text → Prop) (sheets : Text → List (Text × List Tok)) (b : State St Tok Err) (rest : List Tok) : Prop where
  ok : Ok false env b
  good : Good env.nest paths sheets b.st.nest
  imports : ∀ r, Imports env.nest rest r → paths r.relpath

theorem count_none {env : Nest.Env} {ts : List Tok} (h : NoImports env ts) : ts.countP (fun t => (Nest.getImport env t).isSome) = 0 := by
  rw [List.countP_eq_zero]
  intro x hx
  rw [h x hx]
  simp

theorem settles {env : Env} {paths : Text → Prop} {sheets : Text → List (Text × List Tok)} (hp : Project env.nest paths sheets) :
    Settles (fun n => buildManips n env) (Going env paths sheets) (fun e => e ≠ .nest .fuel) (importWeight env) := by
  intro b t rest hI
  by_cases hcase : b.mark = none → Nest.getImport env.nest t = none
  · obtain ⟨k1, k2, k3⟩ := round_other hI.ok hcase
    cases hr : Build.round (buildManips 0 env) b t [] with
    | error e => exact .inl ⟨e, 0, k3 e _ hr, fun n _ => (k1 n).trans hr⟩
    | ok y =>
      obtain ⟨new, b'⟩ := y
      have hl := round_later rest hr
      rw [List.nil_append] at hl
      obtain ⟨⟨h1, new', h2, h3⟩, h4⟩ := build_step' 0 env b t rest (new ++ rest) b' hI.ok hcase hl
      have e : new = new' := List.append_cancel_right h2
      subst e
      refine .inr ⟨new, b', 0, fun n _ => (k1 n).trans hr, ⟨h1, ?_, ?_⟩, ?_⟩
      · rw [k2 _ hr]; exact hI.good
      · rintro r ⟨x, hx, hxr⟩
        rcases List.mem_append.1 hx with hx | hx
        · rcases h3 with h3 | rfl
          · rw [h3 x hx] at hxr; cases hxr
          · simp only [List.mem_cons, List.not_mem_nil, or_false] at hx
            rcases hx with rfl | rfl
            · cases hxr
            · exact hI.imports r ⟨x, by simp, hxr⟩
        · exact hI.imports r ⟨x, by simp [hx], hxr⟩
      · have hc : (new ++ rest).countP (fun t => (Nest.getImport env.nest t).isSome) ≤ (t :: rest).countP (fun t => (Nest.getImport env.nest t).isSome) := by
          rcases h3 with h3 | rfl
          · rw [List.countP_append, count_none h3, List.countP_cons]; omega
          · rw [List.cons_append, List.cons_append, List.nil_append, List.countP_cons]
            have : (Nest.getImport env.nest open').isSome = false := rfl
            rw [this]
            simp
        rcases Nat.lt_or_eq_of_le hc with hc | hc
        · exact Prod.Lex.left _ _ hc
        · unfold importWeight
          rw [hc]
          exact Prod.Lex.right _ h4
  · have hm : b.mark = none := Classical.byContradiction fun h => hcase fun h' => absurd h' h
    obtain ⟨r, hr⟩ : ∃ r, Nest.getImport env.nest t = some r := by
      cases h : Nest.getImport env.nest t with
      | none => exact absurd (fun _ => h) hcase
      | some r => exact ⟨r, rfl⟩
    obtain ⟨o, mark, st⟩ := b
    dsimp only at hm
    subst hm
    let st1 : Nest.St := if r.relpath = env.nest.self ∨ r.relpath ∈ st.nest.children then st.nest
      else { st.nest with children := st.nest.children ++ [r.relpath] }
    have hst1 : st1.rules = st.nest.rules ∧ st1.gens = st.nest.gens := by
      show (if _ then _ else _ : Nest.St).rules = _ ∧ (if _ then _ else _ : Nest.St).gens = _
      split <;> exact ⟨rfl, rfl⟩
    have hg1 : Good env.nest paths sheets st1 := by
      obtain ⟨a, b, c⟩ := hI.good
      refine ⟨by rw [hst1.1]; exact a, ?_, ?_⟩
      · intro p hpp g h; rw [hst1.2] at h; rw [hst1.1]; exact b p hpp g h
      · intro p hpp h; rw [hst1.2] at h; rw [hst1.1]; exact c p hpp h
    have hstart : ∀ n, (imports n env).start st t = .ok (true, { st with nest := st1 }) := by
      intro n
      simp only [imports, part, Nest.nest, Nest.start, hr]
      rfl
    have hround : ∀ n, Build.round (buildManips n env) ⟨o, none, st⟩ t [] = continueMark (imports n env) ⟨o, none, st⟩ { st with nest := st1 } t [] := by
      intro n
      simp only [Build.round, buildManips, findMark, hstart n]
    rcases ensureResolved_spec hp r (hI.imports r ⟨t, by simp, hr⟩) hg1 with ⟨st2, ⟨N, h1⟩, h2, h3, -, -⟩ | ⟨e, he, ⟨N, h1⟩, -⟩
    · cases hb : item st2.rules.avail r with
      | none => rw [hb] at h3; cases h3
      | some blk =>
        obtain ⟨-, hbp, -⟩ := h2.inv.sound r blk hb
        refine .inr ⟨blk, ⟨o, none, { st with nest := st2 }⟩, N, fun n hn => ?_, ⟨⟨.inl rfl⟩, h2, ?_⟩, ?_⟩
        · have e1 : Nest.ensureResolved env.nest n r st1 = .ok st2 := h1 n hn
          have hc : Nest.cont env.nest n st1 t = .ok (some blk, st2) := by simp only [Nest.cont, hr, e1, hb]
          have hc' : (imports n env).cont { st with nest := st1 } t = .ok (some blk, { st with nest := st2 }) := part_cont_iff.2 ⟨st2, hc, rfl⟩
          rw [hround, continueMark, hc']
          simp
        · rintro x ⟨y, hy, hyx⟩
          rcases List.mem_append.1 hy with hy | hy
          · rw [hbp y hy] at hyx; cases hyx
          · exact hI.imports x ⟨y, by simp [hy], hyx⟩
        · refine Prod.Lex.left _ _ ?_
          rw [List.countP_append, count_none hbp, List.countP_cons, hr]
          simp
    · refine .inl ⟨.nest e, N, (by rcases he with rfl | rfl <;> simp), fun n hn => ?_⟩
      have e1 : Nest.ensureResolved env.nest n r st1 = .error e := h1 n hn
      have hc : Nest.cont env.nest n st1 t = .error e := by simp only [Nest.cont, hr, e1]
      have hc' : (imports n env).cont { st with nest := st1 } t = .error (.nest e) := by
        simp only [imports, part, Nest.nest, hc]
      rw [hround, continueMark, hc']

end Verif.Css.Page.Ends

namespace Verif.Css.Page
open Verif.Reader (Text txt)
open Verif.Css (Tok Uni tokenize)
open Verif.Build
open Verif.Handlers (Bytes Fs)

/-- **C112** for stylesheets which import rules: if the stylesheets they import from consist of rules without blocks in them, no two with
the same selector, then building comes to an end, with a result or an exception, even if rules import each other in a circle. -/
theorem C112_sheet_imports_partial {env : Env} {paths : Text → Prop} {sheets : Text → List (Text × List Tok)} (hp : Nest.Project env.nest paths sheets)
    {rel : Text} {fs : Fs} {y : Bytes} (hy : fs rel = some y)
    (hi : ∀ ts, tokenize env.nest.uni (env.decode y) = .ok ts → ∀ r, Nest.Imports env.nest ts r → paths r.relpath) :
    ∃ N r, r ≠ .error (.nest .fuel) ∧ ∀ n, N ≤ n → ∀ fuel, N ≤ fuel → buildFile fuel n env rel fs = some r := by
  simp only [buildFile, hy]
  cases Handlers.copyTarget rel with
  | none => exact ⟨0, _, by simp, fun _ _ _ _ => rfl⟩
  | some target =>
    dsimp only
    cases ht : tokenize env.nest.uni (env.decode y) with
    | error e => exact ⟨0, _, by simp, fun _ _ _ _ => rfl⟩
    | ok ts =>
      dsimp only
      obtain ⟨N, r, h1, h2⟩ := runOps_settles (Ends.settles hp) (fun b o rest h => ⟨⟨h.ok.open'⟩, h.good, h.imports⟩) (perToken ts) (State.new (St.new fs)) []
        ⟨⟨.inl rfl⟩, Nest.Good.new paths, by rw [Ends.tokens_perToken]; exact hi ts ht⟩
      refine ⟨N, _, ?_, fun n hn fuel hf => by rw [h1 n hn fuel hf]; rfl⟩
      cases r with
      | error e =>
        intro h
        cases h
        exact h2 _ rfl rfl
      | ok x =>
        dsimp only
        split <;> simp

end Verif.Css.Page
