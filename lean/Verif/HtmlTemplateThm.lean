import Verif.HtmlTemplate

/-!
C48: expanding templates leaves the variable scope of the including file untouched.

The specification `Eval` describes the expansion of a document without any stack: a template, or what is between an
explicit push and its pop, is expanded on its own in a scope which holds its arguments only, and the rest of the
document goes on in the scope it had before.
-/

namespace Verif.Html

open Verif.Reader (Text txt)
open Verif.Build (Manip State loop round findMark continueMark)
open Verif.Assoc (item put ofList keys)
open Verif.Paths (join)

/-! ### Specification -/

/-- `t` is a stack command with these arguments. -/
def Stack (env : TplEnv) (t : HTok) (l : List Json) : Prop := stackArgs env t = some l

/-- `t` is a template command with these arguments. -/
def Template (env : TplEnv) (t : HTok) (l : List Json) : Prop := stackArgs env t = none ∧ templateArgs env t = some l

def Ordinary (env : TplEnv) (t : HTok) : Prop := stackArgs env t = none ∧ templateArgs env t = none

def IsPush (env : TplEnv) (t : HTok) (p : Text) : Prop := ∃ more, Stack env t (.str (txt "push") :: .str p :: more)
def IsPop (env : TplEnv) (t : HTok) : Prop := ∃ more, Stack env t (.str (txt "pop") :: more)
def IsDefine (env : TplEnv) (t : HTok) (k : Text) (v : Json) : Prop := Stack env t [.str (txt "define"), .str k, v]
def IsRetrieve (env : TplEnv) (t : HTok) (k : Text) : Prop := Stack env t [.str (txt "retrieve"), .str k]

/-- How a value is inserted into the page. -/
inductive Shown : Json → Text → Prop
  | str (s : Text) : Shown (.str s) s
  | num (s : Text) : Shown (.num s) s
  | yes : Shown (.bool true) (txt "True")
  | no : Shown (.bool false) (txt "False")

/-- The value of an argument of a template: one which refers to a variable of the including file by
`{"type": "variable", "name": …}` stands for the variable's value, if there is such a variable. -/
inductive Arg (scope : List (Text × Json)) : Json → Json → Prop
  | bound {o : List (Text × Json)} {n : Text} {v : Json} (ht : item o (txt "type") = some (.str (txt "variable")))
      (hn : item o (txt "name") = some (.str n)) (hv : item scope n = some v) : Arg scope (.obj o) v
  | value {v : Json} (h : ¬ ∃ o n x, v = .obj o ∧ item o (txt "type") = some (.str (txt "variable")) ∧
      item o (txt "name") = some (.str n) ∧ item scope n = some x) : Arg scope v v

inductive Args (scope : List (Text × Json)) : List (Text × Json) → List (Text × Json) → Prop
  | nil : Args scope [] []
  | cons {k : Text} {v v' : Json} {l l' : List (Text × Json)} (h : Arg scope v v') (hl : Args scope l l') :
      Args scope ((k, v) :: l) ((k, v') :: l')

/-- A template command which includes the file `rel` with the variables `vars`. -/
inductive Includes (env : TplEnv) (f : Frame) (t : HTok) : Text → List (Text × Json) → Prop
  | bare {path : Text} (h : Template env t [.str path]) : Includes env f t (templatePath f.relpath path) []
  | args {path : Text} {o vars : List (Text × Json)} {more : List Json}
      (h : Template env t (.str path :: .obj o :: more)) (ha : Args f.vars o vars) :
      Includes env f t (templatePath f.relpath path) vars

/-- A command of no known form; it is dropped. -/
inductive Unknown (env : TplEnv) (t : HTok) : Prop
  | stack {l : List Json} (h : Stack env t l) (h1 : ∀ p more, l ≠ .str (txt "push") :: .str p :: more)
      (h2 : ∀ more, l ≠ .str (txt "pop") :: more) (h3 : ∀ k v, l ≠ [.str (txt "define"), .str k, v])
      (h4 : ∀ k, k ≠ [] → l ≠ [.str (txt "retrieve"), .str k])
  | template {path : Text} {v : Json} {more : List Json} (h : Template env t (.str path :: v :: more))
      (hv : ∀ o, v ≠ .obj o)

/-- `Eval env f ts out f' incs`: the document `ts` in the scope `f` is expanded to `out`, leaves the scope `f'` and
includes the files `incs`, in this order. -/
inductive Eval (env : TplEnv) : Frame → List HTok → List HTok → Frame → List Text → Prop
  | nil {f : Frame} : Eval env f [] [] f []
  | keep {f f' : Frame} {t : HTok} {ts out : List HTok} {incs : List Text} (h : Ordinary env t)
      (hr : Eval env f ts out f' incs) : Eval env f (t :: ts) (t :: out) f' incs
  | define {f f' : Frame} {t : HTok} {ts out : List HTok} {incs : List Text} {k : Text} {v : Json}
      (h : IsDefine env t k v) (hr : Eval env { f with vars := put f.vars k v } ts out f' incs) :
      Eval env f (t :: ts) out f' incs
  | retrieve {f f' : Frame} {t : HTok} {ts out : List HTok} {incs : List Text} {k text : Text} {v : Json}
      (h : IsRetrieve env t k) (hk : k ≠ []) (hv : item f.vars k = some v) (hs : Shown v text)
      (hr : Eval env f ts out f' incs) : Eval env f (t :: ts) (.characters text :: out) f' incs
  | unknown {f f' : Frame} {t : HTok} {ts out : List HTok} {incs : List Text} (h : Unknown env t)
      (hr : Eval env f ts out f' incs) : Eval env f (t :: ts) out f' incs
  | block {f f1 f' : Frame} {t t' : HTok} {body out1 ts out : List HTok} {incs1 incs : List Text} {p : Text}
      (h : IsPush env t p) (h' : IsPop env t') (hb : Eval env ⟨p, []⟩ body out1 f1 incs1)
      (hr : Eval env f ts out f' incs) : Eval env f (t :: (body ++ t' :: ts)) (out1 ++ out) f' (incs1 ++ incs)
  | template {f f1 f' : Frame} {t : HTok} {body out1 ts out : List HTok} {incs1 incs : List Text} {rel : Text}
      {vars : List (Text × Json)} (h : Includes env f t rel vars) (hf : env.files (join env.folder rel) = some body)
      (hb : Eval env ⟨rel, ofList vars⟩ body out1 f1 incs1) (hr : Eval env f ts out f' incs) :
      Eval env f (t :: ts) (out1 ++ out) f' (rel :: incs1 ++ incs)

/-- Every push has its pop. -/
inductive Bal (env : TplEnv) : List HTok → Prop
  | nil : Bal env []
  | cons {t : HTok} {ts : List HTok} (h : ∀ p, ¬ IsPush env t p) (h' : ¬ IsPop env t) (hr : Bal env ts) :
      Bal env (t :: ts)
  | block {t t' : HTok} {body ts : List HTok} {p : Text} (h : IsPush env t p) (h' : IsPop env t') (hb : Bal env body)
      (hr : Bal env ts) : Bal env (t :: (body ++ t' :: ts))

/-- What is known about JSON and whitespace: what `dumps` writes for a list can be read back, starts with `[` and
has no newline; a blank is whitespace and the characters of a command are not. -/
structure Faithful (env : TplEnv) : Prop where
  back : ∀ l, env.loads (env.dumps (.arr l)) = some (.arr l)
  start : ∀ l, (env.dumps (.arr l)).head? = some 91
  line : ∀ l, 10 ∉ env.dumps (.arr l)
  blank : env.space 32 = true
  black : ∀ c ∈ txt "[]:STACKTEMPLATE", env.space c = false

/-! ### One round -/

theorem lit_stack : txt "[STACK: " = [91, 83, 84, 65, 67, 75, 58, 32] := by decide
theorem lit_kw : txt "STACK" = [83, 84, 65, 67, 75] := by decide
theorem lit_close : txt "]" = [93] := by decide

theorem stackArgs_comment {env : TplEnv} (hf : Faithful env) (s : Text) (l : List Json) :
    stackArgs env (stackComment env (.str s :: l)) = some (.str s :: l) := by
  have hb : ∀ c ∈ ([91, 93, 58, 83, 84, 65, 67, 75] : List Nat), env.space c = false := fun c hc =>
    hf.black c (by
      have : ∀ c ∈ ([91, 93, 58, 83, 84, 65, 67, 75] : List Nat), c ∈ txt "[]:STACKTEMPLATE" := by decide
      exact this c hc)
  have h91 := hb 91 (by decide)
  have h93 := hb 93 (by decide)
  have h58 := hb 58 (by decide)
  have h83 := hb 83 (by decide)
  obtain ⟨d, hd⟩ : ∃ d, env.dumps (.arr (.str s :: l)) = 91 :: d := by
    have := hf.start (.str s :: l)
    cases he : env.dumps (.arr (.str s :: l)) with
    | nil => simp [he] at this
    | cons c d => simp only [he, List.head?_cons, Option.some.injEq] at this; exact ⟨d, by rw [this]⟩
  have hl := hf.line (.str s :: l)
  have hback := hf.back (.str s :: l)
  rw [hd] at hl hback
  have hargs : bracketArgs env.space [83, 84, 65, 67, 75] false ([91, 83, 84, 65, 67, 75, 58, 32] ++ 91 :: d ++ [93]) =
      some (91 :: d) := by
    have hl' : (List.contains ((d.reverse) ++ [91]) 10) = false := by
      rw [Bool.eq_false_iff]
      intro hc
      apply hl
      simpa using hc
    simp [bracketArgs, List.dropWhile, List.takeWhile, List.isPrefixOf, h91, h93, h58, h83, hf.blank] at hl' ⊢
    exact hl'
  unfold stackArgs tryCommand stackComment
  rw [hd, lit_stack, lit_kw, lit_close]
  simp only [hargs, hback]

theorem Shown_iff {v : Json} {t : Text} : v.shown = some t ↔ Shown v t := by
  constructor
  · intro h
    cases v with
    | bool b => cases b <;> (simp only [Json.shown, Option.some.injEq] at h; subst h; constructor)
    | _ => first | (simp [Json.shown] at h; done) | (simp only [Json.shown, Option.some.injEq] at h; subst h; constructor)
  · intro h; cases h <;> rfl

theorem substVar_arg (scope : List (Text × Json)) (v : Json) : Arg scope v (substVar scope v) := by
  cases v with
  | obj o =>
    by_cases h : ∃ n x, item o (txt "type") = some (.str (txt "variable")) ∧ item o (txt "name") = some (.str n) ∧
        item scope n = some x
    · obtain ⟨n, x, h1, h2, h3⟩ := h
      have : substVar scope (.obj o) = x := by simp [substVar, h1, h2, h3]
      rw [this]; exact .bound h1 h2 h3
    · have : substVar scope (.obj o) = .obj o := by
        unfold substVar
        dsimp only
        split
        · rename_i ty n hty hn
          split
          · rename_i heq
            cases hx : item scope n with
            | none => rfl
            | some x => exact absurd ⟨n, x, by rw [hty, heq], hn, hx⟩ h
          · rfl
        · rfl
      rw [this]
      refine .value ?_
      rintro ⟨o', n, x, he, h1, h2, h3⟩
      cases he
      exact h ⟨n, x, h1, h2, h3⟩
  | _ => exact .value (by rintro ⟨o, n, x, he, _⟩; cases he)

theorem substVars_args (scope : List (Text × Json)) (o : List (Text × Json)) :
    Args scope o (o.map fun p => (p.1, substVar scope p.2)) := by
  induction o with
  | nil => exact .nil
  | cons p l ih => exact .cons (substVar_arg scope p.2) ih

theorem Arg.unique {scope : List (Text × Json)} {v a b : Json} (h1 : Arg scope v a) (h2 : Arg scope v b) : a = b := by
  cases h1 with
  | bound ht hn hv =>
    cases h2 with
    | bound ht' hn' hv' =>
      rw [hn] at hn'; cases hn'
      rw [hv] at hv'; cases hv'; rfl
    | value h => exact absurd ⟨_, _, _, rfl, ht, hn, hv⟩ h
  | value h =>
    cases h2 with
    | bound ht hn hv => exact absurd ⟨_, _, _, rfl, ht, hn, hv⟩ h
    | value _ => rfl

theorem Args.eq {scope o vars : List (Text × Json)} (h : Args scope o vars) :
    vars = o.map fun p => (p.1, substVar scope p.2) := by
  induction h with
  | nil => rfl
  | cons h _ ih => rw [ih, ← (substVar_arg scope _).unique h]; rfl

theorem includes_iff {env : TplEnv} {f : Frame} {t : HTok} {rel : Text} {vars : List (Text × Json)} :
    Includes env f t rel vars ↔ ∃ l, Template env t l ∧ templateImport f l = some (rel, vars) := by
  constructor
  · intro h
    cases h with
    | bare h => exact ⟨_, h, rfl⟩
    | args h ha => exact ⟨_, h, by rw [ha.eq]; rfl⟩
  · rintro ⟨l, hl, h⟩
    unfold templateImport at h
    split at h
    · split at h
      · cases h; exact .bare hl
      · cases h; exact .args hl (substVars_args _ _)
      · cases h
    · cases h

theorem tryCommand_str {env : TplEnv} {kw : Text} {d : Bool} {t : HTok} {l : List Json}
    (h : tryCommand env kw d t = some l) : ∃ s r, l = .str s :: r := by
  unfold tryCommand at h
  split at h
  · split at h
    · cases h
    · split at h
      · cases h; exact ⟨_, _, rfl⟩
      · cases h
  · cases h

theorem ne_pop_push : txt "pop" ≠ txt "push" := by decide
theorem ne_def_push : txt "define" ≠ txt "push" := by decide
theorem ne_ret_push : txt "retrieve" ≠ txt "push" := by decide
theorem ne_def_pop : txt "define" ≠ txt "pop" := by decide
theorem ne_ret_pop : txt "retrieve" ≠ txt "pop" := by decide
theorem ne_ret_def : txt "retrieve" ≠ txt "define" := by decide

theorem stack_push (s : TplSt) (p : Text) (more : List Json) :
    stackCommand s (.str (txt "push") :: .str p :: more) =
      .ok ([], { s with stack := s.cur :: s.stack, cur := ⟨p, []⟩ }) := by
  have : (txt "push" == txt "push") = true := by simp
  simp only [stackCommand, this]

theorem stack_pop (s : TplSt) (f : Frame) (fs : List Frame) (more : List Json) (h : s.stack = f :: fs) :
    stackCommand s (.str (txt "pop") :: more) = .ok ([], { s with stack := fs, cur := f }) := by
  have : (txt "pop" == txt "push") = false := by simp [ne_pop_push]
  simp only [stackCommand, this, if_true, h]

theorem stack_define (s : TplSt) (k : Text) (v : Json) : stackCommand s [.str (txt "define"), .str k, v] =
    .ok ([], { s with cur := { s.cur with vars := put s.cur.vars k v } }) := by
  have : (txt "define" == txt "push") = false := by simp [ne_def_push]
  simp only [stackCommand, this, if_neg ne_def_pop, if_true]

theorem stack_retrieve (s : TplSt) (k text : Text) (v : Json) (hk : k ≠ []) (hv : item s.cur.vars k = some v)
    (hs : Shown v text) : stackCommand s [.str (txt "retrieve"), .str k] = .ok ([.characters text], s) := by
  have : (txt "retrieve" == txt "push") = false := by simp [ne_ret_push]
  simp only [stackCommand, this, if_neg ne_ret_pop, if_neg ne_ret_def, if_true, if_neg hk, hv, Shown_iff.2 hs]

/-- The commands which are neither push nor pop. -/
theorem stack_other {s s' : TplSt} {l : List Json} {r : List HTok} (hstr : ∃ o m, l = .str o :: m)
    (h1 : ∀ p more, l ≠ .str (txt "push") :: .str p :: more) (h2 : ∀ more, l ≠ .str (txt "pop") :: more)
    (h : stackCommand s l = .ok (r, s')) :
    (∃ k v, l = [.str (txt "define"), .str k, v]) ∨
    (∃ k v text, k ≠ [] ∧ l = [.str (txt "retrieve"), .str k] ∧ item s.cur.vars k = some v ∧ Shown v text) ∨
    ((∀ k v, l ≠ [.str (txt "define"), .str k, v]) ∧ (∀ k, k ≠ [] → l ≠ [.str (txt "retrieve"), .str k]) ∧
      r = [] ∧ s' = s) := by
  obtain ⟨op, rest, rfl⟩ := hstr
  unfold stackCommand at h
  dsimp only at h
  split at h
  · rename_i heq
    exact absurd rfl (by rw [← eq_of_beq heq] at h1; exact h1 _ _)
  · split at h
    · rename_i heq; subst heq; exact absurd rfl (h2 _)
    · split at h
      · rename_i heq; subst heq
        split at h
        · exact .inl ⟨_, _, rfl⟩
        · rename_i hne
          cases h
          refine .inr (.inr ⟨?_, ?_, rfl, rfl⟩)
          · intro k v hkv; cases hkv; exact hne _ _ rfl
          · intro k _ hk
            simp only [List.cons.injEq, Json.str.injEq] at hk
            exact ne_ret_def hk.1.symm
      · rename_i hnd
        split at h
        · rename_i heq; subst heq
          split at h
          · split at h
            · rename_i hk
              cases h
              refine .inr (.inr ⟨?_, ?_, rfl, rfl⟩)
              · intro k v hkv; simp only [List.cons.injEq, Json.str.injEq] at hkv; exact ne_ret_def hkv.1
              · intro k' hk' he
                simp only [List.cons.injEq, Json.str.injEq, and_true, true_and] at he
                exact hk' (he ▸ hk)
            · rename_i hk
              split at h
              · cases h
              · rename_i v hv
                split at h
                · cases h
                · rename_i text ht
                  exact .inr (.inl ⟨_, v, text, hk, rfl, hv, Shown_iff.1 ht⟩)
          · rename_i hne
            cases h
            refine .inr (.inr ⟨?_, ?_, rfl, rfl⟩)
            · intro k v hkv; simp only [List.cons.injEq, Json.str.injEq] at hkv; exact ne_ret_def hkv.1
            · intro k _ hk; simp only [List.cons.injEq, true_and] at hk; exact hne _ hk
        · rename_i hnr
          cases h
          refine .inr (.inr ⟨?_, ?_, rfl, rfl⟩)
          · intro k v hkv; simp only [List.cons.injEq, Json.str.injEq] at hkv; exact hnd hkv.1
          · intro k _ hk; simp only [List.cons.injEq, Json.str.injEq] at hk; exact hnr hk.1

theorem stack_unknown {s : TplSt} {l : List Json} (hstr : ∃ o m, l = .str o :: m)
    (h1 : ∀ p more, l ≠ .str (txt "push") :: .str p :: more)
    (h2 : ∀ more, l ≠ .str (txt "pop") :: more) (h3 : ∀ k v, l ≠ [.str (txt "define"), .str k, v])
    (h4 : ∀ k, k ≠ [] → l ≠ [.str (txt "retrieve"), .str k]) : stackCommand s l = .ok ([], s) := by
  obtain ⟨op, rest, rfl⟩ := hstr
  unfold stackCommand
  dsimp only
  split
  · rename_i heq
    exact absurd rfl (by rw [← eq_of_beq heq] at h1; exact h1 _ _)
  · split
    · rename_i heq; subst heq; exact absurd rfl (h2 _)
    · split
      · rename_i heq; subst heq
        split
        · exact absurd rfl (h3 _ _)
        · rfl
      · split
        · rename_i heq; subst heq
          split
          · split
            · rfl
            · rename_i hk; exact absurd rfl (h4 _ hk)
          · rfl
        · rfl

section rounds

variable {env : TplEnv} {b : State TplSt HTok HErr} {t : HTok} {stack : List HTok}

theorem round_ordinary (hm : b.mark = none) (h : Ordinary env t) :
    round [template env] b t stack = .ok (stack, { b with output := b.output ++ [t] }) := by
  simp [round, hm, findMark, template, tplStart, h.1, h.2]

theorem round_stack (hm : b.mark = none) {l : List Json} (h : Stack env t l) :
    round [template env] b t stack =
      (stackCommand b.st l).map fun p => (p.1 ++ stack, { b with mark := none, st := p.2 }) := by
  have h' : stackArgs env t = some l := h
  simp only [round, hm, findMark, template, tplStart, h', Option.isSome_some, Bool.true_or, continueMark, tplCont]
  cases hc : stackCommand b.st l <;> simp [Except.map]

theorem round_template (hm : b.mark = none) {l : List Json} (h : Template env t l) :
    round [template env] b t stack =
      (templateCommand env b.st l).map fun p => (p.1 ++ stack, { b with mark := none, st := p.2 }) := by
  simp only [round, hm, findMark, template, tplStart, h.1, h.2, Option.isSome_some, Option.isSome_none, Bool.false_or,
    continueMark, tplCont]
  cases hc : templateCommand env b.st l <;> simp [Except.map]

end rounds

/-! ### Determinacy of single commands -/

theorem defs_eval {env : TplEnv} (hfaith : Faithful env) {body out : List HTok} {f' : Frame} {incs : List Text} :
    ∀ (vars : List (Text × Json)) (f : Frame),
    Eval env f ((vars.map fun p => stackComment env [.str (txt "define"), .str p.1, p.2]) ++ body) out f' incs →
    Eval env { f with vars := vars.foldl (fun d p => put d p.1 p.2) f.vars } body out f' incs := by
  intro vars
  induction vars with
  | nil => intro f h; exact h
  | cons p vars ih =>
    intro f h
    have hs : Stack env (stackComment env [.str (txt "define"), .str p.1, p.2]) [.str (txt "define"), .str p.1, p.2] :=
      stackArgs_comment hfaith _ _
    have hs' : stackArgs env _ = _ := hs
    rw [List.map_cons, List.cons_append] at h
    generalize ht : stackComment env [.str (txt "define"), .str p.1, p.2] = t at h hs hs'
    generalize hr : (vars.map fun p => stackComment env [.str (txt "define"), .str p.1, p.2]) ++ body = r at h
    cases h with
    | keep h _ => rw [h.1] at hs'; cases hs'
    | define h h' =>
      have h0 : stackArgs env t = _ := h
      rw [hs'] at h0
      simp only [Option.some.injEq, List.cons.injEq, Json.str.injEq, true_and, and_true] at h0
      rw [← h0.1, ← h0.2] at h'
      subst hr
      exact ih _ h'
    | retrieve h _ _ _ _ =>
      have h0 : stackArgs env t = _ := h
      rw [hs'] at h0
      simp at h0
    | unknown h _ =>
      cases h with
      | stack h _ _ h3 _ =>
        have h0 : stackArgs env t = _ := h
        rw [hs'] at h0
        cases h0
        exact absurd rfl (h3 _ _)
      | template h _ => have h0 := h.1; rw [hs'] at h0; cases h0
    | block h _ _ _ =>
      obtain ⟨more, h⟩ := h
      have h0 : stackArgs env t = _ := h
      rw [hs'] at h0
      simp only [Option.some.injEq, List.cons.injEq, Json.str.injEq] at h0
      exact absurd h0.1 ne_def_push
    | template h _ _ _ =>
      obtain ⟨l, h, _⟩ := includes_iff.1 h
      have h0 := h.1
      rw [hs'] at h0; cases h0

theorem eval_chars {env : TplEnv} {f f' : Frame} {text : Text} {ts out : List HTok} {incs : List Text}
    (h : Eval env f (.characters text :: ts) out f' incs) :
    ∃ out', out = .characters text :: out' ∧ Eval env f ts out' f' incs := by
  have hs : stackArgs env (.characters text) = none := rfl
  have ht : templateArgs env (.characters text) = none := rfl
  generalize hc : HTok.characters text = t at *
  cases h with
  | keep _ h => exact ⟨_, rfl, h⟩
  | define h _ => have h0 : stackArgs env t = _ := h; rw [hs] at h0; cases h0
  | retrieve h _ _ _ _ => have h0 : stackArgs env t = _ := h; rw [hs] at h0; cases h0
  | unknown h _ =>
    cases h with
    | stack h _ _ _ _ => have h0 : stackArgs env t = _ := h; rw [hs] at h0; cases h0
    | template h _ => have h0 := h.2; rw [ht] at h0; cases h0
  | block h _ _ _ => obtain ⟨_, h⟩ := h; have h0 : stackArgs env t = _ := h; rw [hs] at h0; cases h0
  | template h _ _ _ =>
    obtain ⟨l, h, _⟩ := includes_iff.1 h
    have h0 := h.2
    rw [ht] at h0; cases h0

theorem bal_map {env : TplEnv} (hfaith : Faithful env) {body : List HTok} (hb : Bal env body) :
    ∀ vars : List (Text × Json),
    Bal env ((vars.map fun p => stackComment env [.str (txt "define"), .str p.1, p.2]) ++ body) := by
  intro vars
  induction vars with
  | nil => exact hb
  | cons p vars ih =>
    have hs := stackArgs_comment hfaith (txt "define") [.str p.1, p.2]
    refine .cons ?_ ?_ ih
    · rintro q ⟨more, h⟩
      have h0 : stackArgs env _ = _ := h
      rw [hs] at h0
      simp only [Option.some.injEq, List.cons.injEq, Json.str.injEq] at h0
      exact ne_def_push h0.1
    · rintro ⟨more, h⟩
      have h0 : stackArgs env _ = _ := h
      rw [hs] at h0
      simp only [Option.some.injEq, List.cons.injEq, Json.str.injEq] at h0
      exact ne_def_pop h0.1

/-! ### The builder follows the specification -/

/-- All files are balanced. -/
def FilesBal (env : TplEnv) : Prop := ∀ path body, env.files path = some body → Bal env body

/-- C48 (what is missing: documents and templates in which a push has no pop; then it is false, see `C48_false`):
whenever the builder gets through a balanced document in a world of balanced templates, its output is the
expansion of the document; the stack is as before, the scope is that of the specification, in which only definitions
of the document itself take part, and the dependencies are the included files. -/
theorem C48_partial {env : TplEnv} (hfaith : Faithful env) (hfiles : FilesBal env) : ∀ (fuel : Nat) (ts : List HTok)
    (b b' : State TplSt HTok HErr), Bal env ts → b.mark = none → loop [template env] fuel b ts = some (.ok b') →
    ∃ out f' incs, Eval env b.st.cur ts out f' incs ∧ b'.output = b.output ++ out ∧ b'.mark = none ∧
      b'.st = { deps := b.st.deps ++ incs, stack := b.st.stack, cur := f' } := by
  intro fuel
  induction fuel using Nat.strongRecOn with
  | ind fuel ih =>
  -- what is between a push and its pop, and the rest
  have hblock : ∀ (g : Nat), g ≤ fuel → ∀ (t t' : HTok) (p : Text) (body ts : List HTok)
      (b b' : State TplSt HTok HErr), IsPush env t p → IsPop env t' → Bal env body → Bal env ts → b.mark = none →
      loop [template env] g b (t :: (body ++ t' :: ts)) = some (.ok b') →
      ∃ out1 f1 incs1 out f' incs, Eval env ⟨p, []⟩ body out1 f1 incs1 ∧ Eval env b.st.cur ts out f' incs ∧
        b'.output = b.output ++ (out1 ++ out) ∧ b'.mark = none ∧
        b'.st = { deps := b.st.deps ++ (incs1 ++ incs), stack := b.st.stack, cur := f' } := by
    intro g hg t t' p body ts b b' hpush hpop hbody hts hm hl
    obtain ⟨more, hpush⟩ := hpush
    obtain ⟨more', hpop⟩ := hpop
    cases g with
    | zero => simp [loop] at hl
    | succ g =>
      simp only [loop, round_stack hm hpush, stack_push, Except.map, List.nil_append] at hl
      obtain ⟨b1, hl1, hl2⟩ := Verif.Build.loop_split _ _ _ _ _ _ hl
      obtain ⟨out1, f1, incs1, he1, ho1, hm1, hs1⟩ := ih g (by omega) _ _ _ hbody rfl hl1
      cases g with
      | zero => simp [loop] at hl2
      | succ g =>
        have hst : b1.st.stack = b.st.cur :: b.st.stack := by rw [hs1]
        simp only [loop, round_stack hm1 hpop, stack_pop _ _ _ _ hst, Except.map, List.nil_append] at hl2
        obtain ⟨out, f', incs, he, ho, hm', hs'⟩ := ih g (by omega) _ _ _ hts rfl hl2
        refine ⟨out1, f1, incs1, out, f', incs, he1, he, ?_, hm', ?_⟩
        · rw [ho]; dsimp only; rw [ho1]; simp
        · rw [hs']; dsimp only; rw [hs1]; simp
  intro ts b b' hbal hm hl
  cases hbal with
  | nil =>
    have : b' = b := by cases fuel <;> (simp only [loop, Option.some.injEq, Except.ok.injEq] at hl; exact hl.symm)
    subst this
    exact ⟨[], _, [], .nil, by simp, hm, by simp⟩
  | block hpush hpop hbody hts =>
    obtain ⟨out1, f1, incs1, out, f', incs, he1, he, ho, hm', hs'⟩ :=
      hblock fuel (Nat.le_refl _) _ _ _ _ _ _ _ hpush hpop hbody hts hm hl
    exact ⟨_, _, _, .block hpush hpop he1 he, ho, hm', hs'⟩
  | @cons t ts hnpush hnpop hts =>
    cases fuel with
    | zero => simp [loop] at hl
    | succ fuel =>
      cases hsa : stackArgs env t with
      | some l =>
        have hst : Stack env t l := hsa
        simp only [loop, round_stack hm hst] at hl
        cases hc : stackCommand b.st l with
        | error e => rw [hc] at hl; simp [Except.map] at hl
        | ok r =>
          obtain ⟨r, s'⟩ := r
          rw [hc] at hl
          simp only [Except.map] at hl
          have hstr := tryCommand_str (show tryCommand env _ _ t = some l from hsa)
          have hn1 : ∀ p more, l ≠ .str (txt "push") :: .str p :: more := fun p more he => hnpush p ⟨more, he ▸ hst⟩
          have hn2 : ∀ more, l ≠ .str (txt "pop") :: more := fun more he => hnpop ⟨more, he ▸ hst⟩
          rcases stack_other hstr hn1 hn2 hc with ⟨k, v, rfl⟩ | ⟨k, v, text, hk, rfl, hv, hsh⟩ | ⟨h3, h4, rfl, rfl⟩
          · rw [stack_define] at hc
            cases hc
            obtain ⟨out, f', incs, he, ho, hm', hs'⟩ := ih fuel (by omega) _ _ _ hts rfl hl
            exact ⟨out, f', incs, .define hst he, ho, hm', hs'⟩
          · rw [stack_retrieve _ _ _ _ hk hv hsh] at hc
            cases hc
            have hb : Bal env ([HTok.characters text] ++ ts) := by
              refine .cons ?_ ?_ hts
              · rintro p ⟨more, h⟩; have h0 : stackArgs env (.characters text) = _ := h; cases h0
              · rintro ⟨more, h⟩; have h0 : stackArgs env (.characters text) = _ := h; cases h0
            obtain ⟨out, f', incs, he, ho, hm', hs'⟩ := ih fuel (by omega) _ _ _ hb rfl hl
            obtain ⟨out', rfl, he'⟩ := eval_chars he
            exact ⟨_, f', incs, .retrieve hst hk hv hsh he', ho, hm', hs'⟩
          · obtain ⟨out, f', incs, he, ho, hm', hs'⟩ := ih fuel (by omega) _ _ _ hts rfl hl
            exact ⟨out, f', incs, .unknown (.stack hst hn1 hn2 h3 h4) he, ho, hm', hs'⟩
      | none =>
        cases hta : templateArgs env t with
        | none =>
          simp only [loop, round_ordinary hm ⟨hsa, hta⟩] at hl
          obtain ⟨out, f', incs, he, ho, hm', hs'⟩ := ih fuel (by omega) _ { b with output := b.output ++ [t] } _ hts hm hl
          exact ⟨_, f', incs, .keep ⟨hsa, hta⟩ he, by rw [ho]; simp, hm', hs'⟩
        | some l =>
          have htp : Template env t l := ⟨hsa, hta⟩
          simp only [loop, round_template hm htp] at hl
          unfold templateCommand at hl
          cases hi : templateImport b.st.cur l with
          | none =>
            rw [hi] at hl
            simp only [Except.map, List.nil_append] at hl
            obtain ⟨out, f', incs, he, ho, hm', hs'⟩ := ih fuel (by omega) _ _ _ hts rfl hl
            have hu : Unknown env t := by
              obtain ⟨path, rest, rfl⟩ := tryCommand_str (show tryCommand env _ _ t = some l from hta)
              unfold templateImport at hi
              dsimp only at hi
              split at hi
              · cases hi
              · cases hi
              · rename_i h1 h2
                cases rest with
                | nil => exact absurd rfl h1
                | cons v more => exact .template htp (fun o ho => h2 o more (by rw [ho]))
            exact ⟨out, f', incs, .unknown hu he, ho, hm', hs'⟩
          | some r =>
            obtain ⟨rel, vars⟩ := r
            rw [hi] at hl
            dsimp only at hl
            cases hbd : env.files (join env.folder rel) with
            | none => rw [hbd] at hl; simp [Except.map] at hl
            | some body =>
              rw [hbd] at hl
              simp only [Except.map] at hl
              have hpush : IsPush env (stackComment env [.str (txt "push"), .str rel]) rel :=
                ⟨[], stackArgs_comment hfaith _ _⟩
              have hpop : IsPop env (stackComment env [.str (txt "pop")]) := ⟨[], stackArgs_comment hfaith _ _⟩
              have hbb := bal_map hfaith (hfiles _ _ hbd) vars
              simp only [List.cons_append, List.append_assoc, List.nil_append] at hl
              rw [← List.append_assoc] at hl
              obtain ⟨out1, f1, incs1, out, f', incs, he1, he, ho, hm', hs'⟩ :=
                hblock fuel (by omega) _ _ _ _ _ _ _ hpush hpop hbb hts rfl hl
              have he1' := defs_eval hfaith vars _ he1
              refine ⟨_, _, _, .template (includes_iff.2 ⟨l, htp, hi⟩) hbd he1' he, ho, hm', ?_⟩
              rw [hs']; simp

theorem loop_step {env : TplEnv} {b b1 : State TplSt HTok HErr} {t : HTok} {ts ts' : List HTok}
    {r : Except HErr (State TplSt HTok HErr)} (h : round [template env] b t ts = .ok (ts', b1))
    (hr : ∃ fuel, loop [template env] fuel b1 ts' = some r) : ∃ fuel, loop [template env] fuel b (t :: ts) = some r := by
  obtain ⟨n, hn⟩ := hr
  exact ⟨n + 1, by simp only [loop, h]; exact hn⟩

theorem loop_block {env : TplEnv} {f1 f' : Frame} {t t' : HTok} {body out1 ts out : List HTok}
    {incs1 incs : List Text} {p : Text} (h : IsPush env t p) (h' : IsPop env t')
    (hb : ∀ b : State TplSt HTok HErr, b.mark = none → b.st.cur = ⟨p, []⟩ →
      ∃ fuel, loop [template env] fuel b body =
        some (.ok ⟨b.output ++ out1, none, ⟨b.st.deps ++ incs1, b.st.stack, f1⟩⟩))
    (b : State TplSt HTok HErr) (hm : b.mark = none)
    (hr : ∀ c : State TplSt HTok HErr, c.mark = none → c.st.cur = b.st.cur →
      ∃ fuel, loop [template env] fuel c ts = some (.ok ⟨c.output ++ out, none, ⟨c.st.deps ++ incs, c.st.stack, f'⟩⟩)) :
    ∃ fuel, loop [template env] fuel b (t :: (body ++ t' :: ts)) =
      some (.ok ⟨b.output ++ (out1 ++ out), none, ⟨b.st.deps ++ (incs1 ++ incs), b.st.stack, f'⟩⟩) := by
  obtain ⟨more, h⟩ := h
  obtain ⟨more', h'⟩ := h'
  refine loop_step (by rw [round_stack hm h, stack_push]; rfl) ?_
  rw [List.nil_append]
  obtain ⟨n1, hn1⟩ := hb { b with mark := none, st := ⟨b.st.deps, b.st.cur :: b.st.stack, ⟨p, []⟩⟩ } rfl rfl
  have : ∃ fuel, loop [template env] fuel ⟨b.output ++ out1, none, ⟨b.st.deps ++ incs1, b.st.cur :: b.st.stack, f1⟩⟩
      (t' :: ts) = some (.ok ⟨b.output ++ (out1 ++ out), none, ⟨b.st.deps ++ (incs1 ++ incs), b.st.stack, f'⟩⟩) := by
    refine loop_step (by rw [round_stack rfl h', stack_pop _ _ _ _ rfl]; rfl) ?_
    rw [List.nil_append]
    obtain ⟨n, hn⟩ := hr ⟨b.output ++ out1, none, ⟨b.st.deps ++ incs1, b.st.stack, b.st.cur⟩⟩ rfl rfl
    refine ⟨n, hn.trans ?_⟩
    simp
  obtain ⟨n2, hn2⟩ := this
  exact ⟨n1 + n2, Verif.Build.loop_append _ _ _ _ _ _ _ _ hn1 hn2⟩

/-- Every document which has an expansion is expanded. -/
theorem C48_complete {env : TplEnv} (hfaith : Faithful env) {f f' : Frame} {ts out : List HTok} {incs : List Text}
    (h : Eval env f ts out f' incs) : ∀ b : State TplSt HTok HErr, b.mark = none → b.st.cur = f →
    ∃ fuel, loop [template env] fuel b ts =
      some (.ok ⟨b.output ++ out, none, ⟨b.st.deps ++ incs, b.st.stack, f'⟩⟩) := by
  induction h with
  | nil =>
    intro b hm hf
    refine ⟨0, ?_⟩
    obtain ⟨o, m, d, st, c⟩ := b
    dsimp only at hm hf
    subst hm hf
    simp [loop]
  | @keep f f' t ts out incs h _ ih =>
    intro b hm hf
    refine loop_step (round_ordinary hm h) ?_
    obtain ⟨n, hn⟩ := ih { b with output := b.output ++ [t] } hm hf
    exact ⟨n, hn.trans (by simp)⟩
  | @define f f' t ts out incs k v h _ ih =>
    intro b hm hf
    refine loop_step (by rw [round_stack hm h, stack_define]; rfl) ?_
    exact ih ⟨b.output, none, ⟨b.st.deps, b.st.stack, ⟨b.st.cur.relpath, put b.st.cur.vars k v⟩⟩⟩ rfl (by rw [hf])
  | @retrieve f f' t ts out incs k text v h hk hv hs _ ih =>
    intro b hm hf
    refine loop_step (by rw [round_stack hm h, stack_retrieve _ _ _ _ hk (hf ▸ hv) hs]; rfl) ?_
    refine loop_step (round_ordinary rfl ⟨rfl, rfl⟩) ?_
    obtain ⟨n, hn⟩ := ih ⟨b.output ++ [.characters text], none, b.st⟩ rfl hf
    exact ⟨n, hn.trans (by simp)⟩
  | @unknown f f' t ts out incs h _ ih =>
    intro b hm hf
    cases h with
    | stack h h1 h2 h3 h4 =>
      refine loop_step (by rw [round_stack hm h, stack_unknown (tryCommand_str h) h1 h2 h3 h4]; rfl) ?_
      exact ih ⟨b.output, none, b.st⟩ rfl hf
    | @template path v more h hv =>
      have : templateCommand env b.st (.str path :: v :: more) = .ok ([], b.st) := by
        have hi : templateImport b.st.cur (.str path :: v :: more) = none := by
          unfold templateImport
          cases v with
          | obj o => exact absurd rfl (hv o)
          | _ => rfl
        simp only [templateCommand, hi]
      refine loop_step (by rw [round_template hm h, this]; rfl) ?_
      exact ih ⟨b.output, none, b.st⟩ rfl hf
  | block h h' _ _ ihb ihr =>
    intro b hm hf
    exact loop_block h h' ihb b hm (fun c hc hcf => ihr c hc (hcf.trans hf))
  | @template f f1 f' t body out1 ts out incs1 incs rel vars h hb _ _ ihb ihr =>
    intro b hm hf
    obtain ⟨l, ht, hi⟩ := includes_iff.1 h
    rw [← hf] at hi
    refine loop_step (by rw [round_template hm ht, templateCommand, hi]; dsimp only; rw [hb]; rfl) ?_
    simp only [List.cons_append, List.append_assoc, List.nil_append]
    rw [← List.append_assoc]
    have hdefs : ∀ (vs : List (Text × Json)) (c : State TplSt HTok HErr), c.mark = none →
        (⟨c.st.cur.relpath, vs.foldl (fun d p => put d p.1 p.2) c.st.cur.vars⟩ : Frame) = ⟨rel, ofList vars⟩ →
        ∃ fuel, loop [template env] fuel c
          ((vs.map fun p => stackComment env [.str (txt "define"), .str p.1, p.2]) ++ body) =
          some (.ok ⟨c.output ++ out1, none, ⟨c.st.deps ++ incs1, c.st.stack, f1⟩⟩) := by
      intro vs
      induction vs with
      | nil => intro c hc he; exact ihb c hc he
      | cons p vs ihv =>
        intro c hc he
        have hs : Stack env (stackComment env [.str (txt "define"), .str p.1, p.2])
          [.str (txt "define"), .str p.1, p.2] := stackArgs_comment hfaith _ _
        rw [List.map_cons, List.cons_append]
        refine loop_step (by rw [round_stack hc hs, stack_define]; rfl) ?_
        exact ihv ⟨c.output, none, ⟨c.st.deps, c.st.stack, ⟨c.st.cur.relpath, put c.st.cur.vars p.1 p.2⟩⟩⟩ rfl he
    obtain ⟨n, hn⟩ := loop_block (env := env) (t := stackComment env [.str (txt "push"), .str rel])
      (t' := stackComment env [.str (txt "pop")]) (p := rel) ⟨[], stackArgs_comment hfaith _ _⟩
      ⟨[], stackArgs_comment hfaith _ _⟩
      (fun c hc hcf => hdefs vars c hc (by rw [hcf]; rfl)) ⟨b.output, none, { b.st with deps := b.st.deps ++ [rel] }⟩ rfl
      (fun c hc hcf => ihr c hc (hcf.trans hf))
    exact ⟨n, hn.trans (by simp)⟩

/-- A document has one expansion. -/
theorem C48_unique {env : TplEnv} (hfaith : Faithful env) {f f1 f2 : Frame} {ts out1 out2 : List HTok}
    {incs1 incs2 : List Text} (h1 : Eval env f ts out1 f1 incs1) (h2 : Eval env f ts out2 f2 incs2) :
    out1 = out2 ∧ f1 = f2 ∧ incs1 = incs2 := by
  obtain ⟨n1, e1⟩ := C48_complete hfaith h1 ⟨[], none, ⟨[], [], f⟩⟩ rfl rfl
  obtain ⟨n2, e2⟩ := C48_complete hfaith h2 ⟨[], none, ⟨[], [], f⟩⟩ rfl rfl
  have e1' := Verif.Build.loop_mono _ _ n2 _ _ _ e1
  have e2' := Verif.Build.loop_mono _ _ n1 _ _ _ e2
  rw [Nat.add_comm] at e2'
  rw [e1'] at e2'
  simp only [Option.some.injEq, Except.ok.injEq, State.mk.injEq, TplSt.mk.injEq, List.nil_append, true_and] at e2'
  exact ⟨e2'.1, e2'.2.2, e2'.2.1⟩

/-- C48, one template command: afterwards the including file has its scope back, whatever the template did, and the
output is the template's own expansion in the scope of its arguments. -/
theorem C48_template {env : TplEnv} (hfaith : Faithful env) (hfiles : FilesBal env) {fuel : Nat} {t : HTok} {rel : Text}
    {vars : List (Text × Json)} {b b' : State TplSt HTok HErr} (h : Includes env b.st.cur t rel vars)
    (hm : b.mark = none) (hl : loop [template env] fuel b [t] = some (.ok b')) :
    b'.st.cur = b.st.cur ∧ b'.st.stack = b.st.stack ∧ ∃ body out f1 incs,
      env.files (join env.folder rel) = some body ∧ Eval env ⟨rel, ofList vars⟩ body out f1 incs ∧
      b'.output = b.output ++ out ∧ b'.st.deps = b.st.deps ++ rel :: incs := by
  obtain ⟨l, ht, hi⟩ := includes_iff.1 h
  have hns : ∀ l', ¬ Stack env t l' := fun l' h' => by
    have h0 : stackArgs env t = _ := h'
    rw [ht.1] at h0; cases h0
  obtain ⟨out, f', incs, he, ho, _, hs⟩ := C48_partial hfaith hfiles fuel [t] b b'
    (.cons (fun p ⟨m, h⟩ => hns _ h) (fun ⟨m, h⟩ => hns _ h) .nil) hm hl
  generalize hts : [t] = ts at he
  cases he with
  | nil => cases hts
  | keep h0 _ => cases hts; have := h0.2; rw [ht.2] at this; cases this
  | define h0 _ => cases hts; exact absurd h0 (hns _)
  | retrieve h0 _ _ _ _ => cases hts; exact absurd h0 (hns _)
  | unknown h0 _ =>
    cases hts
    cases h0 with
    | stack h0 _ _ _ _ => exact absurd h0 (hns _)
    | template h0 hv =>
      have h2 := h0.2
      rw [ht.2] at h2
      cases h2
      unfold templateImport at hi
      dsimp only at hi
      split at hi
      · rename_i he; cases he
      · rename_i he; cases he; exact absurd rfl (hv _)
      · cases hi
  | block h0 _ _ _ => simp at hts
  | template h0 hb hbe hr =>
    cases hts
    obtain ⟨l', ht', hi'⟩ := includes_iff.1 h0
    have h2 := ht'.2
    rw [ht.2] at h2
    cases h2
    rw [hi] at hi'
    cases hi'
    cases hr
    refine ⟨by rw [hs], by rw [hs], _, _, _, _, hb, hbe, by rw [ho]; simp, by rw [hs]; simp⟩

/-- C48, a whole page: if every push has its pop, the stack is empty in the end, so the result is not refused, and it
names exactly the files which were included. -/
theorem C48_page {env : TplEnv} (hfaith : Faithful env) (hfiles : FilesBal env) {fuel : Nat} {relpath : Text}
    {ts : List HTok} {b' : State TplSt HTok HErr} (hbal : Bal env ts)
    (hl : loop [template env] fuel ⟨[], none, ⟨[], [], ⟨relpath, []⟩⟩⟩ ts = some (.ok b')) :
    ∃ f' incs, Eval env ⟨relpath, []⟩ ts b'.output f' incs ∧ tplResult b'.st = .ok incs := by
  obtain ⟨out, f', incs, he, ho, _, hs⟩ := C48_partial hfaith hfiles fuel ts _ b' hbal rfl hl
  refine ⟨f', incs, ?_, by rw [hs]; rfl⟩
  rw [ho]; exact he

/-! ### The form of a command -/

/-- The comment `data` is `[keyword: args]`, with whitespace where it is allowed. -/
inductive Reads (space : Nat → Bool) (kw : Text) (dotall : Bool) : Text → Text → Prop
  | mk {w1 w2 w3 w4 w5 args : Text} (h1 : ∀ c ∈ w1, space c = true) (h2 : ∀ c ∈ w2, space c = true)
      (h3 : ∀ c ∈ w3, space c = true) (h4 : ∀ c ∈ w4, space c = true) (h5 : ∀ c ∈ w5, space c = true) (hw : w4 ≠ [])
      (ha : ∀ c, args.head? = some c → space c = false) (hn : dotall = true ∨ 10 ∉ args) :
      Reads space kw dotall (w1 ++ 91 :: (w2 ++ (kw ++ (w3 ++ 58 :: (w4 ++ (args ++ 93 :: w5)))))) args

theorem dropWhile_all {p : Nat → Bool} {w x : Text} (hw : ∀ c ∈ w, p c = true) (hx : ∀ c, x.head? = some c → p c = false) :
    (w ++ x).dropWhile p = x := by
  induction w with
  | nil =>
    cases x with
    | nil => rfl
    | cons c x => simp [List.dropWhile, hx c rfl]
  | cons c w ih => simp [List.dropWhile, hw c (by simp), ih (fun d hd => hw d (by simp [hd]))]

theorem takeWhile_all {p : Nat → Bool} {w x : Text} (hw : ∀ c ∈ w, p c = true) (hx : ∀ c, x.head? = some c → p c = false) :
    (w ++ x).takeWhile p = w := by
  induction w with
  | nil =>
    cases x with
    | nil => rfl
    | cons c x => simp [List.takeWhile, hx c rfl]
  | cons c w ih => simp [List.takeWhile, hw c (by simp), ih (fun d hd => hw d (by simp [hd]))]

theorem mem_takeWhile {p : Nat → Bool} : ∀ (x : Text), ∀ c ∈ x.takeWhile p, p c = true := by
  intro x
  induction x with
  | nil => intro c hc; cases hc
  | cons d x ih =>
    intro c hc
    simp only [List.takeWhile] at hc
    split at hc
    · rename_i hd
      rcases List.mem_cons.1 hc with rfl | hc
      · exact hd
      · exact ih c hc
    · cases hc

theorem head_dropWhile {p : Nat → Bool} : ∀ (x : Text) (c : Nat), (x.dropWhile p).head? = some c → p c = false := by
  intro x
  induction x with
  | nil => intro c hc; cases hc
  | cons d x ih =>
    intro c hc
    simp only [List.dropWhile] at hc
    split at hc
    · exact ih c hc
    · rename_i hd; simp only [List.head?_cons, Option.some.injEq] at hc; rw [← hc]; exact Bool.eq_false_iff.2 (by simpa using hd)

theorem bracketArgs_iff {space : Nat → Bool} {kw : Text} {dotall : Bool} {data args : Text} (h91 : space 91 = false)
    (h93 : space 93 = false) (h58 : space 58 = false) (hk : ∃ c r, kw = c :: r ∧ space c = false) :
    bracketArgs space kw dotall data = some args ↔ Reads space kw dotall data args := by
  constructor
  · intro h
    unfold bracketArgs at h
    split at h
    · rename_i s1 hs1
      dsimp only at h
      split at h
      · rename_i hpre
        split at h
        · rename_i s3 hs3
          split at h
          · cases h
          · rename_i hne
            split at h
            · rename_i a ha
              split at h
              · cases h
              · rename_i hn
                cases h
                have e1 : data = data.takeWhile space ++ 91 :: s1 := by
                  rw [← hs1]; exact (List.takeWhile_append_dropWhile).symm
                have e2 : s1 = s1.takeWhile space ++ s1.dropWhile space := (List.takeWhile_append_dropWhile).symm
                obtain ⟨s2', hs2⟩ := List.isPrefixOf_iff_prefix.1 hpre
                have e3 : (s1.dropWhile space).drop kw.length = s2' := by rw [← hs2, List.drop_left]
                rw [e3] at hs3
                have e4 : s2' = s2'.takeWhile space ++ 58 :: s3 := by
                  rw [← hs3]; exact (List.takeWhile_append_dropWhile).symm
                have e5 : s3 = s3.takeWhile space ++ s3.dropWhile space := (List.takeWhile_append_dropWhile).symm
                have e6 : s3.dropWhile space =
                    a.reverse ++ 93 :: ((s3.dropWhile space).reverse.takeWhile space).reverse := by
                  have := (List.takeWhile_append_dropWhile (p := space) (l := (s3.dropWhile space).reverse)).symm
                  rw [ha] at this
                  have := congrArg List.reverse this
                  simpa using this
                have : Reads space kw dotall (data.takeWhile space ++ 91 :: (s1.takeWhile space ++ (kw ++
                    (s2'.takeWhile space ++ 58 :: (s3.takeWhile space ++ (a.reverse ++ 93 ::
                      ((s3.dropWhile space).reverse.takeWhile space).reverse)))))) a.reverse := by
                  refine .mk (mem_takeWhile _) (mem_takeWhile _) (mem_takeWhile _) (mem_takeWhile _) ?_ hne ?_ ?_
                  · intro c hc; exact mem_takeWhile _ c (List.mem_reverse.1 hc)
                  · intro c hc
                    refine head_dropWhile s3 c ?_
                    rw [e6]
                    cases har : a.reverse with
                    | nil => rw [har] at hc; cases hc
                    | cons d r => rw [har] at hc; exact hc
                  · cases dotall with
                    | true => exact .inl rfl
                    | false => right; simpa using hn
                rw [← e6, ← e5, ← e4, hs2, ← e2, ← e1] at this
                exact this
            · cases h
        · cases h
      · cases h
    · cases h
  · rintro ⟨h1, h2, h3, h4, h5, hw, ha, hn⟩
    rename_i w1 w2 w3 w4 w5
    obtain ⟨k, kr, rfl, hk⟩ := hk
    have d1 := dropWhile_all (x := 91 :: (w2 ++ ((k :: kr) ++ (w3 ++ 58 :: (w4 ++ (args ++ 93 :: w5)))))) h1
      (by intro c hc; cases hc; exact h91)
    have d2 := dropWhile_all (x := (k :: kr) ++ (w3 ++ 58 :: (w4 ++ (args ++ 93 :: w5)))) h2
      (by intro c hc; cases hc; exact hk)
    have d3 := dropWhile_all (x := 58 :: (w4 ++ (args ++ 93 :: w5))) h3 (by intro c hc; cases hc; exact h58)
    have hx : ∀ c, (args ++ 93 :: w5).head? = some c → space c = false := by
      intro c hc
      cases args with
      | nil => cases hc; exact h93
      | cons d r => exact ha c hc
    have d4 := dropWhile_all h4 hx
    have t4 := takeWhile_all h4 hx
    have d5 : (args ++ 93 :: w5).reverse.dropWhile space = 93 :: args.reverse := by
      have := dropWhile_all (p := space) (w := w5.reverse) (x := 93 :: args.reverse)
        (fun c hc => h5 c (List.mem_reverse.1 hc)) (by intro c hc; cases hc; exact h93)
      simpa using this
    have hpre : (k :: kr).isPrefixOf ((k :: kr) ++ (w3 ++ 58 :: (w4 ++ (args ++ 93 :: w5)))) = true :=
      List.isPrefixOf_iff_prefix.2 (List.prefix_append _ _)
    simp only [bracketArgs, d1, d2, if_pos hpre, List.drop_left, d3, t4, if_neg hw, d4, d5, List.reverse_reverse]
    rw [if_neg]
    rcases hn with rfl | hn
    · simp
    · simp [hn]

/-- Which comments are stack commands. -/
theorem stack_reads {env : TplEnv} (hf : Faithful env) {t : HTok} {l : List Json} : Stack env t l ↔
    ∃ data args op more, t = .comment data ∧ Reads env.space (txt "STACK") false data args ∧
      env.loads args = some (.arr l) ∧ l = .str op :: more := by
  have hb : ∀ c ∈ ([91, 93, 58, 83] : List Nat), env.space c = false := fun c hc =>
    hf.black c (by
      have : ∀ c ∈ ([91, 93, 58, 83] : List Nat), c ∈ txt "[]:STACKTEMPLATE" := by decide
      exact this c hc)
  have hiff := fun data args => bracketArgs_iff (dotall := false) (data := data) (args := args) (kw := txt "STACK")
    (hb 91 (by decide)) (hb 93 (by decide)) (hb 58 (by decide)) ⟨83, _, lit_kw, hb 83 (by decide)⟩
  constructor
  · intro h
    have h' : tryCommand env (txt "STACK") false t = some l := h
    unfold tryCommand at h'
    split at h'
    · split at h'
      · cases h'
      · rename_i data args ha
        split at h'
        · rename_i hl; cases h'; exact ⟨_, _, _, _, rfl, (hiff _ _).1 ha, hl, rfl⟩
        · cases h'
    · cases h'
  · rintro ⟨data, args, op, more, rfl, hr, hl, rfl⟩
    show tryCommand env (txt "STACK") false (.comment data) = _
    simp only [tryCommand, (hiff _ _).2 hr, hl]

theorem lit_tpl : txt "TEMPLATE" = [84, 69, 77, 80, 76, 65, 84, 69] := by decide

/-- Which comments are template commands; a comment is never both. -/
theorem template_reads {env : TplEnv} (hf : Faithful env) {t : HTok} {l : List Json} : Template env t l ↔
    ∃ data args path more, t = .comment data ∧ Reads env.space (txt "TEMPLATE") true data args ∧
      env.loads args = some (.arr l) ∧ l = .str path :: more := by
  have hb : ∀ c ∈ ([91, 93, 58, 83, 84] : List Nat), env.space c = false := fun c hc =>
    hf.black c (by
      have : ∀ c ∈ ([91, 93, 58, 83, 84] : List Nat), c ∈ txt "[]:STACKTEMPLATE" := by decide
      exact this c hc)
  have hiff := fun data args => bracketArgs_iff (dotall := true) (data := data) (args := args) (kw := txt "TEMPLATE")
    (hb 91 (by decide)) (hb 93 (by decide)) (hb 58 (by decide)) ⟨84, _, lit_tpl, hb 84 (by decide)⟩
  constructor
  · intro h
    have h' : tryCommand env (txt "TEMPLATE") true t = some l := h.2
    unfold tryCommand at h'
    split at h'
    · split at h'
      · cases h'
      · rename_i data args ha
        split at h'
        · rename_i hl; cases h'; exact ⟨_, _, _, _, rfl, (hiff _ _).1 ha, hl, rfl⟩
        · cases h'
    · cases h'
  · rintro ⟨data, args, op, more, rfl, hr, hl, rfl⟩
    have h2 : tryCommand env (txt "TEMPLATE") true (.comment data) = some (.str op :: more) := by
      simp only [tryCommand, (hiff _ _).2 hr, hl]
    refine ⟨?_, h2⟩
    -- the first letter of the keyword decides
    have key : bracketArgs env.space (txt "STACK") false data = none := by
      cases hr with
      | @mk w1 w2 w3 w4 w5 _ k1 k2 _ _ _ _ _ _ =>
        have d1 := dropWhile_all (x := 91 :: (w2 ++ (txt "TEMPLATE" ++ (w3 ++ 58 :: (w4 ++ (args ++ 93 :: w5)))))) k1
          (by intro c hc; cases hc; exact hb 91 (by decide))
        have d2 := dropWhile_all (x := txt "TEMPLATE" ++ (w3 ++ 58 :: (w4 ++ (args ++ 93 :: w5)))) k2
          (by intro c hc; rw [lit_tpl] at hc; cases hc; exact hb 84 (by decide))
        have hp : (txt "STACK").isPrefixOf (txt "TEMPLATE" ++ (w3 ++ 58 :: (w4 ++ (args ++ 93 :: w5)))) = false := by
          rw [lit_kw, lit_tpl]; simp [List.isPrefixOf]
        simp only [bracketArgs, d1, d2, hp]
        simp
    show tryCommand env (txt "STACK") false (.comment data) = none
    simp only [tryCommand, key]

/-! ### A concrete case -/

namespace Toy

deriving instance DecidableEq for Except

/-- Some way to write JSON down. -/
def encText (s : Text) : Text := s.map (· + 100) ++ [99]

mutual
def enc : Json → Text
  | .null => [80]
  | .bool true => [81]
  | .bool false => [82]
  | .num s => 83 :: encText s
  | .str s => 84 :: encText s
  | .arr l => 91 :: encList l
  | .obj l => 87 :: encItems l
def encList : List Json → Text
  | [] => [85]
  | x :: xs => 86 :: (enc x ++ encList xs)
def encItems : List (Text × Json) → Text
  | [] => [85]
  | (k, x) :: xs => 86 :: (encText k ++ (enc x ++ encItems xs))
end

def decText : Text → Option (Text × Text)
  | [] => none
  | c :: s => if c = 99 then some ([], s) else (decText s).map fun p => ((c - 100) :: p.1, p.2)

mutual
def dec : Nat → Text → Option (Json × Text)
  | 0, _ => none
  | n + 1, s =>
    match s with
    | 80 :: s => some (.null, s)
    | 81 :: s => some (.bool true, s)
    | 82 :: s => some (.bool false, s)
    | 83 :: s => (decText s).map fun p => (.num p.1, p.2)
    | 84 :: s => (decText s).map fun p => (.str p.1, p.2)
    | 91 :: s => (decList n s).map fun p => (.arr p.1, p.2)
    | 87 :: s => (decItems n s).map fun p => (.obj p.1, p.2)
    | _ => none
def decList : Nat → Text → Option (List Json × Text)
  | 0, _ => none
  | n + 1, s =>
    match s with
    | 85 :: s => some ([], s)
    | 86 :: s =>
      match dec n s with
      | none => none
      | some (x, s) => (decList n s).map fun p => (x :: p.1, p.2)
    | _ => none
def decItems : Nat → Text → Option (List (Text × Json) × Text)
  | 0, _ => none
  | n + 1, s =>
    match s with
    | 85 :: s => some ([], s)
    | 86 :: s =>
      match decText s with
      | none => none
      | some (k, s) =>
        match dec n s with
        | none => none
        | some (x, s) => (decItems n s).map fun p => ((k, x) :: p.1, p.2)
    | _ => none
end

theorem decText_enc (s rest : Text) : decText (encText s ++ rest) = some (s, rest) := by
  induction s with
  | nil => simp [encText, decText]
  | cons c s ih =>
    have : encText (c :: s) ++ rest = (c + 100) :: (encText s ++ rest) := by simp [encText]
    rw [this]
    have hc : c + 100 ≠ 99 := by omega
    simp [decText, hc, ih]

mutual
theorem dec_enc : ∀ (j : Json) (rest : Text) (n : Nat), (enc j).length ≤ n → dec n (enc j ++ rest) = some (j, rest)
  | j, rest, 0, h => by
    exfalso
    cases j with
    | bool b => cases b <;> simp [enc] at h
    | _ => simp [enc] at h
  | .null, rest, n + 1, _ => by simp [enc, dec]
  | .bool true, rest, n + 1, _ => by simp [enc, dec]
  | .bool false, rest, n + 1, _ => by simp [enc, dec]
  | .num s, rest, n + 1, _ => by simp [enc, dec, decText_enc]
  | .str s, rest, n + 1, _ => by simp [enc, dec, decText_enc]
  | .arr l, rest, n + 1, h => by
    simp only [enc, List.length_cons] at h
    simp [enc, dec, decList_enc l rest n (by omega)]
  | .obj l, rest, n + 1, h => by
    simp only [enc, List.length_cons] at h
    simp [enc, dec, decItems_enc l rest n (by omega)]
theorem decList_enc : ∀ (l : List Json) (rest : Text) (n : Nat), (encList l).length ≤ n →
    decList n (encList l ++ rest) = some (l, rest)
  | l, rest, 0, h => by exfalso; cases l <;> simp [encList] at h
  | [], rest, n + 1, _ => by simp [encList, decList]
  | x :: xs, rest, n + 1, h => by
    simp only [encList, List.length_cons, List.length_append] at h
    simp [encList, decList, dec_enc x (encList xs ++ rest) n (by omega), decList_enc xs rest n (by omega)]
theorem decItems_enc : ∀ (l : List (Text × Json)) (rest : Text) (n : Nat), (encItems l).length ≤ n →
    decItems n (encItems l ++ rest) = some (l, rest)
  | l, rest, 0, h => by
    exfalso
    cases l with
    | nil => simp [encItems] at h
    | cons p l => obtain ⟨k, x⟩ := p; simp [encItems] at h
  | [], rest, n + 1, _ => by simp [encItems, decItems]
  | (k, x) :: xs, rest, n + 1, h => by
    simp only [encItems, List.length_cons, List.length_append] at h
    simp [encItems, decItems, decText_enc, dec_enc x (encItems xs ++ rest) n (by omega),
      decItems_enc xs rest n (by omega)]
end

theorem encText_line (s : Text) : 10 ∉ encText s := by
  simp only [encText, List.mem_append, List.mem_map, List.mem_singleton, not_or, not_exists]
  exact ⟨fun x hx => by omega, by decide⟩

mutual
theorem enc_line : ∀ j : Json, 10 ∉ enc j
  | .null => by simp [enc]
  | .bool true => by simp [enc]
  | .bool false => by simp [enc]
  | .num s => by simp [enc, encText_line]
  | .str s => by simp [enc, encText_line]
  | .arr l => by simp [enc, encList_line l]
  | .obj l => by simp [enc, encItems_line l]
theorem encList_line : ∀ l : List Json, 10 ∉ encList l
  | [] => by simp [encList]
  | x :: xs => by simp [encList, enc_line x, encList_line xs]
theorem encItems_line : ∀ l : List (Text × Json), 10 ∉ encItems l
  | [] => by simp [encItems]
  | (k, x) :: xs => by simp [encItems, encText_line, enc_line x, encItems_line xs]
end

def env (files : Text → Option (List HTok)) : TplEnv where
  space := fun c => c == 32 || c == 10
  loads := fun s => match dec s.length s with
    | some (j, []) => some j
    | _ => none
  dumps := enc
  folder := txt "p"
  files := files

theorem faithful (files : Text → Option (List HTok)) : Faithful (env files) where
  back := fun l => by
    have := dec_enc (.arr l) [] _ (Nat.le_refl _)
    rw [List.append_nil] at this
    simp only [env, this]
  start := fun l => by simp [env, enc]
  line := fun l => enc_line _
  blank := rfl
  black := by show ∀ c ∈ txt "[]:STACKTEMPLATE", (c == 32 || c == 10) = false; decide

end Toy

/-- A variable which is not defined is refused, it is not silently left out. -/
theorem C48_undefined {env : TplEnv} {t : HTok} {k : Text} {ts : List HTok} {b : State TplSt HTok HErr} (fuel : Nat)
    (h : IsRetrieve env t k) (hk : k ≠ []) (hv : item b.st.cur.vars k = none) (hm : b.mark = none) :
    loop [template env] (fuel + 1) b (t :: ts) = some (.error .asserted) := by
  have hc : stackCommand b.st [.str (txt "retrieve"), .str k] = .error .asserted := by
    have : (txt "retrieve" == txt "push") = false := by simp [ne_ret_push]
    simp only [stackCommand, this, if_neg ne_ret_pop, if_neg ne_ret_def, if_true, if_neg hk, hv]
  simp only [loop, round_stack hm h, hc, Except.map]

namespace Toy

def stk (l : List Json) : HTok := .comment (txt "[STACK: " ++ enc (.arr l) ++ txt "]")
def tpl (l : List Json) : HTok := .comment (txt "\n [ TEMPLATE : " ++ enc (.arr l) ++ txt "] ")

def run (e : TplEnv) (fuel : Nat) (ts : List HTok) : Option (Except HErr (List HTok × List Text)) :=
  (loop [template e] fuel ⟨[], none, ⟨[], [], ⟨txt "src/public/index.html", []⟩⟩⟩ ts).map
    fun r => r.bind fun b => (tplResult b.st).map fun d => (b.output, d)

def x : List HTok :=
  [stk [.str (txt "retrieve"), .str (txt "a")], stk [.str (txt "retrieve"), .str (txt "b")],
   stk [.str (txt "define"), .str (txt "a"), .num (txt "9")], tpl [.str (txt "/y.html")]]

def page : List HTok :=
  [.startTag (txt "p") [], stk [.str (txt "define"), .str (txt "a"), .num (txt "1")],
   tpl [.str (txt "/x.html"), .obj [(txt "a", .str (txt "7")),
     (txt "b", .obj [(txt "type", .str (txt "variable")), (txt "name", .str (txt "a"))])]],
   stk [.str (txt "retrieve"), .str (txt "a")], .endTag (txt "p")]

def files (path : Text) : Option (List HTok) :=
  if path = txt "p/src/partials/x.html" then some x
  else if path = txt "p/src/partials/y.html" then some [.characters (txt "y")]
  else none

/-- No pushes and pops at all. -/
def calm (e : TplEnv) (t : HTok) : Bool :=
  match stackArgs e t with
  | some (.str op :: _) => op != txt "push" && op != txt "pop"
  | _ => true

theorem bal_calm {e : TplEnv} : ∀ {ts : List HTok}, ts.all (calm e) = true → Bal e ts := by
  intro ts
  induction ts with
  | nil => intro _; exact .nil
  | cons t ts ih =>
    intro h
    simp only [List.all_cons, Bool.and_eq_true] at h
    refine .cons ?_ ?_ (ih h.2)
    · rintro p ⟨more, hs⟩
      have h0 : stackArgs e t = _ := hs
      have := h.1
      simp [calm, h0] at this
    · rintro ⟨more, hs⟩
      have h0 : stackArgs e t = _ := hs
      have := h.1
      simp [calm, h0] at this

theorem files_bal : FilesBal (env files) := by
  intro path body h
  have h' : files path = some body := h
  unfold files at h'
  split at h'
  · cases h'; exact bal_calm (by decide +kernel)
  · split at h'
    · cases h'; exact bal_calm (by decide +kernel)
    · cases h'

end Toy

open Toy in
/-- The hypotheses of C48 hold of a page with a template which redefines a variable of the page, refers to another one
and includes a second template; the page sees its own value afterwards. -/
theorem C48_case : Faithful (env files) ∧ FilesBal (env files) ∧ Bal (env files) page ∧
    run (env files) 30 page = some (.ok ([.startTag (txt "p") [], .characters (txt "7"), .characters (txt "1"),
      .characters (txt "y"), .characters (txt "1"), .endTag (txt "p")],
      [txt "src/partials/x.html", txt "src/partials/y.html"])) :=
  ⟨faithful _, files_bal, bal_calm (by decide +kernel), by decide +kernel⟩

open Toy in
/-- Without balance it is false: a template which starts with a pop and ends with a push is not refused and changes a
variable of the page. -/
theorem C48_false : run (env fun _ => some [stk [.str (txt "pop")], stk [.str (txt "define"), .str (txt "a"), .num (txt "2")],
      stk [.str (txt "push"), .str (txt "q")]]) 30
    [stk [.str (txt "define"), .str (txt "a"), .num (txt "1")], tpl [.str (txt "/x.html")],
     stk [.str (txt "retrieve"), .str (txt "a")]] =
    some (.ok ([.characters (txt "2")], [txt "src/partials/x.html"])) := by decide +kernel

open Toy in
/-- A variable with an empty name can be defined and is then silently left out. -/
theorem C48_false_empty : run (env fun _ => none)
    30 [stk [.str (txt "define"), .str [], .num (txt "1")], stk [.str (txt "retrieve"), .str []]] =
    some (.ok ([], [])) := by decide +kernel

/-- A template which includes itself is expanded forever. -/
theorem C48_false_endless {env : TplEnv} (hfaith : Faithful env) {t : HTok} {rel : Text}
    (hinc : ∀ f, ∃ vars, Includes env f t rel vars) (hf : env.files (join env.folder rel) = some [t]) :
    ∀ (fuel : Nat) (b : State TplSt HTok HErr) (rest : List HTok), b.mark = none →
    loop [template env] fuel b (t :: rest) = none := by
  intro fuel
  induction fuel using Nat.strongRecOn with
  | ind fuel ih =>
  intro b rest hm
  cases fuel with
  | zero => rfl
  | succ fuel =>
    obtain ⟨vars, hv⟩ := hinc b.st.cur
    obtain ⟨l, ht, hi⟩ := includes_iff.1 hv
    have hc : templateCommand env b.st l = .ok (stackComment env [.str (txt "push"), .str rel] ::
        (vars.map fun p => stackComment env [.str (txt "define"), .str p.1, p.2]) ++ [t] ++
        [stackComment env [.str (txt "pop")]], { b.st with deps := b.st.deps ++ [rel] }) := by
      simp only [templateCommand, hi, hf]
    simp only [loop, round_template hm ht, hc, Except.map]
    have hdefs : ∀ (vs : List (Text × Json)) (g : Nat), g ≤ fuel → ∀ (c : State TplSt HTok HErr) (r : List HTok),
        c.mark = none → loop [template env] g c
          ((vs.map fun p => stackComment env [.str (txt "define"), .str p.1, p.2]) ++ t :: r) = none := by
      intro vs
      induction vs with
      | nil => intro g hg c r hc; exact ih g (by omega) c r hc
      | cons p vs ihv =>
        intro g hg c r hc
        cases g with
        | zero => rfl
        | succ g =>
          have hs : Stack env (stackComment env [.str (txt "define"), .str p.1, p.2])
            [.str (txt "define"), .str p.1, p.2] := stackArgs_comment hfaith _ _
          simp only [List.map_cons, List.cons_append, loop, round_stack hc hs, stack_define, Except.map,
            List.nil_append]
          exact ihv g (by omega) _ _ rfl
    cases fuel with
    | zero => rfl
    | succ fuel =>
      have hs : Stack env (stackComment env [.str (txt "push"), .str rel]) [.str (txt "push"), .str rel] :=
        stackArgs_comment hfaith _ _
      have hr := fun r => round_stack (b := ⟨b.output, none, { b.st with deps := b.st.deps ++ [rel] }⟩) (stack := r) rfl hs
      simp only [List.cons_append, List.append_assoc, List.nil_append, loop, hr, stack_push, Except.map]
      exact hdefs vars fuel (by omega) ⟨b.output, none, ⟨b.st.deps ++ [rel], b.st.cur :: b.st.stack, ⟨rel, []⟩⟩⟩ _ rfl

open Toy in
theorem C48_false_endless_case (fuel : Nat) (b : State TplSt HTok HErr) (hm : b.mark = none) :
    loop [template (env fun _ => some [tpl [.str (txt "/x.html")]])] fuel b [tpl [.str (txt "/x.html")]] = none := by
  refine C48_false_endless (faithful _) (rel := txt "src/partials/x.html") (fun f => ⟨[], ?_⟩) rfl fuel b [] hm
  refine includes_iff.2 ⟨[.str (txt "/x.html")], ?_, ?_⟩
  · refine (template_reads (faithful _)).2 ⟨_, enc (.arr [.str (txt "/x.html")]), _, _, rfl, ?_, ?_, rfl⟩
    · have e : (txt "\n [ TEMPLATE : " ++ enc (.arr [.str (txt "/x.html")]) ++ txt "] ") =
        [10, 32] ++ 91 :: ([32] ++ (txt "TEMPLATE" ++ ([32] ++ 58 :: ([32] ++ (enc (.arr [.str (txt "/x.html")]) ++ 93 :: [32]))))) := by
        decide +kernel
      rw [e]
      refine .mk ?_ ?_ ?_ ?_ ?_ (by simp) ?_ (.inl rfl)
      · show ∀ c ∈ [10, 32], (c == 32 || c == 10) = true; decide
      · show ∀ c ∈ [32], (c == 32 || c == 10) = true; decide
      · show ∀ c ∈ [32], (c == 32 || c == 10) = true; decide
      · show ∀ c ∈ [32], (c == 32 || c == 10) = true; decide
      · show ∀ c ∈ [32], (c == 32 || c == 10) = true; decide
      · intro c hc; simp only [enc, List.head?_cons, Option.some.injEq] at hc; rw [← hc]; rfl
    · exact (faithful (fun _ => some [tpl [.str (txt "/x.html")]])).back [.str (txt "/x.html")]
  · have e : ∀ c, templatePath c (txt "/x.html") = txt "src/partials/x.html" := by
      intro c
      have h1 : (txt "/x.html").head? = some 47 := by decide
      have h2 : join (join (txt "src") (txt "partials")) ((txt "/x.html").drop 1) = txt "src/partials/x.html" := by decide
      simp only [templatePath, h1, if_true, h2]
    simp only [templateImport, e]

/-! ### Paths -/

/-- C60: a path which starts with a slash is taken in the folder of the partials, wherever it is included. -/
theorem C60_partials (cur path : Text) (h : path.head? ≠ some 47) :
    templatePath cur (47 :: path) = txt "src/partials/" ++ path := by
  have e1 : join (txt "src") (txt "partials") = txt "src/partials" := by decide
  have e2 : txt "src/partials/" = txt "src/partials" ++ [47] := by decide
  have e3 : (txt "src/partials").getLast? = some 115 := by decide
  have e4 : txt "src/partials" ≠ [] := by decide
  have e5 : ¬ (some 115 : Option Nat) = some 47 := by decide
  have e6 : (some 115 == (some 47 : Option Nat)) = false := by decide
  have hp : Verif.Paths.isAbs path = false := by simp [Verif.Paths.isAbs, h]
  simp only [templatePath, List.head?_cons, if_true, List.drop_one, List.tail_cons]
  rw [e1, e2]
  simp only [join, hp, e3, e4, e5, or_self, if_false]
  simp

/-- C60 is false for all other paths: a path is appended to the path of the including *file*, as if that were a folder.
-/
theorem C60_false (cur path : Text) (h : path.head? ≠ some 47) (hc : cur ≠ []) (hl : cur.getLast? ≠ some 47) :
    templatePath cur path = cur ++ 47 :: path := by
  have hp : Verif.Paths.isAbs path = false := by simp [Verif.Paths.isAbs, h]
  simp only [templatePath, if_neg h, join, hp, hc, hl, or_self, if_false]
  simp

open Verif.Paths (joinSegs Seg comps comps_join comps_joinSegs comps_dirname dirname) in
/-- So the file which is opened is not the one relative to the folder of the including file. -/
theorem C60_false_folder {D : List Text} {f path : Text} (hD : ∀ x ∈ D, Seg x) (hne : D ≠ []) (hf : Seg f)
    (h : path.head? ≠ some 47) :
    comps (templatePath (joinSegs (D ++ [f])) path) = D ++ [f] ++ comps path ∧
    comps (join (dirname (joinSegs (D ++ [f]))) path) = D ++ comps path ∧
    templatePath (joinSegs (D ++ [f])) path ≠ join (dirname (joinSegs (D ++ [f]))) path := by
  have hp : Verif.Paths.isAbs path = false := by simp [Verif.Paths.isAbs, h]
  have h1 : comps (templatePath (joinSegs (D ++ [f])) path) = D ++ [f] ++ comps path := by
    simp only [templatePath, if_neg h]
    rw [comps_join hp, comps_joinSegs]
    intro x hx
    rcases List.mem_append.1 hx with hx | hx
    · exact hD x hx
    · rw [List.mem_singleton.1 hx]; exact hf
  have h2 : comps (join (dirname (joinSegs (D ++ [f]))) path) = D ++ comps path := by
    rw [comps_join hp, (comps_dirname hD hne hf).1]
  refine ⟨h1, h2, fun he => ?_⟩
  rw [he, h2] at h1
  have := congrArg List.length h1
  simp at this

/-- For example from an index page. -/
theorem C60_false_case : templatePath (txt "src/public/index.html") (txt "x.html") = txt "src/public/index.html/x.html" ∧
    join (Verif.Paths.dirname (txt "src/public/index.html")) (txt "x.html") = txt "src/public/x.html" := by decide

end Verif.Html
