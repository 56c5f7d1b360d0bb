import Verif.JsDeps
/-!
# C34 and C55 together: scripts with type hints and imports

`JsHints` is about the type hint manipulator alone, `JsDeps` about scripts without type hints.  Here are scripts with both:
the lines with type hints become comments, and what then stands there is hashed.
-/
namespace Verif.Js
open Verif.Reader (Text txt)
open Verif.Build

/-! ## The scripts -/

/-- `line` is a line of the script and has a type hint in it. -/
def HintLine (hint : Tok → Prop) (ts line : List Tok) : Prop :=
  ∃ a t b, ts = a ++ line ++ t :: b ∧ (a = [] ∨ a.getLast? = some .lineTerminator) ∧ Line line ∧ LineEnds t ∧ ∃ x ∈ line, hint x

/-- No line with a type hint comes directly after an empty line. -/
def NotAfterBlank (hint : Tok → Prop) (ts : List Tok) : Prop :=
  ∀ a line t b, ts = a ++ .lineTerminator :: line ++ t :: b → (a = [] ∨ a.getLast? = some .lineTerminator) → Line line → LineEnds t →
    ∀ x ∈ line, ¬ hint x

/-- No line with a type hint comes after the line in which an import statement is begun, and before its end. -/
def Apart (hint : Tok → Prop) (ts : List Tok) : Prop :=
  ∀ a run line t b, ts = a ++ run ++ line ++ t :: b → Begins run → run.getLast? = some .lineTerminator → Line line → LineEnds t →
    ∀ x ∈ line, ¬ hint x

/-- There is neither an `import` nor a request to ignore one in the lines with type hints. -/
def Quiet (hint : Tok → Prop) (ts : List Tok) : Prop :=
  ∀ line, HintLine hint ts line → .kwImport ∉ line ∧ (∀ x ∈ line, ¬ IgnoreMark x) ∧ ¬ IgnoreMark (.comment (serializeMany line))

namespace Hinted

/-- The first line has no type hint. -/
inductive Plain1 (hint : Tok → Prop) : List Tok → Prop
  | ends {t ts} : LineEnds t → Plain1 hint (t :: ts)
  | cons {t ts} : ¬ hint t → Plain1 hint ts → Plain1 hint (t :: ts)

/-- With the flag `b` the tokens `ts` become `o` by the type hint manipulator; `good` holds of the lines commented out. -/
inductive Fit (hint : Tok → Prop) (good : List Tok → Prop) : Bool → List Tok → List Tok → Prop
  | nil {b} : Fit hint good b [] []
  | skip {t ts o} : Fit hint good (decide (t ≠ .lineTerminator)) ts o → Fit hint good true (t :: ts) (t :: o)
  | blank {t ts o} : LineEnds t → Fit hint good true ts o → Fit hint good false (t :: ts) (t :: o)
  | plain {t ts o} : ¬ LineEnds t → Plain1 hint (t :: ts) → Fit hint good true ts o → Fit hint good false (t :: ts) (t :: o)
  | hint {line t rest o} : Line line → LineEnds t → (∃ x ∈ line, hint x) → good line → Fit hint good true (t :: rest) o →
      Fit hint good false (line ++ t :: rest) (.comment (serializeMany line) :: o)

variable {hint : Tok → Prop} {good : List Tok → Prop}

theorem plain1_line {line : List Tok} {t : Tok} {rest : List Tok} (h : LineEnds t) (hn : ∀ x ∈ line, ¬ hint x) :
    Plain1 hint (line ++ t :: rest) := by
  induction line with
  | nil => exact .ends h
  | cons x line ih => exact .cons (hn x (by simp)) (ih fun y hy => hn y (by simp [hy]))

theorem Plain1.line {ts : List Tok} (h : Plain1 hint ts) :
    ∃ line t rest, ts = line ++ t :: rest ∧ Line line ∧ LineEnds t ∧ ∀ x ∈ line, ¬ hint x := by
  induction h with
  | @ends t ts h => exact ⟨[], t, ts, rfl, ⟨by simp, by simp⟩, h, by simp⟩
  | @cons x ts hx _ ih =>
    obtain ⟨line, t, rest, rfl, h1, h2, h3⟩ := ih
    by_cases hl : LineEnds x
    · exact ⟨[], x, _, rfl, ⟨by simp, by simp⟩, hl, by simp⟩
    · refine ⟨x :: line, t, rest, rfl, ⟨?_, ?_⟩, h2, ?_⟩
      · intro hm
        rcases List.mem_cons.1 hm with hm | hm
        · exact hl (.inl hm.symm)
        · exact h1.1 hm
      · intro hm
        rcases List.mem_cons.1 hm with hm | hm
        · exact hl (.inr hm.symm)
        · exact h1.2 hm
      · intro y hy
        rcases List.mem_cons.1 hy with rfl | hy
        · exact hx
        · exact h3 y hy

theorem plain1_subst (hstr : ∀ s, ¬ hint (.str s)) {s s' : Text} : ∀ (a b : List Tok), Plain1 hint (a ++ .str s :: b) →
    Plain1 hint (a ++ .str s' :: b) := by
  intro a
  induction a with
  | nil =>
    intro b h
    cases h with
    | ends h => rcases h with h | h <;> cases h
    | cons _ h => exact .cons (hstr s') h
  | cons x a ih =>
    intro b h
    cases h with
    | ends h => exact .ends h
    | cons h1 h => exact .cons h1 (ih b h)

theorem fit_line {line : List Tok} {t : Tok} {rest o : List Tok} (h : Fit hint good (decide (t ≠ .lineTerminator)) rest o)
    (hl : Line line) : Fit hint good true (line ++ t :: rest) (line ++ t :: o) := by
  induction line with
  | nil => exact .skip h
  | cons x line ih =>
    have hx : decide (x ≠ .lineTerminator) = true := by
      rw [decide_eq_true_iff]
      rintro rfl
      exact hl.1 (by simp)
    exact .skip (by rw [hx]; exact ih ⟨fun h => hl.1 (by simp [h]), fun h => hl.2 (by simp [h])⟩)

theorem commented_nil {q o : List Tok} (h : CommentedBlank hint q o) : q = [] → o = [] := by
  cases h with
  | nil => intro _; rfl
  | plain => intro h; simp at h
  | hint => intro h; simp at h
  | blank => intro h; cases h
  | last => intro h; cases h

theorem fit_of_commented {ts o : List Tok} (h : CommentedBlank hint ts o) : EofEnd ts ∨ ts = [] →
    (∀ line, HintLine hint ts line → good line) → Fit hint good false ts o := by
  have eofCons : ∀ {rest : List Tok}, EofEnd (.eof :: rest) → rest = [] := by
    rintro rest ⟨body, hb, he⟩
    cases body with
    | nil => simpa using he
    | cons z body => simp at he; exact absurd (by simp [he.1]) hb
  have next : ∀ {line : List Tok} {t : Tok} {rest o : List Tok}, CommentedBlank hint rest o → EofEnd (line ++ t :: rest) → LineEnds t →
      (∀ l, HintLine hint (line ++ t :: rest) l → good l) →
      (EofEnd rest ∨ rest = [] → (∀ l, HintLine hint rest l → good l) → Fit hint good false rest o) →
      Fit hint good (decide (t ≠ .lineTerminator)) rest o := by
    intro line t rest o hc he ht hg ih
    have he' := he.drop line (by simp)
    rcases ht with rfl | rfl
    · refine ih ?_ ?_
      · by_cases hr : rest = []
        · exact .inr hr
        · exact .inl (he'.tail hr)
      · rintro l ⟨a, t', b, rfl, ha, h1, h2, h3⟩
        refine hg l ⟨line ++ .lineTerminator :: a, t', b, by simp, .inr ?_, h1, h2, h3⟩
        rcases ha with rfl | ha
        · simp
        · rw [List.getLast?_append, List.getLast?_cons, ha]; simp
    · have hr := eofCons he'
      subst hr
      have ho := commented_nil hc rfl
      subst ho
      exact .nil
  induction h with
  | nil => intro _ _; exact .nil
  | @plain line t rest o h1 hne h2 h3 hc ih =>
    intro he hg
    have he := he.resolve_right (by simp)
    have hf := next hc he h2 hg ih
    cases line with
    | nil => exact absurd rfl hne
    | cons x line =>
      refine .plain ?_ (plain1_line (line := x :: line) h2 h3) ?_
      · rintro (rfl | rfl)
        · exact h1.1 (by simp)
        · exact h1.2 (by simp)
      · exact fit_line hf ⟨fun h => h1.1 (by simp [h]), fun h => h1.2 (by simp [h])⟩
  | @hint line t rest o h1 h2 h3 hc ih =>
    intro he hg
    have he := he.resolve_right (by simp)
    exact .hint h1 h2 h3 (hg line ⟨[], t, rest, rfl, .inl rfl, h1, h2, h3⟩) (.skip (next hc he h2 hg ih))
  | @blank t line t' rest o h1 h2 h3 hc ih =>
    intro he hg
    have he := he.resolve_right (by simp)
    exact .blank h1 (fit_line (next (line := t :: line) hc he h3 hg ih) h2)
  | @last t h1 => intro _ _; exact .blank h1 .nil

/-- What the first token comes from: it is the first token, or the line commented out. -/
theorem fit_cases {b : Bool} {ts o : List Tok} {y : Tok} (h : Fit hint good b ts (y :: o)) :
    (∃ ts', ts = y :: ts' ∧ ((b = true ∧ Fit hint good (decide (y ≠ .lineTerminator)) ts' o) ∨
        (b = false ∧ LineEnds y ∧ Fit hint good true ts' o) ∨
        (b = false ∧ ¬ LineEnds y ∧ Plain1 hint (y :: ts') ∧ Fit hint good true ts' o))) ∨
    (b = false ∧ ∃ line t rest, ts = line ++ t :: rest ∧ Line line ∧ LineEnds t ∧ (∃ x ∈ line, hint x) ∧ good line ∧
      y = .comment (serializeMany line) ∧ Fit hint good true (t :: rest) o) := by
  cases h with
  | skip h => exact .inl ⟨_, rfl, .inl ⟨rfl, h⟩⟩
  | blank h1 h => exact .inl ⟨_, rfl, .inr (.inl ⟨rfl, h1, h⟩)⟩
  | plain h1 h2 h => exact .inl ⟨_, rfl, .inr (.inr ⟨rfl, h1, h2, h⟩)⟩
  | hint h1 h2 h3 h4 h => exact .inr ⟨rfl, _, _, _, rfl, h1, h2, h3, h4, rfl, h⟩

/-- A token which is no comment comes from itself. -/
theorem fit_head {b : Bool} {ts o : List Tok} {y : Tok} (h : Fit hint good b ts (y :: o)) (hy : ∀ v, y ≠ .comment v) :
    ∃ ts', ts = y :: ts' ∧ ((b = true ∧ Fit hint good (decide (y ≠ .lineTerminator)) ts' o) ∨
        (b = false ∧ LineEnds y ∧ Fit hint good true ts' o) ∨
        (b = false ∧ ¬ LineEnds y ∧ Plain1 hint (y :: ts') ∧ Fit hint good true ts' o)) := by
  rcases fit_cases h with h | ⟨-, line, t, rest, -, -, -, -, -, h, -⟩
  · exact h
  · exact absurd h (hy _)

/-- Tokens without comments come from themselves; behind them a line begins only after a line terminator. -/
theorem fit_peel : ∀ (u : List Tok) {b : Bool} {ts o : List Tok}, (∀ t ∈ u, ∀ v, t ≠ .comment v) → Fit hint good b ts (u ++ o) →
    ∃ ts' b', ts = u ++ ts' ∧ Fit hint good b' ts' o ∧ (b' = false → (u = [] ∧ b = false) ∨ u.getLast? = some .lineTerminator) := by
  intro u
  induction u with
  | nil => intro b ts o _ h; exact ⟨ts, b, rfl, h, fun h => .inl ⟨rfl, h⟩⟩
  | cons y u ih =>
    intro b ts o hu h
    obtain ⟨ts', rfl, hc⟩ := fit_head h (hu y (by simp))
    have hc' : ∃ b1, Fit hint good b1 ts' (u ++ o) ∧ (b1 = false → y = .lineTerminator) := by
      rcases hc with ⟨-, h⟩ | ⟨-, -, h⟩ | ⟨-, -, -, h⟩
      · exact ⟨_, h, by simp⟩
      · exact ⟨_, h, by simp⟩
      · exact ⟨_, h, by simp⟩
    obtain ⟨b1, h1, h2⟩ := hc'
    obtain ⟨ts2, b', rfl, h3, h4⟩ := ih (fun t ht => hu t (by simp [ht])) h1
    refine ⟨ts2, b', rfl, h3, fun hb => .inr ?_⟩
    rcases h4 hb with ⟨rfl, h5⟩ | h5
    · rw [h2 h5]; rfl
    · rw [List.getLast?_cons, h5]; rfl

theorem fit_subst (hstr : ∀ s, ¬ hint (.str s)) {s s' : Text} : ∀ (u : List Tok) {b : Bool} {ts o : List Tok},
    (∀ t ∈ u, ∀ v, t ≠ .comment v) → Fit hint good b ts (u ++ .str s :: o) →
    ∃ ts', ts = u ++ .str s :: ts' ∧ Fit hint good b (u ++ .str s' :: ts') (u ++ .str s' :: o) := by
  intro u
  induction u with
  | nil =>
    intro b ts o _ h
    obtain ⟨ts', rfl, hc⟩ := fit_head (y := .str s) h (by simp)
    refine ⟨ts', rfl, ?_⟩
    rcases hc with ⟨rfl, hf⟩ | ⟨rfl, hf, -⟩ | ⟨rfl, -, h2, hf⟩
    · exact .skip (by simpa using hf)
    · rcases hf with hf | hf <;> cases hf
    · refine .plain (by rintro (h | h) <;> cases h) ?_ hf
      exact plain1_subst hstr [] ts' h2
  | cons y u ih =>
    intro b ts o hu h
    obtain ⟨ts', rfl, hc⟩ := fit_head h (hu y (by simp))
    have hu' : ∀ t ∈ u, ∀ v, t ≠ .comment v := fun t ht => hu t (by simp [ht])
    rcases hc with ⟨rfl, hf⟩ | ⟨rfl, h1, hf⟩ | ⟨rfl, h1, h2, hf⟩
    · obtain ⟨ts2, rfl, h3⟩ := ih hu' hf
      exact ⟨ts2, rfl, .skip h3⟩
    · obtain ⟨ts2, rfl, h3⟩ := ih hu' hf
      exact ⟨ts2, rfl, .blank h1 h3⟩
    · obtain ⟨ts2, rfl, h3⟩ := ih hu' hf
      exact ⟨ts2, rfl, .plain h1 (plain1_subst hstr (y :: u) ts2 h2) h3⟩

/-! ## The builder -/

/-- What the two manipulators make of the tokens, from the flag `b` and the attributes `p`. -/
def Run (te : ThEnv) (he : HiEnv) (b : Bool) (p : HiP) (ts : List Tok) : Except MErr (List Tok × HiP) → Prop
  | .ok (out, p') => ∃ b', Stream (jsManips te he) ((b, .unmarked), (p, .unmarked)) ts out none ((b', .unmarked), (p', .unmarked))
  | .error e => Fails (jsManips te he) ((b, .unmarked), (p, .unmarked)) ts e

/-- More output in front. -/
def before (u : List Tok) (r : Except MErr (List Tok × HiP)) : Except MErr (List Tok × HiP) := r.map fun x => (u ++ x.1, x.2)

variable {te : ThEnv} {he : HiEnv}

theorem run_keep {b b' : Bool} {p p' : HiP} {t : Tok} {ts : List Tok} {r}
    (h1 : (typeHints te).toManip.start (b, .unmarked) t = .ok (false, (b', .unmarked))) (h2 : hiHandle p t = .ok (p', .pass))
    (h : Run te he b' p' ts r) : Run te he b p (t :: ts) (before [t] r) := by
  cases r with
  | error e => exact Fails.keep (declined_both h1 h2) h
  | ok x => obtain ⟨b2, h⟩ := h; exact ⟨b2, .keep (declined_both h1 h2) h⟩

theorem run_replace {b : Bool} {s2 : Bool} {p : HiP} {p' : HiP} {t : Tok} {m s1 run res rest r}
    (h1 : Taken (jsManips te he) ((b, .unmarked), (p, .unmarked)) t m s1) (h2 : run.head? = some t)
    (h3 : Closed m s1 run res ((s2, .unmarked), (p', .unmarked))) (h : Run te he s2 p' (res ++ rest) r) :
    Run te he b p (run ++ rest) r := by
  cases r with
  | error e => exact Fails.replace h1 h2 h3 h
  | ok x => obtain ⟨b2, h⟩ := h; exact ⟨b2, .replace h1 h2 h3 h⟩

/-- A line without type hint comes back. -/
theorem run_plain (hte : te.scan = false) (hs : SpaceOk te.space) {p : HiP} {t : Tok} {ts : List Tok} {r}
    (hl : Plain1 (Hint te.space) (t :: ts)) (ht : ¬ LineEnds t) (h : Run te he true p (t :: ts) r) : Run te he false p (t :: ts) r := by
  obtain ⟨line, x, rest, h1, h2, h3, h4⟩ := hl.line
  cases line with
  | nil => simp at h1; rw [h1.1] at ht; exact absurd h3 ht
  | cons y line =>
    have hy : t = y := by simp at h1; exact h1.1
    subst hy
    obtain ⟨k1, k2⟩ := th_closed te hte h2 h3
    have hany : (t :: line).any (isHint te) = false := by
      rw [List.any_eq_false]
      intro z hz hz2
      exact h4 z hz ((isHint_iff te hs z).1 hz2)
    rw [hany] at k2
    have k3 : Taken (jsManips te he) ((false, .unmarked), (p, .unmarked)) t (onFirst (typeHints te).toManip)
        ((false, .skipping [t] (isHint te t)), (p, .unmarked)) := .head (by simp [onFirst, k1, Except.map])
    have k4 := closed_first (B := HiP × YSt Pos Tok) (p, .unmarked) k2
    have hrun : t :: ts = ((t :: line) ++ [x]) ++ rest := by rw [h1]; simp
    rw [hrun] at h ⊢
    exact run_replace k3 rfl k4 h

/-- A line with a type hint becomes a comment. -/
theorem run_hint (hte : te.scan = false) (hs : SpaceOk te.space) {p p' : HiP} {line : List Tok} {t : Tok} {rest : List Tok} {r}
    (hl : Line line) (ht : LineEnds t) (hx : ∃ x ∈ line, Hint te.space x)
    (hp : hiHandle p (.comment (serializeMany line)) = .ok (p', .pass)) (h : Run te he true p' (t :: rest) r) :
    Run te he false p (line ++ t :: rest) (before [.comment (serializeMany line)] r) := by
  have hno : ¬ Hint te.space (.comment (serializeMany line)) := not_hint_of_slash hs (hint_serialized_slash hx)
  have k1 : Run te he true p (.comment (serializeMany line) :: t :: rest) (before [.comment (serializeMany line)] r) :=
    run_keep (by rw [th_skip te hte]; rfl) hp h
  have k2 := run_plain hte hs (.cons hno (.ends ht)) (by rintro (h | h) <;> cases h) k1
  cases line with
  | nil => obtain ⟨x, hx, -⟩ := hx; cases hx
  | cons y line =>
    obtain ⟨c1, c2⟩ := th_closed te hte hl ht
    have hany : (y :: line).any (isHint te) = true := by
      obtain ⟨x, h1, h2⟩ := hx
      exact List.any_eq_true.2 ⟨x, h1, (isHint_iff te hs x).2 h2⟩
    rw [hany] at c2
    have c3 : Taken (jsManips te he) ((false, .unmarked), (p, .unmarked)) y (onFirst (typeHints te).toManip)
        ((false, .skipping [y] (isHint te y)), (p, .unmarked)) := .head (by simp [onFirst, c1, Except.map])
    have c4 := closed_first (B := HiP × YSt Pos Tok) (p, .unmarked) c2
    have hrun : y :: line ++ t :: rest = ((y :: line) ++ [t]) ++ rest := by simp
    rw [hrun]
    exact run_replace c3 rfl c4 k2

/-- A token of the output which is no comment. -/
theorem run_tok (hte : te.scan = false) (hs : SpaceOk te.space) {b : Bool} {ts o : List Tok} {y : Tok} {p p' : HiP} {r}
    (h : Fit (Hint te.space) good b (y :: ts) (y :: o)) (hy : ∀ v, y ≠ .comment v) (hp : hiHandle p y = .ok (p', .pass))
    (hr : ∀ b', Fit (Hint te.space) good b' ts o → Run te he b' p' ts r) : Run te he b p (y :: ts) (before [y] r) := by
  obtain ⟨ts', e, hc⟩ := fit_head h hy
  cases e
  rcases hc with ⟨rfl, hf⟩ | ⟨rfl, h1, hf⟩ | ⟨rfl, h1, h2, hf⟩
  · exact run_keep (th_skip te hte y) hp (hr _ hf)
  · exact run_keep (th_blank te hte h1) hp (hr _ hf)
  · refine run_plain hte hs h2 h1 (run_keep ?_ hp (hr _ hf))
    rw [th_skip te hte, decide_eq_true]
    rintro rfl
    exact h1 (.inl rfl)

/-- A token of the output. -/
theorem run_out (hte : te.scan = false) (hs : SpaceOk te.space) {b : Bool} {ts o : List Tok} {y : Tok} {p p' : HiP} {r}
    (h : Fit (Hint te.space) good b ts (y :: o)) (hp : hiHandle p y = .ok (p', .pass))
    (hr : ∀ b' ts', Fit (Hint te.space) good b' ts' o → ts' <:+ ts → Run te he b' p' ts' r) :
    Run te he b p ts (before [y] r) := by
  rcases fit_cases h with ⟨ts', rfl, ⟨rfl, hf⟩ | ⟨rfl, h1, hf⟩ | ⟨rfl, h1, h2, hf⟩⟩ | ⟨rfl, line, t, rest, rfl, h1, h2, h3, -, rfl, hf⟩
  · exact run_keep (th_skip te hte y) hp (hr _ _ hf (List.suffix_cons _ _))
  · exact run_keep (th_blank te hte h1) hp (hr _ _ hf (List.suffix_cons _ _))
  · refine run_plain hte hs h2 h1 (run_keep ?_ hp (hr _ _ hf (List.suffix_cons _ _)))
    rw [th_skip te hte, decide_eq_true]
    rintro rfl
    exact h1 (.inl rfl)
  · exact run_hint hte hs h1 h2 h3 hp (hr _ _ hf (List.suffix_append _ _))

/-- Many tokens of the output, none a comment. -/
theorem run_outs (hte : te.scan = false) (hs : SpaceOk te.space) {p : HiP} {ts' o : List Tok} {r} : ∀ (u : List Tok) {b : Bool},
    (∀ t ∈ u, ∀ v, t ≠ .comment v) → (∀ t ∈ u, hiHandle p t = .ok (p, .pass)) → Fit (Hint te.space) good b (u ++ ts') (u ++ o) →
    (∀ b', Fit (Hint te.space) good b' ts' o → Run te he b' p ts' r) → Run te he b p (u ++ ts') (before u r) := by
  intro u
  induction u with
  | nil =>
    intro b _ _ h hr
    have e : before [] r = r := by cases r <;> rfl
    rw [e]
    exact hr b h
  | cons y u ih =>
    intro b hu hp h hr
    have e : before (y :: u) r = before [y] (before u r) := by cases r <;> rfl
    rw [e]
    exact run_tok hte hs h (hu y (by simp)) (hp y (by simp)) fun b' h' =>
      ih (fun t ht => hu t (by simp [ht])) (fun t ht => hp t (by simp [ht])) h' hr

/-- Before an import the flag is up, or is put up. -/
theorem run_up (hte : te.scan = false) (hs : SpaceOk te.space) {b : Bool} {ts o : List Tok} {p : HiP}
    (h : Fit (Hint te.space) good b ts (.kwImport :: o)) : ∃ ts', ts = .kwImport :: ts' ∧ Fit (Hint te.space) good true ts' o ∧
      ∀ r, Run te he true p ts r → Run te he b p ts r := by
  obtain ⟨ts', rfl, hc⟩ := fit_head h (by simp)
  rcases hc with ⟨rfl, hf⟩ | ⟨rfl, h1, hf⟩ | ⟨rfl, h1, h2, hf⟩
  · exact ⟨ts', rfl, by simpa using hf, fun _ h => h⟩
  · rcases h1 with h1 | h1 <;> cases h1
  · exact ⟨ts', rfl, hf, fun _ h => run_plain hte hs h2 h1 h⟩

theorem run_hi (hte : te.scan = false) {p p' : HiP} {run res rest : List Tok} {r} (h : HiRun he p run res p')
    (hr : Run te he true p' (res ++ rest) r) : Run te he true p (run ++ rest) r := by
  obtain ⟨t, s1, h1, h2, h3⟩ := h
  have ht := import_of_start h2
  have hsk := th_skip te hte t
  rw [decide_eq_true (by rw [ht]; simp)] at hsk
  exact run_replace (taken_second hsk h2) h1 (closed_second _ h3) hr

theorem run_fail (hte : te.scan = false) {p : HiP} {run rest : List Tok} {e : MErr} (h : HiFail he p run e) :
    Run te he true p (run ++ rest) (.error e) := by
  obtain ⟨t, s1, ts, x, s2, rfl, h1, h2, h3, h4⟩ := h
  have ht := import_of_start h2
  have hsk := th_skip te hte t
  rw [decide_eq_true (by rw [ht]; simp)] at hsk
  have := Fails.cont (rest := rest) (taken_second (te := te) hsk h2) h1 (open_second _ h3)
    (e := e) (x := x) (by simp [onSecond, h4, Except.map])
  show Fails _ _ _ _
  simpa using this

theorem apart_suffix {ts ts' : List Tok} (h : Apart hint ts) (hs : ts' <:+ ts) : Apart hint ts' := by
  obtain ⟨c, rfl⟩ := hs
  rintro a run line t b rfl
  exact h (c ++ a) run line t b (by simp)

theorem inner_not_comment {t : Tok} (h : Gap t ∨ inner t = true) : ∀ v, t ≠ .comment v := by
  rintro v rfl
  rcases h with (⟨w, h⟩ | h) | h <;> cases h

/-- In an import which is broken off, the token which breaks it off is not a line with a type hint. -/
theorem break_off {ts o mid : List Tok} {g : Pos} {t : Tok} (hw : Walk .l42 mid g) (ha : Apart hint (.kwImport :: ts))
    (h : Fit hint good true ts (mid ++ t :: o)) :
    ∃ ts' b', ts = mid ++ t :: ts' ∧ Fit hint good b' ts' o := by
  obtain ⟨ts2, b2, rfl, h2, h3⟩ := fit_peel mid (fun t ht => inner_not_comment (hw.mem t ht)) h
  rcases fit_cases h2 with ⟨ts', rfl, ⟨rfl, hf⟩ | ⟨rfl, h1, hf⟩ | ⟨rfl, h1, h2, hf⟩⟩ | ⟨rfl, line, x, rest, rfl, h1, hx, ⟨y, hy, hyh⟩, -, rfl, hf⟩
  · exact ⟨_, _, rfl, hf⟩
  · exact ⟨_, _, rfl, hf⟩
  · exact ⟨_, _, rfl, hf⟩
  · exfalso
    rcases h3 rfl with ⟨-, h3⟩ | h3
    · cases h3
    · refine ha [] (.kwImport :: mid) line x rest (by simp) (walk_begins hw) ?_ h1 hx y hy hyh
      rw [List.getLast?_cons, h3]; rfl

/-- The script is made into `o`, and of this the imports are hashed, or there is a hash missing. -/
theorem hinted_main (hte : te.scan = false) (hs : SpaceOk te.space) {hb : Bool} {o1 o : List Tok} {ds : List Text}
    (h : Hashed some (depOf he) hb o1 o ds) : ∀ d0,
    (∃ out b', Hashed (newSpec he) (depOf he) hb o1 out ds ∧ ∀ b ts, Fit (Hint te.space) good b ts o1 → Apart (Hint te.space) ts →
      Run te he b ⟨hb, d0⟩ ts (.ok (out, ⟨b', d0 ++ ds⟩))) ∨
    (∃ x, newSpec he x = none ∧ depOf he x ∈ ds ∧ ∀ b ts, Fit (Hint te.space) good b ts o1 → Apart (Hint te.space) ts →
      Run te he b ⟨hb, d0⟩ ts (.error (.notFound (depOf he x)))) := by
  have hstr : ∀ s, ¬ Hint te.space (.str s) := by rintro s ⟨_, _, _, h⟩; cases h
  induction h with
  | nil =>
    rename_i hb
    intro d0
    refine .inl ⟨[], hb, .nil, ?_⟩
    intro b ts h _
    cases h
    exact ⟨b, by rw [List.append_nil]; exact .nil⟩
  | @keep hb t o1 o ds h1 h2 _ ih =>
    intro d0
    have hh : hiHandle ⟨hb, d0⟩ t = .ok (⟨hb, d0⟩, .pass) := by
      rcases h2 with rfl | h2
      · simp [hiHandle, h1]
      · have : isSkipMark t = false := by
          rw [Bool.eq_false_iff, ne_eq, isSkipMark_iff]
          exact h2
        simp [hiHandle, h1, this]
    rcases ih d0 with ⟨out, b', hr, hg⟩ | ⟨x, hx, hxd, hf⟩
    · exact .inl ⟨t :: out, b', .keep h1 h2 hr, fun b ts hfit ha =>
        run_out hte hs hfit hh fun b2 ts2 hf2 hsuf => hg b2 ts2 hf2 (apart_suffix ha hsuf)⟩
    · exact .inr ⟨x, hx, hxd, fun b ts hfit ha =>
        run_out hte hs (r := .error _) hfit hh fun b2 ts2 hf2 hsuf => hf b2 ts2 hf2 (apart_suffix ha hsuf)⟩
  | @mark t o1 o ds h1 _ ih =>
    intro d0
    have hh : hiHandle ⟨false, d0⟩ t = .ok (⟨true, d0⟩, .pass) := by
      obtain ⟨v, rfl, hv⟩ := h1
      simp [hiHandle, isSkipMark, List.isPrefixOf_iff_prefix.2 hv]
    rcases ih d0 with ⟨out, b', hr, hg⟩ | ⟨x, hx, hxd, hf⟩
    · exact .inl ⟨t :: out, b', .mark h1 hr, fun b ts hfit ha =>
        run_out hte hs hfit hh fun b2 ts2 hf2 hsuf => hg b2 ts2 hf2 (apart_suffix ha hsuf)⟩
    · exact .inr ⟨x, hx, hxd, fun b ts hfit ha =>
        run_out hte hs (r := .error _) hfit hh fun b2 ts2 hf2 hsuf => hf b2 ts2 hf2 (apart_suffix ha hsuf)⟩
  | @ignored o1 o ds _ ih =>
    intro d0
    have hh : hiHandle ⟨true, d0⟩ .kwImport = .ok (⟨false, d0⟩, .pass) := by simp [hiHandle]
    rcases ih d0 with ⟨out, b', hr, hg⟩ | ⟨x, hx, hxd, hf⟩
    · exact .inl ⟨.kwImport :: out, b', .ignored hr, fun b ts hfit ha =>
        run_out hte hs hfit hh fun b2 ts2 hf2 hsuf => hg b2 ts2 hf2 (apart_suffix ha hsuf)⟩
    · exact .inr ⟨x, hx, hxd, fun b ts hfit ha =>
        run_out hte hs (r := .error _) hfit hh fun b2 ts2 hf2 hsuf => hf b2 ts2 hf2 (apart_suffix ha hsuf)⟩
  | @hash run s _ rest o ds h1 h2 _ _ ih =>
    intro d0
    obtain ⟨mid, g, rfl, hw, hm⟩ := complete_walk h1
    have hmid : ∀ t ∈ mid, ∀ v, t ≠ .comment v := fun t ht => inner_not_comment (hw.mem t ht)
    cases hn : newSpec he s with
    | none =>
      refine .inr ⟨s, hn, by simp, ?_⟩
      intro b ts hfit _
      obtain ⟨ts', rfl, hf, hup⟩ := run_up (he := he) (p := ⟨false, d0⟩) hte hs hfit
      obtain ⟨ts2, b2, rfl, hf2, -⟩ := fit_peel mid hmid hf
      obtain ⟨ts3, rfl, -⟩ := fit_head hf2 (by simp)
      have := run_fail (te := te) (rest := ts3) hte (run_missing he d0 hw hm h2 hn)
      exact hup _ (by simpa using this)
    | some s' =>
      have hrun := run_hash he d0 hw hm h2 hn
      have hh : ∀ d, hiHandle ⟨true, d⟩ .kwImport = .ok (⟨false, d⟩, .pass) := by intro d; simp [hiHandle]
      -- the tokens of the statement, with the new module specifier
      have key : ∀ r, (∀ b ts, Fit (Hint te.space) good b ts rest → Apart (Hint te.space) ts →
            Run te he b ⟨false, d0 ++ [depOf he s]⟩ ts r) →
          ∀ b ts, Fit (Hint te.space) good b ts (.kwImport :: mid ++ .str s :: rest) → Apart (Hint te.space) ts →
            Run te he b ⟨false, d0⟩ ts (before (.kwImport :: mid ++ [.str s']) r) := by
        intro r hr b ts hfit ha
        obtain ⟨ts', rfl, hf, hup⟩ := run_up (he := he) (p := ⟨false, d0⟩) hte hs hfit
        obtain ⟨ts3, rfl, hf3⟩ := fit_subst (s' := s') hstr mid hmid hf
        apply hup
        have ha' : Apart (Hint te.space) ts3 := apart_suffix ha ⟨.kwImport :: (mid ++ [.str s]), by simp⟩
        have e1 : before (.kwImport :: mid ++ [.str s']) r = before [.kwImport] (before mid (before [.str s'] r)) := by
          cases r with
          | error e => rfl
          | ok x => simp [before, Except.map]
        have k : Run te he true ⟨true, d0 ++ [depOf he s]⟩ (.kwImport :: (mid ++ .str s' :: ts3))
            (before [.kwImport] (before mid (before [.str s'] r))) := by
          refine run_tok (o := mid ++ .str s' :: rest) hte hs (.skip hf3) (by simp) (hh _) ?_
          intro b' h'
          refine run_outs hte hs mid hmid (fun t ht => handle_inner _ (hw.mem t ht)) h' ?_
          intro b2 h2
          exact run_tok hte hs h2 (by simp) (handle_str _ _) fun b3 h3 => hr b3 ts3 h3 ha'
        have := run_hi (te := te) (rest := ts3) hte hrun (r := before [.kwImport] (before mid (before [.str s'] r)))
          (by simpa using k)
        rw [e1]
        simpa using this
      rcases ih (d0 ++ [depOf he s]) with ⟨out, b', hr, hg⟩ | ⟨x, hx, hxd, hf⟩
      · refine .inl ⟨_, b', .hash h1 h2 hn hr, ?_⟩
        intro b ts hfit ha
        have := key _ hg b ts hfit ha
        simpa [before, Except.map] using this
      · refine .inr ⟨x, hx, by simp [hxd], ?_⟩
        intro b ts hfit ha
        exact key (.error _) hf b ts hfit ha
  | @bad run t rest o ds note h1 h2 h3 _ ih =>
    intro d0
    obtain ⟨mid, g, rfl, hw⟩ := begins_walk h1
    have hmid : ∀ t ∈ mid, ∀ v, t ≠ .comment v := fun t ht => inner_not_comment (hw.mem t ht)
    have hg : ¬ Gap t := by
      intro hg
      exact h2 (walk_begins (hw.append (.gap hg .nil)))
    have hrun : ∃ h, HiRun he ⟨false, d0⟩ (.kwImport :: mid ++ [t])
        (.comment (badComment he h t) :: (.kwImport :: mid ++ [t])) ⟨false, d0⟩ := by
      cases hm : move t g with
      | go g' => exact absurd (walk_begins (hw.append (.go hg hm .nil))) h2
      | bad h => exact ⟨h, run_bad he d0 hw hg hm⟩
      | done s =>
        have := move_done hm
        subst this
        exact run_unsupported he d0 hw hm (h3 s (walk_complete hw hm))
    obtain ⟨h, hrun⟩ := hrun
    have hh : hiHandle ⟨true, d0⟩ .kwImport = .ok (⟨false, d0⟩, .pass) := by simp [hiHandle]
    have hcm : hiHandle ⟨false, d0⟩ (.comment (badComment he h t)) = .ok (⟨true, d0⟩, .pass) := by
      have : isSkipMark (.comment (badComment he h t)) = true := by
        simp only [isSkipMark, badComment, List.isPrefixOf_iff_prefix]
        have e : txt "PREPROCESSOR: ignore-import " = txt "PREPROCESSOR: ignore-import" ++ [32] := by decide
        rw [e, List.append_assoc]
        exact List.prefix_append _ _
      simp [hiHandle, this]
    have key : ∀ r, (∀ b ts, Fit (Hint te.space) good b ts (t :: rest) → Apart (Hint te.space) ts → Run te he b ⟨false, d0⟩ ts r) →
        ∀ b ts, Fit (Hint te.space) good b ts (.kwImport :: mid ++ t :: rest) → Apart (Hint te.space) ts →
          Run te he b ⟨false, d0⟩ ts (before (.comment (badComment he h t) :: .kwImport :: mid) r) := by
      intro r hr b ts hfit ha
      obtain ⟨ts', rfl, hf, hup⟩ := run_up (he := he) (p := ⟨false, d0⟩) hte hs hfit
      obtain ⟨ts3, -, rfl, -⟩ := break_off hw ha hf
      apply hup
      have ha' : Apart (Hint te.space) (t :: ts3) := apart_suffix ha ⟨.kwImport :: mid, by simp⟩
      have e1 : before (.comment (badComment he h t) :: .kwImport :: mid) r =
          before [.comment (badComment he h t)] (before [.kwImport] (before mid r)) := by
        cases r with
        | error e => rfl
        | ok x => simp [before, Except.map]
      have k : Run te he true ⟨false, d0⟩ (.comment (badComment he h t) :: .kwImport :: (mid ++ t :: ts3))
          (before [.comment (badComment he h t)] (before [.kwImport] (before mid r))) := by
        refine run_keep (th_skip te hte _) hcm ?_
        refine run_tok (o := mid ++ t :: rest) hte hs (.skip hf) (by simp) hh ?_
        intro b' h'
        exact run_outs hte hs mid hmid (fun t ht => handle_inner _ (hw.mem t ht)) h' fun b2 h2 => hr b2 _ h2 ha'
      have := run_hi (te := te) (rest := ts3) hte hrun
        (r := before [.comment (badComment he h t)] (before [.kwImport] (before mid r))) (by simpa using k)
      rw [e1]
      simpa using this
    rcases ih d0 with ⟨out, b', hr, hg⟩ | ⟨x, hx, hxd, hf⟩
    · refine .inl ⟨_, b', .bad (note := h ++ txt "; final token: " ++ he.typeName t) h1 h2 h3 hr, ?_⟩
      intro b ts hfit ha
      have := key _ hg b ts hfit ha
      simpa [before, Except.map, badComment] using this
    · refine .inr ⟨x, hx, hxd, ?_⟩
      intro b ts hfit ha
      exact key (.error _) hf b ts hfit ha

/-! ## Scanning -/

/-- Neither an `import` nor a request to ignore one is in the line. -/
def Calm (line : List Tok) : Prop :=
  .kwImport ∉ line ∧ (∀ x ∈ line, ¬ IgnoreMark x) ∧ ¬ IgnoreMark (.comment (serializeMany line))

theorem hashed_calm {new : Text → Option Text} {dep : Text → Text} {hb : Bool} {ts o : List Tok} {ds : List Text}
    (h : Hashed new dep hb ts o ds) : ∀ (line : List Tok), .kwImport ∉ line → (∀ x ∈ line, ¬ IgnoreMark x) →
    Hashed new dep hb (line ++ ts) (line ++ o) ds := by
  intro line
  induction line with
  | nil => intro _ _; exact h
  | cons x line ih =>
    intro h1 h2
    exact .keep (fun e => h1 (by simp [e])) (.inr (h2 x (by simp))) (ih (fun hm => h1 (by simp [hm])) fun y hy => h2 y (by simp [hy]))

/-- The imports of the script are those of what is made of it. -/
theorem same_imports {dep : Text → Text} {hb : Bool} {o1 o : List Tok} {ds : List Text} (h : Hashed some dep hb o1 o ds) :
    ∀ b ts, Fit hint Calm b ts o1 → Apart hint ts → ∃ o', Hashed some dep hb ts o' ds := by
  induction h with
  | nil =>
    intro b ts h _
    cases h
    exact ⟨_, .nil⟩
  | @keep hb t o1 o ds h1 h2 _ ih =>
    intro b ts hfit ha
    have key : ∀ b' ts', ts = t :: ts' → Fit hint Calm b' ts' o1 → ∃ o', Hashed some dep hb ts o' ds := by
      rintro b' ts' rfl hf
      obtain ⟨o', ho⟩ := ih b' ts' hf (apart_suffix ha (List.suffix_cons _ _))
      exact ⟨_, .keep h1 h2 ho⟩
    rcases fit_cases hfit with ⟨ts', e, ⟨-, hf⟩ | ⟨-, -, hf⟩ | ⟨-, -, -, hf⟩⟩ | ⟨-, line, x, rest, rfl, h3, h4, h5, h6, -, hf⟩
    · exact key _ _ e hf
    · exact key _ _ e hf
    · exact key _ _ e hf
    · obtain ⟨o', ho⟩ := ih _ _ hf (apart_suffix ha (List.suffix_append _ _))
      exact ⟨_, hashed_calm ho line h6.1 h6.2.1⟩
  | @mark t o1 o ds h1 _ ih =>
    intro b ts hfit ha
    have key : ∀ b' ts', ts = t :: ts' → Fit hint Calm b' ts' o1 → ∃ o', Hashed some dep false ts o' ds := by
      rintro b' ts' rfl hf
      obtain ⟨o', ho⟩ := ih b' ts' hf (apart_suffix ha (List.suffix_cons _ _))
      exact ⟨_, .mark h1 ho⟩
    rcases fit_cases hfit with ⟨ts', e, ⟨-, hf⟩ | ⟨-, -, hf⟩ | ⟨-, -, -, hf⟩⟩ | ⟨-, line, x, rest, rfl, h3, h4, h5, h6, rfl, hf⟩
    · exact key _ _ e hf
    · exact key _ _ e hf
    · exact key _ _ e hf
    · exact absurd h1 h6.2.2
  | @ignored o1 o ds _ ih =>
    intro b ts hfit ha
    have key : ∀ b' ts', ts = .kwImport :: ts' → Fit hint Calm b' ts' o1 → ∃ o', Hashed some dep true ts o' ds := by
      rintro b' ts' rfl hf
      obtain ⟨o', ho⟩ := ih b' ts' hf (apart_suffix ha (List.suffix_cons _ _))
      exact ⟨_, .ignored ho⟩
    obtain ⟨ts', e, ⟨-, hf⟩ | ⟨-, -, hf⟩ | ⟨-, -, -, hf⟩⟩ := fit_head hfit (by simp)
    · exact key _ _ e hf
    · exact key _ _ e hf
    · exact key _ _ e hf
  | @hash run s s' rest o ds h1 h2 h3 _ ih =>
    intro b ts hfit ha
    obtain ⟨mid, g, rfl, hw, hm⟩ := complete_walk h1
    have hc : ∀ t ∈ Tok.kwImport :: mid ++ [.str s], ∀ v, t ≠ .comment v := by
      intro t ht v
      simp only [List.mem_append, List.mem_cons, List.not_mem_nil, or_false] at ht
      rcases ht with (rfl | ht) | rfl
      · simp
      · exact inner_not_comment (hw.mem t ht) v
      · simp
    obtain ⟨ts', b', rfl, hf, -⟩ := fit_peel (Tok.kwImport :: mid ++ [.str s]) hc (o := rest) (by simpa using hfit)
    obtain ⟨o', ho⟩ := ih _ _ hf (apart_suffix ha (List.suffix_append _ _))
    exact ⟨_, by have := Hashed.hash h1 h2 h3 ho; simpa using this⟩
  | @bad run t rest o ds note h1 h2 h3 _ ih =>
    intro b ts hfit ha
    obtain ⟨mid, g, rfl, hw⟩ := begins_walk h1
    have hc : ∀ t ∈ Tok.kwImport :: mid, ∀ v, t ≠ .comment v := by
      intro t ht v
      rcases List.mem_cons.1 ht with rfl | ht
      · simp
      · exact inner_not_comment (hw.mem t ht) v
    obtain ⟨ts', b', rfl, hf, -⟩ := fit_peel (Tok.kwImport :: mid) hc hfit
    have hf1 : Fit hint Calm true (mid ++ ts') (mid ++ t :: rest) := by
      obtain ⟨ts2, e, ⟨-, hf⟩ | ⟨-, -, hf⟩ | ⟨-, -, -, hf⟩⟩ := fit_head hfit (by simp)
      all_goals (cases e; simpa using hf)
    obtain ⟨ts3, -, e, -⟩ := break_off hw ha hf1
    have e : mid ++ ts' = mid ++ t :: ts3 := e
    have e := List.append_cancel_left e
    subst e
    obtain ⟨o', ho⟩ := ih _ _ hf (apart_suffix ha (List.suffix_append _ _))
    exact ⟨_, .bad (note := note) h1 h2 h3 ho⟩

theorem calm_of_quiet {ts : List Tok} (h : Quiet hint ts) : ∀ line, HintLine hint ts line → Calm line := h

theorem commented_exists (space : Nat → Bool) (hs : SpaceOk space) {ts : List Tok} (h : EofEnd ts) :
    ∃ o, CommentedBlank (Hint space) ts o := by
  obtain ⟨o, -, h1, -⟩ := th_main ⟨false, space⟩ rfl hs _ ts (Nat.le_refl _) (.inl h)
  exact ⟨o, h1⟩

/-- The commented lines still end with the end of file. -/
theorem commented_eofEnd {ts o : List Tok} (h : CommentedBlank hint ts o) : EofEnd ts ∨ ts = [] → EofEnd o ∨ o = [] := by
  have eofCons : ∀ {rest : List Tok}, EofEnd (.eof :: rest) → rest = [] := by
    rintro rest ⟨body, hb, he⟩
    cases body with
    | nil => simpa using he
    | cons z body => simp at he; exact absurd (by simp [he.1]) hb
  have next : ∀ {line u : List Tok} {t : Tok} {rest o : List Tok}, CommentedBlank hint rest o → EofEnd (line ++ t :: rest) →
      LineEnds t → .eof ∉ u → (EofEnd rest ∨ rest = [] → EofEnd o ∨ o = []) → EofEnd (u ++ t :: o) := by
    intro line u t rest o hc he ht hu ih
    have he' := he.drop line (by simp)
    rcases ht with rfl | rfl
    · have hne : rest ≠ [] := by
        rintro rfl
        obtain ⟨body, -, e⟩ := he'
        have := congrArg List.getLast? e
        simp at this
      rcases ih (.inl (he'.tail hne)) with ⟨body, hb, rfl⟩ | rfl
      · refine ⟨u ++ .lineTerminator :: body, ?_, by simp⟩
        simp [hu, hb]
      · exfalso
        generalize hq : ([] : List Tok) = q at hc
        cases hc with
        | nil => exact hne rfl
        | plain => simp at hq
        | hint => cases hq
        | blank => cases hq
        | last => cases hq
    · have hr := eofCons he'
      subst hr
      have ho := commented_nil hc rfl
      subst ho
      exact ⟨u, hu, rfl⟩
  induction h with
  | nil => intro _; exact .inr rfl
  | @plain line t rest o h1 hne h2 h3 hc ih => intro he; exact .inl (next hc (he.resolve_right (by simp)) h2 h1.2 ih)
  | @hint line t rest o h1 h2 h3 hc ih =>
    intro he
    exact .inl (next (u := [.comment (serializeMany line)]) hc (he.resolve_right (by simp)) h2 (by simp) ih)
  | @blank t line t' rest o h1 h2 h3 hc ih =>
    intro he
    have he := he.resolve_right (by simp)
    have ht : t ≠ .eof := by
      rintro rfl
      have := eofCons he
      simp at this
    refine .inl (next (line := t :: line) (u := t :: line) hc he h3 ?_ ih)
    intro hm
    rcases List.mem_cons.1 hm with hm | hm
    · exact ht hm.symm
    · exact h2.2 hm
  | @last t h1 => intro he; exact he

end Hinted

/-- If no line with a type hint comes directly after an empty line, the lines with type hints, and only those, become comments. -/
theorem commented_of_notAfterBlank {hint : Tok → Prop} {ts o : List Tok} (h : CommentedBlank hint ts o) :
    NotAfterBlank hint ts → EofEnd ts ∨ ts = [] → Commented hint ts o := by
  have eofCons : ∀ {rest : List Tok}, EofEnd (.eof :: rest) → rest = [] := by
    rintro rest ⟨body, hb, he⟩
    cases body with
    | nil => simpa using he
    | cons z body => simp at he; exact absurd (by simp [he.1]) hb
  have next : ∀ {line : List Tok} {t : Tok} {rest o : List Tok}, CommentedBlank hint rest o → EofEnd (line ++ t :: rest) → LineEnds t →
      NotAfterBlank hint (line ++ t :: rest) → (NotAfterBlank hint rest → EofEnd rest ∨ rest = [] → Commented hint rest o) →
      Commented hint rest o := by
    intro line t rest o hc he ht hn ih
    have he' := he.drop line (by simp)
    rcases ht with rfl | rfl
    · refine ih ?_ ?_
      · rintro a l x b rfl ha
        refine hn (line ++ .lineTerminator :: a) l x b (by simp) (.inr ?_)
        rcases ha with rfl | ha
        · simp
        · rw [List.getLast?_append, List.getLast?_cons, ha]; simp
      · by_cases hr : rest = []
        · exact .inr hr
        · exact .inl (he'.tail hr)
    · have hr := eofCons he'
      subst hr
      have ho := Hinted.commented_nil hc rfl
      subst ho
      exact .nil
  induction h with
  | nil => intro _ _; exact .nil
  | @plain line t rest o h1 hne h2 h3 hc ih => intro hn he; exact .plain h1 h2 h3 (next hc (he.resolve_right (by simp)) h2 hn ih)
  | @hint line t rest o h1 h2 h3 hc ih => intro hn he; exact .hint h1 h2 h3 (next hc (he.resolve_right (by simp)) h2 hn ih)
  | @blank t line t' rest o h1 h2 h3 hc ih =>
    intro hn he
    have he := he.resolve_right (by simp)
    rcases h1 with rfl | rfl
    · refine .plain (line := []) ⟨by simp, by simp⟩ (.inl rfl) (by simp) (.plain h2 h3 ?_ ?_)
      · exact hn [] line t' rest rfl (.inl rfl) h2 h3
      · exact next (line := .lineTerminator :: line) hc he h3 hn ih
    · have := eofCons he
      simp at this
  | @last t h1 => intro _ _; exact .plain (line := []) ⟨by simp, by simp⟩ h1 (by simp) .nil

/-- **C55** for the files in which no line with a type hint comes directly after an empty line: exactly the lines with a type hint
become comments, everything else is kept.  Missing: the other files, see `C55_false`. -/
theorem C55_blank_partial (env : ThEnv) (he : env.scan = false) (hs : SpaceOk env.space) (ops : List (Op Tok))
    (h : EofEnd (tokensOf ops)) (hn : NotAfterBlank (Hint env.space) (tokensOf ops)) :
    ∃ fuel acc rest b, runOps [(typeHints env).toManip] fuel (State.new (false, .unmarked)) [] ops =
        some (.ok (acc, { output := rest, mark := none, st := (b, .unmarked) })) ∧
      Commented (Hint env.space) (tokensOf ops) (acc ++ rest) := by
  obtain ⟨fuel, acc, rest, b, h1, h2⟩ := C55_exact_partial env he hs ops h
  exact ⟨fuel, acc, rest, b, h1, commented_of_notAfterBlank h2 hn (.inl h)⟩

/-- **C34, C55** for scripts whose lines with type hints are apart from the import statements.  Building comments out the lines
with type hints (those after an empty line are kept, `C55_false`), and of what then stands there the imports get the hashes, or a
hash is missing and the build fails with this; and if the lines with type hints have no imports in them, the scan reports exactly
what the build depends on.  Missing: the other scripts with type hints, see `C34_false`. -/
theorem C34_hints_partial (env : HiEnv) (space : Nat → Bool) (hs : SpaceOk space) (text : Text) :
    ∃ ts cs, tokenize text = some ts ∧ CommentedBlank (Hint space) ts cs ∧ (Apart (Hint space) ts →
    ∃ ds, (Quiet (Hint space) ts → ∃ fuel b, loop (jsManips ⟨true, space⟩ (scanEnv env)) fuel (State.new jsInit) ts = some (.ok b) ∧
        b.mark = none ∧ b.st.2.1.deps = ds) ∧
      ((∃ fuel b, loop (jsManips ⟨false, space⟩ (buildEnv env)) fuel (State.new jsInit) ts = some (.ok b) ∧
          b.mark = none ∧ b.st.2.1.deps = ds ∧
          Hashed (newSpec (buildEnv env)) (depOf env) false cs b.output ds) ∨
        ∃ fuel p, loop (jsManips ⟨false, space⟩ (buildEnv env)) fuel (State.new jsInit) ts = some (.error (.notFound p)) ∧
          p ∈ ds ∧ env.hash p = none)) := by
  obtain ⟨ts, h1, h2⟩ := tokenize_eofEnd text
  obtain ⟨cs, hc⟩ := Hinted.commented_exists space hs h2
  refine ⟨ts, cs, h1, hc, fun ha => ?_⟩
  obtain ⟨o, ds, hr⟩ := hashed_total (depOf env) _ false cs (Nat.le_refl _) (Hinted.commented_eofEnd hc (.inl h2))
  refine ⟨ds, ?_, ?_⟩
  · intro hq
    obtain ⟨o', hr'⟩ := Hinted.same_imports hr false ts (Hinted.fit_of_commented hc (.inl h2) hq) ha
    rcases carry_main (carrier_scan ⟨true, space⟩ (scanEnv env) rfl) okClosed_true hr' (.inl trivial) [] with
      ⟨out, b', h3, h4⟩ | ⟨x, h3, -⟩
    · obtain ⟨s', h5, b, rfl⟩ := h4 jsInit ⟨false, rfl⟩
      obtain ⟨f, hf⟩ := loop_complete h5 (State.new jsInit) rfl rfl
      exact ⟨f, _, hf, rfl, rfl⟩
    · simp [newSpec, scanEnv] at h3
  · have hfit := Hinted.fit_of_commented (good := fun _ => True) hc (.inl h2) (fun _ _ => trivial)
    rcases Hinted.hinted_main (te := ⟨false, space⟩) (he := buildEnv env) (good := fun _ => True) rfl hs hr [] with
      ⟨out, b', h3, h4⟩ | ⟨x, h3, h4, h5⟩
    · obtain ⟨b, h5⟩ := h4 false ts hfit ha
      obtain ⟨f, hf⟩ := loop_complete h5 (State.new jsInit) rfl rfl
      refine .inl ⟨f, _, hf, rfl, rfl, ?_⟩
      have h3 : Hashed (newSpec (buildEnv env)) (depOf env) false cs out ds := h3
      simpa [State.new] using h3
    · obtain ⟨f, hf⟩ := loop_fails (h5 false ts hfit ha) (State.new jsInit) rfl rfl
      refine .inr ⟨f, _, hf, h4, ?_⟩
      have h3 : newSpec (buildEnv env) x = none := h3
      show env.hash (env.resolve x).1 = none
      simpa [newSpec, buildEnv] using h3

end Verif.Js
