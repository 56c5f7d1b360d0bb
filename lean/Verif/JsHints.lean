import Verif.JsManipThm
/-!
# C55: type hints
-/
namespace Verif.Js
open Verif.Reader (Text txt)
open Verif.Build

/-! ## What should happen -/

/-- A comment which is `@@type-hint`, up to whitespace. -/
def Hint (space : Nat → Bool) (t : Tok) : Prop :=
  ∃ a b, (∀ c ∈ a ++ b, space c = true) ∧ t = .comment (a ++ txt "@@type-hint" ++ b)

/-- A line without its end. -/
def Line (line : List Tok) : Prop := .lineTerminator ∉ line ∧ .eof ∉ line

/-- The end of a line. -/
def LineEnds (t : Tok) : Prop := t = .lineTerminator ∨ t = .eof

/-- The lines with a type hint, and only those, become comments. -/
inductive Commented (hint : Tok → Prop) : List Tok → List Tok → Prop
  | nil : Commented hint [] []
  | plain {line t rest o} : Line line → LineEnds t → (∀ x ∈ line, ¬ hint x) → Commented hint rest o →
      Commented hint (line ++ t :: rest) (line ++ t :: o)
  | hint {line t rest o} : Line line → LineEnds t → (∃ x ∈ line, hint x) → Commented hint rest o →
      Commented hint (line ++ t :: rest) (.comment (serializeMany line) :: t :: o)

/-- What happens: a line after an empty line is kept, whatever is in it. -/
inductive CommentedBlank (hint : Tok → Prop) : List Tok → List Tok → Prop
  | nil : CommentedBlank hint [] []
  | plain {line t rest o} : Line line → line ≠ [] → LineEnds t → (∀ x ∈ line, ¬ hint x) → CommentedBlank hint rest o →
      CommentedBlank hint (line ++ t :: rest) (line ++ t :: o)
  | hint {line t rest o} : Line line → LineEnds t → (∃ x ∈ line, hint x) → CommentedBlank hint rest o →
      CommentedBlank hint (line ++ t :: rest) (.comment (serializeMany line) :: t :: o)
  | blank {t line t' rest o} : LineEnds t → Line line → LineEnds t' → CommentedBlank hint rest o →
      CommentedBlank hint (t :: (line ++ t' :: rest)) (t :: (line ++ t' :: o))
  | last {t} : LineEnds t → CommentedBlank hint [t] [t]

/-- Printable ASCII characters are no whitespace. -/
def SpaceOk (space : Nat → Bool) : Prop := ∀ c, 33 ≤ c → c ≤ 126 → space c = false

/-! ## `strip` -/

theorem dropWhile_all {α : Type} (f : α → Bool) : ∀ (a : List α) (b : List α), (∀ c ∈ a, f c = true) →
    (a ++ b).dropWhile f = b.dropWhile f := by
  intro a
  induction a with
  | nil => intro b _; rfl
  | cons c a ih =>
    intro b h
    rw [List.cons_append, List.dropWhile_cons, h c (by simp)]
    exact ih b fun x hx => h x (by simp [hx])

theorem dropWhile_split {α : Type} (f : α → Bool) : ∀ (l : List α), ∃ a, (∀ c ∈ a, f c = true) ∧ l = a ++ l.dropWhile f := by
  intro l
  induction l with
  | nil => exact ⟨[], by simp, rfl⟩
  | cons c l ih =>
    rw [List.dropWhile_cons]
    cases hc : f c with
    | false => exact ⟨[], by simp, by simp⟩
    | true =>
      obtain ⟨a, h1, h2⟩ := ih
      refine ⟨c :: a, ?_, ?_⟩
      · intro x hx
        rcases List.mem_cons.1 hx with rfl | hx
        · exact hc
        · exact h1 x hx
      · simp only [if_true, List.cons_append]; rw [← h2]

theorem strip_split (space : Nat → Bool) (s : Text) : ∃ a b, (∀ c ∈ a ++ b, space c = true) ∧ s = a ++ strip space s ++ b := by
  obtain ⟨a, ha, h1⟩ := dropWhile_split space s
  obtain ⟨b, hb, h2⟩ := dropWhile_split space (s.dropWhile space).reverse
  refine ⟨a, b.reverse, ?_, ?_⟩
  · intro c hc
    rcases List.mem_append.1 hc with hc | hc
    · exact ha c hc
    · exact hb c (by simpa using hc)
  · have := congrArg List.reverse h2
    rw [List.reverse_reverse, List.reverse_append] at this
    unfold strip
    rw [List.append_assoc, ← this]
    exact h1

theorem hintText : txt "@@type-hint" = [64, 64, 116, 121, 112, 101, 45, 104, 105, 110, 116] := by decide

theorem isHint_iff (env : ThEnv) (hs : SpaceOk env.space) (t : Tok) : isHint env t = true ↔ Hint env.space t := by
  constructor
  · intro h
    cases t <;> simp only [isHint, Bool.false_eq_true, beq_iff_eq] at h
    next v =>
    obtain ⟨a, b, h1, h2⟩ := strip_split env.space v
    exact ⟨a, b, h1, by rw [h] at h2; rw [← h2]⟩
  · rintro ⟨a, b, h1, rfl⟩
    simp only [isHint, beq_iff_eq, strip]
    have e1 : (txt "@@type-hint" ++ b).dropWhile env.space = txt "@@type-hint" ++ b := by
      rw [hintText, List.cons_append, List.dropWhile_cons, hs 64 (by decide) (by decide)]
      simp
    have e2 : (txt "@@type-hint").reverse.dropWhile env.space = (txt "@@type-hint").reverse := by
      rw [hintText]
      simp [hs 116 (by decide) (by decide)]
    rw [List.append_assoc, dropWhile_all _ _ _ (fun c hc => h1 c (by simp [hc])), e1, List.reverse_append,
      dropWhile_all _ _ _ (fun c hc => h1 c (by simp at hc; simp [hc])), e2, List.reverse_reverse]

/-- A comment with a slash in it is no type hint. -/
theorem not_hint_of_slash {space : Nat → Bool} (hs : SpaceOk space) {v : Text} (h : 47 ∈ v) : ¬ Hint space (.comment v) := by
  rintro ⟨a, b, h1, h2⟩
  cases h2
  have h3 : (47 : Nat) ∉ txt "@@type-hint" := by decide
  have := hs 47 (by decide) (by decide)
  simp only [List.mem_append] at h
  rcases h with (h | h) | h
  · rw [h1 47 (by simp [h])] at this; cases this
  · exact h3 h
  · rw [h1 47 (by simp [h])] at this; cases this

theorem hint_serialized_slash {space : Nat → Bool} {line : List Tok} (h : ∃ x ∈ line, Hint space x) :
    47 ∈ serializeMany line := by
  obtain ⟨x, hx, a, b, -, rfl⟩ := h
  unfold serializeMany
  rw [List.mem_flatMap]
  refine ⟨_, hx, ?_⟩
  simp [serialize]

/-- A comment which starts with `P` is no type hint. -/
theorem not_hint_of_head {space : Nat → Bool} (hs : SpaceOk space) {v : Text} (h : v.head? = some 80) :
    ¬ Hint space (.comment v) := by
  rintro ⟨a, b, h1, h2⟩
  cases h2
  cases a with
  | nil => rw [hintText] at h; simp at h
  | cons c a =>
    simp at h
    subst h
    have := hs 80 (by decide) (by decide)
    rw [h1 80 (by simp)] at this
    cases this

/-! ## Going through a line -/

theorem endsLine_iff (t : Tok) : endsLine t = true ↔ LineEnds t := by
  simp [endsLine, LineEnds]

theorem not_ends {line : List Tok} (h : Line line) {t : Tok} (ht : t ∈ line) : endsLine t = false := by
  rw [← Bool.not_eq_true, endsLine_iff]
  rintro (rfl | rfl)
  · exact h.1 ht
  · exact h.2 ht

theorem th_open (env : ThEnv) : ∀ (line : List Tok), Line line → ∀ (ex : Bool) (stack : List Tok),
    Open (typeHints env).toManip (false, .marking stack ex) line
      (false, .marking (stack ++ line) (ex || line.any (isHint env))) := by
  intro line
  induction line with
  | nil => intro _ ex stack; simp only [List.append_nil, List.any_nil, Bool.or_false]; exact .nil
  | cons t line ih =>
    intro hl ex stack
    have hl' : Line line := ⟨fun h => hl.1 (by simp [h]), fun h => hl.2 (by simp [h])⟩
    have := ih hl' (ex || isHint env t) (stack ++ [t])
    rw [List.append_assoc, Bool.or_assoc] at this
    refine .cons ?_ this
    have h1 := not_ends hl (t := t) (by simp)
    have h2 : isEof t = false := by
      simp only [endsLine, Bool.or_eq_false_iff] at h1
      exact h1.2
    simp [YManip.toManip, YManip.cont, typeHints, thResume, thLoop, h1, h2]

/-- What the manipulator gives for a line which is not empty. -/
theorem th_closed (env : ThEnv) (he : env.scan = false) {x t : Tok} {line : List Tok} (hl : Line (x :: line))
    (ht : LineEnds t) :
    (typeHints env).toManip.start (false, .unmarked) x = .ok (true, (false, .skipping [x] (isHint env x))) ∧
    Closed (typeHints env).toManip (false, .skipping [x] (isHint env x)) (x :: line ++ [t])
      (if (x :: line).any (isHint env) then [.comment (serializeMany (x :: line)), t] else x :: line ++ [t])
      (!(x :: line).any (isHint env), .unmarked) := by
  have h1 := not_ends hl (t := x) (by simp)
  have h2 : isEof x = false := by
    simp only [endsLine, Bool.or_eq_false_iff] at h1
    exact h1.2
  refine ⟨by simp [YManip.toManip, YManip.start, typeHints, thHandle, thLoop, he, h1, h2], ?_⟩
  have hl' : Line line := ⟨fun h => hl.1 (by simp [h]), fun h => hl.2 (by simp [h])⟩
  refine ⟨x :: line, t, _, rfl, .cons rfl (th_open env line hl' (isHint env x) [x]), ?_⟩
  have h3 := (endsLine_iff t).2 ht
  have hg : (x :: (line ++ [t])).getLast? = some t := by rw [← List.cons_append, List.getLast?_append]; rfl
  rw [List.any_cons]
  cases hh : (isHint env x || line.any (isHint env)) with
  | false => simp [YManip.toManip, YManip.cont, typeHints, thResume, thLoop, h3, hg]
  | true =>
    have hd : (x :: (line ++ [t])).dropLast = x :: line := by rw [← List.cons_append]; exact List.dropLast_concat
    simp [YManip.toManip, YManip.cont, typeHints, thResume, thLoop, h3, hd, hg]

theorem th_skip (env : ThEnv) (he : env.scan = false) (t : Tok) :
    (typeHints env).toManip.start (true, .unmarked) t = .ok (false, (decide (t ≠ .lineTerminator), .unmarked)) := by
  simp [YManip.toManip, YManip.start, typeHints, thHandle, he]

theorem th_blank (env : ThEnv) (he : env.scan = false) {t : Tok} (ht : LineEnds t) :
    (typeHints env).toManip.start (false, .unmarked) t = .ok (false, (true, .unmarked)) := by
  simp [YManip.toManip, YManip.start, typeHints, thHandle, he, thLoop, (endsLine_iff t).2 ht]

/-- A line behind which `ts` follows, all kept. -/
theorem th_keep_line (env : ThEnv) (he : env.scan = false) {t : Tok} {rest out : List Tok} {m : Option (Manip _ Tok MErr)}
    {s : Bool × YSt Bool Tok}
    (h : Stream [(typeHints env).toManip] (decide (t ≠ .lineTerminator), .unmarked) rest out m s) :
    ∀ (line : List Tok), Line line →
    Stream [(typeHints env).toManip] (true, .unmarked) (line ++ t :: rest) (line ++ t :: out) m s := by
  intro line
  induction line with
  | nil => intro _; exact .keep (.cons (th_skip env he t) .nil) h
  | cons x line ih =>
    intro hl
    have hl' : Line line := ⟨fun h => hl.1 (by simp [h]), fun h => hl.2 (by simp [h])⟩
    have hx : decide (x ≠ .lineTerminator) = true := by
      simp only [decide_eq_true_eq]
      rintro rfl
      exact hl.1 (by simp)
    have := th_skip env he x
    rw [hx] at this
    exact .keep (.cons this .nil) (ih hl')

theorem EofEnd.line {ts : List Tok} (h : EofEnd ts) : ∃ line t rest, ts = line ++ t :: rest ∧ Line line ∧ LineEnds t ∧
    (t = .lineTerminator → EofEnd rest) ∧ (t = .eof → rest = []) := by
  obtain ⟨body, hb, rfl⟩ := h
  induction body with
  | nil => exact ⟨[], .eof, [], rfl, ⟨by simp, by simp⟩, .inr rfl, (by intro h; cases h), fun _ => rfl⟩
  | cons x body ih =>
    have hb' : Tok.eof ∉ body := fun h => hb (by simp [h])
    by_cases hx : x = .lineTerminator
    · subst hx
      exact ⟨[], _, body ++ [.eof], rfl, ⟨by simp, by simp⟩, .inl rfl, fun _ => ⟨body, hb', rfl⟩, by intro h; cases h⟩
    · obtain ⟨line, t, rest, h1, h2, h3⟩ := ih hb'
      refine ⟨x :: line, t, rest, by rw [List.cons_append, h1]; rfl, ⟨?_, ?_⟩, h3⟩
      · intro h
        rcases List.mem_cons.1 h with h | h
        · exact hx h.symm
        · exact h2.1 h
      · intro h
        rcases List.mem_cons.1 h with h | h
        · exact hb (by simp [h])
        · exact h2.2 h

theorem th_main (env : ThEnv) (he : env.scan = false) (hs : SpaceOk env.space) : ∀ (n : Nat) (ts : List Tok),
    ts.length ≤ n → EofEnd ts ∨ ts = [] →
    ∃ o b, CommentedBlank (Hint env.space) ts o ∧
      Stream [(typeHints env).toManip] (false, .unmarked) ts o none (b, .unmarked) := by
  intro n
  induction n with
  | zero =>
    intro ts hl _
    have : ts = [] := List.length_eq_zero_iff.1 (by omega)
    subst this
    exact ⟨[], false, .nil, .nil⟩
  | succ n ih =>
    intro ts hl h
    by_cases hne : ts = []
    · subst hne; exact ⟨[], false, .nil, .nil⟩
    have h := h.resolve_right hne
    obtain ⟨line, t, rest, rfl, h1, h2, h3, h4⟩ := h.line
    have hrest : EofEnd rest ∨ rest = [] := by
      rcases h2 with h2 | h2
      · exact .inl (h3 h2)
      · exact .inr (h4 h2)
    simp only [List.length_append, List.length_cons] at hl
    -- what follows the end of a line which is kept
    have follow : ∀ (t : Tok) (rest : List Tok), rest.length ≤ n → LineEnds t → (t = .lineTerminator → EofEnd rest) →
        (t = .eof → rest = []) →
        ∃ o b, CommentedBlank (Hint env.space) rest o ∧
          Stream [(typeHints env).toManip] (decide (t ≠ .lineTerminator), .unmarked) rest o none (b, .unmarked) := by
      intro t rest hlen ht h3 h4
      rcases ht with ht | ht
      · obtain ⟨o, b, h5, h6⟩ := ih rest hlen (.inl (h3 ht))
        exact ⟨o, b, h5, by subst ht; exact h6⟩
      · rw [h4 ht]
        exact ⟨[], _, .nil, .nil⟩
    cases line with
    | nil =>
      rcases hrest with hrest | hrest
      · obtain ⟨line', t', rest', rfl, g1, g2, g3, g4⟩ := hrest.line
        simp only [List.length_append, List.length_cons, List.length_nil] at hl
        obtain ⟨o, b, h5, h6⟩ := follow t' rest' (by omega) g2 g3 g4
        exact ⟨_, b, .blank h2 g1 g2 h5, .keep (.cons (th_blank env he h2) .nil) (th_keep_line env he h6 line' g1)⟩
      · subst hrest
        exact ⟨_, true, .last h2, .keep (.cons (th_blank env he h2) .nil) .nil⟩
    | cons x line =>
      obtain ⟨o, b, h5, h6⟩ := follow t rest (by simp at hl; omega) h2 h3 h4
      obtain ⟨k1, k2⟩ := th_closed env he h1 h2
      cases hh : (x :: line).any (isHint env) with
      | false =>
        rw [hh] at k2
        refine ⟨_, b, .plain h1 (by simp) h2 ?_ h5, ?_⟩
        · intro y hy hy2
          have := List.any_eq_false.1 hh y hy
          exact this ((isHint_iff env hs y).2 hy2)
        · have k3 := th_keep_line env he h6 (x :: line) h1
          have := Stream.replace (rest := rest) (Taken.head (ms := []) k1) rfl k2 (by simpa using k3)
          simpa using this
      | true =>
        rw [hh] at k2
        have hex : ∃ y ∈ x :: line, Hint env.space y := by
          obtain ⟨y, hy, hy2⟩ := List.any_eq_true.1 hh
          exact ⟨y, hy, (isHint_iff env hs y).1 hy2⟩
        refine ⟨_, b, .hint h1 h2 hex h5, ?_⟩
        -- the comment is a line without hint
        have hcl : Line [.comment (serializeMany (x :: line))] := ⟨by simp, by simp⟩
        obtain ⟨c1, c2⟩ := th_closed env he hcl h2
        have hno : isHint env (.comment (serializeMany (x :: line))) = false := by
          rw [← Bool.not_eq_true, isHint_iff env hs]
          exact not_hint_of_slash hs (hint_serialized_slash hex)
        simp only [List.any_cons, List.any_nil, hno, Bool.or_false, Bool.false_eq_true, if_false, Bool.not_false] at c1 c2
        have k3 := th_keep_line env he h6 _ hcl
        have k4 := Stream.replace (rest := rest) (Taken.head (ms := []) c1) rfl c2 (by simpa using k3)
        have := Stream.replace (rest := rest) (Taken.head (ms := []) k1) rfl k2 (by simpa using k4)
        simpa using this

/-- **C55**, what is true of every file: the builder with the type hint manipulator comes to an end, and the
lines with a type hint, except those after an empty line, become comments; everything else is kept. -/
theorem C55_exact_partial (env : ThEnv) (he : env.scan = false) (hs : SpaceOk env.space) (ops : List (Op Tok))
    (h : EofEnd (tokensOf ops)) :
    ∃ fuel acc rest b, runOps [(typeHints env).toManip] fuel (State.new (false, .unmarked)) [] ops =
        some (.ok (acc, { output := rest, mark := none, st := (b, .unmarked) })) ∧
      CommentedBlank (Hint env.space) (tokensOf ops) (acc ++ rest) := by
  obtain ⟨o, b, h1, h2⟩ := th_main env he hs _ (tokensOf ops) (Nat.le_refl _) (.inl h)
  obtain ⟨fuel, acc, rest, h4, h5⟩ := C32_complete _ _ _ ops _ _ h2
  exact ⟨fuel, acc, rest, b, h4, by rw [h5]; exact h1⟩

/-- There is no empty line. -/
def NoBlank (ts : List Tok) : Prop :=
  ts.head? ≠ some .lineTerminator ∧ ∀ a b, ts ≠ a ++ .lineTerminator :: .lineTerminator :: b

theorem commented_of_noBlank {hint : Tok → Prop} {ts o : List Tok} (h : CommentedBlank hint ts o) :
    NoBlank ts → EofEnd ts ∨ ts = [] → Commented hint ts o := by
  induction h with
  | nil => intro _ _; exact .nil
  | @plain line t rest o h1 hne h2 h3 _ ih =>
    intro hn he
    refine .plain h1 h2 h3 (ih ?_ ?_)
    · refine ⟨?_, fun a b hab => hn.2 (line ++ t :: a) b (by rw [hab]; simp)⟩
      intro hr
      cases rest with
      | nil => simp at hr
      | cons y rest =>
        simp at hr; subst hr
        rcases h2 with rfl | rfl
        · exact hn.2 line rest rfl
        · have he := (he.resolve_right (by simp)).drop line (by simp)
          obtain ⟨body, hb, hbe⟩ := he
          cases body with
          | nil => simp at hbe
          | cons z body => simp at hbe; exact hb (by simp [hbe.1])
    · by_cases hr : rest = []
      · exact .inr hr
      · exact .inl (((he.resolve_right (by simp)).drop line (by simp)).tail hr)
  | @hint line t rest o h1 h2 h3 _ ih =>
    intro hn he
    refine .hint h1 h2 h3 (ih ?_ ?_)
    · refine ⟨?_, fun a b hab => hn.2 (line ++ t :: a) b (by rw [hab]; simp)⟩
      intro hr
      cases rest with
      | nil => simp at hr
      | cons y rest =>
        simp at hr; subst hr
        rcases h2 with rfl | rfl
        · exact hn.2 line rest rfl
        · have he := (he.resolve_right (by simp)).drop line (by simp)
          obtain ⟨body, hb, hbe⟩ := he
          cases body with
          | nil => simp at hbe
          | cons z body => simp at hbe; exact hb (by simp [hbe.1])
    · by_cases hr : rest = []
      · exact .inr hr
      · exact .inl (((he.resolve_right (by simp)).drop line (by simp)).tail hr)
  | @blank t line t' rest o h1 h2 h3 _ ih =>
    intro hn he
    exfalso
    rcases h1 with rfl | rfl
    · exact hn.1 rfl
    · obtain ⟨body, hb, hbe⟩ := he.resolve_right (by simp)
      cases body with
      | nil => simp at hbe
      | cons z body => simp at hbe; exact hb (by simp [hbe.1])
  | @last t h1 =>
    intro _ _
    exact .plain (line := []) ⟨by simp, by simp⟩ h1 (by simp) .nil

/-- **C55** for the files without empty lines: exactly the lines with a type hint become comments, everything
else is kept.  Missing: files with empty lines, see `C55_false`. -/
theorem C55_partial (env : ThEnv) (he : env.scan = false) (hs : SpaceOk env.space) (ops : List (Op Tok))
    (h : EofEnd (tokensOf ops)) (hn : NoBlank (tokensOf ops)) :
    ∃ fuel acc rest b, runOps [(typeHints env).toManip] fuel (State.new (false, .unmarked)) [] ops =
        some (.ok (acc, { output := rest, mark := none, st := (b, .unmarked) })) ∧
      Commented (Hint env.space) (tokensOf ops) (acc ++ rest) := by
  obtain ⟨fuel, acc, rest, b, h1, h2⟩ := C55_exact_partial env he hs ops h
  exact ⟨fuel, acc, rest, b, h1, commented_of_noBlank h2 hn (.inl h)⟩

/-! ### Cases -/

def asciiSpace (c : Nat) : Bool := c == 32 || (9 ≤ c && c ≤ 13)

theorem asciiSpace_ok : SpaceOk asciiSpace := by
  intro c h1 h2
  simp only [asciiSpace, Bool.or_eq_false_iff, Bool.and_eq_false_iff, beq_eq_false_iff_ne, decide_eq_false_iff_not]
  omega

def hintToks : List Tok :=
  [.identifier (txt "a"), .lineTerminator, .identifier (txt "f"), .comment (txt " @@type-hint "), .lineTerminator, .eof]

theorem C55_partial_case : EofEnd hintToks ∧ NoBlank hintToks ∧
    (loop [(typeHints ⟨false, asciiSpace⟩).toManip] 100 (State.new (false, .unmarked)) hintToks).map
      (fun r => r.map fun b => b.output) =
    some (.ok [.identifier (txt "a"), .lineTerminator, .comment (txt "f/* @@type-hint */"), .lineTerminator, .eof]) := by
  refine ⟨⟨hintToks.dropLast, by decide, by decide⟩, ⟨by decide, ?_⟩, by decide +kernel⟩
  intro a b h
  unfold hintToks at h
  rcases a with _ | ⟨x1, _ | ⟨x2, _ | ⟨x3, _ | ⟨x4, _ | ⟨x5, _ | ⟨x6, a⟩⟩⟩⟩⟩⟩ <;> simp at h

/-- No type hint is left. -/
theorem Commented.no_hint {space : Nat → Bool} (hs : SpaceOk space) {ts o : List Tok} (h : Commented (Hint space) ts o) :
    ∀ x ∈ o, ¬ Hint space x := by
  have hends : ∀ t, LineEnds t → ¬ Hint space t := by
    rintro t (rfl | rfl) ⟨a, b, -, h⟩ <;> cases h
  induction h with
  | nil => simp
  | plain _ h2 h3 _ ih =>
    intro x hx
    rcases List.mem_append.1 hx with hx | hx
    · exact h3 x hx
    · rcases List.mem_cons.1 hx with rfl | hx
      · exact hends _ h2
      · exact ih x hx
  | hint _ h2 h3 _ ih =>
    intro x hx
    rcases List.mem_cons.1 hx with rfl | hx
    · exact not_hint_of_slash hs (hint_serialized_slash h3)
    · rcases List.mem_cons.1 hx with rfl | hx
      · exact hends _ h2
      · exact ih x hx

/-- **C55 is false**: a type hint in a line after an empty line is not recognised. -/
theorem C55_false : ∃ ts, EofEnd ts ∧
    (loop [(typeHints ⟨false, asciiSpace⟩).toManip] 100 (State.new (false, .unmarked)) ts).map
      (fun r => r.map fun b => b.output) = some (.ok ts) ∧ ¬ Commented (Hint asciiSpace) ts ts := by
  refine ⟨[.lineTerminator, .comment (txt "@@type-hint"), .eof],
    ⟨[.lineTerminator, .comment (txt "@@type-hint")], by decide, by decide⟩, by decide +kernel, ?_⟩
  intro h
  exact h.no_hint asciiSpace_ok (.comment (txt "@@type-hint")) (by simp) ⟨[], [], by simp, by simp⟩

end Verif.Js
