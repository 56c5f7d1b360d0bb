import Verif.JsHints
/-!
# C34: scanning and building agree on the dependencies of JavaScript files
-/
namespace Verif.Js
open Verif.Reader (Text txt)
open Verif.Build

/-! ## The two manipulators together -/

section
variable {A B τ E : Type}

theorem open_first {m : Manip A τ E} {s s' : A} {ts : List τ} (b : B) (h : Open m s ts s') :
    Open (onFirst (B := B) m) (s, b) ts (s', b) := by
  induction h with
  | nil => exact .nil
  | cons h1 _ ih => exact .cons (by simp [onFirst, h1, Except.map]) ih

theorem open_second {m : Manip B τ E} {s s' : B} {ts : List τ} (a : A) (h : Open m s ts s') :
    Open (onSecond (A := A) m) (a, s) ts (a, s') := by
  induction h with
  | nil => exact .nil
  | cons h1 _ ih => exact .cons (by simp [onSecond, h1, Except.map]) ih

theorem closed_first {m : Manip A τ E} {s s' : A} {run r : List τ} (b : B) (h : Closed m s run r s') :
    Closed (onFirst (B := B) m) (s, b) run r (s', b) := by
  obtain ⟨ts, t, s1, h1, h2, h3⟩ := h
  exact ⟨ts, t, _, h1, open_first b h2, by simp [onFirst, h3, Except.map]⟩

theorem closed_second {m : Manip B τ E} {s s' : B} {run r : List τ} (a : A) (h : Closed m s run r s') :
    Closed (onSecond (A := A) m) (a, s) run r (a, s') := by
  obtain ⟨ts, t, s1, h1, h2, h3⟩ := h
  exact ⟨ts, t, _, h1, open_second a h2, by simp [onSecond, h3, Except.map]⟩

end

/-- None of the two has a mark. -/
def Idle (p : HiP) (s : JsSt) : Prop := ∃ b, s = ((b, .unmarked), (p, .unmarked))

theorem declined_both {te : ThEnv} {he : HiEnv} {b b' : Bool} {p p' : HiP} {t : Tok}
    (h1 : (typeHints te).toManip.start (b, .unmarked) t = .ok (false, (b', .unmarked)))
    (h2 : hiHandle p t = .ok (p', .pass)) :
    Declined (jsManips te he) ((b, .unmarked), (p, .unmarked)) t ((b', .unmarked), (p', .unmarked)) :=
  .cons (s' := ((b', .unmarked), (p, .unmarked))) (by simp [onFirst, h1, Except.map]) (.cons (by simp [onSecond, start_pass he h2, Except.map]) .nil)

theorem taken_second {te : ThEnv} {he : HiEnv} {b b' : Bool} {p : HiP} {t : Tok} {s1 : HiP × YSt Pos Tok}
    (h1 : (typeHints te).toManip.start (b, .unmarked) t = .ok (false, (b', .unmarked)))
    (h2 : (hashImports he).toManip.start (p, .unmarked) t = .ok (true, s1)) :
    Taken (jsManips te he) ((b, .unmarked), (p, .unmarked)) t (onSecond (hashImports he).toManip)
      ((b', .unmarked), s1) :=
  .tail (s' := ((b', .unmarked), (p, .unmarked))) (by simp [onFirst, h1, Except.map]) (.head (by simp [onSecond, h2, Except.map]))

theorem th_scan {te : ThEnv} (h : te.scan = true) (b : Bool) (t : Tok) :
    (typeHints te).toManip.start (b, .unmarked) t = .ok (false, (b, .unmarked)) := by
  simp [YManip.toManip, YManip.start, typeHints, thHandle, h]

theorem carrier_scan (te : ThEnv) (he : HiEnv) (h : te.scan = true) :
    Carrier he (jsManips te he) Idle (fun _ => True) where
  nil := by rintro p s hs; exact ⟨s, .nil, hs⟩
  keep := by
    rintro p t p' h1 ts out p'' - hs s ⟨b, rfl⟩
    obtain ⟨s', h3, h4⟩ := hs _ ⟨b, rfl⟩
    exact ⟨s', .keep (declined_both (th_scan h b t) h1) h3, h4⟩
  keepFail := by
    rintro p t p' h1 ts e - hs s ⟨b, rfl⟩
    exact .keep (declined_both (th_scan h b t) h1) (hs _ ⟨b, rfl⟩)
  replace := by
    rintro p run r p' ⟨t, s1, h1, h2, h3⟩ rest out p'' - hs s ⟨b, rfl⟩
    obtain ⟨s', h4, h5⟩ := hs _ ⟨b, rfl⟩
    exact ⟨s', .replace (taken_second (th_scan h b t) h2) h1 (closed_second _ h3) h4, h5⟩
  replaceFail := by
    rintro p run r p' ⟨t, s1, h1, h2, h3⟩ rest e - hs s ⟨b, rfl⟩
    exact .replace (taken_second (th_scan h b t) h2) h1 (closed_second _ h3) (hs _ ⟨b, rfl⟩)
  fail := by
    rintro p run e ⟨t, s1, ts, x, s2, rfl, h1, h2, h3, h4⟩ rest - s ⟨b, rfl⟩
    have := Fails.cont (rest := rest) (taken_second (te := te) (th_scan h b t) h2) h1 (open_second _ h3)
      (e := e) (x := x) (by simp [onSecond, h4, Except.map])
    simpa using this

/-! ### Building files without type hints -/

/-- The file has no type hint. -/
def NoHint (space : Nat → Bool) (ts : List Tok) : Prop := ∀ t ∈ ts, ¬ Hint space t

theorem import_of_start {he : HiEnv} {p : HiP} {t : Tok} {s1 : HiP × YSt Pos Tok}
    (h : (hashImports he).toManip.start (p, .unmarked) t = .ok (true, s1)) : t = .kwImport := by
  by_cases ht : t = .kwImport
  · exact ht
  · exfalso
    simp only [YManip.toManip, YManip.start, hashImports, hiHandle] at h
    split at h
    · next h1 =>
      split at h1
      · cases h1
      · simp at h1
    · next h1 =>
      split at h1
      · cases h1
      · simp at h1
    · simp at h
    · next h1 =>
      split at h1
      · cases h1
      · simp at h1

/-- Without hints, a line which is not empty is looked at by the first manipulator and comes back. -/
theorem lift_line {te : ThEnv} {he : HiEnv} (hte : te.scan = false) (hs : SpaceOk te.space) {t : Tok} {ts : List Tok}
    (hl : EofEnd (t :: ts)) (hn : NoHint te.space (t :: ts)) (ht : ¬ LineEnds t) (p : HiP) :
    (∀ out m s', Stream (jsManips te he) ((true, .unmarked), (p, .unmarked)) (t :: ts) out m s' →
      Stream (jsManips te he) ((false, .unmarked), (p, .unmarked)) (t :: ts) out m s') ∧
    (∀ e, Fails (jsManips te he) ((true, .unmarked), (p, .unmarked)) (t :: ts) e →
      Fails (jsManips te he) ((false, .unmarked), (p, .unmarked)) (t :: ts) e) := by
  obtain ⟨line, x, rest, h1, h2, h3, -, -⟩ := hl.line
  cases line with
  | nil => simp at h1; rw [h1.1] at ht; exact absurd h3 ht
  | cons y line =>
    have hy : t = y := by simp at h1; exact h1.1
    subst hy
    obtain ⟨k1, k2⟩ := th_closed te hte h2 h3
    have hany : (t :: line).any (isHint te) = false := by
      rw [List.any_eq_false]
      intro z hz hz2
      exact hn z (by rw [h1]; exact List.mem_append_left _ hz) ((isHint_iff te hs z).1 hz2)
    rw [hany] at k2
    have k3 : Taken (jsManips te he) ((false, .unmarked), (p, .unmarked)) t (onFirst (typeHints te).toManip)
        ((false, .skipping [t] (isHint te t)), (p, .unmarked)) := .head (by simp [onFirst, k1, Except.map])
    have k4 := closed_first (B := HiP × YSt Pos Tok) (p, .unmarked) k2
    have hrun : t :: ts = ((t :: line) ++ [x]) ++ rest := by rw [h1]; simp
    constructor
    · intro out m s' h
      rw [hrun] at h ⊢
      exact .replace k3 rfl k4 h
    · intro e h
      rw [hrun] at h ⊢
      exact .replace k3 rfl k4 h

theorem carrier_build (te : ThEnv) (he : HiEnv) (hte : te.scan = false) (hs : SpaceOk te.space) :
    Carrier he (jsManips te he) Idle (fun ts => EofEnd ts ∧ NoHint te.space ts) where
  nil := by rintro p s hs; exact ⟨s, .nil, hs⟩
  keep := by
    rintro p t p' h1 ts out p'' ⟨hl, hn⟩ hk s ⟨b, rfl⟩
    obtain ⟨s', h3, h4⟩ := hk _ ⟨decide (t ≠ .lineTerminator), rfl⟩
    have h5 := Stream.keep (declined_both (he := he) (th_skip te hte t) h1) h3
    cases b with
    | true => exact ⟨s', h5, h4⟩
    | false =>
      by_cases ht : LineEnds t
      · obtain ⟨s', h3, h4⟩ := hk _ ⟨true, rfl⟩
        exact ⟨s', .keep (declined_both (th_blank te hte ht) h1) h3, h4⟩
      · exact ⟨s', (lift_line hte hs hl hn ht p).1 _ _ _ h5, h4⟩
  keepFail := by
    rintro p t p' h1 ts e ⟨hl, hn⟩ hk s ⟨b, rfl⟩
    have h5 := Fails.keep (declined_both (he := he) (th_skip te hte t) h1) (hk _ ⟨decide (t ≠ .lineTerminator), rfl⟩)
    cases b with
    | true => exact h5
    | false =>
      by_cases ht : LineEnds t
      · exact .keep (declined_both (th_blank te hte ht) h1) (hk _ ⟨true, rfl⟩)
      · exact (lift_line hte hs hl hn ht p).2 _ h5
  replace := by
    rintro p run r p' ⟨t, s1, h1, h2, h3⟩ rest out p'' ⟨hl, hn⟩ hk s ⟨b, rfl⟩
    obtain ⟨s', h4, h5⟩ := hk _ ⟨decide (t ≠ .lineTerminator), rfl⟩
    have h6 := Stream.replace (rest := rest) (taken_second (th_skip te hte t) h2) h1 (closed_second _ h3) h4
    cases b with
    | true => exact ⟨s', h6, h5⟩
    | false =>
      have := import_of_start h2
      subst this
      cases run with
      | nil => simp at h1
      | cons x run =>
        simp at h1; subst h1
        exact ⟨s', (lift_line hte hs hl hn (by rintro (h | h) <;> cases h) p).1 _ _ _ h6, h5⟩
  replaceFail := by
    rintro p run r p' ⟨t, s1, h1, h2, h3⟩ rest e ⟨hl, hn⟩ hk s ⟨b, rfl⟩
    have h6 := Fails.replace (rest := rest) (taken_second (th_skip te hte t) h2) h1 (closed_second _ h3)
      (hk _ ⟨decide (t ≠ .lineTerminator), rfl⟩)
    cases b with
    | true => exact h6
    | false =>
      have := import_of_start h2
      subst this
      cases run with
      | nil => simp at h1
      | cons x run =>
        simp at h1; subst h1
        exact (lift_line hte hs hl hn (by rintro (h | h) <;> cases h) p).2 _ h6
  fail := by
    rintro p run e ⟨t, s1, ts, x, s2, rfl, h1, h2, h3, h4⟩ rest ⟨hl, hn⟩ s ⟨b, rfl⟩
    have h6 := Fails.cont (rest := rest) (taken_second (te := te) (th_skip te hte t) h2) h1 (open_second _ h3)
      (e := e) (x := x) (by simp [onSecond, h4, Except.map])
    have h6 : Fails (jsManips te he) ((true, .unmarked), (p, .unmarked)) ((ts ++ [x]) ++ rest) e := by simpa using h6
    cases b with
    | true => exact h6
    | false =>
      have := import_of_start h2
      subst this
      cases hr : ts ++ [x] with
      | nil => simp at hr
      | cons z run =>
        rw [hr] at h1 h6 hl hn
        simp at h1; subst h1
        exact (lift_line hte hs hl hn (by rintro (h | h) <;> cases h) p).2 _ h6

theorem okClosed_build {space : Nat → Bool} (hs : SpaceOk space) :
    OkClosed (fun ts => EofEnd ts ∧ NoHint space ts) where
  tail := fun t ts ⟨h1, h2⟩ hne => ⟨h1.tail hne, fun x hx => h2 x (by simp [hx])⟩
  comment := by
    rintro v ts ⟨⟨body, hb, rfl⟩, h2⟩ -
    refine ⟨⟨.comment (txt "PREPROCESSOR: ignore-import " ++ v) :: body, by simp [hb], rfl⟩, ?_⟩
    intro x hx
    rcases List.mem_cons.1 hx with rfl | hx
    · have e : txt "PREPROCESSOR: ignore-import " = 80 :: txt "REPROCESSOR: ignore-import " := by decide
      exact not_hint_of_head hs (by rw [e]; rfl)
    · exact h2 x hx
  subst := by
    rintro a s s' b ⟨⟨body, hb, h1⟩, h2⟩
    constructor
    · have hbne : b ≠ [] := by
        rintro rfl
        have := congrArg List.getLast? h1
        simp [List.getLast?_append] at this
      have hd : b = b.dropLast ++ [.eof] := by
        have := congrArg List.getLast? h1
        rw [List.getLast?_append, List.getLast?_append, List.getLast?_cons] at this
        cases hb2 : b.getLast? with
        | none => exact absurd (List.getLast?_eq_none_iff.1 hb2) hbne
        | some z =>
          simp [hb2] at this
          subst this
          have h9 := List.dropLast_concat_getLast hbne
          rw [List.getLast?_eq_some_getLast hbne, Option.some.injEq] at hb2
          rw [hb2] at h9
          exact h9.symm
      have hbody : body = a ++ .str s :: b.dropLast := by
        rw [hd] at h1
        have : (a ++ .str s :: b.dropLast) ++ [.eof] = body ++ [.eof] := by simpa using h1
        exact (List.append_cancel_right this).symm
      refine ⟨a ++ .str s' :: b.dropLast, ?_, by rw [List.append_assoc, List.cons_append, ← hd]⟩
      rw [hbody] at hb
      simpa using hb
    · intro x hx
      rcases List.mem_append.1 hx with hx | hx
      · exact h2 x (by simp [hx])
      · rcases List.mem_cons.1 hx with rfl | hx
        · rintro ⟨_, _, _, h⟩; cases h
        · exact h2 x (by simp [hx])

/-! ## The theorems -/

theorem regexLoop_not_eof : ∀ (fuel group : Nat) (res s : Text), (regexLoop fuel group res s).1 ≠ .eof := by
  intro fuel
  induction fuel with
  | zero => intro group res s; simp [regexLoop]
  | succ fuel ih =>
    intro group res s
    unfold regexLoop
    split
    · simp
    · split
      · simp
      · split
        · simp
        · split
          · exact ih _ _ _
          · exact ih _ _ _

theorem stringLoop_not_eof (q : Nat) : ∀ (fuel : Nat) (res s : Text) (t : Tok) (rest : Text),
    stringLoop q fuel res s = some (t, rest) → t ≠ .eof := by
  intro fuel
  induction fuel with
  | zero => intro res s t rest h; simp only [stringLoop, Option.some.injEq, Prod.mk.injEq] at h; rw [← h.1]; simp
  | succ fuel ih =>
    intro res s t rest h
    unfold stringLoop at h
    split at h
    · cases h; simp
    · split at h
      · cases h; simp
      · split at h
        · cases h; simp
        · split at h
          · split at h
            · split at h
              · cases h
              · exact ih _ _ _ _ h
            · split at h
              · cases h; simp
              · exact ih _ _ _ _ h
          · exact ih _ _ _ _ h

theorem step_not_eof {c : Nat} {cs rest : Text} {t : Tok} (h : step c cs = some (t, rest)) : t ≠ .eof := by
  unfold step at h
  split at h
  · next r hr =>
    unfold consumeWhitespace at hr
    split at hr
    · cases hr
    · cases hr; cases h; simp
  · split at h
    · next r hr =>
      unfold consumeComment at hr
      split at hr
      · cases hr; cases h; simp
      · split at hr
        · cases hr; cases h; simp
        · cases hr
    · split at h
      · cases h
      · split at h
        · unfold punctuation at h
          repeat' (split at h; (first | (cases h; simp) | exact stringLoop_not_eof _ _ _ _ _ _ h | skip))
          all_goals (simp only [Option.some.injEq] at h)
          all_goals first
            | (have := regexLoop_not_eof (cs.length + 1) 0 [] cs; rw [h] at this; exact this)
            | (cases h; simp)
        · cases h
          unfold identTok
          split
          · simp
          · split
            · simp
            · split <;> simp

theorem tokenLoop_eofEnd : ∀ (fuel : Nat) (s : Text), s.length ≤ fuel → ∃ ts, tokenLoop fuel s = some ts ∧ EofEnd ts := by
  intro fuel
  induction fuel with
  | zero =>
    intro s h
    have : s = [] := List.length_eq_zero_iff.1 (by omega)
    subst this
    exact ⟨[.eof], rfl, [], by simp, rfl⟩
  | succ fuel ih =>
    intro s h
    cases s with
    | nil => exact ⟨[.eof], rfl, [], by simp, rfl⟩
    | cons c cs =>
      obtain ⟨t, p, next, h1, h2, h3, -⟩ := step_spec c cs
      have hl : next.length ≤ fuel := by
        have := congrArg List.length h2
        have hp : 0 < p.length := List.length_pos_iff.2 h3
        simp at this h
        omega
      obtain ⟨ts, h5, body, h6, h7⟩ := ih next hl
      refine ⟨t :: ts, by simp only [tokenLoop, h1, h5], t :: body, ?_, by rw [h7]; rfl⟩
      intro hm
      rcases List.mem_cons.1 hm with hm | hm
      · exact step_not_eof h1 hm.symm
      · exact h6 hm

/-- The tokenizer ends with the end of file, and only there. -/
theorem tokenize_eofEnd (text : Text) : ∃ ts, tokenize text = some ts ∧ EofEnd ts :=
  tokenLoop_eofEnd _ text (Nat.le_refl _)

/-- What the manipulators read when scanning and when building the same file: they differ only in the mode. -/
def scanEnv (env : HiEnv) : HiEnv := { env with scan := true }
def buildEnv (env : HiEnv) : HiEnv := { env with scan := false }

/-- **C34** for files without type hints.  Scanning a file reports the dependencies `ds`; building it depends
on exactly these, in the same order, or the hash file of one of them is missing and the build fails with
this.  Missing: files with type hints, see `C34_false`. -/
theorem C34_partial (env : HiEnv) (space : Nat → Bool) (hs : SpaceOk space) (text : Text) :
    ∃ ts, tokenize text = some ts ∧ (NoHint space ts →
    ∃ ds, (∃ fuel b, loop (jsManips ⟨true, space⟩ (scanEnv env)) fuel (State.new jsInit) ts = some (.ok b) ∧
        b.mark = none ∧ b.st.2.1.deps = ds) ∧
      ((∃ fuel b, loop (jsManips ⟨false, space⟩ (buildEnv env)) fuel (State.new jsInit) ts = some (.ok b) ∧
          b.mark = none ∧ b.st.2.1.deps = ds ∧
          Hashed (newSpec (buildEnv env)) (depOf env) false ts b.output ds) ∨
        ∃ fuel p, loop (jsManips ⟨false, space⟩ (buildEnv env)) fuel (State.new jsInit) ts = some (.error (.notFound p)) ∧
          p ∈ ds ∧ env.hash p = none)) := by
  obtain ⟨ts, h1, h2⟩ := tokenize_eofEnd text
  refine ⟨ts, h1, fun hn => ?_⟩
  obtain ⟨o, ds, hr⟩ := hashed_total (depOf env) _ false ts (Nat.le_refl _) (.inl h2)
  refine ⟨ds, ?_, ?_⟩
  · rcases carry_main (carrier_scan ⟨true, space⟩ (scanEnv env) rfl) okClosed_true hr (.inl trivial) [] with
      ⟨out, b', h3, h4⟩ | ⟨x, h3, -⟩
    · obtain ⟨s', h5, b, rfl⟩ := h4 jsInit ⟨false, rfl⟩
      obtain ⟨f, hf⟩ := loop_complete h5 (State.new jsInit) rfl rfl
      exact ⟨f, _, hf, rfl, rfl⟩
    · simp [newSpec, scanEnv] at h3
  · rcases carry_main (carrier_build ⟨false, space⟩ (buildEnv env) rfl hs) (okClosed_build hs) hr (.inl ⟨h2, hn⟩) [] with
      ⟨out, b', h3, h4⟩ | ⟨x, h3, h4, h5⟩
    · obtain ⟨s', h5, b, rfl⟩ := h4 jsInit ⟨false, rfl⟩
      obtain ⟨f, hf⟩ := loop_complete h5 (State.new jsInit) rfl rfl
      refine .inl ⟨f, _, hf, rfl, rfl, ?_⟩
      have h3 : Hashed (newSpec (buildEnv env)) (depOf env) false ts out ds := h3
      simpa [State.new] using h3
    · obtain ⟨f, hf⟩ := loop_fails (h5 jsInit ⟨false, rfl⟩) (State.new jsInit) rfl rfl
      refine .inr ⟨f, _, hf, h4, ?_⟩
      have h3 : newSpec (buildEnv env) x = none := h3
      show env.hash (env.resolve x).1 = none
      simpa [newSpec, buildEnv] using h3

/-- `import './a';` with a type hint behind it. -/
def c34Toks : List Tok :=
  [.kwImport, .whitespace [32], .str (txt "./a"), .whitespace [32], .comment (txt "@@type-hint"), .lineTerminator, .eof]

theorem C34_false_tokens : tokenize (txt "import './a' /*@@type-hint*/\n") = some c34Toks := by decide +kernel

/-- **C34 is false** of files with type hints: the scan reports the import in a line with a type hint, the
build comments the line out and reads nothing. -/
theorem C34_false :
    (loop (jsManips ⟨true, asciiSpace⟩ (scanEnv caseEnv)) 100 (State.new jsInit) c34Toks).map
      (fun r => r.map fun b => b.st.2.1.deps) = some (.ok [txt "src/public./a"]) ∧
    (loop (jsManips ⟨false, asciiSpace⟩ (buildEnv caseEnv)) 100 (State.new jsInit) c34Toks).map
      (fun r => r.map fun b => b.st.2.1.deps) = some (.ok []) := by
  constructor <;> decide +kernel

/-- A case: the file has no type hints and two imports. -/
theorem C34_partial_case : NoHint asciiSpace caseToks ∧
    (loop (jsManips ⟨false, asciiSpace⟩ (buildEnv caseEnv)) 200 (State.new jsInit) caseToks).map
      (fun r => r.map fun b => b.st.2.1.deps) = some (.ok [txt "src/public/x"]) := by
  refine ⟨?_, by decide +kernel⟩
  intro t ht h
  have := (isHint_iff ⟨false, asciiSpace⟩ asciiSpace_ok t).2 h
  have h2 : caseToks.all (fun t => !isHint ⟨false, asciiSpace⟩ t) = true := by decide +kernel
  have := List.all_eq_true.1 h2 t ht
  simp_all

end Verif.Js
