import Verif.Reader
/-! # Readers: C24, C25 -/
namespace Verif.Reader

/-! ## Specification of a character stream -/

/-- A call: `read(n)`, `peek(n)` or `read()`. -/
inductive Call where
  | read (n : Nat)
  | peek (n : Nat)
  | readAll
deriving DecidableEq, Repr

/-- The characters which the call is to return, when `rem` is what remains. -/
def Call.wants (rem : Text) : Call → Text
  | .read n => rem.take n
  | .peek n => rem.take n
  | .readAll => rem

/-- What remains after the call. -/
def Call.leaves (rem : Text) : Call → Text
  | .read n => rem.drop n
  | .peek _ => rem
  | .readAll => []

/-- The call asks for more than remains. -/
def Call.hitsEnd (rem : Text) : Call → Bool
  | .read n => decide (rem.length < n)
  | .peek n => decide (rem.length < n)
  | .readAll => true

/-- The call on the reader. -/
def Call.run (s : Peekable) : Call → Option Text × Peekable
  | .read n => s.read n
  | .peek n => s.peek n
  | .readAll => s.read (-1)

/-- The results of a sequence of calls. -/
def runCalls : List Call → Peekable → List (Option Text) × Peekable
  | [], s => ([], s)
  | c :: cs, s =>
    let r := c.run s
    let rs := runCalls cs r.2
    (r.1 :: rs.1, rs.2)

/-- What the documented stream returns for a sequence of calls: the characters, and `None` when the
end has been hit by an earlier call and nothing remains. -/
def streamCalls : List Call → Text → Bool → List (Option Text)
  | [], _, _ => []
  | c :: cs, rem, hit =>
    (if hit && rem.isEmpty then none else some (c.wants rem)) ::
      streamCalls cs (c.leaves rem) (hit || c.hitsEnd rem)

/-- What is left to be read. -/
def Peekable.rem (s : Peekable) : Text := s.buffer ++ s.under

/-- The end was only noted if nothing is left in the file. -/
def Peekable.Ok (s : Peekable) : Prop := s.seenEof = true → s.under = []

theorem sliceTo_nat (s : Text) (n : Nat) : sliceTo s n = s.take n := by simp [sliceTo]
theorem sliceFrom_nat (s : Text) (n : Nat) : sliceFrom s n = s.drop n := by simp [sliceFrom]
theorem fpRead_nat (u : Text) (n : Nat) : fpRead u n = (u.take n, u.drop n) := by
  unfold fpRead; rw [if_neg (by omega)]; simp

theorem fpRead_sub (u b : Text) (n : Nat) (h : b.length < n) :
    fpRead u ((n : Int) - b.length) = (u.take (n - b.length), u.drop (n - b.length)) := by
  rw [show ((n : Int) - b.length) = ((n - b.length : Nat) : Int) by omega, fpRead_nat]

theorem read_nat (s : Peekable) (n : Nat) (h : s.Ok) :
    (s.read n).1 = (if s.seenEof && s.rem.isEmpty then none else some (s.rem.take n)) ∧
    (s.read n).2.rem = s.rem.drop n ∧ (s.read n).2.Ok ∧
    (s.read n).2.seenEof = (s.seenEof || decide (s.rem.length < n)) := by
  obtain ⟨u, b, e⟩ := s
  cases e with
  | true =>
    have hu : u = [] := h rfl
    subst hu
    simp only [Peekable.read, Peekable.rem, List.append_nil, if_true, Bool.true_and, Bool.true_or]
    split
    · next hb =>
      have : b = [] := by simpa using hb
      subst this
      simp [Peekable.Ok]
    · split
      · next hb hn =>
        have : b.length ≤ n := by omega
        simp [Peekable.Ok, this, List.take_of_length_le]
      · simp [Peekable.Ok, sliceTo_nat, sliceFrom_nat]
  | false =>
    simp only [Peekable.read, Peekable.rem, Bool.false_eq_true, if_false, Bool.false_and, Bool.false_or]
    rw [if_neg (by omega)]
    split
    · next hn =>
      have hle : n ≤ b.length := by omega
      simp only [sliceTo_nat, sliceFrom_nat]
      refine ⟨by rw [List.take_append_of_le_length hle], by rw [List.drop_append_of_le_length hle], by simp [Peekable.Ok], ?_⟩
      simp; omega
    · next hn =>
      have hlt : b.length < n := by omega
      rw [fpRead_sub u b n hlt]
      dsimp only
      refine ⟨?_, ?_, ?_, ?_⟩
      · rw [List.take_append, List.take_of_length_le (l := b) (by omega)]
      · simp [List.drop_append, List.drop_of_length_le (show b.length ≤ n by omega)]
      · simp only [Peekable.Ok, decide_eq_true_eq, List.length_take]
        intro h1
        apply List.drop_of_length_le
        omega
      · simp only [List.length_take, List.length_append]
        apply decide_eq_decide.2
        omega

theorem peek_nat (s : Peekable) (n : Nat) (h : s.Ok) :
    (s.peek n).1 = (if s.seenEof && s.rem.isEmpty then none else some (s.rem.take n)) ∧
    (s.peek n).2.rem = s.rem ∧ (s.peek n).2.Ok ∧
    (s.peek n).2.seenEof = (s.seenEof || decide (s.rem.length < n)) := by
  obtain ⟨u, b, e⟩ := s
  cases e with
  | true =>
    have hu : u = [] := h rfl
    subst hu
    simp only [Peekable.peek, Peekable.rem, List.append_nil, if_true, Bool.true_and, Bool.true_or]
    split
    · next hb =>
      have : b = [] := by simpa using hb
      subst this
      simp [Peekable.Ok]
    · split
      · next hb hn =>
        have : b.length ≤ n := by omega
        simp [Peekable.Ok, this, List.take_of_length_le]
      · simp [Peekable.Ok, sliceTo_nat]
  | false =>
    simp only [Peekable.peek, Peekable.rem, Bool.false_eq_true, if_false, Bool.false_and, Bool.false_or]
    split
    · next hn =>
      have hle : n ≤ b.length := by omega
      simp only [sliceTo_nat]
      refine ⟨by rw [List.take_append_of_le_length hle], trivial, by simp [Peekable.Ok], ?_⟩
      simp; omega
    · next hn =>
      have hlt : b.length < n := by omega
      rw [fpRead_sub u b n hlt]
      dsimp only
      refine ⟨?_, ?_, ?_, ?_⟩
      · rw [List.take_append, List.take_of_length_le (l := b) (by omega)]
      · simp
      · simp only [Peekable.Ok, decide_eq_true_eq, List.length_take]
        intro h1
        apply List.drop_of_length_le
        omega
      · simp only [List.length_take, List.length_append]
        apply decide_eq_decide.2
        omega

theorem readAll_spec (s : Peekable) (h : s.Ok) :
    (s.read (-1)).1 = (if s.seenEof && s.rem.isEmpty then none else some s.rem) ∧
    (s.read (-1)).2.rem = [] ∧ (s.read (-1)).2.Ok ∧ (s.read (-1)).2.seenEof = true := by
  obtain ⟨u, b, e⟩ := s
  cases e with
  | true =>
    have hu : u = [] := h rfl
    subst hu
    simp only [Peekable.read, Peekable.rem, List.append_nil, if_true, Bool.true_and]
    split
    · next hb => exact ⟨rfl, by simpa using hb, fun _ => rfl, rfl⟩
    · exact ⟨rfl, rfl, fun _ => rfl, rfl⟩
  | false => simp [Peekable.read, Peekable.rem, fpRead, Peekable.Ok]

theorem call_spec (c : Call) (s : Peekable) (h : s.Ok) :
    (c.run s).1 = (if s.seenEof && s.rem.isEmpty then none else some (c.wants s.rem)) ∧
    (c.run s).2.rem = c.leaves s.rem ∧ (c.run s).2.Ok ∧
    (c.run s).2.seenEof = (s.seenEof || c.hitsEnd s.rem) := by
  cases c with
  | read n => exact read_nat s n h
  | peek n => exact peek_nat s n h
  | readAll =>
    obtain ⟨h1, h2, h3, h4⟩ := readAll_spec s h
    exact ⟨h1, h2, h3, by simpa [Call.hitsEnd, Call.run] using h4⟩

theorem runCalls_spec : ∀ (cs : List Call) (s : Peekable), s.Ok →
    (runCalls cs s).1 = streamCalls cs s.rem s.seenEof := by
  intro cs
  induction cs with
  | nil => intro s _; rfl
  | cons c cs ih =>
    intro s h
    obtain ⟨h1, h2, h3, h4⟩ := call_spec c s h
    simp only [runCalls, streamCalls]
    rw [h1, ih _ h3, h2, h4]

/-- **C24.** For every text and every sequence of calls `read(n)`, `peek(n)` (`n` natural) and `read()`,
the results are those of the stream: each call returns the next characters, reads consume them and
peeks do not, and `None` comes only when nothing remains. -/
theorem C24_stream (text : Text) (cs : List Call) :
    (runCalls cs (Peekable.init text)).1 = streamCalls cs text false := by
  have := runCalls_spec cs (Peekable.init text) (by simp [Peekable.Ok, Peekable.init])
  simpa [Peekable.init, Peekable.rem] using this

/-- **C24.** After any calls, a call which asks for at least one character returns something exactly
if something remains, or nothing remains and no call has hit the end yet (it then returns the empty
string; see `C24_false_empty`). -/
theorem C24_none_partial (text : Text) (cs : List Call) (c : Call) :
    ∃ rem hit, (runCalls (cs ++ [c]) (Peekable.init text)).1.getLast? =
      some (if hit && rem.isEmpty then none else some (c.wants rem)) ∧
      rem = cs.foldl Call.leaves text ∧ (hit = true ↔ ∃ pre d post, cs = pre ++ d :: post ∧
        d.hitsEnd (pre.foldl Call.leaves text) = true) := by
  rw [C24_stream]
  have gen : ∀ (cs : List Call) (text : Text) (b : Bool), ∃ rem hit,
      (streamCalls (cs ++ [c]) text b).getLast? = some (if hit && rem.isEmpty then none else some (c.wants rem)) ∧
      rem = cs.foldl Call.leaves text ∧ (hit = true ↔ b = true ∨ ∃ pre d post, cs = pre ++ d :: post ∧
        d.hitsEnd (pre.foldl Call.leaves text) = true) := by
    intro cs
    induction cs with
    | nil =>
      intro text b
      refine ⟨text, b, by simp [streamCalls], rfl, ?_⟩
      constructor
      · exact Or.inl
      · rintro (h | ⟨pre, d, post, h, _⟩)
        · exact h
        · simp at h
    | cons a cs ih =>
      intro text b
      obtain ⟨rem, hit, h1, h2, h3⟩ := ih (a.leaves text) (b || a.hitsEnd text)
      refine ⟨rem, hit, ?_, h2, h3.trans ?_⟩
      · simp only [List.cons_append, streamCalls]
        rw [List.getLast?_cons, h1]
        rfl
      · constructor
        · rintro (h | ⟨pre, d, post, rfl, h⟩)
          · rcases Bool.or_eq_true_iff.1 h with h | h
            · exact Or.inl h
            · exact Or.inr ⟨[], a, cs, rfl, h⟩
          · exact Or.inr ⟨a :: pre, d, post, rfl, h⟩
        · rintro (h | ⟨pre, d, post, h, h'⟩)
          · exact Or.inl (by simp [h])
          · cases pre with
            | nil =>
              simp only [List.nil_append, List.cons.injEq] at h
              obtain ⟨rfl, _⟩ := h
              exact Or.inl (by simp only [List.foldl_nil] at h'; simp [h'])
            | cons x pre =>
              simp only [List.cons_append, List.cons.injEq] at h
              obtain ⟨rfl, rfl⟩ := h
              exact Or.inr ⟨pre, d, post, rfl, h'⟩
  obtain ⟨rem, hit, h1, h2, h3⟩ := gen cs text false
  exact ⟨rem, hit, h1, h2, by simpa using h3⟩

/-- **C24 is false at the end of the text**: the first call returns the empty string instead of `None`. -/
theorem C24_false_empty : (runCalls [.read 1, .read 1] (Peekable.init [])).1 = [some [], none] := by decide

/-- **C24 is false for `peek(-1)`** ("returns all remaining characters"): it returns all but the last of
the characters which happen to be buffered. -/
theorem C24_false_peek_all : ((Peekable.init (txt "abc")).peek (-1)).1 = some [] ∧
    (((Peekable.init (txt "abc")).peek 2).2.peek (-1)).1 = some (txt "a") := by decide

example : (runCalls [.peek 2, .read 1, .peek 5, .read 3, .read 1, .readAll] (Peekable.init (txt "abc"))).1 =
    [some (txt "ab"), some (txt "a"), some (txt "bc"), some (txt "bc"), none, none] := by decide

/-! ## C25 -/

/-- The text which the preprocessed reader is to present: CRLF, CR and FF become LF and surrogates become
U+FFFD.  This is an independent description, one replacement at a time. -/
def normalised : Text → Text
  | 13 :: 10 :: cs => 10 :: normalised cs
  | 13 :: cs => 10 :: normalised cs
  | 12 :: cs => 10 :: normalised cs
  | c :: cs => (if 0xD800 ≤ c ∧ c ≤ 0xDFFF then 0xFFFD else c) :: normalised cs
  | [] => []

theorem substitute_eq (s : Text) : substitute s = normalised s := by
  unfold substitute
  fun_induction subNewlines s with
  | case1 => rfl
  | case2 => rfl
  | case3 ds ih =>
    rw [normalised, ← ih]; rfl
  | case4 d ds h ih =>
    rw [normalised]
    · rw [← ih]; rfl
    · intro cs h'
      exact h (List.cons.inj h').1
  | case5 => rw [normalised, ← (by assumption : subSurrogates _ = normalised _)]; rfl
  | case6 c cs h1 h2 ih =>
    rw [normalised]
    · rw [← ih]; rfl
    · intro cs' h _; exact h1 h
    · exact h1
    · exact h2

/-- At a pair CR LF. -/
def atCRLF (s : Text) : Prop := ∃ t, s = 13 :: 10 :: t

theorem normalised_append : ∀ (a b : Text), ¬ (a.getLast? = some 13 ∧ b.head? = some 10) →
    normalised (a ++ b) = normalised a ++ normalised b := by
  intro a
  fun_induction normalised a with
  | case1 cs ih =>
    intro b h
    rw [List.cons_append, List.cons_append, normalised, ih b, List.cons_append]
    intro h'
    apply h
    refine ⟨?_, h'.2⟩
    cases cs with
    | nil => simp at h'
    | cons x xs => simpa using h'.1
  | case2 cs hne ih =>
    intro b h
    cases cs with
    | nil =>
      simp only [List.nil_append, List.cons_append]
      rw [normalised]
      · rfl
      · intro t ht
        subst ht
        exact h ⟨rfl, rfl⟩
    | cons x xs =>
      rw [List.cons_append, normalised, ih b, List.cons_append]
      · intro h'
        exact h ⟨by simpa using h'.1, h'.2⟩
      · intro t ht
        simp only [List.cons_append, List.cons.injEq] at ht
        exact hne xs (by rw [ht.1])
  | case3 cs ih =>
    intro b h
    rw [List.cons_append, normalised, ih b, List.cons_append]
    intro h'
    apply h
    refine ⟨?_, h'.2⟩
    cases cs with
    | nil => simp at h'
    | cons x xs => simpa using h'.1
  | case4 c cs h1 h2 h3 ih =>
    intro b h
    rw [List.cons_append, normalised, ih b, List.cons_append]
    · intro h'
      apply h
      refine ⟨?_, h'.2⟩
      cases cs with
      | nil => simp at h'
      | cons x xs => simpa using h'.1
    · intro t h _; exact h2 h
    · exact h2
    · exact h3
  | case5 => intro b _; rfl

theorem normalised_length : ∀ (a : Text), (normalised a).length ≤ a.length := by
  intro a
  fun_induction normalised a <;> simp_all <;> omega

theorem normalised_eq_nil {a : Text} : normalised a = [] ↔ a = [] := by
  fun_cases normalised a <;> simp

theorem normalised_crlf (t : Text) : normalised (13 :: 10 :: t) = normalised (10 :: t) := by
  rw [normalised, normalised]
  · rfl
  all_goals simp

/-- One inner read. -/
theorem readOnce_spec (s : Peekable) (n : Nat) (hn : 1 ≤ n) (h : s.Ok) :
    (readOnce s n).2.Ok ∧
    ((readOnce s n).1 = none ∧ s.seenEof = true ∧ s.rem = [] ∧ (readOnce s n).2.rem = [] ∨
     ∃ res, (readOnce s n).1 = some res ∧ ¬ (s.seenEof = true ∧ s.rem = []) ∧
      normalised s.rem = res ++ normalised (readOnce s n).2.rem ∧ res.length ≤ n ∧
      (readOnce s n).2.rem.length + min n s.rem.length = s.rem.length ∧
      (s.rem = [] → (readOnce s n).2.seenEof = true) ∧ (s.seenEof = true → (readOnce s n).2.seenEof = true) ∧
      (res = [] → s.rem ≠ [] → n = 1 ∧ atCRLF s.rem)) := by
  obtain ⟨h1, h2, h3, h4⟩ := read_nat s n h
  unfold readOnce
  rcases hr : s.read (n : Int) with ⟨r, s1⟩
  rw [hr] at h1 h2 h3 h4
  dsimp only at h1 h2 h3 h4
  subst h1
  by_cases hc : (s.seenEof && s.rem.isEmpty) = true
  · rw [if_pos hc]
    have hc' := Bool.and_eq_true_iff.1 hc
    have hrem : s.rem = [] := by simpa using hc'.2
    refine ⟨h3, Or.inl ⟨rfl, hc'.1, hrem, ?_⟩⟩
    dsimp only
    rw [h2, hrem, List.drop_nil]
  · rw [if_neg hc]
    have hnc : ¬ (s.seenEof = true ∧ s.rem = []) := by
      intro hh; apply hc; simp [hh.1, hh.2]
    dsimp only
    have hsplit : s.rem = s.rem.take n ++ s1.rem := by rw [h2, List.take_append_drop]
    have hlen : s1.rem.length + min n s.rem.length = s.rem.length := by
      rw [h2, List.length_drop]; omega
    have heof : s.rem = [] → s1.seenEof = true := by
      intro hh; rw [h4, hh]; simp; right; omega
    have heof2 : s.seenEof = true → s1.seenEof = true := by intro hh; rw [h4, hh]; rfl
    have plain : ¬ ((s.rem.take n).getLast? = some 13 ∧ s1.rem.head? = some 10) →
        normalised s.rem = substitute (s.rem.take n) ++ normalised s1.rem ∧ (substitute (s.rem.take n)).length ≤ n ∧
        (substitute (s.rem.take n) = [] → s.rem ≠ [] → n = 1 ∧ atCRLF s.rem) := by
      intro hh
      rw [substitute_eq]
      refine ⟨?_, ?_, ?_⟩
      · conv => lhs; rw [hsplit]
        exact normalised_append _ _ hh
      · exact Nat.le_trans (normalised_length _) (by simp; omega)
      · intro h' h''
        rw [normalised_eq_nil, List.take_eq_nil_iff] at h'
        rcases h' with h' | h'
        · omega
        · exact absurd h' h''
    split
    · next hcr =>
      obtain ⟨p1, p2, p3, p4⟩ := peek_nat s1 1 h3
      have p1' : (s1.peek 1).1 = if (s1.seenEof && s1.rem.isEmpty) = true then none else some (List.take 1 s1.rem) := p1
      have p2' : (s1.peek 1).2.rem = s1.rem := p2
      have p3' : (s1.peek 1).2.Ok := p3
      have p4' : (s1.peek 1).2.seenEof = (s1.seenEof || decide (s1.rem.length < 1)) := p4
      split
      · next hp =>
        have hhead : s1.rem.head? = some 10 := by
          rw [p1'] at hp
          split at hp
          · cases hp
          · simp only [Option.some.injEq] at hp
            cases hs : s1.rem with
            | nil => rw [hs] at hp; simp at hp
            | cons x xs => rw [hs] at hp; simpa using hp
        obtain ⟨t, ht⟩ : ∃ t, s1.rem = 10 :: t := by
          cases hs : s1.rem with
          | nil => rw [hs] at hhead; cases hhead
          | cons x xs => rw [hs] at hhead; simp at hhead; exact ⟨xs, by rw [hhead]⟩
        have htk : s.rem.take n = (s.rem.take n).dropLast ++ [13] := by
          obtain ⟨ys, hys⟩ := List.getLast?_eq_some_iff.1 hcr.2
          rw [hys]; simp
        refine ⟨p3', Or.inr ⟨_, rfl, hnc, ?_, ?_, by dsimp only; rw [p2']; exact hlen, ?_, ?_, ?_⟩⟩
        · dsimp only
          rw [p2', substitute_eq]
          conv => lhs; rw [hsplit, htk, ht]
          rw [List.append_assoc, normalised_append]
          · rw [ht]
            exact congrArg _ (normalised_crlf t)
          · simp
        · rw [substitute_eq]
          exact Nat.le_trans (normalised_length _) (by simp only [List.length_dropLast, List.length_take]; omega)
        · intro hh; dsimp only; rw [p4', heof hh]; rfl
        · intro hh; dsimp only; rw [p4', heof2 hh]; rfl
        · intro h' h''
          rw [substitute_eq, normalised_eq_nil] at h'
          rw [h'] at htk
          have hl1 : (s.rem.take n).length = 1 := by rw [htk]; rfl
          refine ⟨by have := hcr.1; omega, t, ?_⟩
          rw [hsplit, htk, ht]; rfl
      · next hp =>
        have hnh : s1.rem.head? ≠ some 10 := by
          intro hh
          apply hp
          rw [p1']
          cases hs : s1.rem with
          | nil => rw [hs] at hh; cases hh
          | cons x xs => rw [hs] at hh; simp at hh; simp [hh]
        obtain ⟨q1, q2, q3⟩ := plain (fun hh => hnh hh.2)
        refine ⟨p3', Or.inr ⟨_, rfl, hnc, by dsimp only; rw [p2']; exact q1, q2, by dsimp only; rw [p2']; exact hlen, ?_, ?_, q3⟩⟩
        · intro hh; dsimp only; rw [p4', heof hh]; rfl
        · intro hh; dsimp only; rw [p4', heof2 hh]; rfl
    · next hcr =>
      have hpl : ¬ ((s.rem.take n).getLast? = some 13 ∧ s1.rem.head? = some 10) := by
        intro hh
        apply hcr
        refine ⟨?_, hh.1⟩
        have : s1.rem ≠ [] := by intro h'; rw [h'] at hh; simp at hh
        have h5 : n < s.rem.length := by
          rcases Nat.lt_or_ge n s.rem.length with h6 | h6
          · exact h6
          · exfalso
            apply this
            rw [h2]
            exact List.drop_of_length_le h6
        simp; omega
      obtain ⟨q1, q2, q3⟩ := plain hpl
      exact ⟨h3, Or.inr ⟨_, rfl, hnc, q1, q2, hlen, heof, heof2, q3⟩⟩

/-- The reading loop takes the characters which are missing. -/
theorem readLoop_spec : ∀ (fuel : Nat) (res : Text) (s : Peekable) (n : Nat), s.Ok → res.length ≤ n →
    s.rem.length + (if s.seenEof = true then 0 else 1) < fuel →
    ∃ more, (readLoop fuel res s n).1 = some (res ++ more) ∧ (readLoop fuel res s n).2.Ok ∧
      normalised s.rem = more ++ normalised (readLoop fuel res s n).2.rem ∧
      ((res ++ more).length = n ∨ ((readLoop fuel res s n).2.rem = [] ∧ (res ++ more).length ≤ n)) := by
  intro fuel
  induction fuel with
  | zero => intro res s n _ _ h; omega
  | succ fuel ih =>
    intro res s n hok hle hf
    unfold readLoop
    split
    · next hlt =>
      have hlt' : res.length < n := by omega
      obtain ⟨r1, r2⟩ := readOnce_spec s (n - res.length) (by omega) hok
      rw [show ((n : Int) - res.length) = ((n - res.length : Nat) : Int) by omega]
      rcases hr : readOnce s ((n - res.length : Nat) : Int) with ⟨r, s1⟩
      rw [hr] at r1 r2
      dsimp only at r1 r2
      rcases r2 with ⟨rfl, h1, h2, h3⟩ | ⟨more, rfl, h1, h2, h3, h4, h5, h6, _⟩
      · refine ⟨[], by simp, r1, ?_, Or.inr ⟨h3, by simpa using hle⟩⟩
        dsimp only
        rw [h2, h3]; rfl
      · dsimp only
        have hmeasure : s1.rem.length + (if s1.seenEof = true then 0 else 1) < fuel := by
          by_cases hrem : s.rem = []
          · have e1 := h5 hrem
            have e2 : s1.rem.length = 0 := by rw [hrem] at h4; simp only [List.length_nil, Nat.min_zero, Nat.add_zero] at h4; exact h4
            have e3 : s.seenEof = false := by
              cases he : s.seenEof with
              | false => rfl
              | true => exact absurd ⟨he, hrem⟩ h1
            rw [hrem, e3] at hf
            rw [e1, e2]
            simp at hf ⊢
            omega
          · have : 0 < s.rem.length := List.length_pos_iff.2 hrem
            have h7 : s1.rem.length < s.rem.length := by omega
            cases he : s.seenEof with
            | true => rw [he] at hf; rw [h6 he]; simp at hf ⊢; omega
            | false => rw [he] at hf; simp only [Bool.false_eq_true, if_false] at hf; split <;> omega
        obtain ⟨more', g1, g2, g3, g4⟩ := ih (res ++ more) s1 n r1 (by simp; omega) hmeasure
        refine ⟨more ++ more', by rw [g1, List.append_assoc], g2, ?_, by rw [← List.append_assoc]; exact g4⟩
        rw [h2, g3, List.append_assoc]
    · next hge =>
      refine ⟨[], by simp, hok, rfl, Or.inl ?_⟩
      simp; omega

/-- **C25, reading, partial.** For every text and state, `read(n)` with `n ≥ 1` returns the next `n` (or
all remaining) characters of the normalised text and consumes exactly these, and returns `None` exactly
at the end — except `read(1)` at a pair CR LF. -/
theorem C25_read_partial (s : Peekable) (n : Nat) (hn : 1 ≤ n) (h : s.Ok) (hcr : ¬ (n = 1 ∧ atCRLF s.rem)) :
    (preRead s n).1 = (if s.rem = [] then none else some ((normalised s.rem).take n)) ∧
    normalised (preRead s n).2.rem = (normalised s.rem).drop n ∧ (preRead s n).2.Ok := by
  obtain ⟨r1, r2⟩ := readOnce_spec s n hn h
  unfold preRead
  rcases hr : readOnce s (n : Int) with ⟨r, s1⟩
  rw [hr] at r1 r2
  dsimp only at r1 r2
  rcases r2 with ⟨rfl, h1, h2, h3⟩ | ⟨res, rfl, h1, h2, h3, h4, h5, h6, h7⟩
  · dsimp only
    rw [h2, h3]
    exact ⟨by simp, by simp [normalised], r1⟩
  · dsimp only
    by_cases hrem : s.rem = []
    · rw [hrem] at h2 h4
      simp only [normalised] at h2
      have hres : res = [] := by
        cases res with
        | nil => rfl
        | cons x xs => simp at h2
      subst hres
      rw [if_neg (by simp; omega)]
      have : s1.rem = [] := by
        apply List.length_eq_zero_iff.1
        simp only [List.length_nil, Nat.min_zero, Nat.add_zero] at h4
        exact h4
      simp only [List.isEmpty_nil, if_true]
      rw [this, hrem]
      exact ⟨by simp, by simp [normalised], r1⟩
    · rw [if_neg hrem]
      have hne : res ≠ [] := fun h' => hcr (h7 h' hrem)
      split
      · next hc =>
        have hl : res.length = n := by omega
        rw [h2]
        refine ⟨?_, ?_, r1⟩
        · rw [← hl]; simp
        · rw [← hl]; simp
      · rw [if_neg (by simpa using hne)]
        obtain ⟨more, g1, g2, g3, g4⟩ := readLoop_spec (s1.left + 3) res s1 n r1 h3 (by
          unfold Peekable.left Peekable.rem
          rw [List.length_append]
          split <;> omega)
        rw [g1, h2, g3, ← List.append_assoc]
        rcases g4 with g4 | ⟨g4, g5⟩
        · refine ⟨?_, ?_, g2⟩
          · rw [← g4]; simp only [List.take_left]
          · rw [← g4]; simp only [List.drop_left]
        · rw [g4]
          simp only [normalised, List.append_nil]
          refine ⟨?_, ?_, g2⟩
          · rw [List.take_of_length_le g5]
          · rw [List.drop_of_length_le g5]

/-- `read()` returns all of the normalised text. -/
theorem C25_readAll (s : Peekable) (h : s.Ok) :
    ((preRead s (-1)).1).getD [] = normalised s.rem ∧ (preRead s (-1)).2.rem = [] := by
  obtain ⟨h1, h2, h3, h4⟩ := readAll_spec s h
  unfold preRead readOnce
  rcases hr : s.read (-1) with ⟨r, s1⟩
  rw [hr] at h1 h2
  dsimp only at h1 h2
  subst h1
  split
  · next hx =>
    split at hx
    · next hy =>
      split at hy
      · next hc =>
        cases hx
        have : s.rem = [] := by simpa using (Bool.and_eq_true_iff.1 hc).2
        cases hy
        rw [this]
        exact ⟨rfl, h2⟩
      · cases hy
    · next res s2 hy =>
      exfalso
      split at hx
      · dsimp only at hx; split at hx <;> cases hx
      · cases hx
  · next res s2 hx =>
    rw [if_pos (Or.inl (by omega))]
    split at hx
    · cases hx
    · next res' s3 hy =>
      simp only [Prod.mk.injEq] at hy
      obtain ⟨hy, rfl⟩ := hy
      split at hy
      · cases hy
      · cases hy
        rw [if_neg (by intro hh; omega)] at hx
        cases hx
        rw [substitute_eq]
        exact ⟨rfl, h2⟩

/-- One inner peek. -/
theorem peekOnce_spec (s : Peekable) (n : Nat) (hn : 1 ≤ n) (h : s.Ok) :
    (peekOnce s n).2.Ok ∧ (peekOnce s n).2.rem = s.rem ∧
    ((s.rem = [] ∧ (((peekOnce s n).1 = none) ∨ (peekOnce s n).1 = some [])) ∨
      (s.rem ≠ [] ∧ ∃ k, (peekOnce s n).1 = some (normalised (s.rem.take k)) ∧ k ≤ n ∧
        ¬ ((s.rem.take k).getLast? = some 13 ∧ (s.rem.drop k).head? = some 10) ∧
        ((∀ c ∈ s.rem, c ≠ 13) → k = n) ∧ (k = 0 → n = 1 ∧ atCRLF s.rem))) := by
  obtain ⟨h1, h2, h3, h4⟩ := peek_nat s (n + 1) h
  unfold peekOnce
  rw [if_neg (by omega), show (n : Int) + 1 = ((n + 1 : Nat) : Int) by omega]
  rcases hr : s.peek ((n + 1 : Nat) : Int) with ⟨r, s1⟩
  rw [hr] at h1 h2 h3
  dsimp only at h1 h2 h3
  subst h1
  by_cases hrem : s.rem = []
  · rw [hrem]
    by_cases he : s.seenEof = true
    · simp only [he, List.isEmpty_nil, Bool.and_self, if_true]
      exact ⟨h3, by rw [h2, hrem], Or.inl ⟨trivial, Or.inl trivial⟩⟩
    · have he' : s.seenEof = false := by simpa using he
      simp only [he', Bool.false_and, Bool.false_eq_true, if_false, List.take_nil]
      rw [if_neg (by simp; omega)]
      exact ⟨h3, by dsimp only; rw [h2, hrem], Or.inl ⟨trivial, Or.inr rfl⟩⟩
  · rw [if_neg (by simp [hrem])]
    dsimp only
    split
    · next hc =>
      have hlen : n + 1 ≤ s.rem.length := by
        have := hc.2
        simp only [List.length_take] at this
        omega
      have hl2 : (s.rem.take (n + 1)).length = n + 1 := by simp; omega
      split
      · next hcrlf =>
        refine ⟨h3, h2, Or.inr ⟨hrem, n - 1, ?_, by omega, ?_, ?_, ?_⟩⟩
        · dsimp only
          rw [substitute_eq]
          congr 2
          unfold sliceTo
          rw [if_neg (by omega), hl2, List.take_take]
          congr 1
          omega
        · rw [hl2, List.drop_take] at hcrlf
          rw [show n + 1 - (n + 1 - 2) = 2 by omega, show n + 1 - 2 = n - 1 by omega] at hcrlf
          intro hh
          have : (s.rem.drop (n - 1)).head? = some 13 := by
            cases hd : s.rem.drop (n - 1) with
            | nil => rw [hd] at hcrlf; simp at hcrlf
            | cons x xs => rw [hd] at hcrlf; simp at hcrlf; simp [hcrlf.1]
          rw [this] at hh
          simp at hh
        · intro hno
          exfalso
          have hm : (13 : Nat) ∈ (s.rem.take (n + 1)).drop ((s.rem.take (n + 1)).length - 2) := by
            rw [hcrlf]; simp
          exact hno 13 (List.mem_of_mem_take (List.mem_of_mem_drop hm)) rfl
        · intro hk
          have hn1 : n = 1 := by omega
          refine ⟨hn1, ?_⟩
          subst hn1
          rw [hl2] at hcrlf
          simp only [Nat.reduceAdd, Nat.sub_self, List.drop_zero] at hcrlf
          refine ⟨s.rem.drop 2, ?_⟩
          have := List.take_append_drop 2 s.rem
          rw [hcrlf] at this
          exact this.symm
      · next hncr =>
        refine ⟨h3, h2, Or.inr ⟨hrem, n, ?_, Nat.le_refl _, ?_, fun _ => rfl, by omega⟩⟩
        · dsimp only
          rw [substitute_eq, List.dropLast_eq_take, List.take_take, hl2]
          congr 2
          congr 1
          omega
        · intro hh
          apply hncr
          rw [hl2, List.drop_take, show n + 1 - (n + 1 - 2) = 2 by omega, show n + 1 - 2 = n - 1 by omega]
          have e1 : s.rem.drop (n - 1) = 13 :: s.rem.drop n := by
            have hlt : n - 1 < s.rem.length := by omega
            rw [List.drop_eq_getElem_cons hlt, show n - 1 + 1 = n by omega]
            congr 1
            have := hh.1
            rw [List.getLast?_eq_getElem?] at this
            simp only [List.length_take] at this
            rw [show min n s.rem.length - 1 = n - 1 by omega] at this
            rw [List.getElem?_take_of_lt (by omega)] at this
            rw [List.getElem?_eq_getElem hlt] at this
            exact Option.some.inj this
          rw [e1]
          have hh2 := hh.2
          cases hd : s.rem.drop n with
          | nil => rw [hd] at hh2; cases hh2
          | cons x xs => rw [hd] at hh2; simp at hh2; simp [hh2]
    · next hc =>
      have hlen : s.rem.length ≤ n := by
        rcases Nat.lt_or_ge n s.rem.length with h6 | h6
        · exfalso
          apply hc
          refine ⟨by omega, ?_⟩
          simp only [List.length_take]
          omega
        · exact h6
      refine ⟨h3, h2, Or.inr ⟨hrem, n, ?_, Nat.le_refl _, ?_, fun _ => rfl, by omega⟩⟩
      · dsimp only
        rw [substitute_eq, List.take_of_length_le (by omega), List.take_of_length_le hlen]
      · rw [List.drop_of_length_le hlen]
        simp

theorem normalised_map (a : Text) (h : ∀ c ∈ a, c ≠ 13) : normalised a =
    a.map (fun c => if c = 12 then 10 else if 0xD800 ≤ c ∧ c ≤ 0xDFFF then 0xFFFD else c) := by
  fun_induction normalised a with
  | case1 => simp at h
  | case2 => simp at h
  | case3 cs ih => simp [ih (fun c hc => h c (by simp [hc]))]
  | case4 c cs h1 h2 h3 ih =>
    have : c ≠ 12 := h3
    simp [ih (fun c hc => h c (by simp [hc])), this]
  | case5 => rfl

theorem normalised_take (a : Text) (h : ∀ c ∈ a, c ≠ 13) (n : Nat) : normalised (a.take n) = (normalised a).take n := by
  rw [normalised_map a h, normalised_map _ (fun c hc => h c (List.mem_of_mem_take hc)), List.map_take]

/-- **C25, peeking, partial.** Over a text without CR (which is what a file opened in text mode gives),
`peek(n)` with `n ≥ 1` returns the next `n` (or all remaining) characters of the normalised text without
consuming anything, and `None` exactly at the end. -/
theorem C25_peek_partial (s : Peekable) (n : Nat) (hn : 1 ≤ n) (h : s.Ok) (hno : ∀ c ∈ s.rem, c ≠ 13) :
    (prePeek s n).1 = (if s.rem = [] then none else some ((normalised s.rem).take n)) ∧
    (prePeek s n).2.rem = s.rem ∧ (prePeek s n).2.Ok := by
  obtain ⟨h1, h2, h3⟩ := peekOnce_spec s n hn h
  unfold prePeek
  rcases hr : peekOnce s (n : Int) with ⟨r, s1⟩
  rw [hr] at h1 h2 h3
  dsimp only at h1 h2 h3
  rcases h3 with ⟨h3, rfl | rfl⟩ | ⟨h3, k, rfl, h4, h5, h6, h7⟩
  · rw [if_pos h3]; exact ⟨rfl, h2, h1⟩
  · rw [if_pos h3]
    dsimp only
    rw [if_neg (by simp; omega)]
    exact ⟨rfl, h2, h1⟩
  · have hk := h6 hno
    subst hk
    rw [if_neg h3]
    dsimp only
    rw [normalised_take _ hno]
    have hlen : (normalised s.rem).length = s.rem.length := by rw [normalised_map _ hno, List.length_map]
    split
    · exact ⟨rfl, h2, h1⟩
    · next hc =>
      rw [if_neg (by
        simp only [List.isEmpty_iff, List.take_eq_nil_iff, normalised_eq_nil]
        intro hh; rcases hh with hh | hh
        · omega
        · exact h3 hh)]
      have hshort : s.rem.length < k := by
        rcases Nat.lt_or_ge s.rem.length k with h8 | h8
        · exact h8
        · exfalso; apply hc; right; simp only [List.length_take, hlen]; omega
      have ht : (normalised s.rem).take k = normalised s.rem := List.take_of_length_le (by omega)
      rw [ht]
      unfold peekLoop
      dsimp only
      obtain ⟨g1, g2, g3⟩ := peekOnce_spec s1 (k + (k - s.rem.length)) (by omega) h1
      rw [hlen, show (k : Int) + ((k : Int) - (s.rem.length : Int)) = ((k + (k - s.rem.length) : Nat) : Int) by omega]
      rcases hr2 : peekOnce s1 ((k + (k - s.rem.length) : Nat) : Int) with ⟨r2, s2⟩
      rw [hr2] at g1 g2 g3
      dsimp only at g1 g2 g3
      rw [h2] at g2 g3
      rcases g3 with ⟨g3, _⟩ | ⟨_, k', rfl, _, _, g6, _⟩
      · exact absurd g3 h3
      · dsimp only
        have hk' := g6 hno
        subst hk'
        have e : normalised (s.rem.take (k + (k - s.rem.length))) = normalised s.rem := by
          rw [List.take_of_length_le (by omega)]
        rw [e, if_pos (Or.inr hlen)]
        exact ⟨rfl, g2, g1⟩

/-- Over such a text the calls never depend on whether the end was hit before: after any calls `read(n)`
and `peek(n)` (`n ≥ 1`) the reader is the plain stream of the normalised text. -/
inductive PreCall where
  | read (n : Nat)
  | peek (n : Nat)
deriving DecidableEq, Repr

/-- The size asked for. -/
def PreCall.size : PreCall → Nat
  | .read n => n
  | .peek n => n

/-- The call on the reader. -/
def PreCall.run (s : Peekable) : PreCall → Option Text × Peekable
  | .read n => preRead s n
  | .peek n => prePeek s n

/-- The results of a sequence of calls. -/
def runPre : List PreCall → Peekable → List (Option Text)
  | [], _ => []
  | c :: cs, s => (c.run s).1 :: runPre cs (c.run s).2

/-- The results of a plain stream: the next characters, or `None` if there is none. -/
def plainCalls : List PreCall → Text → List (Option Text)
  | [], _ => []
  | .read n :: cs, t => (if t = [] then none else some (t.take n)) :: plainCalls cs (t.drop n)
  | .peek n :: cs, t => (if t = [] then none else some (t.take n)) :: plainCalls cs t

theorem normalised_no_cr (a : Text) : ∀ c ∈ normalised a, c ≠ 13 := by
  fun_induction normalised a with
  | case1 cs ih => intro c hc; rcases List.mem_cons.1 hc with rfl | hc; decide; exact ih c hc
  | case2 cs _ ih => intro c hc; rcases List.mem_cons.1 hc with rfl | hc; decide; exact ih c hc
  | case3 cs ih => intro c hc; rcases List.mem_cons.1 hc with rfl | hc; decide; exact ih c hc
  | case4 c cs h1 h2 h3 ih =>
    intro d hd
    rcases List.mem_cons.1 hd with rfl | hd
    · split
      · decide
      · exact h2
    · exact ih d hd
  | case5 => simp

/-- What `read(n)` leaves of a text without CR. -/
theorem preRead_rem_mem (s : Peekable) (n : Nat) (hn : 1 ≤ n) (h : s.Ok) :
    ∃ k, (preRead s n).2.rem = s.rem.drop k := by
  have one : ∀ (s : Peekable) (m : Nat), s.Ok → ∃ k, (readOnce s m).2.rem = s.rem.drop k := by
    intro s m h
    obtain ⟨_, h2, h3, _⟩ := read_nat s m h
    unfold readOnce
    rcases hr : s.read (m : Int) with ⟨r, s1⟩
    rw [hr] at h2 h3
    dsimp only at h2 h3
    cases r with
    | none => exact ⟨m, h2⟩
    | some res =>
      have p2 : (s1.peek 1).2.rem = s1.rem := (peek_nat s1 1 h3).2.1
      dsimp only
      split
      · split
        · exact ⟨m, by dsimp only; rw [p2, h2]⟩
        · exact ⟨m, by dsimp only; rw [p2, h2]⟩
      · exact ⟨m, h2⟩
  have loop : ∀ (fuel : Nat) (res : Text) (s : Peekable), s.Ok → ∃ k, (readLoop fuel res s n).2.rem = s.rem.drop k := by
    intro fuel
    induction fuel with
    | zero => intro res s _; exact ⟨0, rfl⟩
    | succ fuel ih =>
      intro res s h
      unfold readLoop
      split
      · next hlt =>
        rw [show ((n : Int) - res.length) = ((n - res.length : Nat) : Int) by omega]
        obtain ⟨k, hk⟩ := one s (n - res.length) h
        have hok := (readOnce_spec s (n - res.length) (by omega) h).1
        rcases hr : readOnce s ((n - res.length : Nat) : Int) with ⟨r, s1⟩
        rw [hr] at hk hok
        dsimp only at hk hok
        cases r with
        | none => exact ⟨k, hk⟩
        | some more =>
          obtain ⟨k', hk'⟩ := ih (res ++ more) s1 hok
          exact ⟨k + k', by dsimp only; rw [hk', hk, List.drop_drop]⟩
      · exact ⟨0, rfl⟩
  unfold preRead
  obtain ⟨k, hk⟩ := one s n h
  have hok := (readOnce_spec s n hn h).1
  rcases hr : readOnce s (n : Int) with ⟨r, s1⟩
  rw [hr] at hk hok
  dsimp only at hk hok
  cases r with
  | none => exact ⟨k, hk⟩
  | some res =>
    dsimp only
    split
    · exact ⟨k, hk⟩
    · split
      · exact ⟨k, hk⟩
      · obtain ⟨k', hk'⟩ := loop (s1.left + 3) res s1 hok
        exact ⟨k + k', by rw [hk', hk, List.drop_drop]⟩

theorem runPre_spec : ∀ (cs : List PreCall) (s : Peekable), s.Ok → (∀ c ∈ s.rem, c ≠ 13) →
    (∀ c ∈ cs, 1 ≤ c.size) → runPre cs s = plainCalls cs (normalised s.rem) := by
  intro cs
  induction cs with
  | nil => intro s _ _ _; rfl
  | cons c cs ih =>
    intro s h hno hsz
    have hc : 1 ≤ c.size := hsz c (by simp)
    have hcs : ∀ c ∈ cs, 1 ≤ c.size := fun c hc => hsz c (by simp [hc])
    cases c with
    | read n =>
      obtain ⟨h1, h2, h3⟩ := C25_read_partial s n hc h (by
        rintro ⟨_, t, ht⟩
        exact hno 13 (by rw [ht]; simp) rfl)
      obtain ⟨k, hk⟩ := preRead_rem_mem s n hc h
      simp only [runPre, plainCalls, PreCall.run]
      rw [h1, ih _ h3 (by rw [hk]; intro c hc; exact hno c (List.mem_of_mem_drop hc)) hcs, h2]
      simp only [normalised_eq_nil]
    | peek n =>
      obtain ⟨h1, h2, h3⟩ := C25_peek_partial s n hc h hno
      simp only [runPre, plainCalls, PreCall.run]
      rw [h1, ih _ h3 (by rw [h2]; exact hno) hcs, h2]
      simp only [normalised_eq_nil]

/-- **C25, partial.** For every text without CR and every sequence of calls `read(n)` and `peek(n)`
(`n ≥ 1`), the results are those of the plain stream of the normalised text. -/
theorem C25_stream_partial (text : Text) (hno : ∀ c ∈ text, c ≠ 13) (cs : List PreCall) (hsz : ∀ c ∈ cs, 1 ≤ c.size) :
    runPre cs (Peekable.init text) = plainCalls cs (normalised text) := by
  have := runPre_spec cs (Peekable.init text) (by simp [Peekable.Ok, Peekable.init])
    (by simpa [Peekable.init, Peekable.rem] using hno) hsz
  simpa [Peekable.init, Peekable.rem] using this

/-- **C25 is false at CR LF**: `read(1)` and `peek(1)` return `None` although text remains. -/
theorem C25_false_read : runPre [.read 1, .read 1] (Peekable.init (13 :: 10 :: txt "a")) =
    [none, some [10]] ∧ runPre [.peek 1] (Peekable.init (13 :: 10 :: txt "a")) = [none] := by decide

/-- **C25 is false for `peek`**: it returns fewer characters than asked for although more remain. -/
theorem C25_false_peek : runPre [.peek 3] (Peekable.init (txt "a\r\n\r\nb")) = [some (txt "a\n")] := by decide

example : runPre [.peek 2, .read 1, .peek 5, .read 3, .read 1] (Peekable.init [97, 12, 0xD800]) =
    [some [97, 10], some [97], some [10, 0xFFFD], some [10, 0xFFFD], none] := by decide +kernel
example : runPre [.read 4] (Peekable.init (txt "a\r\n\r\nb\rc")) = [some (txt "a\n\nb")] := by decide +kernel

end Verif.Reader
