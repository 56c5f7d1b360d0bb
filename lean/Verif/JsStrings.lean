import Verif.JsMain
import Verif.Dict
/-! # Strings and constants: C28 (JavaScript), C29, and the counterexamples to C26 -/
namespace Verif.Js
open Verif.Reader (Text txt)

/-! ## The ECMA-262 value of a literal is unique -/

theorem hexDigit_not_special {h : Nat} (hh : HexDigit h) : h ≠ 125 ∧ h ≠ 123 := by
  unfold HexDigit Digit at hh; omega

theorem split_brace {hs hs' b b' : Text} (h : ∀ x ∈ hs, HexDigit x) (h' : ∀ x ∈ hs', HexDigit x)
    (he : hs ++ 125 :: b = hs' ++ 125 :: b') : hs = hs' ∧ b = b' := by
  induction hs generalizing hs' with
  | nil =>
    cases hs' with
    | nil => simpa using he
    | cons x xs =>
      simp only [List.nil_append, List.cons_append, List.cons.injEq] at he
      exact absurd he.1.symm (hexDigit_not_special (h' x (by simp))).1
  | cons y ys ih =>
    cases hs' with
    | nil =>
      simp only [List.nil_append, List.cons_append, List.cons.injEq] at he
      exact absurd he.1 (hexDigit_not_special (h y (by simp))).1
    | cons x xs =>
      simp only [List.cons_append, List.cons.injEq] at he
      obtain ⟨h1, h2⟩ := ih (fun z hz => h z (by simp [hz])) (fun z hz => h' z (by simp [hz])) he.2
      exact ⟨by rw [he.1, h1], h2⟩

/-- A literal has at most one value. -/
theorem SV_unique {q : Nat} {b v : Text} (h : SV q b v) : ∀ {v'}, SV q b v' → v = v' := by
  have hsing : ∀ {e c c'}, (e, c) ∈ singleEscapes → (e, c') ∈ singleEscapes → c = c' := by
    intro e c c' h h'
    simp only [singleEscapes, List.mem_cons, Prod.mk.injEq, List.not_mem_nil, or_false] at h h'
    omega
  have hval : ∀ {e c}, (e, c) ∈ singleEscapes → e ≠ 120 ∧ e ≠ 117 ∧ e ≠ 48 ∧ ¬ LineEnd e ∧ e ∈ singleEscapes.map Prod.fst := by
    intro e c h
    refine ⟨?_, ?_, ?_, ?_, List.mem_map_of_mem h⟩ <;>
    · simp only [singleEscapes, List.mem_cons, Prod.mk.injEq, List.not_mem_nil, or_false] at h
      try unfold LineEnd
      omega
  have hle : ∀ {c}, LineEnd c → c ∉ singleEscapes.map Prod.fst ∧ c ≠ 48 ∧ c ≠ 120 ∧ c ≠ 117 := by
    intro c h
    simp only [singleEscapes, List.map_cons, List.map_nil, List.mem_cons, List.not_mem_nil, or_false]
    unfold LineEnd at h
    omega
  have hd0 : Digit 48 := ⟨by omega, by omega⟩
  induction h with
  | nil => intro v' h'; cases h'; rfl
  | char h1 h2 h3 h4 _ ih =>
    intro v' h'
    cases h' with
    | char _ _ _ _ h => rw [ih h]
    | single _ _ => exact absurd rfl h2
    | other _ _ _ _ _ _ _ => exact absurd rfl h2
    | nul _ _ => exact absurd rfl h2
    | hex _ _ _ => exact absurd rfl h2
    | u4 _ _ _ _ => exact absurd rfl h2
    | ubrace _ _ _ _ _ => exact absurd rfl h2
    | continuation _ _ => exact absurd rfl h2
  | single h1 _ ih =>
    intro v' h'
    cases h' with
    | char _ h _ _ _ => exact absurd rfl h
    | single h2 h => rw [ih h, hsing h1 h2]
    | other h _ _ _ _ _ _ => exact absurd (hval h1).2.2.2.2 h
    | nul _ _ => exact absurd rfl (hval h1).2.2.1
    | hex _ _ _ => exact absurd rfl (hval h1).1
    | u4 _ _ _ _ => exact absurd rfl (hval h1).2.1
    | ubrace _ _ _ _ _ => exact absurd rfl (hval h1).2.1
    | continuation h _ => exact absurd h (hval h1).2.2.2.1
  | other h1 h2 h3 h4 h5 h6 _ ih =>
    intro v' h'
    cases h' with
    | char _ h _ _ _ => exact absurd rfl h
    | single h _ => exact absurd (hval h).2.2.2.2 h1
    | other _ _ _ _ _ _ h => rw [ih h]
    | nul _ _ => exact absurd hd0 h2
    | hex _ _ _ => exact absurd rfl h3
    | u4 _ _ _ _ => exact absurd rfl h4
    | ubrace _ _ _ _ _ => exact absurd rfl h4
    | continuation h _ => exact absurd h h6
  | nul h1 _ ih =>
    intro v' h'
    cases h' with
    | char _ h _ _ _ => exact absurd rfl h
    | single h _ => exact absurd rfl (hval h).2.2.1
    | other _ h _ _ _ _ _ => exact absurd hd0 h
    | nul _ h => rw [ih h]
    | continuation h _ => exact absurd rfl (hle h).2.1
  | hex h1 h2 _ ih =>
    intro v' h'
    cases h' with
    | char _ h _ _ _ => exact absurd rfl h
    | single h _ => exact absurd rfl (hval h).1
    | other _ _ h _ _ _ _ => exact absurd rfl h
    | hex _ _ h => rw [ih h]
    | continuation h _ => exact absurd rfl (hle h).2.2.1
  | @u4 hs b v h1 h2 h3 _ ih =>
    intro v' h'
    generalize hx : 92 :: 117 :: (hs ++ b) = x at h'
    cases h' with
    | nil => cases hx
    | char _ h _ _ _ => simp only [List.cons.injEq] at hx; exact absurd hx.1.symm h
    | single h _ => simp only [List.cons.injEq] at hx; exact absurd hx.2.1.symm (hval h).2.1
    | other _ _ _ h _ _ _ => simp only [List.cons.injEq] at hx; exact absurd hx.2.1.symm h
    | nul _ _ => simp at hx
    | hex _ _ _ => simp at hx
    | u4 k1 _ _ h =>
      simp only [List.cons.injEq, true_and] at hx
      obtain ⟨e1, e2⟩ := List.append_inj hx (by rw [h1, k1])
      subst e1; subst e2
      rw [ih h]
    | ubrace _ _ _ _ _ =>
      simp only [List.cons.injEq, true_and] at hx
      cases hs with
      | nil => simp at h1
      | cons y ys =>
        simp only [List.cons_append, List.cons.injEq] at hx
        exact absurd hx.1 (hexDigit_not_special (h2 y (by simp))).2
    | continuation h _ => simp only [List.cons.injEq] at hx; exact absurd hx.2.1.symm (hle h).2.2.2
  | @ubrace hs b v h0 h1 h2 h3 _ ih =>
    intro v' h'
    generalize hx : 92 :: 117 :: 123 :: (hs ++ 125 :: b) = x at h'
    cases h' with
    | nil => cases hx
    | char _ h _ _ _ => simp only [List.cons.injEq] at hx; exact absurd hx.1.symm h
    | single h _ => simp only [List.cons.injEq] at hx; exact absurd hx.2.1.symm (hval h).2.1
    | other _ _ _ h _ _ _ => simp only [List.cons.injEq] at hx; exact absurd hx.2.1.symm h
    | nul _ _ => simp at hx
    | hex _ _ _ => simp at hx
    | @u4 hs' _ _ k1 k2 _ h =>
      simp only [List.cons.injEq, true_and] at hx
      cases hs' with
      | nil => simp at k1
      | cons y ys =>
        simp only [List.cons_append, List.cons.injEq] at hx
        exact absurd hx.1.symm (hexDigit_not_special (k2 y (by simp))).2
    | ubrace _ k1 _ _ h =>
      simp only [List.cons.injEq, true_and] at hx
      obtain ⟨e1, e2⟩ := split_brace h1 k1 hx
      subst e1; subst e2
      rw [ih h]
    | continuation h _ => simp only [List.cons.injEq] at hx; exact absurd hx.2.1.symm (hle h).2.2.2
  | continuation h1 _ ih =>
    intro v' h'
    cases h' with
    | char _ h _ _ _ => exact absurd rfl h
    | single h _ => exact absurd h1 (hval h).2.2.2.1
    | other _ _ _ _ _ h _ => exact absurd h1 h
    | nul _ _ => exact absurd rfl (hle h1).2.1
    | hex _ _ _ => exact absurd rfl (hle h1).2.2.1
    | u4 _ _ _ _ => exact absurd rfl (hle h1).2.2.2
    | ubrace _ _ _ _ _ => exact absurd rfl (hle h1).2.2.2
    | continuation _ h => exact ih h

/-! ## C28: serialise and tokenise again -/

theorem hexChar_hex {d : Nat} (h : d < 16) : HexDigit (hexChar d) := by
  unfold HexDigit Digit hexChar
  split <;> omega

theorem hexDigits_hex : ∀ (fuel n : Nat), ∀ c ∈ hexDigits fuel n, HexDigit c := by
  intro fuel
  induction fuel with
  | zero => intro n c hc; simp [hexDigits] at hc
  | succ fuel ih =>
    intro n c hc
    unfold hexDigits at hc
    rcases List.mem_append.1 hc with hc | hc
    · split at hc
      · simp at hc
      · exact ih _ c hc
    · simp at hc; subst hc; exact hexChar_hex (by omega)

theorem hexStr_hex (n : Nat) : ∃ x xs, hexStr n = x :: xs ∧ (∀ c ∈ x :: xs, HexDigit c) := by
  have h := hexDigits_hex (n + 1) n
  unfold hexStr
  cases hd : hexDigits (n + 1) n with
  | nil => unfold hexDigits at hd; simp at hd
  | cons x xs => rw [hd] at h; exact ⟨x, xs, rfl, h⟩

/-- The characters which survive: printable ASCII, those with a short escape, and NUL. -/
def SafeChar (c : Nat) : Prop := (32 ≤ c ∧ c < 127) ∨ (8 ≤ c ∧ c ≤ 13) ∨ c = 0

instance (c : Nat) : Decidable (SafeChar c) := by unfold SafeChar; infer_instance

/-- **C28, form.** For every string and both quotes, the serialised form contains the quote, a backslash or a
line terminator only behind a backslash. -/
theorem C28_form (q : Nat) (hq : q = 34 ∨ q = 39) (v : Text) :
    ∃ b, serializeString v (some q) [92] = q :: b ++ [q] ∧ StrBody q b := by
  refine ⟨bodyOf q v, by simp [serializeString, bodyOf], ?_⟩
  induction v with
  | nil => exact StrBody.nil
  | cons c v ih =>
    show StrBody q (serializeChar (some q) [92] c ++ bodyOf q v)
    unfold serializeChar
    split
    · exact StrBody.esc ih
    · next hs =>
      simp only [List.mem_cons, List.not_mem_nil, or_false, not_or, Option.some.injEq] at hs
      split
      · exact StrBody.esc ih
      · next hn =>
        split
        · obtain ⟨x, xs, h1, h2⟩ := hexStr_hex c
          rw [h1]
          exact StrBody.esc (strBody_append_skip (fun y hy => hex_plain hq (h2 y (by simp [hy]))) ih)
        · next hx =>
          refine StrBody.char hs.1 hs.2 ?_ ih
          unfold LineEnd
          rintro (rfl | rfl | rfl)
          · simp [specialEscape] at hn
          · omega
          · omega

/-- What the tokenizer reads for the serialised form of a character. -/
def readBack (c : Nat) : Text :=
  if SafeChar c then [c] else match hexStr c with
    | [] => []
    | x :: xs => unescape x :: xs

theorem stringLoop_plain {q : Nat} (hs : Text) (h : ∀ x ∈ hs, x ≠ 92 ∧ x ≠ q ∧ ¬ LineEnd x) :
    ∀ (fuel : Nat) (res s : Text), stringLoop q (fuel + hs.length) res (hs ++ s) = stringLoop q fuel (res ++ hs) s := by
  induction hs with
  | nil => intro fuel res s; simp
  | cons x hs ih =>
    intro fuel res s
    obtain ⟨h1, h2, h3⟩ := h x (by simp)
    rw [List.length_cons, ← Nat.add_assoc, List.cons_append]
    simp only [stringLoop, (isNewline_false_iff x).2 h3, Bool.false_eq_true, if_false, h1, h2]
    rw [ih (fun y hy => h y (by simp [hy]))]
    simp

theorem stringLoop_fuel {q : Nat} : ∀ (fuel : Nat) (res s : Text), s.length < fuel →
    ∀ k, stringLoop q (fuel + k) res s = stringLoop q fuel res s := by
  intro fuel
  induction fuel with
  | zero => intro res s h; omega
  | succ fuel ih =>
    intro res s h k
    rw [show fuel + 1 + k = fuel + k + 1 by omega]
    cases s with
    | nil => simp only [stringLoop]
    | cons c cs =>
      simp only [List.length_cons] at h
      simp only [stringLoop]
      split
      · rfl
      · split
        · rfl
        · split
          · split
            · next hu =>
              obtain ⟨hs, rest, h1, h2, _⟩ := unicode_ok cs hu
              rw [h2]
              exact ih _ _ (by have := consumeUnicode_length hu h2; omega) k
            · cases cs with
              | nil => rfl
              | cons e rest => exact ih _ _ (by simp at h; omega) k
          · exact ih _ _ (by omega) k

theorem readBack_step {q : Nat} (hq : q = 34 ∨ q = 39) (c : Nat) (res s : Text) (fuel : Nat)
    (hf : (serializeChar (some q) [92] c ++ s).length < fuel) :
    ∃ fuel', s.length < fuel' ∧
      stringLoop q fuel res (serializeChar (some q) [92] c ++ s) = stringLoop q fuel' (res ++ readBack c) s := by
  have hqb : ¬ (92 = q) := by rcases hq with rfl | rfl <;> decide
  obtain ⟨fuel, rfl⟩ : ∃ k, fuel = k + 1 := ⟨fuel - 1, by omega⟩
  have esc : ∀ e, e ≠ 117 → stringLoop q (fuel + 1) res (92 :: e :: s) = stringLoop q fuel (res ++ [unescape e]) s := by
    intro e he
    simp only [stringLoop]
    rw [if_neg (by decide), if_neg hqb, if_pos trivial, isUnicodeEscape_not_u he]
    simp
  unfold serializeChar at hf ⊢
  split at hf
  · next hs =>
    rw [if_pos hs]
    have : c = 34 ∨ c = 39 ∨ c = 92 := by
      rcases hs with hs | hs
      · rcases hq with rfl | rfl <;> simp at hs <;> omega
      · simp at hs; omega
    refine ⟨fuel, by simp at hf; omega, ?_⟩
    show stringLoop q (fuel + 1) res (92 :: c :: s) = _
    rw [esc c (by omega)]
    have h1 : unescape c = c := by rcases this with rfl | rfl | rfl <;> decide
    have h2 : readBack c = [c] := by rcases this with rfl | rfl | rfl <;> decide
    rw [h1, h2]
  · next hs =>
    rw [if_neg hs]
    simp only [List.mem_cons, List.not_mem_nil, or_false, not_or, Option.some.injEq] at hs
    cases hn : specialEscape c with
    | some e =>
      rw [hn] at hf
      dsimp only at hf ⊢
      refine ⟨fuel, by simp at hf; omega, ?_⟩
      have : c = 8 ∨ c = 9 ∨ c = 10 ∨ c = 11 ∨ c = 12 ∨ c = 13 ∨ c = 0 := by
        unfold specialEscape at hn
        repeat' split at hn
        all_goals first
          | omega
          | cases hn
      have hh : e ≠ 117 ∧ unescape e = c ∧ readBack c = [c] := by
        rcases this with rfl | rfl | rfl | rfl | rfl | rfl | rfl <;> cases hn <;> decide
      show stringLoop q (fuel + 1) res (92 :: e :: s) = _
      rw [esc e hh.1, hh.2.1, hh.2.2]
    | none =>
      rw [hn] at hf
      dsimp only at hf ⊢
      split at hf
      · next hx =>
        rw [if_pos hx]
        obtain ⟨x, xs, h1, h2⟩ := hexStr_hex c
        have hsafe : ¬ SafeChar c := by
          have : c ≠ 8 ∧ c ≠ 11 ∧ c ≠ 0 := by
            refine ⟨?_, ?_, ?_⟩ <;> rintro rfl <;> simp [specialEscape] at hn
          unfold SafeChar; omega
        have hrb : readBack c = unescape x :: xs := by
          unfold readBack; rw [if_neg hsafe, h1]
        rw [h1] at hf ⊢
        have hxu : x ≠ 117 := by
          have := h2 x (by simp)
          unfold HexDigit Digit at this; omega
        refine ⟨fuel - xs.length, by simp at hf; omega, ?_⟩
        have e1 : stringLoop q (fuel + 1) res (92 :: x :: (xs ++ s)) = stringLoop q fuel (res ++ [unescape x]) (xs ++ s) := by
          simp only [stringLoop]
          rw [if_neg (by decide), if_neg hqb, if_pos trivial, isUnicodeEscape_not_u hxu]
          simp
        show stringLoop q (fuel + 1) res (92 :: x :: (xs ++ s)) = _
        rw [e1]
        conv => lhs; rw [show fuel = (fuel - xs.length) + xs.length by simp at hf; omega]
        rw [stringLoop_plain xs (fun y hy => hex_plain hq (h2 y (by simp [hy])))]
        rw [hrb]
        simp
      · next hx =>
        rw [if_neg hx]
        refine ⟨fuel, by simp at hf; omega, ?_⟩
        have hc : 32 ≤ c ∧ c < 127 := by
          have : c ≠ 9 ∧ c ≠ 10 ∧ c ≠ 12 ∧ c ≠ 13 := by
            refine ⟨?_, ?_, ?_, ?_⟩ <;> rintro rfl <;> simp [specialEscape] at hn
          omega
        have hrb : readBack c = [c] := by
          have hsafe : SafeChar c := Or.inl hc
          unfold readBack; rw [if_pos hsafe]
        have := stringLoop_plain (q := q) [c] (by
          intro y hy; simp at hy; subst hy
          refine ⟨hs.2, hs.1, ?_⟩
          unfold LineEnd; omega) fuel res s
        simpa [hrb] using this

theorem bodyOf_readBack {q : Nat} (hq : q = 34 ∨ q = 39) (rest : Text) : ∀ (v res : Text) (fuel : Nat),
    (bodyOf q v ++ q :: rest).length < fuel →
    stringLoop q fuel res (bodyOf q v ++ q :: rest) = some (.str (res ++ v.flatMap readBack), rest) := by
  have hqn : isNewline q = false := by rcases hq with rfl | rfl <;> rfl
  intro v
  induction v with
  | nil =>
    intro res fuel hf
    obtain ⟨fuel, rfl⟩ : ∃ k, fuel = k + 1 := ⟨fuel - 1, by omega⟩
    simp [bodyOf, stringLoop, hqn]
  | cons c v ih =>
    intro res fuel hf
    have e : bodyOf q (c :: v) ++ q :: rest = serializeChar (some q) [92] c ++ (bodyOf q v ++ q :: rest) := by
      simp [bodyOf]
    rw [e] at hf ⊢
    obtain ⟨fuel', h1, h2⟩ := readBack_step hq c res _ fuel hf
    rw [h2, ih _ _ h1]
    simp

theorem readBack_eq_iff : ∀ (v : Text), v.flatMap readBack = v ↔ ∀ c ∈ v, SafeChar c := by
  intro v
  induction v with
  | nil => simp
  | cons c v ih =>
    by_cases hs : SafeChar c
    · have : readBack c = [c] := by unfold readBack; rw [if_pos hs]
      simp only [List.flatMap_cons, this, List.cons_append, List.nil_append, List.cons.injEq, true_and,
        List.mem_cons, forall_eq_or_imp, hs]
      exact ih
    · obtain ⟨x, xs, h1, h2⟩ := hexStr_hex c
      have : readBack c = unescape x :: xs := by unfold readBack; rw [if_neg hs, h1]
      simp only [List.flatMap_cons, this, List.cons_append, List.cons.injEq, List.mem_cons, forall_eq_or_imp, hs,
        false_and, iff_false, not_and]
      intro he
      exfalso
      have hx := h2 x (by simp)
      unfold HexDigit Digit at hx
      have hu : unescape x = 0 ∨ unescape x = 8 ∨ unescape x = 12 ∨ unescape x = x := by
        unfold unescape
        repeat' split
        all_goals first
          | omega
          | simp
      unfold SafeChar at hs
      omega

/-- **C28, JavaScript, partial.** For every string, both quotes and whatever follows, tokenising the serialised
form gives the string back exactly if all its characters are printable ASCII, have a short escape or are
NUL. -/
theorem C28_js_round_trip_partial (q : Nat) (hq : q = 34 ∨ q = 39) (v rest : Text) (fuel : Nat)
    (hf : (serializeString v (some q) [92] ++ rest).length ≤ fuel) :
    stringLoop q fuel [] ((serializeString v (some q) [92] ++ rest).drop 1) = some (.str v, rest) ↔ ∀ c ∈ v, SafeChar c := by
  have e : (serializeString v (some q) [92] ++ rest) = q :: (bodyOf q v ++ q :: rest) := by
    simp [serializeString, bodyOf]
  rw [e] at hf ⊢
  simp only [List.drop_succ_cons, List.drop_zero]
  rw [bodyOf_readBack hq rest v [] fuel (by simp at hf ⊢; omega)]
  simp [readBack_eq_iff]

/-- **C28, JavaScript, partial.** For every string token, tokenising its serialised form gives exactly this token
if and only if all characters of its value are printable ASCII, have a short escape or are NUL. -/
theorem C28_js_tokens_partial (v : Text) :
    tokenize (serialize (.str v)) = some [.str v, .eof] ↔ ∀ c ∈ v, SafeChar c := by
  have hq := autoQuote_cases v
  have hb := bodyOf_readBack hq [] v []
  show tokenize (serializeStringAuto v) = _ ↔ _
  rw [serializeStringAuto_eq]
  generalize autoQuote v = q at hq hb
  unfold tokenize
  rw [List.length_append, List.length_singleton]
  have hstep : step q (bodyOf q v ++ [q]) = some (.str (v.flatMap readBack), []) := by
    unfold step
    have h1 : ∀ t : Text, consumeWhitespace (q :: t) = none := by
      intro t; rcases hq with rfl | rfl <;> simp [consumeWhitespace, isWhitespace]
    have h2 : ∀ t : Text, consumeComment (q :: t) = none := by
      intro t; rcases hq with rfl | rfl <;> cases t <;> simp [consumeComment]
    have h3 : ∀ k (t : Text), identLoop (k + 1) [] (q :: t) = some ([], q :: t) := by
      intro k t
      have : idStart q = false := by rcases hq with rfl | rfl <;> decide +kernel
      have hn : ¬ q = 92 := by rcases hq with rfl | rfl <;> decide
      simp [identLoop, this, hn]
    rw [h1, h2, h3]
    dsimp only
    rw [if_pos rfl]
    unfold punctuation
    have hp : isNewline q = false ∧ q ≠ 123 ∧ q ≠ 125 ∧ q ≠ 42 ∧ q ≠ 44 ∧ q ≠ 59 := by
      rcases hq with rfl | rfl <;> decide
    obtain ⟨p1, p2, p3, p4, p5, p6⟩ := hp
    rw [p1]
    simp only [Bool.false_eq_true, if_false, p2, p3, p4, p5, p6]
    rw [if_pos hq, hb _ (Nat.lt_succ_self _)]
    simp
  show (match step q (bodyOf q v ++ [q]) with
    | none => none
    | some (t, rest) => match tokenLoop (q :: bodyOf q v).length rest with
      | none => none
      | some ts => some (t :: ts)) = _ ↔ _
  rw [hstep]
  simp [tokenLoop, readBack_eq_iff]

/-- **C28 is false for other characters**: `é` comes back as `e9`. -/
theorem C28_js_false : serialize (.str [0xE9]) = txt "\"\\e9\"" ∧
    tokenize (serialize (.str [0xE9])) = some [.str (txt "e9"), .eof] := by decide +kernel

example : tokenize (serialize (.str (txt "it's \"quoted\"\n\\0"))) = some [.str (txt "it's \"quoted\"\n\\0"), .eof] := by
  decide +kernel

/-! ## Counterexamples to C26 -/

/-- **C26 is false for strings with other characters**: the literal `"é"` has the value `é`, and what is
written has another value (`e9`). -/
theorem C26_false_string : (tokenize (34 :: 0xE9 :: [34])).map serializeMany = some (txt "\"\\e9\"") ∧
    SV 34 [0xE9] [0xE9] ∧ SV 34 (txt "\\e9") (txt "e9") := by
  refine ⟨by decide +kernel, ?_, ?_⟩
  · exact SV.char (by decide) (by decide) (by decide) (by decide) SV.nil
  · refine SV.other (c := 101) (by decide) (by unfold Digit; decide) (by decide) (by decide) (by decide) (by unfold LineEnd; decide) ?_
    exact SV.char (by decide) (by decide) (by decide) (by decide) SV.nil

/-- **C26 is false for `\x` escapes**: the literal `"\x41"` has the value `A`, and what is written the
value `x41`. -/
theorem C26_false_hex : (tokenize (txt "\"\\x41\"")).map serializeMany = some (txt "\"x41\"") ∧
    SV 34 (txt "\\x41") (txt "A") := by
  refine ⟨by decide +kernel, ?_⟩
  exact SV.hex (Or.inl (by unfold Digit; decide)) (Or.inl (by unfold Digit; decide)) SV.nil

/-- **C26 is false for line continuations**: the literal of two lines has the value `ab`, and what is written
has a line terminator in its value. -/
theorem C26_false_continuation : (tokenize (txt "\"a\\\nb\"")).map serializeMany = some (txt "\"a\\nb\"") ∧
    SV 34 (txt "a\\\nb") (txt "ab") := by
  refine ⟨by decide +kernel, ?_⟩
  refine SV.char (by decide) (by decide) (by decide) (by decide) (SV.continuation (Or.inl rfl) ?_)
  exact SV.char (by decide) (by decide) (by decide) (by decide) SV.nil

/-- **C26 is false for template literals**: what looks like a comment in one is rewritten as a comment, and a
quote in one makes its escapes disappear. -/
theorem C26_false_template :
    (tokenize (txt "`http://x`")).map serializeMany = some (txt "`http:/*x`*/") ∧
    (tokenize (txt "`it's \\` x`")).map serializeMany = some (txt "`it's ` x`") := by decide +kernel

/-- **C26 is false for a regular expression ending in an escaped backslash**: `/\\\\/` is not seen to end, so
that the quotes behind it are not seen either. -/
theorem C26_false_regex : (tokenize (txt "/\\\\/.test('a/b//c')")).map serializeMany =
    some (txt "/\\\\/.test('a/b/*c')*/") := by decide +kernel

example : (tokenize (txt "import a from '/x.js'; // */\nlet r = /[/]\\//g, s = 'it\\'s', t = a / b;")).map serializeMany =
    some (txt "import a from \"/x.js\"; /* *\\/*/\nlet r = /[/]\\//g, s = \"it's\", t = a / b;") := by decide +kernel

/-! ## C29: the constants file -/

/-- A configured constant: string, boolean, number (with Python's `str` of it), `None`, or another value
(with Python's `repr` of it). -/
inductive Val where
  | str (v : Text)
  | bool (b : Bool)
  | num (str : Text)
  | null
  | other (repr : Text)
deriving DecidableEq, Repr

/-- handlers/js_constants.py:63-76 -/
def jsify : Val → Text
  | .str v => serializeStringAuto v
  | .bool true => txt "true"
  | .bool false => txt "false"
  | .num s => s
  | .null => txt "None"
  | .other r => r

/-- build_context.py:233-243: values `env://NAME` are taken from the environment; `none` is the
`KeyError` for a variable which is not set. -/
def replaceEnv (env : Text → Option Text) : Dict Val → Option (Dict Val)
  | [] => some []
  | (k, v) :: d =>
    match (match v with
      | .str s => if s.take 6 = txt "env://" then (env (s.drop 6)).map Val.str else some v
      | v => some v), replaceEnv env d with
    | some v', some d' => some ((k, v') :: d')
    | _, _ => none

/-- Python's `d.update(e)`. -/
def update (d e : Dict Val) : Dict Val := e.foldl (fun d p => Dict.set d p.1 p.2) d

/-- handlers/js_constants.py:40-44 -/
def constants (dev : Bool) (shared devC prodC : Dict Val) : Dict Val :=
  update shared (if dev then devC else prodC)

/-- handlers/js_constants.py:51 -/
def constantLine (p : String × Val) : Text := txt "export const " ++ txt p.1 ++ txt " = " ++ jsify p.2 ++ txt ";\n"

/-- handlers/js_constants.py:47-51: the text of the file. -/
def constantsFile (cs : Dict Val) : Text := (if cs = [] then [10] else []) ++ cs.flatMap constantLine

theorem update_get? (e : Dict Val) (he : Dict.NodupKeys e) : ∀ (d : Dict Val) (k : String),
    Dict.get? (update d e) k = ((Dict.get? e k).or (Dict.get? d k)) := by
  induction e with
  | nil => intro d k; simp [update]
  | cons p e ih =>
    intro d k
    have hk : p.1 ∉ Dict.keys e ∧ Dict.NodupKeys e := by
      simpa [Dict.NodupKeys] using he
    show Dict.get? (update (Dict.set d p.1 p.2) e) k = _
    rw [ih hk.2, Dict.get?_set]
    by_cases h : p.1 = k
    · subst h
      rw [(Dict.get?_eq_none_iff e p.1).2 hk.1]
      simp [Dict.get?]
    · simp only [Dict.get?, if_neg h]

theorem update_nodup (e : Dict Val) : ∀ (d : Dict Val), Dict.NodupKeys d → Dict.NodupKeys (update d e) := by
  induction e with
  | nil => intro d h; exact h
  | cons p e ih => intro d h; exact ih _ (h.set _ _)

/-- **C29, which constants.** For every configuration (Python dicts: no key twice) the file is one `export
const` line for each configured constant of the mode, in some order without repetition; a key of the mode
has the value given there, the others that of the shared ones; there is no other line (a single empty one
if nothing is configured). -/
theorem C29_constants (dev : Bool) (shared devC prodC : Dict Val) (hs : Dict.NodupKeys shared)
    (hd : Dict.NodupKeys devC) (hp : Dict.NodupKeys prodC) :
    let own := if dev then devC else prodC
    ∃ lines : List (String × Val), constantsFile (constants dev shared devC prodC) =
        (if lines = [] then txt "\n" else lines.flatMap (fun p =>
          txt "export const " ++ txt p.1 ++ txt " = " ++ jsify p.2 ++ txt ";\n")) ∧
      (lines.map Prod.fst).Nodup ∧
      ∀ k v, (k, v) ∈ lines ↔ (Dict.get? own k = some v ∨ (Dict.get? own k = none ∧ Dict.get? shared k = some v)) := by
  intro own
  have ho : Dict.NodupKeys own := by
    show Dict.NodupKeys (if dev then devC else prodC)
    split
    · exact hd
    · exact hp
  have hn : Dict.NodupKeys (update shared own) := update_nodup own shared hs
  refine ⟨update shared own, ?_, hn, ?_⟩
  · show constantsFile (update shared own) = _
    unfold constantsFile
    split
    · next h => rw [h]; rfl
    · rfl
  · intro k v
    have hmem : (k, v) ∈ update shared own ↔ Dict.get? (update shared own) k = some v :=
      ⟨fun h => Dict.get?_of_mem hn h, fun h => Dict.mem_of_get? h⟩
    rw [hmem, update_get? own ho]
    cases Dict.get? own k <;> simp

/-- **C29, string values, partial.** A string constant of printable ASCII characters, characters with a short
escape and NUL not before a digit is written as a literal with exactly this ECMA-262 value. -/
theorem C29_string_value_partial (v : Text) (h : WritableValue v) :
    ∃ q b, (q = 34 ∨ q = 39) ∧ jsify (.str v) = q :: b ++ [q] ∧ StrBody q b ∧ SV q b v :=
  ⟨autoQuote v, bodyOf (autoQuote v) v, autoQuote_cases v, serializeStringAuto_eq v,
    bodyOf_strBody v h, bodyOf_value (autoQuote_cases v) v h⟩

/-- **C29 is false for other strings**: `é` is written as a literal with the value `e9`, which is not `é`. -/
theorem C29_false_string : jsify (.str [0xE9]) = 34 :: txt "\\e9" ++ [34] ∧ ∀ v, SV 34 (txt "\\e9") v → v ≠ [0xE9] := by
  refine ⟨by decide +kernel, ?_⟩
  intro v hv h
  subst h
  have := SV_unique C26_false_string.2.2 hv
  revert this
  decide

/-- **C29 is false for NUL before a digit**: it is written as an octal escape, which is not a literal in a
module. -/
theorem C29_false_nul : jsify (.str [0, 49]) = 34 :: txt "\\01" ++ [34] ∧ ¬ ∃ v, SV 34 (txt "\\01") v := by
  refine ⟨by decide +kernel, ?_⟩
  rintro ⟨v, hv⟩
  have e : txt "\\01" = [92, 48, 49] := by decide
  rw [e] at hv
  cases hv with
  | char _ h _ _ _ => exact h rfl
  | single h _ => simp [singleEscapes] at h
  | other _ h _ _ _ _ _ => exact h ⟨by decide, by decide⟩
  | nul h _ => exact h 49 rfl ⟨by decide, by decide⟩
  | continuation h _ => unfold LineEnd at h; omega

/-- **C29 is false for `null`**: the constant is written as `None`. -/
theorem C29_false_null : constantsFile [("A", .null)] = txt "export const A = None;\n" := by decide +kernel

example : constantsFile (constants true [("A", .str (txt "x")), ("B", .num (txt "1"))] [("A", .bool true), ("C", .str (txt "it's"))] []) =
    txt "export const A = true;\nexport const B = 1;\nexport const C = \"it's\";\n" := by decide +kernel

/-- **C29, environment variables.** The replaced constants have the same keys, and every value is the variable
named in it or unchanged. -/
theorem C29_env (env : Text → Option Text) : ∀ (d d' : Dict Val), replaceEnv env d = some d' →
    d'.map Prod.fst = d.map Prod.fst ∧ ∀ (i : Nat) (p p' : String × Val), d[i]? = some p → d'[i]? = some p' →
      (∃ name v, p.2 = .str (txt "env://" ++ name) ∧ env name = some v ∧ p'.2 = .str v) ∨
      ((∀ name, p.2 ≠ .str (txt "env://" ++ name)) ∧ p'.2 = p.2) := by
  intro d
  induction d with
  | nil =>
    intro d' h
    simp only [replaceEnv, Option.some.injEq] at h
    subst h
    simp
  | cons q d ih =>
    intro d' h
    obtain ⟨k, v⟩ := q
    unfold replaceEnv at h
    split at h
    · next v' d1 hv hd =>
      cases h
      obtain ⟨h1, h2⟩ := ih d1 hd
      refine ⟨by simp [h1], ?_⟩
      intro i p p' hp hp'
      cases i with
      | succ i => exact h2 i p p' (by simpa using hp) (by simpa using hp')
      | zero =>
        simp only [List.getElem?_cons_zero, Option.some.injEq] at hp hp'
        subst hp; subst hp'
        cases v with
        | str s =>
          dsimp only at hv
          split at hv
          · next hpre =>
            obtain ⟨x, hx, rfl⟩ := Option.map_eq_some_iff.1 hv
            exact Or.inl ⟨s.drop 6, x, by rw [← hpre, List.take_append_drop], hx, rfl⟩
          · next hpre =>
            cases hv
            refine Or.inr ⟨?_, rfl⟩
            intro name he
            apply hpre
            cases he
            have : (txt "env://").length = 6 := by decide
            rw [List.take_append_of_le_length (by omega), List.take_of_length_le (by omega)]
        | bool b => cases hv; exact Or.inr ⟨by simp, rfl⟩
        | num b => cases hv; exact Or.inr ⟨by simp, rfl⟩
        | null => cases hv; exact Or.inr ⟨by simp, rfl⟩
        | other b => cases hv; exact Or.inr ⟨by simp, rfl⟩
    · cases h

end Verif.Js
