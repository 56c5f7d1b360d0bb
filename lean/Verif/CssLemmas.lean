import Verif.CssSpec
import Verif.JsMain
/-! # Lemmas on the parts of the CSS tokenizer -/
namespace Verif.Css
open Verif.Reader (Text txt)
open Verif.Js (hexNum HexDigit NoEnd isHex isHex_iff takeWhile_all dropWhile_head)

theorem isWs_iff (c : Nat) : isWs c = true ↔ Space c := by simp [isWs, Space, or_assoc]
theorem isDigit_iff (U : Uni) (c : Nat) : isDigit U c = true ↔ Dig U c := by simp [isDigit, Dig]
theorem isIdentStart_iff (c : Nat) : isIdentStart c = true ↔ NameStart c := by
  simp [isIdentStart, NameStart, or_assoc]
theorem isIdentChar_iff (U : Uni) (c : Nat) : isIdentChar U c = true ↔ NameChar U c := by
  simp [isIdentChar, NameChar, isIdentStart_iff, isDigit_iff, or_assoc]
theorem isNonPrintable_iff (c : Nat) : (c = 34 ∨ c = 39 ∨ c = 40 ∨ isNonPrintable c = true) ↔ BadInUrl c := by
  simp [isNonPrintable, BadInUrl, or_assoc]

theorem isValidEscape_iff (s : Text) : isValidEscape (s.take 2) = true ↔ EscapeStart s := by
  match s with
  | [] => simp [isValidEscape, EscapeStart]
  | [a] => simp [isValidEscape, EscapeStart]
  | a :: b :: t =>
    simp only [List.take_succ_cons, List.take_zero, isValidEscape, EscapeStart, Bool.and_eq_true, beq_iff_eq, bne_iff_ne]
    constructor
    · rintro ⟨rfl, h⟩; exact ⟨b, t, rfl, h⟩
    · rintro ⟨d, t', h, h2⟩
      simp only [List.cons.injEq] at h
      obtain ⟨rfl, rfl, rfl⟩ := h; exact ⟨rfl, h2⟩

theorem isNumber_iff (U : Uni) (s : Text) : isNumber U (s.take 3) = true ↔ NumberStart U s := by
  match s with
  | [] => simp [isNumber, NumberStart]
  | [a] => simp [isNumber, NumberStart]
  | [a, b] => simp [isNumber, NumberStart]
  | a :: b :: c :: t =>
    have hsg : (a = 43 ∨ a = 45) → ¬ Dig U a := by rintro (h | h) <;> subst h <;> simp [Dig]
    have hdot : a = 46 → ¬ Dig U a := by rintro h; subst h; simp [Dig]
    have e : NumberStart U (a :: b :: c :: t) ↔
        (Dig U a ∨ (a = 46 ∧ Dig U b) ∨ ((a = 43 ∨ a = 45) ∧ (Dig U b ∨ (b = 46 ∧ Dig U c)))) := by
      constructor
      · rintro ⟨a', b', c', t', h, h2⟩
        simp only [List.cons.injEq] at h
        obtain ⟨rfl, rfl, rfl, rfl⟩ := h; exact h2
      · intro h; exact ⟨a, b, c, t, rfl, h⟩
    rw [e]
    simp only [List.take_succ_cons, List.take_zero, isNumber]
    by_cases h1 : a = 43 ∨ a = 45
    · have : a ≠ 46 := by omega
      simp [h1, hsg h1, isDigit_iff, this]
    · rw [if_neg h1]
      by_cases h2 : a = 46
      · simp [h2, isDigit_iff]; simp [Dig]
      · simp [h1, h2, isDigit_iff]

theorem isIdentSequence_hyphen {b : Nat} {t : Text} :
    isIdentSequence ((45 :: b :: t).take 3) = true ↔ HyphenName (45 :: b :: t) := by
  match t with
  | [] => simp [isIdentSequence, HyphenName]
  | c :: t' =>
    simp only [List.take_succ_cons, List.take_zero, isIdentSequence, if_true, isIdentStart_iff, isValidEscape,
      Bool.or_eq_true, Bool.and_eq_true, beq_iff_eq, bne_iff_ne, or_assoc]
    constructor
    · intro h; exact ⟨b, c, t', rfl, h⟩
    · rintro ⟨b', c', t'', h, h2⟩
      simp only [List.cons.injEq] at h
      obtain ⟨-, rfl, rfl, rfl⟩ := h; exact h2

/-- What a name starts with. -/
theorem isIdentSequence_cases {s : Text} (h : isIdentSequence (s.take 3) = true) :
    ∃ a t, s = a :: t ∧ (NameStart a ∨ a = 45 ∨ EscapeStart s) := by
  match s with
  | [] => simp [isIdentSequence] at h
  | a :: t =>
    refine ⟨a, t, rfl, ?_⟩
    match t with
    | [] => simp [isIdentSequence] at h
    | [b] => simp [isIdentSequence] at h
    | b :: c :: t' =>
      simp only [List.take_succ_cons, List.take_zero, isIdentSequence] at h
      by_cases h1 : a = 45
      · exact Or.inr (Or.inl h1)
      · rw [if_neg h1] at h
        by_cases h2 : isIdentStart a = true
        · exact Or.inl ((isIdentStart_iff a).1 h2)
        · simp only [h2, if_false] at h
          by_cases h3 : a = 92
          · subst h3
            right; right
            rw [← isValidEscape_iff]
            simpa using h
          · simp [h3] at h

theorem escapeChar_spec (n : Nat) : CodePoint n (escapeChar n) := by
  unfold escapeChar
  split
  next h => exact .bad h
  next h =>
    have h' : n ≠ 0 ∧ ¬ (0xD800 ≤ n ∧ n ≤ 0xDFFF) ∧ n ≤ 0x10FFFF := by omega
    exact .good h'.1 h'.2.1 h'.2.2

theorem take_takeWhile_prefix (f : Nat → Bool) (n : Nat) (s : Text) :
    ∃ r, s = (s.take n).takeWhile f ++ r ∧
      (∀ d, r.head? = some d → ((s.take n).takeWhile f).length < n → f d = false) := by
  refine ⟨s.drop ((s.take n).takeWhile f).length, ?_, ?_⟩
  · have h1 : (s.take n).takeWhile f = s.take ((s.take n).takeWhile f).length := by
      have hp : (s.take n).takeWhile f <+: s := (List.takeWhile_prefix f).trans (List.take_prefix n s)
      exact (List.prefix_iff_eq_take.1 hp)
    have h2 := List.take_append_drop ((s.take n).takeWhile f).length s
    rw [← h1] at h2
    exact h2.symm
  · intro d hd hl
    induction n generalizing s with
    | zero => simp at hl
    | succ n ih =>
      match s with
      | [] => simp at hd
      | c :: cs =>
        simp only [List.take_succ_cons, List.takeWhile_cons] at hd hl
        by_cases hc : f c = true
        · simp only [hc, if_true, List.length_cons, List.drop_succ_cons] at hd hl
          exact ih cs hd (by omega)
        · simp only [hc] at hd
          simp at hd; subst hd; simpa using hc

theorem consumeEscaped_spec (c : Nat) (cs : Text) (hc : c ≠ 10) :
    ∃ p r, c :: cs = p ++ r ∧ p ≠ [] ∧ consumeEscaped (c :: cs) = ((consumeEscaped (c :: cs)).1, r) ∧
      Escape p r (consumeEscaped (c :: cs)).1 := by
  unfold consumeEscaped
  by_cases hx : isHex c = true
  · simp only [hx, if_true]
    obtain ⟨r, hr, hr2⟩ := take_takeWhile_prefix isHex 6 (c :: cs)
    generalize hhs : ((c :: cs).take 6).takeWhile isHex = hs at *
    have hne : hs ≠ [] := by rw [← hhs]; simp [hx]
    have hle : hs.length ≤ 6 := by
      rw [← hhs]; exact Nat.le_trans (List.takeWhile_prefix _).length_le (by simp; omega)
    have hall : ∀ h ∈ hs, HexDigit h := by
      intro h hh; rw [← hhs] at hh; exact (isHex_iff h).1 (takeWhile_all _ _ h hh)
    have hdrop : (c :: cs).drop hs.length = r := by rw [hr]; simp
    rw [hdrop]
    match r, hr, hr2 with
    | [], hr, hr2 =>
      exact ⟨hs, [], hr, hne, rfl, .hex hne hle hall (by simp) (escapeChar_spec _)⟩
    | w :: r', hr, hr2 =>
      by_cases hw : isWs w = true
      · refine ⟨hs ++ [w], r', by simp [hr], by simp, by simp [dropWs1, hw], ?_⟩
        exact .hexSpace hne hle hall ((isWs_iff w).1 hw) (escapeChar_spec _)
      · refine ⟨hs, w :: r', hr, hne, by simp [dropWs1, hw], ?_⟩
        refine .hex hne hle hall ?_ (escapeChar_spec _)
        intro d hd
        simp only [List.head?_cons, Option.some.injEq] at hd; subst hd
        refine ⟨fun h => hw ((isWs_iff _).2 h), fun hl h => ?_⟩
        have := hr2 w rfl hl
        rw [(isHex_iff w).2 h] at this; simp at this
  · simp only [hx, Bool.false_eq_true, if_false]
    exact ⟨[c], cs, rfl, by simp, rfl, .char (fun h => hx ((isHex_iff c).2 h)) hc⟩

/-- Less text behind an escape. -/
theorem Escape.shorten {p b x : Text} {n : Nat} (h : Escape p (b ++ x) n) : Escape p b n := by
  cases h with
  | char h1 h2 => exact .char h1 h2
  | hex h1 h2 h3 h4 h5 =>
    refine .hex h1 h2 h3 ?_ h5
    intro d hd
    apply h4
    cases b with
    | nil => simp at hd
    | cons => simpa using hd
  | hexSpace h1 h2 h3 h4 h5 => exact .hexSpace h1 h2 h3 h4 h5

theorem stringLoop_spec {q : Nat} (hq : q = 34 ∨ q = 39) : ∀ (fuel : Nat) (res s : Text), s.length < fuel →
    ∃ b v, StrValue q b v ∧
      ((∃ rest, s = b ++ q :: rest ∧ stringLoop q fuel res s = (.str (res ++ v), rest)) ∨
       (∃ e, (e = [] ∨ e = [92]) ∧ s = b ++ e ∧ stringLoop q fuel res s = (.str (res ++ v), [])) ∨
       (∃ rest, s = b ++ 10 :: rest ∧ stringLoop q fuel res s = (.badString (res ++ v), 10 :: rest))) := by
  intro fuel
  induction fuel with
  | zero => intro res s h; omega
  | succ fuel ih =>
    intro res s hl
    match s with
    | [] => exact ⟨[], [], .nil, Or.inr (Or.inl ⟨[], Or.inl rfl, rfl, by simp [stringLoop]⟩)⟩
    | c :: cs =>
      simp only [List.length_cons] at hl
      simp only [stringLoop]
      by_cases h1 : c = q
      · subst h1
        exact ⟨[], [], .nil, Or.inl ⟨cs, rfl, by simp⟩⟩
      · rw [if_neg h1]
        by_cases h2 : c = 10
        · subst h2
          exact ⟨[], [], .nil, Or.inr (Or.inr ⟨cs, rfl, by simp⟩)⟩
        · rw [if_neg h2]
          by_cases h3 : c = 92
          · subst h3
            rw [if_pos rfl]
            match cs with
            | [] =>
              refine ⟨[], [], .nil, Or.inr (Or.inl ⟨[92], Or.inr rfl, rfl, ?_⟩)⟩
              cases fuel with
              | zero => simp at hl
              | succ => simp [stringLoop]
            | d :: ds =>
              simp only [List.length_cons] at hl
              dsimp only
              by_cases h4 : d = 10
              · subst h4
                rw [if_pos rfl]
                obtain ⟨b, v, hbv, h⟩ := ih res ds (by omega)
                refine ⟨92 :: 10 :: b, v, .continuation hbv, ?_⟩
                rcases h with ⟨rest, h5, h6⟩ | ⟨e, he, h5, h6⟩ | ⟨rest, h5, h6⟩
                · exact Or.inl ⟨rest, by simp [h5], h6⟩
                · exact Or.inr (Or.inl ⟨e, he, by simp [h5], h6⟩)
                · exact Or.inr (Or.inr ⟨rest, by simp [h5], h6⟩)
              · rw [if_neg h4]
                obtain ⟨p, r, hp, hpne, hr, hesc⟩ := consumeEscaped_spec d ds h4
                rw [hr]
                have hlen : r.length < fuel := by
                  have := congrArg List.length hp
                  have := List.length_pos_iff.2 hpne
                  simp only [List.length_cons, List.length_append] at *; omega
                dsimp only
                obtain ⟨b, v, hbv, h⟩ := ih (res ++ [(consumeEscaped (d :: ds)).1]) r hlen
                rcases h with ⟨rest, h5, h6⟩ | ⟨e, he, h5, h6⟩ | ⟨rest, h5, h6⟩
                · rw [h5] at hesc
                  exact ⟨_, _, .escape hesc.shorten hbv, Or.inl ⟨rest, by rw [hp, h5]; simp, by simpa using h6⟩⟩
                · rw [h5] at hesc
                  exact ⟨_, _, .escape hesc.shorten hbv, Or.inr (Or.inl ⟨e, he, by rw [hp, h5]; simp, by simpa using h6⟩)⟩
                · rw [h5] at hesc
                  exact ⟨_, _, .escape hesc.shorten hbv, Or.inr (Or.inr ⟨rest, by rw [hp, h5]; simp, by simpa using h6⟩)⟩
          · rw [if_neg h3]
            obtain ⟨b, v, hbv, h⟩ := ih (res ++ [c]) cs (by omega)
            refine ⟨c :: b, c :: v, .char h1 h2 h3 hbv, ?_⟩
            rcases h with ⟨rest, h5, h6⟩ | ⟨e, he, h5, h6⟩ | ⟨rest, h5, h6⟩
            · exact Or.inl ⟨rest, by simp [h5], by simpa using h6⟩
            · exact Or.inr (Or.inl ⟨e, he, by simp [h5], by simpa using h6⟩)
            · exact Or.inr (Or.inr ⟨rest, by simp [h5], by simpa using h6⟩)

theorem identLoop_spec (U : Uni) : ∀ (fuel : Nat) (res s : Text), s.length < fuel →
    ∃ p v rest, s = p ++ rest ∧ NameValue U rest p v ∧ identLoop U fuel res s = (res ++ v, rest) := by
  intro fuel
  induction fuel with
  | zero => intro res s h; omega
  | succ fuel ih =>
    intro res s hl
    match s with
    | [] => exact ⟨[], [], [], rfl, .nil (by simp [NameEnds, EscapeStart]), by simp [identLoop]⟩
    | c :: cs =>
      simp only [List.length_cons] at hl
      simp only [identLoop]
      by_cases h1 : isIdentChar U c = true
      · rw [if_pos h1]
        obtain ⟨p, v, rest, h2, h3, h4⟩ := ih (res ++ [c]) cs (by omega)
        exact ⟨c :: p, c :: v, rest, by simp [h2], .char ((isIdentChar_iff U c).1 h1) h3, by simpa using h4⟩
      · rw [if_neg h1]
        by_cases h2 : isValidEscape ((c :: cs).take 2) = true
        · rw [if_pos h2]
          obtain ⟨d, t, h3, h4⟩ := (isValidEscape_iff _).1 h2
          simp only [List.cons.injEq] at h3
          obtain ⟨rfl, rfl⟩ := h3
          obtain ⟨p, r, hp, hpne, hr, hesc⟩ := consumeEscaped_spec d t h4
          rw [hr]
          have hlen : r.length < fuel := by
            have := congrArg List.length hp
            have := List.length_pos_iff.2 hpne
            simp only [List.length_cons, List.length_append] at *; omega
          dsimp only
          obtain ⟨b, v, rest, h5, h6, h7⟩ := ih (res ++ [(consumeEscaped (d :: t)).1]) r hlen
          rw [h5] at hesc
          exact ⟨92 :: (p ++ b), _, rest, by rw [hp, h5]; simp, .escape hesc h6, by simpa using h7⟩
        · rw [if_neg h2]
          refine ⟨[], [], c :: cs, rfl, .nil ⟨?_, fun h => h2 ((isValidEscape_iff _).2 h)⟩, by simp⟩
          intro x hx
          simp only [List.head?_cons, Option.some.injEq] at hx; subst hx
          exact fun h => h1 ((isIdentChar_iff U c).2 h)

theorem consumeIdent_spec (U : Uni) (s : Text) :
    ∃ p, s = p ++ (consumeIdent U s).2 ∧ NameValue U (consumeIdent U s).2 p (consumeIdent U s).1 := by
  obtain ⟨p, v, rest, h1, h2, h3⟩ := identLoop_spec U (s.length + 1) [] s (by omega)
  unfold consumeIdent
  rw [h3]
  exact ⟨p, h1, by simpa using h2⟩

/-- Where a name starts, it is not empty. -/
theorem NameValue.ne_nil {U : Uni} {next p v : Text} (h : NameValue U next p v)
    (hs : (∃ c, (p ++ next).head? = some c ∧ NameChar U c) ∨ EscapeStart (p ++ next)) : p ≠ [] := by
  intro hp; subst hp
  cases h with
  | nil h =>
    rcases hs with ⟨c, h1, h2⟩ | hs
    · exact h.1 c h1 h2
    · exact h.2 hs

theorem NameStart.char {U : Uni} {c : Nat} (h : NameStart c) : NameChar U c := Or.inl h

theorem identSequence_start (U : Uni) {s : Text} (h : isIdentSequence (s.take 3) = true) :
    (∃ c, s.head? = some c ∧ NameChar U c) ∨ EscapeStart s := by
  obtain ⟨a, t, rfl, h1 | h1 | h1⟩ := isIdentSequence_cases h
  · exact Or.inl ⟨a, rfl, Or.inl h1⟩
  · exact Or.inl ⟨a, rfl, Or.inr (Or.inr h1)⟩
  · exact Or.inr h1

end Verif.Css
