import Verif.JsThm
/-! # JavaScript rewriting: C26, C28 -/
namespace Verif.Js
open Verif.Reader (Text txt)

/-! ## What the tokenizer reads as the value of a literal -/

theorem consumeUnicode_length {cs rest : Text} {u : Nat} (h : isUnicodeEscape (cs.take 9) = true)
    (h' : consumeUnicode cs = some (u, rest)) : rest.length < cs.length := by
  obtain ⟨hs, r, _, h2, h3⟩ := unicode_ok cs h
  rw [h'] at h2
  cases h2
  rcases h3 with ⟨rfl, h4⟩ | ⟨rfl, _⟩
  · simp; omega
  · simp; omega

/-- The escape check depends on `u`. -/
theorem isUnicodeEscape_head {t : Text} (h : isUnicodeEscape t = true) : t.head? = some 117 := by
  unfold isUnicodeEscape at h
  split at h
  · cases h
  · split at h
    · cases h
    · next h2 => simpa using h2

theorem isUnicodeEscape_not_u {c : Nat} {cs : Text} (h : c ≠ 117) : isUnicodeEscape ((c :: cs).take 9) = false := by
  cases hh : isUnicodeEscape ((c :: cs).take 9) with
  | false => rfl
  | true =>
    have := isUnicodeEscape_head hh
    simp at this
    exact absurd this h

/-- A four digit escape is recognised. -/
theorem isUnicodeEscape_u4 (hs b : Text) (h4 : hs.length = 4) (hh : ∀ h ∈ hs, HexDigit h) :
    isUnicodeEscape ((117 :: (hs ++ b)).take 9) = true ∧ consumeUnicode (117 :: (hs ++ b)) = some (hexNum hs, b) := by
  match hs, h4 with
  | [x1, x2, x3, x4], _ =>
    have e : ∀ x ∈ [x1, x2, x3, x4], isHex x = true := fun x hx => (isHex_iff x).2 (hh x hx)
    have n1 : x1 ≠ 123 := by
      have := hh x1 (by simp)
      unfold HexDigit Digit at this; omega
    simp only [List.mem_cons, List.not_mem_nil, or_false, forall_eq_or_imp, forall_eq] at e
    constructor
    · simp [isUnicodeEscape, n1, e]
    · unfold consumeUnicode
      split
      · next t heq => simp only [List.cons_append, List.cons.injEq] at heq; exact absurd heq.2.1 n1
      · next t _ heq =>
        simp only [List.cons_append, List.nil_append, List.cons.injEq, true_and] at heq
        subst heq
        simp [e]
      · next hne => exact absurd rfl (hne _)

theorem braceScan_of : ∀ (hs acc tail : Text), (∀ h ∈ hs, HexDigit h) → acc ++ hs ≠ [] → hexNum (acc ++ hs) ≤ 0x10FFFF →
    braceScan (hs ++ 125 :: tail) acc = true := by
  intro hs
  induction hs with
  | nil => intro acc tail _ h2 h3; simp at h2 h3; simp [braceScan, h2, h3]
  | cons c hs ih =>
    intro acc tail h1 h2 h3
    have hc := h1 c (by simp)
    rw [List.cons_append, braceScan, if_neg (hex_ne_brace hc), if_pos ((isHex_iff c).2 hc)]
    exact ih _ _ (fun h hm => h1 h (by simp [hm])) (by simp) (by simpa using h3)

/-- A `\u{..}` escape whose `}` is among the first eight characters behind the backslash is recognised,
if something follows it. -/
theorem isUnicodeEscape_brace (hs b : Text) (hne : hs ≠ []) (hh : ∀ h ∈ hs, HexDigit h) (hmax : hexNum hs ≤ 0x10FFFF)
    (hb : b ≠ []) (h8 : 125 ∈ (117 :: 123 :: (hs ++ 125 :: b)).take 8) :
    isUnicodeEscape ((117 :: 123 :: (hs ++ 125 :: b)).take 9) = true ∧
    consumeUnicode (117 :: 123 :: (hs ++ 125 :: b)) = some (hexNum hs, b) := by
  constructor
  · unfold isUnicodeEscape
    rw [if_neg (by simp), if_neg (by simp), if_pos (by simp)]
    have hlen : hs.length ≤ 5 := by
      rcases Nat.lt_or_ge 5 hs.length with h | h
      · exfalso
        simp only [List.take_succ_cons, List.mem_cons] at h8
        rcases h8 with h8 | h8 | h8
        · cases h8
        · cases h8
        · rw [List.take_append_of_le_length (by omega)] at h8
          exact hex_ne_brace (hh _ (List.mem_of_mem_take h8)) rfl
      · exact h
    obtain ⟨y, b', rfl⟩ : ∃ y b', b = y :: b' := by
      cases b with
      | nil => exact absurd rfl hb
      | cons y b' => exact ⟨y, b', rfl⟩
    have : ∃ tail, (List.drop 2 (List.take 9 (117 :: 123 :: (hs ++ 125 :: y :: b')))).dropLast = hs ++ 125 :: tail := by
      simp only [List.take_succ_cons, List.drop_succ_cons, List.drop_zero]
      rw [show hs ++ 125 :: y :: b' = (hs ++ [125, y]) ++ b' by simp, List.take_append]
      rw [List.take_of_length_le (by simp; omega), List.dropLast_append]
      split
      · exact ⟨[], by rw [List.dropLast_append_of_ne_nil (by simp)]; simp⟩
      · next hx =>
        refine ⟨y :: (List.take (7 - (hs ++ [125, y]).length) b').dropLast, by simp⟩
    obtain ⟨tail, ht⟩ := this
    rw [ht]
    exact braceScan_of hs [] tail hh (by simpa using hne) (by simpa using hmax)
  · simp only [consumeUnicode]
    rw [(takeWhile_hex hh).1, (takeWhile_hex hh).2]
    dsimp only
    rw [if_pos]
    rw [List.all_eq_true]
    exact fun c hc => (isHex_iff c).2 (hh c hc)

/-- A literal with ECMA-262 value `v` and supported escapes is read as `v`. -/
theorem stringLoop_value {q : Nat} (hq : q = 34 ∨ q = 39) {b v : Text} (h : SV q b v) :
    ∀ (fuel : Nat) (res rest : Text), (∀ c ∈ b, ¬ LineEnd c) →
      SupportedEscapes b → b.length < fuel →
      stringLoop q fuel res (b ++ q :: rest) = some (.str (res ++ v), rest) := by
  have hqn : isNewline q = false := by rcases hq with rfl | rfl <;> rfl
  have hqb : q ≠ 92 := by rcases hq with rfl | rfl <;> decide
  induction h with
  | nil =>
    intro fuel res rest _ _ hf
    obtain ⟨fuel, rfl⟩ : ∃ k, fuel = k + 1 := ⟨fuel - 1, by omega⟩
    simp [stringLoop, hqn]
  | @char c b v h1 h2 h3 h4 _ ih =>
    intro fuel res rest hl hs hf
    obtain ⟨fuel, rfl⟩ : ∃ k, fuel = k + 1 := ⟨fuel - 1, by simp at hf; omega⟩
    have hnl : isNewline c = false := (isNewline_false_iff c).2 (hl c (by simp))
    simp only [List.cons_append, stringLoop, hnl, Bool.false_eq_true, if_false, h1, h2]
    rw [ih fuel _ rest (fun c hc => hl c (by simp [hc])) ?_ (by simp at hf; omega), List.append_assoc]
    · rfl
    · intro t ht
      apply hs t
      rw [escapeTails]
      · exact ht
      · intro e b' he; exact absurd he h2
  | @single e c b v h1 _ ih =>
    intro fuel res rest hl hs hf
    obtain ⟨fuel, rfl⟩ : ∃ k, fuel = k + 1 := ⟨fuel - 1, by simp at hf; omega⟩
    have hu : e ≠ 117 ∧ unescape e = c := by
      have all : ∀ x ∈ singleEscapes, x.1 ≠ 117 ∧ unescape x.1 = x.2 := by decide
      exact all _ h1
    simp only [List.cons_append, stringLoop, if_neg hqb.symm, if_true]
    rw [if_neg (by decide), isUnicodeEscape_not_u hu.1]
    simp only [Bool.false_eq_true, if_false]
    rw [hu.2, ih fuel _ rest (fun c hc => hl c (by simp [hc])) (fun t ht => hs t (by rw [escapeTails]; simp [ht]))
      (by simp at hf; omega), List.append_assoc]
    rfl
  | @other c b v h1 h2 h3 h4 h5 h6 _ ih =>
    intro fuel res rest hl hs hf
    obtain ⟨fuel, rfl⟩ : ∃ k, fuel = k + 1 := ⟨fuel - 1, by simp at hf; omega⟩
    have hu : unescape c = c := by
      simp only [singleEscapes, List.map_cons, List.map_nil, List.mem_cons, List.not_mem_nil, or_false, not_or] at h1
      unfold Digit at h2
      unfold unescape
      repeat' split
      all_goals first
        | rfl
        | (exfalso; omega)
    simp only [List.cons_append, stringLoop, if_neg hqb.symm, if_true]
    rw [if_neg (by decide), isUnicodeEscape_not_u h4]
    simp only [Bool.false_eq_true, if_false]
    rw [hu, ih fuel _ rest (fun c hc => hl c (by simp [hc])) (fun t ht => hs t (by rw [escapeTails]; simp [ht]))
      (by simp at hf; omega), List.append_assoc]
    rfl
  | @nul b v h1 _ ih =>
    intro fuel res rest hl hs hf
    obtain ⟨fuel, rfl⟩ : ∃ k, fuel = k + 1 := ⟨fuel - 1, by simp at hf; omega⟩
    simp only [List.cons_append, stringLoop, if_neg hqb.symm, if_true]
    rw [if_neg (by decide), isUnicodeEscape_not_u (by decide)]
    simp only [Bool.false_eq_true, if_false]
    rw [show unescape 48 = 0 by decide, ih fuel _ rest (fun c hc => hl c (by simp [hc]))
      (fun t ht => hs t (by rw [escapeTails]; simp [ht])) (by simp at hf; omega), List.append_assoc]
    rfl
  | @hex x y b v h1 h2 _ ih =>
    intro fuel res rest hl hs hf
    exfalso
    exact (hs (120 :: x :: y :: b) (by rw [escapeTails]; simp)).1 rfl
  | @u4 hs b v h1 h2 h3 _ ih =>
    intro fuel res rest hl hsup hf
    obtain ⟨fuel, rfl⟩ : ∃ k, fuel = k + 1 := ⟨fuel - 1, by simp at hf; omega⟩
    obtain ⟨e1, e2⟩ := isUnicodeEscape_u4 hs (b ++ q :: rest) h1 h2
    simp only [List.cons_append, stringLoop, if_neg hqb.symm, if_true]
    rw [if_neg (by decide), List.append_assoc, e1, e2]
    simp only [if_true]
    rw [ih fuel _ rest (fun c hc => hl c (by simp [hc])) ?_ (by simp at hf; omega), List.append_assoc]
    · rfl
    · intro t ht
      apply hsup t
      rw [escapeTails]
      right
      have : ∀ (hs : Text), (∀ h ∈ hs, HexDigit h) → t ∈ escapeTails (hs ++ b) := by
        intro hs hh
        induction hs with
        | nil => exact ht
        | cons x hs ih2 =>
          rw [List.cons_append, escapeTails]
          · exact ih2 (fun h hm => hh h (by simp [hm]))
          · intro e b' he _
            have := hh x (by simp)
            unfold HexDigit Digit at this
            omega
      exact this hs h2
  | @ubrace hs b v h0 h1 h2 h3 _ ih =>
    intro fuel res rest hl hsup hf
    obtain ⟨fuel, rfl⟩ : ∃ k, fuel = k + 1 := ⟨fuel - 1, by simp at hf; omega⟩
    have h8 := (hsup (117 :: 123 :: (hs ++ 125 :: b)) (by rw [escapeTails]; simp)).2.2 (by simp)
    have h8' : 125 ∈ (117 :: 123 :: (hs ++ 125 :: (b ++ q :: rest))).take 8 := by
      have : (117 :: 123 :: (hs ++ 125 :: (b ++ q :: rest))) = (117 :: 123 :: (hs ++ 125 :: b)) ++ (q :: rest) := by simp
      rw [this, List.take_append]
      exact List.mem_append_left _ h8
    obtain ⟨e1, e2⟩ := isUnicodeEscape_brace hs (b ++ q :: rest) h0 h1 h2 (by simp) h8'
    simp only [List.cons_append, stringLoop, if_neg hqb.symm, if_true]
    rw [if_neg (by decide), List.append_assoc, List.cons_append, e1, e2]
    simp only [if_true]
    rw [ih fuel _ rest (fun c hc => hl c (by simp [hc])) ?_ (by simp at hf; omega), List.append_assoc]
    · rfl
    · intro t ht
      apply hsup t
      rw [escapeTails]
      right
      have : ∀ (hs : Text), (∀ h ∈ hs, HexDigit h) → t ∈ escapeTails (hs ++ 125 :: b) := by
        intro hs hh
        induction hs with
        | nil =>
          rw [List.nil_append, escapeTails]
          · exact ht
          · intro e b' he; exact absurd he (by decide)
        | cons x hs ih2 =>
          rw [List.cons_append, escapeTails]
          · exact ih2 (fun h hm => hh h (by simp [hm]))
          · intro e b' he _
            have := hh x (by simp)
            unfold HexDigit Digit at this
            omega
      rw [escapeTails]
      · exact this hs h1
      · intro e b' he; exact absurd he (by decide)
  | @continuation c b v h1 _ ih =>
    intro fuel res rest hl hs hf
    exfalso
    exact (hs (c :: b) (by rw [escapeTails]; simp)).2.1 c rfl h1

/-! ## What the serializer writes -/

theorem autoQuote_cases (v : Text) : autoQuote v = 34 ∨ autoQuote v = 39 := by
  unfold autoQuote
  split
  · exact Or.inl rfl
  · split
    · exact Or.inr rfl
    · exact Or.inl rfl

/-- What is between the quotes. -/
def bodyOf (q : Nat) (v : Text) : Text := v.flatMap (serializeChar (some q) [92])

theorem serializeStringAuto_eq (v : Text) :
    serializeStringAuto v = autoQuote v :: bodyOf (autoQuote v) v ++ [autoQuote v] := by
  simp [serializeStringAuto, serializeString, bodyOf]

/-- A digit at the start of the serialised rest was one in the value. -/
theorem bodyOf_head_digit {q : Nat} (hq : q = 34 ∨ q = 39) (v : Text)
    (hd : ∀ d, v.head? = some d → ¬ Digit d) : ∀ d, (bodyOf q v).head? = some d → ¬ Digit d := by
  intro d h
  cases v with
  | nil => simp [bodyOf] at h
  | cons c v =>
    have hc := hd c rfl
    simp only [bodyOf, List.flatMap_cons] at h
    unfold serializeChar at h
    split at h
    · simp at h; subst h; unfold Digit; omega
    · split at h
      · simp at h; subst h; unfold Digit; omega
      · split at h
        · simp at h; subst h; unfold Digit; omega
        · simp at h; subst h; exact hc

/-- The serialised form of a writable value has this value. -/
theorem bodyOf_value {q : Nat} (hq : q = 34 ∨ q = 39) : ∀ (v : Text), WritableValue v → SV q (bodyOf q v) v := by
  intro v
  induction v with
  | nil => intro _; exact SV.nil
  | cons c v ih =>
    intro h
    have hv : WritableValue v := ⟨fun c hc => h.1 c (by simp [hc]), fun pre d post he => h.2 (c :: pre) d post (by rw [he]; rfl)⟩
    have hb := ih hv
    have hc := h.1 c (by simp)
    show SV q (serializeChar (some q) [92] c ++ bodyOf q v) (c :: v)
    unfold serializeChar
    split
    · next hs =>
      have : (c, c) ∈ singleEscapes := by
        have : c = 34 ∨ c = 39 ∨ c = 92 := by
          rcases hs with hs | hs
          · rcases hq with rfl | rfl
            · simp at hs; exact Or.inl hs
            · simp at hs; exact Or.inr (Or.inl hs)
          · simp at hs; exact Or.inr (Or.inr hs)
        rcases this with rfl | rfl | rfl <;> decide
      exact SV.single this hb
    · next hs =>
      simp only [List.mem_cons, List.not_mem_nil, or_false, not_or, Option.some.injEq] at hs
      by_cases h0 : c = 0
      · subst h0
        show SV q (92 :: 48 :: bodyOf q v) (0 :: v)
        refine SV.nul (bodyOf_head_digit hq v ?_) hb
        intro d hd
        cases v with
        | nil => cases hd
        | cons x xs =>
          simp at hd; subst hd
          exact h.2 [] x xs rfl
      · by_cases hlow : 8 ≤ c ∧ c ≤ 13
        · have : ∃ e, specialEscape c = some e ∧ (e, c) ∈ singleEscapes := by
            have : c = 8 ∨ c = 9 ∨ c = 10 ∨ c = 11 ∨ c = 12 ∨ c = 13 := by omega
            rcases this with rfl | rfl | rfl | rfl | rfl | rfl <;> exact ⟨_, rfl, by decide⟩
          obtain ⟨e, he, hm⟩ := this
          rw [he]
          exact SV.single hm hb
        · have hp : 32 ≤ c ∧ c < 127 := by omega
          have hn : specialEscape c = none := by
            unfold specialEscape
            repeat' split
            all_goals first
              | rfl
              | (exfalso; omega)
          rw [hn]
          dsimp only
          rw [if_neg (by omega)]
          exact SV.char hs.1 hs.2 (by omega) (by omega) hb

end Verif.Js
