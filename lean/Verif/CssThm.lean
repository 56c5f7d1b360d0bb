import Verif.CssMain
/-! # C28, C30 and C31 for CSS: round trips, texts which are kept, and counterexamples -/
namespace Verif.Css
open Verif.Reader (Text txt)
open Verif.Js (NoEnd HexDigit hexNum isHex isHex_iff takeWhile_hex bodyOf serializeStringAuto serializeStringAuto_eq
  autoQuote autoQuote_cases)

deriving instance DecidableEq for Except

/-! ## Reading a written string -/

theorem CodePoint.escapeChar {n c : Nat} (h : CodePoint n c) : escapeChar n = c := by
  cases h with
  | good h1 h2 h3 => unfold Css.escapeChar; rw [if_neg (by omega)]
  | bad h => unfold Css.escapeChar; rw [if_pos h]

theorem takeWhile_take_hex {hs next : Text} (h : ∀ c ∈ hs, HexDigit c) (hl : hs.length ≤ 6)
    (hn : ∀ d, next.head? = some d → hs.length < 6 → ¬ HexDigit d) :
    ((hs ++ next).take 6).takeWhile isHex = hs := by
  rw [List.take_append, List.takeWhile_append_of_pos]
  · rw [List.take_of_length_le hl]
    have : (next.take (6 - hs.length)).takeWhile isHex = [] := by
      cases next with
      | nil => simp
      | cons d t =>
        by_cases h6 : hs.length < 6
        · have hd := hn d rfl h6
          have hd' : isHex d = false := by
            cases hx : isHex d with
            | false => rfl
            | true => exact absurd ((isHex_iff d).1 hx) hd
          obtain ⟨k, hk⟩ : ∃ k, 6 - hs.length = k + 1 := ⟨5 - hs.length, by omega⟩
          rw [hk]; simp [hd']
        · have : 6 - hs.length = 0 := by omega
          simp [this]
    rw [this, List.append_nil]
  · intro c hc
    exact (isHex_iff c).2 (h c (List.mem_of_mem_take hc))

/-- An escape is read as what it stands for. -/
theorem Escape.read {p next : Text} {n : Nat} (h : Escape p next n) : consumeEscaped (p ++ next) = (n, next) := by
  cases h with
  | char h1 h2 =>
    have : isHex n = false := by
      cases hx : isHex n with
      | false => rfl
      | true => exact absurd ((isHex_iff n).1 hx) h1
    simp [consumeEscaped, this]
  | hex h1 h2 h3 h4 h5 =>
    have ht := takeWhile_take_hex (next := next) h3 h2 (fun d hd => (h4 d hd).2)
    obtain ⟨c, cs, rfl⟩ := List.exists_cons_of_ne_nil h1
    have hc : isHex c = true := (isHex_iff c).2 (h3 c (by simp))
    rw [List.cons_append] at ht ⊢
    unfold consumeEscaped
    simp only [hc, if_true]
    rw [ht, h5.escapeChar]
    have : (c :: (cs ++ next)).drop (c :: cs).length = next := by simp
    rw [this]
    cases next with
    | nil => rfl
    | cons d t =>
      have hd := (h4 d rfl).1
      have hw : isWs d = false := by
        cases hx : isWs d with
        | false => rfl
        | true => exact absurd ((isWs_iff d).1 hx) hd
      simp [dropWs1, hw]
  | @hexSpace hs w _ _ h1 h2 h3 h4 h5 =>
    have hwh : ¬ HexDigit w := by
      unfold Space at h4; unfold HexDigit Verif.Js.Digit; omega
    have ht := takeWhile_take_hex (next := w :: next) h3 h2 (fun d hd _ => by simp at hd; subst hd; exact hwh)
    obtain ⟨c, cs, rfl⟩ := List.exists_cons_of_ne_nil h1
    have hc : isHex c = true := (isHex_iff c).2 (h3 c (by simp))
    rw [List.append_assoc, List.singleton_append, List.cons_append] at *
    unfold consumeEscaped
    simp only [hc, if_true]
    rw [ht, h5.escapeChar]
    have : (c :: (cs ++ w :: next)).drop (c :: cs).length = w :: next := by simp
    rw [this]
    simp [dropWs1, (isWs_iff w).2 h4]

/-- More text behind an escape. -/
theorem Escape.extend {p b x : Text} {n : Nat} (h : Escape p b n)
    (hx : ∀ d, x.head? = some d → ¬ Space d ∧ ¬ HexDigit d) : Escape p (b ++ x) n := by
  cases h with
  | char h1 h2 => exact .char h1 h2
  | hex h1 h2 h3 h4 h5 =>
    refine .hex h1 h2 h3 ?_ h5
    intro d hd
    cases b with
    | nil => exact ⟨(hx d (by simpa using hd)).1, fun _ => (hx d (by simpa using hd)).2⟩
    | cons => apply h4; simpa using hd
  | hexSpace h1 h2 h3 h4 h5 => exact .hexSpace h1 h2 h3 h4 h5

theorem stringLoop_read {q : Nat} (hq : q = 34 ∨ q = 39) {b v : Text} (h : StrValue q b v) :
    ∀ (fuel : Nat) (res rest : Text), b.length < fuel →
      stringLoop q fuel res (b ++ q :: rest) = (.str (res ++ v), rest) := by
  have hqs : ∀ rest : Text, ∀ d, (q :: rest).head? = some d → ¬ Space d ∧ ¬ HexDigit d := by
    intro rest d hd
    simp at hd; subst hd
    unfold Space HexDigit Verif.Js.Digit; omega
  induction h with
  | nil =>
    intro fuel res rest hl
    cases fuel with
    | zero => simp at hl
    | succ fuel => simp [stringLoop]
  | char h1 h2 h3 _ ih =>
    intro fuel res rest hl
    cases fuel with
    | zero => omega
    | succ fuel =>
      simp only [List.cons_append, stringLoop, h1, h2, h3, if_false]
      rw [ih _ _ _ (by simp at hl; omega)]; simp
  | continuation _ ih =>
    intro fuel res rest hl
    cases fuel with
    | zero => omega
    | succ fuel =>
      have : ¬ (92 = q) := by omega
      simp only [List.cons_append, stringLoop, this, if_false, if_true]
      rw [if_neg (by omega), ih _ _ _ (by simp at hl; omega)]
  | @escape p b n v he _ ih =>
    intro fuel res rest hl
    cases fuel with
    | zero => omega
    | succ fuel =>
      have h92 : ¬ (92 = q) := by omega
      have hr := (he.extend (hqs rest)).read
      obtain ⟨d, t, hdt, hd10⟩ : ∃ d t, p = d :: t ∧ d ≠ 10 := by
        cases he with
        | char _ h => exact ⟨_, [], rfl, h⟩
        | hex h1 _ h3 =>
          obtain ⟨c, cs, rfl⟩ := List.exists_cons_of_ne_nil h1
          refine ⟨c, cs, rfl, ?_⟩
          have := h3 c (by simp); unfold HexDigit Verif.Js.Digit at this; omega
        | hexSpace h1 _ h3 =>
          obtain ⟨c, cs, rfl⟩ := List.exists_cons_of_ne_nil h1
          refine ⟨c, _, rfl, ?_⟩
          have := h3 c (by simp); unfold HexDigit Verif.Js.Digit at this; omega
      subst hdt
      have hshape : (92 :: (d :: t ++ b)) ++ q :: rest = 92 :: d :: (t ++ (b ++ q :: rest)) := by simp
      have hr' : consumeEscaped (d :: (t ++ (b ++ q :: rest))) = (n, b ++ q :: rest) := by simpa using hr
      rw [hshape]
      simp only [stringLoop, h92, if_false, if_true, hd10, hr']
      rw [if_neg (by omega), ih _ _ _ (by simp at hl; omega)]; simp

/-- **C28, CSS, in part**: reading a written string gives the string back and stops behind it. -/
theorem C28_css_round_trip_partial (U : Uni) (v rest : Text) (h : WritableStr v) :
    ∃ c cs, serializeStringAuto v ++ rest = c :: cs ∧ step U c cs = .ok (.str v, rest) := by
  rw [serializeStringAuto_eq]
  have hq := autoQuote_cases v
  refine ⟨autoQuote v, bodyOf (autoQuote v) v ++ (autoQuote v :: rest), by simp, ?_⟩
  generalize autoQuote v = q at *
  have hb := stringLoop_read hq (written_value hq v h)
    ((bodyOf q v ++ q :: rest).length + 1) [] rest (by simp; omega)
  unfold step
  dsimp only
  have h1 : ¬ ((q :: (bodyOf q v ++ q :: rest)).take 2 = [47, 42]) := by
    intro h
    cases hx : bodyOf q v ++ q :: rest with
    | nil => rw [hx] at h; simp at h
    | cons => rw [hx] at h; simp at h; omega
  have h2 : ¬ (isWs q = true) := by rcases hq with rfl | rfl <;> decide
  rw [if_neg h1, if_neg h2, if_pos hq, hb]
  simp

/-- A check which implies `WritableStr`. -/
def writable : Text → Bool
  | [] => true
  | c :: v => (c != 0 && !(8 ≤ c && c ≤ 13) && !(0xD800 ≤ c && c ≤ 0xDFFF) && c ≤ 0x10FFFF) &&
    (match v with
      | [] => true
      | d :: _ => !(c < 32 || 127 ≤ c) || (!isHex d && d != 32)) && writable v

theorem writable_spec : ∀ (v : Text), writable v = true → WritableStr v := by
  intro v
  induction v with
  | nil => intro _; exact ⟨by simp, by intro pre c d post h; simp at h⟩
  | cons c v ih =>
    intro h
    simp only [writable, Bool.and_eq_true] at h
    obtain ⟨⟨h1, h2⟩, h3⟩ := h
    have hv := ih h3
    refine ⟨?_, ?_⟩
    · intro x hx
      rcases List.mem_cons.1 hx with rfl | hx
      · simp at h1; omega
      · exact hv.1 x hx
    · intro pre x d post he hx
      cases pre with
      | nil =>
        simp only [List.nil_append, List.cons.injEq] at he
        obtain ⟨rfl, rfl⟩ := he
        simp only at h2
        simp at h2
        rcases h2 with h2 | h2
        · omega
        · exact ⟨fun hh => by rw [(isHex_iff d).2 hh] at h2; simp at h2, h2.2⟩
      | cons y pre =>
        simp only [List.cons_append, List.cons.injEq] at he
        exact hv.2 pre x d post he.2 hx

/-- A string with both quotes, a backslash and characters beyond ASCII can be written. -/
theorem C28_css_round_trip_partial_case : WritableStr (txt "it's a \"(quote)\" →; \\ü") :=
  writable_spec _ (by decide +kernel)

/-- A Python without unusual digits; the texts of floats are kept. -/
def plainU : Uni := ⟨fun _ => false, fun _ => none, id⟩

/-- **C28 is false for CSS**: a tab is written `\t`, which CSS reads as the letter t. -/
theorem C28_css_false : serializeStringAuto [9] = txt "\"\\t\"" ∧
    step plainU 34 (txt "\\t\"") = .ok (.str (txt "t"), []) := by decide +kernel

/-- **C28 is false for CSS**: behind a hexadecimal escape a digit or letter of the string is read as part
of the escape. -/
theorem C28_css_false_hex : serializeStringAuto (txt "éa") = txt "\"\\e9a\"" ∧
    step plainU 34 (txt "\\e9a\"") = .ok (.str [0xe9a], []) := by decide +kernel

/-! ## Counterexamples to C30 -/

/-- **C30 is false**: a stylesheet which ends with `#` raises an exception. -/
theorem C30_false_hash (U : Uni) : tokenize U (txt "a #") = .error .hashAtEnd := rfl
/-- **C30 is false**: a stylesheet which ends with `@` raises an exception. -/
theorem C30_false_at (U : Uni) : tokenize U (txt "a{} @") = .error .atAtEnd := rfl
/-- **C30 is false**: a stylesheet which ends with a number raises an exception. -/
theorem C30_false_number (U : Uni) : tokenize U (txt "a{width:10") = .error .numberAtEnd := rfl
/-- **C30 is false**: a stylesheet with an unfinished url raises an exception. -/
theorem C30_false_url (U : Uni) : tokenize U (txt "a{b:url(x'y}") = .error .badUrlAtEnd := rfl
/-- **C30 is false**: a superscript digit raises an exception. -/
theorem C30_false_digit (U : Uni) (h : U.digit 178 = true) (h2 : U.val 178 = none) :
    tokenize U (txt "a{width:²;}") = .error .badNumber := by
  have e : txt "a{width:²;}" = [97, 123, 119, 105, 100, 116, 104, 58, 178, 59, 125] := by decide +kernel
  have hs : step U 178 [59, 125] = .error .badNumber := by
    have hd : isDigit U 178 = true := by simp [isDigit, h]
    have hn : consumeNumber U [178, 59, 125] = .error .badNumber := by
      have h59 : isDigit U 59 = false := rfl
      have h125 : isDigit U 125 = false := rfl
      simp [consumeNumber, hd, h59, consumeExponent, toInt, digitsVal, digitVal, h2]
    unfold step
    simp [hd, isWs, consumeNumeric, hn]
  have h0 : tokenize U (txt "a{width:²;}") = tokenLoop U 11 (txt "a{width:²;}") := by rw [e]; rfl
  have k1 : step U 97 [123, 119, 105, 100, 116, 104, 58, 178, 59, 125] =
    .ok (.ident [97], [123, 119, 105, 100, 116, 104, 58, 178, 59, 125]) := rfl
  have k2 : step U 123 [119, 105, 100, 116, 104, 58, 178, 59, 125] =
    .ok (.leftCurly, [119, 105, 100, 116, 104, 58, 178, 59, 125]) := rfl
  have k3 : step U 119 [105, 100, 116, 104, 58, 178, 59, 125] =
    .ok (.ident [119, 105, 100, 116, 104], [58, 178, 59, 125]) := rfl
  have k4 : step U 58 [178, 59, 125] = .ok (.colon, [178, 59, 125]) := rfl
  rw [h0, e]
  simp only [tokenLoop, k1, k2, k3, k4, hs]

/-- A text without backslashes which ends in `)` and no `(` has a `)` behind every `(`. -/
theorem closes_of {a tail : Text} (h : 40 ∉ tail) (h92 : 92 ∉ a) :
    ∀ pre post, a ++ 41 :: tail = pre ++ 40 :: post → HasClose post := by
  intro pre post he
  rw [List.append_eq_append_iff] at he
  rcases he with ⟨c, h1, h2⟩ | ⟨c, h1, h2⟩
  · exfalso
    have : 40 ∈ 41 :: tail := by rw [h2]; simp
    simp at this; exact h this
  · cases c with
    | nil => simp at h2
    | cons x c =>
      simp only [List.cons_append, List.cons.injEq] at h2
      refine ⟨c, tail, h2.2, ?_⟩
      intro hl
      exact h92 (by rw [h1]; simp [List.mem_of_getLast? hl])

/-- A stylesheet which meets the hypotheses of `C30_total_partial`, and its tokens. -/
theorem C30_total_partial_case :
    let text := txt "@media (min-width:10px){a{b:url(x)}}"
    (∀ c, text.getLast? = some c → c ≠ 35 ∧ c ≠ 64 ∧ ¬ Dig plainU c) ∧
    (∀ pre post, text = pre ++ 40 :: post → HasClose post) ∧ (∀ c ∈ text, Dig plainU c → c ≤ 57) ∧
    ∃ ts, tokenize plainU text = .ok (ts ++ [.eof]) ∧ ts.length = 15 ∧ serializeMany plainU ts = text := by
  refine ⟨?_, ?_, ?_, ?_⟩
  · have : (txt "@media (min-width:10px){a{b:url(x)}}").getLast? = some 125 := by decide +kernel
    rw [this]
    intro c hc; simp at hc; subst hc; simp [Dig]
  · have : txt "@media (min-width:10px){a{b:url(x)}}" = txt "@media (min-width:10px){a{b:url(x" ++ 41 :: txt "}}" := by
      decide +kernel
    rw [this]
    exact closes_of (by decide +kernel) (by decide +kernel)
  · have : ∀ c ∈ txt "@media (min-width:10px){a{b:url(x)}}", c < 128 := by decide +kernel
    intro c hc hd
    have := this c hc
    unfold Dig at hd; omega
  · refine ⟨[.atKeyword (txt "media"), .whitespace (txt " "), .leftParens, .ident (txt "min-width"), .colon,
      .dimension (.int 10) true (txt "px"), .rightParens, .leftCurly, .ident (txt "a"), .leftCurly, .ident (txt "b"), .colon,
      .url (txt "x"), .rightCurly, .rightCurly], ?_⟩
    decide +kernel

/-! ## Counterexamples to C31 -/

/-- Tokenise and write. -/
def rewrite (U : Uni) (s : Text) : Option Text :=
  match tokenize U s with
  | .ok ts => some (serializeMany U ts)
  | .error _ => none

/-- **C31 is false**: the sign of the second number is dropped, and the selector means something else. -/
theorem C31_false_sign (U : Uni) : rewrite U (txt "a:nth-child(2n+1){}") = some (txt "a:nth-child(2n1){}") := by
  rfl
/-- **C31 is false**: escapes in names are replaced and not written again. -/
theorem C31_false_name (U : Uni) : rewrite U (txt ".sm\\:a{}") = some (txt ".sm:a{}") := by rfl
/-- **C31 is false**: the closing bracket in a url is not escaped again. -/
theorem C31_false_url (U : Uni) : rewrite U (txt "a{b:url(x\\)y)}") = some (txt "a{b:url(x)y)}") := by rfl
/-- **C31 is false**: the text of an unfinished comment is dropped. -/
theorem C31_false_comment (U : Uni) : rewrite U (txt "a{}/* b") = some (txt "a{}/") := by rfl
/-- **C31 is false**: a tab in a string becomes the letter t. -/
theorem C31_false_string (U : Uni) : rewrite U (txt "a{b:'\t'}") = some (txt "a{b:\"\\t\"}") := by rfl
/-- **C31 is false**: a string which is not closed in its line is dropped. -/
theorem C31_false_bad_string (U : Uni) : rewrite U (txt "a{b:'xyz\n}") = some (txt "a{b:\"\n\n}") := by rfl

/-! ## Texts which are kept -/

theorem NameValue.no_escape {U : Uni} {next p v : Text} (h : NameValue U next p v) (h92 : 92 ∉ p) : v = p := by
  induction h with
  | nil => rfl
  | char _ _ ih => rw [ih (fun h => h92 (by simp [h]))]
  | escape => simp at h92

/-- Without backslashes, quotes and digits, with closed comments, and without `url(` (or any other bracket
behind the letter l) a stylesheet is kept as it is. -/
def Plain (text : Text) : Prop :=
  (∀ c ∈ text, c ≠ 34 ∧ c ≠ 39 ∧ c ≠ 92 ∧ ¬ (48 ≤ c ∧ c ≤ 57) ∧ c < 128) ∧
  (∀ pre post, text = pre ++ 47 :: 42 :: post → ¬ NoEnd post) ∧
  (∀ pre l post, text = pre ++ l :: 40 :: post → l ≠ 108 ∧ l ≠ 76)

theorem Plain.suffix {p s : Text} (h : Plain (p ++ s)) : Plain s :=
  ⟨fun c hc => h.1 c (by simp [hc]), fun pre post he => h.2.1 (p ++ pre) post (by rw [he]; simp),
   fun pre l post he => h.2.2 (p ++ pre) l post (by rw [he]; simp)⟩

theorem Renders.plain {U : Uni} {p next o : Text} (h : Renders U p next o) (hp : Plain (p ++ next)) : o = p := by
  have hdig : ∀ c ∈ p, ¬ Dig U c := by
    intro c hc hd
    have := hp.1 c (by simp [hc])
    unfold Dig at hd; omega
  have hnum : ∀ {p' next' o'}, Number U p' next' o' → (∀ c ∈ p', c ∈ p) → False := by
    intro p' next' o' hn hsub
    cases hn with
    | int _ h2 =>
      obtain ⟨c, cs, rfl⟩ := List.exists_cons_of_ne_nil h2.1
      exact hdig c (hsub c (by simp)) (h2.2 c (by simp))
    | float _ h2 h3 _ h5 =>
      rcases h5 with h5 | h5
      · obtain ⟨c, cs, rfl⟩ := List.exists_cons_of_ne_nil h5
        exact hdig c (hsub c (by simp)) (h2 c (by simp))
      · rcases h3 with h3 | ⟨fs, rfl, h3⟩
        · exact absurd h3 h5
        · obtain ⟨c, cs, rfl⟩ := List.exists_cons_of_ne_nil h3.1
          exact hdig c (hsub c (by simp)) (h3.2 c (by simp))
  have h92 : 92 ∉ p := fun h => (hp.1 92 (by simp [h])).2.2.1 rfl
  have hurl : ∀ {q w rest post' : Text}, NameValue U rest q w → UrlName w → (∀ c ∈ q, c ∈ p) →
      p ++ next = q ++ 40 :: post' → False := by
    intro q w rest post' hq hw hsub he
    have := hq.no_escape (fun h => h92 (hsub _ h))
    subst this
    obtain ⟨u, r, l, rfl, -, -, hl⟩ := hw
    have := hp.2.2 [u, r] l post' (by rw [he]; simp)
    omega
  cases h with
  | space => rfl
  | comment => rfl
  | openComment hv => exact absurd hv (hp.2.1 [] _ (by simp))
  | delim => rfl
  | marker => rfl
  | prefixed _ _ h => rw [h.no_escape (fun h => h92 (by simp [h]))]
  | name _ _ _ h => rw [h.no_escape h92]
  | function _ _ _ h => rw [h.no_escape (fun h => h92 (by simp [h]))]
  | number h => exact (hnum h (fun _ h => h)).elim
  | percentage h => exact (hnum h (fun _ h => by simp [h])).elim
  | dimension h => exact (hnum h (fun _ h => by simp [h])).elim
  | @string q _ _ _ _ _ hq => have := hp.1 q (by simp); omega
  | @openString q _ _ _ _ _ hq => have := hp.1 q (by simp); omega
  | @badString q _ _ _ hq => have := hp.1 q (by simp); omega
  | url h1 h2 => exact (hurl h1 h2 (fun _ h => by simp [h]) (by simp; rfl)).elim
  | openUrl h1 h2 => exact (hurl h1 h2 (fun _ h => by simp [h]) (by simp; rfl)).elim
  | emptyUrl h1 h2 => exact (hurl h1 h2 (fun _ h => by simp [h]) (by simp; rfl)).elim
  | badUrl h1 h2 => exact (hurl h1 h2 (fun _ h => by simp [h]) (by simp; rfl)).elim
  | quotedUrl h1 h2 => exact (hurl h1 h2 (fun _ h => by simp [h]) (by simp; rfl)).elim

theorem Rewrites.plain {U : Uni} {text out : Text} (h : Rewrites U text out) (hp : Plain text) : out = text := by
  induction h with
  | nil => rfl
  | cons _ h2 _ ih => rw [h2.plain hp, ih hp.suffix]

/-- A check of all ends of a text. -/
def allEnds (f : Text → Bool) : Text → Bool
  | [] => f []
  | c :: s => f (c :: s) && allEnds f s

theorem allEnds_spec {f : Text → Bool} {pre s : Text} (h : allEnds f (pre ++ s) = true) : f s = true := by
  induction pre with
  | nil => cases s with
    | nil => exact h
    | cons c s => simp only [List.nil_append, allEnds, Bool.and_eq_true] at h; exact h.1
  | cons c pre ih => simp only [List.cons_append, allEnds, Bool.and_eq_true] at h; exact ih h.2

/-- A plain stylesheet. -/
theorem C31_plain_partial_case : Plain (txt "a:hover{color:rgb(x,y)}/* c */\n") := by
  refine ⟨by decide +kernel, ?_, ?_⟩
  · intro pre post h hn
    have := allEnds_spec (f := fun s => !(s.take 2 == [47, 42]) || (s.drop 5).take 2 == [42, 47]) (pre := pre)
      (s := 47 :: 42 :: post) (by rw [← h]; decide +kernel)
    simp only [List.take_succ_cons, List.take_zero, BEq.rfl, Bool.not_true, Bool.false_or, List.drop_succ_cons, beq_iff_eq] at this
    refine hn (post.take 3) (post.drop 5) ?_
    have h2 := List.take_append_drop 2 (post.drop 3)
    rw [this, List.drop_drop] at h2
    conv => lhs; rw [← List.take_append_drop 3 post, ← h2]
    rfl
  · intro pre l post h
    have := allEnds_spec (f := fun s => !((s.drop 1).head? == some 40) || (s.head? != some 108 && s.head? != some 76))
      (pre := pre) (s := l :: 40 :: post) (by rw [← h]; decide +kernel)
    simpa using this

/-- **C31, in part**: a plain stylesheet is kept, character by character. -/
theorem C31_plain_partial (U : Uni) (text : Text) (ts : List Tok) (hp : Plain text) (h : tokenize U text = .ok ts) :
    serializeMany U ts = text := (C31_rewrites_partial U text ts h).plain hp

end Verif.Css
