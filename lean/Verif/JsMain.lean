import Verif.JsRewrite
/-! # JavaScript rewriting: C26, C28 -/
namespace Verif.Js
open Verif.Reader (Text txt)

theorem escapeTails_skip (hs b : Text) (h : ∀ x ∈ hs, x ≠ 92) : escapeTails (hs ++ b) = escapeTails b := by
  induction hs with
  | nil => rfl
  | cons x hs ih =>
    rw [List.cons_append, escapeTails]
    · exact ih (fun y hy => h y (by simp [hy]))
    · intro e b' he; exact absurd he (h x (by simp))

theorem strBody_append_skip {q : Nat} {hs b : Text} (h : ∀ x ∈ hs, x ≠ 92 ∧ x ≠ q ∧ ¬ LineEnd x) (hb : StrBody q b) :
    StrBody q (hs ++ b) := by
  induction hs with
  | nil => exact hb
  | cons x hs ih =>
    obtain ⟨h1, h2, h3⟩ := h x (by simp)
    exact StrBody.char h2 h1 h3 (ih (fun y hy => h y (by simp [hy])))

theorem hex_plain {h q : Nat} (hq : q = 34 ∨ q = 39) (hh : HexDigit h) : h ≠ 92 ∧ h ≠ q ∧ ¬ LineEnd h := by
  unfold HexDigit Digit at hh
  unfold LineEnd
  omega

/-- Line terminators occur in the text of a literal only as escapes. -/
theorem strBody_lineEnds {q : Nat} {b : Text} (h : StrBody q b) (hs : SupportedEscapes b) : ∀ c ∈ b, ¬ LineEnd c := by
  induction h with
  | nil => simp
  | @char c b h1 h2 h3 _ ih =>
    intro d hd
    rcases List.mem_cons.1 hd with rfl | hd
    · exact h3
    · refine ih ?_ d hd
      intro t ht
      apply hs t
      rw [escapeTails]
      · exact ht
      · intro e b' he; exact absurd he h2
  | @esc c b _ ih =>
    intro d hd
    rcases List.mem_cons.1 hd with rfl | hd
    · unfold LineEnd; omega
    · rcases List.mem_cons.1 hd with rfl | hd
      · exact (hs (d :: b) (by rw [escapeTails]; simp)).2.1 d rfl
      · exact ih (fun t ht => hs t (by rw [escapeTails]; simp [ht])) d hd

theorem stringLoop_spec {q : Nat} (hq : q = 34 ∨ q = 39) : ∀ (fuel : Nat) (res s : Text), s.length < fuel →
    (∃ b w rest, stringLoop q fuel res s = some (.str (res ++ w), rest) ∧ s = b ++ q :: rest ∧ StrBody q b) ∨
    (∃ b w rest, stringLoop q fuel res s = some (.invalid (q :: (res ++ w)), rest) ∧ s = b ++ rest ∧
      (StrBody q b ∨ ∃ b', b = b' ++ [92] ∧ StrBody q b') ∧ AtLineEnd rest ∧ (92 ∉ b → w = b)) := by
  intro fuel
  induction fuel with
  | zero => intro res s h; omega
  | succ fuel ih =>
    intro res s hf
    unfold stringLoop
    split
    · exact Or.inr ⟨[], [], [], by simp, rfl, Or.inl StrBody.nil, by simp [AtLineEnd], fun _ => rfl⟩
    · next c cs =>
      simp only [List.length_cons] at hf
      split
      · next hn =>
        refine Or.inr ⟨[], [], c :: cs, by simp, rfl, Or.inl StrBody.nil, ?_, fun _ => rfl⟩
        intro d hd; simp at hd; subst hd; exact (isNewline_iff c).1 hn
      · next hn =>
        have hn' : ¬ LineEnd c := by rw [← isNewline_iff]; exact hn
        split
        · next hc =>
          subst hc
          exact Or.inl ⟨[], [], cs, by simp, rfl, StrBody.nil⟩
        · next hc =>
          have combine : ∀ (e cs' : Text) (x : Nat), (c :: cs) = e ++ cs' → cs'.length < fuel →
              (∀ b, StrBody q b → StrBody q (e ++ b)) → (92 ∈ e ∨ e = [x]) →
              (∃ b w rest, stringLoop q fuel (res ++ [x]) cs' = some (.str (res ++ w), rest) ∧ c :: cs = b ++ q :: rest ∧ StrBody q b) ∨
              (∃ b w rest, stringLoop q fuel (res ++ [x]) cs' = some (.invalid (q :: (res ++ w)), rest) ∧ c :: cs = b ++ rest ∧
                (StrBody q b ∨ ∃ b', b = b' ++ [92] ∧ StrBody q b') ∧ AtLineEnd rest ∧ (92 ∉ b → w = b)) := by
            intro e cs' x hcs hl hb he
            rcases ih (res ++ [x]) cs' hl with ⟨b, w, rest, h1, h2, h3⟩ | ⟨b, w, rest, h1, h2, h3, h4, h5⟩
            · exact Or.inl ⟨e ++ b, x :: w, rest, by rw [h1]; simp, by rw [hcs, h2]; simp, hb b h3⟩
            · refine Or.inr ⟨e ++ b, x :: w, rest, by rw [h1]; simp, by rw [hcs, h2]; simp, ?_, h4, ?_⟩
              · rcases h3 with h3 | ⟨b', h3, h6⟩
                · exact Or.inl (hb b h3)
                · exact Or.inr ⟨e ++ b', by rw [h3]; simp, hb b' h6⟩
              · intro hm
                simp only [List.mem_append, not_or] at hm
                rcases he with he | he
                · exact absurd he hm.1
                · rw [h5 hm.2, he]; rfl
          split
          · next hbs =>
            subst hbs
            split
            · next hu =>
              obtain ⟨hs, rest, h1, h2, h3⟩ := unicode_ok cs hu
              rw [h2]
              dsimp only
              have hl := consumeUnicode_length hu h2
              rcases h3 with ⟨h3, h4⟩ | ⟨h3, h4, h5⟩
              · refine combine (92 :: 117 :: hs) rest (hexNum hs) (by rw [h3]; simp) (by omega) ?_ (Or.inl (by simp))
                intro b hb
                exact StrBody.esc (strBody_append_skip (fun x hx => hex_plain hq (h1 x hx)) hb)
              · refine combine (92 :: 117 :: 123 :: (hs ++ [125])) rest (hexNum hs) (by rw [h3]; simp) (by omega) ?_ (Or.inl (by simp))
                intro b hb
                refine StrBody.esc (StrBody.char (by omega) (by decide) (by unfold LineEnd; omega) ?_)
                show StrBody q ((hs ++ [125]) ++ b)
                rw [List.append_assoc]
                exact strBody_append_skip (fun x hx => hex_plain hq (h1 x hx))
                  (StrBody.char (by omega) (by decide) (by unfold LineEnd; omega) hb)
            · split
              · exact Or.inr ⟨[92], [92], [], by simp, rfl, Or.inr ⟨[], rfl, StrBody.nil⟩, by simp [AtLineEnd], by simp⟩
              · next e rest _ =>
                exact combine [92, e] rest (unescape e) rfl (by simp at hf; omega) (fun b hb => StrBody.esc hb) (Or.inl (by simp))
          · next hbs =>
            exact combine [c] cs c rfl (by omega) (fun b hb => StrBody.char hc hbs hn' hb) (Or.inr rfl)

/-- The text written for a writable value has the form of a literal. -/
theorem bodyOf_strBody {q : Nat} : ∀ (v : Text), WritableValue v → StrBody q (bodyOf q v) := by
  intro v
  induction v with
  | nil => intro _; exact StrBody.nil
  | cons c v ih =>
    intro h
    have hv : WritableValue v := ⟨fun c hc => h.1 c (by simp [hc]), fun pre d post he => h.2 (c :: pre) d post (by rw [he]; rfl)⟩
    have hb := ih hv
    have hc := h.1 c (by simp)
    show StrBody q (serializeChar (some q) [92] c ++ bodyOf q v)
    unfold serializeChar
    split
    · exact StrBody.esc hb
    · next hs =>
      simp only [List.mem_cons, List.not_mem_nil, or_false, not_or, Option.some.injEq] at hs
      split
      · exact StrBody.esc hb
      · next hn =>
        split
        · next hx =>
          exfalso
          have : c = 8 ∨ c = 9 ∨ c = 10 ∨ c = 11 ∨ c = 12 ∨ c = 13 ∨ c = 0 := by omega
          rcases this with rfl | rfl | rfl | rfl | rfl | rfl | rfl <;> simp [specialEscape] at hn
        · next hx =>
          refine StrBody.char hs.1 hs.2 ?_ hb
          unfold LineEnd
          rintro (rfl | rfl | rfl)
          · simp [specialEscape] at hn
          · omega
          · omega

/-! ## Identifiers -/

theorem ident_char_ordinary {c : Nat} (h : idStart c = true ∨ c = 36 ∨ c = 0x200C ∨ c = 0x200D ∨ idContinue c = true) :
    c ≠ 92 ∧ Ordinary c := by
  unfold Ordinary
  rcases Nat.lt_or_ge c 128 with hl | hl
  · rcases h with h | h | h | h | h
    · have := ascii_idStart c hl h; omega
    · omega
    · omega
    · omega
    · have := ascii_idContinue c hl h; omega
  · omega

theorem identLoop_spec : ∀ (fuel : Nat) (res s : Text), s.length < fuel →
    ∃ p v rest, identLoop fuel res s = some (res ++ v, rest) ∧ s = p ++ rest ∧ IdentValue p v := by
  intro fuel
  induction fuel with
  | zero => intro res s h; omega
  | succ fuel ih =>
    intro res s hf
    unfold identLoop
    split
    · exact ⟨[], [], [], by simp, rfl, IdentValue.nil⟩
    · next c cs =>
      simp only [List.length_cons] at hf
      split
      · next hu =>
        obtain ⟨rfl, hu⟩ := hu
        obtain ⟨hs, rest, h1, h2, h3⟩ := unicode_ok cs hu
        rw [h2]
        dsimp only
        have hl := consumeUnicode_length hu h2
        obtain ⟨p, v, r, g1, g2, g3⟩ := ih (res ++ [hexNum hs]) rest (by omega)
        rcases h3 with ⟨h3, h4⟩ | ⟨h3, h4, h5⟩
        · exact ⟨92 :: 117 :: (hs ++ p), hexNum hs :: v, r, by rw [g1]; simp, by rw [h3, g2]; simp, IdentValue.u4 h4 h1 g3⟩
        · exact ⟨92 :: 117 :: 123 :: (hs ++ 125 :: p), hexNum hs :: v, r, by rw [g1]; simp, by rw [h3, g2]; simp,
            IdentValue.ubrace h4 h1 h5 g3⟩
      · split
        · next hc =>
          obtain ⟨p, v, r, g1, g2, g3⟩ := ih (res ++ [c]) cs (by omega)
          obtain ⟨k1, k2⟩ := ident_char_ordinary (Or.inl hc.2)
          exact ⟨c :: p, c :: v, r, by rw [g1]; simp, by rw [g2]; simp, IdentValue.char k1 k2 g3⟩
        · split
          · next hc =>
            obtain ⟨p, v, r, g1, g2, g3⟩ := ih (res ++ [c]) cs (by omega)
            obtain ⟨k1, k2⟩ := ident_char_ordinary (Or.inr hc.2)
            exact ⟨c :: p, c :: v, r, by rw [g1]; simp, by rw [g2]; simp, IdentValue.char k1 k2 g3⟩
          · exact ⟨[], [], c :: cs, by simp, rfl, IdentValue.nil⟩

theorem serialize_identTok (v : Text) : serialize (identTok v) = v := by
  unfold identTok
  split
  · next h => rw [h]; rfl
  · split
    · next h => rw [h]; rfl
    · split
      · next h => rw [h]; rfl
      · rfl

/-! ## Regular expressions -/

theorem takeWhile_all (f : Nat → Bool) : ∀ (l : Text), ∀ c ∈ l.takeWhile f, f c = true := by
  intro l
  induction l with
  | nil => simp
  | cons x l ih =>
    intro c hc
    rw [List.takeWhile_cons] at hc
    split at hc
    · next h =>
      rcases List.mem_cons.1 hc with rfl | hc
      · exact h
      · exact ih c hc
    · simp at hc

theorem dropWhile_head (f : Nat → Bool) : ∀ (l : Text) (c : Nat), (l.dropWhile f).head? = some c → f c = false := by
  intro l
  induction l with
  | nil => simp
  | cons x l ih =>
    intro c hc
    rw [List.dropWhile_cons] at hc
    split at hc
    · exact ih c hc
    · next h => simp at hc; subst hc; simpa using h

theorem regexLoop_spec : ∀ (fuel group : Nat) (res s : Text), s.length < fuel →
    (∃ v f rest, regexLoop fuel group res s = (.regex (res ++ v) f, rest) ∧ s = v ++ 47 :: f ++ rest ∧
      (∀ c ∈ v, ¬ LineEnd c) ∧ (∀ c ∈ f, 97 ≤ c ∧ c ≤ 122) ∧ (group = 0 → v.head? ≠ some 47)) ∨
    (∃ v rest, regexLoop fuel group res s = (.invalid (47 :: (res ++ v)), rest) ∧ s = v ++ rest ∧
      (∀ c ∈ v, ¬ LineEnd c) ∧ AtLineEnd rest ∧ (group = 0 → v.head? ≠ some 47)) := by
  intro fuel
  induction fuel with
  | zero => intro group res s h; omega
  | succ fuel ih =>
    intro group res s hf
    unfold regexLoop
    split
    · exact Or.inr ⟨[], [], by simp, rfl, by simp, by simp [AtLineEnd], by simp⟩
    · next c cs =>
      simp only [List.length_cons] at hf
      split
      · next hn =>
        refine Or.inr ⟨[], c :: cs, by simp, rfl, by simp, ?_, by simp⟩
        intro d hd; simp at hd; subst hd; exact (isNewline_iff c).1 hn
      · next hn =>
        have hn' : ¬ LineEnd c := by rw [← isNewline_iff]; exact hn
        split
        · next hc =>
          obtain ⟨hg, rfl⟩ := hc
          refine Or.inl ⟨[], cs.takeWhile isFlag, cs.dropWhile isFlag, by simp, by simp, by simp, ?_, by simp⟩
          intro c hc
          have := takeWhile_all isFlag cs c hc
          simp [isFlag] at this
          omega
        · next hc =>
          have combine : ∀ (g : Nat) (e cs' : Text), (c :: cs) = e ++ cs' → cs'.length < fuel → e.head? = some c →
              (∀ x ∈ e, ¬ LineEnd x) →
              (∃ v f rest, regexLoop fuel g (res ++ e) cs' = (.regex (res ++ v) f, rest) ∧ c :: cs = v ++ 47 :: f ++ rest ∧
                (∀ c ∈ v, ¬ LineEnd c) ∧ (∀ c ∈ f, 97 ≤ c ∧ c ≤ 122) ∧ (group = 0 → v.head? ≠ some 47)) ∨
              (∃ v rest, regexLoop fuel g (res ++ e) cs' = (.invalid (47 :: (res ++ v)), rest) ∧ c :: cs = v ++ rest ∧
                (∀ c ∈ v, ¬ LineEnd c) ∧ AtLineEnd rest ∧ (group = 0 → v.head? ≠ some 47)) := by
            intro g e cs' hcs hl he1 he
            have head : ∀ v : Text, group = 0 → (e ++ v).head? ≠ some 47 := by
              intro v hg
              rw [List.head?_append, he1]
              simp only [Option.some_or, ne_eq, Option.some.injEq]
              intro h47; exact hc ⟨hg, h47⟩
            rcases ih g (res ++ e) cs' hl with ⟨v, f, rest, h1, h2, h3, h4, _⟩ | ⟨v, rest, h1, h2, h3, h4, _⟩
            · refine Or.inl ⟨e ++ v, f, rest, by rw [h1]; simp, by rw [hcs, h2]; simp, ?_, h4, head v⟩
              intro x hx
              rcases List.mem_append.1 hx with hx | hx
              · exact he x hx
              · exact h3 x hx
            · refine Or.inr ⟨e ++ v, rest, by rw [h1]; simp, by rw [hcs, h2]; simp, ?_, h4, head v⟩
              intro x hx
              rcases List.mem_append.1 hx with hx | hx
              · exact he x hx
              · exact h3 x hx
          split
          · next hbs =>
            obtain ⟨rfl, hbs⟩ := hbs
            cases cs with
            | nil => cases hbs
            | cons d ds =>
              simp at hbs; subst hbs
              exact combine group [92, 47] ds rfl (by simp at hf; omega) rfl (by
                intro x hx
                simp at hx
                unfold LineEnd
                omega)
          · exact combine _ [c] cs rfl (by omega) rfl (by simpa using hn')

/-! ## One token -/

theorem punctuation_spec (c : Nat) (cs : Text) (hcom : consumeComment (c :: cs) = none) :
    ∃ t p next, punctuation c cs = some (t, next) ∧ c :: cs = p ++ next ∧ p ≠ [] ∧ Renders p next (serialize t) := by
  unfold punctuation
  split
  · next h => exact ⟨_, [c], cs, rfl, rfl, by simp, Renders.lineEnd ((isNewline_iff c).1 h)⟩
  have one : ∀ (t : Tok), Ordinary c → serialize t = [c] →
      ∃ t' p next, some (t, cs) = some (t', next) ∧ c :: cs = p ++ next ∧ p ≠ [] ∧ Renders p next (serialize t') := by
    intro t ho hs
    refine ⟨t, [c], cs, rfl, rfl, by simp, ?_⟩
    rw [hs]
    exact Renders.plain (by simpa using ho)
  split
  · next h => subst h; exact one _ (by unfold Ordinary; omega) rfl
  split
  · next h => subst h; exact one _ (by unfold Ordinary; omega) rfl
  split
  · next h => subst h; exact one _ (by unfold Ordinary; omega) rfl
  split
  · next h => subst h; exact one _ (by unfold Ordinary; omega) rfl
  split
  · next h => subst h; exact one _ (by unfold Ordinary; omega) rfl
  split
  · next h =>
    rcases stringLoop_spec h (cs.length + 1) [] cs (by omega) with ⟨b, w, rest, h1, h2, h3⟩ | ⟨b, w, rest, h1, h2, h3, h4, h5⟩
    · refine ⟨_, c :: b ++ [c], rest, h1, by rw [h2]; simp, by simp, ?_⟩
      show Renders _ _ (serializeStringAuto ([] ++ w))
      rw [serializeStringAuto_eq]
      refine Renders.string h h3 (autoQuote_cases _) ?_
      intro v hv hs hw
      have := stringLoop_value h hv (cs.length + 1) [] rest (strBody_lineEnds h3 hs) hs (by rw [h2]; simp; omega)
      rw [← h2, h1] at this
      simp only [List.nil_append, Option.some.injEq, Prod.mk.injEq, Tok.str.injEq, and_true] at this
      rw [List.nil_append, this]
      exact ⟨bodyOf_strBody v hw, bodyOf_value (autoQuote_cases v) v hw⟩
    · refine ⟨_, c :: b, rest, h1, by rw [h2]; simp, by simp, ?_⟩
      refine Renders.unfinished h h3 h4 ?_
      intro hm
      simp [serialize, h5 hm]
  · next hq =>
    split
    · next h =>
      subst h
      have hc2 : ∀ v tail : Text, cs = v ++ tail → v.head? ≠ some 42 := by
        intro v tail hcs hv
        cases v with
        | nil => cases hv
        | cons x v =>
          simp at hv; subst hv; subst hcs
          unfold consumeComment at hcom
          simp at hcom
      rcases regexLoop_spec (cs.length + 1) 0 [] cs (by omega) with ⟨v, f, rest, h1, h2, h3, h4, h5⟩ | ⟨v, rest, h1, h2, h3, h4, h5⟩
      · refine ⟨.regex v f, [47] ++ v ++ [47] ++ f, rest, by rw [h1]; rfl, by rw [h2]; simp, by simp, ?_⟩
        refine Renders.regex (hc2 v _ (by rw [h2, List.append_assoc])) ?_ h3 h4
        intro hv
        subst hv
        rw [h2] at hcom
        unfold consumeComment at hcom
        simp at hcom
      · refine ⟨.invalid (47 :: v), [47] ++ v, rest, by rw [h1]; rfl, by rw [h2]; simp, by simp, ?_⟩
        exact Renders.slash (hc2 v _ h2) (h5 rfl) h3 h4
    · next h => exact one _ (by unfold Ordinary; omega) rfl

theorem step_spec (c : Nat) (cs : Text) :
    ∃ t p next, step c cs = some (t, next) ∧ c :: cs = p ++ next ∧ p ≠ [] ∧ Renders p next (serialize t) := by
  unfold step
  split
  · next r hr =>
    unfold consumeWhitespace at hr
    split at hr
    · cases hr
    · next hne =>
      cases hr
      refine ⟨_, _, _, rfl, (List.takeWhile_append_dropWhile ..).symm, hne, ?_⟩
      refine Renders.plain ?_
      intro d hd
      have := takeWhile_all _ _ d hd
      unfold Ordinary
      refine ⟨?_, ?_, ?_⟩ <;> rintro rfl <;> simp [isWhitespace] at this
  · split
    · next r hr =>
      unfold consumeComment at hr
      split at hr
      · next h2 =>
        cases hr
        have hsplit : c :: cs = [47, 47] ++ (c :: cs).drop 2 := by rw [← h2, List.take_append_drop]
        refine ⟨_, [47, 47] ++ ((c :: cs).drop 2).takeWhile (!isNewline ·), _, rfl, ?_, by simp, ?_⟩
        · rw [List.append_assoc, List.takeWhile_append_dropWhile]; exact hsplit
        · refine Renders.lineComment ?_ ?_ (cleanComment_noEnd _) (cleanComment_id _)
          · intro d hd
            have := takeWhile_all _ _ d hd
            rw [← isNewline_iff]
            simpa using this
          · intro d hd
            have := dropWhile_head _ _ d hd
            rw [← isNewline_iff]
            simpa using this
      · split at hr
        · next h2 =>
          cases hr
          have hsplit : c :: cs = [47, 42] ++ (c :: cs).drop 2 := by rw [← h2, List.take_append_drop]
          obtain ⟨h3, h4⟩ := multiLine_spec ((c :: cs).drop 2)
          have hser : serialize (.comment (multiLine ((c :: cs).drop 2)).1) =
              [47, 42] ++ (multiLine ((c :: cs).drop 2)).1 ++ [42, 47] := by
            show [47, 42] ++ cleanComment _ ++ [42, 47] = _
            rw [cleanComment_id _ h3]
          rcases h4 with h4 | ⟨h4, h5⟩
          · refine ⟨_, [47, 42] ++ (multiLine ((c :: cs).drop 2)).1 ++ [42, 47], _, rfl, ?_, by simp, ?_⟩
            · conv => lhs; rw [hsplit, h4]
              simp
            · rw [hser]; exact Renders.blockComment h3
          · refine ⟨_, [47, 42] ++ (multiLine ((c :: cs).drop 2)).1, _, rfl, ?_, by simp, ?_⟩
            · rw [h5, List.append_nil, ← h4]; exact hsplit
            · rw [hser, h5]; exact Renders.openComment h3
        · cases hr
    · next hcom =>
      obtain ⟨p, v, rest, h1, h2, h3⟩ := identLoop_spec (cs.length + 2) [] (c :: cs) (by simp)
      rw [h1]
      dsimp only
      split
      · exact punctuation_spec c cs hcom
      · next hv =>
        refine ⟨_, p, rest, rfl, h2, ?_, ?_⟩
        · rintro rfl
          cases h3
          exact hv rfl
        · rw [serialize_identTok]; exact Renders.identifier h3

theorem tokenLoop_spec : ∀ (fuel : Nat) (s : Text), s.length ≤ fuel →
    ∃ ts, tokenLoop fuel s = some (ts ++ [.eof]) ∧ Rewrites s (serializeMany ts) := by
  intro fuel
  induction fuel with
  | zero =>
    intro s h
    have : s = [] := List.length_eq_zero_iff.1 (by omega)
    subst this
    exact ⟨[], rfl, Rewrites.nil⟩
  | succ fuel ih =>
    intro s h
    cases s with
    | nil => exact ⟨[], rfl, Rewrites.nil⟩
    | cons c cs =>
      obtain ⟨t, p, next, h1, h2, h3, h4⟩ := step_spec c cs
      have hl : next.length ≤ fuel := by
        have := congrArg List.length h2
        have hp : 0 < p.length := List.length_pos_iff.2 h3
        simp at this h
        omega
      obtain ⟨ts, h5, h6⟩ := ih next hl
      refine ⟨t :: ts, ?_, ?_⟩
      · simp only [tokenLoop, h1, h5, List.cons_append]
      · rw [h2]
        exact Rewrites.cons h3 h4 h6

/-- **C26, partial.** Tokenising never fails, ends with the end-of-file token, and serialising the tokens
gives the source with only these changes, piece by piece: line comments become block comments with the
same text, string literals are written anew (with the same ECMA-262 value as long as their escapes are
supported and their value is writable), U+2028 and U+2029 become LF, escapes in identifiers become
characters, an unfinished comment is closed, and backslashes behind a quote without partner may be
lost.  All else is kept character by character. -/
theorem C26_rewrites_partial (text : Text) :
    ∃ ts, tokenize text = some (ts ++ [.eof]) ∧ Rewrites text (serializeMany (ts ++ [.eof])) := by
  obtain ⟨ts, h1, h2⟩ := tokenLoop_spec text.length text (Nat.le_refl _)
  refine ⟨ts, h1, ?_⟩
  unfold serializeMany at *
  rw [List.flatMap_append]
  simpa [serialize] using h2

/-- **C26, tokenising is total** on every text. -/
theorem C26_total (text : Text) : ∃ ts, tokenize text = some ts :=
  let ⟨_, h, _⟩ := C26_rewrites_partial text
  ⟨_, h⟩

end Verif.Js
