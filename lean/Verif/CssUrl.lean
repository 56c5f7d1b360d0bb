import Verif.CssLemmas
/-! # Urls, numbers and written values in the CSS tokenizer -/
namespace Verif.Css
open Verif.Reader (Text txt)
open Verif.Js (hexNum HexDigit NoEnd isHex isHex_iff takeWhile_all dropWhile_head bodyOf serializeStringAuto_eq
  autoQuote autoQuote_cases serializeChar serializeString serializeStringAuto specialEscape hexStr)

theorem Escape.no_close {p next : Text} {n : Nat} (h : Escape p next n) :
    ∀ a b, p = a ++ 41 :: b → a = [] ∧ b = [] := by
  have hx : ∀ (hs : Text), (∀ h ∈ hs, HexDigit h) → 41 ∉ hs := by
    intro hs hh hm
    have := hh _ hm
    simp [HexDigit, Verif.Js.Digit] at this
  cases h with
  | char h1 h2 =>
    intro a b h
    cases a with
    | nil => simp at h; simp [h.2]
    | cons => simp at h
  | hex h1 h2 h3 h4 h5 =>
    intro a b h
    exact absurd (by rw [h]; simp) (hx _ h3)
  | hexSpace h1 h2 h3 h4 h5 =>
    intro a b h
    have hm : 41 ∈ a ++ 41 :: b := by simp
    rw [← h] at hm
    simp only [List.mem_append, List.mem_singleton] at hm
    rcases hm with hm | hm
    · exact absurd hm (hx _ h3)
    · subst hm; simp [Space] at h4

/-- A closing bracket behind an escape. -/
theorem HasClose.after_escape {p r : Text} {n : Nat} (he : Escape p r n) (h : HasClose (92 :: (p ++ r))) :
    HasClose r := by
  obtain ⟨a, b, h1, h2⟩ := h
  cases a with
  | nil => simp at h1
  | cons x a =>
    simp only [List.cons_append, List.cons.injEq] at h1
    obtain ⟨rfl, h1⟩ := h1
    rw [List.append_eq_append_iff] at h1
    rcases h1 with ⟨c, h3, h4⟩ | ⟨c, h3, h4⟩
    · refine ⟨c, b, h4, ?_⟩
      subst h3
      intro h5
      apply h2
      cases c with
      | nil => simp at h5
      | cons y c => rw [← List.cons_append, List.getLast?_append, h5]; rfl
    · cases c with
      | nil =>
        simp only [List.nil_append] at h4
        exact ⟨[], b, h4.symm, by simp⟩
      | cons y c =>
        simp only [List.cons_append, List.cons.injEq] at h4
        obtain ⟨rfl, h4⟩ := h4
        have := he.no_close a c h3
        rw [this.1] at h2; simp at h2

theorem HasClose.tail {c : Nat} {cs : Text} (h : HasClose (c :: cs)) (hc : c ≠ 41) : HasClose cs := by
  obtain ⟨a, b, h1, h2⟩ := h
  cases a with
  | nil => simp at h1; exact absurd h1.1 hc
  | cons x a =>
    simp only [List.cons_append, List.cons.injEq] at h1
    obtain ⟨rfl, rfl⟩ := h1
    refine ⟨a, b, rfl, fun h => h2 ?_⟩
    cases a with
    | nil => simp at h
    | cons y a => simpa [List.getLast?_cons_cons] using h

/-- The remnants of a bad url. -/
theorem badUrlLoop_spec : ∀ (fuel : Nat) (s : Text), s.length < fuel → s ≠ [] →
    (badUrlLoop fuel s = .error .badUrlAtEnd ∧ ¬ HasClose s) ∨
    (∃ b r, badUrlLoop fuel s = .ok r ∧ b ≠ [] ∧ s = b ++ r ∧ ¬ HasClose b.dropLast) := by
  intro fuel
  induction fuel with
  | zero => intro s h; omega
  | succ fuel ih =>
    intro s hl hne
    match s with
    | [] => exact absurd rfl hne
    | c :: cs =>
      simp only [List.length_cons] at hl
      simp only [badUrlLoop]
      by_cases h1 : c = 41
      · rw [if_pos h1]
        refine Or.inr ⟨[c], cs, rfl, by simp, rfl, ?_⟩
        rintro ⟨a, b, h, -⟩; simp at h
      · rw [if_neg h1]
        by_cases h2 : cs = []
        · rw [if_pos h2]
          refine Or.inl ⟨rfl, fun h => ?_⟩
          have := h.tail h1
          rw [h2] at this
          obtain ⟨a, b, h, -⟩ := this; simp at h
        · rw [if_neg h2]
          by_cases h3 : isValidEscape (c :: cs.take 1) = true
          · rw [if_pos h3]
            obtain ⟨d, t, h4, h5⟩ := (isValidEscape_iff (c :: cs)).1 h3
            simp only [List.cons.injEq] at h4
            obtain ⟨rfl, rfl⟩ := h4
            obtain ⟨p, r, hp, hpne, hr, hesc⟩ := consumeEscaped_spec d t h5
            rw [hr]
            dsimp only
            by_cases hr0 : r = []
            · subst hr0
              have hf : badUrlLoop fuel [] = .ok [] := by cases fuel <;> simp [badUrlLoop]
              rw [hf]
              refine Or.inr ⟨92 :: (d :: t), [], rfl, by simp, by simp, ?_⟩
              intro h
              have h' : HasClose (92 :: (p ++ [])) := by
                obtain ⟨a, b, h6, h7⟩ := h
                have hd : d :: t ≠ [] := by simp
                refine ⟨a, b ++ [(d :: t).getLast hd], ?_, h7⟩
                rw [List.dropLast_cons_of_ne_nil hd] at h6
                rw [List.append_nil, ← List.append_nil p, ← hp, ← List.cons_append, ← List.append_assoc, ← h6,
                  List.cons_append, List.dropLast_concat_getLast]
              obtain ⟨a, b, h8, -⟩ := h'.after_escape hesc
              simp at h8
            · have hlen : r.length < fuel := by
                have := congrArg List.length hp
                have := List.length_pos_iff.2 hpne
                simp only [List.length_cons, List.length_append] at *; omega
              rcases ih r hlen hr0 with ⟨h6, h7⟩ | ⟨b, r', h6, h7, h8, h9⟩
              · refine Or.inl ⟨h6, fun h => h7 ?_⟩
                rw [hp] at h
                exact h.after_escape hesc
              · refine Or.inr ⟨92 :: (p ++ b), r', h6, by simp, by rw [hp, h8]; simp, fun h => h9 ?_⟩
                rw [h8] at hesc
                have : (92 :: (p ++ b)).dropLast = 92 :: (p ++ b.dropLast) := by
                  rw [List.dropLast_cons_of_ne_nil (by simp [h7]), List.dropLast_append_of_ne_nil h7]
                rw [this] at h
                refine h.after_escape (n := (consumeEscaped (d :: t)).1) ?_
                have hb := hesc.shorten
                rw [← List.dropLast_concat_getLast h7] at hb
                exact hb.shorten
          · rw [if_neg h3]
            rcases ih cs (by omega) h2 with ⟨h6, h7⟩ | ⟨b, r', h6, h7, h8, h9⟩
            · exact Or.inl ⟨h6, fun h => h7 (h.tail h1)⟩
            · refine Or.inr ⟨c :: b, r', h6, by simp, by rw [h8]; simp, fun h => h9 ?_⟩
              rw [List.dropLast_cons_of_ne_nil h7] at h
              exact h.tail h1

theorem urlLoop_spec : ∀ (fuel : Nat) (res s : Text), s.length < fuel →
    (urlLoop fuel res s = .error .badUrlAtEnd ∧ ¬ HasClose s) ∨
    ∃ b v, UrlValue b v ∧
      ((∃ rest, s = b ++ 41 :: rest ∧ urlLoop fuel res s = .ok (.url (res ++ v), rest)) ∨
       (s = b ∧ urlLoop fuel res s = .ok (.url (res ++ v), [])) ∨
       (∃ c b2 rest, s = b ++ c :: (b2 ++ rest) ∧ BadInUrl c ∧ ¬ HasClose (c :: b2.dropLast) ∧
          urlLoop fuel res s = .ok (.badUrl, rest))) := by
  intro fuel
  induction fuel with
  | zero => intro res s h; omega
  | succ fuel ih =>
    intro res s hl
    match s with
    | [] => exact Or.inr ⟨[], [], .nil, Or.inr (Or.inl ⟨rfl, by simp [urlLoop]⟩)⟩
    | c :: cs =>
      simp only [List.length_cons] at hl
      simp only [urlLoop]
      by_cases h1 : c = 41
      · subst h1
        exact Or.inr ⟨[], [], .nil, Or.inl ⟨cs, rfl, by simp⟩⟩
      · rw [if_neg h1]
        by_cases h2 : isWs c = true
        · rw [if_pos h2]
          rcases ih res cs (by omega) with ⟨h3, h4⟩ | ⟨b, v, hbv, h⟩
          · exact Or.inl ⟨h3, fun h => h4 (h.tail h1)⟩
          · refine Or.inr ⟨c :: b, v, .space ((isWs_iff c).1 h2) hbv, ?_⟩
            rcases h with ⟨rest, h5, h6⟩ | ⟨h5, h6⟩ | ⟨x, b2, rest, h5, h7, h8, h6⟩
            · exact Or.inl ⟨rest, by simp [h5], h6⟩
            · exact Or.inr (Or.inl ⟨by simp [h5], h6⟩)
            · exact Or.inr (Or.inr ⟨x, b2, rest, by simp [h5], h7, h8, h6⟩)
        · rw [if_neg h2]
          by_cases h3 : c = 34 ∨ c = 39 ∨ c = 40 ∨ isNonPrintable c = true
          · rw [if_pos h3]
            rcases badUrlLoop_spec ((c :: cs).length + 1) (c :: cs) (by omega) (by simp) with
              ⟨h4, h5⟩ | ⟨b, r, h4, h5, h6, h7⟩
            · rw [h4]; exact Or.inl ⟨rfl, h5⟩
            · rw [h4]
              cases b with
              | nil => exact absurd rfl h5
              | cons x b2 =>
                simp only [List.cons_append, List.cons.injEq] at h6
                obtain ⟨rfl, h6⟩ := h6
                refine Or.inr ⟨[], [], .nil, Or.inr (Or.inr ⟨c, b2, r, by simp [h6], (isNonPrintable_iff c).1 h3, ?_, rfl⟩)⟩
                cases b2 with
                | nil =>
                  intro h
                  obtain ⟨a, b, h8, -⟩ := h.tail h1; simp at h8
                | cons y b2 => rwa [List.dropLast_cons_of_ne_nil (by simp)] at h7
          · rw [if_neg h3]
            have hbad : ¬ BadInUrl c := fun h => h3 ((isNonPrintable_iff c).2 h)
            by_cases h4 : c = 92 ∧ isValidEscape ((c :: cs).take 2) = true
            · rw [if_pos h4]
              obtain ⟨d, t, h5, h6⟩ := (isValidEscape_iff (c :: cs)).1 h4.2
              simp only [List.cons.injEq] at h5
              obtain ⟨rfl, rfl⟩ := h5
              obtain ⟨p, r, hp, hpne, hr, hesc⟩ := consumeEscaped_spec d t h6
              rw [hr]
              have hlen : r.length < fuel := by
                have := congrArg List.length hp
                have := List.length_pos_iff.2 hpne
                simp only [List.length_cons, List.length_append] at *; omega
              dsimp only
              rcases ih (res ++ [(consumeEscaped (d :: t)).1]) r hlen with ⟨h7, h8⟩ | ⟨b, v, hbv, h⟩
              · refine Or.inl ⟨h7, fun h => h8 ?_⟩
                rw [hp] at h; exact h.after_escape hesc
              · right
                rcases h with ⟨rest, h5, h6⟩ | ⟨h5, h6⟩ | ⟨x, b2, rest, h5, h7, h8, h6⟩
                · rw [h5] at hesc
                  exact ⟨_, _, .escape hesc.shorten hbv, Or.inl ⟨rest, by rw [hp, h5]; simp, by simpa using h6⟩⟩
                · rw [h5] at hesc
                  exact ⟨_, _, .escape hesc hbv, Or.inr (Or.inl ⟨by rw [hp, h5], by simpa using h6⟩)⟩
                · rw [h5] at hesc
                  exact ⟨_, _, .escape hesc.shorten hbv, Or.inr (Or.inr ⟨x, b2, rest, by rw [hp, h5]; simp, h7, h8, h6⟩)⟩
            · rw [if_neg h4]
              rcases ih (res ++ [c]) cs (by omega) with ⟨h7, h8⟩ | ⟨b, v, hbv, h⟩
              · exact Or.inl ⟨h7, fun h => h8 (h.tail h1)⟩
              · have hsp : ¬ Space c := fun h => h2 ((isWs_iff c).2 h)
                have hno : ∀ x, cs = b ++ x → c = 92 → ¬ EscapeStart (c :: b) := by
                  intro x hx hc hE
                  obtain ⟨d, t, h5, h6⟩ := hE
                  simp only [List.cons.injEq] at h5
                  apply h4
                  refine ⟨hc, (isValidEscape_iff _).2 ⟨d, t ++ x, ?_, h6⟩⟩
                  rw [hx, h5.2, hc]; simp
                right
                rcases h with ⟨rest, h5, h6⟩ | ⟨h5, h6⟩ | ⟨x, b2, rest, h5, h7, h8, h6⟩
                · exact ⟨c :: b, c :: v, .char h1 hsp hbad (hno _ h5) hbv, Or.inl ⟨rest, by simp [h5], by simpa using h6⟩⟩
                · exact ⟨c :: b, c :: v, .char h1 hsp hbad (hno [] (by simp [h5])) hbv, Or.inr (Or.inl ⟨by simp [h5], by simpa using h6⟩)⟩
                · exact ⟨c :: b, c :: v, .char h1 hsp hbad (hno _ h5) hbv,
                    Or.inr (Or.inr ⟨x, b2, rest, by simp [h5], h7, h8, h6⟩)⟩

theorem skipWs_spec : ∀ (s : Text), ∃ w, s = w ++ skipWs s ∧ (∀ c ∈ w, Space c) := by
  intro s
  induction s with
  | nil => exact ⟨[], rfl, by simp⟩
  | cons a s ih =>
    cases s with
    | nil => exact ⟨[], rfl, by simp⟩
    | cons b s =>
      unfold skipWs
      by_cases h : (isWs a && isWs b) = true
      · rw [if_pos h]
        obtain ⟨w, h1, h2⟩ := ih
        refine ⟨a :: w, by rw [List.cons_append, ← h1], ?_⟩
        intro c hc
        rcases List.mem_cons.1 hc with rfl | hc
        · simp only [Bool.and_eq_true] at h; exact (isWs_iff c).1 h.1
        · exact h2 c hc
      · rw [if_neg h]; exact ⟨[], rfl, by simp⟩

end Verif.Css
