import Verif.CssWrite
/-! # The CSS tokenizer on whole texts: C30, C31 and the CSS part of C28 -/
namespace Verif.Css
open Verif.Reader (Text txt)
open Verif.Js (NoEnd HexDigit takeWhile_all multiLine multiLine_spec bodyOf serializeStringAuto_eq
  autoQuote autoQuote_cases serializeChar serializeString serializeStringAuto)

/-- Why tokenising `s` can fail. -/
inductive Cause (U : Uni) (s : Text) : Err → Prop
  /-- The text ends with `#`. -/
  | hash : s.getLast? = some 35 → Cause U s .hashAtEnd
  /-- The text ends with `@`. -/
  | at : s.getLast? = some 64 → Cause U s .atAtEnd
  /-- The text ends with a digit. -/
  | number {x} : s.getLast? = some x → Dig U x → Cause U s .numberAtEnd
  /-- Some `(` is never closed. -/
  | url {pre post} : s = pre ++ 40 :: post → ¬ HasClose post → Cause U s .badUrlAtEnd
  /-- The text contains a digit which is not a decimal one, such as `²`. -/
  | digit {c} : c ∈ s → Dig U c → digitVal U c = none → Cause U s .badNumber

theorem Cause.extend {U : Uni} {s : Text} {e : Err} (h : Cause U s e) (p : Text) : Cause U (p ++ s) e := by
  have hl : ∀ x, s.getLast? = some x → (p ++ s).getLast? = some x := by
    intro x hx; rw [List.getLast?_append, hx]; rfl
  cases h with
  | hash h => exact .hash (hl _ h)
  | «at» h => exact .at (hl _ h)
  | number h1 h2 => exact .number (hl _ h1) h2
  | @url pre post h1 h2 => exact .url (pre := p ++ pre) (by rw [h1]; simp) h2
  | digit h1 h2 h3 => exact .digit (by simp [h1]) h2 h3

/-- What a step has to do. -/
def StepOk (U : Uni) (s : Text) (res : Except Err (Tok × Text)) : Prop :=
  (∃ e, res = .error e ∧ Cause U s e) ∨
  ∃ t rest p, res = .ok (t, rest) ∧ p ≠ [] ∧ s = p ++ rest ∧ Renders U p rest (serialize U t) ∧ t ≠ .eof

theorem Number.ne_nil {U : Uni} {p next o : Text} (h : Number U p next o) : p ≠ [] := by
  cases h with
  | int h1 h2 => intro h; simp at h; exact h2.1 h.2
  | float _ _ _ _ h1 => intro h; simp at h; rcases h1 with h1 | h1 <;> simp [h] at h1

theorem consumeNumeric_ok (U : Uni) (s : Text) (h : NumberStart U s ∨ ∃ c, s.head? = some c ∧ Dig U c) :
    StepOk U s (consumeNumeric U s) := by
  unfold consumeNumeric
  rcases consumeNumber_spec U s h with ⟨h1, c, h2, h3, h4⟩ | ⟨p, n, i, r, h1, h2, h3, h4⟩
  · rw [h1]; exact Or.inl ⟨_, rfl, .digit h2 h3 h4⟩
  · rw [h1]
    dsimp only
    by_cases hr : r = []
    · rw [if_pos hr]
      obtain ⟨x, hx, hx2⟩ := h4 hr
      exact Or.inl ⟨_, rfl, .number hx hx2⟩
    · rw [if_neg hr]
      by_cases hi : isIdentSequence (r.take 3) = true
      · rw [if_pos hi]
        obtain ⟨u, hu1, hu2⟩ := consumeIdent_spec U r
        refine Or.inr ⟨_, _, p ++ u, rfl, by simp [h3.ne_nil], by rw [h2]; simpa using hu1, ?_, by simp⟩
        rw [hu1] at h3
        refine .dimension h3 ?_ hu2
        apply hu2.ne_nil (U := U)
        rw [← hu1]; exact identSequence_start U hi
      · rw [if_neg hi]
        by_cases h37 : r.head? = some 37
        · rw [if_pos h37]
          obtain ⟨r', rfl⟩ : ∃ r', r = 37 :: r' := by
            cases r with
            | nil => simp at h37
            | cons a r' => simp at h37; exact ⟨r', by rw [h37]⟩
          refine Or.inr ⟨_, r', p ++ [37], rfl, by simp, by simp [h2], ?_, by simp⟩
          have : Renders U (p ++ [37]) r' (numStr U n ++ [37]) := .percentage h3
          exact this
        · rw [if_neg h37]
          exact Or.inr ⟨_, r, p, rfl, h3.ne_nil, h2, .number h3, by simp⟩

theorem isUrlName_iff (v : Text) : isUrlName v = true ↔ UrlName v := by
  match v with
  | [] => simp [isUrlName, UrlName]
  | [a] => simp [isUrlName, UrlName]
  | [a, b] => simp [isUrlName, UrlName]
  | [a, b, c] =>
    simp only [isUrlName, UrlName, Bool.and_eq_true, Bool.or_eq_true, beq_iff_eq]
    constructor
    · rintro ⟨⟨h1, h2⟩, h3⟩; exact ⟨a, b, c, rfl, h1, h2, h3⟩
    · rintro ⟨u, r, l, h, h1, h2, h3⟩
      simp at h; obtain ⟨rfl, rfl, rfl⟩ := h; exact ⟨⟨h1, h2⟩, h3⟩
  | a :: b :: c :: d :: t => simp [isUrlName, UrlName]

theorem UrlValue.spaces {w b v : Text} (hw : ∀ c ∈ w, Space c) (h : UrlValue b v) : UrlValue (w ++ b) v := by
  induction w with
  | nil => exact h
  | cons c w ih => exact .space (hw c (by simp)) (ih (fun x hx => hw x (by simp [hx])))

theorem HasClose.of_spaces {w s : Text} (hw : ∀ c ∈ w, Space c) (h : HasClose (w ++ s)) : HasClose s := by
  induction w with
  | nil => exact h
  | cons c w ih =>
    refine ih (fun x hx => hw x (by simp [hx])) (HasClose.tail h ?_)
    have := hw c (by simp)
    unfold Space at this; omega

theorem serialize_url (U : Uni) (v : Text) : serialize U (.url v) =
    txt "url(" ++ v.flatMap (serializeChar none [34, 39, 40, 92]) ++ txt ")" := by
  simp [serialize, serializeString, txt]

theorem consumeIdentLike_ok (U : Uni) (s : Text) (hs : (∃ c, s.head? = some c ∧ NameChar U c) ∨ EscapeStart s)
    (hd : ∀ c, s.head? = some c → ¬ Dig U c) (hn : ¬ NumberStart U s) : StepOk U s (consumeIdentLike U s) := by
  unfold consumeIdentLike
  dsimp only
  obtain ⟨p, hp1, hp2⟩ := consumeIdent_spec U s
  generalize (consumeIdent U s).1 = w at *
  generalize (consumeIdent U s).2 = r at *
  have hpne : p ≠ [] := by
    apply hp2.ne_nil; rw [← hp1]; exact hs
  have hph : ∀ c, p.head? = some c → ¬ Dig U c := by
    intro c hc; apply hd; rw [hp1]
    cases p with
    | nil => exact absurd rfl hpne
    | cons => simpa using hc
  by_cases hu : isUrlName w = true ∧ r.head? = some 40
  · rw [if_pos hu]
    have huw := (isUrlName_iff w).1 hu.1
    obtain ⟨r', rfl⟩ : ∃ r', r = 40 :: r' := by
      cases r with
      | nil => simp at hu
      | cons a r' => simp at hu; exact ⟨r', by rw [hu.2]⟩
    have hdr : (40 :: r').drop 1 = r' := rfl
    rw [hdr]
    obtain ⟨b0, hb1, hb2⟩ := skipWs_spec r'
    cases ht : skipWs r' with
    | nil =>
      rw [ht] at hb1
      have hr0 : r' = [] := by
        match r', ht with
        | [], _ => rfl
        | [a], h => simp [skipWs] at h
        | a :: b :: t, h =>
          exfalso
          have : ∀ (t : Text) (a b : Nat), skipWs (a :: b :: t) ≠ [] := by
            intro t
            induction t with
            | nil => intro a b; unfold skipWs; split <;> simp [skipWs]
            | cons x t ih => intro a b; unfold skipWs; split <;> simp [ih]
          exact this t a b h
      subst hr0
      refine Or.inr ⟨_, [], p ++ [40], rfl, by simp, by simp [hp1], ?_, by simp⟩
      exact .emptyUrl hp2 huw
    | cons a t' =>
      dsimp only
      by_cases hq : a = 34 ∨ a = 39 ∨ (isWs a = true ∧ (t'.head? = some 34 ∨ t'.head? = some 39))
      · rw [if_pos hq]
        refine Or.inr ⟨_, a :: t', p ++ 40 :: b0, rfl, by simp, by rw [hp1, hb1, ht]; simp, ?_, by simp⟩
        rw [hb1, ht] at hp2
        refine .quotedUrl hp2 huw hb2 ?_
        rcases hq with rfl | rfl | ⟨h1, h2⟩
        · exact Or.inl rfl
        · exact Or.inr (Or.inl rfl)
        · refine Or.inr (Or.inr ⟨a, (isWs_iff a).1 h1, ?_⟩)
          cases t' with
          | nil => simp at h2
          | cons x t' => simpa using h2
      · rw [if_neg hq]
        rw [ht] at hb1
        generalize hT : a :: t' = T at *
        have hTne : T ≠ [] := by rw [← hT]; simp
        rcases urlLoop_spec (T.length + 1) [] T (by omega) with ⟨h1, h2⟩ | ⟨b, v, hbv, h⟩
        · rw [h1]
          refine Or.inl ⟨_, rfl, .url (pre := p) hp1 ?_⟩
          rw [hb1]; exact fun h => h2 (h.of_spaces hb2)
        · right
          rcases h with ⟨rest, h5, h6⟩ | ⟨h5, h6⟩ | ⟨x, b2, rest, h5, h7, h8, h6⟩
          · refine ⟨_, rest, p ++ 40 :: ((b0 ++ b) ++ [41]), h6, by simp, by rw [hp1, hb1, h5]; simp, ?_, by simp⟩
            rw [hb1, h5, ← List.append_assoc] at hp2
            rw [serialize_url, List.nil_append]
            exact .url hp2 huw (hbv.spaces hb2) (written_url v)
          · refine ⟨_, [], p ++ 40 :: (b0 ++ b), h6, by simp, by rw [hp1, hb1, h5]; simp, ?_, by simp⟩
            rw [hb1, h5] at hp2
            rw [serialize_url, List.nil_append]
            exact .openUrl hp2 huw (by simp [← h5, hTne]) (hbv.spaces hb2) (written_url v)
          · refine ⟨_, rest, p ++ 40 :: ((b0 ++ b) ++ x :: b2), h6, by simp, by rw [hp1, hb1, h5]; simp, ?_, by simp⟩
            rw [hb1, h5, ← List.append_assoc] at hp2
            exact .badUrl hp2 huw (hbv.spaces hb2) h7 h8
  · rw [if_neg hu]
    have hu' : ¬ (UrlName w ∧ r.head? = some 40) := by rwa [← isUrlName_iff]
    by_cases h40 : r.head? = some 40
    · rw [if_pos h40]
      obtain ⟨r', rfl⟩ : ∃ r', r = 40 :: r' := by
        cases r with
        | nil => simp at h40
        | cons a r' => simp at h40; exact ⟨r', by rw [h40]⟩
      refine Or.inr ⟨_, r', p ++ [40], rfl, by simp, by simp [hp1], ?_, by simp⟩
      refine .function hpne hph (by rw [← hp1]; exact hn) hp2 (fun h => hu' ⟨h, rfl⟩)
    · rw [if_neg h40]
      exact Or.inr ⟨_, r, p, rfl, hpne, hp1, .name hpne hph (by rw [← hp1]; exact hn) hp2 hu', by simp⟩

theorem StepOk.ok {U : Uni} {s rest : Text} {t : Tok} (p : Text) (hp : p ≠ []) (hs : s = p ++ rest) (ht : t ≠ .eof)
    (h : Renders U p rest (serialize U t)) : StepOk U s (.ok (t, rest)) :=
  Or.inr ⟨t, rest, p, rfl, hp, hs, h, ht⟩

theorem step_ok (U : Uni) (c : Nat) (cs : Text) : StepOk U (c :: cs) (step U c cs) := by
  have hname : ∀ {x : Nat} {next : Text}, x ≠ 92 → ¬ EscapeStart (x :: next) := by
    rintro x next hx ⟨d, t, h, -⟩
    simp only [List.cons.injEq] at h; exact hx h.1
  have hhyph : ∀ {x : Nat} {next : Text}, x ≠ 45 → ¬ HyphenName (x :: next) := by
    rintro x next hx ⟨b, d, t, h, -⟩
    simp only [List.cons.injEq] at h; exact hx h.1
  have hnum : ∀ {x : Nat} {next : Text}, ¬ Dig U x → x ≠ 43 → x ≠ 45 → x ≠ 46 → ¬ NumberStart U (x :: next) := by
    rintro x next h1 h2 h3 h4 ⟨a, b, d, t, h, h5⟩
    simp only [List.cons.injEq] at h
    obtain ⟨rfl, -⟩ := h
    rcases h5 with h5 | h5 | h5
    · exact h1 h5
    · exact h4 h5.1
    · omega
  unfold step
  dsimp only
  by_cases h1 : (c :: cs).take 2 = [47, 42]
  · rw [if_pos h1]
    obtain ⟨t, ht⟩ : ∃ t, c :: cs = 47 :: 42 :: t := by
      cases cs with
      | nil => simp at h1
      | cons d t => simp at h1; exact ⟨t, by rw [h1.1, h1.2]⟩
    rw [ht]
    have hd : (47 :: 42 :: t).drop 2 = t := rfl
    rw [hd]
    obtain ⟨hv, hm⟩ := multiLine_spec t
    by_cases hu : t = (multiLine t).1
    · rw [if_pos hu]
      refine .ok (47 :: 42 :: t) (by simp) (by simp) (by simp) ?_
      rw [← hu] at hv
      exact .openComment hv
    · rw [if_neg hu]
      rcases hm with hm | ⟨hm, -⟩
      · refine .ok ([47, 42] ++ (multiLine t).1 ++ [42, 47]) (by simp) ?_ (by simp) ?_
        · rw [List.append_assoc, List.append_assoc, ← List.append_assoc _ [42, 47], ← hm]; rfl
        · exact .comment hv
      · exact absurd hm hu
  rw [if_neg h1]
  by_cases h2 : isWs c = true
  · rw [if_pos h2]
    refine .ok ((c :: cs).takeWhile isWs) (by simp [h2]) List.takeWhile_append_dropWhile.symm (by simp) ?_
    exact .space (fun x hx => (isWs_iff x).1 (takeWhile_all _ _ x hx))
  rw [if_neg h2]
  have h2' : ¬ Space c := fun h => h2 ((isWs_iff c).2 h)
  by_cases h3 : c = 34 ∨ c = 39
  · rw [if_pos h3]
    obtain ⟨b, v, hbv, h⟩ := stringLoop_spec h3 (cs.length + 1) [] cs (by omega)
    have hq := autoQuote_cases v
    rcases h with ⟨rest, h4, h5⟩ | ⟨e, he, h4, h5⟩ | ⟨rest, h4, h5⟩
    · rw [h5]
      refine .ok (c :: b ++ [c]) (by simp) (by rw [h4]; simp) (by simp) ?_
      rw [List.nil_append]
      show Renders U _ _ (serializeStringAuto v)
      rw [serializeStringAuto_eq]
      exact .string h3 hbv hq (written_value hq v)
    · rw [h5]
      refine .ok (c :: (b ++ e)) (by simp) (by rw [h4]; simp) (by simp) ?_
      rw [List.nil_append]
      show Renders U _ _ (serializeStringAuto v)
      rw [serializeStringAuto_eq]
      exact .openString h3 hbv he hq (written_value hq v)
    · rw [h5]
      refine .ok (c :: b) (by simp) (by rw [h4]; simp) (by simp) ?_
      exact .badString h3 hbv rfl
  rw [if_neg h3]
  -- one character which is kept
  have single : ∀ t : Tok, serialize U t = [c] → t ≠ .eof → ¬ Dig U c → ¬ NameStart c → ¬ EscapeStart (c :: cs) →
      ¬ NumberStart U (c :: cs) → ¬ HyphenName (c :: cs) → (c = 47 → cs.head? ≠ some 42) → (c = 35 → NameEnds U cs) →
      StepOk U (c :: cs) (.ok (t, cs)) := by
    intro t ht hne k1 k2 k3 k4 k5 k6 k7
    refine .ok [c] (by simp) rfl hne ?_
    rw [ht]
    exact .delim (fun h => h3 (Or.inl h)) (fun h => h3 (Or.inr h)) h2' k1 k2 k3 k4 k5 k6 k7
  have hslash : c = 47 → cs.head? ≠ some 42 := by
    intro h h'
    apply h1
    cases cs with
    | nil => simp at h'
    | cons x cs => simp at h'; simp [h, h']
  have punct : ∀ (x : Nat) (t : Tok), c = x → serialize U t = [x] → t ≠ .eof → x ∈ [40, 41, 44, 58, 59, 91, 93, 123, 125] →
      StepOk U (c :: cs) (.ok (t, cs)) := by
    rintro x t rfl ht hne hx
    have hdg : ¬ Dig U c := by
      simp at hx; unfold Dig; omega
    have hst : ¬ NameStart c := by
      simp at hx; unfold NameStart; omega
    have : c ≠ 43 ∧ c ≠ 45 ∧ c ≠ 46 ∧ c ≠ 92 ∧ c ≠ 35 := by simp at hx; omega
    exact single t ht hne hdg hst (hname this.2.2.2.1) (hnum hdg this.1 this.2.1 this.2.2.1) (hhyph this.2.1) hslash
      (fun h => absurd h this.2.2.2.2)
  by_cases h4 : c = 35
  · rw [if_pos h4]
    subst h4
    cases cs with
    | nil => exact Or.inl ⟨_, rfl, .hash rfl⟩
    | cons d ds =>
      dsimp only
      by_cases h5 : isIdentChar U d = true ∨ isValidEscape ((d :: ds).take 2) = true
      · rw [if_pos h5]
        obtain ⟨p, hp1, hp2⟩ := consumeIdent_spec U (d :: ds)
        refine .ok (35 :: p) (by simp) (by rw [List.cons_append, ← hp1]) (by simp) ?_
        refine .prefixed (Or.inl rfl) ?_ hp2
        apply hp2.ne_nil
        rw [← hp1]
        rcases h5 with h5 | h5
        · exact Or.inl ⟨d, rfl, (isIdentChar_iff U d).1 h5⟩
        · exact Or.inr ((isValidEscape_iff _).1 h5)
      · rw [if_neg h5]
        refine single _ rfl (by simp) (by simp [Dig]) (by simp [NameStart]) (hname (by omega))
          (hnum (by simp [Dig]) (by omega) (by omega) (by omega)) (hhyph (by omega)) hslash ?_
        intro _
        refine ⟨?_, fun h => h5 (Or.inr ((isValidEscape_iff _).2 h))⟩
        intro x hx
        simp at hx; subst hx
        exact fun h => h5 (Or.inl ((isIdentChar_iff U d).2 h))
  rw [if_neg h4]
  by_cases h5 : c = 40
  · rw [if_pos h5]; exact punct 40 _ h5 rfl (by simp) (by simp)
  rw [if_neg h5]
  by_cases h6 : c = 41
  · rw [if_pos h6]; exact punct 41 _ h6 rfl (by simp) (by simp)
  rw [if_neg h6]
  by_cases h7 : c = 43
  · rw [if_pos h7]
    by_cases hn : isNumber U ((c :: cs).take 3) = true
    · rw [if_pos hn]; exact consumeNumeric_ok U _ (Or.inl ((isNumber_iff U _).1 hn))
    · rw [if_neg hn]
      exact single _ (by rw [h7]; rfl) (by simp) (by subst h7; simp [Dig]) (by subst h7; simp [NameStart]) (hname (by omega))
        (fun h => hn ((isNumber_iff U _).2 h)) (hhyph (by omega)) hslash (by omega)
  rw [if_neg h7]
  by_cases h8 : c = 44
  · rw [if_pos h8]; exact punct 44 _ h8 rfl (by simp) (by simp)
  rw [if_neg h8]
  by_cases h9 : c = 45
  · rw [if_pos h9]
    by_cases hn : isNumber U ((c :: cs).take 3) = true
    · rw [if_pos hn]; exact consumeNumeric_ok U _ (Or.inl ((isNumber_iff U _).1 hn))
    · rw [if_neg hn]
      have hnn : ¬ NumberStart U (c :: cs) := fun h => hn ((isNumber_iff U _).2 h)
      by_cases hcdc : (c :: cs).take 3 = [45, 45, 62]
      · rw [if_pos hcdc]
        refine .ok (t := .cdc) [45, 45, 62] (by simp) ?_ (by simp) ?_
        · rw [← hcdc, List.take_append_drop]
        · exact .marker (Or.inl rfl)
      · rw [if_neg hcdc]
        by_cases hi : isIdentSequence ((c :: cs).take 3) = true
        · rw [if_pos hi]
          refine consumeIdentLike_ok U _ (identSequence_start U hi) ?_ hnn
          intro x hx; simp at hx; subst hx; subst h9; simp [Dig]
        · rw [if_neg hi]
          refine single _ (by rw [h9]; rfl) (by simp) (by subst h9; simp [Dig]) (by subst h9; simp [NameStart])
            (hname (by omega)) hnn ?_ hslash (by omega)
          intro h
          apply hi
          subst h9
          cases cs with
          | nil => obtain ⟨_, _, _, h, _⟩ := h; simp at h
          | cons b t => exact isIdentSequence_hyphen.2 h
  rw [if_neg h9]
  by_cases h10 : c = 46
  · rw [if_pos h10]
    by_cases hn : isNumber U ((c :: cs).take 3) = true
    · rw [if_pos hn]; exact consumeNumeric_ok U _ (Or.inl ((isNumber_iff U _).1 hn))
    · rw [if_neg hn]
      exact single _ (by rw [h10]; rfl) (by simp) (by subst h10; simp [Dig]) (by subst h10; simp [NameStart]) (hname (by omega))
        (fun h => hn ((isNumber_iff U _).2 h)) (hhyph (by omega)) hslash (by omega)
  rw [if_neg h10]
  by_cases h11 : c = 58
  · rw [if_pos h11]; exact punct 58 _ h11 rfl (by simp) (by simp)
  rw [if_neg h11]
  by_cases h12 : c = 59
  · rw [if_pos h12]; exact punct 59 _ h12 rfl (by simp) (by simp)
  rw [if_neg h12]
  by_cases h13 : c = 60
  · rw [if_pos h13]
    by_cases hcdo : (c :: cs).take 4 = [60, 33, 45, 45]
    · rw [if_pos hcdo]
      refine .ok (t := .cdo) [60, 33, 45, 45] (by simp) ?_ (by simp) ?_
      · rw [← hcdo, List.take_append_drop]
      · exact .marker (Or.inr rfl)
    · rw [if_neg hcdo]
      exact single _ (by rw [h13]; rfl) (by simp) (by subst h13; simp [Dig]) (by subst h13; simp [NameStart]) (hname (by omega))
        (hnum (by subst h13; simp [Dig]) h7 h9 h10) (hhyph (by omega)) hslash (by omega)
  rw [if_neg h13]
  by_cases h14 : c = 64
  · rw [if_pos h14]
    by_cases hc0 : cs = []
    · rw [if_pos hc0]; subst h14; subst hc0; exact Or.inl ⟨_, rfl, .at rfl⟩
    · rw [if_neg hc0]
      by_cases hi : isIdentSequence (cs.take 3) = true
      · rw [if_pos hi]
        obtain ⟨p, hp1, hp2⟩ := consumeIdent_spec U cs
        refine .ok (c :: p) (by simp) (by rw [List.cons_append, ← hp1]) (by simp) ?_
        subst h14
        refine .prefixed (Or.inr rfl) ?_ hp2
        apply hp2.ne_nil
        rw [← hp1]
        exact identSequence_start U hi
      · rw [if_neg hi]
        exact single _ (by rw [h14]; rfl) (by simp) (by subst h14; simp [Dig]) (by subst h14; simp [NameStart]) (hname (by omega))
          (hnum (by subst h14; simp [Dig]) h7 h9 h10) (hhyph (by omega)) hslash (by omega)
  rw [if_neg h14]
  by_cases h15 : c = 91
  · rw [if_pos h15]; exact punct 91 _ h15 rfl (by simp) (by simp)
  rw [if_neg h15]
  by_cases h16 : c = 92
  · rw [if_pos h16]
    have hdg : ¬ Dig U c := by subst h16; simp [Dig]
    by_cases hv : isValidEscape ((c :: cs).take 2) = true
    · rw [if_pos hv]
      refine consumeIdentLike_ok U _ (Or.inr ((isValidEscape_iff _).1 hv)) ?_ (hnum hdg h7 h9 h10)
      intro x hx; simp at hx; subst hx; exact hdg
    · rw [if_neg hv]
      exact single _ (by rw [h16]; rfl) (by simp) hdg (by subst h16; simp [NameStart])
        (fun h => hv ((isValidEscape_iff _).2 h)) (hnum hdg h7 h9 h10) (hhyph (by omega)) hslash (by omega)
  rw [if_neg h16]
  by_cases h17 : c = 93
  · rw [if_pos h17]; exact punct 93 _ h17 rfl (by simp) (by simp)
  rw [if_neg h17]
  by_cases h18 : c = 123
  · rw [if_pos h18]; exact punct 123 _ h18 rfl (by simp) (by simp)
  rw [if_neg h18]
  by_cases h19 : c = 125
  · rw [if_pos h19]; exact punct 125 _ h19 rfl (by simp) (by simp)
  rw [if_neg h19]
  by_cases h20 : isDigit U c = true
  · rw [if_pos h20]
    exact consumeNumeric_ok U _ (Or.inr ⟨c, rfl, (isDigit_iff U c).1 h20⟩)
  rw [if_neg h20]
  have hdg : ¬ Dig U c := fun h => h20 ((isDigit_iff U c).2 h)
  by_cases h21 : isIdentStart c = true
  · rw [if_pos h21]
    refine consumeIdentLike_ok U _ (Or.inl ⟨c, rfl, Or.inl ((isIdentStart_iff c).1 h21)⟩) ?_ (hnum hdg h7 h9 h10)
    intro x hx; simp at hx; subst hx; exact hdg
  · rw [if_neg h21]
    exact single _ rfl (by simp) hdg (fun h => h21 ((isIdentStart_iff c).2 h)) (hname h16) (hnum hdg h7 h9 h10) (hhyph h9) hslash
      (fun h => absurd h h4)

theorem tokenLoop_spec (U : Uni) : ∀ (fuel : Nat) (s : Text), s.length ≤ fuel →
    (∃ e, tokenLoop U fuel s = .error e ∧ Cause U s e) ∨
    ∃ ts, tokenLoop U fuel s = .ok (ts ++ [.eof]) ∧ Tok.eof ∉ ts ∧ Rewrites U s (serializeMany U ts) := by
  intro fuel
  induction fuel with
  | zero =>
    intro s hl
    have : s = [] := List.length_eq_zero_iff.1 (by omega)
    subst this
    exact Or.inr ⟨[], by simp [tokenLoop], by simp, .nil⟩
  | succ fuel ih =>
    intro s hl
    match s with
    | [] => exact Or.inr ⟨[], by simp [tokenLoop], by simp, .nil⟩
    | c :: cs =>
      simp only [tokenLoop]
      rcases step_ok U c cs with ⟨e, h1, h2⟩ | ⟨t, rest, p, h1, h2, h3, h4, h5⟩
      · rw [h1]; exact Or.inl ⟨e, rfl, h2⟩
      · rw [h1]
        dsimp only
        have hlen : rest.length ≤ fuel := by
          have := congrArg List.length h3
          have := List.length_pos_iff.2 h2
          simp only [List.length_cons, List.length_append] at *; omega
        rcases ih rest hlen with ⟨e, h6, h7⟩ | ⟨ts, h6, h7, h8⟩
        · rw [h6, h3]; exact Or.inl ⟨e, rfl, h7.extend p⟩
        · rw [h6, h3]
          refine Or.inr ⟨t :: ts, rfl, ?_, ?_⟩
          · simp only [List.mem_cons, not_or]; exact ⟨fun h => h5 h.symm, h7⟩
          · exact .cons h2 h4 h8

/-- **C30, in part.**  Tokenising any stylesheet either covers the whole text, piece by piece, with one
end-of-file token at the end, or fails for one of the reasons listed in `Cause`.  The property claims that it
never fails; see the `C30_false` theorems. -/
theorem C30_partial (U : Uni) (text : Text) :
    (∃ e, tokenize U text = .error e ∧ Cause U text e) ∨
    ∃ ts, tokenize U text = .ok (ts ++ [.eof]) ∧ Tok.eof ∉ ts ∧ Rewrites U text (serializeMany U ts) :=
  tokenLoop_spec U text.length text (Nat.le_refl _)

/-- **C30, in part**: a stylesheet which does not end with `#`, `@` or a digit, in which every `(` has a `)`
somewhere behind it, and without unusual digits, is tokenised. -/
theorem C30_total_partial (U : Uni) (text : Text) (hend : ∀ c, text.getLast? = some c → c ≠ 35 ∧ c ≠ 64 ∧ ¬ Dig U c)
    (hclose : ∀ pre post, text = pre ++ 40 :: post → HasClose post)
    (hdig : ∀ c ∈ text, Dig U c → c ≤ 57) :
    ∃ ts, tokenize U text = .ok (ts ++ [.eof]) ∧ Tok.eof ∉ ts := by
  rcases C30_partial U text with ⟨e, h1, h2⟩ | ⟨ts, h1, h2, -⟩
  · exfalso
    cases h2 with
    | hash h => exact (hend _ h).1 rfl
    | «at» h => exact (hend _ h).2.1 rfl
    | number k1 k2 => exact (hend _ k1).2.2 k2
    | url k1 k2 => exact k2 (hclose _ _ k1)
    | digit k1 k2 h3 =>
      have h57 := hdig _ k1 k2
      unfold digitVal at h3
      rw [if_pos (by unfold Dig at k2; omega)] at h3
      simp at h3
  · exact ⟨ts, h1, h2⟩

/-- **C31, in part.**  Whenever a stylesheet is tokenised, writing its tokens gives the stylesheet with
every piece rewritten as `Renders` allows: comments, whitespace, punctuation and names without escapes are
kept as they are, integers keep their value, and strings and urls keep their value if it can be written. -/
theorem C31_rewrites_partial (U : Uni) (text : Text) (ts : List Tok) (h : tokenize U text = .ok ts) :
    Rewrites U text (serializeMany U ts) := by
  rcases C30_partial U text with ⟨e, h1, h2⟩ | ⟨ts', h1, h2, h3⟩
  · rw [h1] at h; cases h
  · rw [h1] at h; cases h
    simpa [serializeMany, serialize] using h3

/-- **C28, CSS, in part**: a writable string is written between quotes, with its value. -/
theorem C28_css_partial (v : Text) (h : WritableStr v) :
    ∃ q b, (q = 34 ∨ q = 39) ∧ serializeStringAuto v = q :: b ++ [q] ∧ StrValue q b v :=
  ⟨_, _, autoQuote_cases v, serializeStringAuto_eq v, written_value (autoQuote_cases v) v h⟩

end Verif.Css
