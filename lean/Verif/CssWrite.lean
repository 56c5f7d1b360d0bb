import Verif.CssUrl
import Verif.JsStrings
/-! # What the CSS serializer writes, and numbers -/
namespace Verif.Css
open Verif.Reader (Text txt)
open Verif.Js (hexNum HexDigit isHex takeWhile_all dropWhile_head bodyOf serializeStringAuto_eq
  autoQuote autoQuote_cases serializeChar serializeString serializeStringAuto specialEscape hexStr hexDigits hexChar
  hexVal hexDigits_hex)

theorem hexVal_hexChar {d : Nat} (h : d < 16) : hexVal (hexChar d) = d := by
  unfold hexVal hexChar; split <;> split <;> (try split) <;> omega

theorem hexNum_snoc (hs : Text) (c : Nat) : hexNum (hs ++ [c]) = 16 * hexNum hs + hexVal c := by
  simp [hexNum, List.foldl_append]

theorem hexNum_hexDigits : ∀ (fuel n : Nat), n < fuel → hexNum (hexDigits fuel n) = n := by
  intro fuel
  induction fuel with
  | zero => intro n h; omega
  | succ fuel ih =>
    intro n h
    unfold hexDigits
    rw [hexNum_snoc, hexVal_hexChar (by omega)]
    by_cases h16 : n < 16
    · rw [if_pos h16]; simp [hexNum]; omega
    · rw [if_neg h16, ih _ (by omega)]; omega

theorem hexNum_hexStr (n : Nat) : hexNum (hexStr n) = n := hexNum_hexDigits _ _ (by omega)

theorem hexDigits_length : ∀ (k fuel n : Nat), n < 16 ^ k → 0 < k → (hexDigits fuel n).length ≤ k := by
  intro k
  induction k with
  | zero => intro fuel n h h0; omega
  | succ k ih =>
    intro fuel n h _
    cases fuel with
    | zero => simp [hexDigits]
    | succ fuel =>
      unfold hexDigits
      by_cases h16 : n < 16
      · rw [if_pos h16]; simp
      · rw [if_neg h16]
        have hk : 0 < k := by
          rcases Nat.eq_zero_or_pos k with rfl | h'
          · simp at h; omega
          · exact h'
        have hb : n / 16 < 16 ^ k := by
          rw [Nat.pow_succ] at h; omega
        simpa using ih fuel (n / 16) hb hk

theorem hexStr_ne_nil (n : Nat) : hexStr n ≠ [] := by unfold hexStr hexDigits; simp

theorem Escape.of_hexStr {c : Nat} {next : Text} (h0 : c ≠ 0) (hs : ¬ (0xD800 ≤ c ∧ c ≤ 0xDFFF)) (hm : c ≤ 0x10FFFF)
    (hn : ∀ d, next.head? = some d → ¬ Space d ∧ ¬ HexDigit d) : Escape (hexStr c) next c := by
  refine .hex (hexStr_ne_nil c) ?_ (fun h hh => hexDigits_hex _ _ h hh) (fun d hd => ⟨(hn d hd).1, fun _ => (hn d hd).2⟩) ?_
  · exact hexDigits_length 6 _ c (Nat.lt_of_le_of_lt hm (by decide)) (by omega)
  · rw [hexNum_hexStr]; exact .good h0 hs hm

/-- The first character of what is written for the rest of a string. -/
theorem written_head {q : Option Nat} {simple : List Nat} {v : Text} {d : Nat}
    (h : (v.flatMap (serializeChar q simple)).head? = some d) :
    d = 92 ∨ (v.head? = some d ∧ 32 ≤ d ∧ d < 127) := by
  cases v with
  | nil => simp at h
  | cons c v =>
    simp only [List.flatMap_cons] at h
    unfold serializeChar at h
    split at h
    · simp at h; exact Or.inl h.symm
    · split at h
      · simp at h; exact Or.inl h.symm
      · next hse =>
        split at h
        · simp at h; exact Or.inl h.symm
        · next hr =>
          simp at h; subst h
          refine Or.inr ⟨rfl, ?_⟩
          unfold specialEscape at hse
          repeat' split at hse
          all_goals first | omega | simp at hse

theorem WritableStr.tail {c : Nat} {v : Text} (h : WritableStr (c :: v)) : WritableStr v :=
  ⟨fun x hx => h.1 x (by simp [hx]), fun pre x d post he => h.2 (c :: pre) x d post (by rw [he]; rfl)⟩

theorem written_escape {q : Option Nat} {simple : List Nat} {c : Nat} {v : Text} (h : WritableStr (c :: v))
    (hc : c < 32 ∨ 127 ≤ c) : Escape (hexStr c) (v.flatMap (serializeChar q simple)) c := by
  have hg := h.1 c (by simp)
  refine .of_hexStr hg.1 hg.2.2.1 hg.2.2.2 ?_
  intro d hd
  rcases written_head hd with rfl | ⟨h1, h2, h3⟩
  · simp [Space, HexDigit, Verif.Js.Digit]
  · cases v with
    | nil => simp at h1
    | cons x v =>
      simp only [List.head?_cons, Option.some.injEq] at h1; subst h1
      have := h.2 [] c x v rfl hc
      refine ⟨?_, this.1⟩
      unfold Space; omega

/-- A special escape is used only for characters which cannot be written. -/
theorem specialEscape_writable {c e : Nat} {v : Text} (h : WritableStr (c :: v)) : specialEscape c ≠ some e := by
  have hg := h.1 c (by simp)
  unfold specialEscape
  have : c ≠ 10 ∧ c ≠ 13 ∧ c ≠ 9 ∧ c ≠ 8 ∧ c ≠ 12 ∧ c ≠ 11 ∧ c ≠ 0 := by omega
  simp [this]

/-- The serialised form of a writable string has this value. -/
theorem written_value {q : Nat} (hq : q = 34 ∨ q = 39) : ∀ (v : Text), WritableStr v → StrValue q (bodyOf q v) v := by
  intro v
  induction v with
  | nil => intro _; exact .nil
  | cons c v ih =>
    intro h
    have hb := ih h.tail
    show StrValue q (serializeChar (some q) [92] c ++ bodyOf q v) (c :: v)
    unfold serializeChar
    split
    · next hs =>
      have hc : c = 34 ∨ c = 39 ∨ c = 92 := by
        simp at hs; omega
      have he : Escape [c] (bodyOf q v) c := by
        refine .char ?_ (by omega)
        unfold HexDigit Verif.Js.Digit; omega
      exact .escape he hb
    · next hs =>
      simp only [List.mem_cons, List.not_mem_nil, or_false, not_or, Option.some.injEq] at hs
      split
      · next e he => exact absurd he (specialEscape_writable h)
      · split
        · next hr =>
          exact .escape (written_escape h (by omega)) hb
        · next hr =>
          have := (h.1 c (by simp)).2.1
          exact .char hs.1 (by omega) hs.2 hb

theorem written_url : ∀ (v : Text), WritableUrl v →
    UrlValue (v.flatMap (serializeChar none [34, 39, 40, 92])) v := by
  intro v
  induction v with
  | nil => intro _; exact .nil
  | cons c v ih =>
    intro h
    have hb := ih ⟨h.1.tail, fun x hx => h.2 x (by simp [hx])⟩
    show UrlValue (serializeChar none [34, 39, 40, 92] c ++ v.flatMap (serializeChar none [34, 39, 40, 92])) (c :: v)
    unfold serializeChar
    split
    · next hs =>
      have hc : c = 34 ∨ c = 39 ∨ c = 40 ∨ c = 92 := by simpa using hs
      have he : Escape [c] (v.flatMap (serializeChar none [34, 39, 40, 92])) c := by
        refine .char ?_ (by omega)
        unfold HexDigit Verif.Js.Digit; omega
      exact .escape he hb
    · next hs =>
      have hs' : c ≠ 34 ∧ c ≠ 39 ∧ c ≠ 40 ∧ c ≠ 92 := by simpa using hs
      split
      · next e he => exact absurd he (specialEscape_writable h.1)
      · split
        · next hr =>
          exact .escape (written_escape h.1 (by omega)) hb
        · next hr =>
          have h1 := (h.1.1 c (by simp)).2.1
          have h2 := h.2 c (by simp)
          refine .char h2.2 (by unfold Space; omega) (by unfold BadInUrl; omega) (fun h => absurd h hs'.2.2.2) hb

/-! ## Numbers -/

theorem digitsVal_ascii (U : Uni) : ∀ (ds : Text) (n : Nat), (∀ c ∈ ds, 48 ≤ c ∧ c ≤ 57) →
    digitsVal U n ds = some (ds.foldl (fun n c => 10 * n + (c - 48)) n) := by
  intro ds
  induction ds with
  | nil => intro n _; rfl
  | cons c ds ih =>
    intro n h
    have hc := h c (by simp)
    simp only [digitsVal, digitVal, hc, and_self, if_true, List.foldl_cons]
    exact ih _ (fun x hx => h x (by simp [hx]))

theorem toInt_spec {U : Uni} {sign : Option Nat} {ds : Text} {n : Num} (h : toInt U sign ds = .ok n) :
    ds ≠ [] ∧ ((∀ c ∈ ds, 48 ≤ c ∧ c ≤ 57) → numStr U n = txt (toString (signed sign.toList (decimal ds)))) := by
  unfold toInt at h
  by_cases h0 : ds = []
  · simp [h0] at h
  · refine ⟨h0, fun hd => ?_⟩
    simp only [h0, if_false, digitsVal_ascii U ds 0 hd] at h
    cases h
    simp only [numStr, decimal, signed]
    cases sign with
    | none => simp
    | some s =>
      by_cases hs : s = 45
      · simp [hs]
      · simp [hs]

theorem toInt_error {U : Uni} {sign : Option Nat} {ds : Text} {e : Err} (h : toInt U sign ds = .error e)
    (hne : ds ≠ []) : e = .badNumber ∧ ∃ c ∈ ds, digitVal U c = none := by
  unfold toInt at h
  simp only [hne, if_false] at h
  cases hv : digitsVal U 0 ds with
  | some n => simp [hv] at h
  | none =>
    simp only [hv] at h
    cases h
    refine ⟨rfl, ?_⟩
    clear hne
    generalize 0 = k at hv
    induction ds generalizing k with
    | nil => simp [digitsVal] at hv
    | cons c ds ih =>
      simp only [digitsVal] at hv
      cases hd : digitVal U c with
      | none => exact ⟨c, by simp, hd⟩
      | some d =>
        simp only [hd] at hv
        obtain ⟨x, hx, hx2⟩ := ih _ hv
        exact ⟨x, by simp [hx], hx2⟩

theorem toFloat_spec {U : Uni} {src : Text} {n : Num} (h : toFloat U src = .ok n) : n = .float src := by
  unfold toFloat at h
  split at h
  · cases h; rfl
  · cases h

theorem toFloat_error {U : Uni} {src : Text} {e : Err} (h : toFloat U src = .error e) :
    e = .badNumber ∧ ∃ c ∈ src, Dig U c ∧ digitVal U c = none := by
  unfold toFloat at h
  split at h
  · cases h
  · next hh =>
    cases h
    refine ⟨rfl, ?_⟩
    simp only [List.all_eq_true, Classical.not_forall] at hh
    obtain ⟨c, hc, h2⟩ := hh
    refine ⟨c, hc, ?_⟩
    simp only [Bool.or_eq_true, Bool.not_eq_true', not_or, Bool.not_eq_false, Bool.not_eq_true] at h2
    exact ⟨(isDigit_iff U c).1 h2.1, by simpa using h2.2⟩

theorem dropWhile_not_dig (U : Uni) (s : Text) : ∀ c, (s.dropWhile (isDigit U)).head? = some c → ¬ Dig U c := by
  intro c hc h
  have := dropWhile_head _ _ _ hc
  rw [(isDigit_iff U c).2 h] at this; simp at this

theorem takeWhile_dig (U : Uni) (s : Text) : ∀ c ∈ s.takeWhile (isDigit U), Dig U c := by
  intro c hc
  exact (isDigit_iff U c).1 (takeWhile_all _ _ c hc)

/-- A text which contains a character that is a digit but not a decimal one. -/
def OddDigit (U : Uni) (s : Text) : Prop := ∃ c ∈ s, Dig U c ∧ digitVal U c = none

/-- The exponent of a number: `src` and `s` are what is read and what is left. -/
theorem consumeExponent_spec (U : Uni) (sign : Option Nat) (hsg : Sign sign.toList) (ds fr s : Text) (integer : Bool)
    (hds : ∀ c ∈ ds, Dig U c) (hne : ds ≠ [] ∨ fr ≠ [])
    (hfr : fr = [] ∨ ∃ fs, fr = 46 :: fs ∧ Digits U fs)
    (hint : integer = true ↔ fr = [])
    (hlen : integer = true → 2 ≤ s.length)
    (hnext : ∀ c, s.head? = some c → ¬ Dig U c)
    (hdot : integer = true → ∀ d t, s = 46 :: d :: t → ¬ Dig U d) :
    (consumeExponent U sign ds (sign.toList ++ ds ++ fr) integer s = .error .badNumber ∧
      OddDigit U (sign.toList ++ ds ++ fr ++ s)) ∨
    ∃ p n i r, consumeExponent U sign ds (sign.toList ++ ds ++ fr) integer s = .ok ((n, i), r) ∧
      sign.toList ++ ds ++ fr ++ s = p ++ r ∧ Number U p r (numStr U n) ∧ (r = [] → ∃ x, (p ++ r).getLast? = some x ∧ Dig U x) := by
  have hlast : ∀ (l : Text), Digits U l → ∃ x, l.getLast? = some x ∧ Dig U x := by
    intro l hl
    obtain ⟨x, hx⟩ : ∃ x, l.getLast? = some x := by
      cases h : l.getLast? with
      | none => simp at h; exact absurd h hl.1
      | some x => exact ⟨x, rfl⟩
    exact ⟨x, hx, hl.2 x (List.mem_of_getLast? hx)⟩
  have hsd : ∀ c ∈ sign.toList, ¬ Dig U c := by
    intro c hc
    rcases hsg with h | h | h <;> rw [h] at hc <;> simp at hc <;> subst hc <;> simp [Dig]
  unfold consumeExponent
  by_cases hl2 : s.length < 2
  · rw [if_pos hl2]
    have hfrn : fr ≠ [] := fun h => absurd (hlen (hint.2 h)) (by omega)
    cases hf : toFloat U (sign.toList ++ ds ++ fr) with
    | error e =>
      obtain ⟨rfl, c, hc, h⟩ := toFloat_error hf
      exact Or.inl ⟨rfl, c, List.mem_append_left _ hc, h⟩
    | ok n =>
      have := toFloat_spec hf; subst this
      refine Or.inr ⟨sign.toList ++ ds ++ fr, _, _, s, rfl, rfl, ?_, ?_⟩
      · have := Number.float (U := U) (next := s) (ex := []) hsg hds hfr (Or.inl rfl) hne (Or.inl hfrn) hnext
        simpa [numStr] using this
      · intro hs; subst hs
        rcases hfr with h | ⟨fs, h, h2⟩
        · exact absurd h hfrn
        · obtain ⟨x, hx, hx2⟩ := hlast fs h2
          refine ⟨x, ?_, hx2⟩
          rw [h, List.append_nil, List.getLast?_append, List.getLast?_cons, hx]
          rfl
  · rw [if_neg hl2]
    obtain ⟨a, b, t, rfl⟩ : ∃ a b t, s = a :: b :: t := by
      match s with
      | [] => simp at hl2
      | [a] => simp at hl2
      | a :: b :: t => exact ⟨a, b, t, rfl⟩
    have hd2 : (a :: b :: t).drop 2 = t := rfl
    have hd1 : ((a :: b :: t).drop 1).headD 0 = b := rfl
    have hd0 : (a :: b :: t).headD 0 = a := rfl
    rw [hd2, hd1, hd0]
    dsimp only
    by_cases hx : (a = 101 ∨ a = 69) ∧ (isDigit U b = true ∨ ((b = 43 ∨ b = 45) ∧ t.head?.any (isDigit U) = true))
    · rw [if_pos hx]
      have he : ∃ sg' es, Sign sg' ∧ Digits U es ∧ [b] ++ t.takeWhile (isDigit U) = sg' ++ es := by
        rcases hx.2 with hb | ⟨hb, ht⟩
        · refine ⟨[], [b] ++ t.takeWhile (isDigit U), Or.inl rfl, ⟨by simp, ?_⟩, rfl⟩
          intro c hc
          rcases List.mem_append.1 hc with hc | hc
          · simp at hc; subst hc; exact (isDigit_iff U c).1 hb
          · exact takeWhile_dig U t c hc
        · refine ⟨[b], t.takeWhile (isDigit U), by rcases hb with rfl | rfl <;> simp [Sign], ⟨?_, takeWhile_dig U t⟩, rfl⟩
          cases t with
          | nil => simp at ht
          | cons x t => simp at ht; simp [ht]
      obtain ⟨sg', es, hs', hes, heq⟩ := he
      have hsrc : sign.toList ++ ds ++ fr ++ (a :: b :: t).take 2 ++ t.takeWhile (isDigit U) =
          sign.toList ++ ds ++ fr ++ (a :: (sg' ++ es)) := by
        rw [← heq]; simp
      rw [hsrc]
      have htw : t = t.takeWhile (isDigit U) ++ t.dropWhile (isDigit U) := List.takeWhile_append_dropWhile.symm
      have hall : sign.toList ++ ds ++ fr ++ (a :: b :: t) =
          (sign.toList ++ ds ++ fr ++ (a :: (sg' ++ es))) ++ t.dropWhile (isDigit U) := by
        rw [← heq]; simp
      cases hf : toFloat U (sign.toList ++ ds ++ fr ++ (a :: (sg' ++ es))) with
      | error e =>
        obtain ⟨rfl, c, hc, h⟩ := toFloat_error hf
        refine Or.inl ⟨rfl, c, ?_, h⟩
        rw [hall]; exact List.mem_append_left _ hc
      | ok n =>
        have := toFloat_spec hf; subst this
        refine Or.inr ⟨_, _, _, _, rfl, hall, ?_, ?_⟩
        · have := Number.float (U := U) (next := t.dropWhile (isDigit U)) (ex := a :: (sg' ++ es)) hsg hds hfr
            (Or.inr ⟨a, sg', es, hx.1, hs', hes, rfl⟩) hne (Or.inr (by simp)) (dropWhile_not_dig U t)
          simpa [numStr] using this
        · intro hr; rw [hr]
          obtain ⟨x, hx, hx2⟩ := hlast es hes
          refine ⟨x, ?_, hx2⟩
          rw [List.append_nil, List.getLast?_append, List.getLast?_cons, List.getLast?_append, hx]
          rfl
    · rw [if_neg hx]
      have hexp : ∀ e d t', (a :: b :: t) = e :: d :: t' → e = 101 ∨ e = 69 →
          ¬ Dig U d ∧ ((d = 43 ∨ d = 45) → ∀ c, t'.head? = some c → ¬ Dig U c) := by
        intro e d t' h he
        simp only [List.cons.injEq] at h
        obtain ⟨rfl, rfl, rfl⟩ := h
        refine ⟨fun hd => hx ⟨he, Or.inl ((isDigit_iff U b).2 hd)⟩, fun hb c hc hd => hx ⟨he, Or.inr ⟨hb, ?_⟩⟩⟩
        rw [hc]; exact (isDigit_iff U c).2 hd
      cases integer with
      | true =>
        rw [if_pos rfl]
        have hfr0 := hint.1 rfl
        subst hfr0
        have hdn : ds ≠ [] := by simpa using hne
        cases hf : toInt U sign ds with
        | error e =>
          obtain ⟨rfl, c, hc, h⟩ := toInt_error hf hdn
          exact Or.inl ⟨rfl, c, by simp [hc], hds c hc, h⟩
        | ok n =>
          refine Or.inr ⟨sign.toList ++ ds, _, _, _, rfl, by simp, ?_, by simp⟩
          refine .int hsg ⟨hdn, hds⟩ hnext (hdot rfl) hexp ?_
          intro hasc
          apply (toInt_spec hf).2
          intro c hc
          have h1 := hds c hc
          have h2 := hasc c hc
          unfold Dig at h1; omega
      | false =>
        rw [if_neg (by simp)]
        have hfrn : fr ≠ [] := by
          intro h; have := hint.2 h; simp at this
        cases hf : toFloat U (sign.toList ++ ds ++ fr) with
        | error e =>
          obtain ⟨rfl, c, hc, h⟩ := toFloat_error hf
          exact Or.inl ⟨rfl, c, List.mem_append_left _ hc, h⟩
        | ok n =>
          have := toFloat_spec hf; subst this
          refine Or.inr ⟨sign.toList ++ ds ++ fr, _, _, _, rfl, rfl, ?_, by simp⟩
          have := Number.float (U := U) (next := a :: b :: t) (ex := []) hsg hds hfr (Or.inl rfl) hne (Or.inl hfrn) hnext
          simpa [numStr] using this

theorem consumeNumber_spec (U : Uni) (s : Text) (h : NumberStart U s ∨ ∃ c, s.head? = some c ∧ Dig U c) :
    (consumeNumber U s = .error .badNumber ∧ OddDigit U s) ∨
    ∃ p n i r, consumeNumber U s = .ok ((n, i), r) ∧ s = p ++ r ∧ Number U p r (numStr U n) ∧
      (r = [] → ∃ x, s.getLast? = some x ∧ Dig U x) := by
  unfold consumeNumber
  dsimp only
  -- the sign
  obtain ⟨sign, s1, hsign, hs1, hs, hsg⟩ : ∃ sign s1,
      (if s.head? = some 43 ∨ s.head? = some 45 then s.head? else none) = sign ∧
      (if s.head? = some 43 ∨ s.head? = some 45 then s.drop 1 else s) = s1 ∧
      s = sign.toList ++ s1 ∧ Sign sign.toList := by
    by_cases h1 : s.head? = some 43 ∨ s.head? = some 45
    · refine ⟨_, _, rfl, rfl, ?_, ?_⟩
      · rw [if_pos h1, if_pos h1]
        cases s with
        | nil => simp at h1
        | cons => simp
      · rw [if_pos h1]
        rcases h1 with h1 | h1 <;> rw [h1] <;> simp [Sign]
    · refine ⟨_, _, rfl, rfl, ?_, ?_⟩
      · rw [if_neg h1, if_neg h1]; simp
      · rw [if_neg h1]; simp [Sign]
  rw [hsign, hs1]
  have hds := takeWhile_dig U s1
  have hnx := dropWhile_not_dig U s1
  have htw : s1 = s1.takeWhile (isDigit U) ++ s1.dropWhile (isDigit U) := List.takeWhile_append_dropWhile.symm
  -- what the start says about the digits
  have hstart : s1.takeWhile (isDigit U) ≠ [] ∨ ∃ d t, s1 = 46 :: d :: t ∧ Dig U d := by
    have key : ∀ d, s1.head? = some d → Dig U d → s1.takeWhile (isDigit U) ≠ [] := by
      intro d hd hdd
      cases s1 with
      | nil => simp at hd
      | cons x t =>
        simp at hd; subst hd
        simp [(isDigit_iff U x).2 hdd]
    rcases h with ⟨a, b, c, t, rfl, h⟩ | ⟨c, hc, hd⟩
    · have hnodig : ∀ x, Sign [x] → ¬ Dig U x := by
        intro x hx; simp [Sign] at hx; rcases hx with rfl | rfl <;> simp [Dig]
      by_cases h1 : a = 43 ∨ a = 45
      · have hs1' : s1 = b :: c :: t := by
          rw [← hs1]; rcases h1 with rfl | rfl <;> simp
        have ha : ¬ Dig U a := hnodig a (by rcases h1 with rfl | rfl <;> simp [Sign])
        rcases h with h | h | ⟨_, h | ⟨rfl, h⟩⟩
        · exact absurd h ha
        · omega
        · exact Or.inl (key b (by rw [hs1']; rfl) h)
        · exact Or.inr ⟨c, t, hs1', h⟩
      · have hs1' : s1 = a :: b :: c :: t := by
          rw [← hs1, if_neg (by simpa using h1)]
        rcases h with h | ⟨rfl, h⟩ | ⟨h, _⟩
        · exact Or.inl (key a (by rw [hs1']; rfl) h)
        · exact Or.inr ⟨b, c :: t, hs1', h⟩
        · exact absurd h h1
    · have h1 : ¬ (s.head? = some 43 ∨ s.head? = some 45) := by
        rw [hc]; rintro (h | h) <;> simp at h <;> subst h <;> simp [Dig] at hd
      rw [if_neg h1] at hs1
      subst hs1
      exact Or.inl (key c hc hd)
  generalize hdg : s1.takeWhile (isDigit U) = ds at *
  generalize hdr : s1.dropWhile (isDigit U) = s2 at *
  have hno : ¬ (s2 = [] ∧ ds = []) := by
    rintro ⟨h1, h2⟩
    rcases hstart with h | ⟨d, t, h, _⟩
    · exact h h2
    · rw [htw, h1, h2] at h; simp at h
  rw [if_neg hno]
  have hdot_of : ds = [] → ∃ d t, s2 = 46 :: d :: t ∧ Dig U d := by
    intro h0
    rcases hstart with h | ⟨d, t, h, h2⟩
    · exact absurd h0 h
    · rw [htw, h0] at h; exact ⟨d, t, by simpa using h, h2⟩
  by_cases hl : s2.length < 2
  · rw [if_pos hl]
    have hdn : ds ≠ [] := by
      intro h0
      obtain ⟨d, t, h, _⟩ := hdot_of h0
      rw [h] at hl; simp at hl; omega
    cases hf : toInt U sign ds with
    | error e =>
      obtain ⟨rfl, c, hc, h⟩ := toInt_error hf hdn
      refine Or.inl ⟨rfl, c, ?_, hds c hc, h⟩
      rw [hs, htw]; simp [hc]
    | ok n =>
      refine Or.inr ⟨sign.toList ++ ds, _, _, _, rfl, by rw [hs, htw]; simp, ?_, ?_⟩
      · refine .int hsg ⟨hdn, hds⟩ hnx ?_ ?_ ?_
        · intro d t h; rw [h] at hl; simp at hl; omega
        · intro e d t h; rw [h] at hl; simp at hl; omega
        · intro hasc
          apply (toInt_spec hf).2
          intro c hc
          have h1 := hds c hc
          have h2 := hasc c hc
          unfold Dig at h1; omega
      · intro hr
        obtain ⟨x, hx⟩ : ∃ x, ds.getLast? = some x := by
          cases h : ds.getLast? with
          | none => simp at h; exact absurd h hdn
          | some x => exact ⟨x, rfl⟩
        refine ⟨x, ?_, hds x (List.mem_of_getLast? hx)⟩
        rw [hs, htw, hr, List.append_nil, List.getLast?_append, hx]; rfl
  · rw [if_neg hl]
    by_cases hd : s2.head? = some 46 ∧ (s2.drop 1).head?.any (isDigit U) = true
    · rw [if_pos hd]
      obtain ⟨d, t, rfl, hdd⟩ : ∃ d t, s2 = 46 :: d :: t ∧ Dig U d := by
        match s2 with
        | [] => simp at hd
        | [a] => simp at hd
        | a :: b :: t => simp at hd; exact ⟨b, t, by rw [hd.1], (isDigit_iff U b).1 hd.2⟩
      have hd1 : (46 :: d :: t).drop 1 = d :: t := rfl
      rw [hd1]
      have hfs : Digits U ((d :: t).takeWhile (isDigit U)) :=
        ⟨by simp [(isDigit_iff U d).2 hdd], takeWhile_dig U _⟩
      have := consumeExponent_spec U sign hsg ds (46 :: (d :: t).takeWhile (isDigit U)) ((d :: t).dropWhile (isDigit U))
        false hds (Or.inr (by simp)) (Or.inr ⟨_, rfl, hfs⟩) (by simp) (by simp) (dropWhile_not_dig U _) (by simp)
      have hall : sign.toList ++ ds ++ 46 :: (d :: t).takeWhile (isDigit U) ++ (d :: t).dropWhile (isDigit U) = s := by
        rw [hs, htw, List.append_assoc, List.cons_append, List.takeWhile_append_dropWhile]; simp
      rw [hall] at this
      have hsrc : sign.toList ++ ds ++ [46] ++ (d :: t).takeWhile (isDigit U) =
          sign.toList ++ ds ++ 46 :: (d :: t).takeWhile (isDigit U) := by simp
      rw [hsrc]
      rcases this with h | ⟨p, n, i, r, h1, h2, h3, h4⟩
      · exact Or.inl h
      · exact Or.inr ⟨p, n, i, r, h1, h2, h3, by rw [h2]; exact h4⟩
    · rw [if_neg hd]
      have hdot : ∀ d t, s2 = 46 :: d :: t → ¬ Dig U d := by
        rintro d t rfl hdd
        exact hd ⟨rfl, by simpa using (isDigit_iff U d).2 hdd⟩
      have hdn : ds ≠ [] := by
        intro h0
        obtain ⟨d, t, h1, h2⟩ := hdot_of h0
        exact hdot d t h1 h2
      have := consumeExponent_spec U sign hsg ds [] s2 true hds (Or.inl hdn) (Or.inl rfl) (by simp) (by omega) hnx
        (fun _ => hdot)
      have hall : sign.toList ++ ds ++ [] ++ s2 = s := by rw [hs, htw]; simp
      rw [hall, List.append_nil] at this
      rcases this with h | ⟨p, n, i, r, h1, h2, h3, h4⟩
      · exact Or.inl h
      · exact Or.inr ⟨p, n, i, r, h1, h2, h3, by rw [h2]; exact h4⟩

end Verif.Css
