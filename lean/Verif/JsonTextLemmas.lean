import Verif.JsonText
import Mathlib.Data.Nat.Digits.Lemmas
/-! # Lemmas about the reading of JSON texts: what follows a value does not change how it is read -/
namespace Verif.JsonText
open Verif Verif.Reader

theorem eat_some {c : Nat} {t r : Text} (h : eat c t = some r) : t = c :: r := by
  cases t with
  | nil => cases h
  | cons d t =>
    simp only [eat] at h
    split at h
    · next e => cases h; rw [e]
    · cases h

theorem eat_self (c : Nat) (r : Text) : eat c (c :: r) = some r := by simp [eat]

theorem eat_ne {c d : Nat} (h : d ≠ c) (r : Text) : eat c (d :: r) = none := by simp [eat, h]

theorem eat_append {c : Nat} {t r : Text} (h : eat c t = some r) (s : Text) : eat c (t ++ s) = some (r ++ s) := by
  rw [eat_some h]; exact eat_self ..

theorem eat_none_append {c : Nat} {t : Text} (h : eat c t = none) (ht : t ≠ []) (s : Text) : eat c (t ++ s) = none := by
  cases t with
  | nil => exact absurd rfl ht
  | cons d t =>
    simp only [eat, List.cons_append] at h ⊢
    split at h
    · cases h
    · next e => simp [e]

theorem eat_ne_nil {c : Nat} {t r : Text} (h : eat c t = some r) : t ≠ [] := by
  rw [eat_some h]; simp

theorem ws_append {t : Text} (h : ws t ≠ []) (s : Text) : ws (t ++ s) = ws t ++ s := by
  induction t with
  | nil => exact absurd rfl h
  | cons c t ih =>
    unfold ws at h ih ⊢
    rw [List.dropWhile_cons] at h
    simp only [List.cons_append, List.dropWhile_cons]
    split
    · next e => rw [if_pos e] at h; exact ih h
    · rfl

theorem ws_length (t : Text) : (ws t).length ≤ t.length := (List.dropWhile_sublist _).length_le

theorem ws_cons {c : Nat} (h : isSpace c = false) (r : Text) : ws (c :: r) = c :: r := by
  simp [ws, h]

theorem ws_ws (t : Text) : ws (ws t) = ws t := by
  induction t with
  | nil => rfl
  | cons c t ih =>
    unfold ws at ih ⊢
    rw [List.dropWhile_cons]
    split
    · exact ih
    · next h => rw [List.dropWhile_cons, if_neg h]

/-! ## Strings -/

theorem prepend_ok {l v r : Text} {x : Except Fail (Text × Text)} (h : prepend l x = .ok (v, r)) :
    ∃ v', x = .ok (v', r) ∧ v = l ++ v' := by
  cases x with
  | error e => cases h
  | ok p => cases h; exact ⟨_, rfl, rfl⟩

theorem prepend_fuel {l : Text} {x : Except Fail (Text × Text)} (h : x ≠ .error .fuel) : prepend l x ≠ .error .fuel := by
  cases x with
  | error e => exact fun e' => h (by cases e'; rfl)
  | ok p => exact fun e => by cases e

theorem scanString_append (s : Text) (t : Text) (h : Option Nat) (v r : Text)
    (hv : scanString h t = .ok (v, r)) : scanString h (t ++ s) = .ok (v, r ++ s) := by
  fun_induction scanString h t generalizing v r
  all_goals first
    | (cases hv; done)
    | (cases hv; rw [List.cons_append, scanString.eq_def]; simp; done)
    | (rename_i ih
       obtain ⟨v', hv', rfl⟩ := prepend_ok hv
       have := ih _ _ hv'
       simp only [List.cons_append]; rw [scanString.eq_def]; simp_all [prepend]; done)
    | (rename_i ih
       have := ih _ _ hv
       simp_all [scanString]; done)

theorem scanString_length (t : Text) (h : Option Nat) (v r : Text)
    (hv : scanString h t = .ok (v, r)) : r.length < t.length := by
  fun_induction scanString h t generalizing v r
  all_goals first
    | (cases hv; done)
    | (cases hv; simp; done)
    | (rename_i ih
       obtain ⟨v', hv', _⟩ := prepend_ok hv
       have := ih _ _ hv'
       simp only [List.length_cons]; omega)
    | (rename_i ih
       have := ih _ _ hv
       simp only [List.length_cons]; omega)

theorem scanString_fuel (t : Text) (h : Option Nat) : scanString h t ≠ .error .fuel := by
  fun_induction scanString h t
  all_goals first
    | (intro e; cases e; done)
    | (apply prepend_fuel; assumption)
    | assumption

/-! ## Numbers -/

/-- The text goes on with a character which cannot be part of a number. -/
def Stop (t : Text) : Prop := ∃ c r, t = c :: r ∧ isDigit c = false ∧ c ≠ 46 ∧ c ≠ 101 ∧ c ≠ 69

theorem span_append {s : Text} : ∀ {t : Text}, (∀ c r, t.dropWhile isDigit ++ s = c :: r → isDigit c = false) →
    (t ++ s).takeWhile isDigit = t.takeWhile isDigit ∧ (t ++ s).dropWhile isDigit = t.dropWhile isDigit ++ s
  | [], h => by
    cases s with
    | nil => simp
    | cons c r =>
      have := h c r rfl
      simp [this]
  | c :: t, h => by
    by_cases e : isDigit c
    · rw [List.dropWhile_cons, if_pos e] at h
      have := span_append (t := t) h
      simp [e, this.1, this.2]
    · simp [e]

theorem digits1_append {t ds r s : Text} (h : digits1 t = some (ds, r))
    (hs : ∃ c q, r ++ s = c :: q ∧ isDigit c = false) :
    digits1 (t ++ s) = some (ds, r ++ s) := by
  cases t with
  | nil => cases h
  | cons c t =>
    simp only [digits1] at h
    split at h
    · next e =>
      simp only [Option.some.injEq, Prod.mk.injEq] at h
      obtain ⟨rfl, rfl⟩ := h
      obtain ⟨x, y, hx, hd⟩ := hs
      have := span_append (t := t) (s := s) (fun c r h => by rw [hx] at h; cases h; exact hd)
      simp only [List.cons_append, digits1, e, if_true, this.1, this.2]
    · cases h

theorem digits1_none {t : Text} (h : digits1 t = none) (ht : t ≠ []) (s : Text) : digits1 (t ++ s) = none := by
  cases t with
  | nil => exact absurd rfl ht
  | cons c t =>
    simp only [digits1, List.cons_append] at h ⊢
    split at h
    · cases h
    · next e => simp [e]

theorem Stop.ne_nil {t : Text} (h : Stop t) : t ≠ [] := by
  obtain ⟨c, r, rfl, _⟩ := h; simp

theorem either_append {a b : Nat} {t : Text} (ht : t ≠ []) (s : Text) :
    either a b (t ++ s) = ((either a b t).1, (either a b t).2 ++ s) := by
  cases t with
  | nil => exact absurd rfl ht
  | cons c t =>
    simp only [List.cons_append, either]
    split <;> simp

theorem either_cases (a b : Nat) (t : Text) :
    ((either a b t).1 = [] ∧ (either a b t).2 = t) ∨ ∃ c r, t = c :: r ∧ (c = a ∨ c = b) ∧ either a b t = ([c], r) := by
  cases t with
  | nil => exact .inl ⟨rfl, rfl⟩
  | cons c t =>
    simp only [either]
    split
    · next h => exact .inr ⟨c, t, rfl, h, rfl⟩
    · exact .inl ⟨rfl, rfl⟩

theorem expPart_append {t s : Text} (hs : Stop ((expPart t).2 ++ s)) :
    expPart (t ++ s) = ((expPart t).1, (expPart t).2 ++ s) := by
  rcases either_cases 101 69 t with ⟨h1, h2⟩ | ⟨c, r, rfl, hc, he⟩
  · have hp : expPart t = ([], t) := by simp [expPart, h1]
    rw [hp] at hs ⊢
    obtain ⟨x, y, hx, _, _, h101, h69⟩ := hs
    simp only at hx ⊢
    rw [hx]
    simp [expPart, either, h101, h69]
  · have he' : either 101 69 (c :: r ++ s) = ([c], r ++ s) := by
      rw [either_append (by simp), he]
    have key : ∀ x : Option (Text × Text), digits1 (either 43 45 r).2 = x → expPart (c :: r) =
        match x with | none => ([], c :: r) | some (ds, r') => ([c] ++ (either 43 45 r).1 ++ ds, r') := by
      rintro x rfl
      simp only [expPart, he, List.cons_ne_nil, if_false]
      cases digits1 (either 43 45 r).2 <;> rfl
    have key' : ∀ x : Option (Text × Text), digits1 (either 43 45 (r ++ s)).2 = x → expPart (c :: r ++ s) =
        match x with | none => ([], c :: r ++ s) | some (ds, r') => ([c] ++ (either 43 45 (r ++ s)).1 ++ ds, r') := by
      rintro x rfl
      simp only [expPart, he', List.cons_ne_nil, if_false]
      cases digits1 (either 43 45 (r ++ s)).2 <;> rfl
    rcases hd : digits1 (either 43 45 r).2 with _ | ⟨ds, r'⟩
    · exfalso
      rw [key _ hd] at hs
      obtain ⟨x, y, hx, _, _, h1, h2⟩ := hs
      simp only [List.cons_append, List.cons.injEq] at hx
      rcases hc with rfl | rfl
      · exact h1 hx.1.symm
      · exact h2 hx.1.symm
    · rw [key _ hd] at hs ⊢
      have hr : r ≠ [] := by rintro rfl; simp [either, digits1] at hd
      have h1 := either_append (a := 43) (b := 45) hr s
      have h2 : digits1 (either 43 45 (r ++ s)).2 = some (ds, r' ++ s) := by
        rw [h1]; exact digits1_append hd (by obtain ⟨c, q, h, hc, _⟩ := hs; exact ⟨c, q, h, hc⟩)
      rw [key' _ h2, h1]

theorem fracPart_append {t s : Text} (hs : Stop ((expPart (fracPart t).2).2 ++ s)) :
    fracPart (t ++ s) = ((fracPart t).1, (fracPart t).2 ++ s) := by
  have hexp : ∀ u c r, u = c :: r → c ≠ 101 → c ≠ 69 → (expPart u).2 = u := by
    rintro u c r rfl h1 h2
    simp [expPart, either, h1, h2]
  rcases he : eat 46 t with _ | r
  · have hf : fracPart t = ([], t) := by simp [fracPart, he]
    rw [hf] at hs ⊢
    cases t with
    | nil =>
      obtain ⟨x, y, hx, _, h46, _⟩ := hs
      have : s = x :: y := by simpa [expPart, either] using hx
      subst this
      simp [fracPart, eat, h46]
    | cons c t =>
      have := eat_none_append he (by simp) s
      unfold fracPart
      rw [this]
  · rcases hd : digits1 r with _ | ⟨ds, r'⟩
    · exfalso
      have hf : fracPart t = ([], t) := by simp [fracPart, he, hd]
      rw [hf] at hs
      have ht := eat_some he
      rw [hexp t 46 r ht (by decide) (by decide)] at hs
      obtain ⟨x, y, hx, _, h46, _⟩ := hs
      rw [ht] at hx
      simp only [List.cons_append, List.cons.injEq] at hx
      exact h46 hx.1.symm
    · have hf : fracPart t = (46 :: ds, r') := by simp [fracPart, he, hd]
      rw [hf] at hs ⊢
      have hstop : ∃ c q, r' ++ s = c :: q ∧ isDigit c = false := by
        rcases either_cases 101 69 r' with ⟨h1, h2⟩ | ⟨c, q, rfl, hc, _⟩
        · have : expPart r' = ([], r') := by simp [expPart, h1]
          rw [this] at hs
          obtain ⟨c, q, h, hc, _⟩ := hs
          exact ⟨c, q, h, hc⟩
        · refine ⟨c, q ++ s, rfl, ?_⟩
          rcases hc with rfl | rfl <;> rfl
      unfold fracPart
      rw [eat_append he s]
      simp only [digits1_append hd hstop]

theorem intPart_append {t i r s : Text} (h : intPart t = some (i, r)) (hs : Stop ((expPart (fracPart r).2).2 ++ s)) :
    intPart (t ++ s) = some (i, r ++ s) := by
  have hstop : ∃ c q, r ++ s = c :: q ∧ isDigit c = false := by
    have hf := fracPart_append hs
    have he := expPart_append hs
    rcases hfr : eat 46 r with _ | u
    · have h1 : fracPart r = ([], r) := by simp [fracPart, hfr]
      rw [h1] at hs
      rcases either_cases 101 69 r with ⟨h1, h2⟩ | ⟨c, q, rfl, hc, _⟩
      · have : expPart r = ([], r) := by simp [expPart, h1]
        rw [this] at hs
        obtain ⟨c, q, h, hc, _⟩ := hs
        exact ⟨c, q, h, hc⟩
      · exact ⟨c, q ++ s, rfl, by rcases hc with rfl | rfl <;> rfl⟩
    · rw [eat_some hfr]; exact ⟨46, u ++ s, rfl, rfl⟩
  unfold intPart at h ⊢
  rcases he : eat 48 t with _ | u
  · rw [he] at h
    simp only at h
    have ht : t ≠ [] := by rintro rfl; cases h
    rw [eat_none_append he ht]
    exact digits1_append h hstop
  · rw [he] at h
    cases h
    rw [eat_append he]

theorem unsigned_append {neg : Bool} {t r s : Text} {v : Value} (h : unsigned neg t = some (v, r)) (hs : Stop (r ++ s)) :
    unsigned neg (t ++ s) = some (v, r ++ s) := by
  rcases hi : intPart t with _ | ⟨i, q⟩
  · simp [unsigned, hi] at h
  · have hr : r = (expPart (fracPart q).2).2 := by
      simp only [unsigned, hi] at h
      split at h <;> cases h <;> rfl
    rw [hr] at hs
    have h1 := intPart_append hi hs
    have h2 := fracPart_append hs
    have h3 := expPart_append hs
    simp only [unsigned, hi] at h
    simp only [unsigned, h1, h2, h3]
    split at h
    · next hc => rw [if_pos hc]; cases h; rfl
    · next hc => rw [if_neg hc]; cases h; rfl

theorem number_append {t r s : Text} {v : Value} (h : number t = some (v, r)) (hs : Stop (r ++ s)) :
    number (t ++ s) = some (v, r ++ s) := by
  unfold number at h ⊢
  rcases he : eat 45 t with _ | u
  · rw [he] at h
    have ht : t ≠ [] := by rintro rfl; cases h
    rw [eat_none_append he ht]
    exact unsigned_append h hs
  · rw [he] at h
    rw [eat_append he]
    exact unsigned_append h hs

theorem intPart_head {t i r : Text} (h : intPart t = some (i, r)) : ∃ d q, t = d :: q ∧ isDigit d = true := by
  unfold intPart at h
  rcases he : eat 48 t with _ | u
  · rw [he] at h
    cases t with
    | nil => cases h
    | cons d q =>
      simp only [digits1] at h
      split at h
      · next hd => exact ⟨d, q, rfl, hd⟩
      · cases h
  · rw [eat_some he]; exact ⟨48, u, rfl, rfl⟩

theorem number_head {t r : Text} {v : Value} (h : number t = some (v, r)) :
    ∃ d q, isDigit d = true ∧ (t = d :: q ∨ t = 45 :: d :: q) := by
  have hu : ∀ {neg : Bool} {t : Text}, unsigned neg t = some (v, r) → ∃ d q, t = d :: q ∧ isDigit d = true := by
    intro neg t h
    rcases hi : intPart t with _ | ⟨i, q⟩
    · simp [unsigned, hi] at h
    · exact intPart_head hi
  unfold number at h
  rcases he : eat 45 t with _ | u
  · rw [he] at h
    obtain ⟨d, q, e, hd⟩ := hu h
    exact ⟨d, q, hd, .inl e⟩
  · rw [he] at h
    obtain ⟨d, q, e, hd⟩ := hu h
    exact ⟨d, q, hd, .inr (by rw [eat_some he, e])⟩

theorem word_append {w t r : Text} (h : word w t = some r) (s : Text) : word w (t ++ s) = some (r ++ s) := by
  induction w generalizing t with
  | nil => cases h; rfl
  | cons c w ih =>
    simp only [word] at h ⊢
    rcases he : eat c t with _ | u
    · rw [he] at h; cases h
    · rw [he] at h
      rw [eat_append he]
      exact ih h

theorem word_length {w t r : Text} (h : word w t = some r) : t.length = w.length + r.length := by
  induction w generalizing t with
  | nil => cases h; simp
  | cons c w ih =>
    simp only [word] at h
    rcases he : eat c t with _ | u
    · rw [he] at h; cases h
    · rw [he] at h
      have := ih h
      rw [eat_some he]
      simp only [List.length_cons]; omega

/-- A text which begins like a number is none of the words. -/
theorem atom_number {t : Text} {d : Nat} {q : Text} (hd : isDigit d = true) (ht : t = d :: q ∨ t = 45 :: d :: q) :
    atom t = number t := by
  have hlt : 48 ≤ d ∧ d ≤ 57 := by simpa [isDigit] using hd
  have hw : ∀ c w, c ≠ 45 → ¬ (48 ≤ c ∧ c ≤ 57) → word (c :: w) t = none := by
    intro c w h1 h2
    rcases ht with rfl | rfl
    · simp only [word, eat]
      rw [if_neg (by rintro rfl; exact h2 hlt)]
    · simp only [word, eat]
      rw [if_neg (by rintro rfl; exact h1 rfl)]
  have hm : ∀ w, word (45 :: 73 :: w) t = none := by
    intro w
    rcases ht with rfl | rfl
    · simp only [word, eat]
      rw [if_neg (by omega)]
    · simp only [word, eat, if_true]
      rw [if_neg (by omega)]
  unfold atom
  rw [hw 110 _ (by decide) (by omega), hw 116 _ (by decide) (by omega), hw 102 _ (by decide) (by omega),
    hw 78 _ (by decide) (by omega), hw 73 _ (by decide) (by omega), hm]

theorem word_head {c : Nat} {w t r : Text} (h : word (c :: w) t = some r) : ∃ q, t = c :: q := by
  simp only [word] at h
  rcases he : eat c t with _ | u
  · rw [he] at h; cases h
  · exact ⟨u, eat_some he⟩

theorem word_other {c d : Nat} {w q : Text} (h : d ≠ c) : word (c :: w) (d :: q) = none := by
  simp only [word, eat_ne h]

/-- What `atom` has read. -/
theorem atom_cases {t r : Text} {v : Value} (h : atom t = some (v, r)) :
    number t = some (v, r) ∨
      ∃ c w, word (c :: w) t = some r ∧ ∀ u u', word (c :: w) u = some u' → atom u = some (v, u') := by
  unfold atom at h
  split at h
  · next e =>
    cases h
    refine .inr ⟨_, _, e, fun u u' hu => ?_⟩
    simp only [atom, hu]
  split at h
  · next e =>
    cases h
    refine .inr ⟨_, _, e, fun u u' hu => ?_⟩
    have hu' := hu
    obtain ⟨q, rfl⟩ := word_head hu
    rw [atom, word_other (by decide), hu']
  split at h
  · next e =>
    cases h
    refine .inr ⟨_, _, e, fun u u' hu => ?_⟩
    have hu' := hu
    obtain ⟨q, rfl⟩ := word_head hu
    rw [atom, word_other (by decide), word_other (by decide), hu']
  split at h
  · next e =>
    cases h
    refine .inr ⟨_, _, e, fun u u' hu => ?_⟩
    have hu' := hu
    obtain ⟨q, rfl⟩ := word_head hu
    rw [atom, word_other (by decide), word_other (by decide), word_other (by decide), hu']
  split at h
  · next e =>
    cases h
    refine .inr ⟨_, _, e, fun u u' hu => ?_⟩
    have hu' := hu
    obtain ⟨q, rfl⟩ := word_head hu
    rw [atom, word_other (by decide), word_other (by decide), word_other (by decide), word_other (by decide), hu']
  split at h
  · next e =>
    cases h
    refine .inr ⟨_, _, e, fun u u' hu => ?_⟩
    have hu' := hu
    obtain ⟨q, rfl⟩ := word_head hu
    rw [atom, word_other (by decide), word_other (by decide), word_other (by decide), word_other (by decide),
      word_other (by decide), hu']
  exact .inl h

theorem atom_append {t r s : Text} {v : Value} (h : atom t = some (v, r)) (hs : Stop (r ++ s)) :
    atom (t ++ s) = some (v, r ++ s) := by
  rcases atom_cases h with hn | ⟨c, w, hw, ha⟩
  · obtain ⟨d, q, hd, ht⟩ := number_head hn
    have ht' : t ++ s = d :: (q ++ s) ∨ t ++ s = 45 :: d :: (q ++ s) := by
      rcases ht with rfl | rfl
      · exact .inl rfl
      · exact .inr rfl
    rw [atom_number hd ht']
    exact number_append hn hs
  · exact ha _ _ (word_append hw s)

theorem digits1_length {t ds r : Text} (h : digits1 t = some (ds, r)) : r.length < t.length := by
  cases t with
  | nil => cases h
  | cons c t =>
    simp only [digits1] at h
    split at h
    · cases h
      have := (List.dropWhile_sublist (l := t) isDigit).length_le
      simp only [List.length_cons]; omega
    · cases h

theorem fracPart_length (t : Text) : (fracPart t).2.length ≤ t.length := by
  unfold fracPart
  rcases he : eat 46 t with _ | u
  · simp
  · rcases hd : digits1 u with _ | ⟨ds, r⟩
    · simp [hd]
    · have := digits1_length hd
      rw [eat_some he]
      simp only [hd, List.length_cons]; omega

theorem either_length (a b : Nat) (t : Text) : (either a b t).2.length ≤ t.length := by
  rcases either_cases a b t with ⟨_, h⟩ | ⟨c, r, rfl, _, h⟩
  · rw [h]
  · rw [h]; simp

theorem expPart_length (t : Text) : (expPart t).2.length ≤ t.length := by
  unfold expPart
  simp only
  split
  · simp
  · rcases hd : digits1 (either 43 45 (either 101 69 t).2).2 with _ | ⟨ds, r⟩
    · simp
    · have := digits1_length hd
      have h1 := either_length 43 45 (either 101 69 t).2
      have h2 := either_length 101 69 t
      simp only; omega

theorem number_length {t r : Text} {v : Value} (h : number t = some (v, r)) : r.length < t.length := by
  have hu : ∀ {neg : Bool} {t : Text}, unsigned neg t = some (v, r) → r.length < t.length := by
    intro neg t h
    rcases hi : intPart t with _ | ⟨i, q⟩
    · simp [unsigned, hi] at h
    · have hr : r = (expPart (fracPart q).2).2 := by
        simp only [unsigned, hi] at h
        split at h <;> cases h <;> rfl
      have h1 := expPart_length (fracPart q).2
      have h2 := fracPart_length q
      have h3 : q.length < t.length := by
        unfold intPart at hi
        rcases he : eat 48 t with _ | u
        · rw [he] at hi; exact digits1_length hi
        · rw [he] at hi; cases hi
          rw [eat_some he]; simp
      rw [hr]; omega
  unfold number at h
  rcases he : eat 45 t with _ | u
  · rw [he] at h; exact hu h
  · rw [he] at h
    have := hu h
    rw [eat_some he]
    simp only [List.length_cons]; omega

theorem atom_length {t r : Text} {v : Value} (h : atom t = some (v, r)) : r.length < t.length := by
  rcases atom_cases h with hn | ⟨c, w, hw, _⟩
  · exact number_length hn
  · have := word_length hw
    simp only [List.length_cons] at this
    omega

/-! ## Values -/

/-- Values whose last character belongs to them whatever follows. -/
def Value.Solid : Value → Prop
  | .str _ | .arr _ | .obj _ => True
  | _ => False

theorem members_solid : ∀ {n : Nat} {acc : List (Text × Value)} {t r : Text} {v : Value},
    members n acc t = .ok (v, r) → v.Solid
  | 0, _, _, _, _, h => by simp [members] at h
  | n + 1, acc, t, r, v, h => by
    simp only [members] at h
    repeat' split at h
    all_goals first
      | (cases h; done)
      | (cases h; trivial)
      | exact members_solid h

theorem elements_solid : ∀ {n : Nat} {acc : List Value} {t r : Text} {v : Value},
    elements n acc t = .ok (v, r) → v.Solid
  | 0, _, _, _, _, h => by simp [elements] at h
  | n + 1, acc, t, r, v, h => by
    simp only [elements] at h
    repeat' split at h
    all_goals first
      | (cases h; done)
      | (cases h; trivial)
      | exact elements_solid h

/-- More fuel does not change a result. -/
theorem stable : ∀ (n m : Nat), n ≤ m →
    (∀ t, value n t ≠ .error .fuel → value m t = value n t) ∧
    (∀ acc t, members n acc t ≠ .error .fuel → members m acc t = members n acc t) ∧
    (∀ acc t, elements n acc t ≠ .error .fuel → elements m acc t = elements n acc t)
  | 0, _, _ => ⟨fun t h => absurd (by simp [value]) h, fun acc t h => absurd (by simp [members]) h,
      fun acc t h => absurd (by simp [elements]) h⟩
  | n + 1, 0, h => absurd h (by omega)
  | n + 1, m + 1, h => by
    obtain ⟨hv, hm, he⟩ := stable n m (by omega)
    refine ⟨fun t ht => ?_, fun acc t ht => ?_, fun acc t ht => ?_⟩
    · simp only [value] at ht ⊢
      rcases h1 : eat 34 t with _ | r
      · rw [h1] at ht
        rcases h2 : eat 123 t with _ | r
        · rw [h2] at ht
          rcases h3 : eat 91 t with _ | r
          · rfl
          · rw [h3] at ht
            simp only at ht ⊢
            rcases h4 : eat 93 (ws r) with _ | r'
            · rw [h4] at ht; exact he _ _ ht
            · rfl
        · rw [h2] at ht
          simp only at ht ⊢
          rcases h4 : eat 125 (ws r) with _ | r'
          · rw [h4] at ht; exact hm _ _ ht
          · rfl
      · rfl
    · simp only [members] at ht ⊢
      rcases h1 : eat 34 t with _ | r
      · rfl
      · rw [h1] at ht
        simp only at ht ⊢
        rcases h2 : scanString none r with e | ⟨k, r⟩
        · rfl
        · rw [h2] at ht
          simp only at ht ⊢
          rcases h3 : eat 58 (ws r) with _ | r
          · rfl
          · rw [h3] at ht
            simp only at ht ⊢
            have hne : value n (ws r) ≠ .error .fuel := by
              intro e; rw [e] at ht; exact ht rfl
            rw [hv _ hne]
            rcases h4 : value n (ws r) with e | ⟨v, r⟩
            · rfl
            · rw [h4] at ht
              simp only at ht ⊢
              rcases h5 : eat 125 (ws r) with _ | r'
              · rw [h5] at ht
                simp only at ht ⊢
                rcases h6 : eat 44 (ws r) with _ | r'
                · rfl
                · rw [h6] at ht; exact hm _ _ ht
              · rfl
    · simp only [elements] at ht ⊢
      have hne : value n t ≠ .error .fuel := by
        intro e; rw [e] at ht; exact ht rfl
      rw [hv _ hne]
      rcases h4 : value n t with e | ⟨v, r⟩
      · rfl
      · rw [h4] at ht
        simp only at ht ⊢
        rcases h5 : eat 93 (ws r) with _ | r'
        · rw [h5] at ht
          simp only at ht ⊢
          rcases h6 : eat 44 (ws r) with _ | r'
          · rfl
          · rw [h6] at ht; exact he _ _ ht
        · rfl

theorem eat_length {c : Nat} {t r : Text} (h : eat c t = some r) : t.length = r.length + 1 := by
  rw [eat_some h]; rfl

theorem eat_ws_length {c : Nat} {t r : Text} (h : eat c (ws t) = some r) : r.length < t.length := by
  have := eat_length h
  have := ws_length t
  omega

/-- Reading goes forward. -/
theorem shorter : ∀ (n : Nat),
    (∀ t v r, value n t = .ok (v, r) → r.length < t.length) ∧
    (∀ acc t v r, members n acc t = .ok (v, r) → r.length < t.length) ∧
    (∀ acc t v r, elements n acc t = .ok (v, r) → r.length < t.length)
  | 0 => ⟨fun t v r h => by simp [value] at h, fun acc t v r h => by simp [members] at h,
      fun acc t v r h => by simp [elements] at h⟩
  | n + 1 => by
    obtain ⟨hv, hm, he⟩ := shorter n
    refine ⟨fun t v r ht => ?_, fun acc t v r ht => ?_, fun acc t v r ht => ?_⟩
    · simp only [value] at ht
      split at ht
      · next r0 h1 =>
        have := eat_length h1
        split at ht
        · cases ht
        · next h2 => cases ht; have := scanString_length _ _ _ _ h2; omega
      split at ht
      · next r0 h1 =>
        have := eat_length h1
        have := ws_length r0
        split at ht
        · next h2 => cases ht; have := eat_ws_length h2; omega
        · have := hm _ _ _ _ ht; omega
      split at ht
      · next r0 h1 =>
        have := eat_length h1
        have := ws_length r0
        split at ht
        · next h2 => cases ht; have := eat_ws_length h2; omega
        · have := he _ _ _ _ ht; omega
      split at ht
      · next h1 => cases ht; exact atom_length h1
      · cases ht
    · simp only [members] at ht
      split at ht
      · cases ht
      next r0 h1 =>
      split at ht
      · cases ht
      next k r1 h2 =>
      split at ht
      · cases ht
      next r2 h3 =>
      split at ht
      · cases ht
      next w r3 h4 =>
      have e1 := eat_length h1
      have e2 := scanString_length _ _ _ _ h2
      have e3 := eat_ws_length h3
      have e4 := hv _ _ _ h4
      have e4' := ws_length r2
      split at ht
      · next h5 => cases ht; have := eat_ws_length h5; omega
      split at ht
      · next r4 h5 =>
        have := eat_ws_length h5
        have := hm _ _ _ _ ht
        have := ws_length r4
        omega
      · cases ht
    · simp only [elements] at ht
      split at ht
      · cases ht
      next w r3 h4 =>
      have e4 := hv _ _ _ h4
      split at ht
      · next h5 => cases ht; have := eat_ws_length h5; omega
      split at ht
      · next r4 h5 =>
        have := eat_ws_length h5
        have := he _ _ _ _ ht
        have := ws_length r4
        omega
      · cases ht

/-- The fuel is enough. -/
theorem enough : ∀ (n : Nat),
    (∀ t : Text, 2 * t.length + 1 ≤ n → value n t ≠ .error .fuel) ∧
    (∀ acc (t : Text), 2 * t.length + 2 ≤ n → members n acc t ≠ .error .fuel) ∧
    (∀ acc (t : Text), 2 * t.length + 2 ≤ n → elements n acc t ≠ .error .fuel)
  | 0 => ⟨fun t h => by omega, fun acc t h => by omega, fun acc t h => by omega⟩
  | n + 1 => by
    obtain ⟨hv, hm, he⟩ := enough n
    refine ⟨fun t hn ht => ?_, fun acc t hn ht => ?_, fun acc t hn ht => ?_⟩
    · simp only [value] at ht
      split at ht
      · next r0 h1 =>
        split at ht
        · next h2 => cases ht; exact scanString_fuel _ _ h2
        · cases ht
      split at ht
      · next r0 h1 =>
        have := eat_length h1
        have := ws_length r0
        split at ht
        · cases ht
        · exact hm _ _ (by omega) ht
      split at ht
      · next r0 h1 =>
        have := eat_length h1
        have := ws_length r0
        split at ht
        · cases ht
        · exact he _ _ (by omega) ht
      split at ht <;> cases ht
    · simp only [members] at ht
      split at ht
      · cases ht
      next r0 h1 =>
      split at ht
      · next h2 => cases ht; exact scanString_fuel _ _ h2
      next k r1 h2 =>
      split at ht
      · cases ht
      next r2 h3 =>
      have e1 := eat_length h1
      have e2 := scanString_length _ _ _ _ h2
      have e3 := eat_ws_length h3
      have e4' := ws_length r2
      split at ht
      · next h4 => cases ht; exact hv _ (by omega) h4
      next w r3 h4 =>
      have e4 := (shorter n).1 _ _ _ h4
      split at ht
      · cases ht
      split at ht
      · next r4 h5 =>
        have := eat_ws_length h5
        have := ws_length r4
        exact hm _ _ (by omega) ht
      · cases ht
    · simp only [elements] at ht
      split at ht
      · next h4 => cases ht; exact hv _ (by omega) h4
      next w r3 h4 =>
      have e4 := (shorter n).1 _ _ _ h4
      split at ht
      · cases ht
      split at ht
      · next r4 h5 =>
        have := eat_ws_length h5
        have := ws_length r4
        exact he _ _ (by omega) ht
      · cases ht

theorem stop_space {t : Text} {c : Nat} {q : Text} (h : ws t = c :: q) (hc : isDigit c = false ∧ c ≠ 46 ∧ c ≠ 101 ∧ c ≠ 69) (s : Text) :
    Stop (t ++ s) := by
  cases t with
  | nil => cases h
  | cons d t =>
    by_cases hd : isSpace d = true
    · refine ⟨d, t ++ s, rfl, ?_⟩
      have : d = 32 ∨ d = 9 ∨ d = 10 ∨ d = 13 := by simpa [isSpace, or_assoc] using hd
      rcases this with rfl | rfl | rfl | rfl <;> decide
    · rw [ws_cons (by simpa using hd)] at h
      cases h
      exact ⟨c, q ++ s, rfl, hc⟩

theorem eat_ws_append {c : Nat} {t r : Text} (h : eat c (ws t) = some r) (s : Text) : eat c (ws (t ++ s)) = some (r ++ s) := by
  rw [ws_append (eat_ne_nil h)]; exact eat_append h s

theorem eat_ws_none {c : Nat} {t : Text} (h : eat c (ws t) = none) (ht : ws t ≠ []) (s : Text) : eat c (ws (t ++ s)) = none := by
  rw [ws_append ht]; exact eat_none_append h ht s

/-- What follows a value does not change how it is read, unless it is a number which goes on. -/
theorem longer (s : Text) : ∀ (n : Nat),
    (∀ t v r, value n t = .ok (v, r) → v.Solid ∨ Stop (r ++ s) → value n (t ++ s) = .ok (v, r ++ s)) ∧
    (∀ acc t v r, members n acc t = .ok (v, r) → members n acc (t ++ s) = .ok (v, r ++ s)) ∧
    (∀ acc t v r, elements n acc t = .ok (v, r) → elements n acc (t ++ s) = .ok (v, r ++ s))
  | 0 => ⟨fun t v r h => by simp [value] at h, fun acc t v r h => by simp [members] at h,
      fun acc t v r h => by simp [elements] at h⟩
  | n + 1 => by
    obtain ⟨hv, hm, he⟩ := longer s n
    have hne : ∀ t v r, value n t = .ok (v, r) → t ≠ [] := by
      rintro _ v r h rfl
      have := (shorter n).1 _ _ _ h
      simp at this
    have hne1 : ∀ t v r, value (n + 1) t = .ok (v, r) → t ≠ [] := by
      rintro _ v r h rfl
      have := (shorter (n + 1)).1 _ _ _ h
      simp at this
    have hne2 : ∀ acc t v r, members n acc t = .ok (v, r) → t ≠ [] := by
      rintro acc _ v r h rfl
      have := (shorter n).2.1 _ _ _ _ h
      simp at this
    have hne3 : ∀ acc t v r, elements n acc t = .ok (v, r) → t ≠ [] := by
      rintro acc _ v r h rfl
      have := (shorter n).2.2 _ _ _ _ h
      simp at this
    refine ⟨fun t v r ht hs => ?_, fun acc t v r ht => ?_, fun acc t v r ht => ?_⟩
    · have tne := hne1 _ _ _ ht
      simp only [value] at ht ⊢
      split at ht
      · next r0 h1 =>
        rw [eat_append h1]
        split at ht
        · cases ht
        · next h2 => cases ht; simp only [scanString_append s _ _ _ _ h2]
      next h1 =>
      rw [eat_none_append h1 tne]
      split at ht
      · next r0 h1 =>
        rw [eat_append h1]
        split at ht
        · next h2 => cases ht; simp only [eat_ws_append h2]
        · next h2 =>
          have h3 := hne2 _ _ _ _ ht
          simp only [eat_ws_none h2 h3]
          rw [ws_append h3]
          exact hm _ _ _ _ ht
      next h1 =>
      rw [eat_none_append h1 tne]
      split at ht
      · next r0 h1 =>
        rw [eat_append h1]
        split at ht
        · next h2 => cases ht; simp only [eat_ws_append h2]
        · next h2 =>
          have h3 := hne3 _ _ _ _ ht
          simp only [eat_ws_none h2 h3]
          rw [ws_append h3]
          exact he _ _ _ _ ht
      next h1 =>
      rw [eat_none_append h1 tne]
      split at ht
      · next h1 =>
        cases ht
        rcases hs with hs | hs
        · exfalso
          rcases atom_cases h1 with hn | ⟨c, w, hw, _⟩
          · have hu : ∀ {neg : Bool} {t : Text}, unsigned neg t = some (v, r) → ¬ v.Solid := by
              intro neg t h
              unfold unsigned at h
              split at h
              · cases h
              · simp only at h; split at h <;> cases h <;> exact id
            unfold number at hn
            split at hn <;> exact hu hn hs
          · unfold atom at h1
            repeat' split at h1
            all_goals first
              | (cases h1; exact hs)
              | (have hu : ∀ {neg : Bool} {t : Text}, unsigned neg t = some (v, r) → ¬ v.Solid := by
                  intro neg t h
                  unfold unsigned at h
                  split at h
                  · cases h
                  · simp only at h; split at h <;> cases h <;> exact id
                 unfold number at h1
                 split at h1 <;> exact hu h1 hs)
        · simp only [atom_append h1 hs]
      · cases ht
    · simp only [members] at ht ⊢
      split at ht
      · cases ht
      next r0 h1 =>
      rw [eat_append h1]
      split at ht
      · cases ht
      next k r1 h2 =>
      simp only [scanString_append s _ _ _ _ h2]
      split at ht
      · cases ht
      next r2 h3 =>
      simp only [eat_ws_append h3]
      split at ht
      · cases ht
      next w r3 h4 =>
      rw [ws_append (hne _ _ _ h4)]
      split at ht
      · next h5 =>
        cases ht
        rw [hv _ _ _ h4 (.inr (stop_space (eat_some h5) (by decide) s))]
        simp only [eat_ws_append h5]
      next h6 =>
      split at ht
      · next r4 h5 =>
        rw [hv _ _ _ h4 (.inr (stop_space (eat_some h5) (by decide) s))]
        simp only [eat_ws_none h6 (eat_ne_nil h5), eat_ws_append h5]
        rw [ws_append (hne2 _ _ _ _ ht)]
        exact hm _ _ _ _ ht
      · cases ht
    · simp only [elements] at ht ⊢
      split at ht
      · cases ht
      next w r3 h4 =>
      split at ht
      · next h5 =>
        cases ht
        rw [hv _ _ _ h4 (.inr (stop_space (eat_some h5) (by decide) s))]
        simp only [eat_ws_append h5]
      next h6 =>
      split at ht
      · next r4 h5 =>
        rw [hv _ _ _ h4 (.inr (stop_space (eat_some h5) (by decide) s))]
        simp only [eat_ws_none h6 (eat_ne_nil h5), eat_ws_append h5]
        rw [ws_append (hne3 _ _ _ _ ht)]
        exact he _ _ _ _ ht
      · cases ht

end Verif.JsonText
