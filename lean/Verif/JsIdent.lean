import Verif.JsTables
/-! # Identifier characters

Model of vanillaplusjs/build/js/unicode_derived.py:76-109. -/
namespace Verif.Js

/-- js/unicode_derived.py:88-97; `fuel` bounds the number of rounds.  `match_ranges[mid]` is always in
range (`bsearch_spec` holds for every default). -/
def bsearch (ranges : List (Nat × Nat)) (needle : Nat) : Nat → Int → Int → Bool
  | 0, _, _ => false
  | fuel + 1, left, right =>
    if left ≤ right then
      let mid := (left + right) / 2
      let r := ranges.getD mid.toNat (1, 0)
      if r.1 ≤ needle ∧ needle ≤ r.2 then true
      else if needle < r.1 then bsearch ranges needle fuel left (mid - 1)
      else bsearch ranges needle fuel (mid + 1) right
    else false

/-- js/unicode_derived.py:76-99 -/
def isMatch (c : Nat) (exact : List Nat) (ranges : List (Nat × Nat)) : Bool :=
  if exact.contains c then true
  else bsearch ranges c (ranges.length + 1) 0 ((ranges.length : Int) - 1)

/-- js/unicode_derived.py:102-104 -/
def idStart (c : Nat) : Bool := isMatch c exactIdStart rangesIdStart

/-- js/unicode_derived.py:107-109 -/
def idContinue (c : Nat) : Bool := isMatch c exactIdContinue rangesIdContinue

/-- The ranges are in order and do not overlap. -/
def orderedRanges : List (Nat × Nat) → Bool
  | [] => true
  | [r] => decide (r.1 ≤ r.2)
  | r :: r' :: rs => decide (r.1 ≤ r.2) && decide (r.2 < r'.1) && orderedRanges (r' :: rs)

theorem orderedRanges_pairwise : ∀ {rs : List (Nat × Nat)}, orderedRanges rs = true →
    (∀ r ∈ rs, r.1 ≤ r.2) ∧ rs.Pairwise (fun a b => a.2 < b.1) := by
  intro rs
  induction rs with
  | nil => intro _; simp
  | cons r rs ih =>
    intro h
    cases rs with
    | nil => simp [orderedRanges] at h; simpa using h
    | cons r' rs =>
      simp only [orderedRanges, Bool.and_eq_true, decide_eq_true_eq] at h
      obtain ⟨h1, h2⟩ := ih h.2
      refine ⟨?_, ?_⟩
      · intro x hx
        rcases List.mem_cons.1 hx with rfl | hx
        · exact h.1.1
        · exact h1 x hx
      · rw [List.pairwise_cons]
        refine ⟨?_, h2⟩
        intro x hx
        rcases List.mem_cons.1 hx with rfl | hx
        · exact h.1.2
        · have := (List.pairwise_cons.1 h2).1 x hx
          have := h1 r' (by simp)
          have := h.1.2
          omega

theorem bsearch_spec (ranges : List (Nat × Nat)) (c : Nat) (ho : orderedRanges ranges = true) :
    ∀ (fuel : Nat) (left right : Int), 0 ≤ left → right < ranges.length → right - left + 1 < fuel →
    (bsearch ranges c fuel left right = true ↔
      ∃ i : Nat, ∃ r, left ≤ i ∧ (i : Int) ≤ right ∧ ranges[i]? = some r ∧ r.1 ≤ c ∧ c ≤ r.2) := by
  obtain ⟨hle, hpw⟩ := orderedRanges_pairwise ho
  intro fuel
  induction fuel with
  | zero =>
    intro left right h0 h1 h2
    unfold bsearch
    constructor
    · intro h; cases h
    · rintro ⟨i, r, h3, h4, _⟩; omega
  | succ fuel ih =>
    intro left right h0 h1 h2
    unfold bsearch
    split
    · next hlr =>
      dsimp only
      obtain ⟨m, hm⟩ : ∃ m : Nat, (left + right) / 2 = m := ⟨((left + right) / 2).toNat, by omega⟩
      have hml : left ≤ m := by omega
      have hmr : (m : Int) ≤ right := by omega
      have hmlt : m < ranges.length := by omega
      rw [hm, Int.toNat_natCast, List.getD_eq_getElem?_getD, List.getElem?_eq_getElem hmlt, Option.getD_some]
      have order : ∀ (i j : Nat) (r r' : Nat × Nat), i < j → ranges[i]? = some r → ranges[j]? = some r' → r.2 < r'.1 := by
        intro i j r r' hij hi hj
        obtain ⟨hi1, rfl⟩ := List.getElem?_eq_some_iff.1 hi
        obtain ⟨hj1, rfl⟩ := List.getElem?_eq_some_iff.1 hj
        exact List.pairwise_iff_getElem.1 hpw i j hi1 hj1 hij
      have hmm : ranges[m]? = some ranges[m] := List.getElem?_eq_getElem hmlt
      split
      · next hin =>
        simp only [true_iff]
        exact ⟨m, ranges[m], hml, hmr, hmm, hin.1, hin.2⟩
      · next hnin =>
        split
        · next hlt =>
          rw [ih left (m - 1) h0 (by omega) (by omega)]
          constructor
          · rintro ⟨i, r, a, b, d⟩; exact ⟨i, r, a, by omega, d⟩
          · rintro ⟨i, r, a, b, d, e, f⟩
            refine ⟨i, r, a, ?_, d, e, f⟩
            rcases Nat.lt_trichotomy i m with g | g | g
            · omega
            · subst g
              rw [hmm] at d; cases d
              exact absurd ⟨e, f⟩ hnin
            · have := order m i _ _ g hmm d
              have := hle ranges[m] (List.getElem_mem _)
              omega
        · next hge =>
          rw [ih (m + 1) right (by omega) h1 (by omega)]
          constructor
          · rintro ⟨i, r, a, b, d⟩; exact ⟨i, r, by omega, b, d⟩
          · rintro ⟨i, r, a, b, d, e, f⟩
            refine ⟨i, r, ?_, b, d, e, f⟩
            rcases Nat.lt_trichotomy i m with g | g | g
            · have := order i m _ _ g d hmm
              omega
            · subst g
              rw [hmm] at d; cases d
              exact absurd ⟨e, f⟩ hnin
            · omega
    · next hlr =>
      simp only [Bool.false_eq_true, false_iff]
      rintro ⟨i, r, h3, h4, _⟩; omega

theorem isMatch_spec (c : Nat) (exact : List Nat) (ranges : List (Nat × Nat)) (ho : orderedRanges ranges = true) :
    isMatch c exact ranges = true ↔ c ∈ exact ∨ ∃ r ∈ ranges, r.1 ≤ c ∧ c ≤ r.2 := by
  unfold isMatch
  split
  · next h => simp only [true_iff]; exact Or.inl (by simpa using h)
  · next h =>
    have h' : c ∉ exact := by simpa using h
    rw [bsearch_spec ranges c ho _ _ _ (by omega) (by omega) (by omega)]
    constructor
    · rintro ⟨i, r, _, _, h3, h4⟩
      exact Or.inr ⟨r, List.mem_of_getElem? h3, h4⟩
    · rintro (h3 | ⟨r, h3, h4⟩)
      · exact absurd h3 h'
      · obtain ⟨i, hi, rfl⟩ := List.getElem_of_mem h3
        exact ⟨i, _, by omega, by omega, List.getElem?_eq_getElem hi, h4⟩

theorem rangesIdStart_ordered : orderedRanges rangesIdStart = true := by decide +kernel
theorem rangesIdContinue_ordered : orderedRanges rangesIdContinue = true := by decide +kernel

/-- **C35.** For every character the two classifications answer exactly whether it is in the shipped set
of single characters or in one of the shipped ranges. -/
theorem C35_classification (c : Nat) :
    (idStart c = true ↔ c ∈ exactIdStart ∨ ∃ r ∈ rangesIdStart, r.1 ≤ c ∧ c ≤ r.2) ∧
    (idContinue c = true ↔ c ∈ exactIdContinue ∨ ∃ r ∈ rangesIdContinue, r.1 ≤ c ∧ c ≤ r.2) :=
  ⟨isMatch_spec c _ _ rangesIdStart_ordered, isMatch_spec c _ _ rangesIdContinue_ordered⟩

/-- The shipped tables are not Unicode's: the digits are identifier starts and U+10341 (in Unicode's list,
cut off after four digits) is not. -/
theorem C35_tables_not_unicode : (∀ d, 48 ≤ d → d ≤ 57 → idStart d = true) ∧ idStart 0x10341 = false ∧
    idContinue 0x10341 = false := by
  refine ⟨?_, by decide +kernel, by decide +kernel⟩
  intro d h1 h2
  have : d ∈ List.range' 48 10 := by simp [List.mem_range'_1]; omega
  have all : ∀ d ∈ List.range' 48 10, idStart d = true := by decide +kernel
  exact all d this

example : idStart 0x3400 = true ∧ idStart 0x61 = true ∧ idStart 0x24 = false ∧ idContinue 0x5F = true := by decide +kernel

/-- Every ASCII identifier start is a letter or digit; every ASCII continuation these or `_`. -/
theorem ascii_idStart (c : Nat) (h : c < 128) : idStart c = true →
    (48 ≤ c ∧ c ≤ 57) ∨ (65 ≤ c ∧ c ≤ 90) ∨ (97 ≤ c ∧ c ≤ 122) := by
  have all : ∀ c ∈ List.range 128, idStart c = true → (48 ≤ c ∧ c ≤ 57) ∨ (65 ≤ c ∧ c ≤ 90) ∨ (97 ≤ c ∧ c ≤ 122) := by
    decide +kernel
  exact all c (by simpa using h)

theorem ascii_idContinue (c : Nat) (h : c < 128) : idContinue c = true →
    (48 ≤ c ∧ c ≤ 57) ∨ (65 ≤ c ∧ c ≤ 90) ∨ (97 ≤ c ∧ c ≤ 122) ∨ c = 95 := by
  have all : ∀ c ∈ List.range 128, idContinue c = true → (48 ≤ c ∧ c ≤ 57) ∨ (65 ≤ c ∧ c ≤ 90) ∨ (97 ≤ c ∧ c ≤ 122) ∨ c = 95 := by
    decide +kernel
  exact all c (by simpa using h)

end Verif.Js
