import Verif.CssDataRun

/-!
# C62: the files of images in stylesheets
-/

namespace Verif.Css.Data

open Verif.Reader (Text txt)
open Verif.Css (Tok)
open Verif.Assoc
open Verif.Paths (join basename)
open Verif.Build
open Verif.Handlers (Bytes Fs hashScan hashBuild hashTarget hashTarget_out outWww srcPublic)
open Verif.Icons (add addAll mem_add join_rel)

/-! ## Paths -/

theorem takeWhile_stop {p : Nat → Bool} {a : Nat} (ha : p a = false) : ∀ (l x : List Nat), (l ++ a :: x).takeWhile p = l.takeWhile p := by
  intro l x
  induction l with
  | nil => simp [ha]
  | cons b l ih =>
    simp only [List.cons_append, List.takeWhile_cons, ih]

theorem basename_last {stem : Text} (h : ∃ c ∈ basename stem, [c] ≠ txt ".") : stem.getLast? ≠ some 47 ∧ stem ≠ [] := by
  obtain ⟨c, hc, -⟩ := h
  unfold basename at hc
  constructor
  · intro hl
    rw [List.getLast?_eq_head?_reverse] at hl
    cases hr : stem.reverse with
    | nil => rw [hr] at hl; cases hl
    | cons a r =>
      rw [hr] at hl hc
      simp only [List.head?_cons, Option.some.injEq] at hl
      subst hl
      simp at hc
  · rintro rfl
    simp at hc

theorem folder_spec {env : Env} {stem : Text} (h : Stylesheet env.self stem) : folder env = txt "out/www/img/gen/" ++ stem := by
  obtain ⟨h1, h2, h3⟩ := h
  have e1 : txt "src/public/" = txt "src/public" ++ [47] := by decide
  have e2 : (txt ".css").reverse = [115, 115, 99, 46] := by decide
  have e3 : (txt "src/public/").reverse = 47 :: (txt "src/public").reverse := by decide
  have e4 : (txt ".css").length = 4 := by decide
  have e5 : txt "." = [46] := by decide
  have e6 : txt "/" = [47] := by decide
  have hbase : basename env.self = basename stem ++ txt ".css" := by
    unfold basename
    rw [h1, List.reverse_append, List.reverse_append, e2, e3, List.takeWhile_append_of_pos (by decide),
      takeWhile_stop (by decide), List.reverse_append, ← e2, List.reverse_reverse]
  have htail : (basename env.self).reverse.takeWhile (· != 46) = [115, 115, 99] := by
    rw [hbase, List.reverse_append, e2]
    have : ([115, 115, 99, 46] ++ (basename stem).reverse) = [115, 115, 99] ++ 46 :: (basename stem).reverse := rfl
    rw [this, takeWhile_stop (by decide)]
    decide
  have hroot : root env.self = txt "src/public/" ++ stem := by
    unfold root
    simp only [htail]
    have hst : (basename env.self).take ((basename env.self).length - [115, 115, 99].length - 1) = basename stem := by
      rw [hbase, List.length_append, e4]
      simp
    rw [hst, if_pos]
    · rw [h1]
      have : (txt "src/public/" ++ stem ++ txt ".css").length - [115, 115, 99].length - 1 = (txt "src/public/" ++ stem).length := by
        simp only [List.length_append, e4]
        simp
      rw [this, List.take_left' rfl]
    · refine ⟨by rw [hbase]; simp; right; decide, ?_⟩
      obtain ⟨c, hc, hc'⟩ := h3
      rw [List.any_eq_true]
      exact ⟨c, hc, by simpa [e5] using hc'⟩
  have hhead : stem.head? ≠ some 47 := by
    intro hh
    cases stem with
    | nil => cases hh
    | cons a r =>
      simp at hh
      subst hh
      exact h2 ⟨r, by rw [e6]; rfl⟩
  unfold folder
  simp only [hroot]
  have hp : srcPublic.isPrefixOf (txt "src/public/" ++ stem) = true := by
    rw [List.isPrefixOf_iff_prefix, e1, List.append_assoc]
    exact ⟨_, rfl⟩
  rw [if_pos hp]
  have hd : (txt "src/public/" ++ stem).drop (srcPublic.length + 1) = stem := by
    rw [List.drop_left']
    decide
  rw [hd, join_rel (by decide) (by decide) hhead, List.append_cons]
  have : txt "out/www/img/gen" ++ [47] = txt "out/www/img/gen/" := by decide
  rw [this]

theorem dec_head (n : Nat) (x : Text) : (txt (toString n) ++ x).head? ≠ some 47 := by
  intro h
  have hne : txt (toString n) ≠ [] := by
    rw [txt, Nat.toString_eq_ofList_toDigits, String.toList_ofList]
    intro h
    exact Nat.toDigits_ne_nil (List.map_eq_nil_iff.1 h)
  have hm : 47 ∈ txt (toString n) := by
    cases hd : txt (toString n) with
    | nil => exact absurd hd hne
    | cons a r =>
      rw [hd] at h
      simp at h
      simp [h]
  rw [txt, Nat.toString_eq_ofList_toDigits, String.toList_ofList, List.mem_map] at hm
  obtain ⟨c, hc, h⟩ := hm
  have := Nat.isDigit_of_mem_toDigits (by decide) (by decide) hc
  simp only [Char.isDigit, Bool.and_eq_true, decide_eq_true_eq] at this
  have h1 := this.1
  rw [ge_iff_le, UInt32.le_iff_toNat_le] at h1
  have : c.val.toNat = 47 := h
  have h2 : ('0'.val).toNat = 48 := rfl
  omega

theorem path_spec {env : Env} {stem : Text} (h : Stylesheet env.self stem) (n : Nat) (ext : Text) :
    join (folder env) (txt (toString n) ++ txt "." ++ ext) = txt "out/www" ++ name stem n ext := by
  rw [folder_spec h, join_rel]
  · have e1 : txt "out/www/img/gen/" = txt "out/www" ++ txt "/img/gen/" := by decide
    have e2 : txt "/" = [47] := by decide
    unfold name
    rw [e1, e2]
    simp
  · have e : txt "out/www/img/gen/" ≠ [] := by decide
    intro h'
    exact e (List.append_eq_nil_iff.1 h').1
  · have := basename_last h.2.2
    rw [List.getLast?_append]
    cases hg : stem.getLast? with
    | none => exact absurd (List.getLast?_eq_none_iff.1 hg) this.2
    | some c =>
      rw [hg] at this
      simpa using this.1
  · rw [List.append_assoc]
    exact dec_head n _

theorem hashTarget_name (stem : Text) (n : Nat) (ext : Text) :
    hashTarget (txt "out/www" ++ name stem n ext) = some (txt "out/www" ++ name stem n ext ++ txt ".hash") := by
  have e : txt "out/www" ++ txt "/img/gen/" = outWww ++ txt "img/gen/" := by decide
  have : txt "out/www" ++ name stem n ext = outWww ++ (txt "img/gen/" ++ stem ++ txt "/" ++ txt (toString n) ++ txt "." ++ ext) := by
    unfold name
    simp only [← List.append_assoc, e]
  rw [this]
  exact hashTarget_out _

/-! ## One token more -/

theorem imageAt_lt {ts : List Tok} {k : Nat} {a b : Text} (h : ImageAt ts k a b) : k < ts.length := by
  obtain ⟨j, v, -, -, h, -⟩ := h
  exact (List.getElem?_eq_some_iff.1 h).1

/-- The token behind `ts` is an image. -/
def NewAt (ts : List Tok) (u : Tok) (type data : Text) : Prop :=
  ts.getLast? = some (.function (txt "url")) ∧ ∃ v, u = .str v ∧ DataUrl v type data

theorem imageAt_snoc (ts : List Tok) (u : Tok) (k : Nat) (a b : Text) : ImageAt (ts ++ [u]) k a b ↔
    ImageAt ts k a b ∨ (k = ts.length ∧ NewAt ts u a b) := by
  constructor
  · rintro ⟨j, v, rfl, h1, h2, h3⟩
    have hlt := (List.getElem?_eq_some_iff.1 h2).1
    simp at hlt
    rw [List.getElem?_append_left (by omega)] at h1
    by_cases hk : j + 1 < ts.length
    · rw [List.getElem?_append_left hk] at h2
      exact .inl ⟨j, v, rfl, h1, h2, h3⟩
    · have hj : j + 1 = ts.length := by omega
      refine .inr ⟨hj, ?_, v, ?_, h3⟩
      · rw [List.getLast?_eq_getElem?, ← hj]
        exact h1
      · rw [hj] at h2
        simpa using h2
  · rintro (⟨j, v, rfl, h1, h2, h3⟩ | ⟨rfl, h1, v, rfl, h3⟩)
    · have hlt := (List.getElem?_eq_some_iff.1 h2).1
      refine ⟨j, v, rfl, ?_, ?_, h3⟩
      · rw [List.getElem?_append_left (by omega)]; exact h1
      · rw [List.getElem?_append_left hlt]; exact h2
    · have hne : ts ≠ [] := by rintro rfl; cases h1
      have hpos := List.length_pos_iff.2 hne
      refine ⟨ts.length - 1, v, by omega, ?_, by simp, h3⟩
      rw [List.getElem?_append_left (by omega), ← List.getLast?_eq_getElem?]
      exact h1

theorem firstAt_snoc (ts : List Tok) (u : Tok) (k : Nat) (a b : Text) : FirstAt (ts ++ [u]) k a b ↔
    FirstAt ts k a b ∨ (k = ts.length ∧ NewAt ts u a b ∧ ∀ j a', ¬ ImageAt ts j a' b) := by
  unfold FirstAt
  constructor
  · rintro ⟨h1, h2⟩
    rcases (imageAt_snoc _ _ _ _ _).1 h1 with h1 | ⟨rfl, h4⟩
    · exact .inl ⟨h1, fun j a' hj h3 => h2 j a' hj ((imageAt_snoc _ _ _ _ _).2 (.inl h3))⟩
    · exact .inr ⟨rfl, h4, fun j a' h3 => h2 j a' (imageAt_lt h3) ((imageAt_snoc _ _ _ _ _).2 (.inl h3))⟩
  · rintro (⟨h1, h2⟩ | ⟨rfl, h1, h2⟩)
    · refine ⟨(imageAt_snoc _ _ _ _ _).2 (.inl h1), fun j a' hj h3 => ?_⟩
      rcases (imageAt_snoc _ _ _ _ _).1 h3 with h3 | ⟨rfl, -⟩
      · exact h2 j a' hj h3
      · have := imageAt_lt h1; omega
    · refine ⟨(imageAt_snoc _ _ _ _ _).2 (.inr ⟨rfl, h1⟩), fun j a' hj h3 => ?_⟩
      rcases (imageAt_snoc _ _ _ _ _).1 h3 with h3 | ⟨rfl, -⟩
      · exact h2 j a' h3
      · omega

theorem first_exists {ts : List Tok} {data : Text} : ∀ {k : Nat} {type : Text}, ImageAt ts k type data → ∃ j type', FirstAt ts j type' data := by
  intro k
  induction k using Nat.strongRecOn with
  | ind k ih =>
    intro type h
    by_cases hf : ∃ j type', j < k ∧ ImageAt ts j type' data
    · obtain ⟨j, type', hj, h'⟩ := hf
      exact ih j hj h'
    · exact ⟨k, type, h, fun j type' hj h' => hf ⟨j, type', hj, h'⟩⟩

/-- The address, for known positions. -/
def AddrAt (stem : Text) (pos : List Nat) (ts : List Tok) (data address : Text) : Prop :=
  ∃ i k type ext, pos[i]? = some k ∧ FirstAt ts k type data ∧ ExtOf type ext ∧ address = name stem (i + 1) ext

theorem sorted_unique : ∀ {a b : List Nat}, a.Pairwise (· < ·) → b.Pairwise (· < ·) → (∀ k, k ∈ a ↔ k ∈ b) → a = b := by
  intro a
  induction a with
  | nil =>
    intro b _ _ h
    cases b with
    | nil => rfl
    | cons y b => exact absurd ((h y).2 (by simp)) (by simp)
  | cons x a ih =>
    intro b ha hb h
    cases b with
    | nil => exact absurd ((h x).1 (by simp)) (by simp)
    | cons y b =>
      rw [List.pairwise_cons] at ha hb
      have hxy : x = y := by
        have h1 := (h x).1 (by simp)
        have h2 := (h y).2 (by simp)
        simp only [List.mem_cons] at h1 h2
        rcases h1 with h1 | h1
        · exact h1
        · rcases h2 with h2 | h2
          · exact h2.symm
          · have := hb.1 x h1
            have := ha.1 y h2
            omega
      subst hxy
      rw [ih ha.2 hb.2]
      intro k
      have := h k
      simp only [List.mem_cons] at this
      constructor
      · intro hk
        have h1 := ha.1 k hk
        rcases this.1 (.inr hk) with h2 | h2
        · omega
        · exact h2
      · intro hk
        have h1 := hb.1 k hk
        rcases this.2 (.inr hk) with h2 | h2
        · omega
        · exact h2

theorem Found.unique {ts : List Tok} {a b : List Nat} (ha : Found ts a) (hb : Found ts b) : a = b :=
  sorted_unique ha.1 hb.1 fun k => (ha.2 k).trans (hb.2 k).symm

theorem addressOf_iff {stem : Text} {ts : List Tok} {pos : List Nat} (hp : Found ts pos) (data address : Text) :
    AddressOf stem ts data address ↔ AddrAt stem pos ts data address := by
  constructor
  · rintro ⟨pos', i, k, type, ext, h1, h2, h3, h4, h5⟩
    cases hp.unique h1
    exact ⟨i, k, type, ext, h2, h3, h4, h5⟩
  · rintro ⟨i, k, type, ext, h2, h3, h4, h5⟩
    exact ⟨pos, i, k, type, ext, hp, h2, h3, h4, h5⟩

theorem first_unique {ts : List Tok} {j k : Nat} {a a' b : Text} (h : FirstAt ts j a b) (h' : FirstAt ts k a' b) : j = k ∧ a = a' := by
  have : j = k := by
    have h1 : ¬ j < k := fun hlt => h'.2 j a hlt h.1
    have h2 : ¬ k < j := fun hlt => h.2 k a' hlt h'.1
    omega
  subst this
  exact ⟨rfl, (h.1.unique h'.1).1⟩

theorem sorted_index {pos : List Nat} (h : pos.Pairwise (· < ·)) {i j k : Nat} (hi : pos[i]? = some k) (hj : pos[j]? = some k) : i = j := by
  have hi' := List.getElem?_eq_some_iff.1 hi
  have hj' := List.getElem?_eq_some_iff.1 hj
  obtain ⟨hi1, hi2⟩ := hi'
  obtain ⟨hj1, hj2⟩ := hj'
  rw [List.pairwise_iff_getElem] at h
  have h1 : ¬ i < j := fun hlt => by have := h i j hi1 hj1 hlt; omega
  have h2 : ¬ j < i := fun hlt => by have := h j i hj1 hi1 hlt; omega
  omega

theorem addrAt_unique {stem : Text} {ts : List Tok} {pos : List Nat} (hp : Found ts pos) {data a a' : Text} (h : AddrAt stem pos ts data a)
    (h' : AddrAt stem pos ts data a') : a = a' := by
  obtain ⟨i, k, type, ext, h2, h3, h4, h5⟩ := h
  obtain ⟨i', k', type', ext', h2', h3', h4', h5'⟩ := h'
  obtain ⟨rfl, rfl⟩ := first_unique h3 h3'
  cases sorted_index hp.1 h2 h2'
  cases h4.unique h4'
  rw [h5, h5']

theorem addrAt_exists {stem : Text} {ts : List Tok} {pos : List Nat} (hp : Found ts pos) {k : Nat} {type data : Text}
    (h : ImageAt ts k type data) : ∃ a, AddrAt stem pos ts data a := by
  obtain ⟨j, type', hf⟩ := first_exists h
  obtain ⟨i, hi⟩ := List.getElem?_of_mem ((hp.2 j).2 ⟨type', data, hf⟩)
  exact ⟨_, i, j, type', _, hi, hf, extOf_spec type', rfl⟩

/-- The numbers of images are at most the number of positions. -/
theorem addrAt_number {stem : Text} {ts : List Tok} {pos : List Nat} {data a : Text} (h : AddrAt stem pos ts data a) :
    ∃ n ext, a = name stem n ext ∧ n ≤ pos.length := by
  obtain ⟨i, k, type, ext, h2, -, -, h5⟩ := h
  exact ⟨i + 1, ext, h5, (List.getElem?_eq_some_iff.1 h2).1⟩

/-! ## Nothing new -/

theorem found_same {ts : List Tok} {u : Tok} {pos : List Nat} (hp : Found ts pos)
    (hsame : ∀ type data, NewAt ts u type data → ∃ j type', ImageAt ts j type' data) : Found (ts ++ [u]) pos := by
  refine ⟨hp.1, fun k => ?_⟩
  rw [hp.2]
  constructor
  · rintro ⟨type, data, h⟩
    exact ⟨type, data, (firstAt_snoc _ _ _ _ _).2 (.inl h)⟩
  · rintro ⟨type, data, h⟩
    rcases (firstAt_snoc _ _ _ _ _).1 h with h | ⟨rfl, h1, h2⟩
    · exact ⟨type, data, h⟩
    · obtain ⟨j, type', h3⟩ := hsame _ _ h1
      exact absurd h3 (h2 j type')

theorem addrAt_same {stem : Text} {ts : List Tok} {u : Tok} {pos : List Nat}
    (hsame : ∀ type data, NewAt ts u type data → ∃ j type', ImageAt ts j type' data) (data a : Text) :
    AddrAt stem pos (ts ++ [u]) data a ↔ AddrAt stem pos ts data a := by
  constructor
  · rintro ⟨i, k, type, ext, h2, h3, h4, h5⟩
    rcases (firstAt_snoc _ _ _ _ _).1 h3 with h3 | ⟨rfl, h6, h7⟩
    · exact ⟨i, k, type, ext, h2, h3, h4, h5⟩
    · obtain ⟨j, type', h8⟩ := hsame _ _ h6
      exact absurd h8 (h7 j type')
  · rintro ⟨i, k, type, ext, h2, h3, h4, h5⟩
    exact ⟨i, k, type, ext, h2, (firstAt_snoc _ _ _ _ _).2 (.inl h3), h4, h5⟩

/-! ## A new image -/

theorem found_new {ts : List Tok} {u : Tok} {pos : List Nat} (hp : Found ts pos) {type data : Text} (hn : NewAt ts u type data)
    (hno : ∀ j type', ¬ ImageAt ts j type' data) : Found (ts ++ [u]) (pos ++ [ts.length]) := by
  refine ⟨?_, fun k => ?_⟩
  · rw [List.pairwise_append]
    refine ⟨hp.1, by simp, fun a ha b hb => ?_⟩
    simp only [List.mem_singleton] at hb
    subst hb
    obtain ⟨t, d, h⟩ := (hp.2 a).1 ha
    exact imageAt_lt h.1
  · rw [List.mem_append, List.mem_singleton, hp.2]
    constructor
    · rintro (⟨t, d, h⟩ | rfl)
      · exact ⟨t, d, (firstAt_snoc _ _ _ _ _).2 (.inl h)⟩
      · exact ⟨type, data, (firstAt_snoc _ _ _ _ _).2 (.inr ⟨rfl, hn, hno⟩)⟩
    · rintro ⟨t, d, h⟩
      rcases (firstAt_snoc _ _ _ _ _).1 h with h | ⟨h, -⟩
      · exact .inl ⟨t, d, h⟩
      · exact .inr h

theorem NewAt.unique {ts : List Tok} {u : Tok} {a b a' b' : Text} (h : NewAt ts u a b) (h' : NewAt ts u a' b') : a = a' ∧ b = b' := by
  obtain ⟨-, v, rfl, h1⟩ := h
  obtain ⟨-, v', h2, h3⟩ := h'
  cases h2
  exact h1.unique h3

theorem addrAt_new {stem : Text} {ts : List Tok} {u : Tok} {pos : List Nat} (hp : Found ts pos) {type data : Text} (hn : NewAt ts u type data)
    (hno : ∀ j type', ¬ ImageAt ts j type' data) (d a : Text) : AddrAt stem (pos ++ [ts.length]) (ts ++ [u]) d a ↔
      AddrAt stem pos ts d a ∨ (d = data ∧ a = name stem (pos.length + 1) (type.takeWhile (· != 43))) := by
  have hlt : ∀ {i k : Nat}, pos[i]? = some k → k < ts.length := by
    intro i k h
    obtain ⟨t, d, hf⟩ := (hp.2 k).1 (List.mem_of_getElem? h)
    exact imageAt_lt hf.1
  constructor
  · rintro ⟨i, k, t, ext, h2, h3, h4, h5⟩
    by_cases hi : i < pos.length
    · rw [List.getElem?_append_left hi] at h2
      rcases (firstAt_snoc _ _ _ _ _).1 h3 with h3 | ⟨rfl, -⟩
      · exact .inl ⟨i, k, t, ext, h2, h3, h4, h5⟩
      · have := hlt h2; omega
    · have hi' := (List.getElem?_eq_some_iff.1 h2).1
      simp at hi'
      have : i = pos.length := by omega
      subst this
      simp at h2
      subst h2
      rcases (firstAt_snoc _ _ _ _ _).1 h3 with h3 | ⟨-, h6, -⟩
      · have := imageAt_lt h3.1; omega
      · obtain ⟨rfl, rfl⟩ := h6.unique hn
        cases h4.unique (extOf_spec t)
        exact .inr ⟨rfl, h5⟩
  · rintro (⟨i, k, t, ext, h2, h3, h4, h5⟩ | ⟨rfl, rfl⟩)
    · exact ⟨i, k, t, ext, by rw [List.getElem?_append_left (List.getElem?_eq_some_iff.1 h2).1]; exact h2,
        (firstAt_snoc _ _ _ _ _).2 (.inl h3), h4, h5⟩
    · exact ⟨pos.length, ts.length, type, _, by simp, (firstAt_snoc _ _ _ _ _).2 (.inr ⟨rfl, hn, hno⟩), extOf_spec type, rfl⟩

end Verif.Css.Data
