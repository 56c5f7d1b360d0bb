import Verif.ImgCommand

/-!
Image commands: what is accepted (C45), and which comments are commands.
-/

namespace Verif.Img

open Verif.Reader

section
variable {J : Type} {space : ℕ → Bool}

/-! ## Specification -/

/-- Some whitespace. -/
def Gap (space : ℕ → Bool) (g : Text) : Prop := g ≠ [] ∧ ∀ c ∈ g, space c = true

/-- Whitespace, if any. -/
def Blank (space : ℕ → Bool) (g : Text) : Prop := ∀ c ∈ g, space c = true

/-- Characters without whitespace. -/
def Word (space : ℕ → Bool) (w : Text) : Prop := w ≠ [] ∧ ∀ c ∈ w, space c = false

/-- Blanks are whitespace, and visible ASCII characters are not. -/
def GoodSpace (space : ℕ → Bool) : Prop := space 32 = true ∧ space 10 = true ∧ ∀ c, 33 ≤ c → c ≤ 126 → space c = false

/-- Arguments as they are documented (command.py:69-84): source, width, height, optionally the crop style, then
optionally its arguments, then optionally how to load; separated by whitespace. -/
inductive Documented (py : Py J) : Text → Command J → Prop
  | plain {a p g1 w g2 h z W H} : Blank py.space a → Word py.space p → Gap py.space g1 → Word py.space w →
      Gap py.space g2 → Word py.space h → Blank py.space z → py.int w = some W → py.int h = some H →
      Documented py (a ++ p ++ g1 ++ w ++ g2 ++ h ++ z) ⟨p, W, H, txt "cover", py.empty, true⟩
  | style {a p g1 w g2 h g3 z W H} : Blank py.space a → Word py.space p → Gap py.space g1 → Word py.space w →
      Gap py.space g2 → Word py.space h → Gap py.space g3 → Blank py.space z → py.int w = some W → py.int h = some H →
      Documented py (a ++ p ++ g1 ++ w ++ g2 ++ h ++ g3 ++ txt "cover" ++ z) ⟨p, W, H, txt "cover", py.empty, true⟩
  | crop {a p g1 w g2 h g3 g4 b z W H j} : Blank py.space a → Word py.space p → Gap py.space g1 → Word py.space w →
      Gap py.space g2 → Word py.space h → Gap py.space g3 → Gap py.space g4 → Blank py.space z →
      py.int w = some W → py.int h = some H → py.json (123 :: b ++ [125]) = some j →
      Documented py (a ++ p ++ g1 ++ w ++ g2 ++ h ++ g3 ++ txt "cover" ++ g4 ++ (123 :: b ++ [125]) ++ z)
        ⟨p, W, H, txt "cover", j, true⟩
  | mode {a p g1 w g2 h g3 g4 b g5 z W H j} (lazy : Bool) : Blank py.space a → Word py.space p → Gap py.space g1 →
      Word py.space w → Gap py.space g2 → Word py.space h → Gap py.space g3 → Gap py.space g4 → Gap py.space g5 →
      Blank py.space z → py.int w = some W → py.int h = some H → py.json (123 :: b ++ [125]) = some j →
      Documented py (a ++ p ++ g1 ++ w ++ g2 ++ h ++ g3 ++ txt "cover" ++ g4 ++ (123 :: b ++ [125]) ++ g5 ++
        txt (if lazy then "lazy" else "eager") ++ z) ⟨p, W, H, txt "cover", j, lazy⟩

/-- What is accepted: as documented, except that the crop arguments end at the first closing bracket, that
anything may follow them, and that the image is loaded eagerly exactly if a blank follows them. -/
inductive Accepted (py : Py J) : Text → Command J → Prop
  | plain {a p g1 w g2 h z W H} : Blank py.space a → Word py.space p → Gap py.space g1 → Word py.space w →
      Gap py.space g2 → Word py.space h → Blank py.space z → py.int w = some W → py.int h = some H →
      Accepted py (a ++ p ++ g1 ++ w ++ g2 ++ h ++ z) ⟨p, W, H, txt "cover", py.empty, true⟩
  | style {a p g1 w g2 h g3 z W H} : Blank py.space a → Word py.space p → Gap py.space g1 → Word py.space w →
      Gap py.space g2 → Word py.space h → Gap py.space g3 → Blank py.space z → py.int w = some W → py.int h = some H →
      Accepted py (a ++ p ++ g1 ++ w ++ g2 ++ h ++ g3 ++ txt "cover" ++ z) ⟨p, W, H, txt "cover", py.empty, true⟩
  | crop {a p g1 w g2 h g3 g4 b rest W H j} : Blank py.space a → Word py.space p → Gap py.space g1 → Word py.space w →
      Gap py.space g2 → Word py.space h → Gap py.space g3 → Gap py.space g4 →
      py.int w = some W → py.int h = some H → 125 ∉ b → py.json (123 :: b ++ [125]) = some j →
      Accepted py (a ++ p ++ g1 ++ w ++ g2 ++ h ++ g3 ++ txt "cover" ++ g4 ++ (123 :: b ++ [125]) ++ rest)
        ⟨p, W, H, txt "cover", j, decide (rest.head? ≠ some 32)⟩

/-! ## Splitting -/

theorem dropWhile_blank {g s : Text} (hg : Blank space g) (hs : ∀ c, s.head? = some c → space c = false) :
    (g ++ s).dropWhile space = s := by
  induction g with
  | nil =>
    cases s with
    | nil => rfl
    | cons c s => simp [hs c rfl]
  | cons c g ih =>
    simp [hg c (by simp)]
    exact ih (fun x hx => hg x (by simp [hx]))

theorem mem_takeWhile {p : ℕ → Bool} {s : Text} {c : ℕ} (h : c ∈ s.takeWhile p) : p c = true := by
  induction s with
  | nil => cases h
  | cons x s ih =>
    by_cases hx : p x = true
    · rw [List.takeWhile_cons, if_pos hx] at h
      rcases List.mem_cons.1 h with rfl | h
      · exact hx
      · exact ih h
    · rw [List.takeWhile_cons, if_neg hx] at h; cases h

theorem dropWhile_nil {p : ℕ → Bool} {s : Text} : s.dropWhile p = [] ↔ ∀ c ∈ s, p c = true := by
  induction s with
  | nil => simp
  | cons x s ih =>
    by_cases hx : p x = true
    · simp [hx, ih]
    · simp [hx]

theorem takeWhile_blank {s : Text} : Blank space (s.takeWhile space) := fun _ hc => mem_takeWhile hc

theorem head_dropWhile {p : ℕ → Bool} {s : Text} {c : ℕ} (h : (s.dropWhile p).head? = some c) : p c = false := by
  induction s with
  | nil => simp at h
  | cons x s ih =>
    by_cases hx : p x = true
    · simp [hx] at h; exact ih h
    · simp [hx] at h; subst h; simpa using hx

/-- The end of a text, or whitespace. -/
def Ends (space : ℕ → Bool) (t : Text) : Prop := ∀ c, t.head? = some c → space c = true

theorem word_head {w t : Text} (hw : Word space w) {c : ℕ} (h : (w ++ t).head? = some c) : space c = false := by
  obtain ⟨hn, hw⟩ := hw
  cases w with
  | nil => exact absurd rfl hn
  | cons x w => simp at h; subst h; exact hw x (by simp)

theorem word_cut {w t : Text} (hw : Word space w) (ht : Ends space t) :
    (w ++ t).takeWhile (fun c => !space c) = w ∧ (w ++ t).dropWhile (fun c => !space c) = t := by
  obtain ⟨hn, hw⟩ := hw
  clear hn
  induction w with
  | nil =>
    cases t with
    | nil => simp
    | cons c t => simp [ht c rfl]
  | cons x w ih =>
    have := ih (fun c hc => hw c (by simp [hc]))
    simp only [List.cons_append, List.takeWhile_cons, List.dropWhile_cons, hw x (by simp)]
    simpa using this

theorem splitMax_nil {n : ℕ} {s : Text} : splitMax space n s = [] ↔ Blank space s := by
  have : s.dropWhile space = [] ↔ Blank space s := dropWhile_nil
  cases n <;> simp only [splitMax] <;> split <;> simp_all

theorem splitMax_cons {n : ℕ} {s w : Text} {ws : List Text} :
    splitMax space (n + 1) s = w :: ws ↔
      ∃ a t, s = a ++ w ++ t ∧ Blank space a ∧ Word space w ∧ Ends space t ∧ splitMax space n t = ws := by
  constructor
  · intro h
    simp only [splitMax] at h
    split at h
    · cases h
    · rename_i hn
      injection h with h1 h2
      refine ⟨s.takeWhile space, (s.dropWhile space).dropWhile (fun c => !space c), ?_, takeWhile_blank, ⟨?_, ?_⟩, ?_, h2⟩
      · rw [← h1, List.append_assoc, List.takeWhile_append_dropWhile, List.takeWhile_append_dropWhile]
      · rw [← h1]
        intro h0
        cases hd : s.dropWhile space with
        | nil => exact hn hd
        | cons c t =>
          have := head_dropWhile (p := space) (s := s) (c := c) (by rw [hd]; rfl)
          rw [hd] at h0; simp [this] at h0
      · rw [← h1]; intro c hc; simpa using mem_takeWhile hc
      · intro c hc; simpa using head_dropWhile hc
  · rintro ⟨a, t, rfl, ha, hw, ht, h⟩
    have e : (a ++ w ++ t).dropWhile space = w ++ t := by
      rw [List.append_assoc]; exact dropWhile_blank ha (fun c hc => word_head hw hc)
    have hne : w ++ t ≠ [] := by simp [hw.1]
    simp only [splitMax, e, if_neg hne, word_cut hw ht, h]

/-- Between two words there is some whitespace. -/
theorem gap_of_ends {a w t : Text} (h : Ends space (a ++ w ++ t)) (ha : Blank space a) (hw : Word space w) : Gap space a := by
  refine ⟨?_, ha⟩
  rintro rfl
  cases hc : (w ++ t).head? with
  | none => simp [hw.1] at hc
  | some c =>
    have h1 := word_head hw hc
    have h2 := h c (by simpa using hc)
    rw [h1] at h2; cases h2

theorem ends_of_gap {g t : Text} (hg : Gap space g) : Ends space (g ++ t) := by
  intro c hc
  cases g with
  | nil => exact absurd rfl hg.1
  | cons x g => simp at hc; subst hc; exact hg.2 x (by simp)

theorem ends_of_blank {z : Text} (hz : Blank space z) : Ends space z := by
  intro c hc
  cases z with
  | nil => cases hc
  | cons x g => simp at hc; subst hc; exact hz x (by simp)

theorem splitMax_zero {s w : Text} {ws : List Text} :
    splitMax space 0 s = w :: ws ↔ ws = [] ∧ ∃ a, s = a ++ w ∧ Blank space a ∧ ∃ c, w.head? = some c ∧ space c = false := by
  constructor
  · intro h
    simp only [splitMax] at h
    split at h
    · cases h
    · rename_i hn
      injection h with h1 h2
      refine ⟨h2.symm, s.takeWhile space, ?_, takeWhile_blank, ?_⟩
      · rw [← h1, List.takeWhile_append_dropWhile]
      · rw [← h1]
        cases hd : s.dropWhile space with
        | nil => exact absurd hd hn
        | cons c t => exact ⟨c, rfl, head_dropWhile (p := space) (s := s) (c := c) (by rw [hd]; rfl)⟩
  · rintro ⟨rfl, a, rfl, ha, c, hc, hs⟩
    have e : (a ++ w).dropWhile space = w := dropWhile_blank ha (fun x hx => by rw [hc] at hx; cases hx; exact hs)
    have hne : w ≠ [] := by rintro rfl; cases hc
    simp only [splitMax, e, if_neg hne]

/-! ## The crop arguments -/

theorem takeWhile_object {b r : Text} (hb : 125 ∉ b) :
    (b ++ 125 :: r).takeWhile (· ≠ 125) = b ∧ (b ++ 125 :: r).dropWhile (· ≠ 125) = 125 :: r := by
  induction b with
  | nil => simp
  | cons c b ih =>
    have hc : c ≠ 125 := fun h => hb (by simp [h])
    have := ih (fun h => hb (by simp [h]))
    simp only [List.cons_append, List.takeWhile_cons, List.dropWhile_cons, ne_eq, hc, not_false_eq_true, decide_true, if_true]
    simpa using this

theorem cutObject_spec {s obj rest : Text} :
    cutObject s = some (obj, rest) ↔ ∃ b, 125 ∉ b ∧ obj = 123 :: b ++ [125] ∧ s = 123 :: b ++ [125] ++ rest := by
  constructor
  · intro h
    unfold cutObject at h
    split at h
    · rename_i cs
      split at h
      · cases h
      · rename_i c r hd
        simp only [Option.some.injEq, Prod.mk.injEq] at h
        obtain ⟨h1, h2⟩ := h
        subst h2
        have hc : c = 125 := by
          have := head_dropWhile (p := fun x => decide (x ≠ 125)) (s := cs) (c := c) (by rw [hd]; rfl)
          simpa using this
        subst hc
        refine ⟨cs.takeWhile (· ≠ 125), ?_, h1.symm, ?_⟩
        · intro hm
          have := mem_takeWhile hm
          simp at this
        · have := List.takeWhile_append_dropWhile (p := fun x => decide (x ≠ 125)) (l := cs)
          rw [hd] at this
          simp only [List.cons_append, List.append_assoc, List.nil_append]
          rw [this]
    · cases h
  · rintro ⟨b, hb, rfl, rfl⟩
    have e : (123 :: b ++ [125] ++ rest : Text) = 123 :: (b ++ 125 :: rest) := by simp
    rw [e]
    simp only [cutObject, (takeWhile_object (r := rest) hb).1, (takeWhile_object (r := rest) hb).2]

theorem lazy_eq (rest : Text) :
    (if rest.head? = some 32 then decide (rest = txt "lazy") else true) = decide (rest.head? ≠ some 32) := by
  have e : txt "lazy" = [108, 97, 122, 121] := by decide
  by_cases h : rest.head? = some 32
  · rw [if_pos h, e]
    have : rest ≠ [108, 97, 122, 121] := by rintro rfl; simp at h
    simp [h, this]
  · simp [h]

theorem parseCrop_spec {py : Py J} {s : Text} {j : J} {l : Bool} :
    parseCrop py s = .ok (j, l) ↔ ∃ b rest, 125 ∉ b ∧ s = 123 :: b ++ [125] ++ rest ∧ py.json (123 :: b ++ [125]) = some j ∧
      l = decide (rest.head? ≠ some 32) := by
  constructor
  · intro h
    unfold parseCrop at h
    cases hc : cutObject s with
    | none => rw [hc] at h; cases h
    | some r =>
      obtain ⟨obj, rest⟩ := r
      rw [hc] at h
      obtain ⟨b, hb, h1, h2⟩ := cutObject_spec.1 hc
      cases hj : py.json obj with
      | none => simp [hj] at h
      | some j' =>
        simp only [hj, Except.ok.injEq, Prod.mk.injEq] at h
        refine ⟨b, rest, hb, h2, ?_, ?_⟩
        · rw [← h1, hj, h.1]
        · rw [← h.2, lazy_eq]
  · rintro ⟨b, rest, hb, hs, hj, hl⟩
    have hc : cutObject s = some (123 :: b ++ [125], rest) := cutObject_spec.2 ⟨b, hb, rfl, hs⟩
    simp only [parseCrop, hc, hj, lazy_eq, hl]

/-! ## C45 -/

theorem txt_cover : txt "cover" = [99, 111, 118, 101, 114] := by decide

theorem cover_word (hg : GoodSpace space) : Word space (txt "cover") := by
  rw [txt_cover]
  refine ⟨by simp, fun c hc => ?_⟩
  simp only [List.mem_cons, List.not_mem_nil, or_false] at hc
  rcases hc with rfl | rfl | rfl | rfl | rfl <;> exact hg.2.2 _ (by omega) (by omega)

/-- C45, exactly what is accepted and what the fields are; everything else is a ValueError. -/
theorem C45_exact {py : Py J} (hg : GoodSpace py.space) (s : Text) (c : Command J) :
    (parseCommand py s = .ok c ↔ Accepted py s c) ∧
    ((∀ c, ¬ Accepted py s c) → parseCommand py s = .error .valueError) := by
  have main : ∀ c, parseCommand py s = .ok c ↔ Accepted py s c := by
    intro c
    constructor
    · intro h
      unfold parseCommand at h
      split at h
      · rename_i p w ht more hs
        obtain ⟨a, t1, e1, ha, hp, hE1, hs⟩ := splitMax_cons.1 hs
        obtain ⟨g1, t2, e2, hg1, hw, hE2, hs⟩ := splitMax_cons.1 hs
        obtain ⟨g2, t3, e3, hg2, hh, hE3, hs⟩ := splitMax_cons.1 hs
        have G1 := gap_of_ends (e2 ▸ hE1) hg1 hw
        have G2 := gap_of_ends (e3 ▸ hE2) hg2 hh
        split at h
        · rename_i W H hW hH
          split at h
          · injection h with h; subst h
            have := splitMax_nil.1 hs
            have e : s = a ++ p ++ g1 ++ w ++ g2 ++ ht ++ t3 := by rw [e1, e2, e3]; simp
            rw [e]
            exact .plain ha hp G1 hw G2 hh this hW hH
          · rename_i style items
            obtain ⟨g3, t4, e4, hg3, hst, hE4, hs4⟩ := splitMax_cons.1 hs
            have G3 := gap_of_ends (e4 ▸ hE3) hg3 hst
            split at h
            · cases h
            · rename_i hcov
              simp only [ne_eq, not_not] at hcov
              subst hcov
              split at h
              · injection h with h; subst h
                have := splitMax_nil.1 hs4
                have e : s = a ++ p ++ g1 ++ w ++ g2 ++ ht ++ g3 ++ txt "cover" ++ t4 := by rw [e1, e2, e3, e4]; simp
                rw [e]
                exact .style ha hp G1 hw G2 hh G3 this hW hH
              · rename_i item more
                obtain ⟨_, g4, e5, hg4, x, hx, hxs⟩ := splitMax_zero.1 hs4
                split at h
                · cases h
                · rename_i j l hcr
                  injection h with h; subst h
                  obtain ⟨b, rest, hb, e6, hj, hl⟩ := parseCrop_spec.1 hcr
                  subst hl
                  have G4 : Gap py.space g4 := by
                    refine ⟨?_, hg4⟩
                    rintro rfl
                    rw [List.nil_append] at e5
                    have := hE4 x (by rw [e5]; exact hx)
                    rw [hxs] at this; cases this
                  have e : s = a ++ p ++ g1 ++ w ++ g2 ++ ht ++ g3 ++ txt "cover" ++ g4 ++ (123 :: b ++ [125]) ++ rest := by
                    rw [e1, e2, e3, e4, e5, e6]; simp
                  rw [e]
                  exact .crop ha hp G1 hw G2 hh G3 G4 hW hH hb hj
        · cases h
      · cases h
    · intro h
      cases h with
      | @plain a p g1 w g2 h z W H ha hp G1 hw G2 hh hz hW hH =>
        have : splitMax py.space 4 (a ++ p ++ g1 ++ w ++ g2 ++ h ++ z) = [p, w, h] := by
          refine splitMax_cons.2 ⟨a, g1 ++ (w ++ (g2 ++ (h ++ z))), by simp, ha, hp, ends_of_gap G1, ?_⟩
          refine splitMax_cons.2 ⟨g1, g2 ++ (h ++ z), by simp, G1.2, hw, ends_of_gap G2, ?_⟩
          exact splitMax_cons.2 ⟨g2, z, by simp, G2.2, hh, ends_of_blank hz, splitMax_nil.2 hz⟩
        simp only [parseCommand, this, hW, hH]
      | @style a p g1 w g2 h g3 z W H ha hp G1 hw G2 hh G3 hz hW hH =>
        have : splitMax py.space 4 (a ++ p ++ g1 ++ w ++ g2 ++ h ++ g3 ++ txt "cover" ++ z) = [p, w, h, txt "cover"] := by
          refine splitMax_cons.2 ⟨a, g1 ++ (w ++ (g2 ++ (h ++ (g3 ++ (txt "cover" ++ z))))), by simp, ha, hp, ends_of_gap G1, ?_⟩
          refine splitMax_cons.2 ⟨g1, g2 ++ (h ++ (g3 ++ (txt "cover" ++ z))), by simp, G1.2, hw, ends_of_gap G2, ?_⟩
          refine splitMax_cons.2 ⟨g2, g3 ++ (txt "cover" ++ z), by simp, G2.2, hh, ends_of_gap G3, ?_⟩
          exact splitMax_cons.2 ⟨g3, z, by simp, G3.2, cover_word hg, ends_of_blank hz, splitMax_nil.2 hz⟩
        simp only [parseCommand, this, hW, hH, ne_eq, not_true_eq_false, if_false]
      | @crop a p g1 w g2 h g3 g4 b rest W H j ha hp G1 hw G2 hh G3 G4 hW hH hb hj =>
        have : splitMax py.space 4 (a ++ p ++ g1 ++ w ++ g2 ++ h ++ g3 ++ txt "cover" ++ g4 ++ (123 :: b ++ [125]) ++ rest) =
            [p, w, h, txt "cover", 123 :: b ++ [125] ++ rest] := by
          refine splitMax_cons.2 ⟨a, g1 ++ (w ++ (g2 ++ (h ++ (g3 ++ (txt "cover" ++ (g4 ++ (123 :: b ++ [125] ++ rest))))))), by simp, ha, hp, ends_of_gap G1, ?_⟩
          refine splitMax_cons.2 ⟨g1, g2 ++ (h ++ (g3 ++ (txt "cover" ++ (g4 ++ (123 :: b ++ [125] ++ rest))))), by simp, G1.2, hw, ends_of_gap G2, ?_⟩
          refine splitMax_cons.2 ⟨g2, g3 ++ (txt "cover" ++ (g4 ++ (123 :: b ++ [125] ++ rest))), by simp, G2.2, hh, ends_of_gap G3, ?_⟩
          refine splitMax_cons.2 ⟨g3, g4 ++ (123 :: b ++ [125] ++ rest), by simp, G3.2, cover_word hg, ends_of_gap G4, ?_⟩
          exact splitMax_zero.2 ⟨rfl, g4, rfl, G4.2, 123, by simp, hg.2.2 _ (by omega) (by omega)⟩
        have hc : parseCrop py (123 :: b ++ [125] ++ rest) = .ok (j, decide (rest.head? ≠ some 32)) :=
          parseCrop_spec.2 ⟨b, rest, hb, rfl, hj, rfl⟩
        simp only [parseCommand, this, hW, hH, ne_eq, not_true_eq_false, if_false, hc]
  refine ⟨main c, fun hn => ?_⟩
  have hno : ∀ c, parseCommand py s ≠ .ok c := fun c h => hn c ((main c).1 h)
  have hcrop : ∀ item e, parseCrop py item = .error e → e = .valueError := by
    intro item e h
    unfold parseCrop at h
    split at h
    · injection h with h; exact h.symm
    · split at h
      · injection h with h; exact h.symm
      · cases h
  have : ∀ e, parseCommand py s = .error e → e = .valueError := by
    intro e h
    unfold parseCommand at h
    split at h
    · split at h
      · split at h
        · cases h
        · split at h
          · injection h with h; exact h.symm
          · split at h
            · cases h
            · split at h
              · rename_i e' he'
                injection h with h
                rw [← h]; exact hcrop _ _ he'
              · cases h
      · injection h with h; exact h.symm
    · injection h with h; exact h.symm
  cases h : parseCommand py s with
  | ok c => exact absurd h (hno c)
  | error e => rw [this e h]

/-- Documented arguments which the parser treats as documented: crop arguments without a closing bracket inside, not
followed by whitespace, or by a blank and `eager`. -/
inductive Supported (py : Py J) : Text → Command J → Prop
  | plain {a p g1 w g2 h z W H} : Blank py.space a → Word py.space p → Gap py.space g1 → Word py.space w →
      Gap py.space g2 → Word py.space h → Blank py.space z → py.int w = some W → py.int h = some H →
      Supported py (a ++ p ++ g1 ++ w ++ g2 ++ h ++ z) ⟨p, W, H, txt "cover", py.empty, true⟩
  | style {a p g1 w g2 h g3 z W H} : Blank py.space a → Word py.space p → Gap py.space g1 → Word py.space w →
      Gap py.space g2 → Word py.space h → Gap py.space g3 → Blank py.space z → py.int w = some W → py.int h = some H →
      Supported py (a ++ p ++ g1 ++ w ++ g2 ++ h ++ g3 ++ txt "cover" ++ z) ⟨p, W, H, txt "cover", py.empty, true⟩
  | crop {a p g1 w g2 h g3 g4 b W H j} : Blank py.space a → Word py.space p → Gap py.space g1 → Word py.space w →
      Gap py.space g2 → Word py.space h → Gap py.space g3 → Gap py.space g4 →
      py.int w = some W → py.int h = some H → 125 ∉ b → py.json (123 :: b ++ [125]) = some j →
      Supported py (a ++ p ++ g1 ++ w ++ g2 ++ h ++ g3 ++ txt "cover" ++ g4 ++ (123 :: b ++ [125]))
        ⟨p, W, H, txt "cover", j, true⟩
  | eager {a p g1 w g2 h g3 g4 b g5 z W H j} : Blank py.space a → Word py.space p → Gap py.space g1 →
      Word py.space w → Gap py.space g2 → Word py.space h → Gap py.space g3 → Gap py.space g4 → Blank py.space g5 →
      Blank py.space z → py.int w = some W → py.int h = some H → 125 ∉ b → py.json (123 :: b ++ [125]) = some j →
      Supported py (a ++ p ++ g1 ++ w ++ g2 ++ h ++ g3 ++ txt "cover" ++ g4 ++ (123 :: b ++ [125]) ++ 32 :: g5 ++
        txt "eager" ++ z) ⟨p, W, H, txt "cover", j, false⟩

/-- C45, in part: without `lazy` behind the crop arguments, every documented form is parsed as documented. -/
theorem C45_partial {py : Py J} (hg : GoodSpace py.space) {s : Text} {c : Command J} (h : Supported py s c) :
    Documented py s c ∧ parseCommand py s = .ok c := by
  cases h with
  | plain h1 h2 h3 h4 h5 h6 h7 h8 h9 => exact ⟨.plain h1 h2 h3 h4 h5 h6 h7 h8 h9, (C45_exact hg _ _).1.2 (.plain h1 h2 h3 h4 h5 h6 h7 h8 h9)⟩
  | style h1 h2 h3 h4 h5 h6 h7 h8 h9 h10 =>
    exact ⟨.style h1 h2 h3 h4 h5 h6 h7 h8 h9 h10, (C45_exact hg _ _).1.2 (.style h1 h2 h3 h4 h5 h6 h7 h8 h9 h10)⟩
  | @crop a p g1 w g2 h g3 g4 b W H j h1 h2 h3 h4 h5 h6 h7 h8 h9 h10 h11 h12 =>
    refine ⟨?_, (C45_exact hg _ _).1.2 ?_⟩
    · have := Documented.crop (z := []) h1 h2 h3 h4 h5 h6 h7 h8 (fun c hc => by cases hc) h9 h10 h12
      simpa using this
    · have := Accepted.crop (rest := []) h1 h2 h3 h4 h5 h6 h7 h8 h9 h10 h11 h12
      simpa using this
  | @eager a p g1 w g2 h g3 g4 b g5 z W H j h1 h2 h3 h4 h5 h6 h7 h8 h9 hz h10 h11 h12 h13 =>
    refine ⟨?_, (C45_exact hg _ _).1.2 ?_⟩
    · have h5' : Gap py.space (32 :: g5) := by
        refine ⟨by simp, fun c hc => ?_⟩
        rcases List.mem_cons.1 hc with rfl | hc
        · exact hg.1
        · exact h9 c hc
      have := Documented.mode false h1 h2 h3 h4 h5 h6 h7 h8 h5' hz h10 h11 h13
      simpa using this
    · have := Accepted.crop (rest := 32 :: g5 ++ txt "eager" ++ z) h1 h2 h3 h4 h5 h6 h7 h8 h10 h11 h12 h13
      simpa using this

/-- ASCII whitespace, numbers of one digit, and objects of which only the text counts. -/
def demoPy : Py Text :=
  { space := fun c => c == 32 || (9 ≤ c && c ≤ 13)
    int := fun s => match s with
      | [c] => if 48 ≤ c ∧ c ≤ 57 then some ((c : ℤ) - 48) else none
      | _ => none
    json := some
    empty := [] }

theorem demoPy_good : GoodSpace demoPy.space := by
  refine ⟨by decide, by decide, fun c h1 h2 => ?_⟩
  have e1 : (c == 32) = false := by simp; omega
  have e2 : (decide (9 ≤ c) && decide (c ≤ 13)) = false := by simp; omega
  simp [demoPy, e1, e2]

/-- The documented example without `lazy`, with `eager`. -/
theorem C45_case :
    parseCommand demoPy (txt "/img/t.jpg 2 5 cover {\"top\": 5}") =
      .ok ⟨txt "/img/t.jpg", 2, 5, txt "cover", txt "{\"top\": 5}", true⟩ ∧
    parseCommand demoPy (txt "/img/t.jpg 2 5 cover {\"top\": 5} eager") =
      .ok ⟨txt "/img/t.jpg", 2, 5, txt "cover", txt "{\"top\": 5}", false⟩ := by
  decide +kernel

/-- C45 is false as stated: the documented example with `lazy` is loaded eagerly. -/
theorem C45_false :
    Documented demoPy (txt "/img/t.jpg 2 5 cover {\"top\": 5} lazy") ⟨txt "/img/t.jpg", 2, 5, txt "cover", txt "{\"top\": 5}", true⟩ ∧
    parseCommand demoPy (txt "/img/t.jpg 2 5 cover {\"top\": 5} lazy") =
      .ok ⟨txt "/img/t.jpg", 2, 5, txt "cover", txt "{\"top\": 5}", false⟩ := by
  constructor
  · have := Documented.mode (py := demoPy) (a := []) (p := txt "/img/t.jpg") (g1 := [32]) (w := txt "2") (g2 := [32]) (h := txt "5")
      (g3 := [32]) (g4 := [32]) (b := txt "\"top\": 5") (g5 := [32]) (z := []) (W := 2) (H := 5) (j := txt "{\"top\": 5}") true
      (by unfold Blank; decide) (by unfold Word; decide) (by unfold Gap; decide) (by unfold Word; decide) (by unfold Gap; decide)
      (by unfold Word; decide) (by unfold Gap; decide) (by unfold Gap; decide) (by unfold Gap; decide) (by unfold Blank; decide)
      (by decide) (by decide) (by decide)
    have e : txt "/img/t.jpg 2 5 cover {\"top\": 5} lazy" = [] ++ txt "/img/t.jpg" ++ [32] ++ txt "2" ++ [32] ++ txt "5" ++ [32] ++
      txt "cover" ++ [32] ++ (123 :: txt "\"top\": 5" ++ [125]) ++ [32] ++ txt (if true = true then "lazy" else "eager") ++ [] := by decide
    rw [e]
    exact this
  · decide +kernel

/-- Trailing whitespace has the same effect: `[IMAGE: /img/t.jpg 2 5 cover {} ]` is loaded eagerly. -/
theorem C45_false_trailing : parseCommand demoPy (txt "/img/t.jpg 2 5 cover {} ") =
    .ok ⟨txt "/img/t.jpg", 2, 5, txt "cover", txt "{}", false⟩ := by decide +kernel

/-! ## Comments -/

/-- A comment is a command exactly if it has the form `[IMAGE: arguments]`, with whitespace anywhere but inside the
word, and at least some behind the colon; the arguments are on one line, and end before the last bracket. -/
theorem C45_comment (hg : GoodSpace space) (s args : Text) :
    imageArgs space s = some args ↔
      ∃ a b c d z, s = a ++ [91] ++ b ++ txt "IMAGE" ++ c ++ [58] ++ d ++ args ++ [93] ++ z ∧ Blank space a ∧ Blank space b ∧
        Blank space c ∧ Gap space d ∧ Blank space z ∧ 10 ∉ args ∧ ∀ x, args.head? = some x → space x = false := by
  have eI : txt "IMAGE" = [73, 77, 65, 71, 69] := by decide
  have vis : ∀ c, 33 ≤ c → c ≤ 126 → space c = false := hg.2.2
  constructor
  · intro h
    unfold imageArgs at h
    split at h
    · rename_i s1 h1
      simp only at h
      split at h
      · rename_i hpre
        split at h
        · rename_i s3 h3
          split at h
          · cases h
          · rename_i hd
            split at h
            · rename_i r hr
              split at h
              · cases h
              · rename_i hnl
                injection h with h
                subst h
                obtain ⟨rest, hrest⟩ := List.isPrefixOf_iff_prefix.1 hpre
                refine ⟨s.takeWhile space, s1.takeWhile space, ((s1.dropWhile space).drop 5).takeWhile space,
                  s3.takeWhile space, (((s3.dropWhile space).reverse).takeWhile space).reverse, ?_, takeWhile_blank,
                  takeWhile_blank, takeWhile_blank, ⟨hd, takeWhile_blank⟩, ?_, ?_, ?_⟩
                · have E3 : s3 = s3.takeWhile space ++ r.reverse ++ [93] ++ (((s3.dropWhile space).reverse).takeWhile space).reverse := by
                    have := List.takeWhile_append_dropWhile (p := space) (l := (s3.dropWhile space).reverse)
                    rw [hr] at this
                    have := congrArg List.reverse this
                    rw [List.reverse_append, List.reverse_cons, List.reverse_reverse] at this
                    conv_lhs => rw [← List.takeWhile_append_dropWhile (p := space) (l := s3), ← this]
                    simp
                  have E2 : s1 = s1.takeWhile space ++ txt "IMAGE" ++ ((s1.dropWhile space).drop 5).takeWhile space ++ [58] ++ s3 := by
                    have h5 : s1.dropWhile space = txt "IMAGE" ++ (s1.dropWhile space).drop 5 := by
                      rw [← hrest, eI]; rfl
                    have := List.takeWhile_append_dropWhile (p := space) (l := (s1.dropWhile space).drop 5)
                    rw [h3] at this
                    conv_lhs => rw [← List.takeWhile_append_dropWhile (p := space) (l := s1), h5, ← this]
                    simp
                  have E1 : s = s.takeWhile space ++ [91] ++ s1 := by
                    conv_lhs => rw [← List.takeWhile_append_dropWhile (p := space) (l := s), h1]
                    simp
                  conv_lhs => rw [E1, E2, E3]
                  simp only [List.append_assoc]
                · intro c hc
                  exact takeWhile_blank c (List.mem_reverse.1 hc)
                · intro hm; apply hnl; simpa using hm
                · intro x hx
                  have := List.takeWhile_append_dropWhile (p := space) (l := (s3.dropWhile space).reverse)
                  rw [hr] at this
                  have := congrArg List.reverse this
                  rw [List.reverse_append, List.reverse_cons, List.reverse_reverse] at this
                  refine head_dropWhile (p := space) (s := s3) (c := x) ?_
                  rw [← this]
                  cases hrr : r.reverse with
                  | nil => rw [hrr] at hx; cases hx
                  | cons y ys => rw [hrr] at hx; simpa using hx
            · cases h
        · cases h
      · cases h
    · cases h
  · rintro ⟨a, b, c, d, z, rfl, ha, hb, hc, hd, hz, hn, hx⟩
    have e : a ++ [91] ++ b ++ txt "IMAGE" ++ c ++ [58] ++ d ++ args ++ [93] ++ z =
        a ++ (91 :: (b ++ (txt "IMAGE" ++ (c ++ (58 :: (d ++ (args ++ (93 :: z)))))))) := by simp
    have d1 : (a ++ (91 :: (b ++ (txt "IMAGE" ++ (c ++ (58 :: (d ++ (args ++ (93 :: z)))))))) : Text).dropWhile space =
        91 :: (b ++ (txt "IMAGE" ++ (c ++ (58 :: (d ++ (args ++ (93 :: z))))))) :=
      dropWhile_blank ha (fun x hx => by simp at hx; subst hx; exact vis _ (by omega) (by omega))
    have d2 : (b ++ (txt "IMAGE" ++ (c ++ (58 :: (d ++ (args ++ (93 :: z)))))) : Text).dropWhile space =
        txt "IMAGE" ++ (c ++ (58 :: (d ++ (args ++ (93 :: z))))) :=
      dropWhile_blank hb (fun x hx => by rw [eI] at hx; simp at hx; subst hx; exact vis _ (by omega) (by omega))
    have p1 : (txt "IMAGE").isPrefixOf (txt "IMAGE" ++ (c ++ (58 :: (d ++ (args ++ (93 :: z)))))) = true :=
      List.isPrefixOf_iff_prefix.2 (List.prefix_append _ _)
    have d3 : (txt "IMAGE" ++ (c ++ (58 :: (d ++ (args ++ (93 :: z))))) : Text).drop 5 = c ++ (58 :: (d ++ (args ++ (93 :: z)))) := by
      rw [eI]; rfl
    have d4 : (c ++ (58 :: (d ++ (args ++ (93 :: z)))) : Text).dropWhile space = 58 :: (d ++ (args ++ (93 :: z))) :=
      dropWhile_blank hc (fun x hx => by simp at hx; subst hx; exact vis _ (by omega) (by omega))
    have hh : ∀ x, (args ++ 93 :: z).head? = some x → space x = false := by
      intro x h
      cases args with
      | nil => simp at h; subst h; exact vis _ (by omega) (by omega)
      | cons y ys => simp at h; exact hx x (by simpa using h)
    have d5 : (d ++ (args ++ (93 :: z)) : Text).dropWhile space = args ++ 93 :: z := dropWhile_blank hd.2 hh
    have t5 : (d ++ (args ++ (93 :: z)) : Text).takeWhile space ≠ [] := by
      obtain ⟨hdn, hd⟩ := hd
      cases d with
      | nil => exact absurd rfl hdn
      | cons y ys => simp [hd y (by simp)]
    have d6 : (args ++ 93 :: z).reverse.dropWhile space = 93 :: args.reverse := by
      rw [List.reverse_append, List.reverse_cons, List.append_assoc]
      refine dropWhile_blank (fun x hx => hz x (List.mem_reverse.1 hx)) (fun x hx => ?_)
      simp at hx; subst hx; exact vis _ (by omega) (by omega)
    have hn' : (args.reverse.contains 10) = false := by simpa using hn
    rw [e]
    simp only [imageArgs, d1, d2, p1, if_true, d3, d4, if_neg t5, d5, d6, hn', List.reverse_reverse]
    simp

/-- A malformed command is not ignored: the build fails. -/
theorem C45_malformed {py : Py J} (hg : GoodSpace py.space) {image : Text → Option (ℤ × ℤ)} {cwd folder rel comment args : Text}
    (h : imageArgs py.space comment = some args) (hn : ∀ c, ¬ Accepted py args c) :
    getCommand py image cwd folder rel comment = .error .valueError := by
  have := (C45_exact hg args ⟨[], 0, 0, [], py.empty, true⟩).2 hn
  simp only [getCommand, h, this]

/-- A command which is carried out is in the comment as given, refers to an image below the public folder, and
does not enlarge it. -/
theorem C45_validated {py : Py J} (hg : GoodSpace py.space) {image : Text → Option (ℤ × ℤ)} {cwd folder rel comment : Text} {c : Command J}
    (h : getCommand py image cwd folder rel comment = .ok (some c)) :
    ∃ args, imageArgs py.space comment = some args ∧ Accepted py args c ∧
      (txt "src/public") <+: sourcePath cwd folder (Verif.Paths.join folder rel) c ∧
      ∃ w h, image (Verif.Paths.join folder (sourcePath cwd folder (Verif.Paths.join folder rel) c)) = some (w, h) ∧
        c.width ≤ w ∧ c.height ≤ h := by
  unfold getCommand at h
  split at h
  · cases h
  · rename_i args ha
    split at h
    · cases h
    · rename_i c' hp
      split at h
      · rename_i hv
        simp only [Except.ok.injEq, Option.some.injEq] at h
        subst h
        refine ⟨args, ha, (C45_exact hg _ _).1.1 hp, ?_⟩
        have ej : Verif.Paths.join (txt "src") (txt "public") = txt "src/public" := by decide
        simp only [validate, Bool.and_eq_true, ej] at hv
        refine ⟨List.isPrefixOf_iff_prefix.1 hv.1, ?_⟩
        have hv2 := hv.2
        split at hv2
        · cases hv2
        · rename_i w hh hi
          simp only [Bool.and_eq_true, decide_eq_true_eq] at hv2
          exact ⟨w, hh, hi, hv2.1, hv2.2⟩
      · simp at h

end

end Verif.Img
