import Verif.ImgExport
import Verif.ImgFitThm
import Mathlib.Data.Nat.Digits.Lemmas

/-! C41: the exporter keeps the best export of each size and format. -/

namespace Verif.Img

open Verif.Reader

/-! ## Names -/

theorem split_unique {c : ℕ} {A B X Y : Text} (hA : c ∉ A) (hB : c ∉ B) (h : A ++ c :: X = B ++ c :: Y) : A = B ∧ X = Y := by
  induction A generalizing B with
  | nil =>
    cases B with
    | nil => simp at h; exact ⟨rfl, h⟩
    | cons b B => simp at h; exact absurd h.1 (fun e => hB (by simp [e]))
  | cons a A ih =>
    cases B with
    | nil => simp at h; exact absurd h.1 (fun e => hA (by simp [e]))
    | cons b B =>
      simp only [List.cons_append, List.cons.injEq] at h
      obtain ⟨rfl, h⟩ := h
      obtain ⟨rfl, h2⟩ := ih (fun e => hA (List.mem_cons_of_mem _ e)) (fun e => hB (List.mem_cons_of_mem _ e)) h
      exact ⟨rfl, h2⟩

theorem split_unique_last {c : ℕ} {A B X Y : Text} (hX : c ∉ X) (hY : c ∉ Y) (h : A ++ c :: X = B ++ c :: Y) : A = B ∧ X = Y := by
  have h' : X.reverse ++ c :: A.reverse = Y.reverse ++ c :: B.reverse := by
    have := congrArg List.reverse h
    simpa using this
  obtain ⟨h1, h2⟩ := split_unique (by simpa using hX) (by simpa using hY) h'
  exact ⟨List.reverse_injective h2, List.reverse_injective h1⟩

theorem digits_lt {n : ℕ} : ∀ c ∈ digits n, c < 58 := by
  intro c hc
  unfold digits at hc
  split at hc
  · simp at hc; omega
  · simp only [List.mem_map, List.mem_reverse] at hc
    obtain ⟨d, hd, rfl⟩ := hc
    have := Nat.digits_lt_base (by decide : 1 < 10) hd
    omega

theorem digits_ge {n : ℕ} : ∀ c ∈ digits n, 48 ≤ c := by
  intro c hc
  unfold digits at hc
  split at hc
  · simp at hc; omega
  · simp only [List.mem_map, List.mem_reverse] at hc
    obtain ⟨d, hd, rfl⟩ := hc
    omega

theorem digits_inj {m n : ℕ} (h : digits m = digits n) : m = n := by
  unfold digits at h
  have key : ∀ k : ℕ, k ≠ 0 → (Nat.digits 10 k).reverse.map (· + 48) ≠ [48] := by
    intro k hk e
    have h1 : (Nat.digits 10 k).reverse = [0] := by
      have := congrArg (List.map (· - 48)) e
      simpa using this
    have h2 : Nat.digits 10 k = [0] := by
      have := congrArg List.reverse h1
      simpa using this
    have := Nat.ofDigits_digits 10 k
    rw [h2] at this
    simp at this
    exact hk this.symm
  split at h
  · split at h
    · omega
    · exact absurd h.symm (key n (by assumption))
  · split at h
    · exact absurd h (key m (by assumption))
    · have h1 : (Nat.digits 10 m).reverse = (Nat.digits 10 n).reverse :=
        List.map_injective_iff.2 (fun a b hab => by simpa using hab) h
      exact Nat.digits_inj_iff.1 (List.reverse_injective h1)

theorem candName_inj {w h w' h' : ℕ} {n f n' f' : Text} (hf : 46 ∉ f) (hf' : 46 ∉ f')
    (e : candName w h n f = candName w' h' n' f') : w = w' ∧ h = h' ∧ n = n' ∧ f = f' := by
  unfold candName at e
  obtain ⟨e1, e⟩ := split_unique (fun h => by have := digits_lt _ h; omega) (fun h => by have := digits_lt _ h; omega) e
  obtain ⟨e2, e⟩ := split_unique (fun h => by have := digits_ge _ h; omega) (fun h => by have := digits_ge _ h; omega) e
  obtain ⟨e3, e4⟩ := split_unique_last hf hf' e
  exact ⟨digits_inj e1, digits_inj e2, e3, e4⟩

theorem outName_inj {w h w' h' : ℕ} {f f' : Text} (e : outName w h f = outName w' h' f') : w = w' ∧ h = h' ∧ f = f' := by
  unfold outName at e
  obtain ⟨e1, e⟩ := split_unique (fun h => by have := digits_lt _ h; omega) (fun h => by have := digits_lt _ h; omega) e
  obtain ⟨e2, e⟩ := split_unique (fun h => by have := digits_ge _ h; omega) (fun h => by have := digits_ge _ h; omega) e
  exact ⟨digits_inj e1, digits_inj e2, e⟩

theorem cand_ne_out {w h w' h' : ℕ} {n f f' : Text} : candName w h n f ≠ outName w' h' f' := by
  intro e
  unfold candName outName at e
  obtain ⟨_, e⟩ := split_unique (fun h => by have := digits_lt _ h; omega) (fun h => by have := digits_lt _ h; omega) e
  have key : ∀ (A B X Y : Text), (∀ c ∈ A, 48 ≤ c) → (∀ c ∈ B, 48 ≤ c) → A ++ 45 :: X ≠ B ++ 46 :: Y := by
    intro A
    induction A with
    | nil =>
      intro B X Y _ hB e
      cases B with
      | nil => simp at e
      | cons b B => simp at e; have := hB b (by simp); omega
    | cons a A ih =>
      intro B X Y hA hB e
      cases B with
      | nil => simp at e; have := hA a (by simp); omega
      | cons b B =>
        simp only [List.cons_append, List.cons.injEq] at e
        exact ih B X Y (fun c h => hA c (List.mem_cons_of_mem _ h)) (fun c h => hB c (List.mem_cons_of_mem _ h)) e.2
  exact key _ _ _ _ digits_ge digits_ge e

/-! ## Selection -/

/-- File size per preference, counting small files as if they had the minimum size of the format. -/
def score (f : Format) (e : Export) (size : ℕ) : ℚ := ((max (size : ℤ) f.minUnit : ℤ) : ℚ) / e.preference

/-- The area of the image is within the bounds of the export, which are inclusive. -/
def Applies (e : Export) (w h : ℕ) : Prop :=
  (∀ m, e.minArea = some m → m ≤ (w : ℤ) * h) ∧ (∀ m, e.maxArea = some m → (w : ℤ) * h ≤ m)

theorem applies_iff {e : Export} {w h : ℕ} : e.appliesTo w h = true ↔ Applies e w h := by
  unfold Export.appliesTo Applies
  cases e.minArea <;> cases e.maxArea <;> simp

/-- The export `n` is the choice for this size: it applies, every other applicable export has at least its score,
and every earlier one a higher score. -/
def Chosen (f : Format) (w h : ℕ) (size : Text → ℕ) (n : Text) : Prop :=
  ∃ pre post e, f.exports = pre ++ (n, e) :: post ∧ Applies e w h ∧
    (∀ x ∈ pre, Applies x.2 w h → score f e (size n) < score f x.2 (size x.1)) ∧
    (∀ x ∈ post, Applies x.2 w h → score f e (size n) ≤ score f x.2 (size x.1))

theorem compareIn_pos {f : Format} {a b : Export} {sa sb : ℕ} (ha : 0 < a.preference) (hb : 0 < b.preference) :
    compareIn f a sa b sb > 0 ↔ score f b sb < score f a sa := by
  unfold compareIn compare score
  have ha' : (0 : ℚ) < a.preference := by exact_mod_cast ha
  have hb' : (0 : ℚ) < b.preference := by exact_mod_cast hb
  rw [div_lt_div_iff₀ hb' ha', gt_iff_lt, sub_pos]
  exact_mod_cast Iff.rfl

/-- Files which the rest of a tournament leaves. -/
theorem tournament_spec {w h : ℕ} {f : Format} (hf : 46 ∉ f.name) {size : Text → ℕ} (es : List (Text × Export))
    (hpos : ∀ x ∈ es, 0 < x.2.preference) (hnd : (es.map (·.1)).Nodup) :
    (∀ (b : Best) (d : Folder), 0 < b.opt.preference → b.name ∉ es.map (·.1) →
      (∀ x ∈ es, x.2.appliesTo w h = true → d (candName w h x.1 f.name) = some (size x.1)) →
      d (candName w h b.name f.name) = some b.size →
      ∃ b' d', tournament w h f es (some b) d = .ok (some b', d') ∧
        d' (candName w h b'.name f.name) = some b'.size ∧
        (∀ p, p ≠ candName w h b.name f.name → (∀ x ∈ es, x.2.appliesTo w h = true → p ≠ candName w h x.1 f.name) → d' p = d p) ∧
        (∀ x ∈ es, x.2.appliesTo w h = true → x.1 ≠ b'.name → d' (candName w h x.1 f.name) = none) ∧
        (b.name ≠ b'.name → d' (candName w h b.name f.name) = none) ∧
        ((b' = b ∧ ∀ x ∈ es, x.2.appliesTo w h = true → score f b.opt b.size ≤ score f x.2 (size x.1)) ∨
         (∃ pre post, es = pre ++ (b'.name, b'.opt) :: post ∧ b'.opt.appliesTo w h = true ∧ b'.size = size b'.name ∧
            score f b'.opt b'.size < score f b.opt b.size ∧
            (∀ x ∈ pre, x.2.appliesTo w h = true → score f b'.opt b'.size < score f x.2 (size x.1)) ∧
            (∀ x ∈ post, x.2.appliesTo w h = true → score f b'.opt b'.size ≤ score f x.2 (size x.1))))) := by
  induction es with
  | nil =>
    intro b d _ _ _ hb
    exact ⟨b, d, rfl, hb, fun p _ _ => rfl, by simp, fun h => absurd rfl h, .inl ⟨rfl, by simp⟩⟩
  | cons x es ih =>
    obtain ⟨n, e⟩ := x
    intro b d hbp hbn hd hb
    have hnd' : (es.map (·.1)).Nodup := (List.nodup_cons.1 hnd).2
    have hn : n ∉ es.map (·.1) := (List.nodup_cons.1 hnd).1
    have hpos' : ∀ x ∈ es, 0 < x.2.preference := fun x hx => hpos x (List.mem_cons_of_mem _ hx)
    have hbn' : b.name ∉ es.map (·.1) := fun hc => hbn (by simp at hc ⊢; exact .inr hc)
    have hbne : b.name ≠ n := fun hc => hbn (by simp [hc])
    have hcne : ∀ {m m' : Text}, m ≠ m' → candName w h m f.name ≠ candName w h m' f.name :=
      fun hne hc => hne (candName_inj hf hf hc).2.2.1
    by_cases ha : e.appliesTo w h = true
    · have hdn := hd (n, e) (by simp) ha
      simp only at hdn
      by_cases hc : compareIn f b.opt b.size e (size n) > 0
      · -- the new one is better
        have hlt : score f e (size n) < score f b.opt b.size := (compareIn_pos hbp (hpos (n, e) (by simp))).1 hc
        obtain ⟨b', d', r1, r2, r3, r4, r5, r6⟩ := ih hpos' hnd' ⟨n, e, size n⟩ (d.set (candName w h b.name f.name) none)
          (hpos (n, e) (by simp)) hn (by
            intro x hx hax
            have : x.1 ≠ b.name := fun hc => hbn' (hc ▸ List.mem_map.2 ⟨x, hx, rfl⟩)
            unfold Folder.set
            rw [if_neg (hcne this)]
            exact hd x (List.mem_cons_of_mem _ hx) hax) (by
            unfold Folder.set
            rw [if_neg (hcne (Ne.symm hbne))]; exact hdn)
        have hb'name : b'.name ≠ b.name := by
          rcases r6 with ⟨rfl, _⟩ | ⟨pre, post, hes, _⟩
          · exact Ne.symm hbne
          · intro hc
            apply hbn'
            rw [hes, ← hc]; simp
        refine ⟨b', d', ?_, r2, ?_, ?_, ?_, ?_⟩
        · simp only [tournament, ha, if_true, hdn, hc, hb]
          exact r1
        · intro p hp1 hp2
          rw [r3 p (hp2 (n, e) (by simp) ha) (fun x hx hax => hp2 x (List.mem_cons_of_mem _ hx) hax)]
          unfold Folder.set
          rw [if_neg hp1]
        · intro x hx hax hne
          rcases List.mem_cons.1 hx with rfl | hx
          · exact r5 hne
          · exact r4 x hx hax hne
        · intro _
          rw [r3 _ (hcne hbne) (fun x hx hax => hcne (fun hc => hbn' (hc ▸ List.mem_map.2 ⟨x, hx, rfl⟩)))]
          simp [Folder.set]
        · right
          rcases r6 with ⟨rfl, hle⟩ | ⟨pre, post, hes, h1, h2, h3, h4, h5⟩
          · exact ⟨[], es, rfl, ha, rfl, hlt, by simp, hle⟩
          · refine ⟨(n, e) :: pre, post, by rw [hes]; rfl, h1, h2, lt_trans h3 hlt, ?_, h5⟩
            intro x hx hax
            rcases List.mem_cons.1 hx with rfl | hx
            · exact h3
            · exact h4 x hx hax
      · -- the old one stays
        have hle : score f b.opt b.size ≤ score f e (size n) :=
          not_lt.1 (fun h => hc ((compareIn_pos hbp (hpos (n, e) (by simp))).2 h))
        obtain ⟨b', d', r1, r2, r3, r4, r5, r6⟩ := ih hpos' hnd' b (d.set (candName w h n f.name) none) hbp hbn' (by
            intro x hx hax
            have : x.1 ≠ n := fun hc => hn (hc ▸ List.mem_map.2 ⟨x, hx, rfl⟩)
            unfold Folder.set
            rw [if_neg (hcne this)]
            exact hd x (List.mem_cons_of_mem _ hx) hax) (by
            unfold Folder.set
            rw [if_neg (hcne hbne)]; exact hb)
        refine ⟨b', d', ?_, r2, ?_, ?_, r5, ?_⟩
        · simp only [tournament, ha, if_true, hdn, hc, if_false]
          exact r1
        · intro p hp1 hp2
          rw [r3 p hp1 (fun x hx hax => hp2 x (List.mem_cons_of_mem _ hx) hax)]
          unfold Folder.set
          rw [if_neg (hp2 (n, e) (by simp) ha)]
        · intro x hx hax hne
          rcases List.mem_cons.1 hx with rfl | hx
          · rw [r3 _ (hcne (Ne.symm hbne)) (fun y hy hay => hcne (fun hc => hn (hc ▸ List.mem_map.2 ⟨y, hy, rfl⟩)))]
            simp [Folder.set]
          · exact r4 x hx hax hne
        · rcases r6 with ⟨rfl, h1⟩ | ⟨pre, post, hes, h1, h2, h3, h4, h5⟩
          · left
            refine ⟨rfl, fun x hx hax => ?_⟩
            rcases List.mem_cons.1 hx with rfl | hx
            · exact hle
            · exact h1 x hx hax
          · right
            refine ⟨(n, e) :: pre, post, by rw [hes]; rfl, h1, h2, h3, fun x hx hax => ?_, h5⟩
            rcases List.mem_cons.1 hx with rfl | hx
            · exact lt_of_lt_of_le h3 hle
            · exact h4 x hx hax
    · obtain ⟨b', d', r1, r2, r3, r4, r5, r6⟩ := ih hpos' hnd' b d hbp hbn'
        (fun x hx hax => hd x (List.mem_cons_of_mem _ hx) hax) hb
      refine ⟨b', d', ?_, r2, ?_, ?_, r5, ?_⟩
      · simp only [tournament, ha]
        exact r1
      · intro p hp1 hp2
        exact r3 p hp1 (fun x hx hax => hp2 x (List.mem_cons_of_mem _ hx) hax)
      · intro x hx hax hne
        rcases List.mem_cons.1 hx with rfl | hx
        · exact absurd hax ha
        · exact r4 x hx hax hne
      · rcases r6 with ⟨rfl, h1⟩ | ⟨pre, post, hes, h1, h2, h3, h4, h5⟩
        · left
          refine ⟨rfl, fun x hx hax => ?_⟩
          rcases List.mem_cons.1 hx with rfl | hx
          · exact absurd hax ha
          · exact h1 x hx hax
        · right
          refine ⟨(n, e) :: pre, post, by rw [hes]; rfl, h1, h2, h3, fun x hx hax => ?_, h5⟩
          rcases List.mem_cons.1 hx with rfl | hx
          · exact absurd hax ha
          · exact h4 x hx hax

/-- Some export of the format applies to the size. -/
def Applicable (f : Format) (w h : ℕ) : Prop := ∃ x ∈ f.exports, Applies x.2 w h

instance (f : Format) (w h : ℕ) : Decidable (Applicable f w h) :=
  decidable_of_iff (∃ x ∈ f.exports, x.2.appliesTo w h = true) (by simp only [Applicable, applies_iff])

theorem tournament_start {w h : ℕ} {f : Format} (hf : 46 ∉ f.name) {size : Text → ℕ} (es : List (Text × Export))
    (hpos : ∀ x ∈ es, 0 < x.2.preference) (hnd : (es.map (·.1)).Nodup) (d : Folder)
    (hd : ∀ x ∈ es, x.2.appliesTo w h = true → d (candName w h x.1 f.name) = some (size x.1)) :
    ((∀ x ∈ es, ¬ x.2.appliesTo w h = true) ∧ tournament w h f es none d = .ok (none, d)) ∨
    (∃ b d' pre post, tournament w h f es none d = .ok (some b, d') ∧ es = pre ++ (b.name, b.opt) :: post ∧
      b.opt.appliesTo w h = true ∧ b.size = size b.name ∧ d' (candName w h b.name f.name) = some b.size ∧
      (∀ p, (∀ x ∈ es, x.2.appliesTo w h = true → p ≠ candName w h x.1 f.name) → d' p = d p) ∧
      (∀ x ∈ es, x.2.appliesTo w h = true → x.1 ≠ b.name → d' (candName w h x.1 f.name) = none) ∧
      (∀ x ∈ pre, x.2.appliesTo w h = true → score f b.opt (size b.name) < score f x.2 (size x.1)) ∧
      (∀ x ∈ post, x.2.appliesTo w h = true → score f b.opt (size b.name) ≤ score f x.2 (size x.1))) := by
  induction es with
  | nil => exact .inl ⟨by simp, rfl⟩
  | cons x es ih =>
    obtain ⟨n, e⟩ := x
    have hnd' : (es.map (·.1)).Nodup := (List.nodup_cons.1 hnd).2
    have hn : n ∉ es.map (·.1) := (List.nodup_cons.1 hnd).1
    have hpos' : ∀ x ∈ es, 0 < x.2.preference := fun x hx => hpos x (List.mem_cons_of_mem _ hx)
    have hd' : ∀ x ∈ es, x.2.appliesTo w h = true → d (candName w h x.1 f.name) = some (size x.1) :=
      fun x hx => hd x (List.mem_cons_of_mem _ hx)
    by_cases ha : e.appliesTo w h = true
    · right
      have hdn := hd (n, e) (by simp) ha
      simp only at hdn
      obtain ⟨b', d', r1, r2, r3, r4, r5, r6⟩ := tournament_spec hf (size := size) es hpos' hnd' ⟨n, e, size n⟩ d
        (hpos (n, e) (by simp)) hn hd' hdn
      have run : tournament w h f ((n, e) :: es) none d = .ok (some b', d') := by
        simp only [tournament, ha, if_true, hdn]
        exact r1
      have frame : ∀ p, (∀ x ∈ (n, e) :: es, x.2.appliesTo w h = true → p ≠ candName w h x.1 f.name) → d' p = d p :=
        fun p hp => r3 p (hp (n, e) (by simp) ha) (fun x hx => hp x (List.mem_cons_of_mem _ hx))
      have gone : ∀ x ∈ (n, e) :: es, x.2.appliesTo w h = true → x.1 ≠ b'.name → d' (candName w h x.1 f.name) = none := by
        intro x hx hax hne
        rcases List.mem_cons.1 hx with rfl | hx
        · exact r5 hne
        · exact r4 x hx hax hne
      rcases r6 with ⟨rfl, h1⟩ | ⟨pre, post, hes, h1, h2, h3, h4, h5⟩
      · exact ⟨_, d', [], es, run, rfl, ha, rfl, r2, frame, gone, by simp, h1⟩
      · refine ⟨b', d', (n, e) :: pre, post, run, by rw [hes]; rfl, h1, h2, r2, frame, gone, ?_, h2 ▸ h5⟩
        intro x hx hax
        rcases List.mem_cons.1 hx with rfl | hx
        · exact h2 ▸ h3
        · exact h2 ▸ h4 x hx hax
    · have skip : tournament w h f ((n, e) :: es) none d = tournament w h f es none d := by
        simp [tournament, ha]
      rcases ih hpos' hnd' hd' with ⟨h1, h2⟩ | ⟨b, d', pre, post, r1, r2, r3, r4, r5, r6, r7, r8, r9⟩
      · left
        refine ⟨fun x hx => ?_, by rw [skip, h2]⟩
        rcases List.mem_cons.1 hx with rfl | hx
        · exact ha
        · exact h1 x hx
      · right
        refine ⟨b, d', (n, e) :: pre, post, by rw [skip, r1], by rw [r2]; rfl, r3, r4, r5,
          fun p hp => r6 p (fun x hx => hp x (List.mem_cons_of_mem _ hx)), ?_, ?_, r9⟩
        · intro x hx hax hne
          rcases List.mem_cons.1 hx with rfl | hx
          · exact absurd hax ha
          · exact r7 x hx hax hne
        · intro x hx hax
          rcases List.mem_cons.1 hx with rfl | hx
          · exact absurd hax ha
          · exact r8 x hx hax

/-- A format whose files have unambiguous names: its own name has no dot, its exports have different names and
positive preferences. -/
structure GoodFormat (f : Format) : Prop where
  dot : 46 ∉ f.name
  names : (f.exports.map (·.1)).Nodup
  positive : ∀ x ∈ f.exports, 0 < x.2.preference

/-- `p` is the name of an image that is produced for comparison only. -/
def Candidate (f : Format) (w h : ℕ) (p : Text) : Prop :=
  ∃ x ∈ f.exports, x.2.appliesTo w h = true ∧ p = candName w h x.1 f.name

theorem selectOne_spec {sym : Bool} {w h : ℕ} {f : Format} (hf : GoodFormat f) {size : Text → ℕ} {s : Exported}
    (hs : ∀ x ∈ f.exports, x.2.appliesTo w h = true → s.art (candName w h x.1 f.name) = some (size x.1))
    (hw : sym = true → s.www (outName w h f.name) = none) :
    (¬ Applicable f w h ∧ selectOne sym w h f s = .ok s) ∨
    (∃ n s1, Chosen f w h size n ∧ selectOne sym w h f s = .ok s1 ∧
      s1.art (outName w h f.name) = some (size n) ∧
      (∀ p, Candidate f w h p → s1.art p = none) ∧
      (∀ p, ¬ Candidate f w h p → p ≠ outName w h f.name → s1.art p = s.art p) ∧
      s1.www = s.www.set (outName w h f.name) (some (size n)) ∧
      s1.outputs = addOutput f.name ⟨w, h, n⟩ s.outputs) := by
  rcases tournament_start hf.dot (size := size) f.exports hf.positive hf.names s.art hs with
    ⟨h1, h2⟩ | ⟨b, d', pre, post, r1, r2, r3, r4, r5, r6, r7, r8, r9⟩
  · left
    refine ⟨fun ⟨x, hx, hax⟩ => h1 x hx (applies_iff.2 hax), ?_⟩
    simp [selectOne, h2]
  · right
    have hno : ¬ (sym = true ∧ s.www (outName w h f.name) ≠ none) := fun hc => hc.2 (hw hc.1)
    refine ⟨b.name, ⟨(d'.set (candName w h b.name f.name) none).set (outName w h f.name) (some b.size),
      s.www.set (outName w h f.name) (some b.size), addOutput f.name ⟨w, h, b.name⟩ s.outputs⟩,
      ⟨pre, post, b.opt, r2, applies_iff.1 r3, fun x hx h => r8 x hx (applies_iff.2 h), fun x hx h => r9 x hx (applies_iff.2 h)⟩, by simp only [selectOne, r1, r5, if_neg hno], ?_, ?_, ?_, by rw [r4], rfl⟩
    all_goals dsimp only
    · simp [Folder.set, r4]
    · rintro p ⟨x, hx, hax, rfl⟩
      unfold Folder.set
      rw [if_neg cand_ne_out]
      split
      · rfl
      · rename_i hne
        exact r7 x hx hax (fun hc => hne (by rw [hc]))
    · intro p hp1 hp2
      unfold Folder.set
      rw [if_neg hp2, if_neg (fun hc => hp1 ⟨(b.name, b.opt), by rw [r2]; simp, r3, hc⟩)]
      exact r6 p (fun x hx hax hc => hp1 ⟨x, hx, hax, hc⟩)

/-! ## All sizes and formats -/

theorem produceExports_spec {sz : ℕ → ℕ → Text → Text → ℕ} {w h : ℕ} {g : Text} (hg : 46 ∉ g) (es : List (Text × Export))
    (d : Folder) :
    ∃ d', produceExports (fun w h n f => .ok (sz w h n f)) w h g es d = .ok d' ∧
      (∀ p, (∀ x ∈ es, x.2.appliesTo w h = true → p ≠ candName w h x.1 g) → d' p = d p) ∧
      (∀ w' h' n g', 46 ∉ g' → (d (candName w' h' n g') = some (sz w' h' n g') ∨
        ((w', h') = (w, h) ∧ g' = g ∧ ∃ x ∈ es, x.2.appliesTo w h = true ∧ x.1 = n)) →
        d' (candName w' h' n g') = some (sz w' h' n g')) := by
  induction es generalizing d with
  | nil => exact ⟨d, rfl, fun _ _ => rfl, by rintro w' h' n g' _ (h | ⟨_, _, x, hx, _⟩); exact h; simp at hx⟩
  | cons x es ih =>
    obtain ⟨n, e⟩ := x
    by_cases ha : e.appliesTo w h = true
    · obtain ⟨d', r1, r2, r3⟩ := ih (d.set (candName w h n g) (some (sz w h n g)))
      refine ⟨d', by simp only [produceExports, ha, if_true]; exact r1, ?_, ?_⟩
      · intro p hp
        rw [r2 p (fun x hx => hp x (List.mem_cons_of_mem _ hx))]
        unfold Folder.set
        rw [if_neg (hp (n, e) (by simp) ha)]
      · intro w' h' m g' hg' hm
        apply r3 w' h' m g' hg'
        by_cases hc : candName w' h' m g' = candName w h n g
        · left
          obtain ⟨rfl, rfl, rfl, rfl⟩ := candName_inj hg' hg hc
          simp [Folder.set]
        · rcases hm with hm | ⟨hwh, hgg, x, hx, hax, hxn⟩
          · left
            unfold Folder.set
            rw [if_neg hc, hm]
          · rcases List.mem_cons.1 hx with rfl | hx
            · simp only [Prod.mk.injEq] at hwh
              obtain ⟨rfl, rfl⟩ := hwh
              subst hgg
              simp only at hxn
              subst hxn
              exact absurd rfl hc
            · exact .inr ⟨hwh, hgg, x, hx, hax, hxn⟩
    · obtain ⟨d', r1, r2, r3⟩ := ih d
      refine ⟨d', by simp only [produceExports, ha]; exact r1, fun p hp => r2 p (fun x hx => hp x (List.mem_cons_of_mem _ hx)), ?_⟩
      intro w' h' m g' hg' hm
      apply r3 w' h' m g' hg'
      rcases hm with hm | ⟨hwh, hgg, x, hx, hax, hxn⟩
      · exact .inl hm
      · rcases List.mem_cons.1 hx with rfl | hx
        · exact absurd hax ha
        · exact .inr ⟨hwh, hgg, x, hx, hax, hxn⟩

theorem produceAll_spec {sz : ℕ → ℕ → Text → Text → ℕ} (ts : List ((ℕ × ℕ) × Format)) (hts : ∀ t ∈ ts, 46 ∉ t.2.name) (d : Folder) :
    ∃ d', produceAll (fun w h n f => .ok (sz w h n f)) ts d = .ok d' ∧
      (∀ p, (∀ t ∈ ts, ¬ Candidate t.2 t.1.1 t.1.2 p) → d' p = d p) ∧
      (∀ w h n g, 46 ∉ g → (d (candName w h n g) = some (sz w h n g) ∨
        ∃ t ∈ ts, t.1 = (w, h) ∧ t.2.name = g ∧ ∃ x ∈ t.2.exports, x.2.appliesTo w h = true ∧ x.1 = n) →
        d' (candName w h n g) = some (sz w h n g)) := by
  induction ts generalizing d with
  | nil => exact ⟨d, rfl, fun _ _ => rfl, by rintro w h n g _ (h | ⟨x, hx, _⟩); exact h; simp at hx⟩
  | cons t ts ih =>
    obtain ⟨⟨w, h⟩, f⟩ := t
    obtain ⟨d1, q1, q2, q3⟩ := produceExports_spec (sz := sz) (w := w) (h := h) (hts ((w, h), f) (by simp)) f.exports d
    obtain ⟨d', r1, r2, r3⟩ := ih (fun t ht => hts t (List.mem_cons_of_mem _ ht)) d1
    refine ⟨d', by simp only [produceAll, q1]; exact r1, ?_, ?_⟩
    · intro p hp
      rw [r2 p (fun t ht => hp t (List.mem_cons_of_mem _ ht))]
      exact q2 p (fun x hx hax hc => hp ((w, h), f) (by simp) ⟨x, hx, hax, hc⟩)
    · intro w' h' n g hg hm
      apply r3 w' h' n g hg
      rcases hm with hm | ⟨t, ht, h1, h2, x, hx, hax, hxn⟩
      · exact .inl (q3 w' h' n g hg (.inl hm))
      · rcases List.mem_cons.1 ht with rfl | ht
        · left
          simp only [Prod.mk.injEq] at h1
          obtain ⟨rfl, rfl⟩ := h1
          exact q3 _ _ _ _ hg (.inr ⟨rfl, h2.symm, x, hx, hax, hxn⟩)
        · exact .inr ⟨t, ht, h1, h2, x, hx, hax, hxn⟩

/-- The outputs recorded for a format. -/
def outputsOf (g : Text) (l : List (Text × List Output)) : List Output :=
  match l.find? (fun x => decide (x.1 = g)) with
  | none => []
  | some x => x.2

theorem outputsOf_add {g f : Text} {o : Output} (l : List (Text × List Output)) :
    outputsOf g (addOutput f o l) = outputsOf g l ++ (if f = g then [o] else []) := by
  induction l with
  | nil =>
    unfold addOutput outputsOf
    by_cases h : f = g <;> simp [h]
  | cons x l ih =>
    obtain ⟨k, os⟩ := x
    unfold addOutput
    by_cases h : k = f
    · subst h
      simp only [if_true]
      unfold outputsOf
      by_cases h : k = g <;> simp [h]
    · rw [if_neg h]
      unfold outputsOf at ih ⊢
      by_cases hg : k = g
      · subst hg
        simp [Ne.symm h]
      · simpa [hg] using ih

/-- What a run makes of one size and format: the chosen image under its final name in both folders, or, if no
export applies, nothing. -/
def Done (sz : ℕ → ℕ → Text → Text → ℕ) (old s : Exported) (t : (ℕ × ℕ) × Format) : Prop :=
  (∀ p, Candidate t.2 t.1.1 t.1.2 p → s.art p = none) ∧
  (Applicable t.2 t.1.1 t.1.2 → ∃ n, Chosen t.2 t.1.1 t.1.2 (fun m => sz t.1.1 t.1.2 m t.2.name) n ∧
    s.art (outName t.1.1 t.1.2 t.2.name) = some (sz t.1.1 t.1.2 n t.2.name) ∧
    s.www (outName t.1.1 t.1.2 t.2.name) = some (sz t.1.1 t.1.2 n t.2.name) ∧
    ⟨t.1.1, t.1.2, n⟩ ∈ outputsOf t.2.name s.outputs) ∧
  (¬ Applicable t.2 t.1.1 t.1.2 → s.art (outName t.1.1 t.1.2 t.2.name) = old.art (outName t.1.1 t.1.2 t.2.name) ∧
    s.www (outName t.1.1 t.1.2 t.2.name) = old.www (outName t.1.1 t.1.2 t.2.name))

/-- Size and format name, which determine the file name. -/
abbrev key (t : (ℕ × ℕ) × Format) : (ℕ × ℕ) × Text := (t.1, t.2.name)

theorem selectAll_spec {sym : Bool} {sz : ℕ → ℕ → Text → Text → ℕ} (ts : List ((ℕ × ℕ) × Format)) (hts : ∀ t ∈ ts, GoodFormat t.2)
    (hnd : (ts.map key).Nodup) (s : Exported)
    (hs : ∀ t ∈ ts, ∀ x ∈ t.2.exports, x.2.appliesTo t.1.1 t.1.2 = true →
      s.art (candName t.1.1 t.1.2 x.1 t.2.name) = some (sz t.1.1 t.1.2 x.1 t.2.name))
    (hw : sym = true → ∀ t ∈ ts, s.www (outName t.1.1 t.1.2 t.2.name) = none) :
    ∃ s', selectAll sym ts s = .ok s' ∧ (∀ t ∈ ts, Done sz s s' t) ∧
      (∀ p, (∀ t ∈ ts, ¬ Candidate t.2 t.1.1 t.1.2 p ∧ p ≠ outName t.1.1 t.1.2 t.2.name) → s'.art p = s.art p) ∧
      (∀ p, (∀ t ∈ ts, p ≠ outName t.1.1 t.1.2 t.2.name) → s'.www p = s.www p) ∧
      (∀ g, ∃ L, outputsOf g s'.outputs = outputsOf g s.outputs ++ L ∧
        L.map (fun o => (o.width, o.height)) = (ts.filter (fun t => decide (t.2.name = g ∧ Applicable t.2 t.1.1 t.1.2))).map (·.1)) := by
  induction ts generalizing s with
  | nil => exact ⟨s, rfl, by simp, fun _ _ => rfl, fun _ _ => rfl, fun g => ⟨[], by simp, rfl⟩⟩
  | cons t ts ih =>
    obtain ⟨⟨w, h⟩, f⟩ := t
    have hf := hts ((w, h), f) (by simp)
    have hts' : ∀ t ∈ ts, GoodFormat t.2 := fun t ht => hts t (List.mem_cons_of_mem _ ht)
    have hnd' : (ts.map key).Nodup := (List.nodup_cons.1 hnd).2
    have hne : ∀ t ∈ ts, key t ≠ ((w, h), f.name) := fun t ht hc =>
      (List.nodup_cons.1 hnd).1 (List.mem_map.2 ⟨t, ht, hc⟩)
    have hout : ∀ t ∈ ts, outName t.1.1 t.1.2 t.2.name ≠ outName w h f.name := by
      intro t ht hc
      obtain ⟨h1, h2, h3⟩ := outName_inj hc
      exact hne t ht (Prod.ext (Prod.ext h1 h2) h3)
    have hcand : ∀ t ∈ ts, ∀ p, Candidate t.2 t.1.1 t.1.2 p → ¬ Candidate f w h p := by
      rintro t ht p ⟨x, hx, hax, rfl⟩ ⟨y, hy, hay, hc⟩
      obtain ⟨h1, h2, _, h3⟩ := candName_inj (hts' t ht).dot hf.dot hc
      exact hne t ht (Prod.ext (Prod.ext h1 h2) h3)
    have hco : ∀ (f' : Format) (w h w' h' : ℕ) (g : Text), ¬ Candidate f' w h (outName w' h' g) := by
      rintro f' w h w' h' g ⟨x, _, _, hc⟩
      exact cand_ne_out hc.symm
    rcases selectOne_spec (sym := sym) (w := w) (h := h) hf (size := fun m => sz w h m f.name) (s := s)
      (hs ((w, h), f) (by simp)) (fun hsym => hw hsym ((w, h), f) (by simp)) with
      ⟨hna, hsel⟩ | ⟨n, s1, c1, c2, c3, c4, c5, c6, c7⟩
    · obtain ⟨s', r1, r2, r3, r4, r5⟩ := ih hts' hnd' s (fun t ht => hs t (List.mem_cons_of_mem _ ht))
        (fun hsym t ht => hw hsym t (List.mem_cons_of_mem _ ht))
      refine ⟨s', by simp only [selectAll, hsel]; exact r1, ?_, ?_, ?_, ?_⟩
      · intro t ht
        rcases List.mem_cons.1 ht with rfl | ht
        · refine ⟨fun p ⟨x, hx, hax, _⟩ => absurd ⟨x, hx, applies_iff.1 hax⟩ hna, fun ha => absurd ha hna, fun _ => ⟨?_, ?_⟩⟩
          · exact r3 _ (fun t ht => ⟨hco _ _ _ _ _ _, fun hc => hout t ht hc.symm⟩)
          · exact r4 _ (fun t ht hc => hout t ht hc.symm)
        · exact r2 t ht
      · exact fun p hp => r3 p (fun t ht => hp t (List.mem_cons_of_mem _ ht))
      · exact fun p hp => r4 p (fun t ht => hp t (List.mem_cons_of_mem _ ht))
      · intro g
        obtain ⟨L, l1, l2⟩ := r5 g
        refine ⟨L, l1, ?_⟩
        rw [List.filter_cons_of_neg (by simp [hna]), l2]
    · obtain ⟨s', r1, r2, r3, r4, r5⟩ := ih hts' hnd' s1
        (fun t ht x hx hax => by
          rw [c5 _ (hcand t ht _ ⟨x, hx, hax, rfl⟩) cand_ne_out]
          exact hs t (List.mem_cons_of_mem _ ht) x hx hax)
        (fun hsym t ht => by
          rw [c6]
          unfold Folder.set
          rw [if_neg (hout t ht)]
          exact hw hsym t (List.mem_cons_of_mem _ ht))
      have happ : Applicable f w h := by
        obtain ⟨pre, post, e, he, ha, _⟩ := c1
        exact ⟨(n, e), by rw [he]; simp, ha⟩
      refine ⟨s', by simp only [selectAll, c2]; exact r1, ?_, ?_, ?_, ?_⟩
      · intro t ht
        rcases List.mem_cons.1 ht with rfl | ht
        · refine ⟨fun p hp => ?_, fun _ => ⟨n, c1, ?_, ?_, ?_⟩, fun hna => absurd happ hna⟩
          · dsimp only at hp ⊢
            rw [r3 p (fun t ht => ⟨fun hc => hcand t ht p hc hp, ?_⟩)]
            · exact c4 p hp
            · rintro rfl
              exact hco _ _ _ _ _ _ hp
          · dsimp only
            rw [r3 _ (fun t ht => ⟨hco _ _ _ _ _ _, fun hc => hout t ht hc.symm⟩), c3]
          · dsimp only
            rw [r4 _ (fun t ht hc => hout t ht hc.symm), c6]
            simp [Folder.set]
          · dsimp only
            obtain ⟨L, l1, _⟩ := r5 f.name
            rw [l1, c7, outputsOf_add]
            simp
        · obtain ⟨d1, d2, d3⟩ := r2 t ht
          refine ⟨d1, d2, fun hna => ?_⟩
          obtain ⟨e1, e2⟩ := d3 hna
          rw [e1, e2, c5 _ (hco _ _ _ _ _ _) (hout t ht), c6]
          refine ⟨rfl, ?_⟩
          unfold Folder.set
          rw [if_neg (hout t ht)]
      · intro p hp
        rw [r3 p (fun t ht => hp t (List.mem_cons_of_mem _ ht))]
        have := hp ((w, h), f) (by simp)
        exact c5 p this.1 this.2
      · intro p hp
        rw [r4 p (fun t ht => hp t (List.mem_cons_of_mem _ ht)), c6]
        unfold Folder.set
        rw [if_neg (hp ((w, h), f) (by simp))]
      · intro g
        obtain ⟨L, l1, l2⟩ := r5 g
        rw [c7, outputsOf_add] at l1
        by_cases hg : f.name = g
        · refine ⟨⟨w, h, n⟩ :: L, ?_, ?_⟩
          · rw [l1, if_pos hg]; simp
          · rw [List.filter_cons_of_pos (by simp [hg, happ]), List.map_cons, List.map_cons, l2]
        · refine ⟨L, by rw [l1, if_neg hg]; simp, ?_⟩
          rw [List.filter_cons_of_neg (by simp [hg]), l2]

theorem filter_named {formats : List Format} (hnd : (formats.map (·.name)).Nodup) {f : Format} (hf : f ∈ formats) (Q : Format → Bool) :
    formats.filter (fun g => decide (g.name = f.name) && Q g) = if Q f then [f] else [] := by
  induction formats with
  | nil => simp at hf
  | cons g gs ih =>
    have h1 := List.nodup_cons.1 hnd
    rcases List.mem_cons.1 hf with rfl | hf
    · have : gs.filter (fun g => decide (g.name = f.name) && Q g) = [] := by
        rw [List.filter_eq_nil_iff]
        intro x hx hc
        simp only [Bool.and_eq_true, decide_eq_true_eq] at hc
        exact h1.1 (List.mem_map.2 ⟨x, hx, hc.1⟩)
      by_cases hq : Q f <;> simp [hq, this]
    · have hne : g.name ≠ f.name := fun hc => h1.1 (List.mem_map.2 ⟨f, hf, hc.symm⟩)
      rw [List.filter_cons_of_neg (by simp [hne])]
      exact ih h1.2 hf

theorem tasks_filter {sizes : List (ℕ × ℕ)} {formats : List Format} (hnd : (formats.map (·.name)).Nodup) {f : Format} (hf : f ∈ formats) :
    ((tasks sizes formats).filter (fun t => decide (t.2.name = f.name ∧ Applicable t.2 t.1.1 t.1.2))).map (·.1) =
      sizes.filter (fun s => decide (Applicable f s.1 s.2)) := by
  unfold tasks
  induction sizes with
  | nil => rfl
  | cons s ss ih =>
    rw [List.flatMap_cons, List.filter_append, List.map_append, ih, List.filter_map, List.map_map]
    have : (fun t : (ℕ × ℕ) × Format => decide (t.2.name = f.name ∧ Applicable t.2 t.1.1 t.1.2)) ∘ (fun g => (s, g)) =
        fun g : Format => decide (g.name = f.name) && decide (Applicable g s.1 s.2) := by
      funext g
      simp
    rw [this, filter_named hnd hf (fun g => decide (Applicable g s.1 s.2))]
    by_cases ha : Applicable f s.1 s.2 <;> simp [ha]

theorem mem_tasks {sizes : List (ℕ × ℕ)} {formats : List Format} {t : (ℕ × ℕ) × Format} :
    t ∈ tasks sizes formats ↔ t.1 ∈ sizes ∧ t.2 ∈ formats := by
  obtain ⟨s, f⟩ := t
  unfold tasks
  simp only [List.mem_flatMap, List.mem_map, Prod.mk.injEq]
  constructor
  · rintro ⟨s', hs, f', hf, rfl, rfl⟩; exact ⟨hs, hf⟩
  · rintro ⟨hs, hf⟩; exact ⟨s, hs, f, hf, rfl, rfl⟩

theorem tasks_nodup {sizes : List (ℕ × ℕ)} {formats : List Format} (hs : sizes.Nodup) (hf : (formats.map (·.name)).Nodup) :
    ((tasks sizes formats).map key).Nodup := by
  unfold tasks
  induction sizes with
  | nil => simp
  | cons s ss ih =>
    obtain ⟨h1, h2⟩ := List.nodup_cons.1 hs
    rw [List.flatMap_cons, List.map_append, List.nodup_append]
    refine ⟨?_, ih h2, ?_⟩
    · rw [List.map_map]
      have : key ∘ (fun f => (s, f)) = (fun g => (s, g)) ∘ (fun f : Format => f.name) := rfl
      rw [this, ← List.map_map]
      exact List.Nodup.map (fun a b hab => by simpa using hab) hf
    · intro a ha b hb hab
      subst hab
      simp only [List.mem_map, List.mem_flatMap] at ha hb
      obtain ⟨x, ⟨f, _, rfl⟩, rfl⟩ := ha
      obtain ⟨y, ⟨s', hs', f', _, rfl⟩, he⟩ := hb
      simp only [key, Prod.mk.injEq] at he
      exact h1 (he.1 ▸ hs')

/-- C41.  For every list of different sizes and of formats with different names, every size of the files the
encoder produces, and every content of the two folders (with symbolic links: without the final names in out/www),
exporting succeeds; then, for every size and format,
* all produced candidates are gone,
* if an export applies, the chosen one (smallest size per preference, the earliest such) is in both folders under
  the final name, and is recorded,
* if none applies, the final name is untouched;
all other files are unchanged, and the outputs recorded for a format are the sizes with an applicable export, in
order. -/
theorem C41 {sym : Bool} {sz : ℕ → ℕ → Text → Text → ℕ} {sizes : List (ℕ × ℕ)} {formats : List Format} {art www : Folder}
    (hgood : ∀ f ∈ formats, GoodFormat f) (hformats : (formats.map (·.name)).Nodup) (hsizes : sizes.Nodup)
    (hwww : sym = true → ∀ s ∈ sizes, ∀ f ∈ formats, www (outName s.1 s.2 f.name) = none) :
    ∃ s', exportAll sym (fun w h n f => .ok (sz w h n f)) sizes formats art www = .ok s' ∧
      (∀ s ∈ sizes, ∀ f ∈ formats, Done sz ⟨art, www, []⟩ s' (s, f)) ∧
      (∀ p, (∀ s ∈ sizes, ∀ f ∈ formats, ¬ Candidate f s.1 s.2 p ∧ p ≠ outName s.1 s.2 f.name) → s'.art p = art p) ∧
      (∀ p, (∀ s ∈ sizes, ∀ f ∈ formats, p ≠ outName s.1 s.2 f.name) → s'.www p = www p) ∧
      (∀ f ∈ formats, (outputsOf f.name s'.outputs).map (fun o => (o.width, o.height)) =
        sizes.filter (fun s => decide (Applicable f s.1 s.2))) := by
  obtain ⟨d, p1, p2, p3⟩ := produceAll_spec (sz := sz) (tasks sizes formats)
    (fun t ht => (hgood t.2 (mem_tasks.1 ht).2).dot) art
  obtain ⟨s', r1, r2, r3, r4, r5⟩ := selectAll_spec (sym := sym) (sz := sz) (tasks sizes formats)
    (fun t ht => hgood t.2 (mem_tasks.1 ht).2) (tasks_nodup hsizes hformats) ⟨d, www, []⟩
    (fun t ht x hx hax => p3 _ _ _ _ (hgood t.2 (mem_tasks.1 ht).2).dot (.inr ⟨t, ht, rfl, rfl, x, hx, hax, rfl⟩))
    (fun hsym t ht => hwww hsym t.1 (mem_tasks.1 ht).1 t.2 (mem_tasks.1 ht).2)
  refine ⟨s', by simp only [exportAll, p1]; exact r1, ?_, ?_, ?_, ?_⟩
  · intro s hs f hf
    obtain ⟨d1, d2, d3⟩ := r2 (s, f) (mem_tasks.2 ⟨hs, hf⟩)
    refine ⟨d1, d2, fun hna => ?_⟩
    obtain ⟨e1, e2⟩ := d3 hna
    refine ⟨?_, e2⟩
    rw [e1]
    exact p2 _ (fun t _ ⟨x, _, _, hc⟩ => cand_ne_out hc.symm)
  · intro p hp
    rw [r3 p (fun t ht => hp t.1 (mem_tasks.1 ht).1 t.2 (mem_tasks.1 ht).2)]
    exact p2 p (fun t ht => (hp t.1 (mem_tasks.1 ht).1 t.2 (mem_tasks.1 ht).2).1)
  · exact fun p hp => r4 p (fun t ht => hp t.1 (mem_tasks.1 ht).1 t.2 (mem_tasks.1 ht).2)
  · intro f hf
    obtain ⟨L, l1, l2⟩ := r5 f.name
    rw [l1, ← tasks_filter hformats hf, ← l2]
    rfl

/-- The sizes of C40 are all different if one step enlarges the image by at least one pixel. -/
theorem C41_sizes {s : Steps} {dw dh : ℤ} (hdw : 0 < dw) (hdh : 0 < dh) (hs : 0 < s.step)
    (hpx : 1 ≤ (dw : ℚ) * s.step ∨ 1 ≤ (dh : ℚ) * s.step) (n : ℕ) :
    ((List.range n).map (fun i : ℕ => (⌊(dw : ℚ) * (1 + i * s.step)⌋, ⌊(dh : ℚ) * (1 + i * s.step)⌋))).Nodup := by
  refine List.Nodup.map ?_ List.nodup_range
  have key : ∀ d : ℤ, 0 < d → 1 ≤ (d : ℚ) * s.step → ∀ i j : ℕ, i < j →
      ⌊(d : ℚ) * (1 + i * s.step)⌋ < ⌊(d : ℚ) * (1 + j * s.step)⌋ := by
    intro d hd h i j hij
    have hij' : (i : ℚ) + 1 ≤ j := by exact_mod_cast hij
    have h1 : (d : ℚ) * (1 + i * s.step) + 1 ≤ (d : ℚ) * (1 + j * s.step) := by
      have h0 : (0 : ℚ) ≤ (d : ℚ) * s.step := by linarith
      have h2 : ((i : ℚ) + 1) * ((d : ℚ) * s.step) ≤ j * ((d : ℚ) * s.step) := mul_le_mul_of_nonneg_right hij' h0
      nlinarith
    have := Int.floor_le_floor h1
    rw [Int.floor_add_one] at this
    omega
  intro i j hij
  simp only [Prod.mk.injEq] at hij
  rcases hpx with h | h
  · rcases lt_trichotomy i j with hc | hc | hc
    · have := key dw hdw h i j hc; omega
    · exact hc
    · have := key dw hdw h j i hc; omega
  · rcases lt_trichotomy i j with hc | hc | hc
    · have := key dh hdh h i j hc; omega
    · exact hc
    · have := key dh hdh h j i hc; omega

/-- A format with three exports: one for small images, two for all. -/
def demoFormat : Format :=
  ⟨[119], [([115], ⟨none, some 100, 10⟩), ([97], ⟨none, none, 1⟩), ([98], ⟨none, none, 2⟩)], 10⟩

/-- File sizes of the demo: export `a` is smaller than `b`, but not by a factor of two. -/
def demoSize (w h : ℕ) (n _ : Text) : ℕ := if n = [97] then w * h else if n = [98] then w * h + 1 else w * h + 7

/-- The hypotheses of C41 hold for two sizes and the demo format, and the winners differ. -/
theorem C41_case :
    GoodFormat demoFormat ∧ ([(10, 10), (20, 20)] : List (ℕ × ℕ)).Nodup ∧
    (match exportAll true (fun w h n f => .ok (demoSize w h n f)) [(10, 10), (20, 20)] [demoFormat] (fun _ => none) (fun _ => none) with
      | .ok s => decide (outputsOf [119] s.outputs = [⟨10, 10, [115]⟩, ⟨20, 20, [98]⟩] ∧ s.art (outName 20 20 [119]) = some 401 ∧
          s.art (candName 20 20 [97] [119]) = none)
      | .error _ => false) = true := by
  refine ⟨⟨by decide, by decide, by decide⟩, by decide, ?_⟩
  decide +kernel

/-- C41 fails when two resolutions round to the same size, as they do for a target of one pixel with half steps:
the candidates of the second are gone when they are looked for. -/
theorem C41_false_duplicate :
    sizes ⟨2, 1 / 2⟩ 10 10 1 1 5 = ([(1, 1), (1, 1), (2, 2)], true) ∧
    exportAll false (fun w h n f => .ok (demoSize w h n f)) [(1, 1), (1, 1), (2, 2)] [demoFormat] (fun _ => none) (fun _ => none) =
      .error .notFound := by
  refine ⟨by decide +kernel, ?_⟩
  have h : (match exportAll false (fun w h n f => .ok (demoSize w h n f)) [(1, 1), (1, 1), (2, 2)] [demoFormat] (fun _ => none) (fun _ => none) with
    | .error .notFound => true
    | _ => false) = true := by decide +kernel
  revert h
  generalize exportAll false (fun w h n f => .ok (demoSize w h n f)) [(1, 1), (1, 1), (2, 2)] [demoFormat] (fun _ => none) (fun _ => none) = x
  intro h
  match x with
  | .error .notFound => rfl
  | .ok _ => simp at h

/-- With symbolic links, C41 fails when an earlier, interrupted run has already linked an image. -/
theorem C41_false_interrupted :
    ∃ e, exportAll true (fun w h n f => .ok (demoSize w h n f)) [(10, 10)] [demoFormat] (fun _ => none)
      (fun p => if p = outName 10 10 [119] then some 5 else none) = .error e := by
  have h : (match exportAll true (fun w h n f => .ok (demoSize w h n f)) [(10, 10)] [demoFormat] (fun _ => none)
      (fun p => if p = outName 10 10 [119] then some 5 else none) with
    | .error _ => true
    | _ => false) = true := by decide +kernel
  revert h
  generalize exportAll true (fun w h n f => .ok (demoSize w h n f)) [(10, 10)] [demoFormat] (fun _ => none)
      (fun p => if p = outName 10 10 [119] then some 5 else none) = x
  intro h
  match x with
  | .error e => exact ⟨e, rfl⟩
  | .ok _ => simp at h

end Verif.Img
