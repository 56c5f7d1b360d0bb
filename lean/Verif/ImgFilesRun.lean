import Verif.ImgFilesThm

/-!
# The files of images: what exports and scans change
-/

namespace Verif.Img.Files

open Verif.Reader (Text txt)
open Verif.Paths (join isAbs Seg)
open Verif.Handlers (Bytes Fs Scan Built)
open Verif.Css.Data (root)

variable {J C : Type} [DecidableEq C]

/-- An image which is made for comparison only, in the folder of some target. -/
def Cand (p : Text) : Prop := ∃ stem n w h e f, 47 ∉ e ∧ 47 ∉ f ∧ p = entryFile stem (idText n) (candName w h e f)

/-- The files of the sizes and formats, in both folders. -/
def Files (stem : Text) (n : ℤ) (ts : List ((ℕ × ℕ) × Format)) (p : Text) : Prop :=
  ∃ t ∈ ts, p = entryFile stem (idText n) (outName t.1.1 t.1.2 t.2.name) ∨ p = outFile stem (idText n) (outName t.1.1 t.1.2 t.2.name)

/-- The formats have names without slashes. -/
def NoSlash (ts : List ((ℕ × ℕ) × Format)) : Prop := ∀ t ∈ ts, 46 ∉ t.2.name ∧ 47 ∉ t.2.name ∧ ∀ x ∈ t.2.exports, 47 ∉ x.1

theorem out_not_cand {stem file : Text} {n : ℤ} : ¬ Cand (outFile stem (idText n) file) := by
  rintro ⟨s, k, w, h, e, f, -, -, he⟩
  exact art_ne_out (entry_art _ _ _) (out_out _ _ _) he.symm

theorem art_not_cand {stem name file : Text} (hn : 47 ∉ name) (hf : 47 ∉ file) (hc : ∀ w h e f, candName w h e f ≠ file) :
    ¬ Cand (entryFile stem name file) := by
  rintro ⟨s, k, w, h, e, f, he, hff, hh⟩
  exact hc w h e f (entryFile_inj hn (idText_slash k) hf (cand_slash he hff) hh).2.2.symm

theorem files_not_cand {stem : Text} {n : ℤ} {ts : List ((ℕ × ℕ) × Format)} (hs : NoSlash ts) {p : Text} (h : Files stem n ts p) : ¬ Cand p := by
  obtain ⟨t, ht, rfl | rfl⟩ := h
  · exact art_not_cand (idText_slash n) (out_slash (hs t ht).2.1) (fun _ _ _ _ => cand_ne_out)
  · exact out_not_cand

theorem meta_not_cand {stem name : Text} (hn : 47 ∉ name) : ¬ Cand (entryFile stem name (txt "metadata.json")) :=
  art_not_cand hn (by decide) (fun _ _ _ _ => cand_ne 109 (by decide) (by omega))

theorem place_not_cand {stem name : Text} (hn : 47 ∉ name) : ¬ Cand (entryFile stem name (txt "placeholder.json")) :=
  art_not_cand hn (by decide) (fun _ _ _ _ => cand_ne 112 (by decide) (by omega))

theorem counter_not_cand {stem : Text} : ¬ Cand (counterPath stem) := by
  rintro ⟨s, k, w, h, e, f, he, hf, hh⟩
  exact entry_ne_counter (cand_slash he hf) (cand_ne 99 (by decide) (by omega)) hh.symm

theorem not_cand_of_out {p : Text} (h : InOut p) : ¬ Cand p := by
  rintro ⟨s, k, w, h', e, f, -, -, rfl⟩
  exact art_ne_out (entry_art _ _ _) h rfl

/-! ## Finitely many files are made -/

theorem produceExports_finite {draw : ℕ → ℕ → Text → Text → Except Err Bytes} {dir : Text} {w h : ℕ} {f : Text} :
    ∀ {es : List (Text × Export)} {fs fs' : Fs}, produceExports draw dir w h f es fs = .ok fs' → Finite fs → Finite fs' := by
  intro es
  induction es with
  | nil => intro fs fs' h' hf; cases h'; exact hf
  | cons x es ih =>
    intro fs fs' h' hf
    unfold produceExports at h'
    split at h'
    · split at h'
      · cases h'
      · exact ih h' (hf.write _ _)
    · exact ih h' hf

theorem produceAll_finite {draw : ℕ → ℕ → Text → Text → Except Err Bytes} {dir : Text} : ∀ {ts : List ((ℕ × ℕ) × Format)} {fs fs' : Fs},
    produceAll draw dir ts fs = .ok fs' → Finite fs → Finite fs' := by
  intro ts
  induction ts with
  | nil => intro fs fs' h' hf; cases h'; exact hf
  | cons t ts ih =>
    intro fs fs' h' hf
    unfold produceAll at h'
    split at h'
    · cases h'
    · next fs1 h1 => exact ih h' (produceExports_finite h1 hf)

theorem tournament_finite {dir : Text} {w h : ℕ} {f : Format} : ∀ {es : List (Text × Export)} {best best' : Option Best} {fs fs' : Fs},
    tournament dir w h f es best fs = .ok (best', fs') → Finite fs → Finite fs' := by
  intro es
  induction es with
  | nil => intro best best' fs fs' h' hf; cases h'; exact hf
  | cons x es ih =>
    intro best best' fs fs' h' hf
    unfold tournament at h'
    split at h'
    · split at h'
      · cases h'
      · split at h'
        · exact ih h' hf
        · split at h'
          · split at h'
            · cases h'
            · exact ih h' (hf.remove _)
          · exact ih h' (hf.remove _)
    · exact ih h' hf

theorem selectAll_finite {sym : Bool} {rel : Text} {n : ℤ} : ∀ {ts : List ((ℕ × ℕ) × Format)} {s s' : Sel},
    selectAll sym rel n ts s = .ok s' → Finite s.fs → Finite s'.fs := by
  intro ts
  induction ts with
  | nil => intro s s' h' hf; cases h'; exact hf
  | cons t ts ih =>
    intro s s' h' hf
    unfold selectAll at h'
    split at h'
    · cases h'
    · next s1 h1 =>
      refine ih h' ?_
      unfold selectOne at h1
      split at h1
      · cases h1
      · next ht => cases h1; exact tournament_finite ht hf
      · next ht =>
        split at h1
        · cases h1
        · dsimp only at h1
          split at h1
          · cases h1
          · cases h1
            exact (((tournament_finite ht hf).remove _).write _ _).write _ _

/-! ## Candidates are used up -/

theorem cand_out_entry {stem : Text} {n k : ℤ} {w h w' h' : ℕ} {e g f : Text}
    (he : entryFile stem (idText n) (candName w h e g) = entryFile stem (idText k) (outName w' h' f)) : False := by
  unfold entryFile at he
  simp only [List.append_assoc] at he
  have := List.append_cancel_left (List.append_cancel_left he)
  simp only [List.cons_append, List.cons.injEq, true_and] at this
  exact cand_ne_out (split_unique (idText_slash n) (idText_slash k) this).2

theorem tournament_gone {dir : Text} {w h : ℕ} {f : Format} : ∀ {es : List (Text × Export)} {best best' : Option Best} {fs fs' : Fs},
    tournament dir w h f es best fs = .ok (best', fs') →
    (∀ p, fs' p = fs p ∨ fs' p = none) ∧
    (∀ x ∈ es, x.2.appliesTo w h = true → (∃ b, best' = some b ∧ b.name = x.1) ∨ fs' (join dir (candName w h x.1 f.name)) = none) ∧
    (∀ a, best = some a → (∃ b, best' = some b ∧ b.name = a.name) ∨ fs' (join dir (candName w h a.name f.name)) = none) ∧
    (∀ b, best' = some b → best = some b ∨ ∃ x ∈ es, x.2.appliesTo w h = true ∧ (fs (join dir (candName w h x.1 f.name))).isSome) := by
  intro es
  induction es with
  | nil =>
    intro best best' fs fs' h'
    cases h'
    exact ⟨fun _ => .inl rfl, by simp, fun a ha => .inl ⟨a, ha, rfl⟩, fun b hb => .inl hb⟩
  | cons x es ih =>
    obtain ⟨n, e⟩ := x
    intro best best' fs fs' h'
    unfold tournament at h'
    split at h'
    · next happ =>
      split at h'
      · cases h'
      · next img himg =>
        have here : (n, e).2.appliesTo w h = true ∧ (fs (join dir (candName w h (n, e).1 f.name))).isSome := ⟨happ, by dsimp only; rw [himg]; rfl⟩
        split at h'
        · obtain ⟨k1, k2, k3, k4⟩ := ih h'
          refine ⟨k1, ?_, by simp, fun b hb => .inr ⟨(n, e), by simp, here⟩⟩
          intro x hx ha
          rcases List.mem_cons.1 hx with rfl | hx
          · exact k3 _ rfl
          · exact k2 x hx ha
        · next a =>
          -- after a file is removed
          have rem : ∀ {c best}, tournament dir w h f es best (remove fs c) = .ok (best', fs') → (∀ p, fs' p = fs p ∨ fs' p = none) ∧ fs' c = none := by
            intro c best h'
            obtain ⟨k1, -, -, -⟩ := ih h'
            constructor
            · intro p
              rcases k1 p with k | k
              · rw [k, remove]
                split
                · exact .inr rfl
                · exact .inl rfl
              · exact .inr k
            · rcases k1 c with k | k
              · rw [k]; simp [remove]
              · exact k
          split at h'
          · split at h'
            · cases h'
            · obtain ⟨r1, r2⟩ := rem h'
              obtain ⟨k1, k2, k3, k4⟩ := ih h'
              refine ⟨r1, ?_, ?_, fun b hb => .inr ⟨(n, e), by simp, here⟩⟩
              · intro x hx ha
                rcases List.mem_cons.1 hx with rfl | hx
                · exact k3 _ rfl
                · exact k2 x hx ha
              · intro a' ha'
                cases ha'
                exact .inr r2
          · obtain ⟨r1, r2⟩ := rem h'
            obtain ⟨k1, k2, k3, k4⟩ := ih h'
            refine ⟨r1, ?_, ?_, fun b hb => .inr ⟨(n, e), by simp, here⟩⟩
            · intro x hx ha
              rcases List.mem_cons.1 hx with rfl | hx
              · exact .inr r2
              · exact k2 x hx ha
            · intro a' ha'
              exact k3 a' ha'
    · next hna =>
      obtain ⟨k1, k2, k3, k4⟩ := ih h'
      refine ⟨k1, ?_, k3, ?_⟩
      · intro x hx ha
        rcases List.mem_cons.1 hx with rfl | hx
        · exact absurd ha hna
        · exact k2 x hx ha
      · intro b hb
        rcases k4 b hb with h | ⟨x, hx, h⟩
        · exact .inl h
        · exact .inr ⟨x, List.mem_cons_of_mem _ hx, h⟩

section
variable {rel stem : Text} (hr : root rel = stem) (hp : Plain stem) {n : ℤ}
include hr hp

theorem dir_eq {file : Text} (hf : file.head? ≠ some 47) : join (artDir rel n) file = entryFile stem (idText n) file :=
  file_eq hr hp (idText_seg n) hf

theorem mem_announced {ts : List ((ℕ × ℕ) × Format)} {p : Text} : p ∈ announced rel n ts ↔ Files stem n ts p := by
  simp only [announced, List.mem_flatMap, List.mem_cons, List.not_mem_nil, or_false, Files, dir_eq hr hp (out_first _ _ _), out_eq hr hp (out_first _ _ _)]

theorem produceExports_frame {draw : ℕ → ℕ → Text → Text → Except Err Bytes} {w h : ℕ} {f : Text} (hf : 47 ∉ f) :
    ∀ {es : List (Text × Export)}, (∀ x ∈ es, 47 ∉ x.1) → ∀ {fs fs' : Fs}, produceExports draw (artDir rel n) w h f es fs = .ok fs' →
      ∀ p, ¬ Cand p → fs' p = fs p := by
  intro es
  induction es with
  | nil => intro _ fs fs' h' p _; cases h'; rfl
  | cons x es ih =>
    obtain ⟨e, ex⟩ := x
    intro hes fs fs' h' p hc
    unfold produceExports at h'
    split at h'
    · split at h'
      · cases h'
      · next b hb =>
        rw [ih (fun x hx => hes x (List.mem_cons_of_mem _ hx)) h' p hc, dir_eq hr hp (cand_first _ _ _ _)]
        unfold Fs.write
        rw [if_neg]
        rintro rfl
        exact hc ⟨stem, n, w, h, e, f, hes (e, ex) (by simp), hf, rfl⟩
    · exact ih (fun x hx => hes x (List.mem_cons_of_mem _ hx)) h' p hc

theorem produceAll_frame {draw : ℕ → ℕ → Text → Text → Except Err Bytes} : ∀ {ts : List ((ℕ × ℕ) × Format)}, NoSlash ts → ∀ {fs fs' : Fs},
    produceAll draw (artDir rel n) ts fs = .ok fs' → ∀ p, ¬ Cand p → fs' p = fs p := by
  intro ts
  induction ts with
  | nil => intro _ fs fs' h' p _; cases h'; rfl
  | cons t ts ih =>
    obtain ⟨⟨w, h⟩, f⟩ := t
    intro hs fs fs' h' p hc
    unfold produceAll at h'
    split at h'
    · cases h'
    · next fs1 h1 =>
      obtain ⟨_, s1, s2⟩ := hs ((w, h), f) (by simp)
      rw [ih (fun x hx => hs x (List.mem_cons_of_mem _ hx)) h' p hc, produceExports_frame hr hp s1 s2 h1 p hc]

theorem tournament_frame {w h : ℕ} {f : Format} (hf : 47 ∉ f.name) : ∀ {es : List (Text × Export)}, (∀ x ∈ es, 47 ∉ x.1) →
    ∀ {best best' : Option Best} {fs fs' : Fs}, (∀ b, best = some b → 47 ∉ b.name) →
      tournament (artDir rel n) w h f es best fs = .ok (best', fs') →
      (∀ p, ¬ Cand p → fs' p = fs p) ∧ (∀ p, fs' p = fs p ∨ fs' p = none) ∧ (∀ b, best' = some b → 47 ∉ b.name) := by
  intro es
  induction es with
  | nil => intro _ best best' fs fs' hb h'; cases h'; exact ⟨fun _ _ => rfl, fun _ => .inl rfl, hb⟩
  | cons x es ih =>
    obtain ⟨e, ex⟩ := x
    intro hes best best' fs fs' hbest h'
    have he : 47 ∉ e := hes (e, ex) (by simp)
    have hes' : ∀ x ∈ es, 47 ∉ x.1 := fun x hx => hes x (List.mem_cons_of_mem _ hx)
    -- a candidate is removed
    have rem : ∀ {a : Text} {best : Option Best}, 47 ∉ a → (∀ b, best = some b → 47 ∉ b.name) →
        tournament (artDir rel n) w h f es best (remove fs (join (artDir rel n) (candName w h a f.name))) = .ok (best', fs') →
        (∀ p, ¬ Cand p → fs' p = fs p) ∧ (∀ p, fs' p = fs p ∨ fs' p = none) ∧ (∀ b, best' = some b → 47 ∉ b.name) := by
      intro a best ha hb h'
      obtain ⟨k1, k2, k3⟩ := ih hes' hb h'
      rw [dir_eq hr hp (cand_first _ _ _ _)] at k1 k2
      refine ⟨fun p hc => ?_, fun p => ?_, k3⟩
      · rw [k1 p hc, remove, if_neg]
        rintro rfl
        exact hc ⟨stem, n, w, h, a, f.name, ha, hf, rfl⟩
      · rcases k2 p with k | k
        · rw [k, remove]
          split
          · exact .inr rfl
          · exact .inl rfl
        · exact .inr k
    unfold tournament at h'
    split at h'
    · split at h'
      · cases h'
      · next b hb =>
        split at h'
        · exact ih hes' (fun b hb => by cases hb; exact he) h'
        · next a =>
          split at h'
          · split at h'
            · cases h'
            · exact rem (hbest a rfl) (fun b hb => by cases hb; exact he) h'
          · exact rem he (fun b hb => by cases hb; exact hbest a rfl) h'
    · exact ih hes' hbest h'

/-- What the selection for one size and format does. -/
theorem selectOne_frame {sym : Bool} {w h : ℕ} {f : Format} (hf : 47 ∉ f.name) (hes : ∀ x ∈ f.exports, 47 ∉ x.1) {s s' : Sel}
    (h' : selectOne sym rel n w h f s = .ok s') :
    ((∀ p, ¬ Cand p → s'.fs p = s.fs p) ∧ s'.produced = s.produced ∧ s'.outputs = s.outputs) ∨
    ∃ img choice, (∀ p, ¬ Cand p → p ≠ entryFile stem (idText n) (outName w h f.name) → p ≠ outFile stem (idText n) (outName w h f.name) → s'.fs p = s.fs p) ∧
      s'.fs (entryFile stem (idText n) (outName w h f.name)) = some img ∧ s'.fs (outFile stem (idText n) (outName w h f.name)) = some img ∧
      s'.produced = s.produced ++ [entryFile stem (idText n) (outName w h f.name), outFile stem (idText n) (outName w h f.name)] ∧
      s'.outputs = addPic f.name ⟨w, h, stem ++ 47 :: idText n ++ 47 :: outName w h f.name, choice⟩ s.outputs := by
  unfold selectOne at h'
  split at h'
  · cases h'
  · next fs ht =>
    cases h'
    exact .inl ⟨(tournament_frame hr hp hf hes (by simp) ht).1, rfl, rfl⟩
  · next b fs ht =>
    obtain ⟨k1, k2, k3⟩ := tournament_frame hr hp hf hes (by simp) ht
    split at h'
    · cases h'
    · next img himg =>
      simp only [dir_eq hr hp (cand_first _ _ _ _), dir_eq hr hp (out_first _ _ _), out_eq hr hp (out_first _ _ _), rel_eq hr hp (out_first _ _ _)] at h'
      split at h'
      · cases h'
      · cases h'
        have hne : entryFile stem (idText n) (outName w h f.name) ≠ outFile stem (idText n) (outName w h f.name) :=
          art_ne_out (entry_art _ _ _) (out_out _ _ _)
        refine .inr ⟨img, b.name, ?_, ?_, ?_, rfl, rfl⟩
        · intro p hc h1 h2
          have h3 : p ≠ entryFile stem (idText n) (candName w h b.name f.name) := by
            rintro rfl
            exact hc ⟨stem, n, w, h, b.name, f.name, k3 b rfl, hf, rfl⟩
          simp only [Fs.write, remove, if_neg h2, if_neg h1, if_neg h3]
          exact k1 p hc
        · simp only [Fs.write, if_neg hne, if_true]
        · simp only [Fs.write, if_true]

/-- Candidates are only used up; those of a size and format of which one was chosen are all gone. -/
theorem selectOne_gone {sym : Bool} {w h : ℕ} {f : Format} {s s' : Sel} (h' : selectOne sym rel n w h f s = .ok s') :
    (∀ name w' h' e g, s'.fs (entryFile stem (idText name) (candName w' h' e g)) = s.fs (entryFile stem (idText name) (candName w' h' e g)) ∨
      s'.fs (entryFile stem (idText name) (candName w' h' e g)) = none) ∧
    (s'.outputs = s.outputs ∨
      (∃ x ∈ f.exports, x.2.appliesTo w h = true ∧ (s.fs (entryFile stem (idText n) (candName w h x.1 f.name))).isSome) ∧
      ∀ x ∈ f.exports, x.2.appliesTo w h = true → s'.fs (entryFile stem (idText n) (candName w h x.1 f.name)) = none) := by
  unfold selectOne at h'
  split at h'
  · cases h'
  · next fs ht =>
    cases h'
    obtain ⟨k1, -, -, -⟩ := tournament_gone ht
    exact ⟨fun _ _ _ _ _ => k1 _, .inl rfl⟩
  · next b fs ht =>
    obtain ⟨k1, k2, -, k4⟩ := tournament_gone ht
    split at h'
    · cases h'
    · next img himg =>
      simp only [dir_eq hr hp (cand_first _ _ _ _), dir_eq hr hp (out_first _ _ _), out_eq hr hp (out_first _ _ _)] at h' k2 k4
      split at h'
      · cases h'
      · cases h'
        have n1 : ∀ name w' h' e g, entryFile stem (idText name) (candName w' h' e g) ≠ outFile stem (idText n) (outName w h f.name) :=
          fun _ _ _ _ _ => art_ne_out (entry_art _ _ _) (out_out _ _ _)
        refine ⟨fun name w' h' e g => ?_, .inr ⟨?_, fun x hx ha => ?_⟩⟩
        · dsimp only
          have hne : entryFile stem (idText name) (candName w' h' e g) ≠ entryFile stem (idText n) (outName w h f.name) := fun he => cand_out_entry he
          simp only [Fs.write, if_neg (n1 _ _ _ _ _), if_neg hne]
          unfold remove
          split
          · exact .inr rfl
          · exact k1 _
        · rcases k4 b rfl with h | h
          · cases h
          · exact h
        · have hne : entryFile stem (idText n) (candName w h x.1 f.name) ≠ entryFile stem (idText n) (outName w h f.name) := fun he => cand_out_entry he
          simp only [Fs.write, if_neg (n1 _ _ _ _ _), if_neg hne]
          unfold remove
          split
          · rfl
          · next hq =>
            rcases k2 x hx ha with ⟨b', hb', he⟩ | h
            · cases hb'
              rw [he] at hq
              exact absurd rfl hq
            · exact h

/-- A picture which is recorded for a format. -/
def Has (l : List (Text × List Pic)) (g : Text) (p : Pic) : Prop := ∃ x ∈ l, x.1 = g ∧ p ∈ x.2

omit hr hp in
theorem has_add {g f : Text} {o p : Pic} : ∀ {l : List (Text × List Pic)}, Has (addPic f o l) g p ↔ Has l g p ∨ (g = f ∧ p = o) := by
  intro l
  induction l with
  | nil => simp [Has, addPic, eq_comm]
  | cons x l ih =>
    obtain ⟨k, os⟩ := x
    unfold addPic
    split
    · next hk =>
      subst hk
      simp only [Has, List.mem_cons, exists_eq_or_imp, List.mem_append, List.not_mem_nil, or_false]
      constructor
      · rintro (⟨rfl, h | h⟩ | h)
        · exact .inl (.inl ⟨rfl, h⟩)
        · exact .inr ⟨rfl, h⟩
        · exact .inl (.inr h)
      · rintro ((⟨rfl, h⟩ | h) | ⟨rfl, h⟩)
        · exact .inl ⟨rfl, .inl h⟩
        · exact .inr h
        · exact .inl ⟨rfl, .inr h⟩
    · have : Has ((k, os) :: addPic f o l) g p ↔ (k = g ∧ p ∈ os) ∨ Has (addPic f o l) g p := by
        simp only [Has, List.mem_cons, exists_eq_or_imp]
      rw [this, ih]
      simp only [Has, List.mem_cons, exists_eq_or_imp, or_assoc]

/-- All pictures. -/
def flat (l : List (Text × List Pic)) : List Pic := l.flatMap (·.2)

omit hr hp in
theorem flat_add {f : Text} {o : Pic} : ∀ {l : List (Text × List Pic)}, (flat (addPic f o l)).Perm (flat l ++ [o]) := by
  intro l
  induction l with
  | nil => simp [flat, addPic]
  | cons x l ih =>
    obtain ⟨k, os⟩ := x
    unfold addPic
    split
    · simp only [flat, List.flatMap_cons, List.append_assoc]
      exact List.Perm.append_left _ List.perm_append_comm
    · simp only [flat, List.flatMap_cons, List.append_assoc] at ih ⊢
      exact List.Perm.append_left _ ih

omit hr hp in
theorem addPic_ne (f : Text) (o : Pic) (l : List (Text × List Pic)) : l ≠ addPic f o l := by
  intro h
  have := (flat_add (f := f) (o := o) (l := l)).length_eq
  rw [← h] at this
  simp at this

omit hr hp in
theorem mem_flat {l : List (Text × List Pic)} {p : Pic} : p ∈ flat l ↔ ∃ g, Has l g p := by
  simp only [flat, List.mem_flatMap, Has]
  constructor
  · rintro ⟨x, hx, hp⟩
    exact ⟨x.1, x, hx, rfl, hp⟩
  · rintro ⟨g, x, hx, -, hp⟩
    exact ⟨x, hx, hp⟩

/-- The path of a picture, relative to artifacts and to out/www. -/
def picPath (stem : Text) (n : ℤ) (t : (ℕ × ℕ) × Format) : Text := stem ++ 47 :: idText n ++ 47 :: outName t.1.1 t.1.2 t.2.name

/-- What the selection does. -/
structure Selected (stem : Text) (n : ℤ) (ts : List ((ℕ × ℕ) × Format)) (s s' : Sel) : Prop where
  frame : ∀ p, ¬ Cand p → ¬ Files stem n ts p → s'.fs p = s.fs p
  kept : ∀ p, ¬ Cand p → (s.fs p).isSome → (s'.fs p).isSome
  produced : ∃ l, s'.produced = s.produced ++ l ∧ (∀ p ∈ l, Files stem n ts p ∧ (s'.fs p).isSome) ∧ ∀ p, ¬ Cand p → p ∉ l → s'.fs p = s.fs p
  outputs : ∀ g p, Has s'.outputs g p → Has s.outputs g p ∨
    ∃ t ∈ ts, g = t.2.name ∧ p.width = t.1.1 ∧ p.height = t.1.2 ∧ p.relpath = stem ++ 47 :: idText n ++ 47 :: outName t.1.1 t.1.2 t.2.name ∧
      (s'.fs (entryFile stem (idText n) (outName t.1.1 t.1.2 t.2.name))).isSome ∧
      (s'.fs (outFile stem (idText n) (outName t.1.1 t.1.2 t.2.name))).isSome
  /-- each size and format is chosen for once -/
  flat : ∃ us : List ((ℕ × ℕ) × Format), us.Sublist ts ∧ ((flat s'.outputs).map (·.relpath)).Perm ((flat s.outputs).map (·.relpath) ++ us.map (picPath stem n)) ∧
    (∀ u ∈ us, ∃ x ∈ u.2.exports, x.2.appliesTo u.1.1 u.1.2 = true ∧ (s.fs (entryFile stem (idText n) (candName u.1.1 u.1.2 x.1 u.2.name))).isSome) ∧
    ((∀ t ∈ ts, ∀ t' ∈ ts, t.2.name = t'.2.name → t.2 = t'.2) → (us.map key).Nodup)

theorem selectAll_frame {sym : Bool} : ∀ {ts : List ((ℕ × ℕ) × Format)}, NoSlash ts → ∀ {s s' : Sel},
    selectAll sym rel n ts s = .ok s' → Selected stem n ts s s' := by
  intro ts
  induction ts with
  | nil =>
    intro _ s s' h'
    cases h'
    exact ⟨fun _ _ _ => rfl, fun _ _ h => h, ⟨[], by simp, by simp, fun _ _ _ => rfl⟩, fun g p h => .inl h, ⟨[], List.Sublist.refl _, by simp, by simp, by simp⟩⟩
  | cons t ts ih =>
    obtain ⟨⟨w, h⟩, f⟩ := t
    intro hs s s' h'
    unfold selectAll at h'
    split at h'
    · cases h'
    · next s1 h1 =>
      obtain ⟨_, f1, f2⟩ := hs ((w, h), f) (by simp)
      have hs' : NoSlash ts := fun x hx => hs x (List.mem_cons_of_mem _ hx)
      obtain ⟨q1, q2, ⟨l, q3, q4, q6⟩, q5, ⟨us, q7, q8, q9, q10⟩⟩ := ih hs' h'
      obtain ⟨c1, c2⟩ := selectOne_gone hr hp h1
      have q9' : ∀ u ∈ us, ∃ x ∈ u.2.exports, x.2.appliesTo u.1.1 u.1.2 = true ∧
          (s.fs (entryFile stem (idText n) (candName u.1.1 u.1.2 x.1 u.2.name))).isSome := by
        intro u hu
        obtain ⟨x, hx, ha, he⟩ := q9 u hu
        refine ⟨x, hx, ha, ?_⟩
        rcases c1 n u.1.1 u.1.2 x.1 u.2.name with k | k
        · rw [← k]; exact he
        · rw [k] at he; cases he
      have up : ∀ {p}, Files stem n ts p → Files stem n (((w, h), f) :: ts) p := fun ⟨t, ht, hh⟩ => ⟨t, List.mem_cons_of_mem _ ht, hh⟩
      rcases selectOne_frame hr hp f1 f2 h1 with ⟨k1, k2, k3⟩ | ⟨img, choice, k1, k2, k3, k4, k5⟩
      · refine ⟨fun p hc hf => ?_, fun p hc he => q2 p hc (by rw [k1 p hc]; exact he), ⟨l, by rw [q3, k2], fun p hp' => ⟨up (q4 p hp').1, (q4 p hp').2⟩, ?_⟩, fun g p hh => ?_, ⟨us, q7.trans (List.sublist_cons_self _ _), by rw [k3] at q8; exact q8, q9', fun hn => q10 fun t ht t' ht' => hn t (List.mem_cons_of_mem _ ht) t' (List.mem_cons_of_mem _ ht')⟩⟩
        · rw [q1 p hc (fun hh => hf (up hh)), k1 p hc]
        · intro p hc hl
          rw [q6 p hc hl, k1 p hc]
        · rcases q5 g p hh with hh | ⟨t, ht, hh⟩
          · rw [k3] at hh; exact .inl hh
          · exact .inr ⟨t, List.mem_cons_of_mem _ ht, hh⟩
      · have here1 : Files stem n (((w, h), f) :: ts) (entryFile stem (idText n) (outName w h f.name)) := ⟨((w, h), f), by simp, .inl rfl⟩
        have here2 : Files stem n (((w, h), f) :: ts) (outFile stem (idText n) (outName w h f.name)) := ⟨((w, h), f), by simp, .inr rfl⟩
        have e1 : (s'.fs (entryFile stem (idText n) (outName w h f.name))).isSome :=
          q2 _ (files_not_cand hs here1) (by rw [k2]; rfl)
        have e2 : (s'.fs (outFile stem (idText n) (outName w h f.name))).isSome :=
          q2 _ (files_not_cand hs here2) (by rw [k3]; rfl)
        refine ⟨fun p hc hf => ?_, fun p hc he => q2 p hc ?_,
          ⟨entryFile stem (idText n) (outName w h f.name) :: outFile stem (idText n) (outName w h f.name) :: l, by rw [q3, k4]; simp, ?_, ?_⟩, fun g p hh => ?_, ⟨((w, h), f) :: us, q7.cons_cons _, ?_, ?_, ?_⟩⟩
        · rw [q1 p hc (fun hh => hf (up hh)), k1 p hc (fun hh => hf (hh ▸ here1)) (fun hh => hf (hh ▸ here2))]
        · by_cases h1 : p = entryFile stem (idText n) (outName w h f.name)
          · rw [h1, k2]; rfl
          by_cases h2 : p = outFile stem (idText n) (outName w h f.name)
          · rw [h2, k3]; rfl
          rw [k1 p hc h1 h2]; exact he
        · intro p hp'
          rcases List.mem_cons.1 hp' with rfl | hp'
          · exact ⟨here1, e1⟩
          rcases List.mem_cons.1 hp' with rfl | hp'
          · exact ⟨here2, e2⟩
          exact ⟨up (q4 p hp').1, (q4 p hp').2⟩
        · intro p hc hl
          simp only [List.mem_cons, not_or] at hl
          rw [q6 p hc hl.2.2, k1 p hc hl.1 hl.2.1]
        · rcases q5 g p hh with hh | ⟨t, ht, hh⟩
          · rw [k5, has_add] at hh
            rcases hh with hh | ⟨rfl, rfl⟩
            · exact .inl hh
            · exact .inr ⟨((w, h), f), by simp, rfl, rfl, rfl, rfl, e1, e2⟩
          · exact .inr ⟨t, List.mem_cons_of_mem _ ht, hh⟩
        · refine q8.trans ?_
          rw [k5]
          have := (flat_add (f := f.name) (o := ⟨w, h, stem ++ 47 :: idText n ++ 47 :: outName w h f.name, choice⟩) (l := s.outputs)).map (·.relpath)
          refine (List.Perm.append_right _ this).trans ?_
          simp [picPath]
        · intro u hu
          rcases List.mem_cons.1 hu with rfl | hu
          · rcases c2 with c2 | c2
            · exact absurd (c2.symm.trans k5) (addPic_ne _ _ _)
            · exact c2.1
          · exact q9' u hu
        · intro hn
          rw [List.map_cons, List.nodup_cons]
          refine ⟨fun hm => ?_, q10 fun t ht t' ht' => hn t (List.mem_cons_of_mem _ ht) t' (List.mem_cons_of_mem _ ht')⟩
          obtain ⟨u, hu, he⟩ := List.mem_map.1 hm
          obtain ⟨⟨w', h''⟩, f'⟩ := u
          simp only [key, Prod.mk.injEq] at he
          obtain ⟨⟨rfl, rfl⟩, hname⟩ := he
          have := hn _ (List.mem_cons_of_mem _ (q7.subset hu)) _ (List.mem_cons_self ..) hname
          dsimp only at this
          subst this
          obtain ⟨x, hx, ha, hsome⟩ := q9 _ hu
          rcases c2 with c2 | c2
          · exact absurd (c2.symm.trans k5) (addPic_ne _ _ _)
          · dsimp only at hsome
            rw [c2.2 x hx ha] at hsome
            cases hsome

end

/-! ## Exports which are used again -/

/-- The files of a picture. -/
def picArt (p : Pic) : Text := join (txt "artifacts") p.relpath

def picOut (p : Pic) : Text := join (join (txt "out") (txt "www")) p.relpath

theorem reuseOne_cases {sym : Bool} {p : Pic} {s s' : Reuse} (h : reuseOne sym p s = .ok s') :
    ((s.fs (picOut p)).isSome ∧ s' = ⟨s.fs, false, s.produced, s.reused ++ [picArt p, picOut p]⟩) ∨
    (s.fs (picOut p) = none ∧ ∃ b, s.fs (picArt p) = some b ∧ s' = ⟨s.fs.write (picOut p) b, s.first, s.produced ++ [picOut p], s.reused ++ [picArt p]⟩) ∨
    (s.fs (picOut p) = none ∧ s.fs (picArt p) = none ∧ s' = ⟨s.fs, s.first, s.produced ++ [picOut p], s.reused ++ [picArt p]⟩) := by
  unfold reuseOne at h
  simp only [← picArt.eq_1, ← picOut.eq_1] at h
  split at h
  · next ho => cases h; exact .inl ⟨ho, rfl⟩
  · next ho =>
    have ho' : s.fs (picOut p) = none := by simpa using ho
    split at h
    · next b hb => cases h; exact .inr (.inl ⟨ho', b, hb, rfl⟩)
    · next hb =>
      split at h
      · cases h; exact .inr (.inr ⟨ho', hb, rfl⟩)
      · cases h

/-- What is done with exports which are there. -/
structure Reused (ps : List Pic) (s s' : Reuse) : Prop where
  frame : ∀ q, (∀ p ∈ ps, q ≠ picOut p) → s'.fs q = s.fs q
  kept : ∀ q, (s.fs q).isSome → s'.fs q = s.fs q
  produced : ∀ q, q ∈ s'.produced ↔ q ∈ s.produced ∨ ∃ p ∈ ps, q = picOut p ∧ s.fs q = none
  reused : ∀ q, q ∈ s'.reused → q ∈ s.reused ∨ ∃ p ∈ ps, q = picArt p ∨ q = picOut p ∧ (s'.fs q).isSome
  changed : ∀ q, s'.fs q ≠ s.fs q → (s'.fs q).isSome
  first : s'.first = true → s.first = true ∧ ∀ p ∈ ps, s.fs (picOut p) = none
  notFirst : s'.first = false → (ps.map (·.relpath)).Nodup → (∀ p ∈ ps, ∀ q ∈ ps, picOut p = picOut q → p.relpath = q.relpath) →
    s.first = false ∨ ∃ p ∈ ps, (s.fs (picOut p)).isSome
  out : ∀ p ∈ ps, (s.fs (picArt p)).isSome → (s'.fs (picOut p)).isSome
  art : ∀ p ∈ ps, picArt p ∈ s'.reused
  more : ∀ q, q ∈ s.reused → q ∈ s'.reused

theorem reuseAll_spec {sym : Bool} : ∀ {ps : List Pic} {s s' : Reuse}, (∀ p ∈ ps, ∀ q ∈ ps, picArt p ≠ picOut q) → reuseAll sym ps s = .ok s' →
    Reused ps s s' := by
  intro ps
  induction ps with
  | nil =>
    intro s s' _ h
    cases h
    exact ⟨fun _ _ => rfl, fun _ _ => rfl, by simp, fun q h => .inl h, fun q h => absurd rfl h, fun h => ⟨h, by simp⟩, fun h _ _ => .inl h, by simp, by simp,
      fun q h => h⟩
  | cons p ps ih =>
    intro s s' hd h
    unfold reuseAll at h
    split at h
    · cases h
    · next s1 h1 =>
      have b := ih (fun x hx y hy => hd x (List.mem_cons_of_mem _ hx) y (List.mem_cons_of_mem _ hy)) h
      rcases reuseOne_cases h1 with ⟨ho, rfl⟩ | ⟨ho, x, hx, rfl⟩ | ⟨ho, hx, rfl⟩
      · refine ⟨fun q hq => b.frame q (fun p' hp' => hq p' (List.mem_cons_of_mem _ hp')), b.kept, fun q => ?_, fun q hq => ?_, b.changed, fun hf => ?_,
          fun hf hn hi => ?_, fun p' hp' ha => ?_, fun p' hp' => ?_, fun q hq => b.more q (by simp [hq])⟩
        · rw [b.produced q]
          simp only [List.mem_cons, exists_eq_or_imp]
          constructor
          · rintro (h | h)
            · exact .inl h
            · exact .inr (.inr h)
          · rintro (h | ⟨rfl, h⟩ | h)
            · exact .inl h
            · rw [h] at ho; cases ho
            · exact .inr h
        · rcases b.reused q hq with h | ⟨p', hp', h⟩
          · simp only [List.mem_append, List.mem_cons, List.not_mem_nil, or_false] at h
            rcases h with h | h | h
            · exact .inl h
            · exact .inr ⟨p, by simp, .inl h⟩
            · exact .inr ⟨p, by simp, .inr ⟨h, by rw [h, b.kept _ ho]; exact ho⟩⟩
          · exact .inr ⟨p', List.mem_cons_of_mem _ hp', h⟩
        · exact absurd (b.first hf).1 (by simp)
        · exact .inr ⟨p, by simp, ho⟩
        · rcases List.mem_cons.1 hp' with rfl | hp'
          · rw [b.kept _ ho]; exact ho
          · exact b.out p' hp' ha
        · rcases List.mem_cons.1 hp' with rfl | hp'
          · exact b.more _ (by simp)
          · exact b.art p' hp'
      · have hk : ∀ q, (s.fs q).isSome → (s.fs.write (picOut p) x) q = s.fs q := by
          intro q hq
          have : q ≠ picOut p := by rintro rfl; rw [ho] at hq; cases hq
          simp [Fs.write, this]
        have hw : (s.fs.write (picOut p) x) (picOut p) = some x := by simp [Fs.write]
        refine ⟨fun q hq => ?_, fun q hq => ?_, fun q => ?_, fun q hq => ?_, fun q hq => ?_, fun hf => ?_,
          fun hf hn hi => ?_, fun p' hp' ha => ?_, fun p' hp' => ?_, fun q hq => b.more q (by simp [hq])⟩
        · rw [b.frame q (fun p' hp' => hq p' (List.mem_cons_of_mem _ hp'))]
          simp [Fs.write, hq p (by simp)]
        · rw [b.kept q (by dsimp only; rw [hk q hq]; exact hq)]; exact hk q hq
        · rw [b.produced q]
          simp only [List.mem_append, List.mem_cons, List.not_mem_nil, or_false, exists_eq_or_imp]
          constructor
          · rintro ((h | h) | ⟨p', hp', h, hn⟩)
            · exact .inl h
            · exact .inr (.inl ⟨h, by rw [h]; exact ho⟩)
            · refine .inr (.inr ⟨p', hp', h, ?_⟩)
              by_cases hq : q = picOut p
              · rw [hq]; exact ho
              · simpa [Fs.write, hq] using hn
          · rintro (h | ⟨h, -⟩ | ⟨p', hp', h, hn⟩)
            · exact .inl (.inl h)
            · exact .inl (.inr h)
            · by_cases hq : q = picOut p
              · exact .inl (.inr hq)
              · exact .inr ⟨p', hp', h, by simpa [Fs.write, hq] using hn⟩
        · rcases b.reused q hq with h | ⟨p', hp', h⟩
          · simp only [List.mem_append, List.mem_cons, List.not_mem_nil, or_false] at h
            rcases h with h | h
            · exact .inl h
            · exact .inr ⟨p, by simp, .inl h⟩
          · exact .inr ⟨p', List.mem_cons_of_mem _ hp', h⟩
        · by_cases hc : s'.fs q = (s.fs.write (picOut p) x) q
          · by_cases hq' : q = picOut p
            · rw [hc, hq', hw]; rfl
            · rw [hc] at hq
              simp [Fs.write, hq'] at hq
          · exact b.changed q hc
        · obtain ⟨f1, f2⟩ := b.first hf
          refine ⟨f1, fun p' hp' => ?_⟩
          rcases List.mem_cons.1 hp' with rfl | hp'
          · exact ho
          · have := f2 p' hp'
            by_cases hq : picOut p' = picOut p
            · rw [hq]; exact ho
            · simpa [Fs.write, hq] using this
        · rw [List.map_cons, List.nodup_cons] at hn
          rcases b.notFirst hf hn.2 (fun x hx y hy => hi x (List.mem_cons_of_mem _ hx) y (List.mem_cons_of_mem _ hy)) with h | ⟨p', hp', h⟩
          · exact .inl h
          · refine .inr ⟨p', List.mem_cons_of_mem _ hp', ?_⟩
            by_cases hq : picOut p' = picOut p
            · exact absurd (List.mem_map.2 ⟨p', hp', hi p' (List.mem_cons_of_mem _ hp') p (by simp) hq⟩) hn.1
            · simpa [Fs.write, hq] using h
        · rcases List.mem_cons.1 hp' with rfl | hp'
          · rw [b.kept _ (by dsimp only; rw [hw]; rfl)]; dsimp only; rw [hw]; rfl
          · refine b.out p' hp' ?_
            dsimp only
            rw [hk _ ha]; exact ha
        · rcases List.mem_cons.1 hp' with rfl | hp'
          · exact b.more _ (by simp)
          · exact b.art p' hp'
      · refine ⟨fun q hq => b.frame q (fun p' hp' => hq p' (List.mem_cons_of_mem _ hp')), b.kept, fun q => ?_, fun q hq => ?_, b.changed, fun hf => ?_,
          fun hf hn hi => ?_, fun p' hp' ha => ?_, fun p' hp' => ?_, fun q hq => b.more q (by simp [hq])⟩
        · rw [b.produced q]
          simp only [List.mem_append, List.mem_cons, List.not_mem_nil, or_false, exists_eq_or_imp]
          constructor
          · rintro ((h | h) | h)
            · exact .inl h
            · exact .inr (.inl ⟨h, by rw [h]; exact ho⟩)
            · exact .inr (.inr h)
          · rintro (h | ⟨h, -⟩ | h)
            · exact .inl (.inl h)
            · exact .inl (.inr h)
            · exact .inr h
        · rcases b.reused q hq with h | ⟨p', hp', h⟩
          · simp only [List.mem_append, List.mem_cons, List.not_mem_nil, or_false] at h
            rcases h with h | h
            · exact .inl h
            · exact .inr ⟨p, by simp, .inl h⟩
          · exact .inr ⟨p', List.mem_cons_of_mem _ hp', h⟩
        · obtain ⟨f1, f2⟩ := b.first hf
          refine ⟨f1, fun p' hp' => ?_⟩
          rcases List.mem_cons.1 hp' with rfl | hp'
          · exact ho
          · exact f2 p' hp'
        · rw [List.map_cons, List.nodup_cons] at hn
          rcases b.notFirst hf hn.2 (fun x hx y hy => hi x (List.mem_cons_of_mem _ hx) y (List.mem_cons_of_mem _ hy)) with h | ⟨p', hp', h⟩
          · exact .inl h
          · exact .inr ⟨p', List.mem_cons_of_mem _ hp', h⟩
        · rcases List.mem_cons.1 hp' with rfl | hp'
          · rw [hx] at ha; cases ha
          · exact b.out p' hp' ha
        · rcases List.mem_cons.1 hp' with rfl | hp'
          · exact b.more _ (by simp)
          · exact b.art p' hp'

theorem reuseAll_finite {sym : Bool} : ∀ {ps : List Pic} {s s' : Reuse}, reuseAll sym ps s = .ok s' → Finite s.fs → Finite s'.fs := by
  intro ps
  induction ps with
  | nil => intro s s' h hf; cases h; exact hf
  | cons p ps ih =>
    intro s s' h hf
    unfold reuseAll at h
    split at h
    · cases h
    · next s1 h1 =>
      refine ih h ?_
      rcases reuseOne_cases h1 with ⟨-, rfl⟩ | ⟨-, b, -, rfl⟩ | ⟨-, -, rfl⟩
      · exact hf
      · exact hf.write _ _
      · exact hf

end Verif.Img.Files
