import Verif.ImgFilesHonest

/-!
# C74: what an export writes
-/

namespace Verif.Img.Files

open Verif.Reader (Text txt)
open Verif.Paths (join isAbs Seg)
open Verif.Handlers (Bytes Fs Scan Built)
open Verif.Css.Data (root)

variable {J C : Type} [DecidableEq C]

/-! ## Specification -/

/-- The image which is drawn for an export of a format, in a size. -/
def drawn (env : Env J C) (img : Bytes) (T : Target C) (w h : ℕ) (n g : Text) : Bytes :=
  match env.draw img T w h n g with
  | .ok b => b
  | .error _ => []

/-! ## The model of the folders (C41) is this one, with sizes in place of contents -/

section
variable (stem : Text) (n : ℤ)

def view (fs : Fs) : Folder := fun name => (fs (entryFile stem (idText n) name)).map List.length

def viewW (fs : Fs) : Folder := fun name => (fs (outFile stem (idText n) name)).map List.length

def strip (l : List (Text × List Pic)) : List (Text × List Output) := l.map fun x => (x.1, x.2.map fun p => ⟨p.width, p.height, p.choice⟩)

end

theorem entry_cancel {s n a b : Text} (h : entryFile s n a = entryFile s n b) : a = b := by
  have := List.append_cancel_left h
  simpa using this

theorem out_cancel {s n a b : Text} (h : outFile s n a = outFile s n b) : a = b := by
  have := List.append_cancel_left h
  simpa using this

section
variable {stem : Text} {n : ℤ} {fs : Fs}

theorem view_write {a : Text} {b : Bytes} : view stem n (fs.write (entryFile stem (idText n) a) b) = (view stem n fs).set a (some b.length) := by
  funext q
  unfold view Folder.set Fs.write
  by_cases h : q = a
  · subst h; simp
  · rw [if_neg h, if_neg fun e => h (entry_cancel e)]

theorem view_remove {a : Text} : view stem n (remove fs (entryFile stem (idText n) a)) = (view stem n fs).set a none := by
  funext q
  unfold view Folder.set remove
  by_cases h : q = a
  · subst h; simp
  · rw [if_neg h, if_neg fun e => h (entry_cancel e)]

theorem view_out {a : Text} {b : Bytes} : view stem n (fs.write (outFile stem (idText n) a) b) = view stem n fs := by
  funext q
  unfold view Fs.write
  rw [if_neg (art_ne_out (entry_art _ _ _) (out_out _ _ _))]

theorem viewW_write {a : Text} {b : Bytes} : viewW stem n (fs.write (outFile stem (idText n) a) b) = (viewW stem n fs).set a (some b.length) := by
  funext q
  unfold viewW Folder.set Fs.write
  by_cases h : q = a
  · subst h; simp
  · rw [if_neg h, if_neg fun e => h (out_cancel e)]

theorem viewW_remove {a : Text} : viewW stem n (remove fs (entryFile stem (idText n) a)) = viewW stem n fs := by
  funext q
  unfold viewW remove
  rw [if_neg (art_ne_out (entry_art _ _ _) (out_out _ _ _)).symm]

theorem viewW_entry {a : Text} {b : Bytes} : viewW stem n (fs.write (entryFile stem (idText n) a) b) = viewW stem n fs := by
  funext q
  unfold viewW Fs.write
  rw [if_neg (art_ne_out (entry_art _ _ _) (out_out _ _ _)).symm]

end

theorem strip_add {f : Text} {o : Pic} : ∀ {l : List (Text × List Pic)}, strip (addPic f o l) = addOutput f ⟨o.width, o.height, o.choice⟩ (strip l) := by
  intro l
  induction l with
  | nil => rfl
  | cons x l ih =>
    obtain ⟨k, os⟩ := x
    unfold addPic
    split
    · next h => simp [strip, addOutput, h]
    · next h => simp only [strip, List.map_cons, addOutput, if_neg h]; rw [← strip, ← strip, ih]

section
variable {rel stem : Text} (hr : root rel = stem) (hp : Plain stem) {n : ℤ}
include hr hp

theorem produceExports_sim {draw : ℕ → ℕ → Text → Text → Except Err Bytes} {sz : ℕ → ℕ → Text → Text → ℕ}
    (hd : ∀ w h n f b, draw w h n f = .ok b → sz w h n f = b.length) {w h : ℕ} {g : Text} : ∀ {es : List (Text × Export)} {fs fs' : Fs},
    produceExports draw (artDir rel n) w h g es fs = .ok fs' →
    Img.produceExports (fun w h n f => .ok (sz w h n f)) w h g es (view stem n fs) = .ok (view stem n fs') := by
  intro es
  induction es with
  | nil => intro fs fs' h'; cases h'; rfl
  | cons x es ih =>
    obtain ⟨e, ex⟩ := x
    intro fs fs' h'
    unfold produceExports at h'
    unfold Img.produceExports
    split at h'
    · next ha =>
      rw [if_pos ha]
      split at h'
      · cases h'
      · next b hb =>
        rw [dir_eq hr hp (cand_first _ _ _ _)] at h'
        have := ih h'
        rw [view_write] at this
        simp only [hd _ _ _ _ _ hb]
        exact this
    · next ha =>
      rw [if_neg ha]
      exact ih h'

theorem produceAll_sim {draw : ℕ → ℕ → Text → Text → Except Err Bytes} {sz : ℕ → ℕ → Text → Text → ℕ}
    (hd : ∀ w h n f b, draw w h n f = .ok b → sz w h n f = b.length) : ∀ {ts : List ((ℕ × ℕ) × Format)} {fs fs' : Fs},
    produceAll draw (artDir rel n) ts fs = .ok fs' →
    Img.produceAll (fun w h n f => .ok (sz w h n f)) ts (view stem n fs) = .ok (view stem n fs') := by
  intro ts
  induction ts with
  | nil => intro fs fs' h'; cases h'; rfl
  | cons t ts ih =>
    obtain ⟨⟨w, h⟩, f⟩ := t
    intro fs fs' h'
    unfold produceAll at h'
    unfold Img.produceAll
    split at h'
    · cases h'
    · next fs1 h1 =>
      rw [produceExports_sim hr hp hd h1]
      exact ih h'

theorem tournament_sim {w h : ℕ} {f : Format} : ∀ {es : List (Text × Export)} {best best' : Option Best} {fs fs' : Fs},
    tournament (artDir rel n) w h f es best fs = .ok (best', fs') →
    Img.tournament w h f es best (view stem n fs) = .ok (best', view stem n fs') ∧ viewW stem n fs' = viewW stem n fs := by
  intro es
  induction es with
  | nil => intro best best' fs fs' h'; cases h'; exact ⟨rfl, rfl⟩
  | cons x es ih =>
    obtain ⟨e, ex⟩ := x
    intro best best' fs fs' h'
    unfold tournament at h'
    unfold Img.tournament
    simp only [dir_eq hr hp (cand_first _ _ _ _)] at h'
    split at h'
    · next ha =>
      rw [if_pos ha]
      split at h'
      · cases h'
      · next b hb =>
        have e1 : view stem n fs (candName w h e f.name) = some b.length := by unfold view; rw [hb]; rfl
        simp only [e1]
        split at h'
        · exact ih h'
        · next a =>
          split at h'
          · next hc =>
            split at h'
            · cases h'
            · next b' hb' =>
              have e2 : view stem n fs (candName w h a.name f.name) = some b'.length := by unfold view; rw [hb']; rfl
              obtain ⟨k1, k2⟩ := ih h'
              rw [view_remove] at k1
              rw [viewW_remove] at k2
              simp only [if_pos hc, e2]
              exact ⟨k1, k2⟩
          · next hc =>
            obtain ⟨k1, k2⟩ := ih h'
            rw [view_remove] at k1
            rw [viewW_remove] at k2
            simp only [if_neg hc]
            exact ⟨k1, k2⟩
    · next ha =>
      rw [if_neg ha]
      exact ih h'

theorem selectOne_sim {sym : Bool} {w h : ℕ} {f : Format} {s s' : Sel} (h' : selectOne sym rel n w h f s = .ok s') :
    Img.selectOne sym w h f ⟨view stem n s.fs, viewW stem n s.fs, strip s.outputs⟩ = .ok ⟨view stem n s'.fs, viewW stem n s'.fs, strip s'.outputs⟩ := by
  unfold selectOne at h'
  unfold Img.selectOne
  split at h'
  · cases h'
  · next fs ht =>
    obtain ⟨k1, k2⟩ := tournament_sim hr hp ht
    cases h'
    simp only [k1, k2]
  · next b fs ht =>
    obtain ⟨k1, k2⟩ := tournament_sim hr hp ht
    simp only [dir_eq hr hp (cand_first _ _ _ _), dir_eq hr hp (out_first _ _ _), out_eq hr hp (out_first _ _ _)] at h'
    split at h'
    · cases h'
    · next img himg =>
      have e1 : view stem n fs (candName w h b.name f.name) = some img.length := by unfold view; rw [himg]; rfl
      simp only [k1, e1]
      split at h'
      · cases h'
      · next hc =>
        cases h'
        have n1 : outFile stem (idText n) (outName w h f.name) ≠ entryFile stem (idText n) (outName w h f.name) :=
          (art_ne_out (entry_art _ _ _) (out_out _ _ _)).symm
        have n2 : outFile stem (idText n) (outName w h f.name) ≠ entryFile stem (idText n) (candName w h b.name f.name) :=
          (art_ne_out (entry_art _ _ _) (out_out _ _ _)).symm
        have hc' : ¬ (sym = true ∧ viewW stem n s.fs (outName w h f.name) ≠ none) := by
          rintro ⟨h1, h2⟩
          apply hc
          refine ⟨h1, ?_⟩
          rw [← k2] at h2
          simp only [Fs.write, remove, if_neg n1, if_neg n2]
          unfold viewW at h2
          cases hx : fs (outFile stem (idText n) (outName w h f.name)) with
          | none => rw [hx] at h2; simp at h2
          | some x => rfl
        rw [if_neg hc']
        simp only [view_out, view_write, view_remove, viewW_write, viewW_entry, viewW_remove, k2, strip_add]

theorem selectAll_sim {sym : Bool} : ∀ {ts : List ((ℕ × ℕ) × Format)} {s s' : Sel}, selectAll sym rel n ts s = .ok s' →
    Img.selectAll sym ts ⟨view stem n s.fs, viewW stem n s.fs, strip s.outputs⟩ = .ok ⟨view stem n s'.fs, viewW stem n s'.fs, strip s'.outputs⟩ := by
  intro ts
  induction ts with
  | nil => intro s s' h'; cases h'; rfl
  | cons t ts ih =>
    obtain ⟨⟨w, h⟩, f⟩ := t
    intro s s' h'
    unfold selectAll at h'
    unfold Img.selectAll
    split at h'
    · cases h'
    · next s1 h1 =>
      rw [selectOne_sim hr hp h1]
      exact ih h'

/-! ## Contents -/

theorem produceExports_drawn {draw : ℕ → ℕ → Text → Text → Except Err Bytes} {w h : ℕ} {g : Text} (hg : 46 ∉ g) :
    ∀ {es : List (Text × Export)} {fs fs' : Fs}, produceExports draw (artDir rel n) w h g es fs = .ok fs' →
    ∀ w' h' e g', 46 ∉ g' → ((∃ b, draw w' h' e g' = .ok b ∧ fs (entryFile stem (idText n) (candName w' h' e g')) = some b) ∨
      (w' = w ∧ h' = h ∧ g' = g ∧ ∃ x ∈ es, x.1 = e ∧ x.2.appliesTo w h = true)) →
      ∃ b, draw w' h' e g' = .ok b ∧ fs' (entryFile stem (idText n) (candName w' h' e g')) = some b := by
  intro es
  induction es with
  | nil =>
    intro fs fs' h' w' h'' e g' _ hh
    cases h'
    rcases hh with hh | ⟨-, -, -, x, hx, -⟩
    · exact hh
    · simp at hx
  | cons x es ih =>
    obtain ⟨e0, ex⟩ := x
    intro fs fs' h' w' h'' e g' hg' hh
    unfold produceExports at h'
    split at h'
    · split at h'
      · cases h'
      · next b hb =>
        rw [dir_eq hr hp (cand_first _ _ _ _)] at h'
        refine ih h' w' h'' e g' hg' ?_
        by_cases hc : candName w' h'' e g' = candName w h e0 g
        · obtain ⟨rfl, rfl, rfl, rfl⟩ := candName_inj hg' hg hc
          exact .inl ⟨b, hb, by simp [Fs.write]⟩
        · rcases hh with ⟨b', h1, h2⟩ | ⟨rfl, rfl, rfl, x, hx, rfl, ha⟩
          · refine .inl ⟨b', h1, ?_⟩
            unfold Fs.write
            rw [if_neg fun he => hc (entry_cancel he)]
            exact h2
          · rcases List.mem_cons.1 hx with rfl | hx
            · exact absurd rfl hc
            · exact .inr ⟨rfl, rfl, rfl, x, hx, rfl, ha⟩
    · next hna =>
      refine ih h' w' h'' e g' hg' ?_
      rcases hh with hh | ⟨rfl, rfl, rfl, x, hx, rfl, ha⟩
      · exact .inl hh
      · rcases List.mem_cons.1 hx with rfl | hx
        · exact absurd ha hna
        · exact .inr ⟨rfl, rfl, rfl, x, hx, rfl, ha⟩

/-- After all images have been drawn, they are there. -/
theorem produceAll_drawn {draw : ℕ → ℕ → Text → Text → Except Err Bytes} : ∀ {ts : List ((ℕ × ℕ) × Format)}, (∀ t ∈ ts, 46 ∉ t.2.name) →
    ∀ {fs fs' : Fs}, produceAll draw (artDir rel n) ts fs = .ok fs' →
    ∀ w h e g, 46 ∉ g → ((∃ b, draw w h e g = .ok b ∧ fs (entryFile stem (idText n) (candName w h e g)) = some b) ∨
      ∃ t ∈ ts, t.1 = (w, h) ∧ t.2.name = g ∧ ∃ x ∈ t.2.exports, x.1 = e ∧ x.2.appliesTo w h = true) →
      ∃ b, draw w h e g = .ok b ∧ fs' (entryFile stem (idText n) (candName w h e g)) = some b := by
  intro ts
  induction ts with
  | nil =>
    intro _ fs fs' h' w h e g _ hh
    cases h'
    rcases hh with hh | ⟨x, hx, -⟩
    · exact hh
    · simp at hx
  | cons t ts ih =>
    obtain ⟨⟨w, h⟩, f⟩ := t
    intro hts fs fs' h' w' h'' e g hg hh
    unfold produceAll at h'
    split at h'
    · cases h'
    · next fs1 h1 =>
      refine ih (fun t ht => hts t (List.mem_cons_of_mem _ ht)) h' w' h'' e g hg ?_
      have one := produceExports_drawn hr hp (hts ((w, h), f) (by simp)) h1 w' h'' e g hg
      rcases hh with hh | ⟨t, ht, h3, h4, x, hx, h5, h6⟩
      · exact .inl (one (.inl hh))
      · rcases List.mem_cons.1 ht with rfl | ht
        · dsimp only at h3 h4 hx
          cases h3
          exact .inl (one (.inr ⟨rfl, rfl, h4.symm, x, hx, h5, h6⟩))
        · exact .inr ⟨t, ht, h3, h4, x, hx, h5, h6⟩

/-- What is chosen is what was drawn. -/
theorem selectOne_content {sym : Bool} {w h : ℕ} {f : Format} (hf : 47 ∉ f.name) (hes : ∀ x ∈ f.exports, 47 ∉ x.1) {s s' : Sel}
    (h' : selectOne sym rel n w h f s = .ok s') :
    s'.outputs = s.outputs ∨
    ∃ img choice, s.fs (entryFile stem (idText n) (candName w h choice f.name)) = some img ∧
      s'.fs (entryFile stem (idText n) (outName w h f.name)) = some img ∧ s'.fs (outFile stem (idText n) (outName w h f.name)) = some img ∧
      s'.outputs = addPic f.name ⟨w, h, stem ++ 47 :: idText n ++ 47 :: outName w h f.name, choice⟩ s.outputs := by
  unfold selectOne at h'
  split at h'
  · cases h'
  · next fs ht => cases h'; exact .inl rfl
  · next b fs ht =>
    obtain ⟨k1, k2, k3⟩ := tournament_frame hr hp hf hes (by simp) ht
    split at h'
    · cases h'
    · next img himg =>
      simp only [dir_eq hr hp (cand_first _ _ _ _), dir_eq hr hp (out_first _ _ _), out_eq hr hp (out_first _ _ _), rel_eq hr hp (out_first _ _ _)] at h' himg
      split at h'
      · cases h'
      · cases h'
        have hne : entryFile stem (idText n) (outName w h f.name) ≠ outFile stem (idText n) (outName w h f.name) :=
          art_ne_out (entry_art _ _ _) (out_out _ _ _)
        refine .inr ⟨img, b.name, ?_, ?_, ?_, rfl⟩
        · rcases k2 (entryFile stem (idText n) (candName w h b.name f.name)) with k | k
          · rw [← k]; exact himg
          · rw [k] at himg; cases himg
        · simp only [Fs.write, if_neg hne, if_true]
        · simp only [Fs.write, if_true]

theorem selectAll_content {sym : Bool} : ∀ {ts : List ((ℕ × ℕ) × Format)}, NoSlash ts → (ts.map key).Nodup → ∀ {s s' : Sel},
    selectAll sym rel n ts s = .ok s' → ∀ g p, Has s'.outputs g p → Has s.outputs g p ∨
    ∃ t ∈ ts, g = t.2.name ∧ p.width = t.1.1 ∧ p.height = t.1.2 ∧ p.relpath = picPath stem n t ∧
      ∃ img, s.fs (entryFile stem (idText n) (candName t.1.1 t.1.2 p.choice t.2.name)) = some img ∧
        s'.fs (entryFile stem (idText n) (outName t.1.1 t.1.2 t.2.name)) = some img ∧
        s'.fs (outFile stem (idText n) (outName t.1.1 t.1.2 t.2.name)) = some img := by
  intro ts
  induction ts with
  | nil => intro _ _ s s' h' g p hh; cases h'; exact .inl hh
  | cons t ts ih =>
    obtain ⟨⟨w, h⟩, f⟩ := t
    intro hns hnd s s' h' g p hh
    unfold selectAll at h'
    split at h'
    · cases h'
    · next s1 h1 =>
      obtain ⟨_, f1, f2⟩ := hns ((w, h), f) (by simp)
      have hns' : NoSlash ts := fun x hx => hns x (List.mem_cons_of_mem _ hx)
      rw [List.map_cons, List.nodup_cons] at hnd
      rcases ih hns' hnd.2 h' g p hh with hh | ⟨t, ht, k1, k2, k3, k4, img, k5, k6, k7⟩
      · rcases selectOne_content hr hp f1 f2 h1 with he | ⟨img, choice, c1, c2, c3, c4⟩
        · rw [he] at hh; exact .inl hh
        · rw [c4, has_add] at hh
          rcases hh with hh | ⟨rfl, rfl⟩
          · exact .inl hh
          · refine .inr ⟨((w, h), f), by simp, rfl, rfl, rfl, rfl, img, c1, ?_, ?_⟩
            · have S := selectAll_frame hr hp hns' h'
              dsimp only
              rw [S.frame _ (art_not_cand (idText_slash n) (out_slash f1) (fun _ _ _ _ => cand_ne_out)) ?_]
              · exact c2
              · rintro ⟨t, ht, e | e⟩
                · obtain ⟨e1, e2, e3⟩ := outName_inj (entry_cancel e)
                  exact hnd.1 (List.mem_map.2 ⟨t, ht, Prod.ext (Prod.ext e1.symm e2.symm) e3.symm⟩)
                · exact art_ne_out (entry_art _ _ _) (out_out _ _ _) e
            · have S := selectAll_frame hr hp hns' h'
              dsimp only
              rw [S.frame _ out_not_cand ?_]
              · exact c3
              · rintro ⟨t, ht, e | e⟩
                · exact art_ne_out (entry_art _ _ _) (out_out _ _ _) e.symm
                · obtain ⟨e1, e2, e3⟩ := outName_inj (out_cancel e)
                  exact hnd.1 (List.mem_map.2 ⟨t, ht, Prod.ext (Prod.ext e1.symm e2.symm) e3.symm⟩)
      · refine .inr ⟨t, List.mem_cons_of_mem _ ht, k1, k2, k3, k4, img, ?_, k6, k7⟩
        rcases (selectOne_gone hr hp h1).1 n t.1.1 t.1.2 p.choice t.2.name with k | k
        · rw [← k]; exact k5
        · rw [k] at k5; cases k5

end

/-! ## C74 -/

theorem mem_outputs {g : Text} {o : Output} : ∀ {l : List (Text × List Output)}, o ∈ outputsOf g l → ∃ x ∈ l, x.1 = g ∧ o ∈ x.2 := by
  intro l ho
  unfold outputsOf at ho
  split at ho
  · simp at ho
  · next x hx =>
    have h1 := List.mem_of_find?_eq_some hx
    have h2 := List.find?_some hx
    exact ⟨x, h1, by simpa using h2, ho⟩

theorem has_strip {g : Text} {o : Output} {l : List (Text × List Pic)} (h : o ∈ outputsOf g (strip l)) :
    ∃ p, Has l g p ∧ p.width = o.width ∧ p.height = o.height ∧ p.choice = o.choice := by
  obtain ⟨x, hx, h1, h2⟩ := mem_outputs h
  obtain ⟨y, hy, rfl⟩ := List.mem_map.1 hx
  obtain ⟨p, hp, rfl⟩ := List.mem_map.1 h2
  exact ⟨p, ⟨y, hy, h1, hp⟩, rfl, rfl, rfl⟩

/-- Symbolic links only make a difference to failures. -/
theorem selectAll_links {sym : Bool} : ∀ {ts : List ((ℕ × ℕ) × Format)} {s s' : Img.Exported}, Img.selectAll sym ts s = .ok s' → Img.selectAll false ts s = .ok s' := by
  intro ts
  induction ts with
  | nil => intro s s' h; exact h
  | cons t ts ih =>
    obtain ⟨⟨w, h⟩, f⟩ := t
    intro s s' h'
    unfold Img.selectAll at h' ⊢
    split at h'
    · cases h'
    · next s1 h1 =>
      have : Img.selectOne false w h f s = .ok s1 := by
        unfold Img.selectOne at h1 ⊢
        cases e : Img.tournament w h f f.exports none s.art with
        | error x => rw [e] at h1; cases h1
        | ok y =>
          obtain ⟨b, d⟩ := y
          rw [e] at h1
          cases b with
          | none => exact h1
          | some b =>
            dsimp only at h1 ⊢
            cases e' : d (candName w h b.name f.name) with
            | none => rw [e'] at h1; cases h1
            | some size =>
              rw [e'] at h1
              dsimp only at h1 ⊢
              split at h1
              · cases h1
              · cases h1; simp
      rw [this]
      exact ih h'

/-- Nothing is recorded for a size and format without an applicable export. -/
theorem noChoice {sym : Bool} {rel stem : Text} (hr : root rel = stem) (hp : Plain stem) {n : ℤ} {ts : List ((ℕ × ℕ) × Format)} (hnd : (ts.map key).Nodup)
    (hns : NoSlash ts) {s s' : Sel} (hs : selectAll sym rel n ts s = .ok s') {g : Text} {p : Pic} (h0 : ¬ Has s.outputs g p) (hh : Has s'.outputs g p)
    {t : (ℕ × ℕ) × Format} (hg : g = t.2.name) (hw : p.width = t.1.1) (hht : p.height = t.1.2) (ht : t ∈ ts)
    (hna : ∀ x ∈ t.2.exports, ¬ x.2.appliesTo t.1.1 t.1.2 = true) : False := by
  induction ts generalizing s with
  | nil => cases hs; exact h0 hh
  | cons u ts ih =>
    obtain ⟨⟨w, h⟩, f⟩ := u
    unfold selectAll at hs
    split at hs
    · cases hs
    · next s1 h1 =>
      rw [List.map_cons, List.nodup_cons] at hnd
      obtain ⟨_, f1, f2⟩ := hns ((w, h), f) (by simp)
      have hns' : NoSlash ts := fun x hx => hns x (List.mem_cons_of_mem _ hx)
      by_cases h2 : Has s1.outputs g p
      · rcases selectOne_content hr hp f1 f2 h1 with he | ⟨img, choice, c1, c2, c3, c4⟩
        · rw [he] at h2; exact h0 h2
        · rw [c4, has_add] at h2
          rcases h2 with h2 | ⟨h2, rfl⟩
          · exact h0 h2
          · dsimp only at hw hht
            rcases List.mem_cons.1 ht with rfl | ht
            · rcases (selectOne_gone hr hp h1).2 with e | ⟨⟨x, hx, ha, -⟩, -⟩
              · exact addPic_ne _ _ _ (e.symm.trans c4)
              · exact hna x hx ha
            · exact hnd.1 (List.mem_map.2 ⟨t, ht, Prod.ext (Prod.ext hw.symm hht.symm) (hg.symm.trans h2)⟩)
      · rcases List.mem_cons.1 ht with rfl | ht
        · -- something later would have the same key
          rcases selectAll_content hr hp hns' hnd.2 hs g p hh with hx | ⟨v, hv, e1, e2, e3, -⟩
          · exact h2 hx
          · exact hnd.1 (List.mem_map.2 ⟨v, hv, Prod.ext (Prod.ext (e2.symm.trans hw) (e3.symm.trans hht)) (e1.symm.trans hg)⟩)
        · exact ih hnd.2 hns' hs h2 ht

/-- What an export which draws images makes of them. -/
structure Drawn (env : Env J C) (stem : Text) (n : ℤ) (img : Bytes) (T : Target C) (fs' : Fs) (m : Metadata C) (w h : ℕ) (f : Format) : Prop where
  /-- the best image is in both folders, and recorded -/
  best : Applicable f w h → ∃ c, Chosen f w h (fun e => (drawn env img T w h e f.name).length) c ∧
    fs' (entryFile stem (idText n) (outName w h f.name)) = some (drawn env img T w h c f.name) ∧
    fs' (outFile stem (idText n) (outName w h f.name)) = some (drawn env img T w h c f.name) ∧
    Has m.outputs f.name ⟨w, h, picPath stem n ((w, h), f), c⟩
  /-- those it was compared with are gone -/
  gone : ∀ x ∈ f.exports, Applies x.2 w h → fs' (entryFile stem (idText n) (candName w h x.1 f.name)) = none

/-- **C74**: an export which draws images (and does not use those from before) records, for each size and format, the smallest
per preference, and leaves exactly that image in artifacts and in out/www. -/
theorem C74 {env : Env J C} (hl : Lawful env) {h : ℤ} (hh : env.settingsHash = .ok h) (hformats : ∀ f ∈ env.formats, GoodFormat f)
    {file : Text} {c : Command J} (hp : Proper env file c) {f f' : Fs} (hg : Good env h f)
    (hi : Pictured env f (relOf env file c)) {m : Metadata C} {r : Built} (he : exportCommand env file f c = .ok (m, r, f')) (hnew : r.reused = []) :
    ∃ T n img d, targetOf env c = .ok T ∧ f (source (relOf env file c)) = some img ∧ env.dims img = some d ∧
      m = ⟨h, sourcePath env.cwd env.folder file c, d.1, d.2, contentsOf env f (relOf env file c), T, m.outputs⟩ ∧ ((flat m.outputs).map (·.relpath)).Nodup ∧
      ((env.sizes d (T.width, T.height)).Nodup → (∀ s ∈ env.sizes d (T.width, T.height), ∀ g ∈ env.formats,
        Drawn env (root (relOf env file c)) n img T f' m s.1 s.2 g) ∧
      ∀ g p, Has m.outputs g p → ∃ s ∈ env.sizes d (T.width, T.height), ∃ k ∈ env.formats, g = k.name ∧ p.width = s.1 ∧ p.height = s.2 ∧
        p.relpath = picPath (root (relOf env file c)) n (s, k) ∧ Applicable k s.1 s.2) := by
  obtain ⟨T', n', d', hT', x⟩ := export_spec hl hh hp hg hi he
  unfold exportCommand at he
  simp only [hT'] at he
  split at he
  · cases he
  · cases he
  · next n fs1 h1 =>
    obtain ⟨k1, k2, -⟩ := getTarget_spec hl rfl hp h1
    split at he
    · -- used again: something is reused
      unfold exportAgain at he
      split at he
      · cases he
      · split at he
        · cases he
        · next s hs =>
          have hmem : metaFile (artDir (relOf env file c) n) ∈ s.reused := by
            have : ∀ {ps : List Pic} {s s' : Reuse}, reuseAll env.symlinks ps s = .ok s' → ∀ q ∈ s.reused, q ∈ s'.reused := by
              intro ps
              induction ps with
              | nil => intro s s' h' q hq; cases h'; exact hq
              | cons p ps ih =>
                intro s s' h' q hq
                unfold reuseAll at h'
                split at h'
                · cases h'
                · next s1 h1 =>
                  refine ih h' q ?_
                  rcases reuseOne_cases h1 with ⟨-, rfl⟩ | ⟨-, b, -, rfl⟩ | ⟨-, -, rfl⟩ <;> simp [hq]
            exact this hs _ (by simp)
          split at he
          · cases he; dsimp only at hnew; rw [hnew] at hmem; simp at hmem
          · cases he; simp at hnew
    · next hmeta =>
      have q4 : ∀ p, p ≠ lockPath (root (relOf env file c)) → fs1 p = f p := by
        intro p hne
        rcases k1 with rfl | rfl
        · rfl
        · exact touch_ne hne
      have src1 := sources_kept (env := env) (fs := f) (fs' := fs1) (fun p hne => by
        by_contra hc
        exact hne (q4 p fun e => hc (.inr (.inl ⟨_, e⟩)))) _ hp
      unfold exportNew at he
      split at he
      · cases he
      · next img d ho =>
        have himg : f (source (relOf env file c)) = some img ∧ env.dims img = some d := by
          unfold openImage at ho
          rw [src1.1] at ho
          split at ho
          · cases ho
          · next b' hb' =>
            split at ho
            · cases ho
            · next d' hd => cases ho; exact ⟨hb', hd⟩
        split at he
        · cases he
        · next hash hhash =>
          have hcont : env.decode hash = contentsOf env f (relOf env file c) := by
            rw [← src1.2]
            unfold contentsOf
            rw [hhash]
          rw [hh] at he
          dsimp only at he
          split at he
          · cases he
          · next fs2 h2 =>
            split at he
            · cases he
            · next s hs =>
              cases he
              refine ⟨T', n, img, d, hT', himg.1, himg.2, by rw [hcont], x.made.distinct, fun hsz => ?_⟩
              have em : metaFile (artDir (relOf env file c) n) = entryFile (root (relOf env file c)) (idText n) (txt "metadata.json") :=
                meta_eq rfl hp (idText_seg n)
              rw [em]
              have hns := tasks_noSlash hl (env.sizes d (T'.width, T'.height))
              have hnd := tasks_nodup hsz hl.formats
              have hdraw : ∀ w h e g b, env.draw img T' w h e g = .ok b → (drawn env img T' w h e g).length = b.length := by
                intro w h e g b hb
                unfold drawn
                rw [hb]
              have hgood : ∀ t ∈ tasks (env.sizes d (T'.width, T'.height)) env.formats, GoodFormat t.2 := fun t ht => hformats t.2 (mem_tasks.1 ht).2
              have hdot : ∀ t ∈ tasks (env.sizes d (T'.width, T'.height)) env.formats, 46 ∉ t.2.name := fun t ht => (hgood t ht).dot
              have pd := produceAll_drawn rfl hp hdot h2
              have sc := selectAll_content rfl hp hns hnd hs
              have sim := selectAll_sim rfl hp hs
              have write : ∀ a, a ≠ txt "metadata.json" → ∀ b, (s.fs.write (entryFile (root (relOf env file c)) (idText n) (txt "metadata.json")) b)
                  (entryFile (root (relOf env file c)) (idText n) a) = s.fs (entryFile (root (relOf env file c)) (idText n) a) := by
                intro a ha b
                unfold Fs.write
                rw [if_neg fun e => ha (entry_cancel e)]
              have writeW : ∀ a b, (s.fs.write (entryFile (root (relOf env file c)) (idText n) (txt "metadata.json")) b)
                  (outFile (root (relOf env file c)) (idText n) a) = s.fs (outFile (root (relOf env file c)) (idText n) a) := by
                intro a b
                unfold Fs.write
                rw [if_neg (art_ne_out (entry_art _ _ _) (out_out _ _ _)).symm]
              obtain ⟨d1, p1, -, p3⟩ := produceAll_spec (sz := fun w h e g => (drawn env img T' w h e g).length) _ hdot (view (root (relOf env file c)) n fs1)
              have hd1 : d1 = view (root (relOf env file c)) n fs2 := by
                have := produceAll_sim rfl hp hdraw h2
                rw [p1] at this
                cases this
                rfl
              obtain ⟨s', r1, r2, -, -, -⟩ := selectAll_spec (sym := false) (sz := fun w h e g => (drawn env img T' w h e g).length) _ hgood hnd
                ⟨view (root (relOf env file c)) n fs2, viewW (root (relOf env file c)) n fs2, strip []⟩
                (fun t ht x hx hax => by
                  rw [← hd1]
                  exact p3 _ _ _ _ (hdot t ht) (.inr ⟨t, ht, rfl, rfl, x, hx, hax, rfl⟩)) (by simp)
              have hs' : s' = ⟨view (root (relOf env file c)) n s.fs, viewW (root (relOf env file c)) n s.fs, strip s.outputs⟩ := by
                have := selectAll_links sim
                rw [r1] at this
                cases this
                rfl
              subst hs'
              -- what is recorded has been drawn
              have recorded : ∀ g p, Has s.outputs g p → ∃ t ∈ tasks (env.sizes d (T'.width, T'.height)) env.formats, g = t.2.name ∧ p.width = t.1.1 ∧ p.height = t.1.2 ∧
                  p.relpath = picPath (root (relOf env file c)) n t ∧
                  ∃ b, fs2 (entryFile (root (relOf env file c)) (idText n) (candName t.1.1 t.1.2 p.choice t.2.name)) = some b ∧
                    s.fs (entryFile (root (relOf env file c)) (idText n) (outName t.1.1 t.1.2 t.2.name)) = some b ∧
                    s.fs (outFile (root (relOf env file c)) (idText n) (outName t.1.1 t.1.2 t.2.name)) = some b := by
                intro g p hhas
                rcases sc g p hhas with ⟨y, hy, -⟩ | hx
                · simp at hy
                · exact hx
              constructor
              · intro sz hsz' g hg'
                have ht : (sz, g) ∈ tasks (env.sizes d (T'.width, T'.height)) env.formats := mem_tasks.2 ⟨hsz', hg'⟩
                obtain ⟨r3, r4, -⟩ := r2 (sz, g) ht
                refine ⟨fun happ => ?_, fun x hx ha => ?_⟩
                · obtain ⟨ch, c1, c2, c3, c4⟩ := r4 happ
                  dsimp only at c1 c2 c3 c4
                  obtain ⟨p, hhas, e1, e2, e3⟩ := has_strip c4
                  dsimp only at e1 e2 e3
                  obtain ⟨t, ht', k3, k4, k5, k6, b, k7, k8, k9⟩ := recorded _ _ hhas
                  have ekey : t.1 = sz := Prod.ext (k4.symm.trans e1) (k5.symm.trans e2)
                  have efmt : t.2 = g := List.inj_on_of_nodup_map hl.formats (mem_tasks.1 ht').2 hg' k3.symm
                  subst ekey
                  subst efmt
                  have hdr : b = drawn env img T' t.1.1 t.1.2 ch t.2.name := by
                    obtain ⟨pre, post, ex, hex, hap, -⟩ := c1
                    obtain ⟨b', h3, h4⟩ := pd t.1.1 t.1.2 ch t.2.name (hdot t ht')
                      (.inr ⟨t, ht', rfl, rfl, (ch, ex), by rw [hex]; simp, rfl, applies_iff.2 hap⟩)
                    rw [e3, h4] at k7
                    cases k7
                    unfold drawn
                    rw [h3]
                  refine ⟨ch, c1, ?_, ?_, ?_⟩
                  · rw [write _ (out_ne 109 (by decide) (by omega)), k8, hdr]
                  · rw [writeW, k9, hdr]
                  · have : p = ⟨t.1.1, t.1.2, picPath (root (relOf env file c)) n (t.1, t.2), ch⟩ := by
                      cases p
                      simp only at k4 k5 k6 e3
                      rw [k4, k5, k6, e3]
                    rw [← this]
                    exact hhas
                · rw [write _ (cand_ne 109 (by decide) (by omega))]
                  have := r3 _ ⟨x, hx, applies_iff.2 ha, rfl⟩
                  unfold view at this
                  simpa using this
              · intro g p hhas
                obtain ⟨t, ht', k3, k4, k5, k6, b, k7, k8, k9⟩ := recorded _ _ hhas
                refine ⟨t.1, (mem_tasks.1 ht').1, t.2, (mem_tasks.1 ht').2, k3, k4, k5, k6, ?_⟩
                by_contra hna
                exact noChoice rfl hp hnd hns hs (by simp [Has]) hhas k3 k4 k5 ht' (by
                  intro x hx ha
                  exact hna ⟨x, hx, applies_iff.1 ha⟩)

end Verif.Img.Files
