import Verif.ImgFilesHonest

/-!
# C95: which artifacts a build leaves

README.md:141-145 promises that the artifacts folder is reproducible byte for byte.  Here builds are sequences of scans and
exports of images, with anything else in between which leaves artifacts and images alone, from a project without artifacts.
-/

namespace Verif.Img.Files

open Verif.Reader (Text txt)
open Verif.Paths (join isAbs Seg)
open Verif.Handlers (Bytes Fs Scan Built)
open Verif.Css.Data (root)

variable {J C : Type} [DecidableEq C]

/-! ## Specification -/

/-- A picture of a page or an image module is scanned, or exported. -/
inductive Ev (J : Type)
  | scan (file : Text) (c : Command J)
  | export_ (file : Text) (c : Command J)

/-- A build from the files `f`: what happens, and the files afterwards.  Scans and exports succeed. -/
inductive Trace (env : Env J C) (f : Fs) : List (Ev J) → Fs → Prop
  | nil : Trace env f [] f
  | scan {u : List (Ev J)} {g g' : Fs} {file : Text} {c : Command J} {s : Scan} (t : Trace env f u g) (hp : Proper env file c)
      (h : scanCommand env file g c = .ok (s, g')) : Trace env f (u ++ [.scan file c]) g'
  | export_ {u : List (Ev J)} {g g' : Fs} {file : Text} {c : Command J} {m : Metadata C} {r : Built} (t : Trace env f u g) (hp : Proper env file c)
      (hi : Pictured env g (relOf env file c)) (h : exportCommand env file g c = .ok (m, r, g')) : Trace env f (u ++ [.export_ file c]) g'
  | other {u : List (Ev J)} {g g' : Fs} (t : Trace env f u g) (h0 : Finite g') (h1 : ∀ p, InArt p → g' p = g p)
      (h2 : ∀ rel, Plain (root rel) → Pictured env g rel ∨ Pictured env g' rel →
        g' (source rel) = g (source rel) ∧ contentsOf env g' rel = contentsOf env g rel) : Trace env f u g'

/-- The targets after one more event. -/
def askedFor (env : Env J C) (stem : Text) (l : List (Target C)) : Ev J → List (Target C)
  | .scan file c =>
    if root (relOf env file c) = stem then
      match targetOf env c with
      | .ok T => if T ∈ l then l else l ++ [T]
      | .error _ => l
    else l
  | .export_ _ _ => l

/-- The targets (sizes and ways to crop) for which an image has been scanned, in the order in which that happened first. -/
def asked (env : Env J C) (stem : Text) (u : List (Ev J)) : List (Target C) := u.foldl (askedFor env stem) []

/-- An image has been exported for a target. -/
def Exports (env : Env J C) (u : List (Ev J)) (stem : Text) (T : Target C) : Prop :=
  ∃ file c, .export_ file c ∈ u ∧ root (relOf env file c) = stem ∧ targetOf env c = .ok T

/-- No two images differ only in their extensions. -/
def OneSource (env : Env J C) (u : List (Ev J)) : Prop :=
  ∀ file c file' c', .export_ file c ∈ u → .export_ file' c' ∈ u → root (relOf env file c) = root (relOf env file' c') →
    sourcePath env.cwd env.folder file c = sourcePath env.cwd env.folder file' c'

/-! ## Two runs of the exporter -/

/-- Both have the same files where `A` is. -/
def Agree (A : Text → Prop) (f g : Fs) : Prop := ∀ p, A p → f p = g p

theorem Agree.write {A : Text → Prop} {f g : Fs} (h : Agree A f g) (p : Text) (b : Bytes) : Agree A (f.write p b) (g.write p b) := by
  intro q hq
  unfold Fs.write
  split
  · rfl
  · exact h q hq

theorem Agree.remove {A : Text → Prop} {f g : Fs} (h : Agree A f g) (p : Text) : Agree A (remove f p) (remove g p) := by
  intro q hq
  unfold Files.remove
  split
  · rfl
  · exact h q hq

theorem produceExports_agree {A : Text → Prop} {draw : ℕ → ℕ → Text → Text → Except Err Bytes} {dir : Text} {w h : ℕ} {fmt : Text} :
    ∀ {es : List (Text × Export)} {f g f' g' : Fs}, Agree A f g → produceExports draw dir w h fmt es f = .ok f' →
      produceExports draw dir w h fmt es g = .ok g' → Agree A f' g' := by
  intro es
  induction es with
  | nil => intro f g f' g' ha hf hg; cases hf; cases hg; exact ha
  | cons x es ih =>
    obtain ⟨n, e⟩ := x
    intro f g f' g' ha hf hg
    unfold produceExports at hf hg
    split at hf
    · next hap =>
      rw [if_pos hap] at hg
      split at hf
      · cases hf
      · next b hb =>
        rw [hb] at hg
        exact ih (ha.write _ _) hf hg
    · next hap =>
      rw [if_neg hap] at hg
      exact ih ha hf hg

theorem produceAll_agree {A : Text → Prop} {draw : ℕ → ℕ → Text → Text → Except Err Bytes} {dir : Text} :
    ∀ {ts : List ((ℕ × ℕ) × Format)} {f g f' g' : Fs}, Agree A f g → produceAll draw dir ts f = .ok f' →
      produceAll draw dir ts g = .ok g' → Agree A f' g' := by
  intro ts
  induction ts with
  | nil => intro f g f' g' ha hf hg; cases hf; cases hg; exact ha
  | cons x ts ih =>
    obtain ⟨⟨w, h⟩, fm⟩ := x
    intro f g f' g' ha hf hg
    unfold produceAll at hf hg
    split at hf
    · cases hf
    · next f1 h1 =>
      split at hg
      · cases hg
      · next g1 h2 => exact ih (produceExports_agree ha h1 h2) hf hg

theorem tournament_agree {A : Text → Prop} {dir : Text} {w h : ℕ} {fm : Format} :
    ∀ {es : List (Text × Export)}, (∀ x ∈ es, A (join dir (candName w h x.1 fm.name))) →
      ∀ {best bf bg : Option Best} {f g f' g' : Fs}, (∀ b, best = some b → A (join dir (candName w h b.name fm.name))) → Agree A f g →
      tournament dir w h fm es best f = .ok (bf, f') → tournament dir w h fm es best g = .ok (bg, g') →
      bf = bg ∧ Agree A f' g' ∧ ∀ b, bf = some b → A (join dir (candName w h b.name fm.name)) := by
  intro es
  induction es with
  | nil => intro _ best bf bg f g f' g' hb ha hf hg; cases hf; cases hg; exact ⟨rfl, ha, hb⟩
  | cons x es ih =>
    obtain ⟨n, e⟩ := x
    intro hA best bf bg f g f' g' hb ha hf hg
    have hn : A (join dir (candName w h n fm.name)) := hA (n, e) (by simp)
    have ih := @ih fun x hx => hA x (List.mem_cons_of_mem _ hx)
    unfold tournament at hf hg
    rw [ha _ hn] at hf
    split at hf
    · next hap =>
      rw [if_pos hap] at hg
      split at hf
      · cases hf
      · next b hbb =>
        rw [hbb] at hg
        dsimp only at hg
        split at hf
        · exact ih (fun b hb => by cases hb; exact hn) ha hf hg
        · next a =>
          dsimp only at hg
          have hna := hb a rfl
          rw [ha _ hna] at hf
          split at hf
          · next hcmp =>
            rw [if_pos hcmp] at hg
            split at hf
            · cases hf
            · next c hc =>
              rw [hc] at hg
              exact ih (fun b hb => by cases hb; exact hn) (ha.remove _) hf hg
          · next hcmp =>
            rw [if_neg hcmp] at hg
            exact ih (fun b hb => by cases hb; exact hna) (ha.remove _) hf hg
    · next hap =>
      rw [if_neg hap] at hg
      exact ih hb ha hf hg

theorem selectOne_agree {A : Text → Prop} {sym : Bool} {rel : Text} {id : ℤ} {w h : ℕ} {fm : Format}
    (hA : ∀ x ∈ fm.exports, A (join (artDir rel id) (candName w h x.1 fm.name))) {s t s' t' : Sel} (ho : s.outputs = t.outputs) (ha : Agree A s.fs t.fs)
    (hs : selectOne sym rel id w h fm s = .ok s') (ht : selectOne sym rel id w h fm t = .ok t') : s'.outputs = t'.outputs ∧ Agree A s'.fs t'.fs := by
  unfold selectOne at hs ht
  split at hs
  · cases hs
  · next f1 h1 =>
    split at ht
    · cases ht
    · next g1 h2 =>
      cases hs; cases ht
      exact ⟨ho, (tournament_agree hA (by simp) ha h1 h2).2.1⟩
    · next b g1 h2 => exact absurd (tournament_agree hA (by simp) ha h1 h2).1 (by simp)
  · next b f1 h1 =>
    split at ht
    · cases ht
    · next g1 h2 => exact absurd (tournament_agree hA (by simp) ha h1 h2).1 (by simp)
    · next b' g1 h2 =>
      obtain ⟨e, ha', hb⟩ := tournament_agree hA (by simp) ha h1 h2
      cases e
      rw [ha' _ (hb b rfl)] at hs
      split at hs
      · cases hs
      · next img himg =>
        rw [himg] at ht
        simp only at hs ht
        split at hs
        · cases hs
        · split at ht
          · cases ht
          · cases hs; cases ht
            exact ⟨by rw [ho], ((ha'.remove _).write _ _).write _ _⟩

theorem selectAll_agree {A : Text → Prop} {sym : Bool} {rel : Text} {id : ℤ} :
    ∀ {ts : List ((ℕ × ℕ) × Format)}, (∀ t ∈ ts, ∀ x ∈ t.2.exports, A (join (artDir rel id) (candName t.1.1 t.1.2 x.1 t.2.name))) →
      ∀ {s t s' t' : Sel}, s.outputs = t.outputs → Agree A s.fs t.fs →
      selectAll sym rel id ts s = .ok s' → selectAll sym rel id ts t = .ok t' → s'.outputs = t'.outputs ∧ Agree A s'.fs t'.fs := by
  intro ts
  induction ts with
  | nil => intro _ s t s' t' ho ha hs ht; cases hs; cases ht; exact ⟨ho, ha⟩
  | cons x ts ih =>
    obtain ⟨⟨w, h⟩, fm⟩ := x
    intro hA s t s' t' ho ha hs ht
    unfold selectAll at hs ht
    split at hs
    · cases hs
    · next s1 h1 =>
      split at ht
      · cases ht
      · next t1 h2 =>
        obtain ⟨k1, k2⟩ := selectOne_agree (hA ((w, h), fm) (by simp)) ho ha h1 h2
        exact ih (fun t ht => hA t (List.mem_cons_of_mem _ ht)) k1 k2 hs ht

/-- A file of an entry, other than counter.txt, which may be that of another image. -/
def OfEntry (stem : Text) (n : ℤ) (p : Text) : Prop := ∃ file, 47 ∉ file ∧ file ≠ txt "counter.txt" ∧ p = entryFile stem (idText n) file

theorem cand_ofEntry {stem rel : Text} (hr : root rel = stem) (hp : Plain stem) {n : ℤ} {w h : ℕ} {e f : Text} (he : 47 ∉ e) (hf : 47 ∉ f) :
    OfEntry stem n (join (artDir rel n) (candName w h e f)) :=
  ⟨_, cand_slash he hf, cand_ne 99 (by decide) (by omega), dir_eq hr hp (cand_first _ _ _ _)⟩

omit [DecidableEq C] in
/-- Two exports of the same image with the same number record and leave the same. -/
theorem exportNew_agree {env : Env J C} (hl : Lawful env) {rel stem path : Text} (hr : root rel = stem) (hp : Plain stem) {n : ℤ} {T : Target C}
    {f g f' g' : Fs} {m m' : Metadata C} {r r' : Built} (hs : f (source rel) = g (source rel)) (hc : contentsOf env f rel = contentsOf env g rel)
    (ha : Agree (OfEntry stem n) f g) (hf : exportNew env path rel n T f = .ok (m, r, f')) (hg : exportNew env path rel n T g = .ok (m', r', g')) :
    m = m' ∧ Agree (OfEntry stem n) f' g' := by
  unfold exportNew openImage at hf hg
  rw [hs] at hf
  split at hf
  · cases hf
  · next img d ho =>
    rw [ho] at hg
    dsimp only at hg
    split at hf
    · cases hf
    · next b hb =>
      split at hg
      · cases hg
      · next b' hb' =>
        have e : env.decode b = env.decode b' := by
          unfold contentsOf at hc
          rw [hb, hb'] at hc
          exact hc
        split at hf
        · cases hf
        · next k hk =>
          rw [hk] at hg
          simp only at hf hg
          split at hf
          · cases hf
          · next f1 h1 =>
            split at hg
            · cases hg
            · next g1 h2 =>
              split at hf
              · cases hf
              · next s h3 =>
                split at hg
                · cases hg
                · next t h4 =>
                  cases hf; cases hg
                  have hns := tasks_noSlash hl (env.sizes d (T.width, T.height))
                  have k0 := produceAll_agree ha h1 h2
                  obtain ⟨k1, k2⟩ := selectAll_agree (A := OfEntry stem n) (s := ⟨f1, _, _⟩) (t := ⟨g1, _, _⟩)
                    (fun t ht x hx => cand_ofEntry hr hp ((hns t ht).2.2 x hx) (hns t ht).2.1) rfl k0 h3 h4
                  rw [k1, e]
                  exact ⟨rfl, k2.write _ _⟩

/-! ## What an export changes -/

/-- Only files in `W` differ. -/
def Only (W : Text → Prop) (f f' : Fs) : Prop := ∀ p, ¬ W p → f' p = f p

theorem Only.refl (W : Text → Prop) (f : Fs) : Only W f f := fun _ _ => rfl

theorem Only.trans {W : Text → Prop} {f g h : Fs} (a : Only W f g) (b : Only W g h) : Only W f h := fun p hp => (b p hp).trans (a p hp)

theorem Only.write {W : Text → Prop} {f g : Fs} (h : Only W f g) {p : Text} (hp : W p) (b : Bytes) : Only W f (g.write p b) := by
  intro q hq
  unfold Fs.write
  rw [if_neg (by rintro rfl; exact hq hp)]
  exact h q hq

theorem Only.remove {W : Text → Prop} {f g : Fs} (h : Only W f g) {p : Text} (hp : W p) : Only W f (remove g p) := by
  intro q hq
  unfold Files.remove
  rw [if_neg (by rintro rfl; exact hq hp)]
  exact h q hq

theorem produceExports_only {W : Text → Prop} {draw : ℕ → ℕ → Text → Text → Except Err Bytes} {dir : Text} {w h : ℕ} {fmt : Text} :
    ∀ {es : List (Text × Export)}, (∀ x ∈ es, W (join dir (candName w h x.1 fmt))) → ∀ {f f' : Fs}, produceExports draw dir w h fmt es f = .ok f' → Only W f f' := by
  intro es
  induction es with
  | nil => intro _ f f' hf; cases hf; exact Only.refl _ _
  | cons x es ih =>
    obtain ⟨n, e⟩ := x
    intro hW f f' hf
    have ih := @ih fun x hx => hW x (List.mem_cons_of_mem _ hx)
    unfold produceExports at hf
    split at hf
    · split at hf
      · cases hf
      · exact ((Only.refl W f).write (hW (n, e) (by simp)) _).trans (ih hf)
    · exact ih hf

theorem produceAll_only {W : Text → Prop} {draw : ℕ → ℕ → Text → Text → Except Err Bytes} {dir : Text} :
    ∀ {ts : List ((ℕ × ℕ) × Format)}, (∀ t ∈ ts, ∀ x ∈ t.2.exports, W (join dir (candName t.1.1 t.1.2 x.1 t.2.name))) →
      ∀ {f f' : Fs}, produceAll draw dir ts f = .ok f' → Only W f f' := by
  intro ts
  induction ts with
  | nil => intro _ f f' hf; cases hf; exact Only.refl _ _
  | cons x ts ih =>
    obtain ⟨⟨w, h⟩, fm⟩ := x
    intro hW f f' hf
    unfold produceAll at hf
    split at hf
    · cases hf
    · next f1 h1 =>
      exact (produceExports_only (hW ((w, h), fm) (by simp)) h1).trans (ih (fun t ht => hW t (List.mem_cons_of_mem _ ht)) hf)

theorem tournament_only {W : Text → Prop} {dir : Text} {w h : ℕ} {fm : Format} :
    ∀ {es : List (Text × Export)}, (∀ x ∈ es, W (join dir (candName w h x.1 fm.name))) →
      ∀ {best best' : Option Best} {f f' : Fs}, (∀ b, best = some b → W (join dir (candName w h b.name fm.name))) →
      tournament dir w h fm es best f = .ok (best', f') → Only W f f' ∧ ∀ b, best' = some b → W (join dir (candName w h b.name fm.name)) := by
  intro es
  induction es with
  | nil => intro _ best best' f f' hb hf; cases hf; exact ⟨Only.refl _ _, hb⟩
  | cons x es ih =>
    obtain ⟨n, e⟩ := x
    intro hW best best' f f' hb hf
    have hn : W (join dir (candName w h n fm.name)) := hW (n, e) (by simp)
    have ih := @ih fun x hx => hW x (List.mem_cons_of_mem _ hx)
    have take : ∀ b, some (⟨n, e, 0⟩ : Best) = some b → W (join dir (candName w h b.name fm.name)) := fun b hb => by cases hb; exact hn
    unfold tournament at hf
    split at hf
    · split at hf
      · cases hf
      · split at hf
        · exact ih (fun b hb => by cases hb; exact hn) hf
        · next a =>
          have hna := hb a rfl
          split at hf
          · split at hf
            · cases hf
            · obtain ⟨k1, k2⟩ := ih (fun b hb => by cases hb; exact hn) hf
              exact ⟨((Only.refl W f).remove hna).trans k1, k2⟩
          · obtain ⟨k1, k2⟩ := ih (fun b hb => by cases hb; exact hna) hf
            exact ⟨((Only.refl W f).remove hn).trans k1, k2⟩
    · exact ih hb hf

theorem selectAll_only {W : Text → Prop} {sym : Bool} {rel : Text} {id : ℤ} :
    ∀ {ts : List ((ℕ × ℕ) × Format)}, (∀ t ∈ ts, (∀ x ∈ t.2.exports, W (join (artDir rel id) (candName t.1.1 t.1.2 x.1 t.2.name))) ∧
        W (join (artDir rel id) (outName t.1.1 t.1.2 t.2.name)) ∧ W (join (outDir rel id) (outName t.1.1 t.1.2 t.2.name))) →
      ∀ {s s' : Sel}, selectAll sym rel id ts s = .ok s' → Only W s.fs s'.fs := by
  intro ts
  induction ts with
  | nil => intro _ s s' hs; cases hs; exact Only.refl _ _
  | cons x ts ih =>
    obtain ⟨⟨w, h⟩, fm⟩ := x
    intro hW s s' hs
    obtain ⟨w1, w2, w3⟩ := hW ((w, h), fm) (by simp)
    unfold selectAll at hs
    split at hs
    · cases hs
    · next s1 h1 =>
      refine Only.trans ?_ (ih (fun t ht => hW t (List.mem_cons_of_mem _ ht)) hs)
      unfold selectOne at h1
      split at h1
      · cases h1
      · next f1 h2 =>
        cases h1
        exact (tournament_only w1 (by simp) h2).1
      · next b f1 h2 =>
        obtain ⟨k1, k2⟩ := tournament_only w1 (by simp) h2
        split at h1
        · cases h1
        · simp only at h1
          split at h1
          · cases h1
          · cases h1
            exact ((k1.remove (k2 b rfl)).write w2 _).write w3 _

/-- What an export may change: files of the entry, but not the placeholder, and files in out. -/
def Mine (stem : Text) (n : ℤ) (p : Text) : Prop :=
  (∃ file, 47 ∉ file ∧ file ≠ txt "counter.txt" ∧ file ≠ txt "placeholder.json" ∧ p = entryFile stem (idText n) file) ∨ InOut p

omit [DecidableEq C] in
theorem exportNew_only {env : Env J C} (hl : Lawful env) {h : ℤ} (hh : env.settingsHash = .ok h) {rel stem path : Text} (hr : root rel = stem)
    (hp : Plain stem) {n : ℤ} {T : Target C} {f f' : Fs} {m : Metadata C} {r : Built} (he : exportNew env path rel n T f = .ok (m, r, f')) :
    Only (Mine stem n) f f' ∧ f' (entryFile stem (idText n) (txt "metadata.json")) = some (env.dumpMeta m) ∧ m.target = T ∧ m.settingsHash = h := by
  unfold exportNew at he
  have e1 : metaFile (artDir rel n) = entryFile stem (idText n) (txt "metadata.json") := meta_eq hr hp (idText_seg n)
  split at he
  · cases he
  · next img d ho =>
    split at he
    · cases he
    · split at he
      · cases he
      · next k hk =>
        rw [hh] at hk
        cases hk
        simp only at he
        split at he
        · cases he
        · next f1 h1 =>
          split at he
          · cases he
          · next s h3 =>
            cases he
            have hns := tasks_noSlash hl (env.sizes d (T.width, T.height))
            have hc : ∀ t ∈ tasks (env.sizes d (T.width, T.height)) env.formats, ∀ x ∈ t.2.exports,
                Mine stem n (join (artDir rel n) (candName t.1.1 t.1.2 x.1 t.2.name)) := fun t ht x hx =>
              .inl ⟨_, cand_slash ((hns t ht).2.2 x hx) (hns t ht).2.1, cand_ne 99 (by decide) (by omega), cand_ne 112 (by decide) (by omega),
                dir_eq hr hp (cand_first _ _ _ _)⟩
            have k1 := produceAll_only hc h1
            have k2 := selectAll_only (W := Mine stem n) (fun t ht => ⟨hc t ht,
              .inl ⟨_, out_slash (hns t ht).2.1, out_ne 99 (by decide) (by omega), out_ne 112 (by decide) (by omega), dir_eq hr hp (out_first _ _ _)⟩,
              .inr (by rw [out_eq hr hp (out_first _ _ _)]; exact out_out _ _ _)⟩) h3
            refine ⟨(k1.trans k2).write (.inl ⟨_, ?_, ?_, ?_, e1⟩) _, ?_, rfl, rfl⟩
            · decide
            · decide
            · decide
            · rw [e1]; simp [Fs.write]

omit [DecidableEq C] in
theorem join_out (p : Text) : ¬ InArt (join (join (txt "out") (txt "www")) p) := by
  intro h
  have e : join (txt "out") (txt "www") = txt "out/www" := by decide
  rw [e] at h
  have l : (join (txt "out/www") p).head? = some 97 := by
    obtain ⟨t, ht⟩ := h
    rw [← ht, List.head?_append_of_ne_nil _ (by decide)]
    decide
  by_cases ha : p.head? = some 47
  · unfold join at l
    rw [if_pos (by unfold isAbs; simpa using ha), ha] at l
    cases l
  · rw [join_plain (by decide) (by decide) ha, List.head?_append_of_ne_nil _ (by decide)] at l
    revert l
    decide

omit [DecidableEq C] in
/-- An export of what has been made before does not touch artifacts. -/
theorem exportAgain_art {env : Env J C} {rel stem path : Text} (hr : root rel = stem) (hp : Plain stem) {n : ℤ} {b : Bytes} {f f' : Fs} {m : Metadata C} {r : Built}
    (he : exportAgain env path rel n b f = .ok (m, r, f')) : ∀ p, InArt p → f' p = f p := by
  have all : ∀ {ps : List Pic} {s s' : Reuse}, reuseAll env.symlinks ps s = .ok s' → ∀ p, InArt p → s'.fs p = s.fs p := by
    intro ps
    induction ps with
    | nil => intro s s' h p _; cases h; rfl
    | cons q ps ih =>
      intro s s' h p hp
      unfold reuseAll at h
      split at h
      · cases h
      · next s1 h1 =>
        rw [ih h p hp]
        unfold reuseOne at h1
        simp only at h1
        split at h1
        · cases h1; rfl
        · split at h1
          · cases h1
            simp only [Fs.write]
            rw [if_neg]
            rintro rfl
            exact join_out _ hp
          · split at h1
            · cases h1; rfl
            · cases h1
  unfold exportAgain at he
  split at he
  · cases he
  · split at he
    · cases he
    · next s hs =>
      intro p hpa
      split at he
      · cases he
        rw [lock_eq hr hp, touch_ne (art_ne_out hpa (lock_out _)), all hs p hpa]
      · cases he
        exact all hs p hpa

end Verif.Img.Files
