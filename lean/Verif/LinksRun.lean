import Verif.LinksThm
/-!
# Links and copies side by side

C92: the same builds, edits and removals, once with links and once with copies.
-/
namespace Verif.Links
open Verif.Reader (Text txt)
open Verif.Paths
open Verif.Handlers (Bytes Built copyTarget hashTarget)

/-- What happens to the files of a project. -/
inductive Op where
  /-- a file is written: a source by the user, an output by a build -/
  | put (p : Place) (b : Bytes)
  /-- a file is removed: a source by the user, an output before a build (hot_incremental_rebuild.py:260-268) -/
  | remove (p : Place)
  | copy (rel : Text)
  | hash (rel : Text)
  | picture (relpath : Text)

/-- One step; builds have results. -/
def Op.run (digest : Bytes → Bytes) (c : Ctx) : Op → Fs → Except Err (Option Built × Fs)
  | .put p b, fs => (write fs p b).map fun fs => (none, fs)
  | .remove p, fs => (unlink fs p).map fun fs => (none, fs)
  | .copy rel, fs => (copyBuild c rel fs).map fun r => (some r.1, r.2)
  | .hash rel, fs => (hashBuild digest c rel fs).map fun r => (some r.1, r.2)
  | .picture relpath, fs => (oldPicture c relpath fs).map fun r => (some r.1, r.2)

def runAll (digest : Bytes → Bytes) (c : Ctx) : List Op → Fs → Except Err (List (Option Built) × Fs)
  | [], fs => .ok ([], fs)
  | o :: os, fs =>
    match o.run digest c fs with
    | .error e => .error e
    | .ok (r, fs) =>
      match runAll digest c os fs with
      | .error e => .error e
      | .ok (rs, fs) => .ok (r :: rs, fs)

/-- There is a link to a place. -/
def LinkedTo (fs : Fs) (q p : Place) : Prop := ∃ t, fs q = some (.link t) ∧ leads q t = p

/-- The links to files which were changed since: those of before, and those which the step adds. -/
def Op.stale (o : Op) (fs : Fs) (S : Place → Prop) : Place → Prop := fun q =>
  match o with
  | .put p _ => S q ∨ LinkedTo fs q p
  | .remove p => q ≠ p ∧ (S q ∨ LinkedTo fs q p)
  | _ => S q

/-- What is done as the tool does it: files are not written through links, what is built is there and is no link, and links to
changed files are removed before they are made again. -/
def Op.Fine (c : Ctx) (o : Op) (fs : Fs) (S : Place → Prop) : Prop :=
  match o with
  | .put p _ => ∀ t, fs p ≠ some (.link t)
  | .remove p => fs p ≠ none
  | .copy rel => (∃ b, fs (c.place rel) = some (.file b)) ∧ ∀ t, copyTarget rel = some t → ¬ S (c.place t)
  | .hash rel => (∃ b, fs (c.place rel) = some (.file b)) ∧ ∀ t, hashTarget rel = some t → ¬ S (c.place t)
  | .picture relpath => Below relpath ∧ (∃ b, fs (c.place (join (txt "artifacts") relpath)) = some (.file b)) ∧
      ¬ S (c.place (served relpath))

/-- A history of a project with links; `S` are the links to files which were changed since. -/
inductive History (digest : Bytes → Bytes) (c : Ctx) : (Place → Prop) → Fs → List Op → (Place → Prop) → Fs → Prop
  | nil {S fs} : History digest c S fs [] S fs
  | cons {S fs o os r fs1 S' fs'} : o.Fine c fs S → o.run digest c fs = .ok (r, fs1) →
      History digest c (o.stale fs S) fs1 os S' fs' → History digest c S fs (o :: os) S' fs'

/-- The files with links and those with copies. -/
structure Sim (S : Place → Prop) (L F : Fs) : Prop where
  none : ∀ p, L p = none → F p = none
  file : ∀ p b, L p = some (.file b) → F p = some (.file b)
  link : ∀ p t, L p = some (.link t) → ∃ b, F p = some (.file b) ∧ (¬ S p → L (leads p t) = some (.file b))
  stale : ∀ p, S p → ∃ t, L p = some (.link t)

theorem Sim.plain {S : Place → Prop} {L F : Fs} (h : Sim S L F) (p : Place) (t : Text) : F p ≠ some (.link t) := by
  intro e
  cases hp : L p with
  | none => rw [h.none p hp] at e; cases e
  | some x =>
    cases x with
    | file b => rw [h.file p b hp] at e; cases e
    | link t => obtain ⟨b, hb, _⟩ := h.link p t hp; rw [hb] at e; cases e

theorem Sim.read {S : Place → Prop} {L F : Fs} (h : Sim S L F) {p : Place} (hp : ¬ S p) : read F p = read L p := by
  cases hL : L p with
  | none => rw [read_none hL, read_none (h.none p hL)]
  | some x =>
    cases x with
    | file b => rw [read_file hL, read_file (h.file p b hL)]
    | link t =>
      obtain ⟨b, hb, hb2⟩ := h.link p t hL
      rw [read_file hb, read_link hL (by simp [hb2 hp]), read_file (hb2 hp)]

/-- A place with nothing gets a file in both, or a link to a file and a copy of it. -/
theorem Sim.add {S : Place → Prop} {L F : Fs} (h : Sim S L F) {p : Place} (hp : L p = Option.none) (hS : ¬ S p) {e : Entry} {b : Bytes}
    (he : e = .file b ∨ ∃ t, e = .link t ∧ L (leads p t) = some (.file b)) :
    Sim S (setAt L p (some e)) (setAt F p (some (.file b))) := by
  constructor
  · intro q hq
    by_cases hqp : q = p
    · subst hqp; simp [setAt] at hq
    · simp only [setAt, if_neg hqp] at hq ⊢; exact h.none q hq
  · intro q b' hq
    by_cases hqp : q = p
    · subst hqp
      simp only [setAt, if_true, Option.some.injEq] at hq
      subst hq
      rcases he with he | ⟨t, he, _⟩
      · simp [setAt, he]
      · cases he
    · simp only [setAt, if_neg hqp] at hq ⊢; exact h.file q b' hq
  · intro q t hq
    by_cases hqp : q = p
    · subst hqp
      refine ⟨b, by simp [setAt], fun _ => ?_⟩
      simp only [setAt, if_true, Option.some.injEq] at hq
      subst hq
      rcases he with he | ⟨t', he, h2⟩
      · cases he
      · cases he
        have : leads q t ≠ q := by intro e; rw [e, hp] at h2; cases h2
        simp [setAt, if_neg this, h2]
    · simp only [setAt, if_neg hqp] at hq
      obtain ⟨b', hb, hb2⟩ := h.link q t hq
      refine ⟨b', by simp [setAt, if_neg hqp, hb], fun hn => ?_⟩
      have : leads q t ≠ p := by intro e; have := hb2 hn; rw [e, hp] at this; cases this
      simp [setAt, if_neg this, hb2 hn]
  · intro q hq
    have hqp : q ≠ p := by rintro rfl; exact hS hq
    obtain ⟨t, ht⟩ := h.stale q hq
    exact ⟨t, by simp [setAt, if_neg hqp, ht]⟩

theorem Sim.put {S : Place → Prop} {L F : Fs} (h : Sim S L F) {p : Place} (hp : ∀ t, L p ≠ some (.link t)) (b : Bytes) :
    Sim (fun q => S q ∨ LinkedTo L q p) (setAt L p (some (.file b))) (setAt F p (some (.file b))) := by
  constructor
  · intro q hq
    by_cases hqp : q = p
    · subst hqp; simp [setAt] at hq
    · simp only [setAt, if_neg hqp] at hq ⊢; exact h.none q hq
  · intro q b' hq
    by_cases hqp : q = p
    · subst hqp; simpa [setAt] using hq
    · simp only [setAt, if_neg hqp] at hq ⊢; exact h.file q b' hq
  · intro q t hq
    by_cases hqp : q = p
    · subst hqp; simp [setAt] at hq
    · simp only [setAt, if_neg hqp] at hq
      obtain ⟨b', hb, hb2⟩ := h.link q t hq
      refine ⟨b', by simp [setAt, if_neg hqp, hb], fun hn => ?_⟩
      have : leads q t ≠ p := fun e => hn (.inr ⟨t, hq, e⟩)
      simp [setAt, if_neg this, hb2 (fun hs => hn (.inl hs))]
  · intro q hq
    have hl : ∃ t, L q = some (.link t) := by
      rcases hq with hq | ⟨t, ht, _⟩
      · exact h.stale q hq
      · exact ⟨t, ht⟩
    obtain ⟨t, ht⟩ := hl
    have hqp : q ≠ p := by rintro rfl; exact hp t ht
    exact ⟨t, by simp [setAt, if_neg hqp, ht]⟩

theorem Sim.remove {S : Place → Prop} {L F : Fs} (h : Sim S L F) (p : Place) :
    Sim (fun q => q ≠ p ∧ (S q ∨ LinkedTo L q p)) (setAt L p Option.none) (setAt F p Option.none) := by
  constructor
  · intro q hq
    by_cases hqp : q = p
    · subst hqp; simp [setAt]
    · simp only [setAt, if_neg hqp] at hq ⊢; exact h.none q hq
  · intro q b' hq
    by_cases hqp : q = p
    · subst hqp; simp [setAt] at hq
    · simp only [setAt, if_neg hqp] at hq ⊢; exact h.file q b' hq
  · intro q t hq
    by_cases hqp : q = p
    · subst hqp; simp [setAt] at hq
    · simp only [setAt, if_neg hqp] at hq
      obtain ⟨b', hb, hb2⟩ := h.link q t hq
      refine ⟨b', by simp [setAt, if_neg hqp, hb], fun hn => ?_⟩
      have : leads q t ≠ p := fun e => hn ⟨hqp, .inr ⟨t, hq, e⟩⟩
      simp [setAt, if_neg this, hb2 (fun hs => hn ⟨hqp, .inl hs⟩)]
  · rintro q ⟨hqp, hq⟩
    have hl : ∃ t, L q = some (.link t) := by
      rcases hq with hq | ⟨t, ht, _⟩
      · exact h.stale q hq
      · exact ⟨t, ht⟩
    obtain ⟨t, ht⟩ := hl
    exact ⟨t, by simp [setAt, if_neg hqp, ht]⟩

theorem Sim.absent {S : Place → Prop} {L F : Fs} (h : Sim S L F) {p : Place} (hS : ¬ S p) (hr : Links.read L p = Option.none) :
    L p = Option.none := by
  cases hL : L p with
  | none => rfl
  | some x =>
    cases x with
    | file b => rw [read_file hL] at hr; cases hr
    | link t =>
      obtain ⟨b, _, hb2⟩ := h.link p t hL
      rw [read_link hL (by simp [hb2 hS]), read_file (hb2 hS)] at hr
      cases hr

/-- Putting a link to a file, or a copy of it, where nothing is. -/
theorem Sim.make {S : Place → Prop} {L F : Fs} (h : Sim S L F) {p s : Place} {t : Text} {b : Bytes} (hS : ¬ S p)
    (hr : Links.read L p = Option.none) (hs : L s = some (.file b)) (ht : leads p t = s) :
    ∃ L' F', symlink L p t = .ok L' ∧ copyfile F s p = .ok F' ∧ Sim S L' F' := by
  have hp := h.absent hS hr
  refine ⟨setAt L p (some (.link t)), setAt F p (some (.file b)), ?_, ?_, ?_⟩
  · simp [symlink, hp]
  · unfold copyfile
    rw [read_file (h.file s b hs)]
    exact write_self (h.plain p) b
  · exact h.add hp hS (.inr ⟨t, rfl, by rw [ht]; exact hs⟩)

theorem Op.sim {digest : Bytes → Bytes} {c : Ctx} (hc : isAbs c.cwd = true) (ha : isAbs c.folder = true) (hl : c.symlinks = true)
    {o : Op} {S : Place → Prop} {L F L' : Fs} {r : Option Built} (h : Sim S L F) (hf : o.Fine c L S)
    (hrun : o.run digest c L = .ok (r, L')) :
    ∃ F', o.run digest { c with symlinks := false } F = .ok (r, F') ∧ Sim (o.stale L S) L' F' := by
  cases o with
  | put p b =>
    simp only [Op.run, write_self hf b, Except.map, Except.ok.injEq, Prod.mk.injEq] at hrun
    obtain ⟨rfl, rfl⟩ := hrun
    exact ⟨_, by simp only [Op.run, write_self (h.plain p) b, Except.map], h.put hf b⟩
  | remove p =>
    have hF : (F p).isSome := by
      cases hp : L p with
      | none => exact absurd hp hf
      | some x =>
        cases x with
        | file b => rw [h.file p b hp]; rfl
        | link t => obtain ⟨b, hb, _⟩ := h.link p t hp; rw [hb]; rfl
    have hL : (L p).isSome := Option.ne_none_iff_isSome.1 hf
    simp only [Op.run, unlink, hL, if_true, Except.map, Except.ok.injEq, Prod.mk.injEq] at hrun
    obtain ⟨rfl, rfl⟩ := hrun
    exact ⟨_, by simp only [Op.run, unlink, hF, if_true, Except.map], h.remove p⟩
  | copy rel =>
    obtain ⟨⟨b, hb⟩, hS⟩ := hf
    show ∃ F', (copyBuild { c with symlinks := false } rel F).map _ = _ ∧ Sim S L' F'
    change (copyBuild c rel L).map _ = _ at hrun
    unfold copyBuild at hrun ⊢
    have hplace : ∀ x, Ctx.place { c with symlinks := false } x = c.place x := fun x => rfl
    simp only [hl, if_true, Bool.false_eq_true, if_false, hplace] at hrun ⊢
    split at hrun
    · simp only [Except.map, Except.ok.injEq, Prod.mk.injEq] at hrun
      obtain ⟨rfl, rfl⟩ := hrun
      exact ⟨F, rfl, h⟩
    · next t ht =>
      have hS' := hS t ht
      simp only [h.read hS']
      split at hrun
      · next hex =>
        simp only [Except.map, Except.ok.injEq, Prod.mk.injEq] at hrun
        obtain ⟨rfl, rfl⟩ := hrun
        exact ⟨F, by simp only [hex, if_true, Except.map], h⟩
      · next hex =>
        have hr : read L (c.place t) = none := by simpa using hex
        obtain ⟨L1, F1, h1, h2, h3⟩ := h.make hS' hr hb (leads_abspath (x := c.path rel) hc (c.place t))
        rw [h1] at hrun
        simp only [Except.map, Except.ok.injEq, Prod.mk.injEq] at hrun
        obtain ⟨rfl, rfl⟩ := hrun
        exact ⟨F1, by simp only [hr, h2, Except.map, Option.isSome_none, Bool.false_eq_true, if_false], h3⟩
  | hash rel =>
    obtain ⟨⟨b, hb⟩, hS⟩ := hf
    show ∃ F', (hashBuild digest { c with symlinks := false } rel F).map _ = _ ∧ Sim S L' F'
    change (hashBuild digest c rel L).map _ = _ at hrun
    unfold hashBuild at hrun ⊢
    have hplace : ∀ x, Ctx.place { c with symlinks := false } x = c.place x := fun x => rfl
    simp only [hplace] at hrun ⊢
    split at hrun
    · simp only [Except.map, Except.ok.injEq, Prod.mk.injEq] at hrun
      obtain ⟨rfl, rfl⟩ := hrun
      exact ⟨F, rfl, h⟩
    · next t ht =>
      have hS' := hS t ht
      simp only [h.read hS']
      split at hrun
      · next hex =>
        simp only [Except.map, Except.ok.injEq, Prod.mk.injEq] at hrun
        obtain ⟨rfl, rfl⟩ := hrun
        exact ⟨F, by simp only [hex, if_true, Except.map], h⟩
      · next hex =>
        have hr : read L (c.place t) = none := by simpa using hex
        have hp := h.absent hS' hr
        rw [read_file hb] at hrun
        simp only [write_self (fs := L) (p := c.place t) (by simp [hp]), Except.map, Except.ok.injEq, Prod.mk.injEq] at hrun
        obtain ⟨rfl, rfl⟩ := hrun
        refine ⟨_, ?_, h.add hp hS' (.inl rfl)⟩
        simp only [hr, read_file (h.file _ b hb), write_self (h.plain _), Except.map, Option.isSome_none, Bool.false_eq_true, if_false]
  | picture relpath =>
    obtain ⟨hbel, ⟨b, hb⟩, hS⟩ := hf
    show ∃ F', (oldPicture { c with symlinks := false } relpath F).map _ = _ ∧ Sim S L' F'
    change (oldPicture c relpath L).map _ = _ at hrun
    have hk : c.place (join (txt "artifacts") relpath) = place c.cwd (c.kept relpath) := by
      have h1 : comps (txt "artifacts") = [txt "artifacts"] := by decide
      have h2 : comps (join (txt "artifacts") relpath) = txt "artifacts" :: comps relpath := by rw [comps_join hbel.1, h1]; rfl
      rw [place_kept hc hbel, place_rel hc, h2]
      · rw [isAbs_join hbel.1]; decide
      · rw [h2]; exact names_kept hbel
    rw [hk] at hb
    unfold oldPicture at hrun ⊢
    have hplace : ∀ x, Ctx.place { c with symlinks := false } x = c.place x := fun x => rfl
    have hkept : ∀ x, Ctx.kept { c with symlinks := false } x = c.kept x := fun x => rfl
    simp only [hl, if_true, Bool.false_eq_true, if_false, hplace, hkept, h.read hS] at hrun ⊢
    split at hrun
    · next hex =>
      simp only [Except.map, Except.ok.injEq, Prod.mk.injEq] at hrun
      obtain ⟨rfl, rfl⟩ := hrun
      exact ⟨F, by simp only [hex, if_true, Except.map], h⟩
    · next hex =>
      have hr : read L (c.place (served relpath)) = none := by simpa using hex
      obtain ⟨L1, F1, h1, h2, h3⟩ := h.make hS hr hb (leads_absolute hc ha hbel (c.place (served relpath)))
      rw [h1] at hrun
      simp only [Except.map, Except.ok.injEq, Prod.mk.injEq] at hrun
      obtain ⟨rfl, rfl⟩ := hrun
      exact ⟨F1, by simp only [hr, h2, Except.map, Option.isSome_none, Bool.false_eq_true, if_false], h3⟩

theorem History.sim {digest : Bytes → Bytes} {c : Ctx} (hc : isAbs c.cwd = true) (ha : isAbs c.folder = true) (hl : c.symlinks = true)
    {S S' : Place → Prop} {L L' : Fs} {os : List Op} (H : History digest c S L os S' L') : ∀ {F : Fs}, Sim S L F →
    ∃ rs F', runAll digest c os L = .ok (rs, L') ∧ runAll digest { c with symlinks := false } os F = .ok (rs, F') ∧ Sim S' L' F' := by
  induction H with
  | nil => intro F h; exact ⟨[], F, rfl, rfl, h⟩
  | @cons _ _ _ _ r _ _ _ hf hrun _ ih =>
    intro F h
    obtain ⟨F1, h1, h2⟩ := Op.sim hc ha hl h hf hrun
    obtain ⟨rs, F', h3, h4, h5⟩ := ih h2
    exact ⟨r :: rs, F', by simp only [runAll, hrun, h3], by simp only [runAll, h1, h4], h5⟩

/-- C92: after the same edits, removals and builds of copied files, hashes and pictures, started on the same files, a build with links
has given the same results as one with copies, and everything is read as with copies, except for the links to files which were
changed after they were made and which were not built again since. -/
theorem C92_same {digest : Bytes → Bytes} {c : Ctx} (hc : isAbs c.cwd = true) (ha : isAbs c.folder = true) (hl : c.symlinks = true)
    {fs L : Fs} {os : List Op} {S : Place → Prop} (hn : ∀ p t, fs p ≠ some (.link t))
    (H : History digest c (fun _ => False) fs os S L) :
    ∃ rs F, runAll digest c os fs = .ok (rs, L) ∧ runAll digest { c with symlinks := false } os fs = .ok (rs, F) ∧
      (∀ p t, F p ≠ some (.link t)) ∧ (∀ p, ¬ S p → read F p = read L p) ∧ ∀ p, S p → ∃ t, L p = some (.link t) := by
  have h0 : Sim (fun _ => False) fs fs :=
    ⟨fun p h => h, fun p b h => h, fun p t h => absurd h (hn p t), fun p h => absurd h id⟩
  obtain ⟨rs, F, h1, h2, h3⟩ := H.sim hc ha hl h0
  exact ⟨rs, F, h1, h2, h3.plain, fun p hp => h3.read hp, h3.stale⟩

end Verif.Links
