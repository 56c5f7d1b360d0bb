import Verif.HtmlScan
import Verif.CssPageFiles

/-!
# C69: the build of a page reports what it writes, and leaves the sources alone
-/

namespace Verif.Html.Page

open Verif.Reader (Text txt)
open Verif.Build
open Verif.Handlers (Bytes Fs Scan Built copyScan hashScan copyTarget hashTarget hashBuild)
open Verif.Icons (add addAll mem_add mem_addAll)

variable {E J : Type}

/-! ## Specification -/

/-- Of the files other than those in `X`: none is removed, each which has changed is reported as produced, and each which is
reported exists. -/
structure Honest (X : Text → Prop) (f f' : Fs) (r : Built) : Prop where
  kept : ∀ p, ¬ X p → (f p).isSome → (f' p).isSome
  changed : ∀ p, ¬ X p → f' p ≠ f p → p ∈ r.produced
  exist : ∀ p, ¬ X p → p ∈ r.produced ∨ p ∈ r.reused → (f' p).isSome

/-- The parts of a page are honest: exports and handlers report what they write, and the scan of an image announces it. -/
structure Parts (env : Env E J) : Prop where
  image : ∀ f c o r f', env.exportImage f c = .ok (o, r, f') → Honest (fun _ => False) f f' r
  handler : ∀ k f p r f', (env.handler k).build f p = .ok (r, f') → Honest (fun _ => False) f f' r
  scan : ∀ f c s f', env.scanImage f c = .ok (s, f') → ∀ p, f' p ≠ f p → p ∈ s.produces ∧ (f' p).isSome

/-- The files into which inline elements are put while they are built. -/
def Temp (stem p : Text) : Prop := ∃ k n, p = txt "src/public/" ++ generated stem k n

/-- No source file is reported as produced or announced. -/
structure NoSources (env : Env E J) : Prop where
  image : ∀ f c o r f', env.exportImage f c = .ok (o, r, f') → ∀ p ∈ r.produced, ¬ txt "src/" <+: p
  handler : ∀ k f p r f', (env.handler k).build f p = .ok (r, f') → ∀ p ∈ r.produced, ¬ txt "src/" <+: p
  scan : ∀ f c s f', env.scanImage f c = .ok (s, f') → ∀ p ∈ s.produces, ¬ txt "src/" <+: p

/-! ## Proofs -/

theorem temp_src {stem p : Text} (h : Temp stem p) : txt "src/" <+: p := by
  obtain ⟨k, n, rfl⟩ := h
  have e : txt "src/public/" = txt "src/" ++ txt "public/" := by decide
  rw [e, List.append_assoc]
  exact List.prefix_append _ _

theorem genFile_temp {env : Env E J} {stem : Text} (hs : PageFile env.rel stem) (k : Kind) (n : Nat) :
    Temp stem (genFile (txt "src/public") k env.rel n) := by
  have e : txt "src/public/" = txt "src/public" ++ txt "/" := by decide
  refine ⟨k, n, ?_⟩
  rw [genFile_spec hs k n (.inl rfl), e]

/-- What has been done so far is reported. -/
structure Inv (env : Env E J) (stem : Text) (f : Fs) (s : St) : Prop where
  kept : ∀ p, ¬ Temp stem p → (f p).isSome → (s.fs p).isSome
  changed : ∀ p, ¬ Temp stem p → s.fs p ≠ f p →
    p ∈ s.imgBuilt.produced ∨ p ∈ s.outBuilt.produced ∨ env.scan = true ∧ p ∈ s.imgScan.produces
  exist : ∀ p, ¬ Temp stem p → p ∈ s.imgBuilt.produced ∨ p ∈ s.imgBuilt.reused ∨ p ∈ s.outBuilt.produced ∨ p ∈ s.outBuilt.reused →
    (s.fs p).isSome
  job : ∀ j, s.job = some j → Temp stem j.path

/-- The temporary files: at most one is there which was not. -/
structure Left (stem : Text) (f : Fs) (s : St) : Prop where
  src : ∀ p, txt "src/" <+: p → ¬ Temp stem p → s.fs p = f p
  temp : ∀ p, Temp stem p → s.fs p = f p ∨ s.fs p = none ∨ ∃ j, s.job = some j ∧ j.path = p

theorem Inv.new {env : Env E J} {stem : Text} (f : Fs) (rel : Text) : Inv env stem f (St.new f rel) :=
  ⟨fun _ _ h => h, fun _ _ h => absurd rfl h, fun p _ h => by simp [St.new] at h, fun j h => by cases h⟩

theorem Left.new {stem : Text} (f : Fs) (rel : Text) : Left stem f (St.new f rel) := ⟨fun _ _ _ => rfl, fun _ _ => .inl rfl⟩

/-- Nothing of it is changed. -/
theorem Inv.same {env : Env E J} {stem : Text} {f : Fs} {s s' : St} (h : Inv env stem f s) (h1 : s'.fs = s.fs) (h2 : s'.imgBuilt = s.imgBuilt)
    (h3 : s'.outBuilt = s.outBuilt) (h4 : s'.imgScan = s.imgScan) (h5 : ∀ j, s'.job = some j → Temp stem j.path) : Inv env stem f s' :=
  ⟨by rw [h1]; exact h.kept, by rw [h1, h2, h3, h4]; exact h.changed, by rw [h1, h2, h3]; exact h.exist, h5⟩

theorem Left.same {stem : Text} {f : Fs} {s s' : St} (h : Left stem f s) (h1 : s'.fs = s.fs)
    (h2 : ∀ j, s.job = some j → ∃ j', s'.job = some j' ∧ j'.path = j.path) : Left stem f s' := by
  refine ⟨by rw [h1]; exact h.src, ?_⟩
  intro p hp
  rw [h1]
  rcases h.temp p hp with h | h | ⟨j, hj, he⟩
  · exact .inl h
  · exact .inr (.inl h)
  · obtain ⟨j', h3, h4⟩ := h2 j hj
    exact .inr (.inr ⟨j', h3, h4.trans he⟩)

/-- The manipulators which do not touch files. -/
theorem quiet {env : Env E J} {m : Manip St HTok (PErr E)} (hm : m = canon env ∨ m = links env ∨ m = templates env) {s s' : St} {t : HTok} :
    (∀ x, m.start s t = .ok (x, s') → s'.fs = s.fs ∧ s'.imgBuilt = s.imgBuilt ∧ s'.outBuilt = s.outBuilt ∧ s'.imgScan = s.imgScan ∧ s'.job = s.job) ∧
    (∀ r, m.cont s t = .ok (r, s') → s'.fs = s.fs ∧ s'.imgBuilt = s.imgBuilt ∧ s'.outBuilt = s.outBuilt ∧ s'.imgScan = s.imgScan ∧ s'.job = s.job) := by
  rcases hm with rfl | rfl | rfl
  · constructor
    · intro x h
      simp only [canon, canonStart] at h
      split at h
      · cases h
      · next r hr =>
        cases h
        revert hr
        repeat' split
        all_goals intro hr; cases hr
        all_goals exact ⟨rfl, rfl, rfl, rfl, rfl⟩
    · intro x h
      simp only [canon, canonCont] at h
      split at h
      · cases h
      · next r hr =>
        cases h
        revert hr
        repeat' split
        all_goals intro hr; cases hr
        all_goals exact ⟨rfl, rfl, rfl, rfl, rfl⟩
  · constructor <;> intro x h <;> simp only [links] at h <;> split at h <;> cases h <;> exact ⟨rfl, rfl, rfl, rfl, rfl⟩
  · constructor <;> intro x h <;> simp only [templates] at h <;> split at h <;> cases h <;> exact ⟨rfl, rfl, rfl, rfl, rfl⟩

theorem inv_start {env : Env E J} {stem : Text} (hp : Parts env) {f : Fs} {m : Manip St HTok (PErr E)} (hm : m ∈ manips env)
    {s s' : St} {t : HTok} {x : Bool} (h : m.start s t = .ok (x, s')) (hi : Inv env stem f s) : Inv env stem f s' := by
  simp only [manips, List.mem_cons, List.not_mem_nil, or_false] at hm
  rcases hm with hm | hm | rfl | rfl | hm
  · obtain ⟨h1, h2, h3, h4, h5⟩ := (quiet (.inl hm)).1 _ h
    exact hi.same h1 h2 h3 h4 (by rw [h5]; exact hi.job)
  · obtain ⟨h1, h2, h3, h4, h5⟩ := (quiet (.inr (.inl hm))).1 _ h
    exact hi.same h1 h2 h3 h4 (by rw [h5]; exact hi.job)
  · simp only [images, imageStart] at h
    split at h
    · cases h
    · cases h; exact hi
    · split at h
      · next hsc =>
        split at h
        · cases h
        · next c _ r fs hx =>
          cases h
          have hs := hp.scan _ _ _ _ hx
          refine ⟨?_, ?_, ?_, hi.job⟩
          · intro p hn h1
            dsimp only
            by_cases he : fs p = s.fs p
            · rw [he]; exact hi.kept p hn h1
            · exact (hs p he).2
          · intro p hn h1
            dsimp only at h1 ⊢
            by_cases he : fs p = s.fs p
            · rcases hi.changed p hn (by rwa [he] at h1) with h | h | ⟨_, h⟩
              · exact .inl h
              · exact .inr (.inl h)
              · exact .inr (.inr ⟨hsc, by simp only [addScan, mem_addAll]; exact .inl h⟩)
            · exact .inr (.inr ⟨hsc, by simp only [addScan, mem_addAll]; exact .inr (hs p he).1⟩)
          · intro p hn h1
            dsimp only at h1 ⊢
            by_cases he : fs p = s.fs p
            · rw [he]; exact hi.exist p hn h1
            · exact (hs p he).2
      · cases h; exact hi
  · simp only [outline, outlineStart] at h
    cases h; exact hi
  · obtain ⟨h1, h2, h3, h4, h5⟩ := (quiet (.inr (.inr hm))).1 _ h
    exact hi.same h1 h2 h3 h4 (by rw [h5]; exact hi.job)

theorem left_start {env : Env E J} {stem : Text} (hp : Parts env) (hn : NoSources env) {f : Fs} {m : Manip St HTok (PErr E)} (hm : m ∈ manips env)
    {s s' : St} {t : HTok} {x : Bool} (h : m.start s t = .ok (x, s')) (hi : Left stem f s) : Left stem f s' := by
  simp only [manips, List.mem_cons, List.not_mem_nil, or_false] at hm
  rcases hm with hm | hm | rfl | rfl | hm
  · obtain ⟨h1, h2, h3, h4, h5⟩ := (quiet (.inl hm)).1 _ h
    exact hi.same h1 fun j hj => ⟨j, by rw [h5]; exact hj, rfl⟩
  · obtain ⟨h1, h2, h3, h4, h5⟩ := (quiet (.inr (.inl hm))).1 _ h
    exact hi.same h1 fun j hj => ⟨j, by rw [h5]; exact hj, rfl⟩
  · simp only [images, imageStart] at h
    split at h
    · cases h
    · cases h; exact hi
    · split at h
      · split at h
        · cases h
        · next c _ r fs hx =>
          cases h
          have hs : ∀ p, txt "src/" <+: p → fs p = s.fs p := by
            intro p h1
            by_contra h2
            exact hn.scan _ _ _ _ hx p (hp.scan _ _ _ _ hx p h2).1 h1
          refine ⟨fun p h1 h2 => (hs p h1).trans (hi.src p h1 h2), fun p h1 => ?_⟩
          dsimp only
          rw [hs p (temp_src h1)]
          exact hi.temp p h1
      · cases h; exact hi
  · simp only [outline, outlineStart] at h
    cases h; exact hi
  · obtain ⟨h1, h2, h3, h4, h5⟩ := (quiet (.inr (.inr hm))).1 _ h
    exact hi.same h1 fun j hj => ⟨j, by rw [h5]; exact hj, rfl⟩

/-- A part has reported what it did. -/
theorem Inv.part {env : Env E J} {stem : Text} {f : Fs} {s s' : St} (hi : Inv env stem f s) {g f' : Fs} {r : Built}
    (hg : ∀ p, ¬ Temp stem p → g p = s.fs p) (hr : Honest (fun _ => False) g f' r) (hs : ∀ p, ¬ Temp stem p → s'.fs p = f' p)
    (h : (s'.imgBuilt = addBuilt s.imgBuilt r ∧ s'.outBuilt = s.outBuilt) ∨ (s'.imgBuilt = s.imgBuilt ∧ s'.outBuilt = addBuilt s.outBuilt r))
    (h4 : s'.imgScan = s.imgScan) (h5 : ∀ j, s'.job = some j → Temp stem j.path) : Inv env stem f s' := by
  have hp : ∀ p, p ∈ s'.imgBuilt.produced ∨ p ∈ s'.outBuilt.produced ↔ (p ∈ s.imgBuilt.produced ∨ p ∈ s.outBuilt.produced) ∨ p ∈ r.produced := by
    intro p
    rcases h with ⟨h1, h2⟩ | ⟨h1, h2⟩ <;> rw [h1, h2] <;> simp only [addBuilt, mem_addAll] <;> tauto
  have hq : ∀ p, p ∈ s'.imgBuilt.reused ∨ p ∈ s'.outBuilt.reused ↔ (p ∈ s.imgBuilt.reused ∨ p ∈ s.outBuilt.reused) ∨ p ∈ r.reused := by
    intro p
    rcases h with ⟨h1, h2⟩ | ⟨h1, h2⟩ <;> rw [h1, h2] <;> simp only [addBuilt, mem_addAll] <;> tauto
  refine ⟨?_, ?_, ?_, h5⟩
  · intro p hn h1
    rw [hs p hn]
    exact hr.kept p id (by rw [hg p hn]; exact hi.kept p hn h1)
  · intro p hn h1
    rw [hs p hn] at h1
    rw [h4, ← or_assoc, hp]
    by_cases he : f' p = g p
    · rcases hi.changed p hn (by rwa [he, hg p hn] at h1) with h | h | h
      · exact .inl (.inl (.inl h))
      · exact .inl (.inl (.inr h))
      · exact .inr h
    · exact .inl (.inr (hr.changed p id he))
  · intro p hn h1
    rw [hs p hn]
    have h1' : (p ∈ s'.imgBuilt.produced ∨ p ∈ s'.outBuilt.produced) ∨ (p ∈ s'.imgBuilt.reused ∨ p ∈ s'.outBuilt.reused) := by tauto
    rw [hp, hq] at h1'
    rcases h1' with (h | h) | h | h
    · exact hr.kept p id (by rw [hg p hn]; exact hi.exist p hn (by tauto))
    · exact hr.exist p id (.inl h)
    · exact hr.kept p id (by rw [hg p hn]; exact hi.exist p hn (by tauto))
    · exact hr.exist p id (.inr h)

theorem inv_cont {env : Env E J} {stem : Text} (hst : PageFile env.rel stem) (hp : Parts env) {f : Fs} {m : Manip St HTok (PErr E)} (hm : m ∈ manips env)
    {s s' : St} {t : HTok} {x : Option (List HTok)} (h : m.cont s t = .ok (x, s')) (hi : Inv env stem f s) : Inv env stem f s' := by
  simp only [manips, List.mem_cons, List.not_mem_nil, or_false] at hm
  rcases hm with hm | hm | rfl | rfl | hm
  · obtain ⟨h1, h2, h3, h4, h5⟩ := (quiet (.inl hm)).2 _ h
    exact hi.same h1 h2 h3 h4 (by rw [h5]; exact hi.job)
  · obtain ⟨h1, h2, h3, h4, h5⟩ := (quiet (.inr (.inl hm))).2 _ h
    exact hi.same h1 h2 h3 h4 (by rw [h5]; exact hi.job)
  · simp only [images, imageCont] at h
    split at h
    · cases h
    · cases h
    · split at h
      · cases h
      · next hx =>
        split at h
        · cases h
        · cases h
          exact hi.part (fun _ _ => rfl) (hp.image _ _ _ _ _ hx) (fun _ _ => rfl) (.inl ⟨rfl, rfl⟩) rfl hi.job
  · simp only [outline, outlineCont] at h
    split at h
    · next hj =>
      obtain ⟨k, d, a, -, -, -, rfl⟩ := open_same env.scan h
      have hne : ∀ p, ¬ Temp stem p → (s.fs.write (genFile (txt "src/public") k env.rel (s.count k + 1)) []) p = s.fs p := by
        intro p hn
        have : p ≠ genFile (txt "src/public") k env.rel (s.count k + 1) := fun he => hn (he ▸ genFile_temp hst k _)
        simp [Fs.write, this]
      refine ⟨?_, ?_, ?_, ?_⟩
      · intro p hn h1
        dsimp only
        rw [hne p hn]; exact hi.kept p hn h1
      · intro p hn h1
        dsimp only at h1 ⊢
        rw [hne p hn] at h1; exact hi.changed p hn h1
      · intro p hn h1
        dsimp only at h1 ⊢
        rw [hne p hn]; exact hi.exist p hn h1
      · intro j hj
        cases hj
        exact genFile_temp hst k _
    · next j hj =>
      have htj := hi.job j hj
      split at h
      · unfold outlineClose at h
        dsimp only at h
        split at h
        · split at h
          · cases h
          · cases h
            have hne : ∀ p, ¬ Temp stem p → (remove (s.fs.write j.path (env.encode j.text)) j.path) p = s.fs p := by
              intro p hn
              have : p ≠ j.path := fun he => hn (he ▸ htj)
              simp [remove, Fs.write, this]
            refine ⟨?_, ?_, ?_, ?_⟩
            · intro p hn h1
              dsimp only
              rw [hne p hn]; exact hi.kept p hn h1
            · intro p hn h1
              dsimp only at h1 ⊢
              rw [hne p hn] at h1; exact hi.changed p hn h1
            · intro p hn h1
              dsimp only at h1 ⊢
              rw [hne p hn]; exact hi.exist p hn h1
            · intro j hj
              cases hj
        · split at h
          · cases h
          · next r fs hx =>
            split at h
            · cases h
            · split at h
              · cases h
              · cases h
                refine hi.part (g := s.fs.write j.path (env.encode j.text)) (f' := fs) ?_ (hp.handler _ _ _ _ _ hx) ?_ (.inr ⟨rfl, rfl⟩) rfl ?_
                · intro p hn
                  have : p ≠ j.path := fun he => hn (he ▸ htj)
                  simp [Fs.write, this]
                · intro p hn
                  have : p ≠ j.path := fun he => hn (he ▸ htj)
                  simp [remove, this]
                · intro j hj
                  cases hj
      · cases h
        exact hi.same rfl rfl rfl rfl fun j' hj' => by cases hj'; exact htj
      · cases h
        exact hi.same rfl rfl rfl rfl fun j' hj' => by cases hj'; exact htj
      · cases h
  · obtain ⟨h1, h2, h3, h4, h5⟩ := (quiet (.inr (.inr hm))).2 _ h
    exact hi.same h1 h2 h3 h4 (by rw [h5]; exact hi.job)

theorem left_cont {env : Env E J} {stem : Text} (hst : PageFile env.rel stem) (hp : Parts env) (hn : NoSources env) {f : Fs}
    {m : Manip St HTok (PErr E)} (hm : m ∈ manips env)
    {s s' : St} {t : HTok} {x : Option (List HTok)} (h : m.cont s t = .ok (x, s')) (hj0 : ∀ j, s.job = some j → Temp stem j.path)
    (hi : Left stem f s) : Left stem f s' := by
  simp only [manips, List.mem_cons, List.not_mem_nil, or_false] at hm
  rcases hm with hm | hm | rfl | rfl | hm
  · obtain ⟨h1, h2, h3, h4, h5⟩ := (quiet (.inl hm)).2 _ h
    exact hi.same h1 fun j hj => ⟨j, by rw [h5]; exact hj, rfl⟩
  · obtain ⟨h1, h2, h3, h4, h5⟩ := (quiet (.inr (.inl hm))).2 _ h
    exact hi.same h1 fun j hj => ⟨j, by rw [h5]; exact hj, rfl⟩
  · simp only [images, imageCont] at h
    split at h
    · cases h
    · cases h
    · split at h
      · cases h
      · next fs hx =>
        split at h
        · cases h
        · cases h
          have hs : ∀ p, txt "src/" <+: p → fs p = s.fs p := by
            intro p h1
            by_contra h2
            exact hn.image _ _ _ _ _ hx p ((hp.image _ _ _ _ _ hx).changed p id h2) h1
          refine ⟨fun p h1 h2 => (hs p h1).trans (hi.src p h1 h2), fun p h1 => ?_⟩
          dsimp only
          rw [hs p (temp_src h1)]
          exact hi.temp p h1
  · simp only [outline, outlineCont] at h
    split at h
    · next hj =>
      obtain ⟨k, d, a, -, -, -, rfl⟩ := open_same env.scan h
      refine ⟨?_, ?_⟩
      · intro p h1 h2
        have : p ≠ genFile (txt "src/public") k env.rel (s.count k + 1) := fun he => h2 (he ▸ genFile_temp hst k _)
        simp [Fs.write, this, hi.src p h1 h2]
      · intro p h1
        by_cases he : p = genFile (txt "src/public") k env.rel (s.count k + 1)
        · exact .inr (.inr ⟨_, rfl, he.symm⟩)
        · have : (s.fs.write (genFile (txt "src/public") k env.rel (s.count k + 1)) []) p = s.fs p := by simp [Fs.write, he]
          dsimp only
          rw [this]
          rcases hi.temp p h1 with h | h | ⟨j, h, -⟩
          · exact .inl h
          · exact .inr (.inl h)
          · rw [hj] at h; cases h
    · next j hj =>
      have htj := hj0 j hj
      split at h
      · -- in the end the file of the element is removed, and others are as they were
        have key : ∀ f' : Fs, (∀ p, txt "src/" <+: p → p ≠ j.path → f' p = s.fs p) → s'.fs = remove f' j.path → s'.job = none → Left stem f s' := by
          intro f' h1 h2 h3
          have h4 : ∀ p, txt "src/" <+: p → p ≠ j.path → s'.fs p = s.fs p := by
            intro p h5 h6
            rw [h2]; simp [remove, h6, h1 p h5 h6]
          refine ⟨fun p h5 h6 => (h4 p h5 fun he => h6 (he ▸ htj)).trans (hi.src p h5 h6), ?_⟩
          intro p hp
          by_cases he : p = j.path
          · exact .inr (.inl (by rw [h2]; simp [remove, he]))
          · rw [h4 p (temp_src hp) he]
            rcases hi.temp p hp with h | h | ⟨j', h, h'⟩
            · exact .inl h
            · exact .inr (.inl h)
            · rw [hj] at h; cases h; exact absurd h'.symm he
        unfold outlineClose at h
        dsimp only at h
        split at h
        · split at h
          · cases h
          · cases h
            refine key (s.fs.write j.path (env.encode j.text)) ?_ rfl rfl
            intro p h1 h2
            simp [Fs.write, h2]
        · split at h
          · cases h
          · next r fs hx =>
            split at h
            · cases h
            · split at h
              · cases h
              · cases h
                refine key fs ?_ rfl rfl
                intro p h1 h2
                have hs : fs p = (s.fs.write j.path (env.encode j.text)) p := by
                  by_contra h3
                  exact hn.handler _ _ _ _ _ hx p ((hp.handler _ _ _ _ _ hx).changed p id h3) h1
                rw [hs]
                simp [Fs.write, h2]
      · cases h
        exact hi.same rfl fun j' hj' => by rw [hj] at hj'; cases hj'; exact ⟨_, rfl, rfl⟩
      · cases h
        exact hi.same rfl fun j' hj' => by rw [hj] at hj'; cases hj'; exact ⟨_, rfl, rfl⟩
      · cases h
  · obtain ⟨h1, h2, h3, h4, h5⟩ := (quiet (.inr (.inr hm))).2 _ h
    exact hi.same h1 fun j hj => ⟨j, by rw [h5]; exact hj, rfl⟩

/-- Both, at the end of a run. -/
theorem inv_loop {env : Env E J} {stem : Text} (hst : PageFile env.rel stem) (hp : Parts env) {f : Fs} {n : Nat} {ts : List HTok}
    {b : State St HTok (PErr E)} (h : loop (manips env) n (State.new (St.new f env.rel)) ts = some (.ok b)) :
    Inv env stem f b.st ∧ (NoSources env → Left stem f b.st) := by
  obtain ⟨out, -, h1, -⟩ := loop_sound _ _ _ _ _ h
  have hstream := h1 rfl
  refine ⟨Css.Page.stream_inv (Inv env stem f) (fun m hm s t x s' h hi => inv_start hp hm h hi)
    (fun m hm s t r s' h hi => inv_cont hst hp hm h hi) hstream (.new f env.rel), fun hn => ?_⟩
  exact (Css.Page.stream_inv (fun s => Inv env stem f s ∧ Left stem f s)
    (fun m hm s t x s' h hi => ⟨inv_start hp hm h hi.1, left_start hp hn hm h hi.2⟩)
    (fun m hm s t r s' h hi => ⟨inv_cont hst hp hm h hi.1, left_cont hst hp hn hm h hi.1.job hi.2⟩) hstream
    ⟨.new f env.rel, .new f env.rel⟩).2

theorem build_cases {fuel : Nat} {env : Env E J} {fs fs' : Fs} {r : Built} {stem : Text} (hst : PageFile env.rel stem)
    (h : buildFile fuel env fs = some (.ok (r, fs'))) :
    ∃ g b hb ts, loop (manips env) g (State.new (St.new fs env.rel)) ts = some (.ok b) ∧
      hashBuild env.digest (pageOut stem) (b.st.fs.write (pageOut stem) (env.write b.output)) = .ok (hb, fs') ∧
      r = [hb, ⟨b.st.links, [], []⟩, b.st.imgBuilt, b.st.outBuilt, ⟨b.st.tpl.deps, [], []⟩].foldl Css.Page.merge ⟨[], [pageOut stem], []⟩ := by
  have ht := copyTarget_page hst
  cases hc : fs env.rel with
  | none => unfold buildFile at h; simp [ht, hc] at h
  | some content =>
    cases hp : env.parse content with
    | none => unfold buildFile at h; simp [ht, hc, hp] at h
    | some ts =>
      obtain ⟨g, b, hb, h1, h2, -, h3⟩ := loop_of_build h ht hc hp
      exact ⟨g, b, hb, ts, h1, h2, h3⟩

theorem scan_cases {fuel : Nat} {env : Env E J} {fs fs' : Fs} {r : Scan} {stem : Text} (hst : PageFile env.rel stem)
    (h : scanFile fuel env fs = some (.ok (r, fs'))) :
    ∃ g b ts, loop (manips env) g (State.new (St.new fs env.rel)) ts = some (.ok b) ∧ fs' = b.st.fs ∧
      r = [copyScan env.rel, hashScan env.rel, ⟨b.st.links, []⟩, b.st.imgScan, b.st.outScan, ⟨b.st.tpl.deps, []⟩].foldl addScan ⟨[], []⟩ := by
  have ht := copyTarget_page hst
  cases hc : fs env.rel with
  | none => unfold scanFile at h; simp [ht, hc] at h
  | some content =>
    cases hp : env.parse content with
    | none => unfold scanFile at h; simp [ht, hc, hp] at h
    | some ts =>
      obtain ⟨g, b, h1, -, h2, h3⟩ := loop_of_scan h ht hc hp
      exact ⟨g, b, ts, h1, h2, h3⟩

theorem pageOut_src (stem x : Text) : ¬ txt "src/" <+: pageOut stem ++ x := by
  have e1 : txt "src/" = 115 :: txt "rc/" := by decide
  have e2 : txt "out/www/" = 111 :: txt "ut/www/" := by decide
  rw [pageOut, e1, e2]
  simp

theorem hash_produced {digest : Bytes → Bytes} {stem : Text} {fs fs' : Fs} {r : Built} (h : hashBuild digest (pageOut stem) fs = .ok (r, fs')) :
    ∀ p ∈ r.produced, p = pageOut stem ++ txt ".hash" := by
  unfold hashBuild at h
  rw [hashTarget_page] at h
  dsimp only at h
  split at h
  · cases h; simp
  · split at h
    · cases h
    · cases h; simp

/-- What every manipulator keeps, of those which ever take a token. -/
theorem stream_taken {S τ E : Type} {ms : List (Manip S τ E)} (I : S → Prop) (h1 : ∀ m ∈ ms, ∀ s t x s', m.start s t = .ok (x, s') → I s → I s')
    (h2 : ∀ m ∈ ms, (∃ s t s', m.start s t = .ok (true, s')) → ∀ s t r s', m.cont s t = .ok (r, s') → I s → I s') {s s' : S} {ts out : List τ}
    {m : Option (Manip S τ E)} (h : Stream ms s ts out m s') : I s → I s' := by
  have hdec : ∀ {ms' : List (Manip S τ E)} {s t s'}, (∀ m ∈ ms', m ∈ ms) → Declined ms' s t s' → I s → I s' := by
    intro ms' s t s' hsub hd
    induction hd with
    | nil => exact id
    | cons h _ ih => intro hi; exact ih (fun m hm => hsub m (List.mem_cons_of_mem _ hm)) (h1 _ (hsub _ (by simp)) _ _ _ _ h hi)
  have htake : ∀ {ms' : List (Manip S τ E)} {s t m s'}, (∀ m ∈ ms', m ∈ ms) → Taken ms' s t m s' → I s →
      I s' ∧ m ∈ ms ∧ ∃ s t s', m.start s t = .ok (true, s') := by
    intro ms' s t m s' hsub hd
    induction hd with
    | head h => intro hi; exact ⟨h1 _ (hsub _ (by simp)) _ _ _ _ h hi, hsub _ (by simp), _, _, _, h⟩
    | tail h _ ih => intro hi; exact ih (fun m hm => hsub m (List.mem_cons_of_mem _ hm)) (h1 _ (hsub _ (by simp)) _ _ _ _ h hi)
  have hopen : ∀ {m : Manip S τ E} {s ts s'}, m ∈ ms → (∃ s t s', m.start s t = .ok (true, s')) → Open m s ts s' → I s → I s' := by
    intro m s ts s' hm hx ho
    induction ho with
    | nil => exact id
    | cons h _ ih => intro hi; exact ih (h2 _ hm hx _ _ _ _ h hi)
  induction h with
  | nil => exact id
  | keep h _ ih => intro hi; exact ih (hdec (fun _ h => h) h hi)
  | replace h _ hc _ ih =>
    intro hi
    obtain ⟨hi1, hm, hx⟩ := htake (fun _ h => h) h hi
    obtain ⟨a, x, s1, -, ho, hy⟩ := hc
    exact ih (h2 _ hm hx _ _ _ _ hy (hopen hm hx ho hi1))
  | unfinished h _ ho =>
    intro hi
    obtain ⟨hi1, hm, hx⟩ := htake (fun _ h => h) h hi
    exact hopen hm hx ho hi1

/-- A scan reports nothing as built. -/
theorem built_empty {env : Env E J} (hs : env.scan = true) {f : Fs} {n : Nat} {ts : List HTok}
    {b : State St HTok (PErr E)} (h : loop (manips env) n (State.new (St.new f env.rel)) ts = some (.ok b)) :
    b.st.imgBuilt = ⟨[], [], []⟩ ∧ b.st.outBuilt = ⟨[], [], []⟩ := by
  obtain ⟨out, -, h1, -⟩ := loop_sound _ _ _ _ _ h
  refine stream_taken (fun s => s.imgBuilt = ⟨[], [], []⟩ ∧ s.outBuilt = ⟨[], [], []⟩) ?_ ?_ (h1 rfl) ⟨rfl, rfl⟩
  · intro m hm s t x s' h hi
    simp only [manips, List.mem_cons, List.not_mem_nil, or_false] at hm
    rcases hm with hm | hm | rfl | rfl | hm
    · obtain ⟨-, h2, h3, -⟩ := (quiet (.inl hm)).1 _ h
      rwa [h2, h3]
    · obtain ⟨-, h2, h3, -⟩ := (quiet (.inr (.inl hm))).1 _ h
      rwa [h2, h3]
    · simp only [images, imageStart, hs, if_true] at h
      repeat' split at h
      all_goals cases h
      all_goals exact hi
    · simp only [outline, outlineStart] at h
      cases h; exact hi
    · obtain ⟨-, h2, h3, -⟩ := (quiet (.inr (.inr hm))).1 _ h
      rwa [h2, h3]
  · intro m hm ⟨s0, t0, s1, h0⟩ s t x s' h hi
    simp only [manips, List.mem_cons, List.not_mem_nil, or_false] at hm
    rcases hm with hm | hm | rfl | rfl | hm
    · obtain ⟨-, h2, h3, -⟩ := (quiet (.inl hm)).2 _ h
      rwa [h2, h3]
    · obtain ⟨-, h2, h3, -⟩ := (quiet (.inr (.inl hm))).2 _ h
      rwa [h2, h3]
    · simp only [images, imageStart, hs, if_true] at h0
      repeat' split at h0
      all_goals cases h0
    · simp only [outline, outlineCont] at h
      split at h
      · obtain ⟨k, d, a, -, -, -, rfl⟩ := open_same env.scan h
        exact hi
      · split at h
        · simp only [outlineClose, hs, if_true] at h
          split at h
          · cases h
          · cases h; exact hi
        · cases h; exact hi
        · cases h; exact hi
        · cases h
    · obtain ⟨-, h2, h3, -⟩ := (quiet (.inr (.inr hm))).2 _ h
      rwa [h2, h3]

/-- **C69.** The build of a page, whatever is on it, reports what it does to files, if exports and handlers do: apart from the
temporary files for inline elements, no file is removed, each file which was changed is reported as produced, and whatever is
reported exists. -/
theorem C69_build {fuel : Nat} {env : Env E J} {stem : Text} (hst : PageFile env.rel stem) (hb : env.scan = false) (hp : Parts env)
    {fs fs' : Fs} {r : Built} (h : buildFile fuel env fs = some (.ok (r, fs'))) : Honest (Temp stem) fs fs' r := by
  obtain ⟨g, b, hx, ts, h1, h2, rfl⟩ := build_cases hst h
  have hi := (inv_loop hst hp h1).1
  have hr : Css.Page.Rep b.st.fs [] [] fs' (addAll (add [] (pageOut stem)) hx.produced) (addAll [] hx.reused) :=
    (Css.Page.Rep.write _ _ _ _ _).trans (Css.Page.Rep.hash _ _ h2)
  have hprod : ∀ p, p ∈ ([hx, ⟨b.st.links, [], []⟩, b.st.imgBuilt, b.st.outBuilt, ⟨b.st.tpl.deps, [], []⟩].foldl Css.Page.merge
      ⟨[], [pageOut stem], []⟩).produced ↔ p ∈ addAll (add [] (pageOut stem)) hx.produced ∨ p ∈ b.st.imgBuilt.produced ∨ p ∈ b.st.outBuilt.produced := by
    intro p
    simp only [List.foldl_cons, List.foldl_nil, Css.Page.merge, mem_addAll, mem_add, List.not_mem_nil, List.mem_singleton, or_false, false_or, or_assoc]
  have hall : ∀ p, p ∈ ([hx, ⟨b.st.links, [], []⟩, b.st.imgBuilt, b.st.outBuilt, ⟨b.st.tpl.deps, [], []⟩].foldl Css.Page.merge
      ⟨[], [pageOut stem], []⟩).produced ∨ p ∈ ([hx, ⟨b.st.links, [], []⟩, b.st.imgBuilt, b.st.outBuilt, ⟨b.st.tpl.deps, [], []⟩].foldl Css.Page.merge
      ⟨[], [pageOut stem], []⟩).reused → (p ∈ addAll (add [] (pageOut stem)) hx.produced ∨ p ∈ addAll [] hx.reused) ∨
        p ∈ b.st.imgBuilt.produced ∨ p ∈ b.st.imgBuilt.reused ∨ p ∈ b.st.outBuilt.produced ∨ p ∈ b.st.outBuilt.reused := by
    intro p
    simp only [List.foldl_cons, List.foldl_nil, merge_all, mem_addAll, mem_add, List.not_mem_nil, List.mem_singleton, or_false, false_or]
    tauto
  refine ⟨fun p hn h0 => hr.grow p (hi.kept p hn h0), ?_, ?_⟩
  · intro p hn h0
    rw [hprod]
    by_cases he : fs' p = b.st.fs p
    · rw [he] at h0
      rcases hi.changed p hn h0 with h | h | ⟨h, -⟩
      · exact .inr (.inl h)
      · exact .inr (.inr h)
      · rw [hb] at h; cases h
    · exact .inl (hr.changed p he)
  · intro p hn h0
    rcases hall p h0 with (h | h) | h
    · exact (hr.produced p h).elim (fun h => by cases h) id
    · exact (hr.reused p h).elim (fun h => by cases h) id
    · exact hr.grow p (hi.exist p hn h)

/-- **C69.** The scan of a page removes nothing and announces what it writes, apart from the temporary files. -/
theorem C69_scan {fuel : Nat} {env : Env E J} {stem : Text} (hst : PageFile env.rel stem) (hs : env.scan = true) (hp : Parts env)
    {fs fs' : Fs} {r : Scan} (h : scanFile fuel env fs = some (.ok (r, fs'))) :
    (∀ p, ¬ Temp stem p → (fs p).isSome → (fs' p).isSome) ∧ ∀ p, ¬ Temp stem p → fs' p ≠ fs p → p ∈ r.produces := by
  obtain ⟨g, b, ts, h1, rfl, rfl⟩ := scan_cases hst h
  have hi := (inv_loop hst hp h1).1
  have hz : b.st.imgBuilt = ⟨[], [], []⟩ ∧ b.st.outBuilt = ⟨[], [], []⟩ := built_empty hs h1
  refine ⟨hi.kept, fun p hn h0 => ?_⟩
  rcases hi.changed p hn h0 with h | h | ⟨-, h⟩
  · rw [hz.1] at h; cases h
  · rw [hz.2] at h; cases h
  · simp only [List.foldl_cons, List.foldl_nil, addScan, mem_addAll]
    exact .inl (.inl (.inr h))

/-- **C69.** Neither scan nor build changes the sources: at most, temporary files have been removed, or one of them is left. -/
theorem C69_sources {fuel : Nat} {env : Env E J} {stem : Text} (hst : PageFile env.rel stem) (hp : Parts env) (hn : NoSources env)
    {fs fs' : Fs} (h : (∃ r, scanFile fuel env fs = some (.ok (r, fs'))) ∨ ∃ r, buildFile fuel env fs = some (.ok (r, fs'))) :
    ∃ last, ∀ p, txt "src/" <+: p → fs' p = fs p ∨ Temp stem p ∧ (fs' p = none ∨ p = last) := by
  have key : ∀ {g b ts}, loop (manips env) g (State.new (St.new fs env.rel)) ts = some (.ok b) →
      ∃ last, ∀ p, txt "src/" <+: p → b.st.fs p = fs p ∨ Temp stem p ∧ (b.st.fs p = none ∨ p = last) := by
    intro g b ts h1
    have hl := (inv_loop hst hp h1).2 hn
    refine ⟨(b.st.job.map Job.path).getD [], fun p hs => ?_⟩
    by_cases ht : Temp stem p
    · rcases hl.temp p ht with h | h | ⟨j, h, rfl⟩
      · exact .inl h
      · exact .inr ⟨ht, .inl h⟩
      · exact .inr ⟨ht, .inr (by rw [h]; rfl)⟩
    · exact .inl (hl.src p hs ht)
  rcases h with ⟨r, h⟩ | ⟨r, h⟩
  · obtain ⟨g, b, ts, h1, rfl, -⟩ := scan_cases hst h
    exact key h1
  · obtain ⟨g, b, hx, ts, h1, h2, -⟩ := build_cases hst h
    obtain ⟨last, hl⟩ := key h1
    refine ⟨last, fun p hs => ?_⟩
    have hr : Css.Page.Rep b.st.fs [] [] fs' (addAll (add [] (pageOut stem)) hx.produced) (addAll [] hx.reused) :=
      (Css.Page.Rep.write _ _ _ _ _).trans (Css.Page.Rep.hash _ _ h2)
    have he : fs' p = b.st.fs p := by
      by_contra hne
      have hm := hr.changed p hne
      rw [mem_addAll, mem_add] at hm
      rcases hm with (h | h) | h
      · cases h
      · rw [h] at hs
        exact pageOut_src stem [] (by rwa [List.append_nil])
      · rw [hash_produced h2 p h] at hs
        exact pageOut_src stem _ hs
    rw [he]
    exact hl p hs

theorem render_sources {env : Env E J} {host stem : Text} (hp : Parts env) (hn : NoSources env) {w w' : World} {f f' : Frame} {ts out : List HTok}
    (h : Render env host stem w f ts out w' f') : ∀ p, txt "src/" <+: p → w'.fs p = w.fs p ∨ Temp stem p ∧ w'.fs p = none := by
  have trans : ∀ {a b c : Fs}, (∀ p, txt "src/" <+: p → b p = a p ∨ Temp stem p ∧ b p = none) →
      (∀ p, txt "src/" <+: p → c p = b p ∨ Temp stem p ∧ c p = none) → ∀ p, txt "src/" <+: p → c p = a p ∨ Temp stem p ∧ c p = none := by
    intro a b c h1 h2 p hs
    rcases h2 p hs with h | h
    · rw [h]; exact h1 p hs
    · exact .inr h
  induction h with
  | nil => exact fun p _ => .inl rfl
  | keep _ _ ih => exact ih
  | canon _ _ _ _ ih => exact ih
  | link _ _ _ _ ih => exact ih
  | image _ he _ _ ih =>
    refine trans (fun p hs => .inl ?_) ih
    by_contra h2
    exact hn.image _ _ _ _ _ he p ((hp.image _ _ _ _ _ he).changed p id h2) hs
  | @inline w f t k' attrs body text n file r fs hash tags ts out w' f' _ _ hk' hf hh _ _ _ _ ih =>
    refine trans (fun p hs => ?_) ih
    by_cases hx : p = file
    · exact .inr ⟨⟨_, _, hx.trans hf⟩, by simp [remove, hx]⟩
    · left
      have : fs p = (w.fs.write file (env.encode text)) p := by
        by_contra h3
        exact hn.handler _ _ _ _ _ hh p ((hp.handler _ _ _ _ _ hh).changed p id h3) hs
      simp only [remove, if_neg hx]
      rw [this]
      simp [Fs.write, hx]
  | define _ _ ih => exact ih
  | retrieve _ _ _ _ _ ih => exact ih
  | unknown _ _ ih => exact ih
  | block _ _ _ _ ih1 ih2 => exact trans ih1 ih2
  | template _ _ _ _ ih1 ih2 => exact trans ih1 ih2

/-- **C69.** Unless the page ends inside an inline element, no temporary file is left by its build. -/
theorem C69_clean {fuel : Nat} {env : Env E J} (hf : Fit env) {host stem : Text} (hh : env.host = some host) (hs : PageFile env.rel stem)
    (hp : Parts env) (hn : NoSources env) {fs fs' : Fs} {r : Built} {content : Bytes} {ts : List HTok} (h0 : fs env.rel = some content)
    (hc : env.parse content = some ts) (hbal : Bal env.tpl ts) (hsane : Sane ts) (hcut : ¬ Cut ts)
    (h : buildFile fuel env fs = some (.ok (r, fs'))) : ∀ p, txt "src/" <+: p → fs' p = fs p ∨ Temp stem p ∧ fs' p = none := by
  obtain ⟨out, w, f, hr, -, -, h1, -⟩ := C66_page hf hh hs h0 hc hbal hsane hcut h
  intro p hsrc
  rw [h1 p, show fs p = (World.start fs).fs p from rfl]
  · exact render_sources hp hn hr p hsrc
  · rintro rfl
    exact pageOut_src stem [] (by rwa [List.append_nil])
  · rintro rfl
    exact pageOut_src stem _ hsrc

end Verif.Html.Page
