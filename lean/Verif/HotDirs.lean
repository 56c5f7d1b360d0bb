import Verif.HotEx
/-! # C56: emptied folders -/
namespace Verif.Hot
open Verif Verif.Graph

theorem dirname_shorter {q : String} (h : dirname q ≠ "") : (dirname q).toList.length < q.toList.length := by
  unfold dirname at *
  rw [String.toList_ofList, List.length_reverse, List.length_drop]
  have h1 := (List.dropWhile_sublist (fun x => decide (x ≠ '/')) (l := q.toList.reverse)).length_le
  rw [List.length_reverse] at h1
  by_cases h0 : (List.dropWhile (fun x => decide (x ≠ '/')) q.toList.reverse) = []
  · rw [h0] at h; exact absurd rfl h
  · have := List.length_pos_iff.2 h0
    omega

theorem mem_insertByLen (p : String) (l : List String) (x : String) : x ∈ insertByLen p l ↔ x = p ∨ x ∈ l := by
  induction l with
  | nil => simp [insertByLen]
  | cons q l ih =>
    unfold insertByLen
    split
    · simp
    · simp only [List.mem_cons, ih]
      constructor
      · rintro (h | h | h) <;> simp [h]
      · rintro (h | h | h) <;> simp [h]

theorem mem_sortByLen (ps : List String) (x : String) : x ∈ sortByLen ps ↔ x ∈ ps := by
  have : ∀ acc, x ∈ ps.foldl (fun acc p => insertByLen p acc) acc ↔ x ∈ ps ∨ x ∈ acc := by
    induction ps with
    | nil => simp
    | cons p ps ih =>
      intro acc
      rw [List.foldl_cons, ih, mem_insertByLen, List.mem_cons]
      constructor
      · rintro (h | h | h) <;> simp [h]
      · rintro ((h | h) | h) <;> simp [h]
  unfold sortByLen
  rw [this []]; simp

/-- Longest first. -/
def ByLen (l : List String) : Prop := l.Pairwise (fun p q => q.toList.length ≤ p.toList.length)

theorem byLen_insert (p : String) {l : List String} (h : ByLen l) : ByLen (insertByLen p l) := by
  induction l with
  | nil => simp [insertByLen, ByLen]
  | cons q l ih =>
    unfold ByLen at h
    rw [List.pairwise_cons] at h
    unfold insertByLen
    split
    · rename_i hlt
      unfold ByLen
      rw [List.pairwise_cons]
      refine ⟨fun x hx => ?_, List.pairwise_cons.2 h⟩
      rcases List.mem_cons.1 hx with rfl | hx
      · exact Nat.le_of_lt hlt
      · exact Nat.le_trans (h.1 x hx) (Nat.le_of_lt hlt)
    · rename_i hlt
      unfold ByLen
      rw [List.pairwise_cons]
      refine ⟨fun x hx => ?_, ih h.2⟩
      rcases (mem_insertByLen p l x).1 hx with rfl | hx
      · exact Nat.le_of_not_lt hlt
      · exact h.1 x hx

theorem byLen_sort (ps : List String) : ByLen (sortByLen ps) := by
  have : ∀ acc, ByLen acc → ByLen (ps.foldl (fun acc p => insertByLen p acc) acc) := by
    induction ps with
    | nil => exact fun _ h => h
    | cons p ps ih => exact fun acc h => ih _ (byLen_insert p h)
  exact this [] List.Pairwise.nil

theorem not_isEmptyDir (d : Disk) (p : String) :
    isEmptyDir d p = false ↔ (∃ f ∈ d.files, dirname f = p) ∨ ∃ q ∈ d.dirs, dirname q = p := by
  unfold isEmptyDir
  simp only [Bool.and_eq_false_iff, Bool.not_eq_false', List.any_eq_true, beq_iff_eq]

theorem removeEmptyDirs_spec {ps : List String} {d d' : Disk} (hs : ByLen ps) (hne : "" ∉ ps)
    (h : removeEmptyDirs ps d = (.ok (), d')) :
    d'.files = d.files ∧ (∀ x ∈ d'.dirs, x ∈ d.dirs) ∧ (∀ x ∈ d.dirs, x ∉ ps → x ∈ d'.dirs) ∧
    (∀ x ∈ d.dirs, x ∉ d'.dirs → isEmptyDir d' x = true) ∧ (∀ p ∈ ps, p ∈ d'.dirs → isEmptyDir d' p = false) := by
  induction ps generalizing d with
  | nil => simp only [removeEmptyDirs, Prod.mk.injEq, true_and] at h; subst h; simp; exact fun x h h' => absurd h h'
  | cons p ps ih =>
    unfold ByLen at hs
    rw [List.pairwise_cons] at hs
    have hne' : "" ∉ ps := fun hc => hne (by simp [hc])
    have hp : p ≠ "" := fun hc => hne (by simp [hc])
    simp only [removeEmptyDirs] at h
    split at h
    · split at h
      · rename_i hem
        obtain ⟨h1, h2, h3, h4, h5⟩ := ih hs.2 hne' h
        simp only [mem_del] at h2 h3 h4
        have hpn : p ∉ d'.dirs := fun hc => (h2 p hc).2 rfl
        refine ⟨h1, fun x hx => (h2 x hx).1, fun x hx hn => ?_, fun x hx hn => ?_, fun q hq hin => ?_⟩
        · simp only [List.mem_cons, not_or] at hn
          exact h3 x ⟨hx, hn.1⟩ hn.2
        · by_cases e : x = p
          · subst e
            by_cases hc : isEmptyDir d' x = true
            · exact hc
            · exfalso
              rw [Bool.not_eq_true, not_isEmptyDir] at hc
              have : isEmptyDir d x = false := by
                rw [not_isEmptyDir]
                rcases hc with ⟨f, hf, e⟩ | ⟨q, hq, e⟩
                · rw [h1] at hf; exact .inl ⟨f, hf, e⟩
                · exact .inr ⟨q, (h2 q hq).1, e⟩
              rw [this] at hem; simp at hem
          · exact h4 x ⟨hx, e⟩ hn
        · rcases List.mem_cons.1 hq with rfl | hq
          · exact absurd hin hpn
          · exact h5 q hq hin
      · rename_i hem
        rw [Bool.not_eq_true] at hem
        obtain ⟨h1, h2, h3, h4, h5⟩ := ih hs.2 hne' h
        refine ⟨h1, h2, fun x hx hn => h3 x hx (fun hc => hn (by simp [hc])), h4, fun q hq hin => ?_⟩
        rcases List.mem_cons.1 hq with rfl | hq
        · rw [not_isEmptyDir] at hem ⊢
          rcases hem with ⟨f, hf, e⟩ | ⟨y, hy, e⟩
          · exact .inl ⟨f, by rw [h1]; exact hf, e⟩
          · refine .inr ⟨y, h3 y hy (fun hc => ?_), e⟩
            have l1 := hs.1 y hc
            have l2 := dirname_shorter (q := y) (by rw [e]; exact hp)
            rw [e] at l2
            omega
        · exact h5 q hq hin
    · simp at h

theorem ancestors_ne (n : Nat) (p : String) : "" ∉ ancestors n p := by
  induction n generalizing p with
  | zero => simp [ancestors]
  | succ n ih =>
    unfold ancestors
    split
    · simp
    · rename_i h
      simp only [List.mem_cons, not_or]
      exact ⟨fun e => h e.symm, ih _⟩

/-- C56: after a finished rebuild a folder which was there and is gone lies above an output recorded
for a file rebuilt or deleted now and has no entries; and a folder above such an output is only still
there if it has an entry. -/
theorem C56_folders (env : Env) (a : Args) (d : Disk) (hv : ValidGraphs a.old) (ho : ValidOrder env)
    (hf : (hotRebuild env a d).status = .finished) :
    (∀ p ∈ d.dirs, p ∉ (hotRebuild env a d).disk.dirs →
      (∃ o, WasOutput a (hotRebuild env a d) o ∧ p ∈ foldersOf o) ∧
      (∀ f ∈ (hotRebuild env a d).disk.files, dirname f ≠ p) ∧ ∀ q ∈ (hotRebuild env a d).disk.dirs, dirname q ≠ p) ∧
    (∀ o p, WasOutput a (hotRebuild env a d) o → p ∈ foldersOf o → p ∈ (hotRebuild env a d).disk.dirs →
      (∃ f ∈ (hotRebuild env a d).disk.files, dirname f = p) ∨ ∃ q ∈ (hotRebuild env a d).disk.dirs, dirname q = p) := by
  have hmd : (modeStep a env.sig d).2.dirs = d.dirs := by
    unfold modeStep; split
    · split <;> rfl
    · rfl
  rcases hotRebuild_cases env a d with ⟨_, _, h3⟩ | ⟨P, hP⟩
  · obtain ⟨e1, e2, _, _, e5⟩ := h3 hf
    constructor
    · intro p hp hn
      rw [e5, hmd] at hn
      exact absurd hp hn
    · rintro o p ⟨x, hx, _⟩
      simp [Affected, touchedSources, e1, e2, Dict.keys] at hx
  · rw [hP] at hf ⊢
    obtain ⟨s1, h1, h2, h3, h4, _, _, hb, hfin⟩ := P.done_all hv ho hf
    have ht := (P.track hv ho).steps h1
    have hres : P.result = finalize env a (modeStep a env.sig d).1 P.st.added P.st.newPh
        ((P.dO ++ P.dA).flatMap foldersOf) P.st.updated s1 := by
      unfold Phases.result
      rcases hl : P.loop with ⟨y, s⟩
      rw [hl] at hfin h2
      simp only at hfin h2
      subst hfin; subst h2
      rfl
    obtain ⟨dd, d2, hu, hr, hd⟩ : ∃ dd d2, unlinkStrict s1.stillArt s1.disk = (.ok (), dd) ∧
        removeEmptyDirs (sortByLen (insertAll ((P.dO ++ P.dA).flatMap foldersOf) [])) dd = (.ok (), d2) ∧
        P.result.disk = d2 := by
      rw [hres] at hf ⊢
      unfold finalize at hf ⊢
      rcases hu : unlinkStrict s1.stillArt s1.disk with ⟨e, dd⟩
      rw [hu] at hf
      cases e with
      | error e => simp at hf
      | ok u =>
        dsimp only at hf ⊢
        rcases hr : removeEmptyDirs (sortByLen (insertAll ((P.dO ++ P.dA).flatMap foldersOf) [])) dd with ⟨e, d2⟩
        rw [hr] at hf
        cases e with
        | error e => simp at hf
        | ok u =>
          refine ⟨dd, d2, rfl, hr, ?_⟩
          dsimp only
          split <;> rfl
    have hmem : ∀ p, p ∈ sortByLen (insertAll ((P.dO ++ P.dA).flatMap foldersOf) []) ↔
        ∃ o, WasOutput a P.result o ∧ p ∈ foldersOf o := by
      intro p
      rw [mem_sortByLen, (insertAll_spec _ [] List.nodup_nil).2]
      simp only [List.not_mem_nil, false_or, List.mem_flatMap, List.mem_append]
      constructor
      · rintro ⟨o, h, hp⟩; exact ⟨o, (P.wasOutput_iff hv ho o).2 h, hp⟩
      · rintro ⟨o, h, hp⟩; exact ⟨o, (P.wasOutput_iff hv ho o).1 h, hp⟩
    obtain ⟨k1, k2, k3, k4, k5⟩ := removeEmptyDirs_spec (byLen_sort _) (by
      rw [hmem]; rintro ⟨o, _, h⟩; exact ancestors_ne _ _ h) hr
    have hstd : P.st.disk.dirs = d.dirs := by
      obtain ⟨_, _, ⟨new, n1, _⟩, _⟩ := (scanLoop_spec _ _ _ _ _ _
        (by simp [Dict.NodupKeys, Dict.keys]) (by simp [Dict.NodupKeys, Dict.keys]) (by simp) P.hscan)
      rw [n1]; exact hmd
    have hdd : ∀ p, p ∈ d.dirs → p ∈ dd.dirs := by
      intro p hp
      have : p ∈ s1.disk.dirs := (ht.dirs p).2 (.inl (by
        show p ∈ (unlinkLenient P.dO P.st.disk).dirs
        unfold unlinkLenient
        rw [hstd]; exact hp))
      have hq := unlinkStrict_files hu
      rw [hq.2.2.1]; exact this
    rw [hd]
    constructor
    · intro p hp hn
      have hin : p ∈ sortByLen (insertAll ((P.dO ++ P.dA).flatMap foldersOf) []) :=
        Classical.byContradiction (fun hc => hn (k3 p (hdd p hp) hc))
      refine ⟨(hmem p).1 hin, ?_⟩
      have he := k4 p (hdd p hp) hn
      constructor
      · intro f hf' e
        have : isEmptyDir d2 p = false := (not_isEmptyDir _ _).2 (.inl ⟨f, hf', e⟩)
        rw [this] at he; simp at he
      · intro q hq e
        have : isEmptyDir d2 p = false := (not_isEmptyDir _ _).2 (.inr ⟨q, hq, e⟩)
        rw [this] at he; simp at he
    · intro o p hw hp hin
      exact (not_isEmptyDir _ _).1 (k5 p ((hmem p).2 ⟨o, hw, hp⟩) hin)

/-! A page in its own folder is deleted; the folder and its parent lose their last entry, the folder
of the other page stays. -/

def dirOld : Graphs where
  dep := mkGraph ["src/x/y/a.html", "src/b.html"] []
  out := mkGraph ["src/x/y/a.html", "src/b.html", "out/x/y/a", "out/b"]
    [("src/x/y/a.html", ["out/x/y/a"]), ("src/b.html", ["out/b"])]
  ph := mkGraph [] []

def dirArgs : Args := ⟨"const.json", .dev, dirOld, [], [], ["src/x/y/a.html"]⟩
def dirDisk : Disk := ⟨["src/b.html", "out/x/y/a", "out/b"], ["out", "out/x", "out/x/y"], none⟩
def dirEnv : Env := ⟨fun _ _ => .error .buildFailed, fun _ => sig0, id, [], 1⟩

example : (hotRebuild dirEnv dirArgs dirDisk).status = .finished ∧
    (hotRebuild dirEnv dirArgs dirDisk).disk.dirs = ["out"] ∧
    (hotRebuild dirEnv dirArgs dirDisk).disk.files = ["src/b.html", "out/b"] ∧
    foldersOf "out/x/y/a" = ["out/x/y", "out/x", "out"] := by
  decide +kernel

example : ValidGraphs dirArgs.old ∧ ValidOrder dirEnv :=
  ⟨⟨mkGraph_valid _ _, mkGraph_valid _ _, mkGraph_valid _ _⟩, fun _ => List.Perm.refl _⟩

end Verif.Hot
