import Verif.Links
/-!
# Links lead where they should

C92: a build with symbolic links serves what a build with copies serves, and links to sources are always current.
C93: links to pictures lead to them if the project is given by an absolute path, and never otherwise.
-/
namespace Verif.Links
open Verif.Reader (Text txt)
open Verif.Paths
open Verif.Handlers (Bytes Built copyTarget hashTarget)

deriving instance DecidableEq for Except

/-! ## Paths -/

theorem leads_abspath {cwd : Text} (hc : isAbs cwd = true) (p : Place) (x : Text) : leads p (abspath cwd x) = place cwd x := by
  have ha : isAbs (abspath cwd x) = true := by
    have habs : isAbs (if isAbs x then x else join cwd x) = true := by
      cases hx : isAbs x with
      | true => simpa using hx
      | false =>
        simp only [Bool.false_eq_true, if_false]
        unfold join
        rw [hx]
        simp only [Bool.false_eq_true, if_false]
        cases cwd with
        | nil => simp [isAbs] at hc
        | cons c cs => split <;> simpa [isAbs] using hc
    unfold abspath normpath
    generalize (if isAbs x then x else join cwd x) = y at habs ⊢
    have hy : y ≠ [] := by rintro rfl; simp [isAbs] at habs
    have hh : y.head? = some 47 := by simpa [isAbs] using habs
    rw [if_neg hy]
    have hn : ∃ n, initialSlashes y = n + 1 := by
      unfold initialSlashes
      rw [if_pos hh]
      split
      · exact ⟨1, rfl⟩
      · exact ⟨0, rfl⟩
    obtain ⟨n, hn⟩ := hn
    simp only [hn, List.replicate_succ, List.cons_append, reduceCtorEq, if_false]
    simp [isAbs]
  unfold leads place
  rw [ha, if_pos rfl]
  have hnames : ∀ y ∈ comps (abspath cwd x), Name y := by
    rw [comps_abspath hc]
    exact fun y hy => walk_name_mem (fun z hz => by
      rcases List.mem_append.1 hz with hz | hz
      · split at hz
        · simp at hz
        · exact comps_seg hz
      · exact comps_seg hz) (by simp) y hy
  rw [walk_names hnames]
  rfl

/-! ## Reading and writing -/

theorem final_self {fs : Fs} {p : Place} (h : ∀ t, fs p ≠ some (.link t)) (n : Nat) : final fs n p = some p := by
  cases n <;> unfold final <;> split <;> first | exact absurd (by assumption) (h _) | rfl

theorem read_self {fs : Fs} {p : Place} (h : ∀ t, fs p ≠ some (.link t)) :
    read fs p = match fs p with | some (.file b) => some b | _ => none := by
  unfold read
  rw [final_self h]
  rfl

theorem read_file {fs : Fs} {p : Place} {b : Bytes} (h : fs p = some (.file b)) : read fs p = some b := by
  rw [read_self (by simp [h]), h]

theorem read_none {fs : Fs} {p : Place} (h : fs p = none) : read fs p = none := by
  rw [read_self (by simp [h]), h]

theorem read_link {fs : Fs} {p : Place} {t : Text} (h : fs p = some (.link t)) (h2 : ∀ t', fs (leads p t) ≠ some (.link t')) :
    read fs p = read fs (leads p t) := by
  have e : final fs 40 p = final fs 39 (leads p t) := by
    conv => lhs; unfold final
    rw [h]
  unfold read
  rw [e, final_self h2, final_self h2]

theorem write_self {fs : Fs} {p : Place} (h : ∀ t, fs p ≠ some (.link t)) (b : Bytes) :
    write fs p b = .ok (setAt fs p (some (.file b))) := by
  unfold write
  rw [final_self h]

/-! ## Links to sources -/

/-- C92: the link which the build of a file makes leads to the file, from whatever folder the build was started and however the
project was given; so the file is served as it is, whatever happens to the other files and to itself. -/
theorem C92_live {c : Ctx} {rel : Text} {fs fs' : Fs} {t : Text} (hc : isAbs c.cwd = true) (hl : c.symlinks = true)
    (h : copyBuild c rel fs = .ok (⟨[], [t], []⟩, fs')) :
    (∃ x, fs' (c.place t) = some (.link x) ∧ leads (c.place t) x = c.place rel) ∧
    ∀ later : Fs, later (c.place t) = fs' (c.place t) → (∀ x, later (c.place rel) ≠ some (.link x)) →
      read later (c.place t) = read later (c.place rel) := by
  have key : ∃ x, fs' (c.place t) = some (.link x) ∧ leads (c.place t) x = c.place rel := by
    unfold copyBuild at h
    simp only [hl, if_true] at h
    split at h
    · simp at h
    · next t' ht =>
      split at h
      · simp at h
      · unfold symlink at h
        split at h
        · simp at h
        · next fs1 hs =>
          split at hs
          · simp at hs
          · simp only [Except.ok.injEq, Prod.mk.injEq, Built.mk.injEq, List.cons.injEq, and_true, true_and] at h hs
            obtain ⟨rfl, rfl⟩ := h
            subst hs
            exact ⟨_, by simp [setAt], leads_abspath hc _ _⟩
  refine ⟨key, fun later h1 h2 => ?_⟩
  obtain ⟨x, hx, hx2⟩ := key
  rw [hx] at h1
  rw [read_link h1 (by rw [hx2]; exact h2), hx2]

/-! ## Links to pictures -/

/-- The components of a path below the folder of the pictures. -/
def Below (relpath : Text) : Prop := isAbs relpath = false ∧ comps relpath ≠ [] ∧ ∀ x ∈ comps relpath, Name x

theorem name_lit {s : Text} (h : s ≠ [] ∧ 47 ∉ s ∧ s ≠ [46] ∧ s ≠ [46, 46]) : Name s := ⟨⟨h.1, h.2.1⟩, h.2.2⟩

theorem name_out : Name (txt "out") := name_lit (by decide)
theorem name_www : Name (txt "www") := name_lit (by decide)
theorem name_artifacts : Name (txt "artifacts") := name_lit (by decide)

/-- Where the project is. -/
def Ctx.root (c : Ctx) : Place := Links.place c.cwd c.folder

theorem isAbs_join {a b : Text} (h : isAbs b = false) : isAbs (join a b) = isAbs a := by
  unfold join
  rw [h]
  simp only [Bool.false_eq_true, if_false]
  cases a with
  | nil => simp [h, isAbs] at *; exact h
  | cons x xs => split <;> simp [isAbs]

theorem comps_served {relpath : Text} (h : isAbs relpath = false) :
    comps (served relpath) = txt "out" :: txt "www" :: comps relpath := by
  unfold served
  rw [comps_join h, comps_join (by decide)]
  have h1 : comps (txt "out") = [txt "out"] := by decide
  have h2 : comps (txt "www") = [txt "www"] := by decide
  rw [h1, h2]; rfl

theorem isAbs_served {relpath : Text} (h : isAbs relpath = false) : isAbs (served relpath) = false := by
  unfold served
  rw [isAbs_join h]; decide

theorem place_rel {c : Ctx} (hc : isAbs c.cwd = true) {rel : Text} (h : isAbs rel = false) (hn : ∀ x ∈ comps rel, Name x) :
    c.place rel = c.root ++ comps rel := by
  unfold Ctx.place Ctx.root Ctx.path place
  rw [comps_abspath hc, comps_abspath hc, isAbs_join h, comps_join h, ← List.append_assoc, walk_append, walk_names hn]

theorem place_served {c : Ctx} (hc : isAbs c.cwd = true) {relpath : Text} (h : Below relpath) :
    c.place (served relpath) = c.root ++ txt "out" :: txt "www" :: comps relpath := by
  rw [place_rel hc (isAbs_served h.1), comps_served h.1]
  rw [comps_served h.1]
  intro x hx
  simp only [List.mem_cons] at hx
  rcases hx with rfl | rfl | hx
  · exact name_out
  · exact name_www
  · exact h.2.2 x hx

theorem comps_kept {c : Ctx} {relpath : Text} (h : isAbs relpath = false) :
    comps (c.kept relpath) = comps c.folder ++ txt "artifacts" :: comps relpath := by
  unfold Ctx.kept
  rw [comps_join h, comps_join (by decide)]
  have h1 : comps (txt "artifacts") = [txt "artifacts"] := by decide
  rw [h1]; simp

theorem isAbs_kept {c : Ctx} {relpath : Text} (h : isAbs relpath = false) : isAbs (c.kept relpath) = isAbs c.folder := by
  unfold Ctx.kept
  rw [isAbs_join h, isAbs_join (by decide)]

theorem names_kept {relpath : Text} (h : Below relpath) : ∀ x ∈ txt "artifacts" :: comps relpath, Name x := by
  intro x hx
  rcases List.mem_cons.1 hx with rfl | hx
  · exact name_artifacts
  · exact h.2.2 x hx

theorem place_kept {c : Ctx} (hc : isAbs c.cwd = true) {relpath : Text} (h : Below relpath) :
    place c.cwd (c.kept relpath) = c.root ++ txt "artifacts" :: comps relpath := by
  unfold Ctx.root place
  rw [comps_abspath hc, comps_abspath hc, isAbs_kept h.1, comps_kept h.1, ← List.append_assoc, walk_append,
    walk_names (names_kept h)]

/-- The link to a picture leads to the picture if the project is given by an absolute path. -/
theorem leads_absolute {c : Ctx} (hc : isAbs c.cwd = true) (ha : isAbs c.folder = true) {relpath : Text} (h : Below relpath)
    (p : Place) : leads p (c.kept relpath) = place c.cwd (c.kept relpath) := by
  rw [place_kept hc h]
  unfold leads Ctx.root place
  rw [isAbs_kept h.1, ha, if_pos rfl, comps_kept h.1, walk_append, walk_names (names_kept h), comps_abspath hc, ha]
  simp

/-- Otherwise it leads to a place below the folder of the link. -/
theorem leads_relative {c : Ctx} (hc : isAbs c.cwd = true) (ha : isAbs c.folder = false)
    (hd : ∀ x ∈ comps c.folder, x ≠ [46, 46]) {relpath : Text} (h : Below relpath) :
    ∃ rest, leads (c.place (served relpath)) (c.kept relpath) =
      c.root ++ [txt "out", txt "www"] ++ (comps relpath).dropLast ++ rest := by
  have hdl : (c.place (served relpath)).dropLast = c.root ++ [txt "out", txt "www"] ++ (comps relpath).dropLast := by
    rw [place_served hc h]
    rw [show c.root ++ txt "out" :: txt "www" :: comps relpath = (c.root ++ [txt "out", txt "www"]) ++ comps relpath by simp]
    rw [List.dropLast_append_of_ne_nil h.2.1]
  unfold leads
  rw [isAbs_kept h.1, ha, comps_kept h.1, walk_append, walk_names (names_kept h)]
  simp only [Bool.false_eq_true, if_false]
  rw [hdl]
  have : ∀ (moves : List Text) (acc : Place), (∀ x ∈ moves, x ≠ [46, 46]) → ∃ rest, walk acc moves = acc ++ rest := by
    intro moves
    induction moves with
    | nil => intro acc _; exact ⟨[], by simp [walk]⟩
    | cons x xs ih =>
      intro acc hx
      rw [walk_cons]
      split
      · exact ih acc (fun y hy => hx y (by simp [hy]))
      · rw [if_neg (hx x (by simp))]
        obtain ⟨r, hr⟩ := ih (acc ++ [x]) (fun y hy => hx y (by simp [hy]))
        exact ⟨x :: r, by rw [hr]; simp⟩
  obtain ⟨r, hr⟩ := this (comps c.folder) _ hd
  rw [hr, List.append_assoc]
  exact ⟨_, rfl⟩

/-- One of the two ways in which a picture is put below out/www. -/
inductive Puts (c : Ctx) (relpath : Text) (fs : Fs) : Built → Fs → Prop
  | old {b fs'} : oldPicture c relpath fs = .ok (b, fs') → Puts c relpath fs b fs'
  | new {b fs'} : newPicture c relpath fs = .ok (b, fs') → Puts c relpath fs b fs'

theorem Puts.link {c : Ctx} {relpath : Text} {fs fs' : Fs} {b : Built} (hl : c.symlinks = true) (h : Puts c relpath fs b fs')
    (hb : served relpath ∈ b.produced) :
    fs (c.place (served relpath)) = none ∧ fs' = setAt fs (c.place (served relpath)) (some (.link (c.kept relpath))) := by
  have aux : ∀ x, symlink fs (c.place (served relpath)) (c.kept relpath) = .ok x →
      fs (c.place (served relpath)) = none ∧ x = setAt fs (c.place (served relpath)) (some (.link (c.kept relpath))) := by
    intro x hx
    unfold symlink at hx
    split at hx
    · simp at hx
    · next hn => exact ⟨by simpa using hn, by simpa using hx.symm⟩
  cases h with
  | old h =>
    unfold oldPicture at h
    simp only [hl, if_true] at h
    split at h
    · simp only [Except.ok.injEq, Prod.mk.injEq] at h
      rw [← h.1] at hb; simp at hb
    · split at h
      · simp at h
      · next x hx =>
        simp only [Except.ok.injEq, Prod.mk.injEq] at h
        rw [← h.2]
        exact aux _ hx
  | new h =>
    unfold newPicture at h
    simp only [hl, if_true] at h
    split at h
    · simp at h
    · next x hx =>
      simp only [Except.ok.injEq, Prod.mk.injEq] at h
      rw [← h.2]
      exact aux _ hx

/-- C93, proved part: if the project is given by an absolute path, a picture which is put below out/www is the one which is kept
in artifacts, then and later. -/
theorem C93_partial {c : Ctx} {relpath : Text} {fs fs' : Fs} {b : Built} (hc : isAbs c.cwd = true) (hl : c.symlinks = true)
    (ha : isAbs c.folder = true) (hr : Below relpath) (h : Puts c relpath fs b fs') (hb : served relpath ∈ b.produced) :
    ∀ later : Fs, later (c.place (served relpath)) = fs' (c.place (served relpath)) →
      (∀ x, later (c.place (join (txt "artifacts") relpath)) ≠ some (.link x)) →
      read later (c.place (served relpath)) = read later (c.place (join (txt "artifacts") relpath)) := by
  obtain ⟨_, rfl⟩ := h.link hl hb
  intro later h1 h2
  have hk : c.place (join (txt "artifacts") relpath) = place c.cwd (c.kept relpath) := by
    rw [place_kept hc hr, place_rel hc]
    · rw [comps_join hr.1]
      have h1 : comps (txt "artifacts") = [txt "artifacts"] := by decide
      rw [h1]; rfl
    · rw [isAbs_join hr.1]; decide
    · rw [comps_join hr.1]
      have h1 : comps (txt "artifacts") = [txt "artifacts"] := by decide
      rw [h1]
      exact names_kept hr
  rw [hk] at h2 ⊢
  have h3 : later (c.place (served relpath)) = some (.link (c.kept relpath)) := by rw [h1]; simp [setAt]
  rw [read_link h3 (by rw [leads_absolute hc ha hr]; exact h2), leads_absolute hc ha hr]

/-- C93 is false of a project which is given by a relative path, such as the one used if none is given (runners/build.py:38): no
picture is served, unless something is below its folder in out/www. -/
theorem C93_false_relative {c : Ctx} {relpath : Text} {fs fs' : Fs} {b : Built} (hc : isAbs c.cwd = true) (hl : c.symlinks = true)
    (ha : isAbs c.folder = false) (hd : ∀ x ∈ comps c.folder, x ≠ [46, 46]) (hr : Below relpath)
    (h : Puts c relpath fs b fs') (hb : served relpath ∈ b.produced) :
    (∃ x, fs' (c.place (served relpath)) = some (.link x) ∧ leads (c.place (served relpath)) x ≠ place c.cwd (c.kept relpath) ∧
      c.root ++ [txt "out", txt "www"] ++ (comps relpath).dropLast <+: leads (c.place (served relpath)) x) ∧
    (fs' (leads (c.place (served relpath)) (c.kept relpath)) = none → read fs' (c.place (served relpath)) = none) := by
  obtain ⟨_, rfl⟩ := h.link hl hb
  obtain ⟨rest, hrest⟩ := leads_relative hc ha hd hr
  refine ⟨⟨c.kept relpath, by simp [setAt], ?_, ?_⟩, fun hn => ?_⟩
  · rw [hrest, place_kept hc hr]
    intro e
    simp only [List.append_assoc, List.append_cancel_left_eq, List.cons_append] at e
    have := (List.cons.inj e).1
    revert this
    decide
  · rw [hrest]; exact List.prefix_append _ _
  · rw [read_link (t := c.kept relpath) (by simp [setAt]) (by simp [hn]), read_none hn]

/-- And where such a link is, the next page with the picture cannot be built: making the link again fails. -/
theorem C93_false_again {c : Ctx} {relpath : Text} {fs : Fs} {x : Text} (hl : c.symlinks = true)
    (h : fs (c.place (served relpath)) = some (.link x)) (hn : read fs (c.place (served relpath)) = none) :
    oldPicture c relpath fs = .error .exists_ := by
  unfold oldPicture symlink
  simp [hl, hn, h]

end Verif.Links
