import Verif.Paths
import Verif.JsManipThm
/-!
# Which file an import path names

The manipulator of `JsManip` with its paths computed by the functions of `os.path` (`Verif.Paths`) instead of
left open, and the theorem that the computed file is the one a browser would load.
-/
namespace Verif.Js
open Verif.Reader (Text txt)
open Verif.Paths

/-- vanillaplusjs/build/js/manips/hash_imports.py:123-139: `rel_to_root` and the new `import_path` of an import path
in the file `rel` of the project `folder`, with the process in `cwd`. -/
def resolvePath (cwd folder rel s : Text) : Text × Text :=
  if isAbs s then (join (join (txt "src") (txt "public")) (s.drop 1), s)
  else
    let abs := abspath cwd (join (join folder (dirname rel)) s)
    let root := relpath cwd abs (abspath cwd folder)
    (root, 47 :: relpath cwd root (join (txt "src") (txt "public")))

/-- hash_imports.py:148-152: the file which the hash is read from. -/
def hashFile (cwd folder root : Text) : Text :=
  join (join (join folder (txt "out")) (txt "www"))
    (relpath cwd root (join (txt "src") (txt "public")) ++ txt ".hash")

/-- The environment of the manipulator for one file; `read` is the content of a file, if there is one. -/
def pathEnv (scan : Bool) (cwd folder rel : Text) (read : Text → Option Text) (query : Text → Text)
    (typeName : Tok → Text) : HiEnv :=
  { scan := scan, resolve := resolvePath cwd folder rel, hash := fun root => read (hashFile cwd folder root),
    query := query, typeName := typeName }

/-! ## Specification -/

/-- How a URL path is followed from the folder `D`: `.` stays, `..` leaves the last folder, a name enters. -/
inductive Goes : List Text → List Text → List Text → Prop
  | done (D) : Goes D [] D
  | here {D ms R} : Goes D ms R → Goes D (txt "." :: ms) R
  | up {D x ms R} : Goes D ms R → Goes (D ++ [x]) (txt ".." :: ms) R
  | into {D x ms R} : Name x → Goes (D ++ [x]) ms R → Goes D (x :: ms) R

/-! ## Proof -/

theorem txt_dot : txt "." = [46] := by decide
theorem txt_dots : txt ".." = [46, 46] := by decide
theorem txt_src : txt "src" = [115, 114, 99] := by decide
theorem txt_public : txt "public" = [112, 117, 98, 108, 105, 99] := by decide

theorem name_src : Name (txt "src") := by rw [txt_src]; refine ⟨⟨by simp, by simp⟩, by simp, by simp⟩
theorem name_public : Name (txt "public") := by rw [txt_public]; refine ⟨⟨by simp, by simp⟩, by simp, by simp⟩

theorem Goes.walk {D ms R : List Text} (h : Goes D ms R) (pre : List Text) : walk (pre ++ D) ms = pre ++ R := by
  induction h with
  | done => rfl
  | here _ ih => rw [walk_cons, txt_dot]; simpa using ih
  | @up D x ms R _ ih =>
    rw [walk_cons, txt_dots]
    rw [if_neg (by simp), if_pos rfl, ← List.append_assoc, List.dropLast_concat]
    exact ih
  | @into D x ms R hx _ ih =>
    rw [walk_cons, if_neg hx.2.1, if_neg hx.2.2]
    rw [List.append_assoc]
    exact ih

theorem Goes.segs {D ms R : List Text} (h : Goes D ms R) : ∀ x ∈ ms, Seg x := by
  induction h with
  | done => simp
  | here _ ih =>
    intro x hx
    rcases List.mem_cons.1 hx with rfl | hx
    · rw [txt_dot]; exact ⟨by simp, by simp⟩
    · exact ih x hx
  | up _ ih =>
    intro x hx
    rcases List.mem_cons.1 hx with rfl | hx
    · rw [txt_dots]; exact ⟨by simp, by simp⟩
    · exact ih x hx
  | into hn _ ih =>
    intro x hx
    rcases List.mem_cons.1 hx with rfl | hx
    · exact hn.1
    · exact ih x hx

theorem Goes.names {D ms R : List Text} (h : Goes D ms R) (hD : ∀ x ∈ D, Name x) : ∀ x ∈ R, Name x := by
  induction h with
  | done => exact hD
  | here _ ih => exact ih hD
  | up _ ih => exact ih (fun x hx => hD x (by simp [hx]))
  | into hn _ ih =>
    apply ih
    intro x hx
    rcases List.mem_append.1 hx with hx | hx
    · exact hD x hx
    · simp at hx; subst hx; exact hn

theorem joinSrcPublic : join (txt "src") (txt "public") = joinSegs [txt "src", txt "public"] :=
  join_joinSegs (xs := [txt "src"]) (by simp) (by simpa using name_src.1) name_public.1

theorem isAbs_joinSegs {xs : List Text} (h : ∀ x ∈ xs, Seg x) : isAbs (joinSegs xs) = false := by
  cases xs with
  | nil => rfl
  | cons x xs =>
    have hx := h x (by simp)
    obtain ⟨c, cs, hc⟩ : ∃ c cs, x = c :: cs := by
      cases x with
      | nil => exact absurd rfl hx.1
      | cons c cs => exact ⟨c, cs, rfl⟩
    have hc47 : c ≠ 47 := fun h => hx.2 (by simp [hc, h])
    by_cases hxs : xs = []
    · subst hxs; simp [joinSegs, hc, isAbs, hc47]
    · rw [joinSegs_cons x hxs, hc]; simp [isAbs, hc47]

theorem comps_srcPublic : comps (joinSegs [txt "src", txt "public"]) = [txt "src", txt "public"] :=
  comps_joinSegs (by
    intro x hx
    rcases List.mem_cons.1 hx with rfl | hx
    · exact name_src.1
    · rcases List.mem_cons.1 hx with rfl | hx
      · exact name_public.1
      · simp at hx)

theorem names_srcPublic {R : List Text} (h : ∀ x ∈ R, Name x) : ∀ x ∈ [txt "src", txt "public"] ++ R, Name x := by
  intro x hx
  rcases List.mem_append.1 hx with hx | hx
  · rcases List.mem_cons.1 hx with rfl | hx
    · exact name_src
    · rcases List.mem_cons.1 hx with rfl | hx
      · exact name_public
      · simp at hx
  · exact h x hx

/-- A file below src/public, relative to src/public. -/
theorem relpath_public {cwd : Text} (hc : isAbs cwd = true) {R : List Text} (hR : ∀ x ∈ R, Name x) (hne : R ≠ []) :
    relpath cwd (joinSegs ([txt "src", txt "public"] ++ R)) (join (txt "src") (txt "public")) = joinSegs R := by
  have hn := names_srcPublic hR
  have hn0 := names_srcPublic (R := []) (by simp)
  simp only [List.append_nil] at hn0
  rw [joinSrcPublic]
  rw [relpath_below (base := walk [] (comps cwd) ++ [txt "src", txt "public"]) (rest := R)]
  · rw [if_neg hne]
  · rw [comps_abspath hc, isAbs_joinSegs (fun x hx => (hn0 x hx).1), comps_srcPublic]
    simp only [Bool.false_eq_true, if_false]
    rw [walk_append, walk_names hn0]
  · rw [comps_abspath hc, isAbs_joinSegs (fun x hx => (hn x hx).1), comps_joinSegs (fun x hx => (hn x hx).1)]
    simp only [Bool.false_eq_true, if_false]
    rw [walk_append, walk_names hn, List.append_assoc]

theorem isAbs_of_head {a b : Text} (h : isAbs a = true) : isAbs (a ++ b) = true := by
  cases a with
  | nil => simp [isAbs] at h
  | cons c cs => simpa [isAbs] using h

theorem isAbs_join {a b : Text} (ha : isAbs a = true) : isAbs (join a b) = true := by
  unfold join
  split
  · assumption
  · split <;> exact isAbs_of_head ha

theorem isAbs_normpath {p : Text} (h : isAbs p = true) : isAbs (normpath p) = true := by
  have hp : p ≠ [] := by rintro rfl; simp [isAbs] at h
  have hh : p.head? = some 47 := by simpa [isAbs] using h
  unfold normpath
  rw [if_neg hp]
  have hn : ∃ n, initialSlashes p = n + 1 := by
    unfold initialSlashes
    rw [if_pos hh]
    split
    · exact ⟨1, rfl⟩
    · exact ⟨0, rfl⟩
  obtain ⟨n, hn⟩ := hn
  rw [hn, List.replicate_succ]
  simp [isAbs]

theorem isAbs_abspath {cwd p : Text} (h : isAbs cwd = true) : isAbs (abspath cwd p) = true := by
  unfold abspath
  apply isAbs_normpath
  cases hp : isAbs p with
  | true => simpa using hp
  | false => simpa using isAbs_join (b := p) h

theorem isAbs_append_ne {a b : Text} (hne : a ≠ []) : isAbs (a ++ b) = isAbs a := by
  cases a with
  | nil => exact absurd rfl hne
  | cons c cs => rfl

theorem isAbs_join_rel {a b : Text} (hb : isAbs b = false) : isAbs (join a b) = isAbs a := by
  unfold join
  rw [hb]
  simp only [Bool.false_eq_true, if_false]
  by_cases ha : a = []
  · subst ha; simp only [true_or, if_true, List.nil_append]; rw [hb]; rfl
  · split <;> exact isAbs_append_ne ha

/-- Abspath is idempotent on the components. -/
theorem comps_abspath_idem {cwd p : Text} (h : isAbs cwd = true) :
    comps (abspath cwd (abspath cwd p)) = comps (abspath cwd p) := by
  have hn : ∀ x ∈ comps (abspath cwd p), Name x := by
    rw [comps_abspath h]
    apply walk_name_mem _ (by simp)
    intro x hx
    rcases List.mem_append.1 hx with hx | hx
    · split at hx
      · simp at hx
      · exact comps_seg hx
    · exact comps_seg hx
  conv => lhs; rw [comps_abspath h]
  rw [isAbs_abspath h]
  simp only [if_true]
  rw [List.nil_append, walk_names hn, List.nil_append]

theorem split_isAbs {s : Text} {ms : List Text} (h : split s = ms) (hs : ∀ x ∈ ms, Seg x) :
    isAbs s = false ∧ comps s = ms := by
  subst h
  constructor
  · cases s with
    | nil => rfl
    | cons c cs =>
      by_cases hc : c = 47
      · subst hc
        have := hs [] (by simp [split])
        exact absurd rfl this.1
      · simp [isAbs, hc]
  · unfold comps
    rw [List.filter_eq_self]
    intro x hx
    have := (hs x hx).1
    cases x with
    | nil => exact absurd rfl this
    | cons => rfl

/-- **C59, relative paths.**  In the file `src/public/D/f`, an import path whose components lead from the folder
`D` to `R` names the file `src/public/R`; it is written as `/R`; the hash is read from `out/www/R.hash`. -/
theorem C59_relative {cwd folder s f : Text} {D R : List Text} (hc : isAbs cwd = true)
    (hD : ∀ x ∈ D, Name x) (hf : Name f) (hgo : Goes D (split s) R) (hne : R ≠ []) :
    resolvePath cwd folder (joinSegs ([txt "src", txt "public"] ++ D ++ [f])) s =
      (joinSegs ([txt "src", txt "public"] ++ R), 47 :: joinSegs R) := by
  obtain ⟨hs, hcs⟩ := split_isAbs rfl hgo.segs
  have hR := hgo.names hD
  have hd := names_srcPublic hD
  obtain ⟨d1, d2⟩ := comps_dirname (fun x hx => (hd x hx).1) (by simp) hf.1
  unfold resolvePath
  rw [hs]
  simp only [Bool.false_eq_true, if_false]
  have habs : comps (abspath cwd (join (join folder (dirname (joinSegs ([txt "src", txt "public"] ++ D ++ [f])))) s)) =
      comps (abspath cwd folder) ++ ([txt "src", txt "public"] ++ R) := by
    rw [comps_abspath hc, isAbs_join_rel hs, isAbs_join_rel d2, comps_join hs, comps_join d2, d1, hcs]
    rw [comps_abspath hc]
    rw [← List.append_assoc, walk_append, ← List.append_assoc, walk_append, walk_names hd]
    rw [← List.append_assoc, hgo.walk, List.append_assoc]
  have hroot : relpath cwd (abspath cwd (join (join folder (dirname (joinSegs ([txt "src", txt "public"] ++ D ++ [f])))) s))
      (abspath cwd folder) = joinSegs ([txt "src", txt "public"] ++ R) := by
    rw [relpath_below (base := comps (abspath cwd folder)) (rest := [txt "src", txt "public"] ++ R)]
    · rw [if_neg (by simp)]
    · exact comps_abspath_idem hc
    · rw [comps_abspath_idem hc, habs]
  rw [hroot, relpath_public hc hR hne]

/-- **C59, absolute paths.**  An import path `/R` names the file `src/public/R` and is kept. -/
theorem C59_absolute {cwd folder rel : Text} {R : List Text} (hR : ∀ x ∈ R, Name x) (hne : R ≠ []) :
    resolvePath cwd folder rel (47 :: joinSegs R) = (joinSegs ([txt "src", txt "public"] ++ R), 47 :: joinSegs R) := by
  have h1 : isAbs (47 :: joinSegs R) = true := rfl
  unfold resolvePath
  rw [h1]
  simp only [if_true, List.drop_succ_cons, List.drop_zero]
  rw [joinSrcPublic]
  congr 1
  have hrel := isAbs_joinSegs (fun x hx => (hR x hx).1)
  unfold join
  rw [hrel]
  simp only [Bool.false_eq_true, if_false]
  have hl : (joinSegs [txt "src", txt "public"]).getLast? ≠ some 47 ∧ joinSegs [txt "src", txt "public"] ≠ [] := by
    decide +kernel
  rw [if_neg (by rintro (h | h); exact hl.2 h; exact hl.1 h)]
  have e1 : joinSegs (txt "src" :: txt "public" :: R) = txt "src" ++ 47 :: (txt "public" ++ 47 :: joinSegs R) := by
    rw [joinSegs_cons _ (by simp), joinSegs_cons _ hne]
  have e2 : joinSegs [txt "src", txt "public"] = txt "src" ++ 47 :: txt "public" := rfl
  rw [List.cons_append, List.cons_append, List.nil_append, e1, e2]
  simp

/-- **C59, the hash.**  The hash of `src/public/R` is read from `R.hash` in the output folder. -/
theorem C59_hash {cwd folder : Text} {R : List Text} (hc : isAbs cwd = true) (hR : ∀ x ∈ R, Name x) (hne : R ≠ []) :
    hashFile cwd folder (joinSegs ([txt "src", txt "public"] ++ R)) =
      join (join (join folder (txt "out")) (txt "www")) (joinSegs R ++ txt ".hash") := by
  unfold hashFile
  rw [relpath_public hc hR hne]

/-- A case: in `src/public/js/app/main.js`, `../lib/./x.js` is `src/public/js/lib/x.js`. -/
theorem C59_case :
    Goes [txt "js", txt "app"] (split (txt "../lib/./x.js")) [txt "js", txt "lib", txt "x.js"] ∧
    resolvePath (txt "/home/me") (txt "site") (txt "src/public/js/app/main.js") (txt "../lib/./x.js") =
      (txt "src/public/js/lib/x.js", txt "/js/lib/x.js") := by
  constructor
  · rw [show split (txt "../lib/./x.js") = [txt "..", txt "lib", txt ".", txt "x.js"] by decide +kernel]
    have n1 : Name (txt "lib") := by
      rw [show txt "lib" = [108, 105, 98] by decide]; refine ⟨⟨by simp, by simp⟩, by simp, by simp⟩
    have n2 : Name (txt "x.js") := by
      rw [show txt "x.js" = [120, 46, 106, 115] by decide]; refine ⟨⟨by simp, by simp⟩, by simp, by simp⟩
    exact .up (D := [txt "js"]) (.into n1 (.here (.into n2 (.done _))))
  · decide +kernel

/-- Without the condition that a path starting with a slash has one slash only, the claim is false: `//cdn/x.js`,
which a browser loads from another host, is looked up as the file `/cdn/x.js` of the machine. -/
theorem C59_false_double_slash :
    resolvePath (txt "/home/me") (txt "site") (txt "src/public/main.js") (txt "//cdn/x.js") =
      (txt "/cdn/x.js", txt "//cdn/x.js") := by decide +kernel

/-- A path which leaves src/public: a browser stays at the root of the host, the code leaves the folder. -/
theorem C59_false_escape :
    resolvePath (txt "/home/me") (txt "site") (txt "src/public/main.js") (txt "../x.js") =
      (txt "src/x.js", txt "/../x.js") := by decide +kernel

end Verif.Js
