import Verif.ImgGlueMain
import Verif.ImgFilesCase

/-!
# C86: a project for which it says something, and what does not hold
-/

namespace Verif.Img.Glue

open Verif.Reader (Text txt)
open Verif.Paths (join isAbs Seg)
open Verif.Handlers (Bytes Fs Scan Built hashScan hashBuild hashTarget imagesOut outWww)
open Verif.Img.Files
open Verif.Css.Data (root)

variable {C : Type} [DecidableEq C]

omit [DecidableEq C] in
/-- Without crop settings, all that counts is the size. -/
theorem checkImage_fits {env : Env Json C} {fs : Fs} {v : Json} {rest : Text} {w h : ℤ} {args : Json} (ha : Asks v rest w h args) (hf : Fits env fs rest w h)
    (hc : cropSettings v = none) : checkImage env fs v = .ok true := by
  obtain ⟨b, d, h1, h2, h3, h4, h5, h6⟩ := hf
  refine (checkImage_iff fun cs hcs => by rw [hc] at hcs; cases hcs).2 ⟨rest, w, h, args, [], 0, 0, 0, 0, 1 / 2, 1 / 2, b, d, ha, h1, h2, h3, h4, h5, h6,
    .inr ⟨hc, rfl⟩, ⟨.inl ⟨rfl, rfl⟩, .inl ⟨rfl, rfl⟩, .inl ⟨rfl, rfl⟩, .inl ⟨rfl, rfl⟩, .inl ⟨rfl, rfl⟩, .inl ⟨rfl, rfl⟩⟩,
    ⟨by simp, by simp, by norm_num, by simpa using h4, by simpa using h6⟩⟩

namespace Case

open Verif.Img.Files.Case

/-- `{"first": {"path": "/img/a.png", "width": 10, "height": 10, "crop_style": "cover"}}` -/
def entry : Json := .obj [(txt "path", .str (txt "/img/a.png")), (txt "width", .num (.int 10)), (txt "height", .num (.int 10)),
  (txt "crop_style", .str (txt "cover"))]

def file : Json := .obj [(txt "first", entry)]

/-- The file is read, and what is written shows the names. -/
noncomputable def tools : Tools Unit where
  env := toy
  loads := fun b => if b = [2] then some file else none
  dumps := fun j => match j with
    | .obj items => items.flatMap (·.1)
    | _ => []
  fields := fun _ => .obj []

def rel : Text := txt "src/public/gallery.images.json"

theorem paths : Paths file := by
  intro items hi x hx rest entries he hl
  cases hi
  rw [List.mem_singleton] at hx
  subst hx
  cases he
  have : (47 :: rest : Text) = txt "/img/a.png" := by
    have h2 : [(txt "path", Json.str (txt "/img/a.png")), (txt "width", .num (.int 10)), (txt "height", .num (.int 10)),
      (txt "crop_style", .str (txt "cover"))].lookup (txt "path") = some (.str (txt "/img/a.png")) := rfl
    rw [h2] at hl
    cases hl
    rfl
  have hr : rest = txt "img/a.png" := by
    have h3 : txt "/img/a.png" = 47 :: txt "img/a.png" := by decide
    rw [h3] at this
    exact (List.cons.inj this).2
  subst hr
  refine ⟨by rw [stem_is]; exact plain, ?_⟩
  rw [← List.isSuffixOf_iff_suffix]
  decide

theorem command_is : Glue.command entry = .ok Files.Case.command := rfl

theorem checks {fs : Fs} (h : fs (txt "src/public/img/a.png") = some [1]) : check toy fs file = .ok true := by
  have hx : checkImage toy fs entry = .ok true := by
    have hs : source (txt "img/a.png") = txt "src/public/img/a.png" := source_is
    exact checkImage_fits (rest := txt "img/a.png") (w := 10) (h := 10) (args := .obj []) ⟨⟨_, rfl, rfl, rfl, rfl, .inr rfl, rfl⟩⟩
      ⟨[1], (100, 100), by rw [hs]; exact h, rfl, by decide, by decide, by decide, by decide⟩ rfl
  unfold check file
  dsimp only
  unfold checkImages
  rw [hx]
  rfl

theorem loads_file {fs : Fs} (h1 : fs rel = some [2]) (h2 : fs (txt "src/public/img/a.png") = some [1]) :
    load tools rel fs = .ok (some [(txt "first", entry)]) := by
  unfold load
  have h3 : tools.loads [2] = some file := rfl
  have h4 : check tools.env fs file = .ok true := checks h2
  simp only [h1, h3, h4]
  rfl

theorem f1_rel : f1 rel = some [2] := by
  unfold f1
  rw [reservedFs_ne (by decide) (by decide) (by decide +kernel)]
  decide

theorem scans : ∃ s, scanFile tools rel f0 = .ok (s, f1) := by
  obtain ⟨s, hs⟩ := scan_run
  unfold scanFile
  rw [loads_file (by decide) (by decide)]
  have hn : (txt ".images.js").isSuffixOf rel = false := by decide
  have hj : join tools.env.folder rel = page := by decide
  have hx : scanCommand tools.env page f0 Files.Case.command = .ok (s, f1) := hs
  simp only [hn, Bool.false_eq_true, if_false, scanAll, command_is, hj, hx]
  exact ⟨_, rfl⟩

theorem builds : ∃ r g, buildFile tools rel f1 = .ok (r, g) := by
  obtain ⟨l, p, he⟩ := export_run
  unfold buildFile
  rw [loads_file f1_rel f1_source]
  have hn : (txt ".images.js").isSuffixOf rel = false := by decide
  have hj : join tools.env.folder rel = page := by decide
  have hx : exportCommand tools.env page f1 Files.Case.command = .ok (recorded, ⟨l, p, []⟩, f4) := he
  simp only [hn, Bool.false_eq_true, if_false, exportAll, command_is, hj, hx]
  have hio : imagesOut rel = txt "out/www/" ++ txt "gallery" ++ txt ".images.js" := by decide
  unfold hashBuild
  rw [hio, module_target]
  dsimp only
  split
  · next e h =>
    split at h
    · cases h
    · rw [show ∀ (g : Fs) (b : Bytes) (q : Text), (g.write q b) q = some b from fun g b q => by simp [Fs.write]] at h
      cases h
  · exact ⟨_, _, rfl⟩

end Case

open Case in
/-- The case for C86: a project with an image and a module which lists it, scanned and built. -/
theorem C86_case : Lawful tools.env ∧ tools.env.settingsHash = .ok 7 ∧ rel = txt "src/public/" ++ txt "gallery" ++ txt ".images.json" ∧
    Files.Case.f0 rel = some [2] ∧ Files.Case.f1 rel = some [2] ∧ tools.loads [2] = some file ∧ Paths file ∧ Good tools.env 7 Files.Case.f0 ∧
    (∃ s, scanFile tools rel Files.Case.f0 = .ok (s, Files.Case.f1)) ∧ AllLocked Files.Case.f1 ∧ (∃ r g, buildFile tools rel Files.Case.f1 = .ok (r, g)) ∧
    check tools.env Files.Case.f1 file = .ok true ∧ (∀ x ∈ [(txt "first", entry)], Numeric x.2) := by
  refine ⟨Files.Case.toy_lawful, rfl, by decide, by decide, f1_rel, rfl, paths, Files.Case.start.good 7, scans, Files.Case.C71_case.2.2.2.2.2.2.2.2.1,
    builds, checks Files.Case.f1_source, ?_⟩
  intro x hx
  rw [List.mem_singleton] at hx
  subst hx
  intro cs hcs
  cases hcs

/-! ## What does not hold -/

omit [DecidableEq C] in
theorem check_one {env : Env Json C} {fs : Fs} {name : Text} {v : Json} (h : checkImage env fs v = .ok true) : check env fs (.obj [(name, v)]) = .ok true := by
  unfold check
  dsimp only
  unfold checkImages
  rw [h]
  rfl

/-- An accepted file can make the build fail: `crop_arguments` are not looked at by the check, but given to a constructor. -/
theorem C86_arguments_false {t : Tools C} {fs : Fs} {p rest name : Text} {b img : Bytes} {args data : Json} {d : ℤ × ℤ}
    (hargs : t.env.crop args = none) (hi : fs (source rest) = some img) (hd : t.env.dims img = some d) (h1 : 1 ≤ d.1) (h2 : 1 ≤ d.2)
    (hb : fs (txt "src/public/" ++ p ++ txt ".images.json") = some b) (hl : t.loads b = some data)
    (hdata : data = .obj [(name, .obj [(txt "path", .str (47 :: rest)), (txt "width", .num (.int 1)), (txt "height", .num (.int 1)),
      (txt "crop_arguments", args)])]) :
    check t.env fs data = .ok true ∧ scanFile t (txt "src/public/" ++ p ++ txt ".images.json") fs = .error .typeError := by
  subst hdata
  have ha : Asks (.obj [(txt "path", .str (47 :: rest)), (txt "width", .num (.int 1)), (txt "height", .num (.int 1)), (txt "crop_arguments", args)])
      rest 1 1 args := ⟨_, rfl, rfl, rfl, rfl, .inl rfl, rfl⟩
  have hc := check_one (name := name) (checkImage_fits ha ⟨img, d, hi, hd, by decide, h1, by decide, h2⟩ rfl)
  refine ⟨hc, ?_⟩
  unfold scanFile load
  rw [not_module]
  simp only [Bool.false_eq_true, if_false, hb, hl, hc, scanAll, command_asks ha, scanCommand, targetOf, hargs]

/-- The case for it: the constructor does not know the argument. -/
theorem C86_arguments_case : Case.tools.env.crop (.arr []) = none ∧ Files.Case.f0 (source (txt "img/a.png")) = some [1] ∧
    Case.tools.env.dims [1] = some (100, 100) := ⟨rfl, by rw [Files.Case.source_is]; decide, rfl⟩

/-- The crop settings of a file are checked, but not used: nothing of a scan or a build depends on them. -/
theorem C86_settings_false (items : List (Text × Json)) (cs : Json) : command (.obj ((txt "crop_settings", cs) :: items)) = command (.obj items) := by
  have e : ∀ k : Text, (k == txt "crop_settings") = false → ((txt "crop_settings", cs) :: items).lookup k = items.lookup k := by
    intro k hk
    rw [List.lookup_cons, hk]
  unfold command
  simp only [e (txt "path") (by decide), e (txt "width") (by decide), e (txt "height") (by decide), e (txt "crop_style") (by decide),
    e (txt "crop_arguments") (by decide)]

/-- A crop which is not a number at all raises instead of being rejected. -/
theorem C86_type_false (d : ℤ × ℤ) (w h : ℤ) : checkCrop [(txt "pre_top_crop", .str (txt "10"))] d w h = .error .typeError := by
  rfl

/-- NaN, which `json.load` reads, is accepted as a crop. -/
theorem C86_nan_false (d : ℤ × ℤ) (w h : ℤ) (hw : w ≤ d.1) : checkCrop [(txt "pre_top_crop", .num .nan)] d w h = .ok true := by
  have h1 : checkSigns [(txt "pre_top_crop", .num .nan)] [txt "pre_top_crop", txt "pre_left_crop", txt "pre_right_crop", txt "pre_bottom_crop"] = .ok true := by
    decide +kernel
  have h2 : checkPercentages [(txt "pre_top_crop", .num .nan)] [txt "crop_left_percentage", txt "crop_top_percentage"] = .ok true := by
    decide +kernel
  have h3 : ([(txt "pre_top_crop", Json.num .nan)].any fun x => !validKeys.contains x.1) = false := by decide
  have s1 : setting [(txt "pre_top_crop", .num .nan)] (txt "pre_left_crop") (.int 0) = .ok (.int 0) := by decide
  have s2 : setting [(txt "pre_top_crop", .num .nan)] (txt "pre_right_crop") (.int 0) = .ok (.int 0) := by decide
  have s3 : setting [(txt "pre_top_crop", .num .nan)] (txt "pre_top_crop") (.int 0) = .ok .nan := by decide
  have s4 : setting [(txt "pre_top_crop", .num .nan)] (txt "pre_bottom_crop") (.int 0) = .ok (.int 0) := by decide
  unfold checkCrop
  simp only [h3, h1, h2, Bool.false_eq_true, if_false]
  unfold checkSize
  simp only [s1, s2, s3, s4]
  simp [Number.sub, Number.lt, Number.value, hw]

/-- A path can leave src/public, and the artifacts of the image are then outside of artifacts. -/
theorem C86_dots_false {env : Env Json C} {fs : Fs} {name : Text} {img : Bytes} {d : ℤ × ℤ} (hi : fs (txt "src/public/../x.png") = some img)
    (hd : env.dims img = some d) (h1 : 1 ≤ d.1) (h2 : 1 ≤ d.2) (file : Text) :
    check env fs (.obj [(name, .obj [(txt "path", .str (txt "/../x.png")), (txt "width", .num (.int 1)), (txt "height", .num (.int 1))])]) = .ok true ∧
    ∃ c, command (.obj [(txt "path", .str (txt "/../x.png")), (txt "width", .num (.int 1)), (txt "height", .num (.int 1))]) = .ok c ∧
      ∀ s fs', scanCommand env file fs c = .ok (s, fs') → txt "artifacts/../x/counter.txt" ∈ s.produces := by
  have hs : source (txt "../x.png") = txt "src/public/../x.png" := by decide
  have ha : Asks (.obj [(txt "path", .str (txt "/../x.png")), (txt "width", .num (.int 1)), (txt "height", .num (.int 1))])
      (txt "../x.png") 1 1 (.obj []) := ⟨_, rfl, rfl, rfl, rfl, .inl rfl, rfl⟩
  refine ⟨check_one (checkImage_fits ha ⟨img, d, by rw [hs]; exact hi, hd, by decide, h1, by decide, h2⟩ rfl), _, command_asks ha, ?_⟩
  intro s fs' h
  unfold scanCommand at h
  have hr : relOf env file ⟨47 :: txt "../x.png", 1, 1, txt "cover", Json.obj [], true⟩ = txt "../x.png" := by
    have h : isAbs (47 :: txt "../x.png") = true := by decide
    unfold relOf sourcePath
    rw [if_pos h]
    decide
  rw [hr] at h
  dsimp only at h
  split at h
  · cases h
  split at h
  · cases h
  split at h
  · cases h
  cases h
  have : txt "artifacts/../x/counter.txt" = counterFile (txt "../x.png") := by decide
  rw [this]
  simp

end Verif.Img.Glue
