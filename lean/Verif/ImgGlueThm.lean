import Verif.ImgGlue
import Verif.ImgFilesHonest
import Verif.HandlersThm

/-!
# C86: image modules
-/

namespace Verif.Img.Glue

open Verif.Reader (Text txt)
open Verif.Paths (join isAbs Seg)
open Verif.Handlers (Bytes Fs Scan Built hashScan hashBuild hashTarget imagesOut outWww Public)
open Verif.Img.Files
open Verif.Css.Data (root)

variable {C : Type} [DecidableEq C]

/-! ## Specification -/

/-- What an entry of the file asks for: the image below src/public, a size, and arguments for the crop. -/
structure Asks (v : Json) (rest : Text) (w h : ℤ) (args : Json) : Prop where
  entry : ∃ items, v = .obj items ∧ items.lookup (txt "path") = some (.str (47 :: rest)) ∧
    (items.lookup (txt "width")).bind Json.int? = some w ∧ (items.lookup (txt "height")).bind Json.int? = some h ∧
    (items.lookup (txt "crop_style") = none ∨ items.lookup (txt "crop_style") = some (.str (txt "cover"))) ∧
    (items.lookup (txt "crop_arguments")).getD (.obj []) = args

/-- The image is there and has at least the size asked for. -/
def Fits (env : Env Json C) (fs : Fs) (rest : Text) (w h : ℤ) : Prop :=
  ∃ b d, fs (source rest) = some b ∧ env.dims b = some d ∧ 1 ≤ w ∧ w ≤ d.1 ∧ 1 ≤ h ∧ h ≤ d.2

/-- What the entry has for `crop_settings`. -/
def cropSettings (v : Json) : Option Json :=
  match v with
  | .obj items => items.lookup (txt "crop_settings")
  | _ => none

/-- A setting which is absent or an integer. -/
def WholeAt (cs : List (Text × Json)) (key : Text) (n : ℤ) : Prop :=
  (cs.lookup key = none ∧ n = 0) ∨ cs.lookup key = some (.num (.int n))

/-- A setting which is absent, an integer or a float. -/
def PartAt (cs : List (Text × Json)) (key : Text) (q : ℚ) : Prop :=
  (cs.lookup key = none ∧ q = 1 / 2) ∨ (∃ n : ℤ, cs.lookup key = some (.num (.int n)) ∧ q = n) ∨ cs.lookup key = some (.num (.float q))

/-- Crop settings in which the crops are integers and the percentages numbers. -/
structure Values (cs : List (Text × Json)) (t l b r : ℤ) (pl pt : ℚ) : Prop where
  top : WholeAt cs (txt "pre_top_crop") t
  left : WholeAt cs (txt "pre_left_crop") l
  bottom : WholeAt cs (txt "pre_bottom_crop") b
  right : WholeAt cs (txt "pre_right_crop") r
  pleft : PartAt cs (txt "crop_left_percentage") pl
  ptop : PartAt cs (txt "crop_top_percentage") pt

/-- Crop settings which make sense for an image of this size. -/
structure Sensible (cs : List (Text × Json)) (d : ℤ × ℤ) (w h : ℤ) (t l b r : ℤ) (pl pt : ℚ) : Prop where
  keys : ∀ x ∈ cs, x.1 ∈ [txt "pre_top_crop", txt "pre_left_crop", txt "pre_right_crop", txt "pre_bottom_crop", txt "crop_left_percentage",
    txt "crop_top_percentage"]
  signs : 0 ≤ t ∧ 0 ≤ l ∧ 0 ≤ b ∧ 0 ≤ r
  parts : 0 ≤ pl ∧ pl ≤ 1 ∧ 0 ≤ pt ∧ pt ≤ 1
  wide : w ≤ d.1 - l - r
  high : h ≤ d.2 - t - b

/-- The entry is right. -/
def Right (env : Env Json C) (fs : Fs) (v : Json) : Prop :=
  ∃ rest w h args cs t l b r pl pt img d, Asks v rest w h args ∧ fs (source rest) = some img ∧ env.dims img = some d ∧
    1 ≤ w ∧ w ≤ d.1 ∧ 1 ≤ h ∧ h ≤ d.2 ∧ (cropSettings v = some (.obj cs) ∨ (cropSettings v = none ∧ cs = [])) ∧ Values cs t l b r pl pt ∧
    Sensible cs d w h t l b r pl pt

/-! ## What is accepted -/

/-- The essential part of what is accepted. -/
theorem checkTarget_true {items : List (Text × Json)} {d : ℤ × ℤ} (h : checkTarget items d = .ok true) :
    ∃ w hh cs, (items.lookup (txt "width")).bind Json.int? = some w ∧ (items.lookup (txt "height")).bind Json.int? = some hh ∧
      (items.lookup (txt "crop_style") = none ∨ items.lookup (txt "crop_style") = some (.str (txt "cover"))) ∧
      1 ≤ w ∧ w ≤ d.1 ∧ 1 ≤ hh ∧ hh ≤ d.2 ∧ (items.lookup (txt "crop_settings")).getD (.obj []) = .obj cs ∧ checkCrop cs d w hh = .ok true := by
  unfold checkTarget at h
  split at h
  · cases h
  next w hw =>
  split at h
  · cases h
  next hw' =>
  split at h
  · cases h
  next hh hhh =>
  split at h
  · cases h
  next hh' =>
  split at h
  case _ style hst =>
    split at h
    · cases h
    next hcov =>
    split at h
    case _ cs hcs =>
      simp only [ne_eq, not_not] at hcov
      subst hcov
      refine ⟨w, hh, cs, hw, hhh, ?_, by omega, by omega, by omega, by omega, hcs, h⟩
      cases hl : items.lookup (txt "crop_style") with
      | none => exact .inl rfl
      | some x =>
        rw [hl] at hst
        simp only [Option.getD_some] at hst
        rw [hst]
        exact .inr rfl
    · cases h
  · cases h

omit [DecidableEq C] in
theorem checkImage_true {env : Env Json C} {fs : Fs} {v : Json} (h : checkImage env fs v = .ok true) :
    ∃ rest w hh args, Asks v rest w hh args ∧ Fits env fs rest w hh := by
  unfold checkImage at h
  split at h
  case _ items =>
    split at h
    case _ rest hp =>
      split at h
      · cases h
      next b hb =>
      split at h
      · cases h
      next d hd =>
      obtain ⟨w, hh, cs, h1, h2, h3, h4, h5, h6, h7, -, -⟩ := checkTarget_true h
      exact ⟨rest, w, hh, _, ⟨items, rfl, hp, h1, h2, h3, rfl⟩, b, d, hb, hd, h4, h5, h6, h7⟩
    · cases h
  · cases h

omit [DecidableEq C] in
/-- The file is accepted if every entry is; otherwise the first one which is not decides. -/
theorem checkImages_true {env : Env Json C} {fs : Fs} : ∀ {items : List (Text × Json)},
    checkImages env fs items = .ok true ↔ ∀ x ∈ items, checkImage env fs x.2 = .ok true := by
  intro items
  induction items with
  | nil => simp [checkImages]
  | cons x xs ih =>
    unfold checkImages
    rw [List.forall_mem_cons]
    cases h : checkImage env fs x.2 with
    | error e => simp
    | ok b =>
      cases b with
      | false => simp
      | true => simp [ih]

theorem setting_whole {cs : List (Text × Json)} {k : Text} {n : ℤ} (h : WholeAt cs k n) : setting cs k (.int 0) = .ok (.int n) := by
  unfold setting
  rcases h with ⟨h, rfl⟩ | h
  · rw [h]
  · rw [h]; rfl

theorem setting_part {cs : List (Text × Json)} {k : Text} {q : ℚ} (h : PartAt cs k q) : ∃ x, setting cs k (.float (1 / 2)) = .ok x ∧ x.value = some q := by
  unfold setting
  rcases h with ⟨h, rfl⟩ | ⟨n, h, rfl⟩ | h
  · rw [h]; exact ⟨_, rfl, rfl⟩
  · rw [h]; exact ⟨_, rfl, rfl⟩
  · rw [h]; exact ⟨_, rfl, rfl⟩

theorem lt_int (a b : ℤ) : (Number.int a).lt (.int b) = decide (a < b) := by
  simp [Number.lt, Number.value]

theorem percent {x : Number} {q : ℚ} (h : x.value = some q) : ((Number.int 0).le x && x.le (.int 1)) = decide (0 ≤ q ∧ q ≤ 1) := by
  unfold Number.le
  rw [h]
  simp [Number.value]

theorem checkCrop_whole {cs : List (Text × Json)} {d : ℤ × ℤ} {w h : ℤ} {t l b r : ℤ} {pl pt : ℚ} (hv : Values cs t l b r pl pt) :
    checkCrop cs d w h = .ok true ↔ Sensible cs d w h t l b r pl pt := by
  obtain ⟨xl, el, vl⟩ := setting_part hv.pleft
  obtain ⟨xt, et, vt⟩ := setting_part hv.ptop
  have hk : (cs.any fun x => !validKeys.contains x.1) = true ↔ ¬ ∀ x ∈ cs, x.1 ∈ validKeys := by
    simp [List.any_eq_true]
  unfold checkCrop
  split
  · next ha =>
    rw [hk] at ha
    constructor
    · intro h; cases h
    · intro hs; exact absurd hs.keys ha
  · next ha =>
    rw [hk, not_not] at ha
    simp only [checkSigns, checkPercentages, checkSize, setting_whole hv.top, setting_whole hv.left, setting_whole hv.right, setting_whole hv.bottom, el, et,
      percent vl, percent vt, lt_int, Number.sub]
    constructor
    · intro hh
      by_cases h1 : t < 0
      · simp [h1] at hh
      by_cases h2 : l < 0
      · simp [h1, h2] at hh
      by_cases h3 : r < 0
      · simp [h1, h2, h3] at hh
      by_cases h4 : b < 0
      · simp [h1, h2, h3, h4] at hh
      by_cases h5 : 0 ≤ pl ∧ pl ≤ 1
      · by_cases h6 : 0 ≤ pt ∧ pt ≤ 1
        · by_cases h7 : d.1 - l - r < w
          · simp [h1, h2, h3, h4, h5, h6, h7] at hh
          by_cases h8 : d.2 - t - b < h
          · simp [h1, h2, h3, h4, h5, h6, h7, h8] at hh
          · exact ⟨ha, ⟨by omega, by omega, by omega, by omega⟩, ⟨h5.1, h5.2, h6.1, h6.2⟩, by omega, by omega⟩
        · simp only [h1, h2, h3, h4, h5, h6, decide_true, decide_false, if_true, if_false, Bool.false_eq_true, and_self] at hh
          cases hh
      · simp only [h1, h2, h3, h4, h5, decide_true, decide_false, if_true, if_false, Bool.false_eq_true] at hh
        cases hh
    · intro hs
      obtain ⟨s1, s2, s3, s4⟩ := hs.signs
      obtain ⟨p1, p2, p3, p4⟩ := hs.parts
      have h7 := hs.wide
      have h8 := hs.high
      have n1 : ¬ t < 0 := by omega
      have n2 : ¬ l < 0 := by omega
      have n3 : ¬ r < 0 := by omega
      have n4 : ¬ b < 0 := by omega
      have n7 : ¬ d.1 - l - r < w := by omega
      have n8 : ¬ d.2 - t - b < h := by omega
      simp [n1, n2, n3, n4, p1, p2, p3, p4, n7, n8]

/-- The crop settings of the entry, if any, are integers and numbers. -/
def Numeric (v : Json) : Prop :=
  ∀ cs, cropSettings v = some (.obj cs) → ∃ t l b r pl pt, Values cs t l b r pl pt

omit [DecidableEq C] in
theorem checkImage_iff {env : Env Json C} {fs : Fs} {v : Json} (hn : Numeric v) : checkImage env fs v = .ok true ↔ Right env fs v := by
  constructor
  · intro h
    unfold checkImage at h
    split at h
    case _ items =>
      split at h
      case _ rest hp =>
        split at h
        · cases h
        next img himg =>
        split at h
        · cases h
        next d hd =>
        obtain ⟨w, hh, cs, h1, h2, h3, h4, h5, h6, h7, h8, h9⟩ := checkTarget_true h
        have hcs : cropSettings (.obj items) = some (.obj cs) ∨ (cropSettings (.obj items) = none ∧ cs = []) := by
          unfold cropSettings
          cases hl : items.lookup (txt "crop_settings") with
          | none =>
            rw [hl] at h8
            simp only [Option.getD_none, Json.obj.injEq] at h8
            exact .inr ⟨by simp [hl], h8.symm⟩
          | some x =>
            rw [hl] at h8
            simp only [Option.getD_some] at h8
            exact .inl (by simp [hl, h8])
        obtain ⟨t, l, b, r, pl, pt, hv⟩ : ∃ t l b r pl pt, Values cs t l b r pl pt := by
          rcases hcs with hcs | ⟨-, rfl⟩
          · exact hn cs hcs
          · exact ⟨0, 0, 0, 0, 1 / 2, 1 / 2, .inl ⟨rfl, rfl⟩, .inl ⟨rfl, rfl⟩, .inl ⟨rfl, rfl⟩, .inl ⟨rfl, rfl⟩, .inl ⟨rfl, rfl⟩, .inl ⟨rfl, rfl⟩⟩
        exact ⟨rest, w, hh, _, cs, t, l, b, r, pl, pt, img, d, ⟨items, rfl, hp, h1, h2, h3, rfl⟩, himg, hd, h4, h5, h6, h7, hcs, hv, (checkCrop_whole hv).1 h9⟩
      · cases h
    · cases h
  · rintro ⟨rest, w, hh, args, cs, t, l, b, r, pl, pt, img, d, ⟨items, rfl, hp, h1, h2, h3, -⟩, himg, hd, h4, h5, h6, h7, hcs, hv, hs⟩
    have e1 : (items.lookup (txt "crop_style")).getD (.str (txt "cover")) = .str (txt "cover") := by
      rcases h3 with h3 | h3 <;> rw [h3] <;> rfl
    have e2 : (items.lookup (txt "crop_settings")).getD (.obj []) = .obj cs := by
      unfold cropSettings at hcs
      dsimp only at hcs
      rcases hcs with hcs | ⟨hcs, rfl⟩ <;> rw [hcs] <;> rfl
    have n1 : ¬ (w ≤ 0 ∨ d.1 < w) := by omega
    have n2 : ¬ (hh ≤ 0 ∨ d.2 < hh) := by omega
    unfold checkImage
    simp only [hp, himg, hd]
    unfold checkTarget
    simp only [h1, h2, n1, n2, if_false, e1, e2, ne_eq, not_true_eq_false]
    exact (checkCrop_whole hv).2 hs

omit [DecidableEq C] in
/-- **C86**: a file whose crops are integers and whose percentages are numbers is accepted exactly if every entry is right. -/
theorem C86_accepts {env : Env Json C} {fs : Fs} {items : List (Text × Json)} (hn : ∀ x ∈ items, Numeric x.2) :
    check env fs (.obj items) = .ok true ↔ ∀ x ∈ items, Right env fs x.2 := by
  unfold check
  rw [checkImages_true]
  exact forall₂_congr fun x hx => checkImage_iff (hn x hx)

omit [DecidableEq C] in
/-- **C86**: whatever else is in the file, the images of an accepted file exist and have at least the size asked for. -/
theorem C86_sizes {env : Env Json C} {fs : Fs} {data : Json} (h : check env fs data = .ok true) :
    ∃ items, data = .obj items ∧ ∀ x ∈ items, ∃ rest w hh args, Asks x.2 rest w hh args ∧ Fits env fs rest w hh := by
  unfold check at h
  split at h
  · next items => exact ⟨items, rfl, fun x hx => checkImage_true (checkImages_true.1 h x hx)⟩
  · cases h

/-- **C86**: nothing is announced, made or changed for a file which is not accepted. -/
theorem C86_rejected {t : Tools C} {rel : Text} {fs : Fs} {b : Bytes} {data : Json} (hb : fs rel = some b) (hd : t.loads b = some data)
    (hc : check t.env fs data = .ok false) : scanFile t rel fs = .ok (⟨[], []⟩, fs) ∧ buildFile t rel fs = .ok (⟨[], [], []⟩, fs) := by
  have hl : load t rel fs = .ok none := by
    unfold load
    simp only [hb, hd, hc]
  unfold scanFile buildFile
  rw [hl]
  constructor <;> split <;> rfl

end Verif.Img.Glue
