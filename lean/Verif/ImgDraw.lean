import Verif.ImgFitThm
import Verif.ImgFiles

/-!
# Drawing an image

Model of `produce_image` in vanillaplusjs/build/html/manips/images/exporter.py.  Pillow is a parameter: images have a size and
pixels, and can be cropped, resized and saved.
-/

namespace Verif.Img.Draw

open Verif.Reader (Text txt)
open Verif.Handlers (Bytes)

/-- metadata.py:55-87, the percentages as the rationals which they denote -/
structure Crop where
  top : ℤ
  left : ℤ
  right : ℤ
  bottom : ℤ
  leftPercentage : ℚ
  topPercentage : ℚ
  deriving DecidableEq, Repr

/-- Pillow, for images `I` with pixels `P`. -/
structure Lib (I P : Type) where
  /-- `Image.open` -/
  openImage : Bytes → Except Err I
  width : I → ℤ
  height : I → ℤ
  pixel : I → ℤ → ℤ → P
  /-- `image.crop((left, upper, right, lower))` -/
  crop : I → ℤ → ℤ → ℤ → ℤ → I
  /-- `image.resize((width, height), LANCZOS)` -/
  resize : I → ℤ → ℤ → Except Err I
  /-- `image.save(path, format=format, **formatter_kwargs)`; the name of the export stands for the arguments -/
  save : I → Text → Text → Except Err Bytes

variable {I P : Type}

/-- exporter.py:347-369: what is written to `dst_file`. -/
def produceImage (lib : Lib I P) (src : Bytes) (w h : ℕ) (style : Text) (c : Crop) (name fmt : Text) : Except Err Bytes :=
  if style ≠ txt "cover" then .error .asserted
  else
    match lib.openImage src with
    | .error e => .error e
    | .ok i =>
      match coverFit (lib.width i) (lib.height i) w h c.leftPercentage c.topPercentage c.top c.left c.bottom c.right with
      | .error e => .error e
      | .ok r =>
        let i := if r.x ≠ 0 ∨ r.y ≠ 0 ∨ r.w ≠ lib.width i ∨ r.h ≠ lib.height i then lib.crop i r.x r.y (r.x + r.w) (r.y + r.h) else i
        if lib.width i ≠ w ∨ lib.height i ≠ h then
          match lib.resize i w h with
          | .error e => .error e
          | .ok i => lib.save i name fmt
        else lib.save i name fmt

/-! ## Specification -/

/-- What is expected of Pillow: the sizes of its results, and the pixels of a region. -/
structure Lib.Lawful (lib : Lib I P) : Prop where
  cropWidth : ∀ i x y x' y', x ≤ x' → lib.width (lib.crop i x y x' y') = x' - x
  cropHeight : ∀ i x y x' y', y ≤ y' → lib.height (lib.crop i x y x' y') = y' - y
  cropPixel : ∀ i x y x' y' a b, 0 ≤ x → x' ≤ lib.width i → 0 ≤ y → y' ≤ lib.height i → 0 ≤ a → a < x' - x → 0 ≤ b → b < y' - y →
    lib.pixel (lib.crop i x y x' y') a b = lib.pixel i (x + a) (y + b)
  resized : ∀ i w h j, lib.resize i w h = .ok j → lib.width j = w ∧ lib.height j = h
  sizes : ∀ b i, lib.openImage b = .ok i → 0 < lib.width i ∧ 0 < lib.height i

/-- `j` is the part of `i` in the rectangle. -/
structure Part (lib : Lib I P) (i : I) (r : Rect) (j : I) : Prop where
  width : lib.width j = r.w
  height : lib.height j = r.h
  pixel : ∀ a b, 0 ≤ a → a < r.w → 0 ≤ b → b < r.h → lib.pixel j a b = lib.pixel i (r.x + a) (r.y + b)

/-- `j` is `i`, in the given size. -/
def Scaled (lib : Lib I P) (i : I) (w h : ℤ) (j : I) : Prop :=
  (lib.width i = w ∧ lib.height i = h ∧ j = i) ∨ (¬ (lib.width i = w ∧ lib.height i = h) ∧ lib.resize i w h = .ok j)

/-- What is cropped is the part of the source in the rectangle. -/
theorem part {lib : Lib I P} (hl : lib.Lawful) {i : I} {w h : ℤ} {c : Crop} {r : Rect} (hct : 0 ≤ c.top) (hcl : 0 ≤ c.left) (hcb : 0 ≤ c.bottom)
    (hcr : 0 ≤ c.right) (hg : GoodCrop (lib.width i) (lib.height i) w h c.leftPercentage c.topPercentage c.top c.left c.bottom c.right r) :
    Part lib i r (if r.x ≠ 0 ∨ r.y ≠ 0 ∨ r.w ≠ lib.width i ∨ r.h ≠ lib.height i then lib.crop i r.x r.y (r.x + r.w) (r.y + r.h) else i) := by
  have g1 := hg.left
  have g2 := hg.right
  have g3 := hg.top
  have g4 := hg.bottom
  have g5 := hg.width
  have g6 := hg.height
  split
  · refine ⟨?_, ?_, fun a b ha ha' hb hb' => ?_⟩
    · rw [hl.cropWidth _ _ _ _ _ (by omega)]; omega
    · rw [hl.cropHeight _ _ _ _ _ (by omega)]; omega
    · exact hl.cropPixel _ _ _ _ _ _ _ (by omega) (by omega) (by omega) (by omega) ha (by omega) hb (by omega)
  · next hn =>
    simp only [not_or, ne_eq, not_not] at hn
    obtain ⟨n1, n2, n3, n4⟩ := hn
    refine ⟨n3.symm, n4.symm, fun a b _ _ _ _ => ?_⟩
    rw [n1, n2, zero_add, zero_add]

/-- **C75**: an image which is written has exactly the size which is in its name; it shows a rectangle of the source as described
by `GoodCrop`, as it is or, if it has another size, scaled by Pillow. -/
theorem C75 {lib : Lib I P} (hl : lib.Lawful) {src : Bytes} {w h : ℕ} {style : Text} {c : Crop} {name fmt : Text} {i : I} (hi : lib.openImage src = .ok i)
    (hw : 0 < w) (hh : 0 < h) (h1 : lib.width i * h < 2 ^ 50) (h2 : lib.height i * w < 2 ^ 50)
    (hpl : 0 ≤ c.leftPercentage ∧ c.leftPercentage ≤ 1) (hpt : 0 ≤ c.topPercentage ∧ c.topPercentage ≤ 1)
    (hct : 0 ≤ c.top) (hcl : 0 ≤ c.left) (hcb : 0 ≤ c.bottom) (hcr : 0 ≤ c.right) {b : Bytes}
    (hb : produceImage lib src w h style c name fmt = .ok b) :
    style = txt "cover" ∧ ∃ r k j, GoodCrop (lib.width i) (lib.height i) w h c.leftPercentage c.topPercentage c.top c.left c.bottom c.right r ∧
      Part lib i r k ∧ Scaled lib k w h j ∧ lib.width j = w ∧ lib.height j = h ∧ lib.save j name fmt = .ok b := by
  unfold produceImage at hb
  by_cases hs : style = txt "cover"
  swap
  · rw [if_pos hs] at hb; cases hb
  rw [if_neg (not_not.2 hs), hi] at hb
  dsimp only at hb
  obtain ⟨s1, s2⟩ := hl.sizes _ _ hi
  refine ⟨hs, ?_⟩
  rcases C39 s1 s2 (dw := w) (dh := h) (by omega) (by omega) h1 h2 hpl hpt hct hcl hcb hcr with ⟨-, -, r, hr, hg⟩ | ⟨-, hr⟩
  swap
  · rw [hr] at hb; cases hb
  rw [hr] at hb
  dsimp only at hb
  have hp := part hl hct hcl hcb hcr hg
  generalize (if r.x ≠ 0 ∨ r.y ≠ 0 ∨ r.w ≠ lib.width i ∨ r.h ≠ lib.height i then lib.crop i r.x r.y (r.x + r.w) (r.y + r.h) else i) = k at hb hp
  refine ⟨r, k, ?_⟩
  split at hb
  · next hne =>
    split at hb
    · cases hb
    · next j hj =>
      refine ⟨j, hg, hp, .inr ⟨?_, hj⟩, (hl.resized _ _ _ _ hj).1, (hl.resized _ _ _ _ hj).2, hb⟩
      rcases hne with hne | hne
      · exact fun h => hne h.1
      · exact fun h => hne h.2
  · next hne =>
    simp only [not_or, ne_eq, not_not] at hne
    exact ⟨k, hg, hp, .inl ⟨hne.1, hne.2, rfl⟩, hne.1, hne.2, hb⟩

/-- **C75**: the image is written if what the pre-crops leave of the source is large enough, and Pillow can scale and save. -/
theorem C75_total {lib : Lib I P} (hl : lib.Lawful) {src : Bytes} {w h : ℕ} {c : Crop} {name fmt : Text} {i : I} (hi : lib.openImage src = .ok i)
    (hw : 0 < w) (hh : 0 < h) (h1 : lib.width i * h < 2 ^ 50) (h2 : lib.height i * w < 2 ^ 50)
    (hpl : 0 ≤ c.leftPercentage ∧ c.leftPercentage ≤ 1) (hpt : 0 ≤ c.topPercentage ∧ c.topPercentage ≤ 1)
    (hct : 0 ≤ c.top) (hcl : 0 ≤ c.left) (hcb : 0 ≤ c.bottom) (hcr : 0 ≤ c.right)
    (hx : w ≤ lib.width i - c.left - c.right) (hy : h ≤ lib.height i - c.top - c.bottom)
    (hres : ∀ k, 0 < lib.width k → 0 < lib.height k → ∃ j, lib.resize k w h = .ok j) (hsave : ∀ k, ∃ b, lib.save k name fmt = .ok b) :
    ∃ b, produceImage lib src w h (txt "cover") c name fmt = .ok b := by
  obtain ⟨s1, s2⟩ := hl.sizes _ _ hi
  rcases C39 s1 s2 (dw := w) (dh := h) (by omega) (by omega) h1 h2 hpl hpt hct hcl hcb hcr with ⟨-, -, r, hr, hg⟩ | ⟨hn, -⟩
  swap
  · omega
  unfold produceImage
  rw [if_neg (by simp), hi]
  dsimp only
  rw [hr]
  dsimp only
  have hp := part hl hct hcl hcb hcr hg
  obtain ⟨u1, u2⟩ := C39_no_upscale (dw := w) (dh := h) (by omega) (by omega) h1 h2 hct hcl hcb hcr hx hy hr
  generalize (if r.x ≠ 0 ∨ r.y ≠ 0 ∨ r.w ≠ lib.width i ∨ r.h ≠ lib.height i then lib.crop i r.x r.y (r.x + r.w) (r.y + r.h) else i) = k at hp
  split
  · obtain ⟨j, hj⟩ := hres k (by rw [hp.width]; omega) (by rw [hp.height]; omega)
    rw [hj]
    exact hsave j
  · exact hsave _

/-! ## A library -/

/-- Images are their size and their pixels. -/
structure Grid where
  width : ℤ
  height : ℤ
  pixel : ℤ → ℤ → ℕ

/-- Images of four bytes' worth of size; scaling picks the nearest pixel. -/
def toy : Lib Grid ℕ where
  openImage := fun b => match b with
    | w :: h :: px => if w = 0 ∨ h = 0 then .error .valueError else .ok ⟨w, h, fun x y => px.getD (y * w + x).toNat 0⟩
    | _ => .error .valueError
  width := (·.width)
  height := (·.height)
  pixel := (·.pixel)
  crop := fun i x y x' y' => ⟨x' - x, y' - y, fun a b => i.pixel (x + a) (y + b)⟩
  resize := fun i w h => if i.width ≤ 0 ∨ i.height ≤ 0 then .error .valueError else .ok ⟨w, h, fun a b => i.pixel (a * i.width / w) (b * i.height / h)⟩
  save := fun i _ _ => .ok (i.width.toNat :: i.height.toNat :: (List.range i.height.toNat).flatMap fun (y : ℕ) => (List.range i.width.toNat).map fun (x : ℕ) => i.pixel x y)

theorem toy_lawful : toy.Lawful where
  cropWidth := fun _ _ _ _ _ _ => rfl
  cropHeight := fun _ _ _ _ _ _ => rfl
  cropPixel := fun _ _ _ _ _ _ _ _ _ _ _ _ _ _ _ => rfl
  resized := by
    intro i w h j hj
    simp only [toy] at hj
    split at hj
    · cases hj
    · cases hj; exact ⟨rfl, rfl⟩
  sizes := by
    intro b i hi
    simp only [toy] at hi
    split at hi
    · split at hi
      · cases hi
      · next hn =>
        cases hi
        simp only [toy]
        omega
    · cases hi

deriving instance DecidableEq for Except

/-- A picture of four by two pixels, cropped and scaled to one pixel, and cropped to its middle. -/
theorem C75_case : produceImage toy [4, 2, 1, 2, 3, 4, 5, 6, 7, 8] 1 1 (txt "cover") ⟨0, 0, 0, 0, 1 / 2, 1 / 2⟩ [] [] = .ok [1, 1, 2] ∧
    produceImage toy [4, 2, 1, 2, 3, 4, 5, 6, 7, 8] 2 2 (txt "cover") ⟨0, 0, 0, 0, 1 / 2, 1 / 2⟩ [] [] = .ok [2, 2, 2, 3, 6, 7] ∧
    produceImage toy [4, 2, 1, 2, 3, 4, 5, 6, 7, 8] 4 2 (txt "cover") ⟨0, 0, 0, 0, 1 / 2, 1 / 2⟩ [] [] = .ok [4, 2, 1, 2, 3, 4, 5, 6, 7, 8] ∧
    produceImage toy [4, 2, 1, 2, 3, 4, 5, 6, 7, 8] 1 1 (txt "cover") ⟨0, 2, 2, 0, 1 / 2, 1 / 2⟩ [] [] = .error .valueError := by decide +kernel

end Verif.Img.Draw
