import Verif.JsonDump
import Verif.ImgFilesThm
/-!
# The texts of metadata.json and placeholder.json

metadata.py:55-217 and where the texts are written and read (metadata.py:287, 293, 364;
exporter.py:112, 315).
-/
namespace Verif.ImgRecord
open Verif Verif.Reader Verif.JsonText

/-- metadata.py:55-87.  The values come from the JSON of a command and Python does not look at their types. -/
structure Crop where
  preTop : Value
  preLeft : Value
  preRight : Value
  preBottom : Value
  leftPart : Value
  topPart : Value

/-- `dataclasses.asdict` of `CropSettingsCover`. -/
def cropValue (c : Crop) : Value :=
  .obj [(txt "pre_top_crop", c.preTop), (txt "pre_left_crop", c.preLeft), (txt "pre_right_crop", c.preRight),
    (txt "pre_bottom_crop", c.preBottom), (txt "crop_left_percentage", c.leftPart), (txt "crop_top_percentage", c.topPart)]

/-- `dataclasses.asdict` of `ImageTargetSettings` (metadata.py:90-105). -/
def targetValue (t : Img.Files.Target Crop) : Value :=
  .obj [(txt "width", .int t.width), (txt "height", .int t.height), (txt "crop", .str t.crop),
    (txt "crop_settings", cropValue t.settings)]

/-- `dataclasses.asdict` of `ImageTargetOutput` (metadata.py:124-142).  The separator of paths is the slash, so
that metadata.py:213-216 changes nothing. -/
def picValue (p : Img.Files.Pic) : Value :=
  .obj [(txt "width", .int p.width), (txt "height", .int p.height), (txt "relpath", .str p.relpath), (txt "choice", .str p.choice)]

/-- metadata.py:209-217 `store_metadata`, with the dataclasses ImageMetadata, ImageSource and ImageTarget. -/
def metaValue (m : Img.Files.Metadata Crop) : Value :=
  .obj [(txt "settings_hash", .int m.settingsHash),
    (txt "source", .obj [(txt "path", .str m.path), (txt "width", .int m.width), (txt "height", .int m.height),
      (txt "contents_hash", .str m.contentsHash)]),
    (txt "target", .obj [(txt "settings", targetValue m.target),
      (txt "outputs", .obj (m.outputs.map fun o => (o.1, .arr (o.2.map picValue))))])]

/-- metadata.py:363-364: the text of placeholder.json. -/
def targetText (t : Img.Files.Target Crop) : Text := dump none 0 (targetValue t)

/-- exporter.py:309-315: the text of metadata.json. -/
def metaText (m : Img.Files.Metadata Crop) : Text := dump (some 2) 0 (metaValue m)

def asText : Value → Option Text
  | .str s => some s
  | _ => none

def asItems : Value → Option (List (Text × Value))
  | .obj l => some l
  | _ => none

def asList : Value → Option (List Value)
  | .arr l => some l
  | _ => none

/-- metadata.py:113-120 -/
def loadCrop (v : Value) : Option Crop := do
  pure ⟨← v.key "pre_top_crop", ← v.key "pre_left_crop", ← v.key "pre_right_crop", ← v.key "pre_bottom_crop",
    ← v.key "crop_left_percentage", ← v.key "crop_top_percentage"⟩

/-- metadata.py:108-121 `load_image_target_settings`; `none` is an exception.  Here and below Python does not look at
the types of the parts and takes any; here a part of the wrong type is refused. -/
def loadTarget (v : Value) : Option (Img.Files.Target Crop) := do
  pure ⟨← (← v.key "width").asInt, ← (← v.key "height").asInt, ← asText (← v.key "crop"), ← loadCrop (← v.key "crop_settings")⟩

/-- metadata.py:196-201 -/
def loadPic (v : Value) : Option Img.Files.Pic := do
  pure ⟨(← (← v.key "width").asInt).toNat, (← (← v.key "height").asInt).toNat, ← asText (← v.key "relpath"), ← asText (← v.key "choice")⟩

/-- metadata.py:179-206 `load_metadata` -/
def loadMeta (v : Value) : Option (Img.Files.Metadata Crop) := do
  let settingsHash ← (← v.key "settings_hash").asInt
  let source ← v.key "source"
  let target ← v.key "target"
  let outputs ← asItems (← target.key "outputs")
  pure {
    settingsHash := settingsHash
    path := ← asText (← source.key "path")
    width := ← (← source.key "width").asInt
    height := ← (← source.key "height").asInt
    contentsHash := ← asText (← source.key "contents_hash")
    target := ← loadTarget (← target.key "settings")
    outputs := ← outputs.mapM fun o => do pure (o.1, ← (← asList o.2).mapM loadPic) }

/-- metadata.py:287: `load_image_target_settings(json.load(f))` -/
def readTarget (t : Text) : Option (Img.Files.Target Crop) :=
  match loads t with
  | .ok v => loadTarget v
  | .error _ => none

/-- metadata.py:293, exporter.py:112-113: `load_metadata(json.load(f))` -/
def readMeta (t : Text) : Option (Img.Files.Metadata Crop) :=
  match loads t with
  | .ok v => loadMeta v
  | .error _ => none

/-! ## What Python has -/

def GenuineCrop (c : Crop) : Prop :=
  Genuine c.preTop ∧ Genuine c.preLeft ∧ Genuine c.preRight ∧ Genuine c.preBottom ∧ Genuine c.leftPart ∧ Genuine c.topPart

def GenuineTarget (t : Img.Files.Target Crop) : Prop := JsonText.Plain t.crop ∧ GenuineCrop t.settings

def GenuinePic (p : Img.Files.Pic) : Prop := JsonText.Plain p.relpath ∧ JsonText.Plain p.choice

/-- The texts have only characters, and `outputs` has every format once. -/
def GenuineMeta (m : Img.Files.Metadata Crop) : Prop :=
  JsonText.Plain m.path ∧ JsonText.Plain m.contentsHash ∧ GenuineTarget m.target ∧
  (∀ o ∈ m.outputs, JsonText.Plain o.1 ∧ ∀ p ∈ o.2, GenuinePic p) ∧ (m.outputs.map (·.1)).Nodup

theorem genuine_crop {c : Crop} (h : GenuineCrop c) : Genuine (cropValue c) := by
  obtain ⟨h1, h2, h3, h4, h5, h6⟩ := h
  simp only [cropValue, Genuine, GenuinePairs, List.map_cons, List.map_nil]
  exact ⟨⟨plain_txt _, h1, plain_txt _, h2, plain_txt _, h3, plain_txt _, h4, plain_txt _, h5, plain_txt _, h6, trivial⟩, by decide⟩

theorem genuine_target {t : Img.Files.Target Crop} (h : GenuineTarget t) : Genuine (targetValue t) := by
  have h1 := genuine_crop h.2
  simp only [targetValue, Genuine, GenuinePairs, List.map_cons, List.map_nil]
  exact ⟨⟨plain_txt _, trivial, plain_txt _, trivial, plain_txt _, h.1, plain_txt _, h1, trivial⟩, by decide⟩

theorem genuine_pic {p : Img.Files.Pic} (h : GenuinePic p) : Genuine (picValue p) := by
  simp only [picValue, Genuine, GenuinePairs, List.map_cons, List.map_nil]
  exact ⟨⟨plain_txt _, trivial, plain_txt _, trivial, plain_txt _, h.1, plain_txt _, h.2, trivial⟩, by decide⟩

theorem genuine_pics : ∀ {l : List Img.Files.Pic}, (∀ p ∈ l, GenuinePic p) → Genuines (l.map picValue)
  | [], _ => by simp [Genuines]
  | p :: l, h => by
    simp only [List.map_cons, Genuines]
    exact ⟨genuine_pic (h p (List.mem_cons_self ..)), genuine_pics fun q hq => h q (List.mem_cons_of_mem _ hq)⟩

theorem genuine_outputs : ∀ {l : List (Text × List Img.Files.Pic)}, (∀ o ∈ l, JsonText.Plain o.1 ∧ ∀ p ∈ o.2, GenuinePic p) →
    GenuinePairs (l.map fun o => (o.1, .arr (o.2.map picValue)))
  | [], _ => by simp [GenuinePairs]
  | o :: l, h => by
    have h1 := h o (List.mem_cons_self ..)
    simp only [List.map_cons, GenuinePairs, Genuine]
    exact ⟨h1.1, genuine_pics h1.2, genuine_outputs fun q hq => h q (List.mem_cons_of_mem _ hq)⟩

theorem genuine_meta {m : Img.Files.Metadata Crop} (h : GenuineMeta m) : Genuine (metaValue m) := by
  obtain ⟨h1, h2, h3, h4, h5⟩ := h
  have ht := genuine_target h3
  have ho := genuine_outputs h4
  simp only [metaValue, Genuine, GenuinePairs, List.map_cons, List.map_nil]
  refine ⟨⟨plain_txt _, trivial, plain_txt _, ⟨⟨plain_txt _, h1, plain_txt _, trivial, plain_txt _, trivial, plain_txt _, h2, trivial⟩, by decide⟩,
    plain_txt _, ⟨⟨plain_txt _, ht, plain_txt _, ⟨ho, ?_⟩, trivial⟩, by decide⟩, trivial⟩, by decide⟩
  simpa [List.map_map, Function.comp_def] using h5

/-! ## What is read -/

theorem loadCrop_value (c : Crop) : loadCrop (cropValue c) = some c := by
  have k1 : (cropValue c).key "pre_top_crop" = some c.preTop := rfl
  have k2 : (cropValue c).key "pre_left_crop" = some c.preLeft := rfl
  have k3 : (cropValue c).key "pre_right_crop" = some c.preRight := rfl
  have k4 : (cropValue c).key "pre_bottom_crop" = some c.preBottom := rfl
  have k5 : (cropValue c).key "crop_left_percentage" = some c.leftPart := rfl
  have k6 : (cropValue c).key "crop_top_percentage" = some c.topPart := rfl
  unfold loadCrop
  simp only [k1, k2, k3, k4, k5, k6, Option.bind_eq_bind, Option.bind_some, Option.pure_def]

theorem loadTarget_value (t : Img.Files.Target Crop) : loadTarget (targetValue t) = some t := by
  have k1 : (targetValue t).key "width" = some (.int t.width) := rfl
  have k2 : (targetValue t).key "height" = some (.int t.height) := rfl
  have k3 : (targetValue t).key "crop" = some (.str t.crop) := rfl
  have k4 : (targetValue t).key "crop_settings" = some (cropValue t.settings) := rfl
  unfold loadTarget
  simp only [k1, k2, k3, k4, loadCrop_value, Value.asInt, asText, Option.bind_eq_bind, Option.bind_some, Option.pure_def]

theorem loadPic_value (p : Img.Files.Pic) : loadPic (picValue p) = some p := by
  have k1 : (picValue p).key "width" = some (.int p.width) := rfl
  have k2 : (picValue p).key "height" = some (.int p.height) := rfl
  have k3 : (picValue p).key "relpath" = some (.str p.relpath) := rfl
  have k4 : (picValue p).key "choice" = some (.str p.choice) := rfl
  unfold loadPic
  simp only [k1, k2, k3, k4, Value.asInt, asText, Option.bind_eq_bind, Option.bind_some, Option.pure_def, Int.toNat_natCast]

theorem loadPics_value (l : List Img.Files.Pic) : (l.map picValue).mapM loadPic = some l := by
  induction l with
  | nil => rfl
  | cons p l ih => simp [List.mapM_cons, loadPic_value, ih]

theorem loadOutputs_value (l : List (Text × List Img.Files.Pic)) :
    (l.map fun o => (o.1, Value.arr (o.2.map picValue))).mapM (fun o => do pure (o.1, ← (← asList o.2).mapM loadPic)) = some l := by
  induction l with
  | nil => rfl
  | cons p l ih =>
    rw [List.map_cons, List.mapM_cons, ih]
    have h := loadPics_value p.2
    simp only [asList, h, Option.bind_eq_bind, Option.bind_some, Option.pure_def]

theorem loadMeta_value (m : Img.Files.Metadata Crop) : loadMeta (metaValue m) = some m := by
  have k1 : (metaValue m).key "settings_hash" = some (.int m.settingsHash) := rfl
  have k2 : (metaValue m).key "source" = some (.obj [(txt "path", .str m.path), (txt "width", .int m.width), (txt "height", .int m.height),
      (txt "contents_hash", .str m.contentsHash)]) := rfl
  have k3 : (metaValue m).key "target" = some (.obj [(txt "settings", targetValue m.target),
      (txt "outputs", .obj (m.outputs.map fun o => (o.1, .arr (o.2.map picValue))))]) := rfl
  generalize hs : Value.obj [(txt "path", .str m.path), (txt "width", .int m.width), (txt "height", .int m.height),
      (txt "contents_hash", .str m.contentsHash)] = sv at k2
  generalize ht : Value.obj [(txt "settings", targetValue m.target),
      (txt "outputs", .obj (m.outputs.map fun o => (o.1, .arr (o.2.map picValue))))] = tv at k3
  have k4 : sv.key "path" = some (.str m.path) := by rw [← hs]; rfl
  have k5 : sv.key "width" = some (.int m.width) := by rw [← hs]; rfl
  have k6 : sv.key "height" = some (.int m.height) := by rw [← hs]; rfl
  have k7 : sv.key "contents_hash" = some (.str m.contentsHash) := by rw [← hs]; rfl
  have k8 : tv.key "settings" = some (targetValue m.target) := by rw [← ht]; rfl
  have k9 : tv.key "outputs" = some (.obj (m.outputs.map fun o => (o.1, .arr (o.2.map picValue)))) := by rw [← ht]; rfl
  have ko := loadOutputs_value m.outputs
  unfold loadMeta
  simp only [Option.bind_eq_bind, Option.pure_def] at ko
  simp only [k1, k2, k3, k4, k5, k6, k7, k8, k9, ko, loadTarget_value, Value.asInt, asText, asItems, Option.bind_eq_bind, Option.bind_some, Option.pure_def]

/-- C114: what is recorded of a reserved target is read as it was written. -/
theorem C114_target {t : Img.Files.Target Crop} (h : GenuineTarget t) : readTarget (targetText t) = some t := by
  unfold readTarget targetText
  rw [loads_dump (genuine_target h) trivial]
  exact loadTarget_value t

/-- C114: what is recorded of the pictures which were made is read as it was written. -/
theorem C114_metadata {m : Img.Files.Metadata Crop} (h : GenuineMeta m) : readMeta (metaText m) = some m := by
  unfold readMeta metaText
  rw [loads_dump (genuine_meta h) trivial]
  exact loadMeta_value m

/-- C114: a record of which only the beginning was written is refused, never read as another. -/
theorem C114_torn_target {t : Img.Files.Target Crop} (h : GenuineTarget t) {p s : Text} (hp : p ++ s = targetText t) (hs : s ≠ []) :
    loads p = .error .decode ∧ readTarget p = none := by
  have : loads p = .error .decode := torn_dump (k := none) (by have := genuine_target h; unfold targetValue at this; exact this) hp hs
  exact ⟨this, by unfold readTarget; rw [this]⟩

theorem C114_torn_metadata {m : Img.Files.Metadata Crop} (h : GenuineMeta m) {p s : Text} (hp : p ++ s = metaText m) (hs : s ≠ []) :
    loads p = .error .decode ∧ readMeta p = none := by
  have : loads p = .error .decode := torn_dump (k := some 2) (by have := genuine_meta h; unfold metaValue at this; exact this) hp hs
  exact ⟨this, by unfold readMeta; rw [this]⟩

end Verif.ImgRecord
