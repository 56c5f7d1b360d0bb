import Verif.ConfigThm
import Verif.ImgFilesThm

/-!
# C87: the configuration which init writes, and what is not checked
-/

namespace Verif.Config

open Verif.Reader (Text txt)
open Verif.Img.Glue (Json Number)

variable {I : Type}

/-- The initial settings for jpeg. -/
def jpeg : Format :=
  ⟨txt "jpeg", [(txt "50", ⟨some 360000, none, 1, [(txt "quality", .num (.int 50))]⟩), (txt "75", ⟨none, none, 2, [(txt "quality", .num (.int 75))]⟩),
    (txt "85", ⟨none, none, 3, [(txt "quality", .num (.int 85))]⟩), (txt "100", ⟨none, some 360000, 5, [(txt "quality", .num (.int 100))]⟩)], 85000⟩

/-- The initial settings for webp. -/
def webp : Format :=
  ⟨txt "webp", [
    (txt "50", ⟨some 160000, none, 1, [(txt "quality", .num (.int 50)), (txt "method", .num (.int 6)), (txt "lossless", .bool false)]⟩),
    (txt "75", ⟨some 360000, none, 2, [(txt "quality", .num (.int 75)), (txt "method", .num (.int 6)), (txt "lossless", .bool false)]⟩),
    (txt "85", ⟨none, none, 3, [(txt "quality", .num (.int 85)), (txt "method", .num (.int 6)), (txt "lossless", .bool false)]⟩),
    (txt "100", ⟨none, some 360000, 5, [(txt "quality", .num (.int 100)), (txt "method", .num (.int 6)), (txt "lossless", .bool false)]⟩),
    (txt "lossless", ⟨none, some 160000, 8, [(txt "quality", .num (.int 100)), (txt "method", .num (.int 6)), (txt "lossless", .bool true)]⟩)], 85000⟩

/-- The initial settings for images. -/
def images0 : Images := ⟨[(txt "jpeg", jpeg), (txt "webp", webp)], txt "jpeg", 7, .fin (1 / 2)⟩

/-- The initial constants. -/
def constants0 : Constants :=
  ⟨txt "src/public/js/constants.js", [], [(txt "API_URL", .str (txt "http://127.0.0.1:8080"))], [(txt "API_URL", .str [])]⟩

/-- **C87**: the configuration which init writes is accepted, whatever the host is, and has these settings. -/
theorem C87_init {w : World I} {icons : I} (hd : w.decimal (txt "0.5") = some (.fin (1 / 2))) (host : Option Text) {items : List (Text × Json)}
    (hi : initial host = .obj items) (hw : w.icons items = .ok icons) :
    forBuild w true (initial host) = .ok ⟨host.elim .null .str, icons, images0, .bool true, [], constants0⟩ := by
  have h1 : ∀ v, items.lookup (txt "images") = some v → loadImages w.decimal v = .ok images0 := by
    intro v hv
    cases hi
    have : v = .obj [(txt "formats", .obj [(txt "jpeg", jpegJson), (txt "webp", webpJson)]), (txt "default_format", .str (txt "jpeg")),
      (txt "maximum_resolution", .num (.int 7)), (txt "resolution_step", .str (txt "0.5"))] := by
      have : some v = _ := hv.symm
      exact Option.some.inj (this.trans rfl)
    subst this
    have hf : loadFormats [(txt "jpeg", jpegJson), (txt "webp", webpJson)] = .ok [(txt "jpeg", jpeg), (txt "webp", webp)] := rfl
    have hs : loadStep w.decimal (some (.str (txt "0.5"))) = .ok (.fin (1 / 2)) := by
      unfold loadStep
      simp only [hd]
    have hc : Dec.check (.fin (1 / 2)) = .ok () := check_iff.2 (.inr ⟨_, rfl, by norm_num⟩)
    unfold loadImages
    have l1 : [(txt "formats", Json.obj [(txt "jpeg", jpegJson), (txt "webp", webpJson)]), (txt "default_format", .str (txt "jpeg")),
      (txt "maximum_resolution", .num (.int 7)), (txt "resolution_step", .str (txt "0.5"))].lookup (txt "formats") =
        some (.obj [(txt "jpeg", jpegJson), (txt "webp", webpJson)]) := rfl
    have l2 : [(txt "formats", Json.obj [(txt "jpeg", jpegJson), (txt "webp", webpJson)]), (txt "default_format", .str (txt "jpeg")),
      (txt "maximum_resolution", .num (.int 7)), (txt "resolution_step", .str (txt "0.5"))].lookup (txt "default_format") = some (.str (txt "jpeg")) := rfl
    have l3 : ([(txt "formats", Json.obj [(txt "jpeg", jpegJson), (txt "webp", webpJson)]), (txt "default_format", .str (txt "jpeg")),
      (txt "maximum_resolution", .num (.int 7)), (txt "resolution_step", .str (txt "0.5"))].lookup (txt "maximum_resolution")).bind Json.int? = some 7 := rfl
    have l4 : [(txt "formats", Json.obj [(txt "jpeg", jpegJson), (txt "webp", webpJson)]), (txt "default_format", .str (txt "jpeg")),
      (txt "maximum_resolution", .num (.int 7)), (txt "resolution_step", .str (txt "0.5"))].lookup (txt "resolution_step") = some (.str (txt "0.5")) := rfl
    simp only [l1, l2, l3, l4, stepType, hf, hs, hc]
    rfl
  have h2 : ∀ v, items.lookup (txt "js_constants") = some v → loadConstants w.env v = .ok constants0 := by
    intro v hv
    cases hi
    have : v = .obj [(txt "relpath", .str (txt "src/public/js/constants.js")), (txt "shared", .obj []),
      (txt "dev", .obj [(txt "API_URL", .str (txt "http://127.0.0.1:8080"))]), (txt "prod", .obj [(txt "API_URL", .str [])])] := by
      have : some v = _ := hv.symm
      exact Option.some.inj (this.trans rfl)
    subst this
    rfl
  have e1 : ∃ v, items.lookup (txt "images") = some v := by cases hi; exact ⟨_, rfl⟩
  have e2 : ∃ v, items.lookup (txt "js_constants") = some v := by cases hi; exact ⟨_, rfl⟩
  have e3 : items.lookup (txt "auto_generate_images_js_placeholders") = some (.bool true) := by cases hi; rfl
  have e4 : itemsAt items (txt "external_files") = .ok [] := by cases hi; rfl
  have e5 : items.lookup (txt "version") = some (.str version) := by cases hi; rfl
  have e6 : items.lookup (txt "host") = some (host.elim .null .str) := by cases hi; cases host <;> rfl
  obtain ⟨v, hv⟩ := e1
  obtain ⟨v', hv'⟩ := e2
  have hr : ∀ h, rest w items h = .ok ⟨h, icons, images0, .bool true, [], constants0⟩ := by
    intro h
    unfold rest
    simp only [hw, hv, h1 v hv, e3, e4, loadExternals, hv', h2 v' hv']
  rw [hi]
  unfold forBuild
  simp only [e5, e6, hr, ne_eq, not_true_eq_false, if_false, if_true]

/-- The initial settings are as the theorems about images need them: file-name-safe names, positive preferences, and for every
size and format an export which applies. -/
theorem C87_init_good : ∀ x ∈ images0.formats, Img.GoodFormat x.2.bare ∧ x.2.name = x.1 ∧ 47 ∉ x.1 ∧ x.1 ≠ txt "hash" ∧
    (∀ e ∈ x.2.exports, 47 ∉ e.1) ∧ ∀ w h, ∃ e ∈ x.2.exports, e.2.bare.appliesTo w h = true := by
  intro x hx
  simp only [images0, List.mem_cons, List.not_mem_nil, or_false] at hx
  rcases hx with rfl | rfl
  · refine ⟨⟨by decide, by decide, ?_⟩, rfl, by decide, by decide, ?_, fun w h => ⟨(txt "75", _), .tail _ (.head _), rfl⟩⟩
    · simp [jpeg, Format.bare, Export.bare]
    · simp only [jpeg, List.mem_cons, List.not_mem_nil, or_false, forall_eq_or_imp, forall_eq]
      decide
  · refine ⟨⟨by decide, by decide, ?_⟩, rfl, by decide, by decide, ?_, fun w h => ⟨(txt "85", _), .tail _ (.tail _ (.head _)), rfl⟩⟩
    · simp [webp, Format.bare, Export.bare]
    · simp only [webp, List.mem_cons, List.not_mem_nil, or_false, forall_eq_or_imp, forall_eq]
      decide

/-- The case for C87: a world, with an external file given twice, a constant from the environment, and the initial images. -/
def world : World Unit := ⟨fun t => if t = txt "HOST" then some (txt "x.org") else none, fun t => if t = txt "0.5" then some (.fin (1 / 2)) else none, fun _ => .ok ()⟩

/-- The settings of the case, behind the version. -/
def config : List (Text × Json) :=
  [(txt "host", .null),
    (txt "images", .obj [(txt "formats", .obj [(txt "jpeg", jpegJson)]), (txt "default_format", .str (txt "jpeg")),
      (txt "maximum_resolution", .num (.int 7)), (txt "resolution_step", .num (.int 1))]),
    (txt "auto_generate_images_js_placeholders", .bool true),
    (txt "external_files", .obj [(txt "a.js", .obj [(txt "url", .str (txt "u")), (txt "integrity", .str (txt "i"))]),
      (txt "b", .obj [(txt "relpath", .str (txt "a.js")), (txt "url", .str (txt "v")), (txt "integrity", .str (txt "j"))])]),
    (txt "js_constants", .obj [(txt "relpath", .str (txt "c.js")), (txt "shared", .obj [(txt "H", .str (txt "env://HOST"))]), (txt "dev", .obj []),
      (txt "prod", .obj [])])]

/-- What the case gives. -/
def context : Context Unit := ⟨.null, (), ⟨[(txt "jpeg", jpeg)], txt "jpeg", 7, .fin 1⟩, .bool true,
  [(txt "a.js", ⟨txt "a.js", .str (txt "v"), .str (txt "j")⟩)], ⟨txt "c.js", [(txt "H", .str (txt "x.org"))], [], []⟩⟩

theorem rest_case (v : Json) : rest world ((txt "version", v) :: config) .null = .ok context := by
  have h1 : loadImages world.decimal (.obj [(txt "formats", .obj [(txt "jpeg", jpegJson)]), (txt "default_format", .str (txt "jpeg")),
      (txt "maximum_resolution", .num (.int 7)), (txt "resolution_step", .num (.int 1))]) = .ok ⟨[(txt "jpeg", jpeg)], txt "jpeg", 7, .fin 1⟩ := by
    refine C87_images.2 ⟨_, _, rfl, rfl, loadFormats_iff.1 rfl, rfl, ⟨_, .head _, rfl⟩, .inl rfl, .inl ⟨1, .inl rfl, by simp⟩, .inr ⟨1, rfl, by norm_num⟩⟩
  have hv : ((txt "version", v) :: config).lookup (txt "images") = some (.obj [(txt "formats", .obj [(txt "jpeg", jpegJson)]), (txt "default_format", .str (txt "jpeg")),
    (txt "maximum_resolution", .num (.int 7)), (txt "resolution_step", .num (.int 1))]) := rfl
  have hw : world.icons ((txt "version", v) :: config) = .ok () := rfl
  unfold rest
  simp only [hw, hv, h1]
  rfl

theorem C87_case : forBuild world true (.obj ((txt "version", .str (txt "1.0.0")) :: config)) = .ok context ∧
    world.decimal (txt "0.5") = some (.fin (1 / 2)) ∧ Says world ((txt "version", .str (txt "1.0.0")) :: config) context ∧
    ∃ items, initial (some (txt "x.org")) = .obj items ∧ world.icons items = .ok () := by
  have e1 : ((txt "version", Json.str (txt "1.0.0")) :: config).lookup (txt "version") = some (.str version) := rfl
  have e2 : ((txt "version", Json.str (txt "1.0.0")) :: config).lookup (txt "host") = some .null := rfl
  refine ⟨?_, rfl, rest_says e2 (rest_case _), _, rfl, rfl⟩
  unfold forBuild
  simp only [e1, e2, rest_case, ne_eq, not_true_eq_false, if_false, if_true]

/-- Much is not checked: settings with a format whose name is a path, which has an export with preference 0 only, a largest
resolution of 0 and an infinite step are accepted. -/
theorem C87_false_unchecked (decimal : Text → Option Dec) : ∃ v s, loadImages decimal v = .ok s ∧ s.default = txt "../x" ∧ s.maximum = 0 ∧ s.step = .inf ∧
    s.formats = [(txt "../x", ⟨txt "../x", [([], ⟨none, none, 0, []⟩)], -1⟩)] := by
  refine ⟨.obj [(txt "formats", .obj [(txt "../x", .obj [(txt "exports", .obj [([], .obj [(txt "preference", .num (.int 0))])]),
      (txt "minimum_unit_size_bytes", .num (.int (-1)))])]), (txt "default_format", .str (txt "../x")), (txt "maximum_resolution", .num (.int 0)),
      (txt "resolution_step", .num .inf)], ⟨[(txt "../x", ⟨txt "../x", [([], ⟨none, none, 0, []⟩)], -1⟩)], txt "../x", 0, .inf⟩, ?_, rfl, rfl, rfl, rfl⟩
  exact C87_images.2 ⟨_, _, rfl, rfl, loadFormats_iff.1 rfl, rfl, ⟨_, .head _, rfl⟩, .inl rfl, .inr (.inr (.inl ⟨rfl, rfl⟩)), .inl rfl⟩

/-- The version is not looked at while watching: a configuration of another version is rejected by the build, and used then. -/
theorem C87_false_version : ∃ old c, forBuild world true old = .error .exit ∧ forWatch world old = .ok c := by
  have e2 : ((txt "version", Json.str (txt "0.9")) :: config).lookup (txt "host") = some .null := rfl
  refine ⟨.obj ((txt "version", .str (txt "0.9")) :: config), context, rfl, ?_⟩
  unfold forWatch
  simp only [e2, rest_case]

end Verif.Config
