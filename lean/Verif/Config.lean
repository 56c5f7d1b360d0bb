import Verif.ImgGlue
import Verif.ImgExport
import Verif.Assoc

/-!
# The configuration

Model of what vanillaplusjs/runners/build.py:103-132 and dev.py:228-242 read from vanillaplusjs.json: `load_image_settings`
(build/html/manips/images/settings.py), `load_external_files` and `load_js_constants` (build/build_context.py); and of what
vanillaplusjs/runners/init.py writes into it.

`json.load` is in ConfigText.lean: here a dictionary is the list of its items, with every key once.  `tus.check` (pytypeutils) is taken to be
`isinstance`, raising TypeError.  The icons (icons/settings.py, C63) are a parameter.  `os.path.sep` is a slash.
-/

namespace Verif.Config

open Verif.Reader (Text txt)
open Verif.Img.Glue (Json Number)

inductive Err where
  | exit
  | keyError
  | typeError
  | valueError
  | attributeError
  | decimalError
  deriving DecidableEq, Repr

/-- `decimal.Decimal` -/
inductive Dec where
  | fin (q : ℚ)
  | inf
  | ninf
  | nan
  deriving DecidableEq, Repr

/-- images/settings.py:8-35 -/
structure Export where
  minArea : Option ℤ
  maxArea : Option ℤ
  preference : ℤ
  kwargs : List (Text × Json)

/-- images/settings.py:64-78 -/
structure Format where
  name : Text
  exports : List (Text × Export)
  minUnit : ℤ

/-- images/settings.py:102-122 -/
structure Images where
  formats : List (Text × Format)
  default : Text
  maximum : ℤ
  step : Dec

/-- What is left of an export and a format for `Verif.Img`: `formatter_kwargs` are only passed to the encoder. -/
def Export.bare (e : Export) : Img.Export := ⟨e.minArea, e.maxArea, e.preference⟩

@[inherit_doc Export.bare]
def Format.bare (f : Format) : Img.Format := ⟨f.name, f.exports.map fun x => (x.1, x.2.bare), f.minUnit⟩

/-- images/settings.py:161-167: absent, null or an int -/
def area (v : Option Json) : Except Err (Option ℤ) :=
  match v with
  | none => .ok none
  | some .null => .ok none
  | some v =>
    match v.int? with
    | none => .error .typeError
    | some n => .ok (some n)

/-- images/settings.py:155-180 -/
def loadExport (v : Json) : Except Err Export :=
  match v with
  | .obj items =>
    match area (items.lookup (txt "min_area_px2")) with
    | .error e => .error e
    | .ok lo =>
      match area (items.lookup (txt "max_area_px2")) with
      | .error e => .error e
      | .ok hi =>
        match (items.lookup (txt "preference")).bind Json.int? with
        | none => .error .typeError
        | some pref =>
          match (items.lookup (txt "formatter_kwargs")).getD (.obj []) with
          | .obj kwargs => .ok ⟨lo, hi, pref, kwargs⟩
          | _ => .error .typeError
  | _ => .error .typeError

/-- images/settings.py:153-180 -/
def loadExports : List (Text × Json) → Except Err (List (Text × Export))
  | [] => .ok []
  | x :: xs =>
    match loadExport x.2 with
    | .error e => .error e
    | .ok e =>
      match loadExports xs with
      | .error e => .error e
      | .ok es => .ok ((x.1, e) :: es)

/-- images/settings.py:142-186 -/
def loadFormat (name : Text) (v : Json) : Except Err Format :=
  match v with
  | .obj items =>
    match items.lookup (txt "exports") with
    | some (.obj exports) =>
      match (items.lookup (txt "minimum_unit_size_bytes")).bind Json.int? with
      | none => .error .typeError
      | some unit =>
        match loadExports exports with
        | .error e => .error e
        | .ok es => .ok ⟨name, es, unit⟩
    | _ => .error .typeError
  | _ => .error .typeError

/-- images/settings.py:140-186 -/
def loadFormats : List (Text × Json) → Except Err (List (Text × Format))
  | [] => .ok []
  | x :: xs =>
    match loadFormat x.1 x.2 with
    | .error e => .error e
    | .ok f =>
      match loadFormats xs with
      | .error e => .error e
      | .ok fs => .ok ((x.1, f) :: fs)

/-- images/settings.py:134-137, 190: int, float or text; `decimal` is `Decimal` of a text, `none` its InvalidOperation. -/
def loadStep (decimal : Text → Option Dec) (v : Option Json) : Except Err Dec :=
  match v with
  | some (.bool b) => .ok (.fin (if b then 1 else 0))
  | some (.num (.int n)) => .ok (.fin n)
  | some (.num (.float q)) => .ok (.fin q)
  | some (.num .inf) => .ok .inf
  | some (.num .ninf) => .ok .ninf
  | some (.num .nan) => .ok .nan
  | some (.str t) =>
    match decimal t with
    | none => .error .decimalError
    | some d => .ok d
  | _ => .error .typeError

/-- images/settings.py:134-137 for the step: the types only -/
def stepType (v : Option Json) : Bool :=
  match v with
  | some (.bool _) => true
  | some (.num _) => true
  | some (.str _) => true
  | _ => false

/-- images/settings.py:195-196: `<=` raises InvalidOperation for NaN. -/
def Dec.check : Dec → Except Err Unit
  | .fin q => if q ≤ 0 then .error .valueError else .ok ()
  | .inf => .ok ()
  | .ninf => .error .valueError
  | .nan => .error .decimalError

/-- images/settings.py:125-203 -/
def loadImages (decimal : Text → Option Dec) (settings : Json) : Except Err Images :=
  match settings with
  | .obj items =>
    match items.lookup (txt "formats"), items.lookup (txt "default_format"), (items.lookup (txt "maximum_resolution")).bind Json.int?,
        stepType (items.lookup (txt "resolution_step")) with
    | some (.obj formats), some (.str default), some maximum, true =>
      match loadFormats formats with
      | .error e => .error e
      | .ok fs =>
        match loadStep decimal (items.lookup (txt "resolution_step")) with
        | .error e => .error e
        | .ok step =>
          if !(fs.map (·.1)).contains default then .error .valueError
          else
            match step.check with
            | .error e => .error e
            | .ok _ => .ok ⟨fs, default, maximum, step⟩
    | _, _, _, _ => .error .typeError
  | _ => .error .typeError

/-- build_context.py:12-34; what the URL and the hash are is not looked at. -/
structure External where
  relpath : Text
  url : Json
  integrity : Json

/-- build_context.py:223-229: one file -/
def loadExternal (key : Text) (v : Json) : Except Err External :=
  match v with
  | .obj items =>
    match (items.lookup (txt "relpath")).getD (.str key) with
    | .str relpath =>
      match items.lookup (txt "url") with
      | none => .error .keyError
      | some url =>
        match items.lookup (txt "integrity") with
        | none => .error .keyError
        | some integrity => .ok ⟨relpath, url, integrity⟩
    | _ => .error .attributeError
  | _ => .error .attributeError

/-- build_context.py:222-230 -/
def loadExternals : List (Text × Json) → List (Text × External) → Except Err (List (Text × External))
  | [], result => .ok result
  | x :: xs, result =>
    match loadExternal x.1 x.2 with
    | .error e => .error e
    | .ok f => loadExternals xs (Assoc.put result f.relpath f)

/-- build_context.py:239-242: the value of one constant; `none` is a KeyError. -/
def envValue (env : Text → Option Text) (v : Json) : Option Json :=
  match v with
  | .str t => if (txt "env://").isPrefixOf t then (env (t.drop 6)).map .str else some (.str t)
  | v => some v

/-- build_context.py:233-243 -/
def replaceEnv (env : Text → Option Text) : List (Text × Json) → Except Err (List (Text × Json))
  | [] => .ok []
  | x :: xs =>
    match envValue env x.2 with
    | none => .error .keyError
    | some v =>
      match replaceEnv env xs with
      | .error e => .error e
      | .ok vs => .ok ((x.1, v) :: vs)

/-- build_context.py:85-102 -/
structure Constants where
  relpath : Text
  shared : List (Text × Json)
  dev : List (Text × Json)
  prod : List (Text × Json)

/-- `data[key]`, and `.items()` of it -/
def itemsAt (items : List (Text × Json)) (key : Text) : Except Err (List (Text × Json)) :=
  match items.lookup key with
  | none => .error .keyError
  | some (.obj l) => .ok l
  | some _ => .error .attributeError

/-- build_context.py:246-253, for one of the dictionaries -/
def mode (env : Text → Option Text) (items : List (Text × Json)) (key : Text) : Except Err (List (Text × Json)) :=
  match itemsAt items key with
  | .error e => .error e
  | .ok l => replaceEnv env l

/-- build_context.py:246-253 -/
def loadConstants (env : Text → Option Text) (data : Json) : Except Err Constants :=
  match data with
  | .obj items =>
    match items.lookup (txt "relpath") with
    | none => .error .keyError
    | some (.str relpath) =>
      match mode env items (txt "shared") with
      | .error e => .error e
      | .ok shared =>
        match mode env items (txt "dev") with
        | .error e => .error e
        | .ok dev =>
          match mode env items (txt "prod") with
          | .error e => .error e
          | .ok prod => .ok ⟨relpath, shared, dev, prod⟩
    | some _ => .error .attributeError
  | _ => .error .typeError

/-- build_context.py:105-145: what the configuration says. -/
structure Context (I : Type) where
  host : Json
  icons : I
  images : Images
  placeholders : Json
  external : List (Text × External)
  constants : Constants

/-- What is outside: the environment, `Decimal` of a text and the icons. -/
structure World (I : Type) where
  env : Text → Option Text
  decimal : Text → Option Dec
  icons : List (Text × Json) → Except Err I

variable {I : Type}

/-- build.py:121-131, dev.py:232-241: what follows the host -/
def rest (w : World I) (items : List (Text × Json)) (host : Json) : Except Err (Context I) :=
  match w.icons items with
  | .error e => .error e
  | .ok icons =>
    match items.lookup (txt "images") with
    | none => .error .keyError
    | some images =>
      match loadImages w.decimal images with
      | .error e => .error e
      | .ok images =>
        match items.lookup (txt "auto_generate_images_js_placeholders") with
        | none => .error .keyError
        | some auto =>
          match itemsAt items (txt "external_files") with
          | .error e => .error e
          | .ok external =>
            match loadExternals external [] with
            | .error e => .error e
            | .ok external =>
              match items.lookup (txt "js_constants") with
              | none => .error .keyError
              | some constants =>
                match loadConstants w.env constants with
                | .error e => .error e
                | .ok constants => .ok ⟨host, icons, images, auto, external, constants⟩

/-- constants.py:1 -/
def version : Text := txt "1.0.0"

/-- build.py:103-131; `src` is whether the folder src exists. -/
def forBuild (w : World I) (src : Bool) (config : Json) : Except Err (Context I) :=
  match config with
  | .obj items =>
    match items.lookup (txt "version") with
    | none => .error .keyError
    | some (.str v) =>
      if v ≠ version then .error .exit
      else
        match items.lookup (txt "host") with
        | none => .error .keyError
        | some host => if src then rest w items host else .error .exit
    | some _ => .error .exit
  | _ => .error .exit

/-- dev.py:228-241: the rebuild while watching.  The icons are loaded from the same file. -/
def forWatch (w : World I) (config : Json) : Except Err (Context I) :=
  match config with
  | .obj items =>
    match items.lookup (txt "host") with
    | none => .error .keyError
    | some host => rest w items host
  | _ => .error .typeError

/-! ## init.py -/

/-- init.py:66-135: an export in the configuration -/
def exportJson (lo hi : Option ℤ) (pref : ℤ) (kwargs : List (Text × Json)) : Json :=
  .obj [(txt "min_area_px2", match lo with | none => .null | some n => .num (.int n)), (txt "max_area_px2", match hi with | none => .null | some n => .num (.int n)),
    (txt "preference", .num (.int pref)), (txt "formatter_kwargs", .obj kwargs)]

/-- init.py:62-91 -/
def jpegJson : Json :=
  .obj [(txt "exports", .obj [
      (txt "50", exportJson (some (600 * 600)) none 1 [(txt "quality", .num (.int 50))]),
      (txt "75", exportJson none none 2 [(txt "quality", .num (.int 75))]),
      (txt "85", exportJson none none 3 [(txt "quality", .num (.int 85))]),
      (txt "100", exportJson none (some (600 * 600)) 5 [(txt "quality", .num (.int 100))])]),
    (txt "minimum_unit_size_bytes", .num (.int 85000))]

/-- init.py:96-100 and so on -/
def webpArgs (quality : ℤ) (lossless : Bool) : List (Text × Json) :=
  [(txt "quality", .num (.int quality)), (txt "method", .num (.int 6)), (txt "lossless", .bool lossless)]

/-- init.py:92-146 -/
def webpJson : Json :=
  .obj [(txt "exports", .obj [
      (txt "50", exportJson (some (400 * 400)) none 1 (webpArgs 50 false)),
      (txt "75", exportJson (some (600 * 600)) none 2 (webpArgs 75 false)),
      (txt "85", exportJson none none 3 (webpArgs 85 false)),
      (txt "100", exportJson none (some (600 * 600)) 5 (webpArgs 100 false)),
      (txt "lossless", exportJson none (some (400 * 400)) 8 (webpArgs 100 true))]),
    (txt "minimum_unit_size_bytes", .num (.int 85000))]

/-- init.py:60: `None` is null. -/
def hostJson : Option Text → Json
  | none => .null
  | some t => .str t

/-- init.py:57-166: the configuration, as it is read again: the decimal 0.5 is written as text. -/
def initial (host : Option Text) : Json :=
  .obj [(txt "version", .str version), (txt "host", hostJson host),
    (txt "images", .obj [(txt "formats", .obj [(txt "jpeg", jpegJson), (txt "webp", webpJson)]), (txt "default_format", .str (txt "jpeg")),
      (txt "maximum_resolution", .num (.int 7)), (txt "resolution_step", .str (txt "0.5"))]),
    (txt "auto_generate_images_js_placeholders", .bool true), (txt "external_files", .obj []),
    (txt "js_constants", .obj [(txt "relpath", .str (txt "src/public/js/constants.js")), (txt "shared", .obj []),
      (txt "dev", .obj [(txt "API_URL", .str (txt "http://127.0.0.1:8080"))]), (txt "prod", .obj [(txt "API_URL", .str [])])])]

end Verif.Config
