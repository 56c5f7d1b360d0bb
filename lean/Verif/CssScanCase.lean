import Verif.CssScan
import Verif.CssPageCase

/-!
# C77: the scan of a stylesheet
-/

namespace Verif.Css.Page.ScanToy

open Verif.Reader (Text txt)
open Verif.Css (Tok)
open Verif.Handlers (Bytes Fs)

def rel : Text := txt "src/public/css/main.css"

/-- An imported rule, an icon, an image, and a file of the website. -/
def text : Text := txt ".a{/*! PREPROCESSOR: import .b from /css/b.css */c:url(\"data:image/svg+xml,<svg/>\");d:url(/i.png)}/*! PREPROCESSOR: icon check black [\"red\"] all-sizes */"

def env : Env where
  nest := Nest.Toy.env fun p => if p = rel then (Css.tokenize Css.plainU text).toOption else none
  icon := { Icons.IconToy.env with self := rel, main := txt "src/public/css/icons.css" }
  data := ⟨rel, fun fs p => (fs p).isSome, id, fun b => [48 + b.length % 10], fun b => txt "v=" ++ b⟩
  urls := ⟨rel, Urls.UrlToy.lower, fun b => txt "v=" ++ b⟩
  decode := id
  encode := id

def fs : Fs := fun p => if p = rel then some text else none

deriving instance DecidableEq for Handlers.Scan

def ts : List Tok := ((Css.tokenize Css.plainU text).toOption).getD []

theorem runs : ((scanFile 60 env rel fs).map fun
    | .error _ => none
    | .ok r => some r) = some (some
    ⟨[txt "src/public/css/b.css", txt "src/public/css/icons.css", txt "src/public/img/icons/check.svg", txt "out/www/img/icons/check/red.svg.hash",
      txt "out/www/img/gen/css/main/1.svg.hash", txt "out/www/i.png.hash"],
     [txt "out/www/css/main.css", txt "out/www/css/main.css.hash", txt "out/www/img/icons/check/red.svg", txt "out/www/img/icons/check/red.svg.hash",
      txt "out/www/img/gen/css/main/1.svg", txt "out/www/img/gen/css/main/1.svg.hash"]⟩) := by decide +kernel

theorem stylesheet : Data.Stylesheet rel (txt "css/main") := ⟨by decide, by decide, by decide⟩

/-- The hypotheses of `C77` are met by this stylesheet. -/
theorem C77_case : Css.tokenize Css.plainU text = .ok ts ∧ Data.Ended ts ∧ Urls.Rooted ts ∧ Icons.WellFormed env.icon ts ∧ Icons.Slashless env.icon ts := by
  have hw : Icons.WellFormed env.icon ts := Icons.IconToy.wellFormed Icons.IconToy.spaces (by decide +kernel)
  refine ⟨by decide +kernel, by decide +kernel, ?_, hw, Icons.IconToy.slashless Icons.IconToy.spaces hw (by decide) (by decide +kernel)⟩
  have h : ∀ t ∈ ts, ∀ v, (t = .str v ∨ t = .url v) → ¬ txt "//" <+: v := by
    have h1 : (ts.all fun t => match t with
      | .str v => decide (¬ txt "//" <+: v)
      | .url v => decide (¬ txt "//" <+: v)
      | _ => true) = true := by decide +kernel
    intro t ht v hv
    have h2 := List.all_eq_true.1 h1 t ht
    rcases hv with rfl | rfl <;> simpa using h2
  exact fun v hv => hv.elim (fun hv => h _ hv v (.inl rfl)) (fun hv => h _ hv v (.inr rfl))

end Verif.Css.Page.ScanToy
