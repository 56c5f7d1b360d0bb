import Verif.CssPageFiles
import Verif.NestCase
import Verif.IconCase
import Verif.CssUrlsCase

/-!
# C64 and C65: a stylesheet
-/

namespace Verif.Css.Page.PageToy

open Verif.Reader (Text txt)
open Verif.Css (Tok)
open Verif.Handlers (Bytes Fs)

def rel : Text := txt "src/public/css/main.css"

/-- One rule with an image, and one which imports it, and has a file of the website. -/
def text : Text := txt ".a{b:url(\"data:image/svg+xml,<svg/>\")}.c{/*! PREPROCESSOR: import .a */d:url(/i.png)}"

def env : Env where
  nest := Nest.Toy.env fun p => if p = rel then (Css.tokenize Css.plainU text).toOption else none
  icon := { Icons.IconToy.env with self := rel }
  data := ⟨rel, fun fs p => (fs p).isSome, id, fun b => [48 + b.length % 10], fun b => txt "v=" ++ b⟩
  urls := ⟨rel, Urls.UrlToy.lower, fun b => txt "v=" ++ b⟩
  decode := id
  encode := id

def fs : Fs := fun p => if p = rel then some text else if p = txt "out/www/i.png.hash" then some (txt "abc") else none

def result : Option (Option (Bytes × List Text)) :=
  (buildFile 60 60 env rel fs).map fun
    | .error _ => none
    | .ok (r, fs') => (fs' (txt "out/www/css/main.css")).map fun b => (b, r.produced)

theorem runs : result = some (some
    (txt ".a{b:url(\"/img/gen/css/main/1.svg?v=6\")}.c{b:url(\"/img/gen/css/main/1.svg?v=6\")d:url(/i.png?v=abc)}",
      [txt "out/www/css/main.css", txt "out/www/css/main.css.hash", txt "out/www/img/gen/css/main/1.svg",
       txt "out/www/img/gen/css/main/1.svg.hash"])) := by decide +kernel

/-- The hypotheses of `C64_partial` and `C65` are met by this stylesheet. -/
theorem C64_case : Icons.Spaces env.icon.space ∧ AtHome env.data ∧ Handlers.copyTarget rel = some (txt "out/www/css/main.css") ∧
    ∃ r fs', buildFile 60 60 env rel fs = some (.ok (r, fs')) ∧
      fs' (txt "out/www/css/main.css") =
        some (txt ".a{b:url(\"/img/gen/css/main/1.svg?v=6\")}.c{b:url(\"/img/gen/css/main/1.svg?v=6\")d:url(/i.png?v=abc)}") := by
  refine ⟨Icons.IconToy.spaces, fun _ _ => rfl, by decide +kernel, ?_⟩
  have h := runs
  unfold result at h
  cases hb : buildFile 60 60 env rel fs with
  | none => rw [hb] at h; cases h
  | some x =>
    rw [hb] at h
    cases x with
    | error e => cases h
    | ok p =>
      obtain ⟨r, fs'⟩ := p
      simp only [Option.map_some, Option.some.injEq] at h
      refine ⟨r, fs', rfl, ?_⟩
      cases hf : fs' (txt "out/www/css/main.css") with
      | none => rw [hf] at h; cases h
      | some b =>
        rw [hf] at h
        simp only [Option.map_some, Option.some.injEq, Prod.mk.injEq] at h
        rw [h.1]

/-- One image, behind a blank: it stays in the stylesheet. -/
def hidden : Text := txt ".a{b:url( \"data:image/svg+xml,<svg/>\")}"

/-- What is missing in `C64_partial`: that every image has become a file. -/
theorem C64_false_image : ((buildFile 60 60 env rel fun p => if p = rel then some hidden else none).map fun
    | .error _ => none
    | .ok (_, fs') => fs' (txt "out/www/css/main.css")) = some (some hidden) := by decide +kernel

end Verif.Css.Page.PageToy
