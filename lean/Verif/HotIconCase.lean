import Verif.CssPageCase
import Verif.HotContentsCase
/-!
# Editing the source of an icon

A stylesheet with an icon, the source of the icon, and the constants are built; the source is changed, and it is built again.  The image in
the color asked for is not made again.
-/
namespace Verif.Hot.Icon
open Verif Verif.Hot
open Verif.Reader (Text txt)
open Verif.Handlers (Bytes Fs)
open Verif.Css.Page (buildFile scanFile)

def rel : Text := txt "src/public/css/main.css"

/-- One icon of one color and one size. -/
def text : Text := txt "/*! PREPROCESSOR: icon check black [\"red\"] [\"large\"]*/"

/-- The settings have no buttons. -/
def sheet : Css.Page.Env := { Css.Page.PageToy.env with
  icon := { Icons.IconToy.env with self := rel, settings := { Icons.IconToy.settings with buttons := none }, digest := fun b => [48 + b.length % 10] }
  nest := Nest.Toy.env fun p => if p = rel then (Css.tokenize Css.plainU text).toOption else none }

/-- The source of the icon, before and after the change. -/
def svg (v : Bool) : Bytes := if v then txt "<svg fill=\"#000000\"></svg>" else txt "<svg fill=\"#000000\"/>"

def fs (v : Bool) : Fs := fun p => if p = rel then some text else if p = txt "src/public/img/icons/check.svg" then some (svg v) else none

/-- What the build of the stylesheet reports. -/
def built (v : Bool) : Option (List Text × List Text × List Text) :=
  match buildFile 300 60 sheet rel (fs v) with
  | some (.ok (r, _)) => some (r.children, r.produced, r.reused)
  | _ => none

/-- The image which the build of the stylesheet makes. -/
def image (v : Bool) : Option Bytes :=
  match buildFile 300 60 sheet rel (fs v) with
  | some (.ok (_, fs')) => fs' (txt "out/www/img/icons/check/red.svg")
  | _ => none

/-- What the scan of the stylesheet announces. -/
def scanned (v : Bool) : Option (Option (List Text × List Text)) :=
  (scanFile 300 sheet rel (fs v)).map fun
    | .error _ => none
    | .ok r => some (r.dependencies, r.produces)

def made : List String := ["out/www/css/main.css", "out/www/css/main.css.hash", "out/www/img/icons/check/red.svg", "out/www/img/icons/check/red.svg.hash"]
def rS : BuildResult := ⟨["out/www/img/icons/check/red.svg.hash"], made, []⟩
def rI : BuildResult := ⟨[], ["out/www/img/icons/check.svg", "out/www/img/icons/check.svg.hash"], []⟩
def rK : BuildResult := ⟨[], ["out/www/k.js", "out/www/k.js.hash"], []⟩

def scanner : Scanner := fun _ f =>
  if f = "src/public/css/main.css" then .ok ⟨["src/public/img/icons/check.svg", "out/www/img/icons/check/red.svg.hash"], made, []⟩
  else if f = "src/public/img/icons/check.svg" then .ok ⟨[], ["out/www/img/icons/check.svg", "out/www/img/icons/check.svg.hash"], []⟩
  else if f = "src/public/k.js" then .ok ⟨[], ["out/www/k.js", "out/www/k.js.hash"], []⟩
  else .error .notFound

def env : Env where
  scan := scanner
  sig := fun _ => sig0
  order := id
  batches := [Triple.wait "src/public/img/icons/check.svg" rI, Triple.wait "src/public/k.js" rK, Triple.wait "src/public/css/main.css" rS]
  scanFuel := 4

def fresh : Disk := ⟨["src/public/css/main.css", "src/public/img/icons/check.svg", "src/public/k.js"], ["out"], none⟩
def all : Args := ⟨"src/public/k.js", .dev, ⟨[], [], []⟩, [],
  [("src/public/css/main.css", sig0), ("src/public/img/icons/check.svg", sig0), ("src/public/k.js", sig0)], []⟩
def run1 : Outcome := hotRebuild env all fresh
def graphs1 : Graphs := run1.stored.getD ⟨[], [], []⟩
/-- The source of the icon has been changed. -/
def edit : Args := ⟨"src/public/k.js", .dev, graphs1, [("src/public/img/icons/check.svg", sig1)], [], []⟩
def run2 : Outcome := hotRebuild env edit run1.disk

/-- Stylesheets with icons do not meet the law of `Pure` that what is read is listed, and `C79_incremental_as_clean_partial` fails for them: the scan of the stylesheet announces the source of the icon as a dependency, but the
build does not report it.  So after a change of the source only the source itself is built again; the rebuild finishes, and the image in the
color asked for remains the old one, and a build from scratch would make another one. -/
theorem C79_false_icon :
    (∀ v, scanned v = some (some ([txt "src/public/img/icons/check.svg", txt "out/www/img/icons/check/red.svg.hash"], made.map txt))) ∧
    (∀ v, (scanner fresh "src/public/css/main.css").toOption.map (fun s => (s.dependencies.map txt, s.produces.map txt)) = (scanned v).join) ∧
    (∀ v, built v = some (rS.children.map txt, rS.produced.map txt, rS.reused.map txt)) ∧
    image false = some (txt "<svg fill=\"#FF0000\"/>") ∧ image true = some (txt "<svg fill=\"#FF0000\"></svg>") ∧
    run1.status = .finished ∧ Event.finished "src/public/css/main.css" rS ∈ run1.log ∧ run1.stored = some graphs1 ∧
    run2.status = .finished ∧ run2.log = [.started "src/public/img/icons/check.svg", .finished "src/public/img/icons/check.svg" rI] ∧
    "out/www/img/icons/check/red.svg" ∈ run2.disk.files := by
  have h : run1.status = .finished ∧ run1.stored.isSome ∧ run2.status = .finished ∧
      run1.log = [.started "src/public/img/icons/check.svg", .started "src/public/k.js", .finished "src/public/img/icons/check.svg" rI,
        .started "src/public/css/main.css", .finished "src/public/k.js" rK, .finished "src/public/css/main.css" rS] ∧
      run2.log = [.started "src/public/img/icons/check.svg", .finished "src/public/img/icons/check.svg" rI] ∧
      "out/www/img/icons/check/red.svg" ∈ run2.disk.files := by decide +kernel
  refine ⟨by decide +kernel, by decide +kernel, by decide +kernel, by decide +kernel, by decide +kernel, h.1, ?_, ?_, h.2.2.1, h.2.2.2.2.1, h.2.2.2.2.2⟩
  · rw [h.2.2.2.1]
    simp
  · obtain ⟨g, hg⟩ := Option.isSome_iff_exists.1 h.2.1
    simp [graphs1, hg]

end Verif.Hot.Icon
