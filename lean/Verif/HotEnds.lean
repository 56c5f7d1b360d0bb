import Verif.JsEnds
import Verif.CssEnds
import Verif.HotBuildsSheets
/-!
# The bounds on the steps, in projects
-/
namespace Verif.Hot.Scripts
open Verif Verif.Hot Verif.Graph
open Verif.Reader (Text txt)
open Verif.Handlers (Bytes Fs)

/-- For every script there is a number of steps which suffices in every project where its text is the same. -/
theorem enough_script (text : Text) : ∃ N, ∀ (c : Config), Js.SpaceOk c.js.space → N ≤ c.fuel → ∀ f y, c.js.decode y = text → Enough c f y := by
  obtain ⟨N, hN⟩ := Js.File.C112_script text
  refine ⟨N, fun c hs hf f y hy fs hfs => ?_⟩
  obtain ⟨⟨r, h1⟩, r', h2⟩ := hN c.js hs (txt f) fs y hfs hy
  exact ⟨by rw [h1 _ hf]; simp, by rw [h2 _ hf]; simp⟩

/-- For every stylesheet without imports there is a number of steps which suffices, whatever the other files are. -/
theorem enough_sheet (c : Config) (f : String) (y : Bytes)
    (hi : ∀ ts, Css.tokenize c.sheet.nest.uni (c.js.decode y) = .ok ts → ∀ fs r, ¬ Nest.Imports (sheetEnv c (txt f) fs).nest ts r) :
    ∃ N, ∀ fuel, N ≤ fuel → EnoughSheet { c with fuel := fuel } f y := by
  obtain ⟨N, hN⟩ := Css.Page.C112_sheet_scan c.sheet.nest.uni (c.js.decode y)
  obtain ⟨M, hM⟩ := Css.Page.C112_sheet_partial c.sheet.nest.uni { c.sheet.icon with self := txt f } (c.js.decode y)
  refine ⟨max N M, fun fuel hf fs hfs => ?_⟩
  obtain ⟨r, h1⟩ := hN (sheetEnv { c with fuel := fuel } (txt f) fs) rfl (txt f) fs y hfs rfl
  obtain ⟨r', h2⟩ := hM (sheetEnv { c with fuel := fuel } (txt f) fs) rfl rfl (txt f) fs y hfs rfl (fun ts ht r => hi ts ht fs r) c.bound
  exact ⟨by rw [h1 _ (show N ≤ fuel by omega)]; simp, by rw [h2 _ (show M ≤ fuel by omega)]; simp⟩

end Verif.Hot.Scripts
