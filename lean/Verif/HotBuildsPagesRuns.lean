import Verif.HotScriptsCase
import Lean.Elab.Tactic
/-!
# C110: the steps for a page

A page which links to a script and includes a template is scanned and built within the steps of the model, whatever other files there are.
Both sides of the equations below are the same by evaluation; `kernel_refl` is `rfl` without the elaborator's own attempt, which takes too much memory, so
that only the kernel evaluates.
-/
namespace Verif.Hot.Scripts.Album
open Verif Verif.Hot
open Verif.Reader (Text txt)
open Verif.Handlers (Bytes Fs)
open Site (cfg)

local macro "kernel_refl" : tactic => `(tactic|
  run_tac (Lean.Elab.Tactic.getMainGoal >>= fun g => g.assign (Lean.mkApp2 (Lean.mkConst ``Eq.refl [1]) (Lean.mkConst ``Bool) (Lean.mkConst ``Bool.true))))

/-- Some files, among them the page and the template. -/
def given (p : Bytes) (o q : Option Bytes) (fs : Fs) : Fs := fun n => if n = txt "src/public/index.html" then some (txt "art")
  else if n = txt "src/partials/x.html" then some p else if n = txt "out/www/a.js.hash" then o else if n = txt "out/www/b.js.hash" then q else fs n

theorem given_eq {p : Bytes} {fs : Fs} (h1 : fs (txt "src/public/index.html") = some (txt "art")) (h2 : fs (txt "src/partials/x.html") = some p) :
    fs = given p (fs (txt "out/www/a.js.hash")) (fs (txt "out/www/b.js.hash")) fs := by
  funext n
  unfold given
  split
  · next h => rw [h, h1]
  · split
    · next h => rw [h, h2]
    · split
      · next h => rw [h]
      · split
        · next h => rw [h]
        · rfl

/-- The texts of the template. -/
def textOf : Option Bool → Text
  | some v => if v then txt "new" else txt "old"
  | none => txt "link"

theorem scan_old (o q : Option Bytes) (fs : Fs) : (Html.Page.scanFile 100 (pageEnv cfg true (txt "src/public/index.html") (given (txt "old") o q fs)) (given (txt "old") o q fs)).isSome = true := by
  kernel_refl
theorem build_old (o q : Option Bytes) (fs : Fs) : (Html.Page.buildFile 100 (pageEnv cfg false (txt "src/public/index.html") (given (txt "old") o q fs)) (given (txt "old") o q fs)).isSome = true := by
  cases o <;> kernel_refl
theorem scan_new (o q : Option Bytes) (fs : Fs) : (Html.Page.scanFile 100 (pageEnv cfg true (txt "src/public/index.html") (given (txt "new") o q fs)) (given (txt "new") o q fs)).isSome = true := by
  kernel_refl
theorem build_new (o q : Option Bytes) (fs : Fs) : (Html.Page.buildFile 100 (pageEnv cfg false (txt "src/public/index.html") (given (txt "new") o q fs)) (given (txt "new") o q fs)).isSome = true := by
  cases o <;> kernel_refl
theorem scan_link (o q : Option Bytes) (fs : Fs) : (Html.Page.scanFile 100 (pageEnv cfg true (txt "src/public/index.html") (given (txt "link") o q fs)) (given (txt "link") o q fs)).isSome = true := by
  kernel_refl
theorem build_link (o q : Option Bytes) (fs : Fs) : (Html.Page.buildFile 100 (pageEnv cfg false (txt "src/public/index.html") (given (txt "link") o q fs)) (given (txt "link") o q fs)).isSome = true := by
  cases o <;> cases q <;> kernel_refl

theorem fuel_scan (p : Option Bool) (o q : Option Bytes) (fs : Fs) : (Html.Page.scanFile 100 (pageEnv cfg true (txt "src/public/index.html") (given (textOf p) o q fs)) (given (textOf p) o q fs)).isSome = true :=
  match p with
  | some false => scan_old o q fs
  | some true => scan_new o q fs
  | none => scan_link o q fs
theorem fuel_build (p : Option Bool) (o q : Option Bytes) (fs : Fs) : (Html.Page.buildFile 100 (pageEnv cfg false (txt "src/public/index.html") (given (textOf p) o q fs)) (given (textOf p) o q fs)).isSome = true :=
  match p with
  | some false => build_old o q fs
  | some true => build_new o q fs
  | none => build_link o q fs

end Verif.Hot.Scripts.Album
