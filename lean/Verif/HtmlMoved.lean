import Verif.HtmlPageCase
import Verif.JsFileCase

/-!
# C104: what inline scripts and stylesheets refer to

A URL in an inline script or stylesheet is relative to the page.  When the element has become a file of its own, it is relative
to that file.  The specification is `Js.Goes`: how a path is followed from a folder.
-/

namespace Verif.Html.Moved

open Verif.Reader (Text txt)
open Verif.Paths
open Verif.Handlers (Bytes Fs Scan Built)
open Verif.Html.Page
open Verif.Js (Goes resolvePath)
open Verif.Img (digits)

/-! ## Specification -/

/-- The page `src/public/D/f.html`, by its folder and its name. -/
def stemOf (D : List Text) (f : Text) : Text := joinSegs (D ++ [f])

/-- The folder of the files which are made for the page. -/
def made (k : Kind) (D : List Text) (f : Text) : List Text := [k.word, txt "gen"] ++ D ++ [f]

/-! ## Proofs -/

theorem digit_name (n : Nat) (k : Kind) : Name (digits n ++ txt "." ++ k.word) := by
  have e : txt "." = [46] := by decide
  have hk : 47 ∉ k.word := by cases k <;> decide
  obtain ⟨c, ds, hd⟩ : ∃ c ds, digits n = c :: ds := by
    cases h : digits n with
    | nil => exact absurd h (Html.Page.digits_ne n)
    | cons c ds => exact ⟨c, ds, rfl⟩
  have hc := Img.digits_ge c (by rw [hd]; simp)
  have hno : 47 ∉ digits n := fun h => by have := Img.digits_ge 47 h; omega
  refine ⟨⟨?_, ?_⟩, ?_, ?_⟩
  · rw [hd]; simp
  · rw [e]
    simp only [List.mem_append, List.mem_singleton, not_or]
    exact ⟨⟨hno, by decide⟩, hk⟩
  · rw [hd]
    intro h
    simp only [List.cons_append, List.cons.injEq] at h
    omega
  · rw [hd]
    intro h
    simp only [List.cons_append, List.cons.injEq] at h
    omega

theorem name_gen : Name (txt "gen") := by
  rw [show txt "gen" = [103, 101, 110] by decide]; refine ⟨⟨by simp, by simp⟩, by simp, by simp⟩

theorem name_word (k : Kind) : Name k.word := by
  cases k
  · rw [show Kind.word .script = [106, 115] by decide]; refine ⟨⟨by simp, by simp⟩, by simp, by simp⟩
  · rw [show Kind.word .style = [99, 115, 115] by decide]; refine ⟨⟨by simp, by simp⟩, by simp, by simp⟩

theorem names_made (k : Kind) {D : List Text} {f : Text} (hD : ∀ x ∈ D, Name x) (hf : Name f) : ∀ x ∈ made k D f, Name x := by
  intro x hx
  simp only [made, List.cons_append, List.nil_append, List.mem_cons, List.mem_append, List.not_mem_nil, or_false] at hx
  rcases hx with rfl | rfl | hx | rfl
  · exact name_word k
  · exact name_gen
  · exact hD x hx
  · exact hf

/-- The file which an element is moved to. -/
theorem generated_segs (D : List Text) (f : Text) (k : Kind) (n : Nat) :
    txt "src/public/" ++ generated (stemOf D f) k n =
      joinSegs ([txt "src", txt "public"] ++ made k D f ++ [digits n ++ txt "." ++ k.word]) := by
  have e1 : txt "src/public/" = txt "src" ++ 47 :: (txt "public" ++ [47]) := by decide
  have e2 : txt "/gen/" = 47 :: (txt "gen" ++ [47]) := by decide
  have e3 : txt "/" = [47] := by decide
  rw [joinSegs_append_last (by simp [made])]
  have h : joinSegs ([txt "src", txt "public"] ++ made k D f) =
      txt "src" ++ 47 :: (txt "public" ++ 47 :: (k.word ++ 47 :: (txt "gen" ++ 47 :: joinSegs (D ++ [f])))) := by
    simp only [made, List.cons_append, List.nil_append]
    rw [joinSegs_cons _ (by simp), joinSegs_cons _ (by simp), joinSegs_cons _ (by simp), joinSegs_cons _ (by simp)]
  rw [h]
  simp [generated, stemOf, e1, e2, e3]

/-- From a deeper folder one can follow the same path, and stays as much deeper. -/
theorem goes_deeper {D ms R : List Text} (h : Goes D ms R) : ∀ {D' : List Text}, D.length ≤ D'.length →
    ∃ R', Goes D' ms R' ∧ R'.length + D.length = R.length + D'.length := by
  induction h with
  | done D => intro D' _; exact ⟨D', .done _, by omega⟩
  | here _ ih => intro D' hl; obtain ⟨R', h1, h2⟩ := ih hl; exact ⟨R', .here h1, h2⟩
  | @up D x ms R _ ih =>
    intro D' hl
    simp only [List.length_append, List.length_singleton] at hl
    rcases List.eq_nil_or_concat D' with rfl | ⟨D0, y, rfl⟩
    · simp at hl
    · simp only [List.concat_eq_append, List.length_append, List.length_singleton] at hl ⊢
      obtain ⟨R', h1, h2⟩ := ih (D' := D0) (by omega)
      exact ⟨R', .up h1, by omega⟩
  | @into D x ms R hx _ ih =>
    intro D' hl
    obtain ⟨R', h1, h2⟩ := ih (D' := D' ++ [x]) (by simp only [List.length_append, List.length_singleton]; omega)
    refine ⟨R', .into hx h1, ?_⟩
    simp only [List.length_append, List.length_singleton] at h2
    omega

/-- A file which a relative path names in the page, and the one which it names in the file made of an inline element. -/
theorem goes_moved {D ms R : List Text} {f : Text} (k : Kind) (h : Goes D ms R) : ∃ R', Goes (made k D f) ms R' ∧ R'.length = R.length + 3 := by
  obtain ⟨R', h1, h2⟩ := goes_deeper h (D' := made k D f) (by simp [made]; omega)
  refine ⟨R', h1, ?_⟩
  simp only [made, List.length_append, List.length_cons, List.length_nil] at h2
  omega

/-- **C104** for scripts, paths from the root: an import in an inline script names the same file as in any other file. -/
theorem C104_partial {cwd folder rel stem : Text} {R : List Text} (n : Nat) (hR : ∀ x ∈ R, Name x) (hne : R ≠ []) :
    resolvePath cwd folder (txt "src/public/" ++ generated stem .script n) (47 :: joinSegs R) =
      (joinSegs ([txt "src", txt "public"] ++ R), 47 :: joinSegs R) ∧
    resolvePath cwd folder (txt "src/public/" ++ generated stem .script n) (47 :: joinSegs R) = resolvePath cwd folder rel (47 :: joinSegs R) := by
  rw [Js.C59_absolute hR hne, Js.C59_absolute hR hne]
  exact ⟨rfl, rfl⟩

/-- **C104** is false of all other paths: a path which leads from the page to the file `R` of the website leads from the file of
the inline element to another one, which is always three folders deeper.  The build looks for the hash of that file, and the
script which is written imports it. -/
theorem C104_false_relative {cwd folder s f : Text} {D R : List Text} (n : Nat) (hc : isAbs cwd = true) (hD : ∀ x ∈ D, Name x) (hf : Name f)
    (hgo : Goes D (split s) R) (k : Kind) :
    ∃ R', Goes (made k D f) (split s) R' ∧ R'.length = R.length + 3 ∧
      resolvePath cwd folder (txt "src/public/" ++ generated (stemOf D f) k n) s = (joinSegs ([txt "src", txt "public"] ++ R'), 47 :: joinSegs R') ∧
      joinSegs R' ≠ joinSegs R := by
  obtain ⟨R', h1, h2⟩ := goes_moved (f := f) k hgo
  have n1 := hgo.names hD
  have n2 := h1.names (names_made k hD hf)
  refine ⟨R', h1, h2, ?_, ?_⟩
  swap
  · intro he
    have h3 := congrArg comps he
    rw [comps_joinSegs (fun x hx => (n2 x hx).1), comps_joinSegs (fun x hx => (n1 x hx).1)] at h3
    rw [h3] at h2
    omega
  rw [generated_segs]
  exact Js.C59_relative hc (names_made k hD hf) (digit_name n k) h1 (by intro h; simp [h] at h2)

/-! ## A page -/

/-- An inline script which imports `b.js`, by the path `p`. -/
def importing (p : Text) : List HTok :=
  [.startTag (txt "script") [((none, txt "type"), txt "module")], .characters (txt "import {x} from '" ++ p ++ txt "';"), .endTag (txt "script")]

/-- The page is `src/public/index.html`, scripts are built by the handler for scripts. -/
def env (p : Text) : Env Js.File.Err Text :=
  { PageToy.env false (fun _ => false) with
    js := Js.File.handler 100 Js.File.toy
    css := Js.File.handler 100 Js.File.toy
    parse := fun _ => some (importing p) }

/-- `b.js` is next to the page, and has been built. -/
def files : Fs := fun p =>
  if p = txt "src/public/index.html" then some (txt "page")
  else if p = txt "src/public/b.js" then some (txt "export const x = 1;")
  else if p = txt "out/www/b.js.hash" then some (txt "abc")
  else none

def after (p : Text) : Option (Option (Option Text)) :=
  (buildFile 100 (env p) files).map fun
    | .ok (_, fs) => some (fs (txt "out/www/js/gen/index/1.js"))
    | .error _ => none

/-- With the path from the root the script is built; with the one from the page it is not, though the page would run. -/
theorem C104_case : after (txt "/b.js") = some (some (some (txt "import {x} from \"/b.js?v=abc&pv=1.3.2\";"))) ∧
    after (txt "./b.js") = some none ∧ Goes [] (split (txt "./b.js")) [txt "b.js"] := by
  refine ⟨by decide +kernel, by decide +kernel, ?_⟩
  rw [show split (txt "./b.js") = [txt ".", txt "b.js"] by decide +kernel]
  refine .here (.into ?_ (.done _))
  rw [show txt "b.js" = [98, 46, 106, 115] by decide]; refine ⟨⟨by simp, by simp⟩, by simp, by simp⟩

end Verif.Html.Moved
