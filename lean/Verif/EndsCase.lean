import Verif.JsEnds
import Verif.CssEnds
import Verif.CssEndsImports
import Verif.JsFileCase
import Verif.CssPageCase
/-!
# C112: cases
-/
namespace Verif.Js.File
open Verif.Reader (Text txt)
open Verif.Handlers (Bytes Fs)

/-- An import which is not understood, an import in a line with a type hint, and one which is. -/
def tangled : Text := txt "import x y;\nimport './b.js';/*@@type-hint*/\nimport './b.js';\n"

/-- The hypotheses of `C112_script` are met, the manipulators replace tokens again and again, and the script is built. -/
theorem C112_case : SpaceOk toy.space ∧ files tangled (txt "src/public/js/a.js") = some tangled ∧ toy.decode tangled = tangled ∧
    ((buildFile 200 toy (txt "src/public/js/a.js") (files tangled)).map fun
      | .ok (r, fs) => some (r.children, fs (txt "out/www/js/a.js"))
      | .error _ => none) =
    some (some ([txt "src/public/js/b.js"],
      some (txt "/*PREPROCESSOR: ignore-import expected from; final token: T*/import x y;\n/*import \"./b.js\";/*@@type-hint*\\/*/\nimport \"/js/b.js?v=abc&pv=1.3.2\";\n"))) := by
  refine ⟨fun c h1 h2 => ?_, by decide +kernel, rfl, by decide +kernel⟩
  show (c == 32) = false
  simp; omega

end Verif.Js.File

namespace Verif.Css.Page.PageToy
open Verif.Reader (Text txt)
open Verif.Handlers (Bytes Fs)

/-- An image and a file of the website. -/
def plainText : Text := txt ".a{b:url(\"data:image/svg+xml,<svg/>\")}.c{d:url(/i.png)}"

def plainFs : Fs := fun p => if p = rel then some plainText else if p = txt "out/www/i.png.hash" then some (txt "abc") else none

/-- The hypotheses of `C112_sheet_partial` are met, and the stylesheet is built. -/
theorem C112_case : plainFs rel = some plainText ∧ env.decode plainText = plainText ∧
    (∀ ts, Css.tokenize env.nest.uni plainText = .ok ts → ∀ r, ¬ Nest.Imports env.nest ts r) ∧
    ((buildFile 60 60 env rel plainFs).map fun
      | .error _ => none
      | .ok (r, fs') => fs' (txt "out/www/css/main.css")) =
    some (some (txt ".a{b:url(\"/img/gen/css/main/1.svg?v=6\")}.c{d:url(/i.png?v=abc)}")) := by
  refine ⟨by decide +kernel, rfl, ?_, by decide +kernel⟩
  intro ts ht r
  have h : ((Css.tokenize env.nest.uni plainText).toOption.map fun ts => ts.all fun t => (Nest.getImport env.nest t).isNone) = some true := by decide +kernel
  rw [ht] at h
  simp only [Except.toOption, Option.map_some, Option.some.injEq] at h
  rintro ⟨t, h1, h2⟩
  have := List.all_eq_true.1 h t h1
  rw [h2] at this
  cases this

end Verif.Css.Page.PageToy

namespace Verif.Css.Page.PageToy
open Verif.Reader (Text txt)
open Verif.Handlers (Bytes Fs)
open Verif.Css (Tok)

/-- A rule which imports one with a URL, which is further down; another two import each other in a circle if `bad`. -/
def sharedText (bad : Bool) : Text :=
  txt ".a{/*! PREPROCESSOR: import .b */}.b{d:url(/i.png)}" ++ if bad then txt ".c{/*! PREPROCESSOR: import .e */}.e{/*! PREPROCESSOR: import .c */}" else []

def command (s : Text) : Tok := .comment (txt "! PREPROCESSOR: import " ++ s ++ [32])

def named (name : Text) (body : List Tok) : List Tok := .delim [46] :: [.ident name] ++ .leftCurly :: body ++ .rightCurly :: []

def address : List Tok := [.ident (txt "d"), .colon, .url (txt "/i.png")]

def sharedToks (bad : Bool) : List Tok :=
  named (txt "a") [command (txt ".b")] ++ (named (txt "b") address ++
    if bad then named (txt "c") [command (txt ".e")] ++ (named (txt "e") [command (txt ".c")] ++ [.eof]) else [.eof])

theorem shared_tokens (bad : Bool) : (Css.tokenize env.nest.uni (sharedText bad)).toOption = some (sharedToks bad) := by
  revert bad
  decide +kernel

/-- The stylesheet in its project. -/
def shared (bad : Bool) : Env := { env with nest := Nest.Toy.env fun p => if p = rel then some (sharedToks bad) else none }

def sharedFs (bad : Bool) : Fs := fun p => if p = rel then some (sharedText bad) else if p = txt "out/www/i.png.hash" then some (txt "abc") else none

def sharedRules (bad : Bool) (p : Text) : List (Text × List Tok) :=
  if p = rel then [(txt ".a", [command (txt ".b")]), (txt ".b", address)] ++
    (if bad then [(txt ".c", [command (txt ".e")]), (txt ".e", [command (txt ".c")])] else []) else []

theorem sheet_named (env : Nest.Env) (name : Text) (body ts : List Tok) (rules : List (Text × List Tok)) (hf : Nest.Flat body) (hs : Nest.Sheet env ts rules) :
    Nest.Sheet env (named name body ++ ts) ((Nest.nameOf env [.delim [46], .ident name], body) :: rules) := by
  have := Nest.Sheet.rule (env := env) (t := .delim [46]) (pre := [.ident name]) (body := body) (ts := ts) (rules := rules)
    (by simp) (by simp) (by simp) (by simp) (by simp) hf hs
  simpa [named] using this

theorem shared_sheet (bad : Bool) : Nest.Sheet (shared bad).nest (sharedToks bad) (sharedRules bad rel) := by
  have e : ∀ s ∈ [txt "a", txt "b", txt "c", txt "e"], Nest.nameOf (shared bad).nest [.delim [46], .ident s] = 46 :: s := by
    revert bad
    decide +kernel
  have e1 := e (txt "a") (by simp)
  have e2 := e (txt "b") (by simp)
  have e3 := e (txt "c") (by simp)
  have e4 := e (txt "e") (by simp)
  have f : ∀ s, Nest.Flat [command s] := by
    intro s t ht
    rw [List.mem_singleton.1 ht]
    simp [command]
  have hb : Nest.Flat address := Nest.flat_decide (by decide +kernel)
  cases bad with
  | false =>
    have := sheet_named (shared false).nest (txt "a") _ _ _ (f (txt ".b")) (sheet_named _ (txt "b") _ _ _ hb .eof)
    rw [e1, e2] at this
    have hr : sharedRules false rel = [(46 :: txt "a", [command (txt ".b")]), (46 :: txt "b", address)] := by decide +kernel
    rw [hr]
    exact this
  | true =>
    have := sheet_named (shared true).nest (txt "a") _ _ _ (f (txt ".b")) (sheet_named _ (txt "b") _ _ _ hb
      (sheet_named _ (txt "c") _ _ _ (f (txt ".e")) (sheet_named _ (txt "e") _ _ _ (f (txt ".c")) .eof)))
    rw [e1, e2, e3, e4] at this
    have hr : sharedRules true rel = [(46 :: txt "a", [command (txt ".b")]), (46 :: txt "b", address), (46 :: txt "c", [command (txt ".e")]),
        (46 :: txt "e", [command (txt ".c")])] := by decide +kernel
    rw [hr]
    exact this

theorem shared_project (bad : Bool) : Nest.Project (shared bad).nest (· = rel) (sharedRules bad) where
  pick := by
    intro l hl
    cases l with
    | nil => exact absurd rfl hl
    | cons a l => simp [shared, Nest.Toy.env]
  source := by rintro p q rfl rfl _; rfl
  files := by
    rintro p rfl
    refine .inl ⟨sharedToks bad, ?_, shared_sheet bad⟩
    revert bad
    decide +kernel
  distinct := by
    rintro p rfl
    revert bad
    decide +kernel
  closed := by
    rintro p rfl rule hr r hi
    have h : ∀ bad, (sharedRules bad rel).all (fun rule => (Nest.importList (shared bad).nest rule.2).all (fun r => r.relpath = rel)) = true := by decide +kernel
    have h1 := List.all_eq_true.1 (List.all_eq_true.1 (h bad) rule hr) r (Nest.mem_importList.2 hi)
    simpa using h1

/-- The hypotheses of `C112_sheet_imports_partial` are met.  The rule is imported and its URL gets a hash; imports in a circle are an
exception. -/
theorem C112_imports_case (bad : Bool) : Nest.Project (shared bad).nest (· = rel) (sharedRules bad) ∧ sharedFs bad rel = some (sharedText bad) ∧
    (∀ ts, Css.tokenize (shared bad).nest.uni ((shared bad).decode (sharedText bad)) = .ok ts → ∀ r, Nest.Imports (shared bad).nest ts r → r.relpath = rel) ∧
    ((buildFile 90 90 (shared bad) rel (sharedFs bad)).map fun
      | .error (.nest .notFound) => (true, none)
      | .error _ => (false, none)
      | .ok (r, fs') => (false, fs' (txt "out/www/css/main.css"))) =
    some (if bad then (true, none) else (false, some (txt ".a{d:url(/i.png?v=abc)}.b{d:url(/i.png?v=abc)}"))) := by
  refine ⟨shared_project bad, ?_, ?_, ?_⟩
  · revert bad
    decide +kernel
  · intro ts ht r hr
    have h1 := shared_tokens bad
    have h2 : Css.tokenize env.nest.uni (sharedText bad) = .ok ts := ht
    rw [h2] at h1
    cases h1
    have h : ∀ bad, (Nest.importList (shared bad).nest (sharedToks bad)).all (fun r => r.relpath = rel) = true := by decide +kernel
    simpa using List.all_eq_true.1 (h bad) r (Nest.mem_importList.2 hr)
  · revert bad
    decide +kernel

end Verif.Css.Page.PageToy
