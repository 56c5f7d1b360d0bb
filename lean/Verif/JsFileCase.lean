import Verif.JsFile

/-!
# C70: scripts as part of pages, and cases
-/

namespace Verif.Js.File

open Verif.Reader (Text txt)
open Verif.Build
open Verif.Handlers (Bytes Fs Scan Built copyScan hashScan copyTarget hashTarget hashBuild)
open Verif.Icons (add addAll mem_add mem_addAll)
open Verif.Html.Page (Handler Honest Covers Exact)

/-- The handler for the inline scripts of a page (html.py:44, outline.py:118-127). -/
def handler (fuel : Nat) (env : Env) : Handler Err where
  scan fs p := (scanFile fuel env p fs).getD (.error (.files .failed))
  build fs p := (buildFile fuel env p fs).getD (.error (.files .failed))

theorem copyTarget_out {rel t : Text} (h : copyTarget rel = some t) : txt "out/www/" <+: t := by
  unfold copyTarget at h
  split at h
  · cases h; exact List.prefix_append _ _
  · cases h

theorem hashTarget_prefix {rel t : Text} (h : hashTarget rel = some t) : txt "out/www/" <+: t := by
  unfold hashTarget at h
  split at h
  · cases h; rw [List.append_assoc]; exact List.prefix_append _ _
  · split at h
    · cases h; rw [List.append_assoc]; exact List.prefix_append _ _
    · cases h

/-- **C70.** Scripts are honest parts of pages (`Html.Page.Parts`, C69): whatever they are called on, they report what they
write, and it is below out/www. -/
theorem C70_part {fuel : Nat} {env : Env} {fs fs' : Fs} {p : Text} {r : Built} (h : (handler fuel env).build fs p = .ok (r, fs')) :
    Honest (fun _ => False) fs fs' r ∧ ∀ q, q ∈ r.produced ∨ q ∈ r.reused → txt "out/www/" <+: q := by
  have h' : buildFile fuel env p fs = some (.ok (r, fs')) := by
    simp only [handler] at h
    cases hb : buildFile fuel env p fs with
    | none => rw [hb] at h; cases h
    | some x => rw [hb] at h; exact congrArg some h
  unfold buildFile at h'
  split at h'
  · cases h'
    exact ⟨⟨fun _ _ h => h, fun _ _ h => absurd rfl h, fun q _ h => by simp at h⟩, fun q h => by simp at h⟩
  · split at h'
    · cases h'
    · next target ht =>
      split at h'
      · cases h'
      · split at h'
        · cases h'
        · rw [Option.map_eq_some_iff] at h'
          obtain ⟨x, h1, h2⟩ := h'
          split at h2
          · cases h2
          · next out s =>
            split at h2
            · cases h2
            · next hb fs2 hh =>
              cases h2
              have hr := (Css.Page.Rep.write fs [] [] target (env.encode (serializeMany out))).trans (Css.Page.Rep.hash _ _ hh)
              refine ⟨⟨fun q _ hq => hr.grow q hq, fun q _ hq => ?_, fun q _ hq => ?_⟩, fun q hq => ?_⟩
              · have := hr.changed q hq
                simpa [mem_addAll, mem_add] using this
              · rcases hq with hq | hq
                · refine (hr.produced q ?_).elim (fun h => by cases h) id
                  simpa [mem_addAll, mem_add] using hq
                · exact (hr.reused q hq).elim (fun h => by cases h) id
              · have hq' : q = target ∨ q ∈ hb.produced ∨ q ∈ hb.reused := by
                  simp only [mem_addAll, List.mem_singleton, List.not_mem_nil, false_or] at hq
                  tauto
                rcases hq' with rfl | hq'
                · exact copyTarget_out ht
                · unfold hashBuild at hh
                  split at hh
                  · cases hh; simp at hq'
                  · next t hx =>
                    have hq2 : q = t := by
                      split at hh
                      · cases hh; simpa using hq'
                      · split at hh
                        · cases hh
                        · cases hh; simpa using hq'
                    rw [hq2]; exact hashTarget_prefix hx

/-! ## Cases -/

def toy : Env where
  cwd := txt "/home/me"
  folder := txt "site"
  space c := c == 32
  enc c := [37, c]
  typeName _ := txt "T"
  digest b := Img.digits b.length
  decode := id
  encode := id

def script : Text := txt "import {x} from './b.js';\nx();\n"
def hinted : Text := txt "/*PREPROCESSOR: ignore-import*/ /*@@type-hint*/\nimport './b.js';\n"

def files (content : Text) : Fs := fun p =>
  if p = txt "src/public/js/a.js" then some content
  else if p = txt "out/www/js/b.js.hash" then some (txt "abc")
  else none

/-- C70: the hypotheses are met, and the script is built. -/
theorem C70_case : (∃ ts, tokenize script = some ts ∧ NoHint toy.space ts) ∧
    ((buildFile 100 toy (txt "src/public/js/a.js") (files script)).map fun
      | .ok (r, fs) => some (r, fs (txt "out/www/js/a.js"), fs (txt "out/www/js/a.js.hash"))
      | .error _ => none) =
    some (some (⟨[txt "src/public/js/b.js"], [txt "out/www/js/a.js", txt "out/www/js/a.js.hash"], []⟩,
      some (txt "import {x} from \"/js/b.js?v=abc&pv=1.3.2\";\nx();\n"), some (txt "48"))) := by
  refine ⟨?_, by decide +kernel⟩
  have h1 : (tokenize script).map (fun ts => ts.all fun t => !isHint ⟨false, toy.space⟩ t) = some true := by decide +kernel
  obtain ⟨ts, h2, h3⟩ := Option.map_eq_some_iff.1 h1
  refine ⟨ts, h2, fun t ht hh => ?_⟩
  have hok : SpaceOk toy.space := by
    intro c h4 h5
    have : (c == 32) = false := by simp; omega
    exact this
  have := (isHint_iff ⟨false, toy.space⟩ hok t).2 hh
  have h4 := List.all_eq_true.1 h3 t ht
  simp_all

/-- C70: without the hash of the imported file the build fails. -/
theorem C70_case_missing : ((buildFile 100 toy (txt "src/public/js/a.js") (fun p => if p = txt "src/public/js/a.js" then some script else none)).map fun
      | .ok _ => none
      | .error e => some e) = some (some (.manip (.notFound (txt "src/public/js/b.js")))) := by decide +kernel

/-- What is wrong with type hints: a mark which keeps the scan from an import has no effect in a build, if it is on a line with
a type hint.  The build depends on a file which the scan did not announce. -/
theorem C70_false : ((scanFile 100 toy (txt "src/public/js/a.js") (files hinted)).map fun
      | .ok s => some s.dependencies
      | .error _ => none) = some (some []) ∧
    ((buildFile 100 toy (txt "src/public/js/a.js") (files hinted)).map fun
      | .ok (r, _) => some r.children
      | .error _ => none) = some (some [txt "src/public/js/b.js"]) := ⟨by decide +kernel, by decide +kernel⟩

end Verif.Js.File
