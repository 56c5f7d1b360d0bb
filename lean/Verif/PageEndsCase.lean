import Verif.PageEnds
import Verif.HtmlPageCase
import Verif.PageEndsFinds
import Verif.HotBuildsPagesCase
/-!
# C112 for pages: cases
-/
namespace Verif.Html.Page.PageToy
open Verif.Reader (Text txt)
open Verif.Build
open Verif.Paths (join)
open Verif.Handlers (Bytes Fs Scan Built copyTarget)
open Verif.Html.Toy (stk tpl)
open Ends

theorem usual (scan : Bool) : Usual (env scan fun _ => false) 2 where
  space := (fit fun _ => false).space
  same := rfl
  json := Html.Toy.faithful _
  formats := by
    intro fs c outputs r fs' h
    cases h
    exact Nat.le_refl _

/-- The arguments of stack commands are not those of blocks. -/
def unblocked (e : TplEnv) (t : HTok) : Bool :=
  match stackArgs e t with
  | some (.str op :: _) => op != txt "push" && op != txt "pop"
  | _ => true

theorem no_blocks {e : TplEnv} {ts : List HTok} (h : ts.all (unblocked e) = true) : NoBlocks e ts := by
  intro t ht
  have h1 := List.all_eq_true.1 h t ht
  refine ⟨fun p ⟨m, hp⟩ => ?_, fun ⟨m, hp⟩ => ?_⟩
  · have hp' : stackArgs e t = some _ := hp
    simp [unblocked, hp'] at h1
  · have hp' : stackArgs e t = some _ := hp
    simp [unblocked, hp'] at h1

/-- A template command for one file, by evaluation. -/
def asks (e : TplEnv) (t : HTok) (file : Text) : Bool :=
  (stackArgs e t).isNone && match templateArgs e t with
    | some [.str s] => s == file
    | some (.str s :: .obj _ :: _) => s == file
    | _ => false

theorem asks_includes {e : TplEnv} {t : HTok} {file p : Text} {f : Frame} (h : asks e t file = true) (hp : templatePath f.relpath file = p) : ∃ vars, Includes e f t p vars := by
  simp only [asks, Bool.and_eq_true, Option.isNone_iff_eq_none] at h
  obtain ⟨h1, h2⟩ := h
  split at h2
  · next s hs => exact ⟨_, includes_iff.2 ⟨_, ⟨h1, hs⟩, by rw [← hp, ← eq_of_beq h2]; rfl⟩⟩
  · next s o more hs => exact ⟨_, includes_iff.2 ⟨_, ⟨h1, hs⟩, by rw [← hp, ← eq_of_beq h2]; rfl⟩⟩
  · cases h2

/-- The page of C66, with its template, meets the hypotheses of `C112_page_acyclic`, and is built (`C66_case`). -/
theorem C112_case : Usual (env false fun _ => false) 2 ∧ (∀ path body, (env false fun _ => false).tpl.files path = some body → NoBlocks (env false fun _ => false).tpl body) ∧
    NoBlocks (env false fun _ => false).tpl page ∧
    (∃ t ∈ page, ∃ vars, Includes (env false fun _ => false).tpl ⟨txt "src/public/index.html", []⟩ t (txt "src/partials/x.html") vars) ∧
    (∀ t ∈ page, ∀ p vars, Includes (env false fun _ => false).tpl ⟨txt "src/public/index.html", []⟩ t p vars → Acc (Uses (env false fun _ => false).tpl) p) := by
  have hbody : ∀ path body, partials path = some body → body.all (unblocked (Html.Toy.env partials)) = true ∧
      body.all (fun t => (templateArgs (Html.Toy.env partials) t).isNone) = true := by
    intro path body h
    unfold partials at h
    split at h
    · cases h; exact ⟨by decide +kernel, by decide +kernel⟩
    · cases h
  refine ⟨usual false, fun path body h => no_blocks (hbody path body h).1, no_blocks (by decide +kernel), ?_, ?_⟩
  · exact ⟨tpl [.str (txt "/x.html"), .obj [(txt "a", .str (txt "7"))]], by decide +kernel, asks_includes (file := txt "/x.html") (by decide +kernel) (by decide +kernel)⟩
  · intro t _ p vars _
    refine ⟨p, fun q hq => ?_⟩
    obtain ⟨body, t', vars', h1, h2, h3⟩ := hq
    obtain ⟨l, hl, -⟩ := includes_iff.1 h3
    have := List.all_eq_true.1 (hbody _ _ h1).2 t' h2
    have hl' : templateArgs (Html.Toy.env partials) t' = some l := hl.2
    rw [hl'] at this
    cases this

/-- The template includes itself. -/
def mirror : HTok := tpl [.str (txt "/x.html")]

def mirrored (scan : Bool) : Env Unit Text := { env scan (fun _ => false) with tpl := Html.Toy.env fun _ => some [mirror], parse := fun _ => some [mirror] }

/-- A page which is handled for ever. -/
theorem C112_false_case (scan : Bool) (fuel : Nat) : scanFile fuel (mirrored scan) (files (txt "page")) = none ∧
    buildFile fuel (mirrored scan) (files (txt "page")) = none := by
  have hu : Usual (mirrored scan) 2 := ⟨(usual scan).space, rfl, Html.Toy.faithful _, (usual scan).formats⟩
  refine C112_false hu (t := mirror) (p := txt "src/partials/x.html") (rest := []) (fun f => asks_includes (file := txt "/x.html") ?_ ?_) rfl ?_ (y := txt "page") ?_ rfl fuel
  · show asks (Html.Toy.env fun _ => some [mirror]) mirror (txt "/x.html") = true
    decide +kernel
  · have h1 : (txt "/x.html").head? = some 47 := by decide
    have h2 : join (join (txt "src") (txt "partials")) ((txt "/x.html").drop 1) = txt "src/partials/x.html" := by decide
    simp only [templatePath, h1, if_true, h2]
  · show copyTarget (txt "src/public/index.html") ≠ none
    decide +kernel
  · show files (txt "page") (txt "src/public/index.html") = _
    decide +kernel

end Verif.Html.Page.PageToy

namespace Verif.Hot.Scripts.Album
open Verif.Reader (Text txt)

/-- The album is such a project. -/
theorem enough_page_case {fs : Verif.Handlers.Fs} {p : Option Bool} (h1 : fs (txt "src/public/index.html") = some (txt "art"))
    (h2 : fs (txt "src/partials/x.html") = some (textOf p)) :
    ∃ N, ∀ fuel, N ≤ fuel → EnoughPage ({ Site.cfg with fuel := fuel } : Config) fs "src/public/index.html" [txt "src/partials/x.html"] :=
  enough_page pagesOk (reaches h1 h2)

end Verif.Hot.Scripts.Album
