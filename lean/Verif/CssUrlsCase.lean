import Verif.CssUrlsThm

/-!
# C61: a case, and what is missing
-/

namespace Verif.Css.Urls.UrlToy

open Verif.Reader (Text txt)
open Verif.Css (Tok)
open Verif.Build
open Verif.Handlers (Bytes Fs)

deriving instance DecidableEq for Except

/-- ASCII -/
def lower (t : Text) : Text := t.map fun c => if 65 ≤ c ∧ c ≤ 90 then c + 32 else c

def env : Env := ⟨txt "src/public/css/main.css", lower, fun b => txt "v=" ++ b ++ txt "&pv=1.3.2"⟩

/-- `URL("/i.png")`, `url(/j.png)`, then a string which is no URL, an URL with a query and that of the stylesheet itself. -/
def doc : List Tok := [.function (txt "URL"), .str (txt "/i.png"), .rightParens, .url (txt "/j.png"), .str (txt "/k.png"),
  .url (txt "/l.png?a"), .url (txt "/css/main.css"), .url (txt "https://example.com/m.png")]

def fs : Fs := fun p => if p = txt "out/www/i.png.hash" then some (txt "abc") else if p = txt "out/www/j.png.hash" then some (txt "def") else none

theorem C61_rooted : Rooted doc := by
  intro v hv
  have : v ∈ [txt "/i.png", txt "/j.png", txt "/k.png", txt "/l.png?a", txt "/css/main.css", txt "https://example.com/m.png"] := by
    rcases hv with hv | hv <;> simp [doc] at hv <;> rcases hv with rfl | rfl | rfl | rfl <;> simp
  revert v
  suffices h : ∀ v ∈ [txt "/i.png", txt "/j.png", txt "/k.png", txt "/l.png?a", txt "/css/main.css", txt "https://example.com/m.png"],
      ¬ txt "//" <+: v from fun v _ hv => h v hv
  decide +kernel

theorem toy_sub : (subAll (versionUrls false env) (fresh fs) doc).map Prod.fst = .ok
    [.function (txt "URL"), .str (txt "/i.png?v=abc&pv=1.3.2"), .rightParens, .url (txt "/j.png?v=def&pv=1.3.2"), .str (txt "/k.png"),
      .url (txt "/l.png?a"), .url (txt "/css/main.css"), .url (txt "https://example.com/m.png")] := by decide +kernel

/-- The hypotheses of `C61_partial` are met by this document. -/
theorem C61_case : Rooted doc ∧ ∃ f s, loop [versionUrls false env] f ⟨[], none, fresh fs⟩ doc = some (.ok s) ∧
    s.output = [.function (txt "URL"), .str (txt "/i.png?v=abc&pv=1.3.2"), .rightParens, .url (txt "/j.png?v=def&pv=1.3.2"), .str (txt "/k.png"),
      .url (txt "/l.png?a"), .url (txt "/css/main.css"), .url (txt "https://example.com/m.png")] := by
  obtain ⟨f, hf⟩ := loop_subAll (urls_single false env) doc [] (fresh fs)
  have hs := toy_sub
  cases h : subAll (versionUrls false env) (fresh fs) doc with
  | error e => rw [h] at hs; cases hs
  | ok p =>
    rw [h] at hs hf
    simp only [Except.map, Except.ok.injEq] at hs
    exact ⟨C61_rooted, f, _, hf, by simpa [done] using hs⟩

/-- An URL of another host, written without the protocol, is taken to be one of a local file: the build fails, unless there
is a file with that name in the root of the machine. -/
theorem C61_false_external (fs : Fs) (h : fs (txt "/cdn.example.com/x.png.hash") = none) :
    ∃ f, loop [versionUrls false env] f ⟨[], none, fresh fs⟩ [.url (txt "//cdn.example.com/x.png")] = some (.error .notFound) := by
  obtain ⟨f, hf⟩ := loop_subAll (urls_single false env) [.url (txt "//cdn.example.com/x.png")] [] (fresh fs)
  refine ⟨f, ?_⟩
  rw [hf]
  have e : hashOf env (txt "//cdn.example.com/x.png") = some (txt "/cdn.example.com/x.png.hash") := by decide +kernel
  simp [subAll, sub, versionUrls, start, fresh, e, cont, suffixed, h, done]

/-- An URL which refers to a part of a local file is taken to be one of a file whose name has a `#` in it: the build fails
although the file and its hash exist. -/
theorem C61_false_fragment (fs : Fs) (_ : (fs (txt "out/www/x.svg.hash")).isSome) (h : fs (txt "out/www/x.svg#a.hash") = none) :
    ∃ f, loop [versionUrls false env] f ⟨[], none, fresh fs⟩ [.url (txt "/x.svg#a")] = some (.error .notFound) := by
  obtain ⟨f, hf⟩ := loop_subAll (urls_single false env) [.url (txt "/x.svg#a")] [] (fresh fs)
  refine ⟨f, ?_⟩
  rw [hf]
  have e : hashOf env (txt "/x.svg#a") = some (txt "out/www/x.svg#a.hash") := by decide +kernel
  simp [subAll, sub, versionUrls, start, fresh, e, cont, suffixed, h, done]

end Verif.Css.Urls.UrlToy
