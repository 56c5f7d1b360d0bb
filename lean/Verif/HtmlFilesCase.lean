import Verif.HtmlFiles
import Verif.HtmlPageCase

/-!
# C68 and C69: cases
-/

namespace Verif.Html.Page.PageToy

open Verif.Reader (Text txt)
open Verif.Build
open Verif.Handlers (Bytes Fs Scan Built)

theorem handler_build {f : Fs} {p : Text} {r : Built} {f' : Fs} (h : handler.build f p = .ok (r, f')) :
    ∃ b, r = ⟨[], [txt "out/www/" ++ p.drop 11, txt "out/www/" ++ p.drop 11 ++ txt ".hash"], []⟩ ∧
      f' = (f.write (txt "out/www/" ++ p.drop 11) b).write (txt "out/www/" ++ p.drop 11 ++ txt ".hash") (Img.digits b.length) := by
  unfold handler at h
  dsimp only at h
  split at h
  · cases h
  · cases h; exact ⟨_, rfl, rfl⟩

/-- C68: scripts, stylesheets and images are reported as they are announced. -/
theorem agree (scan : Bool) (kept : Kind → Bool) : Agree (env scan kept) (fun _ _ => True) Exact where
  write _ _ _ _ _ := trivial
  remove _ _ _ _ := trivial
  images f g c s f' o r g' _ h1 h2 := by
    cases h1; cases h2
    exact ⟨⟨by simp, by simp⟩, trivial⟩
  handler k f g p s r g' _ h1 h2 := by
    have e : (env scan kept).handler k = handler := by cases k <;> rfl
    rw [e] at h1 h2
    obtain ⟨b, rfl, -⟩ := handler_build h2
    cases h1
    exact ⟨⟨by simp, by simp⟩, trivial⟩

/-- C68: the page is scanned, and what is announced is what `C66_case` reports. -/
theorem C68_case : ((scanFile 100 (env true fun _ => false) (files (txt "page"))).map fun
    | .ok (s, fs) => some (s.dependencies, s.produces, fs (txt "src/public/js/gen/index/1.js"))
    | .error _ => none) =
    some (some ([txt "src/public/m.css", txt "src/public/i.png", txt "src/partials/x.html"],
      [txt "out/www/index.html", txt "out/www/index.html.hash", txt "out/www/i/2.jpeg", txt "out/www/js/gen/index/1.js", txt "out/www/js/gen/index/1.js.hash",
        txt "out/www/css/gen/index/1.css", txt "out/www/css/gen/index/1.css.hash"], none)) := by
  decide +kernel

theorem write_honest {f : Fs} {p q : Text} {a b : Bytes} {r : Built} (h1 : p ∈ r.produced) (h2 : q ∈ r.produced)
    (h3 : ∀ x, x ∈ r.produced ∨ x ∈ r.reused → x = p ∨ x = q) : Honest (fun _ => False) f ((f.write p a).write q b) r := by
  refine ⟨fun x _ hx => ?_, fun x _ hx => ?_, fun x _ hx => ?_⟩
  · by_cases e1 : x = q <;> by_cases e2 : x = p <;> simp_all [Fs.write]
  · by_cases e1 : x = q <;> by_cases e2 : x = p <;> simp_all [Fs.write]
  · rcases h3 x hx with rfl | rfl
    · by_cases e : x = q <;> simp [Fs.write, e]
    · simp [Fs.write]

/-- C69: the parts are honest and do not touch sources. -/
theorem parts (scan : Bool) (kept : Kind → Bool) : Parts (env scan kept) ∧ NoSources (env scan kept) := by
  have e : ∀ k, (env scan kept).handler k = handler := fun k => by cases k <;> rfl
  have hsrc : ∀ x : Text, ¬ txt "src/" <+: txt "out/www/" ++ x := by
    intro x
    have e1 : txt "src/" = 115 :: txt "rc/" := by decide
    have e2 : txt "out/www/" = 111 :: txt "ut/www/" := by decide
    rw [e1, e2]; simp
  have hj : txt "out/www/i/2.jpeg" = txt "out/www/" ++ txt "i/2.jpeg" := by decide
  refine ⟨⟨?_, ?_, ?_⟩, ?_, ?_, ?_⟩
  · intro f c o r f' h
    cases h
    refine ⟨fun x _ hx => ?_, fun x _ hx => ?_, fun x _ hx => ?_⟩
    · by_cases e : x = txt "out/www/i/2.jpeg" <;> simp [Fs.write, e, hx]
    · by_cases e : x = txt "out/www/i/2.jpeg"
      · simp [e]
      · exact absurd (by simp [Fs.write, e]) hx
    · have : x = txt "out/www/i/2.jpeg" := by simpa using hx
      simp [Fs.write, this]
  · intro k f p r f' h
    rw [e] at h
    obtain ⟨b, rfl, rfl⟩ := handler_build h
    exact write_honest (by simp) (by simp) (by simp)
  · intro f c s f' h p hp
    cases h
    exact absurd rfl hp
  · intro f c o r f' h p hp
    cases h
    simp only [List.mem_singleton] at hp
    rw [hp, hj]; exact hsrc _
  · intro k f p r f' h q hq
    rw [e] at h
    obtain ⟨b, rfl, rfl⟩ := handler_build h
    simp only [List.mem_cons, List.not_mem_nil, or_false] at hq
    rcases hq with rfl | rfl
    · exact hsrc _
    · rw [List.append_assoc]; exact hsrc _
  · intro f c s f' h p hp
    cases h
    simp only [List.mem_singleton] at hp
    rw [hp, hj]; exact hsrc _

end Verif.Html.Page.PageToy
