import Verif.HtmlPageThm
import Verif.CssDataFiles
import Verif.ImgExportThm

/-!
# The files which are generated for inline scripts and stylesheets
-/

namespace Verif.Html.Page

open Verif.Reader (Text txt)
open Verif.Paths (join basename)
open Verif.Img (digits)
open Verif.Css.Data (takeWhile_stop)
open Verif.Icons (join_rel)

/-! ## Specification -/

/-- The page is the file `stem.html` below the public folder; its name is not made of dots only. -/
def PageFile (rel stem : Text) : Prop :=
  rel = txt "src/public/" ++ stem ++ txt ".html" ∧ ¬ txt "/" <+: stem ∧ ∃ c ∈ basename stem, [c] ≠ txt "."

/-- Folder and extension. -/
def Kind.word : Kind → Text
  | .script => txt "js"
  | .style => txt "css"

/-- The file of the element with the number `n` on the page `stem`. -/
def generated (stem : Text) (k : Kind) (n : Nat) : Text :=
  k.word ++ txt "/gen/" ++ stem ++ txt "/" ++ digits n ++ txt "." ++ k.word

/-! ## Proofs -/

theorem root_page {rel stem : Text} (h : PageFile rel stem) : Css.Data.root rel = txt "src/public/" ++ stem := by
  obtain ⟨h1, h2, h3⟩ := h
  have e2 : (txt ".html").reverse = [108, 109, 116, 104, 46] := by decide
  have e3 : (txt "src/public/").reverse = 47 :: (txt "src/public").reverse := by decide
  have e4 : (txt ".html").length = 5 := by decide
  have e5 : txt "." = [46] := by decide
  have hbase : basename rel = basename stem ++ txt ".html" := by
    unfold basename
    rw [h1, List.reverse_append, List.reverse_append, e2, e3, List.takeWhile_append_of_pos (by decide),
      takeWhile_stop (by decide), List.reverse_append, ← e2, List.reverse_reverse]
  have htail : (basename rel).reverse.takeWhile (· != 46) = [108, 109, 116, 104] := by
    rw [hbase, List.reverse_append, e2]
    have : ([108, 109, 116, 104, 46] ++ (basename stem).reverse) = [108, 109, 116, 104] ++ 46 :: (basename stem).reverse := rfl
    rw [this, takeWhile_stop (by decide)]
    decide
  unfold Css.Data.root
  simp only [htail]
  have hst : (basename rel).take ((basename rel).length - [108, 109, 116, 104].length - 1) = basename stem := by
    rw [hbase, List.length_append, e4]
    simp
  rw [hst, if_pos]
  · rw [h1]
    have : (txt "src/public/" ++ stem ++ txt ".html").length - [108, 109, 116, 104].length - 1 = (txt "src/public/" ++ stem).length := by
      simp only [List.length_append, e4]
      simp
    rw [this, List.take_left' rfl]
  · refine ⟨by rw [hbase]; simp; right; decide, ?_⟩
    obtain ⟨c, hc, hc'⟩ := h3
    rw [List.any_eq_true]
    exact ⟨c, hc, by simpa [e5] using hc'⟩

theorem stem_ends {rel stem : Text} (h : PageFile rel stem) : stem ≠ [] ∧ stem.getLast? ≠ some 47 ∧ stem.head? ≠ some 47 := by
  obtain ⟨h1, h2, c, hc, h3⟩ := h
  have e6 : txt "/" = [47] := by decide
  refine ⟨?_, ?_, ?_⟩
  · rintro rfl; simp [basename] at hc
  · intro hl
    unfold basename at hc
    rw [List.getLast?_eq_head?_reverse] at hl
    cases hr : stem.reverse with
    | nil => rw [hr] at hl; cases hl
    | cons a r =>
      rw [hr] at hl hc
      simp only [List.head?_cons, Option.some.injEq] at hl
      subst hl
      simp at hc
  · intro hh
    cases stem with
    | nil => cases hh
    | cons a r =>
      simp at hh
      subst hh
      exact h2 ⟨r, by rw [e6]; rfl⟩

theorem genName_page {rel stem : Text} (h : PageFile rel stem) : genName rel = stem := by
  have e1 : txt "src/public/" = txt "src/public" ++ [47] := by decide
  unfold genName
  simp only [root_page h]
  have hp : (txt "src/public").isPrefixOf (txt "src/public/" ++ stem) = true := by
    rw [List.isPrefixOf_iff_prefix, e1, List.append_assoc]
    exact ⟨_, rfl⟩
  rw [if_pos hp, List.drop_left']
  decide

theorem digits_ne (n : Nat) : digits n ≠ [] := by
  unfold digits
  split
  · simp
  · next h => simp [Nat.digits_ne_nil_iff_ne_zero, h]

theorem digits_head (n : Nat) (x : Text) : (digits n ++ x).head? ≠ some 47 := by
  intro h
  cases hd : digits n with
  | nil => exact digits_ne n hd
  | cons a r =>
    rw [hd] at h
    simp at h
    subst h
    have := Img.digits_ge (n := n) 47 (by rw [hd]; simp)
    omega

/-- Where the file is. -/
theorem genFile_spec {rel stem : Text} (h : PageFile rel stem) (k : Kind) (n : Nat) {root : Text} (hr : root = txt "src/public" ∨ root = txt "out/www") :
    genFile root k rel n = root ++ txt "/" ++ generated stem k n := by
  obtain ⟨hn, hl, hh⟩ := stem_ends h
  have e6 : txt "/" = [47] := by decide
  have e7 : txt "gen" ++ [47] = txt "gen/" := by decide
  have hfold : genFolder root k rel = root ++ txt "/" ++ k.word ++ txt "/gen/" ++ stem := by
    have h1 : join (join root k.word) (txt "gen") = root ++ txt "/" ++ k.word ++ txt "/gen" := by
      rcases hr with rfl | rfl <;> cases k <;> decide
    have h2 : genFolder root k rel = join (join (join root k.word) (txt "gen")) stem := by
      unfold genFolder
      rw [genName_page h]
      cases k <;> rfl
    rw [h2, h1, join_rel (by simp [e6]) (by rcases hr with rfl | rfl <;> cases k <;> decide) hh]
    have e8 : txt "/gen/" = txt "/gen" ++ [47] := by decide
    simp [e8]
  have h3 : genFile root k rel n = join (genFolder root k rel) (digits n ++ (txt "." ++ k.word)) := by
    have ej : txt ".js" = txt "." ++ txt "js" := by decide
    have ec : txt ".css" = txt "." ++ txt "css" := by decide
    unfold genFile Kind.word
    cases k
    · simp only [ej]
    · simp only [ec]
  rw [h3, hfold, join_rel (by simp [e6]) ?_ (digits_head _ _)]
  · simp [generated, e6]
  · rw [List.getLast?_append_of_ne_nil _ hn]; exact hl

/-- Different elements of any pages have different files. -/
theorem generated_inj {stem stem' : Text} {k k' : Kind} {n n' : Nat} (h : generated stem k n = generated stem' k' n') :
    k = k' ∧ stem = stem' ∧ n = n' := by
  have e6 : txt "/" = [47] := by decide
  have ej : txt "js" = [106, 115] := by decide
  have ec : txt "css" = [99, 115, 115] := by decide
  have hk : k = k' := by
    unfold generated at h
    cases k <;> cases k' <;> first | rfl | (simp [Kind.word, ej, ec] at h)
  subst hk
  refine ⟨rfl, ?_⟩
  unfold generated at h
  simp only [List.append_assoc, List.append_cancel_left_eq] at h
  rw [← List.append_assoc, ← List.append_assoc, ← List.append_assoc (as := stem'), ← List.append_assoc (as := stem' ++ _)] at h
  rw [List.append_cancel_right_eq] at h
  rw [e6, List.append_assoc, List.append_assoc] at h
  simp only [List.singleton_append] at h
  have no : ∀ n, 47 ∉ digits n := fun n hm => by have := Img.digits_ge 47 hm; omega
  have key : ∀ (a b c d : Text), 47 ∉ b → 47 ∉ d → a ++ 47 :: b = c ++ 47 :: d → a = c ∧ b = d := by
    intro a b c d hb hd he
    rcases List.append_eq_append_iff.1 he with ⟨x, h1, h2⟩ | ⟨x, h1, h2⟩
    · cases x with
      | nil => simp at h1 h2; exact ⟨h1.symm, h2⟩
      | cons y x => simp at h2; exact absurd (by rw [h2.2]; simp) hb
    · cases x with
      | nil => simp at h1 h2; exact ⟨h1, h2.symm⟩
      | cons y x => simp at h2; exact absurd (by rw [h2.2]; simp) hd
  obtain ⟨h1, h2⟩ := key _ _ _ _ (no n) (no n') h
  exact ⟨h1, Img.digits_inj h2⟩

end Verif.Html.Page
