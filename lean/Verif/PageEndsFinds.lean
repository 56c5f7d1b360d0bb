import Verif.PageEnds
import Verif.HotBuildsPages
/-!
# The bounds on the steps of pages, in projects
-/
namespace Verif.Html.Page.Ends
open Verif.Reader (Text txt)
open Verif.Build
open Verif.Assoc (item put ofList keys)
open Verif.Paths (join)
open Verif.Handlers (Bytes Fs Scan Built)

variable {E J : Type}

theorem stack_only {env : TplEnv} {r : Text} {t : HTok} {l : List Json} (hs : Stack env t l) (h1 : ∀ p more, l ≠ .str (txt "push") :: .str p :: more)
    (h2 : ∀ more, l ≠ .str (txt "pop") :: more) : Free env r t := by
  have heq : ∀ l', Stack env t l' → l = l' := fun l' h => Option.some.inj (Eq.trans (Eq.symm hs) h)
  refine ⟨fun p ⟨m, h⟩ => h1 _ _ (heq _ h), fun ⟨m, h⟩ => h2 _ (heq _ h), fun p vars h => ?_⟩
  obtain ⟨l', h, -⟩ := includes_iff.1 h
  exact absurd (h.1.symm.trans hs) (by simp)

theorem ordinary_free {env : TplEnv} {r : Text} {t : HTok} (h : Ordinary env t) : Free env r t := by
  refine ⟨fun p ⟨m, h'⟩ => ?_, fun ⟨m, h'⟩ => ?_, fun p vars h' => ?_⟩
  · exact absurd (h.1.symm.trans h') (by simp)
  · exact absurd (h.1.symm.trans h') (by simp)
  · obtain ⟨l, h', -⟩ := includes_iff.1 h'
    exact absurd (h.2.symm.trans h'.2) (by simp)

theorem unknown_free {env : TplEnv} {r : Text} {t : HTok} (h : Unknown env t) : Free env r t := by
  cases h with
  | stack h h1 h2 h3 h4 => exact stack_only h h1 h2
  | template h hv =>
    refine ⟨fun p ⟨m, h'⟩ => ?_, fun ⟨m, h'⟩ => ?_, fun p vars h' => ?_⟩
    · exact absurd (h.1.symm.trans h') (by simp)
    · exact absurd (h.1.symm.trans h') (by simp)
    · obtain ⟨l, h', hi⟩ := includes_iff.1 h'
      have e := Option.some.inj (h.2.symm.trans h'.2)
      rw [← e] at hi
      rename_i path v more _
      cases v with
      | obj o => exact hv o rfl
      | _ => simp [templateImport] at hi

/-- Whatever the other templates are, a document of which is known what it refers to adds a fixed number of steps. -/
theorem finds_pend {env : Env E J} (hf : Faithful env.tpl) (K : Nat) {f f' : Frame} {ts : List HTok} {ls is : List Text} (h : Finds env f ts ls is f') :
    ∃ k, ∀ F : Text → Option (List HTok), (∀ i ∈ is, F (join env.tpl.folder i) = env.tpl.files (join env.tpl.folder i)) →
      ∀ (rs : List Text) (rest : List HTok) (n : Nat), Pend { env.tpl with files := F } K (f.relpath :: rs) rest n →
        Pend { env.tpl with files := F } K (f.relpath :: rs) (ts ++ rest) (k + n) := by
  have hf' : ∀ F, Faithful { env.tpl with files := F } := fun F => ⟨hf.back, hf.start, hf.line, hf.blank, hf.black⟩
  have one : ∀ {f f2 : Frame} {t : HTok} {ts : List HTok} {is : List Text}, f2.relpath = f.relpath → (∀ F, Free { env.tpl with files := F } f.relpath t) →
      (∃ k, ∀ F : Text → Option (List HTok), (∀ i ∈ is, F (join env.tpl.folder i) = env.tpl.files (join env.tpl.folder i)) →
      ∀ (rs : List Text) (rest : List HTok) (n : Nat), Pend { env.tpl with files := F } K (f2.relpath :: rs) rest n →
        Pend { env.tpl with files := F } K (f2.relpath :: rs) (ts ++ rest) (k + n)) →
      (∃ k, ∀ F : Text → Option (List HTok), (∀ i ∈ is, F (join env.tpl.folder i) = env.tpl.files (join env.tpl.folder i)) →
      ∀ (rs : List Text) (rest : List HTok) (n : Nat), Pend { env.tpl with files := F } K (f.relpath :: rs) rest n →
        Pend { env.tpl with files := F } K (f.relpath :: rs) (t :: ts ++ rest) (k + n)) := by
    rintro f f2 t ts is e hfree ⟨k, hk⟩
    rw [e] at hk
    refine ⟨price K t + k, fun F hF rs rest n hp => ?_⟩
    rw [Nat.add_assoc]
    exact .tok (hfree F) (hk F hF rs rest n hp)
  induction h with
  | nil => exact ⟨0, fun F _ rs rest n hp => by simpa using hp⟩
  | keep h _ ih => exact one rfl (fun F => ordinary_free h.ordinary) ih
  | canon h _ _ ih =>
    refine one rfl (fun F => visible_free ?_ _) ih
    intro d hd
    subst hd
    cases h
  | link h _ ih =>
    refine one rfl (fun F => visible_free ?_ _) ih
    intro d hd
    subst hd
    cases h
  | define h _ ih =>
    refine one rfl (fun F => stack_only (env := { env.tpl with files := F }) h ?_ ?_) ih
    · intro p more e
      simp only [List.cons.injEq, Json.str.injEq] at e
      exact ne_def_push e.1
    · intro more e
      simp only [List.cons.injEq, Json.str.injEq] at e
      exact ne_def_pop e.1
  | retrieve h _ _ _ _ ih =>
    refine one rfl (fun F => stack_only (env := { env.tpl with files := F }) h ?_ ?_) ih
    · intro p more e
      simp only [List.cons.injEq, Json.str.injEq] at e
      exact absurd e.1 (by decide +kernel)
    · intro more e
      simp only [List.cons.injEq, Json.str.injEq] at e
      exact absurd e.1 (by decide +kernel)
  | unknown h _ ih =>
    refine one rfl (fun F => unknown_free ?_) ih
    cases h with
    | stack h h1 h2 h3 h4 => exact .stack h h1 h2 h3 h4
    | template h hv => exact .template h hv
  | block h h' _ _ ihb ih =>
    obtain ⟨k, hk⟩ := ih
    obtain ⟨m, hm⟩ := ihb
    refine ⟨m + k + 4, fun F hF rs rest n hp => ?_⟩
    have h1 := hk F (fun i hi => hF i (by simp [hi])) rs rest n hp
    have h2 := hm F (fun i hi => hF i (by simp [hi])) _ _ _ (.pop h' h1)
    have h3 := Pend.push (env := { env.tpl with files := F }) h h2
    rw [show m + k + 4 + n = m + (k + n + 2) + 2 by omega, List.cons_append, List.append_assoc, List.cons_append]
    exact h3
  | @template f t rel vars body ls1 is1 f1 ts ls is f' h hfile _ _ ihb ih =>
    obtain ⟨k, hk⟩ := ih
    obtain ⟨m, hm⟩ := ihb
    obtain ⟨l, ht, hx⟩ := includes_iff.1 h
    obtain ⟨vars', hx', -⟩ := import_vars (vs' := []) (r := f.relpath) hx
    refine ⟨m + k + 5 + (K + 5) * vars'.length, fun F hF rs rest n hp => ?_⟩
    have h1 := hk F (fun i hi => hF i (by simp [hi])) rs rest n hp
    have hpop : IsPop { env.tpl with files := F } (stackComment { env.tpl with files := F } [.str (txt "pop")]) := ⟨[], stackArgs_comment (hf' F) _ _⟩
    have h2 := hm F (fun i hi => hF i (by simp [hi])) _ _ _ (.pop hpop h1)
    have hi' : Includes { env.tpl with files := F } ⟨f.relpath, []⟩ t rel vars' := includes_iff.2 ⟨l, ht, hx'⟩
    have h3 := Pend.incl hi' ((hF rel (by simp)).trans hfile) h2
    rw [show m + k + 5 + (K + 5) * vars'.length + n = m + (k + n + 2) + (K + 5) * vars'.length + 3 by omega]
    exact h3

end Verif.Html.Page.Ends

namespace Verif.Hot.Scripts
open Verif Verif.Hot Verif.Graph
open Verif.Reader (Text txt)
open Verif.Handlers (Bytes Fs)
open Verif.Paths (join)

/-- For every page of which is known what it refers to there is a number of steps which suffices in every project where the
page and its templates are the same. -/
theorem enough_page {c : Config} (hc : PagesOk c) {fs : Fs} {f : String} {ls is : List Text} (h : Reaches c fs f ls is) :
    ∃ N, ∀ fuel, N ≤ fuel → EnoughPage { c with fuel := fuel } fs f is := by
  obtain ⟨y, ts, f1, a1, a2, a3⟩ := h
  have hj : ∀ fs, Html.Faithful (pageEnv c false (txt f) fs).tpl := fun fs => ⟨hc.json.back, hc.json.start, hc.json.line, hc.json.blank, hc.json.black⟩
  obtain ⟨k, hk⟩ := Html.Page.Ends.finds_pend (hj fs) 0 a3
  refine ⟨k + 1, fun fuel hf fs' h1 h2 => ?_⟩
  have hp := hk (fun p => if (txt "src/partials/").isPrefixOf p then (fs' p).bind c.page.parse else none) (fun i hi => by
    show _ = if (txt "src/partials/").isPrefixOf (join [] i) then (fs (join [] i)).bind c.page.parse else none
    have e : join (pageEnv c false (txt f) fs).tpl.folder i = i := join_nil i
    rw [e, join_nil, h2 i hi]) [] [] 0 .nil
  rw [List.append_nil] at hp
  have hu : ∀ s, Html.Page.Ends.Usual (pageEnv { c with fuel := fuel } s (txt f) fs') 0 := fun s =>
    ⟨hc.space, rfl, ⟨hc.json.back, hc.json.start, hc.json.line, hc.json.blank, hc.json.black⟩, fun _ _ _ _ _ h => by cases h⟩
  obtain ⟨⟨r, e1⟩, -⟩ := Html.Page.page_pend (hu true) (n := k) hp (h1.trans a1) a2
  obtain ⟨-, r', e2⟩ := Html.Page.page_pend (hu false) (n := k) hp (h1.trans a1) a2
  exact ⟨by rw [show ({ c with fuel := fuel } : Config).fuel = fuel from rfl, e1 _ hf]; simp,
    by rw [show ({ c with fuel := fuel } : Config).fuel = fuel from rfl, e2 _ hf]; simp⟩

end Verif.Hot.Scripts
