import Verif.HtmlPolicy

/-!
# C103: a page, and what goes wrong
-/

namespace Verif.Html.Policy.Case

open Verif.Reader (Text txt)
open Verif.Assoc (item put ofList keys)
open Verif.Handlers (Bytes Fs Scan Built)
open Verif.Html.Page

theorem exports (scan : Bool) (kept : Kind → Bool) : Exports (PageToy.env scan kept) := by
  intro fs c outputs r fs' h o ho p hp
  simp only [PageToy.env, Except.ok.injEq, Prod.mk.injEq] at h
  obtain ⟨rfl, -⟩ := h
  have e1 : txt "i/2.jpeg" = [105, 47, 50, 46, 106, 112, 101, 103] := by decide
  have e2 : txt "i/4.jpeg" = [105, 47, 52, 46, 106, 112, 101, 103] := by decide
  have e3 : txt "i/2.webp" = [105, 47, 50, 46, 119, 101, 98, 112] := by decide
  simp only [List.mem_cons, List.not_mem_nil, or_false] at ho
  rcases ho with rfl | rfl
  · simp only [List.mem_cons, List.not_mem_nil, or_false] at hp
    rcases hp with rfl | rfl
    · exact ⟨by show ∀ c ∈ txt "i/2.jpeg", _; decide, 105, _, e1, by decide, by decide⟩
    · exact ⟨by rw [e2]; decide, 105, _, e2, by decide, by decide⟩
  · simp only [List.mem_cons, List.not_mem_nil, or_false] at hp
    subst hp
    exact ⟨by show ∀ c ∈ txt "i/2.webp", _; decide, 105, _, e3, by decide, by decide⟩

/-- The attributes of the tags below: nothing is forbidden in them. -/
theorem harmless {name : Text} {d : Attrs} (hn : name ∉ [txt "object", txt "embed", txt "applet", txt "image", txt "use", txt "feImage"])
    (hk : ∀ q ∈ d, q.1 ∈ [(none, txt "type"), (none, txt "rel"), (none, txt "href"), (none, txt "media")])
    (hs : name = txt "script" → item d (none, txt "href") = none)
    (hh : ∀ u, item d (none, txt "href") = some u → ∃ c p, u = 47 :: c :: p ∧ ¬ c ≤ 32 ∧ c ≠ 47 ∧ c ≠ 92) : ¬ Forbidden name d := by
  have no : ∀ k v, item d k = some v → k ∈ [(none, txt "type"), (none, txt "rel"), (none, txt "href"), (none, txt "media")] :=
    fun k v h => hk _ (Assoc.mem_of_get h)
  intro hf
  cases hf with
  | @handler x _ _ hx =>
    have := no _ _ hx
    simp only [List.mem_cons, Prod.mk.injEq, true_and, List.not_mem_nil, or_false] at this
    rcases this with h | h | h | h
    · exact on_ne ⟨116, 121, txt "pe", by decide, by decide⟩ h
    · exact on_ne ⟨114, 101, txt "l", by decide, by decide⟩ h
    · exact on_ne ⟨104, 114, txt "ef", by decide, by decide⟩ h
    · exact on_ne ⟨109, 101, txt "dia", by decide, by decide⟩ h
  | style hx => exact absurd (no _ _ hx) (by decide)
  | foreign hl ho =>
    cases hl with
    | src hx => exact absurd (no _ _ hx) (by decide)
    | srcset hx hp => exact absurd (no _ _ hx) (by decide)
    | poster hx => exact absurd (no _ _ hx) (by decide)
    | link _ _ _ hx =>
      obtain ⟨c, p, rfl, hc⟩ := hh _ hx
      exact ho (own_second hc)
    | svg hm hx =>
      have hq := no _ _ hx
      simp only [List.mem_cons, Prod.mk.injEq, List.not_mem_nil, or_false] at hq
      have hns := hq.elim And.left (Or.elim · And.left (Or.elim · And.left And.left))
      simp only [List.mem_cons, List.not_mem_nil, or_false, not_or] at hm hn
      rcases hm with hm | hm | hm | hm
      · exact hn.2.2.2.1 hm
      · exact hn.2.2.2.2.1 hm
      · exact hn.2.2.2.2.2 hm
      · rw [hns, hs hm] at hx
        cases hx
  | @code a _ _ _ ha hx hj =>
    have := no _ _ hx
    simp only [List.mem_cons, List.not_mem_nil, or_false] at ha
    rcases ha with rfl | rfl | rfl
    · obtain ⟨c, p, rfl, hc⟩ := hh _ hx
      exact clean_slash hj
    · exact absurd this (by decide)
    · exact absurd this (by decide)
  | plugin hp =>
    simp only [List.mem_cons, List.not_mem_nil, or_false, not_or] at hp hn
    rcases hp with h | h | h
    · exact hn.1 h
    · exact hn.2.1 h
    · exact hn.2.2.1 h

theorem page_fine : ∀ t ∈ PageToy.page, ¬ Bad t := by
  have e1 : txt "/a" = [47, 97] := by decide
  have e2 : txt "/m.css" = [47, 109, 46, 99, 115, 115] := by decide
  intro t ht hb
  simp only [PageToy.page, PageToy.script, List.cons_append, List.nil_append, List.mem_cons, List.not_mem_nil, or_false] at ht
  rcases ht with rfl | rfl | rfl | rfl | rfl | rfl | rfl | rfl | rfl
  · cases hb with
    | empty hf =>
      refine harmless (by decide) (by decide) (by decide) ?_ hf
      intro u hu
      have : u = txt "/a" := by
        have h : item [((none, txt "rel"), txt "canonical"), ((none, txt "href"), txt "/a")] ((none, txt "href") : Option Text × Text) = some (txt "/a") := by decide
        rw [h] at hu
        exact (Option.some.inj hu).symm
      exact ⟨97, [], by rw [this, e1], by decide⟩
  · cases hb with
    | empty hf =>
      refine harmless (by decide) (by decide) (by decide) ?_ hf
      intro u hu
      have : u = txt "/m.css" := by
        have h : item [((none, txt "rel"), txt "stylesheet"), ((none, txt "href"), txt "/m.css")] ((none, txt "href") : Option Text × Text) = some (txt "/m.css") := by decide
        rw [h] at hu
        exact (Option.some.inj hu).symm
      exact ⟨109, [46, 99, 115, 115], by rw [this, e2], by decide⟩
  · cases hb with
    | start hf =>
      refine harmless (by decide) (by decide) (by decide) ?_ hf
      intro u hu
      have h : item [((none, txt "type"), txt "module")] ((none, txt "href") : Option Text × Text) = none := by decide
      rw [h] at hu
      cases hu
  all_goals cases hb

theorem partials_fine : ∀ path body, PageToy.partials path = some body → ∀ t ∈ body, ¬ Bad t := by
  intro path body h t ht hb
  unfold PageToy.partials at h
  split at h
  · cases h
    simp only [List.mem_cons, List.not_mem_nil, or_false] at ht
    rcases ht with rfl | rfl | rfl | rfl
    · cases hb with
      | start hf => exact harmless (by decide) (by simp) (by simp [item]) (by simp [item]) hf
    all_goals cases hb
  · cases h

/-- The page of C66 meets the conditions of C103: it has an inline script, which would be refused, and a template with an
inline stylesheet. -/
theorem C103_case : Fit (PageToy.env false fun _ => false) ∧ Exports (PageToy.env false fun _ => false) ∧
    (∀ t ∈ PageToy.page, ¬ Bad t) ∧ (∀ path body, (PageToy.env false fun _ => false).tpl.files path = some body → ∀ t ∈ body, ¬ Bad t) ∧
    (∃ t ∈ PageToy.page, Refused t) ∧ ∃ out : List HTok, (∃ r fs', buildFile 100 (PageToy.env false fun _ => false) (PageToy.files (txt "page")) = some (.ok (r, fs')) ∧
      fs' (txt "out/www/index.html") = some (out.flatMap PageToy.spell)) ∧ ∀ t ∈ out, ¬ Refused t := by
  refine ⟨PageToy.fit _, exports _ _, page_fine, partials_fine, 
    ⟨.startTag (txt "script") [((none, txt "type"), txt "module")], by simp [PageToy.page, PageToy.script], ?_⟩, ?_⟩
  · exact .script (by decide)
  · have h : ∃ r fs, buildFile 100 (PageToy.env false fun _ => false) (PageToy.files (txt "page")) = some (.ok (r, fs)) := by
      have h0 := PageToy.C66_case
      unfold PageToy.after at h0
      cases hb : buildFile 100 (PageToy.env false fun _ => false) (PageToy.files (txt "page")) with
      | none => rw [hb] at h0; cases h0
      | some x =>
        rw [hb] at h0
        cases x with
        | error e => cases h0
        | ok x => exact ⟨x.1, x.2, rfl⟩
    obtain ⟨r, fs, h⟩ := h
    have h1 := PageToy.C66_case_fits
    obtain ⟨out, h2, h3⟩ := C103_partial (PageToy.fit _) (exports _ _) rfl PageToy.pageFile (by decide +kernel) h1.1 h1.2.1 h1.2.2.1 h1.2.2.2
      page_fine partials_fine h
    exact ⟨out, ⟨r, fs, h, h2⟩, h3⟩

/-- A page with a handler, a style and a frame from elsewhere. -/
def attributes : List HTok :=
  [.startTag (txt "p") [((none, txt "onclick"), txt "f()")], .endTag (txt "p"), .startTag (txt "p") [((none, txt "style"), txt "color:red")], .endTag (txt "p")]

/-- A page with data. -/
def block : List HTok :=
  [.startTag (txt "script") [((none, txt "type"), txt "application/ld+json")], .characters (txt "{}"), .endTag (txt "script")]

def env (ts : List HTok) : Env Unit Text := { PageToy.env false (fun _ => false) with parse := fun _ => some ts }

def after (ts : List HTok) : Option (Option (Option Text)) :=
  (buildFile 100 (env ts) (PageToy.files (txt "page"))).map fun
    | .ok (_, fs) => some (fs (txt "out/www/index.html"))
    | .error _ => none

/-- **C103** is false of code and styles in attributes: they are kept, and refused. -/
theorem C103_false_attributes : after attributes = some (some (some (attributes.flatMap PageToy.spell))) ∧ ∃ t ∈ attributes, Refused t := by
  refine ⟨by decide +kernel, .startTag (txt "p") [((none, txt "onclick"), txt "f()")], by simp [attributes], ?_⟩
  exact .bad (.start (.handler (x := txt "click") (v := txt "f()") (by decide +kernel)))

/-- What is wrong: data, which the policy does not refuse, is taken for a script and moved to a file, where no browser looks for
it: the `src` of a script with the type of data is not loaded. -/
theorem C103_false_data : after block = some (some (some (txt "<script src=/js/gen/index/1.js?v=2&pv=1.3.2 type=application/ld+json></script>"))) := by
  decide +kernel

end Verif.Html.Policy.Case
