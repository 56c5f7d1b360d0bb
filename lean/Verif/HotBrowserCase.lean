import Verif.HotBrowser
import Verif.HotSheetsCase
/-!
# C96: a visit

A stylesheet is changed and changed back; the website is deployed each time.
-/
namespace Verif.Hot.Scripts.Sheets
open Verif Verif.Hot Verif.Graph
open Verif.Reader (Text txt)
open Verif.Handlers (Bytes Fs)
open Verif.Paths (isAbs)
open Site (cfg tab tab_none tab_ne tab_skip cwd)

/-- What is deployed. -/
def Both (W : Contents Bytes) : Prop := ∃ v, W = done v

def urlM (v : Bool) : Text := if v then txt "/m.css?v=9" else txt "/m.css?v=8"

theorem worked : ∀ W, Both W → ∃ m gs dm, Worked (project cfg.constants) (tool cfg) m W gs dm := by
  rintro _ ⟨v, rfl⟩
  exact ⟨_, _, _, hist1 v⟩

theorem refers (v : Bool) : Refers cfg (done v) (txt "m.css") (urlM v) := by
  obtain ⟨out, h1, h2⟩ : ∃ out, Css.Urls.Versioned { cfg.sheet.urls with self := txt "src/public/p.css" } (fsOf (done v)) [.url (txt "/m.css")] out ∧ out[0]? = some (.url (urlM v)) := by
    refine ⟨[.url (urlM v)], ⟨rfl, fun k t ht => ⟨fun v' path hu hl => ?_, fun hno => ?_⟩⟩, rfl⟩
    · cases k with
      | succ k => simp at ht
      | zero =>
        simp only [List.getElem?_cons_zero, Option.some.injEq] at ht
        subst ht
        have hv : v' = txt "/m.css" := by
          rcases hu with ⟨hu, -⟩ | ⟨hu, -⟩
          · simp at hu
          · simpa using hu.symm
        subst hv
        have hp : path = txt "m.css" := by
          have := hl.1
          have e : txt "/m.css" = txt "/" ++ txt "m.css" := by decide
          rw [e] at this
          exact (List.append_cancel_left this).symm
        subst hp
        refine ⟨if v then txt "9" else txt "8", ?_, ?_⟩
        · cases v <;> decide +kernel
        · cases v <;> decide +kernel
    · cases k with
      | succ k => simp at ht
      | zero =>
        refine (hno (txt "/m.css") (txt "m.css") (.inr ⟨rfl, ?_⟩) url.2).elim
        rintro ⟨i, _, hi, -⟩
        omega
  exact .sheet h1 (k := 0) (v := txt "/m.css") (.inr ⟨rfl, by rintro ⟨i, _, hi, -⟩; omega⟩) url.2 (.inl h2)

/-- The ways in which a hash is written. -/
def forms (h : Bytes) : List Text :=
  [txt "v=" ++ Html.quotePlus cfg.js.enc (cfg.js.decode h) ++ txt "&pv=1.3.2", txt "v=" ++ Html.quotePlus cfg.js.enc (cfg.page.strip (cfg.js.decode h)) ++ txt "&pv=1.3.2",
    cfg.sheet.urls.query h]

theorem written {h : Bytes} {q : Text} (hw : Written cfg h q) : q ∈ forms h := by cases hw <;> simp [forms]

theorem told : Tells cfg Both := by
  have apart : ∀ v : Bool, (∀ q ∈ forms (cfg.js.digest (script v)), q ∉ forms (cfg.js.digest (script !v))) ∧
      (∀ q ∈ forms (cfg.js.digest (other v)), q ∉ forms (cfg.js.digest (other !v))) := by decide +kernel
  rintro _ _ g z y y' q ⟨v, rfl⟩ ⟨v', rfl⟩ hg hz h1 h2 h3 h4
  by_cases hv : v' = v
  · subst hv
    rw [h1] at h2
    exact Option.some.inj h2
  have hv : v' = !v := by cases v <;> cases v' <;> simp_all
  subst hv
  have hmem : str (copyOf z) ∈ (outA v ++ outB v ++ outK ++ sources v).map (·.1) := tab_ne.1 (by rw [show tab _ _ = done v (str (copyOf z)) from rfl, h1]; simp)
  have hh : ¬ txt ".hash" <:+ z := by
    rcases hg with ⟨x, hx, ho⟩ | hp
    · rw [show z = x from List.append_cancel_left (hz.1.symm.trans hx.1)]
      exact ho _ (by simp [others])
    · exact (hp.not_public hz).elim
  have hz' := txt_copy hz
  have hout : ∀ s : String, str (copyOf z) = s → z = (txt s).drop 8 := fun s hs => by
    rw [← hs, hz']
    rfl
  simp only [outA, outB, outK, sources, List.map_cons, List.map_nil, List.cons_append, List.nil_append, List.mem_cons, List.not_mem_nil, or_false] at hmem
  rcases hmem with e | e | e | e | e | e | e | e | e
  · rw [e] at h1 h2
    have a1 : done v "out/www/m.css" = some (script v) := by cases v <;> decide
    have a2 : done (!v) "out/www/m.css" = some (script !v) := by cases v <;> decide
    cases a1.symm.trans h1
    cases a2.symm.trans h2
    exact ((apart v).1 q (written h3) (written h4)).elim
  · exact (hh (by rw [hout _ e]; decide)).elim
  · rw [e] at h1 h2
    have a1 : done v "out/www/p.css" = some (other v) := by cases v <;> decide
    have a2 : done (!v) "out/www/p.css" = some (other !v) := by cases v <;> decide
    cases a1.symm.trans h1
    cases a2.symm.trans h2
    exact ((apart v).2 q (written h3) (written h4)).elim
  · exact (hh (by rw [hout _ e]; decide)).elim
  · rw [e] at h1 h2
    have a : done v "out/www/k.js" = done (!v) "out/www/k.js" := by cases v <;> decide
    exact Option.some.inj (h1.symm.trans (a.trans h2))
  · exact (hh (by rw [hout _ e]; decide)).elim
  all_goals
    rw [e] at hz'
    have h0 : (copyOf z)[0]? = some 111 := rfl
    rw [← hz'] at h0
    exact absurd h0 (by decide)

/-- The hypotheses of C96 are met: the browser keeps the stylesheet of the first version, the second one is deployed, and it has this. -/
theorem C96_case : isAbs cfg.js.cwd = true ∧ Js.SpaceOk cfg.js.space ∧ Source cfg.constants ∧ Tells cfg Both ∧
    Visited Both (Refers cfg) (done true) (fun u => if u = urlM false then some (script false) else none) ∧
    Refers cfg (done true) (txt "m.css") (urlM true) ∧ Gets (done true) (fun u => if u = urlM false then some (script false) else none) (urlM true) (script true) := by
  have hs : Js.SpaceOk cfg.js.space := fun c h1 h2 => by simp [cfg, Js.File.toy]; omega
  have hv : Visited Both (Refers cfg) (done true) (fun u => if u = urlM false then some (script false) else none) :=
    .deploy (.keep (W := done false) (g := "src/public/m.css") (z := txt "m.css") (.first ⟨false, rfl⟩) ⟨txt "/m.css", txt "8", by decide⟩ (source _ (by simp)) pubA (by decide)
      (refers false) (by decide)) ⟨true, rfl⟩
  exact ⟨cwd, hs, source _ (by simp [cfg]), told, hv, refers true,
    (C96_partial cwd hs (source _ (by simp [cfg])) worked told hv (source _ (by simp)) pubA (by decide) (refers true) _).2 (by decide)⟩

/-- What is missing in `C96_partial`: if a page which was loaded before the second version was deployed asks for the stylesheet afterwards then the
browser keeps the second version under the URL of the first one; and when the first one is deployed again, that is what it has for it. -/
theorem C96_false_earlier : ∃ C, Visited Both (Earlier cfg Both) (done false) C ∧ Refers cfg (done false) (txt "m.css") (urlM false) ∧
    Gets (done false) C (urlM false) (script true) ∧ done false (str (copyOf (txt "m.css"))) = some (script false) ∧ script false ≠ script true := by
  refine ⟨fun v => if v = urlM false then some (script true) else none, ?_, refers false, .inl (by simp), by decide, by decide⟩
  refine .deploy (.keep (W := done true) (g := "src/public/m.css") (z := txt "m.css") (.first ⟨true, rfl⟩) ⟨txt "/m.css", txt "8", by decide⟩ (source _ (by simp)) pubA (by decide)
    ⟨_, ⟨false, rfl⟩, refers false⟩ (by decide)) ⟨false, rfl⟩

end Verif.Hot.Scripts.Sheets
