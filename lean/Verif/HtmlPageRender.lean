import Verif.HtmlRenderMain

/-!
# C66: what a page becomes
-/

namespace Verif.Html.Page

open Verif.Reader (Text txt)
open Verif.Build
open Verif.Assoc (item put ofList keys)
open Verif.Paths (join)
open Verif.Handlers (Bytes Fs Scan Built copyTarget hashTarget hashBuild)
open Verif.Icons (addAll mem_addAll)

variable {E J : Type}

/-! ## Specification -/

/-- Before a page is built. -/
def World.start (fs : Fs) : World := ⟨fs, [], ⟨[], [], []⟩, 0, 0, ⟨[], [], []⟩, []⟩

/-- Where the page goes. -/
def pageOut (stem : Text) : Text := txt "out/www/" ++ stem ++ txt ".html"

/-- What is reported for a page. -/
structure Reports (w : World) (stem : Text) (r : Built) : Prop where
  children : ∀ p, p ∈ r.children ↔ p ∈ w.links ∨ p ∈ w.images.children ∨ p ∈ w.made.children ∨ p ∈ w.incs
  produced : ∀ p, p ∈ r.produced ↔ p = pageOut stem ∨ p = pageOut stem ++ txt ".hash" ∧ w.fs (pageOut stem ++ txt ".hash") = none ∨
    p ∈ w.images.produced ∨ p ∈ w.made.produced
  reused : ∀ p, p ∈ r.produced ∨ p ∈ r.reused ↔ p = pageOut stem ∨ p = pageOut stem ++ txt ".hash" ∨
    p ∈ w.images.produced ∨ p ∈ w.images.reused ∨ p ∈ w.made.produced ∨ p ∈ w.made.reused

/-! ## Proofs -/

theorem copyTarget_page {rel stem : Text} (h : PageFile rel stem) : copyTarget rel = some (pageOut stem) := by
  have e1 : txt "src/public/" = Handlers.srcPublic ++ [47] := by decide
  unfold copyTarget
  rw [h.1, if_pos]
  · have : (txt "src/public/" ++ stem ++ txt ".html").drop (Handlers.srcPublic.length + 1) = stem ++ txt ".html" := by
      rw [List.append_assoc, List.drop_left']
      decide
    rw [this]
    simp [pageOut, Handlers.outWww]
  · rw [List.isPrefixOf_iff_prefix, e1]
    simp

theorem hashTarget_page (stem : Text) : hashTarget (pageOut stem) = some (pageOut stem ++ txt ".hash") := by
  have e1 : txt "out/www/" = Handlers.outWww := rfl
  have e2 : (Handlers.srcPublic ++ txt "/") = 115 :: txt "rc/public/" := by decide
  have e3 : Handlers.outWww = 111 :: txt "ut/www/" := by decide
  unfold hashTarget
  rw [if_neg, if_pos]
  · unfold pageOut
    rw [e1]
    simp
  · rw [List.isPrefixOf_iff_prefix, pageOut, e1]
    simp
  · rw [e2, pageOut, e1, e3]
    simp

theorem loop_of_build {fuel : Nat} {env : Env E J} {target : Text} {fs fs' : Fs} {r : Built} {content : Bytes} {ts : List HTok}
    (h : buildFile fuel env fs = some (.ok (r, fs'))) (ht : copyTarget env.rel = some target) (h0 : fs env.rel = some content)
    (hp : env.parse content = some ts) :
    ∃ g b hb, loop (manips env) g (State.new (St.new fs env.rel)) ts = some (.ok b) ∧
      hashBuild env.digest target (b.st.fs.write target (env.write b.output)) = .ok (hb, fs') ∧ b.st.tpl.stack = [] ∧
      r = [hb, ⟨b.st.links, [], []⟩, b.st.imgBuilt, b.st.outBuilt, ⟨b.st.tpl.deps, [], []⟩].foldl Css.Page.merge ⟨[], [target], []⟩ := by
  unfold buildFile at h
  rw [ht] at h
  simp only [h0, hp] at h
  simp only [Option.map_eq_some_iff] at h
  obtain ⟨x, h1, h2⟩ := h
  split at h2
  · cases h2
  · next out b =>
    split at h2
    · cases h2
    · next hb fs2 hh =>
      split at h2
      · cases h2
      · next deps hd =>
        cases h2
        obtain ⟨g, hg⟩ := runOps_loop _ _ _ _ _ _ _ h1
        rw [tokensOf_all, runOps_all h1] at hg
        simp only [State.new, List.append_nil] at hg
        unfold tplResult at hd
        split at hd
        · next hst =>
          cases hd
          exact ⟨g, _, hb, hg, hh, hst, rfl⟩
        · cases hd

theorem merge_all (r x : Built) (p : Text) : p ∈ (Css.Page.merge r x).produced ∨ p ∈ (Css.Page.merge r x).reused ↔
    (p ∈ r.produced ∨ p ∈ r.reused) ∨ p ∈ x.produced ∨ p ∈ x.reused := by
  simp only [Css.Page.merge, mem_addAll, List.mem_filter, Bool.not_eq_true', List.contains_eq_mem, decide_eq_false_iff_not]
  tauto

/-- **C66.** When a page has been built, the page in out/www is the text of what `Render` says the page becomes; beside it
is its hash; all other files are as `Render` leaves them; and what is reported is what is linked to, included and made. -/
theorem C66_page {fuel : Nat} {env : Env E J} (hf : Fit env) {host stem : Text} (hh : env.host = some host) (hs : PageFile env.rel stem)
    {fs fs' : Fs} {r : Built} {content : Bytes} {ts : List HTok} (h0 : fs env.rel = some content) (hp : env.parse content = some ts)
    (hbal : Bal env.tpl ts) (hsane : Sane ts) (hcut : ¬ Cut ts) (h : buildFile fuel env fs = some (.ok (r, fs'))) :
    ∃ out w f, Render env host stem (World.start fs) ⟨env.rel, []⟩ ts out w f ∧
      fs' (pageOut stem) = some (env.write out) ∧
      fs' (pageOut stem ++ txt ".hash") = some ((w.fs (pageOut stem ++ txt ".hash")).getD (env.digest (env.write out))) ∧
      (∀ p, p ≠ pageOut stem → p ≠ pageOut stem ++ txt ".hash" → fs' p = w.fs p) ∧ Reports w stem r := by
  obtain ⟨g, b, hb, hl, hhash, hstack, hr⟩ := loop_of_build h (copyTarget_page hs) h0 hp
  rcases render_main hf hh hs g ts _ _ hbal hsane rfl rfl hl with ⟨out, f', he, ho, hq⟩ | ⟨hc, -⟩
  swap
  · exact absurd hc hcut
  have hout : b.output = out := by simpa [State.new] using ho
  have hne : pageOut stem ++ txt ".hash" ≠ pageOut stem := by
    intro he
    have := congrArg List.length he
    have e : (txt ".hash").length = 5 := by decide
    simp [e] at this
  have key : ∃ q, (q = hb) ∧ q.children = [] ∧ (∀ p, p ∈ q.produced ↔ p = pageOut stem ++ txt ".hash" ∧ b.st.fs (pageOut stem ++ txt ".hash") = none) ∧
      (∀ p, p ∈ q.produced ∨ p ∈ q.reused ↔ p = pageOut stem ++ txt ".hash") ∧
      fs' (pageOut stem) = some (env.write out) ∧
      fs' (pageOut stem ++ txt ".hash") = some ((b.st.fs (pageOut stem ++ txt ".hash")).getD (env.digest (env.write out))) ∧
      (∀ p, p ≠ pageOut stem → p ≠ pageOut stem ++ txt ".hash" → fs' p = b.st.fs p) := by
    unfold hashBuild at hhash
    rw [hashTarget_page, hout] at hhash
    have e1 : (b.st.fs.write (pageOut stem) (env.write out)) (pageOut stem ++ txt ".hash") = b.st.fs (pageOut stem ++ txt ".hash") := by
      simp [Fs.write, hne]
    have e2 : (b.st.fs.write (pageOut stem) (env.write out)) (pageOut stem) = some (env.write out) := by simp [Fs.write]
    simp only [e1, e2] at hhash
    cases hfile : b.st.fs (pageOut stem ++ txt ".hash") with
    | some x =>
      rw [hfile] at hhash
      cases hhash
      refine ⟨_, rfl, rfl, by simp, by simp, by simp [Fs.write], by rw [e1, hfile]; rfl, ?_⟩
      intro p h1 h2
      simp [Fs.write, h1]
    | none =>
      rw [hfile] at hhash
      cases hhash
      refine ⟨_, rfl, rfl, by simp, by simp, by simp [Fs.write, hne.symm], by simp [Fs.write], ?_⟩
      intro p h1 h2
      simp [Fs.write, h1, h2]
  obtain ⟨_, rfl, k1, k2, k3, k4, k5, k6⟩ := key
  refine ⟨out, _, f', he, k4, k5, k6, ?_, ?_, ?_⟩
  · intro p
    rw [hr]
    simp only [List.foldl_cons, List.foldl_nil, Css.Page.merge, mem_addAll, k1, List.not_mem_nil, or_false, false_or, worldOf]
    tauto
  · intro p
    rw [hr]
    simp only [List.foldl_cons, List.foldl_nil, Css.Page.merge, mem_addAll, k2, List.not_mem_nil, or_false, List.mem_singleton, worldOf]
    tauto
  · intro p
    rw [hr]
    simp only [List.foldl_cons, List.foldl_nil, merge_all, k3, List.not_mem_nil, or_false, List.mem_singleton, worldOf, or_assoc]

/-- What is wrong: unless the folder is kept, at most one inline script and one inline stylesheet are possible on a page
and the templates it includes. -/
theorem C66_once {env : Env E J} {host stem : Text} {k : Kind} (hk : env.kept k = false) {w w' : World} {f f' : Frame} {ts out : List HTok}
    (h : Render env host stem w f ts out w' f') : w.count k ≤ 1 → w'.count k ≤ 1 := by
  induction h with
  | nil => exact id
  | keep _ _ ih => exact ih
  | canon _ _ _ _ ih => exact ih
  | link _ _ _ _ ih => intro h; exact ih (by cases k <;> exact h)
  | image _ _ _ _ ih => intro h; exact ih (by cases k <;> exact h)
  | @inline w f t k' attrs body text n file r fs hash tags ts out w' f' _ _ hk' _ _ _ _ _ _ ih =>
    intro h
    apply ih
    cases k <;> cases k' <;> simp_all [World.count, World.bump]
  | define _ _ ih => exact ih
  | retrieve _ _ _ _ _ ih => exact ih
  | unknown _ _ ih => exact ih
  | block _ _ _ _ ih1 ih2 => exact fun h => ih2 (ih1 h)
  | template _ _ _ _ ih1 ih2 => intro h; exact ih2 (ih1 (by cases k <;> exact h))

end Verif.Html.Page
