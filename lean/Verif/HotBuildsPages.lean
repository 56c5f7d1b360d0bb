import Verif.HotBuildsScripts
import Verif.HtmlFinds
/-!
# C110: projects with pages and templates build

If every import of a script, every link of a page and every template which is included names a file which is there, nothing refers to itself
through others, and what a page refers to changes only if the page does, then a rebuild finishes.
-/
namespace Verif.Hot.Scripts
open Verif Verif.Hot Verif.Graph
open Verif.Reader (Text txt)
open Verif.Paths (split joinSegs join relpath isAbs Name Seg)
open Verif.Handlers (Bytes Fs Scan)
open Verif.Html (HTok Frame)
open Verif.Html.Page (Finds Sane PageFile)

/-! ## Specification -/

/-- The file is a page, and not that of the constants. -/
def IsPage (c : Config) (f : String) : Prop := f ≠ c.constants ∧ Web f ∧ ∃ stem, PageFile (txt f) stem

/-- With these files the page `f` links to `ls` and includes `is`, directly or through templates. -/
def Reaches (c : Config) (fs : Fs) (f : String) (ls is : List Text) : Prop := ∃ y ts f', fs (txt f) = some y ∧ c.page.parse y = some ts ∧
  Finds (pageEnv c false (txt f) fs) ⟨txt f, []⟩ ts ls is f'

/-- The tags of the page, or of the template, which are considered have no attribute twice and no namespaces. -/
def Tidy (c : Config) (fs : Fs) (p : Text) : Prop := ∀ y ts, fs p = some y → c.page.parse y = some ts → Sane ts

/-- The bound of the model on the steps for one page is not reached, whatever files there are besides the page and its templates. -/
def EnoughPage (c : Config) (fs : Fs) (f : String) (is : List Text) : Prop := ∀ fs' : Fs, fs' (txt f) = fs (txt f) → (∀ i ∈ is, fs' i = fs i) →
  Html.Page.scanFile c.fuel (pageEnv c true (txt f) fs') fs' ≠ none ∧ Html.Page.buildFile c.fuel (pageEnv c false (txt f) fs') fs' ≠ none

/-- A page without images and inline elements which links to other files below src/public and includes templates. -/
structure GoodPage (c : Config) (fs : Fs) (f : String) (ls is : List Text) : Prop where
  page : IsPage c f
  reaches : Reaches c fs f ls is
  tidy : Tidy c fs (txt f) ∧ ∀ i ∈ is, Tidy c fs i
  links : ∀ l ∈ ls, l ≠ txt f ∧ ∃ g x, l = txt g ∧ Public g x
  templates : ∀ i ∈ is, ∃ g, i = txt g ∧ Partial g
  enough : EnoughPage c fs f is

/-- The source is a script, a copied file or that of the constants, a template, or a page. -/
def Ordered (c : Config) (W : Contents Bytes) (f : String) : Prop :=
  (∃ y, W f = some y ∧ Simple c f y) ∨ (Partial f ∧ f ≠ c.constants) ∨ ∃ ls is, GoodPage c (fsOf W) f ls is

/-- The script imports the file, or the page links to it or includes it. -/
def Names (c : Config) (W : Contents Bytes) (f g : String) : Prop :=
  (∃ y, W f = some y ∧ ImportsFile c f y g) ∨ (IsPage c f ∧ ∃ ls is, Reaches c (fsOf W) f ls is ∧ (txt g ∈ ls ∨ txt g ∈ is))

/-- What the handler of pages is given is as it should be: there is a host, and JSON and whitespace are Python's. -/
structure PagesOk (c : Config) : Prop where
  host : c.page.host ≠ none
  space : Img.GoodSpace c.page.tpl.space
  json : Html.Faithful c.page.tpl

/-! ## Proofs -/

theorem IsPage.facts {c : Config} {f : String} (h : IsPage c f) : ∃ x stem, Public f x ∧ x = stem ++ txt ".html" ∧ PageFile (txt f) stem ∧
    txt ".html" <:+ txt f ∧ ¬ (txt ".css").isSuffixOf (txt f) = true ∧ (txt ".html").isSuffixOf (txt f) = true ∧ ¬ txt f = txt c.constants := by
  obtain ⟨h1, ⟨x, hx, -⟩, stem, hs⟩ := h
  have e : x = stem ++ txt ".html" := by
    have := hx.1.symm.trans hs.1
    rw [List.append_assoc] at this
    exact List.append_cancel_left this
  have hh : txt ".html" <:+ txt f := ⟨txt "src/public/" ++ stem, hs.1.symm⟩
  exact ⟨x, stem, hx, e, hs, hh, fun h => html_css hh (List.isSuffixOf_iff_suffix.1 h), List.isSuffixOf_iff_suffix.2 hh, fun h => h1 (txt_inj h)⟩

theorem Partial.prefix {g : String} (h : Partial g) : txt "src/partials/" <+: txt g := by
  obtain ⟨x, hx, -⟩ := h
  exact ⟨x, hx.symm⟩

theorem public_not_partials {g : String} {x : Text} (h : Public g x) : ¬ txt "src/partials/" <+: txt g := by
  rintro ⟨y, hy⟩
  rw [h.1] at hy
  have := congrArg (fun l => l[5]?) hy
  simp [txt] at this

theorem out_not_partials (x : Text) : ¬ txt "src/partials/" <+: txt "out/www/" ++ x := by
  rintro ⟨y, hy⟩
  have := congrArg (fun l => l[0]?) hy
  simp [txt] at this

/-- The file with the hash of a link. -/
theorem link_hash {p : Text} {g : String} {x : Text} (hg : Public g x) (h : join (txt "src/public") p = txt g) :
    join (txt "out/www") p ++ txt ".hash" = hashOf x := by
  have e1 : (txt "src/public").getLast? = some 99 := by decide
  have e2 : txt "src/public" ≠ [] := by decide
  have e3 : txt "src/public/" = txt "src/public" ++ [47] := by decide
  have f1 : (txt "out/www").getLast? = some 119 := by decide
  have f2 : txt "out/www" ≠ [] := by decide
  have f3 : txt "out/www/" = txt "out/www" ++ [47] := by decide
  rw [hg.1] at h
  have hrel : isAbs p = false := by
    by_cases ha : isAbs p = true
    · exfalso
      unfold join at h
      rw [if_pos ha] at h
      rw [h] at ha
      exact absurd ha (by rw [show txt "src/public/" = 115 :: txt "rc/public/" by decide]; simp [isAbs])
    · simpa using ha
  have hp : p = x := by
    unfold join at h
    rw [hrel, e1] at h
    simp only [Bool.false_eq_true, if_false, e2] at h
    rw [e3] at h
    simpa using h
  subst hp
  unfold join hashOf copyOf
  rw [hrel, f1, f3]
  simp [f2]

theorem readAt_page {c : Config} {rel : Text} {g : String} {x : Text} (hcss : ¬ (txt ".css").isSuffixOf rel = true) (hh : (txt ".html").isSuffixOf rel = true)
    (hg : Public g x) : readAt c rel (txt g) = hashOf x := by
  unfold readAt
  rw [if_neg hcss, if_pos hh, if_neg (fun h => public_not_partials hg (List.isPrefixOf_iff_prefix.1 h)), hg.1, List.drop_left]
  rfl

theorem fit_none {c : Config} (hc : PagesOk c) (rel : Text) (fs : Fs) : Html.Page.Fit ((pageEnv c false rel fs).templates fun _ => none) where
  build := rfl
  space := hc.space
  same := rfl
  json := ⟨hc.json.back, hc.json.start, hc.json.line, hc.json.blank, hc.json.black⟩
  balanced _ _ h := by cases h
  sane _ _ h := by cases h

theorem Reaches.unique {c : Config} (hc : PagesOk c) {fs : Fs} {f : String} {l1 i1 l2 i2 : List Text} (h1 : Reaches c fs f l1 i1) (h2 : Reaches c fs f l2 i2) :
    l1 = l2 ∧ i1 = i2 := by
  obtain ⟨y, ts, f1, a1, a2, a3⟩ := h1
  obtain ⟨y', ts', f2, b1, b2, b3⟩ := h2
  rw [a1] at b1
  cases b1
  rw [a2] at b2
  cases b2
  obtain ⟨host, hh⟩ := Option.ne_none_iff_exists'.1 hc.host
  exact Finds.unique (fit_none hc _ _) (host := host) hh a3 b3

/-- What a page refers to depends on the page and on the templates it includes. -/
theorem Reaches.move {c : Config} {fs fs' : Fs} {f : String} {ls is : List Text} (h : Reaches c fs f ls is) (h1 : fs' (txt f) = fs (txt f))
    (h2 : ∀ i ∈ is, fs' i = fs i) : Reaches c fs' f ls is := by
  obtain ⟨y, ts, f1, a1, a2, a3⟩ := h
  refine ⟨y, ts, f1, h1.trans a1, a2, ?_⟩
  refine Finds.files (env := pageEnv c false (txt f) fs)
    (F := fun p => if (txt "src/partials/").isPrefixOf p then (fs' p).bind c.page.parse else none) a3 fun i hi => ?_
  show _ = if (txt "src/partials/").isPrefixOf (join [] i) then (fs (join [] i)).bind c.page.parse else none
  have e : join (pageEnv c false (txt f) fs).tpl.folder i = i := join_nil i
  rw [e, join_nil, h2 i hi]

theorem GoodPage.move {c : Config} {fs fs' : Fs} {f : String} {ls is : List Text} (h : GoodPage c fs f ls is) (h1 : fs' (txt f) = fs (txt f))
    (h2 : ∀ i ∈ is, fs' i = fs i) : GoodPage c fs' f ls is where
  page := h.page
  reaches := h.reaches.move h1 h2
  tidy := ⟨fun y ts hy => h.tidy.1 y ts (h1 ▸ hy), fun i hi y ts hy => h.tidy.2 i hi y ts (h2 i hi ▸ hy)⟩
  links := h.links
  templates := h.templates
  enough fs'' g1 g2 := h.enough fs'' (g1.trans h1) fun i hi => (g2 i hi).trans (h2 i hi)

theorem report_produced (x : Text) (ls is : List Text) : (Html.Page.report x ls is).produced = [copyOf x, hashOf x] := by
  have hne := Js.File.hash_ne x
  simp only [Html.Page.report, List.foldl, Css.Page.merge, Icons.addAll, Icons.add]
  rw [if_neg]
  · rfl
  · simpa using hne

/-- A page is built as soon as the hashes of what it links to are there. -/
theorem page_works {c : Config} (hc : PagesOk c) {m : Mode} {fs : Fs} {f : String} {ls is : List Text} (G : GoodPage c fs f ls is) {x : Text} (hx : Public f x)
    (h1 : fs (copyOf x) = none) (h2 : fs (hashOf x) = none) (hl : ∀ g x', txt g ∈ ls → Public g x' → fs (hashOf x') ≠ none) :
    ∃ b fs', dispatch c m (txt f) fs = some (b, fs') ∧ (∀ d, d ∈ b.children ↔ d ∈ ls ∨ d ∈ is) ∧ b.produced = [copyOf x, hashOf x] := by
  classical
  obtain ⟨x', stem, hx', hxs, hs, hht, hcss, hhtml, hk⟩ := G.page.facts
  have : x' = x := List.append_cancel_left (hx'.1.symm.trans hx.1)
  subst this
  -- with no other templates
  let fs1 : Fs := fun p => if txt "src/partials/" <+: p ∧ p ∉ is then none else fs p
  have hout : ∀ y, fs1 (txt "out/www/" ++ y) = fs (txt "out/www/" ++ y) := fun y => if_neg fun h => out_not_partials y h.1
  have hfile : fs1 (txt f) = fs (txt f) := if_neg fun h => public_not_partials hx h.1
  have hin : ∀ i ∈ is, fs1 i = fs i := fun i hi => if_neg fun h => h.2 hi
  have G1 := G.move (fs' := fs1) hfile hin
  obtain ⟨y, ts, f1, a1, a2, a3⟩ := G1.reaches
  obtain ⟨host, hh⟩ := Option.ne_none_iff_exists'.1 hc.host
  have hmem : ∀ {p : Text} {body : List HTok}, (pageEnv c false (txt f) fs1).tpl.files p = some body → p ∈ is ∧ ∃ z, fs1 p = some z ∧ c.page.parse z = some body := by
    intro p body h
    simp only [pageEnv] at h
    split at h
    · next hpre =>
      obtain ⟨z, hz, hb⟩ := Option.bind_eq_some_iff.1 h
      refine ⟨?_, z, hz, hb⟩
      by_contra hn
      rw [show fs1 p = none from if_pos ⟨List.isPrefixOf_iff_prefix.1 hpre, hn⟩] at hz
      cases hz
    · cases h
  have hfit : Html.Page.Fit (pageEnv c false (txt f) fs1) := by
    refine ⟨rfl, hc.space, rfl, ⟨hc.json.back, hc.json.start, hc.json.line, hc.json.blank, hc.json.black⟩, fun p body h => ?_, fun p body h => ?_⟩
    · obtain ⟨body', hb, hbal⟩ := a3.bal.2 p (hmem h).1
      have e : join (pageEnv c false (txt f) fs1).tpl.folder p = p := join_nil p
      rw [e, h] at hb
      cases hb
      exact hbal
    · obtain ⟨hi, z, hz, hb⟩ := hmem h
      exact G1.tidy.2 p hi z body hz hb
  have hl1 : ∀ p, join (txt "src/public") p ∈ ls → fs1 (join (txt "out/www") p ++ txt ".hash") ≠ none := by
    intro p hp
    obtain ⟨-, g, x', e, hg⟩ := G.links _ hp
    rw [link_hash hg e]
    have := hl g x' (e ▸ hp) hg
    rwa [← show fs1 (hashOf x') = fs (hashOf x') by simp only [hashOf, copyOf, List.append_assoc]; exact hout _] at this
  have hb2 : fs1 (hashOf x') = none := by
    rw [← h2]
    simp only [hashOf, copyOf, List.append_assoc]; exact hout _
  have hb1 : fs1 (copyOf x') = none := by rw [← h1]; exact hout _
  obtain ⟨n, out, hb, hp⟩ := Html.Page.finds_page_build (env := pageEnv c false (txt f) fs1) hfit hh hs a1 a2 (G1.tidy.1 y ts a1 a2) a3 hl1
    (by rw [Html.Page.pageOut, List.append_assoc (txt "out/www/"), ← hxs]; exact hb2)
  rw [← hxs] at hb
  obtain ⟨q1, q2⟩ := Html.Page.build_fuel hb (G1.enough fs1 rfl fun _ _ => rfl).2 (t := copyOf x')
    (by show Handlers.copyTarget (txt f) = _; rw [hx.1, Js.File.copyTarget_name]; rfl)
  replace q2 := q2 hp
  have hch : ∀ d, d ∈ (Html.Page.report x' ls is).children ↔ d ∈ ls ∨ d ∈ is := Html.Page.mem_report.1
  have hpb := (pageBuild_iff (c := c) (x := x') (fs := fs1) (r := (Html.Page.report x' ls is, Html.Page.leave (pageEnv c false (txt f) fs1) x' fs1 out))).2
    ⟨by rw [← hx.1]; exact q2, by rw [← hx.1]; exact q1, fun d hd => by
      rcases (hch d).1 hd with hd | hd
      · obtain ⟨-, g, z, rfl, hg⟩ := G.links d hd
        exact .inl ⟨z, hg.1.symm⟩
      · obtain ⟨g, rfl, hg⟩ := G.templates d hd
        exact .inr hg.prefix⟩
  have hfine := page_fine (m := m) (by rw [← hx.1]; exact hk) (by rw [← hx.1]; exact hcss) (by rw [← hx.1]; exact hhtml) hpb
  obtain ⟨fs2, hd, -⟩ := hfine.reads hb1 hb2 fs h1 h2 (by rw [← hx.1]; exact hfile.symm) (fun d hd => by
    rw [← hx.1]
    rcases (hch d).1 hd with hd | hd
    · obtain ⟨-, g, z, rfl, hg⟩ := G.links d hd
      rw [readAt_page hcss hhtml hg]
      simp only [hashOf, copyOf, List.append_assoc]
      exact (hout _).symm
    · obtain ⟨g, rfl, hg⟩ := G.templates d hd
      rw [readAt_partial hcss hhtml hg.prefix]
      exact (hin _ hd).symm)
  rw [← hx.1] at hd
  exact ⟨_, fs2, hd, hch, report_produced _ _ _⟩

/-- The scan of a page. -/
theorem page_scans {c : Config} (hc : PagesOk c) {fs : Fs} {f : String} {ls is : List Text} (G : GoodPage c fs f ls is) {x : Text} (hx : Public f x) :
    ∃ s, dispatchScan c (txt f) fs = some s ∧ (∀ d, d ∈ s.dependencies ↔ d ∈ ls ∨ d ∈ is) ∧ ∀ o, o ∈ s.produces ↔ o = copyOf x ∨ o = hashOf x := by
  obtain ⟨x', stem, hx', hxs, hs, hht, hcss, hhtml, hk⟩ := G.page.facts
  have : x' = x := List.append_cancel_left (hx'.1.symm.trans hx.1)
  subst this
  obtain ⟨y, ts, f1, a1, a2, a3⟩ := G.reaches
  obtain ⟨host, hh⟩ := Option.ne_none_iff_exists'.1 hc.host
  obtain ⟨n, s, h1, h2, h3⟩ := Html.Page.finds_page_scan (env := pageEnv c false (txt f) fs) (fit_none hc _ _) hh hx.1 a1 a2 a3
  have h4 := Html.Page.scan_fuel h1 (G.enough fs rfl fun _ _ => rfl).1
  have hcs : (Handlers.copyScan (txt "src/public/" ++ x')).produces = [copyOf x'] := Handlers.copyScan_produces (Js.File.copyTarget_name x')
  have hhs : (Handlers.hashScan (txt "src/public/" ++ x')).produces = [hashOf x'] := Handlers.hashScan_produces (Js.File.hashTarget_name x')
  refine ⟨s, ?_, h2, h3⟩
  have h4' : Html.Page.scanFile c.fuel (pageEnv c true (txt f) fs) fs = some (.ok (s, fs)) := h4
  unfold dispatchScan
  rw [if_neg hk, if_neg hcss, if_pos hhtml, h4']
  simp only [Option.bind_some, Except.toOption]
  rw [if_pos]
  intro o ho
  rw [hx.1, hcs, hhs]
  exact List.mem_append.2 (((h3 o).1 ho).imp (fun h => by rw [h]; exact List.mem_singleton.2 rfl) (fun h => by rw [h]; exact List.mem_singleton.2 rfl))

/-- What a build of a page has as its children. -/
theorem page_builds {c : Config} (hc : PagesOk c) {m : Mode} {W V : Contents Bytes} {f : String} {ls is : List Text} (G : GoodPage c (fsOf W) f ls is)
    {x : Text} (hx : Public f x) (hf : V f = W f) (h1 : fsOf V (copyOf x) = none) (h2 : fsOf V (hashOf x) = none) {b : Handlers.Built} {fs' : Fs}
    (h : dispatch c m (txt f) (fsOf V) = some (b, fs')) (hch : ∀ d ∈ b.children, Child f d) (hsame : ∀ g, txt g ∈ b.children → Partial g → V g = W g) :
    (∀ d, d ∈ b.children ↔ d ∈ ls ∨ d ∈ is) ∧ b.produced = [copyOf x, hashOf x] := by
  classical
  obtain ⟨x', stem, hx', hxs, hs, hht, hcss, hhtml, hk⟩ := G.page.facts
  have : x' = x := List.append_cancel_left (hx'.1.symm.trans hx.1)
  subst this
  -- with the templates of `W`, and with all hashes
  let fs2 : Fs := fun p => if txt "src/partials/" <+: p then fsOf W p else if p = copyOf x' ∨ p = hashOf x' then none else some ((fsOf V p).getD [])
  have b1 : fs2 (copyOf x') = none := by
    show (if txt "src/partials/" <+: copyOf x' then _ else _) = none
    rw [if_neg (by exact out_not_partials _), if_pos (.inl rfl)]
  have b2 : fs2 (hashOf x') = none := by
    show (if txt "src/partials/" <+: hashOf x' then _ else _) = none
    rw [if_neg (by simp only [hashOf, copyOf, List.append_assoc]; exact out_not_partials _), if_pos (.inr rfl)]
  have hreal : ∀ p, ¬ txt "src/partials/" <+: p → fsOf V p ≠ none → fs2 p = fsOf V p := by
    intro p hp hn
    simp only [fs2]
    rw [if_neg hp, if_neg]
    · obtain ⟨z, hz⟩ := Option.ne_none_iff_exists'.1 hn
      rw [hz]; rfl
    · rintro (rfl | rfl)
      · exact hn h1
      · exact hn h2
  have hfile : fs2 (txt f) = fsOf W (txt f) := by
    obtain ⟨y, ts, f1, a1, -⟩ := G.reaches
    rw [hreal _ (public_not_partials hx)]
    · rw [fsOf_txt, fsOf_txt, hf]
    · rw [fsOf_txt, hf, ← fsOf_txt W, a1]; simp
  have G2 := G.move (fs' := fs2) hfile (fun i hi => by
    obtain ⟨g, rfl, hg⟩ := G.templates i hi
    exact if_pos hg.prefix)
  obtain ⟨b', fs3, e1, e2, e3⟩ := page_works (m := m) hc G2 hx b1 b2 (fun g z hg hz => by
    have hne : z ≠ x' := by
      rintro rfl
      exact (G.links _ hg).1 (by rw [hz.inj hx])
    simp only [fs2]
    rw [if_neg (by simp only [hashOf, copyOf, List.append_assoc]; exact out_not_partials _)]
    split
    · next h =>
      exfalso
      rcases h with h | h
      · obtain ⟨-, ⟨w, hw, hno⟩, -⟩ := G.page
        have : w = x' := List.append_cancel_left (hw.1.symm.trans hx.1)
        subst this
        refine hno (txt ".hash") (by simp [others]) ⟨z, ?_⟩
        simp only [hashOf, copyOf, List.append_assoc] at h
        exact List.append_cancel_left h
      · exact hne (List.append_cancel_left (List.append_cancel_right h))
    · simp)
  have hpb : pageBuild c (txt "src/public/" ++ x') (fsOf V) = some (b, fs') := by
    unfold dispatch at h
    rw [if_neg hk, if_neg hcss, if_pos hhtml, hx.1] at h
    exact h
  have hfine := page_fine (m := m) (by rw [← hx.1]; exact hk) (by rw [← hx.1]; exact hcss) (by rw [← hx.1]; exact hhtml) hpb
  obtain ⟨fs4, hd, -⟩ := hfine.reads h1 h2 fs2 b1 b2 (by rw [← hx.1, hfile, fsOf_txt, fsOf_txt, hf]) (fun d hd => by
    have hst := hfine.strict h1 h2 d hd
    rw [← hx.1] at hst ⊢
    obtain ⟨g, rfl, hg | ⟨hg, -⟩ | ⟨-, hg⟩⟩ := hch d hd
    · obtain ⟨z, hz⟩ := hg
      rw [readAt_page hcss hhtml hz] at hst ⊢
      exact hreal _ (by simp only [hashOf, copyOf, List.append_assoc]; exact out_not_partials _) hst
    · exact absurd hg hcss
    · rw [readAt_partial hcss hhtml hg.prefix]
      simp only [fs2]
      rw [if_pos hg.prefix, fsOf_txt, fsOf_txt, hsame g hd hg])
  rw [← hx.1, e1] at hd
  cases hd
  exact ⟨e2, e3⟩

theorem names_page {c : Config} (hc : PagesOk c) {W : Contents Bytes} {f : String} {ls is : List Text} (G : GoodPage c (fsOf W) f ls is) (g : String) :
    Names c W f g ↔ txt g ∈ ls ∨ txt g ∈ is := by
  constructor
  · rintro (⟨y, -, h⟩ | ⟨-, l', i', h, hg⟩)
    · obtain ⟨-, -, -, -, -, hh, -⟩ := G.page.facts
      exact (html_js hh h.1.2).elim
    · obtain ⟨rfl, rfl⟩ := G.reaches.unique hc h
      exact hg
  · exact fun h => .inr ⟨G.page, ls, is, G.reaches, h⟩

theorem names_script {c : Config} {W : Contents Bytes} {f : String} {y : Bytes} (h : Simple c f y) (g : String) : Names c W f g ↔ Uses c W f g := by
  constructor
  · rintro (h' | ⟨hp, -⟩)
    · exact h'
    · obtain ⟨-, -, -, -, -, hh, -⟩ := hp.facts
      rcases h.2.1 with h1 | h1
      · exact absurd h1 hp.1
      · exact absurd hh h1.2
  · exact .inl

theorem names_partial {c : Config} {W : Contents Bytes} {f : String} (h : Partial f) (g : String) : ¬ Names c W f g := by
  obtain ⟨x, -, -, hh⟩ := id h
  rintro (⟨y, -, h'⟩ | ⟨⟨-, hw, -⟩, -⟩)
  · exact html_js hh h'.1.2
  · obtain ⟨z, hz, -⟩ := hw
    exact h.not_public hz

theorem partial_owner {k : String} {f : String} (h : Partial f) (o : String) : ¬ (project k).owner o = some f := by
  intro ho
  obtain ⟨-, x, hx, -⟩ := owner_iff.1 ho
  exact h.not_public hx

/-- Templates are handled in the same way whatever they are. -/
theorem partial_handlers {c : Config} {f : String} (h : Partial f) (hk : f ≠ c.constants) (m : Mode) (fs : Fs) :
    dispatchScan c (txt f) fs = some ⟨[], []⟩ ∧ dispatch c m (txt f) fs = some (⟨[], [], []⟩, fs) := by
  obtain ⟨x, hx, -, hh⟩ := id h
  have hc : Handlers.copyTarget (txt f) = none := by
    unfold Handlers.copyTarget
    rw [if_neg]
    intro h
    obtain ⟨y, hy⟩ := List.isPrefixOf_iff_prefix.1 h
    rw [hx] at hy
    have := congrArg (fun l => l[5]?) hy
    simp [txt, Handlers.srcPublic] at this
  have h1 : ¬ txt f = txt c.constants := fun h => hk (txt_inj h)
  have h2 : ¬ (txt ".css").isSuffixOf (txt f) = true := fun h => html_css hh (List.isSuffixOf_iff_suffix.1 h)
  have h3 : (txt ".html").isSuffixOf (txt f) = true := List.isSuffixOf_iff_suffix.2 hh
  have e1 : Html.Page.scanFile c.fuel (pageEnv c true (txt f) fs) fs = some (.ok (⟨[], []⟩, fs)) := by
    unfold Html.Page.scanFile
    rw [show (pageEnv c true (txt f) fs).rel = txt f from rfl, hc]
  have e2 : Html.Page.buildFile c.fuel (pageEnv c false (txt f) fs) fs = some (.ok (⟨[], [], []⟩, fs)) := by
    unfold Html.Page.buildFile
    rw [show (pageEnv c false (txt f) fs).rel = txt f from rfl, hc]
  constructor
  · unfold dispatchScan
    rw [if_neg h1, if_neg h2, if_pos h3, e1]
    simp [Except.toOption]
  · unfold dispatch pageBuild
    rw [if_neg h1, if_neg h2, if_pos h3, e2, hc]
    simp [Except.toOption]

theorem web_owner {k f : String} (hs : Source f) {x : Text} (hx : Public f x) (o : String) :
    (project k).owner o = some f ↔ o = str (copyOf x) ∨ o = str (hashOf x) := by
  rw [owner_iff]
  constructor
  · rintro ⟨-, x', hx', h⟩
    have : x' = x := List.append_cancel_left (hx'.1.symm.trans hx.1)
    subst this
    exact h.imp (fun h => by rw [← h, str_txt]) (fun h => by rw [← h, str_txt])
  · rintro (rfl | rfl)
    · exact ⟨hs, x, hx, .inl (txt_copy hx)⟩
    · exact ⟨hs, x, hx, .inr (txt_hash hx)⟩

theorem tool_direct_pages {c : Config} (hc : isAbs c.js.cwd = true) (hsp : Js.SpaceOk c.js.space) (hpg : PagesOk c) :
    (tool c).Direct (project c.constants) (Ordered c) (Names c) where
  scans := by
    rintro f W hs (⟨y, hy, h⟩ | ⟨h, hk⟩ | ⟨ls, is, G⟩) hn
    · obtain ⟨s, h1, h2, h3⟩ := (tool_direct hc hsp).scans hs ⟨y, hy, h⟩ hn
      exact ⟨s, h1, fun g => (h2 g).trans (names_script h g).symm, h3⟩
    · have h1 := (partial_handlers h hk .dev (fsOf W)).1
      refine ⟨⟨[], [], []⟩, ?_, fun g => ?_, fun o => ?_⟩
      · have hs' : Source f := hs
        simp [tool, hs', h1]
      · simp [names_partial h g]
      · simp [partial_owner h o]
    · obtain ⟨x, -, hx, -⟩ := G.page.facts
      obtain ⟨s, h1, h2, h3⟩ := page_scans hpg G hx
      have hs' : Source f := hs
      refine ⟨⟨s.dependencies.map str, s.produces.map str, []⟩, by simp [tool, hs', h1], fun g => ?_, fun o => ?_⟩
      · rw [names_page hpg G]
        simp only [List.mem_map]
        constructor
        · rintro ⟨d, hd, rfl⟩
          have := (h2 d).1 hd
          have e : txt (str d) = d := by
            rcases this with h | h
            · obtain ⟨-, g, z, rfl, -⟩ := G.links d h
              rw [str_txt]
            · obtain ⟨g, rfl, -⟩ := G.templates d h
              rw [str_txt]
          rwa [e]
        · exact fun h => ⟨txt g, (h2 _).2 h, str_txt g⟩
      · rw [web_owner hs' hx]
        simp only [List.mem_map]
        constructor
        · rintro ⟨d, hd, rfl⟩
          exact ((h3 d).1 hd).imp (fun h => by rw [h]) (fun h => by rw [h])
        · rintro (rfl | rfl)
          · exact ⟨_, (h3 _).2 (.inl rfl), rfl⟩
          · exact ⟨_, (h3 _).2 (.inr rfl), rfl⟩
  builds := by
    rintro m f W V r V' hs (⟨y, hy, h⟩ | ⟨h, hk⟩ | ⟨ls, is, G⟩) hn hf hb hr hch
    · obtain ⟨h1, h2⟩ := (tool_direct hc hsp).builds hs ⟨y, hy, h⟩ hn hf hb hr hch
      exact ⟨fun g => (h1 g).trans (names_script h g).symm, h2⟩
    · obtain ⟨b, fs, h1, h2, rfl, rfl⟩ := build_some hr
      rw [(partial_handlers h hk m (fsOf V)).2] at h1
      cases h1
      exact ⟨fun g => by simp [names_partial h g], fun o => by simp [partial_owner h o], by simp⟩
    · obtain ⟨x, -, hx, -⟩ := G.page.facts
      have hs' : Source f := hs
      obtain ⟨h1, h2⟩ := bare_fs hs' hx hb
      obtain ⟨b, fs, h3, h4, rfl, rfl⟩ := build_some hr
      obtain ⟨h5, h6⟩ := page_builds (m := m) hpg G hx hf h1 h2 h3 h4 (fun g hg hp =>
        hch g (by rw [← str_txt g]; exact List.mem_map_of_mem hg) (.inr hp))
      refine ⟨fun g => ?_, fun o => ?_, ?_⟩
      · rw [names_page hpg G]
        simp only [List.mem_map]
        constructor
        · rintro ⟨d, hd, rfl⟩
          rw [child_txt (h4 d hd)]
          exact (h5 d).1 hd
        · exact fun h => ⟨txt g, (h5 _).2 h, str_txt g⟩
      · rw [h6, web_owner hs' hx]
        simp
      · rw [h6]
        have : str (copyOf x) ≠ str (hashOf x) := fun h => hash_ne_copy x (by rw [← txt_copy hx, ← txt_hash hx, h])
        simp [this]
  works := by
    rintro m f W V hs (⟨y, hy, h⟩ | ⟨h, hk⟩ | ⟨ls, is, G⟩) hn hv hb hr
    · exact (tool_direct hc hsp).works hs ⟨y, hy, h⟩ hn hv hb fun g hg => hr g ((names_script h g).2 hg)
    · intro hx
      simp [tool, (partial_handlers h hk m (fsOf V)).2] at hx
    · obtain ⟨x, stem, hx, -, -, -, hcss, hhtml, -⟩ := G.page.facts
      have hs' : Source f := hs
      obtain ⟨h1, h2⟩ := bare_fs hs' hx hb
      have G' := G.move (fs' := fsOf V) (by rw [fsOf_txt, fsOf_txt, hv f hs]) (fun i hi => by
        obtain ⟨g, rfl, hg⟩ := G.templates i hi
        rw [fsOf_txt, fsOf_txt, hv g (.inr hg)])
      obtain ⟨b, fs', h3, h4, -⟩ := page_works (m := m) hpg G' hx h1 h2 (fun g z hg hz => by
        have := hr g ((names_page hpg G g).2 (.inl hg))
        simp only [tool, readAt_page hcss hhtml hz] at this
        exact this)
      intro hx
      have hch : ∀ d ∈ b.children, Child f d := by
        intro d hd
        rcases (h4 d).1 hd with hd | hd
        · obtain ⟨-, g, z, rfl, hz⟩ := G.links d hd
          exact ⟨g, rfl, .inl ⟨z, hz⟩⟩
        · obtain ⟨g, rfl, hg⟩ := G.templates d hd
          exact ⟨g, rfl, .inr (.inr ⟨hhtml, hg⟩)⟩
      simp only [tool, h3, if_pos hch] at hx
      cases hx
  reads := by
    rintro f W g hs (⟨y, hy, h⟩ | ⟨h, hk⟩ | ⟨ls, is, G⟩) hn hr hg
    · exact (tool_direct hc hsp).reads hs ⟨y, hy, h⟩ hn ((names_script h g).1 hr) hg
    · exact absurd hr (names_partial h g)
    · obtain ⟨x, stem, hx, -, -, -, hcss, hhtml, -⟩ := G.page.facts
      rcases (names_page hpg G g).1 hr with h | h
      · obtain ⟨-, g', z, e, hz⟩ := G.links _ h
        cases txt_inj e
        left
        rw [itself_public hz] at hg ⊢
        simp only [tool, readAt_page hcss hhtml hz]
        exact owner_iff.2 ⟨hg, z, hz, .inr (txt_hash hz)⟩
      · obtain ⟨g', e, hz⟩ := G.templates _ h
        cases txt_inj e
        right
        rw [itself_partial hz]
        simp only [tool, readAt_partial hcss hhtml hz.prefix, str_txt]

/-- **C110.** A project of scripts, copied files, templates and pages, where all files which are referred to are there, and nothing refers to itself, directly
or through others, builds: after any history of rebuilds, and any edits by which an unchanged page comes to refer to other files only if it is changed itself, the
next rebuild finishes as soon as it waits for no build.  Missing: stylesheets, images, inline elements, and scripts with imports in or around lines with type
hints.  Where a template which an unchanged page includes comes to link to other files it is false, see `C110_false_template`. -/
theorem C110_pages_partial {c : Config} (hc : isAbs c.js.cwd = true) (hsp : Js.SpaceOk c.js.space) (hpg : PagesOk c) (hk : Source c.constants) {m0 : Mode}
    {W W0 : Contents Bytes} {env : Env} {a : Args} {d : Disk} (hist : Worked (project c.constants) (tool c) m0 W a.old d.mode) (ho : ValidOrder env)
    (hscan : ScansBy (tool c) env W0) (hfuel : 0 < env.scanFuel) (hco : a.constants = c.constants) (E : Edits (project c.constants) a d W W0) (hh : Housed d)
    (X : Attempt (tool c) env a (hotRebuild env a d) W0)
    (hI : ∀ f, Source f → W0 f ≠ none → Ordered c W0 f ∧ ∀ g, Names c W0 f g → Source g ∧ W0 g ≠ none)
    (hkeep : ∀ f, Source f → W0 f ≠ none → W0 f = W f → IsPage c f → (∃ ls is, GoodPage c (fsOf W) f ls is) ∧ ∀ g, Names c W f g ↔ Names c W0 f g)
    (hac : ∀ f, Source f → ¬ Path (Names c W0) f f) (hw : (hotRebuild env a d).status ≠ .waiting) : (hotRebuild env a d).status = .finished :=
  have J := intact_of_sources (simple := Ordered c) (refs := Names c) (lawful c.constants) hI
  intact_finishes (lawful c.constants) (tool_lawful hc) hk (tool_direct_pages hc hsp hpg) hist ho hscan hfuel hco E hh X J.1
    (by
      rintro f hf hn he (⟨y, hy, h⟩ | h | ⟨ls, is, G⟩)
      · refine ⟨.inl ⟨y, he ▸ hy, h⟩, fun g => ?_⟩
        rw [names_script h, names_script h, Uses, Uses, he]
      · exact ⟨.inr (.inl h), fun g => by simp [names_partial h.1 g]⟩
      · obtain ⟨h1, h2⟩ := hkeep f hf hn he G.page
        exact ⟨.inr (.inr h1), h2⟩) (fun f h1 h2 => J.2 f h1 h2 (hac f h1)) hw

end Verif.Hot.Scripts
