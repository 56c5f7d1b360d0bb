import Verif.HotBroken
import Verif.CssBare
/-!
# C110 and C111 for websites with stylesheets

Scripts, copied files, templates, pages, and stylesheets which have URLs of other files of the website.  What a stylesheet lists are the hashes
of these files; in the specification it refers to the files themselves.
-/
namespace Verif.Hot.Scripts
open Verif Verif.Hot Verif.Graph
open Verif.Reader (Text txt)
open Verif.Paths (isAbs)
open Verif.Handlers (Bytes Fs Scan)

/-! ## Specification -/

/-- The file is a stylesheet, and not that of the constants. -/
def IsSheet (c : Config) (f : String) : Prop := f ≠ c.constants ∧ Web f ∧ txt ".css" <:+ txt f

/-- The stylesheet `f` with the content `y` has the URL of the file `g` of the website, other than itself. -/
def UrlOf (c : Config) (f : String) (y : Bytes) (g : String) : Prop := IsSheet c f ∧ ∃ ts k v x, Css.tokenize c.sheet.nest.uni (c.js.decode y) = .ok ts ∧
  Css.Urls.UrlAt c.sheet.urls.lower ts k v ∧ Css.Urls.Local (txt f) v x ∧ txt g = txt "src/public/" ++ x

/-- The bound of the model on the steps for one stylesheet is not reached, whatever the other files are. -/
def EnoughSheet (c : Config) (f : String) (y : Bytes) : Prop := ∀ fs : Fs, fs (txt f) = some y →
  Css.Page.scanFile c.fuel (sheetEnv c (txt f) fs) (txt f) fs ≠ none ∧ Css.Page.buildFile c.fuel c.bound (sheetEnv c (txt f) fs) (txt f) fs ≠ none

/-- A stylesheet without imports, icons and inline images, whose URLs of the website are those of files below src/public. -/
structure GoodSheet (c : Config) (f : String) (y : Bytes) : Prop where
  sheet : IsSheet c f
  urls : ∃ ts, Css.tokenize c.sheet.nest.uni (c.js.decode y) = .ok ts ∧ Css.Page.UrlsOnly (sheetEnv c (txt f) fun _ => none) ts ∧
    ∀ k v x, Css.Urls.UrlAt c.sheet.urls.lower ts k v → Css.Urls.Local (txt f) v x → ∃ g, Public g x
  enough : EnoughSheet c f y

/-- The source is a script, a copied file or that of the constants, a template, a page, or a stylesheet. -/
def Arranged (c : Config) (W : Contents Bytes) (f : String) : Prop := Ordered c W f ∨ ∃ y, W f = some y ∧ GoodSheet c f y

/-- The script imports the file, the page links to it or includes it, or the stylesheet has its URL. -/
def Mentions (c : Config) (W : Contents Bytes) (f g : String) : Prop := Names c W f g ∨ ∃ y, W f = some y ∧ UrlOf c f y g

/-! ## Proofs -/

/-- What scans and builds list. -/
def Lists (c : Config) (W : Contents Bytes) (f d : String) : Prop :=
  Names c W f d ∨ ∃ y g x, W f = some y ∧ UrlOf c f y g ∧ Public g x ∧ d = str (hashOf x)

theorem IsSheet.facts {c : Config} {f : String} (h : IsSheet c f) : ∃ x, Public f x ∧ (txt ".css").isSuffixOf (txt f) = true ∧ ¬ txt f = txt c.constants := by
  obtain ⟨h1, ⟨x, hx, -⟩, h2⟩ := h
  exact ⟨x, hx, List.isSuffixOf_iff_suffix.2 h2, fun h => h1 (txt_inj h)⟩

theorem ordered_no_url {c : Config} {W : Contents Bytes} {f : String} (h : Ordered c W f) (y : Bytes) (g : String) : ¬ UrlOf c f y g := by
  rintro ⟨hs, -⟩
  rcases h with ⟨y, -, h⟩ | ⟨⟨x, -, -, h⟩, -⟩ | ⟨ls, is, G⟩
  · rcases h.2.1 with h | h
    · exact hs.1 h
    · exact h.1 hs.2.2
  · exact html_css h hs.2.2
  · obtain ⟨-, -, -, -, -, hh, -⟩ := G.page.facts
    exact html_css hh hs.2.2

theorem lists_ordered {c : Config} {W : Contents Bytes} {f : String} (h : Ordered c W f) (d : String) : Lists c W f d ↔ Names c W f d :=
  ⟨fun h' => h'.resolve_right fun ⟨y, g, _, _, h2, _⟩ => ordered_no_url h y g h2, .inl⟩

theorem sheet_no_name {c : Config} {W : Contents Bytes} {f : String} (h : IsSheet c f) (g : String) : ¬ Names c W f g := by
  rintro (⟨y, -, h'⟩ | ⟨hp, -⟩)
  · exact css_js h.2.2 h'.1.2
  · obtain ⟨-, -, -, -, -, hh, -⟩ := hp.facts
    exact html_css hh h.2.2

theorem lists_sheet {c : Config} {W : Contents Bytes} {f : String} {y : Bytes} (hy : W f = some y) (G : GoodSheet c f y) {ts : List Css.Tok}
    (ht : Css.tokenize c.sheet.nest.uni (c.js.decode y) = .ok ts) (fs : Fs) (d : String) :
    Lists c W f d ↔ ∃ g x, Public g x ∧ d = str (hashOf x) ∧ Css.Urls.Needs (sheetEnv c (txt f) fs).urls ts (hashOf x) := by
  constructor
  · rintro (h | ⟨y', g, x, h1, ⟨-, ts', k, v, x', h2, h3, h4, h5⟩, h6, rfl⟩)
    · exact absurd h (sheet_no_name G.sheet d)
    · rw [hy] at h1
      cases h1
      rw [ht] at h2
      cases h2
      have : x' = x := List.append_cancel_left (h5.symm.trans h6.1)
      subst this
      exact ⟨g, x', h6, rfl, k, v, x', h3, h4, rfl⟩
  · rintro ⟨g, x, h1, rfl, k, v, x', h3, h4, h5⟩
    have : x = x' := by
      have h5' : txt "out/www/" ++ x ++ txt ".hash" = txt "out/www/" ++ x' ++ txt ".hash" := h5
      exact List.append_cancel_left (List.append_cancel_right h5')
    subst this
    exact .inr ⟨y, g, x, hy, ⟨G.sheet, ts, k, v, x, ht, h3, h4, h1.1⟩, h1, rfl⟩

/-- What it needs are hashes of files below src/public. -/
theorem needs_public {c : Config} {f : String} {ts : List Css.Tok}
    (h : ∀ k v x, Css.Urls.UrlAt c.sheet.urls.lower ts k v → Css.Urls.Local (txt f) v x → ∃ g, Public g x) {fs : Fs} {d : Text}
    (hd : Css.Urls.Needs (sheetEnv c (txt f) fs).urls ts d) : ∃ g x, Public g x ∧ d = hashOf x := by
  obtain ⟨k, v, x, h3, h4, rfl⟩ := hd
  obtain ⟨g, hg⟩ := h k v x h3 h4
  exact ⟨g, x, hg, rfl⟩

theorem UrlsOnly.files {c : Config} {f : Text} {fs fs' : Fs} {ts : List Css.Tok} (h : Css.Page.UrlsOnly (sheetEnv c f fs) ts) :
    Css.Page.UrlsOnly (sheetEnv c f fs') ts := ⟨h.rules, h.icons, h.images, h.rooted⟩

theorem sheet_produced {s : Css.Page.St} (h : Css.Page.Quiet s) (x : Text) : (Css.Page.report x s).produced = [copyOf x, hashOf x] := by
  have hne := Js.File.hash_ne x
  simp only [Css.Page.report, Css.Page.buildResult, List.foldl, Css.Page.merge, Icons.addAll, Icons.add, h.iconProduced, h.dataProduced]
  rw [if_neg]
  · rfl
  · simpa using hne

theorem source_hash {k g : String} {x : Text} (hg : Public g x) (hs : Source g) : (project k).source (str (hashOf x)) = g :=
  source_owner (owner_iff.2 ⟨hs, x, hg, .inr (txt_hash hg)⟩)

theorem hash_no_source {f : String} (z : Text) (h : (∃ x, Public f x) ∨ Partial f) : txt f ≠ hashOf z := by
  intro e
  have h1 : (hashOf z).head? = some 111 := rfl
  have h2 : (txt f).head? = some 115 := by
    rcases h with ⟨x, hx⟩ | ⟨x, hx, -⟩
    · rw [hx.1]; rfl
    · rw [hx]; rfl
  rw [e, h1] at h2
  simp at h2

theorem source_of_hash {k g g' : String} {z : Text} (hg' : Public g' z) (hg : Source g) (he : (project k).source (str (hashOf z)) = g) : g = g' := by
  cases ho : (project k).owner (str (hashOf z)) with
  | none =>
    rw [Project.source, ho, Option.getD_none] at he
    refine absurd ?_ (hash_no_source (f := g) z (hg.imp (fun ⟨x, hx, _⟩ => ⟨x, hx⟩) id))
    rw [← he, txt_hash hg']
  | some g2 =>
    have := source_owner ho
    rw [he] at this
    subst this
    obtain ⟨-, x, hx, h | h⟩ := owner_iff.1 ho
    · rw [txt_hash hg'] at h
      obtain ⟨w, hw, hno⟩ := hg.resolve_right fun hp => hp.not_public hx
      have e : w = x := List.append_cancel_left (hw.1.symm.trans hx.1)
      subst e
      refine absurd ⟨z, ?_⟩ (hno (txt ".hash") (by simp [others]))
      simp only [hashOf, copyOf, List.append_assoc] at h
      exact List.append_cancel_left h
    · rw [txt_hash hg'] at h
      have e : x = z := (List.append_cancel_left (List.append_cancel_right h)).symm
      subst e
      exact hx.inj hg'

theorem arranged_direct {c : Config} (hc : isAbs c.js.cwd = true) (hsp : Js.SpaceOk c.js.space) (hpg : PagesOk c) (hcs : Icons.Spaces c.sheet.icon.space) :
    (tool c).Direct (project c.constants) (Arranged c) (Lists c) where
  scans := by
    rintro f W hs (h | ⟨y, hy, G⟩) hn
    · obtain ⟨s, h1, h2, h3⟩ := (tool_direct_pages hc hsp hpg).scans hs h hn
      exact ⟨s, h1, fun g => (h2 g).trans (lists_ordered h g).symm, h3⟩
    · have hs' : Source f := hs
      obtain ⟨x, hx, hcss, hk⟩ := G.sheet.facts
      obtain ⟨ts, ht, hu, hp⟩ := G.urls
      have hy' : fsOf W (txt f) = some y := by rw [fsOf_txt, hy]
      have hen := (G.enough _ hy').1
      have hl := lists_sheet hy G ht (fsOf W)
      have hpub := fun d => needs_public hp (fs := fsOf W) (d := d)
      have hu' := UrlsOnly.files (fs' := fsOf W) hu
      generalize hE : sheetEnv c (txt f) (fsOf W) = env at *
      have e1 : env.icon.space = c.sheet.icon.space := by rw [← hE]; rfl
      have e2 : env.nest.uni = c.sheet.nest.uni := by rw [← hE]; rfl
      have e3 : env.decode = c.js.decode := by rw [← hE]; rfl
      rw [hx.1] at hy' hen
      obtain ⟨s, h1, h2, h3⟩ := Css.Page.scan_urls (by rw [e1]; exact hcs) hy' (by rw [e2, e3]; exact ht) hu' hen
      have hcp : (Handlers.copyScan (txt "src/public/" ++ x)).produces = [copyOf x] := Handlers.copyScan_produces (Js.File.copyTarget_name x)
      have hhs : (Handlers.hashScan (txt "src/public/" ++ x)).produces = [hashOf x] := Handlers.hashScan_produces (Js.File.hashTarget_name x)
      have hd : dispatchScan c (txt f) (fsOf W) = some s := by
        unfold dispatchScan
        rw [if_neg hk, if_pos hcss, hE, hx.1, h1]
        simp only [Option.bind_some, Except.toOption]
        rw [if_pos]
        intro o ho
        rw [hcp, hhs]
        exact List.mem_append.2 (((h3 o).1 ho).imp (fun h => by rw [h]; exact List.mem_singleton.2 rfl) (fun h => by rw [h]; exact List.mem_singleton.2 rfl))
      refine ⟨⟨s.dependencies.map str, s.produces.map str, []⟩, by simp [tool, hs', hd], fun g => ?_, fun o => ?_⟩
      · rw [hl]
        simp only [List.mem_map]
        constructor
        · rintro ⟨d, hd, rfl⟩
          have := (h2 d).1 hd
          obtain ⟨g, z, hg, rfl⟩ := hpub d this
          exact ⟨g, z, hg, rfl, this⟩
        · rintro ⟨g', z, -, rfl, h⟩
          exact ⟨_, (h2 _).2 h, rfl⟩
      · rw [web_owner hs' hx]
        simp only [List.mem_map]
        constructor
        · rintro ⟨d, hd, rfl⟩
          exact ((h3 d).1 hd).imp (fun h => by rw [h]; rfl) (fun h => by rw [h]; rfl)
        · rintro (rfl | rfl)
          · exact ⟨_, (h3 _).2 (.inl rfl), rfl⟩
          · exact ⟨_, (h3 _).2 (.inr rfl), rfl⟩
  builds := by
    rintro m f W V r V' hs (h | ⟨y, hy, G⟩) hn hf hb hr hch
    · obtain ⟨h1, h2⟩ := (tool_direct_pages hc hsp hpg).builds hs h hn hf hb hr hch
      exact ⟨fun g => (h1 g).trans (lists_ordered h g).symm, h2⟩
    · have hs' : Source f := hs
      obtain ⟨x, hx, hcss, hk⟩ := G.sheet.facts
      obtain ⟨ts, ht, hu, hp⟩ := G.urls
      obtain ⟨h1, h2⟩ := bare_fs hs' hx hb
      obtain ⟨b, fs, h3, h4, rfl, rfl⟩ := build_some hr
      have hy' : fsOf V (txt f) = some y := by rw [fsOf_txt, hf, hy]
      have hl := lists_sheet hy G ht (fsOf V)
      have hpub := fun d => needs_public hp (fs := fsOf V) (d := d)
      unfold dispatch at h3
      rw [if_neg hk, if_pos hcss] at h3
      split at h3
      · next hpl =>
        obtain ⟨z, hz, h3⟩ := Option.bind_eq_some_iff.1 h3
        cases z with
        | error e => cases h3
        | ok z =>
          cases h3
          have := (Css.Page.build_urls (n := c.bound) (fuel := c.fuel) (env := sheetEnv c (txt f) (fsOf V)) hcs (name := x) hx.1 h2 (by rw [← hx.1]; exact hy') ht
            (UrlsOnly.files hu)).1 b fs (by rw [← hx.1]; exact hz) (by rw [← hx.1]; exact hpl)
          obtain ⟨h5, s, hq, h6⟩ := this
          have h6 : b.produced = [copyOf x, hashOf x] := by rw [h6]; exact sheet_produced hq x
          refine ⟨fun g => ?_, fun o => ?_, ?_⟩
          · rw [hl]
            simp only [List.mem_map]
            constructor
            · rintro ⟨d, hd, rfl⟩
              have := (h5 d).1 hd
              obtain ⟨g, z, hg, rfl⟩ := hpub d this
              exact ⟨g, z, hg, rfl, this⟩
            · rintro ⟨g', z, -, rfl, h⟩
              exact ⟨_, (h5 _).2 h, rfl⟩
          · rw [h6, web_owner hs' hx]
            simp
          · rw [h6]
            have : str (copyOf x) ≠ str (hashOf x) := fun h => hash_ne_copy x (by rw [← txt_copy hx, ← txt_hash hx, h])
            simp [this]
      · cases h3
  works := by
    rintro m f W V hs (h | ⟨y, hy, G⟩) hn hv hb hr
    · exact (tool_direct_pages hc hsp hpg).works hs h hn hv hb fun g hg => hr g ((lists_ordered h g).2 hg)
    · have hs' : Source f := hs
      obtain ⟨x, hx, hcss, hk⟩ := G.sheet.facts
      obtain ⟨ts, ht, hu, hp⟩ := G.urls
      obtain ⟨h1, h2⟩ := bare_fs hs' hx hb
      have hy' : fsOf V (txt f) = some y := by rw [fsOf_txt, hv f hs, hy]
      have hl := lists_sheet hy G ht (fsOf V)
      have hpub := fun d => needs_public hp (fs := fsOf V) (d := d)
      have B := Css.Page.build_urls (n := c.bound) (fuel := c.fuel) (env := sheetEnv c (txt f) (fsOf V)) hcs (name := x) hx.1 h2 (by rw [← hx.1]; exact hy') ht
            (UrlsOnly.files hu)
      obtain ⟨b, fs', h3, h4⟩ := B.2 (fun d hd => by
        obtain ⟨g, z, hg, rfl⟩ := hpub d hd
        have := hr _ ((hl _).2 ⟨g, z, hg, rfl, hd⟩)
        have e : (tool c).read f (str (hashOf z)) = str (hashOf z) := by
          show str (readAt c (txt f) (txt (str (hashOf z)))) = _
          rw [txt_hash hg, readAt_hash hcss]
        rw [e] at this
        exact this) (by rw [← hx.1]; exact (G.enough _ hy').2)
      have h5 := (B.1 b fs' h3 h4).1
      have hd : dispatch c m (txt f) (fsOf V) = some (b, fs') := by
        unfold dispatch
        rw [if_neg hk, if_pos hcss, if_pos (by rw [hx.1] at h4 ⊢; exact h4)]
        rw [hx.1] at h3 ⊢
        rw [h3]; rfl
      intro hx
      have hch : ∀ d ∈ b.children, Child f d := by
        intro d hd
        obtain ⟨g, z, hg, rfl⟩ := hpub d ((h5 d).1 hd)
        exact ⟨str (hashOf z), (txt_hash hg).symm, .inr (.inl ⟨hcss, g, z, hg, txt_hash hg⟩)⟩
      simp only [tool, hd, if_pos hch] at hx
      cases hx
  reads := by
    rintro f W d hs (h | ⟨y, hy, G⟩) hn hr hg
    · exact (tool_direct_pages hc hsp hpg).reads hs h hn ((lists_ordered h d).1 hr) hg
    · obtain ⟨x, hx, hcss, hk⟩ := G.sheet.facts
      obtain ⟨ts, ht, -⟩ := G.urls
      obtain ⟨g, z, hz, rfl, -⟩ := (lists_sheet hy G ht (fsOf W) d).1 hr
      have e : (tool c).read f (str (hashOf z)) = str (hashOf z) := by
        show str (readAt c (txt f) (txt (str (hashOf z)))) = _
        rw [txt_hash hz, readAt_hash hcss]
      rw [e]
      cases ho : (project c.constants).owner (str (hashOf z)) with
      | none => right; simp [Project.source, ho]
      | some g' => left; rw [source_owner ho]

/-- A file is listed, itself or by its hash, if it is referred to. -/
theorem refers_mentions {c : Config} (hpg : PagesOk c) {W : Contents Bytes} {f g : String} (hA : Arranged c W f) (hg : Source g) :
    Refers (project c.constants) (Lists c) W f g ↔ Mentions c W f g := by
  constructor
  · rintro ⟨d, hd, he⟩
    rcases hA with h | ⟨y, hy, G⟩
    · have hd := (lists_ordered h d).1 hd
      rw [names_itself hpg h hd] at he
      subst he
      exact .inl hd
    · rcases hd with hd | ⟨y', g', z, h1, h2, h3, rfl⟩
      · exact absurd hd (sheet_no_name G.sheet d)
      · refine .inr ⟨y', h1, ?_⟩
        rw [source_of_hash h3 hg he]
        exact h2
  · rintro (h | ⟨y, h1, h2⟩)
    · exact ⟨g, .inl h, source_src (lawful c.constants) hg⟩
    · obtain ⟨-, ts, k, v, x, -, -, -, hx⟩ := id h2
      obtain ⟨z, hz, -⟩ := hg.resolve_right fun ⟨z, hz, _⟩ => by
        rw [hx] at hz
        have := congrArg (fun l => l[5]?) hz
        simp [txt] at this
      exact ⟨str (hashOf z), .inr ⟨y, g, z, h1, h2, hz, rfl⟩, source_hash hz hg⟩

/-- Nothing reads itself in this way. -/
theorem arranged_never_itself {c : Config} (hc : isAbs c.js.cwd = true) (hpg : PagesOk c) {W : Contents Bytes} {f d : String} (hA : Arranged c W f)
    (hr : Lists c W f d) (he : (project c.constants).source d = f) : (tool c).read f d ≠ f := by
  rcases hA with h | ⟨y, hy, G⟩
  · exact never_itself hc hpg h ((lists_ordered h d).1 hr) he
  · obtain ⟨x, hx, hcss, hk⟩ := G.sheet.facts
    obtain ⟨ts, ht, -⟩ := G.urls
    obtain ⟨g, z, hz, rfl, -⟩ := (lists_sheet hy G ht (fsOf W) d).1 hr
    intro e
    have e : str (readAt c (txt f) (txt (str (hashOf z)))) = f := e
    rw [txt_hash hz, readAt_hash hcss] at e
    have h2 : txt f = hashOf z := by rw [← e, txt_hash hz]
    exact hash_no_source z (.inl ⟨x, hx⟩) h2

/-- **C110.** A website of scripts, copied files, templates, pages and stylesheets, where all files which are referred to are there, and nothing refers to itself,
directly or through others, builds: after any history of rebuilds, and any edits by which an unchanged page comes to refer to other files only if it is changed
itself, the next rebuild finishes as soon as it waits for no build.  Missing: images, inline elements, imports and icons in stylesheets, and scripts with imports in
or around lines with type hints.  Where a template which an unchanged page includes comes to link to other files it is false, see `C110_false_template`. -/
theorem C110_site_partial {c : Config} (hc : isAbs c.js.cwd = true) (hsp : Js.SpaceOk c.js.space) (hpg : PagesOk c) (hcs : Icons.Spaces c.sheet.icon.space)
    (hk : Source c.constants) {m0 : Mode} {W W0 : Contents Bytes} {env : Env} {a : Args} {d : Disk}
    (hist : Worked (project c.constants) (tool c) m0 W a.old d.mode) (ho : ValidOrder env)
    (hscan : ScansBy (tool c) env W0) (hfuel : 0 < env.scanFuel) (hco : a.constants = c.constants) (E : Edits (project c.constants) a d W W0) (hh : Housed d)
    (X : Attempt (tool c) env a (hotRebuild env a d) W0)
    (hI : ∀ f, Source f → W0 f ≠ none → Arranged c W0 f ∧ ∀ g, Mentions c W0 f g → Source g ∧ W0 g ≠ none)
    (hkeep : ∀ f, Source f → W0 f ≠ none → W0 f = W f → IsPage c f → (∃ ls is, GoodPage c (fsOf W) f ls is) ∧ ∀ g, Names c W f g ↔ Names c W0 f g)
    (hac : ∀ f, Source f → ¬ Path (Mentions c W0) f f) (hw : (hotRebuild env a d).status ≠ .waiting) : (hotRebuild env a d).status = .finished := by
  have hlist : ∀ f, Source f → W0 f ≠ none → ∀ d, Lists c W0 f d → Source ((project c.constants).source d) ∧ W0 ((project c.constants).source d) ≠ none := by
    intro f hf hn d hd
    rcases id hd with h | ⟨y, g, x, h1, h2, h3, rfl⟩
    · obtain ⟨h4, h5⟩ := (hI f hf hn).2 d (.inl h)
      rw [source_src (lawful c.constants) h4]
      exact ⟨h4, h5⟩
    · obtain ⟨h4, h5⟩ := (hI f hf hn).2 g (.inr ⟨y, h1, h2⟩)
      rw [source_hash h3 h4]
      exact ⟨h4, h5⟩
  refine intact_finishes (lawful c.constants) (tool_lawful hc) hk (arranged_direct hc hsp hpg hcs) hist ho hscan hfuel hco E hh X
    (fun f hf hn => ⟨(hI f hf hn).1, hlist f hf hn⟩) ?_ ?_ hw
  · rintro f hf hn he (h | ⟨y, hy, G⟩)
    · rcases id h with ⟨y, hy, h'⟩ | h' | ⟨ls, is, G⟩
      · refine ⟨.inl (.inl ⟨y, he ▸ hy, h'⟩), fun g => ?_⟩
        rw [lists_ordered h, lists_ordered (.inl ⟨y, he ▸ hy, h'⟩), names_script h', names_script h', Uses, Uses, he]
      · exact ⟨.inl (.inr (.inl h')), fun g => by rw [lists_ordered h, lists_ordered (.inr (.inl h'))]; simp [names_partial h'.1 g]⟩
      · obtain ⟨h1, h2⟩ := hkeep f hf hn he G.page
        exact ⟨.inl (.inr (.inr h1)), fun g => by rw [lists_ordered h, lists_ordered (.inr (.inr h1))]; exact h2 g⟩
    · refine ⟨.inr ⟨y, he ▸ hy, G⟩, fun d => ?_⟩
      obtain ⟨ts, ht, -⟩ := G.urls
      rw [lists_sheet hy G ht fun _ => none, lists_sheet (he ▸ hy) G ht fun _ => none]
  · intro f hf hn hp
    have : ∀ {x y}, Path (Refers (project c.constants) (Lists c) W0) x y → Source x → W0 x ≠ none → Path (Mentions c W0) x y := by
      intro x y h
      have one : ∀ {x y}, Refers (project c.constants) (Lists c) W0 x y → Source x → W0 x ≠ none → Mentions c W0 x y ∧ Source y ∧ W0 y ≠ none := by
        intro x y h hx hxn
        obtain ⟨d, hd, he⟩ := id h
        have h2 := hlist x hx hxn d hd
        rw [he] at h2
        exact ⟨(refers_mentions hpg (hI x hx hxn).1 h2.1).1 h, h2⟩
      induction h with
      | one h => exact fun hx hxn => .one (one h hx hxn).1
      | more h _ ih =>
        intro hx hxn
        obtain ⟨h1, h2, h3⟩ := one h hx hxn
        exact .more h1 (ih h2 h3)
    exact hac f hf (this hp hf hn)

/-- **C111.** After any history of finished rebuilds of a website of scripts, copied files, templates, pages and stylesheets, every source which a script imports, a
page links to or includes, or a stylesheet has the URL of, is there, and no source refers to itself, directly or through others. -/
theorem C111_site_partial {c : Config} (hc : isAbs c.js.cwd = true) (hsp : Js.SpaceOk c.js.space) (hpg : PagesOk c) (hcs : Icons.Spaces c.sheet.icon.space)
    (hk : Source c.constants) {m : Mode} {W : Contents Bytes} {gs : Graphs} {dm : Option Mode} (hist : Worked (project c.constants) (tool c) m W gs dm)
    (hI : ∀ f, Source f → W f ≠ none → Arranged c W f) :
    (∀ f g, Source f → W f ≠ none → Mentions c W f g → Source g → W g ≠ none) ∧
    ∀ f, ¬ Path (fun x y => Source x ∧ W x ≠ none ∧ Source y ∧ Mentions c W x y) f f := by
  have hself : ∀ f d, (project c.constants).src f → Arranged c W f → Lists c W f d → (project c.constants).source d = f → (tool c).read f d ≠ f :=
    fun _ _ _ h1 h2 h3 => arranged_never_itself hc hpg h1 h2 h3
  refine ⟨fun f g hf hn hr hg => ?_, fun f hp => ?_⟩
  · obtain ⟨d, hd, rfl⟩ := (refers_mentions hpg (hI f hf hn) hg).2 hr
    exact (finished_refers (lawful c.constants) (tool_lawful hc) hk (arranged_direct hc hsp hpg hcs) hist hself hf hn (hI _ hf hn) hd hg).1
  · refine finished_acyclic (lawful c.constants) (tool_lawful hc) hk (arranged_direct hc hsp hpg hcs) hist hself hI f ?_
    have : ∀ {x y}, Path (fun x y => Source x ∧ W x ≠ none ∧ Source y ∧ Mentions c W x y) x y →
        Path (fun x y => (project c.constants).src x ∧ W x ≠ none ∧ (project c.constants).src y ∧ Refers (project c.constants) (Lists c) W x y) x y := by
      intro x y h
      induction h with
      | one h => exact .one ⟨h.1, h.2.1, h.2.2.1, (refers_mentions hpg (hI _ h.1 h.2.1) h.2.2.1).2 h.2.2.2⟩
      | more h _ ih => exact .more ⟨h.1, h.2.1, h.2.2.1, (refers_mentions hpg (hI _ h.1 h.2.1) h.2.2.1).2 h.2.2.2⟩ ih
    exact this hp

/-- What is simple, and what is referred to, depends on the sources only. -/
theorem Arranged.move {c : Config} (hpg : PagesOk c) {W V : Contents Bytes} {f : String} (h : Arranged c W f) (hf : Source f) (hv : ∀ g, Source g → V g = W g) :
    Arranged c V f ∧ ∀ g, Mentions c V f g ↔ Mentions c W f g := by
  rcases h with h | ⟨y, hy, G⟩
  · obtain ⟨h1, h2⟩ := h.move hpg hf hv
    exact ⟨.inl h1, fun g => by rw [Mentions, Mentions, h2, hv f hf]⟩
  · refine ⟨.inr ⟨y, (hv f hf).trans hy, G⟩, fun g => ?_⟩
    rw [Mentions, Mentions, hv f hf]
    simp [sheet_no_name G.sheet g]

/-- **C111**, as seen before the build: if after some edits a source refers to a source which is not there, the next rebuild does not finish. -/
theorem C111_site_broken_partial {c : Config} (hc : isAbs c.js.cwd = true) (hsp : Js.SpaceOk c.js.space) (hpg : PagesOk c) (hcs : Icons.Spaces c.sheet.icon.space)
    (hk : Source c.constants) {m0 : Mode} {W W0 W' : Contents Bytes} {env : Env} {a : Args} {d : Disk}
    (hist : Worked (project c.constants) (tool c) m0 W a.old d.mode) (ho : ValidOrder env) (hs : Scanned (tool c) env) (hco : a.constants = c.constants)
    (E : Edits (project c.constants) a d W W0) (X : Work (tool c) a (hotRebuild env a d) W0 W')
    {f g : String} (hf : Source f) (hn : W0 f ≠ none) (hO : Arranged c W0 f) (hr : Mentions c W0 f g) (hg : Source g) (hb : W0 g = none) :
    (hotRebuild env a d).status ≠ .finished := by
  intro hfin
  have hall := X.sources (lawful c.constants) (tool_lawful hc) hk hist ho hs hco E hfin
  obtain ⟨h1, h2⟩ := hO.move hpg hf hall
  obtain ⟨d', hd, rfl⟩ := (refers_mentions hpg h1 hg).2 ((h2 g).2 hr)
  have := (finished_refers (lawful c.constants) (tool_lawful hc) hk (arranged_direct hc hsp hpg hcs) (.rebuild hist ho hs hco E X hfin)
    (fun _ _ _ h1 h2 h3 => arranged_never_itself hc hpg h1 h2 h3) hf (by rw [hall f hf]; exact hn) h1 hd hg).1
  exact this ((hall _ hg).trans hb)

/-- **C111**, as seen before the build: if after some edits a source refers to itself, directly or through others, the next rebuild does not finish. -/
theorem C111_site_circular_partial {c : Config} (hc : isAbs c.js.cwd = true) (hsp : Js.SpaceOk c.js.space) (hpg : PagesOk c) (hcs : Icons.Spaces c.sheet.icon.space)
    (hk : Source c.constants) {m0 : Mode} {W W0 W' : Contents Bytes} {env : Env} {a : Args} {d : Disk}
    (hist : Worked (project c.constants) (tool c) m0 W a.old d.mode) (ho : ValidOrder env) (hs : Scanned (tool c) env) (hco : a.constants = c.constants)
    (E : Edits (project c.constants) a d W W0) (X : Work (tool c) a (hotRebuild env a d) W0 W')
    (hI : ∀ f, Source f → W0 f ≠ none → Arranged c W0 f) {f : String} (hp : Path (fun x y => Source x ∧ W0 x ≠ none ∧ Source y ∧ Mentions c W0 x y) f f) :
    (hotRebuild env a d).status ≠ .finished := by
  intro hfin
  have hall := X.sources (lawful c.constants) (tool_lawful hc) hk hist ho hs hco E hfin
  refine (C111_site_partial hc hsp hpg hcs hk (.rebuild hist ho hs hco E X hfin) fun f h1 h2 => ((hI f h1 (by rw [← hall f h1]; exact h2)).move hpg h1 hall).1).2 f ?_
  have : ∀ {x y}, Path (fun x y => Source x ∧ W0 x ≠ none ∧ Source y ∧ Mentions c W0 x y) x y →
      Path (fun x y => Source x ∧ W' x ≠ none ∧ Source y ∧ Mentions c W' x y) x y := by
    intro x y h
    induction h with
    | one h => exact .one ⟨h.1, by rw [hall _ h.1]; exact h.2.1, h.2.2.1, (((hI _ h.1 h.2.1).move hpg h.1 hall).2 _).2 h.2.2.2⟩
    | more h _ ih => exact .more ⟨h.1, by rw [hall _ h.1]; exact h.2.1, h.2.2.1, (((hI _ h.1 h.2.1).move hpg h.1 hall).2 _).2 h.2.2.2⟩ ih
  exact this hp

end Verif.Hot.Scripts
