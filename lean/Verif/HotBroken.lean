import Verif.HotBuildsPages

/-!
# A finished build leaves no broken and no circular references (C111)

The converse of C110.  What a page or a script refers to is described as there, by `Names`: nothing is said about graphs, scans, or builds.
-/

namespace Verif.Hot
open Verif Verif.Graph

variable {C : Type}

/-- After any history of finished rebuilds a file refers only to files which are there, and the graph has the reference. -/
theorem finished_refers {p : Project} {t : Tool C} {simple : Contents C → String → Prop} {refs : Contents C → String → String → Prop} (hp : p.Lawful)
    (ht : t.Lawful p) (hc : p.src p.constants) (D : t.Direct p simple refs) {m : Mode} {W : Contents C} {gs : Graphs} {dm : Option Mode}
    (hist : Worked p t m W gs dm) (hself : ∀ f c, p.src f → simple W f → refs W f c → p.source c = f → t.read f c ≠ f) {f c : String} (hf : p.src f)
    (hn : W f ≠ none) (hs : simple W f) (hr : refs W f c) (hg : p.src (p.source c)) : W (p.source c) ≠ none ∧ Edge gs.dep f (p.source c) := by
  obtain ⟨U, hv, -, -⟩ := (hist.history hp ht hc).upToDate hp (ht.pure hp)
  obtain ⟨x, b1, -, -, b4⟩ := U.built f ((U.files f).2 ⟨hf, hn⟩)
  obtain ⟨-, r, V', q1, rfl⟩ := Tool.builder_some b1
  obtain ⟨q2, -⟩ := D.builds hf hs hn (hide_other (hp.owner_src hf f)) (hide_bare _ _ _) q1 fun c _ hcs => hide_other (hp.owner_src hcs f)
  have hread := D.reads hf hs hn hr hg
  have hed : Edge gs.dep f (p.source c) := by
    have h := b4 (t.read f c) (List.mem_map_of_mem ((q2 c).2 hr))
    have e : p.source (t.read f c) = p.source c := by
      rcases hread with h | h
      · exact source_owner h
      · rw [h]; exact source_src hp hg
    rw [e] at h
    rcases h with h | h
    · have h2 := ht.strict hf q1 (hide_bare _ _ _) ((q2 c).2 hr)
      rw [h] at hread
      rcases hread with h3 | h3
      · exact absurd (hide_bare _ _ _ _ h3) h2
      · exact absurd h3 (hself f c hf hs hr h)
    · exact h
  have : contains gs.dep (p.source c) = true := (contains_iff _ _).2 (hv.dep.wf.mem_keys_of_kid ((edge_iff _ _ _).1 hed))
  exact ⟨((U.files _).1 this).2, hed⟩

/-- After any history of finished rebuilds no file refers to itself, directly or through others. -/
theorem finished_acyclic {p : Project} {t : Tool C} {simple : Contents C → String → Prop} {refs : Contents C → String → String → Prop} (hp : p.Lawful)
    (ht : t.Lawful p) (hc : p.src p.constants) (D : t.Direct p simple refs) {m : Mode} {W : Contents C} {gs : Graphs} {dm : Option Mode}
    (hist : Worked p t m W gs dm) (hself : ∀ f c, p.src f → simple W f → refs W f c → p.source c = f → t.read f c ≠ f)
    (hI : ∀ f, p.src f → W f ≠ none → simple W f) (f : String) : ¬ Path (fun x y => p.src x ∧ W x ≠ none ∧ p.src y ∧ Refers p refs W x y) f f := by
  obtain ⟨-, -, hac, -⟩ := (hist.history hp ht hc).upToDate hp (ht.pure hp)
  have step : ∀ {x y}, p.src x ∧ W x ≠ none ∧ p.src y ∧ Refers p refs W x y → Edge gs.dep x y := by
    rintro x y ⟨h1, h2, h3, c, h4, rfl⟩
    exact (finished_refers hp ht hc D hist hself h1 h2 (hI _ h1 h2) h4 h3).2
  have : ∀ {x y}, Path (fun x y => p.src x ∧ W x ≠ none ∧ p.src y ∧ Refers p refs W x y) x y → DependsOn gs.dep x y := by
    intro x y h
    induction h with
    | one h => exact .one (step h)
    | more h _ ih => exact .more (step h) ih
  exact fun h => hac f (this h)

/-- A rebuild which finishes leaves the sources as they were. -/
theorem Work.sources {p : Project} {t : Tool C} (hp : p.Lawful) (ht : t.Lawful p) (hc : p.src p.constants) {m0 : Mode} {W W0 W' : Contents C} {env : Env} {a : Args}
    {d : Disk} (hist : Worked p t m0 W a.old d.mode) (ho : ValidOrder env) (hs : Scanned t env) (hco : a.constants = p.constants) (E : Edits p a d W W0)
    (X : Work t a (hotRebuild env a d) W0 W') (hf : (hotRebuild env a d).status = .finished) : ∀ c, p.src c → W' c = W0 c := by
  obtain ⟨U, hv, -, -⟩ := (hist.history hp ht hc).upToDate hp (ht.pure hp)
  obtain ⟨S, hg⟩ := scans_of (a := a) (d := d) ht hs hc hf
  intro c hcs
  cases hst : (hotRebuild env a d).stored with
  | none =>
    obtain ⟨h1, h2, h3, -⟩ := C17_finished_stores env a d hv ho hf hst
    obtain ⟨i1, i2, i3, i4⟩ := Verif.Hot.idle hv ho hf hst
    by_cases hd : c ∈ (hotRebuild env a d).disk.files
    · rw [X.kept c hd (by rw [i1]; simp)]
      refine X.start_kept c ?_
      rintro ⟨⟨x, hx, -⟩, -⟩
      simp [Affected, touchedSources, i2, h3, Dict.keys] at hx
    · rw [X.missing c hd]
      rw [i4] at hd
      exact (Classical.byContradiction fun h => hd ((E.disk c).1 fun h' => h h'.symm))
  | some gs =>
    have F := facts hv ho hst
    have hB := ht.pure hp
    have Y := X.exec hp ht F S hg hco U E
    obtain ⟨e1, -, e2⟩ := Y.at_source hB F (fun f o => U.owned hB) E ((hp.src c hcs).1)
    rw [e1, e2 (by rw [hg]; simp [Dict.keys])]

end Verif.Hot

namespace Verif.Hot.Scripts
open Verif Verif.Hot Verif.Graph
open Verif.Reader (Text txt)
open Verif.Paths (isAbs)
open Verif.Handlers (Bytes)

theorem reads_not_itself {c : Config} (hc : isAbs c.js.cwd = true) (hpg : PagesOk c) {W : Contents Bytes} {f : String} (hs : Ordered c W f)
    (hr : Names c W f f) : (tool c).read f f ≠ f := by
  have hne : ∀ {x : Text}, Public f x → readAt c (txt f) (txt f) = hashOf x → (tool c).read f f ≠ f := by
    intro x hx h e
    have : str (readAt c (txt f) (txt f)) = f := e
    rw [h] at this
    have h2 : txt f = hashOf x := by rw [← this, txt_hash hx]
    rw [hx.1] at h2
    have h3 : (txt "src/public/" ++ x).head? = (copyOf x ++ txt ".hash").head? := congrArg List.head? h2
    have h4 : (txt "src/public/" ++ x).head? = some 115 := rfl
    have h5 : (copyOf x ++ txt ".hash").head? = some 111 := rfl
    rw [h4, h5] at h3
    simp at h3
  rcases hs with ⟨y, hy, h⟩ | ⟨h, -⟩ | ⟨ls, is, G⟩
  · obtain ⟨y', hy', hu⟩ := (names_script h f).1 hr
    rw [hy] at hy'
    cases hy'
    obtain ⟨g', x, e, hg⟩ := (h.2.2 hu.1).2.2 _ hu.2
    cases txt_inj e
    refine hne hg ?_
    unfold readAt
    rw [if_neg, if_neg]
    · conv_lhs => rw [hg.1]
      exact hashPath_public hc hg.2
    · intro hh; exact html_js (List.isSuffixOf_iff_suffix.1 hh) hu.1.2
    · intro hh; exact css_js (List.isSuffixOf_iff_suffix.1 hh) hu.1.2
  · exact absurd hr (names_partial h f)
  · obtain ⟨x, stem, hx, -⟩ := G.page.facts
    rcases (names_page hpg G f).1 hr with h | h
    · exact absurd rfl (G.links _ h).1
    · obtain ⟨g', e, hz⟩ := G.templates _ h
      cases txt_inj e
      exact absurd hx hz.not_public

/-- Scripts and pages refer to sources, not to outputs. -/
theorem names_itself {c : Config} (hpg : PagesOk c) {W : Contents Bytes} {f g : String} (hs : Ordered c W f) (hr : Names c W f g) :
    (project c.constants).source g = g := by
  rcases hs with ⟨y, hy, h⟩ | ⟨h, -⟩ | ⟨ls, is, G⟩
  · obtain ⟨y', hy', hu⟩ := (names_script h g).1 hr
    rw [hy] at hy'
    cases hy'
    obtain ⟨g', x, e, hg⟩ := (h.2.2 hu.1).2.2 _ hu.2
    cases txt_inj e
    exact itself_public hg
  · exact absurd hr (names_partial h g)
  · rcases (names_page hpg G g).1 hr with h | h
    · obtain ⟨-, g', z, e, hz⟩ := G.links _ h
      cases txt_inj e
      exact itself_public hz
    · obtain ⟨g', e, hz⟩ := G.templates _ h
      cases txt_inj e
      exact itself_partial hz

theorem never_itself {c : Config} (hc : isAbs c.js.cwd = true) (hpg : PagesOk c) {W : Contents Bytes} {f g : String} (hs : Ordered c W f)
    (hr : Names c W f g) (he : (project c.constants).source g = f) : (tool c).read f g ≠ f := by
  rw [names_itself hpg hs hr] at he
  subst he
  exact reads_not_itself hc hpg hs hr

/-- **C111.** After any history of finished rebuilds of a project of scripts, copied files, templates and pages, every source which a script imports, or a page
links to or includes, is there, and no source refers to itself, directly or through others. -/
theorem C111_partial {c : Config} (hc : isAbs c.js.cwd = true) (hsp : Js.SpaceOk c.js.space) (hpg : PagesOk c) (hk : Source c.constants) {m : Mode}
    {W : Contents Bytes} {gs : Graphs} {dm : Option Mode} (hist : Worked (project c.constants) (tool c) m W gs dm)
    (hI : ∀ f, Source f → W f ≠ none → Ordered c W f) :
    (∀ f g, Source f → W f ≠ none → Names c W f g → Source g → W g ≠ none) ∧
    ∀ f, ¬ Path (fun x y => Source x ∧ W x ≠ none ∧ Source y ∧ Names c W x y) f f :=
  have hself : ∀ f g, (project c.constants).src f → Ordered c W f → Names c W f g → (project c.constants).source g = f → (tool c).read f g ≠ f :=
    fun _ _ _ h1 h2 h3 => never_itself hc hpg h1 h2 h3
  ⟨fun f g hf hn hr hg => by
      have := (finished_refers (lawful c.constants) (tool_lawful hc) hk (tool_direct_pages hc hsp hpg) hist hself hf hn (hI _ hf hn) hr
        (by rw [source_src (lawful c.constants) hg]; exact hg)).1
      rwa [source_src (lawful c.constants) hg] at this,
    fun f hp => finished_acyclic (lawful c.constants) (tool_lawful hc) hk (tool_direct_pages hc hsp hpg) hist hself hI f (by
      have : ∀ {x y}, Path (fun x y => Source x ∧ W x ≠ none ∧ Source y ∧ Names c W x y) x y →
          Path (fun x y => (project c.constants).src x ∧ W x ≠ none ∧ (project c.constants).src y ∧ Refers (project c.constants) (Names c) W x y) x y := by
        intro x y h
        induction h with
        | one h => exact .one ⟨h.1, h.2.1, h.2.2.1, _, h.2.2.2, source_src (lawful c.constants) h.2.2.1⟩
        | more h _ ih => exact .more ⟨h.1, h.2.1, h.2.2.1, _, h.2.2.2, source_src (lawful c.constants) h.2.2.1⟩ ih
      exact this hp)⟩

/-- What is simple, and what is referred to, depends on the sources only. -/
theorem Ordered.move {c : Config} (hpg : PagesOk c) {W V : Contents Bytes} {f : String} (h : Ordered c W f) (hf : Source f) (hv : ∀ g, Source g → V g = W g) :
    Ordered c V f ∧ ∀ g, Names c V f g ↔ Names c W f g := by
  rcases h with ⟨y, hy, h⟩ | h | ⟨ls, is, G⟩
  · refine ⟨.inl ⟨y, (hv f hf).trans hy, h⟩, fun g => ?_⟩
    rw [names_script h, names_script h, Uses, Uses, hv f hf]
  · exact ⟨.inr (.inl h), fun g => by simp [names_partial h.1 g]⟩
  · have G' := G.move (fs' := fsOf V) (by rw [fsOf_txt, fsOf_txt, hv f hf]) (fun i hi => by
      obtain ⟨g, rfl, hg⟩ := G.templates i hi
      rw [fsOf_txt, fsOf_txt, hv g (.inr hg)])
    exact ⟨.inr (.inr ⟨ls, is, G'⟩), fun g => by rw [names_page hpg G, names_page hpg G']⟩

/-- **C111**, as seen before the build: if after some edits a source refers to a source which is not there, the next rebuild does not finish. -/
theorem C111_broken_partial {c : Config} (hc : isAbs c.js.cwd = true) (hsp : Js.SpaceOk c.js.space) (hpg : PagesOk c) (hk : Source c.constants) {m0 : Mode}
    {W W0 W' : Contents Bytes} {env : Env} {a : Args} {d : Disk} (hist : Worked (project c.constants) (tool c) m0 W a.old d.mode) (ho : ValidOrder env)
    (hs : Scanned (tool c) env) (hco : a.constants = c.constants) (E : Edits (project c.constants) a d W W0) (X : Work (tool c) a (hotRebuild env a d) W0 W')
    {f g : String} (hf : Source f) (hn : W0 f ≠ none) (hO : Ordered c W0 f) (hr : Names c W0 f g) (hg : Source g) (hb : W0 g = none) :
    (hotRebuild env a d).status ≠ .finished := by
  intro hfin
  have hall := X.sources (lawful c.constants) (tool_lawful hc) hk hist ho hs hco E hfin
  obtain ⟨h1, h2⟩ := hO.move hpg hf hall
  have := (finished_refers (lawful c.constants) (tool_lawful hc) hk (tool_direct_pages hc hsp hpg) (.rebuild hist ho hs hco E X hfin)
    (fun _ _ _ h1 h2 h3 => never_itself hc hpg h1 h2 h3) hf (by rw [hall f hf]; exact hn) h1 ((h2 g).2 hr)
    (by rw [source_src (lawful c.constants) hg]; exact hg)).1
  rw [source_src (lawful c.constants) hg] at this
  exact this ((hall g hg).trans hb)

/-- **C111**, as seen before the build: if after some edits a source refers to itself, directly or through others, the next rebuild does not finish. -/
theorem C111_circular_partial {c : Config} (hc : isAbs c.js.cwd = true) (hsp : Js.SpaceOk c.js.space) (hpg : PagesOk c) (hk : Source c.constants) {m0 : Mode}
    {W W0 W' : Contents Bytes} {env : Env} {a : Args} {d : Disk} (hist : Worked (project c.constants) (tool c) m0 W a.old d.mode) (ho : ValidOrder env)
    (hs : Scanned (tool c) env) (hco : a.constants = c.constants) (E : Edits (project c.constants) a d W W0) (X : Work (tool c) a (hotRebuild env a d) W0 W')
    (hI : ∀ f, Source f → W0 f ≠ none → Ordered c W0 f) {f : String} (hp : Path (fun x y => Source x ∧ W0 x ≠ none ∧ Source y ∧ Names c W0 x y) f f) :
    (hotRebuild env a d).status ≠ .finished := by
  intro hfin
  have hall := X.sources (lawful c.constants) (tool_lawful hc) hk hist ho hs hco E hfin
  refine (C111_partial hc hsp hpg hk (.rebuild hist ho hs hco E X hfin) fun f h1 h2 => ((hI f h1 (by rw [← hall f h1]; exact h2)).move hpg h1 hall).1).2 f ?_
  have : ∀ {x y}, Path (fun x y => Source x ∧ W0 x ≠ none ∧ Source y ∧ Names c W0 x y) x y →
      Path (fun x y => Source x ∧ W' x ≠ none ∧ Source y ∧ Names c W' x y) x y := by
    intro x y h
    induction h with
    | one h => exact .one ⟨h.1, by rw [hall _ h.1]; exact h.2.1, h.2.2.1, (((hI _ h.1 h.2.1).move hpg h.1 hall).2 _).2 h.2.2.2⟩
    | more h _ ih => exact .more ⟨h.1, by rw [hall _ h.1]; exact h.2.1, h.2.2.1, (((hI _ h.1 h.2.1).move hpg h.1 hall).2 _).2 h.2.2.2⟩ ih
  exact this hp

end Verif.Hot.Scripts
