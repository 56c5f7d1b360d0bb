import Verif.HotBuildsSheets
import Verif.CssEndsImports
/-!
# C111 for stylesheets which import rules

Whatever else a stylesheet contains: after a finished build the stylesheets it imports rules from are there, and nothing imports, or refers
in another way, in a circle.
-/
namespace Verif.Build
variable {S τ E : Type} {ms : List (Manip S τ E)} {I : State S τ E → List τ → Prop}

theorem loop_keeps (hstep : ∀ b t rest stack' b', I b (t :: rest) → round ms b t rest = .ok (stack', b') → I b' stack') (fut : List τ) :
    ∀ (fuel : Nat) (b : State S τ E) (stack : List τ) (b' : State S τ E), I b (stack ++ fut) → loop ms fuel b stack = some (.ok b') → I b' fut
  | fuel, b, [], b', hI, h => by
    unfold loop at h
    cases h
    exact hI
  | 0, _, _ :: _, _, _, h => by
    unfold loop at h
    cases h
  | fuel + 1, b, t :: stack, b', hI, h => by
    unfold loop at h
    cases hr : round ms b t stack with
    | error e => rw [hr] at h; cases h
    | ok x =>
      obtain ⟨stack', b1⟩ := x
      rw [hr] at h
      exact loop_keeps hstep fut fuel b1 stack' b' (hstep b t (stack ++ fut) (stack' ++ fut) b1 hI (round_later fut hr)) h

/-- What every round keeps holds in the end. -/
theorem runOps_keeps (hstep : ∀ b t rest stack' b', I b (t :: rest) → round ms b t rest = .ok (stack', b') → I b' stack')
    (hI : ∀ b o rest, I b rest → I { b with output := o } rest) {fuel : Nat} :
    ∀ (ops : List (Op τ)) (b : State S τ E) (acc : List τ) (x : List τ × State S τ E), I b (tokensOf ops) → runOps ms fuel b acc ops = some (.ok x) → I x.2 []
  | [], b, acc, x, hb, h => by
    unfold runOps at h
    cases h
    exact hb
  | .consume :: ops, b, acc, x, hb, h => by
    unfold runOps at h
    exact runOps_keeps hstep hI ops _ _ x (hI b [] _ hb) h
  | .token t :: ops, b, acc, x, hb, h => by
    unfold runOps handleToken at h
    split at h
    · cases h
    · cases h
    · next b' hl => exact runOps_keeps hstep hI ops b' acc x (loop_keeps hstep (tokensOf ops) fuel b [t] b' hb hl) h

end Verif.Build

namespace Verif.Css.Page.Ends
open Verif.Reader (Text txt)
open Verif.Css (Tok)
open Verif.Build
open Verif.Handlers (Fs)

/-- What is imported has been reported, or is still to come. -/
structure Reported (env : Env) (ts : List Tok) (b : State St Tok Err) (rest : List Tok) : Prop where
  ok : Ok false env b
  seen : ∀ r, Nest.Imports env.nest ts r → r.relpath ≠ env.nest.self → r.relpath ∈ b.st.nest.children ∨ Nest.Imports env.nest rest r

theorem reported_step {n : Nat} {env : Env} {ts : List Tok} (b : State St Tok Err) (t : Tok) (rest stack' : List Tok) (b' : State St Tok Err)
    (hI : Reported env ts b (t :: rest)) (h : Build.round (buildManips n env) b t rest = .ok (stack', b')) : Reported env ts b' stack' := by
  by_cases hcase : b.mark = none → Nest.getImport env.nest t = none
  · obtain ⟨k1, k2, -⟩ := round_other hI.ok hcase
    obtain ⟨⟨h1, new, h2, h3⟩, -⟩ := build_step' n env b t rest stack' b' hI.ok hcase h
    have hnest : b'.st.nest = b.st.nest := by
      cases hr : Build.round (buildManips n env) b t [] with
      | error e => rw [round_error hr rest] at h; cases h
      | ok y =>
        have hl := round_later rest hr
        rw [List.nil_append] at hl
        rw [hl] at h
        cases h
        exact k2 y (by rw [← k1 n]; exact hr)
    refine ⟨h1, fun r hr hs => ?_⟩
    rw [hnest]
    rcases hI.seen r hr hs with h4 | ⟨x, hx, hxr⟩
    · exact .inl h4
    · subst h2
      rcases List.mem_cons.1 hx with rfl | hx
      · rcases h3 with h3 | rfl
        · cases hm : b.mark with
          | none => rw [hcase hm] at hxr; cases hxr
          | some m =>
            exfalso
            rcases hI.ok.open' with ho | ⟨ho, g1, g2, -⟩
            · rw [ho] at hm; cases hm
            · simp only [Build.round, ho, continueMark] at h
              split at h
              · cases h
              · next o s' hc =>
                obtain ⟨-, t', q2, q3⟩ := data_second hc g1 g2
                cases q2
                have h : [open', t'] ++ rest = new ++ rest := by injection h with h; exact congrArg Prod.fst h
                have h := List.append_cancel_right h
                rcases q3 with rfl | ⟨v, v', rfl, -⟩
                · have := h3 t' (by rw [← h]; simp)
                  rw [hxr] at this
                  cases this
                · cases hxr
              · next s' hc =>
                obtain ⟨-, t', q2, -⟩ := data_second hc g1 g2
                cases q2
        · exact .inr ⟨x, by simp, hxr⟩
      · exact .inr ⟨x, by simp [hx], hxr⟩
  · have hm : b.mark = none := Classical.byContradiction fun h => hcase fun h' => absurd h' h
    obtain ⟨r, hr⟩ : ∃ r, Nest.getImport env.nest t = some r := by
      cases h : Nest.getImport env.nest t with
      | none => exact absurd (fun _ => h) hcase
      | some r => exact ⟨r, rfl⟩
    obtain ⟨o, mark, st⟩ := b
    dsimp only at hm
    subst hm
    let st1 : Nest.St := if r.relpath = env.nest.self ∨ r.relpath ∈ st.nest.children then st.nest
      else { st.nest with children := st.nest.children ++ [r.relpath] }
    have hst1 : (∀ c ∈ st.nest.children, c ∈ st1.children) ∧ (r.relpath ≠ env.nest.self → r.relpath ∈ st1.children) := by
      by_cases hc : r.relpath = env.nest.self ∨ r.relpath ∈ st.nest.children
      · have : st1 = st.nest := if_pos hc
        rw [this]
        exact ⟨fun c h => h, fun h => hc.resolve_left h⟩
      · have : st1 = { st.nest with children := st.nest.children ++ [r.relpath] } := if_neg hc
        rw [this]
        exact ⟨fun c h => List.mem_append.2 (.inl h), fun _ => by simp⟩
    have hstart : (imports n env).start st t = .ok (true, { st with nest := st1 }) := by
      simp only [imports, part, Nest.nest, Nest.start, hr]
      rfl
    simp only [Build.round, buildManips, findMark, hstart, continueMark] at h
    split at h
    · cases h
    · next blk s2 hc =>
      obtain ⟨st2, hc', rfl⟩ := part_cont_iff.1 hc
      obtain ⟨e1, -⟩ := nest_children (show Nest.cont env.nest n st1 t = .ok (some blk, st2) from hc')
      cases h
      refine ⟨⟨.inl rfl⟩, fun x hx hs => ?_⟩
      show x.relpath ∈ st2.children ∨ _
      rw [e1]
      rcases hI.seen x hx hs with h4 | ⟨y, hy, hyx⟩
      · exact .inl (hst1.1 _ h4)
      · rcases List.mem_cons.1 hy with rfl | hy
        · rw [hr] at hyx
          cases hyx
          exact .inl (hst1.2 hs)
        · exact .inr ⟨y, by simp [hy], hyx⟩
    · next s2 hc =>
      obtain ⟨st2, hc', rfl⟩ := part_cont_iff.1 hc
      have := (nest_children (show Nest.cont env.nest n st1 t = .ok (none, st2) from hc')).2
      cases this

/-- A finished run has reported all files which are imported from. -/
theorem run_imports {n fuel : Nat} {env : Env} {fs : Fs} {ts : List Tok} {x : List Tok × State St Tok Err}
    (h : runOps (buildManips n env) fuel (State.new (St.new fs)) [] (perToken ts) = some (.ok x)) {r : Nest.Ref} (hr : Nest.Imports env.nest ts r)
    (hs : r.relpath ≠ env.nest.self) : r.relpath ∈ x.2.st.nest.children := by
  have := runOps_keeps (I := Reported env ts) reported_step (fun b o rest h => ⟨⟨h.ok.open'⟩, h.seen⟩) (perToken ts) (State.new (St.new fs)) [] x
    ⟨⟨.inl rfl⟩, fun r hr _ => .inr (by rw [tokens_perToken]; exact hr)⟩ h
  rcases this.seen r hr hs with h | ⟨y, hy, -⟩
  · exact h
  · simp at hy

end Verif.Css.Page.Ends

namespace Verif.Hot.Scripts
open Verif Verif.Hot Verif.Graph
open Verif.Reader (Text txt)
open Verif.Paths (isAbs)
open Verif.Handlers (Bytes Fs)

/-! ## Specification -/

/-- The stylesheet `f` has a command to import a rule from the file `g`, other than itself. -/
def ImportsFrom (c : Config) (W : Contents Bytes) (f g : String) : Prop := IsSheet c f ∧ g ≠ f ∧ ∃ y ts r, W f = some y ∧
  Css.tokenize c.sheet.nest.uni (c.js.decode y) = .ok ts ∧ Nest.Imports (sheetEnv c (txt f) fun _ => none).nest ts r ∧ r.relpath = txt g

/-- The stylesheet imports a rule from the file, or the source is of the kind of C110 and refers to it. -/
def Needs (c : Config) (W : Contents Bytes) (f g : String) : Prop := ImportsFrom c W f g ∨ Arranged c W f ∧ Mentions c W f g

/-! ## Proofs -/

theorem finished_imports {c : Config} (hc : isAbs c.js.cwd = true) (hk : Source c.constants) {m : Mode} {W : Contents Bytes} {gs : Graphs} {dm : Option Mode}
    (hist : Worked (project c.constants) (tool c) m W gs dm) {f g : String} (hf : Source f) (hi : ImportsFrom c W f g) :
    ∃ x, Public g x ∧ (Source g → W g ≠ none ∧ Edge gs.dep f g) := by
  have hp := lawful c.constants
  have ht := tool_lawful hc
  obtain ⟨hsh, hne, y, ts, r, hy, hts, hr, hrg⟩ := hi
  obtain ⟨U, hv, -, -⟩ := (hist.history hp ht hk).upToDate hp (ht.pure hp)
  obtain ⟨x, b1, -, -, b4⟩ := U.built f ((U.files f).2 ⟨hf, by rw [hy]; simp⟩)
  obtain ⟨-, r', V', q1, rfl⟩ := Tool.builder_some b1
  obtain ⟨z, hz, hcss, hkk⟩ := hsh.facts
  obtain ⟨b, fs, h3, h4, e1, -⟩ := build_some q1
  have hbare := hide_bare (project c.constants) f W
  obtain ⟨-, hh⟩ := bare_fs hf hz hbare
  have hfy : fsOf (hide (project c.constants) f W) (txt f) = some y := by
    rw [fsOf_txt, hide_other (hp.owner_src hf f)]; exact hy
  unfold dispatch at h3
  rw [if_neg hkk, if_pos hcss] at h3
  obtain ⟨hchild, hpre⟩ : txt g ∈ b.children ∧ txt "src/public/" <+: txt g := by
    split at h3
    · next hpl =>
      obtain ⟨w, hw, h3⟩ := Option.bind_eq_some_iff.1 h3
      cases w with
      | error e => cases h3
      | ok w =>
        cases h3
        rw [hz.1] at hw hpl hfy
        obtain ⟨y', ts', out, s, i1, i2, i3, i4, rfl, -⟩ := (Css.Page.build_bare hh).1 ⟨hw, hpl⟩
        rw [hfy] at i1
        cases i1
        have i2 : Css.tokenize c.sheet.nest.uni (c.js.decode y) = .ok ts' := i2
        rw [hts] at i2
        cases i2
        rw [← hz.1] at i3
        have := Css.Page.Ends.run_imports i3 (r := r) hr (by
          show r.relpath ≠ txt f
          rw [hrg]
          exact fun h => hne (txt_inj h))
        rw [hrg] at this
        exact ⟨((Css.Page.mem_report i4.quiet).1 _).2 (.inl this), i4.rules _ this⟩
    · cases h3
  have hpub : ∃ x, Public g x := by
    obtain ⟨g', e, h | ⟨-, g2, x2, -, h⟩ | ⟨h, -⟩⟩ := h4 _ hchild
    · cases txt_inj e; exact h
    · exfalso
      cases txt_inj e
      obtain ⟨w, hw⟩ := hpre
      rw [h] at hw
      have h1 : (hashOf x2).head? = some 111 := rfl
      have h2 : (txt "src/public/" ++ w).head? = some 115 := rfl
      rw [hw, h1] at h2
      simp at h2
    · exact absurd (List.isSuffixOf_iff_suffix.1 h) fun h => html_css h (List.isSuffixOf_iff_suffix.1 hcss)
  obtain ⟨x, hx⟩ := hpub
  refine ⟨x, hx, fun hg => ?_⟩
  have hgr : g ∈ r'.children := by rw [e1]; exact List.mem_map.2 ⟨_, hchild, str_txt g⟩
  have hread : (tool c).read f g = str (copyOf x) := by
    show str (readAt c (txt f) (txt g)) = _
    unfold readAt Css.Page.readOf
    rw [if_pos hcss, if_pos (by rw [hx.1]; exact List.isPrefixOf_iff_prefix.2 ⟨x, rfl⟩), source_public hx, if_neg fun h => hne (txt_inj h)]
  have hsrc : (project c.constants).source ((tool c).read f g) = g := by
    rw [hread]
    exact source_owner (owner_iff.2 ⟨hg, x, hx, .inl (txt_copy hx)⟩)
  have hed : Edge gs.dep f g := by
    have h := b4 ((tool c).read f g) (List.mem_map_of_mem hgr)
    rw [hsrc] at h
    exact h.resolve_left hne
  have : contains gs.dep g = true := (contains_iff _ _).2 (hv.dep.wf.mem_keys_of_kid ((edge_iff _ _ _).1 hed))
  exact ⟨((U.files _).1 this).2, hed⟩

/-- **C111** for stylesheets which import rules: after any history of finished rebuilds every file from which a stylesheet imports a rule is a file below
src/public which is there, and no source refers to itself, directly or through others, be it by imports of rules or, as in `C111_site_partial`, by imports of
scripts, links, templates and URLs.  Nothing is asked of the stylesheets which import. -/
theorem C111_imports_partial {c : Config} (hc : isAbs c.js.cwd = true) (hsp : Js.SpaceOk c.js.space) (hpg : PagesOk c) (hcs : Icons.Spaces c.sheet.icon.space)
    (hk : Source c.constants) {m : Mode} {W : Contents Bytes} {gs : Graphs} {dm : Option Mode} (hist : Worked (project c.constants) (tool c) m W gs dm) :
    (∀ f g, Source f → ImportsFrom c W f g → (∃ x, Public g x) ∧ (Source g → W g ≠ none)) ∧
    ∀ f, ¬ Path (fun x y => Source x ∧ W x ≠ none ∧ Source y ∧ Needs c W x y) f f := by
  refine ⟨fun f g hf hi => ?_, fun f hp => ?_⟩
  · obtain ⟨x, h1, h2⟩ := finished_imports hc hk hist hf hi
    exact ⟨⟨x, h1⟩, fun hg => (h2 hg).1⟩
  · have hself : ∀ f d, (project c.constants).src f → Arranged c W f → Lists c W f d → (project c.constants).source d = f → (tool c).read f d ≠ f :=
      fun _ _ _ h1 h2 h3 => arranged_never_itself hc hpg h1 h2 h3
    have step : ∀ {x y}, Source x ∧ W x ≠ none ∧ Source y ∧ Needs c W x y → Edge gs.dep x y := by
      rintro x y ⟨hx, hn, hy, h | ⟨hA, h⟩⟩
      · obtain ⟨-, -, h2⟩ := finished_imports hc hk hist hx h
        exact (h2 hy).2
      · obtain ⟨d, hd, rfl⟩ := (refers_mentions hpg hA hy).2 h
        exact (finished_refers (lawful c.constants) (tool_lawful hc) hk (arranged_direct hc hsp hpg hcs) hist hself hx hn hA hd hy).2
    have : ∀ {x y}, Path (fun x y => Source x ∧ W x ≠ none ∧ Source y ∧ Needs c W x y) x y → DependsOn gs.dep x y := by
      intro x y h
      induction h with
      | one h => exact .one (step h)
      | more h _ ih => exact .more (step h) ih
    obtain ⟨-, -, hac, -⟩ := (hist.history (lawful c.constants) (tool_lawful hc) hk).upToDate (lawful c.constants) ((tool_lawful hc).pure (lawful c.constants))
    exact hac f (this hp)

/-- Which files are imported from depends on the sources only. -/
theorem ImportsFrom.move {c : Config} {W V : Contents Bytes} {f g : String} (h : ImportsFrom c W f g) (hv : V f = W f) : ImportsFrom c V f g := by
  obtain ⟨h1, h2, y, ts, r, h3, h4⟩ := h
  exact ⟨h1, h2, y, ts, r, hv.trans h3, h4⟩

/-- **C111**, as seen before the build: if after some edits a stylesheet imports a rule from a source which is not there, the next rebuild does not finish. -/
theorem C111_imports_broken_partial {c : Config} (hc : isAbs c.js.cwd = true) (hk : Source c.constants) {m0 : Mode} {W W0 W' : Contents Bytes} {env : Env} {a : Args} {d : Disk}
    (hist : Worked (project c.constants) (tool c) m0 W a.old d.mode) (ho : ValidOrder env) (hs : Scanned (tool c) env) (hco : a.constants = c.constants)
    (E : Edits (project c.constants) a d W W0) (X : Work (tool c) a (hotRebuild env a d) W0 W')
    {f g : String} (hf : Source f) (hi : ImportsFrom c W0 f g) (hg : Source g) (hb : W0 g = none) : (hotRebuild env a d).status ≠ .finished := by
  intro hfin
  have hall := X.sources (lawful c.constants) (tool_lawful hc) hk hist ho hs hco E hfin
  obtain ⟨x, -, h⟩ := finished_imports hc hk (.rebuild hist ho hs hco E X hfin) hf (hi.move (hall f hf))
  exact (h hg).1 ((hall g hg).trans hb)

/-- **C111**, as seen before the build: if after some edits sources refer to each other in a circle, be it by imports of rules or in the other ways, the next
rebuild does not finish. -/
theorem C111_imports_circular_partial {c : Config} (hc : isAbs c.js.cwd = true) (hsp : Js.SpaceOk c.js.space) (hpg : PagesOk c)
    (hcs : Icons.Spaces c.sheet.icon.space) (hk : Source c.constants) {m0 : Mode} {W W0 W' : Contents Bytes} {env : Env} {a : Args} {d : Disk}
    (hist : Worked (project c.constants) (tool c) m0 W a.old d.mode) (ho : ValidOrder env) (hs : Scanned (tool c) env) (hco : a.constants = c.constants)
    (E : Edits (project c.constants) a d W W0) (X : Work (tool c) a (hotRebuild env a d) W0 W')
    {f : String} (hp : Path (fun x y => Source x ∧ W0 x ≠ none ∧ Source y ∧ Needs c W0 x y) f f) : (hotRebuild env a d).status ≠ .finished := by
  intro hfin
  have hall := X.sources (lawful c.constants) (tool_lawful hc) hk hist ho hs hco E hfin
  have step : ∀ {x y}, Source x ∧ W0 x ≠ none ∧ Source y ∧ Needs c W0 x y → Source x ∧ W' x ≠ none ∧ Source y ∧ Needs c W' x y := by
    rintro x y ⟨hx, hn, hy, h⟩
    refine ⟨hx, by rw [hall x hx]; exact hn, hy, ?_⟩
    rcases h with h | ⟨h1, h2⟩
    · exact .inl (h.move (hall x hx))
    · obtain ⟨h3, h4⟩ := h1.move hpg hx hall
      exact .inr ⟨h3, (h4 y).2 h2⟩
  refine (C111_imports_partial hc hsp hpg hcs hk (.rebuild hist ho hs hco E X hfin)).2 f ?_
  have : ∀ {x y}, Path (fun x y => Source x ∧ W0 x ≠ none ∧ Source y ∧ Needs c W0 x y) x y →
      Path (fun x y => Source x ∧ W' x ≠ none ∧ Source y ∧ Needs c W' x y) x y := by
    intro x y h
    induction h with
    | one h => exact .one (step h)
    | more h _ ih => exact .more (step h) ih
  exact this hp

end Verif.Hot.Scripts
