import Verif.HotBuildsSheets
import Verif.PageEndsFinds
import Verif.RunnersThm
/-!
# C120: a new project builds

The project which `init` writes has one source, the page src/public/index.html, which refers to nothing.  The first build of it finishes, and what is
published is the page.
-/
namespace Verif.Hot.Scripts
open Verif Verif.Hot Verif.Graph
open Verif.Reader (Text txt)
open Verif.Paths (isAbs)
open Verif.Handlers (Bytes Fs)
open Verif.Html (HTok)
open Verif.Assoc (item)

/-! ## Specification -/

/-- The token is nothing the tool does something with: no comment, script, stylesheet, link or canonical URL. -/
inductive Inert : HTok → Prop
  | doctype (n : Text) : Inert (.doctype n)
  | spaces (x : Text) : Inert (.spaces x)
  | text (x : Text) : Inert (.characters x)
  | close (n : Text) : Inert (.endTag n)
  | start {n : Text} (d : Html.Attrs) : n ≠ txt "script" → n ≠ txt "style" → Inert (.startTag n d)
  | empty {n : Text} (d : Html.Attrs) : n ≠ txt "link" → n ≠ txt "meta" → Inert (.emptyTag n d)
  | info {d : Html.Attrs} : item d (none, txt "property") ≠ some (txt "og:url") → Inert (.emptyTag (txt "meta") d)

/-- init.py:170-179: the page which `init` writes. -/
def firstPage : Text :=
  txt "<!DOCTYPE html>\n" ++ txt "<html lang=\"en\">\n" ++ txt "<head>\n" ++ txt "  <meta charset=\"utf-8\">\n" ++ txt "  <title>VanillaPlusJS</title>\n" ++
  txt "</head>\n" ++ txt "<body>\n" ++ txt "  <h1>VanillaPlusJS</h1>\n" ++ txt "</body>\n" ++ txt "</html>\n"

/-- What a parser of HTML makes of it; html5lib moves what is behind the body to its end. -/
def firstTokens : List HTok := [.doctype (txt "html"), .startTag (txt "html") [((none, txt "lang"), txt "en")], .startTag (txt "head") [], .spaces (txt "\n  "),
  .emptyTag (txt "meta") [((none, txt "charset"), txt "utf-8")], .spaces (txt "\n  "), .startTag (txt "title") [], .characters (txt "VanillaPlusJS"),
  .endTag (txt "title"), .spaces (txt "\n"), .endTag (txt "head"), .spaces (txt "\n"), .startTag (txt "body") [], .spaces (txt "\n  "), .startTag (txt "h1") [],
  .characters (txt "VanillaPlusJS"), .endTag (txt "h1"), .spaces (txt "\n\n\n"), .endTag (txt "body"), .endTag (txt "html")]

/-- How a token is written in HTML, for texts and values without special characters. -/
def spell : HTok → Text
  | .doctype n => txt "<!DOCTYPE " ++ n ++ txt ">"
  | .startTag n d => txt "<" ++ n ++ d.flatMap (fun p => txt " " ++ p.1.2 ++ txt "=\"" ++ p.2 ++ txt "\"") ++ txt ">"
  | .emptyTag n d => txt "<" ++ n ++ d.flatMap (fun p => txt " " ++ p.1.2 ++ txt "=\"" ++ p.2 ++ txt "\"") ++ txt ">"
  | .endTag n => txt "</" ++ n ++ txt ">"
  | .characters x => x
  | .spaces x => x
  | .comment x => txt "<!--" ++ x ++ txt "-->"

/-- The tokens in the order in which they are written. -/
def spelled : List HTok := [.doctype (txt "html"), .spaces (txt "\n"), .startTag (txt "html") [((none, txt "lang"), txt "en")], .spaces (txt "\n"),
  .startTag (txt "head") [], .spaces (txt "\n  "), .emptyTag (txt "meta") [((none, txt "charset"), txt "utf-8")], .spaces (txt "\n  "), .startTag (txt "title") [],
  .characters (txt "VanillaPlusJS"), .endTag (txt "title"), .spaces (txt "\n"), .endTag (txt "head"), .spaces (txt "\n"), .startTag (txt "body") [],
  .spaces (txt "\n  "), .startTag (txt "h1") [], .characters (txt "VanillaPlusJS"), .endTag (txt "h1"), .spaces (txt "\n"), .endTag (txt "body"),
  .spaces (txt "\n"), .endTag (txt "html"), .spaces (txt "\n")]

/-- The sources are those which `init` leaves: one page. -/
def NewProject (W : Contents Bytes) : Prop := W "src/public/index.html" = some firstPage ∧ ∀ f, Source f → f ≠ "src/public/index.html" → W f = none

/-! ## Proofs -/

theorem first_inert : ∀ t ∈ firstTokens, Inert t := by
  simp only [firstTokens, List.forall_mem_cons]
  exact ⟨.doctype _, .start _ (by decide) (by decide), .start _ (by decide) (by decide), .spaces _, .info (by decide), .spaces _, .start _ (by decide) (by decide),
    .text _, .close _, .spaces _, .close _, .spaces _, .start _ (by decide) (by decide), .spaces _, .start _ (by decide) (by decide), .text _, .close _, .spaces _,
    .close _, .close _, by simp⟩

/-- The tokens are those which the page has, up to the whitespace which parsers drop or move. -/
theorem C120_tokens : spelled.flatMap spell = firstPage ∧ (∀ t ∈ spelled, Inert t) ∧
    spelled.filter (fun t => match t with | .spaces _ => false | _ => true) = firstTokens.filter (fun t => match t with | .spaces _ => false | _ => true) := by
  refine ⟨by decide +kernel, ?_, by decide +kernel⟩
  simp only [spelled, List.forall_mem_cons]
  exact ⟨.doctype _, .spaces _, .start _ (by decide) (by decide), .spaces _, .start _ (by decide) (by decide), .spaces _, .info (by decide), .spaces _,
    .start _ (by decide) (by decide), .text _, .close _, .spaces _, .close _, .spaces _, .start _ (by decide) (by decide), .spaces _, .start _ (by decide) (by decide),
    .text _, .close _, .spaces _, .close _, .spaces _, .close _, .spaces _, by simp⟩

theorem Inert.calm {t : HTok} (h : Inert t) {E J : Type} (env : Html.Page.Env E J) : Html.Page.Calm env t ∧ Html.Ordinary env.tpl t := by
  refine ⟨⟨Html.Page.canonTag_none.2 fun a d hc => ?_, Html.asDependency_none.2 fun a p hl => ?_, by cases h <;> rfl, ?_⟩, by cases h <;> exact ⟨rfl, rfl⟩⟩
  · exfalso
    cases hc with
    | link hr => cases h with
      | empty _ h1 _ => exact h1 rfl
    | og hr => cases h with
      | empty _ _ h2 => exact h2 rfl
      | info h1 => exact h1 hr
  · cases hl with
    | sheet => cases h with
      | empty _ h1 _ => exact h1 rfl
    | preload => cases h with
      | empty _ h1 _ => exact h1 rfl
    | script => cases h with
      | start _ h1 _ => exact h1 rfl
  · cases h with
    | start _ h1 h2 => simp [Html.Page.outlined, h1, h2]
    | _ => rfl

theorem Inert.keeps {c : Config} (hc : PagesOk c) (rel : Text) (fs : Fs) {t : HTok} (h : Inert t) : Html.Page.Keeps (pageEnv c false rel fs) t :=
  Html.Page.Keeps.other (env := (pageEnv c false rel fs).templates fun _ => none) (F := (pageEnv c false rel fs).tpl.files)
    (Html.Page.keeps_of_calm (fit_none hc rel fs) (h.calm _).1 (h.calm _).2)

theorem inert_finds {c : Config} (hc : PagesOk c) (rel : Text) (fs : Fs) {ts : List HTok} (h : ∀ t ∈ ts, Inert t) (f : Html.Frame) :
    Html.Page.Finds (pageEnv c false rel fs) f ts [] [] f := by
  induction ts with
  | nil => exact .nil
  | cons t ts ih => exact .keep ((h t (by simp)).keeps hc rel fs) (ih fun t ht => h t (by simp [ht]))

theorem inert_sane {ts : List HTok} (h : ∀ t ∈ ts, Inert t) : Html.Page.Sane ts := by
  intro t ht
  have hi := h t ht
  refine ⟨?_, fun d e => ?_⟩
  · rintro (⟨a, p, hl⟩ | ⟨a, d, hc⟩ | ⟨k, d, hk⟩)
    · cases hl with
      | sheet => cases hi with
        | empty _ h1 _ => exact absurd rfl h1
      | preload => cases hi with
        | empty _ h1 _ => exact absurd rfl h1
      | script => cases hi with
        | start _ h1 _ => exact absurd rfl h1
    · cases hc with
      | link hr => cases hi with
        | empty _ h1 _ => exact absurd rfl h1
      | og hr => cases hi with
        | empty _ _ h2 => exact absurd rfl h2
        | info h1 => exact absurd hr h1
    · cases hk with
      | script => cases hi with
        | start _ h1 _ => exact absurd rfl h1
      | style => cases hi with
        | start _ _ h2 => exact absurd rfl h2
  · subst e
    cases hi with
    | start _ h1 _ => exact absurd rfl h1

theorem inert_reaches {c : Config} (hc : PagesOk c) {fs : Fs} {f : String} {y : Bytes} {ts : List HTok} (hy : fs (txt f) = some y) (hp : c.page.parse y = some ts)
    (h : ∀ t ∈ ts, Inert t) : Reaches c fs f [] [] := ⟨y, ts, _, hy, hp, inert_finds hc _ _ h _⟩

/-- The tokens pass through the builder as they are, each in one step. -/
theorem inert_ops {E J : Type} (env : Html.Page.Env E J) {n : Nat} (hn : 0 < n) {ts : List HTok} (h : ∀ t ∈ ts, Inert t) :
    ∀ (b : Build.State Html.Page.St HTok (Html.Page.PErr E)) (acc : List HTok) (ops : List (Build.Op HTok)), b.mark = none →
      Build.runOps (Html.Page.manips env) n b acc (ts.map .token ++ ops) = Build.runOps (Html.Page.manips env) n { b with output := b.output ++ ts } acc ops := by
  obtain ⟨n, rfl⟩ := Nat.exists_eq_add_one.2 hn
  induction ts with
  | nil => simp
  | cons t ts ih =>
    intro b acc ops hm
    have hc := (h t (by simp)).calm env
    simp only [List.map_cons, List.cons_append, Build.runOps, Build.handleToken, Build.loop, Html.Page.round_keep hm hc.1 hc.2]
    have := ih (fun t ht => h t (by simp [ht])) { b with output := b.output ++ [t] } acc ops hm
    simp only [List.append_assoc, List.cons_append, List.nil_append] at this
    exact this

theorem inert_enough {c : Config} (hfuel : 0 < c.fuel) {fs : Fs} {f : String} {y : Bytes} {ts : List HTok} (hy : fs (txt f) = some y)
    (hp : c.page.parse y = some ts) (h : ∀ t ∈ ts, Inert t) : EnoughPage c fs f [] := by
  intro fs' h1 _
  have hy' := h1.trans hy
  constructor
  · unfold Html.Page.scanFile
    split
    · simp
    · rw [show fs' (pageEnv c true (txt f) fs').rel = some y from hy']
      simp only [show (pageEnv c true (txt f) fs').parse y = some ts from hp]
      have := inert_ops (pageEnv c true (txt f) fs') hfuel h (Build.State.new (Html.Page.St.new fs' (txt f))) [] [] rfl
      rw [List.append_nil] at this
      rw [show (pageEnv c true (txt f) fs').rel = txt f from rfl, this]
      simp [Build.runOps]
  · unfold Html.Page.buildFile
    split
    · simp
    · rw [show fs' (pageEnv c false (txt f) fs').rel = some y from hy']
      simp only [show (pageEnv c false (txt f) fs').parse y = some ts from hp]
      have := inert_ops (pageEnv c false (txt f) fs') hfuel h (Build.State.new (Html.Page.St.new fs' (txt f))) [] [.consume] rfl
      rw [show (pageEnv c false (txt f) fs').rel = txt f from rfl, Html.Page.allTokens, this]
      simp [Build.runOps]

theorem inert_page {c : Config} (hc : PagesOk c) (hfuel : 0 < c.fuel) {f : String} (hf : IsPage c f) {y : Bytes} {ts : List HTok} (hp : c.page.parse y = some ts)
    (h : ∀ t ∈ ts, Inert t) {fs : Fs} (hy : fs (txt f) = some y) : GoodPage c fs f [] [] := by
  refine ⟨hf, inert_reaches hc hy hp h, ⟨fun y' ts' h1 h2 => ?_, by simp⟩, by simp, by simp, inert_enough hfuel hy hp h⟩
  rw [hy] at h1
  cases h1
  rw [hp] at h2
  cases h2
  exact inert_sane h

theorem first_source (c : Config) (hk : c.constants ≠ "src/public/index.html") : IsPage c "src/public/index.html" := by
  have hp : Public "src/public/index.html" (txt "index.html") := by
    have e : Verif.Paths.split (txt "index.html") = [txt "index.html"] := by decide
    refine ⟨by decide, fun s hs => ?_⟩
    rw [e] at hs
    simp only [List.mem_singleton] at hs
    subst hs
    exact ⟨⟨by decide, by decide⟩, by decide, by decide⟩
  refine ⟨hk.symm, ⟨_, hp, by decide⟩, txt "index", by decide, by decide, 105, by decide, by decide⟩

/-- **C120.** The first build of a project which `init` has written finishes, unless it waits for a build. -/
theorem C120_builds {c : Config} (hc : isAbs c.js.cwd = true) (hsp : Js.SpaceOk c.js.space) (hpg : PagesOk c) (hcs : Icons.Spaces c.sheet.icon.space)
    (hk : Source c.constants) (hne : c.constants ≠ "src/public/index.html") (hn : 0 < c.fuel) {ts : List HTok} (hp : c.page.parse firstPage = some ts)
    (hts : ∀ t ∈ ts, Inert t) {W0 : Contents Bytes} {env : Env} {a : Args} {d : Disk} (ha : a.old = ⟨[], [], []⟩) (hd : d.mode = none) (ho : ValidOrder env)
    (hscan : ScansBy (tool c) env W0) (hfuel : 0 < env.scanFuel) (hco : a.constants = c.constants)
    (E : Edits (project c.constants) a d (fun _ => none) W0) (hh : Housed d) (hW : NewProject W0)
    (X : Attempt (tool c) env a (hotRebuild env a d) W0) (hw : (hotRebuild env a d).status ≠ .waiting) : (hotRebuild env a d).status = .finished := by
  have G := inert_page hpg hn (first_source c hne) hp hts (fs := fsOf W0) (by rw [fsOf_txt]; exact hW.1)
  have only : ∀ f, Source f → W0 f ≠ none → f = "src/public/index.html" := fun f hf hn => by
    by_cases e : f = "src/public/index.html"
    · exact e
    · exact absurd (hW.2 f hf e) hn
  have hist : Worked (project c.constants) (tool c) .dev (fun _ => none) a.old d.mode := by
    rw [ha, hd]
    exact .empty _ _ fun _ _ => rfl
  have none' : ∀ g, ¬ Mentions c W0 "src/public/index.html" g := by
    rintro g (h | ⟨y, -, h⟩)
    · have := (names_page hpg G g).1 h
      simp at this
    · exact ordered_no_url (.inr (.inr ⟨[], [], G⟩)) y g h
  refine C110_site_partial hc hsp hpg hcs hk hist ho hscan hfuel hco E hh X ?_ ?_ ?_ hw
  · intro f hf hn
    cases only f hf hn
    exact ⟨.inl (.inr (.inr ⟨[], [], G⟩)), fun g hg => absurd hg (none' g)⟩
  · intro f hf hn he
    exact absurd he hn
  · intro f hf hpath
    have one : ∀ {g}, ¬ Mentions c W0 f g := by
      intro g h
      have hn : W0 f ≠ none := by
        rcases h with (⟨y, hy, -⟩ | ⟨-, ls, is, ⟨y, ts, f', hy, -⟩, -⟩) | ⟨y, hy, -⟩
        · simp [hy]
        · rw [fsOf_txt] at hy
          simp [hy]
        · simp [hy]
      cases only f hf hn
      exact none' g h
    cases hpath with
    | one h => exact one h
    | more h _ => exact one h

/-- **C120.** If `init` does not fail and there was no page, the page it has written is there, below the folder of the project. -/
theorem C120_init (config folder : Text) {cwd : Text} (hc : isAbs cwd = true) {fs : Runners.Fs}
    (hn : fs (Runners.root cwd folder ++ [txt "src", txt "public", txt "index.html"]) = none)
    (h : (Runners.init config firstPage cwd folder fs).2.1 = none) :
    (Runners.init config firstPage cwd folder fs).2.2 (Runners.root cwd folder ++ [txt "src", txt "public", txt "index.html"]) = some (.file firstPage) := by
  have h3 := (Runners.C54_done config firstPage folder hc fs h).2.2
  have e : Runners.indexAt cwd folder = Runners.root cwd folder ++ [txt "src", txt "public", txt "index.html"] := rfl
  rw [e, hn] at h3
  exact h3

/-- The page is built as it is. -/
theorem inert_build {c : Config} (hn : 0 < n) {f : String} {x : Text} (hx : Public f x) {fs : Fs} {y : Bytes} {ts : List HTok} (hy : fs (txt f) = some y)
    (hp : c.page.parse y = some ts) (h : ∀ t ∈ ts, Inert t) (hb : fs (hashOf x) = none) :
    Html.Page.buildFile n (pageEnv c false (txt f) fs) fs = some (.ok (Html.Page.report x [] [], Html.Page.leave (pageEnv c false (txt f) fs) x fs ts)) ∧
      Html.Page.plainPage n (pageEnv c false (txt f) fs) fs = true := by
  have h1 := inert_ops (pageEnv c false (txt f) fs) hn h (Build.State.new (Html.Page.St.new fs (txt f))) [] [.consume] rfl
  simp only [Build.runOps] at h1
  exact Html.Page.build_of_run (name := x) hx.1 hb hy hp h1 ⟨rfl, rfl⟩ rfl rfl rfl rfl

/-- **C120.** After any finished rebuilds of any project, a page on which the tool does nothing is published as it is, with its hash. -/
theorem C120_published {c : Config} (hc : isAbs c.js.cwd = true) (hk : Source c.constants) {m : Mode} {W : Contents Bytes} {gs : Graphs} {dm : Option Mode}
    (hist : Worked (project c.constants) (tool c) m W gs dm) {f : String} {x : Text} (hf : IsPage c f) (hx : Public f x) {y : Bytes} {ts : List HTok}
    (hy : W f = some y) (hp : c.page.parse y = some ts) (h : ∀ t ∈ ts, Inert t) :
    W (str (copyOf x)) = some (c.page.write ts) ∧ W (str (hashOf x)) = some (c.js.digest (c.page.write ts)) := by
  have hL := lawful c.constants
  have hT := tool_lawful hc
  have hs : Source f := .inl hf.2.1
  obtain ⟨U, -⟩ := (hist.history hL hT hk).upToDate hL (hT.pure hL)
  obtain ⟨q, h1, h2, -⟩ := U.built f ((U.files f).2 ⟨hs, by simp [hy]⟩)
  obtain ⟨-, r, W', h3, rfl⟩ := Tool.builder_some h1
  obtain ⟨-, -, -, -, -, -, hcss, hhtml, hne⟩ := hf.facts
  have hy' : fsOf (hide (project c.constants) f W) (txt f) = some y := by
    rw [fsOf_txt, hide_other (hL.owner_src hs f)]
    exact hy
  obtain ⟨b1, b2⟩ := bare_fs hs hx (hide_bare (project c.constants) f W)
  have hn := (inert_build (n := 1) (by decide) hx hy' hp h b2).1
  have hd : ∃ b fs', dispatch c m (txt f) (fsOf (hide (project c.constants) f W)) = some (b, fs') ∧ r.produced = b.produced.map str ∧ W' = fun s => fs' (txt s) := by
    simp only [tool] at h3
    split at h3
    · cases h3
    · next b fs' hd =>
      split at h3
      · cases h3
        exact ⟨b, fs', hd, rfl, rfl⟩
      · cases h3
  obtain ⟨b, fs', hd, hr, rfl⟩ := hd
  unfold dispatch at hd
  rw [if_neg hne, if_neg hcss, if_pos hhtml] at hd
  unfold pageBuild at hd
  split at hd
  · obtain ⟨⟨b', fs''⟩, e1, e2⟩ := Option.bind_eq_some_iff.1 hd
    split at e2
    · cases e2
      obtain ⟨z, e3, e4⟩ := Option.bind_eq_some_iff.1 e1
      have ht : Handlers.copyTarget (pageEnv c false (txt f) (fsOf (hide (project c.constants) f W))).rel = some (copyOf x) := by
        show Handlers.copyTarget (txt f) = _
        rw [hx.1, Js.File.copyTarget_name]
        rfl
      have e5 := (Html.Page.build_fuel hn (by rw [e3]; simp) ht).1
      rw [e3] at e5
      cases e5
      cases e4
      have hpr : copyOf x ∈ (Html.Page.report x [] []).produced ∧ hashOf x ∈ (Html.Page.report x [] []).produced := by
        constructor <;> simp [Html.Page.report, Css.Page.merge, copyOf, hashOf, Icons.mem_addAll]
      have key : ∀ o v, o ∈ (Html.Page.report x [] []).produced →
          Html.Page.leave (pageEnv c false (txt f) (fsOf (hide (project c.constants) f W))) x (fsOf (hide (project c.constants) f W)) ts o = some v →
          txt (str o) = o → W (str o) = some v := by
        intro o v h5 h6 h7
        exact h2 _ _ (Tool.mem_outputs.2 ⟨by rw [hr]; exact List.mem_map_of_mem h5, by rw [h7]; exact h6⟩)
      refine ⟨key _ _ hpr.1 ?_ (txt_copy hx), key _ _ hpr.2 (if_pos rfl) (txt_hash hx)⟩
      exact (if_neg (hash_ne_copy x).symm).trans (if_pos rfl)
    · cases e2
  · cases hd
