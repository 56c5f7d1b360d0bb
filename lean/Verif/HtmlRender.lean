import Verif.HtmlGen

/-!
# C66: what a page becomes

`Render` says what becomes of a page, token by token, with neither a builder nor a stack: links and canonical URLs are
rewritten, image commands become pictures, inline scripts and stylesheets become files of their own, and templates are
expanded in a scope of their own, with all this happening in them as well.
-/

namespace Verif.Html.Page

open Verif.Reader (Text txt)
open Verif.Build
open Verif.Assoc (item put ofList keys)
open Verif.Paths (join)
open Verif.Handlers (Bytes Fs Scan Built copyScan hashScan copyTarget hashBuild)
open Verif.Img (GoodSpace digits)

variable {E J : Type}

/-! ## Specification -/

/-- What the page has done so far: the files, the files it links to, what was reported for its images, its numbers of inline
scripts and stylesheets, what was reported for them, and the templates it includes. -/
structure World where
  fs : Fs
  links : List Text
  images : Built
  scripts : Nat
  styles : Nat
  made : Built
  incs : List Text

def World.count (w : World) : Kind → Nat
  | .script => w.scripts
  | .style => w.styles

/-- One more element. -/
def World.bump (w : World) : Kind → World
  | .script => { w with scripts := w.scripts + 1 }
  | .style => { w with styles := w.styles + 1 }

/-- The text of an element. -/
inductive Texts : List HTok → Text → Prop
  | nil : Texts [] []
  | chars {d x : Text} {ts : List HTok} : Texts ts x → Texts (.characters d :: ts) (d ++ x)
  | spaces {d x : Text} {ts : List HTok} : Texts ts x → Texts (.spaces d :: ts) (d ++ x)

/-- The tags which take the place of an inline element.  A script keeps its other attributes; a stylesheet has none. -/
inductive Tags : Kind → Attrs → Text → List HTok → Prop
  | script {attrs d : Attrs} {url : Text} : (keys d).Nodup → item d (none, txt "src") = some url →
      (∀ k, k ≠ (none, txt "src") → item d k = item attrs k) → Tags .script attrs url [.startTag (txt "script") d, .endTag (txt "script")]
  | style {d : Attrs} {url : Text} : (keys d).Nodup → item d (none, txt "href") = some url →
      item d (none, txt "rel") = some (txt "stylesheet") →
      (∀ k, k ≠ (none, txt "href") → k ≠ (none, txt "rel") → item d k = none) → Tags .style [] url [.emptyTag (txt "link") d]

/-- The files and their widths, as in an attribute `srcset`. -/
inductive SrcSet : List Pic → Text → Prop
  | nil : SrcSet [] []
  | one {p : Pic} : SrcSet [p] (txt "/" ++ p.relpath ++ txt " " ++ showInt p.width ++ txt "w")
  | more {p q : Pic} {ps : List Pic} {x : Text} : SrcSet (q :: ps) x →
      SrcSet (p :: q :: ps) (txt "/" ++ p.relpath ++ txt " " ++ showInt p.width ++ txt "w, " ++ x)

/-- A `source` with the files of a format. -/
inductive Source : Text × List Pic → HTok → Prop
  | mk {o : Text × List Pic} {x : Text} : SrcSet o.2 x → Source o (.emptyTag (txt "source") [((none, txt "srcset"), x)])

/-- The picture for a command: a source for each of the other formats, then the image, which is the first file in the
default format which has exactly the size of the command. -/
inductive Picture (format : Text) (c : Img.Command J) (outputs : List (Text × List Pic)) : List HTok → Prop
  | mk {ps before after : List Pic} {p : Pic} {sources : List HTok} {x : Text} : item outputs format = some ps → ps = before ++ p :: after →
      p.width = c.width → p.height = c.height → (∀ q ∈ before, ¬ (q.width = c.width ∧ q.height = c.height)) →
      List.Forall₂ Source (outputs.filter fun o => o.1 ≠ format) sources → SrcSet ps x →
      Picture format c outputs ([.startTag (txt "picture") []] ++ sources ++
        [.emptyTag (txt "img") ([((none, txt "width"), showInt c.width), ((none, txt "height"), showInt c.height),
            ((none, txt "src"), txt "/" ++ p.relpath), ((none, txt "srcset"), x)] ++
            if c.lazy then [((none, txt "loading"), txt "lazy")] else []),
          .endTag (txt "picture")])

/-- The parameters which are added to a URL. -/
def query (env : Env E J) (hash : Text) : Text := txt "?v=" ++ quotePlus env.enc hash ++ txt "&pv=1.3.2"

/-- Nothing is done with the token. -/
structure Keeps (env : Env E J) (t : HTok) : Prop where
  links : ∀ a p, ¬ Links t a p
  canon : ∀ a d, Canon t a d → ∃ u, item d (none, a) = some (txt "http" ++ u)
  images : ∀ c, ¬ ImageOf env t c
  /-- a command for an image which cannot be read makes the build fail -/
  readable : ∀ data args, t = .comment data → ImageForm env.py.space data args → ∃ c, Img.Accepted env.py args c
  inline : ∀ k d, ¬ Inline t k d
  ordinary : Ordinary env.tpl t

/-- `Render env host stem w f ts out w' f'`: in the scope `f`, the document `ts` becomes `out`, and leaves the scope `f'`. -/
inductive Render (env : Env E J) (host stem : Text) : World → Frame → List HTok → List HTok → World → Frame → Prop
  | nil {w f} : Render env host stem w f [] [] w f
  | keep {w f t ts out w' f'} (h : Keeps env t) (hr : Render env host stem w f ts out w' f') :
      Render env host stem w f (t :: ts) (t :: out) w' f'
  | canon {w f t t' a d url ts out w' f'} (h : Canon t a d)
      (hu : (item d (none, a) = none ∧ url = txt "/" ++ env.rel.drop 11) ∨ (item d (none, a) = some url ∧ ¬ txt "http" <+: url))
      (ht : WithAttr t t' a (txt "https://" ++ host ++ url)) (hr : Render env host stem w f ts out w' f') :
      Render env host stem w f (t :: ts) (t' :: out) w' f'
  | link {w f t t' a p hash ts out w' f'} (h : Links t a p) (hh : w.fs (join (txt "out/www") p ++ txt ".hash") = some hash)
      (ht : WithAttr t t' a (txt "/" ++ p ++ query env (env.strip (env.decode hash))))
      (hr : Render env host stem { w with links := w.links ++ [join (txt "src/public") p] } f ts out w' f') :
      Render env host stem w f (t :: ts) (t' :: out) w' f'
  | image {w f t c outputs r fs pic ts out w' f'} (h : ImageOf env t c) (he : env.exportImage w.fs c = .ok (outputs, r, fs))
      (hp : Picture env.defaultFormat c outputs pic)
      (hr : Render env host stem { w with fs := fs, images := addBuilt w.images r } f ts out w' f') :
      Render env host stem w f (t :: ts) (pic ++ out) w' f'
  | inline {w f t k attrs body text n file r fs hash tags ts out w' f'} (h : Inline t k attrs) (hb : Texts body text)
      (hk : w.count k = 0 ∨ env.kept k = true) (hf : file = txt "src/public/" ++ generated stem k (w.count k + 1))
      (hh : (env.handler k).build (w.fs.write file (env.encode text)) file = .ok (r, fs))
      (hx : fs file ≠ none) (hs : fs (txt "out/www/" ++ generated stem k (w.count k + 1) ++ txt ".hash") = some hash)
      (ht : Tags k attrs (txt "/" ++ generated stem k (w.count k + 1) ++ query env (env.decode hash)) tags)
      (hr : Render env host stem { w.bump k with fs := remove fs file, made := addBuilt w.made r } f ts out w' f') :
      Render env host stem w f (t :: (body ++ .endTag n :: ts)) (tags ++ out) w' f'
  | define {w f t k v ts out w' f'} (h : IsDefine env.tpl t k v)
      (hr : Render env host stem w { f with vars := put f.vars k v } ts out w' f') : Render env host stem w f (t :: ts) out w' f'
  | retrieve {w f t k v text ts out w' f'} (h : IsRetrieve env.tpl t k) (hk : k ≠ []) (hv : item f.vars k = some v) (hs : Shown v text)
      (hr : Render env host stem w f ts out w' f') : Render env host stem w f (t :: ts) (.characters text :: out) w' f'
  | unknown {w f t ts out w' f'} (h : Unknown env.tpl t) (hr : Render env host stem w f ts out w' f') :
      Render env host stem w f (t :: ts) out w' f'
  | block {w f t t' p body out1 w1 f1 ts out w' f'} (h : IsPush env.tpl t p) (h' : IsPop env.tpl t')
      (hb : Render env host stem w ⟨p, []⟩ body out1 w1 f1) (hr : Render env host stem w1 f ts out w' f') :
      Render env host stem w f (t :: (body ++ t' :: ts)) (out1 ++ out) w' f'
  | template {w f t rel vars body out1 w1 f1 ts out w' f'} (h : Includes env.tpl f t rel vars)
      (hf : env.tpl.files (join env.tpl.folder rel) = some body)
      (hb : Render env host stem { w with incs := w.incs ++ [rel] } ⟨rel, ofList vars⟩ body out1 w1 f1)
      (hr : Render env host stem w1 f ts out w' f') : Render env host stem w f (t :: ts) (out1 ++ out) w' f'

/-- Something is done with the tag. -/
def Touched (t : HTok) : Prop := (∃ a p, Links t a p) ∨ (∃ a d, Canon t a d) ∨ ∃ k d, Inline t k d

/-- In the tags something is done with, no attribute is twice and there are no namespaces; and there is no script with `href`. -/
def Sane (ts : List HTok) : Prop := ∀ t ∈ ts, (Touched t → Plain (attrsOf t)) ∧ NoHref t

/-- The document ends inside an inline element. -/
def Cut (ts : List HTok) : Prop := ∃ pre t k d body text, ts = pre ++ t :: body ∧ Inline t k d ∧ Texts body text

/-- What is known about the environment: JSON and whitespace are Python's, and all templates are balanced and sane. -/
structure Fit (env : Env E J) : Prop where
  build : env.scan = false
  space : GoodSpace env.py.space
  same : env.tpl.space = env.py.space
  json : Faithful env.tpl
  balanced : FilesBal env.tpl
  sane : ∀ path body, env.tpl.files path = some body → Sane body

/-! ## Single rounds -/

theorem cut_cons {t : HTok} {ts : List HTok} (h : Cut ts) : Cut (t :: ts) := by
  obtain ⟨pre, x, k, d, body, text, rfl, h1, h2⟩ := h
  exact ⟨t :: pre, x, k, d, body, text, rfl, h1, h2⟩

theorem cut_append {a ts : List HTok} (h : Cut ts) : Cut (a ++ ts) := by
  obtain ⟨pre, x, k, d, body, text, rfl, h1, h2⟩ := h
  exact ⟨a ++ pre, x, k, d, body, text, by simp, h1, h2⟩

section pass
variable {env : Env E J} {s : St} {t : HTok}

theorem canon_pass (h : canonTag t = none) : (canon env).start s t = .ok (false, s) := by
  simp [canon, canonStart, h]

theorem links_pass (h : asDependency t = none) : (links env).start s t = .ok (false, s) := by
  simp [links, linkStart, h]

theorem images_pass (h : command env t = .ok none) : (images env).start s t = .ok (false, s) := by
  simp [images, imageStart, h]

theorem outline_pass (h : outlined t = none) : (outline env).start s t = .ok (false, s) := by
  simp [outline, outlineStart, h]

theorem templates_pass (h : Ordinary env.tpl t) : (templates env).start s t = .ok (false, s) := by
  simp [templates, tplStart, h.1, h.2]

variable {b : State St HTok (PErr E)} {stack : List HTok}

theorem round_keep (hm : b.mark = none) (hc : Calm env t) (ho : Ordinary env.tpl t) :
    Build.round (manips env) b t stack = .ok (stack, { b with output := b.output ++ [t] }) := by
  simp [Build.round, hm, manips, findMark, canon_pass hc.canon, links_pass hc.link, images_pass hc.image, outline_pass hc.inline,
    templates_pass ho]

theorem round_tpl (hm : b.mark = none) (hc : Calm env t) {l : List Json} (h : Stack env.tpl t l ∨ Template env.tpl t l) :
    Build.round (manips env) b t stack = continueMark (templates env) b b.st t stack := by
  have h1 : (templates env).start b.st t = .ok (true, b.st) := by
    rcases h with h | h
    · have h' : stackArgs env.tpl t = some l := h
      simp [templates, tplStart, h']
    · simp [templates, tplStart, h.2]
  simp [Build.round, hm, manips, findMark, canon_pass hc.canon, links_pass hc.link, images_pass hc.image, outline_pass hc.inline, h1]

/-- The state with the state of the templates replaced. -/
abbrev withTpl (b : State St HTok (PErr E)) (x : TplSt) : State St HTok (PErr E) := { b with mark := none, st := { b.st with tpl := x } }

theorem round_stack' (hm : b.mark = none) (hc : Calm env t) {l : List Json} (h : Stack env.tpl t l) :
    Build.round (manips env) b t stack = match stackCommand b.st.tpl l with
      | .error e => .error (.html e)
      | .ok (r, x) => .ok (r ++ stack, withTpl b x) := by
  have h' : stackArgs env.tpl t = some l := h
  rw [round_tpl hm hc (.inl h)]
  simp only [continueMark, templates, tplCont, h']
  cases hc : stackCommand b.st.tpl l <;> simp [Except.map]

theorem round_template' (hm : b.mark = none) (hc : Calm env t) {l : List Json} (h : Template env.tpl t l) :
    Build.round (manips env) b t stack = match templateCommand env.tpl b.st.tpl l with
      | .error e => .error (.html e)
      | .ok (r, x) => .ok (r ++ stack, withTpl b x) := by
  rw [round_tpl hm hc (.inr h)]
  simp only [continueMark, templates, tplCont, h.1, h.2]
  cases hc : templateCommand env.tpl b.st.tpl l <;> simp [Except.map]

end pass

/-- The third visible character tells the commands apart. -/
theorem not_image {space : Nat → Bool} (hg : GoodSpace space) {kw data args : Text} {dot : Bool} {c : Nat} {kw' : Text} (hk : kw = c :: kw')
    (hc : space c = false) (hne : c ≠ 73) (h : Reads space kw dot data args) : Img.imageArgs space data = none := by
  cases hi : Img.imageArgs space data with
  | none => rfl
  | some x =>
    exfalso
    obtain ⟨a, b, c2, d, z, he, ha, hb, -⟩ := (Img.C45_comment hg _ _).1 hi
    have eI : txt "IMAGE" = [73, 77, 65, 71, 69] := by decide
    have h91 : space 91 = false := hg.2.2 91 (by omega) (by omega)
    have h73 : space 73 = false := hg.2.2 73 (by omega) (by omega)
    cases h with
    | @mk w1 w2 w3 w4 w5 _ k1 k2 _ _ _ _ _ _ =>
      subst hk
      have d1 := dropWhile_all (p := space) (w := w1) (x := 91 :: (w2 ++ (c :: kw' ++ (w3 ++ 58 :: (w4 ++ (args ++ 93 :: w5)))))) k1
        (by intro y hy; cases hy; exact h91)
      have d2 := dropWhile_all (p := space) (w := w2) (x := c :: kw' ++ (w3 ++ 58 :: (w4 ++ (args ++ 93 :: w5)))) k2
        (by intro y hy; cases hy; exact hc)
      rw [eI] at he
      simp only [List.append_assoc] at he
      rw [he] at d1
      have d3 := dropWhile_all (p := space) (w := a) (x := [91] ++ (b ++ ([73, 77, 65, 71, 69] ++ (c2 ++ ([58] ++ (d ++ (x ++ ([93] ++ z)))))))) ha
        (by intro y hy; cases hy; exact h91)
      rw [d3] at d1
      simp only [List.singleton_append, List.cons.injEq, true_and] at d1
      have d4 := dropWhile_all (p := space) (w := b) (x := [73, 77, 65, 71, 69] ++ (c2 ++ (58 :: (d ++ (x ++ (93 :: z)))))) hb
        (by intro y hy; cases hy; exact h73)
      rw [d1, d2] at d4
      simp only [List.cons_append, List.cons.injEq] at d4
      exact hne d4.1

theorem stack_calm {env : Env E J} (hf : Fit env) {t : HTok} {l : List Json} (h : Stack env.tpl t l) : Calm env t := by
  obtain ⟨data, args, op, more, rfl, hr, -, -⟩ := (stack_reads hf.json).1 h
  rw [hf.same] at hr
  have e : txt "STACK" = 83 :: [84, 65, 67, 75] := by decide
  have := not_image hf.space e (hf.space.2.2 83 (by omega) (by omega)) (by omega) hr
  exact ⟨rfl, rfl, by simp [command, Img.getCommand, this], rfl⟩

theorem calm_text {env : Env E J} (x : Text) : Calm env (.characters x) ∧ Ordinary env.tpl (.characters x) :=
  ⟨⟨rfl, rfl, rfl, rfl⟩, rfl, rfl⟩

theorem keeps_of_calm {env : Env E J} (hf : Fit env) {t : HTok} (hc : Calm env t) (ho : Ordinary env.tpl t) : Keeps env t where
  links := asDependency_none.1 hc.link
  canon := canonTag_none.1 hc.canon
  images c h := by
    have h1 := hc.image
    rw [(command_some hf.space).2 h] at h1
    simp at h1
  readable data args ht hi := by
    have h1 := hc.image
    subst ht
    simp only [command, Img.getCommand, (Img.C45_comment hf.space _ _).2 hi] at h1
    cases hp : Img.parseCommand env.py args with
    | error e => rw [hp] at h1; simp at h1
    | ok c => exact ⟨c, (Img.C45_exact hf.space _ _).1.1 hp⟩
  inline := outlined_none.1 hc.inline
  ordinary := ho

theorem calm_of_keeps {env : Env E J} (hf : Fit env) {t : HTok} (h : Keeps env t) : Calm env t where
  canon := canonTag_none.2 h.canon
  link := asDependency_none.2 h.links
  image := by
    cases hc : command env t with
    | ok c =>
      cases c with
      | none => rfl
      | some c => exact absurd ((command_some hf.space).1 hc) (h.images c)
    | error e =>
      exfalso
      cases t with
      | comment data =>
        simp only [command, Img.getCommand] at hc
        cases hi : Img.imageArgs env.py.space data with
        | none => rw [hi] at hc; cases hc
        | some args =>
          obtain ⟨c, hac⟩ := h.readable data args rfl ((Img.C45_comment hf.space _ _).1 hi)
          rw [hi] at hc
          simp only [(Img.C45_exact hf.space _ _).1.2 hac] at hc
          cases hc
      | _ => cases hc
  inline := outlined_none.2 h.inline

section take
variable {env : Env E J} {t : HTok} {b : State St HTok (PErr E)} {stack : List HTok}

theorem round_canon (hf : Fit env) {host : Text} (hh : env.host = some host) (hm : b.mark = none) {a : Text} {d : Attrs}
    (h : Canon t a d) (hp : Plain d) (hu : ∀ u, item d (none, a) = some u → (txt "http").isPrefixOf u = false) :
    ∃ t', Build.round (manips env) b t stack = .ok (t' :: stack, b) ∧
      WithAttr t t' a (txt "https://" ++ host ++ (match item d (none, a) with
        | some u => u
        | none => txt "/" ++ env.rel.drop 11)) ∧ Calm env t' ∧ Ordinary env.tpl t' := by
  have hh' : env.canonEnv.host = some host := hh
  obtain ⟨t', h1, h2, h3⟩ := canon_step (env := env.canonEnv) hh' h hp hu b.st
  have hsc : env.canonEnv.scan = false := hf.build
  rw [hsc] at h1
  refine ⟨t', ?_, h3, ?_⟩
  · obtain ⟨o, m, st⟩ := b
    dsimp only at hm
    subst hm
    simp only [Build.round, manips, findMark, canon, h1, continueMark, h2, Bool.false_eq_true, if_false]
    simp
  · obtain ⟨d', h4, h5⟩ := canon_withAttr h h3
    have hcan : canonTag t' = none := canonTag_http h4 h5 (by
      have e1 : txt "https://" = txt "http" ++ [115, 58, 47, 47] := by decide
      rw [List.isPrefixOf_iff_prefix, e1, List.append_assoc, List.append_assoc]
      exact ⟨_, rfl⟩)
    have hdep : asDependency t' = none := asDependency_none.2 (fun b q => canon_not_links h4)
    cases h4 <;> exact ⟨⟨hcan, hdep, rfl, rfl⟩, rfl, rfl⟩

theorem linkFile (p : Text) : linkHashFile [] p = join (txt "out/www") p ++ txt ".hash" := by
  have e1 : join (txt "out") (txt "www") = txt "out/www" := by decide
  unfold linkHashFile
  rw [e1]
  generalize join (txt "out/www") p ++ txt ".hash" = q
  unfold join
  split <;> simp

theorem query_busted (env : Env E J) (fs : Fs) (p content : Text) :
    busted (env.linkEnv fs) p content = txt "/" ++ p ++ query env (env.strip content) := by
  rw [busted_spelled]
  simp [query, Env.linkEnv]

theorem round_link (hf : Fit env) (hm : b.mark = none) {a p : Text} (h : Links t a p) (hp : Plain (attrsOf t)) (hh : NoHref t)
    (hc : canonTag t = none) : (b.st.fs (join (txt "out/www") p ++ txt ".hash") = none ∧ ∃ e, Build.round (manips env) b t stack = .error e) ∨
    ∃ hash t', b.st.fs (join (txt "out/www") p ++ txt ".hash") = some hash ∧
      Build.round (manips env) b t stack =
        .ok (t' :: stack, { b with st := { b.st with links := b.st.links ++ [join (txt "src/public") p] } }) ∧
      WithAttr t t' a (txt "/" ++ p ++ query env (env.strip (env.decode hash))) ∧ Calm env t' ∧ Ordinary env.tpl t' := by
  obtain ⟨name, attrs, ht, ha, hg, hd⟩ := asDependency_links h
  have e1 : join (txt "src") (txt "public") = txt "src/public" := by decide
  have hsc : (env.linkEnv b.st.fs).scan = false := hf.build
  have hstart : (links env).start b.st t = .ok (true, { b.st with links := b.st.links ++ [join (txt "src/public") p] }) := by
    simp [links, linkStart, hd, hsc, e1]
  have hround : Build.round (manips env) b t stack = continueMark (links env) b { b.st with links := b.st.links ++ [join (txt "src/public") p] } t stack := by
    simp [Build.round, hm, manips, findMark, canon_pass hc, hstart]
  rw [hround]
  cases hr : b.st.fs (join (txt "out/www") p ++ txt ".hash") with
  | none =>
    left
    have hread : (env.linkEnv b.st.fs).read (linkHashFile (env.linkEnv b.st.fs).folder p) = none := by
      show (b.st.fs (linkHashFile [] p)).map env.decode = none
      rw [linkFile, hr]; rfl
    exact ⟨rfl, _, by simp only [continueMark, links, linkCont, hd, hread]; rfl⟩
  | some hash =>
    right
    have hread : (env.linkEnv b.st.fs).read (linkHashFile (env.linkEnv b.st.fs).folder p) = some (env.decode hash) := by
      show (b.st.fs (linkHashFile [] p)).map env.decode = _
      rw [linkFile, hr]; rfl
    obtain ⟨t', h1, h2⟩ := link_step (env := env.linkEnv b.st.fs) h hp hh hread (b.st.links ++ [join (txt "src/public") p])
    obtain ⟨h3, h4⟩ := links_withAttr h h2
    rw [query_busted] at h2
    refine ⟨hash, t', rfl, ?_, h2, ?_⟩
    · simp only [continueMark, links, h1]
      obtain ⟨o, m, st⟩ := b
      dsimp only at hm
      subst hm
      simp
    · have hcan : canonTag t' = none := canonTag_not h4
      have hdep : asDependency t' = none := asDependency_none.2 h3
      obtain ⟨n, d1, d2, ht', -, hv, -⟩ := h2
      have hout : outlined t' = none := by
        rcases ht' with ⟨rfl, rfl⟩ | ⟨rfl, rfl⟩
        · have hn : n = txt "script" ∧ a = txt "src" := by cases h; exact ⟨rfl, rfl⟩
          obtain ⟨rfl, rfl⟩ := hn
          have hne : txt "script" ≠ txt "style" := by decide
          simp [outlined, hv, hne]
        · rfl
      rcases ht' with ⟨-, rfl⟩ | ⟨-, rfl⟩ <;> exact ⟨⟨hcan, hdep, rfl, hout⟩, rfl, rfl⟩

end take

end Verif.Html.Page
