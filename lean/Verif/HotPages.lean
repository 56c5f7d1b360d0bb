import Verif.HotScripts
/-!
# C85: pages after any history

`Shows` says what a page without images and inline elements becomes, given the contents of the files: templates are those which are there,
and the hash at a link is that of the linked file in out/www.  After any history of finished rebuilds this is what out/www has for the page.
-/
namespace Verif.Hot.Scripts
open Verif Verif.Hot Verif.Graph
open Verif.Reader (Text txt)
open Verif.Paths (split joinSegs join relpath isAbs Name Seg)
open Verif.Handlers (Bytes Fs Scan)
open Verif.Assoc (item put ofList)
open Verif.Html (HTok Links Canon WithAttr Ordinary IsDefine IsRetrieve IsPush IsPop Includes Unknown Shown Frame Bal Faithful TplEnv)

/-! ## Specification -/

/-- `hash` is what out/www has as hash of `src/public/p`; and if that is a file of the website then this is the hash of what out/www has for it. -/
def CurrentHash (c : Config) (W : Contents Bytes) (p : Text) (hash : Bytes) : Prop :=
  W (str (join (txt "out/www") p ++ txt ".hash")) = some hash ∧
  ∀ g, Web g → Public g p → ∃ y, W (str (copyOf p)) = some y ∧ hash = c.js.digest y

/-- `body` are the tokens of the template `rel` as it is now. -/
def CurrentTemplate (c : Config) (W : Contents Bytes) (rel : Text) (body : List HTok) : Prop :=
  txt "src/partials/" <+: rel ∧ ∃ b, W (str rel) = some b ∧ c.page.parse b = some body

/-- Nothing is done with the token. -/
structure Stays (c : Config) (t : HTok) : Prop where
  links : ∀ a p, ¬ Links t a p
  canon : ∀ a d, Canon t a d → ∃ u, item d (none, a) = some (txt "http" ++ u)
  images : ∀ data args, t = .comment data → ¬ Html.Page.ImageForm c.page.tpl.space data args
  inline : ∀ k d, ¬ Html.Page.Inline t k d
  ordinary : Ordinary c.page.tpl t

/-- `Shows c host W rel f ts out f'`: with the contents `W`, in the page `rel` and in the scope `f` the document `ts` becomes `out`, and leaves
the scope `f'`. -/
inductive Shows (c : Config) (host : Text) (W : Contents Bytes) (rel : Text) : Frame → List HTok → List HTok → Frame → Prop
  | nil {f} : Shows c host W rel f [] [] f
  | keep {f t ts out f'} (h : Stays c t) (hr : Shows c host W rel f ts out f') : Shows c host W rel f (t :: ts) (t :: out) f'
  | canon {f t t' a d url ts out f'} (h : Canon t a d)
      (hu : (item d (none, a) = none ∧ url = txt "/" ++ rel.drop 11) ∨ (item d (none, a) = some url ∧ ¬ txt "http" <+: url))
      (ht : WithAttr t t' a (txt "https://" ++ host ++ url)) (hr : Shows c host W rel f ts out f') : Shows c host W rel f (t :: ts) (t' :: out) f'
  | link {f t t' a p hash ts out f'} (h : Links t a p) (hh : CurrentHash c W p hash)
      (ht : WithAttr t t' a (txt "/" ++ p ++ txt "?v=" ++ Html.quotePlus c.js.enc (c.page.strip (c.js.decode hash)) ++ txt "&pv=1.3.2"))
      (hr : Shows c host W rel f ts out f') : Shows c host W rel f (t :: ts) (t' :: out) f'
  | define {f t k v ts out f'} (h : IsDefine c.page.tpl t k v) (hr : Shows c host W rel { f with vars := put f.vars k v } ts out f') :
      Shows c host W rel f (t :: ts) out f'
  | retrieve {f t k v text ts out f'} (h : IsRetrieve c.page.tpl t k) (hk : k ≠ []) (hv : item f.vars k = some v) (hs : Shown v text)
      (hr : Shows c host W rel f ts out f') : Shows c host W rel f (t :: ts) (.characters text :: out) f'
  | unknown {f t ts out f'} (h : Unknown c.page.tpl t) (hr : Shows c host W rel f ts out f') : Shows c host W rel f (t :: ts) out f'
  | block {f t t' p body out1 f1 ts out f'} (h : IsPush c.page.tpl t p) (h' : IsPop c.page.tpl t') (hb : Shows c host W rel ⟨p, []⟩ body out1 f1)
      (hr : Shows c host W rel f ts out f') : Shows c host W rel f (t :: (body ++ t' :: ts)) (out1 ++ out) f'
  | template {f t inc vars body out1 f1 ts out f'} (h : Includes c.page.tpl f t inc vars) (hf : CurrentTemplate c W inc body)
      (hb : Shows c host W rel ⟨inc, ofList vars⟩ body out1 f1) (hr : Shows c host W rel f ts out f') :
      Shows c host W rel f (t :: ts) (out1 ++ out) f'

/-- Whitespace and JSON are Python's, and the templates which are there are balanced and sane. -/
structure PagesFit (c : Config) (W : Contents Bytes) : Prop where
  space : Img.GoodSpace c.page.tpl.space
  json : Faithful c.page.tpl
  balanced : ∀ rel body, CurrentTemplate c W rel body → Bal c.page.tpl body
  sane : ∀ rel body, CurrentTemplate c W rel body → Html.Page.Sane body

/-! ## Proofs -/

theorem template_iff {c : Config} {W : Contents Bytes} {rel p : Text} {body : List HTok} :
    (pageEnv c false rel (fsOf W)).tpl.files p = some body ↔ CurrentTemplate c W p body := by
  simp only [pageEnv, CurrentTemplate]
  split
  · next h => simp [List.isPrefixOf_iff_prefix.1 h, Option.bind_eq_some_iff, fsOf]
  · next h =>
    simp only [reduceCtorEq, false_iff, not_and]
    exact fun h' => absurd (List.isPrefixOf_iff_prefix.2 h') h

/-- The files do not matter for whether a document is balanced. -/
theorem bal_same {e e' : TplEnv} (h : Html.stackArgs e = Html.stackArgs e') {ts : List HTok} (hb : Bal e ts) : Bal e' ts := by
  have key : ∀ t l, Html.Stack e t l ↔ Html.Stack e' t l := fun t l => by unfold Html.Stack; rw [h]
  induction hb with
  | nil => exact .nil
  | cons h1 h2 _ ih => exact .cons (fun p ⟨m, hm⟩ => h1 p ⟨m, (key _ _).2 hm⟩) (fun ⟨m, hm⟩ => h2 ⟨m, (key _ _).2 hm⟩) ih
  | block h1 h2 _ _ ih1 ih2 =>
    obtain ⟨m, h1⟩ := h1
    obtain ⟨m', h2⟩ := h2
    exact .block ⟨m, (key _ _).1 h1⟩ ⟨m', (key _ _).1 h2⟩ ih1 ih2

theorem page_fit {c : Config} {W : Contents Bytes} (h : PagesFit c W) (rel : Text) : Html.Page.Fit (pageEnv c false rel (fsOf W)) where
  build := rfl
  space := h.space
  same := rfl
  json := ⟨h.json.back, h.json.start, h.json.line, h.json.blank, h.json.black⟩
  balanced p body hp := bal_same (e := c.page.tpl) (e' := (pageEnv c false rel (fsOf W)).tpl) rfl (h.balanced p body (template_iff.1 hp))
  sane p body hp := h.sane p body (template_iff.1 hp)

/-- What the page becomes, if the hashes are current. -/
theorem shows_of_render {c : Config} {host stem rel : Text} {W : Contents Bytes}
    (hW : ∀ p hash, W (str (join (txt "out/www") p ++ txt ".hash")) = some hash → CurrentHash c W p hash)
    {w w' : Html.Page.World} {f f' : Frame} {ts out : List HTok}
    (h : Html.Page.Render (pageEnv c false rel (fsOf W)) host stem w f ts out w' f') (h0 : w.fs = fsOf W) :
    w'.fs = fsOf W ∧ Shows c host W rel f ts out f' := by
  induction h with
  | nil => exact ⟨h0, .nil⟩
  | keep hk _ ih =>
    refine ⟨(ih h0).1, .keep ⟨hk.links, hk.canon, fun data args ht hi => ?_, hk.inline, hk.ordinary⟩ (ih h0).2⟩
    obtain ⟨c', hacc⟩ := hk.readable data args ht hi
    cases hacc <;> simp_all [pageEnv]
  | canon h1 h2 h3 _ ih => exact ⟨(ih h0).1, .canon h1 h2 h3 (ih h0).2⟩
  | link h1 h2 h3 _ ih =>
    obtain ⟨e1, e2⟩ := ih h0
    refine ⟨e1, .link h1 (hW _ _ (by rw [h0] at h2; exact h2)) ?_ e2⟩
    simpa [Html.Page.query, pageEnv] using h3
  | image h1 h2 => exact absurd h2 (by simp [pageEnv])
  | inline h1 h2 h3 h4 h5 => exact absurd h5 (by unfold Html.Page.Env.handler; split <;> simp [pageEnv])
  | define h1 _ ih => exact ⟨(ih h0).1, .define h1 (ih h0).2⟩
  | retrieve h1 h2 h3 h4 _ ih => exact ⟨(ih h0).1, .retrieve h1 h2 h3 h4 (ih h0).2⟩
  | unknown h1 _ ih =>
    refine ⟨(ih h0).1, .unknown ?_ (ih h0).2⟩
    cases h1 with
    | stack h a1 a2 a3 a4 => exact .stack h a1 a2 a3 a4
    | template h hv => exact .template h hv
  | block h1 h2 _ _ ih1 ih2 =>
    obtain ⟨e1, e2⟩ := ih1 h0
    obtain ⟨e3, e4⟩ := ih2 e1
    exact ⟨e3, .block h1 h2 e2 e4⟩
  | @template w f t inc vars body out1 w1 f1 ts out w' f' h1 h2 _ _ ih1 ih2 =>
    obtain ⟨e1, e2⟩ := ih1 h0
    obtain ⟨e3, e4⟩ := ih2 e1
    have h2' : (pageEnv c false rel (fsOf W)).tpl.files (join [] inc) = some body := h2
    rw [join_nil] at h2'
    refine ⟨e3, .template ?_ (template_iff.1 h2') e2 e4⟩
    cases h1 with
    | bare h => exact .bare h
    | args h ha => exact .args h ha

/-- The hashes of files of the website are current. -/
theorem worked_hash {c : Config} (hc : isAbs c.js.cwd = true) (hsp : Js.SpaceOk c.js.space) (hk : Source c.constants) {m : Mode} {W : Contents Bytes} {gs : Graphs} {dm : Option Mode}
    (h : Worked (project c.constants) (tool c) m W gs dm) {p : Text} {hash : Bytes} (hh : W (str (join (txt "out/www") p ++ txt ".hash")) = some hash) :
    CurrentHash c W p hash := by
  refine ⟨hh, fun g hg hp => ?_⟩
  have hl := lawful c.constants
  have ht := tool_lawful hc
  obtain ⟨U, -⟩ := (h.history hl ht hk).upToDate hl (ht.pure hl)
  have e : join (txt "out/www") p ++ txt ".hash" = hashOf p := by
    have e2 : txt "out/www/" = txt "out/www" ++ [47] := by decide
    have e3 : (txt "out/www").getLast? = some 119 := by decide
    have e4 : txt "out/www" ≠ [] := by decide
    unfold join
    rw [clean_rel hp.2, e3]
    simp [e4, hashOf, copyOf, e2]
  rw [e] at hh
  have hin := (U.only _ _ (owner_iff.2 ⟨.inl hg, p, hp, .inr (txt_hash hp)⟩) (by rw [hh]; simp)).1
  obtain ⟨b, hb⟩ := Option.ne_none_iff_exists'.1 ((U.files g).1 hin).2
  obtain ⟨y, hy⟩ := C80_current_partial hc hsp hk h (.inl hg) hp hb
  refine ⟨y, hy.copy, ?_⟩
  rw [hy.hash] at hh
  exact (Option.some.inj hh).symm

/-- C85: after any history of finished rebuilds out/www has for every page what its source becomes with the templates as they are now and with
the hashes of what out/www has now for the files it links to. -/
theorem C85_page_partial {c : Config} (hc : isAbs c.js.cwd = true) (hsp : Js.SpaceOk c.js.space) (hk : Source c.constants) {m : Mode} {W : Contents Bytes} {gs : Graphs} {dm : Option Mode}
    (h : Worked (project c.constants) (tool c) m W gs dm) {f : String} {x : Text} (hf : Source f) (hx : Public f x) (hne : f ≠ c.constants) (hhtml : txt ".html" <:+ txt f)
    {b : Bytes} (hb : W f = some b) (hfit : PagesFit c W) {host stem : Text} (hh : c.page.host = some host) (hst : Html.Page.PageFile (txt f) stem) :
    ∃ ts, c.page.parse b = some ts ∧ (Bal c.page.tpl ts → Html.Page.Sane ts →
      ∃ out f', Shows c host W (txt f) ⟨txt f, []⟩ ts out f' ∧ W (str (copyOf x)) = some (c.page.write out) ∧
        W (str (hashOf x)) = some (c.js.digest (c.page.write out))) := by
  obtain ⟨y, hy⟩ := C80_current_partial hc hsp hk h hf hx hb
  obtain ⟨ts, h1, out, rfl, h2⟩ := hy.page hne hhtml
  refine ⟨ts, h1, fun hbal hsane => ?_⟩
  obtain ⟨w, g, h3⟩ := h2 host stem (page_fit hfit _) hh hst (bal_same (e := c.page.tpl) (e' := (pageEnv c false (txt f) (fsOf W)).tpl) rfl hbal) hsane
  exact ⟨out, g, (shows_of_render (fun p hash => worked_hash hc hsp hk h) h3 rfl).2, hy.copy, hy.hash⟩

/-- C85: with any handlers of images and of inline elements, a build of the page gives what the tool gives. -/
theorem C85_handler_partial {c : Config} {x : Text} {fs fs1 : Fs} {r : Handlers.Built} (h1 : fs (hashOf x) = none) (h : pageBuild c (txt "src/public/" ++ x) fs = some (r, fs1))
    {E J : Type} (env : Html.Page.Env E J) (ha : Html.Page.Kindred (pageEnv c false (txt "src/public/" ++ x) fs) env)
    (hf : ∀ p, txt "src/partials/" <+: p → env.tpl.files p = (fs p).bind c.page.parse) :
    ∃ fs2, Html.Page.buildFile c.fuel env fs = some (.ok (r, fs2)) ∧ fs2 (copyOf x) = fs1 (copyOf x) ∧ fs2 (hashOf x) = fs1 (hashOf x) := by
  obtain ⟨hp, hb, -⟩ := pageBuild_iff.1 h
  obtain ⟨links, deps, hr, k1, k2, k3⟩ := Html.Page.build_reads rfl (page_imageless _ _ _ _) rfl h1 hb hp
  obtain ⟨fs2, q1, -, q3⟩ := k3 env fs ha rfl h1 (fun _ _ => rfl) (fun d hd => by
    have := k2 d hd
    have e : (pageEnv c false (txt "src/public/" ++ x) fs).tpl.folder = [] := rfl
    rw [e, join_nil] at this ⊢
    simp only [pageEnv] at this ⊢
    split at this
    · next hpre => rw [if_pos hpre]; exact hf _ (List.isPrefixOf_iff_prefix.1 hpre)
    · exact absurd rfl this)
  exact ⟨fs2, q1, q3 _ (by rw [hr]; exact (Html.Page.mem_report.2.1 _).2 (.inl rfl)), q3 _ (by rw [hr]; exact (Html.Page.mem_report.2.1 _).2 (.inr rfl))⟩

end Verif.Hot.Scripts
