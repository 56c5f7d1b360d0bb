import Verif.HtmlPageRender

/-!
# C64 and C66: a page, and what goes wrong
-/

namespace Verif.Html.Page.PageToy

open Verif.Reader (Text txt)
open Verif.Build
open Verif.Assoc (item put ofList keys)
open Verif.Handlers (Bytes Fs Scan Built)
open Verif.Html.Toy (stk tpl)

/-- Tags as they are written, without escapes. -/
def spell : HTok → Text
  | .characters d => d
  | .spaces d => d
  | .startTag n d => txt "<" ++ n ++ d.flatMap (fun p => txt " " ++ p.1.2 ++ txt "=" ++ p.2) ++ txt ">"
  | .emptyTag n d => txt "<" ++ n ++ d.flatMap (fun p => txt " " ++ p.1.2 ++ txt "=" ++ p.2) ++ txt ">"
  | .endTag n => txt "</" ++ n ++ txt ">"
  | .comment d => txt "<!--" ++ d ++ txt "-->"
  | .doctype _ => txt "<!DOCTYPE html>"

/-- Copies the file, and counts for a hash. -/
def handler : Handler Unit where
  scan _ p := .ok ⟨[], [txt "out/www/" ++ p.drop 11, txt "out/www/" ++ p.drop 11 ++ txt ".hash"]⟩
  build fs p := match fs p with
    | none => .error ()
    | some b =>
      let t := txt "out/www/" ++ p.drop 11
      .ok (⟨[], [t, t ++ txt ".hash"], []⟩, (fs.write t b).write (t ++ txt ".hash") (Img.digits b.length))

def partials (path : Text) : Option (List HTok) :=
  if path = txt "p/src/partials/x.html" then
    some [.startTag (txt "style") [], .characters (txt "a{}"), .endTag (txt "style"), stk [.str (txt "retrieve"), .str (txt "a")]]
  else none

def script : List HTok := [.startTag (txt "script") [((none, txt "type"), txt "module")], .characters (txt "f()"), .spaces (txt " "), .endTag (txt "script")]

/-- A page with a link, an address, an image, a script and a template with a stylesheet. -/
def page : List HTok :=
  [.emptyTag (txt "link") [((none, txt "rel"), txt "canonical"), ((none, txt "href"), txt "/a")],
   .emptyTag (txt "link") [((none, txt "rel"), txt "stylesheet"), ((none, txt "href"), txt "/m.css")]] ++ script ++
  [.comment (txt "[IMAGE: /i.png 2 2]"), tpl [.str (txt "/x.html"), .obj [(txt "a", .str (txt "7"))]], .comment (txt "ok")]

def twice : List HTok := script ++ [.startTag (txt "p") []] ++ script
def media : List HTok := [.startTag (txt "style") [((none, txt "media"), txt "print")], .characters (txt "a{}"), .endTag (txt "style")]
def cut : List HTok := [.startTag (txt "p") [], .startTag (txt "script") [], .characters (txt "f()")]

def env (scan : Bool) (kept : Kind → Bool) : Env Unit Text where
  scan := scan
  rel := txt "src/public/index.html"
  host := some (txt "example.com")
  strip := id
  enc := fun c => [37, c]
  tpl := Html.Toy.env partials
  js := handler
  css := handler
  py := { Img.demoPy with space := fun c => c == 32 || c == 10 }
  image := fun p => if p = txt "p/src/public/i.png" then some (4, 4) else none
  cwd := txt "/"
  folder := txt "p"
  scanImage fs _ := .ok (⟨[txt "src/public/i.png"], [txt "out/www/i/2.jpeg"]⟩, fs)
  exportImage fs c := .ok ([(txt "jpeg", [⟨c.width, c.height, txt "i/2.jpeg"⟩, ⟨4, 4, txt "i/4.jpeg"⟩]), (txt "webp", [⟨c.width, c.height, txt "i/2.webp"⟩])],
    ⟨[txt "src/public/i.png"], [txt "out/www/i/2.jpeg"], []⟩, fs.write (txt "out/www/i/2.jpeg") (txt "J"))
  defaultFormat := txt "jpeg"
  kept := kept
  digest b := Img.digits b.length
  decode := id
  encode := id
  parse b := if b = txt "page" then some page else if b = txt "twice" then some twice else if b = txt "media" then some media else if b = txt "cut" then some cut else none
  write ts := ts.flatMap spell

def files (content : Text) : Fs := fun p =>
  if p = txt "src/public/index.html" then some content
  else if p = txt "out/www/m.css.hash" then some (txt "abc")
  else none

theorem fit (kept : Kind → Bool) : Fit (env false kept) where
  build := rfl
  space := by
    refine ⟨rfl, rfl, fun c h1 h2 => ?_⟩
    have e1 : (c == 32) = false := by simp; omega
    have e2 : (c == 10) = false := by simp; omega
    simp [env, e1, e2]
  same := rfl
  json := Html.Toy.faithful _
  balanced := by
    intro path body h
    have h' : partials path = some body := h
    unfold partials at h'
    split at h'
    · cases h'
      show Bal (Html.Toy.env partials) _
      exact Html.Toy.bal_calm (by decide +kernel)
    · cases h'
  sane := by
    intro path body h
    have h' : partials path = some body := h
    unfold partials at h'
    split at h'
    · cases h'
      intro t ht
      simp only [List.mem_cons, List.not_mem_nil, or_false] at ht
      rcases ht with rfl | rfl | rfl | rfl
      · refine ⟨fun _ => ⟨by simp [attrsOf, keys], by simp [attrsOf]⟩, fun d hd => ?_⟩
        cases hd
      all_goals exact ⟨fun _ => ⟨by simp [attrsOf, keys, stk], by simp [attrsOf, stk]⟩, fun d hd => by cases hd⟩
    · cases h'

theorem pageFile : PageFile (txt "src/public/index.html") (txt "index") := by
  refine ⟨by decide, by decide, 105, by decide, by decide⟩

/-- What is of interest after a build. -/
def after (content : Text) (kept : Kind → Bool) (ps : List Text) : Option (Option (List (Option Text) × List Text × List Text)) :=
  (buildFile 100 (env false kept) (files content)).map fun
    | .ok (r, fs) => some (ps.map fs, r.children, r.produced)
    | .error _ => none

/-- C64 and C66: the page is built. -/
theorem C66_case : after (txt "page") (fun _ => false)
    [txt "out/www/index.html", txt "out/www/js/gen/index/1.js", txt "out/www/css/gen/index/1.css", txt "src/public/js/gen/index/1.js"] =
    some (some ([some (txt "<link href=https://example.com/a rel=canonical><link href=/m.css?v=abc&pv=1.3.2 rel=stylesheet><script src=/js/gen/index/1.js?v=4&pv=1.3.2 type=module></script><picture><source srcset=/i/2.webp 2w><img width=2 height=2 src=/i/2.jpeg srcset=/i/2.jpeg 2w, /i/4.jpeg 4w loading=lazy></picture><link href=/css/gen/index/1.css?v=3&pv=1.3.2 rel=stylesheet>7<!--ok-->"),
      some (txt "f() "), some (txt "a{}"), none],
      [txt "src/public/m.css", txt "src/public/i.png", txt "src/partials/x.html"],
      [txt "out/www/index.html", txt "out/www/index.html.hash", txt "out/www/i/2.jpeg", txt "out/www/js/gen/index/1.js", txt "out/www/js/gen/index/1.js.hash",
        txt "out/www/css/gen/index/1.css", txt "out/www/css/gen/index/1.css.hash"])) := by
  decide +kernel

theorem texts_mem {ts : List HTok} {x : Text} (h : Texts ts x) : ∀ t ∈ ts, (∃ d, t = .characters d) ∨ ∃ d, t = .spaces d := by
  induction h with
  | nil => intro t ht; cases ht
  | chars _ ih =>
    intro t ht
    rcases List.mem_cons.1 ht with rfl | ht
    · exact .inl ⟨_, rfl⟩
    · exact ih t ht
  | spaces _ ih =>
    intro t ht
    rcases List.mem_cons.1 ht with rfl | ht
    · exact .inr ⟨_, rfl⟩
    · exact ih t ht

theorem not_cut {ts : List HTok} {d : Text} : ¬ Cut (ts ++ [.comment d]) := by
  rintro ⟨pre, t, k, a, body, x, he, hi, hx⟩
  cases hb : body.reverse with
  | nil =>
    rw [List.reverse_eq_nil_iff] at hb
    subst hb
    have := (List.append_inj' he rfl).2
    simp only [List.cons.injEq, and_true] at this
    subst this
    cases hi
  | cons y r =>
    have hb' : body = r.reverse ++ [y] := by rw [← List.reverse_reverse body, hb]; simp
    rw [hb'] at he
    have h1 : ts ++ [HTok.comment d] = (pre ++ t :: r.reverse) ++ [y] := by rw [he]; simp
    have := (List.append_inj' h1 rfl).2
    simp only [List.cons.injEq, and_true] at this
    rcases texts_mem hx y (by rw [hb']; simp) with ⟨e, hy⟩ | ⟨e, hy⟩ <;> (subst hy; cases this)

/-- The hypotheses of C66 are met by this page. -/
theorem C66_case_fits : (env false fun _ => false).parse (txt "page") = some page ∧ Bal (env false fun _ => false).tpl page ∧ Sane page ∧ ¬ Cut page := by
  refine ⟨by decide +kernel, Html.Toy.bal_calm (by decide +kernel), ?_, not_cut (ts := page.dropLast) (d := txt "ok")⟩
  intro t ht
  have hp : ∀ t ∈ page, (keys (attrsOf t)).Nodup ∧ ∀ p ∈ attrsOf t, p.1.1 = none := by decide +kernel
  refine ⟨fun _ => ⟨(hp t ht).1, (hp t ht).2⟩, ?_⟩
  intro d hd
  subst hd
  have hq : ∀ t ∈ page, t = .startTag (txt "script") (attrsOf t) → item (attrsOf t) (none, txt "href") = none := by decide +kernel
  exact hq _ ht rfl

/-- C67: there are pages which can become something. -/
theorem C67_case : ∃ out w f, Render (env false fun _ => false) (txt "example.com") (txt "index") (World.start (files (txt "page")))
    ⟨txt "src/public/index.html", []⟩ page out w f := by
  have h : ∃ r fs, buildFile 100 (env false fun _ => false) (files (txt "page")) = some (.ok (r, fs)) := by
    have h0 := C66_case
    unfold after at h0
    cases hb : buildFile 100 (env false fun _ => false) (files (txt "page")) with
    | none => rw [hb] at h0; cases h0
    | some x =>
      rw [hb] at h0
      cases x with
      | error e => cases h0
      | ok x => exact ⟨x.1, x.2, rfl⟩
  obtain ⟨r, fs, h⟩ := h
  obtain ⟨out, w, f, h1, -⟩ := C66_page (fit _) rfl pageFile (by decide +kernel) C66_case_fits.1 C66_case_fits.2.1 C66_case_fits.2.2.1
    C66_case_fits.2.2.2 h
  exact ⟨out, w, f, h1⟩

/-- What is wrong: a page with two inline scripts cannot be built, because the folder for the first is removed and not made
again.  If it holds another file, both are built. -/
theorem C66_false_twice : after (txt "twice") (fun _ => false) [] = some none ∧
    after (txt "twice") (fun _ => true) [txt "out/www/js/gen/index/2.js"] =
      some (some ([some (txt "f() ")], [], [txt "out/www/index.html", txt "out/www/index.html.hash", txt "out/www/js/gen/index/1.js",
        txt "out/www/js/gen/index/1.js.hash", txt "out/www/js/gen/index/2.js", txt "out/www/js/gen/index/2.js.hash"])) :=
  ⟨by decide +kernel, by decide +kernel⟩

/-- What is wrong: a stylesheet with an attribute cannot be built. -/
theorem C66_false_media : after (txt "media") (fun _ => true) [] = some none := by decide +kernel

/-- What is wrong: when the page ends in a script, the build succeeds without the script, and leaves a file among the sources. -/
theorem C66_false_cut : ((after (txt "cut") (fun _ => true) [txt "out/www/index.html", txt "src/public/js/gen/index/1.js"]).map fun r =>
      r.map fun x => (x.1.map Option.isSome, x.1.headD none, x.2.2)) =
    some (some ([true, true], some (txt "<p>"), [txt "out/www/index.html", txt "out/www/index.html.hash"])) ∧ Cut cut := by
  refine ⟨by decide +kernel, [.startTag (txt "p") []], _, .script, [], [.characters (txt "f()")], txt "f()" ++ [], rfl, .script rfl, .chars .nil⟩

/-- What is wrong: a file which was there before, where the element is written to, is overwritten and then removed. -/
theorem C66_false_user :
    ((buildFile 100 (env false fun _ => false) ((files (txt "page")).write (txt "src/public/js/gen/index/1.js") (txt "mine"))).map fun
      | .ok (_, fs) => some (fs (txt "src/public/js/gen/index/1.js"))
      | .error _ => none) = some (some none) := by
  decide +kernel

end Verif.Html.Page.PageToy
