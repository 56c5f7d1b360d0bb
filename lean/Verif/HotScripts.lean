import Verif.HotReal
import Verif.JsLocal
import Verif.JsHintFile
import Verif.CssPlain
import Verif.HtmlLocal
/-!
# C80, C84 and C85: incremental builds of scripts, stylesheets and pages

The handlers for scripts, for stylesheets without icons and images, for pages without images and inline elements, for templates, for the
file of the constants, and for files which are copied, keep to the rules of `Tool.Lawful`.  So for projects of such files, incremental builds give what a build from scratch gives.
-/
namespace Verif.Hot.Scripts
open Verif Verif.Hot Verif.Graph
open Verif.Reader (Text txt)
open Verif.Paths (split joinSegs join relpath isAbs Name Seg)
open Verif.Handlers (Bytes Fs Scan)

/-! ## Texts and strings -/

/-- The string with this text. -/
def str (t : Text) : String := String.ofList (t.map Char.ofNat)

/-- Every number is that of a character. -/
def Scalar (t : Text) : Prop := ∀ c ∈ t, (Char.ofNat c).toNat = c

theorem str_txt (s : String) : str (txt s) = s := by
  unfold str txt
  rw [List.map_map]
  have : (Char.ofNat ∘ Char.toNat) = id := by funext c; simp
  rw [this, List.map_id]
  exact String.ofList_toList

theorem txt_str {t : Text} (h : Scalar t) : txt (str t) = t := by
  unfold str txt
  rw [String.toList_ofList, List.map_map]
  conv => rhs; rw [← List.map_id t]
  exact List.map_congr_left fun c hc => h c hc

theorem scalar_txt (s : String) : Scalar (txt s) := by
  intro c hc
  obtain ⟨x, -, rfl⟩ := List.mem_map.1 hc
  simp

theorem txt_inj {a b : String} (h : txt a = txt b) : a = b := by rw [← str_txt a, h, str_txt]

theorem Scalar.append {a b : Text} (ha : Scalar a) (hb : Scalar b) : Scalar (a ++ b) := fun c hc => (List.mem_append.1 hc).elim (ha c) (hb c)

theorem Scalar.right {a b : Text} (h : Scalar (a ++ b)) : Scalar b := fun c hc => h c (List.mem_append.2 (.inr hc))

theorem toList_of_txt {s a : String} {y : Text} (h : txt s = txt a ++ y) : ∃ r, s.toList = a.toList ++ r := by
  unfold txt at h
  obtain ⟨l1, l2, h1, h2, -⟩ := List.map_eq_append_iff.1 h
  have : l1 = a.toList := List.map_injective_iff.2 (fun x y hxy => Char.toNat_inj.1 hxy) h2
  exact ⟨l2, by rw [h1, this]⟩

/-! ## The project -/

/-- A path without empty components and dots. -/
def Clean (x : Text) : Prop := ∀ s ∈ split x, Name s

/-- The file is `src/public/x`. -/
def Public (f : String) (x : Text) : Prop := txt f = txt "src/public/" ++ x ∧ Clean x

/-- The endings of the files of other kinds, which are not considered here, and of hashes. -/
def others : List Text := [txt ".hash", txt ".images.json", txt ".images.js"]

/-- A file of the website. -/
def Web (f : String) : Prop := ∃ x, Public f x ∧ ∀ e ∈ others, ¬ e <:+ x

/-- A template. -/
def Partial (f : String) : Prop := ∃ x, txt f = txt "src/partials/" ++ x ∧ Clean x ∧ txt ".html" <:+ txt f

def Source (f : String) : Prop := Web f ∨ Partial f

/-- The output of `src/public/x`, and the hash. -/
def copyOf (x : Text) : Text := txt "out/www/" ++ x
def hashOf (x : Text) : Text := copyOf x ++ txt ".hash"

/-- The file is an output of this source. -/
def Output (o f : String) : Prop := ∃ x, Public f x ∧ (txt o = copyOf x ∨ txt o = hashOf x)

theorem Public.inj {f g : String} {x : Text} (h : Public f x) (h' : Public g x) : f = g := txt_inj (h.1.trans h'.1.symm)

theorem Partial.not_public {f : String} (h : Partial f) {x : Text} : ¬ Public f x := by
  obtain ⟨y, h, -⟩ := h
  intro h'
  have := congrArg (fun l => l[5]?) (h.symm.trans h'.1)
  simp [txt] at this

/-- A file below src/public is no template. -/
theorem Source.web {f : String} (h : Source f) {x : Text} (hx : Public f x) : Web f := h.elim id fun h => absurd hx h.not_public

theorem Source.output {o f : String} (h : Source f) (ho : Output o f) : Web f := by
  obtain ⟨x, hx, -⟩ := ho
  exact h.web hx

theorem output_unique {o f g : String} (hf : Source f) (hg : Source g) (h : Output o f) (h' : Output o g) : f = g := by
  have hf := hf.output h
  have hg := hg.output h'
  obtain ⟨x, hx, h⟩ := h
  obtain ⟨y, hy, h'⟩ := h'
  obtain ⟨x', hx', kx⟩ := hf
  obtain ⟨y', hy', ky⟩ := hg
  have ex : x' = x := List.append_cancel_left (hx'.1.symm.trans hx.1)
  have ey : y' = y := List.append_cancel_left (hy'.1.symm.trans hy.1)
  subst ex ey
  have key : ∀ {a b : Text}, copyOf a = hashOf b → txt ".hash" <:+ a := by
    intro a b h
    simp only [copyOf, hashOf, List.append_assoc] at h
    exact ⟨b, (List.append_cancel_left h).symm⟩
  rcases h with h | h <;> rcases h' with h' | h' <;> rw [h] at h'
  · have : x' = y' := List.append_cancel_left h'
    subst this; exact hx.inj hy
  · exact absurd (key h') (kx _ (by simp [others]))
  · exact absurd (key h'.symm) (ky _ (by simp [others]))
  · have : x' = y' := List.append_cancel_left (List.append_cancel_right h')
    subst this; exact hx.inj hy

/-- The sources are files below src/public, with the copy and the hash of each as outputs, and templates. -/
noncomputable def project (constants : String) : Project where
  src := Source
  owner o := open Classical in if h : ∃ f, Source f ∧ Output o f then some h.choose else none
  constants := constants

theorem owner_iff {k o f : String} : (project k).owner o = some f ↔ Source f ∧ Output o f := by
  unfold project
  dsimp only
  constructor
  · intro h
    split at h
    · next hh => cases h; exact hh.choose_spec
    · cases h
  · intro h
    have hh : ∃ f, Source f ∧ Output o f := ⟨f, h⟩
    rw [dif_pos hh, output_unique hh.choose_spec.1 h.1 hh.choose_spec.2 h.2]

theorem output_toList {o f : String} (h : Output o f) : ∃ r, o.toList = "out/www/".toList ++ r := by
  obtain ⟨x, -, h | h⟩ := h
  · exact toList_of_txt h
  · simp only [hashOf, copyOf, List.append_assoc] at h; exact toList_of_txt h

theorem owner_source {k f : String} (h : Source f) : (project k).owner f = none := by
  cases ho : (project k).owner f with
  | none => rfl
  | some g =>
    obtain ⟨r, hr⟩ := output_toList (owner_iff.1 ho).2
    rcases h with ⟨x, hx, -⟩ | ⟨x, hx, -⟩
    · obtain ⟨r', hr'⟩ := toList_of_txt hx.1
      rw [hr'] at hr
      simp at hr
    · obtain ⟨r', hr'⟩ := toList_of_txt hx
      rw [hr'] at hr
      simp at hr

theorem lawful (k : String) : (project k).Lawful where
  owner o f h := by
    obtain ⟨h1, h2⟩ := owner_iff.1 h
    obtain ⟨r, hr⟩ := output_toList h2
    exact ⟨h1, by simp [isOutput, startsWith, hr]⟩
  src f h := by
    refine ⟨owner_source h, ?_⟩
    rcases h with ⟨x, hx, -⟩ | ⟨x, hx, -⟩
    · obtain ⟨r, hr⟩ := toList_of_txt hx.1
      simp [isOutput, startsWith, hr, List.isPrefixOf]
    · obtain ⟨r, hr⟩ := toList_of_txt hx
      simp [isOutput, startsWith, hr, List.isPrefixOf]

/-! ## The handlers -/

/-- What the handler of pages is given, but for what scripts have, too, and for what is only needed for images and inline elements. -/
structure Pages where
  host : Option Text
  strip : Text → Text
  /-- but for the files -/
  tpl : Html.TplEnv
  parse : Bytes → Option (List Html.HTok)
  write : List Html.HTok → Bytes

/-- What they are given: the script handler's environment, the file of the constants and its lines in either mode.  `fuel` bounds the
steps for one script. -/
structure Config where
  js : Js.File.Env
  /-- the environment of the handler of stylesheets, but for the file, for what the files contain, and for what scripts have, too -/
  sheet : Css.Page.Env
  /-- the tokens of an imported stylesheet; if it cannot be tokenised those before the failure -/
  tokens : Bytes → List Css.Tok
  /-- bounds the loops which resolve the imports -/
  bound : Nat
  page : Pages
  constants : String
  text : Mode → Bytes
  fuel : Nat

/-- What the handler of stylesheets is given for the file `rel`. -/
def sheetEnv (c : Config) (rel : Text) (fs : Fs) : Css.Page.Env where
  nest := { c.sheet.nest with self := rel, files := fun p => (fs p).map c.tokens }
  icon := { c.sheet.icon with self := rel }
  data := { c.sheet.data with self := rel, digest := c.js.digest }
  urls := { c.sheet.urls with self := rel }
  decode := c.js.decode
  encode := c.js.encode

/-- What the handler of pages is given for the page `rel`.  Comments which have the form of an image command, and elements which would be
outlined, are errors. -/
def pageEnv (c : Config) (scan : Bool) (rel : Text) (fs : Fs) : Html.Page.Env Unit Unit where
  scan := scan
  rel := rel
  host := c.page.host
  strip := c.page.strip
  enc := c.js.enc
  tpl := { c.page.tpl with folder := [], files := fun p => if (txt "src/partials/").isPrefixOf p then (fs p).bind c.page.parse else none }
  js := ⟨fun _ _ => .error (), fun _ _ => .error ()⟩
  css := ⟨fun _ _ => .error (), fun _ _ => .error ()⟩
  py := ⟨c.page.tpl.space, fun _ => none, fun _ => none, ()⟩
  image := fun _ => none
  cwd := []
  folder := []
  scanImage := fun _ _ => .error .valueError
  exportImage := fun _ _ => .error .valueError
  defaultFormat := []
  kept := fun _ => false
  digest := c.js.digest
  decode := c.js.decode
  encode := c.js.encode
  parse := c.page.parse
  write := c.page.write

/-- The handler of pages, for templates and for pages without images and inline elements which link to files below src/public only. -/
def pageBuild (c : Config) (rel : Text) (fs : Fs) : Option (Handlers.Built × Fs) :=
  if (Handlers.copyTarget rel).isNone || Html.Page.plainPage c.fuel (pageEnv c false rel fs) fs then
    ((Html.Page.buildFile c.fuel (pageEnv c false rel fs) fs).bind Except.toOption).bind fun r =>
      if r.1.children.all fun d => (txt "src/public/").isPrefixOf d || (txt "src/partials/").isPrefixOf d then some r else none
  else none

/-- build_file.py:31-47, for the kinds of files considered here.  Stylesheets with icons or images are left out, and pages with images or
inline elements. -/
def dispatch (c : Config) (m : Mode) (rel : Text) (fs : Fs) : Option (Handlers.Built × Fs) :=
  if rel = txt c.constants then (Handlers.constantsBuild c.js.digest (c.text m) rel fs).toOption
  else if (txt ".css").isSuffixOf rel then
    if Css.Page.plainFile c.fuel c.bound (sheetEnv c rel fs) rel fs then (Css.Page.buildFile c.fuel c.bound (sheetEnv c rel fs) rel fs).bind Except.toOption else none
  else if (txt ".html").isSuffixOf rel then pageBuild c rel fs
  else if (txt ".js").isSuffixOf rel then (Js.File.buildFile c.fuel c.js rel fs).bind Except.toOption
  else (Handlers.copyAndHashBuild c.js.digest rel fs).toOption

/-- scan_file.py:28-38, likewise. -/
def dispatchScan (c : Config) (rel : Text) (fs : Fs) : Option Scan :=
  if rel = txt c.constants then (Handlers.constantsScan rel).toOption
  else if (txt ".css").isSuffixOf rel then
    ((Css.Page.scanFile c.fuel (sheetEnv c rel fs) rel fs).bind Except.toOption).bind fun s =>
      if ∀ o ∈ s.produces, o ∈ (Handlers.copyScan rel).produces ++ (Handlers.hashScan rel).produces then some s else none
  else if (txt ".html").isSuffixOf rel then
    ((Html.Page.scanFile c.fuel (pageEnv c true rel fs) fs).bind Except.toOption).bind fun s =>
      if ∀ o ∈ s.1.produces, o ∈ (Handlers.copyScan rel).produces ++ (Handlers.hashScan rel).produces then some s.1 else none
  else if (txt ".js").isSuffixOf rel then (Js.File.scanFile c.fuel c.js rel fs).bind Except.toOption
  else some (Handlers.copyAndHashScan rel)

/-- The file which is read because of the child `d` of `rel`. -/
def readAt (c : Config) (rel d : Text) : Text :=
  if (txt ".css").isSuffixOf rel then Css.Page.readOf (sheetEnv c rel fun _ => none) d
  else if (txt ".html").isSuffixOf rel then
    if (txt "src/partials/").isPrefixOf d then d else txt "out/www/" ++ d.drop (txt "src/public/").length ++ txt ".hash"
  else Js.File.hashPath c.js d

/-- The files with these contents. -/
def fsOf (W : Contents Bytes) : Fs := fun t => W (str t)

/-- A child is a file below src/public, for stylesheets the hash of one, or for pages a template. -/
def Child (f : String) (d : Text) : Prop := ∃ g, d = txt g ∧ ((∃ x, Public g x) ∨ ((txt ".css").isSuffixOf (txt f) = true ∧ ∃ g' x, Public g' x ∧ txt g = hashOf x) ∨
  ((txt ".html").isSuffixOf (txt f) = true ∧ Partial g))

/-- The handlers, with strings as paths.  Scripts which import files outside src/public are left out (`none`), as are pages which include
what is no template, and files of other kinds. -/
noncomputable def tool (c : Config) : Tool Bytes where
  build m f W := open Classical in
    match dispatch c m (txt f) (fsOf W) with
    | none => none
    | some (b, fs) =>
      if ∀ d ∈ b.children, Child f d then
        some (⟨b.children.map str, b.produced.map str, b.reused.map str⟩, fun s => fs (txt s))
      else none
  scan f W := open Classical in
    if Source f then (dispatchScan c (txt f) (fsOf W)).map fun s => ⟨s.dependencies.map str, s.produces.map str, []⟩ else none
  read f d := str (readAt c (txt f) (txt d))

/-! ## Proofs -/

theorem build_some {c : Config} {m : Mode} {f : String} {W W' : Contents Bytes} {r : BuildResult} (h : (tool c).build m f W = some (r, W')) :
    ∃ b fs, dispatch c m (txt f) (fsOf W) = some (b, fs) ∧ (∀ d ∈ b.children, Child f d) ∧
      r = ⟨b.children.map str, b.produced.map str, b.reused.map str⟩ ∧ W' = fun s => fs (txt s) := by
  simp only [tool] at h
  split at h
  · cases h
  · next b fs hd =>
    split at h
    · next hk =>
      cases h
      exact ⟨b, fs, hd, hk, rfl, rfl⟩
    · cases h

theorem scalar_name {f : String} {x : Text} (h : Public f x) : Scalar x := by
  have := scalar_txt f
  rw [h.1] at this
  exact this.right

theorem txt_copy {f : String} {x : Text} (h : Public f x) : txt (str (copyOf x)) = copyOf x := txt_str ((scalar_txt _).append (scalar_name h))
theorem txt_hash {f : String} {x : Text} (h : Public f x) : txt (str (hashOf x)) = hashOf x :=
  txt_str (((scalar_txt _).append (scalar_name h)).append (scalar_txt _))

theorem hash_ne_copy (x : Text) : hashOf x ≠ copyOf x := Js.File.hash_ne x

/-- What holds of every handler, for the file `src/public/x`. -/
structure Fine (c : Config) (m : Mode) (x : Text) (fs : Fs) (b : Handlers.Built) (fs1 : Fs) : Prop where
  own : ∀ o ∈ b.produced ++ b.reused, o = copyOf x ∨ o = hashOf x
  bare : fs (copyOf x) = none → fs (hashOf x) = none → b.reused = [] ∧ ∀ o ∈ b.produced, fs1 o ≠ none
  strict : fs (copyOf x) = none → fs (hashOf x) = none → ∀ d ∈ b.children, fs (readAt c (txt "src/public/" ++ x) d) ≠ none
  reads : fs (copyOf x) = none → fs (hashOf x) = none → ∀ fs', fs' (copyOf x) = none → fs' (hashOf x) = none →
    fs' (txt "src/public/" ++ x) = fs (txt "src/public/" ++ x) → (∀ d ∈ b.children, fs' (readAt c (txt "src/public/" ++ x) d) = fs (readAt c (txt "src/public/" ++ x) d)) →
    ∃ fs1', dispatch c m (txt "src/public/" ++ x) fs' = some (b, fs1') ∧ ∀ o ∈ b.produced, fs1' o = fs1 o

theorem toOption_some {ε α : Type} {r : Except ε α} {a : α} (h : r.toOption = some a) : r = .ok a := by
  cases r with
  | error e => cases h
  | ok b => cases h; rfl

/-- The constants, if nothing is there. -/
theorem constants_bare {digest : Bytes → Bytes} {text : Bytes} {x : Text} {fs : Fs} (h1 : fs (copyOf x) = none) (h2 : fs (hashOf x) = none) :
    Handlers.constantsBuild digest text (txt "src/public/" ++ x) fs =
      .ok (⟨[], [copyOf x, hashOf x], []⟩, (fs.write (copyOf x) text).write (hashOf x) (digest text)) := by
  unfold Handlers.constantsBuild
  rw [Js.File.copyTarget_name]
  have h1' : fs (txt "out/www/" ++ x) = none := h1
  simp only [h1']
  unfold Handlers.hashBuild
  rw [Js.File.hashTarget_out]
  have e1 : (fs.write (txt "out/www/" ++ x) text) (txt "out/www/" ++ x ++ txt ".hash") = none := by
    simp only [Fs.write, if_neg (Js.File.hash_ne x)]; exact h2
  have e2 : (fs.write (txt "out/www/" ++ x) text) (txt "out/www/" ++ x) = some text := by simp [Fs.write]
  dsimp only
  rw [e1, e2]
  rfl

theorem constants_own {digest : Bytes → Bytes} {text : Bytes} {x : Text} {fs fs1 : Fs} {b : Handlers.Built}
    (h : Handlers.constantsBuild digest text (txt "src/public/" ++ x) fs = .ok (b, fs1)) : b.children = [] ∧
    ∀ o ∈ b.produced ++ b.reused, o = copyOf x ∨ o = hashOf x := by
  unfold Handlers.constantsBuild at h
  rw [Js.File.copyTarget_name] at h
  dsimp only at h
  split at h
  · cases h
  · next hh fs2 he =>
    obtain ⟨-, h2, h3⟩ := Handlers.hashBuild_outputs (Js.File.hashTarget_out x) he
    cases h
    refine ⟨h3, fun o ho => ?_⟩
    simp only [List.mem_append] at ho
    have hq : o ∈ hh.produced ∨ o ∈ hh.reused → o = hashOf x := fun h => (h2 o).1 h
    have hc : ∀ l1 l2 : List Text, (∀ o ∈ l1, o = copyOf x) → (∀ o ∈ l2, o = copyOf x) → (o ∈ l1 ∨ o ∈ hh.produced) ∨ (o ∈ l2 ∨ o ∈ hh.reused) →
        o = copyOf x ∨ o = hashOf x := by
      rintro l1 l2 q1 q2 ((h | h) | (h | h))
      · exact .inl (q1 o h)
      · exact .inr (hq (.inl h))
      · exact .inl (q2 o h)
      · exact .inr (hq (.inr h))
    refine hc _ _ ?_ ?_ ho
    · split <;> simp [copyOf]
    · split <;> simp [copyOf]

/-- A copied file, if nothing is there. -/
theorem copy_bare {digest : Bytes → Bytes} {x : Text} {fs : Fs} (h1 : fs (copyOf x) = none) (h2 : fs (hashOf x) = none) {y : Bytes}
    (hy : fs (txt "src/public/" ++ x) = some y) :
    Handlers.copyAndHashBuild digest (txt "src/public/" ++ x) fs =
      .ok (⟨[], [copyOf x, hashOf x], []⟩, (fs.write (copyOf x) y).write (hashOf x) (digest y)) := by
  have h1' : fs (txt "out/www/" ++ x) = none := h1
  have hne : txt "src/public/" ++ x ≠ txt "out/www/" ++ x := by
    have e5 : txt "src/public/" = 115 :: txt "rc/public/" := by decide
    have e6 : txt "out/www/" = 111 :: txt "ut/www/" := by decide
    rw [e5, e6]; simp
  unfold Handlers.copyAndHashBuild Handlers.copyBuild
  rw [Js.File.copyTarget_name]
  simp only [h1', hy]
  unfold Handlers.hashBuild
  rw [Js.File.hashTarget_name]
  have e1 : (fs.write (txt "out/www/" ++ x) y) (txt "out/www/" ++ x ++ txt ".hash") = none := by
    simp only [Fs.write, if_neg (Js.File.hash_ne x)]; exact h2
  have e2 : (fs.write (txt "out/www/" ++ x) y) (txt "src/public/" ++ x) = some y := by simp only [Fs.write, if_neg hne]; exact hy
  dsimp only
  rw [e1, e2]
  rfl

theorem copy_own {digest : Bytes → Bytes} {x : Text} {fs fs1 : Fs} {b : Handlers.Built}
    (h : Handlers.copyAndHashBuild digest (txt "src/public/" ++ x) fs = .ok (b, fs1)) : b.children = [] ∧
    ∀ o ∈ b.produced ++ b.reused, o = copyOf x ∨ o = hashOf x := by
  unfold Handlers.copyAndHashBuild at h
  split at h
  · cases h
  · next cc fs2 hc =>
    split at h
    · cases h
    · next hh fs3 he =>
      obtain ⟨-, h2, h3⟩ := Handlers.hashBuild_outputs (Js.File.hashTarget_name x) he
      have hcp : cc.children = [] ∧ ∀ o, o ∈ cc.produced ∨ o ∈ cc.reused → o = copyOf x := by
        unfold Handlers.copyBuild at hc
        rw [Js.File.copyTarget_name] at hc
        dsimp only at hc
        split at hc
        · cases hc; simp [copyOf]
        · split at hc
          · cases hc
          · cases hc; simp [copyOf]
      cases h
      refine ⟨by simp [hcp.1, h3], fun o ho => ?_⟩
      simp only [List.mem_append] at ho
      rcases ho with (h | h) | (h | h)
      · exact .inl (hcp.2 o (.inl h))
      · exact .inr ((h2 o).1 (.inl h))
      · exact .inl (hcp.2 o (.inr h))
      · exact .inr ((h2 o).1 (.inr h))

/-- With the copy and the hash of the same contents. -/
theorem write_same {fs fs' : Fs} {x : Text} {y z : Bytes} : ∀ o ∈ [copyOf x, hashOf x],
    ((fs'.write (copyOf x) y).write (hashOf x) z) o = ((fs.write (copyOf x) y).write (hashOf x) z) o ∧ ((fs.write (copyOf x) y).write (hashOf x) z) o ≠ none := by
  intro o ho
  simp only [List.mem_cons, List.not_mem_nil, or_false] at ho
  rcases ho with rfl | rfl <;> simp [Fs.write] <;> split <;> simp

/-- The outputs of a stylesheet. -/
theorem sheet_own {fuel n : Nat} {env : Css.Page.Env} {x : Text} {fs fs1 : Fs} {b : Handlers.Built}
    (hp : Css.Page.plainFile fuel n env (txt "src/public/" ++ x) fs = true) (h : Css.Page.buildFile fuel n env (txt "src/public/" ++ x) fs = some (.ok (b, fs1))) :
    ∀ o ∈ b.produced ++ b.reused, o = copyOf x ∨ o = hashOf x := by
  unfold Css.Page.buildFile at h
  unfold Css.Page.plainFile at hp
  rw [Js.File.copyTarget_name] at h
  dsimp only at h
  split at h
  · cases h
  · next y hy =>
    split at h
    · cases h
    · next ts hts =>
      obtain ⟨z, hrun, h2⟩ := Option.map_eq_some_iff.1 h
      simp only [hy, hts, hrun] at hp
      cases z with
      | error e => cases h2
      | ok z =>
        obtain ⟨out, s⟩ := z
        have hq : Css.Page.Flat s.st := of_decide_eq_true hp
        dsimp only at h2
        split at h2
        · cases h2
        · next hh fs2 he =>
          obtain ⟨-, q2, q3⟩ := Handlers.hashBuild_outputs (Js.File.hashTarget_out x) he
          cases h2
          intro o ho
          obtain ⟨⟨a1, a2, a3, a4, a5, a6, a7⟩, -, -⟩ := hq
          simp only [Css.Page.buildResult, List.foldl_cons, List.foldl_nil, Css.Page.merge, a1, a2, a3, a4, a5, a6, a7, List.mem_append, Icons.mem_addAll,
            List.mem_filter, List.filter_nil, List.not_mem_nil, or_false, false_or, List.mem_singleton, false_and] at ho
          rcases ho with (ho | ho) | ho
          · exact .inl ho
          · exact .inr ((q2 o).1 (.inl ho))
          · exact .inr ((q2 o).1 (.inr ho.1))

theorem page_imageless (c : Config) (scan : Bool) (rel : Text) (fs : Fs) : Html.Page.Imageless (pageEnv c scan rel fs) := by
  intro t d h
  cases t with
  | comment data =>
    simp only [Html.Page.command, Img.getCommand] at h
    split at h
    · cases h
    · split at h
      · cases h
      · next y hy =>
        unfold Img.parseCommand at hy
        split at hy
        · simp [pageEnv] at hy
        · cases hy
  | _ => cases h

theorem page_kindred (c : Config) (rel : Text) (fs fs' : Fs) : Html.Page.Kindred (pageEnv c false rel fs) (pageEnv c false rel fs') :=
  ⟨rfl, rfl, rfl, rfl, rfl, rfl, rfl, rfl, rfl, rfl, rfl, rfl, rfl, fun _ h => h⟩

/-- The handler of pages, for a page. -/
theorem pageBuild_iff {c : Config} {x : Text} {fs : Fs} {r : Handlers.Built × Fs} : pageBuild c (txt "src/public/" ++ x) fs = some r ↔
    Html.Page.plainPage c.fuel (pageEnv c false (txt "src/public/" ++ x) fs) fs = true ∧
    Html.Page.buildFile c.fuel (pageEnv c false (txt "src/public/" ++ x) fs) fs = some (.ok r) ∧
    ∀ d ∈ r.1.children, txt "src/public/" <+: d ∨ txt "src/partials/" <+: d := by
  unfold pageBuild
  rw [Js.File.copyTarget_name]
  simp only [Option.isNone_some, Bool.false_or]
  constructor
  · intro h
    split at h
    · next hp =>
      obtain ⟨r', h1, h2⟩ := Option.bind_eq_some_iff.1 h
      obtain ⟨e, h3, h4⟩ := Option.bind_eq_some_iff.1 h1
      have h4 := toOption_some h4
      subst h4
      split at h2
      · next hall =>
        cases h2
        refine ⟨hp, h3, fun d hd => ?_⟩
        have := List.all_eq_true.1 hall d hd
        simpa [List.isPrefixOf_iff_prefix] using this
      · cases h2
    · cases h
  · rintro ⟨h1, h2, h3⟩
    rw [if_pos h1, h2]
    have : (r.1.children.all fun d => (txt "src/public/").isPrefixOf d || (txt "src/partials/").isPrefixOf d) = true :=
      List.all_eq_true.2 fun d hd => by simpa [List.isPrefixOf_iff_prefix] using h3 d hd
    simp only [Option.bind_some, Except.toOption, this, if_true]

/-- The outputs of a page. -/
theorem page_own {c : Config} {x : Text} {fs fs1 : Fs} {b : Handlers.Built} (h : pageBuild c (txt "src/public/" ++ x) fs = some (b, fs1)) :
    ∀ o ∈ b.produced ++ b.reused, o = copyOf x ∨ o = hashOf x := by
  obtain ⟨hp, h, -⟩ := pageBuild_iff.1 h
  have hn := page_imageless c false (txt "src/public/" ++ x) fs
  have hb : (pageEnv c false (txt "src/public/" ++ x) fs).scan = false := rfl
  have hrel : (pageEnv c false (txt "src/public/" ++ x) fs).rel = txt "src/public/" ++ x := rfl
  generalize pageEnv c false (txt "src/public/" ++ x) fs = env at *
  unfold Html.Page.buildFile at h
  unfold Html.Page.plainPage at hp
  rw [hrel, Js.File.copyTarget_name] at h
  rw [hrel] at hp
  dsimp only at h
  split at h
  · cases h
  · next y hy =>
    split at h
    · cases h
    · next ts hts =>
      obtain ⟨z, hrun, h2⟩ := Option.map_eq_some_iff.1 h
      simp only [hy, hts, hrun] at hp
      cases z with
      | error e => cases h2
      | ok z =>
        obtain ⟨out, s⟩ := z
        have hq : Html.Page.Bookish s.st := of_decide_eq_true hp
        rw [← hrel] at hrun
        have K := (Html.Page.run_reads hb hn hrun hq).1
        dsimp only at h2
        split at h2
        · cases h2
        · next hh fs2 he =>
          obtain ⟨-, q2, q3⟩ := Handlers.hashBuild_outputs (Js.File.hashTarget_out x) he
          split at h2
          · cases h2
          · next deps hd =>
            cases h2
            intro o ho
            simp only [List.foldl_cons, List.foldl_nil, Css.Page.merge, K.made, K.images, List.mem_append, Icons.mem_addAll,
              List.mem_filter, List.filter_nil, List.not_mem_nil, or_false, false_or, List.mem_singleton, false_and] at ho
            rcases ho with (ho | ho) | ho
            · exact .inl ho
            · exact .inr ((q2 o).1 (.inl ho))
            · exact .inr ((q2 o).1 (.inr ho.1))

/-- What is read because of a link. -/
theorem readAt_link {c : Config} {rel p : Text} (hcss : ¬ (txt ".css").isSuffixOf rel = true) (hh : (txt ".html").isSuffixOf rel = true)
    (hp : txt "src/public/" <+: join (join (txt "src") (txt "public")) p) :
    readAt c rel (join (join (txt "src") (txt "public")) p) = Html.linkHashFile [] p := by
  have e0 : join (txt "src") (txt "public") = txt "src/public" := by decide
  have e1 : (txt "src/public").getLast? = some 99 := by decide
  have e2 : txt "src/public" ≠ [] := by decide
  have e3 : txt "src/public/" = txt "src/public" ++ [47] := by decide
  have f1 : (txt "out/www").getLast? = some 119 := by decide
  have f2 : txt "out/www" ≠ [] := by decide
  have f3 : txt "out/www/" = txt "out/www" ++ [47] := by decide
  have hrel : isAbs p = false := by
    by_cases ha : isAbs p = true
    · exfalso
      rw [e0] at hp
      unfold join at hp
      rw [if_pos ha] at hp
      obtain ⟨y, rfl⟩ := hp
      exact absurd ha (by rw [show txt "src/public/" = 115 :: txt "rc/public/" by decide]; simp [isAbs])
    · simpa using ha
  have hj : join (join (txt "src") (txt "public")) p = txt "src/public/" ++ p := by
    rw [e0]
    unfold join
    rw [hrel, e1]
    simp [e2, e3]
  rw [hj, Html.Page.linkFile]
  unfold readAt
  rw [if_neg hcss, if_pos hh, if_neg, List.drop_left]
  · unfold join
    rw [hrel, f1]
    simp [f2, f3]
  · intro h
    obtain ⟨y, hy⟩ := List.isPrefixOf_iff_prefix.1 h
    have := congrArg (fun l => l[5]?) hy
    simp [txt] at this

theorem join_nil (p : Text) : join [] p = p := by unfold join; split <;> simp

theorem readAt_partial {c : Config} {rel p : Text} (hcss : ¬ (txt ".css").isSuffixOf rel = true) (hh : (txt ".html").isSuffixOf rel = true)
    (hp : txt "src/partials/" <+: p) : readAt c rel p = p := by
  unfold readAt
  rw [if_neg hcss, if_pos hh, if_pos (List.isPrefixOf_iff_prefix.2 hp)]

theorem page_fine {c : Config} {m : Mode} {x : Text} {fs fs1 : Fs} {b : Handlers.Built} (hk : ¬ txt "src/public/" ++ x = txt c.constants)
    (hcss : ¬ (txt ".css").isSuffixOf (txt "src/public/" ++ x) = true) (hh : (txt ".html").isSuffixOf (txt "src/public/" ++ x) = true)
    (h : pageBuild c (txt "src/public/" ++ x) fs = some (b, fs1)) : Fine c m x fs b fs1 := by
  obtain ⟨hp, hb, hall⟩ := pageBuild_iff.1 h
  have hn := page_imageless c false (txt "src/public/" ++ x) fs
  have key : ∀ links deps, b = Html.Page.report x links deps →
      (∀ d ∈ links, ∃ p, d = join (join (txt "src") (txt "public")) p ∧ fs (Html.linkHashFile [] p) ≠ none) →
      (∀ d ∈ deps, (pageEnv c false (txt "src/public/" ++ x) fs).tpl.files (join [] d) ≠ none) →
      (∀ p, join (join (txt "src") (txt "public")) p ∈ links → join (join (txt "src") (txt "public")) p ∈ b.children ∧
        readAt c (txt "src/public/" ++ x) (join (join (txt "src") (txt "public")) p) = Html.linkHashFile [] p) ∧
      (∀ d ∈ deps, d ∈ b.children ∧ readAt c (txt "src/public/" ++ x) d = d ∧ txt "src/partials/" <+: d ∧ fs d ≠ none) := by
    intro links deps hr hl hd
    constructor
    · intro p hpl
      have hc : join (join (txt "src") (txt "public")) p ∈ b.children := by rw [hr]; exact (Html.Page.mem_report.1 _).2 (.inl hpl)
      refine ⟨hc, readAt_link hcss hh ?_⟩
      rcases hall _ hc with h | h
      · exact h
      · exfalso
        have e0 : join (txt "src") (txt "public") = txt "src/public" := by decide
        obtain ⟨y, hy⟩ := h
        rw [e0] at hy
        unfold join at hy
        split at hy
        · next ha =>
          rw [← hy] at ha
          exact absurd ha (by rw [show txt "src/partials/" = 115 :: txt "rc/partials/" by decide]; simp [isAbs])
        · have e1 : (txt "src/public").getLast? = some 99 := by decide
          have e2 : txt "src/public" ≠ [] := by decide
          rw [e1] at hy
          simp only [e2, if_false] at hy
          have := congrArg (fun l => l[5]?) hy
          simp [txt] at this
    · intro d hdd
      have h1 := hd d hdd
      rw [join_nil] at h1
      simp only [pageEnv] at h1
      split at h1
      · next hpre =>
        have hpre := List.isPrefixOf_iff_prefix.1 hpre
        refine ⟨by rw [hr]; exact (Html.Page.mem_report.1 _).2 (.inr hdd), readAt_partial hcss hh hpre, hpre, fun hn => ?_⟩
        rw [hn] at h1
        exact h1 rfl
      · exact absurd rfl h1
  refine ⟨page_own h, fun h1 h2 => ?_, fun h1 h2 d hd => ?_, fun h1 h2 fs' h3 h4 h5 h6 => ?_⟩
  · obtain ⟨_, _, _, s, -, -, -, -, -, rfl, rfl⟩ := Html.Page.run_of_build rfl hn rfl h2 hb hp
    obtain ⟨-, m2, m3⟩ := Html.Page.mem_report (name := x) (links := s.st.links) (deps := s.st.tpl.deps)
    refine ⟨m3, fun o ho => ?_⟩
    rcases (m2 o).1 ho with rfl | rfl
    · simp [Html.Page.leave, Fs.write]
      split <;> simp
    · simp [Html.Page.leave, Fs.write]
  · obtain ⟨links, deps, hr, k1, k2, -⟩ := Html.Page.build_reads rfl hn rfl h2 hb hp
    obtain ⟨w1, w2⟩ := key links deps hr k1 k2
    rw [hr] at hd
    rcases (Html.Page.mem_report.1 d).1 hd with hd | hd
    · obtain ⟨p, rfl, h7⟩ := k1 d hd
      rw [(w1 p hd).2]; exact h7
    · rw [(w2 d hd).2.1]; exact (w2 d hd).2.2.2
  · obtain ⟨links, deps, hr, k1, k2, k3⟩ := Html.Page.build_reads rfl hn rfl h2 hb hp
    obtain ⟨w1, w2⟩ := key links deps hr k1 k2
    obtain ⟨fs1', q1, q2, q3⟩ := k3 (pageEnv c false (txt "src/public/" ++ x) fs') fs' (page_kindred _ _ _ _) h5 h4
      (fun p hp => by have := h6 _ (w1 p hp).1; rwa [(w1 p hp).2] at this)
      (fun d hd => by
        obtain ⟨a1, a2, a3, a4⟩ := w2 d hd
        have := h6 d a1
        rw [a2] at this
        show (pageEnv c false (txt "src/public/" ++ x) fs').tpl.files (join [] d) = (pageEnv c false (txt "src/public/" ++ x) fs).tpl.files (join [] d)
        rw [join_nil]
        simp only [pageEnv, this])
    refine ⟨fs1', ?_, q3⟩
    unfold dispatch
    rw [if_neg hk, if_neg hcss, if_pos hh]
    exact pageBuild_iff.2 ⟨q2, q1, hall⟩

theorem dispatch_fine {c : Config} {m : Mode} {x : Text} {fs fs1 : Fs} {b : Handlers.Built}
    (h : dispatch c m (txt "src/public/" ++ x) fs = some (b, fs1)) : Fine c m x fs b fs1 := by
  unfold dispatch at h
  split at h
  · next hk =>
    have h := toOption_some h
    obtain ⟨hc, ho⟩ := constants_own h
    refine ⟨ho, fun h1 h2 => ?_, fun h1 h2 => by simp [hc], fun h1 h2 fs' h3 h4 _ _ => ?_⟩
    · rw [constants_bare h1 h2] at h
      cases h
      exact ⟨rfl, fun o ho => (write_same (fs' := fs) o ho).2⟩
    · rw [constants_bare h1 h2] at h
      cases h
      refine ⟨_, by unfold dispatch; rw [if_pos hk, constants_bare h3 h4]; rfl, fun o ho => (write_same o ho).1⟩
  · next hk =>
   split at h
   · next hcss =>
    split at h
    · next hpl =>
      cases hb : Css.Page.buildFile c.fuel c.bound (sheetEnv c (txt "src/public/" ++ x) fs) (txt "src/public/" ++ x) fs with
      | none => rw [hb] at h; cases h
      | some r =>
        rw [hb] at h
        have := toOption_some h
        subst this
        have hread : ∀ d, readAt c (txt "src/public/" ++ x) d = Css.Page.readOf (sheetEnv c (txt "src/public/" ++ x) fs) d := fun d => by
          unfold readAt; rw [if_pos hcss]; rfl
        refine ⟨fun o ho => sheet_own hpl hb o ho, fun h1 h2 => ?_, fun h1 h2 d hd => ?_, fun h1 h2 fs' h3 h4 h5 h6 => ?_⟩
        · obtain ⟨_, _, _, s, -, -, -, q1, rfl, rfl⟩ := (Css.Page.build_bare h2).1 ⟨hb, hpl⟩
          obtain ⟨-, m2, m3⟩ := Css.Page.mem_report (name := x) q1.quiet
          refine ⟨m3, fun o ho => ?_⟩
          rcases (m2 o).1 ho with rfl | rfl
          · simp [Css.Page.leave, Fs.write]
            split <;> simp
          · simp [Css.Page.leave, Fs.write]
        · rw [hread]
          exact (Css.Page.build_reads h2 hb hpl c.tokens rfl rfl).1 d hd
        · obtain ⟨fs1', q1, q2, q3⟩ := (Css.Page.build_reads h2 hb hpl c.tokens rfl rfl).2 fs' h5 h4 fun d hd => by rw [← hread]; exact h6 d hd
          refine ⟨fs1', ?_, q3⟩
          unfold dispatch
          have e : sheetEnv c (txt "src/public/" ++ x) fs' = (sheetEnv c (txt "src/public/" ++ x) fs).with fun p => (fs' p).map c.tokens := rfl
          rw [if_neg hk, if_pos hcss, e, if_pos q2, q1]
          rfl
    · cases h
   · next hcss =>
    split at h
    · next hh => exact page_fine hk hcss hh h
    next hh =>
    have hread : ∀ d, readAt c (txt "src/public/" ++ x) d = Js.File.hashPath c.js d := fun d => by unfold readAt; rw [if_neg hcss, if_neg hh]
    split at h
    · next hj =>
      cases hb : Js.File.buildFile c.fuel c.js (txt "src/public/" ++ x) fs with
      | none => rw [hb] at h; cases h
      | some r =>
        rw [hb] at h
        have := toOption_some h
        subst this
        obtain ⟨-, -, out, s, -, -, -, hw, hr⟩ := Js.File.build_done hj hb
        refine ⟨fun o ho => ?_, fun h1 h2 => ?_, fun h1 h2 => ?_, fun h1 h2 fs' h3 h4 h5 h6 => ?_⟩
        · rcases List.mem_append.1 ho with ho | ho
          · exact ((hr.produced o).1 ho).imp id (·.1)
          · exact .inr ((hr.reused o).1 ho).1
        · refine ⟨?_, fun o ho => ?_⟩
          · refine List.eq_nil_iff_forall_not_mem.2 fun o ho => ((hr.reused o).1 ho).2 h2
          · rcases (hr.produced o).1 ho with rfl | ⟨rfl, -⟩
            · rw [hw.script]; simp
            · rw [hw.hash]; simp
        · simp only [hread]
          exact (Js.File.build_reads hj h2 hb).1
        · simp only [hread] at h6
          obtain ⟨fs1', q1, q2⟩ := (Js.File.build_reads hj h2 hb).2 fs' h5 h4 h6
          refine ⟨fs1', ?_, q2⟩
          unfold dispatch
          rw [if_neg hk, if_neg hcss, if_neg hh, if_pos hj, q1]
          rfl
    · next hj =>
      have h := toOption_some h
      obtain ⟨hc, ho⟩ := copy_own h
      have hy : fs (copyOf x) = none → ∃ y, fs (txt "src/public/" ++ x) = some y := by
        intro h1
        cases hy : fs (txt "src/public/" ++ x) with
        | some y => exact ⟨y, rfl⟩
        | none =>
          unfold Handlers.copyAndHashBuild Handlers.copyBuild at h
          rw [Js.File.copyTarget_name] at h
          have h1' : fs (txt "out/www/" ++ x) = none := h1
          simp [h1', hy] at h
      refine ⟨ho, fun h1 h2 => ?_, fun h1 h2 => by simp [hc], fun h1 h2 fs' h3 h4 h5 _ => ?_⟩
      · obtain ⟨y, hy⟩ := hy h1
        rw [copy_bare h1 h2 hy] at h
        cases h
        exact ⟨rfl, fun o ho => (write_same (fs' := fs) o ho).2⟩
      · obtain ⟨y, hy⟩ := hy h1
        rw [copy_bare h1 h2 hy] at h
        cases h
        refine ⟨_, by unfold dispatch; rw [if_neg hk, if_neg hcss, if_neg hh, if_neg hj, copy_bare h3 h4 (by rw [h5, hy])]; rfl, fun o ho => (write_same o ho).1⟩

theorem joinSegs_split : ∀ (x : Text), joinSegs (split x) = x := by
  intro x
  induction x with
  | nil => rfl
  | cons c cs ih =>
    unfold split
    split
    · next hc =>
      rw [Paths.joinSegs_cons _ (Paths.split_ne_nil cs), ih, hc]; rfl
    · split
      · next hs => exact absurd hs (Paths.split_ne_nil cs)
      · next y ys hs =>
        rw [hs] at ih
        by_cases hys : ys = []
        · subst hys
          simp only [joinSegs] at ih ⊢
          rw [ih]
        · rw [Paths.joinSegs_cons _ hys] at ih ⊢
          rw [← ih]; rfl

/-- The hash of `src/public/x` is the file `out/www/x.hash`. -/
theorem hashPath_public {env : Js.File.Env} (hc : isAbs env.cwd = true) {x : Text} (hx : Clean x) :
    Js.File.hashPath env (txt "src/public/" ++ x) = hashOf x := by
  have e : txt "src/public/" ++ x = joinSegs ([txt "src", txt "public"] ++ split x) := by
    have hne := Paths.split_ne_nil x
    show _ = joinSegs (txt "src" :: txt "public" :: split x)
    rw [Paths.joinSegs_cons _ (by simp), Paths.joinSegs_cons _ hne, joinSegs_split]
    rfl
  unfold Js.File.hashPath
  rw [e, Js.relpath_public hc hx (Paths.split_ne_nil x), joinSegs_split]
  have e1 : join (txt "out") (txt "www") = txt "out/www" := by decide
  have e2 : txt "out/www/" = txt "out/www" ++ [47] := by decide
  have e3 : (txt "out/www").getLast? = some 119 := by decide
  have e4 : txt "out/www" ≠ [] := by decide
  have hn : isAbs (x ++ txt ".hash") = false := by
    cases x with
    | nil => decide
    | cons a as =>
      have : a ≠ 47 := by
        rintro rfl
        have := hx [] (by simp [split])
        exact this.1.1 rfl
      simp [isAbs, this]
  rw [e1]
  unfold join
  rw [hn, e3]
  simp [e4, hashOf, copyOf, e2]

theorem fsOf_txt (W : Contents Bytes) (f : String) : fsOf W (txt f) = W f := by simp [fsOf, str_txt]

theorem bare_fs {k f : String} {x : Text} (hs : Source f) (hx : Public f x) {W : Contents Bytes} (h : Bare (project k) f W) :
    fsOf W (copyOf x) = none ∧ fsOf W (hashOf x) = none :=
  ⟨h _ (owner_iff.2 ⟨hs, x, hx, .inl (txt_copy hx)⟩), h _ (owner_iff.2 ⟨hs, x, hx, .inr (txt_hash hx)⟩)⟩

theorem scan_own {c : Config} {x : Text} {fs : Fs} {s : Scan} (h : dispatchScan c (txt "src/public/" ++ x) fs = some s) :
    ∀ o ∈ s.produces, o = copyOf x ∨ o = hashOf x := by
  have hcs : (Handlers.copyScan (txt "src/public/" ++ x)).produces = [copyOf x] := Handlers.copyScan_produces (Js.File.copyTarget_name x)
  have hhs : (Handlers.hashScan (txt "src/public/" ++ x)).produces = [hashOf x] := Handlers.hashScan_produces (Js.File.hashTarget_name x)
  unfold dispatchScan at h
  split at h
  · have h := toOption_some h
    unfold Handlers.constantsScan at h
    rw [Js.File.copyTarget_name] at h
    cases h
    simp [copyOf, hashOf]
  · split at h
    · obtain ⟨s', -, h2⟩ := Option.bind_eq_some_iff.1 h
      split at h2
      · next hall =>
        cases h2
        intro o ho
        have := hall o ho
        rw [hcs, hhs] at this
        simpa using this
      · cases h2
    split at h
    · obtain ⟨s', -, h2⟩ := Option.bind_eq_some_iff.1 h
      split at h2
      · next hall =>
        cases h2
        intro o ho
        have := hall o ho
        rw [hcs, hhs] at this
        simpa using this
      · cases h2
    split at h
    · next hj =>
      unfold Js.File.scanFile at h
      rw [hj] at h
      simp only [Bool.not_true, Bool.false_eq_true, if_false] at h
      split at h
      · cases h
      · split at h
        · cases h
        · obtain ⟨r, h1, h2⟩ := Option.bind_eq_some_iff.1 h
          obtain ⟨q, -, h3⟩ := Option.map_eq_some_iff.1 h1
          have h2 := toOption_some h2
          subst h2
          cases q with
          | error e => cases h3
          | ok q =>
            cases h3
            simp [hcs, hhs, Icons.mem_addAll]
    · cases h
      simp [Handlers.copyAndHashScan, hcs, hhs]

theorem child_txt {f : String} {d : Text} (h : Child f d) : txt (str d) = d := by
  obtain ⟨g, rfl, -⟩ := h
  rw [str_txt]

/-- The handlers make nothing of templates. -/
theorem partial_dispatch {c : Config} {m : Mode} {f : String} (hp : Partial f) {fs fs' : Fs} {b : Handlers.Built} (h : dispatch c m (txt f) fs = some (b, fs')) :
    b = ⟨[], [], []⟩ ∧ ∀ fs'', dispatch c m (txt f) fs'' = some (b, fs'') := by
  obtain ⟨x, hx, -, hh⟩ := hp
  have hc : Handlers.copyTarget (txt f) = none := by
    unfold Handlers.copyTarget
    rw [if_neg]
    intro h
    obtain ⟨y, hy⟩ := List.isPrefixOf_iff_prefix.1 h
    rw [hx] at hy
    have := congrArg (fun l => l[5]?) hy
    simp [txt, Handlers.srcPublic] at this
  have hncss : ¬ (txt ".css").isSuffixOf (txt f) = true := by
    intro h
    obtain ⟨a, ha⟩ := List.isSuffixOf_iff_suffix.1 h
    obtain ⟨b, hb⟩ := hh
    have := congrArg (fun l => l[l.length - 1]?) (ha.trans hb.symm)
    simp [txt] at this
  have hb : ∀ fs, pageBuild c (txt f) fs = some (⟨[], [], []⟩, fs) := fun fs => by
    unfold pageBuild Html.Page.buildFile
    have : Handlers.copyTarget (pageEnv c false (txt f) fs).rel = none := hc
    simp [hc, this, Except.toOption]
  unfold dispatch at h ⊢
  split at h
  · have h := toOption_some h
    unfold Handlers.constantsBuild at h
    rw [hc] at h
    cases h
  · next hk =>
    rw [if_pos (List.isSuffixOf_iff_suffix.2 hh), hb] at h
    cases h
    exact ⟨rfl, fun fs'' => by rw [if_neg hk, if_neg hncss, if_pos (List.isSuffixOf_iff_suffix.2 hh), hb]⟩

theorem partial_scan {c : Config} {f : String} (hp : Partial f) {fs : Fs} {s : Scan} (h : dispatchScan c (txt f) fs = some s) : s.produces = [] := by
  obtain ⟨x, hx, -, hh⟩ := hp
  have hc : Handlers.copyTarget (txt f) = none := by
    unfold Handlers.copyTarget
    rw [if_neg]
    intro h
    obtain ⟨y, hy⟩ := List.isPrefixOf_iff_prefix.1 h
    rw [hx] at hy
    have := congrArg (fun l => l[5]?) hy
    simp [txt, Handlers.srcPublic] at this
  have hncss : ¬ (txt ".css").isSuffixOf (txt f) = true := by
    intro h
    obtain ⟨a, ha⟩ := List.isSuffixOf_iff_suffix.1 h
    obtain ⟨b, hb⟩ := hh
    have := congrArg (fun l => l[l.length - 1]?) (ha.trans hb.symm)
    simp [txt] at this
  unfold dispatchScan at h
  split at h
  · have h := toOption_some h
    unfold Handlers.constantsScan at h
    rw [hc] at h
    cases h
  · rw [if_pos (List.isSuffixOf_iff_suffix.2 hh)] at h
    have : Handlers.copyTarget (pageEnv c true (txt f) fs).rel = none := hc
    unfold Html.Page.scanFile at h
    rw [this] at h
    simp only [Option.bind_some, Except.toOption] at h
    split at h
    · cases h; rfl
    · cases h

/-- A path without empty components is not absolute. -/
theorem clean_rel {x : Text} (hx : Clean x) : isAbs x = false := by
  cases x with
  | nil => rfl
  | cons a as =>
    have : a ≠ 47 := by
      rintro rfl
      have := hx [] (by simp [split])
      exact this.1.1 rfl
    simp [isAbs, this]

/-- The tokens of an imported stylesheet are those of its output. -/
theorem source_public {c : Config} {rel : Text} {fs : Fs} {g : String} {y : Text} (hg : Public g y) :
    Nest.source (sheetEnv c rel fs).nest (txt g) = if txt g = rel then txt g else copyOf y := by
  unfold Nest.source
  have e : (sheetEnv c rel fs).nest.self = rel := rfl
  rw [e]
  split
  · rfl
  · have e1 : join (txt "out") (txt "www") = txt "out/www" := by decide
    have e2 : (join (txt "src") (txt "public")).length + 1 = (txt "src/public/").length := by decide
    have e3 : (txt "out/www").getLast? = some 119 := by decide
    have e4 : txt "out/www" ≠ [] := by decide
    have e5 : txt "out/www/" = txt "out/www" ++ [47] := by decide
    rw [e2, hg.1, List.drop_left, e1]
    unfold join
    rw [clean_rel hg.2, e3]
    simp [e4, copyOf, e5]

/-- What is read because of a source: its output or its hash, or itself. -/
theorem readAt_public {c : Config} (hc : isAbs c.js.cwd = true) {rel : Text} {g : String} {y : Text} (hg : Public g y) :
    readAt c rel (txt g) = hashOf y ∨ readAt c rel (txt g) = copyOf y ∨ readAt c rel (txt g) = txt g ∧ txt g = rel := by
  unfold readAt
  split
  · right
    unfold Css.Page.readOf
    rw [if_pos (by rw [hg.1]; exact List.isPrefixOf_iff_prefix.2 ⟨y, rfl⟩)]
    rw [source_public hg]
    split
    · next h => exact .inr ⟨rfl, h⟩
    · exact .inl rfl
  · left
    split
    · rw [if_neg, hg.1, List.drop_left]; rfl
      intro h
      obtain ⟨y, hy⟩ := List.isPrefixOf_iff_prefix.1 h
      rw [hg.1] at hy
      have := congrArg (fun l => l[5]?) hy
      simp [txt] at this
    · rw [hg.1]
      exact hashPath_public hc hg.2

/-- Hashes are read themselves. -/
theorem readAt_hash {c : Config} {rel x : Text} (hcss : (txt ".css").isSuffixOf rel = true) : readAt c rel (hashOf x) = hashOf x := by
  unfold readAt
  rw [if_pos hcss]
  unfold Css.Page.readOf
  rw [if_neg]
  intro h
  obtain ⟨y, hy⟩ := List.isPrefixOf_iff_prefix.1 h
  have a1 : txt "src/public/" = 115 :: txt "rc/public/" := by decide
  have a2 : txt "out/www/" = 111 :: txt "ut/www/" := by decide
  simp [hashOf, copyOf, a1, a2] at hy

/-- The handlers keep to the rules. -/
theorem tool_lawful {c : Config} (hc : isAbs c.js.cwd = true) : (tool c).Lawful (project c.constants) where
  plain {o f} h := by
    obtain ⟨r, hr⟩ := output_toList (owner_iff.1 h).2
    simp [startsWith, hr, List.isPrefixOf]
  own {m f W r W' o} hs h ho := by
    obtain ⟨b, fs, hd, -, rfl, rfl⟩ := build_some h
    rcases id hs with ⟨x, hx, -⟩ | hpart
    swap
    · obtain ⟨rfl, -⟩ := partial_dispatch hpart hd
      simp at ho
    rw [hx.1] at hd
    rw [← List.map_append] at ho
    obtain ⟨o', h1, rfl⟩ := List.mem_map.1 ho
    rcases (dispatch_fine hd).own o' h1 with rfl | rfl
    · exact owner_iff.2 ⟨hs, x, hx, .inl (txt_copy hx)⟩
    · exact owner_iff.2 ⟨hs, x, hx, .inr (txt_hash hx)⟩
  bare {m f W r W'} hs h hb := by
    obtain ⟨b, fs, hd, -, rfl, rfl⟩ := build_some h
    rcases id hs with ⟨x, hx, -⟩ | hpart
    swap
    · obtain ⟨rfl, -⟩ := partial_dispatch hpart hd
      simp
    rw [hx.1] at hd
    have F := dispatch_fine hd
    obtain ⟨q1, q2⟩ := bare_fs hs hx hb
    obtain ⟨e1, e2⟩ := F.bare q1 q2
    refine ⟨by simp [e1], fun o ho => ?_⟩
    obtain ⟨o', h1, rfl⟩ := List.mem_map.1 ho
    have := e2 o' h1
    rcases F.own o' (by simp [h1]) with rfl | rfl
    · rwa [← txt_copy hx] at this
    · rwa [← txt_hash hx] at this
  strict {m f W r W' d} hs h hb hd' := by
    obtain ⟨b, fs, hd, hk, rfl, rfl⟩ := build_some h
    rcases id hs with ⟨x, hx, -⟩ | hpart
    swap
    · obtain ⟨rfl, -⟩ := partial_dispatch hpart hd
      simp at hd'
    rw [hx.1] at hd
    have F := dispatch_fine hd
    obtain ⟨q1, q2⟩ := bare_fs hs hx hb
    obtain ⟨d, h1, rfl⟩ := List.mem_map.1 hd'
    have := F.strict q1 q2 _ h1
    simpa [tool, child_txt (hk d h1), hx.1, fsOf] using this
  reads {m f W r W' V} hs h hb hv hf hr := by
    obtain ⟨b, fs, hd, hk, rfl, rfl⟩ := build_some h
    rcases id hs with ⟨x, hx, -⟩ | hpart
    swap
    · obtain ⟨rfl, q2⟩ := partial_dispatch hpart hd
      refine ⟨fun s => fsOf V (txt s), ?_, fun o ho => by simp at ho⟩
      simp only [tool, q2 (fsOf V)]
      rw [if_pos hk]
    have hd0 := hd
    rw [hx.1] at hd
    have F := dispatch_fine hd
    obtain ⟨q1, q2⟩ := bare_fs hs hx hb
    obtain ⟨v1, v2⟩ := bare_fs hs hx hv
    obtain ⟨fs1', e1, e2⟩ := F.reads q1 q2 (fsOf V) v1 v2 (by rw [← hx.1, fsOf_txt, fsOf_txt, hf]) fun d h1 => by
      have h2 := hr (str d) (List.mem_map_of_mem h1)
      have e : (tool c).read f (str d) = str (readAt c (txt f) d) := by simp [tool, child_txt (hk d h1)]
      rw [e] at h2
      rw [← hx.1]
      simp only [fsOf]
      by_cases hn : (project c.constants).source (str (readAt c (txt f) d)) = f
      · cases ho : (project c.constants).owner (str (readAt c (txt f) d)) with
        | none =>
          have : str (readAt c (txt f) d) = f := by simpa [Project.source, ho] using hn
          rw [this, hf]
        | some g' =>
          have : g' = f := by simpa [Project.source, ho] using hn
          subst this
          rw [hb _ ho, hv _ ho]
      · exact h2 hn
    rw [← hx.1] at e1
    refine ⟨fun s => fs1' (txt s), ?_, fun o ho => ?_⟩
    · simp only [tool, e1]
      rw [if_pos hk]
    · obtain ⟨o', h1, rfl⟩ := List.mem_map.1 ho
      have h3 : txt (str o') = o' := by
        rcases F.own o' (by simp [h1]) with rfl | rfl
        · exact txt_copy hx
        · exact txt_hash hx
      dsimp only
      rw [h3, e2 o' h1]
  covers {m f W r W' d} hs h hd' hkn := by
    obtain ⟨b, fs, hd, hk, rfl, rfl⟩ := build_some h
    obtain ⟨d, h1, rfl⟩ := List.mem_map.1 hd'
    have e : (tool c).read f (str d) = str (readAt c (txt f) d) := by simp [tool, child_txt (hk d h1)]
    rw [e]
    obtain ⟨g, rfl, ⟨y, hg⟩ | ⟨hcss, g', x, hg, hgx⟩ | ⟨hh, y, hg, -, hg'⟩⟩ := hk d h1
    · rw [str_txt] at hkn ⊢
      have hsg : Source g := by
        rcases hkn with h | h
        · exact h
        · cases ho : (project c.constants).owner g with
          | none => exact absurd ho h
          | some g' =>
            obtain ⟨r, hr⟩ := output_toList (owner_iff.1 ho).2
            obtain ⟨r', hr'⟩ := toList_of_txt hg.1
            rw [hr'] at hr
            simp at hr
      have hsrc : (project c.constants).source g = g := by simp [Project.source, owner_source hsg]
      rw [hsrc]
      rcases readAt_public hc (rel := txt f) hg with h | h | ⟨h, h'⟩
      · rw [h, source_owner (owner_iff.2 ⟨hsg, y, hg, .inr (txt_hash hg)⟩)]
      · rw [h, source_owner (owner_iff.2 ⟨hsg, y, hg, .inl (txt_copy hg)⟩)]
      · rw [h, str_txt, hsrc]
    · rw [hgx, readAt_hash hcss]
    · rw [readAt_partial (fun hcss => ?_) hh ⟨y, hg.symm⟩]
      obtain ⟨a, ha⟩ := List.isSuffixOf_iff_suffix.1 hcss
      obtain ⟨b, hb⟩ := List.isSuffixOf_iff_suffix.1 hh
      have := congrArg (fun l => l[l.length - 1]?) (ha.trans hb.symm)
      simp [txt] at this
  mode {m m' f W} h := by
    have : txt f ≠ txt c.constants := fun e => h (txt_inj e)
    simp only [tool, dispatch, if_neg this]
  scans {f W s} h := by
    simp only [tool] at h
    split at h
    · next hs =>
      obtain ⟨s', h1, rfl⟩ := Option.map_eq_some_iff.1 h
      rcases id hs with ⟨x, hx, -⟩ | hpart
      swap
      · refine ⟨fun o ho => ?_, rfl⟩
        simp [partial_scan hpart h1] at ho
      rw [hx.1] at h1
      refine ⟨fun o ho => ?_, rfl⟩
      obtain ⟨o', h2, rfl⟩ := List.mem_map.1 ho
      rcases scan_own h1 o' h2 with rfl | rfl
      · exact owner_iff.2 ⟨hs, x, hx, .inl (txt_copy hx)⟩
      · exact owner_iff.2 ⟨hs, x, hx, .inr (txt_hash hx)⟩
    · cases h

/-- C80: for a project of scripts, stylesheets without icons and images, pages without images and inline elements, templates, copied files and
constants, two histories of finished rebuilds with the handlers which end with the same sources and in the same mode end with the same files in out/www, with the same contents. -/
theorem C80_scripts_partial {c : Config} (hc : isAbs c.js.cwd = true) (hk : Source c.constants) {m : Mode} {W1 W2 : Contents Bytes} {g1 g2 : Graphs}
    {m1 m2 : Option Mode} (h1 : Worked (project c.constants) (tool c) m W1 g1 m1) (h2 : Worked (project c.constants) (tool c) m W2 g2 m2)
    (hs : ∀ f, Source f → W1 f = W2 f) : ∀ o f, Source f → Output o f → W1 o = W2 o := by
  have hl := lawful c.constants
  have ht := tool_lawful hc
  intro o f hf ho
  exact C79_incremental_as_clean_partial hl (ht.pure hl) (h1.history hl ht hk) (h2.history hl ht hk) hs o (by rw [owner_iff.2 ⟨hf, ho⟩]; simp)

/-! ## What the files contain -/

/-- What out/www should contain for the source `src/public/x` with the contents `b`, if the contents of all files are `W`: the copy
`y`, and its hash.  In a script the lines with type hints are comments, and the module specifiers of the imports name the current hashes
of the files they import.  In a stylesheet
import commands are replaced by rules as they are now in the outputs of the stylesheets they name, and then URLs of files of the website
get the current hashes of these.  A page becomes what `Html.Page.Render` says, with the hashes and templates as they are now. -/
structure Current (c : Config) (m : Mode) (W : Contents Bytes) (f : String) (x : Text) (b y : Bytes) : Prop where
  copy : W (str (copyOf x)) = some y
  hash : W (str (hashOf x)) = some (c.js.digest y)
  constants : f = c.constants → y = c.text m
  plain : f ≠ c.constants → ¬ txt ".js" <:+ txt f → ¬ txt ".css" <:+ txt f → ¬ txt ".html" <:+ txt f → y = b
  script : f ≠ c.constants → txt ".js" <:+ txt f → ∃ ts, Js.tokenize (c.js.decode b) = some ts ∧
    (Js.Apart (Js.Hint c.js.space) ts → Js.NotAfterBlank (Js.Hint c.js.space) ts → ∃ cs out ds, Js.Commented (Js.Hint c.js.space) ts cs ∧
      Js.Hashed (Js.File.newPath c.js (txt f) (fsOf W)) (Js.File.fileOf c.js (txt f)) false cs out ds ∧ y = c.js.encode (Js.serializeMany out))
  sheet : f ≠ c.constants → txt ".css" <:+ txt f → ∃ ts, Css.tokenize c.sheet.nest.uni (c.js.decode b) = .ok ts ∧
    ∃ mid out, Nest.Result (sheetEnv c (txt f) (fsOf W)).nest ts (.ok mid) ∧ Css.Urls.Versioned (sheetEnv c (txt f) (fsOf W)).urls (fsOf W) mid out ∧
      y = c.js.encode (Css.serializeMany c.sheet.nest.uni out)
  page : f ≠ c.constants → txt ".html" <:+ txt f → ∃ ts, c.page.parse b = some ts ∧ ∃ out, y = c.page.write out ∧
    ∀ host stem, Html.Page.Fit (pageEnv c false (txt f) (fsOf W)) → c.page.host = some host → Html.Page.PageFile (txt f) stem →
      Html.Bal (pageEnv c false (txt f) (fsOf W)).tpl ts → Html.Page.Sane ts →
      ∃ w g, Html.Page.Render (pageEnv c false (txt f) (fsOf W)) host stem (Html.Page.World.start (fsOf W)) ⟨txt f, []⟩ ts out w g

theorem hashed_mono {new new' : Text → Option Text} {dep : Text → Text} (hn : ∀ s v, new s = some v → new' s = some v) {b : Bool} {ts out : List Js.Tok}
    {ds : List Text} (h : Js.Hashed new dep b ts out ds) : Js.Hashed new' dep b ts out ds := by
  induction h with
  | nil => exact .nil
  | keep h1 h2 _ ih => exact .keep h1 h2 ih
  | mark h1 _ ih => exact .mark h1 ih
  | ignored _ ih => exact .ignored ih
  | hash h1 h2 h3 _ ih => exact .hash h1 h2 (hn _ _ h3) ih
  | bad h1 h2 h3 _ ih => exact .bad h1 h2 h3 ih

/-- No file has both endings. -/
theorem css_js {t : Text} (h1 : txt ".css" <:+ t) (h2 : txt ".js" <:+ t) : False := by
  obtain ⟨a, rfl⟩ := h1
  obtain ⟨b, hb⟩ := h2
  have := congrArg (fun l => l[l.length - 2]?) hb
  simp [txt] at this

theorem html_js {t : Text} (h1 : txt ".html" <:+ t) (h2 : txt ".js" <:+ t) : False := by
  obtain ⟨a, rfl⟩ := h1
  obtain ⟨b, hb⟩ := h2
  have := congrArg (fun l => l[l.length - 1]?) hb
  simp [txt] at this

theorem html_css {t : Text} (h1 : txt ".html" <:+ t) (h2 : txt ".css" <:+ t) : False := by
  obtain ⟨a, rfl⟩ := h1
  obtain ⟨b, hb⟩ := h2
  have := congrArg (fun l => l[l.length - 1]?) hb
  simp [txt] at this

/-- What a build leaves if nothing is there. -/
theorem dispatch_current {c : Config} (hsp : Js.SpaceOk c.js.space) {m : Mode} {f : String} {x : Text} (hx : Public f x) {fs fs1 : Fs} {r : Handlers.Built}
    (h : dispatch c m (txt f) fs = some (r, fs1)) (h1 : fs (copyOf x) = none) (h2 : fs (hashOf x) = none) (h3 : f = c.constants → fs (txt f) ≠ none)
    {fs' : Fs} (hle : ∀ p y, fs p = some y → fs' p = some y)
    (hpar : ∀ p, txt "src/partials/" <+: p → fs' p = fs p) :
    ∃ b y, fs (txt f) = some b ∧ copyOf x ∈ r.produced ∧ hashOf x ∈ r.produced ∧ fs1 (copyOf x) = some y ∧ fs1 (hashOf x) = some (c.js.digest y) ∧
      (f = c.constants → y = c.text m) ∧ (f ≠ c.constants → ¬ txt ".js" <:+ txt f → ¬ txt ".css" <:+ txt f → ¬ txt ".html" <:+ txt f → y = b) ∧
      (f ≠ c.constants → txt ".js" <:+ txt f → ∃ ts, Js.tokenize (c.js.decode b) = some ts ∧
        (Js.Apart (Js.Hint c.js.space) ts → Js.NotAfterBlank (Js.Hint c.js.space) ts → ∃ cs out ds, Js.Commented (Js.Hint c.js.space) ts cs ∧
          Js.Hashed (Js.File.newPath c.js (txt f) fs) (Js.File.fileOf c.js (txt f)) false cs out ds ∧ y = c.js.encode (Js.serializeMany out))) ∧
      (f ≠ c.constants → txt ".css" <:+ txt f → ∃ ts, Css.tokenize c.sheet.nest.uni (c.js.decode b) = .ok ts ∧
        ∃ mid out, Nest.Result (sheetEnv c (txt f) fs').nest ts (.ok mid) ∧ Css.Urls.Versioned (sheetEnv c (txt f) fs').urls fs' mid out ∧
          y = c.js.encode (Css.serializeMany c.sheet.nest.uni out)) ∧
      (f ≠ c.constants → txt ".html" <:+ txt f → ∃ ts, c.page.parse b = some ts ∧ ∃ out, y = c.page.write out ∧
        ∀ host stem, Html.Page.Fit (pageEnv c false (txt f) fs') → c.page.host = some host → Html.Page.PageFile (txt f) stem →
          Html.Bal (pageEnv c false (txt f) fs').tpl ts → Html.Page.Sane ts →
          ∃ w g, Html.Page.Render (pageEnv c false (txt f) fs') host stem (Html.Page.World.start fs') ⟨txt f, []⟩ ts out w g) := by
  have hw : ∀ {y : Bytes}, ((fs.write (copyOf x) y).write (hashOf x) (c.js.digest y)) (copyOf x) = some y ∧
      ((fs.write (copyOf x) y).write (hashOf x) (c.js.digest y)) (hashOf x) = some (c.js.digest y) := by
    intro y
    constructor
    · simp [Fs.write, (hash_ne_copy x).symm]
    · simp [Fs.write]
  unfold dispatch at h
  split at h
  · next hk =>
    have hf : f = c.constants := txt_inj hk
    have h := toOption_some h
    obtain ⟨b, hb⟩ := Option.ne_none_iff_exists'.1 (h3 hf)
    rw [hx.1, constants_bare h1 h2] at h
    cases h
    exact ⟨b, c.text m, hb, by simp, by simp, hw.1, hw.2, fun _ => rfl, fun hn => absurd hf hn, fun hn => absurd hf hn, fun hn => absurd hf hn, fun hn => absurd hf hn⟩
  · next hk =>
    have hf : f ≠ c.constants := fun e => hk (by rw [e])
    split at h
    · next hj =>
      have hcss := List.isSuffixOf_iff_suffix.1 hj
      split at h
      · next hpl =>
        cases hb : Css.Page.buildFile c.fuel c.bound (sheetEnv c (txt f) fs) (txt f) fs with
        | none => rw [hb] at h; cases h
        | some r =>
          rw [hb] at h
          have := toOption_some h
          subst this
          have hnjs : ¬ txt ".js" <:+ txt f := fun hj' => css_js hcss hj'
          rw [hx.1] at hb hpl
          obtain ⟨b, ts, out, q1, q2, q3, q4, q5, q6, q7⟩ := Css.Page.build_plain h2 hb hpl c.tokens rfl rfl rfl
          obtain ⟨mid, q8, q9⟩ := q7 fs' hle
          refine ⟨b, _, by rw [hx.1]; exact q1, q3, q4, q5, q6, fun hh => absurd hh hf, fun _ _ hh => absurd hcss hh, fun _ hh => absurd hh hnjs, fun _ _ => ⟨ts, q2, mid, out, ?_, ?_, rfl⟩, fun _ hh => (html_css hh hcss).elim⟩
          · rw [hx.1]; exact q8
          · rw [hx.1]; exact q9
      · cases h
    have hncss : ¬ txt ".css" <:+ txt f := fun hh => by simp_all [List.isSuffixOf_iff_suffix]
    split at h
    · next hj =>
      have hhtml := List.isSuffixOf_iff_suffix.1 hj
      have hnjs : ¬ txt ".js" <:+ txt f := fun hj' => html_js hhtml hj'
      rw [hx.1] at h ⊢
      obtain ⟨hp, hb, -⟩ := pageBuild_iff.1 h
      obtain ⟨b, ts, out, q1, q2, q3, q4, q5, q6, q7⟩ := Html.Page.build_plain rfl (page_imageless _ _ _ _) rfl h2 hb hp
      have henv : pageEnv c false (txt "src/public/" ++ x) fs' = pageEnv c false (txt "src/public/" ++ x) fs := by
        have : (fun p => if (txt "src/partials/").isPrefixOf p then (fs' p).bind c.page.parse else none) =
            fun p => if (txt "src/partials/").isPrefixOf p then (fs p).bind c.page.parse else none := by
          funext p
          split
          · next hp => rw [hpar p (List.isPrefixOf_iff_prefix.1 hp)]
          · rfl
        unfold pageEnv
        rw [this]
      refine ⟨b, _, q1, q3, q4, q5, q6, fun hh => absurd hh hf, fun _ _ _ hh => absurd (hx.1 ▸ hhtml) hh, fun _ hh => absurd (hx.1 ▸ hh) hnjs,
        fun _ hh => absurd (hx.1 ▸ hh) hncss, fun _ _ => ⟨ts, q2, out, rfl, fun host stem a1 a2 a3 a4 a5 => ?_⟩⟩
      rw [henv] at a1 a4 ⊢
      exact q7 host stem a1 a2 a3 a4 a5 fs' hle
    have hnhtml : ¬ txt ".html" <:+ txt f := fun hh => by simp_all [List.isSuffixOf_iff_suffix]
    split at h
    · next hj =>
      have hjs := List.isSuffixOf_iff_suffix.1 hj
      cases hb : Js.File.buildFile c.fuel c.js (txt f) fs with
      | none => rw [hb] at h; cases h
      | some r =>
        rw [hb] at h
        have := toOption_some h
        subst this
        rw [hx.1] at hb hj hjs ⊢
        obtain ⟨b, ts, out, s, q1, q2, q3, q4, q5⟩ := Js.File.build_done hj hb
        refine ⟨b, _, q1, (q5.produced _).2 (.inl rfl), (q5.produced _).2 (.inr ⟨rfl, h2⟩), q4.script, ?_, fun hh => absurd hh hf, fun _ hh _ => absurd hjs hh, fun _ _ => ?_, fun _ hh => absurd (hx.1 ▸ hh) hncss, fun _ hh => absurd (hx.1 ▸ hh) hnhtml⟩
        · have := q4.hash
          rw [show fs (txt "out/www/" ++ x ++ txt ".hash") = none from h2] at this
          exact this
        · obtain ⟨ts', t1, t2⟩ := Js.File.C70_hints_partial hsp hjs q1
          refine ⟨ts', t1, fun hn hn2 => ?_⟩
          obtain ⟨cs, ds, hcs, -, ⟨fuel, r', fs', out', w1, w2, w3, -⟩ | ⟨fuel, e, w1, -⟩⟩ := t2 hn hn2
          · have := Js.File.build_unique hb w1
            cases this
            refine ⟨cs, out', ds, hcs, w2, ?_⟩
            have := w3.script
            rw [q4.script] at this
            exact Option.some.inj this
          · exact absurd (Js.File.build_unique hb w1) (by simp)
    · next hj =>
      have hjs : ¬ txt ".js" <:+ txt f := fun hh => hj (List.isSuffixOf_iff_suffix.2 hh)
      have h := toOption_some h
      cases hy : fs (txt f) with
      | none =>
        unfold Handlers.copyAndHashBuild Handlers.copyBuild at h
        rw [hx.1, Js.File.copyTarget_name] at h
        rw [hx.1] at hy
        have h1' : fs (txt "out/www/" ++ x) = none := h1
        simp [h1', hy] at h
      | some b =>
        rw [hx.1] at hy h
        rw [copy_bare h1 h2 hy] at h
        cases h
        exact ⟨b, b, rfl, by simp, by simp, hw.1, hw.2, fun hh => absurd hh hf, fun _ _ _ _ => rfl, fun _ hh => absurd hh hjs, fun _ hh => absurd hh hncss, fun _ hh => absurd hh hnhtml⟩

/-- If everything is up to date out/www contains for every source the current copy and hash. -/
theorem upToDate_current {c : Config} (hsp : Js.SpaceOk c.js.space) {m : Mode} {W : Contents Bytes} {gs : Graphs}
    (U : UpToDate (project c.constants) ((tool c).builder (project c.constants)) m W gs) {f : String} {x : Text} (hf : Source f) (hx : Public f x) {b : Bytes}
    (hb : W f = some b) : ∃ y, Current c m W f x b y := by
  have hl := lawful c.constants
  obtain ⟨p, h1, h2, -, -⟩ := U.built f ((U.files f).2 ⟨hf, by simp [hb]⟩)
  obtain ⟨-, r, W', h3, rfl⟩ := Tool.builder_some h1
  obtain ⟨r', fs, h4, h5, rfl, rfl⟩ := build_some h3
  have hbare := bare_fs hf hx (hide_bare (project c.constants) f W)
  have hfw : fsOf (hide (project c.constants) f W) (txt f) = some b := by
    rw [fsOf_txt, hide_other (hl.owner_src hf f), hb]
  obtain ⟨b', y, q1, q2, q3, q4, q5, q6, q7, q8, q9, q10⟩ := dispatch_current hsp hx h4 hbare.1 hbare.2 (fun _ => by rw [hfw]; simp) (fs' := fsOf W) (fun p z hz => by
    simp only [fsOf, hide] at hz
    split at hz
    · cases hz
    · exact hz) fun p hp => by
    simp only [fsOf]
    rw [hide_other]
    intro ho
    obtain ⟨r, hr⟩ := output_toList (owner_iff.1 ho).2
    obtain ⟨y, rfl⟩ := hp
    simp [str, txt, String.toList_ofList] at hr
  rw [hfw] at q1
  cases q1
  refine ⟨y, h2 _ _ (Tool.mem_outputs.2 ⟨List.mem_map_of_mem q2, ?_⟩), h2 _ _ (Tool.mem_outputs.2 ⟨List.mem_map_of_mem q3, ?_⟩), q6, q7, fun e1 e2 => ?_, q9, q10⟩
  · rw [txt_copy hx]; exact q4
  · rw [txt_hash hx]; exact q5
  · obtain ⟨ts, t1, t2⟩ := q8 e1 e2
    refine ⟨ts, t1, fun hn hn2 => ?_⟩
    obtain ⟨cs, out, ds, tc, t3, t4⟩ := t2 hn hn2
    refine ⟨cs, out, ds, tc, hashed_mono (fun s v hv => ?_) t3, t4⟩
    obtain ⟨w, v1, v2⟩ := Option.map_eq_some_iff.1 hv
    refine Option.map_eq_some_iff.2 ⟨w, ?_, v2⟩
    simp only [fsOf, hide] at v1
    split at v1
    · cases v1
    · exact v1

/-- C80: after any history of finished rebuilds out/www contains for every source the current copy and hash. -/
theorem C80_current_partial {c : Config} (hc : isAbs c.js.cwd = true) (hsp : Js.SpaceOk c.js.space) (hk : Source c.constants) {m : Mode} {W : Contents Bytes} {gs : Graphs} {dm : Option Mode}
    (h : Worked (project c.constants) (tool c) m W gs dm) {f : String} {x : Text} (hf : Source f) (hx : Public f x) {b : Bytes} (hb : W f = some b) :
    ∃ y, Current c m W f x b y :=
  upToDate_current hsp ((h.history (lawful _) (tool_lawful hc) hk).upToDate (lawful _) ((tool_lawful hc).pure (lawful _))).1 hf hx hb

/-- C80: if the specifier `s` of an import names the file `src/public/z` then it becomes the path from the root with the hash of the
current contents of out/www/z as parameter. -/
theorem C80_specifier_partial {c : Config} (hc : isAbs c.js.cwd = true) (hsp : Js.SpaceOk c.js.space) (hk : Source c.constants) {m : Mode} {W : Contents Bytes} {gs : Graphs} {dm : Option Mode}
    (h : Worked (project c.constants) (tool c) m W gs dm) {rel s v : Text} {g : String} {z : Text} (hg : Source g) (hz : Public g z)
    (hs : Js.File.fileOf c.js rel s = txt g) (hv : Js.File.newPath c.js rel (fsOf W) s = some v) :
    ∃ y, W (str (copyOf z)) = some y ∧
      v = (Js.resolvePath c.js.cwd c.js.folder rel s).2 ++ txt "?v=" ++ Html.quotePlus c.js.enc (c.js.decode (c.js.digest y)) ++ txt "&pv=1.3.2" := by
  have hl := lawful c.constants
  have ht := tool_lawful hc
  obtain ⟨U, -⟩ := (h.history hl ht hk).upToDate hl (ht.pure hl)
  unfold Js.File.newPath at hv
  obtain ⟨w, h1, h2⟩ := Option.map_eq_some_iff.1 hv
  rw [show (Js.resolvePath c.js.cwd c.js.folder rel s).1 = txt g from hs, hz.1, hashPath_public hc hz.2] at h1
  have hin := (U.only _ _ (owner_iff.2 ⟨hg, z, hz, .inr (txt_hash hz)⟩) (by rw [show W (str (hashOf z)) = some w from h1]; simp)).1
  obtain ⟨b, hb⟩ := Option.ne_none_iff_exists'.1 ((U.files g).1 hin).2
  obtain ⟨y, hy⟩ := C80_current_partial hc hsp hk h hg hz hb
  refine ⟨y, hy.copy, ?_⟩
  rw [← h2]
  have : w = c.js.digest y := by
    have h1 : W (str (hashOf z)) = some w := h1
    rw [hy.hash] at h1
    exact (Option.some.inj h1).symm
  rw [this]

/-! ## Stylesheets -/

/-- The stylesheets `sheets` are there, and `rules` are their rules: of `f` itself the source is considered, of others the output.  No
two rules of a stylesheet have the same selector, and imports in rules are from these stylesheets. -/
structure Known (c : Config) (f : String) (W : Contents Bytes) (sheets : String → Prop) (rules : String → List (Text × List Css.Tok)) : Prop where
  there : ∀ g, sheets g → ∃ y z ts, Public g y ∧ W (if g = f then g else str (copyOf y)) = some z ∧
    Css.tokenize c.sheet.nest.uni (c.js.decode z) = .ok ts ∧ Nest.Sheet c.sheet.nest ts (rules g)
  distinct : ∀ g, sheets g → (Assoc.keys (rules g)).Nodup
  closed : ∀ g, sheets g → ∀ rule ∈ rules g, ∀ r, Nest.Imports c.sheet.nest rule.2 r → ∃ g', sheets g' ∧ r.relpath = txt g'

/-- The declarations of a rule. -/
def declarations (rules : String → List (Text × List Css.Tok)) : Nest.Ref → Option (List Css.Tok) := fun r => Assoc.item (rules (str r.relpath)) r.prelude

theorem sheet_same {env env' : Nest.Env} (h : ∀ p, Nest.nameOf env p = Nest.nameOf env' p) {ts : List Css.Tok} {rules : List (Text × List Css.Tok)}
    (hs : Nest.Sheet env ts rules) : Nest.Sheet env' ts rules := by
  induction hs with
  | eof => exact .eof
  | blank _ ih => exact .blank ih
  | comment _ ih => exact .comment ih
  | atRule h1 h2 _ ih => exact .atRule h1 h2 ih
  | rule h1 h2 h3 h4 h5 h6 _ ih => rw [h]; exact .rule h1 h2 h3 h4 h5 h6 ih

theorem expands_same {env env' : Nest.Env} (h : ∀ t, Nest.getImport env t = Nest.getImport env' t) {decls : Nest.Ref → Option (List Css.Tok)} {ts out : List Css.Tok}
    (hs : Nest.Expands env decls ts out) : Nest.Expands env' decls ts out := by
  induction hs with
  | nil => exact .nil
  | keep h1 _ ih => exact .keep (by rw [← h, h1]) ih
  | replace h1 h2 _ h4 _ ih1 ih2 => exact .replace (by rw [← h, h1]) h2 ih1 h4 ih2

/-- Of the stylesheets which are known, `Nest.Project`. -/
theorem Known.project {c : Config} (hpick : ∀ l, l ≠ [] → c.sheet.nest.pick l ∈ l)
    (htok : ∀ b ts, Css.tokenize c.sheet.nest.uni (c.js.decode b) = .ok ts → c.tokens b = ts) {f : String} {W : Contents Bytes} {sheets : String → Prop}
    {rules : String → List (Text × List Css.Tok)} (h : Known c f W sheets rules) :
    Nest.Project (sheetEnv c (txt f) (fsOf W)).nest (fun p => ∃ g, sheets g ∧ p = txt g) (fun p => rules (str p)) where
  pick := hpick
  source := by
    rintro _ _ ⟨g, hg, rfl⟩ ⟨g', hg', rfl⟩ hs
    obtain ⟨y, _, _, hy, -⟩ := h.there g hg
    obtain ⟨y', _, _, hy', -⟩ := h.there g' hg'
    have out_src : ∀ {a b : Text}, copyOf a ≠ txt "src/public/" ++ b := by
      intro a b hh
      have a1 : txt "src/public/" = 115 :: txt "rc/public/" := by decide
      have a2 : txt "out/www/" = 111 :: txt "ut/www/" := by decide
      simp [copyOf, a1, a2] at hh
    rw [source_public hy, source_public hy'] at hs
    split at hs
    · next e =>
      split at hs
      · exact hs
      · rw [hy.1] at hs; exact absurd hs.symm out_src
    · split at hs
      · rw [hy'.1] at hs; exact absurd hs out_src
      · have : y = y' := List.append_cancel_left hs
        subst this
        rw [hy.inj hy']
  files := by
    rintro _ ⟨g, hg, rfl⟩
    obtain ⟨y, z, ts, hy, hz, ht, hs⟩ := h.there g hg
    refine .inl ⟨ts, ?_, ?_⟩
    · have e : (sheetEnv c (txt f) (fsOf W)).nest.files (Nest.source (sheetEnv c (txt f) (fsOf W)).nest (txt g)) =
          (fsOf W (Nest.source (sheetEnv c (txt f) (fsOf W)).nest (txt g))).map c.tokens := rfl
      have e2 : fsOf W (Nest.source (sheetEnv c (txt f) (fsOf W)).nest (txt g)) = some z := by
        rw [source_public hy, ← hz]
        by_cases hgf : g = f
        · rw [if_pos (by rw [hgf]), if_pos hgf, fsOf_txt]
        · rw [if_neg fun e => hgf (txt_inj e), if_neg hgf]; rfl
      rw [e, e2, Option.map_some, htok z ts ht]
    · rw [str_txt]
      exact sheet_same (env := c.sheet.nest) (env' := (sheetEnv c (txt f) (fsOf W)).nest) (fun _ => rfl) hs
  distinct := by
    rintro _ ⟨g, hg, rfl⟩
    rw [str_txt]
    exact h.distinct g hg
  closed := by
    rintro _ ⟨g, hg, rfl⟩ rule hr r hi
    rw [str_txt] at hr
    exact h.closed g hg rule hr r hi

/-- C84: after any history of finished rebuilds the output of every stylesheet is the source with its import commands replaced by the
declarations of the rules which they name, as these are in the stylesheets as they are now, and then with hashes at the URLs of files of
the website.

Missing: stylesheets with icons or images, imports from what is not a stylesheet (of the form of `Nest.Sheet`), and files of other kinds
in the project. -/
theorem C84_rules_partial {c : Config} (hc : isAbs c.js.cwd = true) (hsp : Js.SpaceOk c.js.space) (hpick : ∀ l, l ≠ [] → c.sheet.nest.pick l ∈ l)
    (htok : ∀ b ts, Css.tokenize c.sheet.nest.uni (c.js.decode b) = .ok ts → c.tokens b = ts) (hk : Source c.constants) {m : Mode} {W : Contents Bytes} {gs : Graphs}
    {dm : Option Mode} (h : Worked (project c.constants) (tool c) m W gs dm) {f : String} {x : Text} (hf : Source f) (hx : Public f x) (hne : f ≠ c.constants)
    (hcss : txt ".css" <:+ x) {b : Bytes} (hb : W f = some b) :
    ∃ ts, Css.tokenize c.sheet.nest.uni (c.js.decode b) = .ok ts ∧
      ∀ (sheets : String → Prop) (rules : String → List (Text × List Css.Tok)), Known c f W sheets rules →
        (∀ r, Nest.Imports c.sheet.nest ts r → ∃ g, sheets g ∧ r.relpath = txt g) →
        ∃ mid out, Nest.Expands c.sheet.nest (declarations rules) ts mid ∧ Css.Urls.Versioned { c.sheet.urls with self := txt f } (fsOf W) mid out ∧
          W (str (copyOf x)) = some (c.js.encode (Css.serializeMany c.sheet.nest.uni out)) := by
  obtain ⟨y, hy⟩ := C80_current_partial hc hsp hk h hf hx hb
  obtain ⟨ts, h1, mid, out, h2, h3, rfl⟩ := hy.sheet hne (by rw [hx.1]; exact hcss.trans ⟨_, rfl⟩)
  refine ⟨ts, h1, fun sheets rules hr himp => ⟨mid, out, ?_, h3, hy.copy⟩⟩
  rcases Nest.C46_ends (hr.project hpick htok) ts himp with ⟨out', h4, h5⟩ | h5 | h5
  · have := Nest.Result.unique h2 h5
    cases this
    exact expands_same (env := (sheetEnv c (txt f) (fsOf W)).nest) (env' := c.sheet.nest) (fun _ => rfl) h4
  · cases Nest.Result.unique h2 h5
  · cases Nest.Result.unique h2 h5

/-- C84: a stylesheet without import commands. -/
theorem C84_simple_partial {c : Config} (hc : isAbs c.js.cwd = true) (hsp : Js.SpaceOk c.js.space) (hpick : ∀ l, l ≠ [] → c.sheet.nest.pick l ∈ l)
    (htok : ∀ b ts, Css.tokenize c.sheet.nest.uni (c.js.decode b) = .ok ts → c.tokens b = ts) (hk : Source c.constants) {m : Mode} {W : Contents Bytes} {gs : Graphs}
    {dm : Option Mode} (h : Worked (project c.constants) (tool c) m W gs dm) {f : String} {x : Text} (hf : Source f) (hx : Public f x) (hne : f ≠ c.constants)
    (hcss : txt ".css" <:+ x) {b : Bytes} (hb : W f = some b) :
    ∃ ts, Css.tokenize c.sheet.nest.uni (c.js.decode b) = .ok ts ∧ ((∀ r, ¬ Nest.Imports c.sheet.nest ts r) →
        ∃ out, Css.Urls.Versioned { c.sheet.urls with self := txt f } (fsOf W) ts out ∧
          W (str (copyOf x)) = some (c.js.encode (Css.serializeMany c.sheet.nest.uni out))) := by
  obtain ⟨ts, h1, h2⟩ := C84_rules_partial hc hsp hpick htok hk h hf hx hne hcss hb
  refine ⟨ts, h1, fun hno => ?_⟩
  obtain ⟨mid, out, h3, h4, h5⟩ := h2 (fun _ => False) (fun _ => []) ⟨fun _ h => h.elim, fun _ h => h.elim, fun _ h => h.elim⟩ fun r hr => (hno r hr).elim
  have := Nest.Expands.eq_of_pure (fun t ht => by
    cases hi : Nest.getImport c.sheet.nest t with
    | none => rfl
    | some r => exact (hno r ⟨t, ht, hi⟩).elim) h3
  subst this
  exact ⟨out, h4, h5⟩

/-- C84: the hash at a URL of the file `src/public/z` is that of the contents which `out/www/z` has now. -/
theorem C84_url_partial {c : Config} (hc : isAbs c.js.cwd = true) (hsp : Js.SpaceOk c.js.space) (hk : Source c.constants) {m : Mode} {W : Contents Bytes} {gs : Graphs} {dm : Option Mode}
    (h : Worked (project c.constants) (tool c) m W gs dm) {f : String} {mid out : List Css.Tok}
    (hv : Css.Urls.Versioned { c.sheet.urls with self := txt f } (fsOf W) mid out) {k : Nat} {t : Css.Tok} {v : Text} {g : String} {z : Text} (hg : Source g) (hz : Public g z)
    (ht : mid[k]? = some t) (hu : Css.Urls.UrlAt c.sheet.urls.lower mid k v) (hl : Css.Urls.Local (txt f) v z) :
    ∃ y, W (str (copyOf z)) = some y ∧ out[k]? = some (Css.Urls.withValue t (v ++ txt "?" ++ c.sheet.urls.query (c.js.digest y))) := by
  have hl' := lawful c.constants
  have htl := tool_lawful hc
  obtain ⟨U, -⟩ := (h.history hl' htl hk).upToDate hl' (htl.pure hl')
  obtain ⟨w, h1, h2⟩ := (hv.2 k t ht).1 v z hu hl
  have e : Css.Urls.hashFile z = hashOf z := rfl
  rw [e] at h1
  have hin := (U.only _ _ (owner_iff.2 ⟨hg, z, hz, .inr (txt_hash hz)⟩) (by rw [show W (str (hashOf z)) = some w from h1]; simp)).1
  obtain ⟨b, hb⟩ := Option.ne_none_iff_exists'.1 ((U.files g).1 hin).2
  obtain ⟨y, hy⟩ := C80_current_partial hc hsp hk h hg hz hb
  refine ⟨y, hy.copy, ?_⟩
  rw [h2]
  have : w = c.js.digest y := by
    have h1 : W (str (hashOf z)) = some w := h1
    rw [hy.hash] at h1
    exact (Option.some.inj h1).symm
  rw [this]

end Verif.Hot.Scripts
