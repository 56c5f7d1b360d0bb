import Verif.CssAgreeNest
import Verif.CssScanCase

/-!
# C78: the scan and the build of a stylesheet
-/

namespace Verif.Css.Page.AgreeToy

open Verif.Reader (Text txt)
open Verif.Css (Tok)
open Verif.Handlers (Bytes Fs)
open ScanToy (rel)

deriving instance DecidableEq for Icons.Button
deriving instance DecidableEq for Icons.Entry

/-- The other stylesheet, as it has been built. -/
def other : Text := txt ".b{e:url(\"/x.png?v=1\");f:url(/y.png?v=2)}"

/-- An imported rule, an icon, an image, and a file of the website. -/
def text : Text := txt ".a{/*! PREPROCESSOR: import .b from /css/b.css */c:url(\"data:image/svg+xml,<svg/>\");d:url(/i.png)}/*! PREPROCESSOR: icon check black all-colors [\"small\"] */"

def ts : List Tok := ((Css.tokenize Css.plainU text).toOption).getD []

/-- The project, with the other stylesheet. -/
def env : Env := { ScanToy.env with nest := Nest.Toy.env fun p => if p = txt "out/www/css/b.css" then (Css.tokenize Css.plainU other).toOption else none }

/-- With the source of the icon, and the hash of the image. -/
def files : Fs := fun p =>
  if p = rel then some text
  else if p = txt "src/public/img/icons/check.svg" then some (txt "<svg fill=\"#000000\"/>")
  else if p = txt "out/www/i.png.hash" then some (txt "abc")
  else none


theorem runs : ((buildFile 600 60 env rel files).map fun
    | .error _ => none
    | .ok (r, _) => some (r.children, r.produced, r.reused)) = some (some
    ([txt "src/public/css/b.css", txt "src/public/css/icons.css", txt "out/www/i.png.hash", txt "out/www/img/icons/check/black.svg.hash",
      txt "out/www/img/icons/check/red.svg.hash"],
     [txt "out/www/css/main.css", txt "out/www/css/main.css.hash", txt "out/www/img/icons/check/black.svg", txt "out/www/img/icons/check/black.svg.hash",
      txt "out/www/img/icons/check/red.svg", txt "out/www/img/icons/check/red.svg.hash",
      txt "out/www/img/gen/css/main/1.svg", txt "out/www/img/gen/css/main/1.svg.hash"], [])) := by decide +kernel

/-- The flag of the versioning manipulator, before every token. -/
def flags (env : Urls.Env) : Bool → List Tok → List (Bool × Tok)
  | _, [] => []
  | b, t :: ts => (b, t) :: flags env (Urls.flagAfter env b t) ts

theorem flags_spec (env : Urls.Env) : ∀ (ts pre : List Tok) (b : Bool), (b = true ↔ Urls.Inside env.lower pre pre.length) →
    ∀ (k : Nat) t, ts[k]? = some t → ∃ f, (f, t) ∈ flags env b ts ∧ (f = true ↔ Urls.Inside env.lower (pre ++ ts) (pre.length + k)) := by
  intro ts
  induction ts with
  | nil => intro _ _ _ k t h; simp at h
  | cons x ts ih =>
    intro pre b hb k t h
    cases k with
    | zero =>
      simp only [List.getElem?_cons_zero, Option.some.injEq] at h
      subst h
      refine ⟨b, by simp [flags], hb.trans (Urls.inside_prefix _ _ _ _ (by simp)).symm⟩
    | succ k =>
      obtain ⟨f, h1, h2⟩ := ih (pre ++ [x]) _ (Urls.flagAfter_inside hb x) k t (by simpa using h)
      refine ⟨f, by simp [flags, h1], ?_⟩
      rw [h2]
      simp [Nat.add_assoc, Nat.add_comm 1 k]

/-- The colors of the buttons of an icon. -/
def colored (i : Icons.Icon) : Bool :=
  let good := fun (b : Icons.Button) => decide (b.active ∈ i.colors ∧ b.hover ∈ i.colors ∧ b.disabled ∈ i.colors)
  match i.button with
  | none => true
  | some (d, named) => d.all good && named.all fun x => match x.2 with
    | .button b => good b
    | .letter _ => true

theorem colored_spec {i : Icons.Icon} (h : colored i = true) : Colored i := by
  intro d named hb
  unfold colored at h
  rw [hb] at h
  simp only [Bool.and_eq_true, List.all_eq_true] at h
  refine ⟨fun b hd => ?_, fun x hx b hxb => ?_⟩
  · subst hd; simpa using h.1
  · have := h.2 x hx
    rw [hxb] at this
    simpa using this

/-- What can be checked of a document by running it. -/
def check (x : Bool × Tok) : Bool :=
  (match Icons.getIcon env.icon x.2 with
  | .ok (some i) => !x.1 && colored i
  | _ => true) &&
  match Nest.getImport env.nest x.2 with
  | some r => !x.1 && decide (r.relpath = txt "src/public/css/b.css")
  | none => true

def settled : List Tok :=
  [.delim (txt "."), .ident (txt "b"), .leftCurly, .ident (txt "e"), .colon] ++ (.function (txt "url") :: [.str (txt "/x.png?v=1")] ++ .rightParens ::
    [.semicolon, .ident (txt "f"), .colon, .url (txt "/y.png?v=2"), .rightCurly, .eof])

theorem settled_other : Settled env settled := by
  have h : NoCommand env (.str (txt "/x.png?v=1")) := ⟨rfl, rfl⟩
  have hs : Settled env [.semicolon, .ident (txt "f"), .colon, .url (txt "/y.png?v=2"), .rightCurly, .eof] := by
    refine .one ⟨rfl, rfl⟩ (by simp) (by simp) (.one ⟨rfl, rfl⟩ (by simp) (by simp) (.one ⟨rfl, rfl⟩ (by simp) (by simp) (.one ⟨rfl, rfl⟩ (by simp) ?_ (.one ⟨rfl, rfl⟩ (by simp) (by simp)
      (.one ⟨rfl, rfl⟩ (by simp) (by simp) .nil)))))
    intro v hv
    cases hv
    decide +kernel
  refine .one ⟨rfl, rfl⟩ (by simp) (by simp) (.one ⟨rfl, rfl⟩ (by simp) (by simp) (.one ⟨rfl, rfl⟩ (by simp) (by simp) (.one ⟨rfl, rfl⟩ (by simp) (by simp)
    (.one ⟨rfl, rfl⟩ (by simp) (by simp) (.url (by decide +kernel) ?_ ?_ (by simp) (by simp) hs)))))
  · intro t ht
    simp only [List.mem_singleton] at ht
    subst ht
    exact ⟨h, by simp⟩
  · intro v hv
    simp only [List.mem_singleton, Tok.str.injEq] at hv
    subst hv
    decide +kernel

/-- The hypotheses of `C78_partial` are met by this stylesheet. -/
theorem C78_case : files rel = some text ∧ Css.tokenize Css.plainU text = .ok ts ∧ Data.Ended ts ∧ Urls.Rooted ts ∧ Icons.WellFormed env.icon ts ∧
    Icons.Slashless env.icon ts ∧ env.urls.lower (txt "url") = txt "url" ∧ env.urls.lower (txt "var") ≠ txt "url" ∧ Tame env ts := by
  have hw : Icons.WellFormed env.icon ts := Icons.IconToy.wellFormed Icons.IconToy.spaces (by decide +kernel)
  refine ⟨rfl, by decide +kernel, by decide +kernel, ?_, hw, Icons.IconToy.slashless Icons.IconToy.spaces hw (by decide) (by decide +kernel),
    by decide +kernel, by decide +kernel, ?_⟩
  · have h : ∀ t ∈ ts, ∀ v, (t = .str v ∨ t = .url v) → ¬ txt "//" <+: v := by
      have h1 : (ts.all fun t => match t with
        | .str v => decide (¬ txt "//" <+: v)
        | .url v => decide (¬ txt "//" <+: v)
        | _ => true) = true := by decide +kernel
      intro t ht v hv
      have h2 := List.all_eq_true.1 h1 t ht
      rcases hv with rfl | rfl <;> simpa using h2
    exact fun v hv => hv.elim (fun hv => h _ hv v (.inl rfl)) (fun hv => h _ hv v (.inr rfl))
  · have hc : (flags env.urls false ts).all check = true := by decide +kernel
    have hn : (false = true ↔ Urls.Inside env.urls.lower [] ([] : List Tok).length) := by simpa using Urls.not_inside_nil env.urls.lower
    constructor
    · intro k t i hk hi
      obtain ⟨f, h1, h2⟩ := flags_spec env.urls ts [] false hn k t hk
      simp only [List.nil_append, List.length_nil, Nat.zero_add] at h2
      have h3 := List.all_eq_true.1 hc _ h1
      obtain ⟨o, ho, h4⟩ := Icons.getIcon_spec env.icon Icons.IconToy.spaces hw (List.mem_of_getElem? hk)
      have h5 := (h4 i).2 hi
      subst h5
      simp only [check, ho, Bool.and_eq_true, Bool.not_eq_true'] at h3
      exact ⟨fun hh => by rw [h2.2 hh] at h3; exact absurd h3.1.1 (by simp), colored_spec h3.1.2⟩
    · intro k t r hk hr
      obtain ⟨f, h1, h2⟩ := flags_spec env.urls ts [] false hn k t hk
      simp only [List.nil_append, List.length_nil, Nat.zero_add] at h2
      have h3 := List.all_eq_true.1 hc _ h1
      simp only [check, hr, Bool.and_eq_true, Bool.not_eq_true', decide_eq_true_eq] at h3
      refine ⟨fun hh => by rw [h2.2 hh] at h3; exact absurd h3.2.1 (by simp), ?_, ?_⟩
      · rw [h3.2.2]; decide +kernel
      · rw [h3.2.2]
        intro g hg
        have h6 : env.nest.files (Nest.source env.nest (txt "src/public/css/b.css")) = some settled := by decide +kernel
        rw [h6] at hg
        cases hg
        exact settled_other

/-! ## What goes wrong -/

/-- A rule is imported which is defined behind another: both have image data. -/
def crossed : Text := txt ".c{/*! PREPROCESSOR: import .b */}.a{x:url(\"data:image/png,A\")}.b{x:url(\"data:image/svg+xml,B\")}"

def crossedEnv : Env := { ScanToy.env with nest := Nest.Toy.env fun p => if p = rel then (Css.tokenize Css.plainU crossed).toOption else none }

/-- The images are announced in the order in which they are written, and produced in the order in which they come with the
imported rules: `1.svg` has not been announced. -/
theorem C78_false_import :
    ((scanFile 60 crossedEnv rel fun p => if p = rel then some crossed else none).map fun
      | .error _ => none
      | .ok r => some r.produces) = some (some [txt "out/www/css/main.css", txt "out/www/css/main.css.hash",
        txt "out/www/img/gen/css/main/1.png", txt "out/www/img/gen/css/main/1.png.hash",
        txt "out/www/img/gen/css/main/2.svg", txt "out/www/img/gen/css/main/2.svg.hash"]) ∧
    ((buildFile 100 60 crossedEnv rel fun p => if p = rel then some crossed else none).map fun
      | .error _ => none
      | .ok (r, _) => some r.produced) = some (some [txt "out/www/css/main.css", txt "out/www/css/main.css.hash",
        txt "out/www/img/gen/css/main/1.svg", txt "out/www/img/gen/css/main/1.svg.hash",
        txt "out/www/img/gen/css/main/2.png", txt "out/www/img/gen/css/main/2.png.hash"]) := by
  constructor <;> decide +kernel

end Verif.Css.Page.AgreeToy
