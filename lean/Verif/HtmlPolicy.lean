import Verif.HtmlPageCase

/-!
# C103: built pages keep to the content security policy

The specification is the policy `default-src 'self'; object-src 'none'`, which the project is meant to be run under, as the
standards of Content Security Policy, HTML and URL read it: which tags of a page does a browser refuse?  Where the standards
are long the specification refuses more than they do, in the source as in the output.
-/

namespace Verif.Html.Policy

open Verif.Reader (Text txt)
open Verif.Assoc (item put ofList keys)
open Verif.Paths (join)
open Verif.Handlers (Bytes Fs Scan Built)
open Verif.Html.Page
open Verif.Img (digits)

variable {E J : Type}

/-! ## Specification -/

/-- The URL parser removes tabs and newlines everywhere, and spaces and control characters in front. -/
def clean (u : Text) : Text := (u.filter fun c => c ≠ 9 ∧ c ≠ 10 ∧ c ≠ 13).dropWhile fun c => c ≤ 32

/-- There is a colon before any of `/`, `?` and `#`, so there may be a scheme, as in `https:` and `data:`. -/
def HasScheme (u : Text) : Prop := ∃ s r, clean u = s ++ 58 :: r ∧ ∀ c ∈ s, c ≠ 47 ∧ c ≠ 63 ∧ c ≠ 35

/-- There may be a host: the URL begins with two slashes, or backslashes. -/
def HasHost (u : Text) : Prop := ∃ a b r, clean u = a :: b :: r ∧ (a = 47 ∨ a = 92) ∧ (b = 47 ∨ b = 92)

/-- The URL is one of this website, whatever the page is. -/
def Own (u : Text) : Prop := ¬ HasScheme u ∧ ¬ HasHost u

/-- The pieces between whitespace, commas or both. -/
def Piece (s x : Text) : Prop :=
  ∃ a b, s = a ++ x ++ b ∧ x ≠ [] ∧ (∀ c ∈ x, ¬ c ≤ 32 ∧ c ≠ 44) ∧ (∀ c, a.getLast? = some c → c ≤ 32 ∨ c = 44) ∧
    ∀ c, b.head? = some c → c ≤ 32 ∨ c = 44

/-- Links which make a browser load something, and the parts of `rel`. -/
def loadingRels : List Text := [txt "stylesheet", txt "preload", txt "modulepreload", txt "prefetch", txt "icon", txt "apple-touch-icon", txt "manifest"]

/-- `Loads name attrs u`: for the tag `name` with the attributes `attrs` a browser loads what the URL `u` refers to. -/
inductive Loads : Text → Attrs → Text → Prop
  | src {name u : Text} {attrs : Attrs} : item attrs (none, txt "src") = some u → Loads name attrs u
  | srcset {name x u : Text} {attrs : Attrs} : item attrs (none, txt "srcset") = some x → Piece x u → Loads name attrs u
  | poster {name u : Text} {attrs : Attrs} : item attrs (none, txt "poster") = some u → Loads name attrs u
  | link {r p u : Text} {attrs : Attrs} : item attrs (none, txt "rel") = some r → Piece r p → p ∈ loadingRels →
      item attrs (none, txt "href") = some u → Loads (txt "link") attrs u
  | svg {name u : Text} {ns : Option Text} {attrs : Attrs} : name ∈ [txt "image", txt "use", txt "feImage", txt "script"] →
      item attrs (ns, txt "href") = some u → Loads name attrs u

/-- Something the policy forbids in the attributes or the name of a tag: code or style in an attribute, a URL of another
origin, a script as a URL, or a plugin. -/
inductive Forbidden : Text → Attrs → Prop
  | handler {name x v : Text} {attrs : Attrs} : item attrs (none, txt "on" ++ x) = some v → Forbidden name attrs
  | style {name v : Text} {attrs : Attrs} : item attrs (none, txt "style") = some v → Forbidden name attrs
  | foreign {name u : Text} {attrs : Attrs} : Loads name attrs u → ¬ Own u → Forbidden name attrs
  | code {name a u r : Text} {attrs : Attrs} : a ∈ [txt "href", txt "action", txt "formaction"] → item attrs (none, a) = some u →
      clean u = txt "javascript:" ++ r → Forbidden name attrs
  | plugin {name : Text} {attrs : Attrs} : name ∈ [txt "object", txt "embed", txt "applet"] → Forbidden name attrs

/-- A browser refuses something because of the attributes or the name of the tag. -/
inductive Bad : HTok → Prop
  | start {name : Text} {attrs : Attrs} : Forbidden name attrs → Bad (.startTag name attrs)
  | empty {name : Text} {attrs : Attrs} : Forbidden name attrs → Bad (.emptyTag name attrs)

/-- A browser refuses something because of the tag: it begins an inline script or stylesheet, or is bad. -/
inductive Refused : HTok → Prop
  | script {attrs : Attrs} : item attrs (none, txt "src") = none → Refused (.startTag (txt "script") attrs)
  | style {attrs : Attrs} : Refused (.startTag (txt "style") attrs)
  | bad {t : HTok} : Bad t → Refused t

/-- A path of an exported file, relative to the website, which is found in a srcset (C76). -/
structure Tame (p : Pic) : Prop where
  chars : ∀ c ∈ p.relpath, ¬ c ≤ 32 ∧ c ≠ 44
  head : ∃ c r, p.relpath = c :: r ∧ c ≠ 47 ∧ c ≠ 92

/-- What is assumed of exported images. -/
def Exports (env : Env E J) : Prop :=
  ∀ fs c outputs r fs', env.exportImage fs c = .ok (outputs, r, fs') → ∀ o ∈ outputs, ∀ p ∈ o.2, Tame p

/-! ## URLs -/

theorem filter_slash {p : Text} : clean (47 :: p) = 47 :: p.filter fun c => c ≠ 9 ∧ c ≠ 10 ∧ c ≠ 13 := by
  simp [clean]

theorem own_slash {p : Text} (h : ∀ c r, (p.filter fun c => c ≠ 9 ∧ c ≠ 10 ∧ c ≠ 13) = c :: r → c ≠ 47 ∧ c ≠ 92) : Own (47 :: p) := by
  constructor
  · rintro ⟨s, r, h1, h2⟩
    rw [filter_slash] at h1
    cases s with
    | nil => simp at h1
    | cons c s =>
      simp only [List.cons_append, List.cons.injEq] at h1
      exact (h2 c (by simp)).1 h1.1.symm
  · rintro ⟨a, b, r, h1, -, h3⟩
    rw [filter_slash] at h1
    simp only [List.cons.injEq] at h1
    have := h b r h1.2
    omega

theorem own_second {c : Nat} {p : Text} (h : ¬ c ≤ 32 ∧ c ≠ 47 ∧ c ≠ 92) : Own (47 :: c :: p) := by
  refine own_slash fun x r hx => ?_
  have : c ≠ 9 ∧ c ≠ 10 ∧ c ≠ 13 := by omega
  simp only [List.filter_cons, this, ne_eq, not_false_eq_true, and_self, decide_true, if_true, List.cons.injEq] at hx
  omega

/-- Parameters behind the path do not matter. -/
theorem own_query {p q : Text} (h : Own (47 :: p)) : Own (47 :: p ++ 63 :: q) := by
  rw [List.cons_append]
  refine own_slash fun c r hc => ?_
  rw [List.filter_append] at hc
  cases hp : p.filter fun c => c ≠ 9 ∧ c ≠ 10 ∧ c ≠ 13 with
  | nil =>
    rw [hp] at hc
    simp at hc
    omega
  | cons x xs =>
    rw [hp] at hc
    simp only [List.cons_append, List.cons.injEq] at hc
    by_contra hcon
    apply h.2
    refine ⟨47, x, xs, by rw [filter_slash, hp], .inl rfl, ?_⟩
    omega

theorem query_eq (env : Env E J) (hash : Text) : ∃ q, query env hash = 63 :: q := by
  have e : txt "?v=" = [63, 118, 61] := by decide
  refine ⟨[118, 61] ++ quotePlus env.enc hash ++ txt "&pv=1.3.2", ?_⟩
  simp [query, e]

theorem clean_slash {p : Text} {r : Text} : clean (47 :: p) ≠ txt "javascript:" ++ r := by
  have e : txt "javascript:" = 106 :: txt "avascript:" := by decide
  rw [filter_slash, e]
  simp

theorem clean_https {p : Text} {r : Text} : clean (txt "https://" ++ p) ≠ txt "javascript:" ++ r := by
  have e : txt "javascript:" = 106 :: txt "avascript:" := by decide
  have e' : txt "https://" = 104 :: [116, 116, 112, 115, 58, 47, 47] := by decide
  rw [e, e']
  simp [clean]

/-! ## Tags whose attributes are changed -/

/-- The word at the beginning of an event attribute. -/
theorem on_ne {a x : Text} (h : ∃ c d r, a = c :: d :: r ∧ ¬ (c = 111 ∧ d = 110)) : txt "on" ++ x ≠ a := by
  have e : txt "on" = [111, 110] := by decide
  obtain ⟨c, d, r, rfl, h⟩ := h
  rw [e]
  intro he
  simp only [List.cons_append, List.nil_append, List.cons.injEq] at he
  exact h ⟨he.1.symm, he.2.1.symm⟩

/-- The attribute `a` was set to `v`. -/
structure Set (d d' : Attrs) (a v : Text) : Prop where
  set : item d' (none, a) = some v
  same : ∀ k, k ≠ (none, a) → item d' k = item d k

theorem ne_key {a b : Text} (h : a ≠ b) : ((none, a) : Option Text × Text) ≠ (none, b) := by simpa using h

/-- Setting `src` to a URL of the website makes nothing bad. -/
theorem forbidden_src {name v : Text} {d d' : Attrs} (h : Set d d' (txt "src") v) (hv : Own v) (hf : Forbidden name d') :
    Forbidden name d := by
  have k := fun (a : Text) (ha : a ≠ txt "src") => h.same (none, a) (ne_key ha)
  cases hf with
  | @handler x _ _ hx => exact .handler (x := x) ((k _ (on_ne ⟨115, 114, [99], by decide, by decide⟩)).symm.trans hx)
  | style hx => exact .style ((k _ (by decide)).symm.trans hx)
  | foreign hl ho =>
    cases hl with
    | src hx => rw [h.set] at hx; cases hx; exact absurd hv ho
    | srcset hx hp => exact .foreign (.srcset ((k _ (by decide)).symm.trans hx) hp) ho
    | poster hx => exact .foreign (.poster ((k _ (by decide)).symm.trans hx)) ho
    | link hr hp hm hx => exact .foreign (.link ((k _ (by decide)).symm.trans hr) hp hm ((k _ (by decide)).symm.trans hx)) ho
    | svg hm hx => exact .foreign (.svg hm ((h.same _ (by simp; intro _; decide)).symm.trans hx)) ho
  | @code a _ _ _ ha hx hj =>
    refine .code ha ((k a ?_).symm.trans hx) hj
    simp only [List.mem_cons, List.not_mem_nil, or_false] at ha
    rcases ha with rfl | rfl | rfl <;> decide
  | plugin hp => exact .plugin hp

/-- Setting `href` makes nothing bad, if it is a URL of the website or if nothing is loaded. -/
theorem forbidden_href {v : Text} {d d' : Attrs} (h : Set d d' (txt "href") v) (hj : ∀ r, clean v ≠ txt "javascript:" ++ r)
    (hv : Own v ∨ ∃ r, item d (none, txt "rel") = some r ∧ ∀ p, Piece r p → p ∉ loadingRels) (hf : Forbidden (txt "link") d') :
    Forbidden (txt "link") d := by
  have k := fun (a : Text) (ha : a ≠ txt "href") => h.same (none, a) (ne_key ha)
  cases hf with
  | @handler x _ _ hx => exact .handler (x := x) ((k _ (on_ne ⟨104, 114, [101, 102], by decide, by decide⟩)).symm.trans hx)
  | style hx => exact .style ((k _ (by decide)).symm.trans hx)
  | foreign hl ho =>
    cases hl with
    | src hx => exact .foreign (.src ((k _ (by decide)).symm.trans hx)) ho
    | srcset hx hp => exact .foreign (.srcset ((k _ (by decide)).symm.trans hx) hp) ho
    | poster hx => exact .foreign (.poster ((k _ (by decide)).symm.trans hx)) ho
    | link hr hp hm hx =>
      rw [h.set] at hx
      cases hx
      rcases hv with hv | ⟨r, h1, h2⟩
      · exact absurd hv ho
      · rw [k _ (by decide), h1] at hr
        cases hr
        exact absurd hm (h2 _ hp)
    | svg hm _ => exact absurd hm (by decide)
  | @code a _ _ _ ha hx hc =>
    by_cases he : a = txt "href"
    · subst he
      rw [h.set] at hx
      cases hx
      exact absurd hc (hj _)
    · exact .code ha ((k a he).symm.trans hx) hc
  | plugin hp => exact .plugin hp

/-- Setting `content` makes nothing bad. -/
theorem forbidden_content {name v : Text} {d d' : Attrs} (h : Set d d' (txt "content") v) (hf : Forbidden name d') :
    Forbidden name d := by
  have k := fun (a : Text) (ha : a ≠ txt "content") => h.same (none, a) (ne_key ha)
  cases hf with
  | @handler x _ _ hx => exact .handler (x := x) ((k _ (on_ne ⟨99, 111, txt "ntent", by decide, by decide⟩)).symm.trans hx)
  | style hx => exact .style ((k _ (by decide)).symm.trans hx)
  | foreign hl ho =>
    cases hl with
    | src hx => exact .foreign (.src ((k _ (by decide)).symm.trans hx)) ho
    | srcset hx hp => exact .foreign (.srcset ((k _ (by decide)).symm.trans hx) hp) ho
    | poster hx => exact .foreign (.poster ((k _ (by decide)).symm.trans hx)) ho
    | link hr hp hm hx => exact .foreign (.link ((k _ (by decide)).symm.trans hr) hp hm ((k _ (by decide)).symm.trans hx)) ho
    | svg hm hx => exact .foreign (.svg hm ((h.same _ (by simp; intro _; decide)).symm.trans hx)) ho
  | @code a _ _ _ ha hx hj =>
    refine .code ha ((k a ?_).symm.trans hx) hj
    simp only [List.mem_cons, List.not_mem_nil, or_false] at ha
    rcases ha with rfl | rfl | rfl <;> decide
  | plugin hp => exact .plugin hp

/-- `canonical` has one piece, which loads nothing. -/
theorem canonical_piece {p : Text} (h : Piece (txt "canonical") p) : p ∉ loadingRels := by
  obtain ⟨a, b, he, hne, -, ha, hb⟩ := h
  have hall : ∀ c ∈ txt "canonical", ¬ (c ≤ 32 ∨ c = 44) := by decide
  have hae : a = [] := by
    rcases List.eq_nil_or_concat a with h0 | ⟨a', x, rfl⟩
    · exact h0
    · exact absurd (ha x (by simp)) (hall x (by rw [he]; simp))
  have hbe : b = [] := by
    cases b with
    | nil => rfl
    | cons x b => exact absurd (hb x rfl) (hall x (by rw [he]; simp))
  subst hae hbe
  simp only [List.nil_append, List.append_nil] at he
  rw [← he]
  decide

theorem bad_canon {t t' : HTok} {a : Text} {d : Attrs} {u : Text} (h : Canon t a d) (hw : WithAttr t t' a (txt "https://" ++ u))
    (hb : Bad t') : Bad t := by
  obtain ⟨n, d1, d2, ht, -, hv, ho⟩ := hw
  cases h with
  | link hr =>
    rcases ht with ⟨h1, -⟩ | ⟨h1, rfl⟩
    · cases h1
    · cases h1
      cases hb with
      | empty hf =>
        exact .empty (forbidden_href ⟨hv, ho⟩ (fun r => clean_https) (.inr ⟨_, hr, fun p => canonical_piece⟩) hf)
  | og hr =>
    rcases ht with ⟨h1, -⟩ | ⟨h1, rfl⟩
    · cases h1
    · cases h1
      cases hb with
      | empty hf => exact .empty (forbidden_content ⟨hv, ho⟩ hf)

theorem link_own {name p : Text} {attrs : Attrs} (hl : Loads name attrs (47 :: p)) (hn : ¬ Forbidden name attrs) : Own (47 :: p) := by
  by_contra h
  exact hn (.foreign hl h)

theorem piece_self {r : Text} (hne : r ≠ []) (h : ∀ c ∈ r, ¬ c ≤ 32 ∧ c ≠ 44) : Piece r r := ⟨[], [], by simp, hne, h, by simp, by simp⟩

theorem bad_link {t t' : HTok} {a p q : Text} (h : Links t a p) (hw : WithAttr t t' a (47 :: p ++ 63 :: q)) (hn : ¬ Bad t) : ¬ Bad t' := by
  intro hb
  obtain ⟨n, d1, d2, ht, -, hv, ho⟩ := hw
  have hsrc : ∀ r : Text, clean (47 :: p ++ 63 :: q) ≠ txt "javascript:" ++ r := fun r => clean_slash
  cases h with
  | sheet hr hx _ _ =>
    rcases ht with ⟨h1, -⟩ | ⟨h1, rfl⟩
    · cases h1
    · cases h1
      cases hb with
      | empty hf =>
        have hown := link_own (name := txt "link") (.link hr (piece_self (by decide) (by decide)) (by decide) hx) (fun hf => hn (.empty hf))
        exact hn (.empty (forbidden_href ⟨hv, ho⟩ hsrc (.inl (own_query hown)) hf))
  | preload hr hx _ _ =>
    rcases ht with ⟨h1, -⟩ | ⟨h1, rfl⟩
    · cases h1
    · cases h1
      cases hb with
      | empty hf =>
        have hown := link_own (name := txt "link") (.link hr (piece_self (by decide) (by decide)) (by decide) hx) (fun hf => hn (.empty hf))
        exact hn (.empty (forbidden_href ⟨hv, ho⟩ hsrc (.inl (own_query hown)) hf))
  | script hx _ _ =>
    rcases ht with ⟨h1, rfl⟩ | ⟨h1, -⟩
    · cases h1
      cases hb with
      | start hf =>
        have hown := link_own (name := txt "script") (.src hx) (fun hf => hn (.start hf))
        exact hn (.start (forbidden_src ⟨hv, ho⟩ (own_query hown) hf))
    · cases h1

/-! ## The tags which are made -/

theorem own_generated (stem : Text) (k : Kind) (n : Nat) (q : Text) : Own (txt "/" ++ generated stem k n ++ q) := by
  have e : txt "/" = [47] := by decide
  cases k with
  | script =>
    have e2 : Kind.word .script = [106, 115] := by decide
    simp only [generated, e, e2, List.cons_append, List.nil_append, List.append_assoc]
    exact own_second (by decide)
  | style =>
    have e2 : Kind.word .style = [99, 115, 115] := by decide
    simp only [generated, e, e2, List.cons_append, List.nil_append, List.append_assoc]
    exact own_second (by decide)

theorem no_code_generated (stem : Text) (k : Kind) (n : Nat) (q r : Text) : clean (txt "/" ++ generated stem k n ++ q) ≠ txt "javascript:" ++ r := by
  have e : txt "/" = [47] := by decide
  rw [e, List.append_assoc, List.singleton_append]
  exact clean_slash

theorem bad_tags {k : Kind} {attrs : Attrs} {url : Text} {tags : List HTok} {t0 : HTok} (ht : Tags k attrs url tags) (ho : Own url)
    (hc : ∀ r, clean url ≠ txt "javascript:" ++ r) (hi : Inline t0 k attrs) (hn : ¬ Bad t0) : ∀ t ∈ tags, ¬ Refused t := by
  cases ht with
  | @script _ d _ h1 h2 h3 =>
    intro t ht
    simp only [List.mem_cons, List.not_mem_nil, or_false] at ht
    rcases ht with rfl | rfl
    · intro hr
      cases hr with
      | script hs => rw [h2] at hs; cases hs
      | bad hb =>
        cases hb with
        | start hf =>
          cases hi with
          | script _ => exact hn (.start (forbidden_src ⟨h2, h3⟩ ho hf))
    · intro hr
      cases hr with
      | bad hb => cases hb
  | @style d _ h1 h2 h3 h4 =>
    intro t ht
    simp only [List.mem_cons, List.not_mem_nil, or_false] at ht
    subst ht
    intro hr
    cases hr with
    | bad hb =>
      cases hb with
      | empty hf =>
        have hno : ∀ a, a ≠ txt "href" → a ≠ txt "rel" → item d (none, a) = none := fun a h h' => h4 _ (ne_key h) (ne_key h')
        cases hf with
        | @handler x _ _ hx =>
          rw [hno _ (on_ne ⟨104, 114, [101, 102], by decide, by decide⟩) (on_ne ⟨114, 101, [108], by decide, by decide⟩)] at hx
          cases hx
        | style hx => rw [hno _ (by decide) (by decide)] at hx; cases hx
        | foreign hl hown =>
          cases hl with
          | src hx => rw [hno _ (by decide) (by decide)] at hx; cases hx
          | srcset hx hp => rw [hno _ (by decide) (by decide)] at hx; cases hx
          | poster hx => rw [hno _ (by decide) (by decide)] at hx; cases hx
          | link hr hp hm hx => rw [h2] at hx; cases hx; exact hown ho
          | svg hm _ => exact absurd hm (by decide)
        | @code a _ _ _ ha hx hj =>
          by_cases he : a = txt "href"
          · subst he
            rw [h2] at hx
            cases hx
            exact hc _ hj
          · rw [hno _ he (by
              simp only [List.mem_cons, List.not_mem_nil, or_false] at ha
              rcases ha with rfl | rfl | rfl <;> decide)] at hx
            cases hx
        | plugin hp => exact absurd hp (by decide)

/-! ## Pictures -/

/-- The first piece, or one of the others. -/
theorem piece_split {w s u : Text} {c : Nat} (hc : c ≤ 32 ∨ c = 44) (hw : ∀ x ∈ w, ¬ (x ≤ 32 ∨ x = 44)) (h : Piece (w ++ c :: s) u) :
    u = w ∨ Piece s u := by
  obtain ⟨a, b, he, hne, hu, ha, hb⟩ := h
  have hcu : c ∉ u := fun h => by have := hu c h; omega
  rw [List.append_assoc] at he
  rcases List.append_eq_append_iff.1 he with ⟨a', h1, h2⟩ | ⟨w', h1, h2⟩
  · cases a' with
    | nil =>
      simp only [List.nil_append] at h2
      cases u with
      | nil => exact absurd rfl hne
      | cons x u =>
        simp only [List.cons_append, List.cons.injEq] at h2
        exact absurd (by rw [h2.1]; simp) hcu
    | cons y a' =>
      simp only [List.cons_append, List.cons.injEq] at h2
      refine .inr ⟨a', b, by rw [h2.2, List.append_assoc], hne, hu, ?_, hb⟩
      intro z hz
      apply ha z
      rw [h1, List.getLast?_append]
      cases a' with
      | nil => cases hz
      | cons q a' =>
        rw [show (y :: q :: a').getLast? = (q :: a').getLast? by simp, hz]
        rfl
  · have hae : a = [] := by
      rcases List.eq_nil_or_concat a with h0 | ⟨a', x, rfl⟩
      · exact h0
      · exact absurd (ha x (by simp)) (hw x (by rw [h1]; simp))
    subst hae
    simp only [List.nil_append] at h1
    subst h1
    rcases List.append_eq_append_iff.1 h2 with ⟨u', h3, h4⟩ | ⟨v, h3, h4⟩
    · cases u' with
      | nil => left; simpa using h3.symm
      | cons y u' =>
        have : y ∈ w := by rw [h3]; simp
        have hby := hb y (by rw [h4]; rfl)
        exact absurd hby (hw y this)
    · cases v with
      | nil => left; simpa using h3
      | cons y v =>
        simp only [List.cons_append, List.cons.injEq] at h4
        exact absurd (by rw [h3, h4.1]; simp) hcu

theorem piece_single {w u : Text} (hw : ∀ x ∈ w, ¬ (x ≤ 32 ∨ x = 44)) (h : Piece w u) : u = w := by
  have h' : Piece (w ++ 32 :: []) u := by
    obtain ⟨a, b, he, hne, hu, ha, hb⟩ := h
    refine ⟨a, b ++ [32], by rw [he]; simp, hne, hu, ha, ?_⟩
    intro c hc
    cases b with
    | nil => simp at hc; omega
    | cons y b => exact hb c (by simpa using hc)
  rcases piece_split (.inl (by decide)) hw h' with h | ⟨a, b, he, hne, -⟩
  · exact h
  · simp only [List.append_assoc, List.nil_eq, List.append_eq_nil_iff] at he
    exact absurd he.2.1 hne

theorem own_width (w : Int) : Own (showInt w ++ txt "w") ∧ ∀ c ∈ showInt w ++ txt "w", ¬ (c ≤ 32 ∨ c = 44) := by
  have e : txt "w" = [119] := by decide
  have hd : ∀ c ∈ digits w.natAbs, 45 ≤ c ∧ c ≠ 47 ∧ c ≠ 58 ∧ c ≠ 92 := by
    intro c hc
    have := Img.digits_ge c hc
    have := Img.digits_lt c hc
    omega
  have em : txt "-" = [45] := by decide
  have hch : ∀ c ∈ showInt w ++ txt "w", 45 ≤ c ∧ c ≠ 47 ∧ c ≠ 58 ∧ c ≠ 92 := by
    intro c hc
    rw [e, List.mem_append] at hc
    rcases hc with hc | hc
    · unfold showInt at hc
      split at hc
      · rw [em] at hc
        rcases List.mem_append.1 hc with hc | hc
        · simp only [List.mem_singleton] at hc
          omega
        · exact hd c hc
      · exact hd c hc
    · simp only [List.mem_singleton] at hc
      omega
  refine ⟨⟨?_, ?_⟩, fun c hc => by have := hch c hc; omega⟩
  · rintro ⟨s, r, h1, -⟩
    have : 58 ∈ clean (showInt w ++ txt "w") := by rw [h1]; simp
    have := hch 58 (List.mem_of_mem_filter ((List.dropWhile_sublist _).subset this))
    omega
  · rintro ⟨a, b, r, h1, h2, -⟩
    have : a ∈ clean (showInt w ++ txt "w") := by rw [h1]; simp
    have := hch a (List.mem_of_mem_filter ((List.dropWhile_sublist _).subset this))
    omega

theorem tame_own {p : Pic} (h : Tame p) : Own (txt "/" ++ p.relpath) ∧ ∀ c ∈ txt "/" ++ p.relpath, ¬ (c ≤ 32 ∨ c = 44) := by
  have e : txt "/" = [47] := by decide
  obtain ⟨c, r, hc, h1, h2⟩ := h.head
  have hc' := h.chars c (by rw [hc]; simp)
  refine ⟨?_, ?_⟩
  · rw [e, hc]
    exact own_second ⟨hc'.1, h1, h2⟩
  · intro x hx
    rw [e] at hx
    rcases List.mem_append.1 hx with hx | hx
    · simp only [List.mem_singleton] at hx; omega
    · have := h.chars x hx; omega

/-- All that is in a srcset is of the website. -/
theorem srcset_own {ps : List Pic} {x : Text} (h : SrcSet ps x) (ht : ∀ p ∈ ps, Tame p) : ∀ u, Piece x u → Own u := by
  have e1 : txt " " = [32] := by decide
  have e2 : txt "w, " = txt "w" ++ 44 :: [32] := by decide
  induction h with
  | nil =>
    rintro u ⟨a, b, he, hne, -⟩
    simp only [List.append_assoc, List.nil_eq, List.append_eq_nil_iff] at he
    exact absurd he.2.1 hne
  | @one p =>
    intro u hu
    have hp := ht p (by simp)
    rw [e1, show txt "/" ++ p.relpath ++ [32] ++ showInt p.width ++ txt "w" = (txt "/" ++ p.relpath) ++ 32 :: (showInt p.width ++ txt "w") by simp] at hu
    rcases piece_split (.inl (by decide)) (tame_own hp).2 hu with rfl | hu
    · exact (tame_own hp).1
    · rw [piece_single (own_width p.width).2 hu]
      exact (own_width p.width).1
  | @more p q ps x _ ih =>
    intro u hu
    have hp := ht p (by simp)
    rw [e1, e2, show txt "/" ++ p.relpath ++ [32] ++ showInt p.width ++ (txt "w" ++ 44 :: [32]) ++ x =
      (txt "/" ++ p.relpath) ++ 32 :: ((showInt p.width ++ txt "w") ++ 44 :: ([] ++ 32 :: x)) by simp] at hu
    rcases piece_split (.inl (by decide)) (tame_own hp).2 hu with rfl | hu
    · exact (tame_own hp).1
    · rcases piece_split (.inr rfl) (own_width p.width).2 hu with rfl | hu
      · exact (own_width p.width).1
      · rcases piece_split (.inl (by decide)) (by simp) hu with rfl | hu
        · obtain ⟨_, _, _, hne, _⟩ := hu
          exact absurd rfl hne
        · exact ih (fun r hr => ht r (List.mem_cons_of_mem _ hr)) u hu

/-- Tags which load files of the website with `src` and `srcset`, and have no other attributes than those of pictures. -/
theorem forbidden_image {name : Text} {d : Attrs} (hn : name = txt "source" ∨ name = txt "img" ∨ name = txt "picture")
    (hk : ∀ q ∈ d, q.1 ∈ [(none, txt "width"), (none, txt "height"), (none, txt "src"), (none, txt "srcset"), (none, txt "loading")])
    (h1 : ∀ u, item d (none, txt "src") = some u → Own u) (h2 : ∀ x, item d (none, txt "srcset") = some x → ∀ u, Piece x u → Own u) :
    ¬ Forbidden name d := by
  have no : ∀ k v, item d k = some v → k ∈ [(none, txt "width"), (none, txt "height"), (none, txt "src"), (none, txt "srcset"), (none, txt "loading")] :=
    fun k v h => hk _ (Assoc.mem_of_get h)
  intro hf
  cases hf with
  | @handler x _ _ hx =>
    have := no _ _ hx
    simp only [List.mem_cons, Prod.mk.injEq, true_and, List.not_mem_nil, or_false] at this
    rcases this with h | h | h | h | h
    · exact on_ne ⟨119, 105, txt "dth", by decide, by decide⟩ h
    · exact on_ne ⟨104, 101, txt "ight", by decide, by decide⟩ h
    · exact on_ne ⟨115, 114, txt "c", by decide, by decide⟩ h
    · exact on_ne ⟨115, 114, txt "cset", by decide, by decide⟩ h
    · exact on_ne ⟨108, 111, txt "ading", by decide, by decide⟩ h
  | style hx => exact absurd (no _ _ hx) (by decide)
  | foreign hl ho =>
    cases hl with
    | src hx => exact ho (h1 _ hx)
    | srcset hx hp => exact ho (h2 _ hx _ hp)
    | poster hx => exact absurd (no _ _ hx) (by decide)
    | link => exact absurd hn (by decide)
    | svg hm _ => rcases hn with rfl | rfl | rfl <;> exact absurd hm (by decide)
  | @code a _ _ _ ha hx _ =>
    have := no _ _ hx
    simp only [List.mem_cons, List.not_mem_nil, or_false] at ha
    rcases ha with rfl | rfl | rfl <;> exact absurd this (by decide)
  | plugin hp => rcases hn with rfl | rfl | rfl <;> exact absurd hp (by decide)

theorem sources_mem {os : List (Text × List Pic)} {sources : List HTok} (h : List.Forall₂ Source os sources) :
    ∀ t ∈ sources, ∃ o ∈ os, Source o t := by
  induction h with
  | nil => simp
  | cons hs _ ih =>
    intro t hm
    rcases List.mem_cons.1 hm with rfl | hm
    · exact ⟨_, by simp, hs⟩
    · obtain ⟨o, ho, hs⟩ := ih t hm
      exact ⟨o, List.mem_cons_of_mem _ ho, hs⟩

theorem picture_fine {format : Text} {c : Img.Command J} {outputs : List (Text × List Pic)} {r : List HTok} (h : Picture format c outputs r)
    (ht : ∀ o ∈ outputs, ∀ p ∈ o.2, Tame p) : ∀ t ∈ r, ¬ Refused t := by
  cases h with
  | @mk ps before after p sources x g1 g2 g3 g4 g5 g6 g7 =>
    have hps : ∀ q ∈ ps, Tame q := ht _ (Assoc.mem_of_get g1)
    intro t hm
    simp only [List.mem_append, List.mem_cons, List.not_mem_nil, or_false] at hm
    rcases hm with (rfl | hm) | rfl | rfl
    · intro hr
      have n1 : txt "picture" ≠ txt "script" := by decide
      have n2 : txt "picture" ≠ txt "style" := by decide
      generalize hq : txt "picture" = q at *
      cases hr with
      | script _ => exact n1 rfl
      | style => exact n2 rfl
      | bad hb =>
        cases hb with
        | start hf => exact forbidden_image (.inr (.inr hq.symm)) (by simp) (by simp [item]) (by simp [item]) hf
    · obtain ⟨o, ho, hs⟩ := sources_mem g6 t hm
      cases hs with
      | @mk y hy =>
        have hown := srcset_own hy (ht o (List.mem_of_mem_filter ho))
        intro hr
        cases hr with
        | bad hb =>
          cases hb with
          | empty hf =>
            refine forbidden_image (.inl rfl) (by simp) ?_ ?_ hf
            · intro u hu
              exact absurd (Assoc.mem_of_get hu) (by
                have : txt "src" ≠ txt "srcset" := by decide
                simp [this])
            · intro z hz
              have := Assoc.mem_of_get hz
              simp only [List.mem_singleton, Prod.mk.injEq, true_and] at this
              subst this
              exact hown
    · intro hr
      have hown := srcset_own g7 hps
      have hp : Tame p := hps p (by rw [g2]; simp)
      cases hr with
      | bad hb =>
        cases hb with
        | empty hf =>
          have a1 : txt "src" ≠ txt "width" := by decide
          have a2 : txt "src" ≠ txt "height" := by decide
          have a3 : txt "src" ≠ txt "srcset" := by decide
          have a4 : txt "src" ≠ txt "loading" := by decide
          have b1 : txt "srcset" ≠ txt "width" := by decide
          have b2 : txt "srcset" ≠ txt "height" := by decide
          have b4 : txt "srcset" ≠ txt "loading" := by decide
          refine forbidden_image (.inr (.inl rfl)) ?_ ?_ ?_ hf
          · intro q hq
            simp only [List.mem_append, List.mem_cons, List.not_mem_nil, or_false] at hq
            rcases hq with (rfl | rfl | rfl | rfl) | hq
            · simp
            · simp
            · simp
            · simp
            · split at hq
              · simp only [List.mem_cons, List.not_mem_nil, or_false] at hq
                subst hq
                simp
              · cases hq
          · intro u hu
            have := Assoc.mem_of_get hu
            simp only [List.mem_append, List.mem_cons, Prod.mk.injEq, List.not_mem_nil, or_false, true_and, a1, a2, a3, false_and, false_or] at this
            rcases this with rfl | hq
            · exact (tame_own hp).1
            · split at hq
              · simp [a4] at hq
              · cases hq
          · intro z hz
            have := Assoc.mem_of_get hz
            simp only [List.mem_append, List.mem_cons, Prod.mk.injEq, List.not_mem_nil, or_false, true_and, b1, b2, a3.symm, false_and, false_or] at this
            rcases this with rfl | hq
            · exact hown
            · split at hq
              · simp [b4] at hq
              · cases hq
    · intro hr
      cases hr with
      | bad hb => cases hb

/-! ## Pages -/

theorem refused_inline {t : HTok} (h : Refused t) : Bad t ∨ ∃ k d, Inline t k d := by
  cases h with
  | script h => exact .inr ⟨_, _, .script h⟩
  | style => exact .inr ⟨_, _, .style⟩
  | bad h => exact .inl h

theorem withAttr_inline {t t' : HTok} {a v : Text} (hw : WithAttr t t' a v) (h : ∀ k d, ¬ Inline t k d) : ∀ k d, ¬ Inline t' k d := by
  intro k d hi
  obtain ⟨n, d1, d2, ht, -, hv, ho⟩ := hw
  cases hi with
  | @script attrs hs =>
    rcases ht with ⟨rfl, h2⟩ | ⟨-, h2⟩
    · cases h2
      by_cases ha : a = txt "src"
      · subst ha
        rw [hv] at hs
        cases hs
      · exact h _ _ (.script ((ho _ (ne_key (Ne.symm ha))).symm.trans hs))
    · cases h2
  | style =>
    rcases ht with ⟨rfl, h2⟩ | ⟨-, h2⟩
    · cases h2
      exact h _ _ .style
    · cases h2

theorem render_fine {env : Env E J} {host stem : Text} (hx : Exports env)
    (htpl : ∀ path body, env.tpl.files path = some body → ∀ t ∈ body, ¬ Bad t) {w w' : World} {f f' : Frame} {ts out : List HTok}
    (h : Render env host stem w f ts out w' f') : (∀ t ∈ ts, ¬ Bad t) → ∀ t ∈ out, ¬ Refused t := by
  have e : txt "/" = [47] := by decide
  induction h with
  | nil => simp
  | keep h _ ih =>
    intro hb t ht
    rcases List.mem_cons.1 ht with rfl | ht
    · intro hr
      rcases refused_inline hr with h1 | ⟨k, d, h1⟩
      · exact hb _ (by simp) h1
      · exact h.inline _ _ h1
    · exact ih (fun t ht => hb t (by simp [ht])) t ht
  | @canon w f t t' a d url ts out w' f' h hu hw _ ih =>
    intro hb x hx
    rcases List.mem_cons.1 hx with rfl | hx
    · intro hr
      rcases refused_inline hr with h1 | ⟨k, d, h1⟩
      · exact hb _ (by simp) (bad_canon h (by rw [List.append_assoc] at hw; exact hw) h1)
      · refine withAttr_inline hw ?_ _ _ h1
        intro k d hi
        cases h <;> cases hi
    · exact ih (fun t ht => hb t (by simp [ht])) x hx
  | @link w f t t' a p hash ts out w' f' h hh hw _ ih =>
    intro hb x hx
    rcases List.mem_cons.1 hx with rfl | hx
    · intro hr
      rcases refused_inline hr with h1 | ⟨k, d, h1⟩
      · obtain ⟨q, hq⟩ := query_eq env (env.strip (env.decode hash))
        rw [hq, e] at hw
        exact bad_link h hw (hb _ (by simp)) h1
      · refine withAttr_inline hw ?_ _ _ h1
        intro k d hi
        cases h with
        | sheet => cases hi
        | preload => cases hi
        | script hs =>
          generalize hn : txt "script" = n at hi
          cases hi with
          | script h2 => rw [hs] at h2; cases h2
          | style => exact absurd hn (by decide)
    · exact ih (fun t ht => hb t (by simp [ht])) x hx
  | image h he hp _ ih =>
    intro hb x hx'
    rcases List.mem_append.1 hx' with hm | hm
    · exact picture_fine hp (hx _ _ _ _ _ he) x hm
    · exact ih (fun t ht => hb t (by simp [ht])) x hm
  | inline h hbd hk hf hh hx1 hs ht _ ih =>
    intro hb x hx'
    rcases List.mem_append.1 hx' with hm | hm
    · exact bad_tags ht (own_generated _ _ _ _) (fun r => no_code_generated _ _ _ _ _) h (hb _ (by simp)) x hm
    · exact ih (fun t ht => hb t (by simp [ht])) x hm
  | define _ _ ih => intro hb; exact ih fun t ht => hb t (by simp [ht])
  | retrieve _ _ _ _ _ ih =>
    intro hb x hx'
    rcases List.mem_cons.1 hx' with rfl | hm
    · intro hr
      cases hr with
      | bad hb => cases hb
    · exact ih (fun t ht => hb t (by simp [ht])) x hm
  | unknown _ _ ih => intro hb; exact ih fun t ht => hb t (by simp [ht])
  | block _ _ _ _ ih1 ih2 =>
    intro hb x hx'
    rcases List.mem_append.1 hx' with hm | hm
    · exact ih1 (fun t ht => hb t (by simp [ht])) x hm
    · exact ih2 (fun t ht => hb t (by simp [ht])) x hm
  | template _ hf _ _ ih1 ih2 =>
    intro hb x hx'
    rcases List.mem_append.1 hx' with hm | hm
    · exact ih1 (htpl _ _ hf) x hm
    · exact ih2 (fun t ht => hb t (by simp [ht])) x hm

/-- **C103**: if a page and the templates have, apart from inline scripts and stylesheets, nothing which the policy forbids,
then a browser refuses nothing of the page which is built. -/
theorem C103_partial {fuel : Nat} {env : Env E J} (hf : Fit env) (hx : Exports env) {host stem : Text} (hh : env.host = some host)
    (hs : PageFile env.rel stem) {fs fs' : Fs} {r : Built} {content : Bytes} {ts : List HTok} (h0 : fs env.rel = some content)
    (hp : env.parse content = some ts) (hbal : Bal env.tpl ts) (hsane : Sane ts) (hcut : ¬ Cut ts)
    (hpage : ∀ t ∈ ts, ¬ Bad t) (htpl : ∀ path body, env.tpl.files path = some body → ∀ t ∈ body, ¬ Bad t)
    (h : buildFile fuel env fs = some (.ok (r, fs'))) :
    ∃ out, fs' (pageOut stem) = some (env.write out) ∧ ∀ t ∈ out, ¬ Refused t := by
  obtain ⟨out, w, f, hr, ho, -⟩ := C66_page hf hh hs h0 hp hbal hsane hcut h
  exact ⟨out, ho, render_fine hx htpl hr hpage⟩

end Verif.Html.Policy
