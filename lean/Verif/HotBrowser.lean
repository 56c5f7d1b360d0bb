import Verif.HotPages
import Verif.HtmlLinksThm
/-!
# C96: visitors whose browsers keep files

The website is deployed again and again, each time as a history of finished rebuilds has left it.  A visitor's browser keeps files whose URL
has the parameter `v`, for as long as it likes, as README.md:118-130 has the server ask for.  Whenever the visitor follows a reference in the
deployed files the browser has for it what is deployed.
-/
namespace Verif.Hot.Scripts
open Verif Verif.Hot Verif.Graph
open Verif.Reader (Text txt)
open Verif.Paths (split joinSegs join relpath isAbs Name Seg)
open Verif.Handlers (Bytes Fs)

/-! ## Specification -/

/-- A server which has the files `W`: it looks up the URL without its parameters below out/www. -/
def server (W : Contents Bytes) (u : Text) : Option Bytes := W (str (txt "out/www" ++ u.takeWhile (· ≠ 63)))

/-- URLs with the parameter `v`, which browsers may keep for good (README.md:118-130). -/
def LongLived (u : Text) : Prop := ∃ p q, u = p ++ txt "?v=" ++ q

/-- What browsers remember. -/
abbrev Cache := Text → Option Bytes

/-- `y` is what the browser has for the URL: what it has kept, or else what the server sends. -/
def Gets (W : Contents Bytes) (C : Cache) (u : Text) (y : Bytes) : Prop := C u = some y ∨ C u = none ∧ server W u = some y

/-- `u` is written for the file `src/public/z` into a script, a stylesheet or a page of the deployed files `W`. -/
inductive Refers (c : Config) (W : Contents Bytes) (z : Text) : Text → Prop
  | script {rel s u} (h : Js.File.fileOf c.js rel s = txt "src/public/" ++ z) (hu : Js.File.newPath c.js rel (fsOf W) s = some u) : Refers c W z u
  | sheet {f mid out k v u} (h : Css.Urls.Versioned { c.sheet.urls with self := f } (fsOf W) mid out)
      (hv : Css.Urls.UrlAt c.sheet.urls.lower mid k v) (hl : Css.Urls.Local f v z) (hu : out[k]? = some (.url u) ∨ out[k]? = some (.str u)) : Refers c W z u
  | page {t t' a hash u} (h : Html.Links t a z) (hh : CurrentHash c W z hash)
      (hu : u = txt "/" ++ z ++ txt "?v=" ++ Html.quotePlus c.js.enc (c.page.strip (c.js.decode hash)) ++ txt "&pv=1.3.2") (ht : Html.WithAttr t t' a u) :
      Refers c W z u

/-- `Visited D R W C`: after some deployments, all among `D`, and some requests, `W` is deployed and the browser remembers `C`.  `R W z u`: while
`W` is deployed the visitor may follow the reference `u` to the file `src/public/z`. -/
inductive Visited (D : Contents Bytes → Prop) (R : Contents Bytes → Text → Text → Prop) : Contents Bytes → Cache → Prop
  | first {W} (h : D W) : Visited D R W fun _ => none
  | deploy {W W' C} (h : Visited D R W C) (h' : D W') : Visited D R W' C
  | forget {W C} (h : Visited D R W C) (P : Text → Prop) [DecidablePred P] : Visited D R W fun u => if P u then none else C u
  | keep {W C u y g z} (h : Visited D R W C) (hu : LongLived u) (hg : Source g) (hz : Public g z) (hq : 63 ∉ z) (hr : R W z u) (hy : server W u = some y) :
      Visited D R W fun v => if v = u then some y else C v

/-- The visitor may have got the reference from a page which they loaded before `W` was deployed. -/
def Earlier (c : Config) (D : Contents Bytes → Prop) (_ : Contents Bytes) (z u : Text) : Prop := ∃ W0, D W0 ∧ Refers c W0 z u

/-- The ways in which a hash is written into URLs of scripts, of pages and of stylesheets. -/
inductive Written (c : Config) (h : Bytes) : Text → Prop
  | script : Written c h (txt "v=" ++ Html.quotePlus c.js.enc (c.js.decode h) ++ txt "&pv=1.3.2")
  | page : Written c h (txt "v=" ++ Html.quotePlus c.js.enc (c.page.strip (c.js.decode h)) ++ txt "&pv=1.3.2")
  | sheet : Written c h (c.sheet.urls.query h)

/-- Different contents which are deployed for a file are told apart by the parameters of their URLs. -/
def Tells (c : Config) (D : Contents Bytes → Prop) : Prop :=
  ∀ W W' g z y y' q, D W → D W' → Source g → Public g z → W (str (copyOf z)) = some y → W' (str (copyOf z)) = some y' → Written c (c.js.digest y) q → Written c (c.js.digest y') q → y = y'

/-! ## Proofs -/

/-- The URL of a file is its path. -/
theorem resolve_public {cwd folder rel s z : Text} (hc : isAbs cwd = true) (hz : Clean z) (h : (Js.resolvePath cwd folder rel s).1 = txt "src/public/" ++ z) :
    (Js.resolvePath cwd folder rel s).2 = txt "/" ++ z := by
  have e : txt "src/public/" ++ z = joinSegs ([txt "src", txt "public"] ++ split z) := by
    have hne := Paths.split_ne_nil z
    show _ = joinSegs (txt "src" :: txt "public" :: split z)
    rw [Paths.joinSegs_cons _ (by simp), Paths.joinSegs_cons _ hne, joinSegs_split]
    rfl
  unfold Js.resolvePath at h ⊢
  split at h
  · next hs =>
    rw [if_pos hs]
    have h : join (join (txt "src") (txt "public")) (s.drop 1) = txt "src/public/" ++ z := h
    have e0 : join (txt "src") (txt "public") = txt "src/public" := by decide
    have e1 : txt "src/public/" = txt "src/public" ++ [47] := by decide
    have e2 : (txt "src/public").getLast? = some 99 := by decide
    have e3 : txt "src/public" ≠ [] := by decide
    have e4 : (txt "src/public/" : Text) = 115 :: (txt "src/public/").tail := by decide
    cases s with
    | nil => cases hs
    | cons a s =>
      have ha : a = 47 := by simpa [isAbs] using hs
      subst ha
      rw [e0] at h
      simp only [List.drop_succ_cons, List.drop_zero] at h ⊢
      unfold join at h
      split at h
      · next habs =>
        rw [h, e4] at habs
        simp [isAbs] at habs
      · rw [e2] at h
        simp only [e3, e1, false_or, Option.some.injEq, List.append_assoc] at h
        simp only [show (99 : Nat) ≠ 47 by decide, if_false, List.append_cancel_left_eq, List.cons_append, List.nil_append, List.cons.injEq, true_and] at h
        rw [h]
        rfl
  · next hs =>
    rw [if_neg hs]
    have h : relpath cwd _ _ = txt "src/public/" ++ z := h
    show 47 :: relpath cwd (relpath cwd _ _) _ = _
    rw [h, e, Js.relpath_public hc hz (Paths.split_ne_nil z), joinSegs_split]
    rfl

/-- A file of the website whose hash is there. -/
theorem hash_of {c : Config} (hc : isAbs c.js.cwd = true) (hsp : Js.SpaceOk c.js.space) (hk : Source c.constants) {m : Mode} {W : Contents Bytes} {gs : Graphs} {dm : Option Mode}
    (h : Worked (project c.constants) (tool c) m W gs dm) {g : String} {z : Text} (hg : Source g) (hz : Public g z) {w : Bytes} (hw : W (str (hashOf z)) = some w) :
    ∃ y, W (str (copyOf z)) = some y ∧ w = c.js.digest y := by
  have hl := lawful c.constants
  have ht := tool_lawful hc
  obtain ⟨U, -⟩ := (h.history hl ht hk).upToDate hl (ht.pure hl)
  have hin := (U.only _ _ (owner_iff.2 ⟨hg, z, hz, .inr (txt_hash hz)⟩) (by rw [hw]; simp)).1
  obtain ⟨b, hb⟩ := Option.ne_none_iff_exists'.1 ((U.files g).1 hin).2
  obtain ⟨y, hy⟩ := C80_current_partial hc hsp hk h hg hz hb
  refine ⟨y, hy.copy, ?_⟩
  rw [hy.hash] at hw
  exact (Option.some.inj hw).symm

/-- What is written for a file names it, and the hash of what is deployed for it. -/
theorem refers_iff {c : Config} (hc : isAbs c.js.cwd = true) (hsp : Js.SpaceOk c.js.space) (hk : Source c.constants) {m : Mode} {W : Contents Bytes} {gs : Graphs} {dm : Option Mode}
    (h : Worked (project c.constants) (tool c) m W gs dm) {g : String} {z u : Text} (hg : Source g) (hz : Public g z) (hr : Refers c W z u) :
    ∃ y q, W (str (copyOf z)) = some y ∧ Written c (c.js.digest y) q ∧ u = txt "/" ++ z ++ txt "?" ++ q := by
  have eq : txt "?v=" = txt "?" ++ txt "v=" := by decide
  cases hr with
  | @script rel s _ hf hu =>
    obtain ⟨y, h1, h2⟩ := C80_specifier_partial hc hsp hk h hg hz (hf.trans hz.1.symm) hu
    refine ⟨y, _, h1, .script, ?_⟩
    rw [h2, resolve_public hc hz.2 hf, eq]
    simp
  | @sheet f mid out k v _ hv hu hl hx =>
    obtain ⟨t, ht, htv⟩ : ∃ t, mid[k]? = some t ∧ (t = .url v ∨ t = .str v) := by
      rcases hu with ⟨hu, -⟩ | ⟨hu, -⟩
      · exact ⟨_, hu, by simp⟩
      · exact ⟨_, hu, by simp⟩
    obtain ⟨w, h1, h2⟩ := (hv.2 k t ht).1 v z hu hl
    obtain ⟨y, h3, h4⟩ := hash_of hc hsp hk h hg hz h1
    refine ⟨y, _, h3, .sheet, ?_⟩
    rw [h4, hl.1] at h2
    rcases htv with rfl | rfl <;> rcases hx with hx | hx <;> rw [h2] at hx <;> simp only [Css.Urls.withValue, Option.some.injEq, reduceCtorEq, Css.Tok.url.injEq, Css.Tok.str.injEq] at hx
    · exact hx.symm
    · exact hx.symm
  | @page t t' a hash _ hl hh hu ht =>
    have h1 : W (str (hashOf z)) = some hash := by
      have e2 : txt "out/www/" = txt "out/www" ++ [47] := by decide
      have e3 : (txt "out/www").getLast? = some 119 := by decide
      have e4 : txt "out/www" ≠ [] := by decide
      have := hh.1
      unfold join at this
      rw [clean_rel hz.2, e3] at this
      simpa [e4, hashOf, copyOf, e2] using this
    obtain ⟨y, h3, h4⟩ := hash_of hc hsp hk h hg hz h1
    refine ⟨y, _, h3, .page, ?_⟩
    rw [hu, h4, eq]
    simp

theorem server_of {W : Contents Bytes} {z q : Text} (hq : 63 ∉ z) : server W (txt "/" ++ z ++ txt "?" ++ q) = W (str (copyOf z)) := by
  have : (txt "/" ++ z ++ txt "?" ++ q).takeWhile (· ≠ 63) = txt "/" ++ z := by
    have e : txt "?" = [63] := by decide
    have e' : txt "/" = [47] := by decide
    rw [e, e', List.append_assoc, List.takeWhile_append_of_pos]
    · simp
    · intro a ha
      simp only [List.cons_append, List.nil_append, List.mem_cons] at ha
      rcases ha with rfl | ha
      · decide
      · simpa using fun h : a = 63 => hq (h ▸ ha)
  unfold server
  rw [this]
  have e2 : txt "out/www/" = txt "out/www" ++ txt "/" := by decide
  rw [copyOf, e2, List.append_assoc]

/-- What the browser keeps was deployed under the name in the URL, with the hash in the URL. -/
def Sound (c : Config) (D : Contents Bytes → Prop) (C : Cache) : Prop :=
  ∀ u y, C u = some y → LongLived u ∧ ∃ W z q, D W ∧ 63 ∉ z ∧ W (str (copyOf z)) = some y ∧ Written c (c.js.digest y) q ∧ u = txt "/" ++ z ++ txt "?" ++ q

theorem Visited.sound {c : Config} (hc : isAbs c.js.cwd = true) (hsp : Js.SpaceOk c.js.space) (hk : Source c.constants) {D : Contents Bytes → Prop}
    (hD : ∀ W, D W → ∃ m gs dm, Worked (project c.constants) (tool c) m W gs dm) {W : Contents Bytes} {C : Cache} (h : Visited D (Refers c) W C) : D W ∧ Sound c D C := by
  induction h with
  | first h => exact ⟨h, fun u y h => by cases h⟩
  | deploy _ h' ih => exact ⟨h', ih.2⟩
  | forget _ P ih =>
    refine ⟨ih.1, fun u y h => ih.2 u y ?_⟩
    dsimp only at h
    split at h
    · cases h
    · exact h
  | @keep W C u y g z _ hu hg hz hq hr hy ih =>
    refine ⟨ih.1, fun v y' h => ?_⟩
    dsimp only at h
    split at h
    · next e =>
      cases h
      subst e
      obtain ⟨m, gs, dm, hw⟩ := hD W ih.1
      obtain ⟨y1, q, h1, h2, h3⟩ := refers_iff hc hsp hk hw hg hz hr
      rw [h3, server_of hq, h1] at hy
      cases hy
      exact ⟨hu, W, z, q, ih.1, hq, h1, h2, h3⟩
    · exact ih.2 v y' h

theorem split_url {z z' q q' : Text} (hq : 63 ∉ z) (hq' : 63 ∉ z') (h : txt "/" ++ z ++ txt "?" ++ q = txt "/" ++ z' ++ txt "?" ++ q') : z = z' ∧ q = q' := by
  have e : txt "?" = [63] := by decide
  have e' : txt "/" = [47] := by decide
  rw [e, e'] at h
  simp only [List.cons_append, List.nil_append, List.append_assoc, List.cons.injEq, true_and] at h
  induction z generalizing z' with
  | nil =>
    cases z' with
    | nil => simpa using h
    | cons a z' =>
      simp only [List.nil_append, List.cons_append, List.cons.injEq] at h
      exact absurd (h.1 ▸ by simp) hq'
  | cons a z ih =>
    cases z' with
    | nil =>
      simp only [List.nil_append, List.cons_append, List.cons.injEq] at h
      exact absurd (h.1 ▸ by simp) hq
    | cons b z' =>
      simp only [List.cons_append, List.cons.injEq] at h
      obtain ⟨h1, h2⟩ := ih (fun hm => hq (by simp [hm])) (fun hm => hq' (by simp [hm])) h.2
      exact ⟨by rw [h.1, h1], h2⟩

/-- C96: whatever has been deployed and kept before, for every URL which the deployed files have for a file of the website the browser has what
is deployed for this file. -/
theorem C96_partial {c : Config} (hc : isAbs c.js.cwd = true) (hsp : Js.SpaceOk c.js.space) (hk : Source c.constants) {D : Contents Bytes → Prop}
    (hD : ∀ W, D W → ∃ m gs dm, Worked (project c.constants) (tool c) m W gs dm) (ht : Tells c D) {W : Contents Bytes} {C : Cache} (h : Visited D (Refers c) W C)
    {g : String} {z u : Text} (hg : Source g) (hz : Public g z) (hq : 63 ∉ z) (hr : Refers c W z u) : ∀ y, Gets W C u y ↔ W (str (copyOf z)) = some y := by
  obtain ⟨hW, hs⟩ := h.sound hc hsp hk hD
  obtain ⟨m, gs, dm, hw⟩ := hD W hW
  obtain ⟨y1, q, h1, h2, h3⟩ := refers_iff hc hsp hk hw hg hz hr
  intro y
  rw [h1]
  constructor
  · rintro (h | ⟨-, h⟩)
    · obtain ⟨-, W', z', q', a1, a2, a3, a4, a5⟩ := hs u y h
      obtain ⟨rfl, rfl⟩ := split_url hq a2 (h3.symm.trans a5)
      rw [ht W W' g z y1 y q hW a1 hg hz h1 a3 h2 a4]
    · rw [h3, server_of hq, h1] at h
      exact h
  · rintro ⟨⟩
    cases hcu : C u with
    | none => exact .inr ⟨hcu, by rw [h3, server_of hq, h1]⟩
    | some y =>
      obtain ⟨-, W', z', q', a1, a2, a3, a4, a5⟩ := hs u y hcu
      obtain ⟨rfl, rfl⟩ := split_url hq a2 (h3.symm.trans a5)
      rw [ht W W' g z y1 y q hW a1 hg hz h1 a3 h2 a4]
      exact .inl hcu

/-- The parameters tell contents apart if hashes are ASCII without white space, as the ones in base 64 are, if `urlencode` is what it is, and if
there are no two different contents with the same hash. -/
theorem tells {c : Config} {D : Contents Bytes → Prop} (h1 : ∀ y, ∀ x ∈ c.js.decode (c.js.digest y), x < 128)
    (h2 : ∀ y, c.page.strip (c.js.decode (c.js.digest y)) = c.js.decode (c.js.digest y))
    (h3 : ∀ y, c.sheet.urls.query (c.js.digest y) = txt "v=" ++ Html.quotePlus c.js.enc (c.js.decode (c.js.digest y)) ++ txt "&pv=1.3.2")
    (h4 : ∀ W W' g z y y', D W → D W' → Source g → Public g z → W (str (copyOf z)) = some y → W' (str (copyOf z)) = some y' →
      c.js.decode (c.js.digest y) = c.js.decode (c.js.digest y') → y = y') : Tells c D := by
  have key : ∀ y q, Written c (c.js.digest y) q → q = txt "v=" ++ Html.quotePlus c.js.enc (c.js.decode (c.js.digest y)) ++ txt "&pv=1.3.2" := by
    intro y q h
    cases h with
    | script => rfl
    | page => rw [h2]
    | sheet => rw [h3]
  intro W W' g z y y' q a1 a2 b1 b2 a3 a4 a5 a6
  refine h4 W W' g z y y' a1 a2 b1 b2 a3 a4 ?_
  have e := (key y q a5).symm.trans (key y' q a6)
  simp only [List.append_assoc, List.append_cancel_left_eq] at e
  have e := List.append_cancel_right e
  rw [← Html.C49_query c.js.enc (h1 y), e, Html.C49_query c.js.enc (h1 y')]

/-- C96: for URLs without the parameter the browser has what is deployed. -/
theorem C96_page_partial {c : Config} (hc : isAbs c.js.cwd = true) (hsp : Js.SpaceOk c.js.space) (hk : Source c.constants) {D : Contents Bytes → Prop}
    (hD : ∀ W, D W → ∃ m gs dm, Worked (project c.constants) (tool c) m W gs dm) {W : Contents Bytes} {C : Cache} (h : Visited D (Refers c) W C)
    {u : Text} (hu : ¬ LongLived u) : ∀ y, Gets W C u y ↔ server W u = some y := by
  intro y
  have hn : C u = none := by
    cases hcu : C u with
    | none => rfl
    | some y => exact absurd ((h.sound hc hsp hk hD).2 u y hcu).1 hu
  simp [Gets, hn]

end Verif.Hot.Scripts
