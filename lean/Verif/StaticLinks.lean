import Verif.StaticThm
import Verif.JsFile
/-!
# C106 and symbolic links

Builds put links below out/www where the system has them.  The server resolves links before it tests whether a file is below
out/www, so it gives none of them.
-/
namespace Verif.Static
open Verif.Reader (Text txt)
open Verif.Paths
open Verif.Handlers (Bytes Built copyTarget)
open Verif.Links (Place Entry Ctx copyBuild newPicture served)

/-- Empty components change nothing. -/
theorem real_comps (fs : Links.Fs) : ∀ (cs : List Text) (acc : Place) (n : Nat),
    (∀ x ∈ cs.filter (fun x => !x.isEmpty), Name x) → Plain fs acc (cs.filter fun x => !x.isEmpty) → cs.length < n →
    real fs n acc cs = some (acc ++ cs.filter fun x => !x.isEmpty)
  | [], acc, n, _, _, hn => by
    cases n with
    | zero => simp at hn
    | succ n => simp [real]
  | x :: xs, acc, n, h, hp, hn => by
    cases n with
    | zero => simp at hn
    | succ n =>
      have hn' : xs.length < n := by simpa using hn
      by_cases hx : x = []
      · subst hx
        have e : List.filter (fun x => !x.isEmpty) ([] :: xs) = xs.filter fun x => !x.isEmpty := by simp
        rw [e] at h hp ⊢
        unfold real
        rw [if_pos (.inl rfl)]
        exact real_comps fs xs acc n h hp hn'
      · have e : List.filter (fun x => !x.isEmpty) (x :: xs) = x :: xs.filter fun x => !x.isEmpty := by simp [hx]
        rw [e] at h hp ⊢
        have hnm := h x (by simp)
        have h0 := hp 0 (by simp)
        have hrec := real_comps fs xs (acc ++ [x]) n (fun y hy => h y (List.mem_cons_of_mem _ hy)) (by
          intro i hi t
          have := hp (i + 1) (by simpa using hi) t
          simpa using this) hn'
        unfold real
        rw [if_neg (by simp [hnm.1.1, hnm.2.1]), if_neg hnm.2.2]
        cases he : fs (acc ++ [x]) with
        | none => simp only; rw [hrec]; simp
        | some e =>
          cases e with
          | file b => simp only; rw [hrec]; simp
          | link t => exact absurd he (by simpa using h0 t)

/-- **C106 is false of links**: a link out of the folder is not followed, wherever it leads; its URL is answered as if there were
nothing. -/
theorem C106_false_links {d : Disk} {dir : Place} {names : List Text} {t : Text} (hne : names ≠ []) (h : ∀ x ∈ names, Name x)
    (hp : Plain d.fs dir names.dropLast) (hl : d.fs (dir ++ names) = some (.link t)) (ha : isAbs t = true)
    (ht : ∀ x ∈ comps t, Name x) (htp : Plain d.fs [] (comps t)) (hout : ¬ render dir <+: render (comps t)) :
    (∀ n, get n d dir (url names) = .failed ∨ get n d dir (url names) = missing n d dir) ∧
    ∃ N, ∀ n, N ≤ n → get n d dir (url names) = missing n d dir := by
  have hlast := List.dropLast_append_getLast hne
  have hres : ∃ N, real d.fs N dir names = some (comps t) := by
    refine ⟨names.dropLast.length + ((split t).length + 1 + 1), ?_⟩
    rw [← hlast]
    rw [List.dropLast_concat, real_through d.fs names.dropLast dir _ [names.getLast hne]
      (fun x hx => h x (List.dropLast_subset _ hx)) hp]
    have hnm := h _ (List.getLast_mem hne)
    unfold real
    rw [if_neg (by simp [hnm.1.1, hnm.2.1]), if_neg hnm.2.2, List.append_assoc, hlast, hl]
    simp only [ha, if_true, List.append_nil]
    have := real_comps d.fs (split t) [] ((split t).length + 1) ht htp (by omega)
    simpa [comps] using this
  obtain ⟨N, hN⟩ := hres
  have hfalse : (render dir).isPrefixOf (render (comps t)) = false := by
    cases hb : (render dir).isPrefixOf (render (comps t)) with
    | false => rfl
    | true => exact absurd (List.isPrefixOf_iff_prefix.1 hb) hout
  have hsplit : split (joinSegs names) = names := split_joinSegs (fun x hx => (h x hx).1.2) hne
  have key : ∀ n, real d.fs n dir names = some (comps t) → get n d dir (url names) = missing n d dir := by
    intro n hn
    unfold get
    rw [getPath_url hne h]
    have : lookup n d dir (joinSegs names) = some .nothing := by
      unfold lookup
      rw [hsplit, hn]
      simp [hfalse]
    rw [this]
  constructor
  · intro n
    cases hn : real d.fs n dir names with
    | none =>
      left
      unfold get
      rw [getPath_url hne h]
      have : lookup n d dir (joinSegs names) = none := by
        unfold lookup
        rw [hsplit, hn]
      rw [this]
    | some q =>
      right
      have h1 := real_mono d.fs n _ _ _ hn (max n N) (Nat.le_max_left ..)
      have h2 := real_mono d.fs N _ _ _ hN (max n N) (Nat.le_max_right ..)
      rw [h1] at h2
      exact key n (by rw [hn, h2])
  · exact ⟨N, fun n hn => key n (real_mono d.fs N _ _ _ hN n hn)⟩

theorem place_names {cwd : Text} (hc : isAbs cwd = true) (x : Text) : ∀ y ∈ Links.place cwd x, Name y := by
  unfold Links.place
  rw [comps_abspath hc]
  exact fun y hy => walk_name_mem (fun z hz => by
    rcases List.mem_append.1 hz with hz | hz
    · split at hz
      · simp at hz
      · exact comps_seg hz
    · exact comps_seg hz) (by simp) y hy

theorem isAbs_abspath {cwd : Text} (hc : isAbs cwd = true) (x : Text) : isAbs (abspath cwd x) = true := by
  have habs : isAbs (if isAbs x then x else join cwd x) = true := by
    cases hx : isAbs x with
    | true => simpa using hx
    | false =>
      simp only [Bool.false_eq_true, if_false]
      rw [Links.isAbs_join hx, hc]
  unfold abspath normpath
  generalize (if isAbs x then x else join cwd x) = y at habs ⊢
  have hy : y ≠ [] := by rintro rfl; simp [isAbs] at habs
  have hh : y.head? = some 47 := by simpa [isAbs] using habs
  rw [if_neg hy]
  have hn : ∃ n, initialSlashes y = n + 1 := by
    unfold initialSlashes
    rw [if_pos hh]
    split
    · exact ⟨1, rfl⟩
    · exact ⟨0, rfl⟩
  obtain ⟨n, hn⟩ := hn
  simp only [hn, List.replicate_succ, List.cons_append, reduceCtorEq, if_false]
  simp [isAbs]

/-- The folder which is served. -/
def home (c : Ctx) : Place := c.root ++ [txt "out", txt "www"]

/-- The source of a file and where its build puts it. -/
def source (names : List Text) : Text := txt "src/public/" ++ joinSegs names
def target (names : List Text) : Text := txt "out/www/" ++ joinSegs names

theorem place_source {c : Ctx} (hc : isAbs c.cwd = true) {names : List Text} (h : ∀ x ∈ names, Name x) :
    c.place (source names) = c.root ++ txt "src" :: txt "public" :: names := by
  have hcomps : comps (source names) = txt "src" :: txt "public" :: names := by
    have e : source names = (txt "src/public") ++ 47 :: joinSegs names := by
      unfold source
      have : txt "src/public/" = txt "src/public" ++ [47] := by decide
      rw [this, List.append_assoc]; rfl
    rw [e, comps_slash, comps_joinSegs (seg_of_name h)]
    have : comps (txt "src/public") = [txt "src", txt "public"] := by decide
    rw [this]; rfl
  rw [Links.place_rel hc, hcomps]
  · have : isAbs (txt "src/public/") = false := by decide
    unfold source
    have e : txt "src/public/" = 115 :: (txt "src/public/").tail := by decide
    rw [e]; simp [isAbs]
  · rw [hcomps]
    intro x hx
    simp only [List.mem_cons] at hx
    rcases hx with rfl | rfl | hx
    · exact Links.name_lit (by decide)
    · exact Links.name_lit (by decide)
    · exact h x hx

theorem place_target {c : Ctx} (hc : isAbs c.cwd = true) {names : List Text} (h : ∀ x ∈ names, Name x) :
    c.place (target names) = home c ++ names := by
  have hcomps : comps (target names) = txt "out" :: txt "www" :: names := by
    have e : target names = (txt "out/www") ++ 47 :: joinSegs names := by
      unfold target
      have : txt "out/www/" = txt "out/www" ++ [47] := by decide
      rw [this, List.append_assoc]; rfl
    rw [e, comps_slash, comps_joinSegs (seg_of_name h)]
    have : comps (txt "out/www") = [txt "out", txt "www"] := by decide
    rw [this]; rfl
  rw [Links.place_rel hc, hcomps]
  · simp [home]
  · unfold target
    have e : txt "out/www/" = 111 :: (txt "out/www/").tail := by decide
    rw [e]; simp [isAbs]
  · rw [hcomps]
    intro x hx
    simp only [List.mem_cons] at hx
    rcases hx with rfl | rfl | hx
    · exact Links.name_lit (by decide)
    · exact Links.name_lit (by decide)
    · exact h x hx

theorem outside {root rest : Place} (first : Text) (hf : first.head? ≠ some 111) (hne : first ≠ []) : ¬ render (root ++ [txt "out", txt "www"]) <+: render (root ++ first :: rest) := by
  rw [render_append, render_append, List.prefix_append_right_inj, render_cons (txt "out"), render_cons first]
  intro h
  rw [List.cons_prefix_cons] at h
  have e : txt "out" = 111 :: (txt "out").tail := by decide
  rw [e] at h
  cases first with
  | nil => exact hne rfl
  | cons c cs =>
    simp only [List.cons_append, List.cons_prefix_cons] at h
    exact hf (by simp [h.2.1])

/-- **C106 is false of files which are copied, if links are used**: whatever the project, its working folder and its path, a file
which the build puts below out/www as a link to its source is not given, as long as that link is there. -/
theorem C106_false_copied {c : Ctx} (hc : isAbs c.cwd = true) (hs : c.symlinks = true) {names : List Text} (hne : names ≠ [])
    (h : ∀ x ∈ names, Name x) {fs fs' : Links.Fs} (hb : copyBuild c (source names) fs = .ok (⟨[], [target names], []⟩, fs'))
    {d : Disk} (hd : d.fs (c.place (target names)) = fs' (c.place (target names)))
    (h1 : Plain d.fs (home c) names.dropLast) (h2 : Plain d.fs [] (c.place (source names))) :
    (∀ n, get n d (home c) (url names) = .failed ∨ get n d (home c) (url names) = missing n d (home c)) ∧
    ∃ N, ∀ n, N ≤ n → get n d (home c) (url names) = missing n d (home c) := by
  have hlink : fs' (c.place (target names)) = some (.link (abspath c.cwd (c.path (source names)))) := by
    unfold copyBuild at hb
    simp only [hs, if_true] at hb
    have ht : copyTarget (source names) = some (target names) := Js.File.copyTarget_name _
    rw [ht] at hb
    simp only at hb
    split at hb
    · simp at hb
    · unfold Links.symlink at hb
      split at hb
      · simp at hb
      · next hx =>
        split at hx
        · simp at hx
        · simp only [Except.ok.injEq, Prod.mk.injEq, true_and] at hb hx
          rw [← hb, ← hx]
          simp [Links.setAt]
  rw [hlink, place_target hc h] at hd
  refine C106_false_links hne h h1 hd (isAbs_abspath hc _) (place_names hc _) h2 ?_
  show ¬ render (home c) <+: render (c.place (source names))
  rw [place_source hc h]
  have e : txt "src" = 115 :: (txt "src").tail := by decide
  exact outside _ (by rw [e]; simp) (by decide)

/-- **C106: with copies the file is given** as it was when it was built. -/
theorem C106_copied {c : Ctx} (hc : isAbs c.cwd = true) (hs : c.symlinks = false) {names : List Text} (hne : names ≠ [])
    (h : ∀ x ∈ names, Name x) {fs fs' : Links.Fs} (hb : copyBuild c (source names) fs = .ok (⟨[], [target names], []⟩, fs'))
    (hfree : ∀ t, fs (c.place (target names)) ≠ some (.link t)) {d : Disk} (hd : d.fs = fs') (h1 : Plain fs' (home c) names) {n : Nat}
    (hn : names.length < n) : ∃ b, Links.read fs (c.place (source names)) = some b ∧ get n d (home c) (url names) = .ok b := by
  unfold copyBuild at hb
  simp only [hs] at hb
  have ht : copyTarget (source names) = some (target names) := Js.File.copyTarget_name _
  rw [ht] at hb
  simp only at hb
  split at hb
  · simp at hb
  · cases hr : Links.read fs (c.place (source names)) with
    | none => simp [Links.copyfile, hr] at hb
    | some b =>
      refine ⟨b, rfl, ?_⟩
      simp only [Links.copyfile, hr, Links.write_self hfree, Bool.false_eq_true, if_false, Except.ok.injEq, Prod.mk.injEq, true_and] at hb
      apply C106_gives hne h (hd ▸ h1) hn
      rw [hd, ← place_target hc h, ← hb]
      simp [Links.setAt]

/-- **C106 is false of pictures, if links are used**: the picture of an exported image is a link into artifacts/, and is not given. -/
theorem C106_false_picture {c : Ctx} (hc : isAbs c.cwd = true) (ha : isAbs c.folder = true) (hf : ∀ x ∈ comps c.folder, Name x)
    (hs : c.symlinks = true) {names : List Text} (hne : names ≠ []) (h : ∀ x ∈ names, Name x) {fs fs' : Links.Fs} {r : Built}
    (hb : newPicture c (joinSegs names) fs = .ok (r, fs')) {d : Disk} (hd : d.fs (home c ++ names) = fs' (home c ++ names))
    (h1 : Plain d.fs (home c) names.dropLast) (h2 : Plain d.fs [] (c.root ++ txt "artifacts" :: names)) :
    (∀ n, get n d (home c) (url names) = .failed ∨ get n d (home c) (url names) = missing n d (home c)) ∧
    ∃ N, ∀ n, N ≤ n → get n d (home c) (url names) = missing n d (home c) := by
  have hbelow : Links.Below (joinSegs names) := by
    refine ⟨?_, by rw [comps_joinSegs (seg_of_name h)]; exact hne, by rw [comps_joinSegs (seg_of_name h)]; exact h⟩
    have := (joinSegs_head hne (seg_of_name h)).2
    simpa [isAbs] using this
  have hpl : c.place (served (joinSegs names)) = home c ++ names := by
    rw [Links.place_served hc hbelow, comps_joinSegs (seg_of_name h)]
    simp [home]
  have hroot : c.root = comps c.folder := by
    unfold Ctx.root Links.place
    rw [comps_abspath hc, ha]
    simp [walk_names hf]
  have hck : comps (c.kept (joinSegs names)) = c.root ++ txt "artifacts" :: names := by
    rw [Links.comps_kept hbelow.1, comps_joinSegs (seg_of_name h), hroot]
  have hlink : fs' (home c ++ names) = some (.link (c.kept (joinSegs names))) := by
    unfold newPicture at hb
    simp only [hs, if_true, hpl] at hb
    unfold Links.symlink at hb
    split at hb
    · simp at hb
    · next hx =>
      split at hx
      · simp at hx
      · simp only [Except.ok.injEq, Prod.mk.injEq] at hb hx
        rw [← hb.2, ← hx]
        simp [Links.setAt]
  rw [hlink] at hd
  refine C106_false_links hne h h1 hd (by rw [Links.isAbs_kept hbelow.1]; exact ha) ?_ (by rw [hck]; exact h2) ?_
  · rw [hck]
    intro x hx
    rcases List.mem_append.1 hx with hx | hx
    · rw [hroot] at hx; exact hf x hx
    · rcases List.mem_cons.1 hx with rfl | hx
      · exact Links.name_artifacts
      · exact h x hx
  · rw [hck]
    have e : txt "artifacts" = 97 :: (txt "artifacts").tail := by decide
    exact outside _ (by rw [e]; simp) (by decide)

/-! ## Cases -/

namespace Case

/-- `/p/out/www` with a page, a picture and a link to a source, and a folder beside it. -/
def files : Links.Fs := fun p =>
  if p = [txt "p", txt "out", txt "www", txt "index.html"] then some (.file [1])
  else if p = [txt "p", txt "out", txt "www", txt "img", txt "a b.png"] then some (.file [2])
  else if p = [txt "p", txt "out", txt "www", txt "logo.svg"] then some (.link (txt "/p/src/public/logo.svg"))
  else if p = [txt "p", txt "src", txt "public", txt "logo.svg"] then some (.file [3])
  else if p = [txt "p", txt "out", txt "www-old", txt "secret.txt"] then some (.file [4])
  else if p = [txt "p", txt "vanillaplusjs.json"] then some (.file [5])
  else none

def folders : Place → Bool := fun p =>
  p == [txt "p", txt "out", txt "www"] || p == [txt "p", txt "out", txt "www", txt "img"] || p == [txt "p", txt "out", txt "www-old"]

def disk : Disk := ⟨files, folders⟩
def www : Place := [txt "p", txt "out", txt "www"]

/-- The page, the picture, a folder without index, files outside, and the link. -/
theorem C106_case : get 40 disk www (txt "/") = .ok [1] ∧ get 40 disk www (txt "/index.html") = .ok [1] ∧
    get 40 disk www (txt "/img/a b.png") = .ok [2] ∧ get 40 disk www (txt "/img") = .notFound none ∧
    get 40 disk www (txt "/../../vanillaplusjs.json") = .notFound none ∧
    get 40 disk www (txt "//p/vanillaplusjs.json") = .notFound none ∧
    get 40 disk www (txt "/logo.svg") = .notFound none := by decide +kernel

/-- **C106 is false of folders beside out/www whose names begin with www**: their files are given. -/
theorem C106_false_beside : get 40 disk www (txt "/../www-old/secret.txt") = .ok [4] ∧
    ∀ rest, files (www ++ rest) ≠ some (.file [4]) := by
  refine ⟨by decide +kernel, fun rest h => ?_⟩
  unfold files at h
  split_ifs at h with h1 h2 h3 h4 h5 h6
  all_goals first | (simp at h; done) | skip
  · simp only [www, List.cons_append, List.nil_append, List.cons.injEq] at h5
    exact absurd h5.2.2.1 (by decide)

def noLink : Option Entry → Bool
  | some (.link _) => false
  | _ => true

theorem noLink_ne {e : Option Entry} (h : noLink e = true) (t : Text) : e ≠ some (.link t) := by
  rintro rfl
  cases h

def linked : Ctx := ⟨txt "/", txt "/p", true⟩
def before : Links.Fs := fun p => if p = [txt "p", txt "src", txt "public", txt "logo.svg"] then some (.file [3]) else none
def after : Links.Fs := Links.setAt before (www ++ [txt "logo.svg"]) (some (.link (txt "/p/src/public/logo.svg")))

/-- What a build makes of `src/public/logo.svg`, with links: the hypotheses of `C106_false_copied` are met. -/
theorem C106_links_case : copyBuild linked (source [txt "logo.svg"]) before = .ok (⟨[], [target [txt "logo.svg"]], []⟩, after) ∧
    Plain after [] (linked.place (source [txt "logo.svg"])) ∧ Plain after (home linked) [txt "logo.svg"].dropLast ∧
    home linked = www ∧ get 40 ⟨after, folders⟩ www (url [txt "logo.svg"]) = .notFound none ∧
    Links.read after (www ++ [txt "logo.svg"]) = some [3] := by
  have e1 : linked.place (source [txt "logo.svg"]) = [txt "p", txt "src", txt "public", txt "logo.svg"] := by decide +kernel
  have e2 : linked.place (target [txt "logo.svg"]) = www ++ [txt "logo.svg"] := by decide +kernel
  have e3 : abspath linked.cwd (linked.path (source [txt "logo.svg"])) = txt "/p/src/public/logo.svg" := by decide +kernel
  refine ⟨?_, ?_, ?_, by decide +kernel, by decide +kernel, by decide +kernel⟩
  · have ht : copyTarget (source [txt "logo.svg"]) = some (target [txt "logo.svg"]) := Js.File.copyTarget_name _
    have hr : (Links.read before (www ++ [txt "logo.svg"])).isSome = false := by decide +kernel
    have hn : (before (www ++ [txt "logo.svg"])).isSome = false := by decide +kernel
    unfold copyBuild
    rw [ht]
    simp only
    rw [e2, hr, e3]
    simp only [Bool.false_eq_true, if_false, show linked.symlinks = true from rfl, if_true, Links.symlink, hn]
    rfl
  · rw [e1]
    intro i hi t
    simp only [List.length_cons, List.length_nil] at hi
    match i with
    | 0 => exact noLink_ne (by decide +kernel) t
    | 1 => exact noLink_ne (by decide +kernel) t
    | 2 => exact noLink_ne (by decide +kernel) t
    | 3 => exact noLink_ne (by decide +kernel) t
    | n + 4 => omega
  · intro i hi
    simp at hi

/-- A project without such a folder: the hypotheses of `C106_confined_partial` and `C106_index` are met, and the page is given. -/
def own : Links.Fs := fun p =>
  if p = [txt "p", txt "out", txt "www", txt "a", txt "index.html"] then some (.file [1])
  else if p = [txt "p", txt "vanillaplusjs.json"] then some (.file [5])
  else none

def ownFolders : Place → Bool := fun p => p == www || p == www ++ [txt "a"]

theorem C106_confined_case : (∀ x ∈ [txt "p", txt "out"] ++ [txt "www"], Seg x) ∧
    (∀ name rest b, own ([txt "p", txt "out"] ++ name :: rest) = some (.file b) → txt "www" <+: name → name = txt "www") ∧
    get 40 ⟨own, ownFolders⟩ ([txt "p", txt "out"] ++ [txt "www"]) (txt "/a/") = .ok [1] ∧
    get 40 ⟨own, ownFolders⟩ www (txt "/a") = .redirect (txt "/a/") ∧
    urlFolder [txt "a"] = txt "/a/" ∧ url [txt "a"] = txt "/a" ∧ Plain own www ([txt "a"] ++ [txt "index.html"]) := by
  refine ⟨?_, ?_, by decide +kernel, by decide +kernel, by decide +kernel, by decide +kernel, ?_⟩
  · have : ∀ x ∈ [txt "p", txt "out", txt "www"], x ≠ [] ∧ 47 ∉ x := by decide
    exact this
  · intro name rest b h _
    unfold own at h
    split_ifs at h with h1 h2
    · simp only [List.cons_append, List.nil_append, List.cons.injEq] at h1
      exact h1.2.2.1
    · simp only [List.cons_append, List.nil_append, List.cons.injEq] at h2
      exact absurd h2.2.1 (by decide)
  · intro i hi t
    simp only [List.cons_append, List.nil_append, List.length_cons, List.length_nil] at hi
    match i with
    | 0 => exact noLink_ne (by decide +kernel) t
    | 1 => exact noLink_ne (by decide +kernel) t
    | n + 2 => omega

end Case

end Verif.Static
