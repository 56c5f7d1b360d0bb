import Verif.Media
import Verif.StaticLinks
/-!
# C107: pages, stylesheets, scripts and pictures are served with their media type, on every machine
-/
namespace Verif.Media
open Verif.Reader (Text txt)
open Verif.Paths
open Verif.Handlers (Bytes)
open Verif.Links (Place Entry)
open Verif.Static

/-! ## Specification -/

/-- The header content-type which files should come with, by the extension (in small letters). -/
def expected : List (Text × Text) :=
  [ (txt "html", txt "text/html; charset=utf-8"), (txt "css", txt "text/css; charset=utf-8"),
    (txt "js", txt "text/javascript; charset=utf-8"), (txt "svg", txt "image/svg+xml"), (txt "jpg", txt "image/jpeg"),
    (txt "jpeg", txt "image/jpeg"), (txt "png", txt "image/png"), (txt "gif", txt "image/gif"), (txt "webp", txt "image/webp") ]

/-- The machine takes none of these extensions for a compression or for an abbreviation.  About the types it may say anything. -/
def Ordinary (machine : Tables) : Prop :=
  ∀ ext h, (ext, h) ∈ expected → machine.suffixes (46 :: ext) = none ∧ ∀ x, lower x = 46 :: ext → machine.encodings x = none

/-! ## Extensions -/

theorem lower_clean {e ext : Text} (h : lower e = ext) (hc : ext.all (fun c => c != 46 && c != 47) = true) :
    ∀ c ∈ e, (c != 46 && c != 47) = true := by
  intro c hce
  subst h
  have := List.all_eq_true.1 hc (if 65 ≤ c ∧ c ≤ 90 then c + 32 else c) (by
    unfold lower
    exact List.mem_map.2 ⟨c, hce, rfl⟩)
  by_cases hl : 65 ≤ c ∧ c ≤ 90
  · simp; omega
  · rwa [if_neg hl] at this

theorem takeWhile_all {p : Nat → Bool} : ∀ {l r : Text}, (∀ c ∈ l, p c = true) → (l ++ r).takeWhile p = l ++ r.takeWhile p
  | [], _, _ => by simp
  | c :: l, r, h => by
    rw [List.cons_append, List.takeWhile_cons, if_pos (h c (by simp)), takeWhile_all fun x hx => h x (by simp [hx])]
    simp

theorem dropWhile_all {p : Nat → Bool} : ∀ {l r : Text}, (∀ c ∈ l, p c = true) → (l ++ r).dropWhile p = r.dropWhile p
  | [], _, _ => by simp
  | c :: l, r, h => by
    rw [List.cons_append, List.dropWhile_cons, if_pos (h c (by simp)), dropWhile_all fun x hx => h x (by simp [hx])]

/-- The extension of a name which does not only have dots before it. -/
theorem splitext_name {folder stem e : Text} (hs : 47 ∉ stem) (hd : ∃ c ∈ stem, c ≠ 46) (he : ∀ c ∈ e, (c != 46 && c != 47) = true) :
    splitext (folder ++ 47 :: (stem ++ 46 :: e)) = (folder ++ 47 :: stem, 46 :: e) := by
  have er : (folder ++ 47 :: (stem ++ 46 :: e)).reverse = e.reverse ++ 46 :: (stem.reverse ++ 47 :: folder.reverse) := by simp
  have he' : ∀ c ∈ e.reverse, (c != 46 && c != 47) = true := fun c hc => he c (by simpa using hc)
  unfold splitext
  rw [er, dropWhile_all he', takeWhile_all he', List.dropWhile_cons, if_neg (by decide), List.takeWhile_cons, if_neg (by decide)]
  simp only
  rw [if_neg]
  · simp
  · rw [takeWhile_all (by
      intro c hc
      simp only [bne_iff_ne, ne_eq]
      intro h47
      subst h47
      exact hs (by simpa using hc))]
    obtain ⟨c, hc, hne⟩ := hd
    intro hall
    have := List.all_eq_true.1 hall c (by simp [hc])
    simp at this
    exact hne this

theorem expected_clean {ext h : Text} (hx : (ext, h) ∈ expected) : ext.all (fun c => c != 46 && c != 47) = true := by
  have : ∀ r ∈ expected, r.1.all (fun c => c != 46 && c != 47) = true := by decide +kernel
  exact this _ hx

/-- What the tables say once the module is imported, whatever they said before. -/
theorem imported_types (machine : Tables) {ext h : Text} (hx : (ext, h) ∈ expected) :
    ∃ type, (imported machine).types (46 :: ext) = some type ∧
      (if (txt "text/").isPrefixOf type then type ++ txt "; charset=utf-8" else type) = h := by
  have key : ∀ r ∈ expected, ∃ type, (imported machine).types (46 :: r.1) = some type ∧
      (if (txt "text/").isPrefixOf type then type ++ txt "; charset=utf-8" else type) = r.2 := by
    unfold expected
    simp only [List.mem_cons, List.not_mem_nil, or_false, forall_eq_or_imp, forall_eq]
    refine ⟨⟨txt "text/html", ?_, ?_⟩, ⟨txt "text/css", ?_, ?_⟩, ⟨txt "text/javascript", ?_, ?_⟩, ⟨txt "image/svg+xml", ?_, ?_⟩,
      ⟨txt "image/jpeg", ?_, ?_⟩, ⟨txt "image/jpeg", ?_, ?_⟩, ⟨txt "image/png", ?_, ?_⟩, ⟨txt "image/gif", ?_, ?_⟩,
      ⟨txt "image/webp", ?_, ?_⟩⟩
    all_goals first | rfl | decide +kernel
  exact key _ hx

theorem imported_rest (machine : Tables) :
    (imported machine).suffixes = machine.suffixes ∧ (imported machine).encodings = machine.encodings := ⟨rfl, rfl⟩

theorem lower_dot (e : Text) : lower (46 :: e) = 46 :: lower e := by simp [lower]

theorem contentType_name {machine : Tables} (ho : Ordinary machine) {k : Nat} {folder stem e ext h : Text} (hs : 47 ∉ stem)
    (hd : ∃ c ∈ stem, c ≠ 46) (hl : lower e = ext) (hx : (ext, h) ∈ expected) :
    contentType (k + 1) (imported machine) (folder ++ 47 :: (stem ++ 46 :: e)) = some h := by
  obtain ⟨type, ht, hh⟩ := imported_types machine hx
  obtain ⟨o1, o2⟩ := ho ext h hx
  have er : resolve (imported machine) (k + 1) (folder ++ 47 :: stem, 46 :: e) = some (folder ++ 47 :: stem, 46 :: e) := by
    unfold resolve
    rw [(imported_rest machine).1, lower_dot, hl, o1]
  have eg : guess (k + 1) (imported machine) (folder ++ 47 :: (stem ++ 46 :: e)) = some (some type) := by
    unfold guess
    rw [splitext_name hs hd (lower_clean hl (expected_clean hx)), er]
    simp only
    rw [(imported_rest machine).2, o2 _ (by rw [lower_dot, hl])]
    simp only
    rw [lower_dot, hl, ht]
  unfold contentType
  rw [eg]
  simp only [Option.getD_some]
  rw [hh]

theorem render_snoc (p : Place) (x : Text) : render (p ++ [x]) = render p ++ 47 :: x := by simp [render]

/-! ## The theorems -/

/-- **C107.**  A page, stylesheet, script or picture of the folder, at whatever depth and whatever its name, is given with the type
of its extension, in small or capital letters, whatever the machine's own tables say about types. -/
theorem C107_types {machine : Tables} (ho : Ordinary machine) {k n : Nat} {d : Disk} {dir : Place} {names : List Text}
    {stem e ext h : Text} (hd : ∃ c ∈ stem, c ≠ 46) (hl : lower e = ext) (hx : (ext, h) ∈ expected)
    (hnames : ∀ x ∈ names ++ [stem ++ 46 :: e], Name x) (hp : Plain d.fs dir (names ++ [stem ++ 46 :: e]))
    (hn : names.length + 1 < n) {b : Bytes} (hf : d.fs (dir ++ (names ++ [stem ++ 46 :: e])) = some (.file b)) :
    get n d dir (url (names ++ [stem ++ 46 :: e])) = .ok b ∧
      header (k + 1) (imported machine) n d dir (url (names ++ [stem ++ 46 :: e])) = some h := by
  have hne : names ++ [stem ++ 46 :: e] ≠ [] := by simp
  have hlen : (names ++ [stem ++ 46 :: e]).length < n := by simpa using hn
  refine ⟨C106_gives hne hnames hp hlen hf, ?_⟩
  have hs : 47 ∉ stem := by
    have := (hnames (stem ++ 46 :: e) (by simp)).1.2
    intro hm
    exact this (by simp [hm])
  unfold header
  rw [getPath_url hne hnames, lookup_names hne hnames hp hlen]
  have es : stat d (dir ++ (names ++ [stem ++ 46 :: e])) = .file b := by unfold stat; rw [hf]
  rw [es]
  simp only
  rw [split_joinSegs (fun x hx => (hnames x hx).1.2) hne, real_names d.fs _ dir n hnames hp hlen]
  simp only [Option.bind_some]
  rw [← List.append_assoc, render_snoc]
  exact contentType_name ho hs hd hl hx

/-- **C107: the index page of a folder** is given as a page. -/
theorem C107_index {machine : Tables} (ho : Ordinary machine) {k n : Nat} {d : Disk} {dir : Place} {names : List Text}
    (h : ∀ x ∈ names, Name x) (hp : Plain d.fs dir (names ++ [txt "index.html"])) (hn : names.length + 2 < n) {b : Bytes}
    (hd : d.isDir (dir ++ names) = true) (hfree : d.fs (dir ++ names) = none)
    (hf : d.fs (dir ++ names ++ [txt "index.html"]) = some (.file b)) :
    get n d dir (urlFolder names) = .ok b ∧
      header (k + 1) (imported machine) n d dir (urlFolder names) = some (txt "text/html; charset=utf-8") := by
  refine ⟨(C106_index h hp hn hd hfree hf).1, ?_⟩
  have hall : ∀ x ∈ names ++ [txt "index.html"], Name x := by
    intro x hx
    rcases List.mem_append.1 hx with hx | hx
    · exact h x hx
    · simp only [List.mem_singleton] at hx; rw [hx]; exact name_index
  have hp' : Plain d.fs dir names := by
    intro i hi t
    have := hp i (by simp; omega) t
    rwa [List.take_append_of_le_length (by omega)] at this
  have ei : txt "index.html" = txt "index" ++ 46 :: txt "html" := by decide
  have ect : ∀ folder : Text, contentType (k + 1) (imported machine) (folder ++ 47 :: txt "index.html") = some (txt "text/html; charset=utf-8") := by
    intro folder
    rw [ei]
    exact contentType_name ho (by decide) ⟨105, by decide, by decide⟩ (ext := txt "html") (by decide) (by decide)
  have es : stat d (dir ++ names ++ [txt "index.html"]) = .file b := by unfold stat; rw [hf]
  by_cases hne : names = []
  · subst hne
    have r1 : real d.fs n dir (split [46]) = some dir := by
      match n, hn with
      | n + 3, _ => simp [split, real]
    have er : real d.fs n dir (split (join [46] (txt "index.html"))) = some (dir ++ [txt "index.html"]) := by
      have es : split (join [46] (txt "index.html")) = [[46], txt "index.html"] := by decide
      rw [es]
      match n, hn with
      | n + 3, _ =>
        have := real_names d.fs [txt "index.html"] dir (n + 2) (by simpa using name_index) (by simpa using hp) (by simp)
        unfold real
        simpa using this
    have e1 : Static.lookup n d dir [46] = some (stat d dir) := by
      unfold Static.lookup
      rw [r1]
      simp [List.isPrefixOf_iff_prefix]
    have e2 : Static.lookup n d dir (join [46] (txt "index.html")) = some (stat d (dir ++ [txt "index.html"])) := by
      unfold Static.lookup
      rw [er]
      simp only
      rw [if_pos]
      rw [List.isPrefixOf_iff_prefix, render_append]
      exact List.prefix_append ..
    simp only [List.append_nil] at hd hfree es
    unfold header
    rw [show urlFolder [] = [47] from rfl, getPath_root, e1, stat_folder hfree hd]
    simp only
    rw [e2, es]
    simp only
    rw [er]
    simp only [Option.bind_some]
    rw [render_snoc]
    exact ect _
  · unfold header
    rw [getPath_urlFolder hne h, lookup_names hne h hp' (by omega), stat_folder hfree hd]
    simp only
    rw [join_index hne h, lookup_names (by simp) hall hp (by simp; omega), ← List.append_assoc, es]
    simp only
    rw [split_joinSegs (fun x hx => (hall x hx).1.2) (by simp), real_names d.fs _ dir n hall hp (by simp; omega)]
    simp only [Option.bind_some]
    rw [← List.append_assoc, render_snoc]
    exact ect _

/-! ## A machine with odd types -/
namespace Case
open Verif.Static.Case (www noLink_ne)

/-- A machine which takes scripts for plain text, knows archives, and takes `.gz` for a compression. -/
def odd : Tables where
  types := fun x => if x = txt ".js" then some (txt "text/plain") else if x = txt ".tar" then some (txt "application/x-tar") else none
  suffixes := fun x => if x = txt ".svgz" then some (txt ".svg.gz") else if x = txt ".tgz" then some (txt ".tar.gz") else none
  encodings := fun x => if x = txt ".gz" then some (txt "gzip") else none

theorem odd_ordinary : Ordinary odd := by
  intro ext h hx
  have key : ∀ r ∈ expected, odd.suffixes (46 :: r.1) = none ∧ lower (txt ".gz") ≠ 46 :: r.1 := by decide +kernel
  refine ⟨(key _ hx).1, fun x hl => ?_⟩
  unfold odd
  simp only
  rw [if_neg]
  rintro rfl
  exact (key _ hx).2 hl

def site : Disk where
  fs := fun p =>
    if p = [txt "p", txt "out", txt "www", txt "index.html"] then some (.file [1])
    else if p = [txt "p", txt "out", txt "www", txt "js", txt "app.min.JS"] then some (.file [2])
    else if p = [txt "p", txt "out", txt "www", txt "logo.svgz"] then some (.file [3])
    else none
  isDir := fun p => p == www || p == www ++ [txt "js"]

/-- The hypotheses of C107 are met, also by a name with two dots and capital letters, on a machine which has another type for
scripts. -/
theorem C107_case : Ordinary odd ∧
    get 40 site www (txt "/js/app.min.JS") = .ok [2] ∧
    header 3 (imported odd) 40 site www (txt "/js/app.min.JS") = some (txt "text/javascript; charset=utf-8") ∧
    header 3 (imported odd) 40 site www (txt "/") = some (txt "text/html; charset=utf-8") ∧
    (∀ x ∈ [txt "js"] ++ [txt "app.min" ++ 46 :: txt "JS"], Name x) ∧
    Plain site.fs www ([txt "js"] ++ [txt "app.min" ++ 46 :: txt "JS"]) ∧ lower (txt "JS") = txt "js" := by
  refine ⟨odd_ordinary, by decide +kernel, by decide +kernel, by decide +kernel, ?_, ?_, by decide⟩
  · intro x hx
    simp only [List.mem_append, List.mem_singleton] at hx
    rcases hx with rfl | rfl
    · exact Links.name_lit (by decide)
    · exact Links.name_lit (by decide)
  · intro i hi t
    match i, hi with
    | 0, _ => exact noLink_ne (by decide +kernel) t
    | 1, _ => exact noLink_ne (by decide +kernel) t

/-- Without the types which the module enters, this machine would give scripts as plain text. -/
theorem C107_needed : contentType 3 odd (txt "/p/out/www/js/app.js") = some (txt "text/plain; charset=utf-8") := by
  decide +kernel

/-- What the theorem does not say, and what is false: that the type is that of the bytes.  A compressed drawing is given as a plain
one, since only the first half of what `guess_type` says is used and the answer names no compression. -/
theorem C107_false_compressed : get 40 site www (txt "/logo.svgz") = .ok [3] ∧
    header 3 (imported odd) 40 site www (txt "/logo.svgz") = some (txt "image/svg+xml") := by decide +kernel

end Case
end Verif.Media
