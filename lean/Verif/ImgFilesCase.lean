import Verif.ImgFilesDraw
import Verif.ImgGlue
import Mathlib.Data.Countable.Basic
import Mathlib.Data.Countable.Defs
import Mathlib.Logic.Encodable.Basic
import Mathlib.Logic.Equiv.List

/-!
# C71-C74: a project for which they say something

`os.scandir` and JSON are outside of the model; here they are chosen such that what is assumed of them holds.
-/

namespace Verif.Img.Files.Case

open Verif.Reader (Text txt)
open Verif.Paths (join isAbs Seg)
open Verif.Handlers (Bytes Fs Scan Built)
open Verif.Css.Data (root)

/-! ## JSON -/

instance : Countable (Target Unit) :=
  Function.Injective.countable (f := fun t : Target Unit => (t.width, t.height, t.crop)) (by
    intro a b h
    cases a; cases b
    simpa using h)

instance : Countable Pic :=
  Function.Injective.countable (f := fun t : Pic => (t.width, t.height, t.relpath, t.choice)) (by
    intro a b h
    cases a; cases b
    simpa using h)

instance : Countable (Metadata Unit) :=
  Function.Injective.countable (f := fun t : Metadata Unit => (t.settingsHash, t.path, t.width, t.height, t.contentsHash, t.target, t.outputs)) (by
    intro a b h
    cases a; cases b
    simpa using h)

noncomputable def dump {α : Type} [Countable α] (a : α) : Bytes := [(exists_injective_nat α).choose a]

open Classical in
noncomputable def load {α : Type} [Countable α] (b : Bytes) : Option α := if h : ∃ a : α, dump a = b then some h.choose else none

theorem load_dump {α : Type} [Countable α] (a : α) : load (dump a) = some a := by
  have h : ∃ a' : α, dump a' = dump a := ⟨a, rfl⟩
  have inj : ∀ x y : α, dump x = dump y → x = y := by
    intro x y h
    unfold dump at h
    simp only [List.cons.injEq, and_true] at h
    exact (exists_injective_nat α).choose_spec h
  unfold load
  rw [dif_pos h]
  exact congrArg some (inj _ _ h.choose_spec)

open Classical in
noncomputable def toInt (t : Text) : Option ℤ := if h : ∃ n, idText n = t then some h.choose else none

theorem toInt_text (n : ℤ) : toInt (idText n) = some n := by
  have h : ∃ k, idText k = idText n := ⟨n, rfl⟩
  unfold toInt
  rw [dif_pos h]
  exact congrArg some (idText_inj h.choose_spec)

/-! ## Folders -/

/-- A name in a folder. -/
def Entry (fs : Fs) (d : Text) (e : Text × Bool) : Prop :=
  Seg e.1 ∧ (e.2 = true ∧ (∃ file, (fs (d ++ 47 :: e.1 ++ 47 :: file)).isSome) ∨ e.2 = false ∧ (fs (d ++ 47 :: e.1)).isSome)

theorem entries {fs : Fs} (h : Finite fs) (d : Text) : ∃ es : List (Text × Bool), ∀ e, e ∈ es ↔ Entry fs d e := by
  classical
  obtain ⟨l, hl⟩ := h
  -- all parts of the paths
  refine ⟨((l.flatMap fun p => (List.range (p.length + 1)).flatMap fun i => (List.range (p.length + 1)).flatMap fun j =>
    [((p.drop i).take j, true), ((p.drop i).take j, false)]).filter fun e => decide (Entry fs d e)), fun e => ?_⟩
  simp only [List.mem_filter, decide_eq_true_eq, and_iff_right_iff_imp]
  intro he
  have key : ∀ q : Text, (fs q).isSome → (∃ t, q = d ++ 47 :: e.1 ++ t) → e ∈ l.flatMap fun p => (List.range (p.length + 1)).flatMap fun i =>
      (List.range (p.length + 1)).flatMap fun j => [((p.drop i).take j, true), ((p.drop i).take j, false)] := by
    rintro q hq ⟨t, rfl⟩
    rw [List.mem_flatMap]
    refine ⟨_, hl _ hq, ?_⟩
    rw [List.mem_flatMap]
    refine ⟨d.length + 1, by simp, ?_⟩
    rw [List.mem_flatMap]
    refine ⟨e.1.length, by simp; omega, ?_⟩
    have : ((d ++ 47 :: e.1 ++ t).drop (d.length + 1)).take e.1.length = e.1 := by
      rw [List.append_assoc, ← List.drop_drop, List.drop_left]
      simp
    rw [this]
    obtain ⟨a, b⟩ := e
    cases b <;> simp
  rcases he.2 with ⟨-, file, hf⟩ | ⟨-, hf⟩
  · exact key _ hf ⟨47 :: file, by simp⟩
  · exact key _ hf ⟨[], by simp⟩

open Classical in
noncomputable def list (fs : Fs) (d : Text) : Option (List (Text × Bool)) :=
  if h : Finite fs then
    if (entries h d).choose = [] then none else some (entries h d).choose
  else none

theorem list_entry {fs : Fs} {d : Text} {es : List (Text × Bool)} (h : list fs d = some es) : ∀ e ∈ es, Entry fs d e := by
  unfold list at h
  split at h
  · next hf =>
    split at h
    · cases h
    · cases h
      exact fun e he => ((entries hf d).choose_spec e).1 he
  · cases h

theorem list_all {fs : Fs} {d : Text} (hf : Finite fs) {e : Text × Bool} (h : Entry fs d e) : ∃ es, list fs d = some es ∧ e ∈ es := by
  have hm := ((entries hf d).choose_spec e).2 h
  have hne : (entries hf d).choose ≠ [] := by
    intro hn
    rw [hn] at hm
    simp at hm
  exact ⟨_, by unfold list; rw [dif_pos hf, if_neg hne], hm⟩

theorem list_none {fs : Fs} {d : Text} (h : ∀ e, ¬ Entry fs d e) : list fs d = none := by
  cases hx : list fs d with
  | none => rfl
  | some es =>
    have h2 := list_entry hx
    cases es with
    | nil =>
      unfold list at hx
      split at hx
      · split at hx
        · cases hx
        · next hne => exact absurd (Option.some.inj hx) hne
      · cases hx
    | cons e es => exact absurd (h2 e (by simp)) (h e)

/-! ## The project -/

/-- Images in the format w, with an export a and an export b, in the sizes 10x10 and 20x20. -/
def format : Format := ⟨[119], [([97], ⟨none, none, 1⟩), ([98], ⟨none, some 100, 1⟩)], 10⟩

noncomputable def toy : Env Glue.Json Unit where
  cwd := txt "/p"
  folder := txt "."
  symlinks := false
  formats := [format]
  settingsHash := .ok 7
  sizes := fun _ _ => [(10, 10), (20, 20)]
  crop := fun j => match j with | .obj _ => some () | _ => none
  int := toInt
  dims := fun _ => some (100, 100)
  draw := fun img _ w h n _ => .ok (img ++ List.replicate (w * h - if n = [98] then 50 else 0) 1)
  digest := id
  decode := id
  encode := id
  dirs := list
  dumpTarget := dump
  loadTarget := load
  dumpMeta := dump
  loadMeta := load

theorem toy_lawful : Lawful toy where
  linked := by intro h; cases h
  int := toInt_text
  text := fun _ => rfl
  target := load_dump
  metadata := load_dump
  names := fun fs d es h e he => (list_entry h e he).1
  listed := fun fs d name file hf hn hs => list_all hf ⟨hn, .inl ⟨rfl, file, hs⟩⟩
  format := by
    intro f hf
    simp only [toy, List.mem_singleton] at hf
    subst hf
    decide
  hash := by
    intro f hf
    simp only [toy, List.mem_singleton] at hf
    subst hf
    decide
  formats := by simp [toy]

theorem toy_formats : ∀ f ∈ toy.formats, GoodFormat f := by
  intro f hf
  simp only [toy, List.mem_singleton] at hf
  subst hf
  exact ⟨by decide, by decide, by decide⟩

/-- `<!--[IMAGE: /img/a.png 10 10 ...]-->` -/
def command : Command Glue.Json := ⟨txt "/img/a.png", 10, 10, txt "cover", .obj [], true⟩

def page : Text := txt "./src/public/gallery.images.json"

/-- The image, its hash and an image module. -/
def f0 : Fs := fun p => if p = txt "src/public/img/a.png" then some [1] else if p = txt "out/www/img/a.png.hash" then some [1]
  else if p = txt "src/public/gallery.images.json" then some [2] else none

theorem rel_is : relOf toy page command = txt "img/a.png" := by
  have h : isAbs (command.path) = true := by decide
  unfold relOf sourcePath
  rw [if_pos h]
  decide

theorem stem_is : root (txt "img/a.png") = txt "img/a" := by decide

theorem plain : Plain (txt "img/a") := ⟨by decide, by decide, by decide⟩

theorem proper : Proper toy page command := by
  unfold Proper
  rw [rel_is, stem_is]
  exact plain

theorem source_is : source (txt "img/a.png") = txt "src/public/img/a.png" := by decide

theorem hash_is : hashFile (txt "img/a.png") = txt "out/www/img/a.png.hash" := by decide

theorem start : Start toy f0 where
  finite := ⟨[txt "src/public/img/a.png", txt "out/www/img/a.png.hash", txt "src/public/gallery.images.json"], fun p hp => by
    unfold f0 at hp
    split at hp
    · next h => simp [h]
    · split at hp
      · next h => simp [h]
      · split at hp
        · next h => simp [h]
        · cases hp⟩
  art := by
    intro p hp
    have h1 : p ≠ txt "src/public/img/a.png" := by
      rintro rfl
      revert hp
      unfold InArt
      decide
    have h2 : p ≠ txt "out/www/img/a.png.hash" := by
      rintro rfl
      revert hp
      unfold InArt
      decide
    have h3 : p ≠ txt "src/public/gallery.images.json" := by
      rintro rfl
      revert hp
      unfold InArt
      decide
    simp [f0, h1, h2, h3]
  out := by
    intro s n w h f hf
    have h1 : outFile s (idText n) (outName w h f) ≠ txt "src/public/img/a.png" := by
      intro he
      have hi := out_out s (idText n) (outName w h f)
      rw [he] at hi
      revert hi
      unfold InOut
      decide
    have h3 : outFile s (idText n) (outName w h f) ≠ txt "src/public/gallery.images.json" := by
      intro he
      have hi := out_out s (idText n) (outName w h f)
      rw [he] at hi
      revert hi
      unfold InOut
      decide
    have h2 : outFile s (idText n) (outName w h f) ≠ txt "out/www/img/a.png.hash" := by
      intro he
      have e : txt "out/www/img/a.png.hash" = txt "out/www/img" ++ 47 :: txt "a.png.hash" := by decide
      rw [e] at he
      unfold outFile at he
      exact out_ne 97 (by decide) (by omega) (split_unique_last (out_slash hf) (by decide) he).2
    simp [f0, h1, h2, h3]
  hashes := by
    intro rel b b' hb hb' _
    by_cases h1 : hashFile rel = txt "out/www/img/a.png.hash"
    · have hr : rel = txt "img/a.png" := by
        have e : txt "out/www/img/a.png.hash" = join (txt "out") (txt "www") ++ 47 :: (txt "img/a.png" ++ txt ".hash") := by decide
        unfold hashFile at h1
        by_cases habs : (rel ++ txt ".hash").head? = some 47
        · exfalso
          unfold join at h1
          rw [if_pos (by unfold isAbs; simpa using habs)] at h1
          rw [h1] at habs
          revert habs
          decide
        · rw [join_plain (by decide) (by decide) habs, e] at h1
          have := List.append_cancel_left h1
          simp only [List.cons.injEq, true_and] at this
          exact List.append_cancel_right this
      subst hr
      rw [h1] at hb
      have h3 : f0 (source (txt "img/a.png")) = some [1] := by rw [source_is]; decide
      rw [h3] at hb'
      cases hb'
      have : f0 (txt "out/www/img/a.png.hash") = some [1] := by decide
      rw [this] at hb
      cases hb
      rfl
    · exfalso
      have h2 : hashFile rel ≠ txt "src/public/img/a.png" ∧ hashFile rel ≠ txt "src/public/gallery.images.json" := by
        have l1 : (hashFile rel).head? = some 111 ∨ (hashFile rel).head? = some 47 := by
          unfold hashFile
          by_cases habs : (rel ++ txt ".hash").head? = some 47
          · unfold join
            rw [if_pos (by unfold isAbs; simpa using habs)]
            exact .inr habs
          · rw [join_plain (by decide) (by decide) habs, List.head?_append_of_ne_nil _ (by decide)]
            exact .inl (by decide)
        constructor <;> intro h2 <;> rw [h2] at l1 <;> revert l1 <;> decide
      simp [f0, h1, h2] at hb
  collisions := fun _ _ _ => rfl

/-! ## The scan -/

def target : Target Unit := ⟨10, 10, txt "cover", ()⟩

theorem target_is : targetOf toy command = .ok target := rfl

noncomputable def f1 : Fs := reservedFs toy (txt "img/a") 1 target f0

theorem no_entry : ∀ e, ¬ Entry f0 (txt "artifacts/" ++ txt "img/a") e := by
  rintro e ⟨-, ⟨-, file, h⟩ | ⟨-, h⟩⟩
  · rw [start.art _ (by simp only [InArt, List.append_assoc]; exact List.prefix_append _ _)] at h
    cases h
  · rw [start.art _ (by simp only [InArt, List.append_assoc]; exact List.prefix_append _ _)] at h
    cases h

theorem reserve_run : getOrReserve toy (txt "img/a.png") target f0 = .ok (1, f1) := by
  have e1 : f0 (source (txt "img/a.png")) = some [1] := by rw [source_is]; decide
  have e2 : toy.dirs f0 (art (txt "img/a.png")) = none := by
    have : art (txt "img/a.png") = txt "artifacts/" ++ txt "img/a" := by decide
    rw [this]
    exact list_none no_entry
  have e3 : touch f0 (lockPath (txt "img/a")) (counterPath (txt "img/a")) = none := by
    rw [touch_ne (art_ne_out (counter_art _) (lock_out _))]
    exact start.art _ (counter_art _)
  unfold getOrReserve getTarget
  rw [e1, e2]
  dsimp only
  unfold reserve
  simp only [lock_eq stem_is plain, counter_eq stem_is plain, e3]
  rfl

theorem f1_source : f1 (txt "src/public/img/a.png") = some [1] := by
  unfold f1
  rw [reservedFs_ne (by decide) (by decide) (by decide +kernel)]
  decide

theorem f1_hash : f1 (txt "out/www/img/a.png.hash") = some [1] := by
  unfold f1
  rw [reservedFs_ne (by decide) (by decide) (by decide +kernel)]
  decide

theorem scan_run : ∃ s, scanCommand toy page f0 command = .ok (s, f1) := by
  unfold scanCommand
  simp only [rel_is, target_is, reserve_run]
  unfold openImage
  rw [source_is, f1_source]
  exact ⟨_, rfl⟩

/-! ## The export -/

/-- The folder of the target. -/
def dir : Text := artDir (txt "img/a.png") 1

theorem entry_is {fs : Fs} {e : Text × Bool} (h : Entry fs (txt "artifacts/" ++ txt "img/a") e) (hd : e.2 = true)
    (hf : ∀ p, InArt p → (fs p).isSome → p = counterPath (txt "img/a") ∨ ∃ file, p = entryFile (txt "img/a") (idText 1) file) : e.1 = idText 1 := by
  rcases h.2 with ⟨-, file, hs⟩ | ⟨hn, -⟩
  · have ha : InArt (txt "artifacts/" ++ txt "img/a" ++ 47 :: e.1 ++ 47 :: file) := entry_art _ _ _
    rcases hf _ ha hs with he | ⟨file', he⟩
    · exfalso
      have : txt "artifacts/" ++ txt "img/a" ++ 47 :: e.1 ++ 47 :: file = txt "artifacts/" ++ txt "img/a" ++ 47 :: txt "counter.txt" := he
      simp only [List.append_assoc, List.cons_append] at this
      have h1 := List.append_cancel_left (List.append_cancel_left this)
      simp only [List.cons.injEq, true_and] at h1
      have h2 : 47 ∈ txt "counter.txt" := by rw [← h1]; simp
      revert h2
      decide
    · have : txt "artifacts/" ++ txt "img/a" ++ 47 :: e.1 ++ 47 :: file = txt "artifacts/" ++ txt "img/a" ++ 47 :: idText 1 ++ 47 :: file' := he
      simp only [List.append_assoc, List.cons_append] at this
      have h1 := List.append_cancel_left (List.append_cancel_left this)
      simp only [List.cons.injEq, true_and] at h1
      exact (split_unique h.1.2 (idText_slash 1) h1).1
  · rw [hn] at hd; cases hd

theorem f1_art (p : Text) (hp : InArt p) (hs : (f1 p).isSome) : p = counterPath (txt "img/a") ∨ ∃ file, p = entryFile (txt "img/a") (idText 1) file := by
  by_cases h1 : p = counterPath (txt "img/a")
  · exact .inl h1
  by_cases h2 : p = entryFile (txt "img/a") (idText 1) (txt "placeholder.json")
  · exact .inr ⟨_, h2⟩
  exfalso
  unfold f1 at hs
  rw [reservedFs_ne (art_ne_out hp (lock_out _)) h1 h2, start.art p hp] at hs
  cases hs

theorem f1_finite : Finite f1 := ((start.finite.touch _).write _ _).write _ _

theorem f1_place : f1 (entryFile (txt "img/a") (idText 1) (txt "placeholder.json")) = some (dump target) := reservedFs_place

theorem f1_meta : f1 (entryFile (txt "img/a") (idText 1) (txt "metadata.json")) = none := by
  unfold f1
  rw [reservedFs_entry (idText_slash 1) (by decide) (by decide) (by rintro ⟨-, -, h⟩; revert h; decide)]
  exact start.art _ (entry_art _ _ _)

theorem f1_lock : (f1 (lockPath (txt "img/a"))).isSome := by
  unfold f1 reservedFs
  have n1 := (art_ne_out (entry_art (txt "img/a") (idText 1) (txt "placeholder.json")) (lock_out (txt "img/a"))).symm
  have n2 := (art_ne_out (counter_art (txt "img/a")) (lock_out (txt "img/a"))).symm
  simp only [Fs.write, if_neg n1, if_neg n2]
  exact touch_some _ _

theorem meta_is : metaFile (join (art (txt "img/a.png")) (idText 1)) = entryFile (txt "img/a") (idText 1) (txt "metadata.json") :=
  meta_eq stem_is plain (idText_seg 1)

theorem place_is : placeFile (join (art (txt "img/a.png")) (idText 1)) = entryFile (txt "img/a") (idText 1) (txt "placeholder.json") :=
  place_eq stem_is plain (idText_seg 1)

theorem find_run (contents : Text) : ∀ es : List (Text × Bool), (∀ e ∈ es, e.2 = true → e.1 = idText 1) → (idText 1, true) ∈ es →
    find toy (txt "img/a.png") 7 contents target es f1 = .ok (some 1, f1) := by
  intro es
  induction es with
  | nil => intro _ h; simp at h
  | cons e es ih =>
    obtain ⟨name, b⟩ := e
    intro hes hm
    unfold find
    cases b with
    | false =>
      simp only [if_true]
      refine ih (fun e he => hes e (List.mem_cons_of_mem _ he)) ?_
      simpa using hm
    | true =>
      have hn : name = idText 1 := hes (name, true) (by simp) rfl
      subst hn
      have hk : touch f1 (lockPath (txt "img/a")) = f1 := by unfold touch; rw [if_pos f1_lock]
      have hload : toy.loadTarget (dump target) = some target := load_dump _
      simp only [Bool.true_eq_false, if_false, meta_is, f1_meta, lock_eq stem_is plain, hk, place_is, f1_place, hload, if_true, toy_lawful.int]

theorem art_is : art (txt "img/a.png") = txt "artifacts/" ++ txt "img/a" := by decide

theorem target_run : getTarget toy (txt "img/a.png") target f1 = .ok (some 1, f1) := by
  obtain ⟨es, h1, h2⟩ := list_all (d := txt "artifacts/" ++ txt "img/a") f1_finite (e := (idText 1, true))
    ⟨idText_seg 1, .inl ⟨rfl, txt "placeholder.json", by
      have := f1_place
      unfold entryFile at this
      rw [this]; rfl⟩⟩
  have h1' : toy.dirs f1 (art (txt "img/a.png")) = some es := by rw [art_is]; exact h1
  have hh : toy.settingsHash = .ok 7 := rfl
  unfold getTarget
  rw [source_is, f1_source, h1', hh]
  exact find_run _ es (fun e he hd => entry_is (list_entry h1 e he) hd f1_art) h2

/-- The images which are drawn. -/
noncomputable def f2 : Fs :=
  ((f1.write (join dir (candName 10 10 [97] [119])) ([1] ++ List.replicate 100 1)).write (join dir (candName 10 10 [98] [119])) ([1] ++ List.replicate 50 1)).write
    (join dir (candName 20 20 [97] [119])) ([1] ++ List.replicate 400 1)

theorem draw_run : produceAll (toy.draw [1] target) dir (tasks [(10, 10), (20, 20)] [format]) f1 = .ok f2 := rfl

def outputs : List (Text × List Pic) :=
  [([119], [⟨10, 10, txt "img/a/1/10x10.w", [98]⟩, ⟨20, 20, txt "img/a/1/20x20.w", [97]⟩])]

noncomputable def f3 : Fs :=
  ((remove (((remove (remove f2 (join dir (candName 10 10 [97] [119]))) (join dir (candName 10 10 [98] [119]))).write
    (join dir (outName 10 10 [119])) ([1] ++ List.replicate 50 1)).write (join (outDir (txt "img/a.png") 1) (outName 10 10 [119])) ([1] ++ List.replicate 50 1))
    (join dir (candName 20 20 [97] [119]))).write (join dir (outName 20 20 [119])) ([1] ++ List.replicate 400 1)).write
    (join (outDir (txt "img/a.png") 1) (outName 20 20 [119])) ([1] ++ List.replicate 400 1)

theorem select_run (l : List Text) : selectAll false (txt "img/a.png") 1 (tasks [(10, 10), (20, 20)] [format]) ⟨f2, [], l⟩ =
    .ok ⟨f3, outputs, l ++ [join dir (outName 10 10 [119]), join (outDir (txt "img/a.png") 1) (outName 10 10 [119])] ++
      [join dir (outName 20 20 [119]), join (outDir (txt "img/a.png") 1) (outName 20 20 [119])]⟩ := by
  rfl

noncomputable def recorded : Metadata Unit := ⟨7, sourcePath toy.cwd toy.folder page command, 100, 100, [1], target, outputs⟩

noncomputable def f4 : Fs := f3.write (metaFile dir) (dump recorded)

theorem export_run : ∃ l p, exportCommand toy page f1 command = .ok (recorded, ⟨l, p, []⟩, f4) := by
  unfold exportCommand
  simp only [rel_is, target_is, target_run]
  have hm : f1 (metaFile (artDir (txt "img/a.png") 1)) = none := by
    have := f1_meta
    rw [← meta_is] at this
    exact this
  rw [hm]
  unfold exportNew openImage
  rw [source_is, f1_source, hash_is, f1_hash]
  have hd : toy.dims [1] = some (100, 100) := rfl
  have hh : toy.settingsHash = .ok 7 := rfl
  have hz : toy.sizes (100, 100) (target.width, target.height) = [(10, 10), (20, 20)] := rfl
  have hfm : toy.formats = [format] := rfl
  have hsy : toy.symlinks = false := rfl
  simp only [hd, hh, hz, hfm, hsy]
  have := draw_run
  unfold dir at this
  simp only [this, select_run]
  exact ⟨_, _, rfl⟩

/-! ## And again -/

/-- The files which the export touches. -/
def touched : List Text :=
  [metaFile dir, join dir (candName 10 10 [97] [119]), join dir (candName 10 10 [98] [119]), join dir (candName 20 20 [97] [119]),
    join dir (outName 10 10 [119]), join dir (outName 20 20 [119]), join (outDir (txt "img/a.png") 1) (outName 10 10 [119]),
    join (outDir (txt "img/a.png") 1) (outName 20 20 [119])]

theorem f4_ne {p : Text} (h : p ∉ touched) : f4 p = f1 p := by
  simp only [touched, List.mem_cons, List.not_mem_nil, or_false, not_or] at h
  obtain ⟨h1, h2, h3, h4, h5, h6, h7, h8⟩ := h
  simp only [f4, f3, f2, Fs.write, remove, if_neg h1, if_neg h2, if_neg h3, if_neg h4, if_neg h5, if_neg h6, if_neg h7, if_neg h8]

theorem f4_art (p : Text) (hp : InArt p) (hs : (f4 p).isSome) : p = counterPath (txt "img/a") ∨ ∃ file, p = entryFile (txt "img/a") (idText 1) file := by
  by_cases ht : p ∈ touched
  · simp only [touched, List.mem_cons, List.not_mem_nil, or_false] at ht
    rcases ht with rfl | rfl | rfl | rfl | rfl | rfl | rfl | rfl
    · exact .inr ⟨txt "metadata.json", by decide⟩
    · exact .inr ⟨candName 10 10 [97] [119], by decide⟩
    · exact .inr ⟨candName 10 10 [98] [119], by decide⟩
    · exact .inr ⟨candName 20 20 [97] [119], by decide⟩
    · exact .inr ⟨outName 10 10 [119], by decide⟩
    · exact .inr ⟨outName 20 20 [119], by decide⟩
    · exact absurd hp (by unfold InArt; decide)
    · exact absurd hp (by unfold InArt; decide)
  · rw [f4_ne ht] at hs
    exact f1_art p hp hs

theorem f4_finite : Finite f4 := by
  have h2 : Finite f2 := ((f1_finite.write _ _).write _ _).write _ _
  have h3 : Finite f3 := ((((((h2.remove _).remove _).write _ _).write _ _).remove _).write _ _).write _ _
  exact h3.write _ _

theorem f4_meta : f4 (metaFile dir) = some (dump recorded) := by
  simp only [f4, Fs.write, if_true]

theorem f4_source : f4 (txt "src/public/img/a.png") = some [1] := by
  rw [f4_ne (by decide), f1_source]

theorem f4_hash : f4 (txt "out/www/img/a.png.hash") = some [1] := by
  rw [f4_ne (by decide), f1_hash]

theorem dir_is : join (art (txt "img/a.png")) (idText 1) = dir := rfl

theorem find_again : ∀ es : List (Text × Bool), (∀ e ∈ es, e.2 = true → e.1 = idText 1) → (idText 1, true) ∈ es →
    find toy (txt "img/a.png") 7 [1] target es f4 = .ok (some 1, f4) := by
  intro es
  induction es with
  | nil => intro _ h; simp at h
  | cons e es ih =>
    obtain ⟨name, b⟩ := e
    intro hes hm
    unfold find
    cases b with
    | false =>
      simp only [if_true]
      refine ih (fun e he => hes e (List.mem_cons_of_mem _ he)) ?_
      simpa using hm
    | true =>
      have hn : name = idText 1 := hes (name, true) (by simp) rfl
      subst hn
      have hload : toy.loadMeta (dump recorded) = some recorded := load_dump _
      simp only [Bool.true_eq_false, if_false, dir_is, f4_meta, hload, toy_lawful.int]
      simp [recorded]

theorem target_again : getTarget toy (txt "img/a.png") target f4 = .ok (some 1, f4) := by
  obtain ⟨es, h1, h2⟩ := list_all (d := txt "artifacts/" ++ txt "img/a") f4_finite (e := (idText 1, true))
    ⟨idText_seg 1, .inl ⟨rfl, txt "metadata.json", by
      have := f4_meta
      rw [← dir_is, meta_is] at this
      unfold entryFile at this
      rw [this]; rfl⟩⟩
  have h1' : toy.dirs f4 (art (txt "img/a.png")) = some es := by rw [art_is]; exact h1
  have hh : toy.settingsHash = .ok 7 := rfl
  unfold getTarget
  rw [source_is, f4_source, h1', hh]
  exact find_again es (fun e he hd => entry_is (list_entry h1 e he) hd f4_art) h2

theorem again_run : ∃ r, exportCommand toy page f4 command = .ok (recorded, r, f4) := by
  unfold exportCommand
  simp only [rel_is, target_is, target_again]
  have hm : f4 (metaFile (artDir (txt "img/a.png") 1)) = some (dump recorded) := f4_meta
  rw [hm]
  unfold exportAgain
  have hload : toy.loadMeta (dump recorded) = some recorded := load_dump _
  simp only [hload]
  exact ⟨_, rfl⟩

/-- The case for C71 to C74: a project which has never been built, with an image and its hash; a scan of it, the export, which
draws three images and keeps two of them, and the same export again. -/
theorem C71_case : Lawful toy ∧ (∀ f ∈ toy.formats, GoodFormat f) ∧ Proper toy page command ∧ Pictured toy f1 (relOf toy page command) ∧ Start toy f0 ∧ Good toy 7 f0 ∧ Good toy 7 f1 ∧
    AllLocked f0 ∧ AllLocked f1 ∧ (∃ s, scanCommand toy page f0 command = .ok (s, f1)) ∧
    (∃ l p, exportCommand toy page f1 command = .ok (recorded, ⟨l, p, []⟩, f4)) ∧ flat recorded.outputs ≠ [] ∧
    (toy.sizes (100, 100) (10, 10)).Nodup ∧ ∃ r, exportCommand toy page f4 command = .ok (recorded, r, f4) := by
  obtain ⟨s, hs⟩ := scan_run
  obtain ⟨T, n, b, d, x⟩ := scan_spec toy_lawful (h := 7) rfl proper hs
  exact ⟨toy_lawful, toy_formats, proper, ⟨[1], (100, 100), by rw [rel_is, source_is]; exact f1_source, rfl⟩, start, start.good 7, (x.good (start.good 7)).1, start.locked, x.allLocked start.locked, ⟨s, hs⟩, export_run,
    by decide, by decide, again_run⟩

end Verif.Img.Files.Case
