import Verif.ImgOrderThm
import Verif.ImgFilesCase

/-!
# C95: cases, and a project whose artifacts depend on the order of scans
-/

namespace Verif.Img.Files.Case

open Verif.Reader (Text txt)
open Verif.Paths (join isAbs Seg)
open Verif.Handlers (Bytes Fs Scan Built)
open Verif.Css.Data (root)

/-! ## Two pages with the same picture -/

def page2 : Text := txt "./src/public/index.html"

theorem rel_is2 : relOf toy page2 command = txt "img/a.png" := by
  have h : isAbs (command.path) = true := by decide
  unfold relOf sourcePath
  rw [if_pos h]
  decide

theorem proper2 : Proper toy page2 command := by
  unfold Proper
  rw [rel_is2, stem_is]
  exact plain

theorem scan_run2 : ∃ s, scanCommand toy page2 f0 command = .ok (s, f1) := by
  unfold scanCommand
  simp only [rel_is2, target_is, reserve_run]
  unfold openImage
  rw [source_is, f1_source]
  exact ⟨_, rfl⟩

theorem scan_again (p : Text) (hr : relOf toy p command = txt "img/a.png") : ∃ s, scanCommand toy p f1 command = .ok (s, f1) := by
  unfold scanCommand getOrReserve
  simp only [hr, target_is, target_run]
  unfold openImage
  rw [source_is, f1_source]
  exact ⟨_, rfl⟩

theorem pictured : Pictured toy f1 (relOf toy page command) := ⟨[1], (100, 100), by rw [rel_is, source_is]; exact f1_source, rfl⟩

/-- The case for C95: two pages with the same picture are scanned in one order or the other; afterwards it is exported. -/
theorem C95_case : Lawful toy ∧ toy.settingsHash = .ok 7 ∧ Start toy f0 ∧ ∃ u v : List (Ev Glue.Json), ∃ f, Trace toy f0 u f ∧ Trace toy f0 v f ∧
    u ≠ v ∧ OneSource toy u ∧ (∀ e, e ∈ u ↔ e ∈ v) ∧
    (∀ file c file' c', .scan file c ∈ u → .scan file' c' ∈ u → root (relOf toy file c) = root (relOf toy file' c') → targetOf toy c = targetOf toy c') ∧
    ∃ p, InArt p ∧ f p ≠ none := by
  refine ⟨toy_lawful, rfl, start, [.scan page command, .scan page2 command, .export_ page command],
    [.scan page2 command, .scan page command, .export_ page command], f4, ?_, ?_, ?_, ?_, ?_, ?_, entryFile (txt "img/a") (idText 1) (txt "metadata.json"), ?_, ?_⟩
  · obtain ⟨s, hs⟩ := scan_run
    obtain ⟨s2, hs2⟩ := scan_again page2 rel_is2
    obtain ⟨l, p, he⟩ := export_run
    exact ((Trace.nil.scan proper hs).scan proper2 hs2).export_ proper pictured he
  · obtain ⟨s, hs⟩ := scan_run2
    obtain ⟨s2, hs2⟩ := scan_again page rel_is
    obtain ⟨l, p, he⟩ := export_run
    exact ((Trace.nil.scan proper2 hs).scan proper hs2).export_ proper pictured he
  · intro h
    simp only [List.cons.injEq, Ev.scan.injEq] at h
    exact absurd h.1.1 (by decide)
  · intro file c file' c' h1 h2 _
    simp only [List.mem_cons, reduceCtorEq, Ev.export_.injEq, List.not_mem_nil, or_false, false_or] at h1 h2
    rw [h1.1, h1.2, h2.1, h2.2]
  · intro e
    simp only [List.mem_cons, List.not_mem_nil, or_false]
    tauto
  · intro file c file' c' h1 h2 _
    have key : ∀ file c, Ev.scan file c ∈ ([.scan page command, .scan page2 command, .export_ page command] : List (Ev Glue.Json)) → c = command := by
      intro file c h
      simp only [List.mem_cons, reduceCtorEq, Ev.scan.injEq, List.not_mem_nil, or_false] at h
      tauto
    rw [key _ _ h1, key _ _ h2]
  · exact entry_art (txt "img/a") (idText 1) (txt "metadata.json")
  · have := f4_meta
    rw [← dir_is, meta_is] at this
    rw [this]
    simp

/-! ## One picture in two sizes -/

def command20 : Command Glue.Json := ⟨txt "/img/a.png", 20, 20, txt "cover", .obj [], true⟩

def target20 : Target Unit := ⟨20, 20, txt "cover", ()⟩

theorem rel_is20 : relOf toy page command20 = txt "img/a.png" := by
  have h : isAbs (command20.path) = true := by decide
  unfold relOf sourcePath
  rw [if_pos h]
  decide

theorem proper20 : Proper toy page command20 := by
  unfold Proper
  rw [rel_is20, stem_is]
  exact plain

theorem target_is20 : targetOf toy command20 = .ok target20 := rfl

theorem first_run (T : Target Unit) : getOrReserve toy (txt "img/a.png") T f0 = .ok (1, reservedFs toy (txt "img/a") 1 T f0) := by
  have e1 : f0 (source (txt "img/a.png")) = some [1] := by rw [source_is]; decide
  have e2 : toy.dirs f0 (art (txt "img/a.png")) = none := by
    have : art (txt "img/a.png") = txt "artifacts/" ++ txt "img/a" := by decide
    rw [this]
    exact list_none no_entry
  have e3 : touch f0 (lockPath (txt "img/a")) (counterPath (txt "img/a")) = none := by
    rw [touch_ne (art_ne_out (counter_art _) (lock_out _))]
    exact start.art _ (counter_art _)
  unfold getOrReserve getTarget
  rw [e1, e2]
  dsimp only
  unfold reserve
  simp only [lock_eq stem_is plain, counter_eq stem_is plain, e3]
  rfl

theorem first_source (T : Target Unit) : reservedFs toy (txt "img/a") 1 T f0 (txt "src/public/img/a.png") = some [1] := by
  rw [reservedFs_ne (by decide) (by decide) (by decide +kernel)]
  decide

/-- Looking for a target among others which have been reserved does not fail. -/
theorem find_total (T : Target Unit) (k : Text) (f : Fs) (h1 : ∀ name, Seg name → f (metaFile (join (art (txt "img/a.png")) name)) = none)
    (h2 : ∀ name b, Seg name → f (placeFile (join (art (txt "img/a.png")) name)) = some b → ∃ T', toy.loadTarget b = some T' ∧ (toy.int name).isSome) :
    ∀ es : List (Text × Bool), (∀ e ∈ es, Seg e.1) → ∀ g, (∀ p, InArt p → g p = f p) → ∃ r g', find toy (txt "img/a.png") 7 k T es g = .ok (r, g') := by
  intro es
  induction es with
  | nil => intro _ g _; exact ⟨_, _, rfl⟩
  | cons e es ih =>
    obtain ⟨name, b⟩ := e
    intro hs g hg
    have hn : Seg name := hs (name, b) (by simp)
    have ih := ih fun e he => hs e (List.mem_cons_of_mem _ he)
    unfold find
    simp only
    cases b with
    | false => rw [if_pos rfl]; exact ih g hg
    | true =>
      rw [if_neg (by simp)]
      have e1 : g (metaFile (join (art (txt "img/a.png")) name)) = none := by
        rw [← h1 name hn]
        rw [meta_eq stem_is plain hn]
        exact hg _ (entry_art _ _ _)
      rw [e1]
      dsimp only
      have hg' : ∀ p, InArt p → touch g (lockFile (txt "img/a.png")) p = f p := fun p hp => by
        rw [lock_eq stem_is plain, touch_ne (art_ne_out hp (lock_out _)), hg p hp]
      have e2 : touch g (lockFile (txt "img/a.png")) (placeFile (join (art (txt "img/a.png")) name)) = f (placeFile (join (art (txt "img/a.png")) name)) := by
        rw [place_eq stem_is plain hn]
        exact hg' _ (entry_art _ _ _)
      rw [e2]
      cases hb : f (placeFile (join (art (txt "img/a.png")) name)) with
      | none => exact ih _ hg'
      | some b =>
        obtain ⟨T', hT', hi⟩ := h2 name b hn hb
        obtain ⟨n, hi⟩ := Option.isSome_iff_exists.1 hi
        simp only [hT', hi]
        split
        · exact ⟨_, _, rfl⟩
        · exact ih _ hg'

/-- A second target -/
theorem second_run (T T' : Target Unit) : ∃ n g, getOrReserve toy (txt "img/a.png") T' (reservedFs toy (txt "img/a") 1 T f0) = .ok (n, g) ∧
    g (txt "src/public/img/a.png") = some [1] := by
  have hplace : ∀ name b, Seg name → reservedFs toy (txt "img/a") 1 T f0 (entryFile (txt "img/a") name (txt "placeholder.json")) = some b →
      name = idText 1 ∧ b = toy.dumpTarget T := by
    intro name b hn hb
    by_cases he : name = idText 1
    · subst he
      rw [reservedFs_place] at hb
      exact ⟨rfl, (Option.some.inj hb).symm⟩
    · rw [reservedFs_entry hn.2 (by decide) (by decide) (fun h => he h.2.1), start.art _ (entry_art _ _ _)] at hb
      cases hb
  have hmeta : ∀ name, Seg name → reservedFs toy (txt "img/a") 1 T f0 (metaFile (join (art (txt "img/a.png")) name)) = none := by
    intro name hn
    rw [meta_eq stem_is plain hn, reservedFs_entry hn.2 (by decide) (by decide) (fun h => absurd h.2.2 (by decide)), start.art _ (entry_art _ _ _)]
  have htot : ∃ r g, getTarget toy (txt "img/a.png") T' (reservedFs toy (txt "img/a") 1 T f0) = .ok (r, g) := by
    unfold getTarget
    rw [source_is, first_source]
    dsimp only
    cases hd : toy.dirs (reservedFs toy (txt "img/a") 1 T f0) (art (txt "img/a.png")) with
    | none => exact ⟨_, _, rfl⟩
    | some es =>
      have hh : toy.settingsHash = .ok 7 := rfl
      rw [hh]
      refine find_total T' _ _ hmeta ?_ es (fun e he => toy_lawful.names _ _ _ hd e he) _ (fun _ _ => rfl)
      intro name b hn hb
      rw [place_eq stem_is plain hn] at hb
      obtain ⟨rfl, rfl⟩ := hplace name b hn hb
      exact ⟨T, toy_lawful.target T, by rw [toy_lawful.int]; rfl⟩
  obtain ⟨r, g, hr⟩ := htot
  have hres : ∃ n g, getOrReserve toy (txt "img/a.png") T' (reservedFs toy (txt "img/a") 1 T f0) = .ok (n, g) := by
    unfold getOrReserve
    rw [hr]
    cases r with
    | some n => exact ⟨_, _, rfl⟩
    | none =>
      dsimp only
      have hk := (getTarget_spec toy_lawful stem_is plain hr).1
      unfold reserve
      have hc : touch g (lockFile (txt "img/a.png")) (counterFile (txt "img/a.png")) = some (toy.encode (idText 1)) := by
        rw [lock_eq stem_is plain, counter_eq stem_is plain, touch_ne (art_ne_out (counter_art _) (lock_out _)), touch_art hk _ (counter_art _), reservedFs_counter]
      simp only [hc, toy_lawful.text, toy_lawful.int]
      exact ⟨_, _, rfl⟩
  obtain ⟨n, g', hg⟩ := hres
  refine ⟨n, g', hg, ?_⟩
  have himg : ∀ p, g' p ≠ reservedFs toy (txt "img/a") 1 T f0 p → ImageFile p := by
    intro p hne
    rcases getOrReserve_spec toy_lawful (h := 7) rfl stem_is plain hg with ⟨rfl | rfl, -⟩ | ⟨-, -, rfl⟩
    · exact absurd rfl hne
    · by_contra hc
      exact hne (touch_ne fun he => hc (.inr (.inl ⟨_, he⟩)))
    · exact reservedFs_image hne
  have := (sources_kept (env := toy) himg (txt "img/a.png") (by rw [stem_is]; exact plain)).1
  rw [source_is] at this
  rw [this, first_source]

theorem scans {c c' : Command Glue.Json} {T T' : Target Unit} (hp : Proper toy page c) (hp' : Proper toy page c') (hr : relOf toy page c = txt "img/a.png")
    (hr' : relOf toy page c' = txt "img/a.png") (hT : targetOf toy c = .ok T) (hT' : targetOf toy c' = .ok T') : ∃ f, Trace toy f0 [.scan page c, .scan page c'] f := by
  have h1 : ∃ s, scanCommand toy page f0 c = .ok (s, reservedFs toy (txt "img/a") 1 T f0) := by
    unfold scanCommand
    simp only [hr, hT, first_run]
    unfold openImage
    rw [source_is, first_source]
    exact ⟨_, rfl⟩
  obtain ⟨n, g, hg, hsrc⟩ := second_run T T'
  have h2 : ∃ s, scanCommand toy page (reservedFs toy (txt "img/a") 1 T f0) c' = .ok (s, g) := by
    unfold scanCommand
    simp only [hr', hT', hg]
    unfold openImage
    rw [source_is, hsrc]
    exact ⟨_, rfl⟩
  obtain ⟨s, h1⟩ := h1
  obtain ⟨s', h2⟩ := h2
  exact ⟨g, (Trace.nil.scan hp h1).scan hp' h2⟩

/-- **C95 is false** in general: one picture is shown in two sizes.  Two builds of this project which scan the same pictures, one
after the other, leave different artifacts if they do so in different orders; scans run concurrently. -/
theorem C95_false_order : ∃ u v : List (Ev Glue.Json), u.Perm v ∧ ∃ f g, Trace toy f0 u f ∧ Trace toy f0 v g ∧ ∃ p, InArt p ∧ f p ≠ g p := by
  obtain ⟨f, tf⟩ := scans proper proper20 rel_is rel_is20 target_is target_is20
  obtain ⟨g, tg⟩ := scans proper20 proper rel_is20 rel_is target_is20 target_is
  refine ⟨_, _, List.Perm.swap _ _ _, f, g, tf, tg, ?_⟩
  by_contra hc
  push Not at hc
  have := (C95_order_partial toy_lawful (h := 7) rfl start tf tg
    (by intro file c file' c' h; simp at h) (by intro stem T; simp [Exports])).1 hc (txt "img/a") plain
  have e1 : asked toy (txt "img/a") [.scan page command, .scan page command20] = [target, target20] := by
    simp only [asked, List.foldl, askedFor, rel_is, rel_is20, stem_is, target_is, target_is20, if_true]
    decide
  have e2 : asked toy (txt "img/a") [.scan page command20, .scan page command] = [target20, target] := by
    simp only [asked, List.foldl, askedFor, rel_is, rel_is20, stem_is, target_is, target_is20, if_true]
    decide
  rw [e1, e2] at this
  exact absurd this (by decide)

end Verif.Img.Files.Case
