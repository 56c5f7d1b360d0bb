import Verif.HotRec
/-!
# C16 and concrete rebuilds

Concrete runs which meet the hypotheses of the theorems about rebuilds, and runs which show that some
of the stated properties do not hold in general.
-/
namespace Verif.Hot
open Verif Verif.Graph

theorem run_valid (ops : List Op) : Valid (run Graph.empty ops) := by
  refine ⟨ops.map .call, ?_⟩
  rw [List.foldl_map]
  rfl

/-! ## C16 -/

/-- C16, for rebuilds in which no output is shared between a file which is rebuilt or deleted and one
which is neither, in which the outputs of the latter are on disk to begin with, and in which builds
only claim to reuse files which are there: every recorded output exists.  Missing: outputs shared
with a file which is not rebuilt; see `C16_shared_output_lost`. -/
theorem C16_outputs_exist_partial (env : Env) (a : Args) (d : Disk) (hv : ValidGraphs a.old) (ho : ValidOrder env)
    (gs : Graphs) (h : (hotRebuild env a d).stored = some gs)
    (hshare : ∀ f o, Edge a.old.out f o → contains a.old.dep f = true →
      ¬ Affected a.old (touchedSources a (hotRebuild env a d)) f →
      o ∈ d.files ∧ ¬ WasOutput a (hotRebuild env a d) o)
    (hreuse : ∀ f r, Event.finished f r ∈ (hotRebuild env a d).log → ∀ o ∈ r.reused,
      (o ∈ d.files ∧ (WasOutput a (hotRebuild env a d) o → startsWith o "artifacts" = true)) ∨
      ∃ f' r', Event.finished f' r' ∈ (hotRebuild env a d).log ∧ o ∈ r'.produced)
    (f o : String) (he : Edge gs.out f o) : o ∈ (hotRebuild env a d).disk.files := by
  have hout := C17_outputs env a d hv ho gs h
  have hfiles := C17_files env a d hv ho gs h f
  have h11 := C11_built_exactly_once env a d hv ho
  obtain ⟨P, hP⟩ := stored_phases h
  dsimp only at h11
  rw [hP] at h hshare hreuse hout hfiles h11 ⊢
  have hfin : P.result.status = .finished := by
    obtain ⟨_, _, _, _, _, hf, _⟩ := P.stored_spec hv ho h; exact hf
  have hd : ∀ x ∈ d.files, x ∈ P.st.disk.files := by
    obtain ⟨_, _, ⟨new, n1, _⟩, _⟩ := (scanLoop_spec _ _ _ _ _ _
      (by simp [Dict.NodupKeys, Dict.keys]) (by simp [Dict.NodupKeys, Dict.keys]) (by simp) P.hscan)
    intro x hx
    rw [n1]
    have : (modeStep a env.sig d).2.files = d.files := by
      unfold modeStep; split
      · split <;> rfl
      · rfl
    simp [this, hx]
  rw [P.files_after hv ho hfin]
  by_cases hk : contains gs.dep f = true
  · by_cases hr : Rebuilt a P.result f
    · have := ((h11.2.2.2 hfin f).2).2 hr
      rw [mem_endsOf] at this
      obtain ⟨r, hr'⟩ := this
      obtain ⟨cs, hcs, hm⟩ := he
      rw [hout.1 f r hr'] at hcs
      simp only [Except.ok.injEq] at hcs
      subst hcs
      rcases List.mem_append.1 hm with hm | hm
      · exact .inr ⟨f, r, hr', hm⟩
      · rcases hreuse f r hr' o hm with ⟨q1, q2⟩ | q
        · left
          exact ⟨hd o q1, fun hw => ⟨q2 hw, f, r, hr', by simp [hm]⟩⟩
        · exact .inr q
    · have hk' := hfiles.1 hk
      have hold := (hout.2.1 f hk hr o).1 he
      have hna : ¬ Affected a.old (touchedSources a P.result) f := fun hc => hr ⟨hk'.1, hc⟩
      obtain ⟨q1, q2⟩ := hshare f o hold (hk'.2.resolve_left hr) hna
      exact .inl ⟨hd o q1, fun hw => absurd hw q2⟩
  · exact absurd he (hout.2.2 f (by simpa using hk) o)

/-! ## A concrete rebuild -/

def sig0 : Sig := ⟨1, 2, 5⟩
def sig1 : Sig := ⟨3, 4, 6⟩

/-- Graph with these files and these edges. -/
def mkGraph (fs : List String) (es : List (String × List String)) : Graph :=
  run Graph.empty (fs.map (fun f => .add f sig0 []) ++ es.map (fun e => .setChildren e.1 e.2 true))

theorem mkGraph_valid (fs : List String) (es : List (String × List String)) : Valid (mkGraph fs es) := run_valid _

/-- A page which uses a script, which was just changed, and an unrelated style sheet; the script used
to be written under another name. -/
def exOld : Graphs where
  dep := mkGraph ["a.html", "b.js", "c.css"] [("a.html", ["b.js"])]
  out := mkGraph ["a.html", "b.js", "c.css", "out/a", "out/b-old", "out/c"]
    [("a.html", ["out/a"]), ("b.js", ["out/b-old"]), ("c.css", ["out/c"])]
  ph := mkGraph [] []

def exArgs : Args where
  constants := "const.json"
  mode := .dev
  old := exOld
  changed := [("b.js", sig1)]
  added := []
  deleted := []

def exDisk : Disk where
  files := ["a.html", "b.js", "c.css", "out/a", "out/b-old", "out/c"]
  dirs := ["out"]
  mode := none

def exEnv : Env where
  scan := fun _ f => if f = "b.js" then .ok ⟨[], ["out/b-new"], []⟩ else .error .buildFailed
  sig := fun _ => sig1
  order := id
  batches :=
    [fun f => if f = "b.js" then some (.ok ⟨[], ["out/b-new"], []⟩) else none,
     fun f => if f = "a.html" then some (.ok ⟨["out/b-new"], ["out/a"], []⟩) else none]
  scanFuel := 3

theorem exOld_valid : ValidGraphs exArgs.old := ⟨mkGraph_valid _ _, mkGraph_valid _ _, mkGraph_valid _ _⟩
theorem ex_order : ValidOrder exEnv := fun _ => List.Perm.refl _

/-- The run finishes: the script is built, then the page; the old output is gone, the unrelated one
is left alone. -/
theorem ex_run :
    (hotRebuild exEnv exArgs exDisk).status = .finished ∧
    (hotRebuild exEnv exArgs exDisk).log =
      [.started "b.js", .finished "b.js" ⟨[], ["out/b-new"], []⟩,
       .started "a.html", .finished "a.html" ⟨["out/b-new"], ["out/a"], []⟩] ∧
    (hotRebuild exEnv exArgs exDisk).disk.files =
      ["a.html", "b.js", "c.css", "out/c", "out/b-new", "out/a"] ∧
    ((hotRebuild exEnv exArgs exDisk).stored.map (fun gs => getChildren gs.dep "a.html")) = some (.ok ["b.js"]) ∧
    ((hotRebuild exEnv exArgs exDisk).stored.map (fun gs => getChildren gs.out "b.js")) = some (.ok ["out/b-new"]) := by
  decide +kernel

theorem ex_returned {f : String} {r : BuildResult} (h : Returned exEnv f r) :
    (f = "b.js" ∧ r = ⟨[], ["out/b-new"], []⟩) ∨ (f = "a.html" ∧ r = ⟨["out/b-new"], ["out/a"], []⟩) := by
  obtain ⟨b, hb, h⟩ := h
  simp only [exEnv, List.mem_cons, List.not_mem_nil, or_false] at hb
  rcases hb with rfl | rfl
  · simp only at h
    split at h
    · simp only [Option.some.injEq, Except.ok.injEq] at h; exact .inl ⟨by assumption, h.symm⟩
    · simp at h
  · simp only at h
    split at h
    · simp only [Option.some.injEq, Except.ok.injEq] at h; exact .inr ⟨by assumption, h.symm⟩
    · simp at h

/-- The scan and the edges of the concrete rebuild. -/
theorem ex_facts :
    (hotRebuild exEnv exArgs exDisk).scanned = [("b.js", ⟨[], ["out/b-new"], []⟩)] ∧
    kids exOld.out "a.html" = ["out/a"] ∧ kids exOld.dep "a.html" = ["b.js"] ∧ kids exOld.ph "a.html" = [] ∧
    exOld.dep.keys = ["a.html", "b.js", "c.css"] ∧ kids exOld.out "c.css" = ["out/c"] ∧
    pars exOld.out "out/c" = ["c.css"] ∧ kids exOld.out "b.js" = ["out/b-old"] := by
  decide +kernel

/-- The builds of the concrete rebuild make what was announced: the hypothesis of C13 and C14. -/
theorem ex_honest : HonestBuilds exEnv exArgs (hotRebuild exEnv exArgs exDisk) := by
  intro f r h
  rcases ex_returned h with ⟨rfl, rfl⟩ | ⟨rfl, rfl⟩
  · refine ⟨fun o => ?_, by decide⟩
    unfold Announced
    rw [ex_facts.1]
    simp [Dict.get?]
  · refine ⟨fun o => ?_, by decide⟩
    unfold Announced
    rw [ex_facts.1]
    rw [show Dict.get? [("b.js", (⟨[], ["out/b-new"], []⟩ : ScanResult))] "a.html" = none from rfl]
    dsimp only
    rw [edge_iff, show exArgs.old.out = exOld.out from rfl, ex_facts.2.1]
    simp

/-- Both batches of the concrete rebuild complete a running build: the hypothesis of C14. -/
theorem ex_woken : WokenByCompletion exEnv exArgs exDisk := by
  intro k b hb
  match k, hb with
  | 0, hb =>
    intro sofar _
    refine ⟨"b.js", ?_, ?_⟩
    · have : sofar.log = [.started "b.js"] := by decide +kernel
      rw [this]; simp [Running]
    · simp [exEnv] at hb; subst hb; rfl
  | 1, hb =>
    intro sofar _
    refine ⟨"a.html", ?_, ?_⟩
    · have : sofar.log = [.started "b.js", .finished "b.js" ⟨[], ["out/b-new"], []⟩, .started "a.html"] := by
        decide +kernel
      rw [this]; simp [Running]
    · simp [exEnv] at hb; subst hb; rfl
  | n + 2, hb => simp [exEnv] at hb

/-- Without the second completion the concrete rebuild waits, as C14 allows: one batch, two files. -/
example : (hotRebuild { exEnv with batches := exEnv.batches.take 1 } exArgs exDisk).status = .waiting := by
  decide +kernel

/-! ## Properties which do not hold in general -/

/-- Two pages share an output; one of them is deleted. -/
def shareOld : Graphs where
  dep := mkGraph ["a.html", "b.html"] []
  out := mkGraph ["a.html", "b.html", "out/img"] [("a.html", ["out/img"]), ("b.html", ["out/img"])]
  ph := mkGraph [] []

/-- C16 fails: deleting a file removes an output which another file still uses.  The run finishes,
records the output for the remaining file, and the output is gone. -/
theorem C16_shared_output_lost :
    ∃ (env : Env) (a : Args) (d : Disk) (gs : Graphs), ValidGraphs a.old ∧ ValidOrder env ∧
      (∀ f o, Edge a.old.out f o → o ∈ d.files) ∧
      (hotRebuild env a d).status = .finished ∧ (hotRebuild env a d).stored = some gs ∧
      Edge gs.out "b.html" "out/img" ∧ "out/img" ∉ (hotRebuild env a d).disk.files := by
  let env : Env := ⟨fun _ _ => .error .buildFailed, fun _ => sig1, id, [], 1⟩
  let a : Args := ⟨"const.json", .dev, shareOld, [], [], ["a.html"]⟩
  let d : Disk := ⟨["b.html", "out/img"], ["out"], none⟩
  have hs : ((hotRebuild env a d).stored.map (fun gs => getChildren gs.out "b.html")) = some (.ok ["out/img"]) := by
    decide +kernel
  rcases hg : (hotRebuild env a d).stored with _ | gs
  · rw [hg] at hs; simp at hs
  · rw [hg] at hs
    simp only [Option.map_some, Option.some.injEq] at hs
    refine ⟨env, a, d, gs, ⟨mkGraph_valid _ _, mkGraph_valid _ _, mkGraph_valid _ _⟩, fun _ => .refl _, ?_,
      by decide +kernel, hg, ⟨_, hs, by simp⟩, by decide +kernel⟩
    rintro f o ⟨cs, hcs, ho⟩
    have hk := getChildren_ok hcs
    have h1 : ∀ f ∈ a.old.out.keys, ∀ o ∈ kids a.old.out f, o ∈ d.files := by decide +kernel
    exact h1 f hk.1 o (hk.2 ▸ ho)

/-- C13 fails for an output which was not recorded before: two new files which announce the same
output are built at the same time. -/
theorem C13_fresh_output_shared :
    ∃ (env : Env) (a : Args) (d : Disk), ValidGraphs a.old ∧ ValidOrder env ∧
      Announced a (hotRebuild env a d) "a.html" "out/img" ∧ Announced a (hotRebuild env a d) "b.html" "out/img" ∧
      Running (hotRebuild env a d).log "a.html" ∧ Running (hotRebuild env a d).log "b.html" ∧
      "out/img" ∉ d.files := by
  let env : Env := ⟨fun _ _ => .ok ⟨[], ["out/img"], []⟩, fun _ => sig1, id, [], 2⟩
  let a : Args := ⟨"const.json", .dev, ⟨mkGraph [] [], mkGraph [] [], mkGraph [] []⟩, [], [("a.html", sig1), ("b.html", sig1)], []⟩
  let d : Disk := ⟨["a.html", "b.html"], [], none⟩
  have hs : (hotRebuild env a d).scanned = [("a.html", ⟨[], ["out/img"], []⟩), ("b.html", ⟨[], ["out/img"], []⟩)] := by
    decide +kernel
  have hl : (hotRebuild env a d).log = [.started "a.html", .started "b.html"] := by decide +kernel
  refine ⟨env, a, d, ⟨mkGraph_valid _ _, mkGraph_valid _ _, mkGraph_valid _ _⟩, fun _ => .refl _, ?_, ?_, ?_, ?_,
    by decide +kernel⟩
  · unfold Announced; rw [hs]; simp [Dict.get?]
  · unfold Announced; rw [hs]; simp [Dict.get?]
  · rw [hl]; simp [Running]
  · rw [hl]; simp [Running]

/-- Three pages share a recorded output, and something they use changed. -/
def threeOld : Graphs where
  dep := mkGraph ["a.html", "b.html", "c.html"] []
  out := mkGraph ["a.html", "b.html", "c.html", "out/img"]
    [("a.html", ["out/img"]), ("b.html", ["out/img"]), ("c.html", ["out/img"])]
  ph := mkGraph [] []

/-- The exception in C13 is real: once the first of three files has made a recorded output again, the
other two, which also make it, run at the same time. -/
theorem C13_third_file_overlaps :
    ∃ (env : Env) (a : Args) (d : Disk), ValidGraphs a.old ∧ ValidOrder env ∧
      Announced a (hotRebuild env a d) "b.html" "out/img" ∧ Announced a (hotRebuild env a d) "c.html" "out/img" ∧
      WasOutput a (hotRebuild env a d) "out/img" ∧
      Running (hotRebuild env a d).log "b.html" ∧ Running (hotRebuild env a d).log "c.html" := by
  let env : Env := ⟨fun _ _ => .ok ⟨[], ["out/img"], []⟩, fun _ => sig1, id,
    [fun _ => some (.ok ⟨[], ["out/img"], []⟩)], 2⟩
  let a : Args := ⟨"const.json", .dev, threeOld, [("a.html", sig1), ("b.html", sig1), ("c.html", sig1)], [], []⟩
  let d : Disk := ⟨["a.html", "b.html", "c.html", "out/img"], ["out"], none⟩
  have hs : (hotRebuild env a d).scanned = [("a.html", ⟨[], ["out/img"], []⟩), ("b.html", ⟨[], ["out/img"], []⟩),
      ("c.html", ⟨[], ["out/img"], []⟩)] := by decide +kernel
  have hl : (hotRebuild env a d).log = [.started "a.html", .finished "a.html" ⟨[], ["out/img"], []⟩,
      .started "b.html", .started "c.html"] := by decide +kernel
  refine ⟨env, a, d, ⟨mkGraph_valid _ _, mkGraph_valid _ _, mkGraph_valid _ _⟩, fun _ => .refl _, ?_, ?_, ?_, ?_, ?_⟩
  · unfold Announced; rw [hs]; simp [Dict.get?]
  · unfold Announced; rw [hs]; simp [Dict.get?]
  · refine ⟨"a.html", .inl ?_, ⟨["out/img"], by decide +kernel, by simp⟩⟩
    simp [touchedSources, hs, Dict.keys]
  · rw [hl]; simp [Running]
  · rw [hl]; simp [Running]

/-- A cyclic project: two new scripts which use each other. -/
theorem ex_cycle :
    ∃ (env : Env) (a : Args) (d : Disk), ValidGraphs a.old ∧ ValidOrder env ∧
      HonestBuilds env a (hotRebuild env a d) ∧ Path (NeedsIn a (hotRebuild env a d)) "a.js" "a.js" ∧
      (hotRebuild env a d).status = .failed .cyclic := by
  let env : Env := ⟨fun _ f => .ok ⟨[if f = "a.js" then "b.js" else "a.js"], ["out/" ++ f], []⟩, fun _ => sig1, id, [], 2⟩
  let a : Args := ⟨"const.json", .dev, ⟨mkGraph [] [], mkGraph [] [], mkGraph [] []⟩, [], [("a.js", sig1), ("b.js", sig1)], []⟩
  let d : Disk := ⟨["a.js", "b.js"], [], none⟩
  have hs : (hotRebuild env a d).scanned = [("a.js", ⟨["b.js"], ["out/a.js"], []⟩), ("b.js", ⟨["a.js"], ["out/b.js"], []⟩)] := by
    decide +kernel
  have hr : ∀ f, f = "a.js" ∨ f = "b.js" → Rebuilt a (hotRebuild env a d) f := by
    intro f hf
    refine ⟨by simp [a], .inl ?_⟩
    rcases hf with rfl | rfl <;> simp [touchedSources, hs, Dict.keys]
  refine ⟨env, a, d, ⟨mkGraph_valid _ _, mkGraph_valid _ _, mkGraph_valid _ _⟩, fun _ => .refl _, ?_, ?_, by decide +kernel⟩
  · rintro f r ⟨b, hb, _⟩; simp [env] at hb
  · refine .more (b := "b.js") ⟨hr _ (.inl rfl), hr _ (.inr rfl), .inl ?_⟩ (.one ⟨hr _ (.inr rfl), hr _ (.inl rfl), .inl ?_⟩)
    · rw [hs]; simp [Dict.get?]; left; decide
    · rw [hs]; simp [Dict.get?]; left; decide

/-- Without honest builders the cyclic dependency error is raised although nothing depends on anything:
a file which announced an output and did not make it blocks the next file announcing it. -/
theorem C14_false_alarm :
    ∃ (env : Env) (a : Args) (d : Disk), ValidGraphs a.old ∧ ValidOrder env ∧
      (∀ f g, ¬ NeedsIn a (hotRebuild env a d) f g) ∧ (hotRebuild env a d).status = .failed .cyclic := by
  let env : Env := ⟨fun _ _ => .ok ⟨[], ["out/img"], []⟩, fun _ => sig1, id,
    [fun _ => some (.ok ⟨[], [], []⟩)], 2⟩
  let a : Args := ⟨"const.json", .dev, threeOld, [("a.html", sig1), ("b.html", sig1), ("c.html", sig1)], [], []⟩
  let d : Disk := ⟨["a.html", "b.html", "c.html", "out/img"], ["out"], none⟩
  have hs : (hotRebuild env a d).scanned = [("a.html", ⟨[], ["out/img"], []⟩), ("b.html", ⟨[], ["out/img"], []⟩),
      ("c.html", ⟨[], ["out/img"], []⟩)] := by decide +kernel
  have hg : (hotRebuild env a d).generated = [] := by
    unfold hotRebuild; decide +kernel
  refine ⟨env, a, d, ⟨mkGraph_valid _ _, mkGraph_valid _ _, mkGraph_valid _ _⟩, fun _ => .refl _, ?_, by decide +kernel⟩
  rintro f g ⟨_, _, h | h⟩
  · rw [hs] at h
    have he : ∀ f g, ¬ Edge a.old.dep f g := by
      rintro f g ⟨cs, hcs, ho⟩
      have hk := getChildren_ok hcs
      have h1 : ∀ f ∈ a.old.dep.keys, kids a.old.dep f = [] := by decide +kernel
      rw [← hk.2, h1 f hk.1] at ho; simp at ho
    simp only [Dict.get?] at h
    repeat' split at h
    all_goals first
      | exact he _ _ h
      | (rename_i hq; repeat' split at hq
         all_goals simp at hq
         all_goals (try subst hq)
         all_goals simp at h)
  · rw [hg] at h
    have he : ∀ f g, ¬ Edge a.old.ph f g := by
      rintro f g ⟨cs, hcs, ho⟩
      have hk := getChildren_ok hcs
      have h1 : a.old.ph.keys = [] := by decide +kernel
      rw [h1] at hk; simp at hk
    exact he _ _ h

/-- The first build of a project with one page which generates two placeholders. -/
def phEnv : Env := ⟨fun _ f => .ok ⟨[], [], if f = "a.html" then ["p1.js", "p2.js"] else []⟩, fun _ => sig1, id,
  [fun _ => some (.ok ⟨[], [], []⟩), fun _ => some (.ok ⟨[], [], []⟩)], 3⟩
@[inherit_doc phEnv]
def phArgs : Args := ⟨"const.json", .dev, ⟨[], [], []⟩, [], [("a.html", sig0)], []⟩
@[inherit_doc phEnv]
def phRun : Outcome := hotRebuild phEnv phArgs ⟨["a.html"], [], none⟩

theorem phArgs_valid : ValidGraphs phArgs.old := ⟨run_valid [], run_valid [], run_valid []⟩

/-- A rebuild in which every scan and every build succeeds can still fail: after the successful first
build `phRun` of a project in which a page generates two placeholders, a rebuild after an unrelated
file was added ends with a KeyError when everything is built. -/
theorem C57_two_placeholders_fail :
    phRun.status = .finished ∧
    ∃ (env : Env) (a : Args) (d : Disk), phRun.stored = some a.old ∧ d.files = phRun.disk.files ++ ["z.txt"] ∧
      ValidGraphs a.old ∧ ValidOrder env ∧
      (∀ dk f, ∃ r, env.scan dk f = .ok r) ∧ (∀ b ∈ env.batches, ∀ f, ∃ r, b f = some (.ok r)) ∧
      (∀ f, Rebuilt a (hotRebuild env a d) f → ∃ r, Event.finished f r ∈ (hotRebuild env a d).log) ∧
      (hotRebuild env a d).status = .failed .keyError := by
  let env : Env := ⟨fun _ _ => .ok ⟨[], [], []⟩, fun _ => sig1, id, [fun _ => some (.ok ⟨[], [], []⟩)], 2⟩
  let a : Args := ⟨"const.json", .dev, phRun.stored.getD ⟨[], [], []⟩, [], [("z.txt", sig1)], []⟩
  let d : Disk := ⟨phRun.disk.files ++ ["z.txt"], [], none⟩
  have hsome : phRun.stored.isSome = true := by decide +kernel
  obtain ⟨gs, hgs⟩ := Option.isSome_iff_exists.1 hsome
  have hst : phRun.stored = some a.old := by simp [a, hgs]
  refine ⟨by decide +kernel, env, a, d, hst, rfl,
    (C17_valid phEnv phArgs _ phArgs_valid (fun _ => .refl _) _ hst).1, fun _ => .refl _, fun _ _ => ⟨_, rfl⟩,
    ?_, ?_, by decide +kernel⟩
  · intro b hb f; simp [env] at hb; subst hb; exact ⟨_, rfl⟩
  · rintro f ⟨-, hf⟩
    have hs : touchedSources a (hotRebuild env a d) = ["z.txt"] := by decide +kernel
    have hl : (hotRebuild env a d).log = [.started "z.txt", .finished "z.txt" ⟨[], [], []⟩] := by decide +kernel
    rw [hs] at hf
    rw [hl]
    rcases hf with hf | ⟨s, hs, hp⟩
    · simp at hf; subst hf; exact ⟨_, by simp; rfl⟩
    · exfalso
      simp at hs; subst hs
      have h1 : ∀ f ∈ a.old.dep.keys, "z.txt" ∉ kids a.old.dep f := by decide +kernel
      have h2 : ∀ f ∈ a.old.ph.keys, "z.txt" ∉ kids a.old.ph f := by decide +kernel
      have hu : ∀ f, ¬ Uses a.old f "z.txt" := by
        rintro f (⟨cs, hcs, ho⟩ | ⟨cs, hcs, ho⟩)
        · have hk := getChildren_ok hcs; exact h1 f hk.1 (hk.2 ▸ ho)
        · have hk := getChildren_ok hcs; exact h2 f hk.1 (hk.2 ▸ ho)
      generalize hz : "z.txt" = z at hp hu
      induction hp with
      | one e => exact hu _ e
      | more _ _ ih => exact ih hz hu

end Verif.Hot
