import Verif.CrashThm
import Verif.HotDirs
import Verif.StaticThm
/-!
# C108: while watching, the server goes on giving the files of out/www

`dev --watch` changes into out/www once, after the first build (vanillaplusjs/runners/dev.py:108-110), and the server looks files
up from `.`, the folder it stands in (dev.py:120-127; `os.path.realpath` asks for the current folder, and raises when that folder
was removed, which is answered with 500).  Rebuilds run in the same process while it serves, and remove folders which became empty
(hot_incremental_rebuild.py:459-466), out/www too if it is one of them.  A folder which is made again later is another folder.

The changes of a rebuild are the list `Crash.effects`, in order; the answers are those of `Static.get`.
-/
namespace Verif.ServeWatch
open Verif Verif.Hot Verif.Crash
open Verif.Reader (Text txt)
open Verif.Links (Place)

/-- One rebuild: its surroundings, its arguments and the files it finds. -/
structure Round where
  env : Env
  args : Args
  disk : Hot.Disk

/-- The changes it makes: hot_incremental_rebuild.py:20-611. -/
def Round.changes (r : Round) : List Effect := effects r.env r.args r.disk

/-- What there is after it. -/
def Round.after (r : Round) : Hot.Disk := (hotRebuild r.env r.args r.disk).disk

/-- The folder in which the server stands was removed by one of these changes. -/
def lost (es : List Effect) : Bool := es.contains (.rmdir "out/www")

/-- What the server answers after these changes: from the folder it stands in, or 500 if that is gone, whatever there is at
out/www now. -/
def answer (es : List Effect) (n : Nat) (d : Static.Disk) (www : Place) (path : Text) : Static.Response :=
  if lost es then .failed else Static.get n d www path

/-! ## Removed folders are empty -/

theorem removeEmptyDirs_mono (ps : List String) (d : Hot.Disk) :
    (removeEmptyDirs ps d).2.files = d.files ∧ ∀ x ∈ (removeEmptyDirs ps d).2.dirs, x ∈ d.dirs := by
  induction ps generalizing d with
  | nil => exact ⟨rfl, fun _ h => h⟩
  | cons p ps ih =>
    unfold removeEmptyDirs
    split
    · split
      · obtain ⟨h1, h2⟩ := ih { d with dirs := del p d.dirs }
        refine ⟨h1, fun x hx => ?_⟩
        have := h2 x hx
        simp only [mem_del] at this
        exact this.1
      · exact ih d
    · exact ⟨rfl, fun _ h => h⟩

theorem dirEffects_empty {ps : List String} {d : Hot.Disk} {p : String} (h : Effect.rmdir p ∈ dirEffects ps d) :
    isEmptyDir (removeEmptyDirs ps d).2 p = true := by
  induction ps generalizing d with
  | nil => simp [dirEffects] at h
  | cons q ps ih =>
    unfold dirEffects at h
    unfold removeEmptyDirs
    split at h
    · rename_i hc
      rw [if_pos hc]
      split at h
      · rename_i he
        rw [if_pos he]
        rcases List.mem_cons.1 h with heq | h
        · have hpq : p = q := by simpa using heq
          subst hpq
          obtain ⟨m1, m2⟩ := removeEmptyDirs_mono ps { d with dirs := del p d.dirs }
          by_cases hem : isEmptyDir (removeEmptyDirs ps { d with dirs := del p d.dirs }).2 p = true
          · exact hem
          · rw [Bool.not_eq_true, not_isEmptyDir, m1] at hem
            have : isEmptyDir d p = false := by
              rw [not_isEmptyDir]
              rcases hem with hem | ⟨x, hx, e⟩
              · exact .inl hem
              · have := m2 x hx
                simp only [mem_del] at this
                exact .inr ⟨x, this.1, e⟩
            rw [this] at he
            simp at he
        · exact ih h
      · rename_i he
        rw [if_neg he]
        exact ih h
    · simp at h

/-- A folder which a rebuild removes has no entry when it is over, whether it succeeds or not. -/
theorem removed_empty (env : Env) (a : Args) (d : Hot.Disk) {p : String} (h : Effect.rmdir p ∈ effects env a d) :
    isEmptyDir (hotRebuild env a d).disk p = true := by
  have hmode : Effect.rmdir p ∉ modeEffects a d := by
    unfold modeEffects
    split
    · split <;> simp
    · simp
  unfold effects at h
  dsimp only at h
  rw [List.mem_append] at h
  replace h := h.resolve_left hmode
  unfold hotRebuild
  dsimp only
  split at h
  · simp at h
  · rename_i hw
    rw [if_neg hw]
    rw [List.mem_append] at h
    replace h := h.resolve_left (by
      intro hm
      unfold scanEffects at hm
      obtain ⟨x, _, hx⟩ := List.mem_map.1 hm
      cases hx)
    rcases hs : scanLoop env.scan env.sig env.scanFuel ((modeStep a env.sig d).1.keys ++ a.added.keys)
      { updated := [], newPh := [], added := a.added, disk := (modeStep a env.sig d).2 } with ⟨_ | _, st⟩
    · rw [hs] at h
      simp at h
    · rw [hs] at h
      dsimp only at h ⊢
      unfold buildEffects at h
      unfold buildPhase
      rcases h1 : reinterpAll a.old.out a.deleted st.updated (outMapOf st.updated) with _ | ⟨updated, outMap⟩
      · rw [h1] at h; simp at h
      · rw [h1] at h
        dsimp only at h ⊢
        rcases h2 : closure a.old.dep a.old.ph (Dict.keys updated) a.deleted with _ | ⟨seen, popped⟩
        · rw [h2] at h; simp at h
        · rw [h2] at h
          dsimp only at h ⊢
          rw [List.mem_append] at h
          replace h := h.resolve_left (by simp)
          rcases h3 : firstErr (dependsOnOf a.old updated st.newPh) ((env.order seen).filter (fun f => !a.deleted.contains f)) with _ | e
          · rw [h3] at h
            dsimp only at h ⊢
            generalize hT : tablesOf _ _ _ _ _ = T at h ⊢
            generalize hI : initSched _ _ _ _ _ = S0 at h ⊢
            rcases h4 : schedLoop T env.batches S0 with ⟨st', s⟩
            rw [h4] at h
            rw [List.mem_append] at h
            replace h := h.resolve_left (by
              simp only [logEffects, List.mem_flatMap, not_exists, not_and]
              intro ev _
              cases ev <;> simp)
            cases st' with
            | finished =>
              dsimp only at h ⊢
              unfold finalizeEffects at h
              unfold finalize
              rw [List.mem_append] at h
              replace h := h.resolve_left (by
                intro hm
                obtain ⟨f, _, hf⟩ := mem_strictEffects hm
                cases hf)
              rcases h5 : unlinkStrict s.stillArt s.disk with ⟨_ | _, d2⟩
              · rw [h5] at h; simp at h
              · rw [h5] at h
                dsimp only at h ⊢
                rw [List.mem_append] at h
                rcases h with h | h
                · have key := dirEffects_empty h
                  rcases h6 : removeEmptyDirs _ d2 with ⟨_ | _, d3⟩
                  · rw [h6] at key; exact key
                  · rw [h6] at key
                    dsimp only
                    split
                    · exact key
                    · exact key
                · rcases h6 : removeEmptyDirs _ d2 with ⟨_ | _, d3⟩
                  · rw [h6] at h; simp at h
                  · rw [h6] at h
                    dsimp only at h
                    split at h
                    · simp at h
                    · simp [storeEffects] at h
            | waiting => simp at h
            | failed e => simp at h
          · rw [h3] at h; simp at h

/-! ## The theorems -/

/-- **C108, in part.**  Whatever is rebuilt however often, successfully or not: as long as each rebuild leaves a file or a folder in
out/www, the server answers from the files which are in out/www at that time, also while a rebuild is at work.  Missing: rebuilds
which leave nothing there, `C108_false_emptied`. -/
theorem C108_serves_partial (before : List Round) (now : Round) (k : Nat)
    (hleft : ∀ r ∈ before ++ [now], (∃ f ∈ r.after.files, dirname f = "out/www") ∨ ∃ q ∈ r.after.dirs, dirname q = "out/www")
    (n : Nat) (d : Static.Disk) (www : Place) (path : Text) :
    answer (before.flatMap Round.changes ++ now.changes.take k) n d www path = Static.get n d www path := by
  have none_of : ∀ r ∈ before ++ [now], Effect.rmdir "out/www" ∉ r.changes := by
    intro r hr hm
    have he := removed_empty r.env r.args r.disk hm
    have : isEmptyDir (hotRebuild r.env r.args r.disk).disk "out/www" = false := (not_isEmptyDir _ _).2 (hleft r hr)
    rw [this] at he
    cases he
  unfold answer
  rw [if_neg]
  unfold lost
  rw [List.contains_iff_mem, List.mem_append, List.mem_flatMap]
  rintro (⟨r, hr, hm⟩ | hm)
  · exact none_of r (by simp [hr]) hm
  · exact none_of now (by simp) (List.mem_of_mem_take hm)

/-! ## A page which is deleted and made again -/
namespace Case

def old : Graphs where
  dep := mkGraph ["src/public/index.html"] []
  out := mkGraph ["src/public/index.html", "out/www/index.html"] [("src/public/index.html", ["out/www/index.html"])]
  ph := mkGraph [] []

/-- The only page is deleted. -/
def first : Round where
  env := ⟨fun _ _ => .error .buildFailed, fun _ => sig0, id, [], 1⟩
  args := ⟨"const.json", .dev, old, [], [], ["src/public/index.html"]⟩
  disk := ⟨["out/www/index.html", "out/graph.json"], ["src", "src/public", "out", "out/www"], none⟩

/-- The only page is changed. -/
def edited : Round where
  env := ⟨fun _ _ => .ok ⟨[], ["out/www/index.html"], []⟩, fun _ => sig1, id,
    [fun _ => some (.ok ⟨[], ["out/www/index.html"], []⟩)], 3⟩
  args := ⟨"const.json", .dev, old, [("src/public/index.html", sig1)], [], []⟩
  disk := ⟨["src/public/index.html", "out/www/index.html", "out/graph.json"], ["src", "src/public", "out", "out/www"], none⟩

/-- And made again. -/
def second : Round where
  env := ⟨fun _ _ => .ok ⟨[], ["out/www/index.html"], []⟩, fun _ => sig1, id,
    [fun _ => some (.ok ⟨[], ["out/www/index.html"], []⟩)], 3⟩
  args := ⟨"const.json", .dev, ((hotRebuild first.env first.args first.disk).stored).getD old, [], [("src/public/index.html", sig1)], []⟩
  disk := { first.after with files := first.after.files ++ ["src/public/index.html"] }

/-- The hypothesis of `C108_serves_partial` is met by an edit of the only page, in the course of which out/www is empty for a
while. -/
theorem C108_case : (hotRebuild edited.env edited.args edited.disk).status = .finished ∧
    (∃ f ∈ edited.after.files, dirname f = "out/www") ∧ Effect.unlink "out/www/index.html" ∈ edited.changes ∧
    Effect.write "out/www/index.html" ∈ edited.changes := by
  decide +kernel

/-- **C108 fails when a rebuild empties out/www**: the folder is removed, and made again by the next one, but the server stands in
the removed one and answers 500 to every request from then on, although both rebuilds succeeded and the page is there. -/
theorem C108_false_emptied :
    (hotRebuild first.env first.args first.disk).status = .finished ∧
    (hotRebuild second.env second.args second.disk).status = .finished ∧
    "out/www/index.html" ∈ second.after.files ∧ "out/www" ∈ second.after.dirs ∧
    ∀ n d www path, answer ([first, second].flatMap Round.changes) n d www path = .failed := by
  refine ⟨by decide +kernel, by decide +kernel, by decide +kernel, by decide +kernel, fun n d www path => ?_⟩
  have h : lost ([first, second].flatMap Round.changes) = true := by decide +kernel
  unfold answer
  rw [if_pos h]

end Case
end Verif.ServeWatch
