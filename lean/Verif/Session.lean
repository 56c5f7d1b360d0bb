import Verif.HotReal
import Verif.ColdThm
import Verif.DevThm
/-!
# C88: sessions with the program

The theorems about histories of rebuilds (C79, C80, C84, C85) say of each rebuild that it is told which sources have been added,
changed and deleted.  Here it is the program which finds this out: a build compares the signatures of the files with the
recorded ones, and the watch mode goes by the events it has received.  If the first build of the dev server fails the folder out
is removed and the build is tried once more.
-/
namespace Verif.Hot
open Verif Verif.Graph Verif.Cold

variable {C : Type}

/-! ## Specification -/

/-- The contents of a source are known from its signature: whenever the signature of a file is `s`, its contents are `content f s`.
(mtime, size and inode are all that the program looks at.) -/
def Signed (p : Project) (content : String → Sig → C) (sig : String → Sig) (W : Contents C) : Prop :=
  ∀ f y, p.src f → W f = some y → y = content f (sig f)

/-- What a build is called with: cold_incremental_rebuild.py:104-112. -/
def foundArgs (a : Args) (walk : List (String × Sig)) : Args :=
  match detect a.old.dep walk with
  | .error _ => a
  | .ok r => { a with changed := r.changed, added := r.added, deleted := r.deleted }

/-- `Runs p t content W gs dm m W' gs' dm'`: the outputs are those of `W`, the stored graphs are `gs` and the stored mode `dm`; then
the sources have been edited in any way, and `vanillaplusjs build` was called for the mode `m` and has finished.  It left the contents
`W'`, the graphs `gs'` and the mode `dm'`. -/
inductive Runs (p : Project) (t : Tool C) (content : String → Sig → C) (W : Contents C) : Graphs → Option Mode → Mode → Contents C → Graphs → Option Mode → Prop
  | mk {W0 W' : Contents C} {env : Env} {a : Args} {d : Disk} {walk : List (String × Sig)} (order : ValidOrder env) (scans : Scanned t env)
      (constants : a.constants = p.constants)
      /- the files when the build begins -/
      (disk : ∀ f, W0 f ≠ none ↔ f ∈ d.files) (outputs : ∀ o, p.owner o ≠ none → W0 o = W o)
      (signed : Signed p content env.sig W0)
      /- the walk finds each source once, with its signature -/
      (once : WalkOK walk) (walked : ∀ f s, (f, s) ∈ walk ↔ p.src f ∧ f ∈ d.files ∧ s = env.sig f)
      (finished : (coldRebuild env a walk d).status = .finished)
      (work : Work t (foundArgs a walk) (coldRebuild env a walk d) W0 W') :
      Runs p t content W a.old d.mode a.mode W' ((coldRebuild env a walk d).stored.getD a.old) (coldRebuild env a walk d).disk.mode

/-- What happens to the contents of the files when the watcher reports an event. -/
def Does (W : Contents C) (e : Dev.Ev) (W' : Contents C) : Prop :=
  match e with
  | .modified f => W f ≠ none ∧ W' f ≠ none ∧ ∀ g, g ≠ f → W' g = W g
  | .created f => W f = none ∧ W' f ≠ none ∧ ∀ g, g ≠ f → W' g = W g
  | .deleted f => W f ≠ none ∧ W' f = none ∧ ∀ g, g ≠ f → W' g = W g
  | .moved f g => W f ≠ none ∧ W g = none ∧ W' f = none ∧ W' g = W f ∧ ∀ h, h ≠ f → h ≠ g → W' h = W h

/-- The files of an event. -/
def About (e : Dev.Ev) (f : String) : Prop :=
  match e with
  | .modified g => f = g
  | .created g => f = g
  | .deleted g => f = g
  | .moved g h => f = g ∨ f = h

/-- The events which were reported, in their order, with what has happened to the sources. -/
inductive Happened (p : Project) (W : Contents C) : List Dev.Ev → Contents C → Prop
  | nothing : Happened p W [] W
  | more {es : List Dev.Ev} {W1 W2 : Contents C} {e : Dev.Ev} : Happened p W es W1 → (∀ f, About e f → p.src f) → Does W1 e W2 → Happened p W (es ++ [e]) W2

/-- The handler has collected these files, with the signatures they have now: dev.py:206-208, 248-258. -/
structure Given (sig : String → Sig) (x : Dev.Pending) (a : Args) : Prop where
  changed : ∀ f s, a.changed.get? f = some s ↔ f ∈ x.changed ∧ s = sig f
  added : ∀ f s, a.added.get? f = some s ↔ f ∈ x.created ∧ s = sig f
  deleted : ∀ f, f ∈ a.deleted ↔ f ∈ x.deleted

/-- Builds and rebuilds of the watch mode, one after the other, all of which have finished.  Each begins where the last has ended,
except for what has been done to the sources; or else from a project without any outputs and graphs. -/
inductive Session (p : Project) (t : Tool C) (content : String → Sig → C) : Mode → Contents C → Graphs → Option Mode → Prop
  | first {m : Mode} {W W' : Contents C} {gs : Graphs} {dm : Option Mode} : (∀ o, p.owner o ≠ none → W o = none) →
      Runs p t content W ⟨[], [], []⟩ none m W' gs dm → Session p t content m W' gs dm
  | build {m m' : Mode} {W W' : Contents C} {gs gs' : Graphs} {dm dm' : Option Mode} : Session p t content m W gs dm →
      Runs p t content W gs dm m' W' gs' dm' → Session p t content m' W' gs' dm'
  | watch {m : Mode} {W W0 W' : Contents C} {env : Env} {a : Args} {d : Disk} {es : List Dev.Ev} : Session p t content m W a.old d.mode →
      Happened p W es W0 → Given env.sig (es.foldl (fun x e => Dev.onEvent e x) ⟨[], [], []⟩) a → ValidOrder env → Scanned t env →
      a.constants = p.constants → (∀ f, W0 f ≠ none ↔ f ∈ d.files) → Signed p content env.sig W0 →
      (hotRebuild env a d).status = .finished → Work t a (hotRebuild env a d) W0 W' →
      Session p t content a.mode W' ((hotRebuild env a d).stored.getD a.old) (hotRebuild env a d).disk.mode

/-- The recorded signatures are those of the contents. -/
def Recorded (p : Project) (content : String → Sig → C) (W : Contents C) (gs : Graphs) : Prop :=
  ∀ f s, contains gs.dep f = true → HasMeta gs.dep f s → W f = some (content f s)

/-! ## What is recorded -/

theorem mem_keys_get? {α : Type} {m : Dict α} {f : String} (h : f ∈ m.keys) : ∃ s, m.get? f = some s :=
  Option.isSome_iff_exists.1 ((Dict.get?_isSome_iff _ _).2 h)

theorem get?_mem_keys {α : Type} {m : Dict α} {f : String} {s : α} (h : m.get? f = some s) : f ∈ m.keys :=
  (Dict.get?_isSome_iff _ _).1 (by rw [h]; rfl)

theorem hasMeta_unique {g : Graph} {f : String} {s s' : Sig} (h : HasMeta g f s) (h' : HasMeta g f s') : s = s' := by
  rw [hasMeta_iff] at h h'
  rw [h] at h'
  exact Option.some.inj h'

/-- A rebuild which has been given the right signatures records the right ones. -/
theorem recorded_step {p : Project} {t : Tool C} {content : String → Sig → C} (hp : p.Lawful) (ht : t.Lawful p) (hsrc : p.src p.constants) {m0 : Mode} {W W0 W' : Contents C}
    {env : Env} {a : Args} {d : Disk} (hw : Worked p t m0 W a.old d.mode) (hr : Recorded p content W a.old) (ho : ValidOrder env) (hs : Scanned t env)
    (hc : a.constants = p.constants) (E : Edits p a d W W0) (hsig : Signed p content env.sig W0) (h1 : ∀ f s, a.changed.get? f = some s → s = env.sig f)
    (h2 : ∀ f s, a.added.get? f = some s → s = env.sig f) (hf : (hotRebuild env a d).status = .finished) (X : Work t a (hotRebuild env a d) W0 W') :
    Recorded p content W' ((hotRebuild env a d).stored.getD a.old) := by
  obtain ⟨U, hv, -, -⟩ := (hw.history hp ht hsrc).upToDate hp (ht.pure hp)
  obtain ⟨S, hg⟩ := scans_of (a := a) (d := d) ht hs hsrc hf
  have hU : ∀ f o, Edge a.old.out f o → p.owner o = some f := fun f o he => U.owned (ht.pure hp) he
  cases hst : (hotRebuild env a d).stored with
  | none =>
    obtain ⟨e1, e2, e3, e4⟩ := C17_finished_stores env a d hv ho hf hst
    have hi := idle hv ho hf hst
    intro f s hcf hm
    have hfs := ((U.files f).1 hcf).1
    have hW := hr f s hcf hm
    have h0 : W0 f = W f := E.same f hfs (by rw [e1]; simp [Dict.keys]) (by rw [e2]; simp [Dict.keys]) (by rw [e3]; simp)
    have hd : f ∈ (hotRebuild env a d).disk.files := by
      rw [hi.2.2.2]
      exact (E.disk f).1 (by rw [h0, hW]; simp)
    rw [X.kept f hd (by rw [hi.1]; simp)]
    by_cases hu : Unlinked a (hotRebuild env a d) f
    · obtain ⟨⟨x, -, hx⟩, -⟩ := hu
      have := hU x f hx
      rw [(hp.src f hfs).1] at this
      cases this
    · rw [X.start_kept f hu, h0, hW]
  | some gs =>
    have F := facts hv ho hst
    have X' := X.exec hp ht F S hg hc U E
    have U' := step hv hp (ht.pure hp) hc S F U ((hw.history hp ht hsrc).upToDate hp (ht.pure hp)).2.2.2 E X'
    intro f s hcf hm
    have hcf : contains gs.dep f = true := hcf
    have hfs := ((U'.files f).1 hcf).1
    have hnone := (hp.src f hfs).1
    have hkeep : W' f = W0 f := by
      obtain ⟨k1, -, k2⟩ := X'.at_source (ht.pure hp) F hU E hnone
      rw [k1, k2 (by rw [hg]; simp [Dict.keys])]
    have hne : W0 f ≠ none := hkeep ▸ ((U'.files f).1 hcf).2
    obtain ⟨y, hy⟩ := Option.ne_none_iff_exists'.1 hne
    rw [hkeep, hy]
    have now : s = env.sig f → some y = some (content f s) := fun e => by rw [e, ← hsig f y hfs hy]
    obtain ⟨s', q1, -, q2⟩ := C17_signatures env a d hv ho gs hst f hcf
    have : s' = s := hasMeta_unique q1 hm
    subst this
    unfold Observed at q2
    split at q2
    · exact now (h1 f s' q2)
    · next n1 =>
      split at q2
      · exact now (h2 f s' q2)
      · next n2 =>
        split at q2
        · exact now q2
        · have n2' : f ∉ a.added.keys := fun h => n2 ⟨h, by rw [hg]; simp [Dict.keys]⟩
          have hnd : f ∉ a.deleted := ((F.recorded f).1 hcf).1
          have h0 := E.same f hfs n1 n2' hnd
          by_cases hco : contains a.old.dep f = true
          · rw [← hy, h0]
            exact hr f s' hco q2
          · exfalso
            have : f ∈ a.added.keys := E.new f hfs ((E.disk f).1 hne) (by simpa using hco)
            exact n2' this

/-! ## A build finds the edits -/

/-- What is given to the rebuild is right. -/
theorem found_edits {p : Project} {content : String → Sig → C} {W W0 : Contents C} {env : Env} {a : Args} {d : Disk} {walk : List (String × Sig)}
    (hfiles : ∀ f, contains a.old.dep f = true ↔ p.src f ∧ W f ≠ none) (hr : Recorded p content W a.old)
    (disk : ∀ f, W0 f ≠ none ↔ f ∈ d.files) (outputs : ∀ o, p.owner o ≠ none → W0 o = W o) (signed : Signed p content env.sig W0) (once : WalkOK walk)
    (walked : ∀ f s, (f, s) ∈ walk ↔ p.src f ∧ f ∈ d.files ∧ s = env.sig f) :
    ∃ r, detect a.old.dep walk = .ok r ∧ Edits p (foundArgs a walk) d W W0 ∧ (∀ f s, (foundArgs a walk).changed.get? f = some s → s = env.sig f) ∧
      ∀ f s, (foundArgs a walk).added.get? f = some s → s = env.sig f := by
  obtain ⟨r, h0, h1, h2, h3, -, -⟩ := C20_detect_exact a.old.dep walk once
  have e : foundArgs a walk = { a with changed := r.changed, added := r.added, deleted := r.deleted } := by unfold foundArgs; rw [h0]
  refine ⟨r, h0, ?_, ?_, ?_⟩
  · rw [e]
    refine ⟨disk, outputs, fun f hs hc ha hd => ?_, fun f hf => ?_, fun f hf => ?_, fun f hs hf hn => ?_, fun f hc hd => ?_, fun f hf => ?_⟩
    · by_cases hin : f ∈ d.files
      · have hw : (f, env.sig f) ∈ walk := (walked _ _).2 ⟨hs, hin, rfl⟩
        obtain ⟨y, hy⟩ := Option.ne_none_iff_exists'.1 ((disk f).2 hin)
        by_cases hco : contains a.old.dep f = true
        · by_cases hm : HasMeta a.old.dep f (env.sig f)
          · rw [hr f _ hco hm, hy, ← signed f y hs hy]
          · exact absurd (get?_mem_keys ((h3 f _).2 ⟨hw, hco, hm⟩)) hc
        · exact absurd (get?_mem_keys ((h2 f _).2 ⟨hw, by simpa using hco⟩)) ha
      · have hnw : ∀ s, (f, s) ∉ walk := fun s h => hin ((walked _ _).1 h).2.1
        have hco : ¬ contains a.old.dep f = true := fun hco => hd ((h1 f).2 ⟨hco, hnw⟩)
        have e1 : W0 f = none := Classical.byContradiction fun h => hin ((disk f).1 h)
        have e2 : W f = none := Classical.byContradiction fun h => hco ((hfiles f).2 ⟨hs, h⟩)
        rw [e1, e2]
    · obtain ⟨s, hg⟩ := mem_keys_get? hf
      have := (walked _ _).1 ((h3 f s).1 hg).1
      exact ⟨this.1, this.2.1⟩
    · obtain ⟨s, hg⟩ := mem_keys_get? hf
      have := (walked _ _).1 ((h2 f s).1 hg).1
      exact ⟨this.1, this.2.1⟩
    · exact get?_mem_keys ((h2 f (env.sig f)).2 ⟨(walked _ _).2 ⟨hs, hf, rfl⟩, hn⟩)
    · refine Classical.byContradiction fun hin => hd ((h1 f).2 ⟨hc, fun s h => hin ((walked _ _).1 h).2.1⟩)
    · intro hin
      obtain ⟨q1, q2⟩ := (h1 f).1 hf
      exact q2 _ ((walked _ _).2 ⟨((hfiles f).1 q1).1, hin, rfl⟩)
  · rw [e]; exact fun f s h => ((walked _ _).1 ((h3 f s).1 h).1).2.2
  · rw [e]; exact fun f s h => ((walked _ _).1 ((h2 f s).1 h).1).2.2

theorem cold_eq {env : Env} {a : Args} {d : Disk} {walk : List (String × Sig)} {r : Found} (h : detect a.old.dep walk = .ok r) :
    coldRebuild env a walk d = hotRebuild env (foundArgs a walk) d ∧ (foundArgs a walk).old = a.old ∧ (foundArgs a walk).mode = a.mode ∧
      (foundArgs a walk).constants = a.constants := by
  unfold coldRebuild foundArgs
  rw [h]
  exact ⟨rfl, rfl, rfl, rfl⟩

theorem Runs.worked {p : Project} {t : Tool C} {content : String → Sig → C} (hp : p.Lawful) (ht : t.Lawful p) (hsrc : p.src p.constants)
    {m m' : Mode} {W W' : Contents C} {gs gs' : Graphs} {dm dm' : Option Mode} (hw : Worked p t m W gs dm) (hr : Recorded p content W gs)
    (h : Runs p t content W gs dm m' W' gs' dm') : Worked p t m' W' gs' dm' ∧ Recorded p content W' gs' := by
  obtain ⟨ho, hs, hc, hd, hou, hsig, honce, hwalk, hf, X⟩ := h
  rename_i W0 env a d walk
  obtain ⟨U, -⟩ := (hw.history hp ht hsrc).upToDate hp (ht.pure hp)
  obtain ⟨r, h0, E, k1, k2⟩ := found_edits (a := a) (env := env) U.files hr hd hou hsig honce hwalk
  obtain ⟨e1, e2, e3, e4⟩ := cold_eq (env := env) (d := d) h0
  rw [e1] at hf X ⊢
  rw [← e2] at hw hr ⊢
  rw [← e3]
  exact ⟨.rebuild hw ho hs (e4.trans hc) E X hf, recorded_step hp ht hsrc hw hr ho hs (e4.trans hc) E hsig k1 k2 hf X⟩

/-! ## The watch mode goes by the events -/

/-- Which files there are, and to which something has happened. -/
noncomputable def spanOf (W W0 : Contents C) (touched : String → Bool) : Dev.Span := ⟨fun f => (W f).isSome, fun f => (W0 f).isSome, touched⟩

theorem does_span {W W1 W2 : Contents C} {e : Dev.Ev} {touched : String → Bool} (h : Does W1 e W2) :
    ∃ touched', (spanOf W W1 touched).event e = spanOf W W2 touched' ∧ Dev.Possible (spanOf W W1 touched).now e ∧ ¬ Dev.Overwrites (spanOf W W1 touched).now e ∧
      (∀ f, touched' f = false → touched f = false ∧ W2 f = W1 f) ∧ (∀ f, touched' f = true → touched f = true ∨ About e f) := by
  have hsome : ∀ {x : Option C}, x ≠ none → x.isSome = true := fun {x} h => by cases x <;> simp_all
  cases e with
  | modified g =>
    obtain ⟨h1, h2, h3⟩ := h
    refine ⟨Dev.put touched g true, ?_, hsome h1, by simp [Dev.Overwrites], ?_, ?_⟩
    · simp only [Dev.Span.event, spanOf, Dev.Span.mk.injEq, true_and, and_true]
      funext f
      by_cases hf : f = g
      · subst hf; rw [hsome h1, hsome h2]
      · rw [h3 f hf]
    · intro f hf
      unfold Dev.put at hf
      split at hf
      · cases hf
      · next hn => exact ⟨hf, h3 f hn⟩
    · intro f hf
      unfold Dev.put at hf
      split at hf
      · next hn => exact .inr hn
      · exact .inl hf
  | created g =>
    obtain ⟨h1, h2, h3⟩ := h
    refine ⟨Dev.put touched g true, ?_, by simp [Dev.Possible, spanOf, h1], by simp [Dev.Overwrites], ?_, ?_⟩
    · simp only [Dev.Span.event, spanOf, Dev.Span.mk.injEq, true_and, and_true]
      funext f
      unfold Dev.put
      by_cases hf : f = g
      · subst hf; rw [if_pos rfl, hsome h2]
      · rw [if_neg hf, h3 f hf]
    · intro f hf
      unfold Dev.put at hf
      split at hf
      · cases hf
      · next hn => exact ⟨hf, h3 f hn⟩
    · intro f hf
      unfold Dev.put at hf
      split at hf
      · next hn => exact .inr hn
      · exact .inl hf
  | deleted g =>
    obtain ⟨h1, h2, h3⟩ := h
    refine ⟨Dev.put touched g true, ?_, hsome h1, by simp [Dev.Overwrites], ?_, ?_⟩
    · simp only [Dev.Span.event, spanOf, Dev.Span.mk.injEq, true_and, and_true]
      funext f
      unfold Dev.put
      by_cases hf : f = g
      · subst hf; rw [if_pos rfl, h2]; rfl
      · rw [if_neg hf, h3 f hf]
    · intro f hf
      unfold Dev.put at hf
      split at hf
      · cases hf
      · next hn => exact ⟨hf, h3 f hn⟩
    · intro f hf
      unfold Dev.put at hf
      split at hf
      · next hn => exact .inr hn
      · exact .inl hf
  | moved g k =>
    obtain ⟨h1, h2, h3, h4, h5⟩ := h
    have hgk : g ≠ k := fun e => h1 (by rw [e]; exact h2)
    refine ⟨Dev.put (Dev.put touched g true) k true, ?_, ⟨hsome h1, hgk⟩, by simp [Dev.Overwrites, spanOf, h2], ?_, ?_⟩
    · simp only [Dev.Span.event, spanOf, Dev.Span.mk.injEq, true_and, and_true]
      funext f
      unfold Dev.put
      by_cases hf : f = k
      · subst hf; rw [if_pos rfl, h4, hsome h1]
      · rw [if_neg hf]
        by_cases hf' : f = g
        · subst hf'; rw [if_pos rfl, h3]; rfl
        · rw [if_neg hf', h5 f hf' hf]
    · intro f hf
      unfold Dev.put at hf
      split at hf
      · cases hf
      · next hn =>
        split at hf
        · cases hf
        · next hn' => exact ⟨hf, h5 f hn' hn⟩
    · intro f hf
      unfold Dev.put at hf
      split at hf
      · next hn => exact .inr (.inr hn)
      · split at hf
        · next hn' => exact .inr (.inl hn')
        · exact .inl hf

theorem happened_exact {p : Project} {W W0 : Contents C} {es : List Dev.Ev} (h : Happened p W es W0) :
    ∃ touched, Dev.Exact (spanOf W W0 touched) (es.foldl (fun x e => Dev.onEvent e x) ⟨[], [], []⟩) ∧
      (∀ f, touched f = false → W0 f = W f) ∧ ∀ f, touched f = true → p.src f := by
  induction h with
  | nothing => exact ⟨fun _ => false, Dev.fresh_exact _, fun _ _ => rfl, fun f hf => by cases hf⟩
  | @more es W1 W2 e h1 ha hd ih =>
    obtain ⟨touched, q1, q2, q3⟩ := ih
    obtain ⟨touched', k1, k2, k3, k4, k5⟩ := does_span (W := W) (touched := touched) hd
    refine ⟨touched', ?_, fun f hf => ?_, fun f hf => ?_⟩
    · rw [List.foldl_append]
      have := Dev.event_exact q1 k2 k3
      rw [k1] at this
      exact this
    · obtain ⟨r1, r2⟩ := k4 f hf
      rw [r2, q2 f r1]
    · rcases k5 f hf with h | h
      · exact q3 f h
      · exact ha f h

/-- What the handler gives to the rebuild is right. -/
theorem exact_edits {p : Project} (hp : p.Lawful) {W W0 : Contents C} {sig : String → Sig} {a : Args} {d : Disk} {x : Dev.Pending} {touched : String → Bool}
    (hfiles : ∀ f, contains a.old.dep f = true ↔ p.src f ∧ W f ≠ none) (hx : Dev.Exact (spanOf W W0 touched) x) (h1 : ∀ f, touched f = false → W0 f = W f)
    (h2 : ∀ f, touched f = true → p.src f) (hg : Given sig x a) (disk : ∀ f, W0 f ≠ none ↔ f ∈ d.files) : Edits p a d W W0 := by
  have key := fun f => hx f
  have hno : ∀ {x : Option C}, x.isSome = false ↔ x = none := fun {x} => by cases x <;> simp
  have hyes : ∀ {x : Option C}, x.isSome = true ↔ x ≠ none := fun {x} => by cases x <;> simp
  simp only [spanOf, hno, hyes] at key
  have moved : ∀ f, W0 f ≠ W f → p.src f := fun f hne => h2 f (by
    cases ht : touched f with
    | true => rfl
    | false => exact absurd (h1 f ht) hne)
  have hchanged : ∀ f, f ∈ a.changed.keys ↔ W f ≠ none ∧ W0 f ≠ none ∧ touched f = true := fun f => by
    rw [← (key f).2.2]
    constructor
    · intro hf
      obtain ⟨s, hs⟩ := mem_keys_get? hf
      exact ((hg.changed f s).1 hs).1
    · intro hf
      exact get?_mem_keys ((hg.changed f (sig f)).2 ⟨hf, rfl⟩)
  have hadded : ∀ f, f ∈ a.added.keys ↔ W f = none ∧ W0 f ≠ none := fun f => by
    rw [← (key f).1]
    constructor
    · intro hf
      obtain ⟨s, hs⟩ := mem_keys_get? hf
      exact ((hg.added f s).1 hs).1
    · intro hf
      exact get?_mem_keys ((hg.added f (sig f)).2 ⟨hf, rfl⟩)
  have hdeleted : ∀ f, f ∈ a.deleted ↔ W f ≠ none ∧ W0 f = none := fun f => by rw [hg.deleted, (key f).2.1]
  refine ⟨disk, fun o ho => ?_, fun f hs hc ha hd => ?_, fun f hf => ?_, fun f hf => ?_, fun f hs hf hn => ?_, fun f hc hd => ?_, fun f hf => ?_⟩
  · refine Classical.byContradiction fun hne => ?_
    exact ho (hp.src o (moved o hne)).1
  · refine Classical.byContradiction fun hne => ?_
    have ht : touched f = true := by
      cases ht : touched f with
      | true => rfl
      | false => exact absurd (h1 f ht) hne
    rw [hchanged] at hc
    rw [hadded] at ha
    rw [hdeleted] at hd
    by_cases e1 : W f = none
    · by_cases e2 : W0 f = none
      · exact hne (by rw [e1, e2])
      · exact ha ⟨e1, e2⟩
    · by_cases e2 : W0 f = none
      · exact hd ⟨e1, e2⟩
      · exact hc ⟨e1, e2, ht⟩
  · obtain ⟨-, k2, k3⟩ := (hchanged f).1 hf
    exact ⟨h2 f k3, (disk f).1 k2⟩
  · obtain ⟨k1, k2⟩ := (hadded f).1 hf
    exact ⟨moved f (fun e => k2 (by rw [e, k1])), (disk f).1 k2⟩
  · refine (hadded f).2 ⟨Classical.byContradiction fun h => ?_, (disk f).2 hf⟩
    rw [(hfiles f).2 ⟨hs, h⟩] at hn
    cases hn
  · have hW := ((hfiles f).1 hc).2
    exact (disk f).1 fun h => hd ((hdeleted f).2 ⟨hW, h⟩)
  · exact fun hin => (disk f).2 hin ((hdeleted f).1 hf).2

theorem given_edits {p : Project} (hp : p.Lawful) {W W0 : Contents C} {sig : String → Sig} {a : Args} {d : Disk} {es : List Dev.Ev}
    (hfiles : ∀ f, contains a.old.dep f = true ↔ p.src f ∧ W f ≠ none) (h : Happened p W es W0)
    (hg : Given sig (es.foldl (fun x e => Dev.onEvent e x) ⟨[], [], []⟩) a) (disk : ∀ f, W0 f ≠ none ↔ f ∈ d.files) : Edits p a d W W0 := by
  obtain ⟨touched, hx, h1, h2⟩ := happened_exact h
  exact exact_edits hp hfiles hx h1 h2 hg disk

/-! ## C88 -/

/-- **C88**: in a session each rebuild is told of all edits, so that the session is a history of the kind which C79, C80, C84 and C85
are about. -/
theorem Session.worked {p : Project} {t : Tool C} {content : String → Sig → C} (hp : p.Lawful) (ht : t.Lawful p) (hsrc : p.src p.constants)
    {m : Mode} {W : Contents C} {gs : Graphs} {dm : Option Mode} (h : Session p t content m W gs dm) :
    Worked p t m W gs dm ∧ Recorded p content W gs := by
  induction h with
  | @first m W W' gs dm hout hr =>
    -- before the first build no source is known
    classical
    let V : Contents C := fun f => if p.src f then none else W f
    have hV : ∀ f, p.src f ∨ p.owner f ≠ none → V f = none := by
      rintro f (h | h)
      · simp [V, h]
      · by_cases hs : p.src f
        · simp [V, hs]
        · simp [V, hs, hout f h]
    have hr' : Runs p t content V ⟨[], [], []⟩ none m W' gs dm := by
      have aux : ∀ {g : Graphs} {dm0 : Option Mode}, Runs p t content W g dm0 m W' gs dm → Runs p t content V g dm0 m W' gs dm := by
        rintro g dm0 ⟨ho, hs, hc, hd, hou, hsig, honce, hwalk, hf, X⟩
        exact .mk ho hs hc hd (fun o ho' => by rw [hou o ho', hout o ho', hV o (.inr ho')]) hsig honce hwalk hf X
      exact aux hr
    refine Runs.worked hp ht hsrc (.empty m V hV) (fun f s hc => ?_) hr'
    simp [contains, Dict.has] at hc
  | build _ hr ih => exact Runs.worked hp ht hsrc ih.1 ih.2 hr
  | watch _ hh hg ho hs hc hd hsig hf X ih =>
    obtain ⟨U, -⟩ := (ih.1.history hp ht hsrc).upToDate hp (ht.pure hp)
    have E := given_edits hp U.files hh hg hd
    exact ⟨.rebuild ih.1 ho hs hc E X hf, recorded_step hp ht hsrc ih.1 ih.2 ho hs hc E hsig (fun f s h => ((hg.changed f s).1 h).2)
      (fun f s h => ((hg.added f s).1 h).2) hf X⟩

/-- **C88**: after a session every source is built and every output is what building its source now would give; there are no other
outputs. -/
theorem C88_current {p : Project} {t : Tool C} {content : String → Sig → C} (hp : p.Lawful) (ht : t.Lawful p) (hsrc : p.src p.constants)
    {m : Mode} {W : Contents C} {gs : Graphs} {dm : Option Mode} (h : Session p t content m W gs dm) : UpToDate p (t.builder p) m W gs :=
  (((h.worked hp ht hsrc).1.history hp ht hsrc).upToDate hp (ht.pure hp)).1

/-- **C88**: sessions which end with the same sources, and in the same mode, end with the same outputs. -/
theorem C88_same {p : Project} {t : Tool C} {content content' : String → Sig → C} (hp : p.Lawful) (ht : t.Lawful p) (hsrc : p.src p.constants)
    {m : Mode} {W W' : Contents C} {gs gs' : Graphs} {dm dm' : Option Mode} (h : Session p t content m W gs dm) (h' : Session p t content' m W' gs' dm')
    (hs : ∀ f, p.src f → W f = W' f) : ∀ o, p.owner o ≠ none → W o = W' o :=
  C79_incremental_as_clean_partial hp (ht.pure hp) ((h.worked hp ht hsrc).1.history hp ht hsrc) ((h'.worked hp ht hsrc).1.history hp ht hsrc) hs

/-! ## The dev server's first build -/

/-- What is on disk: the files, and what is stored in the folder out. -/
structure Place (C : Type) where
  files : Contents C
  graphs : Graphs
  mode : Option Mode

/-- How a call of `build` ends: as it should, by `sys.exit`, or by another exception. -/
inductive Call where
  | finished | exit | raised

/-- dev.py:105 `shutil.rmtree`.  The graphs and the mode are stored in the folder (build_context.py:188, 200, 212,
hot_incremental_rebuild.py:95). -/
def Place.removeOut (s : Place C) : Place C := ⟨fun f => if startsWith f "out/" then none else s.files f, ⟨[], [], []⟩, none⟩

/-- dev.py:92-106.  `build i` is the call number `i`, and `out` says whether there is a folder out.  (`SystemExit` is no `Exception`,
so that 95-96 are never needed.) -/
def devBuild (out : Place C → Bool) (build : Nat → Place C → Call × Place C) (s : Place C) : Call × Place C :=
  match build 0 s with
  | (.finished, s') => (.finished, s')
  | (.exit, s') => (.exit, s')
  | (.raised, s') => if out s' then build 1 s'.removeOut else (.raised, s')

/-- **C88**: if the first build of the dev server comes to an end then everything is up to date; and if this took a second attempt
then no matter what was there before and what the first attempt has left. -/
theorem C88_dev {p : Project} {t : Tool C} {content : String → Sig → C} (hout : ∀ o, p.owner o ≠ none → startsWith o "out/" = true)
    {out : Place C → Bool} {build : Nat → Place C → Call × Place C}
    (hb : ∀ i s s', build i s = (.finished, s') → Runs p t content s.files s.graphs s.mode .dev s'.files s'.graphs s'.mode)
    {s s' : Place C} (hs : (∃ m, Session p t content m s.files s.graphs s.mode) ∨ (build 0 s).1 ≠ .finished)
    (h : devBuild out build s = (.finished, s')) : Session p t content .dev s'.files s'.graphs s'.mode := by
  unfold devBuild at h
  split at h
  · next s1 h1 =>
    cases h
    rcases hs with ⟨m, hs⟩ | hs
    · exact .build hs (hb 0 s s' h1)
    · rw [h1] at hs; exact absurd rfl hs
  · cases h
  · next s1 h1 =>
    split at h
    · refine .first (W := s1.removeOut.files) (fun o ho => ?_) (hb 1 _ s' h)
      simp [Place.removeOut, hout o ho]
    · cases h

end Verif.Hot
