import Verif.Course
/-!
# C91: signatures and time

That the signature of a file tells its contents was assumed of sessions (C88).  Here it is derived: files are written, removed and moved
in any order, and each write stamps the file with a time which is later than that of all earlier writes to the same inode.
build/file_signature.py:34-54 takes mtime, size and inode of a file.
-/
namespace Verif.Hot
open Verif Verif.Graph Verif.Cold

variable {C : Type}

/-! ## Specification -/

/-- A file in the file system: what `os.lstat` tells of it, and its contents. -/
structure Entry (C : Type) where
  data : C
  time : Rat
  inode : Int

/-- A write: to which inode, when and what. -/
structure Wrote (C : Type) where
  inode : Int
  time : Rat
  data : C

/-- The sources, and everything that has ever been written. -/
structure Store (C : Type) where
  files : String → Option (Entry C)
  writes : List (Wrote C)

/-- Set one file. -/
def setFile (F : String → Option (Entry C)) (f : String) (e : Option (Entry C)) : String → Option (Entry C) := fun g => if g = f then e else F g

/-- What may be done to the sources.  A write is to the inode which the file has, to a new one, or to one which is free again. -/
inductive Touch (s : Store C) : Store C → Prop
  | write (f : String) (c : C) (i : Int) (time : Rat) (later : ∀ w ∈ s.writes, w.inode = i → w.time < time) :
      Touch s ⟨setFile s.files f (some ⟨c, time, i⟩), ⟨i, time, c⟩ :: s.writes⟩
  | remove (f : String) : Touch s ⟨setFile s.files f none, s.writes⟩
  | move (f g : String) : Touch s ⟨setFile (setFile s.files g (s.files f)) f none, s.writes⟩

/-- Any number of these, one after the other. -/
inductive Touches (s : Store C) : Store C → Prop
  | none : Touches s s
  | more {s' s'' : Store C} : Touches s s' → Touch s' s'' → Touches s s''

/-- What the program sees of the sources: their contents and their signatures. -/
structure Shown (p : Project) (size : C → Int) (s : Store C) (sig : String → Sig) (W : Contents C) : Prop where
  data : ∀ f, p.src f → W f = (s.files f).map (·.data)
  sig : ∀ f e, p.src f → s.files f = some e → sig f = ⟨size e.data, e.time, e.inode⟩

/-- `Runs` of C88, where contents and signatures are those of the file system. -/
inductive TimedRuns (p : Project) (t : Tool C) (size : C → Int) (s : Store C) (W : Contents C) : Graphs → Option Mode → Mode → Contents C → Graphs → Option Mode → Prop
  | mk {W0 W' : Contents C} {env : Env} {a : Args} {d : Disk} {walk : List (String × Sig)} (order : ValidOrder env) (scans : Scanned t env)
      (constants : a.constants = p.constants)
      (disk : ∀ f, W0 f ≠ none ↔ f ∈ d.files) (outputs : ∀ o, p.owner o ≠ none → W0 o = W o)
      (shown : Shown p size s env.sig W0)
      (once : WalkOK walk) (walked : ∀ f s, (f, s) ∈ walk ↔ p.src f ∧ f ∈ d.files ∧ s = env.sig f)
      (finished : (coldRebuild env a walk d).status = .finished)
      (work : Work t (foundArgs a walk) (coldRebuild env a walk d) W0 W') :
      TimedRuns p t size s W a.old d.mode a.mode W' ((coldRebuild env a walk d).stored.getD a.old) (coldRebuild env a walk d).disk.mode

/-- Sessions as in C88, in which the sources are those of a file system. -/
inductive Life (p : Project) (t : Tool C) (size : C → Int) : Store C → Mode → Contents C → Graphs → Option Mode → Prop
  | first {s : Store C} {m : Mode} {W W' : Contents C} {gs : Graphs} {dm : Option Mode} : Touches ⟨fun _ => none, []⟩ s → (∀ o, p.owner o ≠ none → W o = none) →
      TimedRuns p t size s W ⟨[], [], []⟩ none m W' gs dm → Life p t size s m W' gs dm
  | build {s s' : Store C} {m m' : Mode} {W W' : Contents C} {gs gs' : Graphs} {dm dm' : Option Mode} : Life p t size s m W gs dm → Touches s s' →
      TimedRuns p t size s' W gs dm m' W' gs' dm' → Life p t size s' m' W' gs' dm'
  | watch {s s' : Store C} {m : Mode} {W W0 W' : Contents C} {env : Env} {a : Args} {d : Disk} {es : List Dev.Ev} : Life p t size s m W a.old d.mode → Touches s s' →
      Happened p W es W0 → Given env.sig (es.foldl (fun x e => Dev.onEvent e x) ⟨[], [], []⟩) a → ValidOrder env → Scanned t env →
      a.constants = p.constants → (∀ f, W0 f ≠ none ↔ f ∈ d.files) → Shown p size s' env.sig W0 →
      (hotRebuild env a d).status = .finished → Work t a (hotRebuild env a d) W0 W' →
      Life p t size s' a.mode W' ((hotRebuild env a d).stored.getD a.old) (hotRebuild env a d).disk.mode

/-! ## Inode and time tell the contents -/

/-- Every file has been written, and no inode twice at the same time. -/
structure Store.Good (s : Store C) : Prop where
  known : ∀ f e, s.files f = some e → (⟨e.inode, e.time, e.data⟩ : Wrote C) ∈ s.writes
  once : ∀ w ∈ s.writes, ∀ w' ∈ s.writes, w.inode = w'.inode → w.time = w'.time → w.data = w'.data

theorem Touch.good {s s' : Store C} (h : Touch s s') (g : s.Good) : s'.Good := by
  cases h with
  | write f c i time later =>
    refine ⟨fun k e hk => ?_, fun w hw w' hw' h1 h2 => ?_⟩
    · simp only [setFile] at hk
      split at hk
      · cases hk; exact .head _
      · exact .tail _ (g.known k e hk)
    · rcases List.mem_cons.1 hw with rfl | hw <;> rcases List.mem_cons.1 hw' with rfl | hw'
      · rfl
      · have := later w' hw' h1.symm
        rw [← h2] at this
        exact absurd this (Rat.lt_irrefl)
      · have := later w hw h1
        rw [h2] at this
        exact absurd this (Rat.lt_irrefl)
      · exact g.once w hw w' hw' h1 h2
  | remove f =>
    refine ⟨fun k e hk => ?_, g.once⟩
    simp only [setFile] at hk
    split at hk
    · cases hk
    · exact g.known k e hk
  | move f f' =>
    refine ⟨fun k e hk => ?_, g.once⟩
    simp only [setFile] at hk
    split at hk
    · cases hk
    · split at hk
      · exact g.known f e hk
      · exact g.known k e hk

theorem Touch.writes {s s' : Store C} (h : Touch s s') : ∀ w ∈ s.writes, w ∈ s'.writes := by
  cases h with
  | write => exact fun w hw => .tail _ hw
  | remove => exact fun w hw => hw
  | move => exact fun w hw => hw

theorem Touches.good {s s' : Store C} (h : Touches s s') (g : s.Good) : s'.Good := by
  induction h with
  | none => exact g
  | more _ h ih => exact h.good ih

theorem Touches.writes {s s' : Store C} (h : Touches s s') : ∀ w ∈ s.writes, w ∈ s'.writes := by
  induction h with
  | none => exact fun w hw => hw
  | more _ h ih => exact fun w hw => h.writes w (ih w hw)

theorem empty_good : (⟨fun _ => none, []⟩ : Store C).Good := ⟨fun _ _ h => (by cases h), fun _ h => (by cases h)⟩

/-- `content` is right about everything that was written. -/
def Right (content : String → Sig → C) (s : Store C) : Prop := ∀ w ∈ s.writes, ∀ f n, content f ⟨n, w.time, w.inode⟩ = w.data

theorem Store.Good.right [Inhabited C] {s : Store C} (g : s.Good) : ∃ content, Right content s := by
  classical
  refine ⟨fun _ x => ((s.writes.find? fun w => decide (w.inode = x.inode ∧ w.time = x.mtime)).map (·.data)).getD default, fun w hw f n => ?_⟩
  dsimp only
  cases h : s.writes.find? fun w' => decide (w'.inode = w.inode ∧ w'.time = w.time) with
  | none =>
    rw [List.find?_eq_none] at h
    exact absurd (decide_eq_true (p := w.inode = w.inode ∧ w.time = w.time) ⟨rfl, rfl⟩) (h w hw)
  | some w' =>
    have h1 := List.find?_some h
    have h2 := List.mem_of_find?_eq_some h
    rw [decide_eq_true_eq] at h1
    exact g.once w' h2 w hw h1.1 h1.2

theorem Shown.signed {p : Project} {size : C → Int} {s : Store C} {sig : String → Sig} {W : Contents C} (h : Shown p size s sig W) (g : s.Good)
    {content : String → Sig → C} (hc : Right content s) : Signed p content sig W := by
  intro f y hf hy
  rw [h.data f hf] at hy
  obtain ⟨e, he, rfl⟩ := Option.map_eq_some_iff.1 hy
  rw [h.sig f e hf he]
  exact (hc _ (g.known f e he) f _).symm

theorem TimedRuns.runs {p : Project} {t : Tool C} {size : C → Int} {s : Store C} {W W' : Contents C} {gs gs' : Graphs} {dm dm' : Option Mode} {m : Mode}
    (h : TimedRuns p t size s W gs dm m W' gs' dm') (g : s.Good) {content : String → Sig → C} (hc : Right content s) : Runs p t content W gs dm m W' gs' dm' := by
  obtain ⟨h1, h2, h3, h4, h5, h6, h7, h8, h9, h10⟩ := h
  exact .mk h1 h2 h3 h4 h5 (h6.signed g hc) h7 h8 h9 h10

theorem Life.good {p : Project} {t : Tool C} {size : C → Int} {s : Store C} {m : Mode} {W : Contents C} {gs : Graphs} {dm : Option Mode}
    (h : Life p t size s m W gs dm) : s.Good := by
  induction h with
  | first h => exact h.good empty_good
  | build _ h _ ih => exact h.good ih
  | watch _ h _ _ _ _ _ _ _ _ _ ih => exact h.good ih

/-- Such a session is one of C88. -/
theorem Life.session {p : Project} {t : Tool C} {size : C → Int} {s : Store C} {m : Mode} {W : Contents C} {gs : Graphs} {dm : Option Mode}
    (h : Life p t size s m W gs dm) {content : String → Sig → C} (hc : Right content s) : Session p t content m W gs dm := by
  induction h with
  | first h1 h2 h3 => exact .first h2 (h3.runs (h1.good empty_good) hc)
  | build l h1 h3 ih => exact .build (ih fun w hw => hc w (h1.writes w hw)) (h3.runs (h1.good l.good) hc)
  | watch l h1 h2 h3 h4 h5 h6 h7 h8 h9 h10 ih =>
    exact .watch (ih fun w hw => hc w (h1.writes w hw)) h2 h3 h4 h5 h6 h7 (h8.signed (h1.good l.good) hc) h9 h10

/-- A build leaves the sources as they are. -/
theorem TimedRuns.shown {p : Project} {t : Tool C} {content : String → Sig → C} (hp : p.Lawful) (ht : t.Lawful p) (hsrc : p.src p.constants) {size : C → Int}
    {s : Store C} {W W' : Contents C} {gs gs' : Graphs} {dm dm' : Option Mode} {m m' : Mode} (K : Tracked p t content m W gs dm [])
    (h : TimedRuns p t size s W gs dm m' W' gs' dm') (g : s.Good) (hc : Right content s) : ∀ f, p.src f → W' f = (s.files f).map (·.data) := by
  obtain ⟨ho, hs, hcon, hd, hou, hsh, honce, hwalk, hf, X⟩ := h
  rename_i W0 env a d walk
  obtain ⟨r, h0, E, k1, k2⟩ := found_edits (a := a) (env := env) K.nearly.files K.recorded hd hou (hsh.signed g hc) honce hwalk
  obtain ⟨e1, e2, e3, e4⟩ := cold_eq (env := env) (d := d) h0
  rw [e1] at hf X
  rw [← e2] at K
  intro f hfs
  rw [(K.finished' hp ht hsrc ho hs (e4.trans hcon) E (hsh.signed g hc) k1 k2 (by simp) hf X.busy).2 f hfs, hsh.data f hfs]

theorem Life.shown {p : Project} {t : Tool C} [Inhabited C] (hp : p.Lawful) (ht : t.Lawful p) (hsrc : p.src p.constants) {size : C → Int} {s : Store C} {m : Mode}
    {W : Contents C} {gs : Graphs} {dm : Option Mode} (h : Life p t size s m W gs dm) : ∀ f, p.src f → W f = (s.files f).map (·.data) := by
  cases h with
  | @first _ _ W1 _ _ _ h1 h2 h3 =>
    obtain ⟨content, hc⟩ := (h1.good empty_good).right
    obtain ⟨V0, h0, K⟩ := Tracked.empty content hp ht m h2
    have aux : ∀ {g : Graphs} {dm0 : Option Mode}, TimedRuns p t size s W1 g dm0 m W gs dm → TimedRuns p t size s V0 g dm0 m W gs dm := by
      rintro g dm0 ⟨ho, hs, hc, hd, hou, hsig, honce, hwalk, hf, X⟩
      exact .mk ho hs hc hd (fun o ho' => by rw [hou o ho', h0 o ho']) hsig honce hwalk hf X
    exact (aux h3).shown hp ht hsrc K (h1.good empty_good) hc
  | build l h1 h3 =>
    have g := h1.good l.good
    obtain ⟨content, hc⟩ := g.right
    exact h3.shown hp ht hsrc ((l.session fun w hw => hc w (h1.writes w hw)).course.known hp ht hsrc) g hc
  | @watch s0 _ m W W0 W' env a d es l h1 h2 h3 h4 h5 h6 h7 h8 h9 h10 =>
    have g := h1.good l.good
    obtain ⟨content, hc⟩ := g.right
    have K := (l.session fun w hw => hc w (h1.writes w hw)).course.known hp ht hsrc
    obtain ⟨touched, hx, q1, q2⟩ := happened_exact h2
    have E := exact_edits hp K.nearly.files hx q1 q2 h3 h7
    intro f hfs
    rw [(K.finished' hp ht hsrc h4 h5 h6 E (h8.signed g hc) (fun f s h => ((h3.changed f s).1 h).2) (fun f s h => ((h3.added f s).1 h).2) (by simp) h9 h10.busy).2 f hfs,
      h8.data f hfs]

/-! ## C91 -/

/-- **C91**: whatever has been done to the sources, after a finished build everything is up to date. -/
theorem C91_current {p : Project} {t : Tool C} [Inhabited C] (hp : p.Lawful) (ht : t.Lawful p) (hsrc : p.src p.constants) {size : C → Int} {s : Store C} {m : Mode}
    {W : Contents C} {gs : Graphs} {dm : Option Mode} (h : Life p t size s m W gs dm) : UpToDate p (t.builder p) m W gs := by
  obtain ⟨content, hc⟩ := h.good.right
  exact C88_current hp ht hsrc (h.session hc)

/-- **C91**: the outputs depend on the contents of the sources now, not on what was done to them, or on times and inodes. -/
theorem C91_same {p : Project} {t : Tool C} [Inhabited C] (hp : p.Lawful) (ht : t.Lawful p) (hsrc : p.src p.constants) {size size' : C → Int} {s s' : Store C} {m : Mode}
    {W W' : Contents C} {gs gs' : Graphs} {dm dm' : Option Mode} (h : Life p t size s m W gs dm) (h' : Life p t size' s' m W' gs' dm')
    (hs : ∀ f, p.src f → (s.files f).map (·.data) = (s'.files f).map (·.data)) : ∀ o, p.owner o ≠ none → W o = W' o := by
  obtain ⟨content, hc⟩ := h.good.right
  obtain ⟨content', hc'⟩ := h'.good.right
  refine C88_same hp ht hsrc (h.session hc) (h'.session hc') fun f hf => ?_
  rw [h.shown hp ht hsrc f hf, h'.shown hp ht hsrc f hf, hs f hf]

end Verif.Hot
