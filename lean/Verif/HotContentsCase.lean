import Verif.HotContents
/-!
# C79: runs in which builds happen one after the other, and a concrete history

`Exec` leaves open when the builds of a run read and write.  Here every build reads and writes when it is reported as finished; such
a run is an `Exec`.  A project of three files is built, a file is changed, and it is built again; and it is built from scratch.
-/
namespace Verif.Hot
open Verif Verif.Graph

variable {C : Type}

/-- The contents when building starts. -/
noncomputable def startOf (a : Args) (out : Outcome) (ph W0 : Contents C) : Contents C :=
  open Classical in fun c => if c ∈ out.generated.keys then ph c else if Unlinked a out c then none else W0 c

/-- The contents after a build has written its outputs. -/
def put (W : Contents C) (r : BuildResult) (x : Product C) : Contents C :=
  fun c => if c ∈ r.produced then (x.outputs.find? (·.1 = c)).map (·.2) else W c

/-- What the file gives when it is built now. -/
def now (B : Builder C) (m : Mode) (f : String) (W : Contents C) : Product C := (B m f W).getD ⟨[], [], []⟩

/-- The contents after these events. -/
def replay (B : Builder C) (m : Mode) : List Event → Contents C → Contents C
  | [], W => W
  | .started _ :: l, W => replay B m l W
  | .finished f r :: l, W => replay B m l (put W r (now B m f W))

/-- The contents when the file is built. -/
def viewAt (B : Builder C) (m : Mode) (f : String) : List Event → Contents C → Contents C
  | [], W => W
  | .started _ :: l, W => viewAt B m f l W
  | .finished g r :: l, W => if g = f then W else viewAt B m f l (put W r (now B m g W))

/-- Every build succeeds and reports what it does. -/
def Truthful (B : Builder C) (m : Mode) (start : Contents C) : List Event → Contents C → Prop
  | [], _ => True
  | .started _ :: l, W => Truthful B m start l W
  | .finished f r :: l, W => (∃ x, B m f W = some x ∧ r.children = x.children ∧ (∀ o, o ∈ r.produced ++ r.reused ↔ ∃ y, (o, y) ∈ x.outputs) ∧
      ∀ o y, (o, y) ∈ x.outputs → o ∉ r.produced → start o ≠ none ∧ (startsWith o "artifacts" = true → start o = some y)) ∧ Truthful B m start l (put W r (now B m f W))

theorem Truthful.at_end {B : Builder C} {m : Mode} {start : Contents C} {f : String} {r : BuildResult} : ∀ {l : List Event} {W : Contents C},
    Truthful B m start l W → (endsOf l).Nodup → Event.finished f r ∈ l →
    ∃ x, B m f (viewAt B m f l W) = some x ∧ r.children = x.children ∧ (∀ o, o ∈ r.produced ++ r.reused ↔ ∃ y, (o, y) ∈ x.outputs) ∧
      ∀ o y, (o, y) ∈ x.outputs → o ∉ r.produced → start o ≠ none ∧ (startsWith o "artifacts" = true → start o = some y)
  | [], W, _, _, h => by cases h
  | .started g :: l, W, hh, hn, h => by
    exact Truthful.at_end (l := l) hh (by simpa [endsOf] using hn) (by simpa using h)
  | .finished g r' :: l, W, hh, hn, h => by
    have hn : g ∉ endsOf l ∧ (endsOf l).Nodup := by simpa [endsOf] using hn
    simp only [List.mem_cons, Event.finished.injEq] at h
    rcases h with ⟨rfl, rfl⟩ | h
    · simpa [viewAt] using hh.1
    · have hne : g ≠ f := fun e => hn.1 (e ▸ (mem_endsOf l f).2 ⟨r, h⟩)
      simpa [viewAt, hne] using Truthful.at_end (l := l) hh.2 hn.2 h

/-- The source of what is there after some events. -/
def From (prod : String → Product C) (log : List Event) (W0 W : Contents C) : Prop :=
  ∀ c, W c = W0 c ∨ ∃ g r, Event.finished g r ∈ log ∧ c ∈ r.produced ∧ ∃ y, (c, y) ∈ (prod g).outputs ∧ W c = some y

theorem put_produced {W : Contents C} {r : BuildResult} {x : Product C} {c : String} (h : c ∈ r.produced) (hx : ∃ y, (c, y) ∈ x.outputs) :
    ∃ y, (c, y) ∈ x.outputs ∧ put W r x c = some y := by
  obtain ⟨y, hy⟩ := hx
  have hsome : (x.outputs.find? (·.1 = c)).isSome := by
    rw [List.find?_isSome]
    exact ⟨(c, y), hy, by simp⟩
  obtain ⟨z, hz⟩ := Option.isSome_iff_exists.1 hsome
  have h1 := List.mem_of_find?_eq_some hz
  have h2 : z.1 = c := by simpa using List.find?_some hz
  refine ⟨z.2, ?_, ?_⟩
  · rw [← h2]; exact h1
  · simp [put, h, hz]

theorem now_eq {B : Builder C} {m : Mode} {f : String} {W : Contents C} {x : Product C} (h : B m f W = some x) : now B m f W = x := by
  simp [now, h]

theorem From.put {prod : String → Product C} {log : List Event} {W0 W : Contents C} (h : From prod log W0 W) {g : String} {r : BuildResult}
    (hg : Event.finished g r ∈ log) (hp : ∀ o ∈ r.produced, ∃ y, (o, y) ∈ (prod g).outputs) : From prod log W0 (put W r (prod g)) := by
  intro c
  by_cases hc : c ∈ r.produced
  · obtain ⟨y, h1, h2⟩ := put_produced (W := W) hc (hp c hc)
    exact .inr ⟨g, r, hg, hc, y, h1, h2⟩
  · have e : Hot.put W r (prod g) c = W c := by simp [Hot.put, hc]
    rw [e]
    exact h c

/-- What is seen and what is left in the end comes from the builds or was there before. -/
theorem replay_from {B : Builder C} {m : Mode} {start : Contents C} {prod : String → Product C} {log : List Event} {W0 : Contents C} :
    ∀ {l : List Event} {W : Contents C}, Truthful B m start l W → (endsOf l).Nodup → (∀ e ∈ l, e ∈ log) →
    (∀ f ∈ endsOf l, prod f = now B m f (viewAt B m f l W)) → From prod log W0 W →
    From prod log W0 (replay B m l W) ∧ ∀ f ∈ endsOf l, From prod log W0 (viewAt B m f l W)
  | [], W, _, _, _, _, h => ⟨h, by simp [endsOf]⟩
  | .started g :: l, W, hh, hn, hs, hp, h => by
    have := replay_from (l := l) (prod := prod) (log := log) (W0 := W0) (W := W) hh (by simpa [endsOf] using hn) (fun e he => hs e (by simp [he]))
      (fun f hf => by simpa [viewAt] using hp f (by simpa [endsOf] using hf)) h
    simpa [replay, viewAt, endsOf] using this
  | .finished g r :: l, W, hh, hn, hs, hp, h => by
    have hn : g ∉ endsOf l ∧ (endsOf l).Nodup := by simpa [endsOf] using hn
    have hg : prod g = now B m g W := by simpa [viewAt] using hp g (by simp [endsOf])
    obtain ⟨x, x1, x2, x3, x4⟩ := hh.1
    have hx : prod g = x := by rw [hg, now_eq x1]
    have hput : From prod log W0 (put W r (now B m g W)) := by
      rw [← hg]
      refine h.put (hs _ (by simp)) fun o ho => ?_
      rw [hx]
      exact (x3 o).1 (by simp [ho])
    have hne : ∀ f ∈ endsOf l, g ≠ f := fun f hf e => hn.1 (e ▸ hf)
    have := replay_from (l := l) (prod := prod) (log := log) (W0 := W0) hh.2 hn.2 (fun e he => hs e (by simp [he]))
      (fun f hf => by simpa [viewAt, hne f hf] using hp f (show f ∈ g :: endsOf l from .tail _ hf)) hput
    refine ⟨this.1, fun f hf => ?_⟩
    rcases List.mem_cons.1 (by simpa [endsOf] using hf : f ∈ g :: endsOf l) with rfl | hf
    · simpa [viewAt] using h
    · simpa [viewAt, hne f hf] using this.2 f hf

/-- A file which is produced ends up with the contents some build has given it. -/
theorem replay_written {B : Builder C} {m : Mode} {start : Contents C} {prod : String → Product C} {log : List Event} {c : String} :
    ∀ {l : List Event} {W : Contents C}, Truthful B m start l W → (endsOf l).Nodup → (∀ e ∈ l, e ∈ log) →
    (∀ f ∈ endsOf l, prod f = now B m f (viewAt B m f l W)) →
    ((∃ g r, Event.finished g r ∈ log ∧ c ∈ r.produced ∧ ∃ y, (c, y) ∈ (prod g).outputs ∧ W c = some y) ∨ ∃ g r, Event.finished g r ∈ l ∧ c ∈ r.produced) →
    ∃ g r, Event.finished g r ∈ log ∧ c ∈ r.produced ∧ ∃ y, (c, y) ∈ (prod g).outputs ∧ replay B m l W c = some y
  | [], W, _, _, _, _, h => by simpa [replay] using h
  | .started g :: l, W, hh, hn, hs, hp, h => by
    exact replay_written (l := l) (log := log) hh (by simpa [endsOf] using hn) (fun e he => hs e (by simp [he]))
      (fun f hf => by simpa [viewAt] using hp f (by simpa [endsOf] using hf)) (by simpa using h)
  | .finished g r :: l, W, hh, hn, hs, hp, h => by
    have hn : g ∉ endsOf l ∧ (endsOf l).Nodup := by simpa [endsOf] using hn
    have hg : prod g = now B m g W := by simpa [viewAt] using hp g (by simp [endsOf])
    obtain ⟨x, x1, x2, x3, x4⟩ := hh.1
    have hx : prod g = x := by rw [hg, now_eq x1]
    have hne : ∀ f ∈ endsOf l, g ≠ f := fun f hf e => hn.1 (e ▸ hf)
    refine replay_written (l := l) (log := log) hh.2 hn.2 (fun e he => hs e (by simp [he]))
      (fun f hf => by simpa [viewAt, hne f hf] using hp f (show f ∈ g :: endsOf l from .tail _ hf)) ?_
    by_cases hc : c ∈ r.produced
    · left
      obtain ⟨y, h1, h2⟩ := put_produced (W := W) (x := prod g) hc (by rw [hx]; exact (x3 c).1 (by simp [hc]))
      exact ⟨g, r, hs _ (by simp), hc, y, h1, by rw [← hg]; exact h2⟩
    · have e : put W r (now B m g W) c = W c := by simp [put, hc]
      rw [e]
      rcases h with h | ⟨g', r', h1, h2⟩
      · exact .inl h
      · right
        simp only [List.mem_cons, Event.finished.injEq] at h1
        rcases h1 with ⟨rfl, rfl⟩ | h1
        · exact absurd h2 hc
        · exact ⟨g', r', h1, h2⟩

theorem replay_kept {B : Builder C} {m : Mode} {c : String} :
    ∀ {l : List Event} {W : Contents C}, (¬ ∃ g r, Event.finished g r ∈ l ∧ c ∈ r.produced) → replay B m l W c = W c
  | [], W, _ => rfl
  | .started g :: l, W, h => replay_kept (l := l) (by simpa using h)
  | .finished g r :: l, W, h => by
    have h1 : c ∉ r.produced := fun hh => h ⟨g, r, by simp, hh⟩
    have h2 : ¬ ∃ g r, Event.finished g r ∈ l ∧ c ∈ r.produced := fun ⟨g', r', q1, q2⟩ => h ⟨g', r', by simp [q1], q2⟩
    show replay B m l _ c = _
    rw [replay_kept h2]
    simp [put, h1]

/-- The contents in the end, if every build happens when it is reported as finished. -/
noncomputable def contentsAfter (B : Builder C) (a : Args) (out : Outcome) (ph W0 : Contents C) : Contents C :=
  fun c => if c ∈ out.disk.files then replay B a.mode out.log (startOf a out ph W0) c else none

/-- Such a run is an `Exec`. -/
noncomputable def Exec.ofLog {B : Builder C} {a : Args} {out : Outcome} {ph W0 : Contents C} (hn : (endsOf out.log).Nodup)
    (hph : ∀ c ∈ out.generated.keys, ph c ≠ none) (hh : Truthful B a.mode (startOf a out ph W0) out.log (startOf a out ph W0)) :
    Exec B a out ph W0 (contentsAfter B a out ph W0) where
  view f := viewAt B a.mode f out.log (startOf a out ph W0)
  prod f := now B a.mode f (viewAt B a.mode f out.log (startOf a out ph W0))
  start := startOf a out ph W0
  start_generated c hc := ⟨by simp [startOf, hc], hph c hc⟩
  start_unlinked c hc hu := by simp [startOf, hc, hu]
  start_kept c hc hu := by simp [startOf, hc, hu]
  ran f r hr := by
    obtain ⟨x, x1, x2, x3, -⟩ := hh.at_end hn hr
    rw [now_eq x1]
    exact ⟨x1, x2, x3⟩
  reused f r hr o y hy hp := by
    obtain ⟨x, x1, -, -, x4⟩ := hh.at_end hn hr
    rw [now_eq x1] at hy
    exact x4 o y hy hp
  sees f r hr c := by
    exact (replay_from (log := out.log) (W0 := startOf a out ph W0) hh hn (fun _ h => h) (fun f _ => rfl) (fun c => .inl rfl)).2 f
      ((mem_endsOf _ _).2 ⟨r, hr⟩) c
  missing c hc := by simp [contentsAfter, hc]
  written c hc hw := by
    simp only [contentsAfter, hc, if_true]
    exact replay_written hh hn (fun _ h => h) (fun f _ => rfl) (.inr hw)
  kept c hc hw := by
    simp only [contentsAfter, hc, if_true]
    exact replay_kept hw

/-! ## A project -/

namespace Triple

/-- Three sources: `src/b` is built from itself and the output of `src/a`; `src/c` are the constants. -/
def build : Builder Nat := fun m f W =>
  if f = "src/a" then (W "src/a").map fun x => ⟨[], [], [("out/a", x)]⟩
  else if f = "src/b" then (W "src/b").bind fun x => (W "out/a").map fun y => ⟨["out/a"], ["out/a"], [("out/b", x + y)]⟩
  else if f = "src/c" then (W "src/c").map fun x => ⟨[], [], [("out/c", x + if m = .dev then 0 else 1)]⟩
  else none

def project : Project where
  src f := f ∈ ["src/a", "src/b", "src/c"]
  owner o := if o = "out/a" then some "src/a" else if o = "out/b" then some "src/b" else if o = "out/c" then some "src/c" else none
  constants := "src/c"

theorem owner_iff (o f : String) : project.owner o = some f ↔ (o = "out/a" ∧ f = "src/a") ∨ (o = "out/b" ∧ f = "src/b") ∨ (o = "out/c" ∧ f = "src/c") := by
  unfold project
  dsimp only
  split
  · next h => subst h; simp [eq_comm]
  · split
    · next h => subst h; simp [eq_comm]
    · split
      · next h => subst h; simp [eq_comm]
      · simp_all

theorem lawful : project.Lawful where
  owner o f h := by
    rcases (owner_iff o f).1 h with ⟨rfl, rfl⟩ | ⟨rfl, rfl⟩ | ⟨rfl, rfl⟩ <;> exact ⟨by simp [project], by decide⟩
  src f h := by
    simp only [project, List.mem_cons, List.not_mem_nil, or_false] at h
    rcases h with rfl | rfl | rfl <;> decide

theorem build_cases {m : Mode} {f : String} {W : Contents Nat} {x : Product Nat} (h : build m f W = some x) :
    (f = "src/a" ∧ ∃ v, W "src/a" = some v ∧ x = ⟨[], [], [("out/a", v)]⟩) ∨
    (f = "src/b" ∧ ∃ v w, W "src/b" = some v ∧ W "out/a" = some w ∧ x = ⟨["out/a"], ["out/a"], [("out/b", v + w)]⟩) ∨
    (f = "src/c" ∧ ∃ v, W "src/c" = some v ∧ x = ⟨[], [], [("out/c", v + if m = .dev then 0 else 1)]⟩) := by
  unfold build at h
  split at h
  · next hf =>
    left
    obtain ⟨v, h1, h2⟩ := Option.map_eq_some_iff.1 h
    exact ⟨hf, v, h1, h2.symm⟩
  · split at h
    · next hf =>
      right; left
      obtain ⟨v, h1, h2⟩ := Option.bind_eq_some_iff.1 h
      obtain ⟨w, h3, h4⟩ := Option.map_eq_some_iff.1 h2
      exact ⟨hf, v, w, h1, h3, h4.symm⟩
    · split at h
      · next hf =>
        right; right
        obtain ⟨v, h1, h2⟩ := Option.map_eq_some_iff.1 h
        exact ⟨hf, v, h1, h2.symm⟩
      · cases h

theorem pure : Pure project build where
  owned h ho := by
    rcases build_cases h with ⟨rfl, v, -, rfl⟩ | ⟨rfl, v, w, -, -, rfl⟩ | ⟨rfl, v, -, rfl⟩ <;>
      (simp only [List.mem_singleton, Prod.mk.injEq] at ho; rw [owner_iff]; simp [ho.1])
  once h h1 h2 := by
    rcases build_cases h with ⟨rfl, v, -, rfl⟩ | ⟨rfl, v, w, -, -, rfl⟩ | ⟨rfl, v, -, rfl⟩ <;>
      (simp only [List.mem_singleton, Prod.mk.injEq] at h1 h2; rw [h1.2, h2.2])
  strict h hc _ := by
    rcases build_cases h with ⟨rfl, v, -, rfl⟩ | ⟨rfl, v, w, -, hw, rfl⟩ | ⟨rfl, v, -, rfl⟩
    · simp at hc
    · simp only [List.mem_singleton] at hc; subst hc; simp [hw]
    · simp at hc
  plain h hc _ _ := by
    rcases build_cases h with ⟨rfl, v, -, rfl⟩ | ⟨rfl, v, w, -, hw, rfl⟩ | ⟨rfl, v, -, rfl⟩
    · simp at hc
    · simp only [List.mem_singleton] at hc; subst hc; decide
    · simp at hc
  reads h hs hr := by
    rcases build_cases h with ⟨rfl, v, hv, rfl⟩ | ⟨rfl, v, w, hv, hw, rfl⟩ | ⟨rfl, v, hv, rfl⟩
    · simp [build, hs, hv]
    · have := hr "out/a" (by simp) (by decide)
      simp [build, hs, hv, this, hw]
    · simp [build, hs, hv]
  covers h _ hc _ := by
    rcases build_cases h with ⟨rfl, v, -, rfl⟩ | ⟨rfl, v, w, -, hw, rfl⟩ | ⟨rfl, v, -, rfl⟩
    · simp at hc
    · exact ⟨_, hc, rfl⟩
    · simp at hc
  mode {m m' f W} h := by
    have : f ≠ "src/c" := h
    simp [build, this]

def env (batches : List Batch) : Env where
  scan := fun _ f => if f = "src/a" then .ok ⟨[], ["out/a"], []⟩ else if f = "src/b" then .ok ⟨["out/a"], ["out/b"], []⟩ else .ok ⟨[], ["out/c"], []⟩
  sig := fun _ => sig0
  order := id
  batches := batches
  scanFuel := 4

def wait (f : String) (r : BuildResult) : Batch := fun g => if g = f then some (.ok r) else none

/-- The builds of the three sources finish in this order. -/
def batches : List Batch := [wait "src/a" ⟨[], ["out/a"], []⟩, wait "src/c" ⟨[], ["out/c"], []⟩, wait "src/b" ⟨["out/a"], ["out/b"], []⟩]

/-- The project before it is built. -/
def fresh : Disk := ⟨["src/a", "src/b", "src/c"], ["out"], none⟩
def all : Args := ⟨"src/c", .dev, ⟨[], [], []⟩, [], [("src/a", sig0), ("src/b", sig0), ("src/c", sig0)], []⟩

/-- The contents of the sources, if `src/a` contains this. -/
def sources (n : Nat) : Contents Nat := fun c => if c = "src/a" then some n else if c = "src/b" then some 10 else if c = "src/c" then some 100 else none

def run1 : Outcome := hotRebuild (env batches) all fresh
def graphs1 : Graphs := run1.stored.getD ⟨[], [], []⟩
/-- `src/a` has been changed. -/
def edit : Args := ⟨"src/c", .dev, graphs1, [("src/a", sig1)], [], []⟩
def run2 : Outcome := hotRebuild (env batches) edit run1.disk

theorem runs : run1.status = .finished ∧ run1.disk.files = ["src/a", "src/b", "src/c", "out/a", "out/c", "out/b"] ∧
    run1.log = [.started "src/a", .started "src/c", .finished "src/a" ⟨[], ["out/a"], []⟩, .started "src/b",
      .finished "src/c" ⟨[], ["out/c"], []⟩, .finished "src/b" ⟨["out/a"], ["out/b"], []⟩] ∧
    run1.stored.isSome ∧ run1.generated = [] ∧
    run1.scanned = [("src/a", ⟨[], ["out/a"], []⟩), ("src/b", ⟨["out/a"], ["out/b"], []⟩), ("src/c", ⟨[], ["out/c"], []⟩)] := by
  decide +kernel

theorem runs2 : run2.status = .finished ∧ run2.disk.files = ["src/a", "src/b", "src/c", "out/c", "out/a", "out/b"] ∧
    run2.log = [.started "src/a", .finished "src/a" ⟨[], ["out/a"], []⟩, .started "src/b",
      .finished "src/b" ⟨["out/a"], ["out/b"], []⟩] ∧
    run2.stored.isSome ∧ run2.generated = [] ∧ run2.scanned = [("src/a", ⟨[], ["out/a"], []⟩)] := by
  decide +kernel

theorem order : ValidOrder (env batches) := fun _ => List.Perm.refl _

/-! ### The first build -/

theorem truthful1 {s : Contents Nat} {n : Nat} (h1 : s "src/a" = some n) (h2 : s "src/b" = some 10) (h3 : s "src/c" = some 100) :
    Truthful build .dev s run1.log s := by
  rw [runs.2.2.1]
  refine ⟨⟨⟨[], [], [("out/a", n)]⟩, by simp [build, h1], rfl, by simp, by simp⟩, ⟨⟨[], [], [("out/c", 100)]⟩, by simp [build, put, h3], rfl, by simp, by simp⟩,
    ⟨⟨["out/a"], ["out/a"], [("out/b", 10 + n)]⟩, by simp [build, put, now, h1, h2], rfl, by simp, by simp⟩, trivial⟩

theorem start1 (n : Nat) : startOf all run1 (fun _ => none) (sources n) = sources n := by
  funext c
  have hu : ¬ Unlinked all run1 c := by
    rintro ⟨⟨x, -, cs, h, -⟩, -⟩
    simp [all, getChildren, Dict.get?] at h
  simp [startOf, runs.2.2.2.2.1, Dict.keys, hu]

/-- The contents after the first build, if `src/a` contains this. -/
noncomputable def W1 (n : Nat) : Contents Nat := contentsAfter build all run1 (fun _ => none) (sources n)

theorem W1_eq (n : Nat) : W1 n = fun c => if c = "out/a" then some n else if c = "out/b" then some (10 + n) else if c = "out/c" then some 100
    else sources n c := by
  funext c
  unfold W1 contentsAfter
  rw [start1, runs.2.2.1, runs.2.1]
  by_cases h1 : c = "out/a"
  · subst h1; simp [replay, put, now, build, sources]
  · by_cases h2 : c = "out/b"
    · subst h2; simp [replay, put, now, build, sources]
    · by_cases h3 : c = "out/c"
      · subst h3; simp [replay, put, now, build, sources, all]
      · simp only [h1, h2, h3, if_false]
        by_cases h4 : c ∈ ["src/a", "src/b", "src/c", "out/a", "out/c", "out/b"]
        · rw [if_pos h4]
          simp [replay, put, h1, h2, h3]
        · rw [if_neg h4]
          simp only [List.mem_cons, List.not_mem_nil, or_false, not_or] at h4
          simp [sources, h4]

theorem hist1 (n : Nat) : History project build .dev (W1 n) graphs1 run1.disk.mode := by
  refine History.rebuild (m0 := .dev) (W := fun _ => none) (env := env batches) (a := all) (d := fresh) (W0 := sources n) (ph := fun _ => none)
    (.empty _ _ fun _ _ => rfl) order rfl ?_ ?_ (Exec.ofLog ?_ ?_ ?_) runs.1
  · refine ⟨fun f => ?_, fun o ho => ?_, fun f h1 h2 h3 => ?_, ?_, ?_, ?_, ?_, ?_⟩
    · simp only [sources, fresh, List.mem_cons, List.not_mem_nil, or_false]
      by_cases h1 : f = "src/a" <;> by_cases h2 : f = "src/b" <;> by_cases h3 : f = "src/c" <;> simp [h1, h2, h3]
    · cases hf : project.owner o with
      | none => exact absurd hf ho
      | some f => rcases (owner_iff o f).1 hf with ⟨rfl, rfl⟩ | ⟨rfl, rfl⟩ | ⟨rfl, rfl⟩ <;> simp [sources]
    · intro _
      simp only [project, List.mem_cons, List.not_mem_nil, or_false] at h1
      simp [all, Dict.keys] at h3
      simp_all
    · simp [all, Dict.keys]
    · simp [all, Dict.keys, fresh, project]
    · intro f _ h _; simpa [all, Dict.keys, fresh] using h
    · simp [all, contains, Dict.has]
    · simp [all]
  · refine ⟨?_, ?_, by simp [project]⟩
    · show ∀ x ∈ run1.scanned, _
      rw [runs.2.2.2.2.2]
      simp [project]
    · show ∀ x ∈ run1.generated.keys, _
      rw [runs.2.2.2.2.1]
      simp [Dict.keys]
  · show (endsOf run1.log).Nodup
    rw [runs.2.2.1]; decide
  · show ∀ x ∈ run1.generated.keys, _
    rw [runs.2.2.2.2.1]
    simp [Dict.keys]
  · show Truthful build .dev (startOf all run1 _ _) run1.log (startOf all run1 _ _)
    rw [start1]
    exact truthful1 (n := n) (by simp [sources]) (by simp [sources]) (by simp [sources])

/-! ### The second build, after a change of one file -/

/-- The contents after `src/a` has been changed from 1 to 2. -/
noncomputable def W1' : Contents Nat := fun c => if c = "src/a" then some 2 else W1 1 c

/-- The contents after the second build. -/
noncomputable def W2 : Contents Nat := contentsAfter build edit run2 (fun _ => none) W1'

theorem facts2 : ∃ gs, Facts (env batches) edit run1.disk run2 gs := by
  obtain ⟨gs, h⟩ := Option.isSome_iff_exists.1 runs2.2.2.2.1
  exact ⟨gs, facts ((hist1 1).upToDate lawful pure).2.1 order h⟩

theorem unlinked2 {c : String} (h : Unlinked edit run2 c) : c = "out/a" ∨ c = "out/b" := by
  obtain ⟨gs, F⟩ := facts2
  obtain ⟨⟨x, h1, h2⟩, -⟩ := h
  obtain ⟨r, hr⟩ := (F.ends x).2 ⟨by simp [edit], h1⟩
  have ho := UpToDate.owned pure ((hist1 1).upToDate lawful pure).1 h2
  rw [runs2.2.2.1] at hr
  simp only [List.mem_cons, reduceCtorEq, Event.finished.injEq, List.not_mem_nil, or_false, false_or] at hr
  rcases (owner_iff c x).1 ho with ⟨rfl, rfl⟩ | ⟨rfl, rfl⟩ | ⟨rfl, rfl⟩
  · exact .inl rfl
  · exact .inr rfl
  · simp at hr

theorem start2 {c : String} (h1 : c ≠ "out/a") (h2 : c ≠ "out/b") : startOf edit run2 (fun _ => none) W1' c = W1' c := by
  have hu : ¬ Unlinked edit run2 c := fun h => (unlinked2 h).elim h1 h2
  simp [startOf, runs2.2.2.2.2.1, Dict.keys, hu]

theorem truthful2 {s : Contents Nat} {n : Nat} (h1 : s "src/a" = some n) (h2 : s "src/b" = some 10) :
    Truthful build .dev s run2.log s := by
  rw [runs2.2.2.1]
  exact ⟨⟨⟨[], [], [("out/a", n)]⟩, by simp [build, h1], rfl, by simp, by simp⟩, ⟨⟨["out/a"], ["out/a"], [("out/b", 10 + n)]⟩, by simp [build, put, now, h1, h2], rfl, by simp, by simp⟩, trivial⟩

theorem W1'_eq : W1' = fun c => if c = "src/a" then some 2 else if c = "out/a" then some 1 else if c = "out/b" then some 11 else
    if c = "out/c" then some 100 else sources 1 c := by
  funext c
  unfold W1'
  rw [W1_eq]

theorem hist2 : ∃ gs, History project build .dev W2 gs run2.disk.mode := by
  refine ⟨_, History.rebuild (m0 := .dev) (W := W1 1) (env := env batches) (a := edit) (d := run1.disk) (W0 := W1') (ph := fun _ => none)
    (hist1 1) order rfl ?_ ?_ (Exec.ofLog ?_ ?_ ?_) runs2.1⟩
  · have hrec : ∀ f, contains edit.old.dep f = true ↔ f ∈ ["src/a", "src/b", "src/c"] := by
      intro f
      rw [show edit.old = graphs1 from rfl, ((hist1 1).upToDate lawful pure).1.files f, W1_eq]
      simp only [project]
      constructor
      · exact fun h => h.1
      · intro h
        refine ⟨h, ?_⟩
        simp only [List.mem_cons, List.not_mem_nil, or_false] at h
        rcases h with rfl | rfl | rfl <;> simp [sources]
    refine ⟨fun f => ?_, fun o ho => ?_, fun f h1 h2 h3 => ?_, ?_, ?_, ?_, ?_, ?_⟩
    · rw [W1'_eq, runs.2.1]
      simp only [sources, List.mem_cons, List.not_mem_nil, or_false]
      by_cases h1 : f = "src/a"
      · simp [h1]
      by_cases h2 : f = "src/b"
      · simp [h2]
      by_cases h3 : f = "src/c"
      · simp [h3]
      by_cases h4 : f = "out/a"
      · simp [h4]
      by_cases h5 : f = "out/b"
      · simp [h5]
      by_cases h6 : f = "out/c"
      · simp [h6]
      simp [*]
    · cases hf : project.owner o with
      | none => exact absurd hf ho
      | some f => rcases (owner_iff o f).1 hf with ⟨rfl, rfl⟩ | ⟨rfl, rfl⟩ | ⟨rfl, rfl⟩ <;> simp [W1']
    · intro _
      simp [edit, Dict.keys] at h2
      simp [W1', h2]
    · rw [runs.2.1]; simp [edit, Dict.keys, project]
    · simp [edit, Dict.keys]
    · intro f h1 h2 h3
      have := (hrec f).2 h1
      rw [h3] at this
      cases this
    · intro f h1 h2
      rw [runs.2.1]
      have := (hrec f).1 h1
      simp only [List.mem_cons, List.not_mem_nil, or_false] at this
      rcases this with rfl | rfl | rfl <;> simp
    · simp [edit]
  · refine ⟨?_, ?_, by simp [project]⟩
    · show ∀ x ∈ run2.scanned, _
      rw [runs2.2.2.2.2.2]
      simp [project]
    · show ∀ x ∈ run2.generated.keys, _
      rw [runs2.2.2.2.2.1]
      simp [Dict.keys]
  · show (endsOf run2.log).Nodup
    rw [runs2.2.2.1]; decide
  · show ∀ x ∈ run2.generated.keys, _
    rw [runs2.2.2.2.2.1]
    simp [Dict.keys]
  · show Truthful build .dev (startOf edit run2 _ _) run2.log (startOf edit run2 _ _)
    refine truthful2 (n := 2) ?_ ?_
    · rw [start2 (by decide) (by decide), W1'_eq]; simp
    · rw [start2 (by decide) (by decide), W1'_eq]; simp [sources]

/-- The hypotheses of C79 are met by a project which is built, changed and built again, and by one which is built from scratch; the
output of `src/b` was 11, and is 12 in both. -/
theorem C79_case : (∃ gs, History project build .dev W2 gs run2.disk.mode) ∧ History project build .dev (W1 2) graphs1 run1.disk.mode ∧
    (∀ f, project.src f → W2 f = W1 2 f) ∧ W1 1 "out/b" = some 11 ∧ W1 2 "out/b" = some 12 ∧ W2 "out/b" = some 12 := by
  have hs : ∀ f, project.src f → W2 f = W1 2 f := by
    intro f hf
    simp only [project, List.mem_cons, List.not_mem_nil, or_false] at hf
    rw [W1_eq]
    unfold W2 contentsAfter
    rw [runs2.2.1, runs2.2.2.1]
    rcases hf with rfl | rfl | rfl <;>
      simp only [replay, put] <;> simp [start2] <;> simp [W1'_eq, sources]
  refine ⟨hist2, hist1 2, hs, by rw [W1_eq]; simp, by rw [W1_eq]; simp, ?_⟩
  obtain ⟨gs, h⟩ := hist2
  rw [C79_incremental_as_clean_partial lawful pure h (hist1 2) hs "out/b" (by simp [project]), W1_eq]
  simp

/-! ### After a failed rebuild -/

def envF (batches : List Batch) (outs : List String) : Env where
  scan := fun _ f => if f = "src/a" then .ok ⟨[], outs, []⟩ else .ok ⟨["src/a"], ["out/b"], []⟩
  sig := fun _ => sig0
  order := id
  batches := batches
  scanFuel := 4

def failing : Batch := fun g => if g = "src/b" then some (.error .buildFailed) else none

def freshF : Disk := ⟨["src/a", "src/b"], ["out"], none⟩
def allF : Args := ⟨"src/c", .dev, ⟨[], [], []⟩, [], [("src/a", sig0), ("src/b", sig0)], []⟩

/-- C79 fails if a rebuild fails.  `src/a` is built and makes two files, and the build of `src/b` fails.  Then `src/a` is changed, so that
it makes only one of them.  The next rebuild finishes, and the other file is still there; no graph records it, so that no later rebuild
removes it.  A build from scratch does not make it. -/
theorem C79_false_after_failure :
    let r1 := hotRebuild (envF [wait "src/a" ⟨[], ["out/a", "out/old"], []⟩, failing] ["out/a", "out/old"]) allF freshF
    let good := [wait "src/a" ⟨[], ["out/a"], []⟩, wait "src/b" ⟨["src/a"], ["out/b"], []⟩]
    let r2 := hotRebuild (envF good ["out/a"]) allF r1.disk
    let r3 := hotRebuild (envF good ["out/a"]) allF freshF
    r1.status = .failed .buildFailed ∧ r2.status = .finished ∧ r3.status = .finished ∧
    "out/old" ∈ r2.disk.files ∧ r2.stored.map (fun g => contains g.out "out/old") = some false ∧
    "out/old" ∉ r3.disk.files ∧ r3.stored.isSome := by
  decide +kernel

end Triple

end Verif.Hot
