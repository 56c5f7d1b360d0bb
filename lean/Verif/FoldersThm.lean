import Verif.Folders
import Mathlib.Data.List.Induction
/-!
# Folders are made, whatever other processes do

C97: each process ends, and if none of its calls is refused the folder is there with all its parents, in any order of the steps.
-/
namespace Verif.Folders

/-! ## What is asked for -/

/-- The parent of what is there is a folder. -/
def Tree (d : Disk) : Prop := ∀ q k, d q = some k → q ≠ [] → d q.dropLast = some .dir

/-- No file is where a folder is to be. -/
structure Clear (ps : List Path) (d : Disk) : Prop where
  tree : Tree d
  root : d [] = some .dir
  free : ∀ p ∈ ps, ∀ q, q <+: p → d q ≠ some .file

/-- Others change the disk: they put no file where a folder is to be, and do not remove the folders asked for or their parents. -/
structure Harmless (ps : List Path) (d d' : Disk) : Prop where
  tree : Tree d'
  free : ∀ p ∈ ps, ∀ q, q <+: p → d' q ≠ some .file
  keeps : ∀ p ∈ ps, ∀ q, q <+: p → d q = some .dir → d' q = some .dir

/-- All changes by others are harmless when they happen. -/
def Quiet (ps : List Path) (d : Disk) (l : List Act) : Prop :=
  ∀ l1 d' l2, l = l1 ++ .other d' :: l2 → Harmless ps (run ps d l1).disk d'

/-- The number of steps of a process. -/
def steps (j : Nat) (l : List Act) : Nat := l.countP fun
  | .step i _ => i == j
  | .other _ => false

/-- The number of its calls which are refused. -/
def refusals (j : Nat) (l : List Act) : Nat := l.countP fun
  | .step i refused => i == j && refused
  | .other _ => false

def Ended (c : Pc) : Prop := c = .done ∨ ∃ e, c = .raised e

/-! ## One process -/

def cost (p : Path) : Pc → Nat
  | .stat i => (4 - i) * (3 * p.length + 1) + (3 * p.length + 1)
  | .look i k => (4 - i) * (3 * p.length + 1) + (2 * p.length + k)
  | .make i k => (4 - i) * (3 * p.length + 1) + (2 * (p.length - k) + 2)
  | .check i k _ => (4 - i) * (3 * p.length + 1) + (2 * (p.length - k) + 1)
  | .done => 0
  | .raised _ => 0

/-- What holds of a process after `r` refused calls. -/
def Good (p : Path) (d : Disk) (r : Nat) : Pc → Prop
  | .stat i => i ≤ 4 ∧ i ≤ r
  | .look i k => i ≤ 4 ∧ i ≤ r ∧ 1 ≤ k ∧ k ≤ p.length
  | .make i k => i ≤ 4 ∧ i ≤ r ∧ 1 ≤ k ∧ k ≤ p.length ∧ d (p.take (k - 1)) = some .dir
  | .check i k e => i ≤ 4 ∧ i ≤ r ∧ 1 ≤ k ∧ k ≤ p.length ∧ d (p.take (k - 1)) = some .dir ∧
      ((e = .refused ∧ i + 1 ≤ r) ∨ (e = .exists ∧ d (p.take k) = some .dir))
  | .done => d p = some .dir
  | .raised e => (e = .refused ∧ 5 ≤ r) ∨ (e = .exists ∧ 1 ≤ r)

theorem blocked_false {d : Disk} {p : Path} (h : ∀ q, q <+: p → d q ≠ some .file) {q : Path} (hq : q <+: p) : blocked d q = false := by
  unfold blocked
  rw [List.any_eq_false]
  intro k _
  simpa using h _ ((List.take_prefix k q).trans hq)

theorem good_proceed {p : Path} {d : Disk} {r i k : Nat} (hi : i ≤ 4) (hr : i ≤ r) (hk : k ≤ p.length) (hd : d (p.take k) = some .dir) :
    Good p d r (proceed p i k) := by
  unfold proceed
  split
  · next h => exact ⟨hi, hr, by omega, h, by simpa using hd⟩
  · next h =>
    have : p.take k = p := List.take_of_length_le (by omega)
    rw [this] at hd
    exact hd

theorem cost_proceed {p : Path} {i k m : Nat} (h : 2 * (p.length - k) + 1 ≤ m) : cost p (proceed p i k) < (4 - i) * (3 * p.length + 1) + m := by
  unfold proceed
  split
  · simp only [cost]; omega
  · simp only [cost]; omega

/-- A step keeps the invariant, costs something, and changes the disk only by making a folder on the way. -/
theorem next_good {p : Path} {d : Disk} {r : Nat} {c : Pc} (refused : Bool) (hp : p ≠ []) (hroot : d [] = some .dir)
    (hf : ∀ q, q <+: p → d q ≠ some .file) (hc : Good p d r c) :
    Good p (next p refused d c).1 (r + refused.toNat) (next p refused d c).2 ∧
    (Ended c → (next p refused d c) = (d, c)) ∧
    (¬ Ended c → cost p (next p refused d c).2 < cost p c) ∧
    ((next p refused d c).1 = d ∨ ∃ q, q <+: p ∧ q ≠ [] ∧ d q = none ∧ d q.dropLast = some .dir ∧ (next p refused d c).1 = set d q (some .dir)) := by
  have hn : 1 ≤ p.length := List.length_pos_iff.2 hp
  cases c with
  | stat i =>
    obtain ⟨h1, h2⟩ := hc
    cases refused with
    | true =>
      simp only [next, if_true]
      refine ⟨⟨h1, by simp; omega, hn, Nat.le_refl _⟩, ?_, fun _ => by simp only [cost]; omega, Or.inl (by trivial)⟩
      rintro (h | ⟨e, h⟩) <;> cases h
    | false =>
      have hb := blocked_false hf List.prefix_rfl
      have hs : stat d p = .ok .dir ∧ d p = some .dir ∨ stat d p = .error .missing := by
        unfold stat
        cases hd : d p with
        | none => simp [hb]
        | some k =>
          cases k with
          | dir => simp
          | file => exact absurd hd (hf p List.prefix_rfl)
      rcases hs with ⟨hs, hd⟩ | hs
      · simp only [next, hs, Bool.false_eq_true, if_false]
        refine ⟨hd, ?_, fun _ => by simp only [cost]; omega, Or.inl (by trivial)⟩
        rintro (h | ⟨e, h⟩) <;> cases h
      · simp only [next, hs, Bool.false_eq_true, if_false]
        refine ⟨⟨h1, by simp; omega, hn, Nat.le_refl _⟩, ?_, fun _ => by simp only [cost]; simp; omega, Or.inl (by trivial)⟩
        rintro (h | ⟨e, h⟩) <;> cases h
  | look i k =>
    obtain ⟨h1, h2, h3, h4⟩ := hc
    have hnot : ¬ Ended (.look i k) := by rintro (h | ⟨e, h⟩) <;> cases h
    simp only [next]
    split
    · next hk =>
      have : k = 1 := by omega
      subst this
      refine ⟨⟨h1, by omega, h3, h4, by simpa using hroot⟩, fun h => absurd h hnot, fun _ => by simp only [cost]; omega, Or.inl (by trivial)⟩
    · next hk =>
      split
      · next he =>
        have hd : d (p.take (k - 1)) = some .dir := by
          unfold pathExists at he
          simp only [Bool.and_eq_true] at he
          obtain ⟨x, hx⟩ := Option.isSome_iff_exists.1 he.2
          cases x with
          | dir => exact hx
          | file => exact absurd hx (hf _ (List.take_prefix _ _))
        exact ⟨⟨h1, by omega, h3, h4, hd⟩, fun h => absurd h hnot, fun _ => by simp only [cost]; omega, Or.inl (by trivial)⟩
      · exact ⟨⟨h1, by omega, by omega, by omega⟩, fun h => absurd h hnot, fun _ => by simp only [cost]; omega, Or.inl (by trivial)⟩
  | make i k =>
    obtain ⟨h1, h2, h3, h4, h5⟩ := hc
    have hnot : ¬ Ended (.make i k) := by rintro (h | ⟨e, h⟩) <;> cases h
    cases refused with
    | true =>
      simp only [next, if_true]
      refine ⟨⟨h1, by simp; omega, h3, h4, h5, Or.inl ⟨rfl, by simp; omega⟩⟩, fun h => absurd h hnot, fun _ => by simp only [cost]; omega, Or.inl (by trivial)⟩
    | false =>
      have hpre : p.take k <+: p := List.take_prefix _ _
      have hdl : (p.take k).dropLast = p.take (k - 1) := by
        rw [List.dropLast_eq_take, List.take_take, List.length_take]
        congr 1
        omega
      have hne : p.take k ≠ [] := by
        intro h
        have := congrArg List.length h
        simp at this
        rcases this with h | h
        · omega
        · exact hp h
      cases hd : d (p.take k) with
      | some x =>
        have hx : x = .dir := by
          cases x with
          | dir => rfl
          | file => exact absurd hd (hf _ hpre)
        subst hx
        have hm : mkdir d (p.take k) = .error .exists := by simp [mkdir, hd]
        simp only [next, hm, Bool.false_eq_true, if_false]
        exact ⟨⟨h1, by simp; omega, h3, h4, h5, Or.inr ⟨rfl, hd⟩⟩, fun h => absurd h hnot, fun _ => by simp [cost], Or.inl (by trivial)⟩
      | none =>
        have hm : mkdir d (p.take k) = .ok (set d (p.take k) (some .dir)) := by
          simp [mkdir, hd, blocked_false hf hpre, hdl, h5]
        simp only [next, hm, Bool.false_eq_true, if_false]
        refine ⟨?_, fun h => absurd h hnot, ?_, Or.inr ⟨_, hpre, hne, hd, by rw [hdl]; exact h5, rfl⟩⟩
        · exact good_proceed h1 (by simp; omega) h4 (by simp [set])
        · intro _
          exact cost_proceed (by omega)
  | check i k e =>
    obtain ⟨h1, h2, h3, h4, h5, h6⟩ := hc
    have hnot : ¬ Ended (.check i k e) := by rintro (h | ⟨e, h⟩) <;> cases h
    simp only [next]
    split
    · next hd =>
      simp only [isDir, Bool.and_eq_true, beq_iff_eq] at hd
      exact ⟨good_proceed h1 (by omega) h4 hd.2, fun h => absurd h hnot, fun _ => cost_proceed (by omega), Or.inl (by trivial)⟩
    · next hd =>
      split
      · next hk =>
        rcases h6 with ⟨h6, _⟩ | ⟨_, h6⟩
        · rw [h6] at hk; cases hk.2
        · exact ⟨⟨h1, by omega, by omega, hk.1, by simpa using h6⟩, fun h => absurd h hnot, fun _ => by simp only [cost]; omega, Or.inl (by trivial)⟩
      · next hk =>
        rcases h6 with ⟨h6, h7⟩ | ⟨h6, h7⟩
        · subst h6
          simp only [failed, if_true]
          split
          · next hi => exact ⟨Or.inl ⟨rfl, by omega⟩, fun h => absurd h hnot, fun _ => by simp only [cost]; omega, Or.inl (by trivial)⟩
          · next hi =>
            refine ⟨⟨by omega, by omega⟩, fun h => absurd h hnot, fun _ => ?_, Or.inl (by trivial)⟩
            simp only [cost]
            have : 4 - i = (4 - (i + 1)) + 1 := by omega
            rw [this, Nat.add_mul]
            omega
        · subst h6
          have hr : refused = true := by
            cases refused with
            | true => rfl
            | false => simp [isDir, h7] at hd
          subst hr
          simp only [failed, reduceCtorEq, if_false]
          exact ⟨Or.inr ⟨rfl, by simp⟩, fun h => absurd h hnot, fun _ => by simp only [cost]; omega, Or.inl (by trivial)⟩
  | done => exact ⟨hc, fun _ => rfl, fun h => absurd (Or.inl rfl) h, Or.inl (by trivial)⟩
  | raised e =>
    refine ⟨?_, fun _ => rfl, fun h => absurd (Or.inr ⟨e, rfl⟩) h, Or.inl (by trivial)⟩
    rcases hc with ⟨h1, h2⟩ | ⟨h1, h2⟩
    · exact Or.inl ⟨h1, by omega⟩
    · exact Or.inr ⟨h1, by omega⟩

/-- What others do does not hurt. -/
theorem Good.mono {p : Path} {d d' : Disk} {r : Nat} {c : Pc} (h : Good p d r c) (hk : ∀ q, q <+: p → d q = some .dir → d' q = some .dir) :
    Good p d' r c := by
  cases c with
  | stat => exact h
  | look => exact h
  | make => obtain ⟨h1, h2, h3, h4, h5⟩ := h; exact ⟨h1, h2, h3, h4, hk _ (List.take_prefix _ _) h5⟩
  | check =>
    obtain ⟨h1, h2, h3, h4, h5, h6⟩ := h
    exact ⟨h1, h2, h3, h4, hk _ (List.take_prefix _ _) h5, h6.imp id fun h => ⟨h.1, hk _ (List.take_prefix _ _) h.2⟩⟩
  | done => exact hk _ List.prefix_rfl h
  | raised => exact h

/-! ## All of them -/

/-- A new folder in a folder. -/
theorem set_harmless {ps : List Path} {d : Disk} {q : Path} (hd : Clear ps d) (hn : d q = none) (hp : d q.dropLast = some .dir) :
    Harmless ps d (set d q (some .dir)) := by
  refine ⟨?_, ?_, ?_⟩
  · intro x k hx hne
    have key : d x.dropLast = some .dir := by
      unfold set at hx
      split at hx
      · next h => rw [h]; exact hp
      · exact hd.tree x k hx hne
    unfold set
    split
    · rfl
    · exact key
  · intro p hpm x hx
    unfold set
    split
    · simp
    · exact hd.free p hpm x hx
  · intro p hpm x hx h
    unfold set
    split
    · rfl
    · exact h

theorem Harmless.clear {ps : List Path} {d d' : Disk} (hps : ps ≠ []) (hd : Clear ps d) (h : Harmless ps d d') : Clear ps d' := by
  obtain ⟨p, hp⟩ := List.exists_mem_of_ne_nil ps hps
  exact ⟨h.tree, h.keeps p hp [] List.nil_prefix hd.root, h.free⟩

theorem run_snoc (ps : List Path) (d : Disk) (l : List Act) (a : Act) : run ps d (l ++ [a]) = act ps (run ps d l) a := by
  simp [run, List.foldl_append]

theorem invariant {ps : List Path} {d : Disk} (hne : ∀ p ∈ ps, p ≠ []) (hps : ps ≠ []) (hd : Clear ps d) (l : List Act) (hl : Quiet ps d l) :
    Clear ps (run ps d l).disk ∧ (run ps d l).pcs.length = ps.length ∧
    ∀ j p c, ps[j]? = some p → (run ps d l).pcs[j]? = some c → Good p (run ps d l).disk (refusals j l) c ∧
      (Ended c ∨ cost p c + steps j l ≤ 5 * (3 * p.length + 1)) := by
  induction l using List.reverseRecOn with
  | nil =>
    refine ⟨hd, by simp [run, start], ?_⟩
    intro j p c hj hc
    simp only [run, start, List.foldl_nil, List.getElem?_map, hj, Option.map_some, Option.some.injEq] at hc
    subst hc
    exact ⟨⟨by omega, by omega⟩, Or.inr (by simp [cost, steps]; omega)⟩
  | append_singleton l a ih =>
    obtain ⟨i1, i2, i3⟩ := ih fun l1 d' l2 h => hl l1 d' (l2 ++ [a]) (by simp [h])
    rw [run_snoc]
    cases a with
    | other d' =>
      have hh := hl l d' [] rfl
      refine ⟨hh.clear hps i1, i2, ?_⟩
      intro j p c hj hc
      obtain ⟨g1, g2⟩ := i3 j p c hj hc
      refine ⟨?_, ?_⟩
      · have : refusals j (l ++ [.other d']) = refusals j l := by simp [refusals]
        rw [this]
        exact g1.mono (hh.keeps p (List.mem_of_getElem? hj))
      · have : steps j (l ++ [.other d']) = steps j l := by simp [steps]
        rw [this]
        exact g2
    | step m b =>
      cases hm : ps[m]? with
      | none =>
        have hact : act ps (run ps d l) (.step m b) = run ps d l := by simp [act, hm]
        rw [hact]
        refine ⟨i1, i2, ?_⟩
        intro j p c hj hc
        have hjm : m ≠ j := by rintro rfl; rw [hm] at hj; cases hj
        have e1 : refusals j (l ++ [.step m b]) = refusals j l := by simp [refusals, hjm]
        have e2 : steps j (l ++ [.step m b]) = steps j l := by simp [steps, hjm]
        rw [e1, e2]
        exact i3 j p c hj hc
      | some pm =>
        obtain ⟨cm, hcm⟩ : ∃ cm, (run ps d l).pcs[m]? = some cm := by
          have : m < (run ps d l).pcs.length := by
            rw [i2]
            exact (List.getElem?_eq_some_iff.1 hm).1
          exact ⟨_, List.getElem?_eq_getElem this⟩
        have hmem := List.mem_of_getElem? hm
        have hact : act ps (run ps d l) (.step m b) =
            ⟨(next pm b (run ps d l).disk cm).1, (run ps d l).pcs.set m (next pm b (run ps d l).disk cm).2⟩ := by simp [act, hm, hcm]
        obtain ⟨g1, g2⟩ := i3 m pm cm hm hcm
        obtain ⟨n1, n2, n3, n4⟩ := next_good b (hne pm hmem) i1.root (i1.free pm hmem) g1
        have hh : Harmless ps (run ps d l).disk (next pm b (run ps d l).disk cm).1 := by
          rcases n4 with n4 | ⟨q, _, _, q2, q3, q4⟩
          · rw [n4]
            exact ⟨i1.tree, i1.free, fun _ _ _ _ h => h⟩
          · rw [q4]
            exact set_harmless i1 q2 q3
        rw [hact]
        refine ⟨hh.clear hps i1, by simpa using i2, ?_⟩
        intro j p c hj hc
        by_cases hjm : m = j
        · subst hjm
          rw [hm] at hj
          cases hj
          have hlt := (List.getElem?_eq_some_iff.1 hcm).1
          simp only [List.getElem?_set_self hlt, Option.some.injEq] at hc
          subst hc
          refine ⟨?_, ?_⟩
          · have : refusals m (l ++ [.step m b]) = refusals m l + b.toNat := by cases b <;> simp [refusals]
            rw [this]
            exact n1
          · have : steps m (l ++ [.step m b]) = steps m l + 1 := by simp [steps]
            rw [this]
            by_cases hend : Ended cm
            · left
              rw [n2 hend]
              exact hend
            · right
              have := n3 hend
              rcases g2 with g2 | g2
              · exact absurd g2 hend
              · omega
        · have e1 : refusals j (l ++ [.step m b]) = refusals j l := by simp [refusals, hjm]
          have e2 : steps j (l ++ [.step m b]) = steps j l := by simp [steps, hjm]
          rw [e1, e2]
          simp only [List.getElem?_set_ne hjm] at hc
          obtain ⟨g1, g2⟩ := i3 j p c hj hc
          exact ⟨g1.mono (hh.keeps p (List.mem_of_getElem? hj)), g2⟩

theorem cost_pos {p : Path} {d : Disk} {r : Nat} {c : Pc} (hp : p ≠ []) (hg : Good p d r c) (h : ¬ Ended c) : 0 < cost p c := by
  cases c with
  | done => exact absurd (Or.inl rfl) h
  | raised e => exact absurd (Or.inr ⟨e, rfl⟩) h
  | stat => simp only [cost]; omega
  | look => simp only [cost]; obtain ⟨_, _, h, _⟩ := hg; omega
  | make => simp only [cost]; omega
  | check => simp only [cost]; omega

theorem tree_prefix {d : Disk} (ht : Tree d) (hr : d [] = some .dir) : ∀ (p : Path), d p = some .dir → ∀ q, q <+: p → d q = some .dir := by
  intro p
  induction p using List.reverseRecOn with
  | nil => intro _ q hq; rw [List.prefix_nil.1 hq]; exact hr
  | append_singleton p x ih =>
    intro hp q hq
    rcases List.prefix_concat_iff.1 hq with h | h
    · rw [h]; exact hp
    · refine ih ?_ q h
      have := ht _ _ hp (by simp)
      simpa using this

/-- **C97, in part.** Any number of processes make folders, while others change the disk, but put no file in the way and remove none of the
folders asked for.  Each process ends after a number of calls which depends on the length of the path only.  If it returns, the folder is there
with its parents, and stays there.  It raises only if the system has refused a call: PermissionError after five refused calls at least, and
FileExistsError. -/
theorem C97_made_partial {ps : List Path} {d : Disk} (hne : ∀ p ∈ ps, p ≠ []) (hd : Clear ps d) {l : List Act} (hl : Quiet ps d l)
    {j : Nat} {p : Path} (hj : ps[j]? = some p) :
    ∃ c, (run ps d l).pcs[j]? = some c ∧
      (5 * (3 * p.length + 1) ≤ steps j l → Ended c) ∧
      (c = .done → ∀ q, q <+: p → (run ps d l).disk q = some .dir) ∧
      (refusals j l = 0 → ∀ e, c ≠ .raised e) ∧
      (∀ e, c = .raised e → e = .refused ∧ 5 ≤ refusals j l ∨ e = .exists) := by
  have hps : ps ≠ [] := by rintro rfl; simp at hj
  obtain ⟨i1, i2, i3⟩ := invariant hne hps hd l hl
  have hlt := (List.getElem?_eq_some_iff.1 hj).1
  refine ⟨_, List.getElem?_eq_getElem (i2 ▸ hlt), ?_⟩
  obtain ⟨g1, g2⟩ := i3 j p _ hj (List.getElem?_eq_getElem (i2 ▸ hlt))
  generalize ((run ps d l).pcs[j]'(i2 ▸ hlt)) = c at *
  refine ⟨?_, ?_, ?_, ?_⟩
  · intro h
    by_contra hend
    have := cost_pos (hne p (List.mem_of_getElem? hj)) g1 hend
    rcases g2 with g2 | g2
    · exact hend g2
    · omega
  · rintro rfl
    exact tree_prefix i1.tree i1.root p g1
  · rintro h e rfl
    rcases g1 with ⟨_, g1⟩ | ⟨_, g1⟩ <;> omega
  · rintro e rfl
    rcases g1 with ⟨e1, g1⟩ | ⟨e1, g1⟩
    · exact Or.inl ⟨e1, g1⟩
    · exact Or.inr e1

/-- **C97, whatever others do.**  Others may change the disk in any way between the calls, and calls may be refused: if a process returns,
the folder was there when its last call ended. -/
theorem C97_sound {ps : List Path} {s : Sys} {j : Nat} {r : Bool} {p : Path} (hj : ps[j]? = some p) (hc : s.pcs[j]? ≠ some .done)
    (h : (act ps s (.step j r)).pcs[j]? = some .done) : (act ps s (.step j r)).disk p = some .dir := by
  have fin : ∀ i k, proceed p i k = .done → p.take k = p := by
    intro i k hk
    unfold proceed at hk
    split at hk
    · cases hk
    · exact List.take_of_length_le (by omega)
  have key : ∀ d c, c ≠ .done → (next p r d c).2 = .done → (next p r d c).1 p = some .dir := by
    intro d c hc h
    cases c with
    | stat i =>
      simp only [next] at h ⊢
      split at h
      · cases h
      · next hr =>
        rw [if_neg hr]
        cases hst : stat d p with
        | ok kind =>
          rw [hst] at h
          cases kind with
          | dir =>
            dsimp only
            unfold stat at hst
            cases hd : d p with
            | none => rw [hd] at hst; dsimp only at hst; split at hst <;> cases hst
            | some k => rw [hd] at hst; exact congrArg some (Except.ok.inj hst)
          | file => cases h
        | error e => rw [hst] at h; cases e <;> cases h
    | look i k =>
      simp only [next] at h
      split at h
      · cases h
      · split at h <;> cases h
    | make i k =>
      simp only [next] at h ⊢
      split at h
      · cases h
      · next hr =>
        rw [if_neg hr]
        cases hm : mkdir d (p.take k) with
        | error e => rw [hm] at h; cases h
        | ok d' =>
          rw [hm] at h
          dsimp only at h ⊢
          have hk := fin i k h
          unfold mkdir at hm
          split at hm
          · cases hm
          · split at hm
            · cases hm
            · split at hm
              · cases hm
              · rw [← Except.ok.inj hm, hk]
                simp [set]
    | check i k e =>
      simp only [next] at h ⊢
      split at h
      · next hd =>
        rw [if_pos hd]
        have hk := fin i k h
        rw [hk] at hd
        unfold isDir at hd
        simp only [Bool.and_eq_true, beq_iff_eq] at hd
        exact hd.2
      · split at h
        · cases h
        · unfold failed at h
          split at h
          · split at h <;> cases h
          · cases h
    | done => exact absurd rfl hc
    | raised e => cases h
  unfold act at h ⊢
  dsimp only at h ⊢
  rw [hj] at h ⊢
  cases hp : s.pcs[j]? with
  | none => rw [hp] at h; dsimp only at h; rw [hp] at h; cases h
  | some c =>
    rw [hp] at h hc
    dsimp only at h ⊢
    have hlt := (List.getElem?_eq_some_iff.1 hp).1
    rw [List.getElem?_set_self hlt] at h
    exact key s.disk c (fun e => hc (by rw [e])) (Option.some.inj h)

/-- **C97, cleaning up.**  The removal of empty folders is never disturbed by other builds which remove the same folders or put files into
them: it raises only if a folder has become a file. -/
theorem C97_cleaning (all : List Path) (p : Path) (file : String) (d : Disk) (k : Nat) (e : Err)
    (h : (outline all p file d (.cleaning k)).2 = .raised e) : d (p.take k) = some .file := by
  simp only [outline] at h
  split at h
  · cases h
  · cases hr : rmdir all d (p.take k) with
    | ok d' => rw [hr] at h; cases h
    | error e' =>
      rw [hr] at h
      unfold rmdir at hr
      cases hd : d (p.take k) with
      | none => rw [hd] at hr; cases hr; cases h
      | some kind =>
        cases kind with
        | file => rfl
        | dir =>
          rw [hd] at hr
          dsimp only at hr
          split at hr
          · cases hr; cases h
          · cases hr

/-! ## A case, and what is missing -/

namespace Toy

def js : Path := ["src", "public", "js"]
def gen : Path := ["src", "public", "js", "gen"]
def a : Path := ["src", "public", "js", "gen", "a"]
def b : Path := ["src", "public", "js", "gen", "b"]

/-- There is a folder for scripts. -/
def disk : Disk := fun q => if q <+: js then some .dir else none

def one (j : Nat) : Act := .step j false

/-- Both see that the parent is not there, and both make it. -/
def both : List Act := [one 0, one 1, one 0, one 1, one 0, one 1, one 0, one 1, one 1, one 0, one 1, one 0]

theorem clear : Clear [a, b] disk := by
  refine ⟨?_, by simp [disk], ?_⟩
  · intro q k hq hne
    unfold disk at hq ⊢
    split at hq
    · next h => rw [if_pos ((List.dropLast_prefix q).trans h)]
    · cases hq
  · intro p _ q _
    unfold disk
    split <;> simp

theorem C97_case : (∀ p ∈ [a, b], p ≠ []) ∧ Clear [a, b] disk ∧ Quiet [a, b] disk both ∧
    (run [a, b] disk both).pcs = [.done, .done] ∧ (run [a, b] disk (both.take 8)).pcs = [.make 0 5, .check 0 4 .exists] := by
  refine ⟨by decide, clear, ?_, by decide, by decide⟩
  intro l1 d' l2 h
  have : Act.other d' ∈ both := by rw [h]; simp
  simp [both, one] at this

/-- Between two calls of the first process the second one, which is done, has its folder taken away; the first makes it again.  Two pages
clean up at the same time, and the second finds the folder `gen` removed. -/
theorem C97_case_others : (run [gen, gen] disk [one 0, one 1, one 1, one 1, .other disk, one 0, one 0]).pcs = [.done, .done] ∧
    (outline [gen] a "1.js" disk (.cleaning 4)).2 = .done ∧ disk gen = none := by decide

/-- One call which is refused can be enough: if another process makes the folder between the two calls, and the system refuses to say that it
is a folder, FileExistsError is raised and there is no second attempt. -/
theorem C97_false_refused :
    (run [gen, gen] disk [one 0, one 0, one 1, one 1, one 1, one 0, .step 0 true]).pcs = [.raised .exists, .done] ∧
    (run [gen, gen] disk [one 0, one 0, one 1, one 1, one 1, one 0, .step 0 true]).disk gen = some .dir := by decide

/-- Folders are removed by other builds.  Two pages with inline scripts are built at the same time.  The second finds the folder `gen` there,
and before it makes its own folder in it the first has removed it: the second page ends with FileNotFoundError.  Alone each of them succeeds. -/
theorem C97_false_outline :
    (([true, true, true, true, true, true, true, true, true, false, false, true, true, false, false, false].foldl
      (two [gen, a, b, a ++ ["1.js"], b ++ ["1.js"]] a b "1.js") (disk, .making (.stat 0), .making (.stat 0))).2 =
        (.done, .raised .missing)) ∧
    (([true, true, true, true, true, true, true, true, true, true, true, true, false, false, false, false, false, false, false, false, false,
      false, false, false].foldl
      (two [gen, a, b, a ++ ["1.js"], b ++ ["1.js"]] a b "1.js") (disk, .making (.stat 0), .making (.stat 0))).2 =
        (.done, .done)) := by decide

end Toy

end Verif.Folders
