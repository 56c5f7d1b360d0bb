import Verif.Cold
import Verif.HotEx
/-! # C20: change detection -/
namespace Verif.Cold
open Verif Verif.Graph Verif.Hot

/-- The files of a walk are distinct. -/
def WalkOK (walk : List (String × Sig)) : Prop := (walk.map (·.1)).Nodup

theorem detectLoop_spec (g : Graph) (walk : List (String × Sig)) (r : Found) (hw : WalkOK walk)
    (hk : ∀ f s, (f, s) ∈ walk → contains g f = true → f ∈ r.deleted) (hc : r.changed.NodupKeys) (ha : r.added.NodupKeys) :
    ∃ r', detectLoop g walk r = .ok r' ∧ r'.changed.NodupKeys ∧ r'.added.NodupKeys ∧
      (∀ f, f ∈ r'.deleted ↔ f ∈ r.deleted ∧ ¬ (f ∈ walk.map (·.1) ∧ contains g f = true)) ∧
      (∀ f, r'.changed.get? f = match walk.find? (fun x => x.1 == f) with
        | some x => if contains g f = true ∧ checkFile g f x.2 = false then some x.2 else r.changed.get? f
        | none => r.changed.get? f) ∧
      (∀ f, r'.added.get? f = match walk.find? (fun x => x.1 == f) with
        | some x => if contains g f = false then some x.2 else r.added.get? f
        | none => r.added.get? f) := by
  induction walk generalizing r with
  | nil => exact ⟨r, rfl, hc, ha, by simp, by simp, by simp⟩
  | cons x walk ih =>
    obtain ⟨f, s⟩ := x
    unfold WalkOK at hw
    simp only [List.map_cons, List.nodup_cons] at hw
    have hnf : walk.find? (fun x => x.1 == f) = none := by
      rw [List.find?_eq_none]
      intro y hy hc
      exact hw.1 (List.mem_map.2 ⟨y, hy, by simpa using hc⟩)
    simp only [detectLoop]
    by_cases hcon : contains g f = true
    · have hdel := hk f s (by simp) hcon
      rw [if_pos hcon, if_neg (by simp [hdel])]
      obtain ⟨r', h1, h2, h3, h4, h5, h6⟩ := ih
        { r with deleted := del f r.deleted, changed := if checkFile g f s then r.changed else r.changed.set f s } hw.2
        (by
          intro y sy hy hcy
          simp only [del, List.mem_filter, decide_eq_true_eq, ne_eq]
          refine ⟨hk y sy (by simp [hy]) hcy, fun e => hw.1 (List.mem_map.2 ⟨(y, sy), hy, e⟩)⟩)
        (by dsimp only; split; exact hc; exact hc.set _ _) ha
      refine ⟨r', h1, h2, h3, fun y => ?_, fun y => ?_, fun y => ?_⟩
      · rw [h4]
        simp only [del, List.mem_filter, decide_eq_true_eq, ne_eq, List.map_cons, List.mem_cons]
        constructor
        · rintro ⟨⟨q1, q2⟩, q3⟩
          exact ⟨q1, fun h => h.1.elim q2 (fun h' => q3 ⟨h', h.2⟩)⟩
        · rintro ⟨q1, q2⟩
          exact ⟨⟨q1, fun e => q2 ⟨.inl e, e ▸ hcon⟩⟩, fun h => q2 ⟨.inr h.1, h.2⟩⟩
      · rw [h5, List.find?_cons]
        by_cases e : f = y
        · subst e
          rw [hnf]
          simp only [beq_self_eq_true, hcon, true_and]
          by_cases hch : checkFile g f s = true
          · simp [hch]
          · have : checkFile g f s = false := by simpa using hch
            simp [this]
        · have : (f == y) = false := by simpa using e
          simp only [this]
          have hset : (if checkFile g f s then r.changed else r.changed.set f s).get? y = r.changed.get? y := by
            split
            · rfl
            · exact Dict.get?_set_ne _ _ e
          rw [hset]
      · rw [h6, List.find?_cons]
        by_cases e : f = y
        · subst e; rw [hnf]; simp [hcon]
        · have : (f == y) = false := by simpa using e
          simp only [this]
    · rw [if_neg hcon]
      have hcon' : contains g f = false := by simpa using hcon
      obtain ⟨r', h1, h2, h3, h4, h5, h6⟩ := ih { r with added := r.added.set f s } hw.2
        (fun y sy hy hcy => hk y sy (by simp [hy]) hcy) hc (ha.set _ _)
      refine ⟨r', h1, h2, h3, fun y => ?_, fun y => ?_, fun y => ?_⟩
      · rw [h4]
        simp only [List.map_cons, List.mem_cons]
        constructor
        · rintro ⟨q1, q3⟩
          refine ⟨q1, fun h => h.1.elim (fun e => hcon (e ▸ h.2)) (fun h' => q3 ⟨h', h.2⟩)⟩
        · rintro ⟨q1, q2⟩
          exact ⟨q1, fun h => q2 ⟨.inr h.1, h.2⟩⟩
      · rw [h5, List.find?_cons]
        by_cases e : f = y
        · subst e; rw [hnf]; simp [hcon']
        · have : (f == y) = false := by simpa using e
          simp only [this]
      · rw [h6, List.find?_cons]
        by_cases e : f = y
        · subst e; rw [hnf]; simp [hcon']
        · have : (f == y) = false := by simpa using e
          simp only [this, Dict.get?_set_ne _ _ e]

theorem mem_walk_iff {walk : List (String × Sig)} (hw : WalkOK walk) (f : String) (s : Sig) :
    walk.find? (fun x => x.1 == f) = some (f, s) ↔ (f, s) ∈ walk := by
  constructor
  · exact fun h => List.mem_of_find?_eq_some h
  · intro h
    rcases hq : walk.find? (fun x => x.1 == f) with _ | ⟨g, t⟩
    · rw [List.find?_eq_none] at hq
      exact absurd (by simp) (hq _ h)
    · have h1 := List.mem_of_find?_eq_some hq
      have h2 := List.find?_some hq
      simp only [beq_iff_eq] at h2
      subst h2
      have : walk.Pairwise (fun a b => a.1 ≠ b.1) := by
        unfold WalkOK List.Nodup at hw
        rw [List.pairwise_map] at hw
        exact hw
      have key : ∀ (l : List (String × Sig)), l.Pairwise (fun a b => a.1 ≠ b.1) →
          ∀ a ∈ l, ∀ b ∈ l, a.1 = b.1 → a = b := by
        intro l hl
        induction hl with
        | nil => simp
        | cons h _ ih =>
          intro a ha b hb e
          rcases List.mem_cons.1 ha with ha' | ha'
          · rcases List.mem_cons.1 hb with hb' | hb'
            · rw [ha', hb']
            · rw [ha'] at e; exact absurd e (h b hb')
          · rcases List.mem_cons.1 hb with hb' | hb'
            · rw [hb'] at e; exact absurd e.symm (h a ha')
            · exact ih a ha' b hb' e
      rw [hq, key walk this _ h1 _ h rfl]

/-- C20: the detection never fails and divides the files of the walk and of the recorded graph
exactly: a file is deleted if it is recorded and not there, added (with its signature) if it is there
and not recorded, changed (with its signature) if it is there, recorded, and its recorded size, time
or inode differs; and in none of the three otherwise. -/
theorem C20_detect_exact (g : Graph) (walk : List (String × Sig)) (hw : WalkOK walk) :
    ∃ r, detect g walk = .ok r ∧
      (∀ f, f ∈ r.deleted ↔ contains g f = true ∧ ∀ s, (f, s) ∉ walk) ∧
      (∀ f s, r.added.get? f = some s ↔ (f, s) ∈ walk ∧ contains g f = false) ∧
      (∀ f s, r.changed.get? f = some s ↔ (f, s) ∈ walk ∧ contains g f = true ∧ ¬ HasMeta g f s) ∧
      r.changed.NodupKeys ∧ r.added.NodupKeys := by
  obtain ⟨r, h1, h2, h3, h4, h5, h6⟩ := detectLoop_spec g walk ⟨[], [], g.keys⟩ hw
    (fun f s _ h => (contains_iff g f).1 h) (by simp) (by simp)
  refine ⟨r, h1, fun f => ?_, fun f s => ?_, fun f s => ?_, h2, h3⟩
  · rw [h4, ← contains_iff]
    simp only [List.mem_map, Prod.exists, exists_and_right, exists_eq_right, not_and, Bool.not_eq_true]
    constructor
    · rintro ⟨q1, q2⟩
      refine ⟨q1, fun s hs => ?_⟩
      rw [q2 ⟨s, hs⟩] at q1; simp at q1
    · rintro ⟨q1, q2⟩
      exact ⟨q1, fun ⟨s, hs⟩ => absurd hs (q2 s)⟩
  · rw [h6, ← mem_walk_iff hw]
    rcases hq : walk.find? (fun x => x.1 == f) with _ | ⟨k, t⟩
    · simp only [hq]; simp
    · have : k = f := by have := List.find?_some hq; simpa using this
      subst this
      by_cases hc : contains g k = false <;> simp [hc, hq]
  · rw [h5, ← mem_walk_iff hw]
    unfold HasMeta
    rcases hq : walk.find? (fun x => x.1 == f) with _ | ⟨k, t⟩
    · simp only [hq]; simp
    · have : k = f := by have := List.find?_some hq; simpa using this
      subst this
      simp only [hq, Option.some.injEq, Prod.mk.injEq, true_and]
      by_cases hc : contains g k = true
      · by_cases hs : t = s
        · subst hs; simp [hc]
        · simp only [hc, true_and, hs, false_and, iff_false]
          split <;> simp [hs]
      · simp [hc]

/-- Each file falls in at most one of the three classes. -/
theorem C20_disjoint (g : Graph) (walk : List (String × Sig)) (hw : WalkOK walk) (r : Found)
    (h : detect g walk = .ok r) (f : String) :
    ¬ (f ∈ r.changed.keys ∧ f ∈ r.added.keys) ∧ ¬ (f ∈ r.changed.keys ∧ f ∈ r.deleted) ∧
      ¬ (f ∈ r.added.keys ∧ f ∈ r.deleted) := by
  obtain ⟨r', h1, h2, h3, h4, _⟩ := C20_detect_exact g walk hw
  rw [h] at h1
  simp only [Except.ok.injEq] at h1
  subst h1
  have hc : ∀ f ∈ r.changed.keys, ∃ s, (f, s) ∈ walk ∧ contains g f = true := by
    intro f hf
    obtain ⟨s, hs⟩ := Option.isSome_iff_exists.1 ((Dict.get?_isSome_iff _ _).2 hf)
    exact ⟨s, ((h4 f s).1 hs).1, ((h4 f s).1 hs).2.1⟩
  have ha : ∀ f ∈ r.added.keys, ∃ s, (f, s) ∈ walk ∧ contains g f = false := by
    intro f hf
    obtain ⟨s, hs⟩ := Option.isSome_iff_exists.1 ((Dict.get?_isSome_iff _ _).2 hf)
    exact ⟨s, ((h3 f s).1 hs).1, ((h3 f s).1 hs).2⟩
  refine ⟨fun ⟨q1, q2⟩ => ?_, fun ⟨q1, q2⟩ => ?_, fun ⟨q1, q2⟩ => ?_⟩
  · obtain ⟨_, _, h⟩ := hc f q1
    obtain ⟨_, _, h'⟩ := ha f q2
    rw [h] at h'; simp at h'
  · obtain ⟨s, hs, _⟩ := hc f q1
    exact ((h2 f).1 q2).2 s hs
  · obtain ⟨s, hs, _⟩ := ha f q1
    exact ((h2 f).1 q2).2 s hs

/-- A concrete walk with one file of each kind and an unchanged one. -/
example : detect exOld.dep [("a.html", sig0), ("b.js", sig1), ("n.js", sig1)] =
    .ok ⟨[("b.js", sig1)], [("n.js", sig1)], ["c.css"]⟩ := by decide +kernel

end Verif.Cold
