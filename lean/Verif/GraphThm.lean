import Verif.GraphEqLemmas
/-!
# Properties C01–C09 of the dependency graph

`Reachable g` ranges over every state a program can reach from an empty graph by any sequence of
`add_file`, `remove_file`, `set_children` calls, rejected calls included.
-/
namespace Verif.Graph
open Verif

deriving instance DecidableEq for Except

theorem Reachable.wf {g : Graph} (h : Reachable g) : WF g := by
  obtain ⟨ops, rfl⟩ := h; exact wf_run ops wf_empty

theorem getChildren_ok {g : Graph} {a : String} {cs : List String} (h : getChildren g a = .ok cs) :
    a ∈ g.keys ∧ kids g a = cs := by
  unfold getChildren at h
  rcases hg : g.get? a with _ | n
  · rw [hg] at h; simp at h
  · rw [hg] at h; simp only [Except.ok.injEq] at h
    exact ⟨Dict.mem_keys_of_get? hg, by rw [kids_of_get? hg, h]⟩

theorem getParents_ok {g : Graph} {a : String} {ps : List String} (h : getParents g a = .ok ps) :
    a ∈ g.keys ∧ pars g a = ps := by
  unfold getParents at h
  rcases hg : g.get? a with _ | n
  · rw [hg] at h; simp at h
  · rw [hg] at h; simp only [Except.ok.injEq] at h
    exact ⟨Dict.mem_keys_of_get? hg, by rw [pars_of_get? hg, h]⟩

theorem getChildren_eq {g : Graph} {a : String} (h : a ∈ g.keys) : getChildren g a = .ok (kids g a) := by
  obtain ⟨n, hn⟩ := exists_node_of_mem h
  simp [getChildren, hn, kids_of_get? hn]

theorem getParents_eq {g : Graph} {a : String} (h : a ∈ g.keys) : getParents g a = .ok (pars g a) := by
  obtain ⟨n, hn⟩ := exists_node_of_mem h
  simp [getParents, hn, pars_of_get? hn]

theorem hasMeta_iff (g : Graph) (a : String) (m : Meta) : HasMeta g a m ↔ infoOf g a = some m := by
  unfold HasMeta checkFile infoOf
  rcases hg : g.get? a with _ | n
  · simp
  · obtain ⟨⟨a, b, c⟩, _, _⟩ := n
    obtain ⟨a', b', c'⟩ := m
    simp [and_assoc]

/-! ## C01 -/

/-- C01: after any history, `get_children(a)` lists `b` exactly as often as `get_parents(b)` lists
`a`, and everything listed is a file of the graph. -/
theorem C01_edges_symmetric_closed (ops : List Op) (a b : String) :
    (∀ cs ps, getChildren (run empty ops) a = .ok cs → getParents (run empty ops) b = .ok ps →
      cs.count b = ps.count a) ∧
    (∀ cs, getChildren (run empty ops) a = .ok cs → b ∈ cs →
      contains (run empty ops) b = true ∧ ∃ ps, getParents (run empty ops) b = .ok ps ∧ a ∈ ps) ∧
    (∀ ps, getParents (run empty ops) a = .ok ps → b ∈ ps →
      contains (run empty ops) b = true ∧ ∃ cs, getChildren (run empty ops) b = .ok cs ∧ a ∈ cs) := by
  have hw := wf_run ops wf_empty
  refine ⟨?_, ?_, ?_⟩
  · intro cs ps hc hp
    rw [← (getChildren_ok hc).2, ← (getParents_ok hp).2]; exact hw.sym a b
  · intro cs hc hb
    rw [← (getChildren_ok hc).2] at hb
    have hk := hw.mem_keys_of_kid hb
    exact ⟨(contains_iff _ _).2 hk, _, getParents_eq hk, (hw.mem_pars_iff a b).2 hb⟩
  · intro ps hp hb
    rw [← (getParents_ok hp).2] at hb
    have hk := hw.mem_keys_of_par hb
    exact ⟨(contains_iff _ _).2 hk, _, getChildren_eq hk, (hw.mem_pars_iff b a).1 hb⟩

/-- A history with a duplicate edge, a self edge, a cycle and rejected calls. -/
def demoOps : List Op :=
  [.add "a" ⟨1, 2, 3⟩ [], .add "b" ⟨1, 2, 4⟩ ["a", "a"], .add "b" ⟨9, 9, 9⟩ [], .add "c" ⟨1, 1, 1⟩ ["zz"],
   .add "c" ⟨5, 6, 7⟩ ["b"], .setChildren "a" ["c"] true, .setChildren "a" ["c", "a"] false,
   .remove "c" false true]

example : getChildren (run empty demoOps) "b" = .ok ["a", "a"] ∧
    getParents (run empty demoOps) "a" = .ok ["b", "b", "a"] ∧
    getChildren (run empty demoOps) "a" = .ok ["c", "a"] := by decide +kernel

/-! ## C02 -/

/-- C02: a call which raises leaves the graph exactly as it was (every observable, including the
order in which files are stored); on a reachable graph the only exception is `ValueError`. -/
theorem C02_rejected_call_changes_nothing {g : Graph} (hg : Reachable g) (op : Op) (e : Err)
    (h : (step g op).1 = .error e) : (step g op).2 = g ∧ e = .valueError := by
  have hw := hg.wf
  cases op with
  | add a m cs =>
    rcases addFile_cases hw a m cs with ⟨h', _⟩ | ⟨_, _, g', h', _⟩
    · simp only [step, h'] at h ⊢; simp at h; exact ⟨trivial, h.symm⟩
    · simp only [step, h'] at h; simp at h
  | remove a p c =>
    rcases removeFile_cases hw a p c with ⟨h', _⟩ | ⟨_, _, _, g', h', _⟩
    · simp only [step, h'] at h ⊢; simp at h; exact ⟨trivial, h.symm⟩
    · simp only [step, h'] at h; simp at h
  | setChildren a cs pc =>
    rcases setChildren_cases hw a cs pc with ⟨⟨e', h'⟩, _⟩ | ⟨_, _, _, g', h', _⟩
    · simp only [step, h'] at h ⊢
      simp only [Except.error.injEq] at h
      refine ⟨trivial, ?_⟩
      subst h
      unfold setChildren at h'
      split at h'
      · simp only [Prod.mk.injEq, Except.error.injEq] at h'; exact h'.1.symm
      · split at h'
        · simp only [Prod.mk.injEq, Except.error.injEq] at h'; exact h'.1.symm
        · rename_i n hn hcs
          split at h'
          · rename_i e2 he2
            simp only [Prod.mk.injEq, Except.error.injEq] at h'
            rw [← h'.1]
            split at he2
            · exact anyCycle_err hw _ he2
            · simp at he2
          · simp only [Prod.mk.injEq, Except.error.injEq] at h'; exact h'.1.symm
          · have ha := Dict.mem_keys_of_get? hn
            obtain ⟨g', er, _⟩ := replaceChildren_spec hw ha cs
              ((any_not_contains g cs).1 (by simpa using hcs))
            rw [kids_of_get? hn] at er
            rw [er] at h'; simp at h'
    · simp only [step, h'] at h; simp at h

example : (step (run empty demoOps) (.remove "a" true false)).1 = .error .valueError ∧
    (step (run empty demoOps) (.setChildren "b" ["c"] true)).1 = .error .valueError := by decide +kernel

/-! ## C07 (used below) -/

/-- C07, `add_file`: on success only the file `a` is new, with the given metadata and children and
no parents but itself nowhere; every other file keeps metadata and children, and its parents are
the old ones in the old order followed by one `a` per requested edge. -/
theorem C07_addFile_effect {g : Graph} (hg : Reachable g) (a : String) (m : Meta) (cs : List String)
    (h : (addFile g a m cs).1 = .ok ()) :
    contains g a = false ∧ (∀ c ∈ cs, contains g c = true) ∧
    let g' := (addFile g a m cs).2
    g'.keys = g.keys ++ [a] ∧ HasMeta g' a m ∧ getChildren g' a = .ok cs ∧ getParents g' a = .ok [] ∧
    ∀ x, x ≠ a → contains g' x = contains g x ∧ (∀ m', HasMeta g' x m' ↔ HasMeta g x m') ∧
      getChildren g' x = getChildren g x ∧
      ∀ ps, getParents g x = .ok ps → getParents g' x = .ok (ps ++ List.replicate (cs.count x) a) := by
  have hw := hg.wf
  rcases addFile_cases hw a m cs with ⟨h', _⟩ | ⟨ha, hcs, _⟩
  · rw [h'] at h; simp at h
  obtain ⟨g', e, k, i, c, p⟩ := addFile_spec a m cs ha hcs
  have hna : contains g a = false := by have := mt (contains_iff g a).1 ha; simpa using this
  refine ⟨hna, fun c hc => (contains_iff g c).2 (hcs c hc), ?_⟩
  simp only [e]
  have hak : a ∈ g'.keys := by rw [k]; simp
  have hp0 : pars g a = [] := pars_of_none ((Dict.get?_eq_none_iff g a).2 ha)
  have hc0 : cs.count a = 0 := List.count_eq_zero.2 (fun hm => ha (hcs a hm))
  refine ⟨k, (hasMeta_iff _ _ _).2 (by simp [i]), by rw [getChildren_eq hak, c]; simp,
    by rw [getParents_eq hak, p, hp0, hc0]; rfl, ?_⟩
  intro x hx
  have hkx : x ∈ g'.keys ↔ x ∈ g.keys := by rw [k]; simp [hx]
  refine ⟨?_, ?_, ?_, ?_⟩
  · rw [Bool.eq_iff_iff, contains_iff, contains_iff, hkx]
  · intro m'; rw [hasMeta_iff, hasMeta_iff, i, if_neg hx]
  · by_cases hxk : x ∈ g.keys
    · rw [getChildren_eq hxk, getChildren_eq (hkx.2 hxk), c, if_neg hx]
    · simp [getChildren, (Dict.get?_eq_none_iff g x).2 hxk, (Dict.get?_eq_none_iff g' x).2 (mt hkx.1 hxk)]
  · intro ps hps
    obtain ⟨hxk, rfl⟩ := getParents_ok hps
    rw [getParents_eq (hkx.2 hxk), p]

example : (addFile (run empty demoOps) "d" ⟨0, 0, 0⟩ ["a", "b", "a"]).1 = .ok () := by decide +kernel

/-- C07, `remove_file`: on success exactly `a` is gone; every other file keeps metadata, and its
parents and children are the old ones in the old order without `a`.  It succeeds exactly if the
file exists and each kind of edge is absent or allowed to be cleared. -/
theorem C07_removeFile_effect {g : Graph} (hg : Reachable g) (a : String) (clearP clearC : Bool) :
    ((removeFile g a clearP clearC).1 = .ok () ↔
      ∃ ps cs, getParents g a = .ok ps ∧ getChildren g a = .ok cs ∧ (ps = [] ∨ clearP = true) ∧
        (cs = [] ∨ clearC = true)) ∧
    ((removeFile g a clearP clearC).1 = .ok () →
      let g' := (removeFile g a clearP clearC).2
      g'.keys = g.keys.filter (· ≠ a) ∧ contains g' a = false ∧
      ∀ x, x ≠ a → contains g' x = contains g x ∧ (∀ m', HasMeta g' x m' ↔ HasMeta g x m') ∧
        (∀ cs, getChildren g x = .ok cs → getChildren g' x = .ok (cs.filter (· ≠ a))) ∧
        ∀ ps, getParents g x = .ok ps → getParents g' x = .ok (ps.filter (· ≠ a))) := by
  have hw := hg.wf
  rcases removeFile_cases hw a clearP clearC with ⟨h', hr⟩ | ⟨ha, hp, hc, _⟩
  · rw [h']
    refine ⟨⟨by simp, ?_⟩, by simp⟩
    rintro ⟨ps, cs, h1, h2, h3, h4⟩
    obtain ⟨hk, rfl⟩ := getParents_ok h1
    obtain ⟨_, rfl⟩ := getChildren_ok h2
    rcases hr with h | ⟨h, h5⟩ | ⟨h, h5⟩
    · exact absurd hk h
    · rcases h3 with h3 | h3
      · exact absurd h3 h
      · simp [h3] at h5
    · rcases h4 with h3 | h3
      · exact absurd h3 h
      · simp [h3] at h5
  · obtain ⟨g', e, k, i, c, p⟩ := removeFile_spec hw a clearP clearC ha hp hc
    simp only [e]
    refine ⟨⟨fun _ => ⟨_, _, getParents_eq ha, getChildren_eq ha, hp, hc⟩, fun _ => trivial⟩, fun _ => ⟨k, ?_, ?_⟩⟩
    · have : a ∉ g'.keys := by rw [k]; simp
      have := mt (contains_iff g' a).1 this; simpa using this
    intro x hx
    have hkx : x ∈ g'.keys ↔ x ∈ g.keys := by rw [k]; simp [hx]
    refine ⟨?_, ?_, ?_, ?_⟩
    · rw [Bool.eq_iff_iff, contains_iff, contains_iff, hkx]
    · intro m'; rw [hasMeta_iff, hasMeta_iff, i, if_neg hx]
    · intro cs hcs
      obtain ⟨hxk, rfl⟩ := getChildren_ok hcs
      rw [getChildren_eq (hkx.2 hxk), c, if_neg hx]
    · intro ps hps
      obtain ⟨hxk, rfl⟩ := getParents_ok hps
      rw [getParents_eq (hkx.2 hxk), p, if_neg hx]

example : (removeFile (run empty demoOps) "a" true true).1 = .ok () := by decide +kernel

/-- C07, `set_children`: on success the children of `a` are exactly `cs`; every other file keeps its
children, all metadata and the set and order of files are unchanged, and in every parent list the
entries other than `a` keep their order, followed by one `a` per requested edge. -/
theorem C07_setChildren_effect {g : Graph} (hg : Reachable g) (a : String) (cs : List String) (pc : Bool)
    (h : (setChildren g a cs pc).1 = .ok ()) :
    let g' := (setChildren g a cs pc).2
    contains g a = true ∧ (∀ c ∈ cs, contains g c = true) ∧
    g'.keys = g.keys ∧ getChildren g' a = .ok cs ∧
    (∀ x, x ≠ a → getChildren g' x = getChildren g x) ∧
    (∀ x m, HasMeta g' x m ↔ HasMeta g x m) ∧
    ∀ x ps, getParents g x = .ok ps →
      getParents g' x = .ok (ps.filter (· ≠ a) ++ List.replicate (cs.count x) a) := by
  have hw := hg.wf
  rcases setChildren_cases hw a cs pc with ⟨⟨e', h'⟩, _⟩ | ⟨ha, hcs, _, g1, h', hr, _⟩
  · rw [h'] at h; simp at h
  obtain ⟨g', e, k, i, c, p⟩ := replaceChildren_spec hw ha cs hcs
  rw [hr] at e
  simp only [Prod.mk.injEq, true_and] at e
  subst e
  simp only [h']
  have hak : a ∈ g1.keys := by rw [k]; exact ha
  refine ⟨(contains_iff g a).2 ha, fun c hc => (contains_iff g c).2 (hcs c hc), k, by rw [getChildren_eq hak, c]; simp, ?_, ?_, ?_⟩
  · intro x hx
    by_cases hxk : x ∈ g.keys
    · rw [getChildren_eq hxk, getChildren_eq (by rw [k]; exact hxk), c, if_neg hx]
    · simp [getChildren, (Dict.get?_eq_none_iff g x).2 hxk, (Dict.get?_eq_none_iff g1 x).2 (by rw [k]; exact hxk)]
  · intro x m; rw [hasMeta_iff, hasMeta_iff, i]
  · intro x ps hps
    obtain ⟨hxk, rfl⟩ := getParents_ok hps
    rw [getParents_eq (by rw [k]; exact hxk), p]

example : (setChildren (run empty demoOps) "b" ["a", "b", "a"] false).1 = .ok () := by decide +kernel

/-! ## C05, C06 -/

/-- C05: the transitive query terminates on every reachable graph (cyclic ones included) and each
answer means exactly what its name says; it raises exactly on equal or unknown arguments. -/
theorem C05_nested_relationship {g : Graph} (hg : Reachable g) (a b : String) :
    ((∃ e, checkNested g a b = .error e) ↔ a = b ∨ contains g a = false ∨ contains g b = false) ∧
    (∀ e, checkNested g a b = .error e → e = .valueError) ∧
    (∀ r, checkNested g a b = .ok r →
      (r = .cyclic ↔ DependsOn g a b ∧ DependsOn g b a) ∧
      (r = .parent ↔ DependsOn g a b ∧ ¬ DependsOn g b a) ∧
      (r = .child ↔ ¬ DependsOn g a b ∧ DependsOn g b a) ∧
      (r = .unrelated ↔ ¬ DependsOn g a b ∧ ¬ DependsOn g b a)) := by
  classical
  rw [checkNested_eq hg.wf]
  have hc : ∀ x, contains g x = false ↔ x ∉ g.keys := fun x => by
    rw [← contains_iff]; simp
  simp only [hc]
  by_cases hx : a = b ∨ a ∉ g.keys ∨ b ∉ g.keys
  · simp only [if_pos hx]
    refine ⟨⟨fun _ => hx, fun _ => ⟨_, rfl⟩⟩, by intro e he; simpa using he.symm, by simp⟩
  · simp only [if_neg hx]
    refine ⟨⟨by simp, fun h => absurd h hx⟩, by simp, ?_⟩
    intro r hr
    simp only [Except.ok.injEq] at hr
    subst hr
    by_cases h1 : DependsOn g b a <;> by_cases h2 : DependsOn g a b <;> simp [h1, h2]

example : checkNested (run empty demoOps) "b" "c" = .ok .cyclic ∧
    checkNested (run empty (demoOps.take 5)) "c" "a" = .ok .parent ∧
    checkNested (run empty (demoOps.take 5)) "a" "c" = .ok .child := by decide +kernel

/-- C06: the direct query reports exactly the edges between the two files. -/
theorem C06_direct_relationship {g : Graph} (hg : Reachable g) (a b : String) :
    ((∃ e, checkDirect g a b = .error e) ↔ a = b ∨ contains g a = false ∨ contains g b = false) ∧
    (∀ e, checkDirect g a b = .error e → e = .valueError) ∧
    (∀ r, checkDirect g a b = .ok r →
      (r = .cyclic ↔ Edge g a b ∧ Edge g b a) ∧
      (r = .parent ↔ Edge g a b ∧ ¬ Edge g b a) ∧
      (r = .child ↔ ¬ Edge g a b ∧ Edge g b a) ∧
      (r = .unrelated ↔ ¬ Edge g a b ∧ ¬ Edge g b a)) := by
  have hw := hg.wf
  have hc : ∀ x, contains g x = false ↔ x ∉ g.keys := fun x => by rw [← contains_iff]; simp
  simp only [hc, edge_iff, ← hw.mem_pars_iff b a]
  unfold checkDirect
  by_cases hab : a = b
  · simp [hab]
  rw [if_neg hab]
  rcases hn : g.get? a with _ | n
  · have := (Dict.get?_eq_none_iff g a).1 hn; simp [this]
  · have ha := Dict.mem_keys_of_get? hn
    have e1 : (n.parents.any (· == b)) = decide (b ∈ pars g a) := by
      rw [pars_of_get? hn, Bool.eq_iff_iff]; simp
    have e2 : (n.children.any (· == b)) = decide (b ∈ kids g a) := by
      rw [kids_of_get? hn, Bool.eq_iff_iff]; simp
    dsimp only
    rw [e1, e2]
    by_cases h1 : b ∈ pars g a
    · have hb := hw.mem_keys_of_par h1
      by_cases h2 : b ∈ kids g a
      · simp [h1, h2, ha, hb, hab]
      · simp [h1, h2, ha, hb, hab]
    · by_cases h2 : b ∈ kids g a
      · have hb := hw.mem_keys_of_kid h2
        simp [h1, h2, ha, hb, hab]
      · by_cases hb : b ∈ g.keys
        · simp [h1, h2, ha, hb, hab, (contains_iff g b).2 hb]
        · have := (hc b).2 hb
          simp [h1, h2, ha, hb, this]

example : checkDirect (run empty demoOps) "c" "a" = .ok .child ∧
    checkDirect (run empty (demoOps.take 5)) "a" "c" = .ok .unrelated ∧
    checkDirect (run empty demoOps) "b" "zz" = .error .valueError := by decide +kernel

/-! ## C04, C03 -/

theorem path_avoid {E : String → String → Prop} {c a : String} (p : Path E c a) :
    c = a ∨ Path (fun x y => x ≠ a ∧ E x y) c a := by
  induction p with
  | @one x y e =>
    by_cases h : x = y
    · exact .inl h
    · exact .inr (.one ⟨h, e⟩)
  | @more x y z e p ih =>
    by_cases h : x = z
    · exact .inl h
    · rcases ih with rfl | ih
      · exact .inr (.one ⟨h, e⟩)
      · exact .inr (.more ⟨h, e⟩ ih)

/-- `a` lies on a cycle after the update iff some requested child is `a` or already depends on it. -/
theorem cycleAfter_iff (g : Graph) (a : String) (cs : List String) :
    Path (EdgeAfter g a cs) a a ↔ ∃ c ∈ cs, c = a ∨ DependsOn g c a := by
  constructor
  · intro p
    have key : ∀ {c}, Path (EdgeAfter g a cs) c a → c = a ∨ DependsOn g c a := by
      intro c p
      rcases path_avoid p with h | h
      · exact .inl h
      · refine .inr (h.mono ?_)
        rintro x y ⟨hx, h⟩
        rcases h with ⟨rfl, _⟩ | ⟨_, h⟩
        · exact absurd rfl hx
        · exact h
    cases p with
    | one e => 
      rcases e with ⟨_, h⟩ | ⟨h, _⟩
      · exact ⟨a, h, .inl rfl⟩
      · exact absurd rfl h
    | more e p =>
      rcases e with ⟨_, h⟩ | ⟨h, _⟩
      · exact ⟨_, h, key p⟩
      · exact absurd rfl h
  · rintro ⟨c, hc, rfl | h⟩
    · exact .one (.inl ⟨rfl, hc⟩)
    · rcases path_avoid h with rfl | h
      · exact .one (.inl ⟨rfl, hc⟩)
      · exact .more (.inl ⟨rfl, hc⟩) (h.mono (fun x y hxy => .inr hxy))

/-- C04: with cycle prevention `set_children` is rejected exactly if `a` or a child is unknown or
the requested edges would put `a` on a cycle; otherwise it succeeds with exactly these children.
(Stated for every reachable graph, cyclic ones included.) -/
theorem C04_cycle_check_exact {g : Graph} (hg : Reachable g) (a : String) (cs : List String) :
    ((setChildren g a cs true).1 = .error .valueError ↔
      contains g a = false ∨ (∃ c ∈ cs, contains g c = false) ∨ Path (EdgeAfter g a cs) a a) ∧
    ((setChildren g a cs true).1 = .error .valueError ∨
      (setChildren g a cs true).1 = .ok () ∧ getChildren (setChildren g a cs true).2 a = .ok cs) := by
  have hw := hg.wf
  have hc : ∀ x, contains g x = false ↔ x ∉ g.keys := fun x => by rw [← contains_iff]; simp
  simp only [hc, cycleAfter_iff]
  rcases setChildren_cases hw a cs true with ⟨⟨e', h'⟩, hr⟩ | ⟨ha, hcs, hcyc, g1, h', _⟩
  · have he : e' = .valueError :=
      (C02_rejected_call_changes_nothing hg (.setChildren a cs true) e' (by simp [step, h'])).2
    subst he
    rw [h']
    refine ⟨⟨fun _ => ?_, fun _ => rfl⟩, .inl rfl⟩
    by_cases ha : a ∈ g.keys
    · by_cases hcs : ∀ c ∈ cs, c ∈ g.keys
      · rcases hr with h | h | ⟨_, h⟩
        · exact absurd ha h
        · obtain ⟨c, h1, h2⟩ := h; exact absurd (hcs c h1) h2
        · rw [ne_eq, anyCycle_spec hw ha cs hcs] at h
          right; right
          rw [Classical.not_forall] at h
          obtain ⟨c, h⟩ := h
          rw [Classical.not_imp] at h
          obtain ⟨hc, h⟩ := h
          refine ⟨c, hc, ?_⟩
          by_cases e : c = a
          · exact .inl e
          · exact .inr (Classical.not_not.1 (fun h2 => h ⟨e, h2⟩))
      · exact .inr (.inl (by simpa using hcs))
    · exact .inl ha
  · have hk := C07_setChildren_effect hg a cs true (by rw [h'])
    rw [h']
    refine ⟨⟨by simp, ?_⟩, .inr ⟨rfl, by simpa [h'] using hk.2.2.2.1⟩⟩
    rintro (h | ⟨c, h1, h2⟩ | ⟨c, h1, h2⟩)
    · exact absurd ha h
    · exact absurd (hcs c h1) h2
    · have := (anyCycle_spec hw ha cs hcs).1 (hcyc rfl) c h1
      rcases h2 with h2 | h2
      · exact absurd h2 this.1
      · exact absurd h2 this.2

example : (setChildren (run empty (demoOps.take 5)) "a" ["c"] true).1 = .error .valueError ∧
    (setChildren (run empty (demoOps.take 5)) "c" ["a"] true).1 = .ok () := by decide +kernel

theorem acyclic_step {g : Graph} (hg : Reachable g) (hac : Acyclic g) (op : Op) (hop : op.keepsCheck) :
    Acyclic (step g op).2 := by
  have hw := hg.wf
  cases op with
  | add a m cs =>
    rcases addFile_cases hw a m cs with ⟨h', _⟩ | ⟨ha, hcs, _⟩
    · simp only [step, h']; exact hac
    · obtain ⟨g', e, k, i, c, p⟩ := addFile_spec a m cs ha hcs
      simp only [step, e]
      -- nothing points to the new node
      have hnew : ∀ x, ¬ Edge g' x a := by
        intro x hx
        rw [edge_iff, c] at hx
        split at hx
        · exact ha (hcs a hx)
        · exact hw.not_mem_kids ha x hx
      intro x px
      have hxa : x ≠ a := by
        rintro rfl; obtain ⟨y, hy⟩ := px.last; exact hnew y hy
      refine hac x ?_
      have key : ∀ {u v}, DependsOn g' u v → u ≠ a → DependsOn g u v := by
        intro u v p
        induction p with
        | @one u v e =>
          intro hu; rw [edge_iff, c, if_neg hu, ← edge_iff] at e; exact .one e
        | @more u v w huv _ ih =>
          intro hu
          have hv : v ≠ a := by intro hv; rw [hv] at huv; exact hnew _ huv
          rw [edge_iff, c, if_neg hu, ← edge_iff] at huv
          exact .more huv (ih hv)
      exact key px hxa
  | remove a p c =>
    rcases removeFile_cases hw a p c with ⟨h', _⟩ | ⟨ha, hp, hc, _⟩
    · simp only [step, h']; exact hac
    · obtain ⟨g', e, k, i, c, p⟩ := removeFile_spec hw a p c ha hp hc
      simp only [step, e]
      intro x px
      refine hac x (px.mono ?_)
      intro u v huv
      rw [edge_iff, c] at huv
      rw [edge_iff]
      split at huv
      · simp at huv
      · exact (List.mem_filter.1 huv).1
  | setChildren a cs pc =>
    have hpc : pc = true := hop
    subst hpc
    rcases setChildren_cases hw a cs true with ⟨⟨e', h'⟩, _⟩ | ⟨ha, hcs, hcyc, g1, h', hr, _⟩
    · simp only [step, h']; exact hac
    · obtain ⟨g', e, k, i, c, p⟩ := replaceChildren_spec hw ha cs hcs
      rw [hr] at e
      simp only [Prod.mk.injEq, true_and] at e
      subst e
      simp only [step, h']
      have hguard := (anyCycle_spec hw ha cs hcs).1 (hcyc rfl)
      have hE : ∀ x y, Edge g1 x y ↔ EdgeAfter g a cs x y := by
        intro x y; rw [edge_iff, c]; unfold EdgeAfter
        by_cases hx : x = a
        · simp [hx]
        · simp [hx, edge_iff]
      have hna : ¬ Path (EdgeAfter g a cs) a a := by
        rw [cycleAfter_iff]; rintro ⟨d, hd, h | h⟩
        · exact (hguard d hd).1 h
        · exact (hguard d hd).2 h
      intro x px
      have px : Path (EdgeAfter g a cs) x x := px.mono (fun u v h => (hE u v).1 h)
      -- a cycle either avoids `a` or gives a cycle through `a`
      have key : ∀ {u v}, Path (EdgeAfter g a cs) u v →
          Path (Edge g) u v ∨ ((u = a ∨ Path (EdgeAfter g a cs) u a) ∧ Path (EdgeAfter g a cs) a v) := by
        intro u v p
        induction p with
        | @one u v e =>
          rcases e with ⟨rfl, h⟩ | ⟨hu, h⟩
          · exact .inr ⟨.inl rfl, .one (.inl ⟨rfl, h⟩)⟩
          · exact .inl (.one h)
        | @more u v w e p ih =>
          by_cases hu : u = a
          · subst hu; exact .inr ⟨.inl rfl, .more e p⟩
          · rcases ih with ih | ⟨ih1, ih2⟩
            · rcases e with ⟨h, _⟩ | ⟨_, h⟩
              · exact absurd h hu
              · exact .inl (.more h ih)
            · refine .inr ⟨.inr ?_, ih2⟩
              rcases ih1 with rfl | ih1
              · exact .one e
              · exact .more e ih1
      rcases key px with h | ⟨h1, h2⟩
      · exact hac x h
      · rcases h1 with rfl | h1
        · exact hna h2
        · exact hna (h2.trans h1)

theorem run_append (g : Graph) (xs ys : List Op) : run g (xs ++ ys) = run (run g xs) ys := by
  simp [run]

theorem reachable_step {g : Graph} (hg : Reachable g) (op : Op) : Reachable (step g op).2 := by
  obtain ⟨ops, rfl⟩ := hg
  exact ⟨ops ++ [op], by rw [run_append]; rfl⟩

theorem reachable_run {g : Graph} (hg : Reachable g) (ops : List Op) : Reachable (run g ops) := by
  obtain ⟨o, rfl⟩ := hg
  exact ⟨o ++ ops, by rw [run_append]⟩

theorem acyclic_run {g : Graph} (hg : Reachable g) (hac : Acyclic g) (ops : List Op)
    (h : ∀ op ∈ ops, op.keepsCheck) : Acyclic (run g ops) := by
  induction ops generalizing g with
  | nil => exact hac
  | cons op ops ih =>
    exact ih (reachable_step hg op) (acyclic_step hg hac op (h op (by simp))) (fun o ho => h o (by simp [ho]))

/-- C03: no history of calls with cycle prevention creates a cycle. -/
theorem C03_acyclic (ops : List Op) (h : ∀ op ∈ ops, op.keepsCheck) : Acyclic (run empty ops) := by
  refine acyclic_run ⟨[], rfl⟩ ?_ ops h
  intro a p
  obtain ⟨x, hx⟩ := p.head
  rw [edge_iff] at hx; simp [kids, empty, run] at hx

/-- The hypothesis holds for a history with accepted and rejected updates, and it is needed: with
the check switched off a cycle appears. -/
example : (∀ op ∈ demoOps.take 6, op.keepsCheck) ∧ getChildren (run empty (demoOps.take 6)) "c" = .ok ["b"] := by
  refine ⟨?_, by decide +kernel⟩
  intro op hop
  simp only [demoOps, List.take, List.mem_cons, List.not_mem_nil, or_false] at hop
  rcases hop with rfl | rfl | rfl | rfl | rfl | rfl <;> simp [Op.keepsCheck]
example : ¬ Acyclic (run empty demoOps) := fun h => h "a" (.one ⟨["c", "a"], by decide +kernel, by simp⟩)

/-! ## C08, C09 -/

/-- C08: loading a stored graph gives a graph with the same files, metadata and ordered parent and
child lists, and `==` says so. -/
theorem C08_store_load {g : Graph} (hg : Reachable g) :
    SameContent (load (store g)) g ∧ graphEq (load (store g)) g = some true := by
  have hw := hg.wf
  refine ⟨(sameContent_iff _ _).2 (load_store_get? hw), ?_⟩
  obtain ⟨r, e, hr⟩ := graphEq_spec (wf_load_store hw) hw
  rw [e, hr.2 (load_store_get? hw)]

theorem Valid.wf {g : Graph} (h : Valid g) : WF g := by
  obtain ⟨ops, rfl⟩ := h
  have : ∀ (g : Graph), WF g → WF (ops.foldl persistStep g) := by
    induction ops with
    | nil => exact fun _ h => h
    | cons op ops ih =>
      intro g h
      refine ih _ ?_
      cases op with
      | call op => exact h.step op
      | saveLoad => exact wf_load_store h
  exact this _ wf_empty

/-- The same after any history in which the graph is also stored and reloaded at any points. -/
theorem C08_store_load_history {g : Graph} (hg : Valid g) :
    SameContent (load (store g)) g ∧ graphEq (load (store g)) g = some true := by
  have hw := hg.wf
  refine ⟨(sameContent_iff _ _).2 (load_store_get? hw), ?_⟩
  obtain ⟨r, e, hr⟩ := graphEq_spec (wf_load_store hw) hw
  rw [e, hr.2 (load_store_get? hw)]

/-- The order of files may change, so plain identity of the loaded graph is not claimed. -/
example : (load (store (run empty (demoOps.take 7)))).keys = ["a", "b", "c"] ∧
    (load (store (run empty [.add "a" ⟨1, 2, 3⟩ [], .add "b" ⟨0, 0, 0⟩ [], .add "c" ⟨0, 1, 0⟩ ["a"]]))).keys
      = ["a", "c", "b"] := by decide +kernel

/-- C09: `==` terminates on all pairs of reachable graphs, cyclic or not, and is exactly equality
of the observable content. -/
theorem C09_graphEq_exact {g h : Graph} (hg : Reachable g) (hh : Reachable h) :
    (graphEq g h = some true ∨ graphEq g h = some false) ∧
    (graphEq g h = some true ↔ SameContent g h) := by
  obtain ⟨r, e, hr⟩ := graphEq_spec hg.wf hh.wf
  rw [e, sameContent_iff, ← hr]
  cases r <;> simp

/-- C09: `==` is an equivalence relation on reachable graphs. -/
theorem C09_graphEq_equivalence {g h k : Graph} (hg : Reachable g) (hh : Reachable h) (hk : Reachable k) :
    graphEq g g = some true ∧ (graphEq g h = some true → graphEq h g = some true) ∧
    (graphEq g h = some true → graphEq h k = some true → graphEq g k = some true) := by
  rw [(C09_graphEq_exact hg hg).2, (C09_graphEq_exact hg hh).2, (C09_graphEq_exact hh hg).2,
    (C09_graphEq_exact hh hk).2, (C09_graphEq_exact hg hk).2]
  simp only [sameContent_iff]
  exact ⟨fun _ => trivial, fun h x => (h x).symm, fun h1 h2 x => (h1 x).trans (h2 x)⟩

/-- Cyclic graphs are covered: two different cyclic graphs are told apart. -/
example : graphEq (run empty demoOps) (run empty demoOps) = some true ∧
    graphEq (run empty demoOps) (run empty (demoOps ++ [.setChildren "a" ["a", "c"] false])) = some false := by
  decide +kernel

end Verif.Graph
