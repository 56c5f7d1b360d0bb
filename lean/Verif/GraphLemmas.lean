import Verif.Graph
/-! Helper lemmas about the graph model (no property statements here). -/
namespace Verif.Graph
open Verif

/-- Metadata by path. -/
def infoOf (g : Graph) (a : String) : Option Meta := (g.get? a).map (·.info)

theorem pars_of_get? {g : Graph} {a : String} {n : Node} (h : g.get? a = some n) : pars g a = n.parents := by
  simp [pars, h]
theorem kids_of_get? {g : Graph} {a : String} {n : Node} (h : g.get? a = some n) : kids g a = n.children := by
  simp [kids, h]
theorem pars_of_none {g : Graph} {a : String} (h : g.get? a = none) : pars g a = [] := by simp [pars, h]
theorem kids_of_none {g : Graph} {a : String} (h : g.get? a = none) : kids g a = [] := by simp [kids, h]

theorem pars_set (g : Graph) (k x : String) (n : Node) :
    pars (g.set k n) x = if k = x then n.parents else pars g x := by
  simp only [pars, Dict.get?_set]; split <;> simp
theorem kids_set (g : Graph) (k x : String) (n : Node) :
    kids (g.set k n) x = if k = x then n.children else kids g x := by
  simp only [kids, Dict.get?_set]; split <;> simp
theorem infoOf_set (g : Graph) (k x : String) (n : Node) :
    infoOf (g.set k n) x = if k = x then some n.info else infoOf g x := by
  simp only [infoOf, Dict.get?_set]; split <;> simp

theorem exists_node_of_mem {g : Graph} {a : String} (h : a ∈ g.keys) : ∃ n, g.get? a = some n := by
  rw [← Dict.get?_isSome_iff] at h
  exact Option.isSome_iff_exists.1 h

theorem contains_iff (g : Graph) (a : String) : contains g a = true ↔ a ∈ g.keys := Dict.has_iff g a

theorem any_not_contains (g : Graph) (cs : List String) :
    cs.any (fun c => !contains g c) = false ↔ ∀ c ∈ cs, c ∈ g.keys := by
  simp only [List.any_eq_false, Bool.not_eq_true', ← contains_iff]
  exact ⟨fun h c hc => by simpa using h c hc, fun h c hc => by simp [h c hc]⟩

/-- The class invariant. Closedness follows from it since absent nodes have no edges. -/
structure WF (g : Graph) : Prop where
  nodup : g.NodupKeys
  sym : ∀ a b, (kids g a).count b = (pars g b).count a

theorem WF.mem_keys_of_kid {g : Graph} (h : WF g) {a b : String} (hb : b ∈ kids g a) : b ∈ g.keys := by
  have h1 := h.sym a b
  rcases hg : g.get? b with _ | n
  · rw [pars_of_none hg] at h1
    have := List.count_pos_iff.2 hb
    simp at h1; omega
  · exact Dict.mem_keys_of_get? hg

theorem WF.mem_keys_of_par {g : Graph} (h : WF g) {a b : String} (hb : b ∈ pars g a) : b ∈ g.keys := by
  have h1 := h.sym b a
  rcases hg : g.get? b with _ | n
  · rw [kids_of_none hg] at h1
    have := List.count_pos_iff.2 hb
    simp at h1; omega
  · exact Dict.mem_keys_of_get? hg

theorem mem_keys_of_has_kid {g : Graph} {a b : String} (hb : b ∈ kids g a) : a ∈ g.keys := by
  rcases hg : g.get? a with _ | n
  · rw [kids_of_none hg] at hb; simp at hb
  · exact Dict.mem_keys_of_get? hg

theorem mem_keys_of_has_par {g : Graph} {a b : String} (hb : b ∈ pars g a) : a ∈ g.keys := by
  rcases hg : g.get? a with _ | n
  · rw [pars_of_none hg] at hb; simp at hb
  · exact Dict.mem_keys_of_get? hg

theorem WF.mem_pars_iff {g : Graph} (h : WF g) (a b : String) : a ∈ pars g b ↔ b ∈ kids g a := by
  rw [← List.count_pos_iff, ← List.count_pos_iff, h.sym]

theorem wf_empty : WF empty := ⟨by simp [empty], by intro a b; simp [kids, pars, empty]⟩

/-! ### the link loops -/

theorem linkParents_spec (a : String) (cs : List String) (g : Graph) (h : ∀ c ∈ cs, c ∈ g.keys) :
    ∃ g', linkParents a cs g = (.ok (), g') ∧ g'.keys = g.keys ∧ (∀ x, kids g' x = kids g x) ∧
      (∀ x, infoOf g' x = infoOf g x) ∧
      (∀ x, pars g' x = pars g x ++ List.replicate (cs.count x) a) := by
  induction cs generalizing g with
  | nil => exact ⟨g, rfl, rfl, fun _ => rfl, fun _ => rfl, by simp⟩
  | cons c cs ih =>
    have hc : c ∈ g.keys := h c (by simp)
    obtain ⟨n, hn⟩ := exists_node_of_mem hc
    have hk := Dict.keys_set_of_mem (d := g) (k := c) { n with parents := n.parents ++ [a] } hc
    obtain ⟨g', h1, h2, h3, h4, h5⟩ := ih (g.set c { n with parents := n.parents ++ [a] })
      (fun d hd => by rw [hk]; exact h d (by simp [hd]))
    refine ⟨g', by simp [linkParents, hn, h1], h2.trans hk, ?_, ?_, ?_⟩
    · intro x; rw [h3, kids_set]; split
      · subst x; simp [kids_of_get? hn]
      · rfl
    · intro x; rw [h4, infoOf_set]; split
      · subst x; simp [infoOf, hn]
      · rfl
    · intro x; rw [h5, pars_set, List.count_cons]
      by_cases e : c = x
      · subst e
        simp [pars_of_get? hn, List.replicate_succ]
      · simp [e]

theorem linkBoth_spec (a : String) (cs : List String) (g : Graph) (ha : a ∈ g.keys)
    (h : ∀ c ∈ cs, c ∈ g.keys) :
    ∃ g', linkBoth a cs g = (.ok (), g') ∧ g'.keys = g.keys ∧
      (∀ x, kids g' x = if x = a then kids g a ++ cs else kids g x) ∧
      (∀ x, infoOf g' x = infoOf g x) ∧
      (∀ x, pars g' x = pars g x ++ List.replicate (cs.count x) a) := by
  induction cs generalizing g with
  | nil => exact ⟨g, rfl, rfl, by intro x; split <;> simp_all, fun _ => rfl, by simp⟩
  | cons c cs ih =>
    have hc : c ∈ g.keys := h c (by simp)
    obtain ⟨n, hn⟩ := exists_node_of_mem hc
    have hk := Dict.keys_set_of_mem (d := g) (k := c) { n with parents := n.parents ++ [a] } hc
    let g1 : Graph := g.set c { n with parents := n.parents ++ [a] }
    have ha1 : a ∈ g1.keys := by rw [hk]; exact ha
    obtain ⟨na, hna⟩ := exists_node_of_mem ha1
    have hk2 := Dict.keys_set_of_mem (d := g1) (k := a) { na with children := na.children ++ [c] } ha1
    obtain ⟨g', h1, h2, h3, h4, h5⟩ := ih (g1.set a { na with children := na.children ++ [c] })
      (by rw [hk2]; exact ha1)
      (fun d hd => by rw [hk2, hk]; exact h d (by simp [hd]))
    have kg1 : ∀ x, kids g1 x = kids g x := by
      intro x; simp only [g1, kids_set]; split
      · subst x; simp [kids_of_get? hn]
      · rfl
    have ig1 : ∀ x, infoOf g1 x = infoOf g x := by
      intro x; simp only [g1, infoOf_set]; split
      · subst x; simp [infoOf, hn]
      · rfl
    have pg1 : ∀ x, pars g1 x = pars g x ++ (if c = x then [a] else []) := by
      intro x; simp only [g1, pars_set]; split
      · subst x; simp [pars_of_get? hn]
      · simp
    have hna' : na.children = kids g a := by rw [← kg1, kids_of_get? hna]
    refine ⟨g', ?_, h2.trans (hk2.trans hk), ?_, ?_, ?_⟩
    · simp only [linkBoth, hn]
      show (match Dict.get? g1 a with | none => _ | some na => _) = _
      rw [hna]; exact h1
    · intro x
      rw [h3]
      simp only [kids_set, if_true]
      split
      · simp [hna']
      · rename_i hx; simp [Ne.symm hx, kg1]
    · intro x; rw [h4, infoOf_set]; split
      · subst x; rw [← ig1]; simp [infoOf, hna]
      · exact ig1 x
    · intro x
      rw [h5, pars_set]
      have : (if a = x then ({ na with children := na.children ++ [c] } : Node).parents else pars g1 x)
          = pars g1 x := by
        split
        · subst x; simp [pars_of_get? hna]
        · rfl
      rw [this, pg1, List.count_cons]
      by_cases e : c = x
      · subst e; simp [List.replicate_succ]
      · simp [e]

/-- Erase the first `n` occurrences. -/
def eraseN (a : String) : Nat → List String → List String
  | 0, l => l
  | n + 1, l => eraseN a n (l.erase a)

theorem filter_erase (a : String) (l : List String) :
    (l.erase a).filter (· ≠ a) = l.filter (· ≠ a) := by
  induction l with
  | nil => rfl
  | cons x l ih =>
    by_cases h : x = a
    · subst h; simp
    · rw [List.erase_cons_tail (by simpa using h)]
      simp only [List.filter_cons, ih]

theorem eraseN_count (a : String) (n : Nat) (l : List String) (h : l.count a = n) :
    eraseN a n l = l.filter (· ≠ a) := by
  induction n generalizing l with
  | zero =>
    simp only [eraseN]
    symm; rw [List.filter_eq_self]
    intro x hx
    simp only [ne_eq, decide_not, Bool.not_eq_eq_eq_not, Bool.not_true, decide_eq_false_iff_not]
    rintro rfl
    have := List.count_pos_iff.2 hx; omega
  | succ n ih =>
    simp only [eraseN]
    rw [ih, filter_erase]
    rw [List.count_erase_self]; omega

theorem unlinkParents_spec (a : String) (cs : List String) (g : Graph)
    (h : ∀ x, cs.count x ≤ (pars g x).count a) :
    ∃ g', unlinkParents a cs g = (.ok (), g') ∧ g'.keys = g.keys ∧ (∀ x, kids g' x = kids g x) ∧
      (∀ x, infoOf g' x = infoOf g x) ∧
      (∀ x, pars g' x = eraseN a (cs.count x) (pars g x)) := by
  induction cs generalizing g with
  | nil => exact ⟨g, rfl, rfl, fun _ => rfl, fun _ => rfl, by simp [eraseN]⟩
  | cons c cs ih =>
    have h0 : 0 < (pars g c).count a := by
      have := h c; rw [List.count_cons_self] at this; omega
    have hm : a ∈ pars g c := List.count_pos_iff.1 h0
    have hc : c ∈ g.keys := mem_keys_of_has_par hm
    obtain ⟨n, hn⟩ := exists_node_of_mem hc
    have hpn := pars_of_get? hn
    have hk := Dict.keys_set_of_mem (d := g) (k := c) { n with parents := n.parents.erase a } hc
    have hps : ∀ x, pars (Dict.set g c { n with parents := n.parents.erase a }) x
        = if c = x then (pars g x).erase a else pars g x := by
      intro x; rw [pars_set]; split
      · subst x; simp [hpn]
      · rfl
    obtain ⟨g', h1, h2, h3, h4, h5⟩ := ih (g.set c { n with parents := n.parents.erase a })
      (fun x => by
        rw [hps]
        have := h x
        rw [List.count_cons] at this
        split
        · subst x; rw [List.count_erase_self]; simp at this; omega
        · rename_i hx; simp [hx] at this; exact this)
    refine ⟨g', ?_, h2.trans hk, ?_, ?_, ?_⟩
    · have : n.parents.contains a = true := by rw [← hpn]; simpa using hm
      simp only [unlinkParents, hn, this, h1, if_true]
    · intro x; rw [h3, kids_set]; split
      · subst x; simp [kids_of_get? hn]
      · rfl
    · intro x; rw [h4, infoOf_set]; split
      · subst x; simp [infoOf, hn]
      · rfl
    · intro x; rw [h5, hps, List.count_cons]
      by_cases e : c = x
      · subst e; simp [eraseN]
      · simp [e]

theorem unlinkChildren_spec (a : String) (ps : List String) (g : Graph)
    (h : ∀ x, ps.count x ≤ (kids g x).count a) :
    ∃ g', unlinkChildren a ps g = (.ok (), g') ∧ g'.keys = g.keys ∧ (∀ x, pars g' x = pars g x) ∧
      (∀ x, infoOf g' x = infoOf g x) ∧
      (∀ x, kids g' x = eraseN a (ps.count x) (kids g x)) := by
  induction ps generalizing g with
  | nil => exact ⟨g, rfl, rfl, fun _ => rfl, fun _ => rfl, by simp [eraseN]⟩
  | cons c cs ih =>
    have h0 : 0 < (kids g c).count a := by
      have := h c; rw [List.count_cons_self] at this; omega
    have hm : a ∈ kids g c := List.count_pos_iff.1 h0
    have hc : c ∈ g.keys := mem_keys_of_has_kid hm
    obtain ⟨n, hn⟩ := exists_node_of_mem hc
    have hpn := kids_of_get? hn
    have hk := Dict.keys_set_of_mem (d := g) (k := c) { n with children := n.children.erase a } hc
    have hps : ∀ x, kids (Dict.set g c { n with children := n.children.erase a }) x
        = if c = x then (kids g x).erase a else kids g x := by
      intro x; rw [kids_set]; split
      · subst x; simp [hpn]
      · rfl
    obtain ⟨g', h1, h2, h3, h4, h5⟩ := ih (g.set c { n with children := n.children.erase a })
      (fun x => by
        rw [hps]
        have := h x
        rw [List.count_cons] at this
        split
        · subst x; rw [List.count_erase_self]; simp at this; omega
        · rename_i hx; simp [hx] at this; exact this)
    refine ⟨g', ?_, h2.trans hk, ?_, ?_, ?_⟩
    · have : n.children.contains a = true := by rw [← hpn]; simpa using hm
      simp only [unlinkChildren, hn, this, h1, if_true]
    · intro x; rw [h3, pars_set]; split
      · subst x; simp [pars_of_get? hn]
      · rfl
    · intro x; rw [h4, infoOf_set]; split
      · subst x; simp [infoOf, hn]
      · rfl
    · intro x; rw [h5, hps, List.count_cons]
      by_cases e : c = x
      · subst e; simp [eraseN]
      · simp [e]

theorem clearParents_spec (g : Graph) (a : String) :
    (clearParents g a).keys = g.keys ∧ (∀ x, kids (clearParents g a) x = kids g x) ∧
    (∀ x, infoOf (clearParents g a) x = infoOf g x) ∧
    (∀ x, pars (clearParents g a) x = if x = a then [] else pars g x) := by
  unfold clearParents
  rcases hn : g.get? a with _ | n
  · refine ⟨rfl, fun _ => rfl, fun _ => rfl, ?_⟩
    intro x; dsimp only; split
    · subst x; exact pars_of_none hn
    · rfl
  · refine ⟨Dict.keys_set_of_mem _ (Dict.mem_keys_of_get? hn), ?_, ?_, ?_⟩
    · intro x; simp only [kids_set]; split
      · subst x; simp [kids_of_get? hn]
      · rfl
    · intro x; simp only [infoOf_set]; split
      · subst x; simp [infoOf, hn]
      · rfl
    · intro x; simp only [pars_set]
      by_cases e : a = x <;> simp [e, eq_comm]

theorem clearChildren_spec (g : Graph) (a : String) :
    (clearChildren g a).keys = g.keys ∧ (∀ x, pars (clearChildren g a) x = pars g x) ∧
    (∀ x, infoOf (clearChildren g a) x = infoOf g x) ∧
    (∀ x, kids (clearChildren g a) x = if x = a then [] else kids g x) := by
  unfold clearChildren
  rcases hn : g.get? a with _ | n
  · refine ⟨rfl, fun _ => rfl, fun _ => rfl, ?_⟩
    intro x; dsimp only; split
    · subst x; exact kids_of_none hn
    · rfl
  · refine ⟨Dict.keys_set_of_mem _ (Dict.mem_keys_of_get? hn), ?_, ?_, ?_⟩
    · intro x; simp only [pars_set]; split
      · subst x; simp [pars_of_get? hn]
      · rfl
    · intro x; simp only [infoOf_set]; split
      · subst x; simp [infoOf, hn]
      · rfl
    · intro x; simp only [kids_set]
      by_cases e : a = x <;> simp [e, eq_comm]

theorem nodup_of_keys {g h : Graph} (e : g.keys = h.keys) (hn : h.NodupKeys) : g.NodupKeys := by
  unfold Dict.NodupKeys at *; rw [e]; exact hn

theorem replaceChildren_spec {g : Graph} (hw : WF g) {a : String} (ha : a ∈ g.keys) (cs : List String)
    (hcs : ∀ c ∈ cs, c ∈ g.keys) :
    ∃ g', replaceChildren g a (kids g a) cs = (.ok (), g') ∧ g'.keys = g.keys ∧
      (∀ x, infoOf g' x = infoOf g x) ∧
      (∀ x, kids g' x = if x = a then cs else kids g x) ∧
      (∀ x, pars g' x = (pars g x).filter (· ≠ a) ++ List.replicate (cs.count x) a) := by
  obtain ⟨g1, e1, k1, c1, i1, p1⟩ := unlinkParents_spec a (kids g a) g (fun x => by rw [hw.sym]; exact Nat.le_refl _)
  obtain ⟨k2, p2, i2, c2⟩ := clearChildren_spec g1 a
  obtain ⟨g3, e3, k3, c3, i3, p3⟩ := linkBoth_spec a cs (clearChildren g1 a)
    (by rw [k2, k1]; exact ha) (by rw [k2, k1]; exact hcs)
  refine ⟨g3, by simp [replaceChildren, e1, e3], by rw [k3, k2, k1], ?_, ?_, ?_⟩
  · intro x; rw [i3, i2, i1]
  · intro x; rw [c3]; split
    · simp [c2]
    · rename_i hx; rw [c2, if_neg hx, c1]
  · intro x; rw [p3, p2, p1, hw.sym, eraseN_count _ _ _ rfl]

theorem count_filter_ne (a x : String) (l : List String) :
    (l.filter (· ≠ a)).count x = if x = a then 0 else l.count x := by
  by_cases h : x = a
  · subst h; simp [List.count_eq_zero]
  · rw [List.count_filter (by simpa using h)]; simp [h]

theorem WF.replace {g g' : Graph} (hw : WF g) {a : String} {cs : List String}
    (hk : g'.keys = g.keys)
    (hc : ∀ x, kids g' x = if x = a then cs else kids g x)
    (hp : ∀ x, pars g' x = (pars g x).filter (· ≠ a) ++ List.replicate (cs.count x) a) : WF g' := by
  refine ⟨nodup_of_keys hk hw.nodup, ?_⟩
  intro x y
  rw [hc, hp, List.count_append, count_filter_ne, List.count_replicate]
  by_cases h : x = a
  · subst h; simp
  · simp [h, Ne.symm h, hw.sym]

theorem addFile_spec {g : Graph} (a : String) (m : Meta) (cs : List String)
    (ha : a ∉ g.keys) (hcs : ∀ c ∈ cs, c ∈ g.keys) :
    ∃ g', addFile g a m cs = (.ok (), g') ∧ g'.keys = g.keys ++ [a] ∧
      (∀ x, infoOf g' x = if x = a then some m else infoOf g x) ∧
      (∀ x, kids g' x = if x = a then cs else kids g x) ∧
      (∀ x, pars g' x = pars g x ++ List.replicate (cs.count x) a) := by
  have h1 : contains g a = false := by
    have := mt (contains_iff g a).1 ha; simpa using this
  obtain ⟨g1, e1, k1, c1, i1, p1⟩ := linkParents_spec a cs g hcs
  have hak1 : a ∉ g1.keys := by rw [k1]; exact ha
  refine ⟨g1.set a ⟨m, [], cs⟩, ?_, ?_, ?_, ?_, ?_⟩
  · simp [addFile, h1, (any_not_contains g cs).2 hcs, e1]
  · rw [Dict.keys_set_of_not_mem _ hak1, k1]
  · intro x; rw [infoOf_set, i1]; by_cases e : a = x <;> simp [e, eq_comm]
  · intro x; rw [kids_set, c1]; by_cases e : a = x <;> simp [e, eq_comm]
  · intro x; rw [pars_set]
    split
    · subst x
      have : cs.count a = 0 := by
        rw [List.count_eq_zero]; intro hm; exact ha (hcs a hm)
      rw [this, pars_of_none ((Dict.get?_eq_none_iff g a).2 ha)]; rfl
    · exact p1 x

theorem WF.not_mem_kids {g : Graph} (hw : WF g) {a : String} (ha : a ∉ g.keys) (x : String) :
    a ∉ kids g x := fun h => ha (hw.mem_keys_of_kid h)
theorem WF.not_mem_pars {g : Graph} (hw : WF g) {a : String} (ha : a ∉ g.keys) (x : String) :
    a ∉ pars g x := fun h => ha (hw.mem_keys_of_par h)

theorem removeFile_spec {g : Graph} (hw : WF g) (a : String) (p c : Bool) (ha : a ∈ g.keys)
    (hp : pars g a = [] ∨ p = true) (hc : kids g a = [] ∨ c = true) :
    ∃ g', removeFile g a p c = (.ok (), g') ∧ g'.keys = g.keys.filter (· ≠ a) ∧
      (∀ x, infoOf g' x = if x = a then none else infoOf g x) ∧
      (∀ x, kids g' x = if x = a then [] else (kids g x).filter (· ≠ a)) ∧
      (∀ x, pars g' x = if x = a then [] else (pars g x).filter (· ≠ a)) := by
  obtain ⟨n, hn⟩ := exists_node_of_mem ha
  have hpn := pars_of_get? hn
  have hcn := kids_of_get? hn
  obtain ⟨g1, e1, k1, p1, i1, c1⟩ := unlinkChildren_spec a n.parents g
    (fun x => by rw [← hpn, hw.sym]; exact Nat.le_refl _)
  have c1' : ∀ x, kids g1 x = (kids g x).filter (· ≠ a) := fun x => by
    rw [c1, eraseN_count]; rw [← hpn, hw.sym]
  obtain ⟨k2, c2, i2, p2⟩ := clearParents_spec g1 a
  obtain ⟨g3, e3, k3, c3, i3, p3⟩ := unlinkParents_spec a (kids (clearParents g1 a) a) (clearParents g1 a)
    (fun x => by
      rw [c2, c1', p2, p1, count_filter_ne]
      by_cases e : x = a
      · simp [e]
      · simp [e, hw.sym])
  have p3' : ∀ x, x ≠ a → pars g3 x = (pars g x).filter (· ≠ a) := fun x hx => by
    rw [p3, c2, c1', count_filter_ne, if_neg hx, p2, if_neg hx, p1, eraseN_count]
    rw [hw.sym]
  obtain ⟨k4, p4, i4, c4⟩ := clearChildren_spec g3 a
  have hkeys : (clearChildren g3 a).keys = g.keys := by rw [k4, k3, k2, k1]
  have hnd : (clearChildren g3 a).NodupKeys := nodup_of_keys hkeys hw.nodup
  have hget : ∀ x, Dict.get? (Dict.erase (clearChildren g3 a) a) x
      = if x = a then none else Dict.get? (clearChildren g3 a) x := fun x => by
    rw [Dict.get?_erase hnd]; by_cases e : a = x <;> simp [e, eq_comm]
  refine ⟨Dict.erase (clearChildren g3 a) a, ?_, ?_, ?_, ?_, ?_⟩
  · have g1' : (!n.parents.isEmpty && !p) = false := by
      rw [← hpn]; rcases hp with h | h <;> simp [h]
    have g2' : (!n.children.isEmpty && !c) = false := by
      rw [← hcn]; rcases hc with h | h <;> simp [h]
    simp only [removeFile, hn, g1', g2', e1, e3]
    rfl
  · rw [Dict.keys_erase_of_nodup hnd, hkeys]
  · intro x; simp only [infoOf, hget]; split
    · rfl
    · show infoOf _ _ = infoOf _ _
      rw [i4, i3, i2, i1]
  · intro x; simp only [kids, hget]; split
    · rfl
    · rename_i hx
      show kids _ _ = List.filter _ (kids _ _)
      rw [c4, if_neg hx, c3, c2, c1']
  · intro x; simp only [pars, hget]; split
    · rfl
    · rename_i hx
      show pars _ _ = List.filter _ (pars _ _)
      rw [p4, p3' x hx]

theorem WF.remove {g g' : Graph} (hw : WF g) {a : String}
    (hk : g'.keys = g.keys.filter (· ≠ a))
    (hc : ∀ x, kids g' x = if x = a then [] else (kids g x).filter (· ≠ a))
    (hp : ∀ x, pars g' x = if x = a then [] else (pars g x).filter (· ≠ a)) : WF g' := by
  refine ⟨?_, ?_⟩
  · unfold Dict.NodupKeys; rw [hk]; exact List.Pairwise.filter _ hw.nodup
  · intro x y
    rw [hc, hp]
    by_cases hx : x = a
    · subst hx; by_cases hy : y = x
      · simp [hy]
      · rw [if_pos rfl, if_neg hy, count_filter_ne, if_pos rfl]; rfl
    · by_cases hy : y = a
      · subst hy; rw [if_neg hx, if_pos rfl, count_filter_ne, if_pos rfl]; rfl
      · simp only [if_neg hx, if_neg hy, count_filter_ne, hw.sym]

theorem WF.add {g g' : Graph} (hw : WF g) {a : String} {cs : List String} (ha : a ∉ g.keys)
    (hk : g'.keys = g.keys ++ [a])
    (hc : ∀ x, kids g' x = if x = a then cs else kids g x)
    (hp : ∀ x, pars g' x = pars g x ++ List.replicate (cs.count x) a) : WF g' := by
  refine ⟨?_, ?_⟩
  · unfold Dict.NodupKeys; rw [hk, List.nodup_append]
    refine ⟨hw.nodup, by simp, ?_⟩
    rintro x hx y hy rfl
    simp only [List.mem_singleton] at hy
    subst hy; exact ha hx
  · intro x y
    rw [hc, hp, List.count_append, List.count_replicate]
    by_cases hx : x = a
    · subst hx
      have : (pars g y).count x = 0 := List.count_eq_zero.2 (hw.not_mem_pars ha y)
      simp [this]
    · simp [hx, Ne.symm hx, hw.sym]

/-! ### outcome of each operation -/

theorem addFile_cases {g : Graph} (hw : WF g) (a : String) (m : Meta) (cs : List String) :
    (addFile g a m cs = (.error .valueError, g) ∧ (a ∈ g.keys ∨ ∃ c ∈ cs, c ∉ g.keys)) ∨
    (a ∉ g.keys ∧ (∀ c ∈ cs, c ∈ g.keys) ∧ ∃ g', addFile g a m cs = (.ok (), g') ∧ WF g') := by
  by_cases ha : a ∈ g.keys
  · left; exact ⟨by simp [addFile, (contains_iff g a).2 ha], .inl ha⟩
  by_cases hcs : ∀ c ∈ cs, c ∈ g.keys
  · right
    obtain ⟨g', e, k, _, c, p⟩ := addFile_spec a m cs ha hcs
    exact ⟨ha, hcs, g', e, hw.add ha k c p⟩
  · left
    refine ⟨?_, .inr (by simpa using hcs)⟩
    have h1 : contains g a = false := by
      have := mt (contains_iff g a).1 ha; simpa using this
    have h2 : cs.any (fun c => !contains g c) = true := by
      rw [← Bool.not_eq_false]; exact mt (any_not_contains g cs).1 hcs
    simp only [addFile, h1, h2]; rfl

theorem removeFile_cases {g : Graph} (hw : WF g) (a : String) (p c : Bool) :
    (removeFile g a p c = (.error .valueError, g) ∧
      (a ∉ g.keys ∨ (pars g a ≠ [] ∧ p = false) ∨ (kids g a ≠ [] ∧ c = false))) ∨
    (a ∈ g.keys ∧ (pars g a = [] ∨ p = true) ∧ (kids g a = [] ∨ c = true) ∧
      ∃ g', removeFile g a p c = (.ok (), g') ∧ WF g') := by
  by_cases ha : a ∈ g.keys
  · obtain ⟨n, hn⟩ := exists_node_of_mem ha
    by_cases hp : pars g a = [] ∨ p = true
    · by_cases hc : kids g a = [] ∨ c = true
      · right
        obtain ⟨g', e, k, _, c', p'⟩ := removeFile_spec hw a p c ha hp hc
        exact ⟨ha, hp, hc, g', e, hw.remove k c' p'⟩
      · left
        simp only [not_or, Bool.not_eq_true] at hc
        refine ⟨?_, .inr (.inr hc)⟩
        have g1' : (!n.parents.isEmpty && !p) = false := by
          rw [← pars_of_get? hn]; rcases hp with h | h <;> simp [h]
        have g2' : (!n.children.isEmpty && !c) = true := by
          rw [← kids_of_get? hn]; simp [hc]
        simp only [removeFile, hn, g1', g2']; rfl
    · left
      simp only [not_or, Bool.not_eq_true] at hp
      refine ⟨?_, .inr (.inl hp)⟩
      have g1' : (!n.parents.isEmpty && !p) = true := by
        rw [← pars_of_get? hn]; simp [hp]
      simp only [removeFile, hn, g1']; rfl
  · left
    exact ⟨by simp [removeFile, (Dict.get?_eq_none_iff g a).2 ha], .inl ha⟩

theorem setChildren_cases {g : Graph} (hw : WF g) (a : String) (cs : List String) (pc : Bool) :
    ((∃ e, setChildren g a cs pc = (.error e, g)) ∧
      (a ∉ g.keys ∨ (∃ c ∈ cs, c ∉ g.keys) ∨ (pc = true ∧ anyCycle g a cs ≠ .ok false))) ∨
    (a ∈ g.keys ∧ (∀ c ∈ cs, c ∈ g.keys) ∧ (pc = true → anyCycle g a cs = .ok false) ∧
      ∃ g', setChildren g a cs pc = (.ok (), g') ∧ replaceChildren g a (kids g a) cs = (.ok (), g')
        ∧ WF g') := by
  by_cases ha : a ∈ g.keys
  · obtain ⟨n, hn⟩ := exists_node_of_mem ha
    by_cases hcs : ∀ c ∈ cs, c ∈ g.keys
    · have h2 := (any_not_contains g cs).2 hcs
      by_cases hpc : pc = true → anyCycle g a cs = .ok false
      · right
        obtain ⟨g', e, k, _, c', p'⟩ := replaceChildren_spec hw ha cs hcs
        refine ⟨ha, hcs, hpc, g', ?_, e, hw.replace k c' p'⟩
        have : (if pc then anyCycle g a cs else .ok false) = .ok false := by
          split
          · rename_i h; exact hpc h
          · rfl
        simp only [setChildren, hn, h2, this]
        rw [← kids_of_get? hn]; exact e
      · left
        simp only [Classical.not_imp] at hpc
        refine ⟨?_, .inr (.inr hpc)⟩
        simp only [setChildren, hn, h2, hpc.1]
        rcases hx : anyCycle g a cs with e | b
        · exact ⟨e, rfl⟩
        · cases b
          · exact absurd hx hpc.2
          · exact ⟨_, rfl⟩
    · left
      have h2 : cs.any (fun c => !contains g c) = true := by
        rw [← Bool.not_eq_false]; exact mt (any_not_contains g cs).1 hcs
      refine ⟨⟨.valueError, ?_⟩, .inr (.inl (by simpa using hcs))⟩
      simp only [setChildren, hn, h2]; rfl
  · left
    exact ⟨⟨_, by simp [setChildren, (Dict.get?_eq_none_iff g a).2 ha]; rfl⟩, .inl ha⟩

theorem WF.step {g : Graph} (hw : WF g) (op : Op) : WF (step g op).2 := by
  cases op with
  | add a m cs =>
    rcases addFile_cases hw a m cs with ⟨h, _⟩ | ⟨_, _, g', h, hg⟩
    · simp only [Graph.step, h]; exact hw
    · simp only [Graph.step, h]; exact hg
  | remove a p c =>
    rcases removeFile_cases hw a p c with ⟨h, _⟩ | ⟨_, _, _, g', h, hg⟩
    · simp only [Graph.step, h]; exact hw
    · simp only [Graph.step, h]; exact hg
  | setChildren a cs pc =>
    rcases setChildren_cases hw a cs pc with ⟨⟨e, h⟩, _⟩ | ⟨_, _, _, g', h, _, hg⟩
    · simp only [Graph.step, h]; exact hw
    · simp only [Graph.step, h]; exact hg

theorem wf_run (ops : List Op) {g : Graph} (hw : WF g) : WF (run g ops) := by
  induction ops generalizing g with
  | nil => exact hw
  | cons op ops ih => exact ih (hw.step op)

end Verif.Graph
