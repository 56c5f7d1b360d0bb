import Verif.Nest

/-!
The bookkeeping of the rules: what `setRule` does to rules which are registered for the first time, and to rules
which have become resolvable.
-/

namespace Verif.Nest

open Verif.Reader Verif.Css Verif.Assoc

/-- nest.py:95-100: the documented meaning of the counter of the file `p`. -/
def documented (rs : Rules) (p : Text) : Nat :=
  (rs.unres.map fun x => (x.2.missing.filter (·.relpath = p)).length).sum

/-- What the fields of the rules have to do with each other. -/
structure Book (rs : Rules) : Prop where
  nodup : (keys rs.unres).Nodup
  missNodup : ∀ r u, item rs.unres r = some u → u.missing.Nodup
  apart : ∀ r u, item rs.unres r = some u → item rs.avail r = none
  missing : ∀ r u, item rs.unres r = some u → ∀ m ∈ u.missing, item rs.avail m = none
  wait : ∀ r m, (∃ l, item rs.waiting m = some l ∧ r ∈ l) ↔ ∃ u, item rs.unres r = some u ∧ m ∈ u.missing
  waitNodup : ∀ m l, item rs.waiting m = some l → l ≠ [] ∧ l.Nodup
  ready : ∀ r, r ∈ rs.resolvable ↔ ∃ u, item rs.unres r = some u ∧ u.missing = []
  counts : ∀ p, (documented rs p : Int) ≤ (item rs.counts p).getD 0

theorem Book.empty : Book .empty := by
  constructor <;> intros <;> simp_all [Rules.empty, item, keys, documented]

/-! ## The documented counter -/

/-- The sum of a function over the values of a dictionary. -/
def total (f : Unresolved → Nat) (d : List (Ref × Unresolved)) : Nat := (d.map fun x => f x.2).sum

theorem total_del (f : Unresolved → Nat) {d : List (Ref × Unresolved)} (hn : (keys d).Nodup) (r : Ref) :
    total f (del d r) + ((item d r).map f).getD 0 = total f d := by
  induction d with
  | nil => simp [del, total, item]
  | cons p d ih =>
    obtain ⟨a, b⟩ := p
    simp only [keys, List.map_cons, List.nodup_cons] at hn
    have ih := ih hn.2
    unfold total del at ih ⊢
    simp only [item]
    by_cases h : a = r
    · subst h
      have hd : item d a = none := get_none.2 hn.1
      rw [hd] at ih
      rw [List.filter_cons_of_neg (by simp), if_pos rfl]
      simp only [Option.map_none, Option.getD_none, Option.map_some, Option.getD_some, List.map_cons, List.sum_cons] at ih ⊢
      omega
    · rw [List.filter_cons_of_pos (by simp [h]), if_neg h]
      simp only [List.map_cons, List.sum_cons]
      omega

theorem total_put (f : Unresolved → Nat) (d : List (Ref × Unresolved)) (r : Ref) (u : Unresolved) :
    total f (put d r u) + ((item d r).map f).getD 0 = total f d + f u := by
  induction d with
  | nil => simp [put, total, item]
  | cons p d ih =>
    obtain ⟨a, b⟩ := p
    unfold total at ih ⊢
    simp only [put, item]
    by_cases h : a = r
    · rw [if_pos h, if_pos h]
      simp only [Option.map_some, Option.getD_some, List.map_cons, List.sum_cons]
      omega
    · rw [if_neg h, if_neg h]
      simp only [List.map_cons, List.sum_cons]
      omega

theorem total_le (f : Unresolved → Nat) {d : List (Ref × Unresolved)} {r : Ref} {u : Unresolved} (h : item d r = some u) :
    f u ≤ total f d := by
  induction d with
  | nil => simp [item] at h
  | cons p d ih =>
    obtain ⟨a, b⟩ := p
    unfold total at ih ⊢
    simp only [item] at h
    simp only [List.map_cons, List.sum_cons]
    split at h
    · cases h; omega
    · have := ih h; omega

/-- The number of the references to the file. -/
def refs (p : Text) (u : Unresolved) : Nat := (u.missing.filter (·.relpath = p)).length

theorem documented_eq (rs : Rules) (p : Text) : documented rs p = total (refs p) rs.unres := rfl

theorem refs_erase (p : Text) (block : List Tok) {l : List Ref} {m : Ref} (hm : m ∈ l) :
    refs p ⟨block, l.erase m⟩ + (if m.relpath = p then 1 else 0) = refs p ⟨block, l⟩ := by
  unfold refs
  induction l with
  | nil => simp at hm
  | cons a l ih =>
    simp only at ih ⊢
    by_cases h : a = m
    · subst h
      rw [List.erase_cons_head]
      by_cases hp : a.relpath = p <;> simp [List.filter_cons, hp]
    · rw [List.erase_cons_tail (by simpa using h)]
      have hm' : m ∈ l := by rcases List.mem_cons.1 hm with h' | h'; exact absurd h'.symm h; exact h'
      have := ih hm'
      by_cases hp : a.relpath = p <;> simp [List.filter_cons, hp] <;> omega

/-! ## A rule becomes available -/

theorem release_spec (ref : Ref) : ∀ (ws : List Ref) (rs : Rules), ws.Nodup →
    (∀ w ∈ ws, ∃ u, item rs.unres w = some u ∧ ref ∈ u.missing) → (keys rs.unres).Nodup →
    ∃ rs', release ref ws rs = .ok rs' ∧ rs'.avail = rs.avail ∧ rs'.waiting = rs.waiting ∧ rs'.counts = rs.counts ∧
      (keys rs'.unres).Nodup ∧
      (∀ r, item rs'.unres r = if r ∈ ws then (item rs.unres r).map (fun u => ⟨u.block, u.missing.erase ref⟩)
        else item rs.unres r) ∧
      (∀ r, r ∈ rs'.resolvable ↔ r ∈ rs.resolvable ∨ r ∈ ws ∧ ∃ u, item rs.unres r = some u ∧ u.missing.erase ref = []) ∧
      (∀ p, documented rs' p + (if ref.relpath = p then ws.length else 0) = documented rs p) := by
  intro ws
  induction ws with
  | nil => intro rs _ _ hk; exact ⟨rs, rfl, rfl, rfl, rfl, hk, by simp, by simp, by simp⟩
  | cons w ws ih =>
    intro rs hn hw hk
    obtain ⟨u, hu, hmem⟩ := hw w (by simp)
    simp only [List.nodup_cons] at hn
    have hne : ∀ r ∈ ws, r ≠ w := fun r hr e => hn.1 (e ▸ hr)
    obtain ⟨rs', h1, h2, h3, h4, h5, h6, h7, h8⟩ := ih { rs with
          unres := put rs.unres w ⟨u.block, u.missing.erase ref⟩
          resolvable := if u.missing.erase ref = [] then add rs.resolvable w else rs.resolvable } hn.2
      (fun r hr => by
        obtain ⟨u', hu', hm'⟩ := hw r (by simp [hr])
        exact ⟨u', by rw [get_put, if_neg (hne r hr)]; exact hu', hm'⟩) (nodup_put hk _ _)
    refine ⟨rs', ?_, h2, h3, h4, h5, ?_, ?_, ?_⟩
    · simp only [release, hu, if_pos hmem]; exact h1
    · intro r
      rw [h6, get_put]
      by_cases hr : r = w
      · subst hr; rw [if_neg hn.1, if_pos rfl, if_pos (by simp), hu]; rfl
      · rw [if_neg hr]; simp only [List.mem_cons, hr, false_or]
    · intro r
      rw [h7, get_put]
      have hadd : r ∈ add rs.resolvable w ↔ r ∈ rs.resolvable ∨ r = w := by
        unfold add
        split
        · next hw => constructor
                     · exact .inl
                     · rintro (h | rfl)
                       · exact h
                       · exact hw
        · simp
      by_cases hr : r = w
      · subst hr
        simp only [hn.1, false_and, or_false, List.mem_cons, true_or, true_and, hu, Option.some.injEq, exists_eq_left']
        split
        · next he => rw [hadd]; simp [he]
        · next he => simp [he]
      · rw [if_neg hr]
        simp only [List.mem_cons, hr, false_or]
        split
        · rw [hadd]; simp [hr]
        · rfl
    · intro p
      have h9 := h8 p
      rw [documented_eq] at h9 ⊢
      have h10 := total_put (refs p) rs.unres w ⟨u.block, u.missing.erase ref⟩
      have h11 := refs_erase p u.block hmem
      rw [documented_eq] at h9 ⊢
      rw [hu] at h10
      simp only [Option.map_some, Option.getD_some, List.length_cons] at h9 h10 ⊢
      have h12 : refs p ⟨u.block, u.missing⟩ = refs p u := rfl
      split at h9 <;> split <;> simp_all <;> omega

/-- Erasing an element which is not there changes nothing. -/
theorem erase_missing (u : Unresolved) (m : Ref) (h : m ∉ u.missing) : (⟨u.block, u.missing.erase m⟩ : Unresolved) = u := by
  rw [List.erase_of_not_mem h]

/-- A rule without missing references, which is not registered or has become resolvable, becomes available, and
nothing waits for it any longer. -/
theorem setRule_avail {rs : Rules} (hb : Book rs) (ref : Ref) (block : List Tok) (hna : item rs.avail ref = none)
    (hu : ∀ u, item rs.unres ref = some u → u.missing = []) :
    ∃ rs', setRule rs ref block [] = .ok rs' ∧ Book rs' ∧ rs'.avail = put rs.avail ref block ∧
      (∀ r, item rs'.unres r = if r = ref then none else
        (item rs.unres r).map (fun u => ⟨u.block, u.missing.erase ref⟩)) ∧
      (∀ p, documented rs' p ≤ documented rs p) := by
  have hdoc : ∀ p, total (refs p) (del rs.unres ref) = documented rs p := by
    intro p
    have := total_del (refs p) hb.nodup ref
    rw [documented_eq]
    cases h : item rs.unres ref with
    | none => simp [h] at this; omega
    | some u =>
      have hr : refs p u = 0 := by unfold refs; rw [hu u h]; rfl
      simp only [h, Option.map_some, Option.getD_some, hr] at this
      omega
  -- `ref` does not wait for itself
  have hself : ∀ l, item rs.waiting ref = some l → ref ∉ l := by
    intro l hl hr
    obtain ⟨u, h1, h2⟩ := (hb.wait ref ref).1 ⟨l, hl, hr⟩
    rw [hu u h1] at h2; simp at h2
  unfold setRule
  rw [if_neg (by simp [hna]), if_pos rfl]
  dsimp only
  cases hw : item rs.waiting ref with
  | none =>
    dsimp only
    have hnone : ∀ r u, item rs.unres r = some u → ref ∉ u.missing := by
      intro r u h1 h2
      obtain ⟨l, h3, -⟩ := (hb.wait r ref).2 ⟨u, h1, h2⟩
      rw [hw] at h3; cases h3
    refine ⟨_, rfl, ⟨nodup_del hb.nodup _, ?_, ?_, ?_, ?_, hb.waitNodup, ?_, ?_⟩, rfl, ?_, ?_⟩
    · intro r u h
      dsimp only at h; rw [get_del] at h
      split at h
      · cases h
      · exact hb.missNodup r u h
    · intro r u h
      dsimp only at h ⊢; rw [get_del] at h
      split at h
      · cases h
      · next hr => rw [get_put, if_neg hr]; exact hb.apart r u h
    · intro r u h m hm
      dsimp only at h ⊢; rw [get_del] at h
      split at h
      · cases h
      · next hr =>
        rw [get_put, if_neg (fun e => hnone r u h (by subst e; exact hm))]
        exact hb.missing r u h m hm
    · intro r m
      dsimp only
      rw [hb.wait, get_del]
      by_cases hr : r = ref
      · subst hr
        simp only [if_true]
        constructor
        · rintro ⟨u, h1, h2⟩; rw [hu u h1] at h2; simp at h2
        · rintro ⟨u, h1, -⟩; cases h1
      · rw [if_neg hr]
    · intro r
      dsimp only
      rw [List.mem_filter, hb.ready, get_del]
      by_cases hr : r = ref
      · subst hr; simp
      · rw [if_neg hr]; simp [hr]
    · intro p
      have := hb.counts p
      rw [documented_eq]
      dsimp only
      rw [hdoc]; exact this
    · intro r
      dsimp only
      rw [get_del]
      split
      · rfl
      · cases h : item rs.unres r with
        | none => rfl
        | some u => rw [Option.map_some, erase_missing u ref (hnone r u h)]
    · intro p
      rw [documented_eq]
      dsimp only
      rw [hdoc]; exact Nat.le_refl _
  | some ws =>
    dsimp only
    obtain ⟨hwne, hwn⟩ := hb.waitNodup ref ws hw
    have hws : ∀ r, r ∈ ws ↔ ∃ u, item rs.unres r = some u ∧ ref ∈ u.missing := by
      intro r
      rw [← hb.wait r ref]
      constructor
      · intro h; exact ⟨ws, hw, h⟩
      · rintro ⟨l, h1, h2⟩; rw [hw] at h1; cases h1; exact h2
    have hpos : 0 < documented rs ref.relpath := by
      cases hws' : ws with
      | nil => exact absurd hws' hwne
      | cons w ws' =>
        obtain ⟨u, h1, h2⟩ := (hws w).1 (by rw [hws']; simp)
        have h3 := total_le (refs ref.relpath) h1
        have h4 : 0 < refs ref.relpath u := by
          unfold refs
          exact List.length_pos_of_mem (List.mem_filter.2 ⟨h2, by simp⟩)
        rw [documented_eq]; omega
    have hcnt := hb.counts ref.relpath
    cases hc : item rs.counts ref.relpath with
    | none => rw [hc] at hcnt; simp at hcnt; omega
    | some n =>
      rw [hc] at hcnt
      simp only [Option.getD_some] at hcnt
      simp only [decCount, hc]
      have href : ref ∉ ws := hself ws hw
      obtain ⟨rs', h1, h2, h3, h4, h5, h6, h7, h8⟩ := release_spec ref ws
        { rs with
          unres := del rs.unres ref
          resolvable := rs.resolvable.filter (· ≠ ref)
          avail := put rs.avail ref block
          waiting := del rs.waiting ref
          counts := if n - 1 = 0 then del rs.counts ref.relpath else put rs.counts ref.relpath (n - 1) } hwn
        (fun w hw' => by
          obtain ⟨u, h1, h2⟩ := (hws w).1 hw'
          refine ⟨u, ?_, h2⟩
          rw [get_del, if_neg (fun e : w = ref => href (e ▸ hw'))]; exact h1) (nodup_del hb.nodup _)
      dsimp only at h2 h3 h4 h6 h7 h8
      have h6' : ∀ r, item rs'.unres r = if r = ref then none else
          (item rs.unres r).map (fun u => ⟨u.block, u.missing.erase ref⟩) := by
        intro r
        rw [h6, get_del]
        by_cases hr : r = ref
        · subst hr; simp
        · rw [if_neg hr, if_neg hr]
          split
          · rfl
          · next hnw =>
            cases h : item rs.unres r with
            | none => rfl
            | some u => rw [Option.map_some, erase_missing u ref (fun hm => hnw ((hws r).2 ⟨u, h, hm⟩))]
      have hdoc' : ∀ p, documented rs' p + (if ref.relpath = p then ws.length else 0) = documented rs p := by
        intro p
        have := h8 p
        rw [documented_eq { rs with
          unres := del rs.unres ref
          resolvable := rs.resolvable.filter (· ≠ ref)
          avail := put rs.avail ref block
          waiting := del rs.waiting ref
          counts := if n - 1 = 0 then del rs.counts ref.relpath else put rs.counts ref.relpath (n - 1) }] at this
        dsimp only at this
        rw [hdoc] at this; exact this
      have hinv : ∀ r u', item rs'.unres r = some u' → r ≠ ref ∧ ∃ u, item rs.unres r = some u ∧
          u'.missing = u.missing.erase ref := by
        intro r u' h
        rw [h6'] at h
        split at h
        · cases h
        · next hr =>
          cases h' : item rs.unres r with
          | none => rw [h'] at h; cases h
          | some u => rw [h'] at h; cases h; exact ⟨hr, u, rfl, rfl⟩
      refine ⟨rs', h1, ⟨h5, ?_, ?_, ?_, ?_, ?_, ?_, ?_⟩, h2, h6', ?_⟩
      · intro r u' h
        obtain ⟨-, u, h9, h10⟩ := hinv r u' h
        rw [h10]; exact (hb.missNodup r u h9).erase _
      · intro r u' h
        obtain ⟨hr, u, h9, h10⟩ := hinv r u' h
        rw [h2, get_put, if_neg hr]; exact hb.apart r u h9
      · intro r u' h m hm
        obtain ⟨hr, u, h9, h10⟩ := hinv r u' h
        rw [h10] at hm
        rw [(hb.missNodup r u h9).mem_erase_iff] at hm
        rw [h2, get_put, if_neg hm.1]; exact hb.missing r u h9 m hm.2
      · intro r m
        rw [h3, get_del]
        constructor
        · rintro ⟨l, hl, hr⟩
          split at hl
          · cases hl
          · next hm =>
            obtain ⟨u, h9, h10⟩ := (hb.wait r m).1 ⟨l, hl, hr⟩
            have hrr : r ≠ ref := fun e => by subst e; rw [hu u h9] at h10; simp at h10
            refine ⟨⟨u.block, u.missing.erase ref⟩, ?_, ?_⟩
            · rw [h6', if_neg hrr, h9]; rfl
            · exact (hb.missNodup r u h9).mem_erase_iff.2 ⟨hm, h10⟩
        · rintro ⟨u', h, hm⟩
          obtain ⟨hr, u, h9, h10⟩ := hinv r u' h
          rw [h10, (hb.missNodup r u h9).mem_erase_iff] at hm
          obtain ⟨l, h11, h12⟩ := (hb.wait r m).2 ⟨u, h9, hm.2⟩
          exact ⟨l, by rw [if_neg hm.1]; exact h11, h12⟩
      · intro m l hl
        rw [h3, get_del] at hl
        split at hl
        · cases hl
        · exact hb.waitNodup m l hl
      · intro r
        rw [h7, List.mem_filter, hb.ready]
        constructor
        · rintro (⟨⟨u, h9, h10⟩, hr⟩ | ⟨hr, u, h9, h10⟩)
          · simp only [decide_eq_true_eq] at hr
            exact ⟨⟨u.block, u.missing.erase ref⟩, by rw [h6', if_neg hr, h9]; rfl, by rw [h10]; rfl⟩
          · rw [get_del] at h9
            split at h9
            · cases h9
            · next hrr => exact ⟨⟨u.block, u.missing.erase ref⟩, by rw [h6', if_neg hrr, h9]; rfl, h10⟩
        · rintro ⟨u', h, hm⟩
          obtain ⟨hr, u, h9, h10⟩ := hinv r u' h
          rw [hm] at h10
          by_cases hwr : r ∈ ws
          · exact .inr ⟨hwr, u, by rw [get_del, if_neg hr]; exact h9, h10.symm⟩
          · refine .inl ⟨⟨u, h9, ?_⟩, by simp [hr]⟩
            rw [List.erase_of_not_mem (fun hm' => hwr ((hws r).2 ⟨u, h9, hm'⟩))] at h10
            exact h10.symm
      · intro p
        have h9 := hdoc' p
        have h10 := hb.counts p
        have hl : 0 < ws.length := List.length_pos_iff.2 hwne
        rw [h4]
        by_cases hp : ref.relpath = p
        · subst hp
          rw [if_pos rfl] at h9
          split
          · next h0 => rw [get_del, if_pos rfl]; simp only [Option.getD_none]; omega
          · rw [get_put, if_pos rfl]; simp only [Option.getD_some]; omega
        · rw [if_neg hp] at h9
          split
          · rw [get_del, if_neg (fun e => hp e.symm)]; omega
          · rw [get_put, if_neg (fun e => hp e.symm)]; omega
      · intro p
        have := hdoc' p
        omega

/-! ## A rule waits for others -/

theorem awaits_spec (ref : Ref) : ∀ (ms : List Ref) (rs : Rules), ms.Nodup →
    (ms.foldl (await ref) rs).avail = rs.avail ∧ (ms.foldl (await ref) rs).unres = rs.unres ∧
    (ms.foldl (await ref) rs).resolvable = rs.resolvable ∧
    (∀ m, item (ms.foldl (await ref) rs).waiting m = if m ∈ ms then some ((item rs.waiting m).getD [] ++ [ref])
      else item rs.waiting m) ∧
    (∀ p, (item (ms.foldl (await ref) rs).counts p).getD 0 = (item rs.counts p).getD 0 + ((ms.filter (·.relpath = p)).length : Nat)) := by
  intro ms
  induction ms with
  | nil => intro rs _; exact ⟨rfl, rfl, rfl, by simp, by simp⟩
  | cons m ms ih =>
    intro rs hn
    simp only [List.nodup_cons] at hn
    obtain ⟨h1, h2, h3, h4, h5⟩ := ih (await ref rs m) hn.2
    rw [List.foldl_cons]
    refine ⟨h1, h2, h3, ?_, ?_⟩
    · intro m'
      rw [h4]
      simp only [await, get_put]
      by_cases h : m' = m
      · subst h
        rw [if_neg hn.1, if_pos rfl, if_pos (by simp)]
        cases item rs.waiting m' <;> rfl
      · have e : (m' ∈ m :: ms) = (m' ∈ ms) := by simp [h]
        simp only [if_neg h, e]
    · intro p
      rw [h5]
      simp only [await, get_put]
      by_cases h : m.relpath = p
      · subst h
        rw [if_pos rfl, List.filter_cons_of_pos (by simp)]
        simp only [Option.getD_some, List.length_cons]
        omega
      · rw [if_neg (fun e => h e.symm), List.filter_cons_of_neg (by simp [h])]

/-- A rule with missing references, which is not registered, is registered. -/
theorem setRule_unres {rs : Rules} (hb : Book rs) (ref : Ref) (block : List Tok) (missing : List Ref)
    (hne : missing ≠ []) (hn : missing.Nodup) (hm : ∀ m ∈ missing, item rs.avail m = none)
    (hna : item rs.avail ref = none) (hnu : item rs.unres ref = none) :
    ∃ rs', setRule rs ref block missing = .ok rs' ∧ Book rs' ∧ rs'.avail = rs.avail ∧
      (∀ r, item rs'.unres r = if r = ref then some ⟨block, missing⟩ else item rs.unres r) ∧
      (∀ p, documented rs' p = documented rs p + (missing.filter (·.relpath = p)).length) := by
  unfold setRule
  rw [if_neg (by simp [hna]), if_neg hne]
  have hf : missing.filter (fun x => decide (x ∉ ([] : List Ref))) = missing := List.filter_eq_self.2 (by simp)
  simp only [hnu, hf, List.filter_nil, unawaitAll]
  obtain ⟨h1, h2, h3, h4, h5⟩ := awaits_spec ref missing { rs with unres := put (del rs.unres ref) ref ⟨block, missing⟩ } hn
  have hun : ∀ r, item (put (del rs.unres ref) ref ⟨block, missing⟩) r = if r = ref then some ⟨block, missing⟩ else item rs.unres r := by
    intro r
    rw [get_put, get_del]
    split <;> rfl
  have hnw : ∀ m l, item rs.waiting m = some l → ref ∉ l := by
    intro m l hl hr
    obtain ⟨u, h6, -⟩ := (hb.wait ref m).1 ⟨l, hl, hr⟩
    rw [hnu] at h6; cases h6
  have hdoc : ∀ p, total (refs p) (put (del rs.unres ref) ref ⟨block, missing⟩) =
      documented rs p + (missing.filter (·.relpath = p)).length := by
    intro p
    have e1 := total_del (refs p) hb.nodup ref
    have e2 := total_put (refs p) (del rs.unres ref) ref ⟨block, missing⟩
    have e3 : item (del rs.unres ref) ref = none := by rw [get_del, if_pos rfl]
    rw [hnu] at e1
    rw [e3] at e2
    simp only [Option.map_none, Option.getD_none] at e1 e2
    rw [documented_eq]
    have e4 : refs p ⟨block, missing⟩ = (missing.filter (·.relpath = p)).length := rfl
    omega
  refine ⟨_, rfl, ⟨?_, ?_, ?_, ?_, ?_, ?_, ?_, ?_⟩, h1, ?_, ?_⟩
  · rw [h2]; exact nodup_put (nodup_del hb.nodup _) _ _
  · intro r u h
    rw [h2] at h; dsimp only at h; rw [hun] at h
    split at h
    · cases h; exact hn
    · exact hb.missNodup r u h
  · intro r u h
    rw [h2] at h; dsimp only at h; rw [hun] at h
    rw [h1]
    split at h
    · next e => rw [e]; exact hna
    · exact hb.apart r u h
  · intro r u h m hm'
    rw [h2] at h; dsimp only at h; rw [hun] at h
    rw [h1]
    split at h
    · cases h; exact hm m hm'
    · exact hb.missing r u h m hm'
  · intro r m
    rw [h2]; dsimp only; rw [hun, h4]
    by_cases hr : r = ref
    · subst hr
      simp only [if_true, Option.some.injEq, exists_eq_left']
      by_cases hmm : m ∈ missing
      · simp [hmm]
      · simp only [hmm, if_false, iff_false]
        rintro ⟨l, h6, h7⟩
        exact hnw m l h6 h7
    · rw [if_neg hr, ← hb.wait r m]
      by_cases hmm : m ∈ missing
      · rw [if_pos hmm]
        simp only [Option.some.injEq, exists_eq_left', List.mem_append, List.mem_singleton, hr, or_false]
        cases item rs.waiting m with
        | none => simp
        | some l => simp
      · rw [if_neg hmm]
  · intro m l hl
    rw [h4] at hl
    split at hl
    · cases hl
      refine ⟨by simp, ?_⟩
      rw [List.nodup_append]
      refine ⟨?_, by simp, ?_⟩
      · cases h : item rs.waiting m with
        | none => simp
        | some l => exact (hb.waitNodup m l h).2
      · intro a ha b hb' e
        rw [List.mem_singleton] at hb'
        subst hb'; subst e
        cases h : item rs.waiting m with
        | none => dsimp only at ha; rw [h] at ha; simp at ha
        | some l => dsimp only at ha; rw [h] at ha; exact hnw m l h ha
    · exact hb.waitNodup m l hl
  · intro r
    rw [h3, h2]; dsimp only; rw [hun, hb.ready]
    by_cases hr : r = ref
    · subst hr; simp [hnu, hne]
    · rw [if_neg hr]
  · intro p
    have := hb.counts p
    rw [h5, documented_eq, h2]; dsimp only; rw [hdoc]
    push_cast
    omega
  · intro r; rw [h2]; exact hun r
  · intro p; rw [documented_eq, h2]; exact hdoc p

end Verif.Nest
