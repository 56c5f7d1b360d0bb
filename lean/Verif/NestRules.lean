import Verif.NestRun

/-!
# The bookkeeping of nested rules (C47)

The rules are used through one operation, `set_rule`: a rule is registered with the references which it needs and which
are not available yet, and a rule which has become resolvable is made available with its expanded block.
-/

namespace Verif.Nest

open Verif.Reader Verif.Css Verif.Assoc

/-! ## Specification -/

/-- The rules which were registered, with all the rules which they refer to. -/
abbrev History := List (Ref × List Ref)

/-- All references of a rule, directly or through others, are registered, and they are not circular. -/
inductive Solved (H : History) : Ref → Prop
  | rule {r needs} : (r, needs) ∈ H → (∀ m ∈ needs, Solved H m) → Solved H r

/-- The uses of the rules. -/
inductive Op where
  /-- A rule which refers to `needs` is found (nest.py:577-586). -/
  | register (ref : Ref) (block : List Tok) (needs : List Ref)
  /-- A resolvable rule is expanded to `block` (nest.py:610-615). -/
  | settle (ref : Ref) (block : List Tok)

/-- The missing references are those which are not available (nest.py:545). -/
def Op.run (rs : Rules) : Op → Except Err Rules
  | .register ref block needs => setRule rs ref block (needs.filter fun m => (item rs.avail m).isNone)
  | .settle ref block => setRule rs ref block []

/-- A sequence of uses: rules are registered once, and settled when they are listed as resolvable. -/
inductive Uses : Rules → History → Prop
  | new : Uses .empty []
  | register {rs H ref block needs rs'} : Uses rs H → ref ∉ keys H → needs.Nodup → (Op.register ref block needs).run rs = .ok rs' →
      Uses rs' (H ++ [(ref, needs)])
  | settle {rs H ref block rs'} : Uses rs H → ref ∈ rs.resolvable → (Op.settle ref block).run rs = .ok rs' → Uses rs' H

/-! ## Proof -/

theorem Solved.mono {H H' : History} (h : ∀ x ∈ H, x ∈ H') {r : Ref} (hs : Solved H r) : Solved H' r := by
  induction hs with
  | rule h1 _ ih => exact .rule (h _ h1) ih

/-- What the rules have to do with the history. -/
structure Desc (H : History) (rs : Rules) : Prop where
  book : Book rs
  nodup : (keys H).Nodup
  registered : ∀ r, Registered rs r ↔ ∃ needs, (r, needs) ∈ H
  missing : ∀ r u, item rs.unres r = some u → ∃ needs, (r, needs) ∈ H ∧
    ∀ m, m ∈ u.missing ↔ m ∈ needs ∧ item rs.avail m = none
  avail : ∀ r, (item rs.avail r).isSome → ∃ needs, (r, needs) ∈ H ∧ ∀ m ∈ needs, (item rs.avail m).isSome
  sound : ∀ r, (item rs.avail r).isSome → Solved H r
  positive : ∀ p n, item rs.counts p = some n → 0 < n

theorem release_counts (ref : Ref) : ∀ (ws : List Ref) (rs rs' : Rules), release ref ws rs = .ok rs' → rs'.counts = rs.counts := by
  intro ws
  induction ws with
  | nil => intro rs rs' h; cases h; rfl
  | cons w ws ih =>
    intro rs rs' h
    simp only [release] at h
    split at h
    · cases h
    · split at h
      · have := ih _ _ h; exact this
      · cases h

/-- One less for the file if somebody waited, and the key is removed at 0. -/
theorem setRule_avail_counts {rs rs' : Rules} {ref : Ref} {block : List Tok} (h : setRule rs ref block [] = .ok rs')
    (hpos : ∀ p n, item rs.counts p = some n → 0 < n) :
    (∀ p n, item rs'.counts p = some n → 0 < n) ∧
    ∀ p, (item rs'.counts p).getD 0 = (item rs.counts p).getD 0 - (if ref.relpath = p ∧ (item rs.waiting ref).isSome then 1 else 0) := by
  unfold setRule at h
  split at h
  · cases h
  · rw [if_pos rfl] at h
    dsimp only at h
    split at h
    · next hw =>
      cases h
      refine ⟨hpos, fun p => ?_⟩
      simp [hw]
    · next ws hw =>
      split at h
      · cases h
      · next counts hc =>
        have := release_counts ref ws _ _ h
        dsimp only at this
        rw [this]
        unfold decCount at hc
        split at hc
        · cases hc
        · next n hn =>
          cases hc
          have hn0 := hpos _ _ hn
          refine ⟨?_, ?_⟩
          · intro p k hk
            split at hk
            · rw [get_del] at hk
              split at hk
              · cases hk
              · exact hpos p k hk
            · next h1 =>
              rw [get_put] at hk
              split at hk
              · cases hk; omega
              · exact hpos p k hk
          · intro p
            by_cases hp : ref.relpath = p
            · subst hp
              simp only [hw, Option.isSome_some, and_self, if_true, hn, Option.getD_some]
              split
              · rw [get_del, if_pos rfl]; simp only [Option.getD_none]; omega
              · rw [get_put, if_pos rfl]; rfl
            · simp only [hp, false_and, if_false, Int.sub_zero]
              split
              · rw [get_del, if_neg (fun e => hp e.symm)]
              · rw [get_put, if_neg (fun e => hp e.symm)]

/-- One more for every missing reference. -/
theorem setRule_unres_counts {rs rs' : Rules} {ref : Ref} {block : List Tok} {missing : List Ref} (hne : missing ≠ [])
    (hnu : item rs.unres ref = none) (h : setRule rs ref block missing = .ok rs') (hpos : ∀ p n, item rs.counts p = some n → 0 < n) :
    (∀ p n, item rs'.counts p = some n → 0 < n) ∧
    ∀ p, (item rs'.counts p).getD 0 = (item rs.counts p).getD 0 + ((missing.filter (·.relpath = p)).length : Nat) := by
  have key : ∀ (ms : List Ref) (rs : Rules), (∀ p n, item rs.counts p = some n → 0 < n) →
      (∀ p n, item (ms.foldl (await ref) rs).counts p = some n → 0 < n) ∧
      ∀ p, (item (ms.foldl (await ref) rs).counts p).getD 0 = (item rs.counts p).getD 0 + ((ms.filter (·.relpath = p)).length : Nat) := by
    intro ms
    induction ms with
    | nil => intro rs h; exact ⟨h, by simp⟩
    | cons m ms ih =>
      intro rs h
      have hnn : 0 ≤ (item rs.counts m.relpath).getD 0 := by
        cases h' : item rs.counts m.relpath with
        | none => simp
        | some n => have := h _ _ h'; simp only [Option.getD_some]; omega
      obtain ⟨h1, h2⟩ := ih (await ref rs m) (by
        intro p n hn
        simp only [await, get_put] at hn
        split at hn
        · cases hn; omega
        · exact h p n hn)
      refine ⟨h1, fun p => ?_⟩
      rw [List.foldl_cons, h2]
      simp only [await, get_put]
      by_cases hp : p = m.relpath
      · subst hp
        rw [if_pos rfl, List.filter_cons_of_pos (by simp), List.length_cons, Option.getD_some]
        omega
      · rw [if_neg hp, List.filter_cons_of_neg (by simpa using fun e => hp e.symm)]
  unfold setRule at h
  split at h
  · cases h
  · have hf : missing.filter (fun x => decide (x ∉ ([] : List Ref))) = missing := List.filter_eq_self.2 (by simp)
    simp only [hnu, hf, List.filter_nil, unawaitAll, Except.ok.injEq] at h
    subst h
    exact key missing _ hpos

theorem Desc.new : Desc [] .empty := by
  refine ⟨.empty, by simp [keys], ?_, ?_, ?_, ?_, ?_⟩ <;> intros <;> simp_all [Rules.empty, item, Registered]

theorem isNone_iff' {α} {o : Option α} : o.isNone = true ↔ o = none := by cases o <;> simp

theorem Desc.register {H : History} {rs : Rules} (hd : Desc H rs) (ref : Ref) (block : List Tok) (needs : List Ref)
    (hnew : ref ∉ keys H) (hn : needs.Nodup) :
    ∃ rs', (Op.register ref block needs).run rs = .ok rs' ∧ Desc (H ++ [(ref, needs)]) rs' := by
  have hnr : ¬ Registered rs ref := by
    intro h
    obtain ⟨ns, h1⟩ := (hd.registered ref).1 h
    exact hnew (List.mem_map_of_mem (f := Prod.fst) h1)
  have hna : item rs.avail ref = none := by
    cases h : item rs.avail ref with
    | none => rfl
    | some b => exact absurd (.inl (by rw [h]; rfl)) hnr
  have hnu : item rs.unres ref = none := by
    cases h : item rs.unres ref with
    | none => rfl
    | some b => exact absurd (.inr (by rw [h]; rfl)) hnr
  have hnd : (keys (H ++ [(ref, needs)])).Nodup := by
    unfold keys at hnew ⊢
    rw [List.map_append, List.nodup_append]
    refine ⟨hd.nodup, by simp, ?_⟩
    intro a ha b hb
    simp only [List.map_cons, List.map_nil, List.mem_singleton] at hb
    subst hb
    rintro rfl
    exact hnew ha
  have hsub : ∀ x ∈ H, x ∈ H ++ [(ref, needs)] := fun x hx => List.mem_append.2 (.inl hx)
  have hmem : ∀ m, m ∈ (needs.filter fun m => (item rs.avail m).isNone) ↔ m ∈ needs ∧ item rs.avail m = none := by
    intro m; rw [List.mem_filter, isNone_iff']
  unfold Op.run
  by_cases hnil : (needs.filter fun m => (item rs.avail m).isNone) = []
  · have hall : ∀ m ∈ needs, (item rs.avail m).isSome := by
      intro m hm
      cases h : item rs.avail m with
      | some b => rfl
      | none => have := (hmem m).2 ⟨hm, h⟩; rw [hnil] at this; simp at this
    obtain ⟨rs', h1, h2, h3, h4, -⟩ := setRule_avail hd.book ref block hna (fun u hu => by rw [hnu] at hu; cases hu)
    have h5 := setRule_avail_counts h1 hd.positive
    have hav : ∀ r, (item rs'.avail r).isSome ↔ r = ref ∨ (item rs.avail r).isSome := by
      intro r; rw [h3, get_put]; by_cases h : r = ref <;> simp [h]
    have hsol : Solved (H ++ [(ref, needs)]) ref :=
      .rule (List.mem_append.2 (.inr (by simp))) fun m hm => (hd.sound m (hall m hm)).mono hsub
    refine ⟨rs', by dsimp only; rw [hnil]; exact h1, h2, hnd, ?_, ?_, ?_, ?_, h5.1⟩
    · intro r
      unfold Registered
      rw [hav, h4]
      by_cases hr : r = ref
      · subst hr; simp only [true_or, true_iff]; exact ⟨needs, by simp⟩
      · simp only [hr, false_or, if_false, Option.isSome_map, List.mem_append, List.mem_singleton, Prod.mk.injEq, false_and, or_false]
        exact hd.registered r
    · intro r u hu
      rw [h4] at hu
      split at hu
      · cases hu
      · next hr =>
        cases h : item rs.unres r with
        | none => rw [h] at hu; cases hu
        | some u0 =>
          rw [h] at hu; cases hu
          obtain ⟨ns, h6, h7⟩ := hd.missing r u0 h
          refine ⟨ns, hsub _ h6, fun m => ?_⟩
          dsimp only
          rw [(hd.book.missNodup r u0 h).mem_erase_iff, h7, h3, get_put]
          by_cases hm : m = ref <;> simp [hm]
    · intro r hr
      rcases (hav r).1 hr with rfl | h
      · exact ⟨needs, by simp, fun m hm => (hav m).2 (.inr (hall m hm))⟩
      · obtain ⟨ns, h6, h7⟩ := hd.avail r h
        exact ⟨ns, hsub _ h6, fun m hm => (hav m).2 (.inr (h7 m hm))⟩
    · intro r hr
      rcases (hav r).1 hr with rfl | h
      · exact hsol
      · exact (hd.sound r h).mono hsub
  · obtain ⟨rs', h1, h2, h3, h4, -⟩ := setRule_unres hd.book ref block _ hnil (hn.sublist List.filter_sublist)
      (fun m hm => ((hmem m).1 hm).2) hna hnu
    have h5 := setRule_unres_counts hnil hnu h1 hd.positive
    refine ⟨rs', h1, h2, hnd, ?_, ?_, ?_, ?_, h5.1⟩
    · intro r
      unfold Registered
      rw [h3, h4]
      by_cases hr : r = ref
      · subst hr; simp
      · simp only [hr, if_false, List.mem_append, List.mem_singleton, Prod.mk.injEq, false_and, or_false]
        exact hd.registered r
    · intro r u hu
      rw [h4] at hu
      rw [h3]
      split at hu
      · next e => cases hu; subst e; exact ⟨needs, by simp, hmem⟩
      · obtain ⟨ns, h6, h7⟩ := hd.missing r u hu
        exact ⟨ns, hsub _ h6, h7⟩
    · intro r hr
      rw [h3] at hr ⊢
      obtain ⟨ns, h6, h7⟩ := hd.avail r hr
      exact ⟨ns, hsub _ h6, h7⟩
    · intro r hr
      rw [h3] at hr
      exact (hd.sound r hr).mono hsub

theorem Desc.settle {H : History} {rs : Rules} (hd : Desc H rs) (ref : Ref) (block : List Tok) (hr : ref ∈ rs.resolvable) :
    ∃ rs', (Op.settle ref block).run rs = .ok rs' ∧ Desc H rs' := by
  obtain ⟨u, hu, hm⟩ := (hd.book.ready ref).1 hr
  obtain ⟨rs', h1, h2, h3, h4, -⟩ := setRule_avail hd.book ref block (hd.book.apart ref u hu) (fun u' hu' => by rw [hu] at hu'; cases hu'; exact hm)
  have h5 := setRule_avail_counts h1 hd.positive
  obtain ⟨needs, h6, h7⟩ := hd.missing ref u hu
  have hall : ∀ m ∈ needs, (item rs.avail m).isSome := by
    intro m hm'
    cases h : item rs.avail m with
    | some b => rfl
    | none => have := (h7 m).2 ⟨hm', h⟩; rw [hm] at this; simp at this
  have hav : ∀ r, (item rs'.avail r).isSome ↔ r = ref ∨ (item rs.avail r).isSome := by
    intro r; rw [h3, get_put]; by_cases h : r = ref <;> simp [h]
  refine ⟨rs', h1, h2, hd.nodup, ?_, ?_, ?_, ?_, h5.1⟩
  · intro r
    rw [← hd.registered r]
    unfold Registered
    rw [hav, h4]
    by_cases hr : r = ref
    · subst hr; simp [hu]
    · simp [hr]
  · intro r u' hu'
    rw [h4] at hu'
    split at hu'
    · cases hu'
    · next hr =>
      cases h : item rs.unres r with
      | none => rw [h] at hu'; cases hu'
      | some u0 =>
        rw [h] at hu'; cases hu'
        obtain ⟨ns, h8, h9⟩ := hd.missing r u0 h
        refine ⟨ns, h8, fun m => ?_⟩
        dsimp only
        rw [(hd.book.missNodup r u0 h).mem_erase_iff, h9, h3, get_put]
        by_cases hm : m = ref <;> simp [hm]
  · intro r hr
    rcases (hav r).1 hr with rfl | h
    · exact ⟨needs, h6, fun m hm => (hav m).2 (.inr (hall m hm))⟩
    · obtain ⟨ns, h8, h9⟩ := hd.avail r h
      exact ⟨ns, h8, fun m hm => (hav m).2 (.inr (h9 m hm))⟩
  · intro r hr
    rcases (hav r).1 hr with rfl | h
    · exact .rule h6 fun m hm => hd.sound m (hall m hm)
    · exact hd.sound r h

theorem Uses.desc {rs : Rules} {H : History} (h : Uses rs H) : Desc H rs := by
  induction h with
  | new => exact .new
  | register _ h2 h3 h4 ih =>
    obtain ⟨rs', h5, h6⟩ := ih.register _ _ _ h2 h3
    rw [h4] at h5; cases h5; exact h6
  | settle _ h2 h3 ih =>
    obtain ⟨rs', h5, h6⟩ := ih.settle _ _ h2
    rw [h3] at h5; cases h5; exact h6

/-- Nothing is resolvable: the available rules are the solved ones. -/
theorem Desc.complete {H : History} {rs : Rules} (hd : Desc H rs) (hr : rs.resolvable = []) {r : Ref} (hs : Solved H r) :
    (item rs.avail r).isSome := by
  induction hs with
  | @rule r needs h1 _ ih =>
    rcases (hd.registered r).2 ⟨needs, h1⟩ with h | h
    · exact h
    · exfalso
      cases hu : item rs.unres r with
      | none => rw [hu] at h; cases h
      | some u =>
        obtain ⟨ns, h2, h3⟩ := hd.missing r u hu
        have e : ns = needs := by
          have a1 := get_of_mem hd.nodup h1
          have a2 := get_of_mem hd.nodup h2
          rw [a1] at a2; exact (Option.some.inj a2).symm
        subst e
        have : u.missing = [] := by
          apply List.eq_nil_iff_forall_not_mem.2
          intro m hm
          obtain ⟨h4, h5⟩ := (h3 m).1 hm
          have := ih m h4
          rw [h5] at this; cases this
        have := (hd.book.ready r).2 ⟨u, hu, this⟩
        rw [hr] at this; simp at this

theorem Desc.facts {rs : Rules} {H : History} (hd : Desc H rs) :
    (∀ r, (item rs.avail r).isSome → Solved H r) ∧
    (rs.resolvable = [] → ∀ r, (item rs.avail r).isSome ↔ Solved H r) ∧
    (∀ r needs, (r, needs) ∈ H → item rs.avail r = none → ∃ u, item rs.unres r = some u ∧
      ∀ m, m ∈ u.missing ↔ m ∈ needs ∧ item rs.avail m = none) ∧
    (∀ r, (item rs.unres r).isSome → r ∈ keys H ∧ item rs.avail r = none) ∧
    (∀ r, r ∈ rs.resolvable ↔ item rs.avail r = none ∧ ∃ needs, (r, needs) ∈ H ∧ ∀ m ∈ needs, (item rs.avail m).isSome) ∧
    (∀ r m, (∃ l, item rs.waiting m = some l ∧ r ∈ l) ↔ item rs.avail r = none ∧ item rs.avail m = none ∧ ∃ needs, (r, needs) ∈ H ∧ m ∈ needs) := by
  have huniq : ∀ {r a b}, (r, a) ∈ H → (r, b) ∈ H → a = b := by
    intro r a b h1 h2
    have a1 := get_of_mem hd.nodup h1
    have a2 := get_of_mem hd.nodup h2
    rw [a1] at a2; exact Option.some.inj a2
  have hun : ∀ r needs, (r, needs) ∈ H → item rs.avail r = none → ∃ u, item rs.unres r = some u ∧
      ∀ m, m ∈ u.missing ↔ m ∈ needs ∧ item rs.avail m = none := by
    intro r needs h1 h2
    rcases (hd.registered r).2 ⟨needs, h1⟩ with h | h
    · rw [h2] at h; cases h
    · cases hu : item rs.unres r with
      | none => rw [hu] at h; cases h
      | some u =>
        obtain ⟨ns, h3, h4⟩ := hd.missing r u hu
        rw [huniq h1 h3]
        exact ⟨u, rfl, h4⟩
  refine ⟨hd.sound, fun hr r => ⟨hd.sound r, hd.complete hr⟩, hun, ?_, ?_, ?_⟩
  · intro r hr
    cases hu : item rs.unres r with
    | none => rw [hu] at hr; cases hr
    | some u =>
      obtain ⟨ns, h3, -⟩ := hd.missing r u hu
      exact ⟨List.mem_map_of_mem (f := Prod.fst) h3, hd.book.apart r u hu⟩
  · intro r
    rw [hd.book.ready]
    constructor
    · rintro ⟨u, hu, hm⟩
      obtain ⟨ns, h3, h4⟩ := hd.missing r u hu
      refine ⟨hd.book.apart r u hu, ns, h3, fun m hmm => ?_⟩
      cases h : item rs.avail m with
      | some b => rfl
      | none => have := (h4 m).2 ⟨hmm, h⟩; rw [hm] at this; simp at this
    · rintro ⟨h1, ns, h2, h3⟩
      obtain ⟨u, hu, h4⟩ := hun r ns h2 h1
      refine ⟨u, hu, List.eq_nil_iff_forall_not_mem.2 fun m hm => ?_⟩
      obtain ⟨h5, h6⟩ := (h4 m).1 hm
      have := h3 m h5
      rw [h6] at this; cases this
  · intro r m
    rw [hd.book.wait]
    constructor
    · rintro ⟨u, hu, hm⟩
      obtain ⟨ns, h3, h4⟩ := hd.missing r u hu
      obtain ⟨h5, h6⟩ := (h4 m).1 hm
      exact ⟨hd.book.apart r u hu, h6, ns, h3, h5⟩
    · rintro ⟨h1, h2, ns, h3, h4⟩
      obtain ⟨u, hu, h5⟩ := hun r ns h3 h1
      exact ⟨u, hu, (h5 m).2 ⟨h4, h2⟩⟩

/-- **C47** apart from the counters: the available rules are those whose references are registered, directly and through
others, as soon as nothing is listed as resolvable; at every other time they are among these.  The waiting rules are the
other rules which are registered, each with the references which are not available, and the resolvable ones those for which
there are none. -/
theorem C47_partial {rs : Rules} {H : History} (h : Uses rs H) :
    (∀ r, (item rs.avail r).isSome → Solved H r) ∧
    (rs.resolvable = [] → ∀ r, (item rs.avail r).isSome ↔ Solved H r) ∧
    (∀ r needs, (r, needs) ∈ H → item rs.avail r = none → ∃ u, item rs.unres r = some u ∧
      ∀ m, m ∈ u.missing ↔ m ∈ needs ∧ item rs.avail m = none) ∧
    (∀ r, (item rs.unres r).isSome → r ∈ keys H ∧ item rs.avail r = none) ∧
    (∀ r, r ∈ rs.resolvable ↔ item rs.avail r = none ∧ ∃ needs, (r, needs) ∈ H ∧ ∀ m ∈ needs, (item rs.avail m).isSome) ∧
    (∀ r m, (∃ l, item rs.waiting m = some l ∧ r ∈ l) ↔ item rs.avail r = none ∧ item rs.avail m = none ∧ ∃ needs, (r, needs) ∈ H ∧ m ∈ needs) :=
  h.desc.facts

/-- No use of the rules raises an exception: registering a new rule and settling a resolvable one succeed. -/
theorem C47_succeeds {rs : Rules} {H : History} (h : Uses rs H) :
    (∀ ref block needs, ref ∉ keys H → needs.Nodup → ∃ rs', (Op.register ref block needs).run rs = .ok rs') ∧
    (∀ ref block, ref ∈ rs.resolvable → ∃ rs', (Op.settle ref block).run rs = .ok rs') :=
  ⟨fun ref block needs h1 h2 => let ⟨rs', h3, _⟩ := h.desc.register ref block needs h1 h2; ⟨rs', h3⟩,
   fun ref block h1 => let ⟨rs', h3, _⟩ := h.desc.settle ref block h1; ⟨rs', h3⟩⟩

/-- A rule which is available cannot be registered again: the attempt is rejected. -/
theorem C47_rejected {rs : Rules} (ref : Ref) (block : List Tok) (needs : List Ref) (h : (item rs.avail ref).isSome) :
    (Op.register ref block needs).run rs = .error .already := by
  simp only [Op.run, setRule, h, if_true]

/-- The counters are never below their documented meaning, and there is none of a value of 0 or less; in particular every
file with a missing reference has a counter. -/
theorem C47_counters_partial {rs : Rules} {H : History} (h : Uses rs H) (p : Text) :
    (documented rs p : Int) ≤ (item rs.counts p).getD 0 ∧ (∀ n, item rs.counts p = some n → 0 < n) :=
  ⟨h.desc.book.counts p, h.desc.positive p⟩

/-! ## When the counters are exact -/

/-- No two rules refer to the same rule. -/
def Apart (H : History) : Prop := ∀ r r' n n' m, (r, n) ∈ H → (r', n') ∈ H → m ∈ n → m ∈ n' → r = r'

theorem documented_avail {rs rs' : Rules} (hb : Book rs) {ref : Ref} {block : List Tok} (hna : item rs.avail ref = none)
    (hu : ∀ u, item rs.unres ref = some u → u.missing = []) (h : setRule rs ref block [] = .ok rs') (p : Text) :
    documented rs' p + (if ref.relpath = p then ((item rs.waiting ref).getD []).length else 0) = documented rs p := by
  have hdoc : total (refs p) (del rs.unres ref) = documented rs p := by
    have := total_del (refs p) hb.nodup ref
    rw [documented_eq]
    cases h : item rs.unres ref with
    | none => simp [h] at this; omega
    | some u =>
      have hr : refs p u = 0 := by unfold refs; rw [hu u h]; rfl
      simp only [h, Option.map_some, Option.getD_some, hr] at this
      omega
  unfold setRule at h
  rw [if_neg (by simp [hna]), if_pos rfl] at h
  dsimp only at h
  split at h
  · next hw =>
    cases h
    rw [hw, documented_eq]
    dsimp only
    rw [hdoc]; simp
  · next ws hw =>
    split at h
    · cases h
    · next counts hc =>
      obtain ⟨hwne, hwn⟩ := hb.waitNodup ref ws hw
      have hws : ∀ r ∈ ws, r ≠ ref ∧ ∃ u, item rs.unres r = some u ∧ ref ∈ u.missing := by
        intro r hr
        obtain ⟨u, h1, h2⟩ := (hb.wait r ref).1 ⟨ws, hw, hr⟩
        refine ⟨fun e => ?_, u, h1, h2⟩
        subst e; rw [hu u h1] at h2; simp at h2
      obtain ⟨rs2, h1, -, -, -, -, -, -, h8⟩ := release_spec ref ws
        { rs with
          unres := del rs.unres ref
          resolvable := rs.resolvable.filter (· ≠ ref)
          avail := put rs.avail ref block
          waiting := del rs.waiting ref
          counts := counts } hwn
        (fun w hw' => by
          obtain ⟨h0, u, h1, h2⟩ := hws w hw'
          exact ⟨u, by rw [get_del, if_neg h0]; exact h1, h2⟩) (nodup_del hb.nodup _)
      rw [h1] at h; cases h
      have := h8 p
      rw [hw, Option.getD_some, this, documented_eq]
      exact hdoc

/-- The counters have their documented meaning as long as no two rules refer to the same rule. -/
theorem C47_counters {rs : Rules} {H : History} (h : Uses rs H) (ha : Apart H) (p : Text) :
    (item rs.counts p).getD 0 = (documented rs p : Int) := by
  -- at most one rule waits
  have hone : ∀ {rs : Rules} {H : History}, Uses rs H → Apart H → ∀ m l, item rs.waiting m = some l → l.length = 1 := by
    intro rs H h ha m l hl
    obtain ⟨h1, h2⟩ := h.desc.book.waitNodup m l hl
    have hw := (C47_partial h).2.2.2.2.2
    have hall : ∀ x ∈ l, ∀ y ∈ l, x = y := by
      intro x hx y hy
      obtain ⟨-, -, n, h3, h4⟩ := (hw x m).1 ⟨l, hl, hx⟩
      obtain ⟨-, -, n', h5, h6⟩ := (hw y m).1 ⟨l, hl, hy⟩
      exact ha x y n n' m h3 h5 h4 h6
    match l, h1, h2, hall with
    | [], h1, _, _ => exact absurd rfl h1
    | [x], _, _, _ => rfl
    | x :: y :: l, _, h2, hall =>
      have := hall x (by simp) y (by simp)
      subst this
      simp at h2
  induction h with
  | new => simp [Rules.empty, item, documented]
  | @register rs H ref block needs rs' h1 h2 h3 h4 ih =>
    have ha' : Apart H := fun r r' n n' m a b c d => ha r r' n n' m (List.mem_append.2 (.inl a)) (List.mem_append.2 (.inl b)) c d
    have ih := ih ha'
    have hd := h1.desc
    have hnr : ¬ Registered rs ref := by
      intro h
      obtain ⟨ns, h1⟩ := (hd.registered ref).1 h
      exact h2 (List.mem_map_of_mem (f := Prod.fst) h1)
    have hna : item rs.avail ref = none := by
      cases h : item rs.avail ref with
      | none => rfl
      | some b => exact absurd (.inl (by rw [h]; rfl)) hnr
    have hnu : item rs.unres ref = none := by
      cases h : item rs.unres ref with
      | none => rfl
      | some b => exact absurd (.inr (by rw [h]; rfl)) hnr
    unfold Op.run at h4
    dsimp only at h4
    by_cases hnil : (needs.filter fun m => (item rs.avail m).isNone) = []
    · rw [hnil] at h4
      have h5 := (setRule_avail_counts h4 hd.positive).2 p
      have h6 := documented_avail hd.book hna (fun u hu => by rw [hnu] at hu; cases hu) h4 p
      cases hw : item rs.waiting ref with
      | none => simp [hw] at h5 h6; omega
      | some l =>
        have := hone h1 ha' ref l hw
        simp only [hw, Option.isSome_some, and_true, Option.getD_some, this] at h5 h6
        split at h5 <;> split at h6 <;> first | contradiction | omega
    · have h5 := (setRule_unres_counts hnil hnu h4 hd.positive).2 p
      obtain ⟨rs2, h6, -, -, -, h7⟩ := setRule_unres hd.book ref block _ hnil (h3.sublist List.filter_sublist)
        (fun m hm => by have := (List.mem_filter.1 hm).2; exact isNone_iff'.1 this) hna hnu
      rw [h4] at h6; cases h6
      have := h7 p
      omega
  | @settle rs H ref block rs' h1 h2 h3 ih =>
    have ih := ih ha
    have hd := h1.desc
    obtain ⟨u, hu, hm⟩ := (hd.book.ready ref).1 h2
    unfold Op.run at h3
    dsimp only at h3
    have h5 := (setRule_avail_counts h3 hd.positive).2 p
    have h6 := documented_avail hd.book (hd.book.apart ref u hu) (fun u' hu' => by rw [hu] at hu'; cases hu'; exact hm) h3 p
    cases hw : item rs.waiting ref with
    | none => simp [hw] at h5 h6; omega
    | some l =>
      have := hone h1 ha ref l hw
      simp only [hw, Option.isSome_some, and_true, Option.getD_some, this] at h5 h6
      split at h5 <;> split at h6 <;> first | contradiction | omega

/-! ## Cases -/

namespace RulesToy

def ra : Ref := ⟨[1], [65]⟩
def rb : Ref := ⟨[1], [66]⟩
def rc : Ref := ⟨[1], [67]⟩
def rd : Ref := ⟨[2], [68]⟩

deriving instance DecidableEq for Except

/-- The results of a sequence of uses, for cases. -/
def runAll : Rules → List Op → Except Err Rules
  | rs, [] => .ok rs
  | rs, op :: ops => match op.run rs with
    | .error e => .error e
    | .ok rs' => runAll rs' ops

/-- Three rules, the first needs the others, which are registered later; one of them needs a rule of another file. -/
def ops : List Op := [.register ra [] [rb, rc], .register rb [] [rd], .register rc [] [], .register rd [] []]

end RulesToy

open RulesToy

theorem uses_of_run : ∀ (ops : List (Ref × List Ref)) {rs : Rules} {H : History} {rs' : Rules}, Uses rs H →
    (∀ x ∈ ops, x.2.Nodup) → (keys (H ++ ops)).Nodup → runAll rs (ops.map fun x => .register x.1 [] x.2) = .ok rs' → Uses rs' (H ++ ops) := by
  intro ops
  induction ops with
  | nil => intro rs H rs' h _ _ hr; cases hr; simpa using h
  | cons x ops ih =>
    intro rs H rs' h hn hk hr
    simp only [List.map_cons, runAll] at hr
    split at hr
    · cases hr
    · next rs1 h1 =>
      have := ih (H := H ++ [x]) (Uses.register h (by
        intro hx
        unfold keys at hk hx
        rw [List.map_append, List.nodup_append] at hk
        exact hk.2.2 _ hx x.1 (by simp) rfl) (hn x (by simp)) h1) (fun y hy => hn y (by simp [hy])) (by simpa using hk) hr
      simpa using this

/-- A case: after four registrations the last two rules are available, the second is resolvable, and the first waits for it. -/
theorem C47_case : ∃ rs, runAll .empty ops = .ok rs ∧ Uses rs [(ra, [rb, rc]), (rb, [rd]), (rc, []), (rd, [])] ∧
    keys rs.avail = [rc, rd] ∧ rs.resolvable = [rb] ∧ item rs.unres ra = some ⟨[], [rb]⟩ ∧ rs.counts = [([1], 1)] := by
  have h : (runAll .empty ops).toOption.isSome = true := by decide
  cases hr : runAll .empty ops with
  | error e => rw [hr] at h; cases h
  | ok rs =>
    refine ⟨rs, rfl, ?_, ?_⟩
    · exact uses_of_run [(ra, [rb, rc]), (rb, [rd]), (rc, []), (rd, [])] .new (by decide) (by decide) hr
    · have e : runAll .empty ops = .ok ⟨[(rc, []), (rd, [])], [(ra, ⟨[], [rb]⟩), (rb, ⟨[], []⟩)], [(rb, [ra])], [([1], 1)], [rb]⟩ := by
        decide
      rw [hr] at e; cases e
      decide

/-- The counters are wrong as soon as two rules wait for the same rule: it is found, nothing is missing any more, but the
file still counts one missing reference. -/
theorem C47_false : ∃ rs H, Uses rs H ∧ documented rs [1] = 0 ∧ item rs.counts [1] = some 1 := by
  have e : runAll .empty ([(ra, [rc]), (rb, [rc]), (rc, [])].map fun x => Op.register x.1 [] x.2) =
      .ok ⟨[(rc, [])], [(ra, ⟨[], []⟩), (rb, ⟨[], []⟩)], [], [([1], 1)], [ra, rb]⟩ := by decide
  exact ⟨_, _, uses_of_run [(ra, [rc]), (rb, [rc]), (rc, [])] .new (by decide) (by decide) e, by decide, by decide⟩

/-- A rule which waits may be registered again, as the documentation says, but if it no longer has missing references then
finding one of those which it had raises a KeyError. -/
theorem C47_false_again : runAll .empty [.register ra [] [rb], .register ra [] [], .register rb [] []] = .error .key := by decide

/-- A resolvable rule which is registered again with a missing reference stays in the list of resolvable rules although
it is not resolvable. -/
theorem C47_false_resolvable : ∃ rs, runAll .empty [.register ra [] [rb], .register rb [] [], .register ra [] [rc]] = .ok rs ∧
    rs.resolvable = [ra] ∧ item rs.unres ra = some ⟨[], [rc]⟩ :=
  ⟨⟨[(rb, [])], [(ra, ⟨[], [rc]⟩)], [(rc, [ra])], [([1], 1)], [ra]⟩, by decide, by decide, by decide⟩

end Verif.Nest
