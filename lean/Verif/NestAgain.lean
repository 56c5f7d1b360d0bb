import Verif.NestRules

/-!
# Rules which are registered again (C47)

The documentation of `set_rule` says that a rule may be registered again with other references, as long as it is not available.
`C47_false_again` and `C47_false_resolvable` show that this goes wrong if the rule, before or after, has no missing references.  Otherwise it
does work, and the statements of C47 hold for what was registered last.
-/

namespace Verif.Nest

open Verif.Reader Verif.Css Verif.Assoc

/-! ## Specification -/

/-- A sequence of uses where waiting rules may be registered again.  The history has for each rule the references of the last registration. -/
inductive Revised : Rules → History → Prop
  | new : Revised .empty []
  | register {rs H ref block needs rs'} : Revised rs H → ref ∉ keys H → needs.Nodup → (Op.register ref block needs).run rs = .ok rs' →
      Revised rs' (H ++ [(ref, needs)])
  | settle {rs H ref block rs'} : Revised rs H → ref ∈ rs.resolvable → (Op.settle ref block).run rs = .ok rs' → Revised rs' H
  | again {rs H ref block needs rs'} : Revised rs H → ref ∈ keys H → item rs.avail ref = none → ref ∉ rs.resolvable → needs.Nodup →
      (∃ m ∈ needs, item rs.avail m = none) → (Op.register ref block needs).run rs = .ok rs' → Revised rs' (put H ref needs)

/-! ## Proof -/

/-- How often the file is referred to. -/
def countOf (ms : List Ref) (p : Text) : Nat := (ms.filter (·.relpath = p)).length

theorem countOf_cons (m : Ref) (ms : List Ref) (p : Text) : countOf (m :: ms) p = (if m.relpath = p then 1 else 0) + countOf ms p := by
  unfold countOf
  by_cases h : m.relpath = p <;> simp [List.filter_cons, h]; omega

theorem countOf_split (a b : List Ref) (p : Text) : countOf a p = countOf (a.filter (· ∉ b)) p + countOf (a.filter (· ∈ b)) p := by
  induction a with
  | nil => rfl
  | cons x a ih =>
    by_cases h : x ∈ b
    · rw [List.filter_cons_of_neg (by simpa using h), List.filter_cons_of_pos (by simpa using h), countOf_cons, countOf_cons]; omega
    · rw [List.filter_cons_of_pos (by simpa using h), List.filter_cons_of_neg (by simpa using h), countOf_cons, countOf_cons]; omega

theorem countOf_common {a b : List Ref} (ha : a.Nodup) (hb : b.Nodup) (p : Text) : countOf (a.filter (· ∈ b)) p = countOf (b.filter (· ∈ a)) p := by
  unfold countOf
  refine List.Perm.length_eq ((List.perm_ext_iff_of_nodup ((ha.filter _).filter _) ((hb.filter _).filter _)).2 fun x => ?_)
  simp only [List.mem_filter, decide_eq_true_eq]
  constructor <;> (rintro ⟨⟨h1, h2⟩, h3⟩; exact ⟨⟨h2, h1⟩, h3⟩)

/-- A rule stops waiting for others. -/
theorem unawaits_spec (ref : Ref) : ∀ (ms : List Ref) (rs : Rules) (K : Text → Nat), ms.Nodup →
    (∀ m ∈ ms, ∃ l, item rs.waiting m = some l ∧ ref ∈ l ∧ l.Nodup) → (∀ p, ((K p + countOf ms p : Nat) : Int) ≤ (item rs.counts p).getD 0) →
    (∀ p n, item rs.counts p = some n → 0 < n) →
    ∃ rs', unawaitAll ref ms rs = .ok rs' ∧ rs'.avail = rs.avail ∧ rs'.unres = rs.unres ∧ rs'.resolvable = rs.resolvable ∧
      (∀ m, m ∉ ms → item rs'.waiting m = item rs.waiting m) ∧
      (∀ m ∈ ms, ∀ l, item rs.waiting m = some l → item rs'.waiting m = if l.erase ref = [] then none else some (l.erase ref)) ∧
      (∀ p, (K p : Int) ≤ (item rs'.counts p).getD 0) ∧ (∀ p n, item rs'.counts p = some n → 0 < n) := by
  intro ms
  induction ms with
  | nil =>
    intro rs K _ _ hK hpos
    exact ⟨rs, rfl, rfl, rfl, rfl, fun _ _ => rfl, fun _ h => by simp at h, fun p => by simpa [countOf] using hK p, hpos⟩
  | cons m ms ih =>
    intro rs K hn hw hK hpos
    simp only [List.nodup_cons] at hn
    obtain ⟨l, hl, hr, hln⟩ := hw m (by simp)
    have hK' : ∀ p, ((K p + countOf ms p : Nat) : Int) + (if m.relpath = p then 1 else 0) ≤ (item rs.counts p).getD 0 := by
      intro p
      have := hK p
      rw [countOf_cons] at this
      split at this <;> split <;> first | contradiction | (push_cast at this ⊢; omega)
    -- one reference is given up
    have hstep : ∃ rs1, unawait ref rs m = .ok rs1 ∧ rs1.avail = rs.avail ∧ rs1.unres = rs.unres ∧ rs1.resolvable = rs.resolvable ∧
        (∀ x, x ≠ m → item rs1.waiting x = item rs.waiting x) ∧ (item rs1.waiting m = if l.erase ref = [] then none else some (l.erase ref)) ∧
        (∀ p, ((K p + countOf ms p : Nat) : Int) ≤ (item rs1.counts p).getD 0) ∧ (∀ p n, item rs1.counts p = some n → 0 < n) := by
      simp only [unawait, hl, if_pos hr]
      by_cases he : l.erase ref = []
      · rw [if_pos he, if_pos he]
        have h1 := hK' m.relpath
        rw [if_pos rfl] at h1
        cases hc : item rs.counts m.relpath with
        | none => rw [hc] at h1; simp at h1; omega
        | some n =>
          rw [hc, Option.getD_some] at h1
          simp only [decCount, hc]
          refine ⟨_, rfl, rfl, rfl, rfl, fun x hx => by dsimp only; rw [get_del, if_neg hx], by dsimp only; rw [get_del, if_pos rfl], fun p => ?_, fun p k hk => ?_⟩
          · have h2 := hK' p
            dsimp only
            by_cases hp : m.relpath = p
            · subst hp
              split
              · rw [get_del, if_pos rfl]; simp only [Option.getD_none]; omega
              · rw [get_put, if_pos rfl]; simp only [Option.getD_some]; omega
            · rw [if_neg hp] at h2
              split
              · rw [get_del, if_neg (fun e => hp e.symm)]; omega
              · rw [get_put, if_neg (fun e => hp e.symm)]; omega
          · dsimp only at hk
            have h0 := hpos _ _ hc
            split at hk
            · rw [get_del] at hk
              split at hk
              · cases hk
              · exact hpos p k hk
            · rw [get_put] at hk
              split at hk
              · cases hk; omega
              · exact hpos p k hk
      · rw [if_neg he, if_neg he]
        refine ⟨_, rfl, rfl, rfl, rfl, fun x hx => by dsimp only; rw [get_put, if_neg hx], by dsimp only; rw [get_put, if_pos rfl], fun p => ?_, hpos⟩
        have := hK' p
        dsimp only
        split at this <;> omega
    obtain ⟨rs1, e1, e2, e3, e4, e5, e6, e7, e8⟩ := hstep
    have hne : ∀ x ∈ ms, x ≠ m := fun x hx e => hn.1 (e ▸ hx)
    obtain ⟨rs', f1, f2, f3, f4, f5, f6, f7, f8⟩ := ih rs1 K hn.2 (fun x hx => by rw [e5 x (hne x hx)]; exact hw x (by simp [hx])) e7 e8
    refine ⟨rs', by simp only [unawaitAll, e1]; exact f1, f2.trans e2, f3.trans e3, f4.trans e4, fun x hx => ?_, fun x hx k hk => ?_, f7, f8⟩
    · rw [f5 x (fun h => hx (by simp [h])), e5 x (fun h => hx (by simp [h]))]
    · rcases List.mem_cons.1 hx with rfl | hx
      · rw [f5 x hn.1, e6]
        rw [hl] at hk
        cases hk
        rfl
      · exact f6 x hx k (by rw [e5 x (hne x hx)]; exact hk)

/-- A rule with missing references, which has some, is registered again. -/
theorem setRule_again {rs : Rules} (hb : Book rs) (hpos : ∀ p n, item rs.counts p = some n → 0 < n) (ref : Ref) (block : List Tok) (missing : List Ref)
    (hne : missing ≠ []) (hn : missing.Nodup) (hm : ∀ m ∈ missing, item rs.avail m = none) {u : Unresolved} (hu : item rs.unres ref = some u)
    (hum : u.missing ≠ []) :
    ∃ rs', setRule rs ref block missing = .ok rs' ∧ Book rs' ∧ rs'.avail = rs.avail ∧
      (∀ r, item rs'.unres r = if r = ref then some ⟨block, missing⟩ else item rs.unres r) ∧ (∀ p n, item rs'.counts p = some n → 0 < n) := by
  have hna := hb.apart ref u hu
  have hun := hb.missNodup ref u hu
  unfold setRule
  rw [if_neg (by simp [hna]), if_neg hne]
  simp only [hu]
  generalize hrs1 : ({ rs with unres := put (del rs.unres ref) ref ⟨block, missing⟩ } : Rules) = rs1
  have hget : ∀ r, item rs1.unres r = if r = ref then some ⟨block, missing⟩ else item rs.unres r := by
    intro r
    rw [← hrs1]
    dsimp only
    rw [get_put, get_del]
    split <;> rfl
  obtain ⟨a1, a2, a3, a4, a5⟩ := awaits_spec ref (missing.filter (· ∉ u.missing)) rs1 (hn.filter _)
  have apos := (show ∀ (ms : List Ref) (rs : Rules), (∀ p n, item rs.counts p = some n → 0 < n) →
      ∀ p n, item (ms.foldl (await ref) rs).counts p = some n → 0 < n from fun ms => by
    induction ms with
    | nil => exact fun rs h => h
    | cons m ms ih =>
      intro rs h
      refine ih (await ref rs m) fun p n hk => ?_
      simp only [await, get_put] at hk
      split at hk
      · cases hk
        cases h' : item rs.counts m.relpath with
        | none => simp
        | some n => have := h _ _ h'; simp only [Option.getD_some]; omega
      · exact h p n hk) (missing.filter (· ∉ u.missing)) rs1 (by rw [← hrs1]; exact hpos)
  generalize (missing.filter (· ∉ u.missing)).foldl (await ref) rs1 = rs2 at a1 a2 a3 a4 a5 apos
  have w1 : rs1.waiting = rs.waiting := by rw [← hrs1]
  have c1 : rs1.counts = rs.counts := by rw [← hrs1]
  have v1 : rs1.avail = rs.avail := by rw [← hrs1]
  have z1 : rs1.resolvable = rs.resolvable := by rw [← hrs1]
  have hnew : ∀ m, m ∈ missing.filter (· ∉ u.missing) ↔ m ∈ missing ∧ m ∉ u.missing := fun m => by simp [List.mem_filter]
  have hgone : ∀ m, m ∈ u.missing.filter (· ∉ missing) ↔ m ∈ u.missing ∧ m ∉ missing := fun m => by simp [List.mem_filter]
  have hdoc : ∀ p, documented rs1 p + countOf (u.missing.filter (· ∉ missing)) p = documented rs p + countOf (missing.filter (· ∉ u.missing)) p := by
    intro p
    have e1 := total_del (refs p) hb.nodup ref
    have e2 := total_put (refs p) (del rs.unres ref) ref ⟨block, missing⟩
    have e3 : item (del rs.unres ref) ref = none := by rw [get_del, if_pos rfl]
    rw [hu] at e1
    rw [e3] at e2
    simp only [Option.map_some, Option.map_none, Option.getD_none, Option.getD_some] at e1 e2
    have e4 : refs p ⟨block, missing⟩ = countOf missing p := rfl
    have e5 : refs p u = countOf u.missing p := rfl
    have e6 := countOf_split missing u.missing p
    have e7 := countOf_split u.missing missing p
    have e8 := countOf_common hn hun p
    have e9 : documented rs1 p = total (refs p) (put (del rs.unres ref) ref ⟨block, missing⟩) := by rw [← hrs1]; rfl
    rw [e9, documented_eq]
    omega
  have hwas : ∀ m ∈ u.missing, ∃ l, item rs.waiting m = some l ∧ ref ∈ l ∧ l.Nodup := fun m h => by
    obtain ⟨l, h1, h2⟩ := (hb.wait ref m).2 ⟨u, hu, h⟩
    exact ⟨l, h1, h2, (hb.waitNodup m l h1).2⟩
  have hsame : ∀ m, m ∈ u.missing → item rs2.waiting m = item rs.waiting m := fun m h => by
    rw [a4, if_neg (fun h' => ((hnew m).1 h').2 h), w1]
  obtain ⟨rs', b1, b2, b3, b4, b5, b6, b7, b8⟩ := unawaits_spec ref (u.missing.filter (· ∉ missing)) rs2 (documented rs1) (hun.filter _)
    (fun m h => by rw [hsame m ((hgone m).1 h).1]; exact hwas m ((hgone m).1 h).1)
    (fun p => by
      have h1 := hb.counts p
      rw [hdoc, a5, c1]
      unfold countOf
      push_cast
      omega) apos
  have hun' : ∀ r, item rs'.unres r = if r = ref then some ⟨block, missing⟩ else item rs.unres r := fun r => by rw [b3, a2, hget]
  have hav : rs'.avail = rs.avail := by rw [b2, a1, v1]
  -- who waits for what
  have hwait : ∀ m, item rs'.waiting m =
      if m ∈ missing ∧ m ∉ u.missing then some ((item rs.waiting m).getD [] ++ [ref])
      else if m ∈ u.missing ∧ m ∉ missing then (if ((item rs.waiting m).getD []).erase ref = [] then none else some (((item rs.waiting m).getD []).erase ref))
      else item rs.waiting m := by
    intro m
    by_cases h1 : m ∈ missing ∧ m ∉ u.missing
    · rw [if_pos h1, b5 m (fun h => h1.2 ((hgone m).1 h).1), a4, if_pos ((hnew m).2 h1), w1]
    · rw [if_neg h1]
      by_cases h2 : m ∈ u.missing ∧ m ∉ missing
      · obtain ⟨l, h3, -⟩ := hwas m h2.1
        rw [if_pos h2, b6 m ((hgone m).2 h2) l (by rw [hsame m h2.1]; exact h3), h3]
        rfl
      · rw [if_neg h2, b5 m (fun h => h2 ((hgone m).1 h)), a4, if_neg (fun h => h1 ((hnew m).1 h)), w1]
  refine ⟨rs', b1, ⟨?_, ?_, ?_, ?_, ?_, ?_, ?_, ?_⟩, hav, hun', b8⟩
  · rw [b3, a2, ← hrs1]; exact nodup_put (nodup_del hb.nodup _) _ _
  · intro r v h
    rw [hun'] at h
    split at h
    · cases h; exact hn
    · exact hb.missNodup r v h
  · intro r v h
    rw [hun'] at h
    rw [hav]
    split at h
    · next e => rw [e]; exact hna
    · exact hb.apart r v h
  · intro r v h m hm'
    rw [hun'] at h
    rw [hav]
    split at h
    · cases h; exact hm m hm'
    · exact hb.missing r v h m hm'
  · intro r m
    rw [hwait, hun']
    by_cases h1 : m ∈ missing ∧ m ∉ u.missing
    · rw [if_pos h1]
      by_cases hr : r = ref
      · subst hr; simp [h1.1]
      · rw [if_neg hr, ← hb.wait r m]
        cases item rs.waiting m with
        | none => simp [hr]
        | some l => simp [hr]
    · rw [if_neg h1]
      by_cases h2 : m ∈ u.missing ∧ m ∉ missing
      · rw [if_pos h2]
        obtain ⟨l, h3, h4, h5⟩ := hwas m h2.1
        rw [h3, Option.getD_some]
        have key : (∃ k, (if l.erase ref = [] then none else some (l.erase ref)) = some k ∧ r ∈ k) ↔ r ∈ l.erase ref := by
          split
          · next e => rw [e]; simp
          · simp
        rw [key, h5.mem_erase_iff]
        by_cases hr : r = ref
        · subst hr; simp [h2.2]
        · rw [if_neg hr, ← hb.wait r m, h3]
          simp [hr]
      · rw [if_neg h2]
        by_cases hr : r = ref
        · subst hr
          rw [if_pos rfl, hb.wait, hu]
          simp only [Option.some.injEq, exists_eq_left']
          constructor
          · exact fun h => Classical.byContradiction fun hc => h2 ⟨h, hc⟩
          · exact fun h => Classical.byContradiction fun hc => h1 ⟨h, hc⟩
        · rw [if_neg hr, hb.wait]
  · intro m l hl
    rw [hwait] at hl
    split at hl
    · next h1 =>
      cases hl
      refine ⟨by simp, ?_⟩
      rw [List.nodup_append]
      refine ⟨?_, by simp, ?_⟩
      · cases h : item rs.waiting m with
        | none => simp
        | some l => exact (hb.waitNodup m l h).2
      · intro a ha b hb' e
        rw [List.mem_singleton] at hb'
        subst hb'; subst e
        cases h : item rs.waiting m with
        | none => rw [h] at ha; simp at ha
        | some l =>
          rw [h] at ha
          obtain ⟨v, h3, h4⟩ := (hb.wait a m).1 ⟨l, h, ha⟩
          rw [hu] at h3; cases h3
          exact h1.2 h4
    · split at hl
      · next h2 =>
        obtain ⟨k, h3, h4, h5⟩ := hwas m h2.1
        rw [h3, Option.getD_some] at hl
        split at hl
        · cases hl
        · next e => cases hl; exact ⟨e, h5.erase _⟩
      · exact hb.waitNodup m l hl
  · intro r
    rw [b4, a3, z1, hun', hb.ready]
    by_cases hr : r = ref
    · subst hr; simp [hu, hne, hum]
    · rw [if_neg hr]
  · intro p
    have : documented rs' p = documented rs1 p := by rw [documented_eq, documented_eq, b3, a2]
    rw [this]
    exact b7 p

theorem Desc.again {H : History} {rs : Rules} (hd : Desc H rs) (ref : Ref) (block : List Tok) (needs : List Ref) (hin : ref ∈ keys H)
    (hna : item rs.avail ref = none) (hnr : ref ∉ rs.resolvable) (hn : needs.Nodup) (hex : ∃ m ∈ needs, item rs.avail m = none) :
    ∃ rs', (Op.register ref block needs).run rs = .ok rs' ∧ Desc (put H ref needs) rs' := by
  obtain ⟨⟨r0, n0⟩, h0, rfl⟩ := List.mem_map.1 hin
  dsimp only at hna hnr hin ⊢
  obtain ⟨u, hu⟩ : ∃ u, item rs.unres r0 = some u := by
    rcases (hd.registered r0).2 ⟨n0, h0⟩ with h | h
    · rw [hna] at h; cases h
    · exact Option.isSome_iff_exists.1 h
  have hum : u.missing ≠ [] := fun h => hnr ((hd.book.ready r0).2 ⟨u, hu, h⟩)
  have hmem : ∀ m, m ∈ (needs.filter fun m => (item rs.avail m).isNone) ↔ m ∈ needs ∧ item rs.avail m = none := by
    intro m; rw [List.mem_filter, isNone_iff']
  have hne : (needs.filter fun m => (item rs.avail m).isNone) ≠ [] := fun h => by
    obtain ⟨m, h1, h2⟩ := hex
    have := (hmem m).2 ⟨h1, h2⟩
    rw [h] at this; simp at this
  obtain ⟨rs', h1, h2, h3, h4, h5⟩ := setRule_again hd.book hd.positive r0 block _ hne (hn.sublist List.filter_sublist) (fun m hm => ((hmem m).1 hm).2) hu hum
  have hnd : (keys (put H r0 needs)).Nodup := nodup_put hd.nodup _ _
  have hmp : ∀ r n, (r, n) ∈ put H r0 needs ↔ (r = r0 ∧ n = needs) ∨ (r ≠ r0 ∧ (r, n) ∈ H) := by
    intro r n
    constructor
    · intro h
      have := get_of_mem hnd h
      rw [get_put] at this
      split at this
      · next e => cases this; exact .inl ⟨e, rfl⟩
      · next e => exact .inr ⟨e, mem_of_get this⟩
    · rintro (⟨rfl, rfl⟩ | ⟨e, h⟩)
      · exact mem_of_get (by rw [get_put, if_pos rfl])
      · exact mem_of_get (by rw [get_put, if_neg e]; exact get_of_mem hd.nodup h)
  have hne0 : ∀ {r}, (item rs.avail r).isSome → r ≠ r0 := fun h e => by rw [e, hna] at h; cases h
  refine ⟨rs', h1, h2, hnd, ?_, ?_, ?_, ?_, h5⟩
  · intro r
    unfold Registered
    rw [h3, h4]
    by_cases hr : r = r0
    · subst hr
      simp only [if_true, Option.isSome_some, or_true, true_iff]
      exact ⟨needs, (hmp _ _).2 (.inl ⟨rfl, rfl⟩)⟩
    · rw [if_neg hr]
      refine (hd.registered r).trans ?_
      simp [hmp, hr]
  · intro r v hv
    rw [h4] at hv
    rw [h3]
    split at hv
    · next e => cases hv; exact ⟨needs, (hmp _ _).2 (.inl ⟨e, rfl⟩), hmem⟩
    · next e =>
      obtain ⟨ns, h6, h7⟩ := hd.missing r v hv
      exact ⟨ns, (hmp _ _).2 (.inr ⟨e, h6⟩), h7⟩
  · intro r hr
    rw [h3] at hr ⊢
    obtain ⟨ns, h6, h7⟩ := hd.avail r hr
    exact ⟨ns, (hmp _ _).2 (.inr ⟨hne0 hr, h6⟩), h7⟩
  · intro r hr
    rw [h3] at hr
    have hs := hd.sound r hr
    induction hs with
    | @rule r ns h6 _ ih =>
      obtain ⟨ns', h7, h8⟩ := hd.avail r hr
      have a1 := get_of_mem hd.nodup h6
      have a2 := get_of_mem hd.nodup h7
      rw [a1] at a2
      cases a2
      exact .rule ((hmp _ _).2 (.inr ⟨hne0 hr, h6⟩)) fun m hm => ih m hm (h8 m hm)

theorem Revised.desc {rs : Rules} {H : History} (h : Revised rs H) : Desc H rs := by
  induction h with
  | new => exact .new
  | register _ h2 h3 h4 ih =>
    obtain ⟨rs', h5, h6⟩ := ih.register _ _ _ h2 h3
    rw [h4] at h5; cases h5; exact h6
  | settle _ h2 h3 ih =>
    obtain ⟨rs', h5, h6⟩ := ih.settle _ _ h2
    rw [h3] at h5; cases h5; exact h6
  | again _ h2 h3 h4 h5 h6 h7 ih =>
    obtain ⟨rs', h8, h9⟩ := ih.again _ _ _ h2 h3 h4 h5 h6
    rw [h7] at h8; cases h8; exact h9

/-- **C47** for rules which are registered again: with the references of the last registrations, the available rules are those whose references
are registered, directly and through others, as soon as nothing is listed as resolvable; the waiting rules are the others, each with the references which are not
available; no counter is below its documented meaning; and registering a waiting rule again succeeds. -/
theorem C47_revised {rs : Rules} {H : History} (h : Revised rs H) :
    (∀ r, (item rs.avail r).isSome → Solved H r) ∧
    (rs.resolvable = [] → ∀ r, (item rs.avail r).isSome ↔ Solved H r) ∧
    (∀ r needs, (r, needs) ∈ H → item rs.avail r = none → ∃ u, item rs.unres r = some u ∧
      ∀ m, m ∈ u.missing ↔ m ∈ needs ∧ item rs.avail m = none) ∧
    (∀ r, r ∈ rs.resolvable ↔ item rs.avail r = none ∧ ∃ needs, (r, needs) ∈ H ∧ ∀ m ∈ needs, (item rs.avail m).isSome) ∧
    (∀ r m, (∃ l, item rs.waiting m = some l ∧ r ∈ l) ↔ item rs.avail r = none ∧ item rs.avail m = none ∧ ∃ needs, (r, needs) ∈ H ∧ m ∈ needs) ∧
    (∀ p, (documented rs p : Int) ≤ (item rs.counts p).getD 0 ∧ (∀ n, item rs.counts p = some n → 0 < n)) ∧
    (∀ ref block needs, ref ∈ keys H → item rs.avail ref = none → ref ∉ rs.resolvable → needs.Nodup → (∃ m ∈ needs, item rs.avail m = none) →
      ∃ rs', (Op.register ref block needs).run rs = .ok rs') := by
  obtain ⟨h1, h2, h3, -, h5, h6⟩ := h.desc.facts
  exact ⟨h1, h2, h3, h5, h6, fun p => ⟨h.desc.book.counts p, h.desc.positive p⟩, fun ref block needs a b c d e =>
    let ⟨rs', h7, _⟩ := h.desc.again ref block needs a b c d e; ⟨rs', h7⟩⟩

open RulesToy

/-- A case: two rules wait for a third; the first is registered again with another reference, and the second goes on waiting for the third. -/
theorem C47_revised_case : ∃ rs, Revised rs [(ra, [rd]), (rb, [rc])] ∧ rs.waiting = [(rc, [rb]), (rd, [ra])] := by
  have e1 : (Op.register ra [] [rc]).run .empty = .ok ⟨[], [(ra, ⟨[], [rc]⟩)], [(rc, [ra])], [([1], 1)], []⟩ := by decide
  have e2 : (Op.register rb [] [rc]).run ⟨[], [(ra, ⟨[], [rc]⟩)], [(rc, [ra])], [([1], 1)], []⟩ =
      .ok ⟨[], [(ra, ⟨[], [rc]⟩), (rb, ⟨[], [rc]⟩)], [(rc, [ra, rb])], [([1], 2)], []⟩ := by decide
  have e3 : (Op.register ra [] [rd]).run ⟨[], [(ra, ⟨[], [rc]⟩), (rb, ⟨[], [rc]⟩)], [(rc, [ra, rb])], [([1], 2)], []⟩ =
      .ok ⟨[], [(rb, ⟨[], [rc]⟩), (ra, ⟨[], [rd]⟩)], [(rc, [rb]), (rd, [ra])], [([1], 2), ([2], 1)], []⟩ := by decide
  have h1 : Revised _ ([] ++ [(ra, [rc])]) := .register .new (by simp [keys]) (by simp) e1
  have h2 : Revised _ ([(ra, [rc])] ++ [(rb, [rc])]) := .register h1 (by decide) (by simp) e2
  have h3 := Revised.again (ref := ra) (needs := [rd]) h2 (by decide) (by decide) (by decide) (by simp) ⟨rd, by simp, by decide⟩ e3
  exact ⟨_, h3, rfl⟩

end Verif.Nest
