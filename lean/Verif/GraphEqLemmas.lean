import Verif.GraphEq
import Verif.GraphSearch
/-! Helper lemmas: store/load and equality. -/
namespace Verif.Graph
open Verif

/-! ### load -/

/-- A node created on first mention. -/
def blank : Node := ⟨⟨0, 0, 0⟩, [], []⟩
/-- Node at a path, blank if absent. -/
def look (g : Graph) (x : String) : Node := (g.get? x).getD blank

theorem look_of_get? {g : Graph} {x : String} {n : Node} (h : g.get? x = some n) : look g x = n := by
  simp [look, h]

theorem look_set (g : Graph) (k x : String) (n : Node) :
    look (g.set k n) x = if k = x then n else look g x := by
  simp only [look, Dict.get?_set]; split <;> simp

theorem ensure_spec (g : Graph) (p : String) :
    (∀ x, look (ensure g p) x = look g x) ∧ (∀ x, x ∈ (ensure g p).keys ↔ x = p ∨ x ∈ g.keys) ∧
    (g.NodupKeys → (ensure g p).NodupKeys) := by
  unfold ensure
  rcases h : g.get? p with _ | n
  · dsimp only
    refine ⟨?_, fun x => Dict.mem_keys_set _ _ _ _, fun hn => hn.set _ _⟩
    intro x; rw [look_set]; split
    · subst x; simp [look, h, blank]
    · rfl
  · dsimp only
    refine ⟨fun _ => rfl, ?_, id⟩
    intro x
    constructor
    · exact .inr
    · rintro (rfl | h')
      · exact Dict.mem_keys_of_get? h
      · exact h'

theorem loadParents_spec (p : String) (qs : List String) (g : Graph) (hp : p ∈ g.keys) :
    (∀ x, look (loadParents p qs g) x
      = if x = p then { look g p with parents := (look g p).parents ++ qs } else look g x) ∧
    (∀ x, x ∈ (loadParents p qs g).keys ↔ x ∈ qs ∨ x ∈ g.keys) ∧
    (g.NodupKeys → (loadParents p qs g).NodupKeys) := by
  induction qs generalizing g with
  | nil =>
    refine ⟨?_, by simp [loadParents], id⟩
    intro x; simp only [loadParents]; split
    · subst x; simp
    · rfl
  | cons q qs ih =>
    obtain ⟨e1, e2, e3⟩ := ensure_spec g q
    have hp1 : p ∈ (ensure g q).keys := (e2 p).2 (.inr hp)
    obtain ⟨n, hn⟩ := exists_node_of_mem hp1
    have hln : look g p = n := by rw [← e1]; exact look_of_get? hn
    simp only [loadParents, hn]
    have hk : ∀ x, x ∈ Dict.keys ((ensure g q).set p { n with parents := n.parents ++ [q] }) ↔ x = q ∨ x ∈ g.keys := by
      intro x; rw [Dict.keys_set_of_mem _ hp1, e2]
    obtain ⟨h1, h2, h3⟩ := ih ((ensure g q).set p { n with parents := n.parents ++ [q] }) ((hk p).2 (.inr hp))
    refine ⟨?_, ?_, fun hnd => h3 ((e3 hnd).set _ _)⟩
    · intro x; rw [h1]; split
      · simp [look_set, hln]
      · rename_i hx; rw [look_set, if_neg (Ne.symm hx), e1]
    · intro x; rw [h2, hk]; simp [or_assoc, or_left_comm]

theorem loadChildren_spec (p : String) (qs : List String) (g : Graph) (hp : p ∈ g.keys) :
    (∀ x, look (loadChildren p qs g) x
      = if x = p then { look g p with children := (look g p).children ++ qs } else look g x) ∧
    (∀ x, x ∈ (loadChildren p qs g).keys ↔ x ∈ qs ∨ x ∈ g.keys) ∧
    (g.NodupKeys → (loadChildren p qs g).NodupKeys) := by
  induction qs generalizing g with
  | nil =>
    refine ⟨?_, by simp [loadChildren], id⟩
    intro x; simp only [loadChildren]; split
    · subst x; simp
    · rfl
  | cons q qs ih =>
    obtain ⟨e1, e2, e3⟩ := ensure_spec g q
    have hp1 : p ∈ (ensure g q).keys := (e2 p).2 (.inr hp)
    obtain ⟨n, hn⟩ := exists_node_of_mem hp1
    have hln : look g p = n := by rw [← e1]; exact look_of_get? hn
    simp only [loadChildren, hn]
    have hk : ∀ x, x ∈ Dict.keys ((ensure g q).set p { n with children := n.children ++ [q] }) ↔ x = q ∨ x ∈ g.keys := by
      intro x; rw [Dict.keys_set_of_mem _ hp1, e2]
    obtain ⟨h1, h2, h3⟩ := ih ((ensure g q).set p { n with children := n.children ++ [q] }) ((hk p).2 (.inr hp))
    refine ⟨?_, ?_, fun hnd => h3 ((e3 hnd).set _ _)⟩
    · intro x; rw [h1]; split
      · simp [look_set, hln]
      · rename_i hx; rw [look_set, if_neg (Ne.symm hx), e1]
    · intro x; rw [h2, hk]; simp [or_assoc, or_left_comm]

theorem loadOne_spec (g : Graph) (p : String) (ps cs : List String) (m : Meta) :
    (∀ x, look (loadOne g (p, (ps, cs, m))) x
      = if x = p then ⟨m, (look g p).parents ++ ps, (look g p).children ++ cs⟩ else look g x) ∧
    (∀ x, x ∈ (loadOne g (p, (ps, cs, m))).keys ↔ x = p ∨ x ∈ ps ∨ x ∈ cs ∨ x ∈ g.keys) ∧
    (g.NodupKeys → (loadOne g (p, (ps, cs, m))).NodupKeys) := by
  obtain ⟨e1, e2, e3⟩ := ensure_spec g p
  have hp1 : p ∈ (ensure g p).keys := (e2 p).2 (.inl rfl)
  obtain ⟨n, hn⟩ := exists_node_of_mem hp1
  have hln : look g p = n := by rw [← e1]; exact look_of_get? hn
  simp only [loadOne, hn]
  have hk2 := Dict.keys_set_of_mem (d := ensure g p) { n with info := m } hp1
  have hp2 : p ∈ Dict.keys ((ensure g p).set p { n with info := m }) := by rw [hk2]; exact hp1
  obtain ⟨f1, f2, f3⟩ := loadParents_spec p ps _ hp2
  have hp3 : p ∈ Dict.keys (loadParents p ps ((ensure g p).set p { n with info := m })) :=
    (f2 p).2 (.inr hp2)
  obtain ⟨k1, k2, k3⟩ := loadChildren_spec p cs _ hp3
  refine ⟨?_, ?_, fun hnd => k3 (f3 ((e3 hnd).set _ _))⟩
  · intro x; rw [k1]; split
    · simp [f1, look_set, hln]
    · rename_i hx; rw [f1, if_neg hx, look_set, if_neg (Ne.symm hx), e1]
  · intro x; rw [k2, f2, hk2, e2]
    constructor
    · rintro (h | h | h | h) <;> simp [h]
    · rintro (h | h | h | h) <;> simp [h]

/-- Loading a list of records with distinct paths. -/
theorem load_spec (g : Graph) (hg : g.NodupKeys) (acc : Graph) (hacc : acc.NodupKeys)
    (hb : ∀ x ∈ g.keys, look acc x = blank) :
    (∀ x, look ((store g).foldl loadOne acc) x = match g.get? x with | some n => n | none => look acc x) ∧
    (∀ x, x ∈ ((store g).foldl loadOne acc).keys ↔
      x ∈ acc.keys ∨ ∃ p n, (p, n) ∈ g ∧ (x = p ∨ x ∈ n.parents ∨ x ∈ n.children)) ∧
    ((store g).foldl loadOne acc).NodupKeys := by
  induction g generalizing acc with
  | nil => simp [store, hacc]
  | cons r g ih =>
    obtain ⟨p, n⟩ := r
    simp only [Dict.NodupKeys, Dict.keys_cons, List.nodup_cons] at hg
    obtain ⟨o1, o2, o3⟩ := loadOne_spec acc p n.parents n.children n.info
    have hbp := hb p (by simp)
    obtain ⟨h1, h2, h3⟩ := ih hg.2 (loadOne acc (p, (n.parents, n.children, n.info))) (o3 hacc)
      (fun x hx => by
        have hne : x ≠ p := by rintro rfl; exact hg.1 hx
        rw [o1, if_neg hne]; exact hb x (by simp [hx]))
    refine ⟨?_, ?_, h3⟩
    · intro x
      show look ((store g).foldl loadOne _) x = _
      rw [h1, o1]
      simp only [Dict.get?]
      by_cases e : p = x
      · subst e
        simp only [if_true]
        rw [(Dict.get?_eq_none_iff g p).2 hg.1]
        simp [hbp, blank]
      · rw [if_neg e, if_neg (Ne.symm e)]
    · intro x
      show x ∈ Dict.keys ((store g).foldl loadOne _) ↔ _
      rw [h2, o2]
      constructor
      · rintro ((h | h | h | h) | ⟨q, m, hm, h⟩)
        · exact .inr ⟨p, n, by simp, .inl h⟩
        · exact .inr ⟨p, n, by simp, .inr (.inl h)⟩
        · exact .inr ⟨p, n, by simp, .inr (.inr h)⟩
        · exact .inl h
        · exact .inr ⟨q, m, by simp [hm], h⟩
      · rintro (h | ⟨q, m, hm, h⟩)
        · simp [h]
        · rcases List.mem_cons.1 hm with e | hm
          · cases e; rcases h with h | h | h <;> simp [h]
          · exact .inr ⟨q, m, hm, h⟩

/-- `load` after `store` gives the same lookups. -/
theorem load_store_get? {g : Graph} (hw : WF g) (x : String) : (load (store g)).get? x = g.get? x := by
  obtain ⟨h1, h2, _⟩ := load_spec g hw.nodup empty (by simp [empty]) (by intro x _; simp [look, empty])
  have hk : x ∈ (load (store g)).keys ↔ x ∈ g.keys := by
    show x ∈ Dict.keys ((store g).foldl loadOne empty) ↔ _
    rw [h2]
    constructor
    · rintro (h | ⟨p, n, hm, h⟩)
      · simp [empty] at h
      · have hp := Dict.get?_of_mem hw.nodup hm
        rcases h with rfl | h | h
        · exact Dict.mem_keys_of_get? hp
        · exact hw.mem_keys_of_par (a := p) (by rw [pars_of_get? hp]; exact h)
        · exact hw.mem_keys_of_kid (a := p) (by rw [kids_of_get? hp]; exact h)
    · intro hx
      obtain ⟨n, hn⟩ := exists_node_of_mem hx
      exact .inr ⟨x, n, Dict.mem_of_get? hn, .inl rfl⟩
  have hl : look (load (store g)) x = match g.get? x with | some n => n | none => look empty x := h1 x
  rcases hg : g.get? x with _ | n
  · rw [Dict.get?_eq_none_iff, hk, ← Dict.get?_eq_none_iff]; exact hg
  · rw [hg] at hl
    obtain ⟨m, hm⟩ := exists_node_of_mem (hk.2 (Dict.mem_keys_of_get? hg))
    rw [hm, ← look_of_get? hm, hl]

theorem wf_of_get? {g h : Graph} (hw : WF g) (hn : h.NodupKeys) (he : ∀ x, h.get? x = g.get? x) : WF h := by
  refine ⟨hn, fun a b => ?_⟩
  have := hw.sym a b
  simpa only [kids, pars, he] using this

theorem wf_load_store {g : Graph} (hw : WF g) : WF (load (store g)) :=
  wf_of_get? hw (load_spec g hw.nodup empty (by simp [empty]) (by intro x _; simp [look, empty])).2.2
    (load_store_get? hw)

/-! ### same content -/

theorem sameContent_iff (g h : Graph) : SameContent g h ↔ ∀ x, g.get? x = h.get? x := by
  constructor
  · intro hs x
    obtain ⟨h1, h2, h3, h4⟩ := hs x
    rcases hg : g.get? x with _ | n
    · rcases hh : h.get? x with _ | m
      · rfl
      · simp [contains, Dict.has, hg, hh] at h1
    · rcases hh : h.get? x with _ | m
      · simp [contains, Dict.has, hg, hh] at h1
      · have a1 := (h2 n.info)
        simp only [HasMeta, checkFile, hg, hh] at a1
        simp only [getParents, hg, hh, Except.ok.injEq] at h3
        simp only [getChildren, hg, hh, Except.ok.injEq] at h4
        simp only [beq_self_eq_true, Bool.and_self, true_iff, Bool.and_eq_true, beq_iff_eq] at a1
        obtain ⟨⟨a, b, c⟩, p, q⟩ := m
        obtain ⟨⟨a', b', c'⟩, p', q'⟩ := n
        simp_all
  · intro he x
    simp only [contains, Dict.has, HasMeta, checkFile, getParents, getChildren, he]
    simp

theorem keys_perm_of_get? {g h : Graph} (hg : g.NodupKeys) (hh : h.NodupKeys)
    (he : ∀ x, g.get? x = h.get? x) : g.length = h.length := by
  have e : ∀ d : Graph, d.length = d.keys.length := fun d => by simp [Dict.keys]
  have mem : ∀ x, x ∈ g.keys ↔ x ∈ h.keys := fun x => by
    rw [← Dict.get?_isSome_iff, ← Dict.get?_isSome_iff, he]
  rw [e, e]
  apply Nat.le_antisymm
  · exact (List.subperm_of_subset hg (fun x hx => (mem x).1 hx)).length_le
  · exact (List.subperm_of_subset hh (fun x hx => (mem x).2 hx)).length_le

/-! ### equality -/

/-- No finished comparison in the memo failed. -/
def NoFalse (m : Memo) : Prop := ∀ k, m.get? k ≠ some (some false)

theorem NoFalse.set {m : Memo} (h : NoFalse m) (k : String) {r : Option Bool} (hr : r ≠ some false) :
    NoFalse (m.set k r) := by
  intro x; rw [Dict.get?_set]; split
  · simpa using hr
  · exact h x

/-- What a comparison function guarantees on closed lists. -/
structure CmpOk (g h : Graph) (f : Memo → String → String → CmpRes) (bound : Nat) : Prop where
  ok : ∀ memo p q, p ∈ g.keys → q ∈ h.keys → (unseen g.keys memo.keys).length < bound →
    ∃ r memo', f memo p q = (some r, memo') ∧ (∀ k ∈ memo.keys, k ∈ memo'.keys) ∧
      ((∀ x, g.get? x = h.get? x) → p = q → NoFalse memo → r ≠ some false ∧ NoFalse memo') ∧
      (memo.get? p = none → r ≠ none)

theorem unseen_mono {ks s t : List String} (h : ∀ k ∈ s, k ∈ t) : (unseen ks t).length ≤ (unseen ks s).length := by
  apply List.Sublist.length_le
  unfold unseen
  have : ks.filter (fun k => !t.contains k) = (ks.filter (fun k => !s.contains k)).filter (fun k => !t.contains k) := by
    rw [List.filter_filter]
    apply List.filter_congr
    intro x _
    by_cases a : x ∈ s
    · simp [a, h x a]
    · simp [a]
  rw [this]; exact List.filter_sublist

theorem anyMismatch_ok {g h : Graph} {f : Memo → String → String → CmpRes} {bound : Nat}
    (hf : CmpOk g h f bound) (as bs : List String) (memo : Memo)
    (ha : ∀ a ∈ as, a ∈ g.keys) (hb : ∀ b ∈ bs, b ∈ h.keys)
    (hm : (unseen g.keys memo.keys).length < bound) :
    ∃ r memo', anyMismatch f memo as bs = (some r, memo') ∧ (∀ k ∈ memo.keys, k ∈ memo'.keys) ∧
      ((∀ x, g.get? x = h.get? x) → as = bs → NoFalse memo → r = false ∧ NoFalse memo') := by
  induction as generalizing bs memo with
  | nil => exact ⟨false, memo, by simp [anyMismatch], fun _ h => h, fun _ _ h => ⟨rfl, h⟩⟩
  | cons a as ih =>
    cases bs with
    | nil => exact ⟨false, memo, by simp [anyMismatch], fun _ h => h, fun _ _ h => ⟨rfl, h⟩⟩
    | cons b bs =>
      obtain ⟨r, memo1, e1, k1, n1, _⟩ := hf.ok memo a b (ha a (by simp)) (hb b (by simp)) hm
      simp only [anyMismatch, e1]
      by_cases hr : r = some false
      · subst hr
        refine ⟨true, memo1, rfl, k1, ?_⟩
        intro he hl hnf
        simp only [List.cons.injEq] at hl
        exact absurd rfl (n1 he hl.1 hnf).1
      · obtain ⟨r2, memo2, e2, k2, n2⟩ := ih bs memo1 (fun x hx => ha x (by simp [hx]))
          (fun x hx => hb x (by simp [hx])) (Nat.lt_of_le_of_lt (unseen_mono k1) hm)
        refine ⟨r2, memo2, ?_, fun k hk => k2 k (k1 k hk), ?_⟩
        · rcases r with _ | r
          · exact e2
          · cases r
            · exact absurd rfl hr
            · exact e2
        · intro he hl hnf
          simp only [List.cons.injEq] at hl
          exact n2 he hl.2 (n1 he hl.1 hnf).2

theorem mem_keys_set_of_mem (m : Memo) (k : String) (r : Option Bool) : ∀ x ∈ m.keys, x ∈ Dict.keys (m.set k r) :=
  fun x hx => (Dict.mem_keys_set m k x r).2 (.inr hx)

theorem cmp_ok {g h : Graph} (hg : WF g) (hh : WF h) (fuel : Nat) : CmpOk g h (cmp g h fuel) fuel := by
  induction fuel with
  | zero => exact ⟨fun _ _ _ _ _ h => absurd h (Nat.not_lt_zero _)⟩
  | succ fuel ih =>
    refine ⟨?_⟩
    intro memo p q hp hq hlt
    obtain ⟨n, hn⟩ := exists_node_of_mem hp
    obtain ⟨m, hm⟩ := exists_node_of_mem hq
    have bad : ∀ (c : Prop) (hc : (∀ x, g.get? x = h.get? x) → p = q → ¬c),
        c → ∃ r memo', ((some (some false), memo) : CmpRes) = (some r, memo') ∧ (∀ k ∈ memo.keys, k ∈ memo'.keys) ∧
      ((∀ x, g.get? x = h.get? x) → p = q → NoFalse memo → r ≠ some false ∧ NoFalse memo') ∧
      (memo.get? p = none → r ≠ none) := fun c hc hcc =>
        ⟨some false, memo, rfl, fun _ h => h, fun he e _ => absurd hcc (hc he e), by simp⟩
    have same : (∀ x, g.get? x = h.get? x) → p = q → n = m := fun he e => by
      subst e; have := he p; rw [hn, hm] at this; simpa using this
    simp only [cmp, hn, hm]
    split
    · rename_i hc; exact bad _ (fun _ e h => h e) hc
    split
    · rename_i hc; exact bad _ (fun he e h => h (by rw [same he e])) hc
    split
    · rename_i hc; exact bad _ (fun he e h => h (by rw [same he e])) hc
    split
    · rename_i hc; exact bad _ (fun he e h => h (by rw [same he e])) hc
    split
    · rename_i hc; exact bad _ (fun he e h => h (by rw [same he e])) hc
    split
    · rename_i hc; exact bad _ (fun he e h => h (by rw [same he e])) hc
    rcases hmp : memo.get? p with _ | r
    · dsimp only
      have hp' : p ∉ memo.keys := (Dict.get?_eq_none_iff memo p).1 hmp
      have hu : (unseen g.keys (Dict.keys (memo.set p none))).length < fuel := by
        rw [Dict.keys_set_of_not_mem _ hp']
        have := unseen_append_le g.keys memo.keys [p] (by simp)
          (by intro x hx; simp only [List.mem_singleton] at hx; subst hx; exact ⟨hp, hp'⟩)
        simp only [List.length_singleton] at this
        omega
      obtain ⟨r1, m1, e1, k1, n1⟩ := anyMismatch_ok ih n.parents m.parents (memo.set p none)
        (fun a ha => hg.mem_keys_of_par (a := p) (by rw [pars_of_get? hn]; exact ha))
        (fun a ha => hh.mem_keys_of_par (a := q) (by rw [pars_of_get? hm]; exact ha)) hu
      rw [e1]
      have k1' : ∀ k ∈ memo.keys, k ∈ m1.keys := fun k hk => k1 k (mem_keys_set_of_mem memo p none k hk)
      cases r1 with
      | true =>
        refine ⟨some false, m1.set p (some false), rfl, fun k hk => mem_keys_set_of_mem _ _ _ k (k1' k hk), ?_, by simp⟩
        intro he e hnf
        have := (n1 he (by rw [same he e]) (hnf.set p (by simp))).1
        simp at this
      | false =>
        dsimp only
        obtain ⟨r2, m2, e2, k2, n2⟩ := anyMismatch_ok ih n.children m.children m1
          (fun a ha => hg.mem_keys_of_kid (a := p) (by rw [kids_of_get? hn]; exact ha))
          (fun a ha => hh.mem_keys_of_kid (a := q) (by rw [kids_of_get? hm]; exact ha))
          (Nat.lt_of_le_of_lt (unseen_mono k1) hu)
        rw [e2]
        have k2' : ∀ k ∈ memo.keys, k ∈ m2.keys := fun k hk => k2 k (k1' k hk)
        cases r2 with
        | true =>
          refine ⟨some false, m2.set p (some false), rfl, fun k hk => mem_keys_set_of_mem _ _ _ k (k2' k hk), ?_, by simp⟩
          intro he e hnf
          have h1 := (n1 he (by rw [same he e]) (hnf.set p (by simp))).2
          have := (n2 he (by rw [same he e]) h1).1
          simp at this
        | false =>
          refine ⟨some true, m2.set p (some true), rfl, fun k hk => mem_keys_set_of_mem _ _ _ k (k2' k hk), ?_, by simp⟩
          intro he e hnf
          have h1 := (n1 he (by rw [same he e]) (hnf.set p (by simp))).2
          have h2 := (n2 he (by rw [same he e]) h1).2
          exact ⟨by simp, h2.set p (by simp)⟩
    · refine ⟨r, memo, rfl, fun _ h => h, ?_, by simp⟩
      intro _ _ hnf
      refine ⟨?_, hnf⟩
      rintro rfl
      exact hnf p hmp

/-- A comparison that is not `False` had equal paths. -/
theorem cmp_path {g h : Graph} {fuel : Nat} {memo memo' : Memo} {p q : String} {r : Option Bool}
    (hr : cmp g h fuel memo p q = (some r, memo')) (hne : r ≠ some false) : p = q := by
  cases fuel with
  | zero => simp [cmp] at hr
  | succ fuel =>
    simp only [cmp] at hr
    split at hr
    · split at hr
      · simp only [Prod.mk.injEq, Option.some.injEq] at hr
        exact absurd hr.1.symm hne
      · rename_i h; exact Decidable.not_not.1 h
    · simp at hr

theorem anyMismatch_sound {g h : Graph} {fuel : Nat} (as bs : List String) (memo memo' : Memo)
    (hl : as.length = bs.length) (hr : anyMismatch (cmp g h fuel) memo as bs = (some false, memo')) : as = bs := by
  induction as generalizing bs memo with
  | nil => cases bs with
    | nil => rfl
    | cons => simp at hl
  | cons a as ih =>
    cases bs with
    | nil => simp at hl
    | cons b bs =>
      simp only [anyMismatch] at hr
      rcases hc : cmp g h fuel memo a b with ⟨r, m1⟩
      rw [hc] at hr
      rcases r with _ | r
      · simp at hr
      · by_cases hf : r = some false
        · subst hf; simp at hr
        · have e := cmp_path hc hf
          have : anyMismatch (cmp g h fuel) m1 as bs = (some false, memo') := by
            rcases r with _ | r
            · exact hr
            · cases r
              · exact absurd rfl hf
              · exact hr
          rw [e, ih bs m1 (by simpa using hl) this]

theorem cmp_true {g h : Graph} {fuel : Nat} {memo' : Memo} {p q : String} {n m : Node}
    (hn : g.get? p = some n) (hm : h.get? q = some m)
    (hr : cmp g h fuel [] p q = (some (some true), memo')) : n = m := by
  cases fuel with
  | zero => simp [cmp] at hr
  | succ fuel =>
    simp only [cmp, hn, hm, Dict.get?_nil] at hr
    split at hr
    · simp at hr
    split at hr
    · simp at hr
    split at hr
    · simp at hr
    split at hr
    · simp at hr
    split at hr
    · simp at hr
    split at hr
    · simp at hr
    rename_i h1 h2 h3 h4 h5 h6
    simp only [ne_eq, Decidable.not_not] at h1 h2 h3 h4 h5 h6
    rcases e1 : anyMismatch (cmp g h fuel) (Dict.set [] p none) n.parents m.parents with ⟨r1, m1⟩
    rw [e1] at hr
    rcases r1 with _ | r1
    · simp at hr
    cases r1 with
    | true => simp at hr
    | false =>
      dsimp only at hr
      rcases e2 : anyMismatch (cmp g h fuel) m1 n.children m.children with ⟨r2, m2⟩
      rw [e2] at hr
      rcases r2 with _ | r2
      · simp at hr
      cases r2 with
      | true => simp at hr
      | false =>
        have hp := anyMismatch_sound _ _ _ _ h5 e1
        have hc := anyMismatch_sound _ _ _ _ h6 e2
        obtain ⟨⟨a, b, c⟩, ps, cs⟩ := n
        obtain ⟨⟨a', b', c'⟩, ps', cs'⟩ := m
        simp_all

theorem nodeEq_spec {g h : Graph} (hg : WF g) (hh : WF h) {p : String} {n m : Node}
    (hn : g.get? p = some n) (hm : h.get? p = some m) :
    ∃ r, nodeEq g h p p = some r ∧ (r = true → n = m) ∧ ((∀ x, g.get? x = h.get? x) → r = true) := by
  have hu : (unseen g.keys (Dict.keys ([] : Memo))).length < g.length + 1 := by
    have := List.length_filter_le (fun k => !([] : List String).contains k) g.keys
    simp only [unseen, Dict.keys_nil]
    simp only [Dict.keys, List.length_map] at this ⊢
    omega
  obtain ⟨r, m', e, _, hs, hne⟩ := (cmp_ok hg hh (g.length + 1)).ok [] p p (Dict.mem_keys_of_get? hn)
    (Dict.mem_keys_of_get? hm) hu
  have same : (∀ x, g.get? x = h.get? x) → n = m := fun he => by
    have := he p; rw [hn, hm] at this; simpa using this
  simp only [nodeEq, hn, hm, e, ne_eq, not_true_eq_false, if_false]
  split
  · rename_i hc; exact ⟨false, rfl, by simp, fun he => absurd (by rw [same he]) hc⟩
  split
  · rename_i hc; exact ⟨false, rfl, by simp, fun he => absurd (by rw [same he]) hc⟩
  split
  · rename_i hc; exact ⟨false, rfl, by simp, fun he => absurd (by rw [same he]) hc⟩
  refine ⟨r == some true, rfl, ?_, ?_⟩
  · intro hr
    have : r = some true := by simpa using hr
    subst this
    exact cmp_true hn hm e
  · intro he
    have h1 := (hs he rfl (by intro k; simp)).1
    have h2 := hne (by simp)
    rcases r with _ | r
    · exact absurd rfl h2
    · cases r
      · exact absurd rfl h1
      · rfl

theorem allEq_spec {g h : Graph} (hg : WF g) (hh : WF h) (ps : List String) (hps : ∀ p ∈ ps, p ∈ g.keys) :
    ∃ r, allEq g h ps = some r ∧ (r = true → ∀ p ∈ ps, g.get? p = h.get? p) ∧
      ((∀ x, g.get? x = h.get? x) → r = true) := by
  induction ps with
  | nil => exact ⟨true, rfl, by simp, by simp⟩
  | cons p ps ih =>
    obtain ⟨r, e, s, c⟩ := ih (fun q hq => hps q (by simp [hq]))
    obtain ⟨n, hn⟩ := exists_node_of_mem (hps p (by simp))
    simp only [allEq]
    rcases hm : h.get? p with _ | m
    · refine ⟨false, by simp [contains, Dict.has, hm], by simp, ?_⟩
      intro he; have := he p; rw [hn, hm] at this; simp at this
    · have hc : (!contains h p) = false := by simp [contains, Dict.has, hm]
      rw [hc]
      obtain ⟨r1, e1, s1, c1⟩ := nodeEq_spec hg hh hn hm
      rw [e1]
      cases r1 with
      | false => exact ⟨false, rfl, by simp, fun he => by simpa using c1 he⟩
      | true =>
        refine ⟨r, e, ?_, c⟩
        intro hr q hq
        rcases List.mem_cons.1 hq with rfl | hq
        · rw [hn, hm, s1 rfl]
        · exact s hr q hq

/-- `==` always terminates and is exactly equality of the lookups. -/
theorem graphEq_spec {g h : Graph} (hg : WF g) (hh : WF h) :
    ∃ r, graphEq g h = some r ∧ (r = true ↔ ∀ x, g.get? x = h.get? x) := by
  unfold graphEq
  by_cases hl : g.length = h.length
  · rw [if_neg (by simpa using hl)]
    obtain ⟨r, e, s, c⟩ := allEq_spec hg hh g.keys (fun _ h => h)
    refine ⟨r, e, ?_, c⟩
    intro hr x
    by_cases hx : x ∈ g.keys
    · exact s hr x hx
    · -- same number of keys and g's keys are among h's: no extra key
      have hsub : ∀ k ∈ g.keys, k ∈ h.keys := fun k hk => by
        rw [← Dict.get?_isSome_iff, ← s hr k hk, Dict.get?_isSome_iff]; exact hk
      have hxh : x ∉ h.keys := by
        intro hxh
        have hnd : (x :: g.keys).Nodup := List.nodup_cons.2 ⟨hx, hg.nodup⟩
        have := (List.subperm_of_subset hnd (l₂ := h.keys) (by
          intro y hy; rcases List.mem_cons.1 hy with rfl | hy
          · exact hxh
          · exact hsub y hy)).length_le
        simp only [List.length_cons, Dict.keys, List.length_map] at this
        omega
      rw [(Dict.get?_eq_none_iff g x).2 hx, (Dict.get?_eq_none_iff h x).2 hxh]
  · rw [if_pos (by simpa using hl)]
    refine ⟨false, rfl, by simp, ?_⟩
    intro he; exact absurd (keys_perm_of_get? hg.nodup hh.nodup he) hl

end Verif.Graph
