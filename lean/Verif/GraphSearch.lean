import Verif.GraphLemmas
import Verif.GraphSpec
import Batteries.Data.List.Perm
/-! Helper lemmas: the breadth first search and paths. -/
namespace Verif.Graph
open Verif

theorem Path.trans {E : String → String → Prop} {a b c : String} (h : Path E a b) (h2 : Path E b c) :
    Path E a c := by
  induction h with
  | one e => exact .more e h2
  | more e _ ih => exact .more e (ih h2)

theorem Path.snoc {E : String → String → Prop} {a b c : String} (h : Path E a b) (e : E b c) :
    Path E a c := h.trans (.one e)

theorem Path.mono {E F : String → String → Prop} (h : ∀ x y, E x y → F x y) {a b : String}
    (p : Path E a b) : Path F a b := by
  induction p with
  | one e => exact .one (h _ _ e)
  | more e _ ih => exact .more (h _ _ e) ih

theorem Path.flip {E F : String → String → Prop} (h : ∀ x y, E x y → F y x) {a b : String}
    (p : Path E a b) : Path F b a := by
  induction p with
  | one e => exact .one (h _ _ e)
  | more e _ ih => exact ih.snoc (h _ _ e)

/-- The last vertex of a path has an incoming edge from somewhere. -/
theorem Path.last {E : String → String → Prop} {a b : String} (p : Path E a b) : ∃ x, E x b := by
  induction p with
  | one e => exact ⟨_, e⟩
  | more _ _ ih => exact ih

theorem Path.head {E : String → String → Prop} {a b : String} (p : Path E a b) : ∃ x, E a x := by
  cases p with
  | one e => exact ⟨_, e⟩
  | more e _ => exact ⟨_, e⟩

theorem edge_iff (g : Graph) (a b : String) : Edge g a b ↔ b ∈ kids g a := by
  unfold Edge getChildren kids
  rcases h : g.get? a with _ | n
  · simp
  · simp

/-- Edge relation of a neighbour function. -/
def Nxt (next : String → List String) (a b : String) : Prop := b ∈ next a

theorem pushUnseen_spec (cs q s : List String) :
    ∃ new, pushUnseen cs q s = (q ++ new, s ++ new) ∧ (∀ x ∈ new, x ∈ cs ∧ x ∉ s) ∧ new.Nodup ∧
      (∀ x ∈ cs, x ∈ s ++ new) := by
  induction cs generalizing q s with
  | nil => exact ⟨[], by simp [pushUnseen], by simp, by simp, by simp⟩
  | cons c cs ih =>
    simp only [pushUnseen]
    by_cases h : s.contains c = true
    · rw [if_pos h]
      obtain ⟨new, h1, h2, h3, h4⟩ := ih q s
      refine ⟨new, h1, fun x hx => ⟨by simp [(h2 x hx).1], (h2 x hx).2⟩, h3, ?_⟩
      intro x hx
      rcases List.mem_cons.1 hx with rfl | hx
      · have : x ∈ s := by simpa using h
        simp [this]
      · exact h4 x hx
    · rw [if_neg h]
      have hs : c ∉ s := by simpa using h
      obtain ⟨new, h1, h2, h3, h4⟩ := ih (q ++ [c]) (s ++ [c])
      refine ⟨c :: new, by simp [h1], ?_, ?_, ?_⟩
      · intro x hx
        rcases List.mem_cons.1 hx with rfl | hx
        · simp [hs]
        · have := h2 x hx
          simp only [List.mem_append, List.mem_singleton, not_or] at this
          simp [this.1, this.2.1]
      · rw [List.nodup_cons]; refine ⟨?_, h3⟩
        intro hc; have := (h2 c hc).2; simp at this
      · intro x hx
        rcases List.mem_cons.1 hx with rfl | hx
        · simp
        · have := h4 x hx; simpa using this

/-- Elements of `ks` not yet in `s`. -/
def unseen (ks s : List String) : List String := ks.filter (fun k => !s.contains k)

theorem unseen_append_le (ks s new : List String) (hn : new.Nodup)
    (h : ∀ x ∈ new, x ∈ ks ∧ x ∉ s) : (unseen ks (s ++ new)).length + new.length ≤ (unseen ks s).length := by
  have h1 : unseen ks (s ++ new) = (unseen ks s).filter (fun k => !new.contains k) := by
    unfold unseen
    rw [List.filter_filter]
    congr 1
    funext k
    simp only [List.contains_eq_mem, List.mem_append]
    by_cases a : k ∈ s <;> by_cases b : k ∈ new <;> simp [a, b]
  rw [h1]
  have h2 : ((unseen ks s).filter (fun k => new.contains k)).length ≥ new.length := by
    apply List.Subperm.length_le
    apply List.subperm_of_subset hn
    intro x hx
    have := h x hx
    simp [unseen, this.1, this.2, hx]
  have h3 := List.length_eq_countP_add_countP (fun k => new.contains k) (l := unseen ks s)
  simp only [List.countP_eq_length_filter] at h3
  have : (fun a => decide ¬(new.contains a) = true) = (fun k => !new.contains k) := by
    funext a; cases new.contains a <;> rfl
  simp only [this] at h3
  omega

theorem bfsLoop_ok (next : String → List String) (ks : List String) (b : String)
    (hcl : ∀ x, ∀ y ∈ next x, y ∈ ks) (fuel : Nat) (q s : List String)
    (hf : q.length + (unseen ks s).length ≤ fuel) :
    ∃ r, bfsLoop next b fuel q s = some r := by
  induction fuel generalizing q s with
  | zero =>
    cases q with
    | nil => exact ⟨false, rfl⟩
    | cons c q => simp at hf
  | succ n ih =>
    cases q with
    | nil => exact ⟨false, rfl⟩
    | cons c q =>
      simp only [bfsLoop]
      split
      · exact ⟨true, rfl⟩
      · obtain ⟨new, h1, h2, h3, _⟩ := pushUnseen_spec (next c) q s
        rw [h1]
        apply ih
        have := unseen_append_le ks s new h3 (fun x hx => ⟨hcl c x (h2 x hx).1, (h2 x hx).2⟩)
        simp at hf ⊢; omega

theorem bfsLoop_sound (next : String → List String) (a b : String) (fuel : Nat) (q s : List String)
    (hq : ∀ x ∈ q, Path (Nxt next) a x) (h : bfsLoop next b fuel q s = some true) :
    Path (Nxt next) a b := by
  induction fuel generalizing q s with
  | zero => cases q <;> simp [bfsLoop] at h
  | succ n ih =>
    cases q with
    | nil => simp [bfsLoop] at h
    | cons c q =>
      simp only [bfsLoop] at h
      split at h
      · rename_i e; subst e; exact hq _ (by simp)
      · obtain ⟨new, h1, h2, _, _⟩ := pushUnseen_spec (next c) q s
        rw [h1] at h
        refine ih _ _ ?_ h
        intro x hx
        rcases List.mem_append.1 hx with hx | hx
        · exact hq x (by simp [hx])
        · exact (hq c (by simp)).snoc (h2 x hx).1

theorem bfsLoop_complete (next : String → List String) (b : String) (fuel : Nat) (q s : List String)
    (hqs : ∀ x ∈ q, x ∈ s)
    (hs : ∀ x ∈ s, x ∈ q ∨ (x ≠ b ∧ ∀ y ∈ next x, y ∈ s))
    (h : bfsLoop next b fuel q s = some false) :
    ∃ S : List String, (∀ x ∈ s, x ∈ S) ∧ b ∉ S ∧ ∀ x ∈ S, ∀ y ∈ next x, y ∈ S := by
  have base : ∀ s : List String, (∀ x ∈ s, x ∈ ([] : List String) ∨ (x ≠ b ∧ ∀ y ∈ next x, y ∈ s)) →
      ∃ S : List String, (∀ x ∈ s, x ∈ S) ∧ b ∉ S ∧ ∀ x ∈ S, ∀ y ∈ next x, y ∈ S := by
    intro s hs
    refine ⟨s, fun _ h => h, ?_, ?_⟩
    · intro hb; rcases hs b hb with h | h
      · simp at h
      · exact h.1 rfl
    · intro x hx; rcases hs x hx with h | h
      · simp at h
      · exact h.2
  induction fuel generalizing q s with
  | zero =>
    cases q with
    | nil => exact base s hs
    | cons c q => simp [bfsLoop] at h
  | succ n ih =>
    cases q with
    | nil => exact base s hs
    | cons c q =>
      simp only [bfsLoop] at h
      split at h
      · simp at h
      · rename_i hcb
        obtain ⟨new, h1, h2, h3, h4⟩ := pushUnseen_spec (next c) q s
        rw [h1] at h
        obtain ⟨S, hS1, hS2, hS3⟩ := ih (q ++ new) (s ++ new)
          (fun x hx => by
            rcases List.mem_append.1 hx with hx | hx
            · exact List.mem_append.2 (.inl (hqs x (by simp [hx])))
            · exact List.mem_append.2 (.inr hx))
          (fun x hx => by
            rcases List.mem_append.1 hx with hx | hx
            · rcases hs x hx with hq | ⟨hb, hn⟩
              · rcases List.mem_cons.1 hq with rfl | hq
                · exact .inr ⟨hcb, h4⟩
                · exact .inl (by simp [hq])
              · exact .inr ⟨hb, fun y hy => List.mem_append.2 (.inl (hn y hy))⟩
            · exact .inl (by simp [hx]))
          h
        exact ⟨S, fun x hx => hS1 x (List.mem_append.2 (.inl hx)), hS2, hS3⟩

theorem checkTree_spec {g : Graph} (next : String → List String)
    (hcl : ∀ x, ∀ y ∈ next x, y ∈ g.keys) (a b : String) :
    ∃ r, checkTree g next a b = some r ∧ (r = true ↔ Path (Nxt next) a b) := by
  unfold checkTree
  have hlen : (unseen g.keys (next a)).length ≤ g.length := by
    have := List.length_filter_le (fun k => !(next a).contains k) g.keys
    simpa [unseen, Dict.keys] using this
  obtain ⟨r, hr⟩ := bfsLoop_ok next g.keys b hcl ((next a).length + g.length) (next a) (next a)
    (by omega)
  refine ⟨r, hr, ?_⟩
  constructor
  · rintro rfl
    exact bfsLoop_sound next a b _ _ _ (fun x hx => .one hx) hr
  · intro p
    cases r with
    | true => rfl
    | false =>
      obtain ⟨S, h1, h2, h3⟩ := bfsLoop_complete next b _ _ _ (fun _ h => h) (fun x hx => .inl hx) hr
      exfalso
      have key : ∀ x y, Path (Nxt next) x y → (∀ z ∈ next x, z ∈ S) → y ∈ S := by
        intro x y p
        induction p with
        | one e => intro h; exact h _ e
        | more e _ ih => intro h; exact ih (fun z hz => h3 _ (h _ e) z hz)
      exact h2 (key a b p h1)

theorem dependsOn_iff (g : Graph) (a b : String) : DependsOn g a b ↔ Path (Nxt (kids g)) a b :=
  ⟨Path.mono (fun x y h => (edge_iff g x y).1 h), Path.mono (fun x y h => (edge_iff g x y).2 h)⟩

theorem dependsOn_iff_pars {g : Graph} (hw : WF g) (a b : String) :
    DependsOn g b a ↔ Path (Nxt (pars g)) a b := by
  rw [dependsOn_iff]
  constructor
  · exact Path.flip (fun x y h => (hw.mem_pars_iff x y).2 h)
  · exact Path.flip (fun x y h => (hw.mem_pars_iff y x).1 h)

open Classical in
/-- Exact answer of `check_nested_relationship` on a well formed graph. -/
theorem checkNested_eq {g : Graph} (hw : WF g) (a b : String) :
    checkNested g a b =
      if a = b ∨ a ∉ g.keys ∨ b ∉ g.keys then .error .valueError
      else .ok (if DependsOn g b a then (if DependsOn g a b then .cyclic else .child)
        else if DependsOn g a b then .parent else .unrelated) := by
  unfold checkNested
  by_cases hab : a = b
  · simp [hab]
  rw [if_neg hab]
  by_cases ha : a ∈ g.keys
  · obtain ⟨n, hn⟩ := exists_node_of_mem ha
    rw [hn]
    by_cases hb : b ∈ g.keys
    · have hcond : ¬ (a = b ∨ a ∉ g.keys ∨ b ∉ g.keys) := by simp [hab, ha, hb]
      rw [if_neg hcond]
      obtain ⟨r1, e1, i1⟩ := checkTree_spec (pars g) (fun x y hy => hw.mem_keys_of_par hy) a b
      obtain ⟨r2, e2, i2⟩ := checkTree_spec (kids g) (fun x y hy => hw.mem_keys_of_kid hy) a b
      rw [← dependsOn_iff_pars hw] at i1
      rw [← dependsOn_iff] at i2
      simp only [(contains_iff g b).2 hb, e1, e2, Bool.not_true, Bool.false_eq_true, if_false]
      simp only [← i1, ← i2]
      cases r1 <;> cases r2 <;> simp
    · have : contains g b = false := by have := mt (contains_iff g b).1 hb; simpa using this
      simp [this, hb]
  · have hcond : a = b ∨ a ∉ g.keys ∨ b ∉ g.keys := by simp [ha]
    rw [(Dict.get?_eq_none_iff g a).2 ha, if_pos hcond]

open Classical in
/-- The guard of `set_children`: passes exactly when no requested child is `a` or depends on it. -/
theorem anyCycle_spec {g : Graph} (hw : WF g) {a : String} (ha : a ∈ g.keys) (cs : List String)
    (hcs : ∀ c ∈ cs, c ∈ g.keys) :
    anyCycle g a cs = .ok false ↔ ∀ c ∈ cs, c ≠ a ∧ ¬ DependsOn g c a := by
  induction cs with
  | nil => simp [anyCycle]
  | cons c cs ih =>
    have ih := ih (fun d hd => hcs d (by simp [hd]))
    have hc := hcs c (by simp)
    simp only [anyCycle, checkNested_eq hw]
    by_cases hac : a = c
    · simp [hac]
    rw [if_neg (by simp [hac, ha, hc])]
    by_cases h1 : DependsOn g c a
    · by_cases h2 : DependsOn g a c <;> simp [h1, h2]
    · rw [if_neg h1]
      by_cases h2 : DependsOn g a c
      · rw [if_pos h2]; dsimp only; rw [ih]; simp [h1, Ne.symm hac]
      · rw [if_neg h2]; dsimp only; rw [ih]; simp [h1, Ne.symm hac]

open Classical in
/-- Any error of the cycle guard on existing files is a `ValueError`. -/
theorem anyCycle_err {g : Graph} (hw : WF g) {a : String} (cs : List String) {e : Err}
    (h : anyCycle g a cs = .error e) : e = .valueError := by
  induction cs with
  | nil => simp [anyCycle] at h
  | cons c cs ih =>
    simp only [anyCycle, checkNested_eq hw] at h
    by_cases hx : a = c ∨ a ∉ g.keys ∨ c ∉ g.keys
    · rw [if_pos hx] at h; simp at h; exact h.symm
    · rw [if_neg hx] at h
      by_cases h1 : DependsOn g c a <;> by_cases h2 : DependsOn g a c <;> simp [h1, h2] at h
      · exact ih h
      · exact ih h

end Verif.Graph
