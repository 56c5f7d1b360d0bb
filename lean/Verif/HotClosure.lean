import Verif.Hot
import Verif.GraphSearch
import Mathlib.Tactic.Tauto
/-! # Lemmas about the affected-files closure and the scan loop -/
namespace Verif.Hot
open Verif Verif.Graph

theorem pushNew_spec (ps seen stack : List String) :
    ∃ new, pushNew ps seen stack = (seen ++ new, new.reverse ++ stack) ∧ new.Nodup ∧
      (∀ x ∈ new, x ∈ ps ∧ x ∉ seen) ∧ ∀ x ∈ ps, x ∈ seen ++ new := by
  induction ps generalizing seen stack with
  | nil => exact ⟨[], by simp [pushNew]⟩
  | cons p ps ih =>
    simp only [pushNew]
    split
    · rename_i h
      obtain ⟨new, e, h1, h2, h3⟩ := ih seen stack
      refine ⟨new, e, h1, fun x hx => ⟨by simp [(h2 x hx).1], (h2 x hx).2⟩, ?_⟩
      intro x hx
      rcases List.mem_cons.1 hx with rfl | hx
      · simp at h; simp [h]
      · exact h3 x hx
    · rename_i h
      obtain ⟨new, e, h1, h2, h3⟩ := ih (seen ++ [p]) (p :: stack)
      refine ⟨p :: new, by rw [e]; simp, ?_, ?_, ?_⟩
      · rw [List.nodup_cons]
        exact ⟨fun hp => (h2 p hp).2 (by simp), h1⟩
      · intro x hx
        rcases List.mem_cons.1 hx with rfl | hx
        · exact ⟨by simp, by simpa using h⟩
        · refine ⟨by simp [(h2 x hx).1], fun hs => (h2 x hx).2 (by simp [hs])⟩
      · intro x hx
        rcases List.mem_cons.1 hx with rfl | hx
        · simp
        · have := h3 x hx; simpa using this

theorem pushNew_append (ps qs seen stack : List String) :
    pushNew qs (pushNew ps seen stack).1 (pushNew ps seen stack).2 = pushNew (ps ++ qs) seen stack := by
  induction ps generalizing seen stack with
  | nil => rfl
  | cons p ps ih =>
    simp only [pushNew, List.cons_append]
    split
    · exact ih _ _
    · exact ih _ _

theorem insertAll_spec (xs seen : List String) (hs : seen.Nodup) :
    (insertAll xs seen).Nodup ∧ ∀ x, x ∈ insertAll xs seen ↔ x ∈ seen ∨ x ∈ xs := by
  unfold insertAll
  induction xs generalizing seen with
  | nil => simp [hs]
  | cons y ys ih =>
    simp only [List.foldl_cons]
    split
    · rename_i h
      obtain ⟨h1, h2⟩ := ih seen hs
      refine ⟨h1, fun x => ?_⟩
      rw [h2]
      simp at h
      constructor
      · rintro (h | h) <;> simp [h]
      · rintro (h' | h')
        · exact .inl h'
        · rcases List.mem_cons.1 h' with rfl | h'
          · exact .inl h
          · exact .inr h'
    · rename_i h
      have : (seen ++ [y]).Nodup := by
        rw [List.nodup_append]
        refine ⟨hs, by simp, ?_⟩
        intro a ha b hb
        simp at hb h
        subst hb
        rintro rfl; exact h ha
      obtain ⟨h1, h2⟩ := ih _ this
      refine ⟨h1, fun x => ?_⟩
      rw [h2]
      simp only [List.mem_append, List.mem_cons, List.not_mem_nil, or_false]
      constructor
      · rintro ((h | h) | h) <;> simp [h]
      · rintro (h | h | h) <;> simp [h]

/-- `x` is reached from one of the seeds by zero or more steps of `next`. -/
inductive Reach (next : String → List String) (seeds : List String) : String → Prop where
  | seed {x} : x ∈ seeds → Reach next seeds x
  | step {x y} : Reach next seeds x → y ∈ next x → Reach next seeds y

theorem closeLoop_spec (dep ph : String → List String) (seeds U : List String)
    (hU : ∀ x, ∀ y ∈ dep x ++ ph x, y ∈ U) (fuel : Nat) (seen stack popped : List String)
    (hf : stack.length + (unseen U seen).length ≤ fuel)
    (h0 : seen.Nodup)
    (hseed : ∀ x ∈ seeds, x ∈ seen)
    (h1 : ∀ x ∈ popped, ∀ y ∈ dep x ++ ph x, y ∈ seen)
    (h2 : ∀ x ∈ seen, x ∈ popped ∨ x ∈ stack)
    (h3 : ∀ x, x ∈ popped ∨ x ∈ stack → x ∈ seen)
    (h4 : ∀ x ∈ seen, Reach (fun x => dep x ++ ph x) seeds x) :
    ∃ s p, closeLoop dep ph fuel seen stack popped = some (s, p) ∧ s.Nodup ∧
      (∀ x, x ∈ s ↔ Reach (fun x => dep x ++ ph x) seeds x) ∧ (∀ x, x ∈ p ↔ x ∈ s) := by
  induction fuel generalizing seen stack popped with
  | zero =>
    cases stack with
    | cons c q => simp at hf
    | nil =>
      refine ⟨seen, popped, rfl, h0, ?_, fun x => ⟨fun h => h3 x (.inl h), fun h => ?_⟩⟩
      · intro x
        refine ⟨h4 x, fun h => ?_⟩
        induction h with
        | seed h => exact hseed _ h
        | step _ hy ih =>
          refine h1 _ ?_ _ hy
          rcases h2 _ ih with h | h
          · exact h
          · simp at h
      · rcases h2 _ h with h | h
        · exact h
        · simp at h
  | succ n ih =>
    cases stack with
    | nil =>
      refine ⟨seen, popped, rfl, h0, ?_, fun x => ⟨fun h => h3 x (.inl h), fun h => ?_⟩⟩
      · intro x
        refine ⟨h4 x, fun h => ?_⟩
        induction h with
        | seed h => exact hseed _ h
        | step _ hy ih =>
          refine h1 _ ?_ _ hy
          rcases h2 _ ih with h | h
          · exact h
          · simp at h
      · rcases h2 _ h with h | h
        · exact h
        · simp at h
    | cons f stack =>
      simp only [closeLoop]
      rw [pushNew_append]
      obtain ⟨new, e, n1, n2, n3⟩ := pushNew_spec (dep f ++ ph f) seen stack
      rw [e]
      have hfs : f ∈ seen := h3 f (.inr (by simp))
      apply ih
      · have := unseen_append_le U seen new n1 (fun x hx => ⟨hU f x (n2 x hx).1, (n2 x hx).2⟩)
        simp at hf ⊢; omega
      · rw [List.nodup_append]
        exact ⟨h0, n1, fun a ha b hb hab => (n2 b hb).2 (hab ▸ ha)⟩
      · intro x hx; simp [hseed x hx]
      · intro x hx y hy
        rcases List.mem_append.1 hx with hx | hx
        · simp [h1 x hx y hy]
        · simp at hx; subst hx; exact n3 y hy
      · intro x hx
        simp only [List.mem_append, List.mem_reverse, List.mem_singleton] at hx ⊢
        rcases hx with hx | hx
        · rcases h2 x hx with h | h
          · exact .inl (.inl h)
          · rcases List.mem_cons.1 h with rfl | h
            · exact .inl (.inr rfl)
            · exact .inr (.inr h)
        · exact .inr (.inl hx)
      · intro x hx
        simp only [List.mem_append, List.mem_reverse, List.mem_singleton] at hx ⊢
        rcases hx with (hx | rfl) | (hx | hx)
        · exact .inl (h3 x (.inl hx))
        · exact .inl hfs
        · exact .inr hx
        · exact .inl (h3 x (.inr (by simp [hx])))
      · intro x hx
        rcases List.mem_append.1 hx with hx | hx
        · exact h4 x hx
        · exact .step (h4 f hfs) (n2 x hx).1

theorem mem_keys_of_mem_pars {g : Graph} (hw : WF g) {a b : String} (h : b ∈ pars g a) : b ∈ g.keys :=
  hw.mem_keys_of_par h

theorem closure_spec {oldDep oldPh : Graph} (hd : WF oldDep) (hp : WF oldPh) (updated deleted : List String) :
    ∃ s p, closure oldDep oldPh updated deleted = some (s, p) ∧ s.Nodup ∧
      (∀ x, x ∈ s ↔ Reach (fun x => pars oldDep x ++ pars oldPh x) (updated ++ deleted) x) ∧
      (∀ x, x ∈ p ↔ x ∈ s) := by
  obtain ⟨i1, i2⟩ := insertAll_spec (updated ++ deleted) [] (by simp)
  unfold closure
  refine closeLoop_spec _ _ _ (oldDep.keys ++ oldPh.keys) ?_ _ _ _ _ ?_ i1 ?_ ?_ ?_ ?_ ?_
  · intro x y hy
    rcases List.mem_append.1 hy with h | h
    · exact List.mem_append_left _ (hd.mem_keys_of_par h)
    · exact List.mem_append_right _ (hp.mem_keys_of_par h)
  · have := List.length_filter_le (fun k => !(insertAll (updated ++ deleted) []).contains k) (oldDep.keys ++ oldPh.keys)
    simp only [unseen, List.length_reverse] at this ⊢
    simp [Dict.keys] at this ⊢
    omega
  · intro x hx; rw [i2]; exact .inr hx
  · simp
  · intro x hx; rw [i2] at hx; simpa [or_comm] using hx
  · intro x hx; rw [i2]; simpa [or_comm] using hx
  · intro x hx; rw [i2] at hx; exact .seed (by simpa using hx)

/-! ## The scan loop -/

theorem scanFiles_keys {scan : Scanner} {d : Disk} {fs : List String} {rs : List (String × ScanResult)}
    (h : scanFiles scan d fs = .ok rs) : rs.map (·.1) = fs ∧ ∀ x ∈ rs, scan d x.1 = .ok x.2 := by
  induction fs generalizing rs with
  | nil => simp [scanFiles] at h; subst h; simp
  | cons f fs ih =>
    simp only [scanFiles] at h
    split at h
    · simp at h
    · rename_i r hr
      split at h
      · simp at h
      · rename_i rs' hrs
        simp only [Except.ok.injEq] at h
        subst h
        obtain ⟨h1, h2⟩ := ih hrs
        refine ⟨by simp [h1], ?_⟩
        intro x hx
        rcases List.mem_cons.1 hx with rfl | hx
        · exact hr
        · exact h2 x hx

theorem mem_keys_updateAll (rs : List (String × ScanResult)) (d : Dict ScanResult) (x : String) :
    x ∈ (updateAll rs d).keys ↔ x ∈ rs.map (·.1) ∨ x ∈ d.keys := by
  unfold updateAll
  induction rs generalizing d with
  | nil => simp
  | cons r rs ih =>
    simp only [List.foldl_cons, ih, Dict.mem_keys_set, List.map_cons, List.mem_cons]
    constructor
    · rintro (h | h | h)
      · exact .inl (.inr h)
      · exact .inl (.inl h)
      · exact .inr h
    · rintro ((h | h) | h)
      · exact .inr (.inl h)
      · exact .inl h
      · exact .inr (.inr h)

theorem nodup_updateAll (rs : List (String × ScanResult)) {d : Dict ScanResult} (hd : d.NodupKeys) :
    (updateAll rs d).NodupKeys := by
  unfold updateAll
  induction rs generalizing d with
  | nil => exact hd
  | cons r rs ih => exact ih (hd.set _ _)

theorem mem_updateAll (rs : List (String × ScanResult)) (d : Dict ScanResult) (x : String) (r : ScanResult)
    (h : (updateAll rs d).get? x = some r) : (x, r) ∈ rs ∨ d.get? x = some r := by
  unfold updateAll at h
  induction rs generalizing d with
  | nil => exact .inr h
  | cons y ys ih =>
    rcases ih _ h with h | h
    · exact .inl (by simp [h])
    · rw [Dict.get?_set] at h
      split at h
      · rename_i e
        simp at h
        subst h; subst e
        exact .inl (by simp)
      · exact .inr h

/-- Effect of creating placeholders: only new files appear. -/
theorem makePlaceholders_spec (sig : String → Sig) (f : String) (ps : List String) (st : ScanState) :
    let r := makePlaceholders sig f ps st
    r.1.updated = st.updated ∧
    r.1.disk = { st.disk with files := st.disk.files ++ r.2 } ∧
    (∀ x, x ∈ r.1.newPh.keys ↔ x ∈ st.newPh.keys ∨ x ∈ r.2) ∧
    (∀ x, x ∈ r.1.added.keys ↔ x ∈ st.added.keys ∨ x ∈ r.2) ∧
    (∀ x ∈ r.2, x ∈ ps ∧ x ∉ st.disk.files ∧ x ∉ st.disk.dirs) ∧
    (∀ x g, r.1.newPh.get? x = some g → st.newPh.get? x = some g ∨ (g = f ∧ x ∈ r.2)) ∧
    (∀ x s, r.1.added.get? x = some s → st.added.get? x = some s ∨ (s = sig x ∧ x ∈ r.2)) ∧
    (st.newPh.NodupKeys → r.1.newPh.NodupKeys) := by
  induction ps generalizing st with
  | nil => simp [makePlaceholders]
  | cons p ps ih =>
    simp only [makePlaceholders]
    split
    · obtain ⟨h1, h2, h3, h4, h5, h6, h7, h8⟩ := ih st
      exact ⟨h1, h2, h3, h4, fun x hx => ⟨by simp [(h5 x hx).1], (h5 x hx).2⟩, h6, h7, h8⟩
    · rename_i hc
      simp only [Bool.or_eq_true, List.contains_eq_mem, decide_eq_true_eq, not_or] at hc
      obtain ⟨h1, h2, h3, h4, h5, h6, h7, h8⟩ := ih { st with newPh := st.newPh.set p f, added := st.added.set p (sig p), disk := { st.disk with files := st.disk.files ++ [p] } }
      refine ⟨h1, by rw [h2]; simp, ?_, ?_, ?_, ?_, ?_, ?_⟩
      · intro x; rw [h3]; simp only [Dict.mem_keys_set, List.mem_cons]; constructor
        · rintro ((h | h) | h) <;> simp [h]
        · rintro (h | h | h) <;> simp [h]
      · intro x; rw [h4]; simp only [Dict.mem_keys_set, List.mem_cons]; constructor
        · rintro ((h | h) | h) <;> simp [h]
        · rintro (h | h | h) <;> simp [h]
      · intro x hx
        rcases List.mem_cons.1 hx with rfl | hx
        · exact ⟨by simp, hc⟩
        · have := h5 x hx
          simp only [List.mem_append, not_or] at this
          exact ⟨by simp [this.1], this.2.1.1, this.2.2⟩
      · intro x g hg
        rcases h6 x g hg with h | ⟨h, h'⟩
        · simp only [Dict.get?_set] at h
          split at h
          · rename_i e; simp at h; exact .inr ⟨h.symm, by simp [e]⟩
          · exact .inl h
        · exact .inr ⟨h, by simp [h']⟩
      · intro x g hg
        rcases h7 x g hg with h | ⟨h, h'⟩
        · simp only [Dict.get?_set] at h
          split at h
          · rename_i e; simp at h; subst e; exact .inr ⟨h.symm, by simp⟩
          · exact .inl h
        · exact .inr ⟨h, by simp [h']⟩
      · intro h; exact h8 (h.set _ _)

/-- `x` was created as a placeholder of `g` in this round. -/
theorem makeAll_spec (sig : String → Sig) (rs : List (String × ScanResult)) (st : ScanState) :
    let r := makeAll sig rs st
    r.1.updated = st.updated ∧
    r.1.disk = { st.disk with files := st.disk.files ++ r.2 } ∧
    (∀ x, x ∈ r.1.newPh.keys ↔ x ∈ st.newPh.keys ∨ x ∈ r.2) ∧
    (∀ x, x ∈ r.1.added.keys ↔ x ∈ st.added.keys ∨ x ∈ r.2) ∧
    (∀ x ∈ r.2, x ∉ st.disk.files ∧ x ∉ st.disk.dirs ∧ ∃ y ∈ rs, x ∈ y.2.placeholders) ∧
    (∀ x g, r.1.newPh.get? x = some g → st.newPh.get? x = some g ∨ (g ∈ rs.map (·.1) ∧ x ∈ r.2)) ∧
    (∀ x s, r.1.added.get? x = some s → st.added.get? x = some s ∨ (s = sig x ∧ x ∈ r.2)) ∧
    (st.newPh.NodupKeys → r.1.newPh.NodupKeys) := by
  induction rs generalizing st with
  | nil => simp [makeAll]
  | cons y ys ih =>
    obtain ⟨f, r⟩ := y
    simp only [makeAll]
    obtain ⟨a1, a2, a3, a4, a5, a6, a7, a8⟩ := makePlaceholders_spec sig f r.placeholders st
    obtain ⟨b1, b2, b3, b4, b5, b6, b7, b8⟩ := ih (makePlaceholders sig f r.placeholders st).1
    refine ⟨b1.trans a1, by rw [b2, a2]; simp, ?_, ?_, ?_, ?_, ?_, fun h => b8 (a8 h)⟩
    · intro x; rw [b3, a3]; simp only [List.mem_append]; tauto
    · intro x; rw [b4, a4]; simp only [List.mem_append]; tauto
    · intro x hx
      rcases List.mem_append.1 hx with hx | hx
      · exact ⟨(a5 x hx).2.1, (a5 x hx).2.2, (f, r), by simp, (a5 x hx).1⟩
      · obtain ⟨c1, c2, y, hy, c3⟩ := b5 x hx
        rw [a2] at c1 c2
        simp only [List.mem_append, not_or] at c1
        exact ⟨c1.1, c2, y, by simp [hy], c3⟩
    · intro x g hg
      rcases b6 x g hg with h | ⟨h, h'⟩
      · rcases a6 x g h with h | ⟨h, h'⟩
        · exact .inl h
        · exact .inr ⟨by simp [h], by simp [h']⟩
      · refine .inr ⟨?_, by simp [h']⟩
        simp only [List.map_cons, List.mem_cons]; exact .inr h
    · intro x g hg
      rcases b7 x g hg with h | ⟨h, h'⟩
      · rcases a7 x g h with h | ⟨h, h'⟩
        · exact .inl h
        · exact .inr ⟨h, by simp [h']⟩
      · exact .inr ⟨h, by simp [h']⟩

/-- What the scanning loop guarantees when it ends normally: every file to scan was scanned, and so
was every placeholder created; created placeholders did not exist before; nothing else changed. -/
theorem scanLoop_spec (scan : Scanner) (sig : String → Sig) (n : Nat) (fs : List String) (st st' : ScanState)
    (hnd : st.updated.NodupKeys) (hnp : st.newPh.NodupKeys)
    (hgen : ∀ x g, st.newPh.get? x = some g → g ∈ st.updated.keys)
    (h : scanLoop scan sig n fs st = (.ok (), st')) :
    st'.updated.NodupKeys ∧ st'.newPh.NodupKeys ∧
    (∃ new : List String, st'.disk = { st.disk with files := st.disk.files ++ new } ∧
      (∀ x ∈ new, x ∉ st.disk.files ∧ x ∉ st.disk.dirs ∧
        ∃ y ∈ st'.updated.keys, ∃ d r, scan d y = .ok r ∧ x ∈ r.placeholders) ∧
      (∀ x, x ∈ st'.updated.keys ↔ x ∈ st.updated.keys ∨ x ∈ fs ∨ x ∈ new) ∧
      (∀ x, x ∈ st'.newPh.keys ↔ x ∈ st.newPh.keys ∨ x ∈ new) ∧
      (∀ x, x ∈ st'.added.keys ↔ x ∈ st.added.keys ∨ x ∈ new) ∧
      (∀ x s, st'.added.get? x = some s → st.added.get? x = some s ∨ (s = sig x ∧ x ∈ new))) ∧
    (∀ x g, st'.newPh.get? x = some g → g ∈ st'.updated.keys) := by
  induction n generalizing fs st with
  | zero =>
    cases fs with
    | nil =>
      simp only [scanLoop, Prod.mk.injEq, true_and] at h; subst h
      exact ⟨hnd, hnp, ⟨[], by simp⟩, hgen⟩
    | cons f fs => simp [scanLoop] at h
  | succ n ih =>
    cases fs with
    | nil =>
      simp only [scanLoop, Prod.mk.injEq, true_and] at h; subst h
      exact ⟨hnd, hnp, ⟨[], by simp⟩, hgen⟩
    | cons f fs =>
      simp only [scanLoop] at h
      split at h
      · simp at h
      · rename_i rs hrs
        obtain ⟨k0, k2⟩ := scanFiles_keys hrs
        have k1 : ∀ x, x ∈ (updateAll rs []).map (·.1) ↔ x ∈ f :: fs := by
          intro x
          have := mem_keys_updateAll rs [] x
          rw [k0] at this
          simpa [Dict.keys] using this
        have k3 : ∀ y ∈ updateAll rs [], scan st.disk y.1 = .ok y.2 := by
          intro y hy
          have hnd' : (updateAll rs []).NodupKeys := nodup_updateAll rs (by simp [Dict.NodupKeys, Dict.keys])
          have := mem_updateAll rs [] y.1 y.2 (Dict.get?_of_mem hnd' hy)
          rcases this with h | h
          · exact k2 y h
          · simp at h
        obtain ⟨a1, a2, a3, a4, a5, a6, a7, a8⟩ := makeAll_spec sig (updateAll rs []) { st with updated := updateAll (updateAll rs []) st.updated }
        have hupd : ∀ x, x ∈ (makeAll sig (updateAll rs []) { st with updated := updateAll (updateAll rs []) st.updated }).1.updated.keys ↔ x ∈ f :: fs ∨ x ∈ st.updated.keys := by
          intro x; rw [a1, mem_keys_updateAll, k1 x]
        obtain ⟨b1, b2, ⟨new, c1, c2, c3, c4, c5, c7⟩, b3⟩ := ih _ _ (by rw [a1]; exact nodup_updateAll _ hnd) (a8 hnp)
          (by
            intro x g hg
            rw [hupd]
            rcases a6 x g hg with h | ⟨h, _⟩
            · exact .inr (hgen x g h)
            · rw [k1] at h; exact .inl h) h
        refine ⟨b1, b2, ⟨(makeAll sig (updateAll rs []) { st with updated := updateAll (updateAll rs []) st.updated }).2 ++ new, ?_, ?_, ?_, ?_, ?_, ?_⟩, b3⟩
        · rw [c1, a2]; simp
        · intro x hx
          rcases List.mem_append.1 hx with hx | hx
          · obtain ⟨e1, e2, y, hy, e3⟩ := a5 x hx
            refine ⟨e1, e2, y.1, ?_, st.disk, y.2, k3 y hy, e3⟩
            rw [c3, hupd]
            exact .inl (.inl ((k1 y.1).1 (List.mem_map.2 ⟨y, hy, rfl⟩)))
          · obtain ⟨e1, e2, e3⟩ := c2 x hx
            rw [a2] at e1 e2
            simp only [List.mem_append, not_or] at e1
            exact ⟨e1.1, e2, e3⟩
        · intro x; rw [c3, hupd]; simp only [List.mem_append]; tauto
        · intro x; rw [c4, a3]; simp only [List.mem_append]; tauto
        · intro x; rw [c5, a4]; simp only [List.mem_append]; tauto
        · intro x s hs
          rcases c7 x s hs with h | ⟨h, h'⟩
          · rcases a7 x s h with h | ⟨h, h'⟩
            · exact .inl h
            · exact .inr ⟨h, by simp [h']⟩
          · exact .inr ⟨h, by simp [h']⟩

theorem reinterpAll_keys {oldOut : Graph} {deleted : List String} {rs : List (String × ScanResult)}
    {m : Dict String} {rs' : List (String × ScanResult)} {m' : Dict String}
    (h : reinterpAll oldOut deleted rs m = .ok (rs', m')) : rs'.map (·.1) = rs.map (·.1) := by
  induction rs generalizing m rs' m' with
  | nil => simp [reinterpAll] at h; simp [← h.1]
  | cons r rs ih =>
    obtain ⟨f, r⟩ := r
    simp only [reinterpAll] at h
    split at h
    · simp at h
    · split at h
      · simp at h
      · rename_i h2
        simp only [Except.ok.injEq, Prod.mk.injEq] at h
        rw [← h.1]
        simp [ih h2]

end Verif.Hot
