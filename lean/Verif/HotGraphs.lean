import Verif.HotCycle
/-! # The graphs recorded by a finished rebuild -/
namespace Verif.Hot
open Verif Verif.Graph

/-- Built from nothing by calls with the cycle check on. -/
def Built (g : Graph) : Prop := ∃ ops : List Op, (∀ op ∈ ops, op.keepsCheck) ∧ g = Graph.run Graph.empty ops

theorem Built.wf {g : Graph} (h : Built g) : WF g := by
  obtain ⟨ops, _, rfl⟩ := h; exact wf_run ops wf_empty

theorem Built.valid {g : Graph} (h : Built g) : Valid g := by
  obtain ⟨ops, _, rfl⟩ := h
  refine ⟨ops.map .call, ?_⟩
  rw [List.foldl_map]
  rfl

theorem Built.acyclic {g : Graph} (h : Built g) : Acyclic g := by
  obtain ⟨ops, h, rfl⟩ := h; exact C03_acyclic ops h

theorem built_nil : Built [] := ⟨[], by simp, rfl⟩

theorem Built.step {g : Graph} (h : Built g) (op : Op) (hk : op.keepsCheck) : Built (Graph.step g op).2 := by
  obtain ⟨ops, h, rfl⟩ := h
  refine ⟨ops ++ [op], ?_, by simp [Graph.run]⟩
  intro o ho
  rcases List.mem_append.1 ho with ho | ho
  · exact h o ho
  · simp only [List.mem_singleton] at ho; subst ho; exact hk

theorem liftG_ok {r : Graph.Res} {g : Graph} (h : liftG r = .ok g) : r = (.ok (), g) := by
  unfold liftG at h
  obtain ⟨e, x⟩ := r
  cases e with
  | ok u => simp at h; simp [h]
  | error e => simp at h

theorem liftQ_ok {α : Type} {r : Except Graph.Err α} {x : α} (h : liftQ r = .ok x) : r = .ok x := by
  cases r with
  | ok a => simp [liftQ] at h; simp [h]
  | error e => simp [liftQ] at h

/-- Effect of a successful `add_file` without children. -/
theorem addFile_nil {g g1 : Graph} {f : String} {s : Sig} (hg : Built g) (h : liftG (addFile g f s []) = .ok g1) :
    Built g1 ∧ f ∉ g.keys ∧ g1.keys = g.keys ++ [f] ∧ (∀ x, infoOf g1 x = if x = f then some s else infoOf g x) ∧
      (∀ x, kids g1 x = kids g x) ∧ (∀ x, pars g1 x = pars g x) := by
  have h := liftG_ok h
  have hb := hg.step (.add f s []) trivial
  rcases addFile_cases hg.wf f s [] with ⟨h', _⟩ | ⟨ha, hcs, _⟩
  · rw [h'] at h; simp at h
  · obtain ⟨g', e, k, i, c, p⟩ := addFile_spec f s [] ha hcs
    rw [h] at e
    simp only [Prod.mk.injEq, true_and] at e
    subst e
    simp only [Graph.step, h] at hb
    refine ⟨hb, ha, k, i, fun x => ?_, fun x => by rw [p]; simp⟩
    rw [c]
    split
    · rename_i e; subst e
      rw [kids_of_none ((Dict.get?_eq_none_iff g x).2 ha)]
    · rfl

/-- Effect of a successful `set_children`. -/
theorem setChildren_ok {g g1 : Graph} {f : String} {cs : List String} (hg : Built g)
    (h : liftG (setChildren g f cs true) = .ok g1) :
    Built g1 ∧ f ∈ g.keys ∧ (∀ c ∈ cs, c ∈ g.keys) ∧ g1.keys = g.keys ∧ (∀ x, infoOf g1 x = infoOf g x) ∧
      (∀ x, kids g1 x = if x = f then cs else kids g x) := by
  have h := liftG_ok h
  have hb := hg.step (.setChildren f cs true) rfl
  rcases setChildren_cases hg.wf f cs true with ⟨⟨e', h'⟩, _⟩ | ⟨ha, hcs, _, g', h', hr, _⟩
  · rw [h'] at h; simp at h
  · obtain ⟨g2, e, k, i, c, p⟩ := replaceChildren_spec hg.wf ha cs hcs
    rw [hr] at e
    rw [h] at h'
    simp only [Prod.mk.injEq, true_and] at e h'
    subst e; subst h'
    simp only [Graph.step, h] at hb
    exact ⟨hb, ha, hcs, k, i, c⟩

theorem addInputs_spec {od : Graph} {c ad : Dict Sig} {fs : List String} {g g' : Graph} (hg : Built g)
    (h : addInputs od c ad fs g = .ok g') :
    Built g' ∧ g'.keys = g.keys ++ fs ∧ (∀ x, kids g' x = kids g x) ∧
      (∀ x ∈ fs, x ∉ g.keys ∧ ∃ s, newSig od c ad x = .ok s ∧ infoOf g' x = some s) ∧
      (∀ x, x ∉ fs → infoOf g' x = infoOf g x) := by
  induction fs generalizing g with
  | nil => simp [addInputs] at h; subst h; exact ⟨hg, by simp, fun _ => rfl, by simp, fun _ _ => rfl⟩
  | cons f fs ih =>
    simp only [addInputs] at h
    split at h
    · simp at h
    · rename_i s hs
      split at h
      · simp at h
      · rename_i g1 hg1
        obtain ⟨b1, n1, k1, i1, c1, _⟩ := addFile_nil hg hg1
        obtain ⟨b2, k2, c2, s2, i2⟩ := ih b1 h
        refine ⟨b2, by rw [k2, k1]; simp, fun x => by rw [c2, c1], ?_, ?_⟩
        · intro x hx
          rcases List.mem_cons.1 hx with rfl | hx
          · refine ⟨n1, s, hs, ?_⟩
            have : x ∉ fs := by
              intro hc
              have := (s2 x hc).1
              rw [k1] at this; simp at this
            rw [i2 x this, i1]; simp
          · obtain ⟨q1, q2⟩ := s2 x hx
            refine ⟨fun hc => q1 (by rw [k1]; simp [hc]), q2⟩
        · intro x hx
          simp only [List.mem_cons, not_or] at hx
          rw [i2 x hx.2, i1, if_neg hx.1]

theorem keepOutputs_spec {dl : List String} {rb : String → Bool} {ns : List (String × Node)} {g g' : Graph}
    {em em' : List String} (hg : Built g) (h : keepOutputs dl rb ns g em = .ok (g', em')) :
    Built g' ∧ (∀ x ∈ g.keys, x ∈ g'.keys ∧ infoOf g' x = infoOf g x) ∧ (∀ x, kids g' x = kids g x) ∧
      (∀ x ∈ g'.keys, x ∈ g.keys ∨ x ∈ ns.map (·.1)) ∧ (∀ x ∈ em', x ∈ em ∨ x ∉ g.keys) := by
  induction ns generalizing g em with
  | nil =>
    simp [keepOutputs] at h; obtain ⟨rfl, rfl⟩ := h
    exact ⟨hg, fun _ h => ⟨h, rfl⟩, fun _ => rfl, fun _ h => .inl h, fun _ h => .inl h⟩
  | cons x ns ih =>
    obtain ⟨f, n⟩ := x
    simp only [keepOutputs] at h
    split at h
    · obtain ⟨a1, a2, a3, a4, a5⟩ := ih hg h
      exact ⟨a1, a2, a3, fun x hx => (a4 x hx).imp id (by simp +contextual), a5⟩
    · split at h
      · obtain ⟨a1, a2, a3, a4, a5⟩ := ih hg h
        exact ⟨a1, a2, a3, fun x hx => (a4 x hx).imp id (by simp +contextual), a5⟩
      · split at h
        · simp at h
        · rename_i hcon _ _ g1 hg1
          obtain ⟨b1, n1, k1, i1, c1, _⟩ := addFile_nil hg hg1
          obtain ⟨a1, a2, a3, a4, a5⟩ := ih b1 h
          refine ⟨a1, fun x hx => ?_, fun x => by rw [a3, c1], fun x hx => ?_, fun x hx => ?_⟩
          · obtain ⟨q1, q2⟩ := a2 x (by rw [k1]; simp [hx])
            refine ⟨q1, ?_⟩
            rw [q2, i1, if_neg]
            rintro rfl; exact n1 hx
          · rcases a4 x hx with q | q
            · rw [k1] at q; simp at q
              rcases q with q | q
              · exact .inl q
              · exact .inr (by simp [q])
            · exact .inr (by simp [q])
          · rcases a5 x hx with q | q
            · split at q
              · simp at q
                rcases q with q | q
                · exact .inl q
                · subst q; exact .inr n1
              · exact .inl q
            · exact .inr (fun hc => q (by rw [k1]; simp [hc]))

theorem addOutputNodes_spec {sig : String → Sig} {d : Disk} {os : List String} {g g' : Graph} (hg : Built g)
    (h : addOutputNodes sig d os g = .ok g') :
    Built g' ∧ (∀ x ∈ g.keys, x ∈ g'.keys ∧ infoOf g' x = infoOf g x) ∧ (∀ x, kids g' x = kids g x) ∧
      (∀ x ∈ g'.keys, x ∉ g.keys → x ∈ d.files ∧ infoOf g' x = some (sig x)) ∧
      (∀ x ∈ g'.keys, x ∉ g.keys → x ∈ os) := by
  induction os generalizing g with
  | nil =>
    simp [addOutputNodes] at h; subst h
    exact ⟨hg, fun _ h => ⟨h, rfl⟩, fun _ => rfl, fun _ h hn => absurd h hn, fun _ h hn => absurd h hn⟩
  | cons f fs ih =>
    simp only [addOutputNodes] at h
    split at h
    · obtain ⟨a1, a2, a3, a4, a5⟩ := ih hg h
      exact ⟨a1, a2, a3, a4, fun x hx hn => by simp [a5 x hx hn]⟩
    · split at h
      · simp at h
      · rename_i hc
        split at h
        · simp at h
        · rename_i g1 hg1
          obtain ⟨b1, n1, k1, i1, c1, _⟩ := addFile_nil hg hg1
          obtain ⟨a1, a2, a3, a4, a5⟩ := ih b1 h
          refine ⟨a1, fun x hx => ?_, fun x => by rw [a3, c1], fun x hx hn => ?_, fun x hx hn => ?_⟩
          · obtain ⟨q1, q2⟩ := a2 x (by rw [k1]; simp [hx])
            refine ⟨q1, ?_⟩
            rw [q2, i1, if_neg]
            rintro rfl; exact n1 hx
          · by_cases e : x = f
            · subst e
              refine ⟨by simpa using hc, ?_⟩
              rw [(a2 x (by rw [k1]; simp)).2, i1]; simp
            · exact a4 x hx (by rw [k1]; simp [hn, e])
          · by_cases e : x = f
            · simp [e]
            · simp [a5 x hx (by rw [k1]; simp [hn, e])]

/-- The new dependencies of an input file. -/
def newKids (od : Graph) (rs : Dict BuildResult) (f : String) : List String :=
  match rs.get? f with
  | some r => r.children
  | none => kids od f

theorem linkInputs_spec {od oo : Graph} {rs : Dict BuildResult} {sig : String → Sig} {d : Disk} {fs : List String}
    {gd go gd' go' : Graph} (hd : Built gd) (ho : Built go)
    (h : linkInputs od oo rs sig d fs gd go = .ok (gd', go')) :
    Built gd' ∧ Built go' ∧ gd'.keys = gd.keys ∧ (∀ x, infoOf gd' x = infoOf gd x) ∧
      (∀ x, kids gd' x = if x ∈ fs then newKids od rs x else kids gd x) ∧
      (∀ x ∈ go.keys, x ∈ go'.keys ∧ infoOf go' x = infoOf go x) ∧
      (∀ x, kids go' x = if x ∈ fs then newOutputs oo rs x else kids go x) ∧
      (∀ x ∈ go'.keys, x ∉ go.keys → x ∈ d.files ∧ infoOf go' x = some (sig x)) ∧
      (∀ x ∈ go'.keys, x ∉ go.keys → ∃ f ∈ fs, x ∈ newOutputs oo rs f) := by
  induction fs generalizing gd go with
  | nil =>
    simp [linkInputs] at h; obtain ⟨rfl, rfl⟩ := h
    exact ⟨hd, ho, rfl, fun _ => rfl, by simp, fun _ h => ⟨h, rfl⟩, by simp, fun _ h hn => absurd h hn, fun _ h hn => absurd h hn⟩
  | cons f fs ih =>
    simp only [linkInputs] at h
    split at h
    · simp at h
    · rename_i cs hcs
      have hcs' : newKids od rs f = cs := by
        unfold newKids
        split at hcs
        · rename_i hr; simp only [hr]; simpa using hcs
        · rename_i hr; simp only [hr]; exact (getChildren_ok (liftQ_ok hcs)).2
      split at h
      · simp at h
      · rename_i gd1 hgd1
        split at h
        · simp at h
        · rename_i go1 hgo1
          split at h
          · simp at h
          · rename_i go2 hgo2
            obtain ⟨a1, a2, a3, a4, a5, a6⟩ := setChildren_ok hd hgd1
            obtain ⟨b1, b2, b3, b4, b5⟩ := addOutputNodes_spec ho hgo1
            obtain ⟨c1, c2, c3, c4, c5, c6⟩ := setChildren_ok b1 hgo2
            obtain ⟨e1, e2, e3, e4, e5, e6, e7, e8, e9⟩ := ih a1 c1 h
            refine ⟨e1, e2, by rw [e3, a4], fun x => by rw [e4, a5], fun x => ?_, fun x hx => ?_, fun x => ?_,
              fun x hx hn => ?_, fun x hx hn => ?_⟩
            · rw [e5]
              by_cases h1 : x ∈ fs
              · simp [h1]
              · rw [if_neg h1, a6]
                by_cases h2 : x = f
                · subst h2; simp [hcs']
                · simp [h1, h2]
            · obtain ⟨q1, q2⟩ := b2 x hx
              obtain ⟨q3, q4⟩ := e6 x (by rw [c4]; exact q1)
              exact ⟨q3, by rw [q4, c5, q2]⟩
            · rw [e7]
              by_cases h1 : x ∈ fs
              · simp [h1]
              · rw [if_neg h1, c6, b3]
                by_cases h2 : x = f
                · subst h2; simp
                · simp [h1, h2]
            · by_cases hx1 : x ∈ go1.keys
              · obtain ⟨q1, q2⟩ := b4 x hx1 hn
                refine ⟨q1, ?_⟩
                rw [(e6 x (by rw [c4]; exact hx1)).2, c5, q2]
              · exact e8 x hx (by rw [c4]; exact hx1)
            · by_cases hx1 : x ∈ go1.keys
              · exact ⟨f, by simp, b5 x hx1 hn⟩
              · obtain ⟨y, hy, q⟩ := e9 x hx (by rw [c4]; exact hx1)
                exact ⟨y, by simp [hy], q⟩

/-- Removing an isolated node. -/
theorem removeFile_isolated {g g1 : Graph} {o : String} (hg : Built g)
    (h : liftG (removeFile g o false false) = .ok g1) :
    Built g1 ∧ kids g o = [] ∧ pars g o = [] ∧ g1.keys = g.keys.filter (· ≠ o) ∧ (∀ x, kids g1 x = kids g x) ∧
      (∀ x, x ≠ o → infoOf g1 x = infoOf g x) := by
  have h := liftG_ok h
  have hb := hg.step (.remove o false false) trivial
  simp only [Graph.step, h] at hb
  rcases removeFile_cases hg.wf o false false with ⟨h', _⟩ | ⟨ha, hp, hc, _⟩
  · rw [h'] at h; simp at h
  · obtain ⟨g', e, k, i, c, p⟩ := removeFile_spec hg.wf o false false ha hp hc
    rw [h] at e
    simp only [Prod.mk.injEq, true_and] at e
    subst e
    simp only [Bool.false_eq_true, or_false] at hp hc
    refine ⟨hb, hc, hp, k, fun x => ?_, fun x hx => by rw [i, if_neg hx]⟩
    rw [c]
    split
    · rename_i e; subst e; exact hc.symm
    · rw [List.filter_eq_self.2]
      intro y hy
      simp only [decide_eq_true_eq]
      rintro rfl
      have := (hg.wf.mem_pars_iff x y).2 hy
      rw [hp] at this; simp at this

theorem dropEmptyOutputs_spec {os : List String} {g g' : Graph} (hg : Built g) (h : dropEmptyOutputs os g = .ok g') :
    Built g' ∧ (∀ x, kids g' x = kids g x) ∧ (∀ x ∈ g'.keys, x ∈ g.keys ∧ infoOf g' x = infoOf g x) ∧
      (∀ x ∈ g.keys, x ∉ os → x ∈ g'.keys) ∧ (∀ x ∈ os, x ∈ g'.keys → ∃ y, x ∈ kids g y) := by
  induction os generalizing g with
  | nil => simp [dropEmptyOutputs] at h; subst h; exact ⟨hg, fun _ => rfl, fun _ h => ⟨h, rfl⟩, fun _ h _ => h, by simp⟩
  | cons o os ih =>
    simp only [dropEmptyOutputs] at h
    split at h
    · simp at h
    · rename_i ps hps
      have hps' := getParents_ok (liftQ_ok hps)
      split at h
      · split at h
        · simp at h
        · rename_i g1 hg1
          obtain ⟨b1, b2, b3, b4, b5, b6⟩ := removeFile_isolated hg hg1
          obtain ⟨a1, a2, a3, a4, a5⟩ := ih b1 h
          refine ⟨a1, fun x => by rw [a2, b5], fun x hx => ?_, fun x hx hn => ?_, fun x hx hk => ?_⟩
          · obtain ⟨q1, q2⟩ := a3 x hx
            rw [b4] at q1
            simp at q1
            exact ⟨q1.1, by rw [q2, b6 x q1.2]⟩
          · simp only [List.mem_cons, not_or] at hn
            exact a4 x (by rw [b4]; simp [hx, hn.1]) hn.2
          · rcases List.mem_cons.1 hx with rfl | hx
            · have := (a3 x hk).1
              rw [b4] at this; simp at this
            · obtain ⟨y, hy⟩ := a5 x hx hk
              exact ⟨y, by rw [← b5]; exact hy⟩
      · rename_i hne
        obtain ⟨a1, a2, a3, a4, a5⟩ := ih hg h
        refine ⟨a1, a2, a3, fun x hx hn => ?_, fun x hx hk => ?_⟩
        · simp only [List.mem_cons, not_or] at hn
          exact a4 x hx hn.2
        · rcases List.mem_cons.1 hx with rfl | hx
          · rw [← hps'.2] at hne
            rcases hpl : pars g x with _ | ⟨y, l⟩
            · rw [hpl] at hne; simp at hne
            · exact ⟨y, (hg.wf.mem_pars_iff y x).1 (by rw [hpl]; simp)⟩
          · exact a5 x hx hk

theorem dropEmptyPlaceholders_spec {os : List String} {g g' : Graph} (hg : Built g)
    (h : dropEmptyPlaceholders os g = .ok g') : Built g' ∧ (∀ x, kids g' x = kids g x) := by
  induction os generalizing g with
  | nil => simp [dropEmptyPlaceholders] at h; subst h; exact ⟨hg, fun _ => rfl⟩
  | cons o os ih =>
    simp only [dropEmptyPlaceholders] at h
    split at h
    · split at h
      · split at h
        · simp at h
        · rename_i g1 hg1
          obtain ⟨b1, b2, b3, b4, b5, b6⟩ := removeFile_isolated hg hg1
          obtain ⟨a1, a2⟩ := ih b1 h
          exact ⟨a1, fun x => by rw [a2, b5]⟩
      · exact ih hg h
    · simp at h
    · simp at h

theorem keepPlaceholders_spec {ns : List (String × Node)} {g g' : Graph} {em em' : List String} (hg : Built g)
    (h : keepPlaceholders ns g em = .ok (g', em')) :
    Built g' ∧ g'.keys = g.keys ∧
      (∀ x y, y ∈ kids g' x ↔ y ∈ kids g x ∨ ∃ n, (y, n) ∈ ns ∧ y ∈ g.keys ∧
        n.parents.find? (fun p => contains g p) = some x) := by
  induction ns generalizing g em with
  | nil => simp [keepPlaceholders] at h; obtain ⟨rfl, rfl⟩ := h; exact ⟨hg, rfl, by simp⟩
  | cons x ns ih =>
    obtain ⟨f, n⟩ := x
    simp only [keepPlaceholders] at h
    split at h
    · rename_i hc
      have hf : f ∉ g.keys := by rw [← contains_iff]; simpa using hc
      obtain ⟨a1, a2, a3⟩ := ih hg h
      refine ⟨a1, a2, fun x y => ?_⟩
      rw [a3]
      constructor
      · rintro (h | ⟨n, h1, h2⟩)
        · exact .inl h
        · exact .inr ⟨n, by simp [h1], h2⟩
      · rintro (h | ⟨n', h1, h2, h3⟩)
        · exact .inl h
        · rcases List.mem_cons.1 h1 with h1 | h1
          · simp only [Prod.mk.injEq] at h1; exact absurd (h1.1 ▸ h2) hf
          · exact .inr ⟨n', h1, h2, h3⟩
    · split at h
      · rename_i hfind
        obtain ⟨a1, a2, a3⟩ := ih hg h
        refine ⟨a1, a2, fun x y => ?_⟩
        rw [a3]
        constructor
        · rintro (h | ⟨n, h1, h2⟩)
          · exact .inl h
          · exact .inr ⟨n, by simp [h1], h2⟩
        · rintro (h | ⟨n', h1, h2, h3⟩)
          · exact .inl h
          · rcases List.mem_cons.1 h1 with h1 | h1
            · simp only [Prod.mk.injEq] at h1
              rw [h1.2, hfind] at h3; simp at h3
            · exact .inr ⟨n', h1, h2, h3⟩
      · rename_i hcon _ p hfind
        have hf : f ∈ g.keys := by rw [← contains_iff]; simpa using hcon
        split at h
        · simp at h
        · rename_i g1 hg1
          split at h
          · simp at h
          · split at h
            · simp at h
            · obtain ⟨b1, b2, b3, b4, b5, b6⟩ := setChildren_ok hg hg1
              obtain ⟨a1, a2, a3⟩ := ih b1 h
              have hcg : ∀ q, contains g1 q = contains g q := by
                intro q
                rw [Bool.eq_iff_iff, contains_iff, contains_iff, b4]
              refine ⟨a1, by rw [a2, b4], fun x y => ?_⟩
              rw [a3, b6, b4]
              simp only [hcg]
              constructor
              · rintro (h | ⟨n', h1, h2⟩)
                · split at h
                  · rename_i e; subst e
                    simp at h
                    rcases h with h | rfl
                    · exact .inl h
                    · exact .inr ⟨n, by simp, hf, hfind⟩
                  · exact .inl h
                · exact .inr ⟨n', by simp [h1], h2⟩
              · rintro (h | ⟨n', h1, h2, h3⟩)
                · left
                  split
                  · rename_i e; rw [e] at h; exact List.mem_append.2 (.inl h)
                  · exact h
                · rcases List.mem_cons.1 h1 with h1 | h1
                  · simp only [Prod.mk.injEq] at h1
                    left
                    rw [h1.2, hfind] at h3
                    simp only [Option.some.injEq] at h3
                    rw [if_pos h3.symm]
                    simp [h1.1]
                  · exact .inr ⟨n', h1, h2, h3⟩

theorem addPlaceholders_spec {ns : List (String × String)} {g g' : Graph} (hg : Built g)
    (h : addPlaceholders ns g = .ok g') :
    Built g' ∧ g'.keys = g.keys ∧ (∀ x y, y ∈ kids g' x ↔ y ∈ kids g x ∨ (y, x) ∈ ns) := by
  induction ns generalizing g with
  | nil => simp [addPlaceholders] at h; subst h; exact ⟨hg, rfl, by simp⟩
  | cons x ns ih =>
    obtain ⟨p, gen⟩ := x
    simp only [addPlaceholders] at h
    split at h
    · simp at h
    · rename_i cs hcs
      obtain ⟨hk, rfl⟩ := getChildren_ok (liftQ_ok hcs)
      split at h
      · simp at h
      · rename_i g1 hg1
        obtain ⟨b1, b2, b3, b4, b5, b6⟩ := setChildren_ok hg hg1
        obtain ⟨a1, a2, a3⟩ := ih b1 h
        refine ⟨a1, by rw [a2, b4], fun x y => ?_⟩
        rw [a3, b6]
        simp only [List.mem_cons, Prod.mk.injEq]
        by_cases e : x = gen
        · subst e
          simp only [if_true, and_true]
          by_cases hc : (kids g x).contains p = true
          · rw [if_pos hc]
            have hc' : p ∈ kids g x := by simpa using hc
            constructor
            · rintro (h | h)
              · exact .inl h
              · exact .inr (.inr h)
            · rintro (h | rfl | h)
              · exact .inl h
              · exact .inl hc'
              · exact .inr h
          · rw [if_neg hc]
            simp only [List.mem_append, List.mem_singleton, or_assoc]
        · simp [e]

/-- The graphs of a finished run, in terms of the results of the builds. -/
theorem newGraphs_spec {order : List String → List String} {sig : String → Sig} {old : Graphs}
    {changed added : Dict Sig} {deleted : List String} {newPh : Dict String} {results : Dict BuildResult}
    {d : Disk} {gs : Graphs} (ho : ∀ l, (order l).Perm l)
    (h : newGraphs order sig old changed added deleted newPh results d = .ok gs) :
    Built gs.dep ∧ Built gs.out ∧ Built gs.ph ∧
    (∀ f, f ∈ gs.dep.keys ↔ f ∉ deleted ∧ (f ∈ results.keys ∨ f ∈ old.dep.keys)) ∧
    (∀ f ∈ gs.dep.keys, ∃ s, newSig old.dep changed added f = .ok s ∧ infoOf gs.dep f = some s ∧ infoOf gs.out f = some s) ∧
    (∀ f, kids gs.dep f = if f ∈ gs.dep.keys then newKids old.dep results f else []) ∧
    (∀ f, kids gs.out f = if f ∈ gs.dep.keys then newOutputs old.out results f else []) ∧
    (∀ x ∈ gs.out.keys, x ∈ gs.dep.keys ∨ x ∈ old.out.keys ∨ (x ∈ d.files ∧ infoOf gs.out x = some (sig x))) ∧
    (∀ x y, y ∈ kids gs.ph x ↔ (y, x) ∈ newPh ∨ ∃ n, (y, n) ∈ old.ph ∧ y ∈ gs.dep.keys ∧
        n.parents.find? (fun p => gs.dep.keys.contains p) = some x) := by
  unfold newGraphs at h
  simp only at h
  split at h
  · simp at h
  · rename_i g0 h0
    split at h
    · simp at h
    · rename_i go emptyOut h1
      split at h
      · simp at h
      · rename_i gp emptyPh h2
        split at h
        · simp at h
        · rename_i gp1 h3
          split at h
          · simp at h
          · rename_i gd1 go1 h4
            split at h
            · simp at h
            · rename_i go2 h5
              split at h
              · simp at h
              · rename_i gp2 h6
                simp only [Except.ok.injEq] at h
                subst h
                obtain ⟨a1, a2, a3, a4, a5⟩ := addInputs_spec built_nil h0
                obtain ⟨b1, b2, b3, b4, b5⟩ := keepOutputs_spec a1 h1
                obtain ⟨c1, c2, c3⟩ := keepPlaceholders_spec a1 h2
                obtain ⟨d1, d2, d3⟩ := addPlaceholders_spec c1 h3
                obtain ⟨e1, e2, e3, e4, e5, e6, e7, e8, e9⟩ := linkInputs_spec a1 b1 h4
                obtain ⟨f1, f2, f3, f4, f5⟩ := dropEmptyOutputs_spec e2 h5
                obtain ⟨q1, q2⟩ := dropEmptyPlaceholders_spec d1 h6
                have hin : ∀ f, f ∈ allInputs order old.dep results deleted ↔
                    f ∉ deleted ∧ (f ∈ results.keys ∨ f ∈ old.dep.keys) := by
                  intro f
                  unfold allInputs
                  rw [List.mem_filter, (ho _).mem_iff, (insertAll_spec _ [] (by simp)).2]
                  simp [and_comm]
                simp only [Dict.keys_nil, List.nil_append] at a2
                have hgk : ∀ f, f ∈ gd1.keys ↔ f ∈ allInputs order old.dep results deleted := by
                  intro f; rw [e3, a2]
                have hkn : ∀ f, kids ([] : Graph) f = [] := fun f => rfl
                refine ⟨e1, f1, q1, fun f => by rw [hgk, hin], fun f hf => ?_, fun f => ?_, fun f => ?_, fun x hx => ?_, fun x y => ?_⟩
                · have hf' := (hgk f).1 hf
                  obtain ⟨_, s, s1, s2⟩ := a4 f hf'
                  refine ⟨s, s1, by rw [e4, s2], ?_⟩
                  have hfg : f ∈ g0.keys := by rw [a2]; exact hf'
                  obtain ⟨u1, u2⟩ := b2 f hfg
                  obtain ⟨v1, v2⟩ := e6 f u1
                  have hne : f ∉ emptyOut := by
                    intro hc
                    rcases b5 f hc with hc | hc
                    · simp at hc
                    · exact hc hfg
                  have := (f3 f (f4 f v1 hne)).2
                  rw [this, v2, u2, s2]
                · rw [e5, a3, hkn]
                  by_cases hf : f ∈ gd1.keys
                  · rw [if_pos hf, if_pos ((hgk f).1 hf)]
                  · rw [if_neg hf, if_neg (fun hc => hf ((hgk f).2 hc))]
                · rw [f2, e7, b3, a3, hkn]
                  by_cases hf : f ∈ gd1.keys
                  · rw [if_pos hf, if_pos ((hgk f).1 hf)]
                  · rw [if_neg hf, if_neg (fun hc => hf ((hgk f).2 hc))]
                · obtain ⟨u1, u2⟩ := f3 x hx
                  by_cases hxo : x ∈ go.keys
                  · rcases b4 x hxo with hb | hb
                    · left; rw [hgk, ← a2]; exact hb
                    · right; left; exact hb
                  · right; right
                    obtain ⟨w1, w2⟩ := e8 x u1 hxo
                    exact ⟨w1, by rw [u2, w2]⟩
                · rw [q2, d3, c3, a3, hkn]
                  simp only [List.not_mem_nil, false_or]
                  rw [or_comm]
                  have : ∀ p, contains g0 p = gd1.keys.contains p := by
                    intro p
                    rw [Bool.eq_iff_iff, contains_iff, e3]; simp
                  simp only [this, e3]

end Verif.Hot
