import Verif.HotRec
/-! # When the bookkeeping after the builds does not raise

Totality of the functions which make the new graphs, for `C57`. -/
namespace Verif.Hot
open Verif Verif.Graph

theorem setChildren_total {g : Graph} {f : String} {cs : List String} {R : String → String → Prop} (hg : Built g)
    (hf : f ∈ g.keys) (hcs : ∀ c ∈ cs, c ∈ g.keys) (hR : ∀ x, ¬ Path R x x)
    (h1 : ∀ x y, y ∈ kids g x → R x y) (h2 : ∀ c ∈ cs, R f c) :
    ∃ g1, liftG (setChildren g f cs true) = .ok g1 := by
  rcases setChildren_cases hg.wf f cs true with ⟨_, h | ⟨c, hc, h⟩ | ⟨_, h⟩⟩ | ⟨_, _, _, g', h', _⟩
  · exact absurd hf h
  · exact absurd (hcs c hc) h
  · refine absurd ?_ h
    rw [anyCycle_spec hg.wf hf cs hcs]
    intro c hc
    refine ⟨?_, fun hd => ?_⟩
    · rintro rfl; exact hR c (.one (h2 c hc))
    · exact hR f (.more (h2 c hc) (hd.mono (fun x y e => h1 x y ((edge_iff _ _ _).1 e))))
  · exact ⟨g', by rw [h']; rfl⟩

theorem addFile_total {g : Graph} {f : String} (s : Sig) (hg : Built g) (hf : f ∉ g.keys) :
    ∃ g1, liftG (addFile g f s []) = .ok g1 := by
  rcases addFile_cases hg.wf f s [] with ⟨_, h⟩ | ⟨_, _, g', h', _⟩
  · rcases h with h | h
    · exact absurd h hf
    · simp at h
  · exact ⟨g', by rw [h']; rfl⟩

theorem removeFile_total {g : Graph} {o : String} (hg : Built g) (ho : o ∈ g.keys) (hk : kids g o = [])
    (hp : pars g o = []) : ∃ g1, liftG (removeFile g o false false) = .ok g1 := by
  rcases removeFile_cases hg.wf o false false with ⟨_, h⟩ | ⟨_, _, _, g', h', _⟩
  · exfalso
    simp [ho, hk, hp] at h
  · exact ⟨g', by rw [h']; rfl⟩

theorem addInputs_total {od : Graph} {c ad : Dict Sig} {fs : List String} {g : Graph} (hg : Built g)
    (hn : fs.Nodup) (hd : ∀ f ∈ fs, f ∉ g.keys) (hs : ∀ f ∈ fs, ∃ s, newSig od c ad f = .ok s) :
    ∃ g', addInputs od c ad fs g = .ok g' := by
  induction fs generalizing g with
  | nil => exact ⟨g, rfl⟩
  | cons f fs ih =>
    obtain ⟨s, hs1⟩ := hs f (by simp)
    obtain ⟨g1, hg1⟩ := addFile_total s hg (hd f (by simp))
    obtain ⟨b1, n1, k1, _⟩ := addFile_nil hg hg1
    simp only [addInputs, hs1, hg1]
    rw [List.nodup_cons] at hn
    refine ih b1 hn.2 (fun x hx => ?_) (fun x hx => hs x (by simp [hx]))
    rw [k1]
    simp only [List.mem_append, List.mem_singleton, not_or]
    exact ⟨hd x (by simp [hx]), by rintro rfl; exact hn.1 hx⟩

theorem keepOutputs_total {dl : List String} {rb : String → Bool} {ns : List (String × Node)} {g : Graph}
    {em : List String} (hg : Built g) (hem : em.Nodup) (hk : ∀ x ∈ em, x ∈ g.keys) :
    ∃ g' em', keepOutputs dl rb ns g em = .ok (g', em') ∧ em'.Nodup ∧ (∀ x ∈ em', x ∈ g'.keys) ∧
      (∀ x n, (x, n) ∈ ns → n.parents ≠ [] → x ∈ g'.keys) := by
  induction ns generalizing g em with
  | nil => exact ⟨g, em, rfl, hem, hk, by simp⟩
  | cons x ns ih =>
    obtain ⟨f, n⟩ := x
    simp only [keepOutputs]
    by_cases hc : contains g f = true
    · rw [if_pos hc]
      obtain ⟨g', em', h1, h2, h3, h4⟩ := ih hg hem hk
      refine ⟨g', em', h1, h2, h3, fun x m hx hm => ?_⟩
      rcases List.mem_cons.1 hx with hx | hx
      · simp only [Prod.mk.injEq] at hx
        rw [hx.1]
        exact ((keepOutputs_spec hg h1).2.1 f ((contains_iff _ _).1 hc)).1
      · exact h4 x m hx hm
    · rw [if_neg hc]
      have hf : f ∉ g.keys := fun h => hc ((contains_iff _ _).2 h)
      by_cases he : (n.parents.isEmpty && dl.contains f) = true
      · rw [if_pos he]
        obtain ⟨g', em', h1, h2, h3, h4⟩ := ih hg hem hk
        refine ⟨g', em', h1, h2, h3, fun x m hx hm => ?_⟩
        rcases List.mem_cons.1 hx with hx | hx
        · simp only [Prod.mk.injEq] at hx
          rw [hx.2] at hm
          simp only [Bool.and_eq_true, List.isEmpty_iff] at he
          exact absurd he.1 hm
        · exact h4 x m hx hm
      · rw [if_neg he]
        obtain ⟨g1, hg1⟩ := addFile_total n.info hg hf
        obtain ⟨b1, n1, k1, _⟩ := addFile_nil hg hg1
        simp only [hg1]
        have hmem : ∀ em1, (em1 = em ∨ em1 = em ++ [f]) → em1.Nodup ∧ ∀ x ∈ em1, x ∈ g1.keys := by
          rintro em1 (rfl | rfl)
          · exact ⟨hem, fun x hx => by rw [k1]; simp [hk x hx]⟩
          · refine ⟨?_, fun x hx => ?_⟩
            · rw [List.nodup_append]
              refine ⟨hem, by simp, fun a ha b hb => ?_⟩
              simp only [List.mem_singleton] at hb
              subst hb; rintro rfl; exact hf (hk a ha)
            · rw [k1]
              simp only [List.mem_append, List.mem_singleton] at hx ⊢
              exact hx.imp (hk x) id
        obtain ⟨q1, q2⟩ := hmem _ (show (if !n.parents.isEmpty && n.parents.any (fun p => dl.contains p) &&
            !(n.parents.any (fun p => !dl.contains p && !rb p)) then em ++ [f] else em) = em ∨ _ = em ++ [f] by
          split
          · exact .inr rfl
          · exact .inl rfl)
        obtain ⟨g', em', h1, h2, h3, h4⟩ := ih b1 q1 q2
        refine ⟨g', em', h1, h2, h3, fun x m hx hm => ?_⟩
        rcases List.mem_cons.1 hx with hx | hx
        · simp only [Prod.mk.injEq] at hx
          rw [hx.1]
          exact ((keepOutputs_spec b1 h1).2.1 f (by rw [k1]; simp)).1
        · exact h4 x m hx hm

/-- Carrying the placeholders over does not raise when a file generates at most one placeholder and
no placeholder generates one. -/
theorem keepPlaceholders_total {ns : List (String × Node)} {g : Graph} {em : List String} (hg : Built g)
    {R : String → String → Prop} (hR : ∀ x, ¬ Path R x x) (h1 : ∀ x y, y ∈ kids g x → R x y)
    (hn : (ns.map (·.1)).Nodup) (hem : em.Nodup)
    (hns : ∀ f n, (f, n) ∈ ns → ∀ p ∈ n.parents, R p f)
    (hone : ∀ f n, (f, n) ∈ ns → ∀ f' n', (f', n') ∈ ns → ∀ p ∈ n.parents, p ∈ n'.parents → f' = f)
    (hflat : ∀ f n, (f, n) ∈ ns → ∀ q ∈ n.parents, ∀ f' n', (f', n') ∈ ns → f ∉ n'.parents)
    (he : ∀ f n, (f, n) ∈ ns → f ∈ g.keys → ∀ p ∈ n.parents, p ∈ g.keys → f ∈ em ∧ p ∈ em)
    (hsub : ∀ x ∈ em, x ∈ g.keys) :
    ∃ g' em', keepPlaceholders ns g em = .ok (g', em') ∧ em'.Nodup ∧ ∀ x ∈ em', x ∈ g.keys := by
  induction ns generalizing g em with
  | nil => exact ⟨g, em, rfl, hem, hsub⟩
  | cons x ns ih =>
    obtain ⟨f, n⟩ := x
    simp only [List.map_cons, List.nodup_cons] at hn
    have tl : ∀ {f n}, (f, n) ∈ ns → (f, n) ∈ (f, n) :: ns := fun h => by simp
    simp only [keepPlaceholders]
    have hns' : ∀ f n, (f, n) ∈ ns → ∀ p ∈ n.parents, R p f := fun f n h => hns f n (by simp [h])
    have hone' : ∀ f n, (f, n) ∈ ns → ∀ f' n', (f', n') ∈ ns → ∀ p ∈ n.parents, p ∈ n'.parents → f' = f :=
      fun f n h f' n' h' => hone f n (by simp [h]) f' n' (by simp [h'])
    have hflat' : ∀ f n, (f, n) ∈ ns → ∀ q ∈ n.parents, ∀ f' n', (f', n') ∈ ns → f ∉ n'.parents :=
      fun f n h q hq f' n' h' => hflat f n (by simp [h]) q hq f' n' (by simp [h'])
    by_cases hc : contains g f = true
    · rw [if_neg (by simp [hc])]
      have hfk := (contains_iff _ _).1 hc
      rcases hfind : n.parents.find? (fun p => contains g p) with _ | p
      · exact ih hg h1 hn.2 hem hns' hone' hflat' (fun f' n' h' => he f' n' (by simp [h'])) hsub
      · dsimp only
        have hpm := List.mem_of_find?_eq_some hfind
        have hpk : p ∈ g.keys := (contains_iff _ _).1 (by have := List.find?_some hfind; simpa using this)
        obtain ⟨g1, hg1⟩ := setChildren_total (cs := kids g p ++ [f]) hg hpk (by
            intro c hc
            simp only [List.mem_append, List.mem_singleton] at hc
            rcases hc with hc | rfl
            · exact hg.wf.mem_keys_of_kid hc
            · exact hfk) hR h1 (by
            intro c hc
            simp only [List.mem_append, List.mem_singleton] at hc
            rcases hc with hc | rfl
            · exact h1 p c hc
            · exact hns c n (by simp) p hpm)
        obtain ⟨b1, _, _, b4, _, b6⟩ := setChildren_ok hg hg1
        obtain ⟨efm, epm⟩ := he f n (by simp) hfk p hpm hpk
        have hpf : f ≠ p := by rintro rfl; exact hflat f n (by simp) f hpm f n (by simp) hpm
        simp only [hg1]
        rw [if_neg (by simp [epm]), if_neg (by simp [mem_del, efm, hpf])]
        obtain ⟨g', em', q1, q2, q3⟩ := ih (em := del f (del p em)) b1 (by
            intro x y hy
            rw [b6] at hy
            split at hy
            · rename_i e; subst e
              simp only [List.mem_append, List.mem_singleton] at hy
              rcases hy with hy | rfl
              · exact h1 _ _ hy
              · exact hns y n (by simp) x hpm
            · exact h1 _ _ hy) hn.2 ((hem.filter _).filter _) hns' hone' hflat' (by
            intro f' n' h' hf' p' hp' hpk'
            rw [b4] at hf' hpk'
            obtain ⟨u1, u2⟩ := he f' n' (by simp [h']) hf' p' hp' hpk'
            simp only [mem_del]
            have e1 : f' ≠ f := by
              rintro rfl
              exact hn.1 (List.mem_map.2 ⟨_, h', rfl⟩)
            refine ⟨⟨⟨u1, ?_⟩, e1⟩, ⟨u2, ?_⟩, ?_⟩
            · rintro rfl; exact hflat f' n' (by simp [h']) p' hp' f n (by simp) hpm
            · rintro rfl; exact e1 (hone f n (by simp) f' n' (by simp [h']) p' hpm hp')
            · rintro rfl; exact hflat p' n (by simp) p hpm f' n' (by simp [h']) hp') (by
            intro x hx
            simp only [mem_del] at hx
            rw [b4]; exact hsub x hx.1.1)
        exact ⟨g', em', q1, q2, fun x hx => by rw [← b4]; exact q3 x hx⟩
    · rw [if_pos (by simp [hc])]
      exact ih hg h1 hn.2 hem hns' hone' hflat' (fun f' n' h' => he f' n' (by simp [h'])) hsub

theorem addPlaceholders_total {ns : List (String × String)} {g : Graph} (hg : Built g)
    {R : String → String → Prop} (hR : ∀ x, ¬ Path R x x) (h1 : ∀ x y, y ∈ kids g x → R x y)
    (hns : ∀ p gen, (p, gen) ∈ ns → p ∈ g.keys ∧ gen ∈ g.keys ∧ R gen p) :
    ∃ g', addPlaceholders ns g = .ok g' := by
  induction ns generalizing g with
  | nil => exact ⟨g, rfl⟩
  | cons x ns ih =>
    obtain ⟨p, gen⟩ := x
    obtain ⟨n1, n2, n3⟩ := hns p gen (by simp)
    obtain ⟨nd, hnd⟩ := exists_node_of_mem n2
    have hgc : liftQ (getChildren g gen) = .ok (kids g gen) := by
      simp [getChildren, hnd, liftQ, kids]
    simp only [addPlaceholders, hgc]
    have hmem : ∀ c ∈ (if (kids g gen).contains p then kids g gen else kids g gen ++ [p]), c ∈ kids g gen ∨ c = p := by
      intro c hc
      split at hc
      · exact .inl hc
      · simpa using hc
    obtain ⟨g1, hg1⟩ := setChildren_total (cs := if (kids g gen).contains p then kids g gen else kids g gen ++ [p]) hg n2 (by
        intro c hc
        rcases hmem c hc with hc | rfl
        · exact hg.wf.mem_keys_of_kid hc
        · exact n1) hR h1 (by
        intro c hc
        rcases hmem c hc with hc | rfl
        · exact h1 _ _ hc
        · exact n3)
    obtain ⟨b1, _, _, b4, _, b6⟩ := setChildren_ok hg hg1
    simp only [hg1]
    refine ih b1 (fun x y hy => ?_) (fun p' g' h' => ?_)
    · rw [b6] at hy
      split at hy
      · rename_i e; subst e
        rcases hmem y hy with hy | rfl
        · exact h1 _ _ hy
        · exact n3
      · exact h1 _ _ hy
    · rw [b4]; exact hns p' g' (by simp [h'])

theorem addOutputNodes_total {sig : String → Sig} {d : Disk} {os : List String} {g : Graph} (hg : Built g)
    (h : ∀ o ∈ os, o ∈ g.keys ∨ o ∈ d.files) :
    ∃ g', addOutputNodes sig d os g = .ok g' ∧ ∀ o ∈ os, o ∈ g'.keys := by
  induction os generalizing g with
  | nil => exact ⟨g, rfl, by simp⟩
  | cons o os ih =>
    simp only [addOutputNodes]
    by_cases hc : contains g o = true
    · rw [if_pos hc]
      obtain ⟨g', h1, h2⟩ := ih hg (fun x hx => h x (by simp [hx]))
      refine ⟨g', h1, fun x hx => ?_⟩
      rcases List.mem_cons.1 hx with rfl | hx
      · exact ((addOutputNodes_spec hg h1).2.1 x ((contains_iff _ _).1 hc)).1
      · exact h2 x hx
    · have ho : o ∉ g.keys := fun h => hc ((contains_iff _ _).2 h)
      have hd : o ∈ d.files := (h o (by simp)).resolve_left ho
      rw [if_neg hc, if_neg (by simp [hd])]
      obtain ⟨g1, hg1⟩ := addFile_total (sig o) hg ho
      obtain ⟨b1, _, k1, _⟩ := addFile_nil hg hg1
      simp only [hg1]
      obtain ⟨g', h1, h2⟩ := ih b1 (fun x hx => (h x (by simp [hx])).imp (fun h => by rw [k1]; simp [h]) id)
      refine ⟨g', h1, fun x hx => ?_⟩
      rcases List.mem_cons.1 hx with rfl | hx
      · exact ((addOutputNodes_spec b1 h1).2.1 x (by rw [k1]; simp)).1
      · exact h2 x hx

theorem linkInputs_total {od oo : Graph} {rs : Dict BuildResult} {sig : String → Sig} {d : Disk} {fs : List String}
    {gd go : Graph} (hd : Built gd) (ho : Built go) {R S : String → String → Prop} (hR : ∀ x, ¬ Path R x x)
    (hS : ∀ x, ¬ Path S x x) (h1 : ∀ x y, y ∈ kids gd x → R x y) (h2 : ∀ x y, y ∈ kids go x → S x y)
    (hk : ∀ f ∈ fs, f ∈ gd.keys ∧ f ∈ go.keys ∧ (rs.get? f = none → f ∈ od.keys))
    (hc : ∀ f ∈ fs, ∀ c ∈ newKids od rs f, c ∈ gd.keys ∧ R f c)
    (hout : ∀ f ∈ fs, ∀ o ∈ newOutputs oo rs f, (o ∈ go.keys ∨ o ∈ d.files) ∧ S f o) :
    ∃ gd' go', linkInputs od oo rs sig d fs gd go = .ok (gd', go') := by
  induction fs generalizing gd go with
  | nil => exact ⟨gd, go, rfl⟩
  | cons f fs ih =>
    obtain ⟨k1, k2, k3⟩ := hk f (by simp)
    have hcs : linkInputs od oo rs sig d (f :: fs) gd go =
        match liftG (setChildren gd f (newKids od rs f) true) with
        | .error e => .error e
        | .ok gd1 => match addOutputNodes sig d (newOutputs oo rs f) go with
          | .error e => .error e
          | .ok go1 => match liftG (setChildren go1 f (newOutputs oo rs f) true) with
            | .error e => .error e
            | .ok go2 => linkInputs od oo rs sig d fs gd1 go2 := by
      unfold newKids
      simp only [linkInputs]
      rcases hr : rs.get? f with _ | r
      · obtain ⟨nd, hnd⟩ := exists_node_of_mem (k3 hr)
        simp only [getChildren, hnd, liftQ, kids]
        rfl
      · rfl
    rw [hcs]
    obtain ⟨gd1, hgd1⟩ := setChildren_total (cs := newKids od rs f) hd k1 (fun c hcm => (hc f (by simp) c hcm).1) hR h1
      (fun c hcm => (hc f (by simp) c hcm).2)
    obtain ⟨go1, hgo1, hin⟩ := addOutputNodes_total (sig := sig) (d := d) (os := newOutputs oo rs f) ho
      (fun o hom => (hout f (by simp) o hom).1)
    obtain ⟨b1, b2, b3, b4, b5⟩ := addOutputNodes_spec ho hgo1
    obtain ⟨go2, hgo2⟩ := setChildren_total (cs := newOutputs oo rs f) b1 (b2 f k2).1 hin hS
      (fun x y hy => h2 x y (by rw [← b3]; exact hy)) (fun c hcm => (hout f (by simp) c hcm).2)
    obtain ⟨a1, _, _, a4, _, a6⟩ := setChildren_ok hd hgd1
    obtain ⟨c1, _, _, c4, _, c6⟩ := setChildren_ok b1 hgo2
    simp only [hgd1, hgo1, hgo2]
    refine ih a1 c1 (fun x y hy => ?_) (fun x y hy => ?_) (fun x hx => ?_) (fun x hx c hcm => ?_) (fun x hx o hom => ?_)
    · rw [a6] at hy
      split at hy
      · rename_i e; subst e; exact (hc x (by simp) y hy).2
      · exact h1 _ _ hy
    · rw [c6] at hy
      split at hy
      · rename_i e; subst e; exact (hout x (by simp) y hy).2
      · exact h2 _ _ (by rw [← b3]; exact hy)
    · obtain ⟨q1, q2, q3⟩ := hk x (by simp [hx])
      exact ⟨by rw [a4]; exact q1, by rw [c4]; exact (b2 x q2).1, q3⟩
    · obtain ⟨q1, q2⟩ := hc x (by simp [hx]) c hcm
      exact ⟨by rw [a4]; exact q1, q2⟩
    · obtain ⟨q1, q2⟩ := hout x (by simp [hx]) o hom
      exact ⟨q1.imp (fun h => by rw [c4]; exact (b2 o h).1) id, q2⟩

theorem dropEmptyOutputs_total {os : List String} {g : Graph} (hg : Built g) (hn : os.Nodup)
    (hk : ∀ o ∈ os, o ∈ g.keys) (hkids : ∀ o ∈ os, kids g o = []) : ∃ g', dropEmptyOutputs os g = .ok g' := by
  induction os generalizing g with
  | nil => exact ⟨g, rfl⟩
  | cons o os ih =>
    obtain ⟨nd, hnd⟩ := exists_node_of_mem (hk o (by simp))
    have hgp : liftQ (getParents g o) = .ok (pars g o) := by simp [getParents, hnd, liftQ, pars]
    simp only [dropEmptyOutputs, hgp]
    rw [List.nodup_cons] at hn
    by_cases hp : (pars g o).isEmpty = true
    · rw [if_pos hp]
      obtain ⟨g1, hg1⟩ := removeFile_total hg (hk o (by simp)) (hkids o (by simp)) (by simpa using hp)
      obtain ⟨b1, _, _, b4, b5, _⟩ := removeFile_isolated hg hg1
      simp only [hg1]
      refine ih b1 hn.2 (fun x hx => ?_) (fun x hx => by rw [b5]; exact hkids x (by simp [hx]))
      rw [b4]
      simp only [List.mem_filter, decide_eq_true_eq]
      exact ⟨hk x (by simp [hx]), by rintro rfl; exact hn.1 hx⟩
    · rw [if_neg hp]
      exact ih hg hn.2 (fun x hx => hk x (by simp [hx])) (fun x hx => hkids x (by simp [hx]))

theorem dropEmptyPlaceholders_total {os : List String} {g : Graph} (hg : Built g) (hn : os.Nodup)
    (hk : ∀ o ∈ os, o ∈ g.keys) : ∃ g', dropEmptyPlaceholders os g = .ok g' := by
  induction os generalizing g with
  | nil => exact ⟨g, rfl⟩
  | cons o os ih =>
    obtain ⟨nd, hnd⟩ := exists_node_of_mem (hk o (by simp))
    have hgp : liftQ (getParents g o) = .ok (pars g o) := by simp [getParents, hnd, liftQ, pars]
    have hgc : liftQ (getChildren g o) = .ok (kids g o) := by simp [getChildren, hnd, liftQ, kids]
    simp only [dropEmptyPlaceholders, hgp, hgc]
    rw [List.nodup_cons] at hn
    by_cases hp : ((pars g o).isEmpty && (kids g o).isEmpty) = true
    · rw [if_pos hp]
      simp only [Bool.and_eq_true, List.isEmpty_iff] at hp
      obtain ⟨g1, hg1⟩ := removeFile_total hg (hk o (by simp)) hp.2 hp.1
      obtain ⟨b1, _, _, b4, b5, _⟩ := removeFile_isolated hg hg1
      simp only [hg1]
      refine ih b1 hn.2 (fun x hx => ?_)
      rw [b4]
      simp only [List.mem_filter, decide_eq_true_eq]
      exact ⟨hk x (by simp [hx]), by rintro rfl; exact hn.1 hx⟩
    · rw [if_neg hp]
      exact ih hg hn.2 (fun x hx => hk x (by simp [hx]))

/-- Making the new graphs does not raise. -/
theorem newGraphs_total {order : List String → List String} {sig : String → Sig} {old : Graphs}
    {changed added : Dict Sig} {deleted : List String} {newPh : Dict String} {results : Dict BuildResult}
    {d : Disk} (ho : ∀ l, (order l).Perm l) (hov : WF old.out) (hpv : WF old.ph) {Input : String → Prop}
    (hIn : ∀ f, Input f ↔ f ∉ deleted ∧ (f ∈ results.keys ∨ f ∈ old.dep.keys))
    (hsig : ∀ f, Input f → ∃ s, newSig old.dep changed added f = .ok s)
    {R S U : String → String → Prop} (hR : ∀ x, ¬ Path R x x) (hS : ∀ x, ¬ Path S x x) (hU : ∀ x, ¬ Path U x x)
    (hkids : ∀ f, Input f → ∀ c ∈ newKids old.dep results f, Input c ∧ R f c)
    (hout : ∀ f, Input f → ∀ o ∈ newOutputs old.out results f, S f o ∧
      (results.get? f ≠ none → o ∈ d.files))
    (hph : ∀ x y, y ∈ kids old.ph x → U x y)
    (hone : ∀ x y z, y ∈ kids old.ph x → z ∈ kids old.ph x → y = z)
    (hflat : ∀ x y z, y ∈ kids old.ph x → z ∉ kids old.ph y)
    (hnew : ∀ p gen, (p, gen) ∈ newPh → Input p ∧ Input gen ∧ U gen p) :
    ∃ gs, newGraphs order sig old changed added deleted newPh results d = .ok gs := by
  have hin : ∀ f, f ∈ allInputs order old.dep results deleted ↔ Input f := by
    intro f
    unfold allInputs
    rw [hIn, List.mem_filter, (ho _).mem_iff, (insertAll_spec _ [] (by simp)).2]
    simp [and_comm]
  have hnd : (allInputs order old.dep results deleted).Nodup := by
    unfold allInputs
    exact ((ho _).nodup_iff.2 (insertAll_spec _ [] (by simp)).1).filter _
  unfold newGraphs
  simp only
  obtain ⟨g0, h0⟩ := addInputs_total (od := old.dep) (c := changed) (ad := added) (g := []) built_nil hnd (by simp)
    (fun f hf => hsig f ((hin f).1 hf))
  obtain ⟨a1, a2, a3, a4, a5⟩ := addInputs_spec built_nil h0
  simp only [Dict.keys_nil, List.nil_append] at a2
  have hkn : ∀ f, kids ([] : Graph) f = [] := fun f => rfl
  have hk0 : ∀ f, f ∈ g0.keys ↔ Input f := fun f => by rw [a2]; exact hin f
  have hz : ∀ x y, y ∈ kids g0 x → False := fun x y hy => by rw [a3, hkn] at hy; simp at hy
  rw [h0]
  dsimp only
  obtain ⟨go, em, h1, m1, m2, m3⟩ := keepOutputs_total (dl := deleted) (rb := results.has) (ns := old.out) (em := []) a1 (by simp) (by simp)
  obtain ⟨b1, b2, b3, b4, b5⟩ := keepOutputs_spec a1 h1
  rw [h1]
  dsimp only
  have hpm : ∀ f n, (f, n) ∈ old.ph → ∀ p ∈ n.parents, f ∈ kids old.ph p := by
    intro f n h p hp
    rw [← hpv.mem_pars_iff, pars_of_get? (Dict.get?_of_mem hpv.1 h)]
    exact hp
  obtain ⟨gp, emp, h2, p1, p2⟩ := keepPlaceholders_total (ns := old.ph) (em := allInputs order old.dep results deleted) a1 hU
    (fun x y hy => (hz x y hy).elim) hpv.1 hnd (fun f n h p hp => hph p f (hpm f n h p hp))
    (fun f n h f' n' h' p hp hp' => hone p f' f (hpm f' n' h' p hp') (hpm f n h p hp))
    (by
      intro f n h q hq f' n' h' hp
      exact hflat q f f' (hpm f n h q hq) (hpm f' n' h' f hp))
    (by
      intro f n _ hf p _ hp
      rw [hin, hin, ← hk0, ← hk0]; exact ⟨hf, hp⟩)
    (by intro x hx; rw [hk0, ← hin]; exact hx)
  obtain ⟨c1, c2, c3⟩ := keepPlaceholders_spec a1 h2
  rw [h2]
  dsimp only
  have hkp : ∀ x y, y ∈ kids gp x → U x y := by
    intro x y hy
    rw [c3] at hy
    rcases hy with hy | ⟨n, hn, _, hf⟩
    · exact (hz x y hy).elim
    · exact hph x y (hpm y n hn x (List.mem_of_find?_eq_some hf))
  obtain ⟨gp1, h3⟩ := addPlaceholders_total (ns := newPh) c1 hU hkp (by
    intro p gen h
    rw [c2, hk0, hk0]; exact hnew p gen h)
  obtain ⟨d1, d2, d3⟩ := addPlaceholders_spec c1 h3
  rw [h3]
  dsimp only
  obtain ⟨gd1, go1, h4⟩ := linkInputs_total (od := old.dep) (oo := old.out) (rs := results) (sig := sig) (d := d)
    (fs := allInputs order old.dep results deleted) a1 b1 hR hS (fun x y hy => (hz x y hy).elim)
    (fun x y hy => by rw [b3] at hy; exact (hz x y hy).elim)
    (by
      intro f hf
      have hi := (hin f).1 hf
      have hk := (hk0 f).2 hi
      refine ⟨hk, (b2 f hk).1, fun hr => ?_⟩
      rcases ((hIn f).1 hi).2 with h | h
      · exact absurd h ((Dict.get?_eq_none_iff _ _).1 hr)
      · exact h)
    (by
      intro f hf c hc
      rw [hk0]; exact hkids f ((hin f).1 hf) c hc)
    (by
      intro f hf o hom
      obtain ⟨q1, q2⟩ := hout f ((hin f).1 hf) o hom
      refine ⟨?_, q1⟩
      rcases hr : results.get? f with _ | r
      · left
        have hko : o ∈ kids old.out f := by
          unfold newOutputs at hom
          rw [hr] at hom
          exact hom
        have hpar := (hov.mem_pars_iff f o).2 hko
        obtain ⟨n, hn⟩ := exists_node_of_mem (mem_keys_of_has_par hpar)
        refine m3 o n (Dict.mem_of_get? hn) ?_
        rw [pars_of_get? hn] at hpar
        exact List.ne_nil_of_mem hpar
      · exact .inr (q2 (by simp [hr])))
  obtain ⟨e1, e2, e3, e4, e5, e6, e7, e8, e9⟩ := linkInputs_spec a1 b1 h4
  rw [h4]
  dsimp only
  obtain ⟨go2, h5⟩ := dropEmptyOutputs_total (os := em) e2 m1 (fun o ho => (e6 o (m2 o ho)).1) (by
    intro o hom
    have hn : o ∉ g0.keys := (b5 o hom).resolve_left (by simp)
    rw [e7, if_neg (fun hc => hn ((hk0 o).2 ((hin o).1 hc))), b3, a3, hkn])
  rw [h5]
  dsimp only
  obtain ⟨gp2, h6⟩ := dropEmptyPlaceholders_total (os := emp) d1 p1 (by
    intro o hom
    rw [d2, c2]; exact p2 o hom)
  rw [h6]
  exact ⟨_, rfl⟩

end Verif.Hot
