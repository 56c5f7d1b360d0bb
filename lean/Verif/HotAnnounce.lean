import Verif.HotRec
/-! # C17: a file which was scanned depends on outputs it announced, or the rebuild fails -/
namespace Verif.Hot
open Verif Verif.Graph

/-- The output `c` is accounted for: a scan announced that some file makes it or that some file needs it, or a
file which was not scanned now reported it. -/
def Accounted (out : Outcome) (c : String) : Prop :=
  Ann out c ∨ (∃ x ∈ out.scanned, c ∈ x.2.dependencies) ∨
  ∃ g r, Event.finished g r ∈ out.log ∧ (∀ x ∈ out.scanned, x.1 ≠ g) ∧ c ∈ r.children

theorem reinterpDeps_new {oo : Graph} {dl ds acc l : List String} {m m' : Dict String}
    (h : reinterpDeps oo dl ds acc m = .ok (l, m')) : ∀ c ∈ m'.keys, c ∈ m.keys ∨ c ∈ ds := by
  induction ds generalizing acc m with
  | nil => simp only [reinterpDeps, Except.ok.injEq, Prod.mk.injEq] at h; obtain ⟨_, rfl⟩ := h; exact fun c hc => .inl hc
  | cons x ds ih =>
    simp only [reinterpDeps] at h
    split at h
    · exact fun c hc => (ih h c hc).imp_right (List.mem_cons_of_mem _)
    · split at h
      · exact fun c hc => (ih h c hc).imp_right (List.mem_cons_of_mem _)
      · split at h
        · simp at h
        · split at h
          · simp at h
          · intro c hc
            rcases ih h c hc with h1 | h1
            · rw [Dict.mem_keys_set] at h1
              rcases h1 with rfl | h1
              · exact .inr (by simp)
              · exact .inl h1
            · exact .inr (List.mem_cons_of_mem _ h1)

theorem reinterpAll_new {oo : Graph} {dl : List String} {rs rs' : List (String × ScanResult)} {m m' : Dict String}
    (h : reinterpAll oo dl rs m = .ok (rs', m')) : ∀ c ∈ m'.keys, c ∈ m.keys ∨ ∃ x ∈ rs, c ∈ x.2.dependencies := by
  induction rs generalizing m rs' m' with
  | nil => simp only [reinterpAll, Except.ok.injEq, Prod.mk.injEq] at h; obtain ⟨_, rfl⟩ := h; exact fun c hc => .inl hc
  | cons x rs ih =>
    simp only [reinterpAll] at h
    split at h
    · simp at h
    · rename_i h1
      split at h
      · simp at h
      · rename_i h2
        simp only [Except.ok.injEq, Prod.mk.injEq] at h
        obtain ⟨_, rfl⟩ := h
        intro c hc
        rcases ih h2 c hc with h3 | ⟨y, hy, h3⟩
        · rcases reinterpDeps_new h1 c h3 with h4 | h4
          · exact .inl h4
          · exact .inr ⟨x, by simp, h4⟩
        · exact .inr ⟨y, List.mem_cons_of_mem _ hy, h3⟩

theorem reinterpChildren_new {T : Tables} {f : String} {cs acc l : List String} {m m' : Dict String}
    (h : reinterpChildren T f cs acc m = .ok (l, m')) :
    (∀ c ∈ m.keys, c ∈ m'.keys) ∧ (∀ c ∈ m'.keys, c ∈ m.keys ∨ (T.scanned f = false ∧ c ∈ cs)) ∧
    ∀ c ∈ cs, isOutput c = true → c ∈ m'.keys := by
  induction cs generalizing acc m with
  | nil =>
    simp only [reinterpChildren, Except.ok.injEq, Prod.mk.injEq] at h
    obtain ⟨_, rfl⟩ := h
    exact ⟨fun _ h => h, fun _ h => .inl h, by simp⟩
  | cons c cs ih =>
    simp only [reinterpChildren] at h
    split at h
    · rename_i p hp
      obtain ⟨a1, a2, a3⟩ := ih h
      refine ⟨a1, fun x hx => (a2 x hx).imp_right (fun h => ⟨h.1, List.mem_cons_of_mem _ h.2⟩), fun x hx ho => ?_⟩
      rcases List.mem_cons.1 hx with rfl | hx
      · exact a1 _ (Dict.mem_keys_of_get? hp)
      · exact a3 x hx ho
    · split at h
      · split at h
        · simp at h
        · rename_i hs
          split at h
          · simp at h
          · simp at h
          · obtain ⟨a1, a2, a3⟩ := ih h
            refine ⟨fun x hx => a1 x (by rw [Dict.mem_keys_set]; exact .inr hx), fun x hx => ?_, fun x hx ho => ?_⟩
            · rcases a2 x hx with h1 | h1
              · rw [Dict.mem_keys_set] at h1
                rcases h1 with rfl | h1
                · exact .inr ⟨by simpa using hs, by simp⟩
                · exact .inl h1
              · exact .inr ⟨h1.1, List.mem_cons_of_mem _ h1.2⟩
            · rcases List.mem_cons.1 hx with rfl | hx
              · exact a1 _ (by rw [Dict.mem_keys_set]; exact .inl rfl)
              · exact a3 x hx ho
      · rename_i hno
        obtain ⟨a1, a2, a3⟩ := ih h
        refine ⟨a1, fun x hx => (a2 x hx).imp_right (fun h => ⟨h.1, List.mem_cons_of_mem _ h.2⟩), fun x hx ho => ?_⟩
        rcases List.mem_cons.1 hx with rfl | hx
        · exact absurd ho hno
        · exact a3 x hx ho

/-- The known outputs are those of the start and those reported by files which were not scanned. -/
structure Known (T : Tables) (K : String → Prop) (s : Sched) : Prop where
  keys : ∀ c ∈ s.outMap.keys, K c ∨ ∃ g r, Event.finished g r ∈ s.log ∧ T.scanned g = false ∧ c ∈ r.children
  all : ∀ f r, Event.finished f r ∈ s.log → ∀ c ∈ r.children, isOutput c = true → c ∈ s.outMap.keys

theorem Known.steps {T : Tables} {ok : String → BuildResult → Prop} {K : String → Prop} {s s' : Sched} (hk : Known T K s)
    (hs : Steps T ok s s') : Known T K s' := by
  induction hs with
  | refl => exact hk
  | tail h1 h2 ih =>
    cases h2 with
    | @start f hf hd ho =>
      refine ⟨fun c hc => ?_, fun f' r hf' => ih.all f' r (by simpa [startOne] using hf')⟩
      rcases ih.keys c hc with h | ⟨g, r, h, h'⟩
      · exact .inl h
      · exact .inr ⟨g, r, by simp [startOne, h], h'⟩
    | @finish f r s' hf hok he =>
      obtain ⟨cs, m, d, e1, e2, rfl⟩ := finish_ok he
      obtain ⟨a1, a2, a3⟩ := reinterpChildren_new e1
      refine ⟨fun c hc => ?_, fun f' r' hf' c hc ho => ?_⟩
      · rcases a2 c hc with h | ⟨h, h'⟩
        · rcases ih.keys c h with h | ⟨g, r, h, h'⟩
          · exact .inl h
          · exact .inr ⟨g, r, by simp [h], h'⟩
        · exact .inr ⟨f, r, by simp, h, h'⟩
      · simp only [List.mem_append, List.mem_singleton, Event.finished.injEq] at hf'
        rcases hf' with hf' | ⟨rfl, rfl⟩
        · exact a1 c (ih.all f' r' hf' c hc ho)
        · exact a3 c hc ho

/-- C17: in a finished rebuild every output which a build reports as a dependency is accounted for: a file
which was scanned in this run cannot bring in an output which neither its own nor another scan mentioned. -/
theorem C17_accounted (env : Env) (a : Args) (d : Disk) (hv : ValidGraphs a.old) (ho : ValidOrder env)
    (gs : Graphs) (h : (hotRebuild env a d).stored = some gs) (f : String) (r : BuildResult)
    (hf : Event.finished f r ∈ (hotRebuild env a d).log) (c : String) (hc : c ∈ r.children) (hi : isOutput c = true) :
    Accounted (hotRebuild env a d) c := by
  obtain ⟨P, hP⟩ := stored_phases h
  rw [hP] at h hf ⊢
  have hfin : P.result.status = .finished := (P.stored_spec hv ho h).choose_spec.2.2.2.2.1
  obtain ⟨s1, h1, h2, h3, h4, _, _, hb, _⟩ := P.done_all hv ho hfin
  have hk0 : Known P.T (fun c => Ann P.result c ∨ ∃ x ∈ P.result.scanned, c ∈ x.2.dependencies) P.init := by
    refine ⟨fun c hc => .inl ?_, by simp [Phases.init, initSched]⟩
    rw [P.result_scanned]
    rcases reinterpAll_new P.hre c hc with h | h
    · left
      rw [← Dict.get?_isSome_iff, outMapOf_spec, Option.isSome_map, List.find?_isSome] at h
      obtain ⟨x, hx, hc⟩ := h
      refine ⟨x, ?_, by simpa using hc⟩
      rw [P.result_scanned]; simpa using hx
    · exact .inr h
  have hk := hk0.steps h1
  rw [h3] at hf
  rcases hk.keys c (hk.all f r hf c hc hi) with (h | h) | ⟨g, r', hg, hs, hc'⟩
  · exact .inl h
  · exact .inr (.inl h)
  · refine .inr (.inr ⟨g, r', by rw [h3]; exact hg, fun x hx hxg => ?_, hc'⟩)
    rw [P.result_scanned] at hx
    have hm : g ∈ Dict.keys P.updated := by
      rw [P.updated_keys, ← hxg]
      exact List.mem_map.2 ⟨x, hx, rfl⟩
    have hh : Dict.has P.updated g = false := hs
    rw [Dict.has, ← Bool.not_eq_true, Dict.get?_isSome_iff] at hh
    exact hh hm

end Verif.Hot
