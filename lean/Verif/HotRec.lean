import Verif.HotGraphs
/-! # C17: the graphs recorded by a finished rebuild -/
namespace Verif.Hot
open Verif Verif.Graph

theorem innerSearch_some {T : Tables} {c p : String} {n : Nat} {st seen : List String}
    (h : innerSearch T c n st seen = .ok (some p)) : c ∈ kids T.oldOut p := by
  induction n generalizing st seen with
  | zero => cases st <;> simp [innerSearch] at h
  | succ n ih =>
    cases st with
    | nil => simp [innerSearch] at h
    | cons f st =>
      simp only [innerSearch] at h
      split at h
      · simp at h
      · rename_i outs ho
        obtain ⟨_, ho⟩ := getChildren_ok (liftQ_ok ho)
        split at h
        · rename_i hc
          simp only [Except.ok.injEq, Option.some.injEq] at h
          subst h; rw [ho]; simpa using hc
        · split at h
          · simp at h
          · exact ih h

/-- What the mapping of outputs to producers satisfies. -/
structure MapOK (Q : String → String → Prop) (ann : String → Prop) (m : Dict String) : Prop where
  val : ∀ c p, m.get? c = some p → Q c p
  has : ∀ c, ann c → c ∈ m.keys

theorem reinterpChildren_spec {T : Tables} {Q : String → String → Prop} {ann : String → Prop}
    (hQ : ∀ c p, ¬ ann c → c ∈ kids T.oldOut p → Q c p) {f : String} {cs acc l : List String} {m m' : Dict String}
    (hm : MapOK Q ann m) (h : reinterpChildren T f cs acc m = .ok (l, m')) :
    MapOK Q ann m' ∧ (∀ x ∈ acc, x ∈ l) ∧
    (∀ g ∈ l, g ∈ acc ∨ ∃ c ∈ cs, (g = c ∧ isOutput c = false ∧ ¬ ann c) ∨ (g ≠ f ∧ Q c g)) ∧
    (∀ c ∈ cs, (isOutput c = false ∧ ¬ ann c ∧ c ∈ l) ∨ ∃ g, Q c g ∧ (g = f ∨ g ∈ l)) := by
  induction cs generalizing acc m with
  | nil =>
    simp only [reinterpChildren, Except.ok.injEq, Prod.mk.injEq] at h
    obtain ⟨rfl, rfl⟩ := h
    exact ⟨hm, fun _ h => h, fun _ h => .inl h, by simp⟩
  | cons c cs ih =>
    -- the case where `c` stands for a producer
    have case : ∀ p mm, Q c p → MapOK Q ann mm →
        reinterpChildren T f cs (if p = f then acc else acc ++ [p]) mm = .ok (l, m') →
        MapOK Q ann m' ∧ (∀ x ∈ acc, x ∈ l) ∧
        (∀ g ∈ l, g ∈ acc ∨ ∃ c' ∈ c :: cs, (g = c' ∧ isOutput c' = false ∧ ¬ ann c') ∨ (g ≠ f ∧ Q c' g)) ∧
        (∀ c' ∈ c :: cs, (isOutput c' = false ∧ ¬ ann c' ∧ c' ∈ l) ∨ ∃ g, Q c' g ∧ (g = f ∨ g ∈ l)) := by
      intro p mm hp hmm h
      obtain ⟨a1, a2, a3, a4⟩ := ih hmm h
      refine ⟨a1, fun x hx => a2 x ?_, fun g hg => ?_, fun c' hc' => ?_⟩
      · split <;> simp [hx]
      · rcases a3 g hg with h | ⟨c', h1, h2⟩
        · split at h
          · exact .inl h
          · rename_i hne
            simp only [List.mem_append, List.mem_singleton] at h
            rcases h with h | rfl
            · exact .inl h
            · exact .inr ⟨c, by simp, .inr ⟨hne, hp⟩⟩
        · exact .inr ⟨c', by simp [h1], h2⟩
      · rcases List.mem_cons.1 hc' with rfl | hc'
        · right
          refine ⟨p, hp, ?_⟩
          by_cases e : p = f
          · exact .inl e
          · exact .inr (a2 p (by simp [e]))
        · exact a4 c' hc'
    simp only [reinterpChildren] at h
    split at h
    · rename_i p hp
      exact case p m (hm.val _ _ hp) hm h
    · rename_i hnone
      have hna : ¬ ann c := fun hc => (Dict.get?_eq_none_iff m c).1 hnone (hm.has c hc)
      split at h
      · split at h
        · simp at h
        · split at h
          · simp at h
          · simp at h
          · rename_i p hp
            have hq := hQ c p hna (innerSearch_some hp)
            refine case p (m.set c p) hq ⟨fun c' p' hc' => ?_, fun c' hc' => ?_⟩ h
            · rw [Dict.get?_set] at hc'
              split at hc'
              · rename_i e; subst e; simp only [Option.some.injEq] at hc'; subst hc'; exact hq
              · exact hm.val _ _ hc'
            · rw [Dict.mem_keys_set]; exact .inr (hm.has c' hc')
      · rename_i ho
        have ho : isOutput c = false := by simpa using ho
        obtain ⟨a1, a2, a3, a4⟩ := ih hm h
        refine ⟨a1, fun x hx => a2 x (by simp [hx]), fun g hg => ?_, fun c' hc' => ?_⟩
        · rcases a3 g hg with h | ⟨c', h1, h2⟩
          · simp only [List.mem_append, List.mem_singleton] at h
            rcases h with h | rfl
            · exact .inl h
            · exact .inr ⟨g, by simp, .inl ⟨rfl, ho, hna⟩⟩
          · exact .inr ⟨c', by simp [h1], h2⟩
        · rcases List.mem_cons.1 hc' with rfl | hc'
          · exact .inl ⟨ho, hna, a2 c' (by simp)⟩
          · exact a4 c' hc'

/-- Every completed build is kept with its outputs, and its children with outputs replaced. -/
structure Kept (Q : String → String → Prop) (ann : String → Prop) (s : Sched) : Prop where
  map : MapOK Q ann s.outMap
  res : ∀ f r, Event.finished f r ∈ s.log → ∃ r', s.results.get? f = some r' ∧ r'.produced = r.produced ∧
    r'.reused = r.reused ∧
    (∀ g ∈ r'.children, ∃ c ∈ r.children, (g = c ∧ isOutput c = false ∧ ¬ ann c) ∨ (g ≠ f ∧ Q c g)) ∧
    (∀ c ∈ r.children, (isOutput c = false ∧ ¬ ann c ∧ c ∈ r'.children) ∨ ∃ g, Q c g ∧ (g = f ∨ g ∈ r'.children))

theorem Kept.steps {T : Tables} {ok : String → BuildResult → Prop} {Q : String → String → Prop} {ann : String → Prop}
    (hQ : ∀ c p, ¬ ann c → c ∈ kids T.oldOut p → Q c p) {s s' : Sched} (hb : Base T s) (hk : Kept Q ann s)
    (hs : Steps T ok s s') : Kept Q ann s' := by
  induction hs with
  | refl => exact hk
  | tail h1 h2 ih =>
    have hb1 := hb.steps h1
    cases h2 with
    | @start f hf hd ho =>
      refine ⟨ih.map, fun f' r hf' => ih.res f' r ?_⟩
      simpa [startOne] using hf'
    | @finish f r s' hf hok he =>
      obtain ⟨cs, m, d, e1, e2, rfl⟩ := finish_ok he
      obtain ⟨a1, a2, a3, a4⟩ := reinterpChildren_spec hQ ih.map e1
      refine ⟨a1, fun f' r2 hf' => ?_⟩
      simp only [List.mem_append, List.mem_singleton, Event.finished.injEq] at hf'
      rcases hf' with hf' | ⟨rfl, rfl⟩
      · obtain ⟨r', q1, q2⟩ := ih.res f' r2 hf'
        refine ⟨r', ?_, q2⟩
        show (Dict.set _ f _).get? f' = some r'
        rw [Dict.get?_set, if_neg, q1]
        rintro rfl
        exact hb1.running_not_result hf (Dict.mem_keys_of_get? q1)
      · refine ⟨{ r2 with children := cs }, Dict.get?_set_self _ _ _, rfl, rfl, fun g hg => ?_, a4⟩
        rcases a3 g hg with h | h
        · simp at h
        · exact h

theorem madeBy_edge {a : Args} {out : Outcome} {c p : String} (h : ¬ Ann out c) (he : Edge a.old.out p c) :
    MadeBy a out c p := by
  unfold MadeBy
  have : out.scanned.reverse.find? (fun x => x.2.produces.contains c) = none := by
    rw [List.find?_eq_none]
    intro x hx hc
    exact h ⟨x, by simpa using hx, by simpa using hc⟩
  rw [this]; exact he

theorem Phases.mapOK {env : Env} {a : Args} {d : Disk} (P : Phases env a d) (hv : ValidGraphs a.old) :
    MapOK (MadeBy a P.result) (Ann P.result) P.outMap := by
  have h1 := (reinterpAll_spec P.hre).2
  constructor
  · intro c p hc
    have hp : Producer a.old.out a.deleted P.outMap c = some p := by unfold Producer; rw [hc]
    rw [h1, P.producer_eq] at hp
    unfold producerOf at hp
    unfold MadeBy
    split at hp
    · simp only [Option.some.injEq] at hp; exact hp.symm
    · have := List.mem_of_find?_eq_some hp
      rw [edge_iff]
      exact (hv.out.wf.mem_pars_iff p c).1 this
  · rintro c ⟨x, hx, hc⟩
    rw [P.result_scanned] at hx
    refine (reinterpAll_mapkeys P.hre).1 c ?_
    rw [← Dict.get?_isSome_iff, outMapOf_spec, Option.isSome_map, List.find?_isSome]
    exact ⟨x, by simpa using hx, by simpa using hc⟩

theorem Phases.stored_spec {env : Env} {a : Args} {d : Disk} (P : Phases env a d) (hv : ValidGraphs a.old)
    (ho : ValidOrder env) {gs : Graphs} (h : P.result.stored = some gs) :
    ∃ s1, Base P.T s1 ∧ Kept (MadeBy a P.result) (Ann P.result) s1 ∧ P.result.log = s1.log ∧
      s1.results.keys.Perm P.affected ∧ P.result.status = .finished ∧
      newGraphs env.order env.sig a.old (modeStep a env.sig d).1 P.st.added a.deleted P.st.newPh s1.results
        P.result.disk = .ok gs := by
  have hf : P.result.status = .finished := by
    unfold Phases.result at h ⊢
    rcases hl : P.loop with ⟨y, s⟩
    rw [hl] at h
    cases y with
    | finished =>
      dsimp only at h ⊢
      unfold finalize at h ⊢
      repeat' split at h
      all_goals simp_all
    | failed e => simp at h
    | waiting => simp at h
  obtain ⟨s1, h1, h2, h3, h4, _, _, hb, hfin⟩ := P.done_all hv ho hf
  have hres : P.result = finalize env a (modeStep a env.sig d).1 P.st.added P.st.newPh
      ((P.dO ++ P.dA).flatMap foldersOf) P.st.updated s1 := by
    unfold Phases.result
    rcases hl : P.loop with ⟨y, s⟩
    rw [hl] at hfin h2
    simp only at hfin h2
    subst hfin; subst h2
    rfl
  refine ⟨s1, hb, ?_, h3, h4, hf, ?_⟩
  · refine Kept.steps (T := P.T) ?_ (P.base hv ho) ⟨P.mapOK hv, by simp [Phases.init, initSched]⟩ h1
    intro c p hc hk
    exact madeBy_edge hc ((edge_iff _ _ _).2 hk)
  · rw [hres] at h ⊢
    unfold finalize at h ⊢
    rcases hu : unlinkStrict s1.stillArt s1.disk with ⟨e, dd⟩
    rw [hu] at h
    cases e with
    | error e => simp at h
    | ok u =>
      dsimp only at h ⊢
      rcases hr : removeEmptyDirs (sortByLen (insertAll ((P.dO ++ P.dA).flatMap foldersOf) [])) dd with ⟨e, d2⟩
      rw [hr] at h
      cases e with
      | error e => simp at h
      | ok u =>
        dsimp only at h ⊢
        split at h
        · simp at h
        · rename_i gs' hgs
          simp only [Option.some.injEq] at h
          subst h
          simp only [hgs]

theorem makePlaceholders_added {sig : String → Sig} {f : String} {ps : List String} {st : ScanState}
    (h : ∀ x ∈ st.newPh.keys, st.added.get? x = some (sig x)) :
    ∀ x ∈ (makePlaceholders sig f ps st).1.newPh.keys, (makePlaceholders sig f ps st).1.added.get? x = some (sig x) := by
  induction ps generalizing st with
  | nil => exact h
  | cons p ps ih =>
    simp only [makePlaceholders]
    split
    · exact ih h
    · refine ih (fun x hx => ?_)
      simp only [Dict.mem_keys_set] at hx
      simp only [Dict.get?_set]
      split
      · rename_i e; rw [e]
      · rename_i e; exact h x (hx.resolve_left (fun h => e h.symm))

theorem makeAll_added {sig : String → Sig} {rs : List (String × ScanResult)} {st : ScanState}
    (h : ∀ x ∈ st.newPh.keys, st.added.get? x = some (sig x)) :
    ∀ x ∈ (makeAll sig rs st).1.newPh.keys, (makeAll sig rs st).1.added.get? x = some (sig x) := by
  induction rs generalizing st with
  | nil => exact h
  | cons p ps ih =>
    simp only [makeAll]
    exact ih (makePlaceholders_added h)

theorem scanLoop_added' {scan : Scanner} {sig : String → Sig} {n : Nat} {fs : List String} {st st' : ScanState}
    (h : ∀ x ∈ st.newPh.keys, st.added.get? x = some (sig x)) (hs : scanLoop scan sig n fs st = (.ok (), st')) :
    ∀ x ∈ st'.newPh.keys, st'.added.get? x = some (sig x) := by
  induction n generalizing fs st with
  | zero =>
    cases fs with
    | nil => simp only [scanLoop, Prod.mk.injEq, true_and] at hs; subst hs; exact h
    | cons f fs => simp [scanLoop] at hs
  | succ n ih =>
    cases fs with
    | nil => simp only [scanLoop, Prod.mk.injEq, true_and] at hs; subst hs; exact h
    | cons f fs =>
      simp only [scanLoop] at hs
      split at hs
      · simp at hs
      · refine ih ?_ hs
        apply makeAll_added
        exact h

theorem scanLoop_added {scan : Scanner} {sig : String → Sig} {n : Nat} {fs : List String} {ad : Dict Sig} {dk : Disk}
    {st' : ScanState} (hs : scanLoop scan sig n fs { updated := [], newPh := [], added := ad, disk := dk } = (.ok (), st')) :
    ∀ x ∈ st'.newPh.keys, st'.added.get? x = some (sig x) :=
  scanLoop_added' (by simp) hs

/-- A stored set of graphs, through the phases. -/
theorem stored_phases {env : Env} {a : Args} {d : Disk} {gs : Graphs} (h : (hotRebuild env a d).stored = some gs) :
    ∃ P : Phases env a d, hotRebuild env a d = P.result := by
  rcases hotRebuild_cases env a d with ⟨_, h2, _⟩ | h
  · rw [h2.1] at h; simp at h
  · exact h

/-- C17: a rebuild which finishes stores new graphs, unless there was nothing to do: no changed, added
or deleted file, and the constants were last built for the same mode. -/
theorem C17_finished_stores (env : Env) (a : Args) (d : Disk) (hv : ValidGraphs a.old) (ho : ValidOrder env)
    (hf : (hotRebuild env a d).status = .finished) (hn : (hotRebuild env a d).stored = none) :
    a.changed = [] ∧ a.added = [] ∧ a.deleted = [] ∧ (a.constants ∈ d.files → d.mode = some a.mode) := by
  rcases hotRebuild_cases env a d with ⟨_, _, h3⟩ | ⟨P, hP⟩
  · obtain ⟨_, e2, e3, e4, _⟩ := h3 hf
    unfold modeStep at e4
    have hset : ∀ (m : Dict Sig) k v, m.set k v ≠ [] := by
      intro m k v h
      have := Dict.get?_set_self m k v
      rw [h] at this; simp at this
    refine ⟨?_, e3, e2, fun hc => ?_⟩
    · split at e4
      · split at e4
        · simp only at e4
          split at e4
          · exact absurd e4 (hset _ _ _)
          · exact e4
        · exact e4
      · exact e4
    · rw [if_pos (by simpa using hc)] at e4
      by_cases hm : d.mode = some a.mode
      · exact hm
      · exfalso
        rw [if_pos hm] at e4
        simp only at e4
        split at e4
        · exact hset _ _ _ e4
        · rename_i hx
          simp [e4, e3, Dict.has] at hx
  · rw [hP] at hf hn
    exfalso
    obtain ⟨s1, h1, h2, h3, h4, _, _, hb, hfin⟩ := P.done_all hv ho hf
    unfold Phases.result at hf hn
    rcases hl : P.loop with ⟨y, s⟩
    rw [hl] at hf hn hfin
    simp only at hfin
    subst hfin
    dsimp only at hf hn
    unfold finalize at hf hn
    repeat' split at hf
    all_goals simp_all

/-- C17: the stored graphs are ordinary graphs built with the cycle check on; nothing in the stored
dependency graph depends on itself. -/
theorem C17_valid (env : Env) (a : Args) (d : Disk) (hv : ValidGraphs a.old) (ho : ValidOrder env) (gs : Graphs)
    (h : (hotRebuild env a d).stored = some gs) :
    ValidGraphs gs ∧ Acyclic gs.dep ∧ Acyclic gs.out ∧ Acyclic gs.ph := by
  obtain ⟨P, hP⟩ := stored_phases h
  rw [hP] at h
  obtain ⟨s1, hb, hk, hl, hp, _, hg⟩ := P.stored_spec hv ho h
  obtain ⟨b1, b2, b3, _⟩ := newGraphs_spec ho hg
  exact ⟨⟨b1.valid, b2.valid, b3.valid⟩, b1.acyclic, b2.acyclic, b3.acyclic⟩

/-- C17: the files of the stored dependency graph are the rebuilt ones and the others known before,
without the deleted ones. -/
theorem C17_files (env : Env) (a : Args) (d : Disk) (hv : ValidGraphs a.old) (ho : ValidOrder env) (gs : Graphs)
    (h : (hotRebuild env a d).stored = some gs) (f : String) :
    contains gs.dep f = true ↔
      f ∉ a.deleted ∧ (Rebuilt a (hotRebuild env a d) f ∨ contains a.old.dep f = true) := by
  obtain ⟨P, hP⟩ := stored_phases h
  rw [hP] at h ⊢
  obtain ⟨s1, hb, hk, hl, hp, _, hg⟩ := P.stored_spec hv ho h
  obtain ⟨b1, b2, b3, c1, c2, c3, c4, c5, c6⟩ := newGraphs_spec ho hg
  rw [contains_iff, c1, hp.mem_iff, contains_iff, P.rebuilt_iff hv ho]

theorem modeStep_get? (a : Args) (sig : String → Sig) (d : Disk) (f : String) :
    (modeStep a sig d).1.get? f =
      if f = a.constants ∧ f ∈ d.files ∧ d.mode ≠ some a.mode ∧ f ∉ a.changed.keys ∧ f ∉ a.added.keys then some (sig f)
      else a.changed.get? f := by
  unfold modeStep
  by_cases h1 : a.constants ∈ d.files
  · rw [if_pos (by simpa using h1)]
    by_cases h2 : d.mode ≠ some a.mode
    · rw [if_pos h2]
      simp only
      by_cases h3 : a.constants ∉ a.changed.keys ∧ a.constants ∉ a.added.keys
      · have h3' : (!a.changed.has a.constants && !a.added.has a.constants) = true := by
          have q1 : a.changed.has a.constants = false := by
            rw [Bool.eq_false_iff]; exact fun h => h3.1 ((Dict.has_iff _ _).1 h)
          have q2 : a.added.has a.constants = false := by
            rw [Bool.eq_false_iff]; exact fun h => h3.2 ((Dict.has_iff _ _).1 h)
          simp [q1, q2]
        rw [if_pos h3', Dict.get?_set]
        by_cases e : a.constants = f
        · subst e; rw [if_pos rfl, if_pos ⟨rfl, h1, h2, h3⟩]
        · rw [if_neg e, if_neg (fun h => e h.1.symm)]
      · have h3' : ¬ (!a.changed.has a.constants && !a.added.has a.constants) = true := by
          intro h
          simp only [Bool.and_eq_true, Bool.not_eq_true'] at h
          refine h3 ⟨fun hc => ?_, fun hc => ?_⟩
          · rw [(Dict.has_iff _ _).2 hc] at h; simp at h
          · rw [(Dict.has_iff _ _).2 hc] at h; simp at h
        rw [if_neg h3', if_neg]
        rintro ⟨rfl, _, _, h⟩
        exact h3 h
    · rw [if_neg h2, if_neg (fun h => h2 h.2.2.1)]
  · rw [if_neg (by simpa using h1), if_neg]
    rintro ⟨rfl, h, _⟩
    exact h1 h

/-- C17: the signature stored for a file is the one observed for it. -/
theorem C17_signatures (env : Env) (a : Args) (d : Disk) (hv : ValidGraphs a.old) (ho : ValidOrder env) (gs : Graphs)
    (h : (hotRebuild env a d).stored = some gs) (f : String) (hf : contains gs.dep f = true) :
    ∃ s, HasMeta gs.dep f s ∧ HasMeta gs.out f s ∧ Observed env a d (hotRebuild env a d) f s := by
  obtain ⟨P, hP⟩ := stored_phases h
  rw [hP] at h ⊢
  obtain ⟨s1, hb, hk, hl, hp, _, hg⟩ := P.stored_spec hv ho h
  obtain ⟨b1, b2, b3, c1, c2, c3, c4, c5, c6⟩ := newGraphs_spec ho hg
  obtain ⟨s, e1, e2, e3⟩ := c2 f ((contains_iff _ _).1 hf)
  refine ⟨s, (hasMeta_iff _ _ _).2 e2, (hasMeta_iff _ _ _).2 e3, ?_⟩
  obtain ⟨_, _, ⟨new, n1, n2, n3, n4, n5, n6⟩, _⟩ := (scanLoop_spec _ _ _ _ _ _
    (by simp [Dict.NodupKeys, Dict.keys]) (by simp [Dict.NodupKeys, Dict.keys]) (by simp) P.hscan)
  have hgen : ∀ x, x ∈ P.st.newPh.keys ↔ x ∈ new := by intro x; rw [n4]; simp [Dict.keys]
  unfold Observed
  rw [P.result_generated]
  unfold newSig at e1
  rw [modeStep_get?] at e1
  by_cases q1 : f ∈ a.changed.keys
  · rw [if_pos q1]
    rw [if_neg (fun h => h.2.2.2.1 q1)] at e1
    obtain ⟨s', hs'⟩ : ∃ s', a.changed.get? f = some s' := Option.isSome_iff_exists.1 ((Dict.get?_isSome_iff _ _).2 q1)
    rw [hs'] at e1 ⊢
    simp only [Except.ok.injEq] at e1; rw [e1]
  · rw [if_neg q1]
    have hcn := (Dict.get?_eq_none_iff a.changed f).2 q1
    by_cases q2 : f = a.constants ∧ f ∈ d.files ∧ d.mode ≠ some a.mode
    · by_cases q3 : f ∈ a.added.keys
      · rw [if_neg (fun h => h.2.2.2.2 q3), hcn] at e1
        obtain ⟨s', hs'⟩ : ∃ s', P.st.added.get? f = some s' :=
          Option.isSome_iff_exists.1 ((Dict.get?_isSome_iff _ _).2 ((n5 f).2 (.inl q3)))
        have hs'' := n6 _ _ hs'
        simp only [hs', Except.ok.injEq] at e1
        subst e1
        by_cases q4 : f ∈ P.st.newPh.keys
        · rw [if_neg (fun h => h.2 q4), if_pos (.inl q4)]
          rw [hgen] at q4
          have := (n2 f q4).1
          exfalso; apply this
          have : (modeStep a env.sig d).2.files = d.files := by
            unfold modeStep; split
            · split <;> rfl
            · rfl
          rw [this]; exact q2.2.1
        · rw [if_pos ⟨q3, q4⟩]
          rcases hs'' with h | ⟨_, h⟩
          · exact h
          · exact absurd ((hgen f).2 h) q4
      · rw [if_pos ⟨q2.1, q2.2.1, q2.2.2, q1, q3⟩] at e1
        simp only [Except.ok.injEq] at e1
        rw [if_neg (fun h => q3 h.1), if_pos (.inr q2)]
        exact e1.symm
    · rw [if_neg (fun h => q2 ⟨h.1, h.2.1, h.2.2.1⟩), hcn] at e1
      simp only at e1
      by_cases q4 : f ∈ new
      · have q4' := (hgen f).2 q4
        rw [if_neg (fun h => h.2 q4'), if_pos (.inl q4')]
        obtain ⟨s', hs'⟩ : ∃ s', P.st.added.get? f = some s' :=
          Option.isSome_iff_exists.1 ((Dict.get?_isSome_iff _ _).2 ((n5 f).2 (.inr q4)))
        have hs'' := scanLoop_added P.hscan f q4'
        rw [hs''] at e1
        simp only [Except.ok.injEq] at e1
        exact e1.symm
      · have q4' : f ∉ P.st.newPh.keys := fun h => q4 ((hgen f).1 h)
        by_cases q3 : f ∈ a.added.keys
        · rw [if_pos ⟨q3, q4'⟩]
          obtain ⟨s', hs'⟩ : ∃ s', P.st.added.get? f = some s' :=
            Option.isSome_iff_exists.1 ((Dict.get?_isSome_iff _ _).2 ((n5 f).2 (.inl q3)))
          rcases n6 _ _ hs' with h | ⟨_, h⟩
          · rw [hs'] at e1
            simp only [Except.ok.injEq] at e1
            rw [← e1]; exact h
          · exact absurd h q4
        · rw [if_neg (fun h => q3 h.1), if_neg (fun h => h.elim q4' q2)]
          rw [(Dict.get?_eq_none_iff P.st.added f).2 (fun h => ((n5 f).1 h).elim q3 q4)] at e1
          simp only at e1
          rw [hasMeta_iff]
          unfold infoOf
          rcases hn : a.old.dep.get? f with _ | n
          · rw [hn] at e1; simp at e1
          · rw [hn] at e1; simp only [Except.ok.injEq] at e1; simp [e1]

/-- C17: the recorded dependencies of a rebuilt file are those its build reported, with a file which
is made by another one replaced by its maker, and without the file itself when it is the maker. -/
theorem C17_rebuilt_dependencies (env : Env) (a : Args) (d : Disk) (hv : ValidGraphs a.old) (ho : ValidOrder env)
    (gs : Graphs) (h : (hotRebuild env a d).stored = some gs) (f : String) (r : BuildResult)
    (hf : Event.finished f r ∈ (hotRebuild env a d).log) :
    (∀ g, Edge gs.dep f g → ∃ c ∈ r.children,
      (g = c ∧ isOutput c = false ∧ ¬ Ann (hotRebuild env a d) c) ∨ (g ≠ f ∧ MadeBy a (hotRebuild env a d) c g)) ∧
    (∀ c ∈ r.children, (isOutput c = false ∧ ¬ Ann (hotRebuild env a d) c ∧ Edge gs.dep f c) ∨
      ∃ g, MadeBy a (hotRebuild env a d) c g ∧ (g = f ∨ Edge gs.dep f g)) := by
  obtain ⟨P, hP⟩ := stored_phases h
  rw [hP] at h hf ⊢
  obtain ⟨s1, hb, hk, hl, hp, _, hg⟩ := P.stored_spec hv ho h
  obtain ⟨b1, b2, b3, c1, c2, c3, c4, c5, c6⟩ := newGraphs_spec ho hg
  rw [hl] at hf
  obtain ⟨r', q1, q2, q3, q4, q5⟩ := hk.res f r hf
  have hmem : f ∈ P.affected := hp.mem_iff.1 (Dict.mem_keys_of_get? q1)
  have hnd : f ∉ a.deleted := ((P.rebuilt_iff hv ho f).1 hmem).1
  have hin : f ∈ gs.dep.keys := (c1 f).2 ⟨hnd, .inl (Dict.mem_keys_of_get? q1)⟩
  have hkids : kids gs.dep f = r'.children := by
    rw [c3, if_pos hin]; unfold newKids; rw [q1]
  simp only [edge_iff, hkids]
  exact ⟨q4, q5⟩

/-- C17: a file which is known and not rebuilt keeps its recorded dependencies. -/
theorem C17_kept_dependencies (env : Env) (a : Args) (d : Disk) (hv : ValidGraphs a.old) (ho : ValidOrder env)
    (gs : Graphs) (h : (hotRebuild env a d).stored = some gs) (f : String) (hf : contains gs.dep f = true)
    (hr : ¬ Rebuilt a (hotRebuild env a d) f) : getChildren gs.dep f = getChildren a.old.dep f := by
  obtain ⟨P, hP⟩ := stored_phases h
  rw [hP] at h hr
  obtain ⟨s1, hb, hk, hl, hp, _, hg⟩ := P.stored_spec hv ho h
  obtain ⟨b1, b2, b3, c1, c2, c3, c4, c5, c6⟩ := newGraphs_spec ho hg
  rw [contains_iff] at hf
  have hnr : f ∉ s1.results.keys := fun hc => hr ((P.rebuilt_iff hv ho f).1 (hp.mem_iff.1 hc))
  have hold : f ∈ a.old.dep.keys := ((c1 f).1 hf).2.resolve_left hnr
  rw [getChildren_eq hf, getChildren_eq hold, c3, if_pos hf]
  unfold newKids
  rw [(Dict.get?_eq_none_iff _ _).2 hnr]

/-- C17: the output graph lists, for a rebuilt file, what its build produced and then what it reused,
for any other known file what was recorded for it, and nothing for anything else. -/
theorem C17_outputs (env : Env) (a : Args) (d : Disk) (hv : ValidGraphs a.old) (ho : ValidOrder env)
    (gs : Graphs) (h : (hotRebuild env a d).stored = some gs) :
    (∀ f r, Event.finished f r ∈ (hotRebuild env a d).log → getChildren gs.out f = .ok (r.produced ++ r.reused)) ∧
    (∀ f, contains gs.dep f = true → ¬ Rebuilt a (hotRebuild env a d) f → ∀ o, Edge gs.out f o ↔ Edge a.old.out f o) ∧
    (∀ f, contains gs.dep f = false → ∀ o, ¬ Edge gs.out f o) := by
  obtain ⟨P, hP⟩ := stored_phases h
  rw [hP] at h ⊢
  obtain ⟨s1, hb, hk, hl, hp, _, hg⟩ := P.stored_spec hv ho h
  obtain ⟨b1, b2, b3, c1, c2, c3, c4, c5, c6⟩ := newGraphs_spec ho hg
  rw [hl]
  refine ⟨fun f r hf => ?_, fun f hf hr o => ?_, fun f hf o => ?_⟩
  · obtain ⟨r', q1, q2, q3, q4, q5⟩ := hk.res f r hf
    have hmem : f ∈ P.affected := hp.mem_iff.1 (Dict.mem_keys_of_get? q1)
    have hnd : f ∉ a.deleted := ((P.rebuilt_iff hv ho f).1 hmem).1
    have hin : f ∈ gs.dep.keys := (c1 f).2 ⟨hnd, .inl (Dict.mem_keys_of_get? q1)⟩
    have hino : f ∈ gs.out.keys := by
      obtain ⟨s, _, _, e⟩ := c2 f hin
      rw [← hasMeta_iff] at e
      unfold HasMeta checkFile at e
      rw [← Dict.get?_isSome_iff]
      rcases hq : gs.out.get? f with _ | n
      · rw [hq] at e; simp at e
      · rfl
    rw [getChildren_eq hino, c4, if_pos hin]
    unfold newOutputs
    rw [q1]; simp [q2, q3]
  · rw [contains_iff] at hf
    have hnr : f ∉ s1.results.keys := fun hc => hr ((P.rebuilt_iff hv ho f).1 (hp.mem_iff.1 hc))
    rw [edge_iff, edge_iff, c4, if_pos hf]
    unfold newOutputs
    rw [(Dict.get?_eq_none_iff _ _).2 hnr]
  · have hf' : f ∉ gs.dep.keys := by rw [← contains_iff]; simpa using hf
    rw [edge_iff, c4, if_neg hf']
    simp

end Verif.Hot
