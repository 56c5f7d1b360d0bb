import Verif.HotExcl
import Verif.HotSpec
import Verif.GraphThm
/-! # The phases of a rebuild and what they pass on to the build loop -/
namespace Verif.Hot
open Verif Verif.Graph

/-! ## Reinterpretation of output dependencies -/

/-- Who is taken as the producer of an output some file depends on. -/
def Producer (oldOut : Graph) (deleted : List String) (m : Dict String) (o : String) : Option String :=
  match m.get? o with
  | some p => some p
  | none => (pars oldOut o).find? (fun p => !deleted.contains p)

theorem producer_set {oldOut : Graph} {deleted : List String} {m : Dict String} {o p : String}
    (hm : m.get? o = none) (hp : (pars oldOut o).find? (fun p => !deleted.contains p) = some p) (x : String) :
    Producer oldOut deleted (m.set o p) x = Producer oldOut deleted m x := by
  unfold Producer
  rw [Dict.get?_set]
  by_cases e : o = x
  · subst e; simp only [if_true]; rw [hm]; exact hp.symm
  · rw [if_neg e]

theorem reinterpDeps_spec {oldOut : Graph} {deleted ds acc : List String} {m m' : Dict String} {res : List String}
    (h : reinterpDeps oldOut deleted ds acc m = .ok (res, m')) :
    (∀ x, x ∈ res ↔ x ∈ acc ∨ (x ∈ ds ∧ isOutput x = false) ∨
      ∃ o ∈ ds, isOutput o = true ∧ Producer oldOut deleted m o = some x) ∧
    (∀ o ∈ ds, isOutput o = true → ∃ p, Producer oldOut deleted m o = some p) ∧
    (∀ o, Producer oldOut deleted m' o = Producer oldOut deleted m o) := by
  induction ds generalizing acc m with
  | nil =>
    simp only [reinterpDeps, Except.ok.injEq, Prod.mk.injEq] at h
    obtain ⟨rfl, rfl⟩ := h
    simp
  | cons d ds ih =>
    simp only [reinterpDeps] at h
    split at h
    · rename_i ho
      simp only [Bool.not_eq_eq_eq_not, Bool.not_true] at ho
      obtain ⟨h1, h2, h3⟩ := ih h
      refine ⟨fun x => ?_, ?_, h3⟩
      · rw [h1 x]
        simp only [List.mem_append, List.mem_cons, List.not_mem_nil, or_false]
        constructor
        · rintro ((h | rfl) | h | ⟨o, h, h'⟩)
          · exact .inl h
          · exact .inr (.inl ⟨.inl rfl, ho⟩)
          · exact .inr (.inl ⟨.inr h.1, h.2⟩)
          · exact .inr (.inr ⟨o, .inr h, h'⟩)
        · rintro (h | ⟨rfl | h, h'⟩ | ⟨o, rfl | h, h'⟩)
          · exact .inl (.inl h)
          · exact .inl (.inr rfl)
          · exact .inr (.inl ⟨h, h'⟩)
          · rw [ho] at h'; simp at h'
          · exact .inr (.inr ⟨o, h, h'⟩)
      · intro o hx hxo
        rcases List.mem_cons.1 hx with rfl | hx
        · rw [ho] at hxo; simp at hxo
        · exact h2 o hx hxo
    · rename_i ho
      simp only [Bool.not_eq_eq_eq_not, Bool.not_true, Bool.not_eq_false] at ho
      have key : ∀ p, Producer oldOut deleted m d = some p → ∀ m1 : Dict String,
          (∀ o, Producer oldOut deleted m1 o = Producer oldOut deleted m o) →
          reinterpDeps oldOut deleted ds (acc ++ [p]) m1 = .ok (res, m') →
          (∀ x, x ∈ res ↔ x ∈ acc ∨ (x ∈ d :: ds ∧ isOutput x = false) ∨
            ∃ o ∈ d :: ds, isOutput o = true ∧ Producer oldOut deleted m o = some x) ∧
          (∀ o ∈ d :: ds, isOutput o = true → ∃ p, Producer oldOut deleted m o = some p) ∧
          (∀ o, Producer oldOut deleted m' o = Producer oldOut deleted m o) := by
        intro p hp m1 hm1 h
        obtain ⟨h1, h2, h3⟩ := ih h
        refine ⟨fun x => ?_, ?_, fun o => (h3 o).trans (hm1 o)⟩
        · rw [h1 x]
          simp only [hm1, List.mem_append, List.mem_cons, List.not_mem_nil, or_false]
          constructor
          · rintro ((h | rfl) | h | ⟨o, h, h'⟩)
            · exact .inl h
            · exact .inr (.inr ⟨d, .inl rfl, ho, hp⟩)
            · exact .inr (.inl ⟨.inr h.1, h.2⟩)
            · exact .inr (.inr ⟨o, .inr h, h'⟩)
          · rintro (h | ⟨rfl | h, h'⟩ | ⟨o, rfl | h, h'⟩)
            · exact .inl (.inl h)
            · rw [ho] at h'; simp at h'
            · exact .inr (.inl ⟨h, h'⟩)
            · rw [hp] at h'; simp only [Option.some.injEq] at h'
              exact .inl (.inr h'.2.symm)
            · exact .inr (.inr ⟨o, h, h'⟩)
        · intro o hx hxo
          rcases List.mem_cons.1 hx with rfl | hx
          · exact ⟨p, hp⟩
          · have := h2 o hx hxo
            simpa only [hm1] using this
      split at h
      · rename_i p hp
        exact key p (by unfold Producer; rw [hp]) m (fun _ => rfl) h
      · rename_i hnone
        split at h
        · simp at h
        · rename_i n hn
          split at h
          · simp at h
          · rename_i p hp
            rw [← pars_of_get? hn] at hp
            exact key p (by unfold Producer; rw [hnone]; exact hp) _ (producer_set hnone hp) h

theorem reinterpAll_spec {oldOut : Graph} {deleted : List String} {rs rs' : List (String × ScanResult)}
    {m m' : Dict String} (h : reinterpAll oldOut deleted rs m = .ok (rs', m')) :
    (∀ f r', (f, r') ∈ rs' → ∃ r, (f, r) ∈ rs ∧ r'.produces = r.produces ∧
      ∀ x, x ∈ r'.dependencies ↔ x ≠ f ∧ ((x ∈ r.dependencies ∧ isOutput x = false) ∨
        ∃ o ∈ r.dependencies, isOutput o = true ∧ Producer oldOut deleted m o = some x)) ∧
    (∀ o, Producer oldOut deleted m' o = Producer oldOut deleted m o) := by
  induction rs generalizing m rs' m' with
  | nil =>
    simp only [reinterpAll, Except.ok.injEq, Prod.mk.injEq] at h
    obtain ⟨rfl, rfl⟩ := h
    simp
  | cons x rs ih =>
    obtain ⟨g, r⟩ := x
    simp only [reinterpAll] at h
    split at h
    · simp at h
    · rename_i ds m1 h1
      split at h
      · simp at h
      · rename_i rest m2 h2
        simp only [Except.ok.injEq, Prod.mk.injEq] at h
        obtain ⟨rfl, rfl⟩ := h
        obtain ⟨a1, a2, a3⟩ := reinterpDeps_spec h1
        obtain ⟨b1, b2⟩ := ih h2
        refine ⟨?_, fun o => (b2 o).trans (a3 o)⟩
        intro f r' hr
        rcases List.mem_cons.1 hr with he | hr
        · simp only [Prod.mk.injEq] at he
          obtain ⟨rfl, rfl⟩ := he
          refine ⟨r, by simp, rfl, ?_⟩
          intro x
          simp only [List.mem_filter, a1 x, decide_eq_true_eq, List.not_mem_nil, false_or]
          exact and_comm
        · obtain ⟨r0, c1, c2, c3⟩ := b1 f r' hr
          refine ⟨r0, by simp [c1], c2, ?_⟩
          intro x
          rw [c3 x]
          simp only [a3]

theorem foldl_set_get? (os : List String) (f : String) (m : Dict String) (o : String) :
    (os.foldl (fun m o => m.set o f) m).get? o = if o ∈ os then some f else m.get? o := by
  induction os generalizing m with
  | nil => simp
  | cons x xs ih =>
    simp only [List.foldl_cons, ih, Dict.get?_set, List.mem_cons]
    by_cases h1 : o ∈ xs
    · simp [h1]
    · by_cases h2 : x = o
      · simp [h2]
      · have : ¬ o = x := fun h => h2 h.symm
        simp [h1, h2, this]

theorem outMapOf_spec (u : Dict ScanResult) (o : String) :
    (outMapOf u).get? o = (u.reverse.find? (fun x => x.2.produces.contains o)).map (·.1) := by
  have key : ∀ (u : List (String × ScanResult)) (m : Dict String),
      (u.foldl (fun m x => x.2.produces.foldl (fun m o => m.set o x.1) m) m).get? o =
        match u.reverse.find? (fun x => x.2.produces.contains o) with
        | some x => some x.1
        | none => m.get? o := by
    intro u
    induction u with
    | nil => intro m; simp
    | cons x u ih =>
      intro m
      rw [List.foldl_cons, ih, List.reverse_cons, List.find?_append]
      generalize List.find? _ u.reverse = z
      cases z with
      | none =>
        simp only [Option.none_or, List.find?_singleton, foldl_set_get?]
        by_cases h : o ∈ x.2.produces <;> simp [h]
      | some y => simp
  unfold outMapOf
  rw [key u []]
  generalize List.find? _ (List.reverse u) = z
  cases z <;> simp

/-! ## The phases -/

/-- A run which got to the build loop. -/
structure Phases (env : Env) (a : Args) (d : Disk) where
  st : ScanState
  updated : List (String × ScanResult)
  outMap : Dict String
  seen : List String
  popped : List String
  work : ¬((modeStep a env.sig d).1.isEmpty && a.added.isEmpty && a.deleted.isEmpty) = true
  hscan : scanLoop env.scan env.sig env.scanFuel ((modeStep a env.sig d).1.keys ++ a.added.keys)
        { updated := [], newPh := [], added := a.added, disk := (modeStep a env.sig d).2 } = (.ok (), st)
  hre : reinterpAll a.old.out a.deleted st.updated (outMapOf st.updated) = .ok (updated, outMap)
  hcl : closure a.old.dep a.old.ph (Dict.keys updated) a.deleted = some (seen, popped)
  herr : firstErr (dependsOnOf a.old updated st.newPh) ((env.order seen).filter (fun f => !a.deleted.contains f)) = none

namespace Phases
variable {env : Env} {a : Args} {d : Disk}

def affected (P : Phases env a d) : List String := (env.order P.seen).filter (fun f => !a.deleted.contains f)
def dO (P : Phases env a d) : List String := insertAll (dirtyOutputs a.old.out P.popped) []
def dA (P : Phases env a d) : List String := env.order (insertAll (dirtyArtifacts a.old.out P.popped) [])
def T (P : Phases env a d) : Tables := tablesOf a.old P.updated P.st.newPh P.affected P.dA
def d1 (P : Phases env a d) : Disk := unlinkLenient P.dO P.st.disk
def init (P : Phases env a d) : Sched := initSched P.T.affected P.outMap P.dO P.T.dirtyArt P.d1
def loop (P : Phases env a d) : Status × Sched := schedLoop P.T env.batches P.init
def result (P : Phases env a d) : Outcome :=
  match P.loop with
  | (.finished, s) => finalize env a (modeStep a env.sig d).1 P.st.added P.st.newPh ((P.dO ++ P.dA).flatMap foldersOf) P.st.updated s
  | (x, s) => ⟨x, s.disk, s.log, none, P.st.updated, P.st.newPh⟩

end Phases

/-- A run either ends before any build is started, without storing graphs, or goes through all the
phases. -/
theorem hotRebuild_cases (env : Env) (a : Args) (d : Disk) :
    ((hotRebuild env a d).log = [] ∧ ((hotRebuild env a d).stored = none ∧ (hotRebuild env a d).status ≠ .waiting) ∧
      ((hotRebuild env a d).status = .finished →
        (hotRebuild env a d).scanned = [] ∧ a.deleted = [] ∧ a.added = [] ∧ (modeStep a env.sig d).1 = [] ∧
        (hotRebuild env a d).disk = (modeStep a env.sig d).2)) ∨
    ∃ P : Phases env a d, hotRebuild env a d = P.result := by
  unfold hotRebuild
  simp only
  split
  · rename_i hw
    left
    simp only [Bool.and_eq_true, List.isEmpty_iff] at hw
    refine ⟨rfl, ⟨rfl, by simp⟩, fun _ => ⟨rfl, hw.2, hw.1.2, hw.1.1, rfl⟩⟩
  · rename_i hw
    split
    · left; simp
    · rename_i st hst
      unfold buildPhase
      split
      · left; simp
      · rename_i updated outMap hre
        split
        · left; simp
        · rename_i seen popped hcl
          simp only
          split
          · left; simp
          · rename_i herr
            right
            refine ⟨⟨st, updated, outMap, seen, popped, hw, hst, hre, hcl, herr⟩, ?_⟩
            rfl

namespace Phases
variable {env : Env} {a : Args} {d : Disk}

theorem result_log (P : Phases env a d) : P.result.log = P.loop.2.log := by
  unfold result
  rcases h : P.loop with ⟨st, s⟩
  cases st with
  | finished => simp only [finalize]; repeat' split
                all_goals rfl
  | waiting => rfl
  | failed e => rfl

theorem result_scanned (P : Phases env a d) : P.result.scanned = P.st.updated := by
  unfold result
  rcases h : P.loop with ⟨st, s⟩
  cases st with
  | finished => simp only [finalize]; repeat' split
                all_goals rfl
  | waiting => rfl
  | failed e => rfl

theorem result_generated (P : Phases env a d) : P.result.generated = P.st.newPh := by
  unfold result
  rcases h : P.loop with ⟨st, s⟩
  cases st with
  | finished => simp only [finalize]; repeat' split
                all_goals rfl
  | waiting => rfl
  | failed e => rfl

theorem result_finished (P : Phases env a d) (h : P.result.status = .finished) : P.loop.1 = .finished := by
  unfold result at h
  rcases hl : P.loop with ⟨st, s⟩
  rw [hl] at h
  cases st with
  | finished => rfl
  | waiting => simp at h
  | failed e => simp at h

theorem updated_keys (P : Phases env a d) : Dict.keys P.updated = P.st.updated.keys := reinterpAll_keys P.hre

theorem scan_nodup (P : Phases env a d) : P.st.updated.NodupKeys :=
  (scanLoop_spec _ _ _ _ _ _ (by simp [Dict.NodupKeys, Dict.keys]) (by simp [Dict.NodupKeys, Dict.keys]) (by simp) P.hscan).1

theorem reach_iff (P : Phases env a d) (hv : ValidGraphs a.old) (x : String) :
    Reach (fun x => pars a.old.dep x ++ pars a.old.ph x) (Dict.keys P.updated ++ a.deleted) x ↔
      Affected a.old (P.st.updated.keys ++ a.deleted) x := by
  rw [P.updated_keys]
  have step : ∀ x y, y ∈ pars a.old.dep x ++ pars a.old.ph x ↔ Uses a.old y x := by
    intro x y
    rw [List.mem_append, hv.dep.wf.mem_pars_iff, hv.ph.wf.mem_pars_iff]
    simp only [Uses, edge_iff]
  constructor
  · intro h
    induction h with
    | seed h => exact .inl h
    | step _ hy ih =>
      rw [step] at hy
      rcases ih with ih | ⟨s, hs, p⟩
      · exact .inr ⟨_, ih, .one hy⟩
      · exact .inr ⟨s, hs, .more hy p⟩
  · rintro (h | ⟨s, hs, p⟩)
    · exact .seed h
    · have : Reach (fun x => pars a.old.dep x ++ pars a.old.ph x) (P.st.updated.keys ++ a.deleted) s := .seed hs
      clear hs
      induction p with
      | one e => exact .step this ((step _ _).2 e)
      | more e _ ih => exact .step (ih this) ((step _ _).2 e)

theorem closure_facts (P : Phases env a d) (hv : ValidGraphs a.old) :
    P.seen.Nodup ∧ (∀ x, x ∈ P.seen ↔ Affected a.old (P.st.updated.keys ++ a.deleted) x) ∧
    (∀ x, x ∈ P.popped ↔ Affected a.old (P.st.updated.keys ++ a.deleted) x) := by
  obtain ⟨s, p, h1, h2, h3, h4⟩ := closure_spec hv.dep.wf hv.ph.wf (Dict.keys P.updated) a.deleted
  have := P.hcl
  rw [h1] at this
  simp only [Option.some.injEq, Prod.mk.injEq] at this
  obtain ⟨e1, e2⟩ := this
  refine ⟨e1 ▸ h2, fun x => ?_, fun x => ?_⟩
  · rw [← e1, h3, P.reach_iff hv]
  · rw [← e2, h4, h3, P.reach_iff hv]

theorem mem_affected (P : Phases env a d) (hv : ValidGraphs a.old) (ho : ValidOrder env) (x : String) :
    x ∈ P.affected ↔ x ∉ a.deleted ∧ Affected a.old (P.st.updated.keys ++ a.deleted) x := by
  unfold affected
  rw [List.mem_filter, (ho _).mem_iff, (P.closure_facts hv).2.1]
  simp [and_comm]

theorem affected_nodup (P : Phases env a d) (hv : ValidGraphs a.old) (ho : ValidOrder env) : P.affected.Nodup :=
  List.Pairwise.filter _ ((ho _).nodup_iff.2 (P.closure_facts hv).1)

theorem mem_dirty (P : Phases env a d) (hv : ValidGraphs a.old) (ho : ValidOrder env) (o : String) :
    (o ∈ P.dO ↔ startsWith o "artifacts" = false ∧ ∃ x, Affected a.old (P.st.updated.keys ++ a.deleted) x ∧ Edge a.old.out x o) ∧
    (o ∈ P.dA ↔ startsWith o "artifacts" = true ∧ ∃ x, Affected a.old (P.st.updated.keys ++ a.deleted) x ∧ Edge a.old.out x o) := by
  have key : o ∈ P.popped.flatMap (kids a.old.out) ↔ ∃ x, Affected a.old (P.st.updated.keys ++ a.deleted) x ∧ Edge a.old.out x o := by
    rw [List.mem_flatMap]
    simp only [(P.closure_facts hv).2.2, edge_iff]
  constructor
  · unfold dO
    rw [(insertAll_spec _ [] (by simp)).2]
    simp only [dirtyOutputs, List.mem_filter, key]
    simp [and_comm]
  · unfold dA
    rw [(ho _).mem_iff, (insertAll_spec _ [] (by simp)).2]
    simp only [dirtyArtifacts, List.mem_filter, key]
    simp [and_comm]

theorem dis (P : Phases env a d) (hv : ValidGraphs a.old) (ho : ValidOrder env) : ∀ o ∈ P.dO, o ∉ P.T.dirtyArt := by
  intro o h1 h2
  have e1 := ((P.mem_dirty hv ho o).1.1 h1).1
  have e2 := ((P.mem_dirty hv ho o).2.1 h2).1
  rw [e1] at e2; simp at e2

theorem base (P : Phases env a d) (hv : ValidGraphs a.old) (ho : ValidOrder env) : Base P.T P.init :=
  base_init (P.affected_nodup hv ho) _ _ _ _

theorem track (P : Phases env a d) (hv : ValidGraphs a.old) (ho : ValidOrder env) : Track P.T P.dO P.d1 P.init :=
  track_init (P.dis hv ho)

theorem creates_iff (P : Phases env a d) (f o : String) :
    o ∈ P.T.creates f ↔ match P.st.updated.get? f with
      | some r => o ∈ r.produces
      | none => Edge a.old.out f o := by
  have hnd := P.scan_nodup
  have hk := P.updated_keys
  show o ∈ createsOf a.old P.updated f ↔ _
  unfold createsOf
  rcases hu : Dict.get? P.updated f with _ | r'
  · have : f ∉ Dict.keys P.updated := (Dict.get?_eq_none_iff _ _).1 hu
    rw [hk] at this
    rw [(Dict.get?_eq_none_iff _ _).2 this]
    simp only [edge_iff]
  · have hm := Dict.mem_of_get? hu
    obtain ⟨r, hr, e, _⟩ := (reinterpAll_spec P.hre).1 f r' hm
    rw [Dict.get?_of_mem hnd hr]
    simp only [e]

theorem producer_eq (P : Phases env a d) (o : String) :
    Producer a.old.out a.deleted (outMapOf P.st.updated) o = producerOf a P.result o := by
  unfold Producer producerOf
  rw [outMapOf_spec, P.result_scanned]
  generalize List.find? _ (List.reverse P.st.updated) = z
  cases z <;> simp

theorem deps_iff (P : Phases env a d) (hv : ValidGraphs a.old) (f g : String) (hf : f ∈ P.affected) :
    g ∈ P.T.deps f ↔ Needs a P.result f g := by
  have hnd := P.scan_nodup
  have hk := P.updated_keys
  have hgen := (scanLoop_spec _ _ _ _ _ _ (by simp [Dict.NodupKeys, Dict.keys]) (by simp [Dict.NodupKeys, Dict.keys]) (by simp) P.hscan)
  have hlook : ∃ l, dependsOnOf a.old P.updated P.st.newPh f = .ok l := by
    have := P.herr
    change firstErr _ P.affected = none at this
    clear hgen
    generalize P.affected = L at this hf
    induction L with
    | nil => simp at hf
    | cons x L ih =>
      unfold firstErr at this
      split at this
      · simp at this
      · rename_i l hl
        rcases List.mem_cons.1 hf with rfl | hf
        · exact ⟨l, hl⟩
        · exact ih this hf
  obtain ⟨l, hl⟩ := hlook
  show g ∈ okOr (dependsOnOf a.old P.updated P.st.newPh f) ↔ _
  rw [hl]
  unfold Needs
  rw [P.result_scanned, P.result_generated]
  unfold dependsOnOf at hl
  rcases hu : Dict.get? P.updated f with _ | r'
  · have hnu : f ∉ Dict.keys P.updated := (Dict.get?_eq_none_iff _ _).1 hu
    rw [hk] at hnu
    rw [(Dict.get?_eq_none_iff _ _).2 hnu]
    have hng : P.st.newPh.get? f = none := by
      rw [Dict.get?_eq_none_iff]
      obtain ⟨new, _, _, h3, h4, _⟩ := hgen.2.2.1
      intro hc
      rw [h4] at hc
      apply hnu
      rw [h3]
      rcases hc with hc | hc
      · simp [Dict.keys] at hc
      · exact .inr (.inr hc)
    rw [hng]
    rw [hu] at hl
    dsimp only at hl ⊢
    split at hl
    · simp at hl
    · rename_i cs hcs
      simp only [Except.ok.injEq] at hl
      subst hl
      have : cs = kids a.old.dep f := by
        rcases hgc : getChildren a.old.dep f with e | l
        · rw [hgc] at hcs; simp [liftQ] at hcs
        · rw [hgc] at hcs
          simp only [liftQ, Except.ok.injEq] at hcs
          rw [← hcs, (getChildren_ok hgc).2]
      subst this
      simp only [okOr, List.mem_append, hv.ph.wf.mem_pars_iff, edge_iff]
  · have hm := Dict.mem_of_get? hu
    obtain ⟨r, hr, e, hdep⟩ := (reinterpAll_spec P.hre).1 f r' hm
    rw [Dict.get?_of_mem hnd hr]
    rw [hu] at hl
    dsimp only at hl ⊢
    simp only [P.producer_eq] at hdep
    rcases hng : P.st.newPh.get? f with _ | p
    · rw [hng] at hl
      simp only [Except.ok.injEq] at hl
      subst hl
      simp only [okOr, List.mem_append, hv.ph.wf.mem_pars_iff, edge_iff, hdep]
    · rw [hng] at hl
      simp only [Except.ok.injEq] at hl
      subst hl
      simp only [okOr, List.mem_append, hdep, List.mem_singleton]

end Phases

end Verif.Hot
