import Verif.HotTotal
import Verif.HotDirs
/-!
# C57: a rebuild succeeds

When scans and builds succeed and say what they do, the rebuild itself does not raise. -/
namespace Verif.Hot
open Verif Verif.Graph

/-! ## Specification -/

/-- `x` generated the placeholder `y`, in an earlier build or in this one. -/
def Generates (a : Args) (out : Outcome) (x y : String) : Prop :=
  Edge a.old.ph x y ∨ out.generated.get? y = some x

/-- `x` is a source file of the project after the run. -/
def Current (a : Args) (out : Outcome) (x : String) : Prop :=
  x ∉ a.deleted ∧ (Rebuilt a out x ∨ contains a.old.dep x = true)

/-- What the previous build left: the files it recorded are sources, what it recorded as made from
them are outputs, the folders of those exist and so do the artifacts, and a file generated at most
one placeholder, which is not itself a generator. -/
structure SoundHistory (old : Graphs) (d : Disk) : Prop where
  sources : ∀ x, contains old.dep x = true → contains old.out x = true ∧ isOutput x = false
  makers : ∀ x o, Edge old.out x o → contains old.dep x = true ∧ isOutput o = true
  generators : ∀ x y, Edge old.ph x y → contains old.dep x = true
  folders : ∀ x o, Edge old.out x o → ∀ p ∈ foldersOf o, p ∈ d.dirs
  artifacts : ∀ x o, Edge old.out x o → startsWith o "artifacts" = true → o ∈ d.files
  one : ∀ x y z, Edge old.ph x y → Edge old.ph x z → y = z

/-- `f` may have to be scanned: it was changed or added, or it is the file with the constants or a
placeholder some scan asks for. -/
def MayScan (env : Env) (a : Args) (d : Disk) (f : String) : Prop :=
  f ∈ a.changed.keys ∨ f ∈ a.added.keys ∨ (f = a.constants ∧ f ∈ d.files) ∨ ∃ dk g r, env.scan dk g = .ok r ∧ f ∈ r.placeholders

/-- Every scan succeeds; only finitely many placeholders are ever asked for; what is scanned is a
source which was not deleted and what it announces are outputs; an output it depends on is made by
some file; and no placeholder generates one. -/
structure GoodScans (env : Env) (a : Args) (d : Disk) (out : Outcome) : Prop where
  succeed : ∀ dk f, MayScan env a d f → ∃ r, env.scan dk f = .ok r
  finite : ∃ places : List String, places.length < env.scanFuel ∧
    ∀ dk f r, env.scan dk f = .ok r → ∀ p ∈ r.placeholders, p ∈ places
  sources : ∀ x ∈ out.scanned.keys, isOutput x = false ∧ x ∉ a.deleted
  outputs : ∀ x ∈ out.scanned, ∀ o ∈ x.2.produces, isOutput o = true
  made : ∀ x ∈ out.scanned, ∀ o ∈ x.2.dependencies, isOutput o = true → ∃ p, producerOf a out o = some p
  flat : ∀ x y z, Generates a out x y → ¬ Generates a out y z

/-- The build of `f` may name the output `c`: a scan of this run mentions it, or `f` was not scanned
and one of the files recorded below it, or itself, was recorded as making it. -/
def MayName (a : Args) (out : Outcome) (f c : String) : Prop :=
  (∃ x ∈ out.scanned, c ∈ x.2.produces ∨ c ∈ x.2.dependencies) ∨
  (f ∉ out.scanned.keys ∧ ∃ p, (p = f ∨ DependsOn a.old.dep f p) ∧ Edge a.old.out p c)

/-- Each build which came to an end made what was announced, each output once, and named as children
only files of the project it needs, directly or not, or outputs of such; what it reused was there to be
reused. -/
structure GoodResults (a : Args) (d : Disk) (out : Outcome) : Prop where
  honest : ∀ f r, Event.finished f r ∈ out.log →
    (∀ o, o ∈ r.produced ++ r.reused ↔ Announced a out f o) ∧ (r.produced ++ r.reused).Nodup
  sources : ∀ f r, Event.finished f r ∈ out.log → ∀ c ∈ r.children, isOutput c = false →
    Current a out c ∧ Path (Needs a out) f c
  outputs : ∀ f r, Event.finished f r ∈ out.log → ∀ c ∈ r.children, isOutput c = true →
    MayName a out f c ∧ ∀ p, MadeBy a out c p → p = f ∨ (Current a out p ∧ Path (Needs a out) f p)
  reused : ∀ f r, Event.finished f r ∈ out.log → ∀ o ∈ r.reused,
    (o ∈ d.files ∧ (WasOutput a out o → startsWith o "artifacts" = true)) ∨ ∃ f' r', Event.finished f' r' ∈ out.log ∧ o ∈ r'.produced

/-- Moreover no build raises. -/
structure GoodBuilds (env : Env) (a : Args) (d : Disk) (out : Outcome) : Prop extends GoodResults a d out where
  succeed : ∀ b ∈ env.batches, ∀ f e, b f ≠ some (.error e)

/-- The build of `f` was started and raised. -/
def Raised (env : Env) (out : Outcome) (f : String) : Prop :=
  Event.started f ∈ out.log ∧ (∀ r, Event.finished f r ∉ out.log) ∧ ∃ b ∈ env.batches, ∃ e, b f = some (.error e)

/-! ## Scanning -/

theorem scanFiles_total {scan : Scanner} (d : Disk) (fs : List String) (hs : ∀ f ∈ fs, ∃ r, scan d f = .ok r) :
    ∃ rs, scanFiles scan d fs = .ok rs := by
  induction fs with
  | nil => exact ⟨[], rfl⟩
  | cons f fs ih =>
    obtain ⟨r, hr⟩ := hs f (by simp)
    obtain ⟨rs, hrs⟩ := ih (fun x hx => hs x (by simp [hx]))
    exact ⟨(f, r) :: rs, by simp only [scanFiles, hr, hrs]⟩

theorem filter_length_lt {l : List String} {p q : String → Bool} (h : ∀ x ∈ l, q x = true → p x = true) {x : String}
    (hx : x ∈ l) (hp : p x = true) (hq : q x = false) : (l.filter q).length < (l.filter p).length := by
  induction l with
  | nil => simp at hx
  | cons y l ih =>
    have hle : (l.filter q).length ≤ (l.filter p).length := by
      rw [← List.countP_eq_length_filter, ← List.countP_eq_length_filter]
      exact List.countP_mono_left (fun z hz => h z (by simp [hz]))
    rcases List.mem_cons.1 hx with rfl | hx
    · simp only [List.filter_cons, hp, hq]; simp; omega
    · have := ih (fun z hz => h z (by simp [hz])) hx
      simp only [List.filter_cons]
      cases hqy : q y with
      | false => cases p y <;> simp <;> omega
      | true => rw [h y (by simp) hqy]; simp; omega

theorem scanLoop_total {scan : Scanner} {sig : String → Sig} {May : String → Prop} (hs : ∀ d f, May f → ∃ r, scan d f = .ok r)
    (hm : ∀ d f r, scan d f = .ok r → ∀ p ∈ r.placeholders, May p) {places : List String}
    (hp : ∀ d f r, scan d f = .ok r → ∀ p ∈ r.placeholders, p ∈ places) (n : Nat) (fs : List String) (st : ScanState)
    (hfs : ∀ f ∈ fs, May f) (hn : (places.filter (fun p => !st.disk.files.contains p)).length < n) :
    ∃ st', scanLoop scan sig n fs st = (.ok (), st') := by
  induction n generalizing fs st with
  | zero => omega
  | succ n ih =>
    cases fs with
    | nil => exact ⟨st, rfl⟩
    | cons f fs =>
      obtain ⟨rs, hrs⟩ := scanFiles_total st.disk (f :: fs) (fun x hx => hs _ _ (hfs x hx))
      obtain ⟨k0, k2⟩ := scanFiles_keys hrs
      simp only [scanLoop, hrs]
      have k3 : ∀ y ∈ updateAll rs [], scan st.disk y.1 = .ok y.2 := by
        intro y hy
        have hnd' : (updateAll rs []).NodupKeys := nodup_updateAll rs (by simp [Dict.NodupKeys, Dict.keys])
        rcases mem_updateAll rs [] y.1 y.2 (Dict.get?_of_mem hnd' hy) with h | h
        · exact k2 y h
        · simp at h
      obtain ⟨a1, a2, _, _, a5, _⟩ := makeAll_spec sig (updateAll rs []) { st with updated := updateAll (updateAll rs []) st.updated }
      generalize hr : makeAll sig (updateAll rs []) { st with updated := updateAll (updateAll rs []) st.updated } = r at *
      obtain ⟨st1, new⟩ := r
      dsimp only at *
      cases new with
      | nil => cases n <;> exact ⟨st1, rfl⟩
      | cons x new =>
        refine ih _ _ (fun z hz => ?_) ?_
        · obtain ⟨_, _, y, hy, q3⟩ := a5 z hz
          exact hm _ _ _ (k3 y hy) z q3
        obtain ⟨q1, q2, y, hy, q3⟩ := a5 x (by simp)
        have := filter_length_lt (l := places) (p := fun p => !st.disk.files.contains p)
          (q := fun p => !st1.disk.files.contains p) (x := x) (by
            intro z hz hq
            rw [a2] at hq
            simp at hq ⊢
            exact hq.1) (hp _ _ _ (k3 y hy) x q3) (by simpa using q1) (by rw [a2]; simp)
        omega

theorem reinterpDeps_total {oo : Graph} {dl ds acc : List String} {m : Dict String}
    (h : ∀ o ∈ ds, isOutput o = true → ∃ p, Producer oo dl m o = some p) :
    ∃ r, reinterpDeps oo dl ds acc m = .ok r := by
  induction ds generalizing acc m with
  | nil => exact ⟨_, rfl⟩
  | cons d ds ih =>
    simp only [reinterpDeps]
    by_cases hd : isOutput d = true
    · rw [if_neg (by simp [hd])]
      obtain ⟨p, hp⟩ := h d (by simp) hd
      rcases hm : m.get? d with _ | q
      · dsimp only
        unfold Producer at hp
        rw [hm] at hp
        dsimp only at hp
        rcases hg : oo.get? d with _ | n
        · rw [pars_of_none hg] at hp; simp at hp
        · dsimp only
          rw [pars_of_get? hg] at hp
          rw [hp]
          dsimp only
          refine ih (fun o ho hi => ?_)
          rw [producer_set hm (by rw [pars_of_get? hg]; exact hp)]
          exact h o (by simp [ho]) hi
      · exact ih (fun o ho hi => h o (by simp [ho]) hi)
    · rw [if_pos (by simp [hd])]
      exact ih (fun o ho hi => h o (by simp [ho]) hi)

theorem reinterpAll_total {oo : Graph} {dl : List String} {rs : List (String × ScanResult)} {m : Dict String}
    (h : ∀ x ∈ rs, ∀ o ∈ x.2.dependencies, isOutput o = true → ∃ p, Producer oo dl m o = some p) :
    ∃ r, reinterpAll oo dl rs m = .ok r := by
  induction rs generalizing m with
  | nil => exact ⟨_, rfl⟩
  | cons x rs ih =>
    obtain ⟨f, r⟩ := x
    obtain ⟨⟨ds, m1⟩, h1⟩ := reinterpDeps_total (acc := []) (h (f, r) (by simp))
    have hpr := (reinterpDeps_spec h1).2.2
    obtain ⟨⟨rest, m2⟩, h2⟩ := ih (m := m1) (fun y hy o ho hi => by rw [hpr]; exact h y (by simp [hy]) o ho hi)
    exact ⟨_, by simp only [reinterpAll, h1, h2]; rfl⟩

/-! ## Looking for the maker of an output -/

theorem pushUnseenDeps_spec (cs st seen U : List String) (hc : ∀ c ∈ cs, c ∈ U) :
    (∀ x, x ∈ (pushUnseenDeps cs st seen).1 ↔ x ∈ st ∨ (x ∈ cs ∧ x ∉ seen)) ∧
    (∀ x, x ∈ (pushUnseenDeps cs st seen).2 ↔ x ∈ seen ∨ x ∈ cs) ∧
    (pushUnseenDeps cs st seen).1.length + (U.filter (fun x => !(pushUnseenDeps cs st seen).2.contains x)).length ≤
      st.length + (U.filter (fun x => !seen.contains x)).length := by
  induction cs generalizing st seen with
  | nil => simp [pushUnseenDeps]
  | cons c cs ih =>
    have hc' : ∀ x ∈ cs, x ∈ U := fun x hx => hc x (by simp [hx])
    simp only [pushUnseenDeps]
    by_cases h : seen.contains c = true
    · rw [if_pos h]
      have hcs : c ∈ seen := by simpa using h
      obtain ⟨h1, h2, h3⟩ := ih st seen hc'
      refine ⟨fun x => ?_, fun x => ?_, h3⟩
      · rw [h1, List.mem_cons]
        constructor
        · rintro (h | ⟨h, h'⟩)
          · exact .inl h
          · exact .inr ⟨.inr h, h'⟩
        · rintro (h | ⟨rfl | h, h'⟩)
          · exact .inl h
          · exact absurd hcs h'
          · exact .inr ⟨h, h'⟩
      · rw [h2, List.mem_cons]
        constructor
        · rintro (h | h)
          · exact .inl h
          · exact .inr (.inr h)
        · rintro (h | rfl | h)
          · exact .inl h
          · exact .inl hcs
          · exact .inr h
    · rw [if_neg h]
      have hcs : c ∉ seen := by simpa using h
      obtain ⟨h1, h2, h3⟩ := ih (c :: st) (c :: seen) hc'
      refine ⟨fun x => ?_, fun x => ?_, Nat.le_trans h3 ?_⟩
      · rw [h1]
        simp only [List.mem_cons, not_or]
        constructor
        · rintro ((rfl | h) | ⟨h, h', h''⟩)
          · exact .inr ⟨.inl rfl, hcs⟩
          · exact .inl h
          · exact .inr ⟨.inr h, h''⟩
        · rintro (h | ⟨rfl | h, h'⟩)
          · exact .inl (.inr h)
          · exact .inl (.inl rfl)
          · by_cases e : x = c
            · exact .inl (.inl e)
            · exact .inr ⟨h, e, h'⟩
      · rw [h2]
        simp only [List.mem_cons]
        tauto
      · have := filter_length_lt (l := U) (p := fun x => !seen.contains x) (q := fun x => !(c :: seen).contains x) (x := c)
          (by intro z _ hq; simp at hq ⊢; exact hq.2) (hc c (by simp)) (by simpa using hcs) (by simp)
        simp only [List.length_cons]
        omega

theorem innerSearch_total {T : Tables} {child f0 p : String} (hw : WF T.oldDep)
    (hk : ∀ x ∈ T.oldDep.keys, x ∈ T.oldOut.keys) (hp : p = f0 ∨ Path (Edge T.oldDep) f0 p) (hpc : child ∈ kids T.oldOut p)
    (n : Nat) (st seen : List String) (hst : ∀ x ∈ st, x ∈ T.oldDep.keys)
    (hinv : ∀ x, x = f0 ∨ x ∈ seen → x ∈ st ∨ (child ∉ kids T.oldOut x ∧ ∀ y ∈ kids T.oldDep x, y ∈ seen))
    (hn : st.length + (T.oldDep.keys.filter (fun x => !seen.contains x)).length ≤ n) :
    ∃ q, innerSearch T child n st seen = .ok (some q) := by
  induction n generalizing st seen with
  | zero =>
    cases st with
    | cons x st => simp at hn
    | nil =>
      exfalso
      have hall : ∀ a b, Path (Edge T.oldDep) a b → (a = f0 ∨ a ∈ seen) → b ∈ seen := by
        intro a b h
        induction h with
        | one e => intro ha; exact ((hinv _ ha).resolve_left (by simp)).2 _ ((edge_iff _ _ _).1 e)
        | more e _ ih => intro ha; exact ih (.inr (((hinv _ ha).resolve_left (by simp)).2 _ ((edge_iff _ _ _).1 e)))
      have : p = f0 ∨ p ∈ seen := hp.imp id (fun h => hall _ _ h (.inl rfl))
      exact ((hinv p this).resolve_left (by simp)).1 hpc
  | succ n ih =>
    cases st with
    | nil =>
      exfalso
      have hall : ∀ a b, Path (Edge T.oldDep) a b → (a = f0 ∨ a ∈ seen) → b ∈ seen := by
        intro a b h
        induction h with
        | one e => intro ha; exact ((hinv _ ha).resolve_left (by simp)).2 _ ((edge_iff _ _ _).1 e)
        | more e _ ih => intro ha; exact ih (.inr (((hinv _ ha).resolve_left (by simp)).2 _ ((edge_iff _ _ _).1 e)))
      have : p = f0 ∨ p ∈ seen := hp.imp id (fun h => hall _ _ h (.inl rfl))
      exact ((hinv p this).resolve_left (by simp)).1 hpc
    | cons f st =>
      have hf := hst f (by simp)
      obtain ⟨nd, hnd⟩ := exists_node_of_mem hf
      obtain ⟨no, hno⟩ := exists_node_of_mem (hk f hf)
      have g1 : liftQ (getChildren T.oldOut f) = .ok (kids T.oldOut f) := by simp [getChildren, hno, liftQ, kids]
      have g2 : liftQ (getChildren T.oldDep f) = .ok (kids T.oldDep f) := by simp [getChildren, hnd, liftQ, kids]
      simp only [innerSearch, g1, g2]
      by_cases hc : (kids T.oldOut f).contains child = true
      · rw [if_pos hc]; exact ⟨f, rfl⟩
      · rw [if_neg hc]
        have hc' : child ∉ kids T.oldOut f := by simpa using hc
        obtain ⟨s1, s2, s3⟩ := pushUnseenDeps_spec (kids T.oldDep f) st seen T.oldDep.keys (fun c hc => hw.mem_keys_of_kid hc)
        refine ih _ _ (fun x hx => ?_) (fun x hx => ?_) ?_
        · rw [s1] at hx
          rcases hx with hx | hx
          · exact hst x (by simp [hx])
          · exact hw.mem_keys_of_kid hx.1
        · rw [s1]
          simp only [s2] at hx ⊢
          by_cases e : x = f
          · subst e
            exact .inr ⟨hc', fun y hy => .inr hy⟩
          · have hcase : x = f0 ∨ x ∈ seen → (x ∈ st ∨ (x ∈ kids T.oldDep f ∧ x ∉ seen)) ∨
                (child ∉ kids T.oldOut x ∧ ∀ y ∈ kids T.oldDep x, y ∈ seen ∨ y ∈ kids T.oldDep f) := by
              intro h
              rcases hinv x h with h | ⟨h, h'⟩
              · rcases List.mem_cons.1 h with h | h
                · exact absurd h e
                · exact .inl (.inl h)
              · exact .inr ⟨h, fun y hy => .inl (h' y hy)⟩
            rcases hx with hx | hx | hx
            · exact hcase (.inl hx)
            · exact hcase (.inr hx)
            · by_cases hs : x ∈ seen
              · exact hcase (.inr hs)
              · exact .inl (.inr ⟨hx, hs⟩)
        · simp only [List.length_cons] at hn
          omega

theorem reinterpChildren_total {T : Tables} {f : String} {cs acc : List String} {m : Dict String} (hw : WF T.oldDep)
    (hk : ∀ x ∈ T.oldDep.keys, x ∈ T.oldOut.keys)
    (h : ∀ c ∈ cs, isOutput c = false ∨ c ∈ m.keys ∨ (T.scanned f = false ∧ f ∈ T.oldDep.keys ∧
      ∃ p, (p = f ∨ Path (Edge T.oldDep) f p) ∧ c ∈ kids T.oldOut p)) :
    ∃ r, reinterpChildren T f cs acc m = .ok r := by
  induction cs generalizing acc m with
  | nil => exact ⟨_, rfl⟩
  | cons c cs ih =>
    simp only [reinterpChildren]
    rcases hg : m.get? c with _ | p
    · dsimp only
      by_cases hc : isOutput c = true
      · rw [if_pos hc]
        rcases h c (by simp) with h1 | h1 | ⟨h1, h2, p, h3, h4⟩
        · rw [hc] at h1; simp at h1
        · exact absurd h1 ((Dict.get?_eq_none_iff _ _).1 hg)
        · rw [if_neg (by simp [h1])]
          obtain ⟨q, hq⟩ := innerSearch_total (f0 := f) hw hk h3 h4 (T.oldDep.length + 2) [f] [] (by simpa using h2)
            (by intro x hx; simp at hx; simp [hx]) (by
              have := List.length_filter_le (fun x => !([] : List String).contains x) T.oldDep.keys
              simp only [Dict.keys, List.length_map, List.length_singleton] at this ⊢
              omega)
          rw [hq]
          dsimp only
          refine ih (fun x hx => (h x (by simp [hx])).imp id (fun h => h.imp (fun h => ?_) id))
          exact (Dict.mem_keys_set _ _ _ _).2 (.inr h)
      · rw [if_neg hc]
        exact ih (fun x hx => h x (by simp [hx]))
    · exact ih (fun x hx => h x (by simp [hx]))

/-! ## Cleaning up -/

theorem unlinkStrict_total {fs : List String} {d : Disk} (hn : fs.Nodup) (h : ∀ f ∈ fs, f ∈ d.files) :
    ∃ d', unlinkStrict fs d = (.ok (), d') := by
  induction fs generalizing d with
  | nil => exact ⟨d, rfl⟩
  | cons f fs ih =>
    rw [List.nodup_cons] at hn
    simp only [unlinkStrict]
    rw [if_pos (by simpa using h f (by simp))]
    refine ih hn.2 (fun x hx => ?_)
    rw [mem_del]
    exact ⟨h x (by simp [hx]), by rintro rfl; exact hn.1 hx⟩

theorem removeEmptyDirs_total {ps : List String} {d : Disk} (hn : ps.Nodup) (h : ∀ p ∈ ps, p ∈ d.dirs) :
    ∃ d', removeEmptyDirs ps d = (.ok (), d') := by
  induction ps generalizing d with
  | nil => exact ⟨d, rfl⟩
  | cons f fs ih =>
    rw [List.nodup_cons] at hn
    simp only [removeEmptyDirs]
    rw [if_pos (by simpa using h f (by simp))]
    split
    · refine ih hn.2 (fun x hx => ?_)
      rw [mem_del]
      exact ⟨h x (by simp [hx]), by rintro rfl; exact hn.1 hx⟩
    · exact ih hn.2 (fun x hx => h x (by simp [hx]))

theorem insertByLen_perm (p : String) (l : List String) : (insertByLen p l).Perm (p :: l) := by
  induction l with
  | nil => exact .refl _
  | cons q l ih =>
    simp only [insertByLen]
    split
    · exact .refl _
    · exact (ih.cons q).trans (.swap _ _ _)

theorem sortByLen_nodup {l : List String} (h : l.Nodup) : (sortByLen l).Nodup := by
  have key : ∀ (l acc : List String), (l ++ acc).Nodup → (l.foldl (fun acc p => insertByLen p acc) acc).Nodup := by
    intro l
    induction l with
    | nil => intro acc h; simpa using h
    | cons p l ih =>
      intro acc h
      simp only [List.foldl_cons]
      refine ih _ ?_
      have h1 : (l ++ insertByLen p acc).Perm (p :: l ++ acc) :=
        ((insertByLen_perm p acc).append_left l).trans List.perm_middle
      exact h1.nodup_iff.2 h
  unfold sortByLen
  exact key l [] (by simpa using h)

theorem settleAll_art {T : Tables} {os : List String} {d d' : Dirty} (h : settleAll T os d = .ok d') :
    d'.stillArt.Sublist d.stillArt := by
  induction os generalizing d with
  | nil => simp only [settleAll, Except.ok.injEq] at h; subst h; exact .refl _
  | cons o os ih =>
    simp only [settleAll] at h
    split at h
    · simp at h
    · rename_i d1 h1
      refine (ih h).trans ?_
      unfold settle at h1
      repeat' split at h1
      all_goals simp only [Except.ok.injEq, reduceCtorEq] at h1
      all_goals subst h1
      all_goals first
        | exact .refl _
        | exact List.filter_sublist

theorem steps_art {T ok s s'} (hs : Steps T ok s s') : s'.stillArt.Sublist s.stillArt := by
  induction hs with
  | refl => exact .refl _
  | tail _ q ih =>
    refine List.Sublist.trans ?_ ih
    cases q with
    | @start f hf hd ho => exact .refl _
    | @finish f r _ hf hok he =>
      obtain ⟨cs, m, dd, _, h2, e⟩ := finish_ok he
      rw [e]
      exact settleAll_art h2

theorem steps_returned {T ok s s'} (hs : Steps T ok s s') (h0 : s.log = []) :
    ∀ f r, Event.finished f r ∈ s'.log → ok f r := by
  induction hs with
  | refl => simp [h0]
  | tail _ q ih =>
    intro f r h
    cases q with
    | @start g hg hd ho => exact ih f r (by simpa [startOne] using h)
    | @finish g r' _ hf hok he =>
      obtain ⟨cs, m, dd, _, _, e⟩ := finish_ok he
      rw [e] at h
      simp only [List.mem_append, List.mem_singleton, Event.finished.injEq] at h
      rcases h with h | ⟨rfl, rfl⟩
      · exact ih f r h
      · exact hok

/-- What is in the log was returned by some build. -/
theorem logged_returned {env : Env} {a : Args} {d : Disk} (hv : ValidGraphs a.old) (ho : ValidOrder env) {f : String} {r : BuildResult}
    (h : Event.finished f r ∈ (hotRebuild env a d).log) : Returned env f r := by
  rcases hotRebuild_cases env a d with ⟨h1, _⟩ | ⟨P, hP⟩
  · rw [h1] at h; simp at h
  · rw [hP] at h
    obtain ⟨s1, q1, q2⟩ := P.log_form hv ho
    have q3 := steps_returned q1 (rfl : P.init.log = [])
    rcases q2 with q2 | ⟨g, r', _, hr, q2⟩
    · rw [q2] at h; exact q3 f r h
    · rw [q2] at h
      simp only [List.mem_append, List.mem_singleton, Event.finished.injEq] at h
      rcases h with h | ⟨rfl, rfl⟩
      · exact q3 f r h
      · exact hr

/-! ## The whole run -/

theorem buildPhase_scanned (env : Env) (a : Args) (c : Dict Sig) (st : ScanState) :
    (buildPhase env a c st).scanned = st.updated ∧ (buildPhase env a c st).generated = st.newPh := by
  unfold buildPhase
  split
  · exact ⟨rfl, rfl⟩
  · split
    · exact ⟨rfl, rfl⟩
    · dsimp only
      split
      · exact ⟨rfl, rfl⟩
      · split
        · unfold finalize
          repeat' split
          all_goals exact ⟨rfl, rfl⟩
        · exact ⟨rfl, rfl⟩

theorem firstErr_total {g : String → Except Err (List String)} {fs : List String} (h : ∀ f ∈ fs, ∃ l, g f = .ok l) :
    firstErr g fs = none := by
  induction fs with
  | nil => rfl
  | cons f fs ih =>
    obtain ⟨l, hl⟩ := h f (by simp)
    simp only [firstErr, hl]
    exact ih (fun x hx => h x (by simp [hx]))

/-- Under the conditions on scans a run either has nothing to do or gets to the builds. -/
theorem gets_to_builds {env : Env} {a : Args} {d : Disk} (hv : ValidGraphs a.old) (ho : ValidOrder env)
    (H : SoundHistory a.old d) (S : GoodScans env a d (hotRebuild env a d)) :
    (hotRebuild env a d).status = .finished ∨ ∃ P : Phases env a d, hotRebuild env a d = P.result := by
  by_cases hwk : ((modeStep a env.sig d).1.isEmpty && a.added.isEmpty && a.deleted.isEmpty) = true
  · left
    unfold hotRebuild
    simp only
    rw [if_pos hwk]
  · right
    obtain ⟨places, hlen, hpl⟩ := S.finite
    obtain ⟨st, hst⟩ := scanLoop_total (sig := env.sig) S.succeed (fun dk g r h p hp => .inr (.inr (.inr ⟨dk, g, r, h, hp⟩)))
      hpl env.scanFuel ((modeStep a env.sig d).1.keys ++ a.added.keys)
      { updated := [], newPh := [], added := a.added, disk := (modeStep a env.sig d).2 } (by
        intro f hf
        rcases List.mem_append.1 hf with hf | hf
        · have h2 := (Dict.get?_isSome_iff (modeStep a env.sig d).1 f).2 hf
          rw [modeStep_get?] at h2
          split at h2
          · next hh => exact .inr (.inr (.inl ⟨hh.1, hh.2.1⟩))
          · exact .inl ((Dict.get?_isSome_iff _ _).1 h2)
        · exact .inr (.inl hf))
      (Nat.lt_of_le_of_lt (List.length_filter_le _ _) hlen)
    have heq : hotRebuild env a d = buildPhase env a (modeStep a env.sig d).1 st := by
      conv => lhs; unfold hotRebuild
      simp only
      rw [if_neg hwk, hst]
    have hsc : (hotRebuild env a d).scanned = st.updated := by rw [heq]; exact (buildPhase_scanned _ _ _ _).1
    have hpr : ∀ o, Producer a.old.out a.deleted (outMapOf st.updated) o = producerOf a (hotRebuild env a d) o := by
      intro o
      unfold Producer producerOf
      rw [outMapOf_spec, hsc]
      generalize List.find? _ (List.reverse st.updated) = z
      cases z <;> simp
    obtain ⟨⟨updated, outMap⟩, hre⟩ := reinterpAll_total (oo := a.old.out) (dl := a.deleted) (rs := st.updated) (m := outMapOf st.updated) (by
      intro x hx o hom hi
      rw [hpr]
      exact S.made x (by rw [hsc]; exact hx) o hom hi)
    obtain ⟨seen, popped, hcl, _, hseen, _⟩ := closure_spec hv.dep.wf hv.ph.wf (Dict.keys updated) a.deleted
    have herr : firstErr (dependsOnOf a.old updated st.newPh) ((env.order seen).filter (fun f => !a.deleted.contains f)) = none := by
      refine firstErr_total (fun f hf => ?_)
      rw [List.mem_filter, (ho _).mem_iff, hseen] at hf
      obtain ⟨hf, hdel⟩ := hf
      have hkey : ∀ x, Reach (fun x => pars a.old.dep x ++ pars a.old.ph x) (Dict.keys updated ++ a.deleted) x →
          x ∈ Dict.keys updated ++ a.deleted ∨ x ∈ a.old.dep.keys := by
        intro x hx
        induction hx with
        | seed h => exact .inl h
        | step _ hy _ =>
          right
          rcases List.mem_append.1 hy with hy | hy
          · exact hv.dep.wf.mem_keys_of_par hy
          · exact (contains_iff _ _).1 (H.generators _ _ ((edge_iff _ _ _).2 ((hv.ph.wf.mem_pars_iff _ _).1 hy)))
      unfold dependsOnOf
      rcases hu : Dict.get? updated f with _ | r
      · dsimp only
        have hfk : f ∈ a.old.dep.keys := by
          rcases hkey f hf with h | h
          · rcases List.mem_append.1 h with h | h
            · exact absurd h ((Dict.get?_eq_none_iff _ _).1 hu)
            · simp [h] at hdel
          · exact h
        obtain ⟨nd, hnd⟩ := exists_node_of_mem hfk
        simp [getChildren, hnd, liftQ]
      · dsimp only
        split <;> exact ⟨_, rfl⟩
    let P : Phases env a d := ⟨st, updated, outMap, seen, popped, hwk, hst, hre, hcl, herr⟩
    exact ⟨P, P.eq⟩

theorem rebuilt_source {env : Env} {a : Args} {d : Disk} (H : SoundHistory a.old d)
    (S : GoodScans env a d (hotRebuild env a d)) {f : String} (h : Rebuilt a (hotRebuild env a d) f) :
    isOutput f = false ∧ (f ∈ (hotRebuild env a d).scanned.keys ∨ contains a.old.dep f = true) := by
  obtain ⟨h1, h2 | ⟨s, hs, p⟩⟩ := h
  · unfold touchedSources at h2
    rcases List.mem_append.1 h2 with h2 | h2
    · exact ⟨(S.sources f h2).1, .inl h2⟩
    · exact absurd h2 h1
  · have hk : contains a.old.dep f = true := by
      have key : ∀ x y, Uses a.old x y → contains a.old.dep x = true := by
        rintro x y (⟨cs, hcs, _⟩ | h)
        · exact (contains_iff _ _).2 (getChildren_ok hcs).1
        · exact H.generators x y h
      cases p with
      | one e => exact key _ _ e
      | more e _ => exact key _ _ e
    exact ⟨(H.sources f hk).2, .inr hk⟩

/-- The steps are those of results which are in the log. -/
theorem Steps.logged {T ok} {s s' : Sched} (h : Steps T ok s s') {L : List Event} (hL : ∀ e ∈ s'.log, e ∈ L) :
    Steps T (fun f r => Event.finished f r ∈ L) s s' := by
  induction h with
  | refl => exact .refl
  | @tail s1 s2 h1 h2 ih =>
    cases h2 with
    | @start f hf hd ho => exact .tail (ih (fun e he => hL e (by simp [startOne, he]))) (.start hf hd ho)
    | @finish f r _ hf hok he =>
      obtain ⟨cs, m, dd, _, _, e⟩ := finish_ok he
      exact .tail (ih (fun x hx => hL x (by rw [e]; simp [hx]))) (.finish hf (hL _ (by rw [e]; simp)) he)

/-- The build loop ends with everything built, unless a build raised. -/
theorem loop_finishes {env : Env} {a : Args} {d : Disk} (hv : ValidGraphs a.old) (ho : ValidOrder env)
    (H : SoundHistory a.old d) (P : Phases env a d) (B : GoodResults a d P.result)
    (hac : ∀ f, ¬ Path (Needs a P.result) f f) (hw : P.result.status ≠ .waiting) :
    (∃ f, Raised env P.result f) ∨
    ∃ s1, Steps P.T (Returned env) P.init s1 ∧ P.loop = (.finished, s1) ∧ s1.todo = [] ∧ s1.running = [] := by
  have hh' : ∀ f r, Event.finished f r ∈ P.result.log → Honest P.T f r := fun f r hr =>
    ⟨fun o => ((B.honest f r hr).1 o).trans (P.announced_iff f o).symm, (B.honest f r hr).2⟩
  obtain ⟨s1, h1, hc⟩ := P.run hv ho
  have hin : ∀ e ∈ s1.log, e ∈ P.result.log := by
    intro e he
    rw [P.result_log]
    rcases hc with ⟨_, h, _⟩ | ⟨_, h⟩ | ⟨_, h, _⟩ | ⟨_, _, h | ⟨f, r, _, _, h⟩⟩
    · rw [h]; exact he
    · rw [h]; exact he
    · rw [h]; exact he
    · rw [h.1]; exact he
    · rw [(finish_err h).1]; simp [he]
  have h1' := h1.logged hin
  have hb := (P.base hv ho).steps h1
  have ht := (P.track hv ho).steps h1
  have hheld := held_init.steps (P.base hv ho) (P.track hv ho) hh' h1'
  have hx := (excl_steps (P.base hv ho) (P.track hv ho) excl_init
    (by intro pre post h f g _ hf; simp [initSched, Phases.init] at h; rw [h.1] at hf; simp [RunningAt] at hf)
    (fun f r hr o hor => ((hh' f r hr).same o).1 hor) h1').1
  rcases hc with ⟨e0, e1, e2, e3⟩ | ⟨e1, _⟩ | ⟨_, _, hr, hne, hstuck⟩ | ⟨e, _, hcr⟩
  · refine .inr ⟨s1, h1, ?_, e2, e3⟩
    rcases hl : P.loop with ⟨x, s⟩
    rw [hl] at e0 e1
    dsimp only at e0 e1
    rw [e0, e1]
  · exfalso
    apply hw
    unfold Phases.result
    rcases hll : P.loop with ⟨x, s⟩
    rw [hll] at e1
    simp only at e1
    subst e1
    rfl
  · obtain ⟨f, _, p⟩ := cycle_of_stuck hb hheld hr hne hstuck
    exact absurd (p.mono (fun x y h => ((P.depIn_iff hv ho x y).1 h).2.2)) (hac f)
  · rcases hcr with ⟨es, b, hbm, f, hf, hbe⟩ | ⟨f, r, hf, _, he⟩
    · left
      have hl : P.result.log = s1.log := by rw [P.result_log, es]
      refine ⟨f, ?_, fun r hr => ?_, b, hbm, e, hbe⟩
      · rw [hl, ← mem_startsOf]
        exact hb.starts.mem_iff.2 (by simp [hf])
      · rw [hl] at hr
        have h2 := hb.ends.mem_iff.1 ((mem_endsOf _ _).2 ⟨r, hr⟩)
        exact (List.nodup_append.1 (List.nodup_append.1 hb.all_nodup).2.1).2.2 f hf f h2 rfl
    · exfalso
      have hr : Event.finished f r ∈ P.result.log := by rw [P.result_log, (finish_err he).1]; simp
      rcases (finish_err he).2.2 with he | he
      · obtain ⟨q, hq⟩ := reinterpChildren_total (T := P.T) (f := f) (cs := r.children) (acc := []) (m := s1.outMap) hv.dep.wf
          (fun x hx => (contains_iff _ _).1 (H.sources x ((contains_iff _ _).2 hx)).1) (by
            intro c hcm
            by_cases hi : isOutput c = true
            · right
              rcases (B.outputs f r hr c hcm hi).1 with ⟨x, hx, hxc⟩ | ⟨hns, p, hp, hpe⟩
              · left
                refine steps_outMap h1 c ?_
                show c ∈ P.outMap.keys
                rw [P.result_scanned] at hx
                rcases hxc with hxc | hxc
                · refine (reinterpAll_mapkeys P.hre).1 c ?_
                  rw [← Dict.get?_isSome_iff, outMapOf_spec]
                  simp only [Option.isSome_map, List.find?_isSome]
                  exact ⟨x, by simpa using hx, by simpa using hxc⟩
                · exact (reinterpAll_mapkeys P.hre).2 x hx c hxc hi
              · right
                refine ⟨?_, ?_, p, hp, (edge_iff _ _ _).1 hpe⟩
                · show Dict.has P.updated f = false
                  rw [P.result_scanned, ← P.updated_keys] at hns
                  rw [Bool.eq_false_iff]
                  exact fun hc => hns ((Dict.has_iff _ _).1 hc)
                · rcases hp with rfl | hp
                  · exact (contains_iff _ _).1 (H.makers _ _ hpe).1
                  · cases hp with
                    | one e => obtain ⟨cs, hcs, _⟩ := e; exact (getChildren_ok hcs).1
                    | more e _ => obtain ⟨cs, hcs, _⟩ := e; exact (getChildren_ok hcs).1
            · exact .inl (by simpa using hi))
        rw [hq] at he; simp at he
      · obtain ⟨dd, hd⟩ := settleAll_no_error (T := P.T) (os := r.produced ++ r.reused)
          (d := ⟨s1.stillOut, s1.pendOut, s1.stillArt, s1.pendArt⟩) ht.hdis ht.hsub (hh' f r hr).once
          (fun o hom hso => hx.claimOut f hf o (((hh' f r hr).same o).1 hom) hso)
          (fun o hom hso => hx.claimArt f hf o (((hh' f r hr).same o).1 hom) hso)
        rw [hd] at he; simp at he

theorem modeStep_disk (a : Args) (sig : String → Sig) (d : Disk) :
    (modeStep a sig d).2.files = d.files ∧ (modeStep a sig d).2.dirs = d.dirs := by
  unfold modeStep
  repeat' split
  all_goals exact ⟨rfl, rfl⟩

theorem finish_results {T : Tables} {s : Sched} (hb : Base T s) {f : String} (h : f ∈ s.results.keys) :
    ∃ r, Event.finished f r ∈ s.log := by
  rw [← mem_endsOf]
  exact hb.ends.mem_iff.2 h

theorem Path.flat {R : String → String → Prop} {x y : String} (p : Path (Path R) x y) : Path R x y := by
  induction p with
  | one e => exact e
  | more e _ ih => exact Path.trans e ih

/-- C57, in part: when the previous build left things in order, every scan succeeds, each build which
comes to an end made what was announced for its file and names as children what the file needs, and these
needs contain no cycle, then a rebuild which is not waiting for a build has finished, unless the build of
some file raised. -/
theorem C57_or_raises_partial (env : Env) (a : Args) (d : Disk) (hv : ValidGraphs a.old) (ho : ValidOrder env)
    (H : SoundHistory a.old d) (S : GoodScans env a d (hotRebuild env a d)) (B : GoodResults a d (hotRebuild env a d))
    (hac : ∀ f, ¬ Path (Needs a (hotRebuild env a d)) f f) (hw : (hotRebuild env a d).status ≠ .waiting) :
    (hotRebuild env a d).status = .finished ∨ ∃ f, Raised env (hotRebuild env a d) f := by
  rcases gets_to_builds hv ho H S with h | ⟨P, hP⟩
  · exact .inl h
  have hsrc : ∀ f, Rebuilt a P.result f → isOutput f = false ∧ (f ∈ P.result.scanned.keys ∨ contains a.old.dep f = true) := by
    intro f hf; rw [← hP] at hf ⊢; exact rebuilt_source H S hf
  rw [hP] at S B hac hw ⊢
  rcases loop_finishes hv ho H P B hac hw with h | ⟨s1, h1, hl, ht0, hr0⟩
  · exact .inr h
  left
  have hb := (P.base hv ho).steps h1
  have ht := (P.track hv ho).steps h1
  have hlog : P.result.log = s1.log := by rw [P.result_log, hl]
  have hres : P.result = finalize env a (modeStep a env.sig d).1 P.st.added P.st.newPh
      ((P.dO ++ P.dA).flatMap foldersOf) P.st.updated s1 := by
    unfold Phases.result
    rw [hl]
  have hkeys : ∀ f, f ∈ s1.results.keys ↔ Rebuilt a P.result f := by
    intro f
    rw [← P.rebuilt_iff hv ho]
    have hp := hb.part
    rw [ht0, hr0] at hp
    simp only [List.nil_append] at hp
    exact hp.mem_iff
  obtain ⟨g1, g2, ⟨new, n1, n2, n3, n4, n5, n6⟩, g3⟩ := scanLoop_spec _ _ _ _ _ _ (by simp [Dict.NodupKeys, Dict.keys])
    (by simp [Dict.NodupKeys, Dict.keys]) (by simp) P.hscan
  obtain ⟨md1, md2⟩ := modeStep_disk a env.sig d
  have hfiles : ∀ x ∈ d.files, x ∈ P.st.disk.files := by
    intro x hx; rw [n1]; simp [md1, hx]
  have hdirs : ∀ x ∈ d.dirs, x ∈ P.st.disk.dirs := by
    intro x hx; rw [n1]; simp [md2, hx]
  have hd1 : ∀ x, x ∈ P.d1.files ↔ x ∈ P.st.disk.files ∧ x ∉ P.dO := by
    intro x
    show x ∈ (unlinkLenient P.dO P.st.disk).files ↔ _
    simp [unlinkLenient]
  have hd1d : P.d1.dirs = P.st.disk.dirs := rfl
  -- outputs which are not made again
  obtain ⟨dk, hdk⟩ := unlinkStrict_total (fs := s1.stillArt) (d := s1.disk) (by
      refine (steps_art h1).nodup ?_
      show P.dA.Nodup
      unfold Phases.dA
      exact (ho _).nodup_iff.2 (insertAll_spec _ [] (by simp)).1) (by
      intro o hom
      have hda := ht.hsub o hom
      obtain ⟨e1, x, _, hx⟩ := (P.mem_dirty hv ho o).2.1 hda
      rw [ht.files, hd1]
      refine .inl ⟨hfiles o (H.artifacts x o hx e1), fun hc => ?_⟩
      exact P.dis hv ho o hc hda)
  obtain ⟨u1, u2, u3, _, _⟩ := unlinkStrict_files hdk
  -- folders
  obtain ⟨dk2, hdk2⟩ := removeEmptyDirs_total (ps := sortByLen (insertAll ((P.dO ++ P.dA).flatMap foldersOf) [])) (d := dk)
    (sortByLen_nodup (insertAll_spec _ [] (by simp)).1) (by
      intro p hp
      rw [mem_sortByLen, (insertAll_spec _ [] (by simp)).2] at hp
      simp only [List.not_mem_nil, false_or, List.mem_flatMap] at hp
      obtain ⟨o, hom, hp⟩ := hp
      obtain ⟨x, hx⟩ : ∃ x, Edge a.old.out x o := by
        rcases List.mem_append.1 hom with h | h
        · obtain ⟨_, x, _, hx⟩ := (P.mem_dirty hv ho o).1.1 h; exact ⟨x, hx⟩
        · obtain ⟨_, x, _, hx⟩ := (P.mem_dirty hv ho o).2.1 h; exact ⟨x, hx⟩
      rw [u3, ht.dirs, hd1d]
      exact .inl (hdirs p (H.folders x o hx p hp)))
  have hfin := (removeEmptyDirs_files hdk2).1
  have hdisk : ∀ x, x ∈ dk2.files ↔ x ∈ s1.disk.files ∧ x ∉ s1.stillArt := by
    intro x; rw [hfin]; exact u2 rfl x
  -- what is known of the results
  have hkept : Kept (MadeBy a P.result) (Ann P.result) s1 := by
    refine Kept.steps (T := P.T) ?_ (P.base hv ho) ⟨P.mapOK hv, by simp [Phases.init, initSched]⟩ h1
    intro c p hc hk
    exact madeBy_edge hc ((edge_iff _ _ _).2 hk)
  have hresult : ∀ f r', s1.results.get? f = some r' → ∃ r, Event.finished f r ∈ s1.log ∧ r'.produced = r.produced ∧
      r'.reused = r.reused ∧
      (∀ g ∈ r'.children, ∃ c ∈ r.children, (g = c ∧ isOutput c = false ∧ ¬ Ann P.result c) ∨ (g ≠ f ∧ MadeBy a P.result c g)) := by
    intro f r' hr
    obtain ⟨r, hfin⟩ := finish_results hb (Dict.mem_keys_of_get? hr)
    obtain ⟨r2, q1, q2, q3, q4, _⟩ := hkept.res f r hfin
    rw [hr] at q1
    simp only [Option.some.injEq] at q1
    subst q1
    exact ⟨r, hfin, q2, q3, q4⟩
  have hInput : ∀ x, Current a P.result x ↔ x ∉ a.deleted ∧ (x ∈ s1.results.keys ∨ x ∈ a.old.dep.keys) := by
    intro x
    unfold Current
    rw [hkeys, contains_iff]
  have hscanIn : ∀ x ∈ P.st.updated.keys, Rebuilt a P.result x := by
    intro x hx
    have hx' : x ∈ P.result.scanned.keys := by rw [P.result_scanned]; exact hx
    exact ⟨(S.sources x hx').2, .inl (List.mem_append.2 (.inl hx'))⟩
  have hmadeOut : ∀ c p, MadeBy a P.result c p → isOutput c = true := by
    intro c p hm
    unfold MadeBy at hm
    split at hm
    · rename_i x hx
      exact S.outputs x (by simpa using List.mem_of_find?_eq_some hx) c (by simpa using List.find?_some hx)
    · exact (H.makers p c hm).2
  have hsrcIn : ∀ f, Current a P.result f → isOutput f = false := by
    rintro f ⟨_, h | h⟩
    · exact (hsrc f h).1
    · exact (H.sources f h).2
  obtain ⟨gs, hgs⟩ := newGraphs_total (order := env.order) (sig := env.sig) (old := a.old) (changed := (modeStep a env.sig d).1)
    (added := P.st.added) (deleted := a.deleted) (newPh := P.st.newPh) (results := s1.results) (d := dk2) ho hv.out.wf hv.ph.wf
    (Input := Current a P.result) hInput
    (by
      intro f hf
      unfold newSig
      split
      · exact ⟨_, rfl⟩
      · rename_i e1
        split
        · exact ⟨_, rfl⟩
        · rename_i e2
          have hfk : f ∈ a.old.dep.keys := by
            rcases hf.2 with h | h
            · rcases (hsrc f h).2 with h | h
              · exfalso
                rw [P.result_scanned, n3] at h
                have q1 := (Dict.get?_eq_none_iff _ _).1 e1
                have q2 := (Dict.get?_eq_none_iff _ _).1 e2
                rw [n5] at q2
                simp only [Dict.keys_nil, List.not_mem_nil, false_or, List.mem_append] at h q2
                rcases h with (h | h) | h
                · exact q1 h
                · exact q2 (.inl h)
                · exact q2 (.inr h)
              · exact (contains_iff _ _).1 h
            · exact (contains_iff _ _).1 h
          obtain ⟨nd, hnd⟩ := exists_node_of_mem hfk
          rw [hnd]
          exact ⟨_, rfl⟩)
    (R := Path (Needs a P.result)) (S := fun x o => isOutput x = false ∧ isOutput o = true) (U := Generates a P.result) (fun f hf => hac f (Path.flat hf))
    (by
      intro x hp
      have key : ∀ x y, Path (fun x o => isOutput x = false ∧ isOutput o = true) x y → isOutput x = false ∧ isOutput y = true := by
        intro x y h
        induction h with
        | one e => exact e
        | more e _ ih => exact ⟨e.1, ih.2⟩
      have := key x x hp
      rw [this.1] at this; simp at this)
    (by
      intro x hp
      cases hp with
      | one e => exact S.flat _ _ _ e e
      | more e q =>
        cases q with
        | one e' => exact S.flat _ _ _ e e'
        | more e' _ => exact S.flat _ _ _ e e')
    (by
      intro f hf c hc
      unfold newKids at hc
      rcases hr : s1.results.get? f with _ | r'
      · rw [hr] at hc
        dsimp only at hc
        have hnr : ¬ Rebuilt a P.result f := fun h => (Dict.get?_eq_none_iff _ _).1 hr ((hkeys f).2 h)
        have he : Edge a.old.dep f c := (edge_iff _ _ _).2 hc
        have hck := hv.dep.wf.mem_keys_of_kid hc
        refine ⟨⟨fun hdel => hnr ⟨hf.1, .inr ⟨c, ?_, .one (.inl he)⟩⟩, .inr ((contains_iff _ _).2 hck)⟩, .one (.inl ?_)⟩
        · unfold touchedSources; exact List.mem_append.2 (.inr hdel)
        · have : P.result.scanned.get? f = none := by
            rw [Dict.get?_eq_none_iff, P.result_scanned]
            exact fun h => hnr (hscanIn f h)
          rw [this]; exact he
      · rw [hr] at hc
        dsimp only at hc
        obtain ⟨r, hfr, _, _, q4⟩ := hresult f r' hr
        have hR : Event.finished f r ∈ P.result.log := by rw [hlog]; exact hfr
        obtain ⟨c', hc', ⟨rfl, hi, _⟩ | ⟨hne, hm⟩⟩ := q4 c hc
        · exact B.sources f r hR c hc' hi
        · rcases (B.outputs f r hR c' hc' (hmadeOut c' c hm)).2 c hm with h | h
          · exact absurd h hne
          · exact h)
    (by
      intro f hf o hom
      unfold newOutputs at hom
      rcases hr : s1.results.get? f with _ | r'
      · rw [hr] at hom
        dsimp only at hom
        exact ⟨⟨hsrcIn f hf, (H.makers f o ((edge_iff _ _ _).2 hom)).2⟩, fun h => absurd rfl h⟩
      · rw [hr] at hom
        dsimp only at hom
        obtain ⟨r, hfr, q2, q3, _⟩ := hresult f r' hr
        have hR : Event.finished f r ∈ P.result.log := by rw [hlog]; exact hfr
        rw [q2, q3] at hom
        refine ⟨⟨hsrcIn f hf, ?_⟩, fun _ => ?_⟩
        · have han := ((B.honest f r hR).1 o).1 hom
          unfold Announced at han
          split at han
          · rename_i sr hsr
            exact S.outputs (f, sr) (Dict.mem_of_get? hsr) o han
          · exact (H.makers f o han).2
        · have htouch : o ∉ s1.stillArt := fun hc => ((ht.art o).1 hc).2 ⟨f, r, hfr, hom⟩
          rw [hdisk]
          refine ⟨?_, htouch⟩
          rw [ht.files]
          rcases List.mem_append.1 hom with hp | hp
          · exact .inr ⟨f, r, hfr, hp⟩
          · rcases B.reused f r (by rw [hlog]; exact hfr) o hp with ⟨q1, q2⟩ | ⟨f', r'', q1, q2⟩
            · refine .inl ((hd1 o).2 ⟨hfiles o q1, fun hdo => ?_⟩)
              have e1 := q2 ((P.wasOutput_iff hv ho o).2 (.inl hdo))
              have e2 := ((P.mem_dirty hv ho o).1.1 hdo).1
              rw [e1] at e2; simp at e2
            · rw [hlog] at q1
              exact .inr ⟨f', r'', q1, q2⟩)
    (fun x y hy => .inl ((edge_iff _ _ _).2 hy))
    (fun x y z hy hz => H.one x y z ((edge_iff _ _ _).2 hy) ((edge_iff _ _ _).2 hz))
    (fun x y z hy hz => S.flat x y z (.inl ((edge_iff _ _ _).2 hy)) (.inl ((edge_iff _ _ _).2 hz)))
    (by
      intro p gen hpg
      have hg : P.st.newPh.get? p = some gen := Dict.get?_of_mem g2 hpg
      have h1 : p ∈ P.st.updated.keys := by
        have := Dict.mem_keys_of_get? hg
        rw [n4] at this
        rw [n3]
        simp only [Dict.keys_nil, List.not_mem_nil, false_or] at this ⊢
        exact .inr this
      have h2 := hscanIn p h1
      have h3 := hscanIn gen (g3 p gen hg)
      refine ⟨⟨h2.1, .inl h2⟩, ⟨h3.1, .inl h3⟩, .inr ?_⟩
      rw [P.result_generated]; exact hg)
  rw [hres]
  unfold finalize
  rw [hdk]
  dsimp only
  rw [hdk2]
  dsimp only
  rw [hgs]

/-- C57, in part: when moreover no build raises the rebuild finishes. -/
theorem C57_succeeds_partial (env : Env) (a : Args) (d : Disk) (hv : ValidGraphs a.old) (ho : ValidOrder env)
    (H : SoundHistory a.old d) (S : GoodScans env a d (hotRebuild env a d)) (B : GoodBuilds env a d (hotRebuild env a d))
    (hac : ∀ f, ¬ Path (Needs a (hotRebuild env a d)) f f) (hw : (hotRebuild env a d).status ≠ .waiting) :
    (hotRebuild env a d).status = .finished := by
  rcases C57_or_raises_partial env a d hv ho H S B.toGoodResults hac hw with h | ⟨f, _, _, b, hb, e, he⟩
  · exact h
  · exact absurd he (B.succeed b hb f e)

end Verif.Hot
