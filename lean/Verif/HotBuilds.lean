import Verif.HotReal
import Verif.HotHistory
/-!
# C110: a project without broken or circular references builds

`C57` says that a rebuild finishes if scans and builds do their part.  Here the scans and builds are those of handlers, and what is
asked is asked of the project: every file which is referred to is there, and nothing refers to itself through others.
-/
namespace Verif.Hot
open Verif Verif.Graph

variable {C : Type}

/-! ## Specification -/

/-- The sources are of the simple kinds, and each refers to sources which are there.  `refs W f c` says that `f` refers to `c` when the files have the contents `W`;
what a page refers to depends on its templates, too.  An output, as the hash of a file, stands for the source it comes from. -/
def Intact (p : Project) (simple : Contents C → String → Prop) (refs : Contents C → String → String → Prop) (W : Contents C) : Prop :=
  ∀ f, p.src f → W f ≠ none → simple W f ∧ ∀ c, refs W f c → p.src (p.source c) ∧ W (p.source c) ≠ none

/-- One source refers to another. -/
def Refers (p : Project) (refs : Contents C → String → String → Prop) (W : Contents C) (f g : String) : Prop := ∃ c, refs W f c ∧ p.source c = g

/-- From `W` to `W0`, what a source refers to changes only if the source does. -/
def Stays (p : Project) (simple : Contents C → String → Prop) (refs : Contents C → String → String → Prop) (W W0 : Contents C) : Prop :=
  ∀ f, p.src f → W0 f ≠ none → W0 f = W f → simple W0 f → simple W f ∧ ∀ g, refs W f g ↔ refs W0 f g

/-- Handlers for simple files.  A scan succeeds and lists what the file refers to; a build has the same as its children, makes all the
outputs of the file, each once, and succeeds if what it reads of each of the files referred to is there: an output of it, or the file itself. -/
structure Tool.Direct (p : Project) (t : Tool C) (simple : Contents C → String → Prop) (refs : Contents C → String → String → Prop) : Prop where
  scans : ∀ {f W}, p.src f → simple W f → W f ≠ none →
    ∃ s, t.scan f W = some s ∧ (∀ g, g ∈ s.dependencies ↔ refs W f g) ∧ ∀ o, o ∈ s.produces ↔ p.owner o = some f
  builds : ∀ {m f W V r V'}, p.src f → simple W f → W f ≠ none → V f = W f → Bare p f V → t.build m f V = some (r, V') →
    (∀ c ∈ r.children, p.src c → V c = W c) →
    (∀ g, g ∈ r.children ↔ refs W f g) ∧ (∀ o, o ∈ r.produced ↔ p.owner o = some f) ∧ r.produced.Nodup
  works : ∀ {m f W V}, p.src f → simple W f → W f ≠ none → (∀ c, p.src c → V c = W c) → Bare p f V → (∀ g, refs W f g → V (t.read f g) ≠ none) →
    t.build m f V ≠ none
  reads : ∀ {f W c}, p.src f → simple W f → W f ≠ none → refs W f c → p.src (p.source c) →
    p.owner (t.read f c) = some (p.source c) ∨ t.read f c = p.source c

/-- Files are scanned by the handlers, as they are. -/
def ScansBy (t : Tool C) (env : Env) (W0 : Contents C) : Prop := ∀ d f s,
  (env.scan d f = .ok s → t.scan f W0 = some s) ∧ (W0 f ≠ none → t.scan f W0 = some s → env.scan d f = .ok s)

/-- What a rebuild does with the contents of the files, however it ends. -/
structure Attempt (t : Tool C) (env : Env) (a : Args) (out : Outcome) (W0 : Contents C) where
  /-- the contents which the build of a file has seen, and those it has left -/
  view : String → Contents C
  wrote : String → Contents C
  /-- the contents when building starts: recorded outputs have been removed -/
  start : Contents C
  start_unlinked : ∀ c, Unlinked a out c → start c = none
  start_kept : ∀ c, ¬ Unlinked a out c → start c = W0 c
  /-- every finished build is one of the handlers -/
  ran : ∀ f r, Event.finished f r ∈ out.log → t.build a.mode f (view f) = some (r, wrote f)
  /-- a build raises only if the handlers fail -/
  raised : ∀ f, Raised env out f → t.build a.mode f (view f) = none
  /-- builds see files as they were when building started, unless they have been written before the build has started, or as other
  builds have written them -/
  sees : ∀ pre f post, out.log = pre ++ .started f :: post → ∀ c,
    (view f c = start c ∧ ¬ ∃ g r, Event.finished g r ∈ pre ∧ c ∈ r.produced) ∨
    ∃ g r, g ≠ f ∧ Event.finished g r ∈ out.log ∧ c ∈ r.produced ∧ view f c = wrote g c

/-! ## What is recorded -/

/-- The recorded dependencies of a file are children of a build of the file as it is now, as are the sources among the children. -/
def Traced (p : Project) (t : Tool C) (W : Contents C) (gs : Graphs) : Prop :=
  (∀ x y, ¬ Edge gs.ph x y) ∧ (∀ x, contains gs.dep x = true → contains gs.out x = true) ∧
  ∀ f, contains gs.dep f = true → ∃ m V r V', V f = W f ∧ Bare p f V ∧ t.build m f V = some (r, V') ∧
    (∀ c ∈ r.children, p.src c → V c = W c ∧ (c = f ∨ Edge gs.dep f c)) ∧ ∀ g, Edge gs.dep f g → ∃ c ∈ r.children, p.source c = g

theorem no_edge (f o : String) : ¬ Edge [] f o := by
  rintro ⟨cs, h, -⟩
  simp [getChildren, Dict.get?] at h

theorem contains_of_edge {g : Graph} {x y : String} (h : Edge g x y) : contains g x = true := by
  obtain ⟨cs, hcs, _⟩ := h
  exact (contains_iff _ _).2 (getChildren_ok hcs).1

theorem source_src {p : Project} (hp : p.Lawful) {c : String} (h : p.src c) : p.source c = c := by simp [Project.source, (hp.src c h).1]

theorem source_of_not_output {p : Project} (hp : p.Lawful) {c : String} (h : isOutput c = false) : p.source c = c := by
  cases ho : p.owner c with
  | none => simp [Project.source, ho]
  | some f => rw [(hp.owner c f ho).2] at h; cases h

theorem madeBy_owner {p : Project} {a : Args} {out : Outcome} (S : Scans p a out) (hU : ∀ f o, Edge a.old.out f o → p.owner o = some f)
    {c g : String} (h : MadeBy a out c g) : p.owner c = some g := by
  unfold MadeBy at h
  split at h
  · next x hx =>
    rw [h]
    exact S.produces x (by simpa using List.mem_of_find?_eq_some hx) c (by simpa using List.find?_some hx)
  · exact hU g c h

theorem stored_no_placeholders {env : Env} {a : Args} {d : Disk} (hv : ValidGraphs a.old) (ho : ValidOrder env)
    (hg : (hotRebuild env a d).generated = []) {gs : Graphs} (h : (hotRebuild env a d).stored = some gs)
    (hph : ∀ x y, ¬ Edge a.old.ph x y) (x y : String) : ¬ Edge gs.ph x y := by
  obtain ⟨P, hP⟩ := stored_phases h
  rw [hP] at h hg
  obtain ⟨s1, hb, hk, hl, hp, _, hgs⟩ := P.stored_spec hv ho h
  obtain ⟨b1, b2, b3, c1, c2, c3, c4, c5, c6⟩ := newGraphs_spec ho hgs
  intro he
  rw [edge_iff, c6] at he
  rcases he with he | ⟨n, hn, hy, hx⟩
  · rw [← P.result_generated, hg] at he
    cases he
  · refine hph x y ?_
    rw [edge_iff, ← hv.ph.wf.mem_pars_iff, pars_of_get? (Dict.get?_of_mem hv.ph.wf.nodup hn)]
    exact List.mem_of_find?_eq_some hx

theorem Worked.recorded {p : Project} {t : Tool C} (hp : p.Lawful) (ht : t.Lawful p) (hc : p.src p.constants) {m : Mode} {W : Contents C} {gs : Graphs}
    {dm : Option Mode} (h : Worked p t m W gs dm) : Traced p t W gs := by
  induction h with
  | empty m W hW =>
    exact ⟨fun x y => no_edge x y, fun x hx => by simp [contains_iff, Dict.keys] at hx, fun f hx => by simp [contains_iff, Dict.keys] at hx⟩
  | @rebuild m0 W W0 W' env a d hist ho hs hco E X hf ih =>
    obtain ⟨U, hv, -, -⟩ := (hist.history hp ht hc).upToDate hp (ht.pure hp)
    obtain ⟨S, hg⟩ := scans_of (a := a) (d := d) ht hs hc hf
    obtain ⟨r1, r2, r3⟩ := ih
    have hsrc : ∀ {f}, contains a.old.dep f = true → p.src f := fun he => ((U.files _).1 he).1
    cases hst : (hotRebuild env a d).stored with
    | none =>
      obtain ⟨h1, h2, h3, -⟩ := C17_finished_stores env a d hv ho hf hst
      obtain ⟨i1, i2, i3, i4⟩ := idle hv ho hf hst
      have hall : ∀ c, p.src c → W' c = W c := by
        intro c hcs
        have e0 : W0 c = W c := E.same c hcs (by simp [h1, Dict.keys]) (by simp [h2, Dict.keys]) (by simp [h3])
        rw [← e0]
        by_cases hd : c ∈ (hotRebuild env a d).disk.files
        · rw [X.kept c hd (by rw [i1]; simp)]
          refine X.start_kept c ?_
          rintro ⟨⟨x, hx, -⟩, -⟩
          simp [Affected, touchedSources, i2, h3, Dict.keys] at hx
        · rw [X.missing c hd]
          rw [i4] at hd
          exact (Classical.byContradiction fun h => hd ((E.disk c).1 fun h' => h h'.symm))
      refine ⟨r1, r2, fun f he => ?_⟩
      obtain ⟨m1, V, r, V', q1, q2, q3, q4, q5⟩ := r3 f he
      exact ⟨m1, V, r, V', by rw [q1, hall f (hsrc he)], q2, q3, fun c hcm hcs => by rw [hall c hcs]; exact q4 c hcm hcs, q5⟩
    | some gs =>
      have F := facts hv ho hst
      have hB := ht.pure hp
      have Y := X.exec hp ht F S hg hco U E
      have hat : ∀ c, p.owner c = none → W' c = W0 c := fun c hcn => by
        obtain ⟨e1, -, e2⟩ := Y.at_source hB F (fun f o => U.owned hB) E hcn
        rw [e1, e2 (by rw [hg]; simp [Dict.keys])]
      have hhv : ∀ f r, Event.finished f r ∈ (hotRebuild env a d).log → ∀ c, p.owner c = none → X.view f c = W0 c := fun f r hfr c hcn => by
        have hst : X.start c = W0 c := X.start_kept c (by
          rintro ⟨⟨x, -, hx⟩, -⟩
          rw [U.owned hB hx] at hcn; cases hcn)
        rcases X.sees f r hfr c with h | ⟨g, r', h1, h2, h3, -⟩
        · rw [h, hst]
        · rw [ht.own (F.src S hco U E h2) (X.ran g r' h2) (o := c) (by simp [h3])] at hcn
          cases hcn
      refine ⟨stored_no_placeholders hv ho hg hst r1, fun x hx => contains_out_of_dep hv ho hst hx, fun f hin => ?_⟩
      have hfs : p.src f := by
        rcases ((F.recorded f).1 hin).2 with h | h
        · obtain ⟨r, hr⟩ := (F.ends f).2 h
          exact F.src S hco U E hr
        · exact ((U.files f).1 h).1
      have hno := (hp.src f hfs).1
      by_cases hr : Rebuilt a (hotRebuild env a d) f
      · obtain ⟨r, hfr⟩ := (F.ends f).2 hr
        obtain ⟨k1, k2⟩ := C17_rebuilt_dependencies env a d hv ho gs hst f r hfr
        refine ⟨a.mode, X.view f, r, X.wrote f, by rw [hhv f r hfr f hno, hat f hno], X.bare ht F S hco U E hfr, X.ran f r hfr, fun c hcm hcs => ⟨?_, ?_⟩, fun g he => ?_⟩
        · rw [hhv f r hfr c (hp.src c hcs).1, hat c (hp.src c hcs).1]
        · rcases k2 c hcm with ⟨-, -, h⟩ | ⟨g, h, -⟩
          · exact .inr h
          · have := madeBy_owner S (fun f o => U.owned hB) h
            rw [(hp.src c hcs).1] at this
            cases this
        · obtain ⟨c, hcm, ⟨rfl, h1, -⟩ | ⟨-, h1⟩⟩ := k1 g he
          · exact ⟨g, hcm, source_of_not_output hp h1⟩
          · exact ⟨c, hcm, source_owner (madeBy_owner S (fun f o => U.owned hB) h1)⟩
      · have hkc := F.keptChildren f hin hr
        obtain ⟨-, h⟩ := (F.recorded f).1 hin
        obtain ⟨m1, V, r, V', q1, q2, q3, q4, q5⟩ := r3 f (h.resolve_left hr)
        have hnd := ((F.recorded f).1 hin).1
        have hsame : ∀ c, p.src c → (c = f ∨ Edge a.old.dep f c) → W' c = W c := by
          intro c hcs hcf
          have hnt : c ∉ touchedSources a (hotRebuild env a d) := by
            intro ht
            refine hr ⟨hnd, ?_⟩
            rcases hcf with rfl | he
            · exact .inl ht
            · exact .inr ⟨c, ht, .one (.inl he)⟩
          have hns : c ∉ (hotRebuild env a d).scanned.keys := fun h => hnt (by simp [touchedSources, h])
          rw [hat c (hp.src c hcs).1]
          refine E.same c hcs (fun h => hns ?_) (fun h => hns ?_) (fun h => hnt (by simp [touchedSources, h]))
          · exact (F.touched c).2 (.inl h)
          · exact (F.touched c).2 (.inr (.inl h))
        refine ⟨m1, V, r, V', by rw [q1, hsame f hfs (.inl rfl)], q2, q3, fun c hcm hcs => ?_, fun g he => q5 g ((hkc g).1 he)⟩
        obtain ⟨h1, h2⟩ := q4 c hcm hcs
        exact ⟨by rw [h1, hsame c hcs h2], h2.imp_right fun h => (hkc c).2 h⟩

/-! ## The run -/

/-- Without placeholders, the scanned files are the changed and added ones and the constants when the mode is new. -/
theorem scanned_of {env : Env} {a : Args} {d : Disk} (hs : ∀ dk f, MayScan env a d f → ∃ r, env.scan dk f = .ok r)
    (hfuel : 0 < env.scanFuel) (hph : ∀ dk f r, env.scan dk f = .ok r → r.placeholders = []) :
    (∀ x ∈ (hotRebuild env a d).scanned, ∃ dk, env.scan dk x.1 = .ok x.2) ∧
    (∀ f, f ∈ (hotRebuild env a d).scanned.keys ↔ f ∈ (modeStep a env.sig d).1.keys ∨ f ∈ a.added.keys) ∧
    (hotRebuild env a d).generated = [] := by
  by_cases hwk : ((modeStep a env.sig d).1.isEmpty && a.added.isEmpty && a.deleted.isEmpty) = true
  · have h1 : (hotRebuild env a d).scanned = [] ∧ (hotRebuild env a d).generated = [] := by
      unfold hotRebuild
      simp only
      rw [if_pos hwk]
      exact ⟨rfl, rfl⟩
    simp only [Bool.and_eq_true, List.isEmpty_iff] at hwk
    rw [h1.1, h1.2, hwk.1.1, hwk.1.2]
    simp [Dict.keys]
  · obtain ⟨st, hst⟩ := scanLoop_total (sig := env.sig) hs (fun dk g r h p hp => .inr (.inr (.inr ⟨dk, g, r, h, hp⟩)))
      (places := []) (fun dk f r h p hp => by rw [hph dk f r h] at hp; exact hp) env.scanFuel ((modeStep a env.sig d).1.keys ++ a.added.keys)
      { updated := [], newPh := [], added := a.added, disk := (modeStep a env.sig d).2 } (by
        intro f hf
        rcases List.mem_append.1 hf with hf | hf
        · have h2 := (Dict.get?_isSome_iff (modeStep a env.sig d).1 f).2 hf
          rw [modeStep_get?] at h2
          split at h2
          · next hh => exact .inr (.inr (.inl ⟨hh.1, hh.2.1⟩))
          · exact .inl ((Dict.get?_isSome_iff _ _).1 h2)
        · exact .inr (.inl hf)) (by simpa using hfuel)
    have heq : hotRebuild env a d = buildPhase env a (modeStep a env.sig d).1 st := by
      conv => lhs; unfold hotRebuild
      simp only
      rw [if_neg hwk, hst]
    obtain ⟨e1, e2⟩ := buildPhase_scanned env a (modeStep a env.sig d).1 st
    rw [heq, e1, e2]
    obtain ⟨k1, k2, ⟨new, n1, n2, n3, n4, n5, n6⟩, k3⟩ := (scanLoop_spec _ _ _ _ _ _
        (by simp [Dict.NodupKeys, Dict.keys]) (by simp [Dict.NodupKeys, Dict.keys]) (by simp) hst)
    have hne : ∀ x, x ∉ new := by
      intro x hx
      obtain ⟨-, -, y, -, d', r, h1, h2⟩ := n2 x hx
      rw [hph _ _ _ h1] at h2
      cases h2
    refine ⟨scanLoop_scanned hst (by simp), fun f => ?_, ?_⟩
    · rw [n3]
      simp [hne, Dict.keys]
    · cases hn : st.newPh with
      | nil => rfl
      | cons e l =>
        have := (n4 e.1).1 (by rw [hn]; simp [Dict.keys])
        rcases this with h | h
        · simp [Dict.keys] at h
        · exact absurd h (hne _)

theorem mem_started_split {log : List Event} {f : String} (h : Event.started f ∈ log) : ∃ pre post, log = pre ++ .started f :: post :=
  List.append_of_mem h

/-- **C110**, for handlers of simple files: after any history of finished rebuilds and any edits, if each source refers to sources which
are there and none refers to itself, directly or through others, then a rebuild which is not waiting for a build has finished. -/
theorem intact_finishes {p : Project} {t : Tool C} {simple : Contents C → String → Prop} {refs : Contents C → String → String → Prop} (hp : p.Lawful)
    (ht : t.Lawful p) (hc : p.src p.constants) (D : t.Direct p simple refs) {m0 : Mode} {W W0 : Contents C} {env : Env} {a : Args} {d : Disk}
    (hist : Worked p t m0 W a.old d.mode) (ho : ValidOrder env) (hscan : ScansBy t env W0) (hfuel : 0 < env.scanFuel) (hco : a.constants = p.constants)
    (E : Edits p a d W W0) (hh : Housed d) (X : Attempt t env a (hotRebuild env a d) W0) (hI : Intact p simple refs W0) (hkeep : Stays p simple refs W W0)
    (hac : ∀ f, p.src f → W0 f ≠ none → ¬ Path (Refers p refs W0) f f) (hw : (hotRebuild env a d).status ≠ .waiting) :
    (hotRebuild env a d).status = .finished := by
  have hB := ht.pure hp
  obtain ⟨U, hv, hoac, -⟩ := (hist.history hp ht hc).upToDate hp hB
  obtain ⟨r1, r2, r3⟩ := hist.recorded hp ht hc
  have hU : ∀ f o, Edge a.old.out f o → p.owner o = some f := fun f o => U.owned hB
  -- files which are there
  have there : ∀ {f}, f ∈ d.files → W0 f ≠ none := fun hf => (E.disk _).2 hf
  have hmay : ∀ f, MayScan env a d f → p.src f ∧ f ∈ d.files := by
    rintro f (h | h | ⟨rfl, h⟩ | ⟨dk, g, r, h1, h2⟩)
    · exact E.changed f h
    · exact E.added f h
    · exact ⟨hco ▸ hc, h⟩
    · rw [(ht.scans ((hscan _ _ _).1 h1)).2] at h2
      cases h2
  have hsucc : ∀ dk f, MayScan env a d f → ∃ r, env.scan dk f = .ok r := by
    intro dk f hf
    obtain ⟨h1, h2⟩ := hmay f hf
    obtain ⟨s, hs, -⟩ := D.scans h1 (hI f h1 (there h2)).1 (there h2)
    exact ⟨s, (hscan dk f s).2 (there h2) hs⟩
  have hnoph : ∀ dk f r, env.scan dk f = .ok r → r.placeholders = [] := fun dk f r h => (ht.scans ((hscan _ _ _).1 h)).2
  obtain ⟨sc1, sc2, hg⟩ := scanned_of (a := a) (d := d) hsucc hfuel hnoph
  generalize hout : hotRebuild env a d = out at *
  have hadd : ∀ f, f ∈ a.added.keys → f ∈ out.scanned.keys := fun f h => (sc2 f).2 (.inr h)
  have hchg : ∀ f, f ∈ a.changed.keys → f ∈ out.scanned.keys := fun f h => (sc2 f).2 (.inl (by
    rw [← Dict.get?_isSome_iff, modeStep_get?]
    split
    · rfl
    · exact (Dict.get?_isSome_iff _ _).2 h))
  have hscp : ∀ f, f ∈ out.scanned.keys → p.src f ∧ f ∈ d.files := by
    intro f hf
    rcases (sc2 f).1 hf with h | h
    · rw [← Dict.get?_isSome_iff, modeStep_get?] at h
      split at h
      · next hh => exact hmay f (.inr (.inr (.inl ⟨hh.1, hh.2.1⟩)))
      · exact hmay f (.inl ((Dict.get?_isSome_iff _ _).1 h))
    · exact hmay f (.inr (.inl h))
  have hscd : ∀ f, f ∈ out.scanned.keys → f ∉ a.deleted := fun f hf hd => E.gone f hd (hscp f hf).2
  have hscr : ∀ {f s}, (f, s) ∈ out.scanned → (∀ g, g ∈ s.dependencies ↔ refs W0 f g) ∧ ∀ o, o ∈ s.produces ↔ p.owner o = some f := by
    intro f s hfs
    obtain ⟨h1, h2⟩ := hscp f (List.mem_map.2 ⟨_, hfs, rfl⟩)
    obtain ⟨s', hs', h3⟩ := D.scans h1 (hI f h1 (there h2)).1 (there h2)
    obtain ⟨dk, hdk⟩ := sc1 _ hfs
    have := (hscan _ _ _).1 hdk
    rw [hs'] at this
    cases this
    exact h3
  -- recorded files
  have hold : ∀ f, contains a.old.dep f = true → p.src f := fun f h => ((U.files f).1 h).1
  have hkept : ∀ f, contains a.old.dep f = true → f ∉ a.deleted → f ∉ out.scanned.keys → W0 f = W f := fun f h1 h2 h3 =>
    E.same f (hold f h1) (fun h => h3 (hchg f h)) (fun h => h3 (hadd f h)) h2
  have hwas : ∀ f, contains a.old.dep f = true → f ∈ d.files → f ∉ out.scanned.keys → W0 f = W f ∧ simple W f ∧ ∀ g, refs W f g ↔ refs W0 f g := by
    intro f h1 h2 h3
    have h4 := hkept f h1 (fun hd => E.gone f hd h2) h3
    exact ⟨h4, hkeep f (hold f h1) (there h2) h4 (hI f (hold f h1) (there h2)).1⟩
  have hsrcread : ∀ {f c}, p.src f → W0 f ≠ none → refs W0 f c → p.source (t.read f c) = p.source c := by
    intro f c h1 h2 h3
    obtain ⟨h4, h5⟩ := hI f h1 h2
    rcases D.reads h1 h4 h2 h3 (h5 c h3).1 with h | h
    · exact source_owner h
    · rw [h]; exact source_src hp (h5 c h3).1
  have hbuilt : ∀ f, contains a.old.dep f = true → f ∈ d.files → f ∉ out.scanned.keys →
      (∀ o, p.owner o = some f → Edge a.old.out f o ∧ W o ≠ none) ∧ ∀ c, refs W0 f c → p.source c = f ∨ Edge a.old.dep f (p.source c) := by
    intro f hf hfd hns
    obtain ⟨w1, w2, w3⟩ := hwas f hf hfd hns
    have hWf : W f ≠ none := by rw [← w1]; exact there hfd
    obtain ⟨x, b1, b2, b3, b4⟩ := U.built f hf
    obtain ⟨hs, r, V', q1, rfl⟩ := Tool.builder_some b1
    obtain ⟨q2, q3, -⟩ := D.builds hs w2 hWf (hide_other (hp.owner_src hs f)) (hide_bare _ _ _) q1 fun c _ hcs => hide_other (hp.owner_src hcs f)
    obtain ⟨-, q4⟩ := ht.bare hs q1 (hide_bare _ _ _)
    refine ⟨fun o hof => ?_, fun g hg => ?_⟩
    · have hpo := (q3 o).2 hof
      obtain ⟨z, hz⟩ := Option.ne_none_iff_exists'.1 (q4 o hpo)
      have hm : (o, z) ∈ (t.product f (r, V')).outputs := Tool.mem_outputs.2 ⟨hpo, hz⟩
      exact ⟨(b3 o).2 ⟨z, hm⟩, by rw [b2 o z hm]; simp⟩
    · have := b4 (t.read f g) (List.mem_map_of_mem ((q2 g).2 ((w3 g).2 hg)))
      rw [hsrcread hs (there hfd) hg] at this
      exact this
  have hnph : ∀ {x y}, Needs a out x y → (match out.scanned.get? x with
      | some r => y ≠ x ∧ ((y ∈ r.dependencies ∧ isOutput y = false) ∨ ∃ o ∈ r.dependencies, isOutput o = true ∧ producerOf a out o = some y)
      | none => Edge a.old.dep x y) := by
    rintro x y (h | h)
    · exact h
    · rw [hg] at h
      exact absurd h (r1 y x)
  have hannounce : ∀ {x o}, out.scanned.reverse.find? (fun x => x.2.produces.contains o) = some x → p.owner o = some x.1 := by
    intro x o hx
    have h1 : x ∈ out.scanned := by simpa using List.mem_of_find?_eq_some hx
    have h2 : o ∈ x.2.produces := by simpa using List.find?_some hx
    exact ((hscr (f := x.1) (s := x.2) h1).2 o).1 h2
  have hmaker : ∀ {o g}, producerOf a out o = some g → p.owner o = some g := by
    intro o g h
    unfold producerOf at h
    split at h
    · next x hx => cases h; exact hannounce hx
    · exact hU g o ((edge_iff _ _ _).2 ((hv.out.wf.mem_pars_iff _ _).1 (List.mem_of_find?_eq_some h)))
  have hmade : ∀ {o g}, MadeBy a out o g → p.owner o = some g := by
    intro o g h
    unfold MadeBy at h
    split at h
    · next x hx => rw [h]; exact hannounce hx
    · exact hU g o h
  have hknown : ∀ {g}, p.src g → g ∈ d.files → g ∉ out.scanned.keys → contains a.old.dep g = true := fun {g} h1 h2 h3 =>
    Classical.byContradiction fun hn => h3 (hadd g (E.new g h1 h2 (by simpa using hn)))
  have hproducer : ∀ {o g}, p.owner o = some g → g ∈ d.files → producerOf a out o = some g := by
    intro o g ho' hg'
    have hgs := (hp.owner o g ho').1
    have key : ∃ g', producerOf a out o = some g' := by
      unfold producerOf
      split
      · exact ⟨_, rfl⟩
      · next hnone =>
        have hns : g ∉ out.scanned.keys := by
          intro hk
          obtain ⟨⟨g', s⟩, hm, rfl⟩ := List.mem_map.1 hk
          have := List.find?_eq_none.1 hnone (g', s) (by simpa using hm)
          exact this (by simpa using ((hscr hm).2 o).2 ho')
        have he := ((hbuilt g (hknown hgs hg' hns) hg' hns).1 o ho').1
        cases hf : (pars a.old.out o).find? (fun p => !a.deleted.contains p) with
        | some g' => exact ⟨g', rfl⟩
        | none =>
          have := List.find?_eq_none.1 hf g ((hv.out.wf.mem_pars_iff _ _).2 ((edge_iff _ _ _).1 he))
          exact absurd (by simpa using fun hd => E.gone g hd hg') this
    obtain ⟨g', h⟩ := key
    have := hmaker h
    rw [ho'] at this
    cases this
    exact h
  have howned : ∀ {c}, isOutput c = true → p.src (p.source c) → p.owner c = some (p.source c) := by
    intro c hc hs
    cases h : p.owner c with
    | none =>
      simp only [Project.source, h, Option.getD_none] at hs
      rw [(hp.src _ hs).2] at hc
      cases hc
    | some g => rw [source_owner h]
  have hrefs : ∀ {f g}, p.src f → f ∈ d.files → Needs a out f g → Refers p refs W0 f g := by
    intro f g hs hf hn
    have hn := hnph hn
    split at hn
    · next r hr =>
      obtain ⟨h2, -⟩ := hscr (Dict.mem_of_get? hr)
      rcases hn.2 with ⟨h3, h4⟩ | ⟨o, h3, -, h4⟩
      · exact ⟨g, (h2 g).1 h3, source_of_not_output hp h4⟩
      · exact ⟨o, (h2 o).1 h3, source_owner (hmaker h4)⟩
    · next hr =>
      have hin := contains_of_edge hn
      obtain ⟨w1, w2, w3⟩ := hwas f hin hf ((Dict.get?_eq_none_iff _ _).1 hr)
      have hWf : W f ≠ none := by rw [← w1]; exact there hf
      obtain ⟨m1, V, r, V', q1, q2, q3, q4, q5⟩ := r3 f hin
      obtain ⟨c, hcm, hcg⟩ := q5 g hn
      exact ⟨c, (w3 c).1 (((D.builds hs w2 hWf q1 q2 q3 fun c hcm hcs => (q4 c hcm hcs).1).1 c).1 hcm), hcg⟩
  have hnext : ∀ {f g}, p.src f → f ∈ d.files → Refers p refs W0 f g → p.src g ∧ g ∈ d.files := by
    rintro f g hs hf ⟨c, hr, rfl⟩
    obtain ⟨h1, h2⟩ := (hI f hs (there hf)).2 c hr
    exact ⟨h1, (E.disk _).1 h2⟩
  have hneeds : ∀ {f c}, p.src f → f ∈ d.files → refs W0 f c → Needs a out f (p.source c) := by
    intro f c hs hf hr
    have hne : p.source c ≠ f := by intro e; exact hac f hs (there hf) (.one ⟨c, hr, e⟩)
    obtain ⟨hgs, hgf⟩ := hnext hs hf ⟨c, hr, rfl⟩
    left
    split
    · next r h =>
      obtain ⟨h2, -⟩ := hscr (Dict.mem_of_get? h)
      refine ⟨hne, ?_⟩
      cases hio : isOutput c with
      | false =>
        left
        rw [source_of_not_output hp hio]
        exact ⟨(h2 c).2 hr, hio⟩
      | true => exact .inr ⟨c, (h2 c).2 hr, hio, hproducer (howned hio hgs) hgf⟩
    · next h =>
      have hns := (Dict.get?_eq_none_iff _ _).1 h
      exact ((hbuilt f (hknown hs hf hns) hf hns).2 c hr).resolve_left hne
  have hcurrent : ∀ g, p.src g → g ∈ d.files → Current a out g := by
    intro g hs hf
    have hnd : g ∉ a.deleted := fun hd => E.gone g hd hf
    refine ⟨hnd, ?_⟩
    by_cases hin : contains a.old.dep g = true
    · exact .inr hin
    · exact .inl ⟨hnd, .inl (by simp [touchedSources, hadd g (E.new g hs hf (by simpa using hin))])⟩
  have hacn : ∀ f, ¬ Path (Needs a out) f f := by
    have fwd : ∀ {x y}, Path (Needs a out) x y → p.src x ∧ x ∈ d.files → (p.src y ∧ y ∈ d.files) ∧ Path (Refers p refs W0) x y := by
      intro x y h
      induction h with
      | one e => intro hx; have := hrefs hx.1 hx.2 e; exact ⟨hnext hx.1 hx.2 this, .one this⟩
      | more e _ ih =>
        intro hx
        have := hrefs hx.1 hx.2 e
        obtain ⟨h1, h2⟩ := ih (hnext hx.1 hx.2 this)
        exact ⟨h1, .more this h2⟩
    have bwd : ∀ {x y}, Path (Needs a out) x y → ¬ (p.src y ∧ y ∈ d.files) → Path (Edge a.old.dep) x y := by
      have one : ∀ {x y}, Needs a out x y → ¬ (p.src x ∧ x ∈ d.files) → Edge a.old.dep x y := by
        intro x y e hx
        have e := hnph e
        split at e
        · next r hr => exact absurd (hscp x (Dict.mem_keys_of_get? hr)) hx
        · exact e
      intro x y h
      induction h with
      | one e => intro hy; exact .one (one e fun hx => hy (fwd (.one e) hx).1)
      | more e q ih => intro hy; exact .more (one e fun hx => hy (fwd (.more e q) hx).1) (ih hy)
    intro f hf
    by_cases hx : p.src f ∧ f ∈ d.files
    · exact hac f hx.1 (there hx.2) (fwd hf hx).2
    · exact hoac f (bwd hf hx)
  -- what is rebuilt
  have hreb : ∀ f, Rebuilt a out f → p.src f ∧ f ∈ d.files ∧ (f ∈ out.scanned.keys ∨ contains a.old.dep f = true) := by
    rintro f ⟨h1, h2 | ⟨s, hs, q⟩⟩
    · rcases List.mem_append.1 h2 with h2 | h2
      · exact ⟨(hscp f h2).1, (hscp f h2).2, .inl h2⟩
      · exact absurd h2 h1
    · have hin : contains a.old.dep f = true := by
        have key : ∀ {y}, Uses a.old f y → contains a.old.dep f = true := by
          rintro y (e | e)
          · exact contains_of_edge e
          · exact absurd e (r1 _ _)
        cases q with
        | one e => exact key e
        | more e _ => exact key e
      exact ⟨hold f hin, E.deleted f hin h1, .inr hin⟩
  have hstart : ∀ {f}, Event.started f ∈ out.log → Rebuilt a out f := fun {f} h => by
    subst hout; exact (C10_rebuild_set env a d hv ho).1 f h
  have hends : ∀ {f r}, Event.finished f r ∈ out.log → Event.started f ∈ out.log := fun {f r} h => by
    subst hout
    obtain ⟨pre, post, e⟩ := List.append_of_mem h
    rw [e]
    exact List.mem_append.2 (.inl ((C11_built_exactly_once env a d hv ho).2.2.1 pre f r post e))
  have hown : ∀ {g r o}, Event.finished g r ∈ out.log → o ∈ r.produced → p.owner o = some g := fun {g r o} h1 h2 =>
    ht.own (hreb g (hstart (hends h1))).1 (X.ran g r h1) (by simp [h2])
  have hbare : ∀ {f}, Event.started f ∈ out.log → Bare p f (X.view f) := by
    intro f hf o hof
    obtain ⟨pre, post, e⟩ := mem_started_split hf
    rcases X.sees pre f post e o with ⟨h1, -⟩ | ⟨g, r', h1, h2, h3, -⟩
    · rw [h1]
      refine Classical.byContradiction fun hn => ?_
      by_cases hu : Unlinked a out o
      · exact hn (X.start_unlinked o hu)
      · rw [X.start_kept o hu, E.outputs o (by simp [hof])] at hn
        exact hu ⟨⟨f, (hstart hf).2, (U.only o f hof hn).2⟩, ht.plain hof⟩
    · have := hown h2 h3
      rw [hof] at this
      cases this
      exact absurd rfl h1
  have hview : ∀ {f}, Event.started f ∈ out.log → ∀ c, p.src c → X.view f c = W0 c := by
    intro f hf c hcs
    obtain ⟨pre, post, e⟩ := mem_started_split hf
    rcases X.sees pre f post e c with ⟨h1, -⟩ | ⟨g, r', h1, h2, h3, -⟩
    · rw [h1]
      refine X.start_kept c ?_
      rintro ⟨⟨x, -, hx⟩, -⟩
      exact hp.owner_src hcs x (hU x c hx)
    · exact absurd (hown h2 h3) (hp.owner_src hcs g)
  have hann : ∀ f, Rebuilt a out f → ∀ o, Announced a out f o ↔ p.owner o = some f := by
    intro f hf o
    obtain ⟨h1, h2, h3⟩ := hreb f hf
    unfold Announced
    split
    · next r hr =>
      exact (hscr (Dict.mem_of_get? hr)).2 o
    · next hr =>
      have hns := (Dict.get?_eq_none_iff _ _).1 hr
      have hin := h3.resolve_left hns
      exact ⟨hU f o, fun h => ((hbuilt f hin h2 hns).1 o h).1⟩
  have hres : ∀ {f r}, Event.finished f r ∈ out.log → p.src f ∧ f ∈ d.files ∧ (∀ g, g ∈ r.children ↔ refs W0 f g) ∧
      (∀ o, o ∈ r.produced ↔ p.owner o = some f) ∧ r.produced.Nodup ∧ r.reused = [] ∧ ∀ o ∈ r.produced, X.wrote f o ≠ none := by
    intro f r hfr
    have hsf := hends hfr
    obtain ⟨h1, h2, -⟩ := hreb f (hstart hsf)
    obtain ⟨q1, q2, q3⟩ := D.builds h1 (hI f h1 (there h2)).1 (there h2) (hview hsf f h1) (hbare hsf) (X.ran f r hfr) fun c _ hcs => hview hsf c hcs
    obtain ⟨q4, q5⟩ := ht.bare h1 (X.ran f r hfr) (hbare hsf)
    exact ⟨h1, h2, q1, q2, q3, q4, q5⟩
  have G : GoodResults a d out := by
    refine ⟨fun f r hfr => ?_, fun f r hfr c hcm hio => ?_, fun f r hfr c hcm hio => ?_, fun f r hfr o hom => ?_⟩
    · obtain ⟨-, -, -, h1, h2, h3, -⟩ := hres hfr
      rw [h3, List.append_nil]
      exact ⟨fun o => (h1 o).trans (hann f (hstart (hends hfr)) o).symm, h2⟩
    · obtain ⟨hs, hf, h1, -⟩ := hres hfr
      have hrf := (h1 c).1 hcm
      obtain ⟨h2, h3⟩ := hnext hs hf ⟨c, hrf, rfl⟩
      have h4 := hneeds hs hf hrf
      rw [source_of_not_output hp hio] at h2 h3 h4
      exact ⟨hcurrent c h2 h3, .one h4⟩
    · obtain ⟨hs, hf, h1, -⟩ := hres hfr
      have hrf := (h1 c).1 hcm
      obtain ⟨h2, h3⟩ := hnext hs hf ⟨c, hrf, rfl⟩
      have h4 := howned hio h2
      refine ⟨?_, fun q hq => ?_⟩
      · by_cases hfk : f ∈ out.scanned.keys
        · obtain ⟨⟨f', s⟩, hm, rfl⟩ := List.mem_map.1 hfk
          exact .inl ⟨_, hm, .inr (((hscr hm).1 c).2 hrf)⟩
        by_cases hgk : p.source c ∈ out.scanned.keys
        · obtain ⟨⟨g', s⟩, hm, e⟩ := List.mem_map.1 hgk
          exact .inl ⟨_, hm, .inl (((hscr hm).2 c).2 (by rw [h4, ← e]))⟩
        exact .inr ⟨hfk, p.source c, ((hbuilt f (hknown hs hf hfk) hf hfk).2 c hrf).imp_right .one,
          ((hbuilt _ (hknown h2 h3 hgk) h3 hgk).1 c h4).1⟩
      · have := hmade hq
        rw [h4] at this
        cases this
        exact .inr ⟨hcurrent _ h2 h3, .one (hneeds hs hf hrf)⟩
    · obtain ⟨-, -, -, -, -, h3, -⟩ := hres hfr
      rw [h3] at hom
      cases hom
  have Hs : SoundHistory a.old d := by
    refine ⟨fun x hx => ⟨r2 x hx, (hp.src x (hold x hx)).2⟩, fun x o he => ⟨U.recorded x o he, (hp.owner o x (hU x o he)).2⟩,
      fun x y he => absurd he (r1 x y), fun x o he => ?_, fun x o he h => ?_, fun x y z he => absurd he (r1 x y)⟩
    · refine hh o ((E.disk o).1 ?_) (hp.owner o x (hU x o he)).2
      obtain ⟨v, b1, b2, b3, -⟩ := U.built x (U.recorded x o he)
      obtain ⟨z, hz⟩ := (b3 o).1 he
      rw [E.outputs o (by simp [hU x o he]), b2 o z hz]
      simp
    · rw [ht.plain (hU x o he)] at h
      cases h
  have S : GoodScans env a d out := by
    refine ⟨hsucc, ⟨[], hfuel, fun dk f r h q hq => by rw [hnoph dk f r h] at hq; exact hq⟩,
      fun x hx => ⟨(hp.src x (hscp x hx).1).2, hscd x hx⟩, fun x hx o hox => ?_, fun x hx o hox hio => ?_, fun x y z h1 h2 => ?_⟩
    · obtain ⟨-, h4⟩ := hscr (f := x.1) (s := x.2) hx
      exact (hp.owner o x.1 ((h4 o).1 hox)).2
    · obtain ⟨h4, -⟩ := hscr (f := x.1) (s := x.2) hx
      obtain ⟨hs, hf⟩ := hscp x.1 (List.mem_map.2 ⟨_, hx, rfl⟩)
      obtain ⟨h5, h6⟩ := hnext hs hf ⟨o, (h4 o).1 hox, rfl⟩
      exact ⟨_, hproducer (howned hio h5) h6⟩
    · rcases h1 with h1 | h1
      · exact r1 _ _ h1
      · rw [hg] at h1; cases h1
  subst hout
  rcases C57_or_raises_partial env a d hv ho Hs S G hacn hw with h | ⟨f, hf⟩
  · exact h
  -- no build raises
  exfalso
  have hsf := hf.1
  obtain ⟨h1, h2, -⟩ := hreb f (hstart hsf)
  refine D.works (m := a.mode) h1 (hI f h1 (there h2)).1 (there h2) (hview hsf) (hbare hsf) (fun c hcr => ?_) (X.raised f hf)
  obtain ⟨hgs, hgf⟩ := hnext h1 h2 ⟨c, hcr, rfl⟩
  have hnd' := hneeds h1 h2 hcr
  have hread := D.reads h1 (hI f h1 (there h2)).1 (there h2) hcr hgs
  revert hgs hgf hnd' hread
  generalize p.source c = g
  intro hgs hgf hnd' hread
  by_cases hself : t.read f c = g
  · rw [hself, hview hsf g hgs]; exact there hgf
  have howner := hread.resolve_right hself
  obtain ⟨pre, post, e⟩ := mem_started_split hsf
  rcases X.sees pre f post e (t.read f c) with ⟨q1, q2⟩ | ⟨g', r, q1, q2, q3, q4⟩
  · by_cases hr : Rebuilt a (hotRebuild env a d) g
    · obtain ⟨r, hgr⟩ := C12_dependencies_first env a d hv ho pre f post e g hnd' hr
      refine absurd ⟨g, r, hgr, ?_⟩ q2
      obtain ⟨-, -, -, h5, -⟩ := hres (f := g) (r := r) (by rw [e]; simp [hgr])
      exact (h5 _).2 howner
    · obtain ⟨hnd, hcu⟩ := hcurrent g hgs hgf
      have hin := hcu.resolve_left hr
      have hns : g ∉ (hotRebuild env a d).scanned.keys := fun h => hr ⟨hnd, .inl (by simp [touchedSources, h])⟩
      obtain ⟨-, h5⟩ := (hbuilt g hin hgf hns).1 _ howner
      rw [q1, X.start_kept _ (by
        rintro ⟨⟨x, hx, hxo⟩, -⟩
        have := hU x _ hxo
        rw [howner] at this
        cases this
        exact hr ⟨hnd, hx⟩), E.outputs _ (by simp [howner])]
      exact h5
  · rw [q4]
    obtain ⟨-, -, -, -, -, -, h5⟩ := hres q2
    exact h5 _ q3

/-- Likewise, if only sources are referred to. -/
theorem intact_of_sources {p : Project} {simple : Contents C → String → Prop} {refs : Contents C → String → String → Prop} (hp : p.Lawful) {W : Contents C}
    (hI : ∀ f, p.src f → W f ≠ none → simple W f ∧ ∀ g, refs W f g → p.src g ∧ W g ≠ none) :
    Intact p simple refs W ∧ ∀ f, p.src f → W f ≠ none → ¬ Path (refs W) f f → ¬ Path (Refers p refs W) f f := by
  refine ⟨fun f h1 h2 => ⟨(hI f h1 h2).1, fun c hc => ?_⟩, fun f h1 h2 hac hf => hac ?_⟩
  · have := (hI f h1 h2).2 c hc
    rwa [source_src hp this.1]
  · have step : ∀ {x y}, Refers p refs W x y → p.src x → W x ≠ none → refs W x y ∧ p.src y ∧ W y ≠ none := by
      rintro x y ⟨c, hc, rfl⟩ hx hw
      have := (hI x hx hw).2 c hc
      rw [source_src hp this.1]
      exact ⟨hc, this⟩
    have all : ∀ {x y}, Path (Refers p refs W) x y → p.src x → W x ≠ none → Path (refs W) x y := by
      intro x y h
      induction h with
      | one e => exact fun hx hw => .one (step e hx hw).1
      | more e _ ih =>
        intro hx hw
        obtain ⟨a, b, c⟩ := step e hx hw
        exact .more a (ih b c)
    exact all hf h1 h2

end Verif.Hot
