import Verif.HotContents
/-!
# C79: from handlers to builders

`Builder` in `HotContents.lean` says what the build of a file should give.  The handlers of the program look whether outputs are there
already.  Here a project is rebuilt with handlers; if they keep to `Tool.Lawful` then the history is one of the builder which they are
if none of the outputs is there.
-/
namespace Verif.Hot
open Verif Verif.Graph

variable {C : Type}

/-- The handlers.  `build` says what is reported and what is in the files afterwards, `none` if it fails; `scan` likewise; `read f c`
is the file which is read when `f` is built because of the child `c`. -/
structure Tool (C : Type) where
  build : Mode → String → Contents C → Option (BuildResult × Contents C)
  scan : String → Contents C → Option ScanResult
  read : String → String → String

/-- None of the outputs of this source is there. -/
def Bare (p : Project) (f : String) (W : Contents C) : Prop := ∀ o, p.owner o = some f → W o = none

/-- What is assumed of the handlers. -/
structure Tool.Lawful (p : Project) (t : Tool C) : Prop where
  /-- No output is an artifact. -/
  plain : ∀ {o f}, p.owner o = some f → startsWith o "artifacts" = false
  /-- What a build reports belongs to the source. -/
  own : ∀ {m f W r W' o}, p.src f → t.build m f W = some (r, W') → o ∈ r.produced ++ r.reused → p.owner o = some f
  /-- If none of its outputs is there, a build reuses nothing, and what it reports is there afterwards. -/
  bare : ∀ {m f W r W'}, p.src f → t.build m f W = some (r, W') → Bare p f W → r.reused = [] ∧ ∀ o ∈ r.produced, W' o ≠ none
  /-- What is read because of the children is there. -/
  strict : ∀ {m f W r W' c}, p.src f → t.build m f W = some (r, W') → Bare p f W → c ∈ r.children → W (t.read f c) ≠ none
  /-- The result depends on the source and on what is read because of the children, and on nothing else. -/
  reads : ∀ {m f W r W' V}, p.src f → t.build m f W = some (r, W') → Bare p f W → Bare p f V → V f = W f →
    (∀ c ∈ r.children, p.source (t.read f c) ≠ f → V (t.read f c) = W (t.read f c)) → ∃ V', t.build m f V = some (r, V') ∧ ∀ o ∈ r.produced, V' o = W' o
  /-- What is read because of a child which is a file of the project belongs to the same source. -/
  covers : ∀ {m f W r W' c}, p.src f → t.build m f W = some (r, W') → c ∈ r.children → p.src c ∨ p.owner c ≠ none → p.source (t.read f c) = p.source c
  /-- Only the constants depend on the mode. -/
  mode : ∀ {m m' f W}, f ≠ p.constants → t.build m f W = t.build m' f W
  /-- A scan says that outputs of the source are produced, and creates no placeholders. -/
  scans : ∀ {f W s}, t.scan f W = some s → (∀ o ∈ s.produces, p.owner o = some f) ∧ s.placeholders = []

/-- The contents without the outputs of `f`. -/
def hide (p : Project) (f : String) (W : Contents C) : Contents C := fun c => if p.owner c = some f then none else W c

theorem hide_bare (p : Project) (f : String) (W : Contents C) : Bare p f (hide p f W) := fun o ho => by simp [hide, ho]

theorem hide_other {p : Project} {f : String} {W : Contents C} {c : String} (h : p.owner c ≠ some f) : hide p f W c = W c := by simp [hide, h]

/-- What the build has given. -/
def Tool.product (t : Tool C) (f : String) (x : BuildResult × Contents C) : Product C :=
  ⟨x.1.children.map (t.read f), x.1.children, x.1.produced.filterMap fun o => (x.2 o).map fun y => (o, y)⟩

/-- The builder: what the handlers give if none of the outputs is there. -/
noncomputable def Tool.builder (t : Tool C) (p : Project) : Builder C := fun m f W =>
  open Classical in if p.src f then (t.build m f (hide p f W)).map (t.product f) else none

theorem Tool.builder_some {t : Tool C} {p : Project} {m : Mode} {f : String} {W : Contents C} {x : Product C} (h : t.builder p m f W = some x) :
    p.src f ∧ ∃ r W', t.build m f (hide p f W) = some (r, W') ∧ x = t.product f (r, W') := by
  unfold Tool.builder at h
  split at h
  · next hs =>
    obtain ⟨⟨r, W'⟩, h1, h2⟩ := Option.map_eq_some_iff.1 h
    exact ⟨hs, r, W', h1, h2.symm⟩
  · cases h

theorem Tool.mem_outputs {t : Tool C} {f : String} {r : BuildResult} {W : Contents C} {o : String} {y : C} :
    (o, y) ∈ (t.product f (r, W)).outputs ↔ o ∈ r.produced ∧ W o = some y := by
  simp only [Tool.product, List.mem_filterMap]
  constructor
  · rintro ⟨a, h1, h2⟩
    obtain ⟨b, h3, h4⟩ := Option.map_eq_some_iff.1 h2
    cases h4
    exact ⟨h1, h3⟩
  · rintro ⟨h1, h2⟩
    exact ⟨o, h1, by simp [h2]⟩

theorem Tool.product_congr {t : Tool C} {f : String} {r : BuildResult} {V W : Contents C} (h : ∀ o ∈ r.produced, V o = W o) : t.product f (r, V) = t.product f (r, W) := by
  unfold Tool.product
  congr 1
  generalize r.produced = l at h
  induction l with
  | nil => rfl
  | cons o l ih =>
    simp only [List.filterMap_cons]
    rw [ih fun o ho => h o (.tail _ ho)]
    dsimp only
    rw [h o (.head _)]

theorem Project.Lawful.owner_src {p : Project} (hp : p.Lawful) {f : String} (h : p.src f) (g : String) : p.owner f ≠ some g := by
  rw [(hp.src f h).1]; simp

theorem source_owner {p : Project} {c f : String} (h : p.owner c = some f) : p.source c = f := by simp [Project.source, h]

/-- Handlers which keep to the rules give a builder which does. -/
theorem Tool.Lawful.pure {p : Project} {t : Tool C} (hp : p.Lawful) (ht : t.Lawful p) : Pure p (t.builder p) where
  owned h ho := by
    obtain ⟨hs, r, W', h1, rfl⟩ := Tool.builder_some h
    exact ht.own hs h1 (by simp [(Tool.mem_outputs.1 ho).1])
  once h h1 h2 := by
    obtain ⟨hs, r, W', _, rfl⟩ := Tool.builder_some h
    have e1 := (Tool.mem_outputs.1 h1).2
    rw [(Tool.mem_outputs.1 h2).2] at e1
    exact (Option.some.inj e1).symm
  strict {m f W x c} h hc hn := by
    obtain ⟨hs, r, W', h1, rfl⟩ := Tool.builder_some h
    obtain ⟨c', h2, rfl⟩ := List.mem_map.1 hc
    have := ht.strict hs h1 (hide_bare _ _ _) h2
    rwa [hide_other fun h => hn (source_owner h)] at this
  plain h hc ho hn := by
    rename_i m f W x c
    cases hco : p.owner c with
    | none => exact absurd hco ho
    | some g => exact ht.plain hco
  reads {m f W V x} h hf hr := by
    obtain ⟨hs, r, W', h1, rfl⟩ := Tool.builder_some h
    obtain ⟨V', h2, h3⟩ := ht.reads (V := hide p f V) hs h1 (hide_bare _ _ _) (hide_bare _ _ _)
      (by rw [hide_other (hp.owner_src hs f), hide_other (hp.owner_src hs f), hf])
      fun c hc hn => by
        have hno : p.owner (t.read f c) ≠ some f := fun h => hn (source_owner h)
        rw [hide_other hno, hide_other hno]
        exact hr _ (List.mem_map_of_mem hc) hn
    unfold Tool.builder
    rw [if_pos hs, h2]
    simp only [Option.map_some]
    rw [Tool.product_congr h3]
  covers {m f W x c} h hk hc _ := by
    obtain ⟨hs, r, W', h1, rfl⟩ := Tool.builder_some h
    obtain ⟨c', h2, rfl⟩ := List.mem_map.1 hc
    exact ⟨c', h2, (ht.covers hs h1 h2 (hk c' h2)).symm⟩
  mode {m m' f W} h := by
    unfold Tool.builder
    rw [ht.mode (m' := m') h]

/-- What a rebuild does with the contents of the files, from `W0` to `W`. -/
structure Work (t : Tool C) (a : Args) (out : Outcome) (W0 W : Contents C) where
  /-- the contents which the build of a file has seen, and those it has left -/
  view : String → Contents C
  wrote : String → Contents C
  /-- the contents when building starts: recorded outputs have been removed -/
  start : Contents C
  start_unlinked : ∀ c, Unlinked a out c → start c = none
  start_kept : ∀ c, ¬ Unlinked a out c → start c = W0 c
  /-- every finished build is one of the handlers -/
  ran : ∀ f r, Event.finished f r ∈ out.log → t.build a.mode f (view f) = some (r, wrote f)
  /-- builds see files as they were when building started, or as other builds have written them -/
  sees : ∀ f r, Event.finished f r ∈ out.log → ∀ c, view f c = start c ∨
    ∃ g r', g ≠ f ∧ Event.finished g r' ∈ out.log ∧ c ∈ r'.produced ∧ view f c = wrote g c
  /-- in the end there are the files which are on disk, as they were written or as they were when building started -/
  missing : ∀ c, c ∉ out.disk.files → W c = none
  written : ∀ c ∈ out.disk.files, (∃ g r, Event.finished g r ∈ out.log ∧ c ∈ r.produced) →
    ∃ g r, Event.finished g r ∈ out.log ∧ c ∈ r.produced ∧ W c = wrote g c
  kept : ∀ c ∈ out.disk.files, (¬ ∃ g r, Event.finished g r ∈ out.log ∧ c ∈ r.produced) → W c = start c

/-- Files are scanned by the handlers. -/
def Scanned (t : Tool C) (env : Env) : Prop := ∀ d f s, env.scan d f = .ok s → ∃ W, t.scan f W = some s

/-! ## Scans -/

theorem mem_set {α : Type} {k : String} {v : α} {x : String × α} : ∀ {d : Dict α}, x ∈ d.set k v → x = (k, v) ∨ x ∈ d
  | [], h => by simpa [Dict.set] using h
  | (k', v') :: d, h => by
    unfold Dict.set at h
    split at h
    · next hk =>
      rcases List.mem_cons.1 h with h | h
      · exact .inl (by simp_all)
      · exact .inr (.tail _ h)
    · rcases List.mem_cons.1 h with h | h
      · exact .inr (h ▸ .head _)
      · exact (mem_set h).imp id (.tail _)

theorem mem_updated {x : String × ScanResult} : ∀ {rs : List (String × ScanResult)} {d : Dict ScanResult}, x ∈ updateAll rs d → x ∈ rs ∨ x ∈ d
  | [], _, h => .inr h
  | r :: rs, d, h => by
    have h : x ∈ updateAll rs (d.set r.1 r.2) := h
    rcases mem_updated h with h | h
    · exact .inl (.tail _ h)
    · rcases mem_set h with h | h
      · exact .inl (h ▸ .head _)
      · exact .inr h

theorem makePlaceholders_updated (sig : String → Sig) (f : String) : ∀ (ps : List String) (st : ScanState), (makePlaceholders sig f ps st).1.updated = st.updated
  | [], _ => rfl
  | p :: ps, st => by
    unfold makePlaceholders
    split
    · exact makePlaceholders_updated sig f ps st
    · exact makePlaceholders_updated sig f ps _

theorem makeAll_updated (sig : String → Sig) : ∀ (rs : List (String × ScanResult)) (st : ScanState), (makeAll sig rs st).1.updated = st.updated
  | [], _ => rfl
  | (f, r) :: rs, st => by
    simp only [makeAll]
    rw [makeAll_updated, makePlaceholders_updated]

/-- What is known of a file is what some scan of it has said. -/
theorem scanLoop_scanned {scan : Scanner} {sig : String → Sig} : ∀ {n : Nat} {fs : List String} {st st' : ScanState}, scanLoop scan sig n fs st = (.ok (), st') →
    (∀ x ∈ st.updated, ∃ d, scan d x.1 = .ok x.2) → ∀ x ∈ st'.updated, ∃ d, scan d x.1 = .ok x.2
  | n, [], st, st', h, hs => by
    have : st = st' := by cases n <;> simpa [scanLoop] using h
    subst this; exact hs
  | 0, f :: fs, st, st', h, _ => by simp [scanLoop] at h
  | n + 1, f :: fs, st, st', h, hs => by
    simp only [scanLoop] at h
    split at h
    · simp at h
    · next rs hrs =>
      refine scanLoop_scanned h fun x hx => ?_
      rw [makeAll_updated] at hx
      rcases mem_updated hx with hx | hx
      · rcases mem_updated hx with hx | hx
        · exact ⟨_, (scanFiles_keys hrs).2 x hx⟩
        · cases hx
      · exact hs x hx

theorem scans_of {p : Project} {t : Tool C} (ht : t.Lawful p) {env : Env} {a : Args} {d : Disk} (hs : Scanned t env) (hc : p.src p.constants)
    (hf : (hotRebuild env a d).status = .finished) : Scans p a (hotRebuild env a d) ∧ (hotRebuild env a d).generated = [] := by
  rcases hotRebuild_cases env a d with ⟨h1, h2, h3⟩ | ⟨P, hP⟩
  · have hsc := (h3 hf).1
    have hg : (hotRebuild env a d).generated = [] := by
      obtain ⟨-, q1, q2, q3, -⟩ := h3 hf
      unfold hotRebuild
      simp only
      rw [if_pos (by simp [q1, q2, q3])]
    exact ⟨⟨by rw [hsc]; simp, by rw [hg]; simp [Dict.keys], hc⟩, hg⟩
  · rw [hP] at hf ⊢
    have hsc := scanLoop_scanned P.hscan (by simp)
    have hg : P.result.generated = [] := by
      obtain ⟨k1, k2, ⟨new, n1, n2, n3, n4, n5, n6⟩, k3⟩ := (scanLoop_spec _ _ _ _ _ _
        (by simp [Dict.NodupKeys, Dict.keys]) (by simp [Dict.NodupKeys, Dict.keys]) (by simp) P.hscan)
      have hne : ∀ x, x ∉ new := by
        intro x hx
        obtain ⟨-, -, y, -, d', r, h1, h2⟩ := n2 x hx
        obtain ⟨W, h3⟩ := hs _ _ _ h1
        rw [(ht.scans h3).2] at h2
        cases h2
      rw [P.result_generated]
      cases hn : P.st.newPh with
      | nil => rfl
      | cons e l =>
        have := (n4 e.1).1 (by rw [hn]; simp [Dict.keys])
        rcases this with h | h
        · simp [Dict.keys] at h
        · exact absurd h (hne _)
    refine ⟨⟨fun x hx o ho => ?_, by rw [hg]; simp [Dict.keys], hc⟩, hg⟩
    rw [P.result_scanned] at hx
    obtain ⟨d', h1⟩ := hsc x hx
    obtain ⟨W, h2⟩ := hs _ _ _ h1
    exact (ht.scans h2).1 o ho

/-! ## Rebuilds -/

section
variable {p : Project} {t : Tool C} {env : Env} {a : Args} {d : Disk} {out : Outcome} {gs : Graphs} {m0 : Mode} {W W0 W' : Contents C}

/-- Only sources are built. -/
theorem Facts.src (F : Facts env a d out gs) (S : Scans p a out) {B : Builder C} (hc : a.constants = p.constants) (U : UpToDate p B m0 W a.old)
    (E : Edits p a d W W0) {f : String} {r : BuildResult} (h : Event.finished f r ∈ out.log) : p.src f := by
  rcases F.known f ((F.ends f).1 ⟨r, h⟩) with h | h
  · rcases (F.touched f).1 h with h | h | h | h
    · exact (E.changed f h).1
    · exact (E.added f h).1
    · rw [h.1, hc]; exact S.constants
    · exact (S.generated f h).1
  · exact ((U.files f).1 h).1

/-- When a file is built none of its outputs is there. -/
theorem Work.bare (ht : t.Lawful p) (F : Facts env a d out gs) (S : Scans p a out) (hc : a.constants = p.constants)
    {B0 : Builder C} (U : UpToDate p B0 m0 W a.old) (E : Edits p a d W W0) (X : Work t a out W0 W') {f : String} {r : BuildResult}
    (h : Event.finished f r ∈ out.log) : Bare p f (X.view f) := by
  intro o ho
  rcases X.sees f r h o with h1 | ⟨g, r', h1, h2, h3, -⟩
  · rw [h1]
    refine Classical.byContradiction fun hn => ?_
    by_cases hu : Unlinked a out o
    · exact hn (X.start_unlinked o hu)
    · rw [X.start_kept o hu, E.outputs o (by simp [ho])] at hn
      exact hu ⟨⟨f, ((F.ends f).1 ⟨r, h⟩).2, (U.only o f ho hn).2⟩, ht.plain ho⟩
  · have := ht.own (F.src S hc U E h2) (X.ran g r' h2) (o := o) (by simp [h3])
    rw [ho] at this
    cases this
    exact absurd rfl h1

theorem Work.product (hp : p.Lawful) (ht : t.Lawful p) (F : Facts env a d out gs) (S : Scans p a out) (hc : a.constants = p.constants)
    {B0 : Builder C} (U : UpToDate p B0 m0 W a.old) (E : Edits p a d W W0) (X : Work t a out W0 W') {f : String} {r : BuildResult}
    (h : Event.finished f r ∈ out.log) : t.builder p a.mode f (X.view f) = some (t.product f (r, X.wrote f)) ∧ r.reused = [] ∧
      ∀ o ∈ r.produced, ∃ y, X.wrote f o = some y := by
  have hs := F.src S hc U E h
  have hb := X.bare ht F S hc U E h
  have hr := X.ran f r h
  obtain ⟨V', h1, h2⟩ := ht.reads (V := hide p f (X.view f)) hs hr hb (hide_bare _ _ _) (hide_other (hp.owner_src hs f))
    fun c _ hn => hide_other fun h => hn (source_owner h)
  obtain ⟨h3, h4⟩ := ht.bare hs hr hb
  refine ⟨?_, h3, fun o ho => Option.ne_none_iff_exists'.1 (h4 o ho)⟩
  unfold Tool.builder
  rw [if_pos hs, h1]
  simp only [Option.map_some]
  rw [Tool.product_congr h2]

/-- Such a rebuild is one of the builder. -/
noncomputable def Work.exec (hp : p.Lawful) (ht : t.Lawful p) (F : Facts env a d out gs) (S : Scans p a out) (hg : out.generated = [])
    (hc : a.constants = p.constants) {B0 : Builder C} (U : UpToDate p B0 m0 W a.old) (E : Edits p a d W W0) (X : Work t a out W0 W') :
    Exec (t.builder p) a out (fun _ => none) W0 W' := by
  classical
  have key := fun {f r} (h : Event.finished f r ∈ out.log) => X.product hp ht F S hc U E h
  let prod : String → Product C := fun f => (t.builder p a.mode f (X.view f)).getD ⟨[], [], []⟩
  have hprod : ∀ {f r}, Event.finished f r ∈ out.log → prod f = t.product f (r, X.wrote f) := fun h => by simp [prod, (key h).1]
  have hout : ∀ {f r o}, Event.finished f r ∈ out.log → o ∈ r.produced → ∃ y, (o, y) ∈ (prod f).outputs ∧ X.wrote f o = some y := fun h ho => by
    obtain ⟨y, hy⟩ := (key h).2.2 _ ho
    exact ⟨y, by rw [hprod h]; exact Tool.mem_outputs.2 ⟨ho, hy⟩, hy⟩
  exact {
    view := X.view
    prod := prod
    start := X.start
    start_generated := by rw [hg]; simp [Dict.keys]
    start_unlinked := fun c _ h => X.start_unlinked c h
    start_kept := fun c _ h => X.start_kept c h
    ran := fun f r h => by
      refine ⟨by rw [(key h).1, hprod h], by rw [hprod h]; rfl, fun o => ?_⟩
      rw [(key h).2.1, List.append_nil]
      constructor
      · intro ho
        obtain ⟨y, hy, -⟩ := hout h ho
        exact ⟨y, hy⟩
      · rintro ⟨y, hy⟩
        rw [hprod h] at hy
        exact (Tool.mem_outputs.1 hy).1
    reused := fun f r h o y hy hn => by
      rw [hprod h] at hy
      exact absurd (Tool.mem_outputs.1 hy).1 hn
    sees := fun f r h c => by
      rcases X.sees f r h c with h1 | ⟨g, r', -, h2, h3, h4⟩
      · exact .inl h1
      · obtain ⟨y, h5, h6⟩ := hout h2 h3
        exact .inr ⟨g, r', h2, h3, y, h5, by rw [h4, h6]⟩
    missing := X.missing
    written := fun c hd hw => by
      obtain ⟨g, r, h1, h2, h3⟩ := X.written c hd hw
      obtain ⟨y, h5, h6⟩ := hout h1 h2
      exact ⟨g, r, h1, h2, y, h5, by rw [h3, h6]⟩
    kept := X.kept }

/-- A rebuild which builds nothing. -/
noncomputable def Work.idle {B : Builder C} (hl : out.log = []) (hg : out.generated = []) (X : Work t a out W0 W') : Exec B a out (fun _ => none) W0 W' where
  view := X.view
  prod := fun _ => ⟨[], [], []⟩
  start := X.start
  start_generated := by rw [hg]; simp [Dict.keys]
  start_unlinked := fun c _ h => X.start_unlinked c h
  start_kept := fun c _ h => X.start_kept c h
  ran := by rw [hl]; simp
  reused := by rw [hl]; simp
  sees := by rw [hl]; simp
  missing := X.missing
  written := by rw [hl]; simp
  kept := X.kept
end

/-- Like `History`, with handlers. -/
inductive Worked (p : Project) (t : Tool C) : Mode → Contents C → Graphs → Option Mode → Prop
  | empty (m : Mode) (W : Contents C) : (∀ f, p.src f ∨ p.owner f ≠ none → W f = none) → Worked p t m W ⟨[], [], []⟩ none
  | rebuild {m0 W W0 W'} {env : Env} {a : Args} {d : Disk} : Worked p t m0 W a.old d.mode → ValidOrder env → Scanned t env →
      a.constants = p.constants → Edits p a d W W0 → Work t a (hotRebuild env a d) W0 W' → (hotRebuild env a d).status = .finished →
      Worked p t a.mode W' ((hotRebuild env a d).stored.getD a.old) (hotRebuild env a d).disk.mode

theorem Worked.history {p : Project} {t : Tool C} (hp : p.Lawful) (ht : t.Lawful p) (hc : p.src p.constants) {m : Mode} {W : Contents C} {gs : Graphs}
    {dm : Option Mode} (h : Worked p t m W gs dm) : History p (t.builder p) m W gs dm := by
  induction h with
  | empty m W hW => exact .empty m W hW
  | @rebuild m0 W W0 W' env a d hist ho hs hco E X hf ih =>
    obtain ⟨U, hv, -, -⟩ := ih.upToDate hp (ht.pure hp)
    obtain ⟨S, hg⟩ := scans_of (a := a) (d := d) ht hs hc hf
    cases hst : (hotRebuild env a d).stored with
    | none =>
      rw [← hst]
      exact .rebuild ih ho hco E S (X.idle (idle hv ho hf hst).1 hg) hf
    | some gs =>
      rw [← hst]
      exact .rebuild ih ho hco E S (X.exec hp ht (facts hv ho hst) S hg hco U E) hf

end Verif.Hot
