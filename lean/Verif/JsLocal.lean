import Verif.JsFile
/-!
# What the build of a script depends on

The build of a script reads the script and the hashes of the files it lists as children, and nothing else: with other files which
agree on these it gives the same.
-/

namespace Verif.Build

/-- `m'` does what `m` does, as long as the new state is `Good`; the states grow. -/
structure Tracks {S τ E : Type} (ext : S → S → Prop) (Good : S → Prop) (m m' : Manip S τ E) : Prop where
  start : ∀ {s t b s'}, m.start s t = .ok (b, s') → ext s s' ∧ (Good s' → m'.start s t = .ok (b, s'))
  cont : ∀ {s t b s'}, m.cont s t = .ok (b, s') → ext s s' ∧ (Good s' → m'.cont s t = .ok (b, s'))

section
variable {S τ E : Type} {ext : S → S → Prop} {Good : S → Prop}

/-- What is known of `ext` and `Good`. -/
structure Growing (ext : S → S → Prop) (Good : S → Prop) : Prop where
  refl : ∀ s, ext s s
  trans : ∀ {a b c}, ext a b → ext b c → ext a c
  down : ∀ {a b}, ext a b → Good b → Good a

inductive Alike (ext : S → S → Prop) (Good : S → Prop) : Option (Manip S τ E) → Option (Manip S τ E) → Prop
  | none : Alike ext Good .none .none
  | some {m m'} : Tracks ext Good m m' → Alike ext Good (.some m) (.some m')

theorem findMark_tracks (hg : Growing ext Good) {ms ms' : List (Manip S τ E)} (h : List.Forall₂ (Tracks ext Good) ms ms') {s s' : S} {t : τ}
    {m : Option (Manip S τ E)} (hf : findMark ms s t = .ok (m, s')) :
    ext s s' ∧ ∃ m', Alike ext Good m m' ∧ (Good s' → findMark ms' s t = .ok (m', s')) := by
  induction h generalizing s with
  | nil =>
    simp only [findMark, Except.ok.injEq, Prod.mk.injEq] at hf
    obtain ⟨rfl, rfl⟩ := hf
    exact ⟨hg.refl _, _, .none, fun _ => rfl⟩
  | @cons x y xs ys hxy _ ih =>
    unfold findMark at hf
    split at hf
    · cases hf
    · next s1 h1 =>
      simp only [Except.ok.injEq, Prod.mk.injEq] at hf
      obtain ⟨rfl, rfl⟩ := hf
      obtain ⟨e1, e2⟩ := hxy.start h1
      exact ⟨e1, _, .some hxy, fun hG => by simp only [findMark, e2 hG]⟩
    · next s1 h1 =>
      obtain ⟨e1, e2⟩ := hxy.start h1
      obtain ⟨e3, m', q1, q2⟩ := ih hf
      exact ⟨hg.trans e1 e3, m', q1, fun hG => by simp only [findMark, e2 (hg.down e3 hG)]; exact q2 hG⟩

theorem continue_tracks {m m' : Manip S τ E} (h : Tracks ext Good m m') {b b' : State S τ E} {mk : Option (Manip S τ E)} {s : S} {t : τ}
    {stack stack' : List τ} (hc : continueMark m b s t stack = .ok (stack', b')) :
    ext s b'.st ∧ ∃ mk', Alike ext Good b'.mark mk' ∧
      (Good b'.st → continueMark m' ⟨b.output, mk, b.st⟩ s t stack = .ok (stack', ⟨b'.output, mk', b'.st⟩)) := by
  unfold continueMark at hc
  split at hc
  · cases hc
  · next r s' h1 =>
    simp only [Except.ok.injEq, Prod.mk.injEq] at hc
    obtain ⟨rfl, rfl⟩ := hc
    obtain ⟨e1, e2⟩ := h.cont h1
    exact ⟨e1, _, .none, fun hG => by simp only [continueMark, e2 hG]⟩
  · next s' h1 =>
    simp only [Except.ok.injEq, Prod.mk.injEq] at hc
    obtain ⟨rfl, rfl⟩ := hc
    obtain ⟨e1, e2⟩ := h.cont h1
    exact ⟨e1, _, .some h, fun hG => by simp only [continueMark, e2 hG]⟩

theorem round_tracks (hg : Growing ext Good) {ms ms' : List (Manip S τ E)} (h : List.Forall₂ (Tracks ext Good) ms ms') {b b' : State S τ E}
    {mk : Option (Manip S τ E)} (hm : Alike ext Good b.mark mk) {t : τ} {stack stack' : List τ} (hr : Build.round ms b t stack = .ok (stack', b')) :
    ext b.st b'.st ∧ ∃ mk', Alike ext Good b'.mark mk' ∧
      (Good b'.st → Build.round ms' ⟨b.output, mk, b.st⟩ t stack = .ok (stack', ⟨b'.output, mk', b'.st⟩)) := by
  obtain ⟨bo, bm, bs⟩ := b
  unfold Build.round at hr
  cases hm with
  | @some m m' ht =>
    dsimp only at hr
    obtain ⟨e1, mk', e2, e3⟩ := continue_tracks ht (mk := some m') hr
    exact ⟨e1, mk', e2, fun hG => by simp only [Build.round]; exact e3 hG⟩
  | none =>
    dsimp only at hr
    split at hr
    · cases hr
    · next s' hf =>
      simp only [Except.ok.injEq, Prod.mk.injEq] at hr
      obtain ⟨rfl, rfl⟩ := hr
      obtain ⟨e1, m', q1, q2⟩ := findMark_tracks hg h hf
      cases q1
      exact ⟨e1, _, .none, fun hG => by simp only [Build.round, q2 hG]⟩
    · next m s' hf =>
      obtain ⟨e1, m', q1, q2⟩ := findMark_tracks hg h hf
      cases q1 with
      | some ht =>
        obtain ⟨e3, mk', e4, e5⟩ := continue_tracks ht (mk := none) hr
        exact ⟨hg.trans e1 e3, mk', e4, fun hG => by simp only [Build.round, q2 (hg.down e3 hG)]; exact e5 hG⟩

theorem loop_tracks (hg : Growing ext Good) {ms ms' : List (Manip S τ E)} (h : List.Forall₂ (Tracks ext Good) ms ms') : ∀ {fuel : Nat} {b b' : State S τ E}
    {mk : Option (Manip S τ E)} {stack : List τ}, Alike ext Good b.mark mk → loop ms fuel b stack = some (.ok b') →
    ext b.st b'.st ∧ ∃ mk', Alike ext Good b'.mark mk' ∧ (Good b'.st → loop ms' fuel ⟨b.output, mk, b.st⟩ stack = some (.ok ⟨b'.output, mk', b'.st⟩)) := by
  intro fuel
  induction fuel with
  | zero =>
    intro b b' mk stack hm hl
    cases stack with
    | nil =>
      simp only [loop, Option.some.injEq, Except.ok.injEq] at hl
      subst hl
      exact ⟨hg.refl _, mk, hm, fun _ => by simp only [loop]⟩
    | cons t ts => simp [loop] at hl
  | succ fuel ih =>
    intro b b' mk stack hm hl
    cases stack with
    | nil =>
      simp only [loop, Option.some.injEq, Except.ok.injEq] at hl
      subst hl
      exact ⟨hg.refl _, mk, hm, fun _ => by simp only [loop]⟩
    | cons t ts =>
      simp only [loop] at hl
      split at hl
      · simp at hl
      · next stack' b2 hr =>
        obtain ⟨e1, mk1, e2, e3⟩ := round_tracks hg h hm hr
        obtain ⟨e4, mk2, e5, e6⟩ := ih e2 hl
        exact ⟨hg.trans e1 e4, mk2, e5, fun hG => by simp only [loop, e3 (hg.down e4 hG)]; exact e6 hG⟩

theorem runOps_tracks (hg : Growing ext Good) {ms ms' : List (Manip S τ E)} (h : List.Forall₂ (Tracks ext Good) ms ms') {fuel : Nat} : ∀ {ops : List (Op τ)}
    {b b' : State S τ E} {mk : Option (Manip S τ E)} {acc acc' : List τ}, Alike ext Good b.mark mk → runOps ms fuel b acc ops = some (.ok (acc', b')) →
    ext b.st b'.st ∧ ∃ mk', Alike ext Good b'.mark mk' ∧
      (Good b'.st → runOps ms' fuel ⟨b.output, mk, b.st⟩ acc ops = some (.ok (acc', ⟨b'.output, mk', b'.st⟩))) := by
  intro ops
  induction ops with
  | nil =>
    intro b b' mk acc acc' hm hl
    simp only [runOps, Option.some.injEq, Except.ok.injEq, Prod.mk.injEq] at hl
    obtain ⟨rfl, rfl⟩ := hl
    exact ⟨hg.refl _, mk, hm, fun _ => rfl⟩
  | cons op ops ih =>
    intro b b' mk acc acc' hm hl
    cases op with
    | consume =>
      simp only [runOps] at hl
      obtain ⟨e1, mk', e2, e3⟩ := ih (b := { b with output := [] }) hm hl
      exact ⟨e1, mk', e2, fun hG => by simp only [runOps]; exact e3 hG⟩
    | token t =>
      simp only [runOps, handleToken] at hl
      split at hl
      · cases hl
      · simp at hl
      · next b1 h1 =>
        obtain ⟨e1, mk1, e2, e3⟩ := loop_tracks hg h hm h1
        obtain ⟨e4, mk2, e5, e6⟩ := ih e2 hl
        exact ⟨hg.trans e1 e4, mk2, e5, fun hG => by simp only [runOps, handleToken, e3 (hg.down e4 hG)]; exact e6 hG⟩
end
end Verif.Build

namespace Verif.Js
open Verif.Reader (Text txt)
open Verif.Build

/-- More files are listed, and the new ones have hashes. -/
def Listed (hash : Text → Option Text) (a b : List Text) : Prop := (∀ d ∈ a, d ∈ b) ∧ ∀ d ∈ b, d ∈ a ∨ hash d ≠ none

theorem listed_growing (hash hash' : Text → Option Text) : Growing (fun (s s' : JsSt) => Listed hash s.2.1.deps s'.2.1.deps)
    (fun s => ∀ d ∈ s.2.1.deps, hash' d = hash d) where
  refl s := ⟨fun _ h => h, fun _ h => .inl h⟩
  trans h1 h2 := ⟨fun d h => h2.1 d (h1.1 d h), fun d h => (h2.2 d h).elim (h1.2 d) .inr⟩
  down h1 h2 d h := h2 d (h1.1 d h)

theorem Listed.refl (hash : Text → Option Text) (a : List Text) : Listed hash a a := ⟨fun _ h => h, fun _ h => .inl h⟩

theorem handleImport_tracks {env env' : HiEnv} (he : env' = { env with hash := env'.hash }) {p p' : HiP} {stack : List Tok} {s : Text} {a : Act Pos Tok} (hs : env.scan = false)
    (h : handleImport env p stack s = .ok (p', a)) : Listed env.hash p.deps p'.deps ∧
      ((∀ d ∈ p'.deps, env'.hash d = env.hash d) → handleImport env' p stack s = .ok (p', a)) := by
  unfold handleImport at h
  rw [he]
  split at h
  · next h1 => simp only [Except.ok.injEq, Prod.mk.injEq] at h; obtain ⟨rfl, rfl⟩ := h; exact ⟨.refl _ _, fun _ => by simp [handleImport, h1, markBad]⟩
  · next h1 =>
    split at h
    · next h2 => simp only [Except.ok.injEq, Prod.mk.injEq] at h; obtain ⟨rfl, rfl⟩ := h; exact ⟨.refl _ _, fun _ => by unfold handleImport; rw [if_neg h1, if_pos h2]; rfl⟩
    · next h2 =>
      simp only [hs, Bool.false_eq_true, if_false] at h
      split at h
      · cases h
      · next x hx =>
        simp only [Except.ok.injEq, Prod.mk.injEq] at h
        obtain ⟨rfl, rfl⟩ := h
        refine ⟨⟨fun d h => by simp [h], fun d h => ?_⟩, fun hG => ?_⟩
        · rcases List.mem_append.1 h with h | h
          · exact .inl h
          · right; simp only [List.mem_singleton] at h; rw [h, hx]; simp
        · have := hG (env.resolve s).1 (by simp)
          unfold handleImport
          rw [if_neg h1, if_neg h2]
          dsimp only at this ⊢
          simp only [hs, Bool.false_eq_true, if_false, this, hx]

theorem resume_tracks {env env' : HiEnv} (he : env' = { env with hash := env'.hash }) {p p' : HiP} {g : Pos} {stack : List Tok} {a : Act Pos Tok} (hs : env.scan = false)
    (h : hiResume env p g stack = .ok (p', a)) : Listed env.hash p.deps p'.deps ∧
      ((∀ d ∈ p'.deps, env'.hash d = env.hash d) → hiResume env' p g stack = .ok (p', a)) := by
  simp only [hiResume] at h ⊢
  split at h
  · next h1 =>
    simp only [Except.ok.injEq, Prod.mk.injEq] at h
    obtain ⟨rfl, rfl⟩ := h
    exact ⟨.refl _ _, fun _ => by rw [if_pos h1]⟩
  · next h1 =>
    simp only [if_neg h1]
    rw [hiResumeAt_move] at h ⊢
    generalize move (stack.getLast?.getD .eof) g = mv at h ⊢
    cases mv with
    | go g' =>
      simp only [Except.ok.injEq, Prod.mk.injEq] at h
      obtain ⟨rfl, rfl⟩ := h
      exact ⟨.refl _ _, fun _ => rfl⟩
    | bad hint =>
      simp only [Except.ok.injEq, Prod.mk.injEq] at h
      obtain ⟨rfl, rfl⟩ := h
      exact ⟨.refl _ _, fun _ => by rw [he]; rfl⟩
    | done x => exact handleImport_tracks he hs h

theorem hiHandle_deps {p p' : HiP} {t : Tok} {a : Act Pos Tok} (h : hiHandle p t = .ok (p', a)) : p'.deps = p.deps := by
  unfold hiHandle at h
  repeat' split at h
  all_goals
    simp only [Except.ok.injEq, Prod.mk.injEq] at h
    obtain ⟨rfl, _⟩ := h
    rfl

theorem hashImports_tracks {env env' : HiEnv} (he : env' = { env with hash := env'.hash }) (hs : env.scan = false) :
    Tracks (fun (s s' : HiP × YSt Pos Tok) => Listed env.hash s.1.deps s'.1.deps) (fun s => ∀ d ∈ s.1.deps, env'.hash d = env.hash d)
      (hashImports env).toManip (hashImports env').toManip where
  start := by
    intro s t b s' h
    refine ⟨?_, fun _ => h⟩
    simp only [YManip.toManip, YManip.start, hashImports] at h
    split at h
    · split at h
      · cases h
      · next p g h1 =>
        split at h
        · cases h
        · simp only [Except.ok.injEq, Prod.mk.injEq] at h
          obtain ⟨_, rfl⟩ := h
          dsimp only
          rw [hiHandle_deps h1]; exact .refl _ _
      · next p h1 =>
        simp only [Except.ok.injEq, Prod.mk.injEq] at h
        obtain ⟨_, rfl⟩ := h
        dsimp only
        rw [hiHandle_deps h1]; exact .refl _ _
      · next p l h1 =>
        simp only [Except.ok.injEq, Prod.mk.injEq] at h
        obtain ⟨_, rfl⟩ := h
        dsimp only
        rw [hiHandle_deps h1]; exact .refl _ _
    · cases h
  cont := by
    intro s t b s' h
    obtain ⟨p, y⟩ := s
    simp only [YManip.toManip, YManip.cont, hashImports] at h ⊢
    cases y with
    | unmarked => cases h
    | replacing l =>
      simp only [Except.ok.injEq, Prod.mk.injEq] at h
      obtain ⟨rfl, rfl⟩ := h
      exact ⟨.refl _ _, fun _ => rfl⟩
    | skipping l g =>
      simp only [Except.ok.injEq, Prod.mk.injEq] at h
      obtain ⟨rfl, rfl⟩ := h
      exact ⟨.refl _ _, fun _ => rfl⟩
    | marking stack g =>
      dsimp only at h ⊢
      split at h
      · cases h
      · next p1 g' h1 =>
        split at h
        · cases h
        · next h2 =>
          simp only [Except.ok.injEq, Prod.mk.injEq] at h
          obtain ⟨rfl, rfl⟩ := h
          obtain ⟨e1, e2⟩ := resume_tracks he hs h1
          exact ⟨e1, fun hG => by rw [e2 hG]; simp only [if_neg h2]⟩
      · next p1 h1 =>
        simp only [Except.ok.injEq, Prod.mk.injEq] at h
        obtain ⟨rfl, rfl⟩ := h
        obtain ⟨e1, e2⟩ := resume_tracks he hs h1
        exact ⟨e1, fun hG => by rw [e2 hG]⟩
      · next p1 l h1 =>
        simp only [Except.ok.injEq, Prod.mk.injEq] at h
        obtain ⟨rfl, rfl⟩ := h
        obtain ⟨e1, e2⟩ := resume_tracks he hs h1
        exact ⟨e1, fun hG => by rw [e2 hG]⟩

theorem second_tracks {A B τ E : Type} {ext : B → B → Prop} {Good : B → Prop} {m m' : Manip B τ E} (h : Tracks ext Good m m') :
    Tracks (fun (s s' : A × B) => ext s.2 s'.2) (fun s => Good s.2) (onSecond (A := A) m) (onSecond m') where
  start := by
    intro s t b s' hh
    simp only [onSecond] at hh ⊢
    cases h1 : m.start s.2 t with
    | error e => rw [h1] at hh; cases hh
    | ok r =>
      rw [h1] at hh
      simp only [Except.map, Except.ok.injEq, Prod.mk.injEq] at hh
      obtain ⟨rfl, rfl⟩ := hh
      obtain ⟨e1, e2⟩ := h.start (s' := r.2) (b := r.1) h1
      exact ⟨e1, fun hG => by rw [e2 hG]; rfl⟩
  cont := by
    intro s t b s' hh
    simp only [onSecond] at hh ⊢
    cases h1 : m.cont s.2 t with
    | error e => rw [h1] at hh; cases hh
    | ok r =>
      rw [h1] at hh
      simp only [Except.map, Except.ok.injEq, Prod.mk.injEq] at hh
      obtain ⟨rfl, rfl⟩ := hh
      obtain ⟨e1, e2⟩ := h.cont (s' := r.2) (b := r.1) h1
      exact ⟨e1, fun hG => by rw [e2 hG]; rfl⟩

theorem first_tracks {A B τ E : Type} {ext : B → B → Prop} (hr : ∀ b, ext b b) (Good : B → Prop) (m : Manip A τ E) :
    Tracks (fun (s s' : A × B) => ext s.2 s'.2) (fun s => Good s.2) (onFirst (B := B) m) (onFirst m) where
  start := by
    intro s t b s' hh
    refine ⟨?_, fun _ => hh⟩
    simp only [onFirst] at hh
    cases h1 : m.start s.1 t with
    | error e => rw [h1] at hh; cases hh
    | ok r =>
      rw [h1] at hh
      simp only [Except.map, Except.ok.injEq, Prod.mk.injEq] at hh
      obtain ⟨rfl, rfl⟩ := hh
      exact hr _
  cont := by
    intro s t b s' hh
    refine ⟨?_, fun _ => hh⟩
    simp only [onFirst] at hh
    cases h1 : m.cont s.1 t with
    | error e => rw [h1] at hh; cases hh
    | ok r =>
      rw [h1] at hh
      simp only [Except.map, Except.ok.injEq, Prod.mk.injEq] at hh
      obtain ⟨rfl, rfl⟩ := hh
      exact hr _

/-- A run of the manipulators of a script needs the hashes of the files it lists, which are there, and no others. -/
theorem run_tracks {te : ThEnv} {env env' : HiEnv} (he : env' = { env with hash := env'.hash }) (hs : env.scan = false) {fuel : Nat} {ops : List (Op Tok)}
    {out : List Tok} {b : State JsSt Tok MErr} (h : runOps (jsManips te env) fuel (State.new jsInit) [] ops = some (.ok (out, b))) :
    (∀ d ∈ b.st.2.1.deps, env.hash d ≠ none) ∧
      ((∀ d ∈ b.st.2.1.deps, env'.hash d = env.hash d) →
        ∃ b', b'.st = b.st ∧ runOps (jsManips te env') fuel (State.new jsInit) [] ops = some (.ok (out, b'))) := by
  have ht : List.Forall₂ (Tracks (fun (s s' : JsSt) => Listed env.hash s.2.1.deps s'.2.1.deps) (fun s => ∀ d ∈ s.2.1.deps, env'.hash d = env.hash d))
      (jsManips te env) (jsManips te env') :=
    .cons (first_tracks (ext := fun (s s' : HiP × YSt Pos Tok) => Listed env.hash s.1.deps s'.1.deps) (fun b => Listed.refl _ _)
        (fun s => ∀ d ∈ s.1.deps, env'.hash d = env.hash d) _)
      (.cons (second_tracks (hashImports_tracks he hs)) .nil)
  obtain ⟨e1, mk, _, e3⟩ := runOps_tracks (listed_growing env.hash env'.hash) ht (mk := none) .none h
  refine ⟨fun d hd => (e1.2 d hd).elim (fun h => ?_) id, fun hG => ⟨⟨b.output, mk, b.st⟩, rfl, e3 hG⟩⟩
  simp [State.new, jsInit] at h

namespace File
open Verif.Handlers (Bytes Fs Built hashBuild copyTarget)
open Verif.Icons (addAll mem_addAll)

/-- The new files. -/
def leave (env : Env) (name : Text) (fs : Fs) (out : List Tok) : Fs :=
  (fs.write (txt "out/www/" ++ name) (env.encode (serializeMany out))).write (txt "out/www/" ++ name ++ txt ".hash") (env.digest (env.encode (serializeMany out)))

/-- What is reported if the hash is not there. -/
def report (name : Text) (ds : List Text) : Built := ⟨addAll [] ds, addAll [txt "out/www/" ++ name] [txt "out/www/" ++ name ++ txt ".hash"], []⟩

/-- The build of a script whose hash is not there. -/
theorem build_bare {fuel : Nat} {env : Env} {name : Text} (hjs : (txt ".js").isSuffixOf (txt "src/public/" ++ name) = true) {fs : Fs}
    (hh : fs (txt "out/www/" ++ name ++ txt ".hash") = none) {r : Built} {fs' : Fs} :
    buildFile fuel env (txt "src/public/" ++ name) fs = some (.ok (r, fs')) ↔
    ∃ b ts out s, fs (txt "src/public/" ++ name) = some b ∧ tokenize (env.decode b) = some ts ∧
      runOps (manips env false (txt "src/public/" ++ name) fs) fuel (State.new jsInit) [] (perToken ts) = some (.ok (out, s)) ∧
      r = report name s.st.2.1.deps ∧ fs' = leave env name fs out := by
  have hhash : ∀ out, hashBuild env.digest (txt "out/www/" ++ name) (fs.write (txt "out/www/" ++ name) (env.encode (serializeMany out))) =
      .ok (⟨[], [txt "out/www/" ++ name ++ txt ".hash"], []⟩, leave env name fs out) := by
    intro out
    unfold hashBuild
    rw [hashTarget_out]
    dsimp only
    have e1 : (fs.write (txt "out/www/" ++ name) (env.encode (serializeMany out))) (txt "out/www/" ++ name ++ txt ".hash") = none := by
      simp only [Handlers.Fs.write, if_neg (hash_ne name)]; exact hh
    have e2 : (fs.write (txt "out/www/" ++ name) (env.encode (serializeMany out))) (txt "out/www/" ++ name) = some (env.encode (serializeMany out)) := by
      simp [Handlers.Fs.write]
    rw [e1, e2]
    rfl
  unfold buildFile
  rw [hjs, copyTarget_name]
  simp only [Bool.not_true, Bool.false_eq_true, if_false]
  constructor
  · intro h
    split at h
    · cases h
    · next b hb =>
      split at h
      · cases h
      · next ts hts =>
        cases hrun : runOps (manips env false (txt "src/public/" ++ name) fs) fuel (State.new jsInit) [] (perToken ts) with
        | none => rw [hrun] at h; cases h
        | some x =>
          rw [hrun] at h
          cases x with
          | error e => simp at h
          | ok x =>
            obtain ⟨out, s⟩ := x
            simp only [Option.map_some, Option.some.injEq, hhash, Except.ok.injEq, Prod.mk.injEq] at h
            exact ⟨b, ts, out, s, hb, hts, hrun, h.1.symm, h.2.symm⟩
  · rintro ⟨b, ts, out, s, h1, h2, h3, rfl, rfl⟩
    rw [h1]
    dsimp only
    rw [h2]
    dsimp only
    rw [h3]
    simp only [Option.map_some, hhash]
    rfl

/-- C80, for scripts: the hashes of the children are there; with other files which agree on the script and on the hashes of its
children the build gives the same. -/
theorem build_reads {fuel : Nat} {env : Env} {name : Text} (hjs : (txt ".js").isSuffixOf (txt "src/public/" ++ name) = true) {fs fs1 : Fs} {r : Built}
    (hh : fs (txt "out/www/" ++ name ++ txt ".hash") = none) (h : buildFile fuel env (txt "src/public/" ++ name) fs = some (.ok (r, fs1))) :
    (∀ d ∈ r.children, fs (hashPath env d) ≠ none) ∧
    ∀ fs', fs' (txt "src/public/" ++ name) = fs (txt "src/public/" ++ name) → fs' (txt "out/www/" ++ name ++ txt ".hash") = none →
      (∀ d ∈ r.children, fs' (hashPath env d) = fs (hashPath env d)) →
      ∃ fs1', buildFile fuel env (txt "src/public/" ++ name) fs' = some (.ok (r, fs1')) ∧
        ∀ o ∈ r.produced, fs1' o = fs1 o := by
  obtain ⟨b, ts, out, s, h1, h2, h3, rfl, rfl⟩ := (build_bare hjs hh).1 h
  have hmem : ∀ d, d ∈ (report name s.st.2.1.deps).children ↔ d ∈ s.st.2.1.deps := by
    intro d; simp [report, mem_addAll]
  constructor
  · intro d hd
    have := (run_tracks (env' := hiEnv env false (txt "src/public/" ++ name) fs) rfl rfl h3).1 d ((hmem d).1 hd)
    simpa [hiEnv] using this
  · intro fs' hsrc hh' hd
    obtain ⟨s', q1, q2⟩ := (run_tracks (env' := hiEnv env false (txt "src/public/" ++ name) fs') rfl rfl h3).2 fun d hd' => by
      simp only [hiEnv]
      rw [hd d ((hmem d).2 hd')]
    refine ⟨_, (build_bare hjs hh').2 ⟨b, ts, out, s', by rw [hsrc, h1], h2, q2, by rw [q1], rfl⟩, fun o ho => ?_⟩
    have ho : o = txt "out/www/" ++ name ∨ o = txt "out/www/" ++ name ++ txt ".hash" := by simpa [report, mem_addAll] using ho
    rcases ho with rfl | rfl
    · simp [leave, Handlers.Fs.write]
    · simp [leave, Handlers.Fs.write]
end File

end Verif.Js
