import Verif.HtmlPageRender
import Verif.BuildFollow
import Verif.JsFile
/-!
# Pages in other surroundings

What a page without image commands and inline elements becomes depends on the hashes of the files it links to and on the templates it
includes, and on no other files.
-/
namespace Verif.Html.Page
open Verif.Reader (Text txt)
open Verif.Build
open Verif.Paths (join)
open Verif.Handlers (Bytes Fs Scan Built copyTarget hashTarget hashBuild)
open Verif.Icons (addAll mem_addAll)

variable {E J E' J' : Type}

/-- No inline element has been opened. -/
def Bookish (s : St) : Prop := s.scripts = 0 ∧ s.styles = 0

instance (s : St) : Decidable (Bookish s) := inferInstanceAs (Decidable (_ ∧ _))

/-- The page is handled alike, but for images, inline elements and the files. -/
structure Kindred (env : Env E J) (env' : Env E' J') : Prop where
  scan : env'.scan = env.scan
  rel : env'.rel = env.rel
  host : env'.host = env.host
  strip : env'.strip = env.strip
  enc : env'.enc = env.enc
  decode : env'.decode = env.decode
  parse : env'.parse = env.parse
  write : env'.write = env.write
  digest : env'.digest = env.digest
  space : env'.tpl.space = env.tpl.space
  loads : env'.tpl.loads = env.tpl.loads
  dumps : env'.tpl.dumps = env.tpl.dumps
  folder : env'.tpl.folder = env.tpl.folder
  /-- what is no image command is none -/
  commands : ∀ t, command env t = .ok none → command env' t = .ok none

/-- Image commands make the build fail. -/
def Imageless (env : Env E J) : Prop := ∀ t c, command env t ≠ .ok (some c)

/-- What is known of the states. -/
structure Known (env : Env E J) (fs : Fs) (s : St) : Prop where
  job : s.job = none
  files : s.fs = fs
  made : s.outBuilt = ⟨[], [], []⟩
  images : s.imgBuilt = ⟨[], [], []⟩
  links : ∀ c ∈ s.links, ∃ p, c = join (join (txt "src") (txt "public")) p ∧ fs (linkHashFile [] p) ≠ none
  incs : ∀ d ∈ s.tpl.deps, env.tpl.files (join env.tpl.folder d) ≠ none

/-- With other files: `fs'` are the files, `files'` the templates. -/
def follow (env : Env E J) (fs fs' : Fs) (files' : Text → Option (List HTok)) : Follow St where
  I s := Bookish s → Known env fs s
  ext s s' := (Bookish s' → Bookish s) ∧ s.links ⊆ s'.links ∧ s.tpl.deps ⊆ s'.tpl.deps
  Good s := Bookish s ∧ (∀ p, join (join (txt "src") (txt "public")) p ∈ s.links → fs' (linkHashFile [] p) = fs (linkHashFile [] p)) ∧
    ∀ d ∈ s.tpl.deps, files' (join env.tpl.folder d) = env.tpl.files (join env.tpl.folder d)
  move s := { s with fs := fs' }

theorem follow_laws (env : Env E J) (fs fs' : Fs) (files' : Text → Option (List HTok)) : (follow env fs fs' files').Laws where
  refl s := ⟨id, fun _ h => h, fun _ h => h⟩
  trans h h' := ⟨fun q => h.1 (h'.1 q), fun _ x => h'.2.1 (h.2.1 x), fun _ x => h'.2.2 (h.2.2 x)⟩
  down h g := ⟨h.1 g.1, fun p hp => g.2.1 p (h.2.1 hp), fun d hd => g.2.2 d (h.2.2 hd)⟩

section
variable {env : Env E J} {env' : Env E' J'} {fs fs' : Fs}

theorem canonEnv_kindred (h : Kindred env env') : env'.canonEnv = env.canonEnv := by
  simp [Env.canonEnv, h.scan, h.host, h.rel]

theorem canon_follow (h : Kindred env env') : Steps (follow env fs fs' env'.tpl.files) (canon env) (canon env') where
  start {s t b s'} hI hs := by
    simp only [canon] at hs ⊢
    rw [canonEnv_kindred h]
    unfold canonStart at hs ⊢
    cases hc : canonTag t with
    | none =>
      simp only [hc] at hs ⊢
      cases hs
      exact ⟨hI, (follow_laws env fs fs' env'.tpl.files).refl _, fun _ => rfl⟩
    | some c =>
      simp only [hc] at hs ⊢
      by_cases hsc : env.canonEnv.scan = true
      · simp only [hsc, if_true] at hs ⊢
        split at hs
        · cases hs
        · next x hx =>
          split at hx
          · cases hx
          · next hh =>
            cases hx; cases hs
            refine ⟨hI, (follow_laws env fs fs' env'.tpl.files).refl _, fun _ => ?_⟩
            rw [if_neg hh]
      · simp only [hsc] at hs ⊢
        cases hs
        exact ⟨hI, (follow_laws env fs fs' env'.tpl.files).refl _, fun _ => rfl⟩
  cont {s t b s'} hI hs := by
    simp only [canon] at hs ⊢
    rw [canonEnv_kindred h]
    unfold canonCont at hs ⊢
    cases hc : canonTag t with
    | none => simp only [hc] at hs; cases hs
    | some c =>
      obtain ⟨tag, attrs, other⟩ := c
      simp only [hc] at hs ⊢
      cases hs
      exact ⟨hI, (follow_laws env fs fs' env'.tpl.files).refl _, fun _ => rfl⟩

theorem links_follow (h : Kindred env env') (hb : env.scan = false) : Shots (follow env fs fs' env'.tpl.files) (links env) (links env') where
  decline {s t s'} hI hs := by
    simp only [links] at hs ⊢
    unfold linkStart at hs ⊢
    cases hc : asDependency t with
    | none =>
      simp only [hc] at hs ⊢
      cases hs
      exact ⟨hI, (follow_laws env fs fs' env'.tpl.files).refl _, fun _ => rfl⟩
    | some c =>
      simp only [hc] at hs
      have : (env.linkEnv s.fs).scan = false := hb
      rw [this] at hs
      cases hs
  take {s t s1 r s2} hI hs hcont := by
    have hb' : env'.scan = false := by rw [h.scan, hb]
    simp only [links] at hs hcont ⊢
    unfold linkStart at hs ⊢
    unfold linkCont at hcont ⊢
    cases hc : asDependency t with
    | none => simp only [hc] at hs; cases hs
    | some c =>
      simp only [hc] at hs hcont ⊢
      have e1 : (env.linkEnv s.fs).scan = false := hb
      rw [e1] at hs
      cases hs
      dsimp only at hcont
      cases hr : (env.linkEnv s.fs).read (linkHashFile (env.linkEnv s.fs).folder c.path) with
      | none => rw [hr] at hcont; cases hcont
      | some x =>
        rw [hr] at hcont
        cases hcont
        have hr' : s.fs (linkHashFile [] c.path) ≠ none := by
          intro hn
          have : ((s.fs (linkHashFile [] c.path)).map env.decode) = some x := hr
          rw [hn] at this
          cases this
        refine ⟨by simp, fun hq => ?_, ⟨id, fun _ hx => List.mem_append_left _ hx, fun _ hx => hx⟩, fun hG => ?_⟩
        · have K := hI hq
          refine ⟨K.job, K.files, K.made, K.images, fun d hd => ?_, K.incs⟩
          rcases List.mem_append.1 hd with hd | hd
          · exact K.links d hd
          · simp only [List.mem_singleton] at hd
            subst hd
            exact ⟨c.path, rfl, by rw [← K.files]; exact hr'⟩
        · have K := hI hG.1
          have e2 : (env'.linkEnv fs').scan = false := hb'
          have e3 : (env'.linkEnv fs').read (linkHashFile (env'.linkEnv fs').folder c.path) = some x := by
            show (fs' (linkHashFile [] c.path)).map env'.decode = _
            rw [hG.2.1 c.path (by simp), h.decode, ← K.files]
            exact hr
          refine ⟨?_, ?_⟩
          · simp only [follow, e2, Bool.not_false]
          · simp only [follow]
            rw [e3]
            simp only [Env.linkEnv, h.enc, h.strip]

theorem images_follow (h : Kindred env env') (hn : Imageless env) : Steps (follow env fs fs' env'.tpl.files) (images env) (images env') where
  start {s t b s'} hI hs := by
    simp only [images] at hs ⊢
    unfold imageStart at hs ⊢
    split at hs
    · cases hs
    · next hc =>
      cases hs
      exact ⟨hI, (follow_laws env fs fs' env'.tpl.files).refl _, fun _ => by rw [h.commands t hc]⟩
    · next c hc => exact absurd hc (hn t c)
  cont {s t b s'} hI hs := by
    simp only [images] at hs
    unfold imageCont at hs
    split at hs
    · cases hs
    · cases hs
    · next c hc => exact absurd hc (hn t c)

/-- Nothing of a page with inline elements is known. -/
theorem outline_cont_bookish {s s' : St} {t : HTok} {b : Option (List HTok)} (hI : Bookish s → s.job = none) (h : outlineCont env s t = .ok (b, s')) :
    ¬ Bookish s' ∧ s.links = s'.links ∧ s.tpl = s'.tpl := by
  unfold outlineCont at h
  split at h
  · unfold outlineOpen at h
    split at h
    · dsimp only at h
      split at h
      · cases h
      · cases h; exact ⟨by simp [Bookish], rfl, rfl⟩
    · dsimp only at h
      split at h
      · cases h
      · split at h
        · cases h
        · cases h; exact ⟨by simp [Bookish], rfl, rfl⟩
    · cases h
  · next j hj =>
    have hnb : ¬ Bookish s := fun hb => by rw [hI hb] at hj; cases hj
    split at h
    · unfold outlineClose at h
      dsimp only at h
      split at h
      · split at h
        · cases h
        · cases h; exact ⟨hnb, rfl, rfl⟩
      · split at h
        · cases h
        · split at h
          · cases h
          · split at h
            · cases h
            · cases h; exact ⟨hnb, rfl, rfl⟩
    · cases h; exact ⟨hnb, rfl, rfl⟩
    · cases h; exact ⟨hnb, rfl, rfl⟩
    · cases h

theorem outline_follow : Steps (follow env fs fs' env'.tpl.files) (outline env) (outline env') where
  start {s t b s'} hI hs := by
    simp only [outline] at hs ⊢
    unfold outlineStart at hs ⊢
    cases hs
    exact ⟨hI, (follow_laws env fs fs' env'.tpl.files).refl _, fun _ => rfl⟩
  cont {s t b s'} hI hs := by
    obtain ⟨h1, h2, h3⟩ := outline_cont_bookish (env := env) (fun hb => (hI hb).job) hs
    exact ⟨fun hb => absurd hb h1, ⟨fun hb => absurd hb h1, by rw [h2]; exact fun _ h => h, by rw [h3]; exact fun _ h => h⟩, fun hG => absurd hG.1 h1⟩

theorem stackArgs_kindred (h : Kindred env env') (t : HTok) : stackArgs env'.tpl t = stackArgs env.tpl t ∧ templateArgs env'.tpl t = templateArgs env.tpl t := by
  unfold stackArgs templateArgs tryCommand
  rw [h.space, h.loads]
  exact ⟨rfl, rfl⟩

theorem stackCommand_deps {s s' : TplSt} {l : List Json} {r : List HTok} (h : stackCommand s l = .ok (r, s')) : s'.deps = s.deps := by
  unfold stackCommand at h
  split at h
  · split at h
    · cases h; rfl
    · split at h
      · split at h
        · cases h
        · cases h; rfl
      · split at h
        · split at h <;> (cases h; rfl)
        · split at h
          · split at h
            · split at h
              · cases h; rfl
              · split at h
                · cases h
                · split at h
                  · cases h
                  · cases h; rfl
            · cases h; rfl
          · cases h; rfl
  · cases h; rfl

theorem templates_follow (h : Kindred env env') : Steps (follow env fs fs' env'.tpl.files) (templates env) (templates env') where
  start {s t b s'} hI hs := by
    simp only [templates] at hs ⊢
    unfold tplStart at hs ⊢
    rw [(stackArgs_kindred h t).1, (stackArgs_kindred h t).2]
    cases hs
    exact ⟨hI, (follow_laws env fs fs' env'.tpl.files).refl _, fun _ => rfl⟩
  cont {s t b s'} hI hs := by
    simp only [templates] at hs ⊢
    unfold tplCont at hs ⊢
    rw [(stackArgs_kindred h t).1, (stackArgs_kindred h t).2]
    cases hc : stackArgs env.tpl t with
    | some l =>
      simp only [hc] at hs ⊢
      cases hx : stackCommand s.tpl l with
      | error e => rw [hx] at hs; cases hs
      | ok x =>
        obtain ⟨r, x⟩ := x
        rw [hx] at hs
        cases hs
        have hd := stackCommand_deps hx
        refine ⟨fun hq => ?_, ⟨id, fun _ h => h, by rw [hd]; exact fun _ h => h⟩, fun _ => ?_⟩
        · have K := hI hq
          exact ⟨K.job, K.files, K.made, K.images, K.links, by rw [hd]; exact K.incs⟩
        · simp only [follow, hx]
          rfl
    | none =>
      simp only [hc] at hs ⊢
      cases hc2 : templateArgs env.tpl t with
      | none =>
        simp only [hc2] at hs ⊢
        cases hs
        exact ⟨hI, (follow_laws env fs fs' env'.tpl.files).refl _, fun _ => rfl⟩
      | some l =>
        simp only [hc2] at hs ⊢
        unfold templateCommand at hs ⊢
        cases hi : templateImport s.tpl.cur l with
        | none =>
          simp only [hi] at hs
          cases hs
          refine ⟨hI, (follow_laws env fs fs' env'.tpl.files).refl _, fun _ => ?_⟩
          simp only [follow, hi]
          rfl
        | some x =>
          obtain ⟨rel, vars⟩ := x
          simp only [hi] at hs
          cases hf : env.tpl.files (join env.tpl.folder rel) with
          | none => rw [hf] at hs; cases hs
          | some body =>
            rw [hf] at hs
            cases hs
            refine ⟨fun hq => ?_, ⟨id, fun _ h => h, fun _ hx => List.mem_append_left _ hx⟩, fun hG => ?_⟩
            · have K := hI hq
              refine ⟨K.job, K.files, K.made, K.images, K.links, fun d hd => ?_⟩
              rcases List.mem_append.1 hd with hd | hd
              · exact K.incs d hd
              · simp only [List.mem_singleton] at hd
                subst hd
                rw [hf]; simp
            · have e := hG.2.2 rel (by simp)
              simp only [follow, hi]
              rw [h.folder, e, hf]
              simp only [stackComment, h.dumps]
              rfl

theorem manips_follow (h : Kindred env env') (hb : env.scan = false) (hn : Imageless env) :
    List.Forall₂ (Pair (follow env fs fs' env'.tpl.files)) (manips env) (manips env') :=
  .cons (.steps (canon_follow h)) (.cons (.shots (links_follow h hb)) (.cons (.steps (images_follow h hn)) (.cons (.steps outline_follow)
    (.cons (.steps (templates_follow h)) .nil))))

end

theorem kindred_refl (env : Env E J) : Kindred env env := ⟨rfl, rfl, rfl, rfl, rfl, rfl, rfl, rfl, rfl, rfl, rfl, rfl, rfl, fun _ h => h⟩

/-- What the run of a page without inline elements and images has read, and that nothing else matters. -/
theorem run_reads {env : Env E J} (hb : env.scan = false) (hn : Imageless env) {fuel : Nat} {fs : Fs} {ops : List (Op HTok)} {out : List HTok}
    {s : State St HTok (PErr E)} (h : runOps (manips env) fuel (State.new (St.new fs env.rel)) [] ops = some (.ok (out, s))) (hq : Bookish s.st) :
    Known env fs s.st ∧ ∀ {E' J' : Type} (env' : Env E' J') (fs' : Fs), Kindred env env' →
      (∀ p, join (join (txt "src") (txt "public")) p ∈ s.st.links → fs' (linkHashFile [] p) = fs (linkHashFile [] p)) →
      (∀ d ∈ s.st.tpl.deps, env'.tpl.files (join env.tpl.folder d) = env.tpl.files (join env.tpl.folder d)) →
      ∃ s' : State St HTok (PErr E'), s'.st = { s.st with fs := fs' } ∧
        runOps (manips env') fuel (State.new (St.new fs' env'.rel)) [] ops = some (.ok (out, s')) := by
  have hK : Known env fs (St.new fs env.rel) := ⟨rfl, rfl, rfl, rfl, by simp [St.new], by simp [St.new]⟩
  constructor
  · obtain ⟨h1, -⟩ := runOps_follow (follow_laws env fs fs env.tpl.files) (manips_follow (kindred_refl env) hb hn) (mk := none) .none (fun _ => hK) h
    exact h1 hq
  · intro E' J' env' fs' ha hl ht
    obtain ⟨-, -, mk, -, h2⟩ := runOps_follow (follow_laws env fs fs' env'.tpl.files) (manips_follow ha hb hn) (mk := none) .none (fun _ => hK) h
    have := h2 ⟨hq, hl, ht⟩
    rw [← ha.rel] at this
    exact ⟨⟨s.output, mk, { s.st with fs := fs' }⟩, rfl, this⟩

/-! ## Builds -/

/-- The page has no inline elements. -/
def plainPage (fuel : Nat) (env : Env E J) (fs : Fs) : Bool :=
  match fs env.rel with
  | none => false
  | some b =>
    match env.parse b with
    | none => false
    | some ts =>
      match runOps (manips env) fuel (State.new (St.new fs env.rel)) [] (allTokens ts) with
      | some (.ok (_, b)) => decide (Bookish b.st)
      | _ => false

/-- The new files. -/
def leave (env : Env E J) (name : Text) (fs : Fs) (out : List HTok) : Fs :=
  (fs.write (txt "out/www/" ++ name) (env.write out)).write (txt "out/www/" ++ name ++ txt ".hash") (env.digest (env.write out))

/-- What is reported if the hash is not there. -/
def report (name : Text) (links deps : List Text) : Built :=
  [⟨[], [txt "out/www/" ++ name ++ txt ".hash"], []⟩, ⟨links, [], []⟩, ⟨[], [], []⟩, ⟨[], [], []⟩, ⟨deps, [], []⟩].foldl Css.Page.merge ⟨[], [txt "out/www/" ++ name], []⟩

theorem hash_bare (env : Env E J) {name : Text} {fs : Fs} (hh : fs (txt "out/www/" ++ name ++ txt ".hash") = none) (out : List HTok) :
    hashBuild env.digest (txt "out/www/" ++ name) (fs.write (txt "out/www/" ++ name) (env.write out)) =
      .ok (⟨[], [txt "out/www/" ++ name ++ txt ".hash"], []⟩, leave env name fs out) := by
  unfold hashBuild
  rw [Js.File.hashTarget_out]
  dsimp only
  have e1 : (fs.write (txt "out/www/" ++ name) (env.write out)) (txt "out/www/" ++ name ++ txt ".hash") = none := by
    simp only [Handlers.Fs.write, if_neg (Js.File.hash_ne name)]; exact hh
  have e2 : (fs.write (txt "out/www/" ++ name) (env.write out)) (txt "out/www/" ++ name) = some (env.write out) := by
    simp [Handlers.Fs.write]
  rw [e1, e2]
  rfl

/-- The build of a page whose hash is not there. -/
theorem run_of_build {fuel : Nat} {env : Env E J} (hb : env.scan = false) (hn : Imageless env) {name : Text} (hrel : env.rel = txt "src/public/" ++ name) {fs : Fs}
    (hh : fs (txt "out/www/" ++ name ++ txt ".hash") = none) {r : Built} {fs' : Fs} (h : buildFile fuel env fs = some (.ok (r, fs')))
    (hp : plainPage fuel env fs = true) :
    ∃ b ts out s, fs env.rel = some b ∧ env.parse b = some ts ∧ runOps (manips env) fuel (State.new (St.new fs env.rel)) [] (allTokens ts) = some (.ok (out, s)) ∧
      Bookish s.st ∧ s.st.tpl.stack = [] ∧ r = report name s.st.links s.st.tpl.deps ∧ fs' = leave env name fs out := by
  have ht : copyTarget env.rel = some (txt "out/www/" ++ name) := by rw [hrel, Js.File.copyTarget_name]
  unfold buildFile at h
  unfold plainPage at hp
  rw [ht] at h
  dsimp only at h
  split at h
  · cases h
  · next b hb' =>
    split at h
    · cases h
    · next ts hts =>
      cases hrun : runOps (manips env) fuel (State.new (St.new fs env.rel)) [] (allTokens ts) with
      | none => rw [hrun] at h; cases h
      | some x =>
        rw [hrun] at h
        simp only [hb', hts, hrun] at hp
        cases x with
        | error e => simp at h
        | ok x =>
          obtain ⟨out, s⟩ := x
          have hp : Bookish s.st := of_decide_eq_true hp
          have K := (run_reads hb hn hrun hp).1
          simp only [Option.map_some, Option.some.injEq, K.files, K.made, K.images, hash_bare env hh] at h
          by_cases hst : s.st.tpl.stack = []
          · simp only [tplResult, hst, if_true, Except.ok.injEq, Prod.mk.injEq] at h
            exact ⟨b, ts, out, s, hb', hts, hrun, hp, hst, h.1.symm, h.2.symm⟩
          · simp [tplResult, hst] at h

theorem build_of_run {fuel : Nat} {env : Env E J} {name : Text} (hrel : env.rel = txt "src/public/" ++ name) {fs : Fs}
    (hh : fs (txt "out/www/" ++ name ++ txt ".hash") = none) {b : Bytes} {ts out : List HTok} {s : State St HTok (PErr E)} (h1 : fs env.rel = some b)
    (h2 : env.parse b = some ts) (h3 : runOps (manips env) fuel (State.new (St.new fs env.rel)) [] (allTokens ts) = some (.ok (out, s))) (h4 : Bookish s.st)
    (h5 : s.st.tpl.stack = []) (k1 : s.st.fs = fs) (k2 : s.st.outBuilt = ⟨[], [], []⟩) (k3 : s.st.imgBuilt = ⟨[], [], []⟩) :
    buildFile fuel env fs = some (.ok (report name s.st.links s.st.tpl.deps, leave env name fs out)) ∧ plainPage fuel env fs = true := by
  have ht : copyTarget env.rel = some (txt "out/www/" ++ name) := by rw [hrel, Js.File.copyTarget_name]
  unfold buildFile plainPage
  rw [ht]
  dsimp only
  rw [h1]
  dsimp only
  rw [h2]
  dsimp only
  rw [h3]
  simp only [Option.map_some, k1, k2, k3, hash_bare env hh, decide_eq_true_eq, tplResult, h5, if_true]
  exact ⟨rfl, h4⟩

/-- What is reported. -/
theorem mem_report {name : Text} {links deps : List Text} : (∀ d, d ∈ (report name links deps).children ↔ d ∈ links ∨ d ∈ deps) ∧
    (∀ o, o ∈ (report name links deps).produced ↔ o = txt "out/www/" ++ name ∨ o = txt "out/www/" ++ name ++ txt ".hash") ∧ (report name links deps).reused = [] := by
  refine ⟨fun d => ?_, fun o => ?_, ?_⟩
  · simp [report, Css.Page.merge, mem_addAll]
  · simp [report, Css.Page.merge, mem_addAll]
  · refine List.eq_nil_iff_forall_not_mem.2 fun o ho => ?_
    simp [report, Css.Page.merge, mem_addAll] at ho

/-- C85, for pages: what is read because of the children is there; with other files which agree on the page and on what is read because
of its children, and whatever is done with images and inline elements, the build gives the same. -/
theorem build_reads {fuel : Nat} {env : Env E J} (hb : env.scan = false) (hn : Imageless env) {name : Text} (hrel : env.rel = txt "src/public/" ++ name) {fs fs1 : Fs}
    {r : Built} (hh : fs (txt "out/www/" ++ name ++ txt ".hash") = none) (h : buildFile fuel env fs = some (.ok (r, fs1))) (hp : plainPage fuel env fs = true) :
    ∃ links deps, r = report name links deps ∧
      (∀ d ∈ links, ∃ p, d = join (join (txt "src") (txt "public")) p ∧ fs (linkHashFile [] p) ≠ none) ∧
      (∀ d ∈ deps, env.tpl.files (join env.tpl.folder d) ≠ none) ∧
      ∀ {E' J' : Type} (env' : Env E' J') (fs' : Fs), Kindred env env' → fs' env.rel = fs env.rel → fs' (txt "out/www/" ++ name ++ txt ".hash") = none →
        (∀ p, join (join (txt "src") (txt "public")) p ∈ links → fs' (linkHashFile [] p) = fs (linkHashFile [] p)) →
        (∀ d ∈ deps, env'.tpl.files (join env.tpl.folder d) = env.tpl.files (join env.tpl.folder d)) →
        ∃ fs1', buildFile fuel env' fs' = some (.ok (r, fs1')) ∧ plainPage fuel env' fs' = true ∧ ∀ o ∈ r.produced, fs1' o = fs1 o := by
  obtain ⟨b, ts, out, s, h1, h2, h3, h4, h5, rfl, rfl⟩ := run_of_build hb hn hrel hh h hp
  obtain ⟨K, e4⟩ := run_reads hb hn h3 h4
  refine ⟨s.st.links, s.st.tpl.deps, rfl, K.links, K.incs, fun {E' J'} env' fs' ha hsrc hh' hl hd => ?_⟩
  obtain ⟨s', q1, q2⟩ := e4 env' fs' ha hl hd
  obtain ⟨w1, w2⟩ := build_of_run (fuel := fuel) (env := env') (by rw [ha.rel, hrel]) hh' (by rw [ha.rel, hsrc, h1]) (by rw [ha.parse, h2]) q2
    (by rw [q1]; exact h4) (by rw [q1]; exact h5) (by rw [q1]) (by rw [q1]; exact K.made) (by rw [q1]; exact K.images)
  rw [q1] at w1
  refine ⟨_, w1, w2, fun o ho => ?_⟩
  rcases mem_report.2.1 o |>.1 ho with rfl | rfl
  · simp [leave, Handlers.Fs.write, ha.write, ha.digest]
  · simp [leave, Handlers.Fs.write, ha.write, ha.digest]

/-! ## What becomes of the page -/

theorem render_counts {env : Env E J} {host stem : Text} {w w' : World} {f f' : Frame} {ts out : List HTok} (h : Render env host stem w f ts out w' f') :
    w.scripts ≤ w'.scripts ∧ w.styles ≤ w'.styles := by
  induction h with
  | nil => exact ⟨Nat.le_refl _, Nat.le_refl _⟩
  | keep _ _ ih => exact ih
  | canon _ _ _ _ ih => exact ih
  | link _ _ _ _ ih => exact ih
  | image _ _ _ _ ih => exact ih
  | @inline w f t k attrs body text n file r fs hash tags ts out w' f' _ _ _ _ _ _ _ _ _ ih =>
    cases k <;> simp only [World.bump] at ih <;> omega
  | define _ _ ih => exact ih
  | retrieve _ _ _ _ _ ih => exact ih
  | unknown _ _ ih => exact ih
  | block _ _ _ _ ih1 ih2 => exact ⟨ih1.1.trans ih2.1, ih1.2.trans ih2.2⟩
  | template _ _ _ _ ih1 ih2 => exact ⟨ih1.1.trans ih2.1, ih1.2.trans ih2.2⟩

/-- Without images and inline elements, hashes which are there elsewhere as well are all that matters of the files. -/
theorem render_more {env : Env E J} (hg : Img.GoodSpace env.py.space) (hn : Imageless env) {host stem : Text} {w w' : World} {f f' : Frame} {ts out : List HTok}
    (h : Render env host stem w f ts out w' f') (h0 : w'.scripts = 0 ∧ w'.styles = 0) {fs' : Fs} (hle : ∀ p y, w.fs p = some y → fs' p = some y) :
    w'.fs = w.fs ∧ Render env host stem { w with fs := fs' } f ts out { w' with fs := fs' } f' := by
  have zero : ∀ {w w' : World} {f f' : Frame} {ts out : List HTok}, Render env host stem w f ts out w' f' → w'.scripts = 0 ∧ w'.styles = 0 →
      w.scripts = 0 ∧ w.styles = 0 := fun h h0 => by have := render_counts h; omega
  induction h with
  | nil => exact ⟨rfl, .nil⟩
  | keep h1 _ ih => obtain ⟨e2, e3⟩ := ih h0 hle; exact ⟨e2, .keep h1 e3⟩
  | canon h1 h2 h3 _ ih => obtain ⟨e2, e3⟩ := ih h0 hle; exact ⟨e2, .canon h1 h2 h3 e3⟩
  | link h1 h2 h3 _ ih => obtain ⟨e2, e3⟩ := ih h0 hle; exact ⟨e2, .link h1 (hle _ _ h2) h3 e3⟩
  | image h1 _ _ _ _ => exact absurd ((command_some hg).2 h1) (hn _ _)
  | @inline w f t k attrs body text n file r fs hash tags ts out w' f' _ _ _ _ _ _ _ _ hr ih =>
    exfalso
    have := zero hr h0
    cases k <;> simp only [World.bump] at this <;> omega
  | define h1 _ ih => obtain ⟨e2, e3⟩ := ih h0 hle; exact ⟨e2, .define h1 e3⟩
  | retrieve h1 h2 h3 h4 _ ih => obtain ⟨e2, e3⟩ := ih h0 hle; exact ⟨e2, .retrieve h1 h2 h3 h4 e3⟩
  | unknown h1 _ ih => obtain ⟨e2, e3⟩ := ih h0 hle; exact ⟨e2, .unknown h1 e3⟩
  | block h1 h2 _ hr ih1 ih2 =>
    obtain ⟨e1, e2⟩ := ih1 (zero hr h0) hle
    obtain ⟨e3, e4⟩ := ih2 h0 (by rw [e1]; exact hle)
    exact ⟨e3.trans e1, .block h1 h2 e2 e4⟩
  | template h1 h2 _ hr ih1 ih2 =>
    obtain ⟨e1, e2⟩ := ih1 (zero hr h0) hle
    obtain ⟨e3, e4⟩ := ih2 h0 (by rw [e1]; exact hle)
    exact ⟨e3.trans e1, .template h1 h2 e2 e4⟩

/-- The output and its hash, if the hash is not there. -/
theorem build_plain {fuel : Nat} {env : Env E J} (hb : env.scan = false) (hn : Imageless env) {name : Text} (hrel : env.rel = txt "src/public/" ++ name) {fs fs1 : Fs}
    {r : Built} (hh : fs (txt "out/www/" ++ name ++ txt ".hash") = none) (h : buildFile fuel env fs = some (.ok (r, fs1))) (hp : plainPage fuel env fs = true) :
    ∃ b ts out, fs env.rel = some b ∧ env.parse b = some ts ∧ txt "out/www/" ++ name ∈ r.produced ∧ txt "out/www/" ++ name ++ txt ".hash" ∈ r.produced ∧
      fs1 (txt "out/www/" ++ name) = some (env.write out) ∧ fs1 (txt "out/www/" ++ name ++ txt ".hash") = some (env.digest (env.write out)) ∧
      ∀ host stem, Fit env → env.host = some host → PageFile env.rel stem → Bal env.tpl ts → Sane ts → ∀ fs', (∀ p y, fs p = some y → fs' p = some y) →
        ∃ w f, Render env host stem (World.start fs') ⟨env.rel, []⟩ ts out w f := by
  obtain ⟨b, ts, out, s, h1, h2, h3, h4, h5, rfl, rfl⟩ := run_of_build hb hn hrel hh h hp
  refine ⟨b, ts, out, h1, h2, (mem_report.2.1 _).2 (.inl rfl), (mem_report.2.1 _).2 (.inr rfl), ?_, ?_, fun host stem hf hho hst hbal hsane fs' hle => ?_⟩
  · simp only [leave, Fs.write, if_neg (Js.File.hash_ne name).symm, if_true]
  · simp [leave, Fs.write]
  · have K := (run_reads hb hn h3 h4).1
    obtain ⟨g, hg⟩ := runOps_loop _ _ _ _ _ _ _ h3
    rw [tokensOf_all, runOps_all h3] at hg
    simp only [State.new, List.append_nil] at hg
    rcases render_main hf hho hst g ts _ _ hbal hsane rfl rfl hg with ⟨out', f', he, ho, hq⟩ | ⟨-, hc⟩
    · have hout : out = out' := by simpa using ho
      subst hout
      obtain ⟨-, e2⟩ := render_more (fs' := fs') hf.space hn he h4 hle
      exact ⟨_, _, e2⟩
    · have hj : s.st.job.isSome := hc.job
      rw [K.job] at hj
      cases hj

end Verif.Html.Page
