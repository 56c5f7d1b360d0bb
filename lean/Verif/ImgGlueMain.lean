import Verif.ImgGlueThm

/-!
# C86: what the build of an image module does
-/

namespace Verif.Img.Glue

open Verif.Reader (Text txt)
open Verif.Paths (join isAbs Seg)
open Verif.Handlers (Bytes Fs Scan Built hashScan hashBuild hashTarget imagesOut outWww Public)
open Verif.Img.Files
open Verif.Css.Data (root)

variable {C : Type} [DecidableEq C]

/-! ## Specification -/

/-- All images of the file have proper paths, such as /img/a.png, and none is called like an image module. -/
def Paths (data : Json) : Prop :=
  ∀ items, data = .obj items → ∀ x ∈ items, ∀ rest entries, x.2 = .obj entries → entries.lookup (txt "path") = some (.str (47 :: rest)) →
    Plain (root rest) ∧ ¬ txt ".images.js" <:+ rest

/-- One picture as it is written into a module. -/
def Picture (p : Pic) (j : Json) : Prop :=
  j = .obj [(txt "width", .num (.int p.width)), (txt "height", .num (.int p.height)), (txt "url", .str (txt "/" ++ p.relpath)),
    (txt "choice", .str p.choice)]

/-- The entry of a module for the image of width `w` and height `h` with the given crop: its settings, and its pictures by format. -/
def Entry (w h : ℤ) (crop : Json) (outputs : List (Text × List Pic)) (j : Json) : Prop :=
  ∃ formats, j = .obj [(txt "target", .obj [
      (txt "settings", .obj [(txt "width", .num (.int w)), (txt "height", .num (.int h)), (txt "crop", .str (txt "cover")), (txt "crop_settings", crop)]),
      (txt "outputs", .obj formats)])] ∧
    List.Forall₂ (fun x y => y.1 = x.1 ∧ ∃ js, y.2 = .arr js ∧ List.Forall₂ Picture x.2 js) outputs formats

/-- The entry `j` of the module shows what the entry `v` of the file asks for: the settings and, by format, the pictures, whose
URLs are those of files in out/www. -/
structure Shows (t : Tools C) (fs : Fs) (v j : Json) : Prop where
  shows : ∃ rest w h args crop, ∃ m : Metadata C, ∃ b d, Asks v rest w h args ∧ t.env.crop args = some crop ∧ Entry w h (t.fields crop) m.outputs j ∧
    m.target = ⟨w, h, txt "cover", crop⟩ ∧ fs (source rest) = some b ∧ t.env.dims b = some d ∧ m.contentsHash = contentsOf t.env fs rest ∧
    ∀ x ∈ m.outputs, ∀ p ∈ x.2, (fs (txt "out/www" ++ 47 :: p.relpath)).isSome ∧ (fs (txt "artifacts" ++ 47 :: p.relpath)).isSome ∧
      ((p.width, p.height) ∈ t.env.sizes d (w, h)) ∧ ∃ f ∈ t.env.formats, x.1 = f.name

omit [DecidableEq C] in
theorem entry_image (fields : C → Json) (m : Metadata C) {w h : ℤ} {crop : C} (hm : m.target = ⟨w, h, txt "cover", crop⟩) :
    Entry w h (fields crop) m.outputs (imageJson fields m) := by
  refine ⟨m.outputs.map fun x => (x.1, Json.arr (x.2.map picJson)), by rw [imageJson, hm], ?_⟩
  · rw [List.forall₂_map_right_iff, List.forall₂_same]
    intro x _
    refine ⟨rfl, _, rfl, ?_⟩
    rw [List.forall₂_map_right_iff, List.forall₂_same]
    intro p _
    exact rfl

/-! ## Commands -/

theorem command_asks {v : Json} {rest : Text} {w h : ℤ} {args : Json} (ha : Asks v rest w h args) :
    command v = .ok ⟨47 :: rest, w, h, txt "cover", args, true⟩ := by
  obtain ⟨items, rfl, h1, h2, h3, h4, rfl⟩ := ha.entry
  have e : (items.lookup (txt "crop_style")).getD (.str (txt "cover")) = .str (txt "cover") := by
    rcases h4 with h4 | h4 <;> rw [h4] <;> rfl
  unfold command
  simp only [h1, h2, h3, e]

omit [DecidableEq C] in
theorem rel_asks {env : Env Json C} {file rest : Text} {w h : ℤ} {style : Text} {args : Json} {lazy : Bool} (hp : Plain (root rest)) :
    sourcePath env.cwd env.folder file ⟨47 :: rest, w, h, style, args, lazy⟩ = source rest ∧
    relOf env file ⟨47 :: rest, w, h, style, args, lazy⟩ = rest := by
  have e : sourcePath env.cwd env.folder file ⟨47 :: rest, w, h, style, args, lazy⟩ = source rest := by
    unfold sourcePath isAbs
    simp [source]
  refine ⟨e, ?_⟩
  unfold relOf
  rw [e]
  unfold source
  rw [join_plain (by decide) (by decide) (rel_first hp)]
  simp [List.drop_append]

/-- What is the case for an entry of an accepted file with proper paths. -/
structure Ready (env : Env Json C) (file : Text) (fs : Fs) (v : Json) (c : Command Json) (rest : Text) (w h : ℤ) (args : Json) : Prop where
  asks : Asks v rest w h args
  fits : Fits env fs rest w h
  command : command v = .ok c
  is : c = ⟨47 :: rest, w, h, txt "cover", args, true⟩
  proper : Plain (root rest)
  rel : relOf env file c = rest
  path : sourcePath env.cwd env.folder file c = source rest

omit [DecidableEq C] in
theorem ready {env : Env Json C} {fs : Fs} {items : List (Text × Json)} (file : Text) (h : checkImages env fs items = .ok true) (hp : Paths (.obj items)) :
    ∀ x ∈ items, ∃ c rest w h args, Ready env file fs x.2 c rest w h args := by
  intro x hx
  obtain ⟨rest, w, hh, args, ha, hf⟩ := checkImage_true (checkImages_true.1 h x hx)
  obtain ⟨entries, e1, e2, -⟩ := ha.entry
  have hpl := (hp items rfl x hx rest entries e1 e2).1
  exact ⟨_, rest, w, hh, args, ha, hf, command_asks ha, rfl, hpl, (rel_asks hpl).2, (rel_asks hpl).1⟩

omit [DecidableEq C] in
theorem Ready.isProper {env : Env Json C} {file : Text} {fs : Fs} {v : Json} {c : Command Json} {rest : Text} {w h : ℤ} {args : Json}
    (r : Ready env file fs v c rest w h args) : Proper env file c := by
  unfold Proper
  rw [r.rel]
  exact r.proper

omit [DecidableEq C] in
theorem Ready.pictured {env : Env Json C} {file : Text} {fs : Fs} {v : Json} {c : Command Json} {rest : Text} {w h : ℤ} {args : Json}
    (r : Ready env file fs v c rest w h args) : Pictured env fs (relOf env file c) := by
  obtain ⟨b, d, h1, h2, -⟩ := r.fits
  rw [r.rel]
  exact ⟨b, d, h1, h2⟩

omit [DecidableEq C] in
theorem Ready.move {env : Env Json C} {file : Text} {fs fs' : Fs} {v : Json} {c : Command Json} {rest : Text} {w h : ℤ} {args : Json}
    (r : Ready env file fs v c rest w h args) (he : fs' (source rest) = fs (source rest)) : Ready env file fs' v c rest w h args := by
  obtain ⟨b, d, h1, h2⟩ := r.fits
  exact ⟨r.asks, ⟨b, d, he.trans h1, h2⟩, r.command, r.is, r.proper, r.rel, r.path⟩

/-! ## Images stay -/

theorem step_images {env : Env Json C} (hl : Lawful env) {h : ℤ} (hh : env.settingsHash = .ok h) {f g : Fs} (hs : Files.Step env f g) (hg : Good env h f) (rel : Text)
    (hr : Plain (root rel)) (hi : Pictured env f rel ∨ Pictured env g rel) : g (source rel) = f (source rel) := by
  cases hs with
  | scan hp hx =>
    obtain ⟨h1, -⟩ := C72_scan hl hh hp hx
    by_contra hne
    obtain ⟨T, n, b, d, x⟩ := scan_spec hl hh hp hx
    have : ∀ p, g p ≠ f p → ImageFile p := by
      intro p hne
      rcases x.files with e | e | e
      · exact absurd (congrFun e p) hne
      · by_contra hc
        exact hne (by rw [e]; exact touch_ne fun he => hc (.inr (.inl ⟨_, he⟩)))
      · rw [e] at hne; exact reservedFs_image hne
    exact hne (sources_kept (env := env) this rel hr).1
  | export_ hp hi' hx =>
    obtain ⟨T, n, d, -, x⟩ := export_spec hl hh hp hg hi' hx
    exact (sources_kept (env := env) x.image rel hr).1
  | other h0 h1 h2 => exact (h2 rel hr hi).1

theorem steps_images {env : Env Json C} (hl : Lawful env) {h : ℤ} (hh : env.settingsHash = .ok h) {f g : Fs} (hs : Files.Steps env f g) (hg : Good env h f) (rel : Text)
    (hr : Plain (root rel)) (hi : Pictured env f rel ∨ Pictured env g rel) : g (source rel) = f (source rel) := by
  have mv : ∀ {a b : Fs}, a (source rel) = b (source rel) → Pictured env a rel → Pictured env b rel := by
    rintro a b e ⟨x, d, h1, h2⟩
    exact ⟨x, d, e.symm.trans h1, h2⟩
  induction hs with
  | refl => rfl
  | step h1 h2 ih =>
    have hk := (h1.keeps hl hh hg).1
    rcases hi with hi | hi
    · have e := ih (.inl hi)
      exact (step_images hl hh h2 hk rel hr (.inl (mv e.symm hi))).trans e
    · have e := step_images hl hh h2 hk rel hr (.inr hi)
      exact e.trans (ih (.inr (mv e hi)))

omit [DecidableEq C] in
/-- The check gives the same while the images are the same. -/
theorem check_same {env : Env Json C} {f g : Fs} {data : Json} (hp : Paths data)
    (h : ∀ rel, Plain (root rel) → Pictured env f rel ∨ Pictured env g rel → g (source rel) = f (source rel)) : check env g data = check env f data := by
  unfold check
  split
  case h_2 => rfl
  next items =>
  have one : ∀ x ∈ items, checkImage env g x.2 = checkImage env f x.2 := by
    intro x hx
    unfold checkImage
    split
    case h_2 => rfl
    next entries hv =>
    split
    case h_2 => rfl
    next rest hpath =>
    have hpl := (hp items rfl x hx rest entries hv hpath).1
    have pic : ∀ (fs : Fs) b d, fs (source rest) = some b → env.dims b = some d → Pictured env fs rest := fun fs b d h1 h2 => ⟨b, d, h1, h2⟩
    cases hf : f (source rest) with
    | none =>
      cases hg : g (source rest) with
      | none => rfl
      | some b =>
        cases hd : env.dims b with
        | none => simp only [hd]
        | some d =>
          have := h rest hpl (.inr (pic g b d hg hd))
          rw [hf, hg] at this
          cases this
    | some b =>
      cases hd : env.dims b with
      | some d =>
        have := h rest hpl (.inl (pic f b d hf hd))
        rw [hf] at this
        rw [this]
      | none =>
        cases hg : g (source rest) with
        | none => simp only [hd]
        | some b' =>
          cases hd' : env.dims b' with
          | none => simp only [hd, hd']
          | some d =>
            have := h rest hpl (.inr (pic g b' d hg hd'))
            rw [hf, hg] at this
            cases this
            rw [hd] at hd'
  clear hp
  induction items with
  | nil => rfl
  | cons x xs ih =>
    unfold checkImages
    rw [one x List.mem_cons_self, ih fun y hy => one y (List.mem_cons_of_mem _ hy)]

/-! ## The scan -/

/-- What the scan of the commands does. -/
structure Scans (env : Env Json C) (h : ℤ) (file : Text) (items : List (Text × Json)) (s s' : Scan) (f f' : Fs) : Prop where
  more : (∀ p ∈ s.dependencies, p ∈ s'.dependencies) ∧ ∀ p ∈ s.produces, p ∈ s'.produces
  only : ∀ p ∈ s'.dependencies, p ∈ s.dependencies ∨ ∃ x ∈ items, ∃ rest w h args, Asks x.2 rest w h args ∧ p = source rest
  each : ∀ x ∈ items, ∀ c, command x.2 = .ok c → ∃ g g' t, Good env h g ∧ scanCommand env file g c = .ok (t, g') ∧ Files.Steps env g' f' ∧
    (∀ p ∈ t.dependencies, p ∈ s'.dependencies) ∧ ∀ p ∈ t.produces, p ∈ s'.produces
  good : Good env h f'
  steps : Files.Steps env f f'
  changed : ∀ p, f' p ≠ f p → p ∈ s'.produces
  locked : AllLocked f → AllLocked f'

theorem steps_trans {env : Env Json C} {f g k : Fs} (h1 : Files.Steps env f g) (h2 : Files.Steps env g k) : Files.Steps env f k := by
  induction h2 with
  | refl => exact h1
  | step _ hs ih => exact .step ih hs

theorem scanAll_spec {env : Env Json C} (hl : Lawful env) {h : ℤ} (hh : env.settingsHash = .ok h) {file : Text} :
    ∀ {items : List (Text × Json)} {s s' : Scan} {f f' : Fs}, (∀ x ∈ items, ∃ c rest w h args, Ready env file f x.2 c rest w h args) → Good env h f →
    scanAll env file items s f = .ok (s', f') → Scans env h file items s s' f f' := by
  intro items
  induction items with
  | nil =>
    intro s s' f f' _ hg hs
    cases hs
    exact ⟨⟨fun _ h => h, fun _ h => h⟩, fun _ h => .inl h, fun _ h => by simp at h, hg, .refl, fun _ h => absurd rfl h, id⟩
  | cons x xs ih =>
    intro s s' f f' hr hg hs
    obtain ⟨c, rest, w, hw, args, r⟩ := hr x List.mem_cons_self
    unfold scanAll at hs
    rw [r.command] at hs
    dsimp only at hs
    split at hs
    · cases hs
    next t f1 hsc =>
    have hstep : Files.Step env f f1 := .scan r.isProper hsc
    have hk := hstep.keeps hl hh hg
    have hr' : ∀ y ∈ xs, ∃ c rest w h args, Ready env file f1 y.2 c rest w h args := by
      intro y hy
      obtain ⟨c', rest', w', h', args', r'⟩ := hr y (List.mem_cons_of_mem _ hy)
      refine ⟨c', rest', w', h', args', r'.move (step_images hl hh hstep hg rest' r'.proper (.inl ?_))⟩
      have := r'.pictured
      rwa [r'.rel] at this
    have I := ih hr' hk.1 hs
    have hc := C72_scan hl hh r.isProper hsc
    obtain ⟨T, n, b, d, X⟩ := scan_spec hl hh r.isProper hsc
    refine ⟨⟨fun p hp => I.more.1 p (List.mem_append_left _ hp), fun p hp => I.more.2 p (List.mem_append_left _ hp)⟩, ?_, ?_, I.good,
      steps_trans (.step .refl hstep) I.steps, ?_, fun ha => I.locked (hc.2 ha)⟩
    · intro p hp
      rcases I.only p hp with hp | ⟨y, hy, k⟩
      · rcases List.mem_append.1 hp with hp | hp
        · exact .inl hp
        · rw [X.dependencies, List.mem_singleton, r.path] at hp
          exact .inr ⟨x, List.mem_cons_self, rest, w, hw, args, r.asks, hp⟩
      · exact .inr ⟨y, List.mem_cons_of_mem _ hy, k⟩
    · intro y hy c' hc'
      rcases List.mem_cons.1 hy with rfl | hy
      · rw [r.command] at hc'
        cases hc'
        exact ⟨f, f1, t, hg, hsc, I.steps, fun p hp => I.more.1 p (List.mem_append_right _ hp), fun p hp => I.more.2 p (List.mem_append_right _ hp)⟩
      · exact I.each y hy c' hc'
    · intro p hne
      by_cases h1 : f' p = f1 p
      · exact I.more.2 p (List.mem_append_right _ (hc.1 p (h1 ▸ hne)).1)
      · exact I.changed p h1

/-! ## The build -/

/-- What the exports of the commands do. -/
structure Exports (t : Tools C) (h : ℤ) (file : Text) (items out out' : List (Text × Json)) (r r' : Built) (f f' : Fs) : Prop where
  names : ∃ new, out' = out ++ new ∧ List.Forall₂ (fun x y => y.1 = x.1 ∧ Shows t f' x.2 y.2) items new
  children : ∀ p ∈ r'.children, p ∈ r.children ∨ ∃ x ∈ items, ∃ c m u g g', command x.2 = .ok c ∧ Files.Steps t.env f g ∧
    exportCommand t.env file g c = .ok (m, u, g') ∧ p ∈ u.children
  reported : ∀ p, p ∈ r'.produced ∨ p ∈ r'.reused → (p ∈ r.produced ∨ p ∈ r.reused) ∨ ∃ x ∈ items, ∃ c m u g g', command x.2 = .ok c ∧
    Files.Steps t.env f g ∧ exportCommand t.env file g c = .ok (m, u, g') ∧ (p ∈ u.produced ∨ p ∈ u.reused)
  exist : ∀ p, p ∈ r'.produced ∨ p ∈ r'.reused → (p ∈ r.produced ∨ p ∈ r.reused) ∨ (f' p).isSome
  more : ∀ p ∈ r.produced, p ∈ r'.produced
  sources : ∀ x ∈ items, ∀ rest w h args, Asks x.2 rest w h args → source rest ∈ r'.children
  moreC : ∀ p ∈ r.children, p ∈ r'.children
  changed : ∀ p, f' p ≠ f p → p ∈ r'.produced ∨ Cand p
  image : ∀ p, f' p ≠ f p → ImageFile p
  kept : ∀ p, ¬ Cand p → (f p).isSome → (f' p).isSome
  good : Good t.env h f'
  locked : AllLocked f'

theorem asks_unique {v : Json} {r r' : Text} {w w' h h' : ℤ} {a a' : Json} (x : Asks v r w h a) (y : Asks v r' w' h' a') : r = r' ∧ w = w' ∧ h = h' ∧ a = a' := by
  obtain ⟨i, rfl, x1, x2, x3, -, x5⟩ := x.entry
  obtain ⟨j, e, y1, y2, y3, -, y5⟩ := y.entry
  cases e
  rw [x1] at y1
  rw [x2] at y2
  rw [x3] at y3
  rw [x5] at y5
  cases y1; cases y2; cases y3; cases y5
  exact ⟨rfl, rfl, rfl, rfl⟩

omit [DecidableEq C] in
theorem reported_not_cand {env : Env Json C} (hl : Lawful env) {h : ℤ} {rel stem path : Text} {fs fs' : Fs} {m : Metadata C} {r : Built} {T : Target C} {n : ℤ}
    {d : ℤ × ℤ} (x : Files.Exported env h rel stem path fs fs' m r T n d) {p : Text} (hp : p ∈ r.produced ∨ p ∈ r.reused) : ¬ Cand p := by
  rcases x.reported p hp with rfl | rfl | rfl | rfl | hf
  · exact meta_not_cand (idText_slash n)
  · exact counter_not_cand
  · exact place_not_cand (idText_slash n)
  · exact not_cand_of_out (lock_out _)
  · exact files_not_cand (tasks_noSlash hl _) hf

theorem exportAll_spec {t : Tools C} (hl : Lawful t.env) {h : ℤ} (hh : t.env.settingsHash = .ok h) {file : Text} :
    ∀ {items out out' : List (Text × Json)} {r r' : Built} {f f' : Fs}, (∀ x ∈ items, ∃ c rest w h args, Ready t.env file f x.2 c rest w h args) → Good t.env h f →
    AllLocked f → exportAll t.env t.fields file items out r f = .ok (out', r', f') → Exports t h file items out out' r r' f f' := by
  intro items
  induction items with
  | nil =>
    intro out out' r r' f f' _ hg ha hs
    cases hs
    exact ⟨⟨[], by simp, .nil⟩, fun _ h => .inl h, fun _ h => .inl h, fun _ h => .inl h, fun _ h => h, fun _ h => by simp at h, fun _ h => h,
      fun _ h => absurd rfl h, fun _ h => absurd rfl h, fun _ _ h => h, hg, ha⟩
  | cons x xs ih =>
    intro out out' r r' f f' hr hg ha hs
    obtain ⟨c, rest, w, hw, args, R⟩ := hr x List.mem_cons_self
    unfold exportAll at hs
    rw [R.command] at hs
    dsimp only at hs
    split at hs
    · cases hs
    next m u f1 hex =>
    have hstep : Files.Step t.env f f1 := .export_ R.isProper R.pictured hex
    have hr' : ∀ y ∈ xs, ∃ c rest w h args, Ready t.env file f1 y.2 c rest w h args := by
      intro y hy
      obtain ⟨c', rest', w', h', args', r'⟩ := hr y (List.mem_cons_of_mem _ hy)
      refine ⟨c', rest', w', h', args', r'.move (step_images hl hh hstep hg rest' r'.proper (.inl ?_))⟩
      have := r'.pictured
      rwa [r'.rel] at this
    obtain ⟨T, n, d, hT, X⟩ := export_spec hl hh R.isProper hg R.pictured hex
    obtain ⟨c1, c2, c3, c4, c5⟩ := C72 hl hh R.isProper hg R.pictured ha hex
    have I := ih hr' c4 c5 hs
    have hsrc := sources_kept (env := t.env) I.image rest R.proper
    have hsrc1 := sources_kept (env := t.env) X.image rest R.proper
    refine ⟨?_, ?_, ?_, ?_, fun p hp => I.more p (List.mem_append_left _ hp), ?_, fun p hp => I.moreC p (List.mem_append_left _ hp), ?_, ?_, ?_, I.good, I.locked⟩
    · obtain ⟨new, e1, e2⟩ := I.names
      refine ⟨(x.1, imageJson t.fields m) :: new, by rw [e1]; simp, .cons ⟨rfl, ?_⟩ e2⟩
      obtain ⟨b, hb, hd⟩ := X.source
      rw [R.rel] at hb
      have hcrop : t.env.crop args = some T.settings ∧ T = ⟨w, hw, txt "cover", T.settings⟩ := by
        rw [R.is] at hT
        unfold targetOf at hT
        dsimp only at hT
        split at hT
        · cases hT
        · next s hs => cases hT; exact ⟨hs, rfl⟩
      refine ⟨rest, w, hw, args, T.settings, m, b, d, R.asks, hcrop.1, entry_image _ m (X.isFor.2.1.trans hcrop.2), X.isFor.2.1.trans hcrop.2, ?_, hd, ?_, ?_⟩
      · rw [hsrc.1, hsrc1.1, hb]
      · rw [hsrc.2, hsrc1.2, X.isFor.2.2.1, R.rel]
      · intro y hy p hp
        obtain ⟨k, hk, e1, e2, e3, e4, -⟩ := X.made.pics y.1 p ⟨y, hy, rfl, hp⟩
        have ho := X.outs y.1 p ⟨y, hy, rfl, hp⟩
        have hroot : Plain (root (relOf t.env file c)) := by rw [R.rel]; exact R.proper
        rw [e4, picPath, (again_eq hroot).1, (again_eq hroot).2] at ho
        have hsz := X.isFor.2.2.2
        rw [Prod.mk.injEq] at hsz
        obtain ⟨k1, k2⟩ := mem_tasks.1 hk
        rw [hsz.1, hsz.2, X.isFor.2.1] at k1
        have o1 : txt "out/www" ++ 47 :: p.relpath = outFile (root (relOf t.env file c)) (idText n) (outName k.1.1 k.1.2 k.2.name) := by
          have e : txt "out/www/" = txt "out/www" ++ [47] := by decide
          rw [e4, picPath, outFile, e]
          simp
        have o2 : txt "artifacts" ++ 47 :: p.relpath = entryFile (root (relOf t.env file c)) (idText n) (outName k.1.1 k.1.2 k.2.name) := by
          have e : txt "artifacts/" = txt "artifacts" ++ [47] := by decide
          rw [e4, picPath, entryFile, e]
          simp
        refine ⟨?_, ?_, ?_, k.2, k2, e1⟩
        · rw [o1]
          exact I.kept _ out_not_cand ho.2
        · rw [o2]
          exact I.kept _ (art_not_cand (idText_slash n) (out_slash (tasks_noSlash hl _ k hk).2.1) fun _ _ _ _ => cand_ne_out) ho.1
        · rw [e2, e3]
          have : (T.width, T.height) = (w, hw) := by rw [hcrop.2]
          rw [this] at k1
          exact k1
    · intro p hp
      rcases I.children p hp with hp | ⟨y, hy, c', m', u', g, g', k1, k2, k3⟩
      · rcases List.mem_append.1 hp with hp | hp
        · exact .inl hp
        · exact .inr ⟨x, List.mem_cons_self, c, m, u, f, f1, R.command, .refl, hex, hp⟩
      · exact .inr ⟨y, List.mem_cons_of_mem _ hy, c', m', u', g, g', k1, steps_trans (.step .refl hstep) k2, k3⟩
    · intro p hp
      rcases I.reported p hp with hp | ⟨y, hy, c', m', u', g, g', k1, k2, k3⟩
      · have : (p ∈ r.produced ∨ p ∈ r.reused) ∨ (p ∈ u.produced ∨ p ∈ u.reused) := by
          rcases hp with hp | hp <;> rcases List.mem_append.1 hp with hp | hp <;> tauto
        rcases this with hp | hp
        · exact .inl hp
        · exact .inr ⟨x, List.mem_cons_self, c, m, u, f, f1, R.command, .refl, hex, hp⟩
      · exact .inr ⟨y, List.mem_cons_of_mem _ hy, c', m', u', g, g', k1, steps_trans (.step .refl hstep) k2, k3⟩
    · intro p hp
      rcases I.exist p hp with hp | hp
      · have : (p ∈ r.produced ∨ p ∈ r.reused) ∨ (p ∈ u.produced ∨ p ∈ u.reused) := by
          rcases hp with hp | hp <;> rcases List.mem_append.1 hp with hp | hp <;> tauto
        rcases this with hp | hp
        · exact .inl hp
        · exact .inr (I.kept p (reported_not_cand hl X hp) (c3 p hp))
      · exact .inr hp
    · intro y hy rest' w' h' args' hasks
      rcases List.mem_cons.1 hy with rfl | hy
      · obtain ⟨rfl, -⟩ := asks_unique hasks R.asks
        refine I.moreC _ (List.mem_append_right _ ?_)
        rw [X.children, R.path]
        exact List.mem_singleton_self _
      · exact I.sources y hy rest' w' h' args' hasks
    · intro p hne
      by_cases h1 : f' p = f1 p
      · rcases c1 p (h1 ▸ hne) with hp | hp
        · exact .inl (I.more p (List.mem_append_right _ hp))
        · exact .inr hp
      · exact I.changed p h1
    · intro p hne
      by_cases h1 : f' p = f1 p
      · exact X.image p (h1 ▸ hne)
      · exact I.image p h1
    · intro p hc hp
      exact I.kept p hc (X.kept p hc hp)

/-! ## The module -/

omit [DecidableEq C] in
theorem load_ok {t : Tools C} {rel : Text} {fs : Fs} {x : Option (List (Text × Json))} (h : load t rel fs = .ok x) :
    ∃ b data, fs rel = some b ∧ t.loads b = some data ∧
      ((check t.env fs data = .ok false ∧ x = none) ∨ ∃ items, check t.env fs data = .ok true ∧ data = .obj items ∧ x = some items) := by
  unfold load at h
  split at h
  · cases h
  next b hb =>
  split at h
  · cases h
  next data hd =>
  refine ⟨b, data, hb, hd, ?_⟩
  split at h
  · cases h
  · next hc => cases h; exact .inl ⟨hc, rfl⟩
  · next hc =>
    split at h
    · next items => cases h; exact .inr ⟨items, hc, rfl, rfl⟩
    · next hne =>
      exfalso
      unfold check at hc
      split at hc
      · next items => exact hne items rfl
      · cases hc

theorem imagesOut_eq (p : Text) : imagesOut (txt "src/public/" ++ p ++ txt ".images.json") = txt "out/www/" ++ p ++ txt ".images.js" := by
  unfold imagesOut
  have e : Handlers.srcPublic.length + 1 = (txt "src/public/").length := by decide
  rw [e]
  simp only [List.append_assoc, List.drop_left]
  simp [outWww]

theorem not_module (p : Text) : (txt ".images.js").isSuffixOf (txt "src/public/" ++ p ++ txt ".images.json") = false := by
  rw [Bool.eq_false_iff]
  intro h
  rw [List.isSuffixOf_iff_suffix] at h
  obtain ⟨a, h⟩ := h
  have := congrArg (fun l : List ℕ => l.reverse[0]?) h
  simp [txt] at this

theorem module_target (p : Text) : hashTarget (txt "out/www/" ++ p ++ txt ".images.js") = some (txt "out/www/" ++ p ++ txt ".images.js" ++ txt ".hash") := by
  have := Handlers.hashTarget_out (p ++ txt ".images.js")
  unfold outWww at this
  rw [List.append_assoc, this]

theorem forall2_mem {α β : Type} {P Q : α → β → Prop} : ∀ {l : List α} {l' : List β}, (∀ x ∈ l, ∀ y, P x y → Q x y) → List.Forall₂ P l l' → List.Forall₂ Q l l' := by
  intro l l' h h'
  induction h' with
  | nil => exact .nil
  | cons hp _ ih => exact .cons (h _ List.mem_cons_self _ hp) (ih fun x hx => h x (List.mem_cons_of_mem _ hx))

theorem hash_not_image {p q : Text} (h : ImageFile p) : p ≠ txt "out/www/" ++ q ++ txt ".hash" := by
  have e1 : txt "out/www/" = txt "out/" ++ txt "www/" := by decide
  have e2 : txt "out/www/" = 111 :: 117 :: 116 :: 47 :: 119 :: txt "ww/" := by decide
  have e3 : txt "out/locks/" = 111 :: 117 :: 116 :: 47 :: 108 :: txt "ocks/" := by decide
  have e4 : txt ".hash" = 46 :: txt "hash" := by decide
  rcases h with h | ⟨s, rfl⟩ | ⟨s, n, w, h, f, h1, h2, rfl⟩
  · refine art_ne_out h ?_
    simp only [InOut, e1, List.append_assoc]
    exact List.prefix_append _ _
  · rw [lockPath, e2, e3]; simp
  · intro he
    have : txt "out/www/" ++ s ++ 47 :: n ++ 47 :: (digits w ++ 120 :: digits h) ++ 46 :: f = (txt "out/www/" ++ q) ++ 46 :: txt "hash" := by
      rw [e4] at he
      rw [← he]
      simp [outFile, outName]
    exact h2 (split_unique_last h1 (by decide) this).2

/-- **C86** (in part).  An image module src/public/p.images.json, with proper paths of images, is scanned, and built when other
things have happened which leave images, hashes of images and artifacts in order.  The build reads what the scan said it would
read, and reports only files which the scan announced.  All it changes is what it reports as produced, and candidates of images;
and all it reports exists.  A file which is not accepted is left alone.  For an accepted one, out/www/p.images.js has an
object with the same names in the same order, which shows for each image the settings asked for and pictures of this image in
sizes and formats of the settings, whose URLs are files in out/www; the images are reported as children, and the hash is that of
the module unless there was one. -/
theorem C86_partial {t : Tools C} (hl : Lawful t.env) {h : ℤ} (hh : t.env.settingsHash = .ok h) {p : Text} {rel module : Text}
    (hrel : rel = txt "src/public/" ++ p ++ txt ".images.json") (hmod : module = txt "out/www/" ++ p ++ txt ".images.js")
    {f f' g g' : Fs} {b : Bytes} {data : Json} (hb : f rel = some b) (hb' : g rel = some b) (hd : t.loads b = some data) (hp : Paths data)
    (hg : Good t.env h f) {s : Scan} (hs : scanFile t rel f = .ok (s, f')) (ht : Files.Steps t.env f' g) (ha : AllLocked g)
    {r : Built} (he : buildFile t rel g = .ok (r, g')) :
    (∀ q ∈ r.children, q ∈ s.dependencies) ∧ (∀ q, q ∈ r.produced ∨ q ∈ r.reused → q ∈ s.produces) ∧
    (∀ q, g' q ≠ g q → q ∈ r.produced ∨ Cand q) ∧ (∀ q, q ∈ r.produced ∨ q ∈ r.reused → (g' q).isSome) ∧
    (check t.env g data = .ok false → s = ⟨[], []⟩ ∧ f' = f ∧ r = ⟨[], [], []⟩ ∧ g' = g) ∧
    ∀ items, data = .obj items → check t.env g data = .ok true →
      ∃ out, g' module = some (t.env.encode (txt "export default " ++ t.dumps (.obj out) ++ txt ";" ++ [10])) ∧
        List.Forall₂ (fun x y => y.1 = x.1 ∧ Shows t g' x.2 y.2) items out ∧ module ∈ r.produced ∧
        (∀ x ∈ items, ∀ rest w h args, Asks x.2 rest w h args → source rest ∈ r.children) ∧
        ∀ c, g' module = some c → g (module ++ txt ".hash") = none → g' (module ++ txt ".hash") = some (t.env.encode (t.env.digest c)) := by
  have hio : imagesOut rel = module := by rw [hrel, hmod]; exact imagesOut_eq p
  have hnm : (txt ".images.js").isSuffixOf rel = false := by rw [hrel]; exact not_module p
  have hht : hashTarget module = some (module ++ txt ".hash") := by rw [hmod]; exact module_target p
  unfold scanFile at hs
  rw [hnm] at hs
  simp only [Bool.false_eq_true, if_false] at hs
  unfold buildFile at he
  rw [hnm] at he
  simp only [Bool.false_eq_true, if_false] at he
  split at hs
  · cases hs
  · -- not accepted
    next hlo =>
    cases hs
    obtain ⟨b1, d1, k1, k2, k3⟩ := load_ok hlo
    rw [hb] at k1; cases k1
    rw [hd] at k2; cases k2
    have hc : check t.env f data = .ok false := by
      rcases k3 with k3 | ⟨_, _, _, k⟩
      · exact k3.1
      · cases k
    have hc' : check t.env g data = .ok false := by
      rw [← hc]
      exact check_same hp fun rel hr hi => steps_images hl hh ht hg rel hr hi
    have hlo' : load t rel g = .ok none := by
      unfold load
      simp only [hb', hd, hc']
    rw [hlo'] at he
    cases he
    exact ⟨by simp, by simp, fun q hq => absurd rfl hq, by simp, fun _ => ⟨rfl, rfl, rfl, rfl⟩, fun items _ hk => by rw [hc'] at hk; cases hk⟩
  · next items hlo =>
    obtain ⟨b1, d1, k1, k2, k3⟩ := load_ok hlo
    rw [hb] at k1; cases k1
    rw [hd] at k2; cases k2
    obtain ⟨hc, rfl⟩ : check t.env f data = .ok true ∧ data = .obj items := by
      rcases k3 with k3 | ⟨i, k4, rfl, k⟩
      · cases k3.2
      · cases k
        exact ⟨k4, rfl⟩
    split at hs
    · cases hs
    next s1 f1 hsc =>
    cases hs
    have R := ready (join t.env.folder rel) hc hp
    have S := scanAll_spec hl hh R hg hsc
    have hall : Files.Steps t.env f g := steps_trans S.steps ht
    have hsrc : ∀ rel, Plain (root rel) → Pictured t.env f rel ∨ Pictured t.env g rel → g (source rel) = f (source rel) :=
      fun rel hr hi => steps_images hl hh hall hg rel hr hi
    have hc' : check t.env g (.obj items) = .ok true := by
      rw [← hc]
      exact check_same hp hsrc
    have hlo' : load t rel g = .ok (some items) := by
      unfold load
      simp only [hb', hd, hc']
    rw [hlo'] at he
    dsimp only at he
    split at he
    · cases he
    next out r1 g1 hex =>
    split at he
    · cases he
    next hr g2 hhb =>
    cases he
    have hgg := (ht.keeps hl hh S.good).1
    have R' := ready (join t.env.folder rel) hc' hp
    have X := exportAll_spec hl hh R' hgg ha hex
    -- the commands
    have each : ∀ x ∈ items, ∀ c m u k k', command x.2 = .ok c → Files.Steps t.env g k → exportCommand t.env (join t.env.folder rel) k c = .ok (m, u, k') →
        (∀ q ∈ u.children, q ∈ s1.dependencies) ∧ ∀ q, q ∈ u.produced ∨ q ∈ u.reused → q ∈ s1.produces := by
      intro x hx c m u k k' hcm hst hex
      obtain ⟨c', rest, w, hw, args, r'⟩ := R x hx
      have := r'.command.symm.trans hcm
      cases this
      obtain ⟨a, a', u', y1, y2, y3, y4, y5⟩ := S.each x hx c hcm
      obtain ⟨z1, z2⟩ := C71 hl hh r'.isProper y1 y2 (steps_trans (steps_trans y3 ht) hst) hex
      exact ⟨fun q hq => y4 q (z1 ▸ hq), fun q hq => y5 q (z2 q hq)⟩
    rw [hio] at hhb hsc ⊢
    unfold hashBuild at hhb
    rw [hht] at hhb
    dsimp only at hhb
    have hsk : (hashScan module).produces = [module ++ txt ".hash"] ∧ (hashScan module).dependencies = [] := by
      unfold hashScan
      rw [hht]
      exact ⟨rfl, rfl⟩
    have hmne : module ++ txt ".hash" ≠ module := by
      intro e
      have := congrArg List.length e
      simp [txt] at this
    have hms : (g1.write module (t.env.encode (moduleText t out))) module = some (t.env.encode (moduleText t out)) := by simp [Fs.write]
    have hmh : (g1.write module (t.env.encode (moduleText t out))) (module ++ txt ".hash") = g1 (module ++ txt ".hash") := by simp [Fs.write, hmne]
    rw [hms, hmh] at hhb
    dsimp only at hhb
    have hmodIn : module ∈ s1.produces := S.more.2 module (by simp [hio])
    -- the hash
    have hcase : (hr = ⟨[], [], [module ++ txt ".hash"]⟩ ∧ g' = g1.write module (t.env.encode (moduleText t out)) ∧ (g1 (module ++ txt ".hash")).isSome) ∨
        (hr = ⟨[], [module ++ txt ".hash"], []⟩ ∧ g1 (module ++ txt ".hash") = none ∧
          g' = (g1.write module (t.env.encode (moduleText t out))).write (module ++ txt ".hash") (t.env.encode (t.env.digest (t.env.encode (moduleText t out))))) := by
      cases hx : g1 (module ++ txt ".hash") with
      | some y => rw [hx] at hhb; cases hhb; exact .inl ⟨rfl, rfl, rfl⟩
      | none => rw [hx] at hhb; cases hhb; exact .inr ⟨rfl, rfl, rfl⟩
    have hother : ∀ q, q ≠ module → q ≠ module ++ txt ".hash" → g' q = g1 q := by
      intro q h1 h2
      rcases hcase with ⟨-, e, -⟩ | ⟨-, -, e⟩ <;> rw [e] <;> simp [Fs.write, h1, h2]
    have hm2 : g' module = some (t.env.encode (moduleText t out)) := by
      rcases hcase with ⟨-, e, -⟩ | ⟨-, -, e⟩ <;> rw [e] <;> simp [Fs.write, hmne.symm]
    have hh2 : (g' (module ++ txt ".hash")).isSome := by
      rcases hcase with ⟨-, e, k⟩ | ⟨-, -, e⟩ <;> rw [e]
      · simp [Fs.write, hmne, k]
      · simp [Fs.write]
    have hsome : ∀ q, (g1 q).isSome → (g' q).isSome := by
      intro q hq
      by_cases h1 : q = module
      · rw [h1, hm2]; rfl
      by_cases h2 : q = module ++ txt ".hash"
      · rw [h2]; exact hh2
      rw [hother q h1 h2]; exact hq
    have hrep : ∀ q, q ∈ hr.produced ∨ q ∈ hr.reused → q = module ++ txt ".hash" := by
      rcases hcase with ⟨e, -⟩ | ⟨e, -⟩ <;> rw [e] <;> simp
    have hch : hr.children = [] := by rcases hcase with ⟨e, -⟩ | ⟨e, -⟩ <;> rw [e]
    refine ⟨?_, ?_, ?_, ?_, fun hk => by rw [hc'] at hk; (cases hk), ?_⟩
    · intro q hq
      simp only [hch, List.append_nil] at hq
      rcases X.children q hq with hq | ⟨x, hx, c, m, u, k, k', y1, y2, y3, y4⟩
      · simp at hq
      · exact List.mem_append_left _ ((each x hx c m u k k' y1 y2 y3).1 q y4)
    · intro q hq
      have : (q ∈ r1.produced ∨ q ∈ r1.reused) ∨ q = module ∨ q = module ++ txt ".hash" := by
        simp only [List.mem_append, List.mem_singleton] at hq
        have := hrep q
        tauto
      rcases this with hq | rfl | rfl
      · rcases X.reported q hq with hq | ⟨x, hx, c, m, u, k, k', y1, y2, y3, y4⟩
        · simp at hq
        · exact List.mem_append_left _ ((each x hx c m u k k' y1 y2 y3).2 q y4)
      · exact List.mem_append_left _ hmodIn
      · refine List.mem_append_right _ ?_
        rw [hsk.1]
        simp
    · intro q hne
      simp only [List.mem_append, List.mem_singleton]
      by_cases h1 : q = module
      · exact .inl (.inl (.inr h1))
      by_cases h2 : q = module ++ txt ".hash"
      · rcases hcase with ⟨e1, e2, -⟩ | ⟨e1, -⟩
        · have : g1 q ≠ g q := by
            intro h3
            apply hne
            rw [e2, ← h3]
            simp [Fs.write, h1]
          rcases X.changed q this with h4 | h4
          · exact .inl (.inl (.inl h4))
          · exact .inr h4
        · exact .inl (.inr (by rw [e1, h2]; simp))
      rw [hother q h1 h2] at hne
      rcases X.changed q hne with h4 | h4
      · exact .inl (.inl (.inl h4))
      · exact .inr h4
    · intro q hq
      have : (q ∈ r1.produced ∨ q ∈ r1.reused) ∨ q = module ∨ q = module ++ txt ".hash" := by
        simp only [List.mem_append, List.mem_singleton] at hq
        have := hrep q
        tauto
      rcases this with hq | rfl | rfl
      · rcases X.exist q hq with hq | hq
        · simp at hq
        · exact hsome q hq
      · rw [hm2]; rfl
      · exact hh2
    · intro items' hi _
      cases hi
      obtain ⟨new, e1, e2⟩ := X.names
      simp only [List.nil_append] at e1
      subst e1
      refine ⟨out, hm2, ?_, by simp, ?_, ?_⟩
      · have : ∀ x ∈ items, ∀ y : Text × Json, (y.1 = x.1 ∧ Shows t g1 x.2 y.2) → (y.1 = x.1 ∧ Shows t g' x.2 y.2) := by
          rintro x hx y ⟨hy, hsh⟩
          refine ⟨hy, ?_⟩
          obtain ⟨rest, w, hw, args, crop, m, im, d, z1, z2, z3, z4, z5, z6, z7, z8⟩ := hsh.shows
          obtain ⟨entries, w1, w2, -⟩ := z1.entry
          obtain ⟨hpl, hnot⟩ := hp items rfl x hx rest entries w1 w2
          have hs0 : source rest = txt "src/public/" ++ rest := by
            unfold source
            rw [join_plain (by decide) (by decide) (rel_first hpl)]
            have : txt "src/public/" = join (txt "src") (txt "public") ++ [47] := by decide
            rw [this]; simp
          have a1 : g' (source rest) = g1 (source rest) := by
            refine hother _ ?_ ?_ <;> rw [hs0, hmod] <;> intro e <;> have := congrArg (fun l => l[0]?) e <;> simp [txt] at this
          have a2 : g' (hashFile rest) = g1 (hashFile rest) := by
            refine hother _ ?_ ?_ <;> rw [hash_eq hpl, hmod] <;> intro e
            · have := congrArg (fun l : List ℕ => l.reverse[0]?) e
              simp [txt] at this
            · have := List.append_cancel_right e
              rw [List.append_assoc] at this
              have := List.append_cancel_left this
              exact hnot ⟨p, this.symm⟩
          have a3 : contentsOf t.env g' rest = contentsOf t.env g1 rest := by
            unfold contentsOf
            rw [a1, a2]
          refine ⟨rest, w, hw, args, crop, m, im, d, z1, z2, z3, z4, by rw [a1]; exact z5, z6, by rw [a3]; exact z7, ?_⟩
          intro x hx p hp
          obtain ⟨v1, v2, v3⟩ := z8 x hx p hp
          exact ⟨hsome _ v1, hsome _ v2, v3⟩
        exact forall2_mem this e2
      · intro x hx rest w hw args hasks
        exact List.mem_append_left _ (X.sources x hx rest w hw args hasks)
      · intro c hcm hno
        rw [hm2] at hcm
        cases hcm
        rcases hcase with ⟨-, -, k⟩ | ⟨-, -, e⟩
        · exfalso
          have : g1 (module ++ txt ".hash") = g (module ++ txt ".hash") := by
            by_contra hne
            refine hash_not_image (q := p ++ txt ".images.js") (X.image _ hne) ?_
            rw [hmod]
            simp
          rw [this, hno] at k
          cases k
        · rw [e]; simp [Fs.write]

end Verif.Img.Glue
