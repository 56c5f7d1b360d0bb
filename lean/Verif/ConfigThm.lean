import Verif.Config
import Verif.ImgExportThm

/-!
# C87: what is read from the configuration
-/

namespace Verif.Config

open Verif.Reader (Text txt)
open Verif.Img.Glue (Json Number)

/-! ## Specification -/

/-- The value is an integer; true and false count as 1 and 0. -/
def Whole (v : Option Json) (n : ℤ) : Prop :=
  v = some (.num (.int n)) ∨ (v = some (.bool true) ∧ n = 1) ∨ (v = some (.bool false) ∧ n = 0)

/-- The bound of an area: absent, null or an integer. -/
def AreaSays (v : Option Json) (a : Option ℤ) : Prop :=
  ((v = none ∨ v = some .null) ∧ a = none) ∨ ∃ n, Whole v n ∧ a = some n

/-- What an export says. -/
def ExportSays (v : Json) (e : Export) : Prop :=
  ∃ items, v = .obj items ∧ AreaSays (items.lookup (txt "min_area_px2")) e.minArea ∧ AreaSays (items.lookup (txt "max_area_px2")) e.maxArea ∧
    Whole (items.lookup (txt "preference")) e.preference ∧
    (items.lookup (txt "formatter_kwargs") = some (.obj e.kwargs) ∨ (items.lookup (txt "formatter_kwargs") = none ∧ e.kwargs = []))

/-- What a format says: its exports, in their order, under their names. -/
def FormatSays (v : Json) (f : Format) : Prop :=
  ∃ items exports, v = .obj items ∧ items.lookup (txt "exports") = some (.obj exports) ∧
    List.Forall₂ (fun x y => y.1 = x.1 ∧ ExportSays x.2 y.2) exports f.exports ∧ Whole (items.lookup (txt "minimum_unit_size_bytes")) f.minUnit

/-- The step: a number, or a text which denotes one. -/
def StepSays (decimal : Text → Option Dec) (v : Option Json) (d : Dec) : Prop :=
  (∃ n : ℤ, Whole v n ∧ d = .fin n) ∨ (∃ q, v = some (.num (.float q)) ∧ d = .fin q) ∨ (v = some (.num .inf) ∧ d = .inf) ∨
    ∃ t, v = some (.str t) ∧ decimal t = some d

/-- More than zero, perhaps infinity. -/
def Positive (d : Dec) : Prop := d = .inf ∨ ∃ q, d = .fin q ∧ 0 < q

/-- What the settings for images say. -/
def ImagesSays (decimal : Text → Option Dec) (v : Json) (s : Images) : Prop :=
  ∃ items formats, v = .obj items ∧ items.lookup (txt "formats") = some (.obj formats) ∧
    List.Forall₂ (fun x y => y.1 = x.1 ∧ y.2.name = x.1 ∧ FormatSays x.2 y.2) formats s.formats ∧
    items.lookup (txt "default_format") = some (.str s.default) ∧ (∃ x ∈ formats, x.1 = s.default) ∧
    Whole (items.lookup (txt "maximum_resolution")) s.maximum ∧ StepSays decimal (items.lookup (txt "resolution_step")) s.step ∧ Positive s.step

/-- What the entry for an external file says: where it is, its URL and its hash. -/
def ExternalSays (key : Text) (v : Json) (f : External) : Prop :=
  ∃ items, v = .obj items ∧ (items.lookup (txt "relpath") = some (.str f.relpath) ∨ (items.lookup (txt "relpath") = none ∧ f.relpath = key)) ∧
    items.lookup (txt "url") = some f.url ∧ items.lookup (txt "integrity") = some f.integrity

/-- What the entries for external files say: every one is right, and the last one for a path counts. -/
def ExternalsSay (items : List (Text × Json)) (r : List (Text × External)) : Prop :=
  (∀ x ∈ items, ∃ f, ExternalSays x.1 x.2 f) ∧ (r.map (·.1)).Nodup ∧
    ∀ p f, (p, f) ∈ r ↔ ∃ pre x post, items = pre ++ x :: post ∧ ExternalSays x.1 x.2 f ∧ f.relpath = p ∧ ∀ y ∈ post, ∀ f', ExternalSays y.1 y.2 f' → f'.relpath ≠ p

/-- The value of a constant: texts env://NAME stand for the variable, everything else for itself. -/
def ConstantSays (env : Text → Option Text) (v v' : Json) : Prop :=
  (∃ name t, v = .str (txt "env://" ++ name) ∧ env name = some t ∧ v' = .str t) ∨ ((∀ name, v ≠ .str (txt "env://" ++ name)) ∧ v' = v)

/-- The constants of a mode, in their order. -/
def ModeSays (env : Text → Option Text) (v : Option Json) (r : List (Text × Json)) : Prop :=
  ∃ items, v = some (.obj items) ∧ List.Forall₂ (fun x y => y.1 = x.1 ∧ ConstantSays env x.2 y.2) items r

/-- What the constants say. -/
def ConstantsSay (env : Text → Option Text) (v : Json) (c : Constants) : Prop :=
  ∃ items, v = .obj items ∧ items.lookup (txt "relpath") = some (.str c.relpath) ∧ ModeSays env (items.lookup (txt "shared")) c.shared ∧
    ModeSays env (items.lookup (txt "dev")) c.dev ∧ ModeSays env (items.lookup (txt "prod")) c.prod

/-- What the configuration says. -/
def Says {I : Type} (w : World I) (items : List (Text × Json)) (c : Context I) : Prop :=
  items.lookup (txt "host") = some c.host ∧ w.icons items = .ok c.icons ∧ (∃ v, items.lookup (txt "images") = some v ∧ ImagesSays w.decimal v c.images) ∧
    items.lookup (txt "auto_generate_images_js_placeholders") = some c.placeholders ∧
    (∃ l, items.lookup (txt "external_files") = some (.obj l) ∧ ExternalsSay l c.external) ∧
    ∃ v, items.lookup (txt "js_constants") = some v ∧ ConstantsSay w.env v c.constants

/-! ## Images -/

theorem whole_iff {v : Option Json} {n : ℤ} : v.bind Json.int? = some n ↔ Whole v n := by
  unfold Whole
  cases v with
  | none => simp
  | some v =>
    cases v with
    | bool b => cases b <;> simp [Json.int?, eq_comm]
    | num x => cases x <;> simp [Json.int?]
    | _ => simp [Json.int?]

theorem area_iff {v : Option Json} {a : Option ℤ} : area v = .ok a ↔ AreaSays v a := by
  unfold AreaSays
  simp only [← whole_iff]
  cases v with
  | none => simp [area, eq_comm]
  | some v =>
    cases v with
    | null => simp [area, Json.int?, eq_comm]
    | bool b => simp [area, Json.int?, eq_comm]
    | num x => cases x <;> simp [area, Json.int?, eq_comm]
    | _ => simp [area, Json.int?]

theorem kwargs_iff {v : Option Json} {k : List (Text × Json)} : v.getD (.obj []) = .obj k ↔ (v = some (.obj k) ∨ (v = none ∧ k = [])) := by
  cases v with
  | none => simp [eq_comm]
  | some v => simp

theorem loadExport_iff {v : Json} {e : Export} : loadExport v = .ok e ↔ ExportSays v e := by
  unfold ExportSays
  simp only [← area_iff, ← whole_iff, ← kwargs_iff]
  constructor
  · intro h
    unfold loadExport at h
    split at h
    case h_2 => cases h
    next items =>
    split at h
    · cases h
    next lo h1 =>
    split at h
    · cases h
    next hi h2 =>
    split at h
    · cases h
    next pref h3 =>
    split at h
    case h_2 => cases h
    next kwargs h4 =>
    cases h
    exact ⟨items, rfl, h1, h2, h3, h4⟩
  · rintro ⟨items, rfl, h1, h2, h3, h4⟩
    unfold loadExport
    simp only [h1, h2, h3, h4]

theorem loadExports_iff {items : List (Text × Json)} : ∀ {r : List (Text × Export)},
    loadExports items = .ok r ↔ List.Forall₂ (fun x y => y.1 = x.1 ∧ ExportSays x.2 y.2) items r := by
  induction items with
  | nil =>
    intro r
    unfold loadExports
    simp [eq_comm]
  | cons x xs ih =>
    intro r
    constructor
    · intro h
      unfold loadExports at h
      split at h
      · cases h
      next e he =>
      split at h
      · cases h
      next es hes =>
      cases h
      exact .cons ⟨rfl, loadExport_iff.1 he⟩ (ih.1 hes)
    · intro h
      cases h with
      | @cons _ y _ ys h1 h2 =>
        obtain ⟨n, e⟩ := y
        obtain ⟨rfl, h1⟩ := h1
        unfold loadExports
        rw [loadExport_iff.2 h1, ih.2 h2]

theorem loadFormat_iff {name : Text} {v : Json} {f : Format} : loadFormat name v = .ok f ↔ f.name = name ∧ FormatSays v f := by
  unfold FormatSays
  simp only [← loadExports_iff, ← whole_iff]
  constructor
  · intro h
    unfold loadFormat at h
    split at h
    case h_2 => cases h
    next items =>
    split at h
    case h_2 => cases h
    next exports h1 =>
    split at h
    · cases h
    next unit h2 =>
    split at h
    · cases h
    next es h3 =>
    cases h
    exact ⟨rfl, items, exports, rfl, h1, h3, h2⟩
  · rintro ⟨rfl, items, exports, rfl, h1, h2, h3⟩
    unfold loadFormat
    simp only [h1, h2, h3]

theorem loadFormats_iff {items : List (Text × Json)} : ∀ {r : List (Text × Format)},
    loadFormats items = .ok r ↔ List.Forall₂ (fun x y => y.1 = x.1 ∧ y.2.name = x.1 ∧ FormatSays x.2 y.2) items r := by
  induction items with
  | nil =>
    intro r
    unfold loadFormats
    simp [eq_comm]
  | cons x xs ih =>
    intro r
    constructor
    · intro h
      unfold loadFormats at h
      split at h
      · cases h
      next e he =>
      split at h
      · cases h
      next es hes =>
      cases h
      exact .cons ⟨rfl, loadFormat_iff.1 he⟩ (ih.1 hes)
    · intro h
      cases h with
      | @cons _ y _ ys h1 h2 =>
        obtain ⟨n, e⟩ := y
        obtain ⟨rfl, h1⟩ := h1
        unfold loadFormats
        rw [loadFormat_iff.2 h1, ih.2 h2]

theorem loadStep_iff {decimal : Text → Option Dec} {v : Option Json} {d : Dec} (hp : Positive d) :
    (stepType v = true ∧ loadStep decimal v = .ok d) ↔ StepSays decimal v d := by
  unfold StepSays Whole
  have hn : d ≠ .nan ∧ d ≠ .ninf := by
    rcases hp with rfl | ⟨q, rfl, -⟩ <;> simp
  cases v with
  | none => simp [stepType]
  | some v =>
    cases v with
    | null => simp [stepType]
    | bool b => cases b <;> simp [stepType, loadStep, eq_comm]
    | num x => cases x <;> simp [stepType, loadStep, eq_comm, hn.1, hn.2]
    | str t =>
      simp only [stepType, loadStep]
      cases hd : decimal t <;> simp [hd]
    | arr l => simp [stepType]
    | obj l => simp [stepType]

theorem check_iff {d : Dec} : d.check = .ok () ↔ Positive d := by
  unfold Positive
  cases d with
  | fin q =>
    unfold Dec.check
    by_cases h : q ≤ 0
    · simp [h]
    · simp [h, not_le.1 h]
  | _ => simp [Dec.check]

/-- **C87**: settings for images are accepted exactly if they say something, and that is what they are read as. -/
theorem C87_images {decimal : Text → Option Dec} {v : Json} {s : Images} : loadImages decimal v = .ok s ↔ ImagesSays decimal v s := by
  have keys : ∀ {formats : List (Text × Json)} {fs : List (Text × Format)} {t : Text},
      List.Forall₂ (fun x y => y.1 = x.1 ∧ y.2.name = x.1 ∧ FormatSays x.2 y.2) formats fs → ((fs.map (·.1)).contains t = true ↔ ∃ x ∈ formats, x.1 = t) := by
    intro formats fs t h
    induction h with
    | nil => simp
    | cons h1 _ ih =>
      simp only [List.map_cons, List.contains_cons, Bool.or_eq_true, ih, List.mem_cons, exists_eq_or_imp, h1.1, beq_iff_eq]
      rw [eq_comm (a := t)]
  unfold ImagesSays
  constructor
  · intro h
    unfold loadImages at h
    split at h
    case h_2 => cases h
    next items =>
    split at h
    case h_2 => cases h
    next formats default maximum h1 h2 h3 h4 =>
    split at h
    · cases h
    next fs h5 =>
    split at h
    · cases h
    next step h6 =>
    split at h
    · cases h
    next h7 =>
    split at h
    · cases h
    next h8 =>
    cases h
    have hf := loadFormats_iff.1 h5
    have hp := check_iff.1 h8
    refine ⟨items, formats, rfl, h1, hf, h2, (keys hf).1 (by simpa using h7), whole_iff.1 h3, (loadStep_iff hp).1 ⟨h4, h6⟩, hp⟩
  · rintro ⟨items, formats, rfl, h1, h2, h3, h4, h5, h6, h7⟩
    obtain ⟨h8, h9⟩ := (loadStep_iff h7).2 h6
    unfold loadImages
    simp only [h1, h3, whole_iff.2 h5, h8, loadFormats_iff.2 h2, h9, (keys h2).2 h4, check_iff.2 h7, Bool.not_true, Bool.false_eq_true, if_false]

/-! ## External files -/

theorem loadExternal_iff {key : Text} {v : Json} {f : External} : loadExternal key v = .ok f ↔ ExternalSays key v f := by
  have hr : ∀ {v : Option Json} {t : Text}, v.getD (.str key) = .str t ↔ (v = some (.str t) ∨ (v = none ∧ t = key)) := by
    intro v t
    cases v with
    | none => simp [eq_comm]
    | some v => simp
  unfold ExternalSays
  simp only [← hr]
  constructor
  · intro h
    unfold loadExternal at h
    split at h
    case h_2 => cases h
    next items =>
    split at h
    case h_2 => cases h
    next relpath h1 =>
    split at h
    · cases h
    next url h2 =>
    split at h
    · cases h
    next integrity h3 =>
    cases h
    exact ⟨items, rfl, h1, h2, h3⟩
  · rintro ⟨items, rfl, h1, h2, h3⟩
    unfold loadExternal
    simp only [h1, h2, h3]

/-- What a dictionary says for a path after more entries. -/
def Later (items : List (Text × Json)) (r : List (Text × External)) (p : Text) (f : External) : Prop :=
  (∃ pre x post, items = pre ++ x :: post ∧ ExternalSays x.1 x.2 f ∧ f.relpath = p ∧ ∀ y ∈ post, ∀ f', ExternalSays y.1 y.2 f' → f'.relpath ≠ p) ∨
    (Assoc.item r p = some f ∧ ∀ y ∈ items, ∀ f', ExternalSays y.1 y.2 f' → f'.relpath ≠ p)

theorem says_unique {key : Text} {v : Json} {f f' : External} (h : ExternalSays key v f) (h' : ExternalSays key v f') : f = f' := by
  have := (loadExternal_iff.2 h).symm.trans (loadExternal_iff.2 h')
  cases this
  rfl

theorem item_mem {V : Type} {d : List (Text × V)} (h : (d.map (·.1)).Nodup) {k : Text} {v : V} : Assoc.item d k = some v ↔ (k, v) ∈ d := by
  induction d with
  | nil => simp [Assoc.item]
  | cons x xs ih =>
    obtain ⟨a, b⟩ := x
    simp only [List.map_cons, List.nodup_cons] at h
    unfold Assoc.item
    by_cases hk : a = k
    · subst hk
      have hn : ∀ v, (a, v) ∉ xs := fun v hv => h.1 (List.mem_map.2 ⟨_, hv, rfl⟩)
      simp [hn, eq_comm]
    · rw [if_neg hk, ih h.2]
      simp [Ne.symm hk]

theorem put_nodup {V : Type} {d : List (Text × V)} (h : (d.map (·.1)).Nodup) (k : Text) (v : V) : ((Assoc.put d k v).map (·.1)).Nodup := by
  have := Assoc.keys_put d k v
  unfold Assoc.keys at this
  rw [this]
  split
  · exact h
  · next hk => 
    refine List.nodup_append.2 ⟨h, by simp, fun a ha b hb e => ?_⟩
    rw [List.mem_singleton] at hb
    exact hk (hb ▸ e ▸ ha)

theorem loadExternals_spec {items : List (Text × Json)} : ∀ {r s : List (Text × External)}, loadExternals items r = .ok s → (r.map (·.1)).Nodup →
    (∀ x ∈ items, ∃ f, ExternalSays x.1 x.2 f) ∧ (s.map (·.1)).Nodup ∧ ∀ p f, Assoc.item s p = some f ↔ Later items r p f := by
  induction items with
  | nil =>
    intro r s h hr
    cases h
    exact ⟨by simp, hr, fun p f => by simp [Later]⟩
  | cons x xs ih =>
    intro r s h hr
    unfold loadExternals at h
    split at h
    · cases h
    next g hg =>
    obtain ⟨h1, h2, h3⟩ := ih h (put_nodup hr _ _)
    have hs := loadExternal_iff.1 hg
    refine ⟨fun y hy => ?_, h2, fun p f => ?_⟩
    · rcases List.mem_cons.1 hy with rfl | hy
      · exact ⟨g, hs⟩
      · exact h1 y hy
    · rw [h3]
      unfold Later
      rw [Assoc.get_put]
      constructor
      · rintro (⟨pre, y, post, rfl, k⟩ | ⟨k1, k2⟩)
        · exact .inl ⟨x :: pre, y, post, rfl, k⟩
        · split at k1
          · next he =>
            cases k1
            exact .inl ⟨[], x, xs, rfl, hs, he.symm, k2⟩
          · next he =>
            refine .inr ⟨k1, fun y hy f' hf' => ?_⟩
            rcases List.mem_cons.1 hy with rfl | hy
            · rw [says_unique hf' hs]
              exact Ne.symm he
            · exact k2 y hy f' hf'
      · rintro (⟨pre, y, post, e, k1, k2, k3⟩ | ⟨k1, k2⟩)
        · cases pre with
          | nil =>
            cases e
            have := says_unique k1 hs
            subst this
            exact .inr ⟨by rw [if_pos k2.symm], k3⟩
          | cons z pre =>
            cases e
            exact .inl ⟨pre, y, post, rfl, k1, k2, k3⟩
        · refine .inr ⟨?_, fun y hy => k2 y (List.mem_cons_of_mem _ hy)⟩
          rw [if_neg (Ne.symm (k2 x List.mem_cons_self g hs))]
          exact k1

theorem loadExternals_total {items : List (Text × Json)} (h : ∀ x ∈ items, ∃ f, ExternalSays x.1 x.2 f) : ∀ r, ∃ s, loadExternals items r = .ok s := by
  induction items with
  | nil => exact fun r => ⟨r, rfl⟩
  | cons x xs ih =>
    intro r
    obtain ⟨f, hf⟩ := h x List.mem_cons_self
    unfold loadExternals
    rw [loadExternal_iff.2 hf]
    exact ih (fun y hy => h y (List.mem_cons_of_mem _ hy)) _

/-- **C87**: for the external files, every entry has to be right, and the last one for a path counts. -/
theorem C87_external {items : List (Text × Json)} {r : List (Text × External)} (h : loadExternals items [] = .ok r) : ExternalsSay items r := by
  obtain ⟨h1, h2, h3⟩ := loadExternals_spec h (by simp)
  refine ⟨h1, h2, fun p f => ?_⟩
  rw [← item_mem h2, h3]
  unfold Later
  simp [Assoc.item]

/-! ## Constants -/

theorem replaceEnv_iff {env : Text → Option Text} {items : List (Text × Json)} : ∀ {r : List (Text × Json)},
    replaceEnv env items = .ok r ↔ List.Forall₂ (fun x y => y.1 = x.1 ∧ ConstantSays env x.2 y.2) items r := by
  have one : ∀ v v' : Json, envValue env v = some v' ↔ ConstantSays env v v' := by
    intro v v'
    unfold ConstantSays envValue
    cases v with
    | str t =>
      dsimp only
      by_cases hp : (txt "env://").isPrefixOf t = true
      · obtain ⟨name, rfl⟩ := List.isPrefixOf_iff_prefix.1 hp
        rw [if_pos hp, List.drop_left' (by decide)]
        cases he : env name with
        | none => simp [he]
        | some x => simp [he, eq_comm]
      · rw [if_neg hp]
        have hn : ∀ name, t ≠ txt "env://" ++ name := by
          rintro name rfl
          exact hp (List.isPrefixOf_iff_prefix.2 (List.prefix_append _ _))
        simp [hn, eq_comm]
    | _ => simp [eq_comm]
  induction items with
  | nil =>
    intro r
    unfold replaceEnv
    simp [eq_comm]
  | cons x xs ih =>
    intro r
    constructor
    · intro h
      unfold replaceEnv at h
      split at h
      · cases h
      next v hv =>
      split at h
      · cases h
      next vs hvs =>
      cases h
      exact .cons ⟨rfl, (one _ _).1 hv⟩ (ih.1 hvs)
    · intro h
      cases h with
      | @cons _ y _ ys h1 h2 =>
        obtain ⟨n, v⟩ := y
        obtain ⟨rfl, h1⟩ := h1
        unfold replaceEnv
        rw [(one _ _).2 h1, ih.2 h2]

theorem mode_iff {env : Text → Option Text} {items : List (Text × Json)} {key : Text} {r : List (Text × Json)} :
    mode env items key = .ok r ↔ ModeSays env (items.lookup key) r := by
  unfold ModeSays
  simp only [← replaceEnv_iff]
  unfold mode itemsAt
  cases items.lookup key with
  | none => simp
  | some v => cases v <;> simp

/-- **C87**: the constants. -/
theorem C87_constants {env : Text → Option Text} {v : Json} {c : Constants} : loadConstants env v = .ok c ↔ ConstantsSay env v c := by
  unfold ConstantsSay
  simp only [← mode_iff]
  constructor
  · intro h
    unfold loadConstants at h
    split at h
    case h_2 => cases h
    next items =>
    split at h
    · cases h
    case h_3 => cases h
    next relpath h1 =>
    split at h
    · cases h
    next shared h2 =>
    split at h
    · cases h
    next dev h3 =>
    split at h
    · cases h
    next prod h4 =>
    cases h
    exact ⟨items, rfl, h1, h2, h3, h4⟩
  · rintro ⟨items, rfl, h1, h2, h3, h4⟩
    unfold loadConstants
    simp only [h1, h2, h3, h4]

/-! ## Everything -/

variable {I : Type}

theorem rest_says {w : World I} {items : List (Text × Json)} {host : Json} {c : Context I} (hh : items.lookup (txt "host") = some host)
    (h : rest w items host = .ok c) : Says w items c := by
  unfold rest at h
  split at h
  · cases h
  next icons h1 =>
  split at h
  · cases h
  next v h2 =>
  split at h
  · cases h
  next images h3 =>
  split at h
  · cases h
  next auto h4 =>
  split at h
  · cases h
  next l h5 =>
  split at h
  · cases h
  next external h6 =>
  split at h
  · cases h
  next v' h7 =>
  split at h
  · cases h
  next constants h8 =>
  cases h
  have h5' : items.lookup (txt "external_files") = some (.obj l) := by
    unfold itemsAt at h5
    split at h5
    · cases h5
    · next h => cases h5; exact h
    · cases h5
  exact ⟨hh, h1, ⟨v, h2, C87_images.1 h3⟩, h4, ⟨l, h5', C87_external h6⟩, v', h7, C87_constants.1 h8⟩

theorem rest_total {w : World I} {items : List (Text × Json)} {c : Context I} (h : Says w items c) : ∃ c', rest w items c.host = .ok c' := by
  obtain ⟨h0, h1, ⟨v, h2, h3⟩, h4, ⟨l, h5, h6⟩, v', h7, h8⟩ := h
  obtain ⟨s, hs⟩ := loadExternals_total h6.1 []
  have h5' : itemsAt items (txt "external_files") = .ok l := by
    unfold itemsAt
    rw [h5]
  unfold rest
  simp only [h1, h2, C87_images.2 h3, h4, h5', hs, h7, C87_constants.2 h8]
  exact ⟨_, rfl⟩

/-- **C87**: a build takes from the configuration what it says; it is stopped if the version is another or src is missing, and it
fails if the configuration says nothing. -/
theorem C87_build {w : World I} {src : Bool} {config : Json} {c : Context I} (h : forBuild w src config = .ok c) :
    ∃ items, config = .obj items ∧ items.lookup (txt "version") = some (.str (txt "1.0.0")) ∧ src = true ∧ Says w items c := by
  unfold forBuild at h
  split at h
  case h_2 => cases h
  next items =>
  split at h
  · cases h
  case h_3 => cases h
  next v h1 =>
  split at h
  · cases h
  next h2 =>
  split at h
  · cases h
  next host h3 =>
  split at h
  · next h4 => exact ⟨items, rfl, by rw [h1]; simpa [version] using h2, h4, rest_says h3 h⟩
  · cases h

/-- **C87**: a configuration which says something is accepted. -/
theorem C87_accepted {w : World I} {items : List (Text × Json)} {c : Context I} (h1 : items.lookup (txt "version") = some (.str (txt "1.0.0")))
    (h2 : Says w items c) : ∃ c', forBuild w true (.obj items) = .ok c' ∧ Says w items c' := by
  obtain ⟨c', hc⟩ := rest_total h2
  refine ⟨c', ?_, rest_says h2.1 hc⟩
  unfold forBuild
  simp only [h1, h2.1, hc, version, ne_eq, not_true_eq_false, if_false, if_true]

/-- **C87**: a rebuild while watching takes the same from the configuration as a build. -/
theorem C87_watch {w : World I} {src : Bool} {config : Json} {c : Context I} (h : forBuild w src config = .ok c) : forWatch w config = .ok c := by
  unfold forBuild at h
  split at h
  case h_2 => cases h
  next items =>
  split at h
  · cases h
  case h_3 => cases h
  next v h1 =>
  split at h
  · cases h
  split at h
  · cases h
  next host h3 =>
  split at h
  · unfold forWatch
    simp only [h3, h]
  · cases h

end Verif.Config
