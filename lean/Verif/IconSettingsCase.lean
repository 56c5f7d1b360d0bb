import Verif.IconSettingsThm

/-! C63: the icon settings. -/

namespace Verif.Icons

open Verif.Reader (Text txt)
open Verif.Css (Tok)
open Verif.Js (isHex hexVal)
open Verif.Assoc

namespace Load

/-! ## Specification of the buttons -/

/-- What the configuration says, or the default if it says nothing. -/
def Given (f : Field Text) (d x : Text) : Prop := f = .value x ∨ (f = .missing ∧ x = d)

/-- The button which the configuration describes, where `d` has what is missing; there is none if a color is null. -/
def IsButton (c : ButtonConfig) (d b : Button) : Prop :=
  Given c.active d.active b.active ∧ Given c.hover d.hover b.hover ∧ Given c.disabled d.disabled b.disabled

/-- primary, primary-dark and disabled. -/
def standard : Button := ⟨txt "primary", txt "primary-dark", txt "disabled"⟩

/-- The default button: `none` if it is switched off by null. -/
def DefaultIs : Field ButtonConfig → Option Button → Prop
  | .missing, d => d = some standard
  | .null, d => d = none
  | .value c, d => ∃ b, d = some b ∧ (IsButton c standard b ∨ ((¬ ∃ b', IsButton c standard b') ∧ b = standard))

/-- The entries of the configuration. -/
def entries : Option IconsConfig → List (Text × ButtonConfig)
  | some ⟨_, .value l⟩ => l
  | _ => []

/-- The default button of the configuration. -/
def defaultOf : Option IconsConfig → Field ButtonConfig
  | some c => c.default
  | none => .missing

/-- The buttons are those of the configuration. -/
structure ButtonsOf (config : Option IconsConfig) (b : Buttons) : Prop where
  default : DefaultIs (defaultOf config) b.default
  named : ∀ k x, item b.named k = some x ↔ ∃ c d, (k, c) ∈ entries config ∧ b.default = some d ∧ IsButton c d x
  nodup : (keys b.named).Nodup

/-! ## Specification of the settings -/

/-- The colors and sizes are those of the declarations. -/
structure Declared (lower : Text → Text) (ds : List (Text × List Tok)) (s : Settings) : Prop where
  colors : ∀ k c, item s.colors k = some c ↔ LastColor lower ds k c
  sizes : Firsts (fun _ => True) (ds.filterMap sizeOf) s.sizes

/-! ## Proofs -/

theorem get_given (f : Field Text) (d x : Text) : f.get d = some x ↔ Given f d x := by
  cases f <;> simp [Field.get, Given, eq_comm]

theorem button_iff (c : ButtonConfig) (d b : Button) : button c d = some b ↔ IsButton c d b := by
  unfold button IsButton
  rw [← get_given, ← get_given, ← get_given]
  constructor
  · intro h
    split at h
    · next h1 h2 h3 => cases h; exact ⟨h1, h2, h3⟩
    · cases h
  · rintro ⟨h1, h2, h3⟩
    rw [h1, h2, h3]

theorem default_iff (c : Field ButtonConfig) : DefaultIs c (defaultButton c) := by
  cases c with
  | missing => rfl
  | null => rfl
  | value c =>
    refine ⟨(button c builtin).getD builtin, rfl, ?_⟩
    cases h : button c builtin with
    | some b => exact .inl ((button_iff _ _ _).1 h)
    | none =>
      refine .inr ⟨?_, rfl⟩
      rintro ⟨b', hb⟩
      rw [show standard = builtin from rfl, ← button_iff, h] at hb
      cases hb

theorem namedButtons_ok (d : Button) : ∀ (l : List (Text × ButtonConfig)) (acc : List (Text × Button)), (keys l).Nodup →
    (keys acc).Nodup → (∀ k ∈ keys l, k ∉ keys acc) → ∃ n, namedButtons (some d) l acc = .ok n ∧ (keys n).Nodup ∧
      ∀ k x, item n k = some x ↔ item acc k = some x ∨ ∃ c, (k, c) ∈ l ∧ IsButton c d x := by
  intro l
  induction l with
  | nil => intro acc _ h _; exact ⟨acc, rfl, h, by simp⟩
  | cons p l ih =>
    intro acc hl ha hd
    obtain ⟨k, c⟩ := p
    have hl' : k ∉ keys l ∧ (keys l).Nodup := by simpa [keys] using hl
    have hk : k ∉ keys acc := hd k (by simp [keys])
    simp only [namedButtons]
    cases hb : button c d with
    | none =>
      obtain ⟨n, hn, hnd, hi⟩ := ih acc hl'.2 ha (fun k' h => hd k' (by simp only [keys, List.map_cons, List.mem_cons] at h ⊢; exact .inr h))
      refine ⟨n, hn, hnd, fun k' x => ?_⟩
      rw [hi]
      constructor
      · rintro (h | ⟨c', hm, hx⟩)
        · exact .inl h
        · exact .inr ⟨c', by simp [hm], hx⟩
      · rintro (h | ⟨c', hm, hx⟩)
        · exact .inl h
        · rcases List.mem_cons.1 hm with h | h
          · cases h; rw [← button_iff, hb] at hx; cases hx
          · exact .inr ⟨c', h, hx⟩
    | some b =>
      obtain ⟨n, hn, hnd, hi⟩ := ih (put acc k b) hl'.2 (nodup_put ha k b) (by
        intro k' h hm
        rcases mem_keys_put.1 hm with rfl | hm
        · exact hl'.1 h
        · exact hd k' (by simp only [keys, List.map_cons, List.mem_cons] at h ⊢; exact .inr h) hm)
      refine ⟨n, hn, hnd, fun k' x => ?_⟩
      rw [hi, get_put]
      constructor
      · rintro (h | ⟨c', hm, hx⟩)
        · split at h
          · next hk' => cases h; subst hk'; exact .inr ⟨c, by simp, (button_iff _ _ _).1 hb⟩
          · exact .inl h
        · exact .inr ⟨c', by simp [hm], hx⟩
      · rintro (h | ⟨c', hm, hx⟩)
        · left
          rw [if_neg]
          · exact h
          · rintro rfl
            rw [get_none.2 hk] at h; cases h
        · rcases List.mem_cons.1 hm with h | h
          · cases h; rw [← button_iff, hb] at hx; cases hx; left; rw [if_pos rfl]
          · exact .inr ⟨c', h, hx⟩

theorem namedButtons_none : ∀ (l : List (Text × ButtonConfig)), namedButtons none l [] = if l = [] then .ok [] else .error .attribute := by
  intro l
  cases l <;> rfl

theorem buttons_ok (config : Option IconsConfig) (hn : (keys (entries config)).Nodup)
    (h : defaultOf config = .null → entries config = []) : ∃ b, buttons config = .ok b ∧ ButtonsOf config b := by
  cases config with
  | none => exact ⟨_, rfl, ⟨rfl, by intro k x; simp [entries, item], by simp [keys]⟩⟩
  | some c =>
    obtain ⟨d, n⟩ := c
    have key : ∀ l, entries (some ⟨d, n⟩) = l → (keys l).Nodup → (d = .null → l = []) → ∃ m, namedButtons (defaultButton d) l [] = .ok m ∧
        ButtonsOf (some ⟨d, n⟩) ⟨defaultButton d, m⟩ := by
      intro l hl hn hd
      have hdef := default_iff d
      cases hb : defaultButton d with
      | none =>
        have : d = .null := by
          cases d with
          | missing => simp [defaultButton, Field.get] at hb
          | null => rfl
          | value c => simp [defaultButton, Field.get] at hb
        have hl0 := hd this
        subst hl0
        refine ⟨[], rfl, ⟨by rw [hb] at hdef; exact hdef, ?_, by simp [keys]⟩⟩
        intro k x; rw [hl]; simp [item]
      | some b =>
        obtain ⟨m, hm, hnd, hi⟩ := namedButtons_ok b l [] hn (by simp [keys]) (by simp [keys])
        refine ⟨m, hm, ⟨by rw [hb] at hdef; exact hdef, ?_, hnd⟩⟩
        intro k x
        rw [hi, hl]
        constructor
        · rintro (h | ⟨c, hc, hx⟩)
          · simp [item] at h
          · exact ⟨c, b, hc, rfl, hx⟩
        · rintro ⟨c, b', hc, hb', hx⟩
          cases hb'
          exact .inr ⟨c, hc, hx⟩
    cases n with
    | null => 
      obtain ⟨m, h1, h2⟩ := key [] rfl (by simp [keys]) (fun _ => rfl)
      have : m = [] := by cases hx : defaultButton d <;> rw [hx] at h1 <;> (cases h1; rfl)
      subst this
      exact ⟨_, rfl, h2⟩
    | missing =>
      obtain ⟨m, h1, h2⟩ := key [] rfl (by simp [keys]) (fun _ => rfl)
      refine ⟨⟨defaultButton d, m⟩, ?_, h2⟩
      simp only [buttons, Field.get, h1]
    | value l =>
      obtain ⟨m, h1, h2⟩ := key l rfl hn h
      refine ⟨⟨defaultButton d, m⟩, ?_, h2⟩
      simp only [buttons, Field.get, h1]

theorem buttons_fails (config : Option IconsConfig) (h : defaultOf config = .null) (h' : entries config ≠ []) :
    buttons config = .error .attribute := by
  cases config with
  | none => cases h
  | some c =>
    obtain ⟨d, n⟩ := c
    cases n with
    | null => exact absurd rfl h'
    | missing => exact absurd rfl h'
    | value l =>
      have hd : d = .null := h
      subst hd
      have hl : l ≠ [] := h'
      simp only [buttons, Field.get, defaultButton, namedButtons_none, if_neg hl]

theorem isPrefix (p x : Text) : p.isPrefixOf x = true ↔ ∃ k, x = p ++ k ∧ x.drop p.length = k := by
  rw [List.isPrefixOf_iff_prefix]
  constructor
  · rintro ⟨k, rfl⟩; exact ⟨k, rfl, by simp⟩
  · rintro ⟨k, rfl, _⟩; exact ⟨k, rfl⟩

theorem col_not_size (k : Text) : (txt "--icon-size-").isPrefixOf (txt "--col-" ++ k) = false := by
  have e1 : txt "--icon-size-" = [45, 45, 105, 99, 111, 110, 45, 115, 105, 122, 101, 45] := by decide
  have e2 : txt "--col-" = [45, 45, 99, 111, 108, 45] := by decide
  rw [e1, e2]
  rfl

theorem record_spec {int16 : Text → Option Int} (hi : HexPairs int16) (lower : Text → Text) (s : List (Text × Color) × List Text)
    (d : Text × List Tok) :
    (record lower int16 s d).2 = s.2 ++ (sizeOf d).toList ∧
    (∀ k c, d.1 = txt "--col-" ++ k → ColorOf lower d.2 c → (record lower int16 s d).1 = put s.1 k c) ∧
    ((¬ ∃ k c, d.1 = txt "--col-" ++ k ∧ ColorOf lower d.2 c) → (record lower int16 s d).1 = s.1) := by
  have e6 : (txt "--col-").length = 6 := by decide
  have e12 : (txt "--icon-size-").length = 12 := by decide
  obtain ⟨n, v⟩ := d
  by_cases h : (txt "--col-").isPrefixOf n = true
  · obtain ⟨k, rfl, hd⟩ := (isPrefix _ _).1 h
    rw [e6] at hd
    have hs : sizeOf (txt "--col-" ++ k, v) = none := by simp only [sizeOf, col_not_size]; rfl
    have e : record lower int16 s (txt "--col-" ++ k, v) = (match interpret lower int16 v with
        | some c => (put s.1 k c, s.2) | none => s) := by
      simp only [record, h, if_true, hd]
      cases interpret lower int16 v <;> rfl
    rw [e, hs]
    cases hc : interpret lower int16 v with
    | none =>
      refine ⟨by simp, ?_, fun _ => rfl⟩
      intro k' c _ hcol
      rw [← interpret_iff hi, hc] at hcol; cases hcol
    | some c =>
      refine ⟨by simp, ?_, ?_⟩
      · intro k' c' hk hcol
        rw [← interpret_iff hi, hc] at hcol
        cases hcol
        rw [List.append_cancel_left hk]
      · intro hno
        exact absurd ⟨k, c, rfl, (interpret_iff hi _ _ _).1 hc⟩ hno
  · have hno : ∀ k, n ≠ txt "--col-" ++ k := by
      intro k hk; exact h ((isPrefix _ _).2 ⟨k, hk, by rw [hk]; simp⟩)
    have h' : (txt "--col-").isPrefixOf n = false := Bool.not_eq_true _ ▸ h
    have e : record lower int16 s (n, v) = (if (txt "--icon-size-").isPrefixOf n then (s.1, s.2 ++ [n.drop 12]) else s) := by
      simp only [record, h']; rfl
    rw [e]
    refine ⟨?_, fun k c hk => absurd hk (hno k), fun _ => ?_⟩
    · by_cases hz : (txt "--icon-size-").isPrefixOf n = true
      · simp only [sizeOf, hz, if_true, e12, Option.toList]
      · simp only [sizeOf, hz, if_false, Option.toList, List.append_nil, Bool.false_eq_true]
    · split <;> rfl

theorem fold_sizes {int16 : Text → Option Int} (hi : HexPairs int16) (lower : Text → Text) : ∀ (ds : List (Text × List Tok))
    (s : List (Text × Color) × List Text), (ds.foldl (record lower int16) s).2 = s.2 ++ ds.filterMap sizeOf := by
  intro ds
  induction ds with
  | nil => intro s; simp
  | cons d ds ih =>
    intro s
    rw [List.foldl_cons, ih, (record_spec hi lower s d).1, List.filterMap_cons]
    cases sizeOf d <;> simp

theorem fold_colors {int16 : Text → Option Int} (hi : HexPairs int16) (lower : Text → Text) (k : Text) (c : Color) :
    ∀ (ds : List (Text × List Tok)) (s : List (Text × Color) × List Text), item (ds.foldl (record lower int16) s).1 k = some c ↔
      LastColor lower ds k c ∨ (item s.1 k = some c ∧ ∀ v, (txt "--col-" ++ k, v) ∈ ds → ¬ ∃ c', ColorOf lower v c') := by
  intro ds
  induction ds with
  | nil => intro s; simp [LastColor]
  | cons d ds ih =>
    intro s
    rw [List.foldl_cons, ih]
    obtain ⟨_, h2, h3⟩ := record_spec hi lower s d
    obtain ⟨n, v⟩ := d
    have last : LastColor lower ds k c → LastColor lower ((n, v) :: ds) k c := by
      rintro ⟨a, v', b, rfl, h4, h5⟩; exact ⟨(n, v) :: a, v', b, rfl, h4, h5⟩
    constructor
    · rintro (h | ⟨h, hno⟩)
      · exact .inl (last h)
      · by_cases hd : ∃ k' c', n = txt "--col-" ++ k' ∧ ColorOf lower v c'
        · obtain ⟨k', c', rfl, hc⟩ := hd
          rw [h2 k' c' rfl hc, get_put] at h
          split at h
          · next hk => subst hk; cases h; exact .inl ⟨[], v, ds, rfl, hc, hno⟩
          · next hk =>
            refine .inr ⟨h, ?_⟩
            intro v' hm
            rcases List.mem_cons.1 hm with e | hm
            · injection e with e _; exact absurd (List.append_cancel_left e) hk
            · exact hno v' hm
        · rw [h3 hd] at h
          refine .inr ⟨h, ?_⟩
          intro v' hm
          rcases List.mem_cons.1 hm with e | hm
          · injection e with e1 e2
            rintro ⟨c', hc'⟩
            exact hd ⟨k, c', e1.symm, by rw [← e2]; exact hc'⟩
          · exact hno v' hm
    · rintro (⟨a, v', b, e, hc, hno⟩ | ⟨h, hno⟩)
      · cases a with
        | nil =>
          rw [List.nil_append] at e
          injection e with e1 e2
          injection e1 with e1 e3
          subst e2; subst e3
          right
          rw [h2 k c e1 hc, get_put, if_pos rfl]
          exact ⟨rfl, hno⟩
        | cons x a =>
          injection e with e1 e2
          exact .inl ⟨a, v', b, e2, hc, hno⟩
      · right
        refine ⟨?_, fun v' hm => hno v' (by simp [hm])⟩
        by_cases hd : ∃ k' c', n = txt "--col-" ++ k' ∧ ColorOf lower v c'
        · obtain ⟨k', c', rfl, hc⟩ := hd
          rw [h2 k' c' rfl hc, get_put, if_neg]
          · exact h
          · rintro rfl; exact hno v (by simp) ⟨c', hc⟩
        · rw [h3 hd]; exact h

theorem record_nodup {int16 : Text → Option Int} (lower : Text → Text) : ∀ (ds : List (Text × List Tok))
    (s : List (Text × Color) × List Text), (keys s.1).Nodup → (keys (ds.foldl (record lower int16) s).1).Nodup := by
  intro ds
  induction ds with
  | nil => intro s h; exact h
  | cons d ds ih =>
    intro s h
    rw [List.foldl_cons]
    apply ih
    unfold record
    split
    · split
      · exact nodup_put h _ _
      · exact h
    · split <;> exact h

theorem stylesheet_fr (lower : Text → Text) (int16 : Text → Option Int) (ts : List Tok) : stylesheet lower int16 ts =
    (match fr ts with
      | none => ([], [])
      | some ts =>
        (((declarations ts.length ts).foldl (record lower int16) ([], [])).1,
          distinct (fun _ => true) ((declarations ts.length ts).foldl (record lower int16) ([], [])).2)) := by
  unfold stylesheet
  rw [fr_sig ts]
  cases sig ts with
  | none => rfl
  | some p => rfl

/-- The tokens of the stylesheet, if there is one, and what is declared in its first `:root`. -/
def Sheet (css : Option (List Tok)) (ds : List (Text × List Tok)) : Prop :=
  (∃ ts rest, css = some ts ∧ FirstRoot ts rest ∧ Reads rest ds) ∨
  ((∀ ts, css = some ts → ¬ ∃ rest, FirstRoot ts rest) ∧ ds = [])

/-- C63, as far as the configuration and the declarations can be read: the settings have exactly the colors and sizes which are
declared in the first `:root`, up to the first thing which is not a declaration of the form which is understood, and exactly the
buttons of the configuration.  Missing: what is behind such a thing (`C63_false_multi`, `C63_false_last`); buttons with names if the
default button is switched off (`C63_false_default`). -/
theorem C63_partial {int16 : Text → Option Int} (hi : HexPairs int16) (lower : Text → Text) (config : Option IconsConfig)
    (css : Option (List Tok)) (ds : List (Text × List Tok)) (hs : Sheet css ds) (hn : (keys (entries config)).Nodup)
    (hd : defaultOf config = .null → entries config = []) :
    ∃ s b, load lower int16 config css = .ok s ∧ Declared lower ds s ∧ s.buttons = some b ∧ ButtonsOf config b := by
  obtain ⟨b, hb, hb'⟩ := buttons_ok config hn hd
  rcases hs with ⟨ts, rest, rfl, h1, h2⟩ | ⟨h1, rfl⟩
  · have e : stylesheet lower int16 ts = ((ds.foldl (record lower int16) ([], [])).1,
        distinct (fun _ => true) (ds.foldl (record lower int16) ([], [])).2) := by
      rw [stylesheet_fr, fr_iff.2 h1]
      simp only []
      rw [(declarations_iff _ rest ds (Nat.le_refl _)).2 h2]
    refine ⟨⟨(ds.foldl (record lower int16) ([], [])).1, distinct (fun _ => true) (ds.foldl (record lower int16) ([], [])).2, some b⟩,
      b, by simp only [load, hb, e], ⟨?_, ?_⟩, rfl, hb'⟩
    · intro k c
      rw [fold_colors hi]
      simp [item]
    · rw [fold_sizes hi]
      simpa using distinct_spec (fun _ => True) (ds.filterMap sizeOf)
  · have e : ∀ ts, css = some ts → stylesheet lower int16 ts = ([], []) := by
      rintro ts rfl
      rw [stylesheet_fr]
      cases h : fr ts with
      | none => rfl
      | some r => exact absurd ⟨r, fr_iff.1 h⟩ (h1 ts rfl)
    refine ⟨⟨[], [], some b⟩, b, ?_, ⟨?_, ?_⟩, rfl, hb'⟩
    · cases css with
      | none => simp only [load, hb]
      | some ts => simp only [load, hb, e ts rfl]
    · intro k c; simp [item, LastColor]
    · exact ⟨List.nodup_nil, by simp, by intro l x r h; simp at h⟩

/-- The declarations which are read are unique, and there always are some, perhaps none. -/
theorem C63_reads (css : Option (List Tok)) : ∃ ds, Sheet css ds ∧ ∀ ds', Sheet css ds' → ds' = ds := by
  have uniq : ∀ (ts rest rest' : List Tok), FirstRoot ts rest → FirstRoot ts rest' → rest = rest' := by
    intro ts rest rest' h h'
    rw [← fr_iff] at h h'
    rw [h] at h'; exact Option.some.inj h'
  by_cases h : ∃ ts rest, css = some ts ∧ FirstRoot ts rest
  · obtain ⟨ts, rest, rfl, hr⟩ := h
    refine ⟨declarations rest.length rest, .inl ⟨ts, rest, rfl, hr, (declarations_iff _ _ _ (Nat.le_refl _)).1 rfl⟩, ?_⟩
    rintro ds' (⟨ts', rest', e, hr', hd⟩ | ⟨hno, _⟩)
    · cases e
      rw [uniq _ _ _ hr hr']
      exact ((declarations_iff _ _ _ (Nat.le_refl _)).2 hd).symm
    · exact absurd ⟨rest, hr⟩ (hno ts rfl)
  · have hno : ∀ ts, css = some ts → ¬ ∃ rest, FirstRoot ts rest := fun ts e ⟨rest, hr⟩ => h ⟨ts, rest, e, hr⟩
    refine ⟨[], .inr ⟨hno, rfl⟩, ?_⟩
    rintro ds' (⟨ts', rest', e, hr', hd⟩ | ⟨_, rfl⟩)
    · exact absurd ⟨rest', hr'⟩ (hno ts' e)
    · rfl

/-- A block of declarations of the form which is understood. -/
inductive Block : List Tok → List (Text × List Tok) → Prop
  | nil {g ts : List Tok} : Gap g → Block (g ++ .rightCurly :: ts) []
  | cons {src ts : List Tok} {d : Text × List Tok} {ds : List (Text × List Tok)} : IsDecl src d → Block ts ds → Block (src ++ ts) (d :: ds)

/-- C63: of a block which has only declarations which are understood, all are read. -/
theorem C63_whole {ts : List Tok} {ds : List (Text × List Tok)} (h : Block ts ds) : Reads ts ds := by
  have sr : ¬ Space .rightCurly := by intro h; rcases h with ⟨_, h⟩ | ⟨_, h⟩ <;> cases h
  have more : ∀ {ts : List Tok} {ds : List (Text × List Tok)}, Block ts ds → ∃ t ∈ ts, ¬ Space t := by
    intro ts ds h
    induction h with
    | nil _ => exact ⟨.rightCurly, by simp, sr⟩
    | cons _ _ ih =>
      obtain ⟨t, ht, hs⟩ := ih
      exact ⟨t, by simp [ht], hs⟩
  induction h with
  | @nil g ts hg =>
    refine .stop ?_
    rintro ⟨d, ts', hb⟩
    have e := declaration_iff.2 hb
    simp only [declaration] at e
    rw [sig_gap hg, sig_cons sr] at e
    cases e
  | cons hd hb ih => exact .decl ⟨_, hd, rfl, more hb⟩ ih

/-- C63: the keys of the settings are distinct, and the colors are colors. -/
theorem C63_valid {int16 : Text → Option Int} (hi : HexPairs int16) (lower : Text → Text) (config : Option IconsConfig)
    (css : Option (List Tok)) (s : Settings) (h : load lower int16 config css = .ok s) :
    (keys s.colors).Nodup ∧ s.sizes.Nodup ∧ ∀ p ∈ s.colors, p.2.Valid := by
  have key : (keys s.colors).Nodup ∧ s.sizes.Nodup ∧ ∀ k c, item s.colors k = some c → c.Valid := by
    unfold load at h
    cases hb : buttons config with
    | error e => rw [hb] at h; cases h
    | ok b =>
      rw [hb] at h
      cases h
      have e0 : (keys ([] : List (Text × Color))).Nodup ∧ ([] : List Text).Nodup ∧ ∀ k c, item ([] : List (Text × Color)) k = some c → c.Valid :=
        ⟨by simp [keys], List.nodup_nil, by simp [item]⟩
      cases css with
      | none => exact e0
      | some ts =>
        simp only [stylesheet_fr]
        cases hf : fr ts with
        | none => exact e0
        | some r =>
          refine ⟨record_nodup lower _ _ (by simp [keys]), ?_, ?_⟩
          · have := distinct_spec (fun _ => True) ((declarations r.length r).foldl (record lower int16) ([], [])).2
            simpa using this.1
          · intro k c hk
            rcases (fold_colors hi lower k c _ _).1 hk with ⟨_, v, _, _, hc, _⟩ | ⟨h, _⟩
            · exact color_valid hc
            · simp [item] at h
  exact ⟨key.1, key.2.1, fun p hp => key.2.2 p.1 p.2 (get_of_mem key.1 hp)⟩

/-- C63 does not hold if the default button is switched off: any named button makes the settings fail, even if it has all colors. -/
theorem C63_false_default (lower : Text → Text) (int16 : Text → Option Int) (config : Option IconsConfig) (css : Option (List Tok))
    (h : defaultOf config = .null) (h' : entries config ≠ []) : load lower int16 config css = .error .attribute := by
  unfold load
  rw [buttons_fails config h h']

/-! ## The named colors -/

/-- The named colors of CSS. -/
def css : List (Text × Color) := standardRows.map row

/-- C63: every name has its color, except three. -/
theorem C63_names : ∀ p ∈ named, p.1 ∉ [txt "gray", txt "sandybrown", txt "navyblue"] → p ∈ css := by decide +kernel

/-- C63: every color of CSS is known under its name, except ten. -/
theorem C63_complete : ∀ p ∈ css, p.1 ∉ [txt "gray", txt "sandybrown", txt "darkgrey", txt "darkslategrey", txt "dimgrey", txt "grey",
    txt "lightgray", txt "lightslategrey", txt "slategrey", txt "rebeccapurple"] → p ∈ named := by decide +kernel

/-- C63 does not hold for some names: gray and sandybrown have other colors, grey is not known. -/
theorem C63_false_names : item named (txt "gray") = some ⟨127, 127, 127⟩ ∧ item css (txt "gray") = some ⟨128, 128, 128⟩ ∧
    item named (txt "sandybrown") = item css (txt "salmon") ∧ item css (txt "sandybrown") ≠ item css (txt "salmon") ∧
    item named (txt "grey") = none ∧ item css (txt "grey") = some ⟨128, 128, 128⟩ := by decide +kernel

/-! ## Cases -/

/-- `body{color:red}:root { --col-primary: #f09; --x: rgb(0, 0); --icon-size-small: x; --col-disabled: Gray; }` -/
def demo : List Tok :=
  [.ident (txt "body"), .leftCurly, .ident (txt "color"), .colon, .ident (txt "red"), .rightCurly, .colon, .ident (txt "root"),
    .whitespace (txt " "), .leftCurly, .whitespace (txt " "),
    .ident (txt "--col-primary"), .colon, .whitespace (txt " "), .hash (txt "f09") true, .semicolon, .whitespace (txt " "),
    .ident (txt "--x"), .colon, .function (txt "rgb"), .comma, .whitespace (txt " "), .ident (txt "y"), .rightParens, .semicolon,
    .ident (txt "--icon-size-small"), .colon, .ident (txt "x"), .semicolon,
    .ident (txt "--col-disabled"), .colon, .ident (txt "black"), .semicolon, .rightCurly, .eof]

/-- The second value has two tokens: `:root{--font: Arial, serif; --col-a: red;}`. -/
def demoMulti : List Tok :=
  [.colon, .ident (txt "root"), .leftCurly, .ident (txt "--font"), .colon, .ident (txt "Arial"), .comma, .ident (txt "serif"), .semicolon,
    .ident (txt "--col-a"), .colon, .ident (txt "red"), .semicolon, .rightCurly, .eof]

/-- The last declaration has no semicolon: `:root{--col-a: red; --col-b: red}`. -/
def demoLast : List Tok :=
  [.colon, .ident (txt "root"), .leftCurly, .ident (txt "--col-a"), .colon, .ident (txt "red"), .semicolon,
    .ident (txt "--col-b"), .colon, .ident (txt "red"), .rightCurly, .eof]

/-- The hypotheses hold for an example, with a button. -/
theorem C63_case : (stylesheet id demoInt16 demo = ([(txt "primary", ⟨255, 0, 153⟩), (txt "disabled", ⟨0, 0, 0⟩)], [txt "small"])) ∧
    buttons (some ⟨.missing, .value [(txt "ok", ⟨.value (txt "red"), .missing, .missing⟩), (txt "no", ⟨.null, .missing, .missing⟩)]⟩) =
      .ok ⟨some standard, [(txt "ok", ⟨txt "red", txt "primary-dark", txt "disabled"⟩)]⟩ ∧
    (keys [(txt "ok", (⟨.value (txt "red"), .missing, .missing⟩ : ButtonConfig)), (txt "no", ⟨.null, .missing, .missing⟩)]).Nodup := by
  refine ⟨by decide +kernel, ?_, by decide +kernel⟩
  rfl

/-- C63 does not hold for what is behind a value of more than one token: no color is read from a stylesheet which declares one. -/
theorem C63_false_multi : stylesheet id demoInt16 demoMulti = ([], []) ∧
    ∃ a b src, demoMulti = a ++ src ++ b ∧ IsDecl src (txt "--col-a", [.ident (txt "red")]) := by
  refine ⟨by decide +kernel, demoMulti.take 9, [.rightCurly, .eof],
    [.ident (txt "--col-a"), .colon, .ident (txt "red"), .semicolon], rfl, [], [], [.ident (txt "red")], [], by simp [Gap], by simp [Gap],
    by simp [Gap], ?_, rfl⟩
  exact .one (g := []) (by simp [Gap]) (by intro h; rcases h with ⟨_, h⟩ | ⟨_, h⟩ <;> cases h) (by intro f h; cases h)

/-- C63 does not hold for a last declaration without a semicolon. -/
theorem C63_false_last : stylesheet id demoInt16 demoLast = ([(txt "a", ⟨255, 0, 0⟩)], []) := by decide +kernel

end Load

end Verif.Icons
