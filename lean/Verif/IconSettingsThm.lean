import Verif.IconSettings
import Verif.IconRun

/-!
What is read from the stylesheet and from the configuration of the icons, and C63.
-/

namespace Verif.Icons

open Verif.Reader (Text txt)
open Verif.Css (Tok)
open Verif.Js (isHex hexVal)
open Verif.Assoc

namespace Load

/-! ## Specification -/

/-- Whitespace or a comment. -/
def Space (t : Tok) : Prop := (∃ v, t = .whitespace v) ∨ ∃ v, t = .comment v

/-- Only whitespace and comments. -/
def Gap (g : List Tok) : Prop := ∀ t ∈ g, Space t

/-- The braces match. -/
inductive Balanced : List Tok → Prop
  | nil : Balanced []
  | other {t : Tok} {ts : List Tok} : t ≠ .leftCurly → t ≠ .rightCurly → Balanced ts → Balanced (t :: ts)
  | block {b ts : List Tok} : Balanced b → Balanced ts → Balanced (.leftCurly :: (b ++ .rightCurly :: ts))

/-- The tokens begin with `:root {`, and `rest` follows. -/
def OpensRoot (ts rest : List Tok) : Prop :=
  ∃ g g', Gap g ∧ Gap g' ∧ ts = .colon :: (g ++ .ident (txt "root") :: (g' ++ .leftCurly :: rest))

/-- `rest` is behind the first `:root {` which is not inside of braces. -/
inductive FirstRoot : List Tok → List Tok → Prop
  | here {ts rest : List Tok} : OpensRoot ts rest → FirstRoot ts rest
  | skip {t : Tok} {ts rest : List Tok} : t ≠ .leftCurly → (¬ ∃ r, OpensRoot (t :: ts) r) → FirstRoot ts rest →
      FirstRoot (t :: ts) rest
  | block {b ts rest : List Tok} : Balanced b → FirstRoot ts rest → FirstRoot (.leftCurly :: (b ++ .rightCurly :: ts)) rest

/-- The tokens `w` are the value `v`: one token, or a function up to the first `)`. -/
inductive IsValue : List Tok → List Tok → Prop
  | one {g : List Tok} {t : Tok} : Gap g → ¬ Space t → (∀ f, t ≠ .function f) → IsValue (g ++ [t]) [t]
  | call {g b l : List Tok} {f : Text} : Gap g → .rightParens ∉ b → (∀ t ∈ l, ¬ Space t) →
      b.filter (fun t => !isGap t) = l → IsValue (g ++ .function f :: (b ++ [.rightParens])) (.function f :: (l ++ [.rightParens]))

/-- The tokens are the declaration `n: v;`. -/
def IsDecl (src : List Tok) (d : Text × List Tok) : Prop :=
  ∃ g g' w g'', Gap g ∧ Gap g' ∧ Gap g'' ∧ IsValue w d.2 ∧
    src = g ++ .ident d.1 :: (g' ++ .colon :: (w ++ (g'' ++ [.semicolon])))

/-- The tokens begin with the declaration `d`, and `ts'` follows, which is not only whitespace (at least the end of the file). -/
def Begins (ts : List Tok) (d : Text × List Tok) (ts' : List Tok) : Prop :=
  ∃ src, IsDecl src d ∧ ts = src ++ ts' ∧ ∃ t ∈ ts', ¬ Space t

/-- `ds` are the declarations with which the tokens begin, up to the first thing which is not one. -/
inductive Reads : List Tok → List (Text × List Tok) → Prop
  | decl {ts ts' : List Tok} {d : Text × List Tok} {ds : List (Text × List Tok)} : Begins ts d ts' → Reads ts' ds → Reads ts (d :: ds)
  | stop {ts : List Tok} : (¬ ∃ d ts', Begins ts d ts') → Reads ts []

/-- The value of a hexadecimal digit written twice, or of two. -/
def byte (a b : Nat) : Int := ((16 * hexVal a + hexVal b : Nat) : Int)

/-- The value of the declaration is the color. -/
def ColorOf (lower : Text → Text) (v : List Tok) (c : Color) : Prop :=
  (∃ n, v = [.ident n] ∧ (lower n, c) ∈ named) ∨
  (∃ r g b i, v = [.hash [r, g, b] i] ∧ (∀ x ∈ [r, g, b], isHex x = true) ∧ c = ⟨byte r r, byte g g, byte b b⟩) ∨
  (∃ r r' g g' b b' i, v = [.hash [r, r', g, g', b, b'] i] ∧ (∀ x ∈ [r, r', g, g', b, b'], isHex x = true) ∧
    c = ⟨byte r r', byte g g', byte b b'⟩)

/-- The last declaration of the color `k` which is one has the value `c`. -/
def LastColor (lower : Text → Text) (ds : List (Text × List Tok)) (k : Text) (c : Color) : Prop :=
  ∃ a v b, ds = a ++ (txt "--col-" ++ k, v) :: b ∧ ColorOf lower v c ∧ ∀ v', (txt "--col-" ++ k, v') ∈ b → ¬ ∃ c', ColorOf lower v' c'

/-- The size which the declaration is about. -/
def sizeOf (d : Text × List Tok) : Option Text :=
  if (txt "--icon-size-").isPrefixOf d.1 then some (d.1.drop (txt "--icon-size-").length) else none

/-! ## Significant tokens -/

theorem isGap_iff (t : Tok) : isGap t = true ↔ Space t := by
  cases t <;> simp [isGap, Space]

theorem isGap_false (t : Tok) : isGap t = false ↔ ¬ Space t := by
  rw [← isGap_iff]; simp

theorem sig_gap {g : List Tok} (h : Gap g) (ts : List Tok) : sig (g ++ ts) = sig ts := by
  induction g with
  | nil => rfl
  | cons t g ih =>
    have ht := (isGap_iff t).2 (h t (by simp))
    simp only [List.cons_append, sig, ht, if_true]
    exact ih (fun x hx => h x (by simp [hx]))

theorem sig_cons {t : Tok} (h : ¬ Space t) (ts : List Tok) : sig (t :: ts) = some (t, ts) := by
  simp only [sig, (isGap_false t).2 h]; rfl

theorem sig_some {ts : List Tok} {t : Tok} {ts' : List Tok} (h : sig ts = some (t, ts')) :
    ∃ g, Gap g ∧ ¬ Space t ∧ ts = g ++ t :: ts' := by
  induction ts with
  | nil => cases h
  | cons u ts ih =>
    simp only [sig] at h
    split at h
    · next hu =>
      obtain ⟨g, hg, ht, rfl⟩ := ih h
      exact ⟨u :: g, by intro x hx; rcases List.mem_cons.1 hx with rfl | hx; exact (isGap_iff _).1 hu; exact hg x hx, ht, rfl⟩
    · next hu =>
      cases h
      exact ⟨[], by simp [Gap], fun h => hu ((isGap_iff _).2 h), rfl⟩

theorem sig_none {ts : List Tok} : sig ts = none ↔ Gap ts := by
  induction ts with
  | nil => simp [sig, Gap]
  | cons u ts ih =>
    simp only [sig, Gap, List.forall_mem_cons]
    split
    · next hu => rw [ih]; exact ⟨fun h => ⟨(isGap_iff _).1 hu, h⟩, fun h => h.2⟩
    · next hu => exact ⟨fun h => (by cases h), fun h => absurd ((isGap_iff _).2 h.1) hu⟩

/-- Whitespace in front of a token is unique. -/
theorem gap_unique {g g' : List Tok} {t t' : Tok} {ts ts' : List Tok} (hg : Gap g) (hg' : Gap g') (ht : ¬ Space t) (ht' : ¬ Space t')
    (h : g ++ t :: ts = g' ++ t' :: ts') : t = t' ∧ ts = ts' := by
  have e : sig (g ++ t :: ts) = sig (g' ++ t' :: ts') := by rw [h]
  rw [sig_gap hg, sig_gap hg', sig_cons ht, sig_cons ht'] at e
  cases e; exact ⟨rfl, rfl⟩

/-! ## The first `:root` -/

theorem skip_balanced {b : List Tok} (h : Balanced b) : ∀ n ts, skipBlock (n + 1) (b ++ ts) = skipBlock (n + 1) ts := by
  induction h with
  | nil => intro n ts; rfl
  | @other t r h1 h2 _ ih =>
    intro n ts
    rw [← ih n ts]
    cases t <;> first | rfl | exact absurd rfl h1 | exact absurd rfl h2
  | @block b r _ _ ih1 ih2 =>
    intro n ts
    have : (Tok.leftCurly :: (b ++ Tok.rightCurly :: r)) ++ ts = .leftCurly :: (b ++ (.rightCurly :: (r ++ ts))) := by simp
    rw [this]
    show skipBlock (n + 2) (b ++ (.rightCurly :: (r ++ ts))) = _
    rw [ih1 (n + 1)]
    exact ih2 n ts

theorem skip_some : ∀ (k : Nat) (ts : List Tok), ts.length ≤ k → ∀ n r, skipBlock (n + 1) ts = some r →
    ∃ b ts', Balanced b ∧ ts = b ++ .rightCurly :: ts' ∧ skipBlock n ts' = some r := by
  intro k
  induction k with
  | zero =>
    intro ts hk n r h
    cases ts with
    | nil => cases h
    | cons t ts => simp at hk
  | succ k ih =>
    intro ts hk n r h
    cases ts with
    | nil => cases h
    | cons t ts =>
      have hk' : ts.length ≤ k := by simpa using hk
      by_cases h1 : t = .leftCurly
      · subst h1
        obtain ⟨b, ts', hb, rfl, h'⟩ := ih ts hk' (n + 1) r h
        obtain ⟨b2, ts2, hb2, rfl, h2⟩ := ih ts' (by simp only [List.length_append, List.length_cons] at hk'; omega) n r h'
        exact ⟨.leftCurly :: (b ++ .rightCurly :: b2), ts2, .block hb hb2, by simp, h2⟩
      · by_cases h2 : t = .rightCurly
        · subst h2
          exact ⟨[], ts, .nil, rfl, h⟩
        · have e : skipBlock (n + 1) (t :: ts) = skipBlock (n + 1) ts := by
            cases t <;> first | rfl | exact absurd rfl h1 | exact absurd rfl h2
          rw [e] at h
          obtain ⟨b, ts', hb, rfl, h'⟩ := ih ts hk' n r h
          exact ⟨t :: b, ts', .other h1 h2 hb, rfl, h'⟩

theorem skip_one {ts r : List Tok} : skipBlock 1 ts = some r ↔ ∃ b, Balanced b ∧ ts = b ++ .rightCurly :: r := by
  constructor
  · intro h
    obtain ⟨b, ts', hb, rfl, h'⟩ := skip_some _ ts (Nat.le_refl _) 0 r h
    have : ts' = r := by simpa [skipBlock] using h'
    subst this
    exact ⟨b, hb, rfl⟩
  · rintro ⟨b, hb, rfl⟩
    rw [skip_balanced hb 0]
    simp [skipBlock]

theorem skip_length {n : Nat} {ts r : List Tok} (h : skipBlock n ts = some r) : r.length ≤ ts.length := by
  induction ts generalizing n with
  | nil => cases n <;> simp [skipBlock] at h; subst h; simp
  | cons t ts ih =>
    cases n with
    | zero => simp only [skipBlock, Option.some.injEq] at h; subst h; simp
    | succ n =>
      have : ∃ m, skipBlock m ts = some r := by
        cases t <;> exact ⟨_, h⟩
      obtain ⟨m, hm⟩ := this
      have := ih hm
      simp only [List.length_cons]; omega

theorem sig_length {ts : List Tok} {t : Tok} {ts' : List Tok} (h : sig ts = some (t, ts')) : ts'.length < ts.length := by
  obtain ⟨g, _, _, rfl⟩ := sig_some h
  simp only [List.length_append, List.length_cons]; omega

/-- Any other token. -/
theorem findRoot_other {t : Tok} (h1 : t ≠ .leftCurly) (h2 : t ≠ .colon) (n : Nat) (ts : List Tok) :
    findRoot (n + 1) (t :: ts) = (match sig ts with | none => none | some (u, ts') => findRoot n (u :: ts')) := by
  cases t <;> first | rfl | exact absurd rfl h1 | exact absurd rfl h2

/-- More rounds make no difference. -/
theorem findRoot_fuel : ∀ (n m : Nat) (ts : List Tok), ts.length ≤ n → ts.length ≤ m → findRoot n ts = findRoot m ts := by
  intro n
  induction n with
  | zero =>
    intro m ts hn hm
    have : ts = [] := List.length_eq_zero_iff.1 (by omega)
    subst this
    cases m <;> rfl
  | succ n ih =>
    intro m ts hn hm
    cases ts with
    | nil => cases m <;> rfl
    | cons t ts =>
      have hn' : ts.length ≤ n := by simpa using hn
      obtain ⟨m, rfl⟩ : ∃ k, m = k + 1 := ⟨m - 1, by simp only [List.length_cons] at hm; omega⟩
      have hm' : ts.length ≤ m := by simpa using hm
      have next : ∀ {ts'' : List Tok} {u : Tok} {ts' : List Tok}, ts''.length ≤ ts.length → sig ts'' = some (u, ts') →
          findRoot n (u :: ts') = findRoot m (u :: ts') := by
        intro ts'' u ts' hl h
        have := sig_length h
        refine ih _ _ ?_ ?_ <;> simp only [List.length_cons] <;> omega
      by_cases h1 : t = .leftCurly
      · subst h1
        simp only [findRoot]
        cases h : skipBlock 1 ts with
        | none => rfl
        | some r =>
          have := skip_length h
          exact ih _ _ (by omega) (by omega)
      · by_cases h2 : t = .colon
        · subst h2
          simp only [findRoot]
          cases h : sig ts with
          | none => rfl
          | some p =>
            obtain ⟨u, ts'⟩ := p
            have hs := sig_length h
            cases u <;> first | exact next (Nat.le_refl _) h | skip
            next v =>
            simp only []
            split
            · cases h' : sig ts' with
              | none => rfl
              | some p =>
                obtain ⟨w, ts''⟩ := p
                cases w <;> first | rfl | exact next (Nat.le_of_lt hs) h'
            · exact next (Nat.le_refl _) h
        · rw [findRoot_other h1 h2, findRoot_other h1 h2]
          cases h : sig ts with
          | none => rfl
          | some p => exact next (Nat.le_refl _) h

/-- With enough rounds. -/
def fr (ts : List Tok) : Option (List Tok) := findRoot ts.length ts

theorem fr_nil : fr [] = none := rfl

theorem fr_curly (ts : List Tok) : fr (.leftCurly :: ts) = (skipBlock 1 ts).bind fr := by
  show findRoot (ts.length + 1) (.leftCurly :: ts) = _
  simp only [findRoot]
  cases h : skipBlock 1 ts with
  | none => rfl
  | some r => exact findRoot_fuel _ _ _ (skip_length h) (Nat.le_refl _)

theorem fr_gap {g : List Tok} (h : Gap g) (ts : List Tok) : fr (g ++ ts) = (sig (g ++ ts)).bind (fun p => fr (p.1 :: p.2)) := by
  induction g with
  | nil =>
    cases ts with
    | nil => rfl
    | cons t ts =>
      by_cases ht : Space t
      · have h1 : t ≠ .leftCurly := by rintro rfl; rcases ht with ⟨_, h⟩ | ⟨_, h⟩ <;> cases h
        have h2 : t ≠ .colon := by rintro rfl; rcases ht with ⟨_, h⟩ | ⟨_, h⟩ <;> cases h
        show findRoot (ts.length + 1) (t :: ts) = _
        rw [findRoot_other h1 h2]
        simp only [List.nil_append, sig, (isGap_iff t).2 ht, if_true]
        cases h : sig ts with
        | none => rfl
        | some p =>
          have := sig_length h
          exact findRoot_fuel _ _ _ (by simp only [List.length_cons]; omega) (Nat.le_refl _)
      · rw [List.nil_append, sig_cons ht]; rfl
  | cons t g ih =>
    have ht := h t (by simp)
    have h1 : t ≠ .leftCurly := by rintro rfl; rcases ht with ⟨_, h⟩ | ⟨_, h⟩ <;> cases h
    have h2 : t ≠ .colon := by rintro rfl; rcases ht with ⟨_, h⟩ | ⟨_, h⟩ <;> cases h
    show findRoot ((g ++ ts).length + 1) (t :: (g ++ ts)) = _
    rw [findRoot_other h1 h2]
    simp only [List.cons_append, sig, (isGap_iff t).2 ht, if_true]
    cases h : sig (g ++ ts) with
    | none => rfl
    | some p =>
      have := sig_length h
      exact findRoot_fuel _ _ _ (by simp only [List.length_cons]; omega) (Nat.le_refl _)

/-- Whitespace makes no difference. -/
theorem fr_sig (ts : List Tok) : fr ts = (sig ts).bind (fun p => fr (p.1 :: p.2)) := fr_gap (g := []) (by simp [Gap]) ts

theorem fr_other {t : Tok} (h1 : t ≠ .leftCurly) (h2 : t ≠ .colon) (ts : List Tok) : fr (t :: ts) = fr ts := by
  rw [fr_sig ts]
  show findRoot (ts.length + 1) (t :: ts) = _
  rw [findRoot_other h1 h2]
  cases h : sig ts with
  | none => rfl
  | some p =>
    have := sig_length h
    exact findRoot_fuel _ _ _ (by simp only [List.length_cons]; omega) (Nat.le_refl _)

theorem opens_iff {ts rest : List Tok} : OpensRoot (.colon :: ts) rest ↔
    ∃ ts', sig ts = some (.ident (txt "root"), ts') ∧ sig ts' = some (.leftCurly, rest) := by
  have s1 : ∀ v, ¬ Space (.ident v) := by intro v h; rcases h with ⟨_, h⟩ | ⟨_, h⟩ <;> cases h
  have s2 : ¬ Space .leftCurly := by intro h; rcases h with ⟨_, h⟩ | ⟨_, h⟩ <;> cases h
  constructor
  · rintro ⟨g, g', hg, hg', e⟩
    injection e with _ e
    subst e
    exact ⟨g' ++ .leftCurly :: rest, by rw [sig_gap hg, sig_cons (s1 _)], by rw [sig_gap hg', sig_cons s2]⟩
  · rintro ⟨ts', h1, h2⟩
    obtain ⟨g, hg, _, rfl⟩ := sig_some h1
    obtain ⟨g', hg', _, rfl⟩ := sig_some h2
    exact ⟨g, g', hg, hg', rfl⟩

theorem fr_opens {ts rest : List Tok} (h : OpensRoot ts rest) : fr ts = some rest := by
  obtain ⟨g, g', hg, hg', rfl⟩ := h
  obtain ⟨ts', h1, h2⟩ := opens_iff.1 (⟨g, g', hg, hg', rfl⟩ :
    OpensRoot (.colon :: (g ++ .ident (txt "root") :: (g' ++ .leftCurly :: rest))) rest)
  unfold fr
  simp only [List.length_cons, findRoot, h1, if_true, h2]

theorem fr_colon {ts : List Tok} (h : ¬ ∃ r, OpensRoot (.colon :: ts) r) : fr (.colon :: ts) = fr ts := by
  have h' : ¬ ∃ r ts', sig ts = some (.ident (txt "root"), ts') ∧ sig ts' = some (.leftCurly, r) :=
    fun ⟨r, hr⟩ => h ⟨r, opens_iff.2 hr⟩
  rw [fr_sig ts]
  show findRoot (ts.length + 1) (.colon :: ts) = _
  simp only [findRoot]
  cases h1 : sig ts with
  | none => rfl
  | some p =>
    obtain ⟨u, ts'⟩ := p
    have hl := sig_length h1
    have same : ∀ t, findRoot ts.length (t :: ts') = fr (t :: ts') := fun t =>
      findRoot_fuel _ _ _ (by simp only [List.length_cons]; omega) (Nat.le_refl _)
    cases u <;> first | exact same _ | skip
    next v =>
    simp only [Option.bind_some]
    split
    · next hv =>
      subst hv
      rw [fr_other (by simp) (by simp), fr_sig]
      cases h2 : sig ts' with
      | none => rfl
      | some p =>
        obtain ⟨w, ts''⟩ := p
        have hl' := sig_length h2
        by_cases hw : w = .leftCurly
        · subst hw; exact absurd ⟨_, _, h1, h2⟩ h'
        · have e : findRoot ts.length (w :: ts'') = fr (w :: ts'') :=
            findRoot_fuel _ _ _ (by simp only [List.length_cons]; omega) (Nat.le_refl _)
          rw [Option.bind_some, ← e]
          cases w <;> first | rfl | exact absurd rfl hw
    · exact same _

theorem fr_skip {t : Tok} {ts : List Tok} (h1 : t ≠ .leftCurly) (h2 : ¬ ∃ r, OpensRoot (t :: ts) r) : fr (t :: ts) = fr ts := by
  by_cases h : t = .colon
  · subst h; exact fr_colon h2
  · exact fr_other h1 h ts

theorem fr_iff {ts rest : List Tok} : fr ts = some rest ↔ FirstRoot ts rest := by
  constructor
  · generalize hk : ts.length = k
    induction k using Nat.strongRecOn generalizing ts with
    | ind k ih =>
      intro h
      cases ts with
      | nil => cases h
      | cons t ts =>
        subst hk
        by_cases h1 : t = .leftCurly
        · subst h1
          rw [fr_curly] at h
          obtain ⟨r, hr, h'⟩ := Option.bind_eq_some_iff.1 h
          have hl := skip_length hr
          obtain ⟨b, hb, rfl⟩ := skip_one.1 hr
          exact .block hb (ih r.length (by simp only [List.length_cons]; omega) rfl h')
        · by_cases h2 : ∃ r, OpensRoot (t :: ts) r
          · obtain ⟨r, hr⟩ := h2
            rw [fr_opens hr] at h
            cases h
            exact .here hr
          · rw [fr_skip h1 h2] at h
            exact .skip h1 h2 (ih ts.length (by simp) rfl h)
  · intro h
    induction h with
    | here h => exact fr_opens h
    | skip h1 h2 _ ih => rw [fr_skip h1 h2]; exact ih
    | block hb _ ih =>
      rw [fr_curly, skip_one.2 ⟨_, hb, rfl⟩]
      exact ih

/-! ## Declarations -/

theorem args_some : ∀ (n : Nat) (ts l r : List Tok), args n ts = some (l, r) →
    ∃ b l', .rightParens ∉ b ∧ (∀ t ∈ l', ¬ Space t) ∧ b.filter (fun t => !isGap t) = l' ∧ l = l' ++ [.rightParens] ∧
      ts = b ++ .rightParens :: r := by
  intro n
  induction n with
  | zero => intro ts l r h; cases h
  | succ n ih =>
    intro ts l r h
    simp only [args] at h
    have nogap : ∀ {g : List Tok}, Gap g → .rightParens ∉ g := by
      intro g hg hm; rcases hg _ hm with ⟨_, h⟩ | ⟨_, h⟩ <;> cases h
    have fgap : ∀ {g : List Tok}, Gap g → g.filter (fun t => !isGap t) = [] := by
      intro g hg
      rw [List.filter_eq_nil_iff]
      intro t ht; simp [(isGap_iff t).2 (hg t ht)]
    split at h
    · cases h
    · next h1 =>
      cases h
      obtain ⟨g, hg, _, rfl⟩ := sig_some h1
      exact ⟨g, [], nogap hg, by simp, fgap hg, rfl, rfl⟩
    · next t ts' h2 h1 =>
      split at h
      · cases h
      · next l1 r1 h3 =>
        cases h
        obtain ⟨g, hg, ht, rfl⟩ := sig_some h1
        obtain ⟨b, l', hb, hl', hf, rfl, rfl⟩ := ih _ _ _ h3
        refine ⟨g ++ t :: b, t :: l', ?_, ?_, ?_, rfl, by simp⟩
        · intro hm
          rcases List.mem_append.1 hm with hm | hm
          · exact nogap hg hm
          · rcases List.mem_cons.1 hm with hm | hm
            · exact h2 hm.symm
            · exact hb hm
        · intro u hu
          rcases List.mem_cons.1 hu with rfl | hu
          · exact ht
          · exact hl' u hu
        · rw [List.filter_append, fgap hg, List.nil_append, List.filter_cons, (isGap_false t).2 ht, hf]
          rfl

theorem args_ok : ∀ (b : List Tok) (n : Nat) (r : List Tok), .rightParens ∉ b → b.length < n →
    args n (b ++ .rightParens :: r) = some (b.filter (fun t => !isGap t) ++ [.rightParens], r) := by
  intro b
  induction b with
  | nil =>
    intro n r _ hn
    obtain ⟨n, rfl⟩ : ∃ k, n = k + 1 := ⟨n - 1, by simp only [List.length_nil] at hn; omega⟩
    rfl
  | cons t b ih =>
    intro n r hb hn
    obtain ⟨n, rfl⟩ : ∃ k, n = k + 1 := ⟨n - 1, by omega⟩
    have hb' : .rightParens ∉ b := fun h => hb (by simp [h])
    have ht : t ≠ .rightParens := fun h => hb (by simp [h])
    have hn' : b.length < n + 1 := by simp only [List.length_cons] at hn; omega
    by_cases hs : Space t
    · have hg := (isGap_iff t).2 hs
      have e : args (n + 1) (t :: b ++ .rightParens :: r) = args (n + 1) (b ++ .rightParens :: r) := by
        simp only [args, List.cons_append, sig, hg, if_true]
      rw [e, ih (n + 1) r hb' hn', List.filter_cons, hg]
      rfl
    · have hg := (isGap_false t).2 hs
      have := ih n r hb' (by simp only [List.length_cons] at hn; omega)
      rw [List.filter_cons, hg]
      have e : args (n + 1) (t :: b ++ .rightParens :: r) = (match args n (b ++ .rightParens :: r) with
          | none => none | some (l, ts) => some (t :: l, ts)) := by
        simp only [args, List.cons_append, sig_cons hs]
        cases t <;> first | rfl | exact absurd rfl ht
      rw [e, this]
      rfl

theorem value_iff {ts v r : List Tok} : value ts = some (v, r) ↔ ∃ w, IsValue w v ∧ ts = w ++ r := by
  have sf : ∀ v, ¬ Space (.function v) := by intro v h; rcases h with ⟨_, h⟩ | ⟨_, h⟩ <;> cases h
  constructor
  · intro h
    unfold value at h
    split at h
    · cases h
    · next f ts' h1 =>
      split at h
      · cases h
      · next l ts'' h2 =>
        cases h
        obtain ⟨g, hg, _, rfl⟩ := sig_some h1
        obtain ⟨b, l', hb, hl, hf, rfl, rfl⟩ := args_some _ _ _ _ h2
        exact ⟨_, .call hg hb hl hf, by simp⟩
    · next t ts' h2 h1 =>
      cases h
      obtain ⟨g, hg, ht, rfl⟩ := sig_some h1
      exact ⟨_, .one hg ht (fun f hf => h2 f hf), by simp⟩
  · rintro ⟨w, hw, rfl⟩
    cases hw with
    | @one g t hg ht hf =>
      unfold value
      have e : sig (g ++ [t] ++ r) = some (t, r) := by
        rw [List.append_assoc, sig_gap hg]; exact sig_cons ht r
      rw [e]
      cases t <;> first | rfl | exact absurd rfl (hf _)
    | @call g b l f hg hb hl hf =>
      unfold value
      have e : sig (g ++ .function f :: (b ++ [.rightParens]) ++ r) = some (.function f, b ++ .rightParens :: r) := by
        rw [List.append_assoc, sig_gap hg]
        have := sig_cons (sf f) (b ++ .rightParens :: r)
        simpa using this
      rw [e]
      simp only []
      rw [args_ok b _ r hb (by simp only [List.length_append, List.length_cons]; omega), hf]

theorem not_gap {ts : List Tok} : ¬ Gap ts ↔ ∃ t ∈ ts, ¬ Space t := by
  simp only [Gap, Classical.not_forall, exists_prop]

theorem declaration_iff {ts : List Tok} {d : Text × List Tok} {ts' : List Tok} :
    declaration ts = some (d, ts') ↔ Begins ts d ts' := by
  have si : ∀ v, ¬ Space (.ident v) := by intro v h; rcases h with ⟨_, h⟩ | ⟨_, h⟩ <;> cases h
  have sc : ¬ Space .colon := by intro h; rcases h with ⟨_, h⟩ | ⟨_, h⟩ <;> cases h
  have ss : ¬ Space .semicolon := by intro h; rcases h with ⟨_, h⟩ | ⟨_, h⟩ <;> cases h
  constructor
  · intro h
    unfold declaration at h
    split at h
    · next n ts1 h1 =>
      split at h
      · next ts2 h2 =>
        split at h
        · cases h
        · next v ts3 h3 =>
          split at h
          · next ts4 h4 =>
            split at h
            · cases h
            · next p h5 =>
              cases h
              obtain ⟨g, hg, _, rfl⟩ := sig_some h1
              obtain ⟨g', hg', _, rfl⟩ := sig_some h2
              obtain ⟨w, hw, rfl⟩ := value_iff.1 h3
              obtain ⟨g'', hg'', _, rfl⟩ := sig_some h4
              refine ⟨_, ⟨g, g', w, g'', hg, hg', hg'', hw, rfl⟩, by simp, not_gap.1 fun hn => ?_⟩
              rw [sig_none.2 hn] at h5; cases h5
          · cases h
      · cases h
    · cases h
  · rintro ⟨_, ⟨g, g', w, g'', hg, hg', hg'', hw, rfl⟩, rfl, ht⟩
    have e1 : sig ((g ++ .ident d.1 :: (g' ++ .colon :: (w ++ (g'' ++ [.semicolon])))) ++ ts') =
        some (.ident d.1, g' ++ .colon :: (w ++ (g'' ++ .semicolon :: ts'))) := by
      rw [List.append_assoc, sig_gap hg]
      have := sig_cons (si d.1) (g' ++ .colon :: (w ++ (g'' ++ .semicolon :: ts')))
      simpa using this
    have e2 : sig (g' ++ .colon :: (w ++ (g'' ++ .semicolon :: ts'))) = some (.colon, w ++ (g'' ++ .semicolon :: ts')) := by
      rw [sig_gap hg']; exact sig_cons sc _
    have e3 : value (w ++ (g'' ++ .semicolon :: ts')) = some (d.2, g'' ++ .semicolon :: ts') := value_iff.2 ⟨w, hw, rfl⟩
    have e4 : sig (g'' ++ .semicolon :: ts') = some (.semicolon, ts') := by
      rw [sig_gap hg'']; exact sig_cons ss _
    unfold declaration
    rw [e1]; simp only []
    rw [e2]; simp only []
    rw [e3]; simp only []
    rw [e4]; simp only []
    cases h5 : sig ts' with
    | none => exact absurd (sig_none.1 h5) (not_gap.2 ht)
    | some p => rfl

theorem begins_length {ts : List Tok} {d : Text × List Tok} {ts' : List Tok} (h : Begins ts d ts') : ts'.length < ts.length := by
  obtain ⟨_, ⟨g, g', w, g'', _, _, _, _, rfl⟩, rfl, _⟩ := h
  simp only [List.length_append, List.length_cons]; omega

theorem declarations_iff : ∀ (n : Nat) (ts : List Tok) (ds : List (Text × List Tok)), ts.length ≤ n →
    (declarations n ts = ds ↔ Reads ts ds) := by
  intro n
  induction n with
  | zero =>
    intro ts ds hn
    have : ts = [] := List.length_eq_zero_iff.1 (by omega)
    subst this
    have no : ¬ ∃ d ts', Begins [] d ts' := by rintro ⟨d, ts', h⟩; have := begins_length h; simp at this
    constructor
    · rintro rfl; exact .stop no
    · intro h
      cases h with
      | decl h _ => exact absurd ⟨_, _, h⟩ no
      | stop _ => rfl
  | succ n ih =>
    intro ts ds hn
    simp only [declarations]
    cases h : declaration ts with
    | none =>
      have no : ¬ ∃ d ts', Begins ts d ts' := by
        rintro ⟨d, ts', hb⟩; rw [declaration_iff.2 hb] at h; cases h
      constructor
      · rintro rfl; exact .stop no
      · intro h
        cases h with
        | decl h _ => exact absurd ⟨_, _, h⟩ no
        | stop _ => rfl
    | some p =>
      obtain ⟨d, ts'⟩ := p
      have hb := declaration_iff.1 h
      have hl := begins_length hb
      constructor
      · rintro rfl; exact .decl hb ((ih ts' _ (by omega)).1 rfl)
      · intro hr
        cases hr with
        | decl hb' hr =>
          have e := declaration_iff.2 hb'
          rw [h] at e
          cases e
          simp only []
          rw [(ih ts' _ (by omega)).2 hr]
        | stop no => exact absurd ⟨_, _, hb⟩ no

/-! ## Colors -/

theorem named_nodup : (keys named).Nodup := by decide +kernel

theorem fromHex_ok {int16 : Text → Option Int} (hi : HexPairs int16) {r r' g g' b b' : Nat}
    (h : ∀ x ∈ [r, r', g, g', b, b'], isHex x = true) :
    fromHex int16 [35, r, r', g, g', b, b'] = .ok ⟨byte r r', byte g g', byte b b'⟩ := by
  simp only [List.mem_cons, List.not_mem_nil, or_false, forall_eq_or_imp, forall_eq] at h
  obtain ⟨h1, h2, h3, h4, h5, h6⟩ := h
  simp only [fromHex, ne_eq, not_true_eq_false, if_false, List.length_cons, List.length_nil, List.drop_succ_cons, List.drop_zero,
    List.take_succ_cons, List.take_zero]
  rw [hi _ _ h1 h2, hi _ _ h3 h4, hi _ _ h5 h6]
  rfl

theorem interpret_iff {int16 : Text → Option Int} (hi : HexPairs int16) (lower : Text → Text) (v : List Tok) (c : Color) :
    interpret lower int16 v = some c ↔ ColorOf lower v c := by
  constructor
  · intro h
    unfold interpret at h
    split at h
    · exact .inl ⟨_, rfl, mem_of_get h⟩
    · next v i =>
      split at h
      · cases h
      · next hl =>
        split at h
        · next ha =>
          have ha' : ∀ x ∈ v, isHex x = true := List.all_eq_true.1 ha
          have hl' : v.length = 3 ∨ v.length = 6 := by omega
          rcases hl' with hl' | hl'
          · match v, hl', ha', h with
            | [r, g, b], _, ha', h =>
              right; left
              have ha2 : ∀ x ∈ [r, r, g, g, b, b], isHex x = true := by
                intro x hx; apply ha'; simp only [List.mem_cons, List.not_mem_nil, or_false] at hx ⊢
                rcases hx with h | h | h | h | h | h <;> simp [h]
              rw [C51_short, fromHex_ok hi ha2] at h
              cases h
              exact ⟨r, g, b, i, rfl, ha', rfl⟩
          · match v, hl', ha', h with
            | [r, r', g, g', b, b'], _, ha', h =>
              right; right
              rw [fromHex_ok hi ha'] at h
              cases h
              exact ⟨r, r', g, g', b, b', i, rfl, ha', rfl⟩
        · cases h
    · cases h
  · rintro (⟨n, rfl, h⟩ | ⟨r, g, b, i, rfl, h, rfl⟩ | ⟨r, r', g, g', b, b', i, rfl, h, rfl⟩)
    · exact get_of_mem named_nodup h
    · have ha2 : ∀ x ∈ [r, r, g, g, b, b], isHex x = true := by
        intro x hx; apply h; simp only [List.mem_cons, List.not_mem_nil, or_false] at hx ⊢
        rcases hx with h | h | h | h | h | h <;> simp [h]
      have ha : [r, g, b].all isHex = true := List.all_eq_true.2 h
      simp only [interpret, ha, C51_short, fromHex_ok hi ha2]
      simp
    · have ha : [r, r', g, g', b, b'].all isHex = true := List.all_eq_true.2 h
      simp only [interpret, ha, fromHex_ok hi h]
      simp

/-- The colors of the table are colors. -/
theorem named_valid : ∀ p ∈ named, p.2.Valid := by
  unfold Color.Valid
  decide +kernel

theorem byte_valid {a b : Nat} (ha : isHex a = true) (hb : isHex b = true) : 0 ≤ byte a b ∧ byte a b ≤ 255 := by
  have h1 := (upper_hexVal ha).1
  have h2 := (upper_hexVal hb).1
  unfold byte
  omega

theorem color_valid {lower : Text → Text} {v : List Tok} {c : Color} (h : ColorOf lower v c) : c.Valid := by
  rcases h with ⟨n, rfl, h⟩ | ⟨r, g, b, i, rfl, h, rfl⟩ | ⟨r, r', g, g', b, b', i, rfl, h, rfl⟩
  · exact named_valid _ h
  · exact ⟨byte_valid (h r (by simp)) (h r (by simp)), byte_valid (h g (by simp)) (h g (by simp)), byte_valid (h b (by simp)) (h b (by simp))⟩
  · exact ⟨byte_valid (h r (by simp)) (h r' (by simp)), byte_valid (h g (by simp)) (h g' (by simp)), byte_valid (h b (by simp)) (h b' (by simp))⟩

end Load

end Verif.Icons
