import Verif.ImgHash
import Mathlib.Data.List.Sort
import Mathlib.Data.Int.ModEq
import Mathlib.Tactic.Linarith
import Mathlib.Tactic.Ring
import Mathlib.Tactic.NormNum
import Mathlib.Tactic.Tauto
import Mathlib.Tactic.Positivity
import Mathlib.RingTheory.Coprime.Lemmas

/-! C42: the settings hash. -/

namespace Verif.Img

open Verif.Reader

/-! ## Sorting -/

theorem textLe_total (s t : Text) : (textLe s t || textLe t s) = true := by
  induction s generalizing t with
  | nil => simp [textLe]
  | cons a s ih =>
    cases t with
    | nil => simp [textLe]
    | cons b t =>
      unfold textLe
      rcases Nat.lt_trichotomy a b with h | h | h
      · simp [h]
      · subst h; simpa using ih t
      · simp [h]

theorem textLe_trans (s t u : Text) (h1 : textLe s t = true) (h2 : textLe t u = true) : textLe s u = true := by
  induction s generalizing t u with
  | nil => simp [textLe]
  | cons a s ih =>
    cases t with
    | nil => simp [textLe] at h1
    | cons b t =>
      cases u with
      | nil => simp [textLe] at h2
      | cons c u =>
        unfold textLe at h1 h2 ⊢
        split at h1
        · split at h2
          · rw [if_pos (by omega)]
          · split at h2
            · rw [if_pos (by omega)]
            · simp at h2
        · split at h1
          · split at h2
            · rw [if_pos (by omega)]
            · split at h2
              · rw [if_neg (by omega), if_pos (by omega)]
                exact ih _ _ h1 h2
              · simp at h2
          · simp at h1

theorem textLe_antisymm (s t : Text) (h1 : textLe s t = true) (h2 : textLe t s = true) : s = t := by
  induction s generalizing t with
  | nil =>
    cases t with
    | nil => rfl
    | cons b t => simp [textLe] at h2
  | cons a s ih =>
    cases t with
    | nil => simp [textLe] at h1
    | cons b t =>
      unfold textLe at h1 h2
      split at h1
      · rw [if_neg (by omega), if_neg (by omega)] at h2
        simp at h2
      · split at h1
        · rename_i hab
          subst hab
          rw [if_neg (by omega), if_pos rfl] at h2
          rw [ih t h1 h2]
        · simp at h1

section
variable {α β : Type}

theorem sortItems_perm (l : List (Text × α)) : (sortItems l).Perm l := List.mergeSort_perm _ _

theorem sortItems_sorted (l : List (Text × α)) : (sortItems l).Pairwise (fun a b => textLe a.1 b.1 = true) :=
  List.pairwise_mergeSort (le := fun a b : Text × α => textLe a.1 b.1)
    (fun a b c h1 h2 => textLe_trans _ _ _ h1 h2) (fun a b => textLe_total _ _) l

theorem eq_of_sorted {l m : List (Text × α)} (hl : (l.map (·.1)).Nodup) (hp : l.Perm m)
    (sl : l.Pairwise (fun a b => textLe a.1 b.1 = true)) (sm : m.Pairwise (fun a b => textLe a.1 b.1 = true)) : l = m := by
  refine hp.eq_of_pairwise ?_ sl sm
  intro a b ha hb h1 h2
  have hk := textLe_antisymm _ _ h1 h2
  have hb' := hp.mem_iff.2 hb
  exact List.inj_on_of_nodup_map hl ha hb' hk

theorem sortItems_congr {l m : List (Text × α)} (hl : (l.map (·.1)).Nodup) (hp : l.Perm m) : sortItems l = sortItems m := by
  refine eq_of_sorted ?_ ((sortItems_perm l).trans (hp.trans (sortItems_perm m).symm)) (sortItems_sorted l) (sortItems_sorted m)
  exact ((sortItems_perm l).map (·.1)).nodup_iff.2 hl

theorem sortItems_map (g : α → β) {l : List (Text × α)} (hl : (l.map (·.1)).Nodup) :
    sortItems (l.map (fun x => (x.1, g x.2))) = (sortItems l).map (fun x => (x.1, g x.2)) := by
  refine eq_of_sorted ?_ ?_ (sortItems_sorted _) ?_
  · refine ((sortItems_perm _).map (·.1)).nodup_iff.2 ?_
    rw [List.map_map]
    exact hl
  · exact (sortItems_perm _).trans ((sortItems_perm l).map _).symm
  · rw [List.pairwise_map]
    exact sortItems_sorted l

end

/-! ## The same settings -/

/-- Two dictionaries with the same keys, each given once, and related values, in any order. -/
def SameDict {α : Type} (R : α → α → Prop) (a b : List (Text × α)) : Prop :=
  (a.map (·.1)).Nodup ∧ ∃ a', a.Perm a' ∧ List.Forall₂ (fun x y => x.1 = y.1 ∧ R x.2 y.2) a' b

def SameExport (a b : ExportOpts) : Prop :=
  a.minArea = b.minArea ∧ a.maxArea = b.maxArea ∧ a.preference = b.preference ∧ SameDict Eq a.kwargs b.kwargs

def SameFormat (a b : FormatOpts) : Prop := a.minUnit = b.minUnit ∧ SameDict SameExport a.exports b.exports

/-- The same settings, with formats, exports and options listed in any order. -/
def SameSettings (a b : Settings) : Prop :=
  a.defaultFormat = b.defaultFormat ∧ a.maximum = b.maximum ∧ a.step = b.step ∧ SameDict SameFormat a.formats b.formats

theorem forall2_zip {α : Type} {R : α → α → Prop} {a b : List (Text × α)} (h : List.Forall₂ (fun x y => x.1 = y.1 ∧ R x.2 y.2) a b) :
    ∃ z : List (Text × α × α), a = z.map (fun x => (x.1, x.2.1)) ∧ b = z.map (fun x => (x.1, x.2.2)) ∧ ∀ x ∈ z, R x.2.1 x.2.2 := by
  induction h with
  | nil => exact ⟨[], rfl, rfl, by simp⟩
  | @cons x y l m hxy _ ih =>
    obtain ⟨z, rfl, rfl, hz⟩ := ih
    refine ⟨(x.1, x.2, y.2) :: z, rfl, ?_, ?_⟩
    · rw [hxy.1]; rfl
    · intro w hw
      rcases List.mem_cons.1 hw with rfl | hw
      · exact hxy.2
      · exact hz w hw

theorem SameDict.sorted {α : Type} {R : α → α → Prop} {a b : List (Text × α)} (h : SameDict R a b) :
    List.Forall₂ (fun x y => x.1 = y.1 ∧ R x.2 y.2) (sortItems a) (sortItems b) := by
  obtain ⟨hn, a', hp, hf⟩ := h
  obtain ⟨z, rfl, rfl, hz⟩ := forall2_zip hf
  have hzn : (z.map (·.1)).Nodup := by
    have := ((hp.map (·.1)).nodup_iff).1 hn
    rw [List.map_map] at this
    exact this
  rw [sortItems_congr hn hp, sortItems_map (fun p : α × α => p.1) hzn, sortItems_map (fun p : α × α => p.2) hzn,
    List.forall₂_map_left_iff, List.forall₂_map_right_iff]
  have hz' : ∀ x ∈ sortItems z, R x.2.1 x.2.2 := fun x hx => hz x ((sortItems_perm z).mem_iff.1 hx)
  generalize sortItems z = w at hz'
  induction w with
  | nil => exact .nil
  | cons x w ih => exact .cons ⟨rfl, hz' x (by simp)⟩ (ih (fun y hy => hz' y (List.mem_cons_of_mem _ hy)))

theorem foldl_rel {α β : Type} {R : α → α → Prop} {f : β → α → β} (hf : ∀ r x y, R x y → f r x = f r y) {l m : List α}
    (h : List.Forall₂ R l m) (r : β) : l.foldl f r = m.foldl f r := by
  induction h generalizing r with
  | nil => rfl
  | cons hxy _ ih => simp only [List.foldl_cons]; rw [hf r _ _ hxy]; exact ih _

theorem mixKwargs_same {a b : List (Text × Value)} (h : SameDict Eq a b) (r : Except Err ℤ) : mixKwargs r a = mixKwargs r b := by
  unfold mixKwargs
  exact foldl_rel (fun r x y hxy => by rw [hxy.1, hxy.2]) h.sorted r

theorem mixExports_same {a b : List (Text × ExportOpts)} (h : SameDict SameExport a b) (r : Except Err ℤ) :
    mixExports r a = mixExports r b := by
  unfold mixExports
  refine foldl_rel (fun r x y hxy => ?_) h.sorted r
  obtain ⟨h1, h2, h3, h4, h5⟩ := hxy
  rw [h1, h2, h3, h4, mixKwargs_same h5]

theorem mixFormats_same {a b : List (Text × FormatOpts)} (h : SameDict SameFormat a b) (r : Except Err ℤ) :
    mixFormats r a = mixFormats r b := by
  unfold mixFormats
  refine foldl_rel (fun r x y hxy => ?_) h.sorted r
  obtain ⟨h1, h2, h3⟩ := hxy
  rw [h1, h2, mixExports_same h3]

/-- C42, order: the hash does not depend on the order of formats, exports and options. -/
theorem C42_order {a b : Settings} (h : SameSettings a b) : hashSettings a = hashSettings b := by
  obtain ⟨h1, h2, h3, h4⟩ := h
  unfold hashSettings
  rw [h1, h2, h3, mixFormats_same h4]

/-- C42, range: the hash is a number of 64 bits. -/
theorem C42_range {s : Settings} {n : ℤ} (h : hashSettings s = .ok n) : 0 ≤ n ∧ n < 2 ^ 64 := by
  unfold hashSettings at h
  generalize mix (mix (mixFormats (.ok 1) s.formats) (.str s.defaultFormat)) (.int s.maximum) = r at h
  cases r with
  | error e => simp [mix] at h
  | ok r =>
    simp only [mix, stableHash, Except.ok.injEq] at h
    subst h
    unfold overflow
    exact ⟨Int.emod_nonneg _ (by norm_num), Int.emod_lt_of_pos _ (by norm_num)⟩

/-! ## Changes -/

/-- The values which are hashed, in order. -/
def kwargItems (l : List (Text × Value)) : List Value := (sortItems l).flatMap fun kv => [.str kv.1, kv.2]

def exportItems (l : List (Text × ExportOpts)) : List Value :=
  (sortItems l).flatMap fun x => [.str x.1, optInt x.2.minArea, optInt x.2.maxArea, .int x.2.preference] ++ kwargItems x.2.kwargs

def formatItems (l : List (Text × FormatOpts)) : List Value :=
  (sortItems l).flatMap fun x => .str x.1 :: (exportItems x.2.exports ++ [.int x.2.minUnit])

def items (s : Settings) : List Value := formatItems s.formats ++ [.str s.defaultFormat, .int s.maximum, .decimal s.step]

theorem foldl_flatMap {α β γ : Type} (f : β → γ → β) (g : α → List γ) (l : List α) (r : β) :
    (l.flatMap g).foldl f r = l.foldl (fun r x => (g x).foldl f r) r := by
  induction l generalizing r with
  | nil => rfl
  | cons x l ih => rw [List.flatMap_cons, List.foldl_append, List.foldl_cons, ih]

theorem mixKwargs_items (r : Except Err ℤ) (l : List (Text × Value)) : mixKwargs r l = (kwargItems l).foldl mix r := by
  unfold mixKwargs kwargItems
  rw [foldl_flatMap]
  rfl

theorem mixExports_items (r : Except Err ℤ) (l : List (Text × ExportOpts)) : mixExports r l = (exportItems l).foldl mix r := by
  unfold mixExports exportItems
  rw [foldl_flatMap]
  congr 1
  funext r x
  rw [List.foldl_append, mixKwargs_items]
  rfl

theorem mixFormats_items (r : Except Err ℤ) (l : List (Text × FormatOpts)) : mixFormats r l = (formatItems l).foldl mix r := by
  unfold mixFormats formatItems
  rw [foldl_flatMap]
  congr 1
  funext r x
  rw [List.foldl_cons, List.foldl_append, mixExports_items]
  rfl

theorem hashSettings_items (s : Settings) : hashSettings s = (items s).foldl mix (.ok 1) := by
  unfold hashSettings items
  rw [List.foldl_append, mixFormats_items]
  rfl

theorem mix_error (e : Err) (l : List Value) : l.foldl mix (.error e) = .error e := by
  induction l with
  | nil => rfl
  | cons v l ih => exact ih

theorem step_ne {r r' : ℤ} (x : ℤ) (h : r % 2 ^ 64 ≠ r' % 2 ^ 64) :
    overflow (r * 31 + x) % 2 ^ 64 ≠ overflow (r' * 31 + x) % 2 ^ 64 := by
  intro e
  apply h
  unfold overflow at e
  rw [Int.emod_emod, Int.emod_emod] at e
  have e1 := Int.emod_eq_emod_iff_emod_sub_eq_zero.1 e
  have e2 : (2 : ℤ) ^ 64 ∣ (r - r') * 31 := by
    have := Int.dvd_of_emod_eq_zero e1
    have e3 : r * 31 + x - (r' * 31 + x) = (r - r') * 31 := by ring
    rwa [e3] at this
  have hc : IsCoprime ((2 : ℤ) ^ 64) 31 := by
    rw [Int.isCoprime_iff_gcd_eq_one]
    decide +kernel
  exact Int.emod_eq_emod_iff_emod_sub_eq_zero.2 (Int.emod_eq_zero_of_dvd (hc.dvd_of_dvd_mul_right e2))

theorem add_ne (r : ℤ) {x y : ℤ} (h : x % 2 ^ 64 ≠ y % 2 ^ 64) : overflow (r + x) % 2 ^ 64 ≠ overflow (r + y) % 2 ^ 64 := by
  intro e
  apply h
  unfold overflow at e
  rw [Int.emod_emod, Int.emod_emod] at e
  have e1 := Int.emod_eq_emod_iff_emod_sub_eq_zero.1 e
  rw [add_sub_add_left_eq_sub] at e1
  exact Int.emod_eq_emod_iff_emod_sub_eq_zero.2 e1

theorem mix_differ {r r' : ℤ} (h : r % 2 ^ 64 ≠ r' % 2 ^ 64) (l : List Value) {n n' : ℤ}
    (hn : l.foldl mix (.ok r) = .ok n) (hn' : l.foldl mix (.ok r') = .ok n') : n % 2 ^ 64 ≠ n' % 2 ^ 64 := by
  induction l generalizing r r' with
  | nil =>
    simp only [List.foldl_nil, Except.ok.injEq] at hn hn'
    subst hn; subst hn'
    exact h
  | cons v l ih =>
    rw [List.foldl_cons] at hn hn'
    cases hv : stableHash v with
    | error e => simp only [mix, hv, mix_error] at hn; cases hn
    | ok x =>
      simp only [mix, hv] at hn hn'
      exact ih (step_ne x h) hn hn'

/-- Two values that the hash tells apart. -/
def Told (v w : Value) : Prop := ∃ x y, stableHash v = .ok x ∧ stableHash w = .ok y ∧ x % 2 ^ 64 ≠ y % 2 ^ 64

theorem differ_of_items {a b : Settings} {pre post : List Value} {v w : Value} (ha : items a = pre ++ v :: post)
    (hb : items b = pre ++ w :: post) (ht : Told v w) {n m : ℤ} (hn : hashSettings a = .ok n) (hm : hashSettings b = .ok m) : n ≠ m := by
  obtain ⟨x, y, hx, hy, hxy⟩ := ht
  rw [hashSettings_items, ha, List.foldl_append, List.foldl_cons] at hn
  rw [hashSettings_items, hb, List.foldl_append, List.foldl_cons] at hm
  cases hr : pre.foldl mix (.ok 1) with
  | error e =>
    rw [hr] at hn
    simp only [mix, mix_error] at hn
    cases hn
  | ok r =>
    rw [hr] at hn hm
    simp only [mix, hx] at hn
    simp only [mix, hy] at hm
    have := mix_differ (add_ne _ hxy) post hn hm
    rintro rfl
    exact this rfl

theorem sortItems_edit {α : Type} {l1 l2 : List (Text × α)} {k : Text} {x y : α} (hn : ((l1 ++ (k, x) :: l2).map (·.1)).Nodup) :
    ∃ m1 m2, sortItems (l1 ++ (k, x) :: l2) = m1 ++ (k, x) :: m2 ∧ sortItems (l1 ++ (k, y) :: l2) = m1 ++ (k, y) :: m2 := by
  let z : List (Text × α × α) := l1.map (fun p => (p.1, p.2, p.2)) ++ (k, x, y) :: l2.map (fun p => (p.1, p.2, p.2))
  have hzx : l1 ++ (k, x) :: l2 = z.map (fun p => (p.1, p.2.1)) := by
    simp [z, List.map_map, Function.comp_def]
  have hzy : l1 ++ (k, y) :: l2 = z.map (fun p => (p.1, p.2.2)) := by
    simp [z, List.map_map, Function.comp_def]
  have hzn : (z.map (·.1)).Nodup := by
    rw [hzx, List.map_map] at hn
    exact hn
  have hmem : (k, x, y) ∈ sortItems z := (sortItems_perm z).mem_iff.2 (by simp [z])
  obtain ⟨z1, z2, hz⟩ := List.append_of_mem hmem
  have hzn' : ((z1 ++ (k, x, y) :: z2).map (·.1)).Nodup := by
    rw [← hz]
    exact ((sortItems_perm z).map (·.1)).nodup_iff.2 hzn
  have hdiag : ∀ p ∈ z1 ++ z2, p.2.1 = p.2.2 := by
    intro p hp
    have hpz : p ∈ z := by
      refine (sortItems_perm z).mem_iff.1 ?_
      rw [hz]
      simp only [List.mem_append, List.mem_cons] at hp ⊢
      tauto
    have hpk : p.1 ≠ k := by
      rintro rfl
      simp only [List.map_append, List.map_cons, List.nodup_append, List.nodup_cons] at hzn'
      rcases List.mem_append.1 hp with h | h
      · exact hzn'.2.2 p.1 (List.mem_map.2 ⟨p, h, rfl⟩) p.1 (by simp) rfl
      · exact hzn'.2.1.1 (List.mem_map.2 ⟨p, h, rfl⟩)
    simp only [z, List.mem_append, List.mem_cons, List.mem_map] at hpz
    rcases hpz with ⟨q, _, rfl⟩ | rfl | ⟨q, _, rfl⟩
    · rfl
    · exact absurd rfl hpk
    · rfl
  have heq : ∀ w : List (Text × α × α), (∀ p ∈ w, p.2.1 = p.2.2) →
      w.map (fun p => (p.1, p.2.1)) = w.map (fun p => (p.1, p.2.2)) := by
    intro w hw
    exact List.map_congr_left (fun p hp => by rw [hw p hp])
  refine ⟨z1.map (fun p => (p.1, p.2.1)), z2.map (fun p => (p.1, p.2.1)), ?_, ?_⟩
  · rw [hzx, sortItems_map (fun p : α × α => p.1) hzn, hz]
    simp
  · rw [hzy, sortItems_map (fun p : α × α => p.2) hzn, hz, heq z1 (fun p hp => hdiag p (by simp [hp])),
      heq z2 (fun p hp => hdiag p (by simp [hp]))]
    simp

/-- One setting changed from `v` to `w`: in an export, in a format, or at the top. -/
inductive EditExport : ExportOpts → ExportOpts → Value → Value → Prop
  | minArea (e : ExportOpts) (m : Option ℤ) : EditExport e { e with minArea := m } (optInt e.minArea) (optInt m)
  | maxArea (e : ExportOpts) (m : Option ℤ) : EditExport e { e with maxArea := m } (optInt e.maxArea) (optInt m)
  | preference (e : ExportOpts) (p : ℤ) : EditExport e { e with preference := p } (.int e.preference) (.int p)
  | option (e : ExportOpts) {l1 l2 : List (Text × Value)} {k : Text} {v : Value} (h : e.kwargs = l1 ++ (k, v) :: l2) (w : Value) :
      EditExport e { e with kwargs := l1 ++ (k, w) :: l2 } v w

inductive EditFormat : FormatOpts → FormatOpts → Value → Value → Prop
  | unit (f : FormatOpts) (u : ℤ) : EditFormat f { f with minUnit := u } (.int f.minUnit) (.int u)
  | inExport (f : FormatOpts) {l1 l2 : List (Text × ExportOpts)} {k : Text} {e e' : ExportOpts} {v w : Value}
      (h : f.exports = l1 ++ (k, e) :: l2) (he : EditExport e e' v w) : EditFormat f { f with exports := l1 ++ (k, e') :: l2 } v w

inductive Edit : Settings → Settings → Value → Value → Prop
  | defaultFormat (s : Settings) (d : Text) : Edit s { s with defaultFormat := d } (.str s.defaultFormat) (.str d)
  | maximum (s : Settings) (m : ℤ) : Edit s { s with maximum := m } (.int s.maximum) (.int m)
  | step (s : Settings) (t : Text) : Edit s { s with step := t } (.decimal s.step) (.decimal t)
  | inFormat (s : Settings) {l1 l2 : List (Text × FormatOpts)} {k : Text} {f f' : FormatOpts} {v w : Value}
      (h : s.formats = l1 ++ (k, f) :: l2) (hf : EditFormat f f' v w) : Edit s { s with formats := l1 ++ (k, f') :: l2 } v w

/-- Keys of dictionaries are different. -/
def WellFormed (s : Settings) : Prop :=
  (s.formats.map (·.1)).Nodup ∧ ∀ f ∈ s.formats, (f.2.exports.map (·.1)).Nodup ∧ ∀ e ∈ f.2.exports, (e.2.kwargs.map (·.1)).Nodup

/-- `a` and `b` are the same but for one entry. -/
def OneApart (a b : List Value) (v w : Value) : Prop := ∃ pre post, a = pre ++ v :: post ∧ b = pre ++ w :: post

theorem OneApart.frame {a b : List Value} {v w : Value} (h : OneApart a b v w) (x y : List Value) :
    OneApart (x ++ (a ++ y)) (x ++ (b ++ y)) v w := by
  obtain ⟨pre, post, rfl, rfl⟩ := h
  exact ⟨x ++ pre, post ++ y, by simp, by simp⟩

theorem EditExport.apart {e e' : ExportOpts} {v w : Value} (h : EditExport e e' v w) (hn : (e.kwargs.map (·.1)).Nodup) :
    OneApart ([optInt e.minArea, optInt e.maxArea, .int e.preference] ++ kwargItems e.kwargs)
      ([optInt e'.minArea, optInt e'.maxArea, .int e'.preference] ++ kwargItems e'.kwargs) v w := by
  cases h with
  | minArea m => exact ⟨[], _, rfl, rfl⟩
  | maxArea m => exact ⟨[_], _, rfl, rfl⟩
  | preference p => exact ⟨[_, _], _, rfl, rfl⟩
  | @option l1 l2 k v h w =>
    rw [h] at hn ⊢
    obtain ⟨m1, m2, h1, h2⟩ := sortItems_edit (x := v) (y := w) hn
    dsimp only
    have : OneApart (kwargItems (l1 ++ (k, v) :: l2)) (kwargItems (l1 ++ (k, w) :: l2)) v w := by
      unfold kwargItems
      rw [h1, h2]
      exact ⟨m1.flatMap (fun kv => [.str kv.1, kv.2]) ++ [.str k], m2.flatMap (fun kv => [.str kv.1, kv.2]), by simp, by simp⟩
    have := this.frame [optInt e.minArea, optInt e.maxArea, .int e.preference] []
    simpa using this

theorem EditFormat.apart {f f' : FormatOpts} {v w : Value} (h : EditFormat f f' v w) (hn : (f.exports.map (·.1)).Nodup)
    (hk : ∀ e ∈ f.exports, (e.2.kwargs.map (·.1)).Nodup) :
    OneApart (exportItems f.exports ++ [.int f.minUnit]) (exportItems f'.exports ++ [.int f'.minUnit]) v w := by
  cases h with
  | unit u => exact ⟨_, [], rfl, rfl⟩
  | @inExport l1 l2 k e e' v w h he =>
    have hke : (e.kwargs.map (·.1)).Nodup := hk (k, e) (by rw [h]; simp)
    rw [h] at hn ⊢
    obtain ⟨m1, m2, h1, h2⟩ := sortItems_edit (x := e) (y := e') hn
    dsimp only
    unfold exportItems
    rw [h1, h2]
    have := (he.apart hke).frame
      (m1.flatMap (fun x => [.str x.1, optInt x.2.minArea, optInt x.2.maxArea, .int x.2.preference] ++ kwargItems x.2.kwargs) ++ [.str k])
      (m2.flatMap (fun x => [.str x.1, optInt x.2.minArea, optInt x.2.maxArea, .int x.2.preference] ++ kwargItems x.2.kwargs) ++ [.int f.minUnit])
    simpa using this

theorem Edit.apart {s t : Settings} {v w : Value} (h : Edit s t v w) (hw : WellFormed s) : OneApart (items s) (items t) v w := by
  cases h with
  | defaultFormat d => exact ⟨_, _, rfl, rfl⟩
  | maximum m => exact ⟨formatItems s.formats ++ [.str s.defaultFormat], [.decimal s.step], by simp [items], by simp [items]⟩
  | step t => exact ⟨formatItems s.formats ++ [.str s.defaultFormat, .int s.maximum], [], by simp [items], by simp [items]⟩
  | @inFormat l1 l2 k f f' v w h hf =>
    obtain ⟨hn, hk⟩ := hw
    obtain ⟨hke, hkk⟩ := hk (k, f) (by rw [h]; simp)
    rw [h] at hn
    obtain ⟨m1, m2, h1, h2⟩ := sortItems_edit (x := f) (y := f') hn
    unfold items formatItems
    rw [h]
    dsimp only
    rw [h1, h2]
    have := (hf.apart hke hkk).frame
      (m1.flatMap (fun x => .str x.1 :: (exportItems x.2.exports ++ [.int x.2.minUnit])) ++ [.str k])
      (m2.flatMap (fun x => .str x.1 :: (exportItems x.2.exports ++ [.int x.2.minUnit])) ++
        [.str s.defaultFormat, .int s.maximum, .decimal s.step])
    simpa using this

/-- C42, changes, in part: changing one setting, anywhere, to a value with a different hash changes the hash of the
settings.  (`told_int`, `told_str` and `told_kind` below say which values have different hashes.)  The full
property, that any two different settings have different hashes, is false (`C42_false`). -/
theorem C42_change_partial {s t : Settings} {v w : Value} (hw : WellFormed s) (he : Edit s t v w) (ht : Told v w) {n m : ℤ}
    (hn : hashSettings s = .ok n) (hm : hashSettings t = .ok m) : n ≠ m := by
  obtain ⟨pre, post, h1, h2⟩ := he.apart hw
  exact differ_of_items h1 h2 ht hn hm

/-- Different integers are told apart unless they differ by a multiple of 2^64. -/
theorem told_int {i j : ℤ} (h : ¬ (2 ^ 64 ∣ i - j)) : Told (.int i) (.int j) :=
  ⟨i, j, rfl, rfl, fun e => h (Int.dvd_of_emod_eq_zero (Int.emod_eq_emod_iff_emod_sub_eq_zero.1 e))⟩

theorem hashStr_differ {r r' : ℤ} (h : r % 2 ^ 64 ≠ r' % 2 ^ 64) (l : Text) :
    (List.foldl (fun (r : ℤ) (c : ℕ) => overflow (r * 31 + c)) r l) % 2 ^ 64 ≠
      (List.foldl (fun (r : ℤ) (c : ℕ) => overflow (r * 31 + c)) r' l) % 2 ^ 64 := by
  induction l generalizing r r' with
  | nil => exact h
  | cons c l ih => exact ih (step_ne _ h)

/-- Replacing one character of a string changes its hash. -/
theorem hashStr_replace {a b : Text} {c d : ℕ} (hc : c < 2 ^ 64) (hd : d < 2 ^ 64) (h : c ≠ d) :
    hashStr (a ++ c :: b) % 2 ^ 64 ≠ hashStr (a ++ d :: b) % 2 ^ 64 := by
  unfold hashStr
  rw [List.foldl_append, List.foldl_append, List.foldl_cons, List.foldl_cons]
  refine hashStr_differ ?_ b
  refine add_ne _ ?_
  rw [Int.emod_eq_of_lt (by positivity) (by exact_mod_cast hc), Int.emod_eq_of_lt (by positivity) (by exact_mod_cast hd)]
  exact_mod_cast h

/-- Strings which differ in one character are told apart, and so are floats and decimals written that way. -/
theorem told_str {a b : Text} {c d : ℕ} (hc : c < 2 ^ 64) (hd : d < 2 ^ 64) (h : c ≠ d) :
    Told (.str (a ++ c :: b)) (.str (a ++ d :: b)) ∧ Told (.float (a ++ c :: b)) (.float (a ++ d :: b)) ∧
    Told (.decimal (a ++ c :: b)) (.decimal (a ++ d :: b)) := by
  have hh := hashStr_replace (a := a) (b := b) hc hd h
  refine ⟨⟨_, _, rfl, rfl, hh⟩, ⟨_, _, rfl, rfl, ?_⟩, ⟨_, _, rfl, rfl, ?_⟩⟩
  all_goals
    rw [mul_comm, mul_comm 31]
    exact step_ne _ hh

/-- None, True and False are told apart. -/
theorem told_kind : Told .none (.bool true) ∧ Told .none (.bool false) ∧ Told (.bool true) (.bool false) :=
  ⟨⟨_, _, rfl, rfl, by norm_num⟩, ⟨_, _, rfl, rfl, by norm_num⟩, ⟨_, _, rfl, rfl, by norm_num⟩⟩

/-- Settings without lists or dictionaries among the options. -/
def Plain (s : Settings) : Prop := ∀ f ∈ s.formats, ∀ e ∈ f.2.exports, ∀ kv ∈ e.2.kwargs, kv.2 ≠ .other

/-- C42, existence: such settings have a hash. -/
theorem C42_total {s : Settings} (h : Plain s) : ∃ n, hashSettings s = .ok n := by
  have hi : ∀ v ∈ items s, v ≠ .other := by
    intro v hv
    have ho : ∀ o, optInt o ≠ .other := fun o => by cases o <;> simp [optInt]
    simp only [items, formatItems, exportItems, kwargItems, List.mem_append, List.mem_flatMap, List.mem_cons,
      List.not_mem_nil, or_false] at hv
    rcases hv with ⟨f, hf, rfl | ⟨e, he, (rfl | rfl | rfl | rfl) | ⟨kv, hkv, rfl | rfl⟩⟩ | rfl⟩ | rfl | rfl | rfl
    all_goals first | exact ho _ | (intro hc; cases hc; done) | skip
    exact h f ((sortItems_perm _).mem_iff.1 hf) e ((sortItems_perm _).mem_iff.1 he) kv ((sortItems_perm _).mem_iff.1 hkv)
  rw [hashSettings_items]
  generalize (1 : ℤ) = r
  revert hi
  generalize items s = l
  intro hi
  induction l generalizing r with
  | nil => exact ⟨r, rfl⟩
  | cons v l ih =>
    have hv := hi v (by simp)
    have : ∃ x, stableHash v = .ok x := by
      cases v with
      | other => exact absurd rfl hv
      | bool b => cases b <;> exact ⟨_, rfl⟩
      | _ => exact ⟨_, rfl⟩
    obtain ⟨x, hx⟩ := this
    rw [List.foldl_cons]
    simp only [mix, hx]
    exact ih _ (fun v hv => hi v (List.mem_cons_of_mem _ hv))

/-- Settings with two formats, two exports and two options. -/
def demoSettings (k1 k2 : Text) (v2 : Value) : Settings :=
  ⟨[([119], ⟨[([108], ⟨none, some 100, 2, [(k1, .bool true), (k2, v2)]⟩), ([104], ⟨none, none, 1, []⟩)], 5⟩), ([106], ⟨[], 0⟩)],
    [106], 3, [49]⟩

/-- The hypotheses of the theorems above hold for the demo settings: the hash exists, listing everything in another
order gives the same hash, changing an option another. -/
theorem C42_case :
    WellFormed (demoSettings [97] [98] (.int 80)) ∧
    SameSettings (demoSettings [97] [98] (.int 80))
      ⟨[([106], ⟨[], 0⟩), ([119], ⟨[([104], ⟨none, none, 1, []⟩), ([108], ⟨none, some 100, 2, [([98], .int 80), ([97], .bool true)]⟩)], 5⟩)],
        [106], 3, [49]⟩ ∧
    (∃ n, hashSettings (demoSettings [97] [98] (.int 80)) = .ok n) ∧
    Edit (demoSettings [97] [98] (.int 80)) (demoSettings [97] [98] (.int 81)) (.int 80) (.int 81) := by
  refine ⟨⟨by decide, ?_⟩, ?_, C42_total (by unfold Plain; decide), ?_⟩
  · decide
  · refine ⟨rfl, rfl, rfl, by decide, _, List.Perm.swap _ _ _, .cons ⟨rfl, rfl, by decide, [], .refl _, .nil⟩
      (.cons ⟨rfl, rfl, by decide, _, List.Perm.swap _ _ _, .cons ⟨rfl, rfl, rfl, rfl, by decide, [], .refl _, .nil⟩
      (.cons ⟨rfl, rfl, rfl, rfl, by decide, _, List.Perm.swap _ _ _, .cons ⟨rfl, rfl⟩ (.cons ⟨rfl, rfl⟩ .nil)⟩ .nil)⟩ .nil)⟩
  · exact Edit.inFormat (demoSettings [97] [98] (.int 80)) (l1 := []) rfl
      (EditFormat.inExport _ (l1 := []) rfl (EditExport.option _ (l1 := [([97], .bool true)]) rfl (.int 81)))

/-- C42 as stated is false: the default formats "Aa" and "BB" have the same hash. -/
theorem C42_false : ∃ a b : Settings, ¬ SameSettings a b ∧ WellFormed a ∧ WellFormed b ∧ ∃ n, hashSettings a = .ok n ∧ hashSettings b = .ok n :=
  by
  have hh : hashStr [65, 97] = hashStr [66, 66] := by decide
  have hs : stableHash (.str [65, 97]) = stableHash (.str [66, 66]) := by simp only [stableHash, hh]
  obtain ⟨n, hn⟩ := C42_total (s := ⟨[([65, 97], ⟨[], 0⟩), ([66, 66], ⟨[], 0⟩)], [65, 97], 1, [49]⟩) (by unfold Plain; decide)
  refine ⟨⟨[([65, 97], ⟨[], 0⟩), ([66, 66], ⟨[], 0⟩)], [65, 97], 1, [49]⟩, ⟨[([65, 97], ⟨[], 0⟩), ([66, 66], ⟨[], 0⟩)], [66, 66], 1, [49]⟩,
    fun h => by have := h.1; simp at this, ⟨by decide, by decide⟩, ⟨by decide, by decide⟩, n, hn, ?_⟩
  rw [← hn]
  unfold hashSettings
  simp only [mix, hs]

end Verif.Img
