import Verif.ImgTarget

/-! C43 and C44: target ids. -/

namespace Verif.Img

open Verif.Reader

/-- Between acquiring and releasing the lock. -/
def Pc.crit : Pc → Bool
  | .locked | .got _ | .cut _ | .counted _ | .made _ | .opened _ | .placed _ => true
  | _ => false

/-- The id a reservation has been given. -/
def Pc.id? : Pc → Option ℕ
  | .counted c | .made c | .opened c | .placed c | .done c => some c
  | _ => none

variable {τ : Type}

structure Inv (s : Res τ) : Prop where
  crit : ∀ i, (s.pc i).crit = true → s.lock = some i
  le : ∀ i c, (s.pc i).id? = some c → s.counter ≠ .absent ∧ ∀ n, s.counter = .full n → c ≤ n
  got : ∀ j d, s.pc j = .got d → s.counter = .full d ∨ (s.counter = .absent ∧ d = 0)
  cut : ∀ j d, s.pc j = .cut d → s.counter = .empty ∧ ∀ i c, (s.pc i).id? = some c → c ≤ d
  lt : ∀ i c j d, (s.pc i).id? = some c → (s.pc j).id? = some d → (s.pc j).crit = true → i ≠ j → c < d
  uniq : ∀ i c j, (s.pc i).id? = some c → (s.pc j).id? = some c → i = j
  log : ∀ c, c ∈ s.log → ∃ i, s.pc i = .done c
  mono : s.log.Pairwise (· > ·)
  sub : ∀ i x, x ∈ s.seen i → x ∈ s.log ∨ s.pc i = .idle
  after : ∀ i c, (s.pc i).id? = some c → ∀ x ∈ s.seen i, x < c
  ph : ∀ i c, s.pc i = .placed c ∨ s.pc i = .done c → s.placeholder c = .full (s.want i)

theorem Inv.start {s : Res τ} (h : Start s) : Inv s := by
  obtain ⟨h1, h2, h3⟩ := h
  constructor <;> simp [h1, h2, h3, Pc.crit, Pc.id?]

theorem id_upd {f : ℕ → Pc} {i j : ℕ} {x : Pc} : (upd f i x j).id? = if j = i then x.id? else (f j).id? := by
  unfold upd; split <;> rfl

theorem crit_upd {f : ℕ → Pc} {i j : ℕ} {x : Pc} : (upd f i x j).crit = if j = i then x.crit else (f j).crit := by
  unfold upd; split <;> rfl

theorem upd_eq {α : Type} {f : ℕ → α} {i j : ℕ} {x y : α} : upd f i x j = y ↔ (j = i ∧ x = y) ∨ (j ≠ i ∧ f j = y) := by
  unfold upd; split <;> simp_all

theorem upd_ne {α : Type} {f : ℕ → α} {i j : ℕ} {x : α} (h : j ≠ i) : upd f i x j = f j := if_neg h

theorem upd_same {α : Type} {f : ℕ → α} {i : ℕ} {x : α} : upd f i x i = x := if_pos rfl

theorem Inv.begin {s : Res τ} {i : ℕ} (hi : Inv s) (t : τ) (h : s.pc i = .idle) :
    Inv { s with pc := upd s.pc i .waiting, want := upd s.want i t, seen := upd s.seen i s.log } := by
  obtain ⟨i1, i2, i3, i4, i5, i6, i7, i8, i9, i10, i11⟩ := hi
  have hid : (s.pc i).id? = none := by rw [h]; rfl
  have hcr : (s.pc i).crit = false := by rw [h]; rfl
  have k1 : ∀ j c, s.pc j = .done c → (s.pc j).id? = some c ∧ (s.pc j).crit = false := fun j c e => by rw [e]; exact ⟨rfl, rfl⟩
  have k2 : ∀ j c, s.pc j = .placed c → (s.pc j).id? = some c ∧ (s.pc j).crit = true := fun j c e => by rw [e]; exact ⟨rfl, rfl⟩
  have k3 : ∀ j c, s.pc j = .got c → (s.pc j).id? = none ∧ (s.pc j).crit = true := fun j c e => by rw [e]; exact ⟨rfl, rfl⟩
  have k4 : ∀ j c, s.pc j = .cut c → (s.pc j).id? = none ∧ (s.pc j).crit = true := fun j c e => by rw [e]; exact ⟨rfl, rfl⟩
  have x1 : (Pc.waiting).id? = none := rfl
  have x2 : (Pc.waiting).crit = false := rfl
  constructor
  all_goals
    dsimp only
    try simp only [id_upd, crit_upd, upd_eq, x1, x2]
  all_goals try clear x1 x2
  all_goals
    obtain ⟨ids, hids⟩ : ∃ f : ℕ → Option ℕ, ∀ j, (s.pc j).id? = f j := ⟨_, fun _ => rfl⟩
    obtain ⟨cr, hcrs⟩ : ∃ f : ℕ → Bool, ∀ j, (s.pc j).crit = f j := ⟨_, fun _ => rfl⟩
    simp only [hids, hcrs] at *
    clear hids hcrs
  all_goals try grind [upd_ne, upd_same]
  all_goals try (clear i1 i3 i4 i5 i6 i7 i8 i9 i10 i11 k1 k2 k3 k4; grind)
  all_goals try (clear i1 i2 i3 i5 i7 i8 i9 i10 i11 k1 k2 k3 k4; grind)
  all_goals try (clear i1 i2 i3 i5 i6 i7 i8 i9 i10 i11 k1 k2 k3; grind)
  all_goals try (clear i1 i2 i3 i4 i5 i6 i8 i9 i10 i11 k1 k2 k3 k4; grind)
  all_goals try (clear i1 i2 i3 i4 i6 i7 i8 i9 i10 i11 k1 k2 k3 k4; grind)
  all_goals try (clear i4 i5 i6 i7 i8 i9 i10 i11 k1 k2; grind)
  all_goals try (clear i1 i2 i3 i5 i6 i8 i11 k2 k3 k4; grind)
  all_goals try (clear i1 i2 i3 i4 i6 i9 i10 i11 k2 k3 k4; rw [List.pairwise_cons]; grind)

theorem Inv.acquire {s : Res τ} {i : ℕ} (hi : Inv s) (h : s.pc i = .waiting) (hl : s.lock = none) :
    Inv { s with pc := upd s.pc i .locked, lock := some i } := by
  obtain ⟨i1, i2, i3, i4, i5, i6, i7, i8, i9, i10, i11⟩ := hi
  have hid : (s.pc i).id? = none := by rw [h]; rfl
  have hcr : (s.pc i).crit = false := by rw [h]; rfl
  have k1 : ∀ j c, s.pc j = .done c → (s.pc j).id? = some c ∧ (s.pc j).crit = false := fun j c e => by rw [e]; exact ⟨rfl, rfl⟩
  have k2 : ∀ j c, s.pc j = .placed c → (s.pc j).id? = some c ∧ (s.pc j).crit = true := fun j c e => by rw [e]; exact ⟨rfl, rfl⟩
  have k3 : ∀ j c, s.pc j = .got c → (s.pc j).id? = none ∧ (s.pc j).crit = true := fun j c e => by rw [e]; exact ⟨rfl, rfl⟩
  have k4 : ∀ j c, s.pc j = .cut c → (s.pc j).id? = none ∧ (s.pc j).crit = true := fun j c e => by rw [e]; exact ⟨rfl, rfl⟩
  have x1 : (Pc.locked).id? = none := rfl
  have x2 : (Pc.locked).crit = true := rfl
  constructor
  all_goals
    dsimp only
    try simp only [id_upd, crit_upd, upd_eq, x1, x2]
  all_goals try clear x1 x2
  all_goals
    obtain ⟨ids, hids⟩ : ∃ f : ℕ → Option ℕ, ∀ j, (s.pc j).id? = f j := ⟨_, fun _ => rfl⟩
    obtain ⟨cr, hcrs⟩ : ∃ f : ℕ → Bool, ∀ j, (s.pc j).crit = f j := ⟨_, fun _ => rfl⟩
    simp only [hids, hcrs] at *
    clear hids hcrs
  all_goals try grind [upd_ne, upd_same]
  all_goals try (clear i1 i3 i4 i5 i6 i7 i8 i9 i10 i11 k1 k2 k3 k4; grind)
  all_goals try (clear i1 i2 i3 i5 i7 i8 i9 i10 i11 k1 k2 k3 k4; grind)
  all_goals try (clear i1 i2 i3 i5 i6 i7 i8 i9 i10 i11 k1 k2 k3; grind)
  all_goals try (clear i1 i2 i3 i4 i5 i6 i8 i9 i10 i11 k1 k2 k3 k4; grind)
  all_goals try (clear i1 i2 i3 i4 i6 i7 i8 i9 i10 i11 k1 k2 k3 k4; grind)
  all_goals try (clear i4 i5 i6 i7 i8 i9 i10 i11 k1 k2; grind)
  all_goals try (clear i1 i2 i3 i5 i6 i8 i11 k2 k3 k4; grind)
  all_goals try (clear i1 i2 i3 i4 i6 i9 i10 i11 k2 k3 k4; rw [List.pairwise_cons]; grind)

theorem Inv.read {s : Res τ} {i c : ℕ} (hi : Inv s) (h : s.pc i = .locked) (hc : s.counter = .full c) :
    Inv { s with pc := upd s.pc i (.got c) } := by
  obtain ⟨i1, i2, i3, i4, i5, i6, i7, i8, i9, i10, i11⟩ := hi
  have hid : (s.pc i).id? = none := by rw [h]; rfl
  have hcr : (s.pc i).crit = true := by rw [h]; rfl
  have k1 : ∀ j c, s.pc j = .done c → (s.pc j).id? = some c ∧ (s.pc j).crit = false := fun j c e => by rw [e]; exact ⟨rfl, rfl⟩
  have k2 : ∀ j c, s.pc j = .placed c → (s.pc j).id? = some c ∧ (s.pc j).crit = true := fun j c e => by rw [e]; exact ⟨rfl, rfl⟩
  have k3 : ∀ j c, s.pc j = .got c → (s.pc j).id? = none ∧ (s.pc j).crit = true := fun j c e => by rw [e]; exact ⟨rfl, rfl⟩
  have k4 : ∀ j c, s.pc j = .cut c → (s.pc j).id? = none ∧ (s.pc j).crit = true := fun j c e => by rw [e]; exact ⟨rfl, rfl⟩
  have x1 : ((Pc.got c)).id? = none := rfl
  have x2 : ((Pc.got c)).crit = true := rfl
  constructor
  all_goals
    dsimp only
    try simp only [id_upd, crit_upd, upd_eq, x1, x2]
  all_goals try clear x1 x2
  all_goals
    obtain ⟨ids, hids⟩ : ∃ f : ℕ → Option ℕ, ∀ j, (s.pc j).id? = f j := ⟨_, fun _ => rfl⟩
    obtain ⟨cr, hcrs⟩ : ∃ f : ℕ → Bool, ∀ j, (s.pc j).crit = f j := ⟨_, fun _ => rfl⟩
    simp only [hids, hcrs] at *
    clear hids hcrs
  all_goals try grind [upd_ne, upd_same]
  all_goals try (clear i1 i3 i4 i5 i6 i7 i8 i9 i10 i11 k1 k2 k3 k4; grind)
  all_goals try (clear i1 i2 i3 i5 i7 i8 i9 i10 i11 k1 k2 k3 k4; grind)
  all_goals try (clear i1 i2 i3 i5 i6 i7 i8 i9 i10 i11 k1 k2 k3; grind)
  all_goals try (clear i1 i2 i3 i4 i5 i6 i8 i9 i10 i11 k1 k2 k3 k4; grind)
  all_goals try (clear i1 i2 i3 i4 i6 i7 i8 i9 i10 i11 k1 k2 k3 k4; grind)
  all_goals try (clear i4 i5 i6 i7 i8 i9 i10 i11 k1 k2; grind)
  all_goals try (clear i1 i2 i3 i5 i6 i8 i11 k2 k3 k4; grind)
  all_goals try (clear i1 i2 i3 i4 i6 i9 i10 i11 k2 k3 k4; rw [List.pairwise_cons]; grind)

theorem Inv.fresh {s : Res τ} {i : ℕ} (hi : Inv s) (h : s.pc i = .locked) (hc : s.counter = .absent) :
    Inv { s with pc := upd s.pc i (.got 0) } := by
  obtain ⟨i1, i2, i3, i4, i5, i6, i7, i8, i9, i10, i11⟩ := hi
  have hid : (s.pc i).id? = none := by rw [h]; rfl
  have hcr : (s.pc i).crit = true := by rw [h]; rfl
  have k1 : ∀ j c, s.pc j = .done c → (s.pc j).id? = some c ∧ (s.pc j).crit = false := fun j c e => by rw [e]; exact ⟨rfl, rfl⟩
  have k2 : ∀ j c, s.pc j = .placed c → (s.pc j).id? = some c ∧ (s.pc j).crit = true := fun j c e => by rw [e]; exact ⟨rfl, rfl⟩
  have k3 : ∀ j c, s.pc j = .got c → (s.pc j).id? = none ∧ (s.pc j).crit = true := fun j c e => by rw [e]; exact ⟨rfl, rfl⟩
  have k4 : ∀ j c, s.pc j = .cut c → (s.pc j).id? = none ∧ (s.pc j).crit = true := fun j c e => by rw [e]; exact ⟨rfl, rfl⟩
  have x1 : ((Pc.got 0)).id? = none := rfl
  have x2 : ((Pc.got 0)).crit = true := rfl
  constructor
  all_goals
    dsimp only
    try simp only [id_upd, crit_upd, upd_eq, x1, x2]
  all_goals try clear x1 x2
  all_goals
    obtain ⟨ids, hids⟩ : ∃ f : ℕ → Option ℕ, ∀ j, (s.pc j).id? = f j := ⟨_, fun _ => rfl⟩
    obtain ⟨cr, hcrs⟩ : ∃ f : ℕ → Bool, ∀ j, (s.pc j).crit = f j := ⟨_, fun _ => rfl⟩
    simp only [hids, hcrs] at *
    clear hids hcrs
  all_goals try grind [upd_ne, upd_same]
  all_goals try (clear i1 i3 i4 i5 i6 i7 i8 i9 i10 i11 k1 k2 k3 k4; grind)
  all_goals try (clear i1 i2 i3 i5 i7 i8 i9 i10 i11 k1 k2 k3 k4; grind)
  all_goals try (clear i1 i2 i3 i5 i6 i7 i8 i9 i10 i11 k1 k2 k3; grind)
  all_goals try (clear i1 i2 i3 i4 i5 i6 i8 i9 i10 i11 k1 k2 k3 k4; grind)
  all_goals try (clear i1 i2 i3 i4 i6 i7 i8 i9 i10 i11 k1 k2 k3 k4; grind)
  all_goals try (clear i4 i5 i6 i7 i8 i9 i10 i11 k1 k2; grind)
  all_goals try (clear i1 i2 i3 i5 i6 i8 i11 k2 k3 k4; grind)
  all_goals try (clear i1 i2 i3 i4 i6 i9 i10 i11 k2 k3 k4; rw [List.pairwise_cons]; grind)

theorem Inv.torn {s : Res τ} {i : ℕ} (hi : Inv s) (h : s.pc i = .locked) :
    Inv { s with pc := upd s.pc i .failed, lock := none } := by
  obtain ⟨i1, i2, i3, i4, i5, i6, i7, i8, i9, i10, i11⟩ := hi
  have hid : (s.pc i).id? = none := by rw [h]; rfl
  have hcr : (s.pc i).crit = true := by rw [h]; rfl
  have k1 : ∀ j c, s.pc j = .done c → (s.pc j).id? = some c ∧ (s.pc j).crit = false := fun j c e => by rw [e]; exact ⟨rfl, rfl⟩
  have k2 : ∀ j c, s.pc j = .placed c → (s.pc j).id? = some c ∧ (s.pc j).crit = true := fun j c e => by rw [e]; exact ⟨rfl, rfl⟩
  have k3 : ∀ j c, s.pc j = .got c → (s.pc j).id? = none ∧ (s.pc j).crit = true := fun j c e => by rw [e]; exact ⟨rfl, rfl⟩
  have k4 : ∀ j c, s.pc j = .cut c → (s.pc j).id? = none ∧ (s.pc j).crit = true := fun j c e => by rw [e]; exact ⟨rfl, rfl⟩
  have x1 : (Pc.failed).id? = none := rfl
  have x2 : (Pc.failed).crit = false := rfl
  constructor
  all_goals
    dsimp only
    try simp only [id_upd, crit_upd, upd_eq, x1, x2]
  all_goals try clear x1 x2
  all_goals
    obtain ⟨ids, hids⟩ : ∃ f : ℕ → Option ℕ, ∀ j, (s.pc j).id? = f j := ⟨_, fun _ => rfl⟩
    obtain ⟨cr, hcrs⟩ : ∃ f : ℕ → Bool, ∀ j, (s.pc j).crit = f j := ⟨_, fun _ => rfl⟩
    simp only [hids, hcrs] at *
    clear hids hcrs
  all_goals try grind [upd_ne, upd_same]
  all_goals try (clear i1 i3 i4 i5 i6 i7 i8 i9 i10 i11 k1 k2 k3 k4; grind)
  all_goals try (clear i1 i2 i3 i5 i7 i8 i9 i10 i11 k1 k2 k3 k4; grind)
  all_goals try (clear i1 i2 i3 i5 i6 i7 i8 i9 i10 i11 k1 k2 k3; grind)
  all_goals try (clear i1 i2 i3 i4 i5 i6 i8 i9 i10 i11 k1 k2 k3 k4; grind)
  all_goals try (clear i1 i2 i3 i4 i6 i7 i8 i9 i10 i11 k1 k2 k3 k4; grind)
  all_goals try (clear i4 i5 i6 i7 i8 i9 i10 i11 k1 k2; grind)
  all_goals try (clear i1 i2 i3 i5 i6 i8 i11 k2 k3 k4; grind)
  all_goals try (clear i1 i2 i3 i4 i6 i9 i10 i11 k2 k3 k4; rw [List.pairwise_cons]; grind)

theorem Inv.cutting {s : Res τ} {i c : ℕ} (hi : Inv s) (h : s.pc i = .got c) :
    Inv { s with pc := upd s.pc i (.cut c), counter := .empty } := by
  obtain ⟨i1, i2, i3, i4, i5, i6, i7, i8, i9, i10, i11⟩ := hi
  have hid : (s.pc i).id? = none := by rw [h]; rfl
  have hcr : (s.pc i).crit = true := by rw [h]; rfl
  have k1 : ∀ j c, s.pc j = .done c → (s.pc j).id? = some c ∧ (s.pc j).crit = false := fun j c e => by rw [e]; exact ⟨rfl, rfl⟩
  have k2 : ∀ j c, s.pc j = .placed c → (s.pc j).id? = some c ∧ (s.pc j).crit = true := fun j c e => by rw [e]; exact ⟨rfl, rfl⟩
  have k3 : ∀ j c, s.pc j = .got c → (s.pc j).id? = none ∧ (s.pc j).crit = true := fun j c e => by rw [e]; exact ⟨rfl, rfl⟩
  have k4 : ∀ j c, s.pc j = .cut c → (s.pc j).id? = none ∧ (s.pc j).crit = true := fun j c e => by rw [e]; exact ⟨rfl, rfl⟩
  have x1 : ((Pc.cut c)).id? = none := rfl
  have x2 : ((Pc.cut c)).crit = true := rfl
  constructor
  all_goals
    dsimp only
    try simp only [id_upd, crit_upd, upd_eq, x1, x2]
  all_goals try clear x1 x2
  all_goals
    obtain ⟨ids, hids⟩ : ∃ f : ℕ → Option ℕ, ∀ j, (s.pc j).id? = f j := ⟨_, fun _ => rfl⟩
    obtain ⟨cr, hcrs⟩ : ∃ f : ℕ → Bool, ∀ j, (s.pc j).crit = f j := ⟨_, fun _ => rfl⟩
    simp only [hids, hcrs] at *
    clear hids hcrs
  all_goals try grind [upd_ne, upd_same]
  all_goals try (clear i1 i3 i4 i5 i6 i7 i8 i9 i10 i11 k1 k2 k3 k4; grind)
  all_goals try (clear i1 i2 i3 i5 i7 i8 i9 i10 i11 k1 k2 k3 k4; grind)
  all_goals try (clear i1 i2 i3 i5 i6 i7 i8 i9 i10 i11 k1 k2 k3; grind)
  all_goals try (clear i1 i2 i3 i4 i5 i6 i8 i9 i10 i11 k1 k2 k3 k4; grind)
  all_goals try (clear i1 i2 i3 i4 i6 i7 i8 i9 i10 i11 k1 k2 k3 k4; grind)
  all_goals try (clear i4 i5 i6 i7 i8 i9 i10 i11 k1 k2; grind)
  all_goals try (clear i1 i2 i3 i5 i6 i8 i11 k2 k3 k4; grind)
  all_goals try (clear i1 i2 i3 i4 i6 i9 i10 i11 k2 k3 k4; rw [List.pairwise_cons]; grind)

theorem Inv.count {s : Res τ} {i c : ℕ} (hi : Inv s) (h : s.pc i = .cut c) :
    Inv { s with pc := upd s.pc i (.counted (c + 1)), counter := .full (c + 1) } := by
  obtain ⟨i1, i2, i3, i4, i5, i6, i7, i8, i9, i10, i11⟩ := hi
  have hid : (s.pc i).id? = none := by rw [h]; rfl
  have hcr : (s.pc i).crit = true := by rw [h]; rfl
  have k1 : ∀ j c, s.pc j = .done c → (s.pc j).id? = some c ∧ (s.pc j).crit = false := fun j c e => by rw [e]; exact ⟨rfl, rfl⟩
  have k2 : ∀ j c, s.pc j = .placed c → (s.pc j).id? = some c ∧ (s.pc j).crit = true := fun j c e => by rw [e]; exact ⟨rfl, rfl⟩
  have k3 : ∀ j c, s.pc j = .got c → (s.pc j).id? = none ∧ (s.pc j).crit = true := fun j c e => by rw [e]; exact ⟨rfl, rfl⟩
  have k4 : ∀ j c, s.pc j = .cut c → (s.pc j).id? = none ∧ (s.pc j).crit = true := fun j c e => by rw [e]; exact ⟨rfl, rfl⟩
  have x1 : ((Pc.counted (c + 1))).id? = some (c + 1) := rfl
  have x2 : ((Pc.counted (c + 1))).crit = true := rfl
  constructor
  all_goals
    dsimp only
    try simp only [id_upd, crit_upd, upd_eq, x1, x2]
  all_goals try clear x1 x2
  all_goals
    obtain ⟨ids, hids⟩ : ∃ f : ℕ → Option ℕ, ∀ j, (s.pc j).id? = f j := ⟨_, fun _ => rfl⟩
    obtain ⟨cr, hcrs⟩ : ∃ f : ℕ → Bool, ∀ j, (s.pc j).crit = f j := ⟨_, fun _ => rfl⟩
    simp only [hids, hcrs] at *
    clear hids hcrs
  all_goals try grind [upd_ne, upd_same]
  all_goals try (clear i1 i3 i4 i5 i6 i7 i8 i9 i10 i11 k1 k2 k3 k4; grind)
  all_goals try (clear i1 i2 i3 i5 i7 i8 i9 i10 i11 k1 k2 k3 k4; grind)
  all_goals try (clear i1 i2 i3 i5 i6 i7 i8 i9 i10 i11 k1 k2 k3; grind)
  all_goals try (clear i1 i2 i3 i4 i5 i6 i8 i9 i10 i11 k1 k2 k3 k4; grind)
  all_goals try (clear i1 i2 i3 i4 i6 i7 i8 i9 i10 i11 k1 k2 k3 k4; grind)
  all_goals try (clear i4 i5 i6 i7 i8 i9 i10 i11 k1 k2; grind)
  all_goals try (clear i1 i2 i3 i5 i6 i8 i11 k2 k3 k4; grind)
  all_goals try (clear i1 i2 i3 i4 i6 i9 i10 i11 k2 k3 k4; rw [List.pairwise_cons]; grind)

theorem Inv.make {s : Res τ} {i c : ℕ} (hi : Inv s) (h : s.pc i = .counted c) :
    Inv { s with pc := upd s.pc i (.made c) } := by
  obtain ⟨i1, i2, i3, i4, i5, i6, i7, i8, i9, i10, i11⟩ := hi
  have hid : (s.pc i).id? = some c := by rw [h]; rfl
  have hcr : (s.pc i).crit = true := by rw [h]; rfl
  have k1 : ∀ j c, s.pc j = .done c → (s.pc j).id? = some c ∧ (s.pc j).crit = false := fun j c e => by rw [e]; exact ⟨rfl, rfl⟩
  have k2 : ∀ j c, s.pc j = .placed c → (s.pc j).id? = some c ∧ (s.pc j).crit = true := fun j c e => by rw [e]; exact ⟨rfl, rfl⟩
  have k3 : ∀ j c, s.pc j = .got c → (s.pc j).id? = none ∧ (s.pc j).crit = true := fun j c e => by rw [e]; exact ⟨rfl, rfl⟩
  have k4 : ∀ j c, s.pc j = .cut c → (s.pc j).id? = none ∧ (s.pc j).crit = true := fun j c e => by rw [e]; exact ⟨rfl, rfl⟩
  have x1 : ((Pc.made c)).id? = some c := rfl
  have x2 : ((Pc.made c)).crit = true := rfl
  constructor
  all_goals
    dsimp only
    try simp only [id_upd, crit_upd, upd_eq, x1, x2]
  all_goals try clear x1 x2
  all_goals
    obtain ⟨ids, hids⟩ : ∃ f : ℕ → Option ℕ, ∀ j, (s.pc j).id? = f j := ⟨_, fun _ => rfl⟩
    obtain ⟨cr, hcrs⟩ : ∃ f : ℕ → Bool, ∀ j, (s.pc j).crit = f j := ⟨_, fun _ => rfl⟩
    simp only [hids, hcrs] at *
    clear hids hcrs
  all_goals try grind [upd_ne, upd_same]
  all_goals try (clear i1 i3 i4 i5 i6 i7 i8 i9 i10 i11 k1 k2 k3 k4; grind)
  all_goals try (clear i1 i2 i3 i5 i7 i8 i9 i10 i11 k1 k2 k3 k4; grind)
  all_goals try (clear i1 i2 i3 i5 i6 i7 i8 i9 i10 i11 k1 k2 k3; grind)
  all_goals try (clear i1 i2 i3 i4 i5 i6 i8 i9 i10 i11 k1 k2 k3 k4; grind)
  all_goals try (clear i1 i2 i3 i4 i6 i7 i8 i9 i10 i11 k1 k2 k3 k4; grind)
  all_goals try (clear i4 i5 i6 i7 i8 i9 i10 i11 k1 k2; grind)
  all_goals try (clear i1 i2 i3 i5 i6 i8 i11 k2 k3 k4; grind)
  all_goals try (clear i1 i2 i3 i4 i6 i9 i10 i11 k2 k3 k4; rw [List.pairwise_cons]; grind)

theorem Inv.opens {s : Res τ} {i c : ℕ} (hi : Inv s) (h : s.pc i = .made c) :
    Inv { s with pc := upd s.pc i (.opened c), placeholder := upd s.placeholder c .empty } := by
  obtain ⟨i1, i2, i3, i4, i5, i6, i7, i8, i9, i10, i11⟩ := hi
  have hid : (s.pc i).id? = some c := by rw [h]; rfl
  have hcr : (s.pc i).crit = true := by rw [h]; rfl
  have k1 : ∀ j c, s.pc j = .done c → (s.pc j).id? = some c ∧ (s.pc j).crit = false := fun j c e => by rw [e]; exact ⟨rfl, rfl⟩
  have k2 : ∀ j c, s.pc j = .placed c → (s.pc j).id? = some c ∧ (s.pc j).crit = true := fun j c e => by rw [e]; exact ⟨rfl, rfl⟩
  have k3 : ∀ j c, s.pc j = .got c → (s.pc j).id? = none ∧ (s.pc j).crit = true := fun j c e => by rw [e]; exact ⟨rfl, rfl⟩
  have k4 : ∀ j c, s.pc j = .cut c → (s.pc j).id? = none ∧ (s.pc j).crit = true := fun j c e => by rw [e]; exact ⟨rfl, rfl⟩
  have x1 : ((Pc.opened c)).id? = some c := rfl
  have x2 : ((Pc.opened c)).crit = true := rfl
  constructor
  all_goals
    dsimp only
    try simp only [id_upd, crit_upd, upd_eq, x1, x2]
  all_goals try clear x1 x2
  all_goals
    obtain ⟨ids, hids⟩ : ∃ f : ℕ → Option ℕ, ∀ j, (s.pc j).id? = f j := ⟨_, fun _ => rfl⟩
    obtain ⟨cr, hcrs⟩ : ∃ f : ℕ → Bool, ∀ j, (s.pc j).crit = f j := ⟨_, fun _ => rfl⟩
    simp only [hids, hcrs] at *
    clear hids hcrs
  all_goals try grind [upd_ne, upd_same]
  all_goals try (clear i1 i3 i4 i5 i6 i7 i8 i9 i10 i11 k1 k2 k3 k4; grind)
  all_goals try (clear i1 i2 i3 i5 i7 i8 i9 i10 i11 k1 k2 k3 k4; grind)
  all_goals try (clear i1 i2 i3 i5 i6 i7 i8 i9 i10 i11 k1 k2 k3; grind)
  all_goals try (clear i1 i2 i3 i4 i5 i6 i8 i9 i10 i11 k1 k2 k3 k4; grind)
  all_goals try (clear i1 i2 i3 i4 i6 i7 i8 i9 i10 i11 k1 k2 k3 k4; grind)
  all_goals try (clear i4 i5 i6 i7 i8 i9 i10 i11 k1 k2; grind)
  all_goals try (clear i1 i2 i3 i5 i6 i8 i11 k2 k3 k4; grind)
  all_goals try (clear i1 i2 i3 i4 i6 i9 i10 i11 k2 k3 k4; rw [List.pairwise_cons]; grind)

theorem Inv.place {s : Res τ} {i c : ℕ} (hi : Inv s) (h : s.pc i = .opened c) :
    Inv { s with pc := upd s.pc i (.placed c), placeholder := upd s.placeholder c (.full (s.want i)) } := by
  obtain ⟨i1, i2, i3, i4, i5, i6, i7, i8, i9, i10, i11⟩ := hi
  have hid : (s.pc i).id? = some c := by rw [h]; rfl
  have hcr : (s.pc i).crit = true := by rw [h]; rfl
  have k1 : ∀ j c, s.pc j = .done c → (s.pc j).id? = some c ∧ (s.pc j).crit = false := fun j c e => by rw [e]; exact ⟨rfl, rfl⟩
  have k2 : ∀ j c, s.pc j = .placed c → (s.pc j).id? = some c ∧ (s.pc j).crit = true := fun j c e => by rw [e]; exact ⟨rfl, rfl⟩
  have k3 : ∀ j c, s.pc j = .got c → (s.pc j).id? = none ∧ (s.pc j).crit = true := fun j c e => by rw [e]; exact ⟨rfl, rfl⟩
  have k4 : ∀ j c, s.pc j = .cut c → (s.pc j).id? = none ∧ (s.pc j).crit = true := fun j c e => by rw [e]; exact ⟨rfl, rfl⟩
  have x1 : ((Pc.placed c)).id? = some c := rfl
  have x2 : ((Pc.placed c)).crit = true := rfl
  constructor
  all_goals
    dsimp only
    try simp only [id_upd, crit_upd, upd_eq, x1, x2]
  all_goals try clear x1 x2
  all_goals
    obtain ⟨ids, hids⟩ : ∃ f : ℕ → Option ℕ, ∀ j, (s.pc j).id? = f j := ⟨_, fun _ => rfl⟩
    obtain ⟨cr, hcrs⟩ : ∃ f : ℕ → Bool, ∀ j, (s.pc j).crit = f j := ⟨_, fun _ => rfl⟩
    simp only [hids, hcrs] at *
    clear hids hcrs
  all_goals try grind [upd_ne, upd_same]
  all_goals try (clear i1 i3 i4 i5 i6 i7 i8 i9 i10 i11 k1 k2 k3 k4; grind)
  all_goals try (clear i1 i2 i3 i5 i7 i8 i9 i10 i11 k1 k2 k3 k4; grind)
  all_goals try (clear i1 i2 i3 i5 i6 i7 i8 i9 i10 i11 k1 k2 k3; grind)
  all_goals try (clear i1 i2 i3 i4 i5 i6 i8 i9 i10 i11 k1 k2 k3 k4; grind)
  all_goals try (clear i1 i2 i3 i4 i6 i7 i8 i9 i10 i11 k1 k2 k3 k4; grind)
  all_goals try (clear i4 i5 i6 i7 i8 i9 i10 i11 k1 k2; grind)
  all_goals try (clear i1 i2 i3 i5 i6 i8 i11 k2 k3 k4; grind)
  all_goals try (clear i1 i2 i3 i4 i6 i9 i10 i11 k2 k3 k4; rw [List.pairwise_cons]; grind)

theorem Inv.release {s : Res τ} {i c : ℕ} (hi : Inv s) (h : s.pc i = .placed c) :
    Inv { s with pc := upd s.pc i (.done c), lock := none, log := c :: s.log } := by
  obtain ⟨i1, i2, i3, i4, i5, i6, i7, i8, i9, i10, i11⟩ := hi
  have hid : (s.pc i).id? = some c := by rw [h]; rfl
  have hcr : (s.pc i).crit = true := by rw [h]; rfl
  have k1 : ∀ j c, s.pc j = .done c → (s.pc j).id? = some c ∧ (s.pc j).crit = false := fun j c e => by rw [e]; exact ⟨rfl, rfl⟩
  have k2 : ∀ j c, s.pc j = .placed c → (s.pc j).id? = some c ∧ (s.pc j).crit = true := fun j c e => by rw [e]; exact ⟨rfl, rfl⟩
  have k3 : ∀ j c, s.pc j = .got c → (s.pc j).id? = none ∧ (s.pc j).crit = true := fun j c e => by rw [e]; exact ⟨rfl, rfl⟩
  have k4 : ∀ j c, s.pc j = .cut c → (s.pc j).id? = none ∧ (s.pc j).crit = true := fun j c e => by rw [e]; exact ⟨rfl, rfl⟩
  have x1 : ((Pc.done c)).id? = some c := rfl
  have x2 : ((Pc.done c)).crit = false := rfl
  constructor
  all_goals
    dsimp only
    try simp only [id_upd, crit_upd, upd_eq, x1, x2]
  all_goals try clear x1 x2
  all_goals
    obtain ⟨ids, hids⟩ : ∃ f : ℕ → Option ℕ, ∀ j, (s.pc j).id? = f j := ⟨_, fun _ => rfl⟩
    obtain ⟨cr, hcrs⟩ : ∃ f : ℕ → Bool, ∀ j, (s.pc j).crit = f j := ⟨_, fun _ => rfl⟩
    simp only [hids, hcrs] at *
    clear hids hcrs
  all_goals try grind [upd_ne, upd_same]
  all_goals try (clear i1 i3 i4 i5 i6 i7 i8 i9 i10 i11 k1 k2 k3 k4; grind)
  all_goals try (clear i1 i2 i3 i5 i7 i8 i9 i10 i11 k1 k2 k3 k4; grind)
  all_goals try (clear i1 i2 i3 i5 i6 i7 i8 i9 i10 i11 k1 k2 k3; grind)
  all_goals try (clear i1 i2 i3 i4 i5 i6 i8 i9 i10 i11 k1 k2 k3 k4; grind)
  all_goals try (clear i1 i2 i3 i4 i6 i7 i8 i9 i10 i11 k1 k2 k3 k4; grind)
  all_goals try (clear i4 i5 i6 i7 i8 i9 i10 i11 k1 k2; grind)
  all_goals try (clear i1 i2 i3 i5 i6 i8 i11 k2 k3 k4; grind)
  all_goals try (clear i1 i2 i3 i4 i6 i9 i10 i11 k2 k3 k4; rw [List.pairwise_cons]; grind)

theorem Inv.kill {s : Res τ} {i : ℕ} (hi : Inv s) (h : s.pc i ≠ .idle) (hd : ∀ c, s.pc i ≠ .done c) :
    Inv { s with pc := upd s.pc i .dead, lock := if s.lock = some i then none else s.lock } := by
  obtain ⟨i1, i2, i3, i4, i5, i6, i7, i8, i9, i10, i11⟩ := hi
  have k1 : ∀ j c, s.pc j = .done c → (s.pc j).id? = some c ∧ (s.pc j).crit = false := fun j c e => by rw [e]; exact ⟨rfl, rfl⟩
  have k2 : ∀ j c, s.pc j = .placed c → (s.pc j).id? = some c ∧ (s.pc j).crit = true := fun j c e => by rw [e]; exact ⟨rfl, rfl⟩
  have k3 : ∀ j c, s.pc j = .got c → (s.pc j).id? = none ∧ (s.pc j).crit = true := fun j c e => by rw [e]; exact ⟨rfl, rfl⟩
  have k4 : ∀ j c, s.pc j = .cut c → (s.pc j).id? = none ∧ (s.pc j).crit = true := fun j c e => by rw [e]; exact ⟨rfl, rfl⟩
  have x1 : (Pc.dead).id? = none := rfl
  have x2 : (Pc.dead).crit = false := rfl
  constructor
  all_goals
    dsimp only
    try simp only [id_upd, crit_upd, upd_eq, x1, x2]
  all_goals try clear x1 x2
  all_goals
    obtain ⟨ids, hids⟩ : ∃ f : ℕ → Option ℕ, ∀ j, (s.pc j).id? = f j := ⟨_, fun _ => rfl⟩
    obtain ⟨cr, hcrs⟩ : ∃ f : ℕ → Bool, ∀ j, (s.pc j).crit = f j := ⟨_, fun _ => rfl⟩
    simp only [hids, hcrs] at *
    clear hids hcrs
  all_goals try grind [upd_ne, upd_same]
  all_goals try (clear i1 i3 i4 i5 i6 i7 i8 i9 i10 i11 k1 k2 k3 k4; grind)
  all_goals try (clear i1 i2 i3 i5 i7 i8 i9 i10 i11 k1 k2 k3 k4; grind)
  all_goals try (clear i1 i2 i3 i5 i6 i7 i8 i9 i10 i11 k1 k2 k3; grind)
  all_goals try (clear i1 i2 i3 i4 i5 i6 i8 i9 i10 i11 k1 k2 k3 k4; grind)
  all_goals try (clear i1 i2 i3 i4 i6 i7 i8 i9 i10 i11 k1 k2 k3 k4; grind)
  all_goals try (clear i4 i5 i6 i7 i8 i9 i10 i11 k1 k2; grind)
  all_goals try (clear i1 i2 i3 i5 i6 i8 i11 k2 k3 k4; grind)
  all_goals try (clear i1 i2 i3 i4 i6 i9 i10 i11 k2 k3 k4; rw [List.pairwise_cons]; grind)

theorem Inv.step {s t : Res τ} (hi : Inv s) (hs : Step s t) : Inv t := by
  cases hs with
  | start t h => exact hi.begin t h
  | acquire h hl => exact hi.acquire h hl
  | read h hc => exact hi.read h hc
  | fresh h hc => exact hi.fresh h hc
  | torn h hc => exact hi.torn h
  | cut h => exact hi.cutting h
  | count h => exact hi.count h
  | make h => exact hi.make h
  | opens h => exact hi.opens h
  | place h => exact hi.place h
  | release h => exact hi.release h
  | kill h hd => exact hi.kill h hd

theorem Inv.reach {s0 s : Res τ} (h0 : Start s0) (h : Reach s0 s) : Inv s := by
  induction h with
  | refl => exact Inv.start h0
  | step _ hs ih => exact ih.step hs

/-- C43, uniqueness: however reservations interleave and wherever they are killed, two of them never return the same
id. -/
theorem C43_unique {s0 s : Res τ} (h0 : Start s0) (h : Reach s0 s) {i j c : ℕ} (hi : s.pc i = .done c) (hj : s.pc j = .done c) :
    i = j :=
  (Inv.reach h0 h).uniq i c j (by rw [hi]; rfl) (by rw [hj]; rfl)

/-- C43, order: ids are returned in increasing order, each larger than all returned before it. -/
theorem C43_increasing {s0 s : Res τ} (h0 : Start s0) (h : Reach s0 s) : s.log.Pairwise (· > ·) :=
  (Inv.reach h0 h).mono

/-- `log` is complete: it lists exactly the returned ids. -/
theorem C43_log {s0 s : Res τ} (h0 : Start s0) (h : Reach s0 s) (c : ℕ) : c ∈ s.log ↔ ∃ i, s.pc i = .done c := by
  refine ⟨(Inv.reach h0 h).log c, ?_⟩
  induction h with
  | refl =>
    rintro ⟨i, hi⟩
    rw [h0.2.1 i] at hi
    cases hi
  | @step s t hr hs ih =>
    rintro ⟨i, hi⟩
    cases hs
    all_goals
      dsimp only at hi ⊢
      rw [upd_eq] at hi
      rcases hi with ⟨_, hi⟩ | ⟨_, hi⟩
      · first
          | (cases hi; done)
          | (injection hi with hi; subst hi; simp)
      · first
          | exact ih ⟨i, hi⟩
          | exact List.mem_cons_of_mem _ (ih ⟨i, hi⟩)

/-- C43, order in time: an id is larger than every id returned before its reservation started. -/
theorem C43_after {s0 s : Res τ} (h0 : Start s0) (h : Reach s0 s) {i c x : ℕ} (hi : s.pc i = .done c) (hx : x ∈ s.seen i) : x < c :=
  (Inv.reach h0 h).after i c (by rw [hi]; rfl) x hx

/-- A returned id stays reserved: its placeholder holds the target it was reserved for, in every later state (those
are reachable as well), so nobody else has taken the folder. -/
theorem C43_kept {s0 s : Res τ} (h0 : Start s0) (h : Reach s0 s) {i c : ℕ} (hi : s.pc i = .done c) :
    s.placeholder c = .full (s.want i) :=
  (Inv.reach h0 h).ph i c (.inr hi)

/-- Ids are also larger than the number in the counter file at the beginning. -/
theorem C43_above {s0 s : Res τ} (h0 : Start s0) (h : Reach s0 s) {n : ℕ} (hn : s0.counter = .full n) :
    (∀ m, s.counter = .full m → n ≤ m) ∧ s.counter ≠ .absent ∧ (∀ i c, s.pc i = .got c ∨ s.pc i = .cut c → n ≤ c) ∧
    (∀ i c, (s.pc i).id? = some c → n < c) := by
  induction h with
  | refl =>
    refine ⟨fun m hm => ?_, by rw [hn]; simp, ?_, ?_⟩
    · rw [hn] at hm; injection hm with hm; omega
    · intro i c hi; rw [h0.2.1 i] at hi; simp at hi
    · intro i c hi; rw [h0.2.1 i] at hi; simp [Pc.id?] at hi
  | @step s t hr hs ih =>
    obtain ⟨h1, h2, h3, h4⟩ := ih
    cases hs
    case start i t h =>
      refine ⟨h1, h2, ?_, ?_⟩ <;> dsimp only <;> try simp only [id_upd, upd_eq]
      · grind
      · have : (Pc.waiting).id? = none := rfl
        grind
    case acquire i h hl =>
      refine ⟨h1, h2, ?_, ?_⟩ <;> dsimp only <;> try simp only [id_upd, upd_eq]
      · grind
      · have : (Pc.locked).id? = none := rfl
        grind
    case read i c h hc =>
      refine ⟨h1, h2, ?_, ?_⟩ <;> dsimp only <;> try simp only [id_upd, upd_eq]
      · grind
      · have : (Pc.got c).id? = none := rfl
        grind
    case fresh i h hc => exact absurd hc h2
    case torn i h hc =>
      refine ⟨h1, h2, ?_, ?_⟩ <;> dsimp only <;> try simp only [id_upd, upd_eq]
      · grind
      · have : (Pc.failed).id? = none := rfl
        grind
    case cut i c h =>
      refine ⟨?_, ?_, ?_, ?_⟩ <;> dsimp only <;> try simp only [id_upd, upd_eq]
      · grind
      · grind
      · grind
      · have : (Pc.cut c).id? = none := rfl
        grind
    case count i c h =>
      have h5 := h3 i c (.inr h)
      refine ⟨?_, ?_, ?_, ?_⟩ <;> dsimp only <;> try simp only [id_upd, upd_eq]
      · grind
      · grind
      · grind
      · have : (Pc.counted (c + 1)).id? = some (c + 1) := rfl
        grind
    case make i c h =>
      have h5 := h4 i c (by rw [h]; rfl)
      refine ⟨h1, h2, ?_, ?_⟩ <;> dsimp only <;> try simp only [id_upd, upd_eq]
      · grind
      · have : (Pc.made c).id? = some c := rfl
        grind
    case opens i c h =>
      have h5 := h4 i c (by rw [h]; rfl)
      refine ⟨h1, h2, ?_, ?_⟩ <;> dsimp only <;> try simp only [id_upd, upd_eq]
      · grind
      · have : (Pc.opened c).id? = some c := rfl
        grind
    case place i c h =>
      have h5 := h4 i c (by rw [h]; rfl)
      refine ⟨h1, h2, ?_, ?_⟩ <;> dsimp only <;> try simp only [id_upd, upd_eq]
      · grind
      · have : (Pc.placed c).id? = some c := rfl
        grind
    case release i c h =>
      have h5 := h4 i c (by rw [h]; rfl)
      refine ⟨h1, h2, ?_, ?_⟩ <;> dsimp only <;> try simp only [id_upd, upd_eq]
      · grind
      · have : (Pc.done c).id? = some c := rfl
        grind
    case kill i h hd =>
      refine ⟨h1, h2, ?_, ?_⟩ <;> dsimp only <;> try simp only [id_upd, upd_eq]
      · grind
      · have : (Pc.dead).id? = none := rfl
        grind

/-- A reservation killed after emptying the counter file leaves a folder in which no reservation succeeds any more. -/
theorem C43_torn {s t : Res τ} (hc : s.counter = .empty) (hn : ∀ i, (s.pc i).crit = false) (h : Reach s t) :
    t.counter = .empty ∧ (∀ i, (t.pc i).crit = true → t.pc i = .locked) ∧ ∀ i c, t.pc i = .done c → s.pc i = .done c := by
  induction h with
  | refl => exact ⟨hc, fun i hi => (by rw [hn i] at hi; cases hi), fun _ _ h => h⟩
  | @step t u hr hs ih =>
    obtain ⟨h1, h2, h3⟩ := ih
    cases hs
    case read i c h hc' => rw [h1] at hc'; cases hc'
    case fresh i h hc' => rw [h1] at hc'; cases hc'
    case cut i c h => have := h2 i (by rw [h]; rfl); rw [h] at this; cases this
    case count i c h => have := h2 i (by rw [h]; rfl); rw [h] at this; cases this
    case make i c h => have := h2 i (by rw [h]; rfl); rw [h] at this; cases this
    case opens i c h => have := h2 i (by rw [h]; rfl); rw [h] at this; cases this
    case place i c h => have := h2 i (by rw [h]; rfl); rw [h] at this; cases this
    case release i c h => have := h2 i (by rw [h]; rfl); rw [h] at this; cases this
    all_goals
      refine ⟨h1, ?_, ?_⟩
      · intro j hj
        dsimp only at hj ⊢
        rw [crit_upd] at hj
        split at hj
        · rename_i hji
          subst hji
          first
            | (cases hj; done)
            | rw [upd_same]
        · rename_i hji
          rw [upd_ne hji]
          exact h2 j hj
      · intro j c hj
        dsimp only at hj
        rw [upd_eq] at hj
        rcases hj with ⟨_, hj⟩ | ⟨_, hj⟩
        · cases hj
        · exact h3 j c hj

/-- A folder nothing was exported to yet. -/
def emptyFolder (t : τ) : Res τ := ⟨.absent, fun _ => .absent, none, fun _ => .idle, fun _ => t, [], fun _ => []⟩

/-- The hypotheses hold, and the claims are not vacuous: two reservations for the same target overlap, the second
starts first; they return 1 and 2. -/
theorem C43_case : Start (emptyFolder 7) ∧
    ∃ s, Reach (emptyFolder 7) s ∧ s.pc 0 = .done 2 ∧ s.pc 1 = .done 1 ∧ s.log = [2, 1] ∧ s.counter = .full 2 := by
  refine ⟨⟨rfl, fun _ => rfl, rfl⟩, ?_⟩
  refine ⟨_, Reach.refl
    |>.step (.start (i := 0) 8 rfl) |>.step (.start (i := 1) 8 rfl) |>.step (.acquire (i := 1) rfl rfl) |>.step (.fresh (i := 1) rfl rfl)
    |>.step (.cut (i := 1) (c := 0) rfl) |>.step (.count (i := 1) (c := 0) rfl) |>.step (.make (i := 1) (c := 1) rfl)
    |>.step (.opens (i := 1) (c := 1) rfl) |>.step (.place (i := 1) (c := 1) rfl) |>.step (.release (i := 1) (c := 1) rfl)
    |>.step (.acquire (i := 0) rfl rfl) |>.step (.read (i := 0) (c := 1) rfl rfl)
    |>.step (.cut (i := 0) (c := 1) rfl) |>.step (.count (i := 0) (c := 1) rfl) |>.step (.make (i := 0) (c := 2) rfl)
    |>.step (.opens (i := 0) (c := 2) rfl) |>.step (.place (i := 0) (c := 2) rfl) |>.step (.release (i := 0) (c := 2) rfl),
    rfl, rfl, rfl, rfl⟩

/-- The state of C43_torn is reachable. -/
theorem C43_torn_case : ∃ s, Reach (emptyFolder 7) s ∧ s.counter = .empty ∧ ∀ i, (s.pc i).crit = false := by
  refine ⟨_, Reach.refl
    |>.step (.start (i := 0) 8 rfl) |>.step (.acquire (i := 0) rfl rfl) |>.step (.fresh (i := 0) rfl rfl)
    |>.step (.cut (i := 0) (c := 0) rfl) |>.step (.kill (i := 0) (by simp [upd]) (by simp [upd])), rfl, ?_⟩
  intro i
  simp only [crit_upd]
  by_cases h : i = 0
  · rw [if_pos h]; rfl
  · simp [h]; rfl

/-! ## get_target -/

section
variable [DecidableEq τ]

/-- The entry is a finished target made with these settings, from this image, for this target. -/
def Finished (h : ℤ) (contents : Text) (target : τ) (e : Entry τ) : Prop :=
  e.isDir = true ∧ ∃ m, e.metadata = some (.ok m) ∧ m.settingsHash = h ∧ m.contentsHash = contents ∧ m.target = target

/-- The entry is reserved for this target but not finished. -/
def Reserved (target : τ) (e : Entry τ) : Prop :=
  e.isDir = true ∧ e.metadata = none ∧ e.placeholder = some (.ok target)

/-- The entry was made with these settings from an image with other contents. -/
def Outdated (h : ℤ) (contents : Text) (e : Entry τ) : Prop :=
  e.isDir = true ∧ ∃ m, e.metadata = some (.ok m) ∧ m.settingsHash = h ∧ m.contentsHash ≠ contents

/-- The files of the entry can be read, and its name is a number. -/
def Readable (int : Text → Option ℤ) (e : Entry τ) : Prop :=
  e.isDir = true → (∀ x, e.metadata ≠ some (.error x)) ∧ (∀ x, e.placeholder ≠ some (.error x)) ∧ ∃ n, int e.name = some n

/-- The entries are gone through in order: the first one which is finished, reserved or outdated decides. -/
theorem scanEntries_spec {int : Text → Option ℤ} {h : ℤ} {contents : Text} {target : τ} {es : List (Entry τ)}
    (hr : ∀ e ∈ es, Readable int e) :
    (scanEntries int h contents target es = .ok none ∧
      ∀ e ∈ es, ¬ Finished h contents target e ∧ ¬ Reserved target e ∧ ¬ Outdated h contents e) ∨
    (∃ pre e post, es = pre ++ e :: post ∧
      (∀ x ∈ pre, ¬ Finished h contents target x ∧ ¬ Reserved target x ∧ ¬ Outdated h contents x) ∧
      ((Outdated h contents e ∧ scanEntries int h contents target es = .error .typeError) ∨
       ((Finished h contents target e ∨ Reserved target e) ∧ ∃ n, int e.name = some n ∧
         scanEntries int h contents target es = .ok (some n)))) := by
  induction es with
  | nil => exact .inl ⟨rfl, by simp⟩
  | cons e es ih =>
    have ih := ih (fun x hx => hr x (List.mem_cons_of_mem _ hx))
    suffices H : (scanEntries int h contents target (e :: es) = scanEntries int h contents target es ∧
        ¬ Finished h contents target e ∧ ¬ Reserved target e ∧ ¬ Outdated h contents e) ∨
        ((Outdated h contents e ∧ scanEntries int h contents target (e :: es) = .error .typeError) ∨
          ((Finished h contents target e ∨ Reserved target e) ∧ ∃ n, int e.name = some n ∧
            scanEntries int h contents target (e :: es) = .ok (some n))) by
      rcases H with ⟨hs, hn⟩ | H
      swap
      · exact .inr ⟨[], e, es, rfl, by simp, H⟩
      rcases ih with ⟨h1, h2⟩ | ⟨pre, x, post, h1, h2, h3⟩
      · left
        refine ⟨hs.trans h1, fun y hy => ?_⟩
        rcases List.mem_cons.1 hy with rfl | hy
        · exact hn
        · exact h2 y hy
      · right
        refine ⟨e :: pre, x, post, by rw [h1]; rfl, fun y hy => ?_, by rw [hs]; exact h3⟩
        rcases List.mem_cons.1 hy with rfl | hy
        · exact hn
        · exact h2 y hy
    by_cases hd : e.isDir = false
    · refine .inl ⟨?_, fun hf => ?_, fun hf => ?_, fun hf => ?_⟩
      · simp only [scanEntries, hd, if_true]
      all_goals exact absurd hf.1 (by simp [hd])
    · have hd' : e.isDir = true := by simpa using hd
      obtain ⟨r1, r2, n, hn⟩ := hr e (by simp) hd'
      cases hm : e.metadata with
      | none =>
        cases hp : e.placeholder with
        | none =>
          refine .inl ⟨?_, fun ⟨_, m, hf, _⟩ => ?_, fun ⟨_, _, hf⟩ => ?_, fun ⟨_, m, hf, _⟩ => ?_⟩
          · simp only [scanEntries, hd', hm, hp]; rfl
          · rw [hm] at hf; cases hf
          · rw [hp] at hf; cases hf
          · rw [hm] at hf; cases hf
        | some p =>
          cases p with
          | error x => exact absurd hp (r2 x)
          | ok p =>
            by_cases hpt : p = target
            · right
              refine .inr ⟨.inr ⟨hd', hm, by rw [hp, hpt]⟩, n, hn, ?_⟩
              simp only [scanEntries, hd', hm, hp, hpt, if_true, hn]; rfl
            · refine .inl ⟨?_, fun ⟨_, m, hf, _⟩ => ?_, fun ⟨_, _, hf⟩ => ?_, fun ⟨_, m, hf, _⟩ => ?_⟩
              · simp only [scanEntries, hd', hm, hp, if_neg hpt]; rfl
              · rw [hm] at hf; cases hf
              · rw [hp] at hf; injection hf with hf; injection hf with hf; exact hpt hf
              · rw [hm] at hf; cases hf
      | some m =>
        cases m with
        | error x => exact absurd hm (r1 x)
        | ok m =>
          by_cases h1 : m.settingsHash = h
          · by_cases h2 : m.contentsHash = contents
            · by_cases h3 : m.target = target
              · right
                refine .inr ⟨.inl ⟨hd', m, hm, h1, h2, h3⟩, n, hn, ?_⟩
                simp [scanEntries, hd', hm, h1, h2, h3, hn]
              · refine .inl ⟨?_, fun ⟨_, m', hf, _, _, h3'⟩ => ?_, fun ⟨_, hf, _⟩ => ?_, fun ⟨_, m', hf, _, h2'⟩ => ?_⟩
                · simp [scanEntries, hd', hm, h1, h2, h3]
                · rw [hm] at hf; injection hf with hf; injection hf with hf; subst hf; exact h3 h3'
                · rw [hm] at hf; cases hf
                · rw [hm] at hf; injection hf with hf; injection hf with hf; subst hf; exact h2' h2
            · right
              refine .inl ⟨⟨hd', m, hm, h1, h2⟩, ?_⟩
              simp [scanEntries, hd', hm, h1, h2]
          · refine .inl ⟨?_, fun ⟨_, m', hf, h1', _⟩ => ?_, fun ⟨_, hf, _⟩ => ?_, fun ⟨_, m', hf, h1', _⟩ => ?_⟩
            · simp [scanEntries, hd', hm, h1]
            · rw [hm] at hf; injection hf with hf; injection hf with hf; subst hf; exact h1 h1'
            · rw [hm] at hf; cases hf
            · rw [hm] at hf; injection hf with hf; injection hf with hf; subst hf; exact h1 h1'

/-- The hash of the image as it is: the one kept in the folder of outputs if there is one, else that of the source. -/
def Image.current (i : Image) : Text :=
  match i.hashFile with
  | some kept => kept
  | none => i.calculated

theorem current_eq (i : Image) : i.contentsHash = i.current := by
  unfold Image.contentsHash Image.current
  cases i.hashFile <;> rfl

/-- C44, soundness, for every folder (readable or not): a returned id is the number of an entry which was finished
with the same settings hash and contents hash for the same target, or is reserved for the same target. -/
theorem C44_sound {int : Text → Option ℤ} {image : Image} {sh : Except Err ℤ} {entries : Option (List (Entry τ))} {target : τ} {n : ℤ}
    (h : getTarget int image sh entries target = .ok (some n)) :
    image.source = true ∧ ∃ es hash, entries = some es ∧ sh = .ok hash ∧
      ∃ e ∈ es, int e.name = some n ∧ (Finished hash image.current target e ∨ Reserved target e) := by
  simp only [← current_eq]
  unfold getTarget at h
  split at h
  · cases h
  · rename_i hs
    refine ⟨by simpa using hs, ?_⟩
    cases entries with
    | none => cases h
    | some es =>
      cases sh with
      | error x => cases h
      | ok hash =>
        refine ⟨es, hash, rfl, rfl, ?_⟩
        simp only at h
        induction es with
        | nil => cases h
        | cons e es ih =>
          have rest : scanEntries int hash image.contentsHash target es = .ok (some n) →
              ∃ x ∈ e :: es, int x.name = some n ∧ (Finished hash image.contentsHash target x ∨ Reserved target x) := fun hh => by
            obtain ⟨x, hx, h1, h2⟩ := ih hh
            exact ⟨x, List.mem_cons_of_mem _ hx, h1, h2⟩
          have here : (match int e.name with
              | none => (.error .valueError : Except Err (Option ℤ))
              | some n => .ok (some n)) = .ok (some n) → int e.name = some n := by
            intro hh
            cases hi : int e.name with
            | none => rw [hi] at hh; cases hh
            | some k => rw [hi] at hh; simp at hh; rw [hh]
          simp only [scanEntries] at h
          split at h
          · exact rest h
          · rename_i hd
            have hd : e.isDir = true := by simpa using hd
            split at h
            · rename_i hm
              split at h
              · exact rest h
              · cases h
              · rename_i p hp
                split at h
                · rename_i hpt
                  exact ⟨e, by simp, here h, .inr ⟨hd, hm, by rw [hp, hpt]⟩⟩
                · exact rest h
            · cases h
            · rename_i m hm
              split at h
              · exact rest h
              · rename_i h1
                split at h
                · cases h
                · rename_i h2
                  split at h
                  · exact rest h
                  · rename_i h3
                    exact ⟨e, by simp, here h, .inl ⟨hd, m, hm, by simpa using h1, by simpa using h2, by simpa using h3⟩⟩

/-- C44, completeness, in part: without outdated entries, a finished or reserved target is found, and `None` is
returned only if there is none.  With an outdated entry before it the search ends in a TypeError (`C44_false`),
where the property asks for no match. -/
theorem C44_complete_partial {int : Text → Option ℤ} {image : Image} {hash : ℤ} {es : List (Entry τ)} {target : τ}
    (hs : image.source = true) (hr : ∀ e ∈ es, Readable int e) (ho : ∀ e ∈ es, ¬ Outdated hash image.current e) :
    ((∃ e ∈ es, Finished hash image.current target e ∨ Reserved target e) →
      ∃ n, getTarget int image (.ok hash) (some es) target = .ok (some n)) ∧
    ((¬ ∃ e ∈ es, Finished hash image.current target e ∨ Reserved target e) →
      getTarget int image (.ok hash) (some es) target = .ok none) := by
  simp only [← current_eq] at *
  have hg : getTarget int image (.ok hash) (some es) target = scanEntries int hash image.contentsHash target es := by
    simp [getTarget, hs]
  rw [hg]
  rcases scanEntries_spec (h := hash) (contents := image.contentsHash) (target := target) hr with ⟨h1, h2⟩ | ⟨pre, e, post, h1, _, h3⟩
  · refine ⟨fun ⟨e, he, hf⟩ => ?_, fun _ => h1⟩
    rcases hf with hf | hf
    · exact absurd hf (h2 e he).1
    · exact absurd hf (h2 e he).2.1
  · rcases h3 with ⟨h3, _⟩ | ⟨h3, n, _, h4⟩
    · exact absurd h3 (ho e (by rw [h1]; simp))
    · exact ⟨fun _ => ⟨n, h4⟩, fun hn => absurd ⟨e, by rw [h1]; simp, h3⟩ hn⟩

/-- C44 with outdated entries: the search fails with a TypeError exactly if an outdated entry comes before every
finished or reserved one. -/
theorem C44_outdated {int : Text → Option ℤ} {image : Image} {hash : ℤ} {es : List (Entry τ)} {target : τ}
    (hs : image.source = true) (hr : ∀ e ∈ es, Readable int e) :
    getTarget int image (.ok hash) (some es) target = .error .typeError ↔
      ∃ pre e post, es = pre ++ e :: post ∧ Outdated hash image.current e ∧
        ∀ x ∈ pre, ¬ Finished hash image.current target x ∧ ¬ Reserved target x := by
  simp only [← current_eq]
  have hg : getTarget int image (.ok hash) (some es) target = scanEntries int hash image.contentsHash target es := by
    simp [getTarget, hs]
  rw [hg]
  rcases scanEntries_spec (h := hash) (contents := image.contentsHash) (target := target) hr with ⟨h1, h2⟩ | ⟨pre, e, post, h1, h2, h3⟩
  · rw [h1]
    refine ⟨fun h => (by cases h), fun ⟨pre, e, post, he, ho, _⟩ => absurd ho (h2 e (by rw [he]; simp)).2.2⟩
  · rcases h3 with ⟨h3, h4⟩ | ⟨h3, n, _, h4⟩
    · exact ⟨fun _ => ⟨pre, e, post, h1, h3, fun x hx => ⟨(h2 x hx).1, (h2 x hx).2.1⟩⟩, fun _ => h4⟩
    · rw [h4]
      refine ⟨fun h => (by cases h), fun ⟨pre', e', post', he', ho', hp'⟩ => ?_⟩
      exfalso
      rw [h1] at he'
      rcases List.append_eq_append_iff.1 he' with ⟨as, ha, hb⟩ | ⟨bs, ha, hb⟩
      · cases as with
        | nil =>
          simp only [List.nil_append, List.cons.injEq] at hb
          obtain ⟨rfl, _⟩ := hb
          rcases h3 with ⟨_, m, hm, _, hc, _⟩ | ⟨_, hm, _⟩
          · obtain ⟨_, m', hm', _, hc'⟩ := ho'
            rw [hm] at hm'; injection hm' with hm'; injection hm' with hm'; subst hm'; exact hc' hc
          · obtain ⟨_, m', hm', _⟩ := ho'
            rw [hm] at hm'; cases hm'
        | cons a as =>
          simp only [List.cons_append, List.cons.injEq] at hb
          obtain ⟨rfl, _⟩ := hb
          have := hp' e (by rw [ha]; simp)
          rcases h3 with h3 | h3
          · exact this.1 h3
          · exact this.2 h3
      · cases bs with
        | nil =>
          simp only [List.nil_append, List.cons.injEq] at hb
          obtain ⟨rfl, _⟩ := hb
          rcases h3 with ⟨_, m, hm, _, hc, _⟩ | ⟨_, hm, _⟩
          · obtain ⟨_, m', hm', _, hc'⟩ := ho'
            rw [hm] at hm'; injection hm' with hm'; injection hm' with hm'; subst hm'; exact hc' hc
          · obtain ⟨_, m', hm', _⟩ := ho'
            rw [hm] at hm'; cases hm'
        | cons a as =>
          simp only [List.cons_append, List.cons.injEq] at hb
          obtain ⟨rfl, _⟩ := hb
          exact (h2 e' (by rw [ha]; simp)).2.2 ho'

end

/-- A folder with a file, an entry made with other settings, a reservation for another target, and a match. -/
def demoEntries : List (Entry ℕ) :=
  [⟨[99], false, none, none⟩, ⟨[49], true, some (.ok ⟨4, [1], 7⟩), some (.ok 7)⟩, ⟨[50], true, none, some (.ok 8)⟩,
    ⟨[51], true, some (.ok ⟨5, [1], 7⟩), some (.ok 7)⟩]

/-- `int` for one digit. -/
def demoInt : Text → Option ℤ
  | [c] => if 48 ≤ c ∧ c ≤ 57 then some (c - 48) else none
  | _ => none

/-- The hypotheses of the theorems hold for the demo folder. -/
theorem C44_case : (∀ e ∈ demoEntries, Readable demoInt e) ∧ (∀ e ∈ demoEntries, ¬ Outdated 5 [1] e) ∧
    getTarget demoInt ⟨true, some [1], [9]⟩ (.ok 5) (some demoEntries) 7 = .ok (some 3) := by
  refine ⟨?_, ?_, rfl⟩
  · intro e he
    simp only [demoEntries, List.mem_cons, List.not_mem_nil, or_false] at he
    rcases he with rfl | rfl | rfl | rfl
    · intro h; cases h
    all_goals exact fun _ => ⟨by simp, by simp, _, rfl⟩
  · intro e he ⟨_, m, hm, h1, h2⟩
    simp only [demoEntries, List.mem_cons, List.not_mem_nil, or_false] at he
    rcases he with rfl | rfl | rfl | rfl
    · cases hm
    · injection hm with hm; injection hm with hm; subst hm; simp at h1
    · cases hm
    · injection hm with hm; injection hm with hm; subst hm; exact h2 rfl

/-- C44 is false as stated: after the image has changed, its finished targets are not skipped. -/
theorem C44_false : getTarget demoInt ⟨true, some [2], [2]⟩ (.ok 5) (some demoEntries) 7 = .error .typeError := rfl

end Verif.Img
