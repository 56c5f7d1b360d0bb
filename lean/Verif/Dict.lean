/-!
# Insertion-ordered string dictionaries

Python `dict` with string keys: a list of key/value pairs in insertion order.
`get?` finds the first pair, `set` overwrites in place or appends, `erase` deletes.
Python dicts never hold a key twice; `NodupKeys` states it and every operation keeps it.
-/
namespace Verif

/-- Python `Dict[str, α]` (insertion ordered). -/
abbrev Dict (α : Type) := List (String × α)

namespace Dict
variable {α : Type}

/-- `d.get(k)`. -/
def get? : Dict α → String → Option α
  | [], _ => none
  | (k', v) :: d, k => if k' = k then some v else get? d k

/-- `k in d`. -/
def has (d : Dict α) (k : String) : Bool := (get? d k).isSome

/-- `d[k] = v` (in place if present, appended otherwise). -/
def set : Dict α → String → α → Dict α
  | [], k, v => [(k, v)]
  | (k', v') :: d, k, v => if k' = k then (k', v) :: d else (k', v') :: set d k v

/-- `del d[k]` (no effect if absent; callers check first). -/
def erase : Dict α → String → Dict α
  | [], _ => []
  | (k', v') :: d, k => if k' = k then d else (k', v') :: erase d k

/-- `list(d.keys())`. -/
def keys (d : Dict α) : List String := d.map (·.1)

/-- No key occurs twice. -/
def NodupKeys (d : Dict α) : Prop := (keys d).Nodup

@[simp] theorem get?_nil (k : String) : get? ([] : Dict α) k = none := rfl
@[simp] theorem keys_nil : keys ([] : Dict α) = [] := rfl
@[simp] theorem keys_cons (p : String × α) (d : Dict α) : keys (p :: d) = p.1 :: keys d := rfl
@[simp] theorem nodupKeys_nil : NodupKeys ([] : Dict α) := by simp [NodupKeys]

theorem get?_isSome_iff (d : Dict α) (k : String) : (get? d k).isSome ↔ k ∈ keys d := by
  induction d with
  | nil => simp
  | cons p d ih =>
    obtain ⟨k', v⟩ := p
    simp only [get?, keys_cons, List.mem_cons]
    split
    · simp [*]
    · rename_i h; rw [ih]; simp [Ne.symm h]

theorem has_iff (d : Dict α) (k : String) : has d k = true ↔ k ∈ keys d := get?_isSome_iff d k

theorem get?_eq_none_iff (d : Dict α) (k : String) : get? d k = none ↔ k ∉ keys d := by
  rw [← get?_isSome_iff]; cases get? d k <;> simp

theorem mem_keys_of_get? {d : Dict α} {k : String} {v : α} (h : get? d k = some v) : k ∈ keys d := by
  rw [← get?_isSome_iff, h]; rfl

theorem get?_set (d : Dict α) (k k' : String) (v : α) :
    get? (set d k v) k' = if k = k' then some v else get? d k' := by
  induction d with
  | nil => simp [set, get?]
  | cons p d ih =>
    obtain ⟨q, w⟩ := p
    simp only [set]
    split
    · subst q; simp only [get?]; split <;> simp
    · rename_i h
      simp only [get?, ih]
      by_cases h1 : k = k'
      · subst h1; simp [h]
      · simp [h1]

@[simp] theorem get?_set_self (d : Dict α) (k : String) (v : α) : get? (set d k v) k = some v := by
  simp [get?_set]

theorem get?_set_ne (d : Dict α) {k k' : String} (v : α) (h : k ≠ k') :
    get? (set d k v) k' = get? d k' := by simp [get?_set, h]

theorem keys_set_of_mem {d : Dict α} {k : String} (v : α) (h : k ∈ keys d) :
    keys (set d k v) = keys d := by
  induction d with
  | nil => simp at h
  | cons p d ih =>
    obtain ⟨q, w⟩ := p
    simp only [set]
    split
    · simp
    · rename_i hq
      simp only [keys_cons, List.mem_cons] at h ⊢
      rw [ih (h.resolve_left (fun e => hq e.symm))]

theorem keys_set_of_not_mem {d : Dict α} {k : String} (v : α) (h : k ∉ keys d) :
    keys (set d k v) = keys d ++ [k] := by
  induction d with
  | nil => simp [set, keys]
  | cons p d ih =>
    obtain ⟨q, w⟩ := p
    simp only [keys_cons, List.mem_cons, not_or] at h
    simp only [set, if_neg (Ne.symm h.1), keys_cons, List.cons_append, ih h.2]

theorem mem_keys_set (d : Dict α) (k k' : String) (v : α) :
    k' ∈ keys (set d k v) ↔ k' = k ∨ k' ∈ keys d := by
  rw [← get?_isSome_iff, ← get?_isSome_iff, get?_set]
  by_cases h : k = k'
  · simp [h]
  · simp [h, Ne.symm h]

theorem NodupKeys.set {d : Dict α} (h : NodupKeys d) (k : String) (v : α) :
    NodupKeys (Dict.set d k v) := by
  unfold NodupKeys at *
  by_cases hk : k ∈ keys d
  · rw [keys_set_of_mem v hk]; exact h
  · rw [keys_set_of_not_mem v hk]
    rw [List.nodup_append]
    refine ⟨h, by simp, ?_⟩
    intro a ha b hb
    simp only [List.mem_singleton] at hb
    subst hb; rintro rfl; exact hk ha

theorem keys_erase_of_nodup {d : Dict α} (h : NodupKeys d) (k : String) :
    keys (erase d k) = (keys d).filter (· ≠ k) := by
  induction d with
  | nil => rfl
  | cons p d ih =>
    obtain ⟨q, w⟩ := p
    simp only [NodupKeys, keys_cons, List.nodup_cons] at h
    simp only [erase, keys_cons]
    split
    · subst q
      rw [List.filter_cons_of_neg (by simp)]
      symm; rw [List.filter_eq_self]
      intro a ha
      simp only [ne_eq, decide_not, Bool.not_eq_eq_eq_not, Bool.not_true, decide_eq_false_iff_not]
      rintro rfl; exact h.1 ha
    · rename_i hq
      rw [List.filter_cons_of_pos (by simpa using hq), keys_cons, ih h.2]

theorem NodupKeys.erase {d : Dict α} (h : NodupKeys d) (k : String) : NodupKeys (Dict.erase d k) := by
  unfold NodupKeys; rw [keys_erase_of_nodup h]; exact List.Pairwise.filter _ h

theorem get?_erase {d : Dict α} (h : NodupKeys d) (k k' : String) :
    get? (erase d k) k' = if k = k' then none else get? d k' := by
  induction d with
  | nil => simp [erase]
  | cons p d ih =>
    obtain ⟨q, w⟩ := p
    simp only [NodupKeys, keys_cons, List.nodup_cons] at h
    simp only [erase]
    by_cases hq : q = k
    · subst hq
      rw [if_pos rfl]
      by_cases h1 : q = k'
      · subst h1; rw [if_pos rfl]; exact (get?_eq_none_iff _ _).2 h.1
      · simp [get?, h1]
    · rw [if_neg hq]
      by_cases h2 : q = k'
      · subst h2; simp [get?, Ne.symm hq]
      · simp [get?, h2, ih h.2]

theorem get?_of_mem {d : Dict α} (h : NodupKeys d) {k : String} {v : α} (hm : (k, v) ∈ d) :
    get? d k = some v := by
  induction d with
  | nil => simp at hm
  | cons p d ih =>
    obtain ⟨q, w⟩ := p
    simp only [NodupKeys, keys_cons, List.nodup_cons] at h
    rcases List.mem_cons.1 hm with e | hm
    · cases e; simp [get?]
    · have hk : k ∈ keys d := List.mem_map.2 ⟨(k, v), hm, rfl⟩
      have : q ≠ k := by rintro rfl; exact h.1 hk
      simp [get?, this, ih h.2 hm]

theorem mem_of_get? {d : Dict α} {k : String} {v : α} (h : get? d k = some v) : (k, v) ∈ d := by
  induction d with
  | nil => simp at h
  | cons p d ih =>
    obtain ⟨q, w⟩ := p
    simp only [get?] at h
    split at h
    · cases h; subst q; simp
    · exact List.mem_cons_of_mem _ (ih h)

/-- Two dictionaries with the same keys in the same order and the same lookups are equal. -/
theorem ext_of_keys {d e : Dict α} (hd : NodupKeys d) (hk : keys d = keys e)
    (h : ∀ k, get? d k = get? e k) : d = e := by
  induction d generalizing e with
  | nil => cases e with
    | nil => rfl
    | cons p e => simp at hk
  | cons p d ih =>
    cases e with
    | nil => simp at hk
    | cons p' e =>
      obtain ⟨q, w⟩ := p; obtain ⟨q', w'⟩ := p'
      simp only [keys_cons, List.cons.injEq] at hk
      obtain ⟨rfl, hk⟩ := hk
      have h0 := h q
      simp only [get?, if_true, Option.some.injEq] at h0
      subst h0
      simp only [NodupKeys, keys_cons, List.nodup_cons] at hd
      congr 1
      apply ih hd.2 hk
      intro k
      by_cases hq : q = k
      · subst hq
        rw [(get?_eq_none_iff _ _).2 hd.1, (get?_eq_none_iff _ _).2 (hk ▸ hd.1)]
      · have := h k; simpa [get?, hq] using this

end Dict
end Verif
