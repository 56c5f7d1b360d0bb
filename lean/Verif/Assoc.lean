/-!
Python dictionaries with keys of any type: items in the order in which their keys were first set.
-/

namespace Verif.Assoc

variable {K V : Type} [DecidableEq K]

/-- `d.get(k)` -/
def item (d : List (K × V)) (k : K) : Option V :=
  match d with
  | [] => none
  | (k', v) :: d => if k' = k then some v else item d k

/-- `d[k] = v` -/
def put (d : List (K × V)) (k : K) (v : V) : List (K × V) :=
  match d with
  | [] => [(k, v)]
  | (k', v') :: d => if k' = k then (k', v) :: d else (k', v') :: put d k v

/-- `dict(items)`: the last value of a key counts. -/
def ofList (items : List (K × V)) : List (K × V) := items.foldl (fun d p => put d p.1 p.2) []

/-- `d.keys()` -/
def keys (d : List (K × V)) : List K := d.map (·.1)

theorem get_put (d : List (K × V)) (k k' : K) (v : V) : item (put d k v) k' = if k' = k then some v else item d k' := by
  induction d with
  | nil =>
    simp only [put, item]
    by_cases h : k' = k
    · subst h; simp
    · rw [if_neg h, if_neg (fun e => h e.symm)]
  | cons p d ih =>
    obtain ⟨a, b⟩ := p
    simp only [put]
    by_cases h : a = k
    · subst h
      rw [if_pos rfl]
      simp only [item]
      by_cases h2 : a = k'
      · subst h2; simp
      · rw [if_neg h2, if_neg h2, if_neg (fun e => h2 e.symm)]
    · rw [if_neg h]
      simp only [item]
      by_cases h2 : a = k'
      · subst h2; rw [if_pos rfl, if_pos rfl, if_neg h]
      · rw [if_neg h2, if_neg h2, ih]

theorem keys_put (d : List (K × V)) (k : K) (v : V) :
    keys (put d k v) = if k ∈ keys d then keys d else keys d ++ [k] := by
  induction d with
  | nil => simp [put, keys]
  | cons p d ih =>
    obtain ⟨a, b⟩ := p
    simp only [put]
    by_cases h : a = k
    · subst h; simp [keys]
    · rw [if_neg h]
      simp only [keys, List.map_cons, List.mem_cons] at ih ⊢
      rw [ih]
      have : k ≠ a := fun e => h e.symm
      by_cases h2 : k ∈ d.map (·.1) <;> simp [h2, this]

theorem nodup_put {d : List (K × V)} (h : (keys d).Nodup) (k : K) (v : V) : (keys (put d k v)).Nodup := by
  rw [keys_put]
  split
  · exact h
  · next hk => rw [List.nodup_append]; exact ⟨h, by simp, fun a ha b hb => by
      rw [List.mem_singleton] at hb; subst hb; intro e; subst e; exact hk ha⟩

theorem mem_keys_put {d : List (K × V)} {k k' : K} {v : V} : k' ∈ keys (put d k v) ↔ k' = k ∨ k' ∈ keys d := by
  rw [keys_put]
  split
  · next h => constructor
              · exact .inr
              · rintro (rfl | h')
                · exact h
                · exact h'
  · simp [or_comm]

theorem get_none {d : List (K × V)} {k : K} : item d k = none ↔ k ∉ keys d := by
  induction d with
  | nil => simp [item, keys]
  | cons p d ih =>
    obtain ⟨a, b⟩ := p
    simp only [item, keys, List.map_cons, List.mem_cons] at ih ⊢
    by_cases h : a = k
    · subst h; simp
    · rw [if_neg h, ih]
      have : k ≠ a := fun e => h e.symm
      simp only [this, false_or]

theorem mem_of_get {d : List (K × V)} {k : K} {v : V} (h : item d k = some v) : (k, v) ∈ d := by
  induction d with
  | nil => simp [item] at h
  | cons p d ih =>
    obtain ⟨a, b⟩ := p
    simp only [item] at h
    split at h
    · next e => cases h; subst e; simp
    · exact List.mem_cons_of_mem _ (ih h)

theorem get_of_mem {d : List (K × V)} (hn : (keys d).Nodup) {k : K} {v : V} (h : (k, v) ∈ d) : item d k = some v := by
  induction d with
  | nil => simp at h
  | cons p d ih =>
    obtain ⟨a, b⟩ := p
    simp only [keys, List.map_cons, List.nodup_cons] at hn
    simp only [item]
    rcases List.mem_cons.1 h with h | h
    · cases h; simp
    · rw [if_neg]
      · exact ih hn.2 h
      · rintro rfl
        exact hn.1 (List.mem_map.2 ⟨_, h, rfl⟩)

/-- The value which the items give to a key, or the one it had before. -/
theorem get_foldl (items : List (K × V)) : ∀ (d : List (K × V)) (k : K),
    item (items.foldl (fun d p => put d p.1 p.2) d) k = (item items.reverse k).or (item d k) := by
  have app : ∀ (a b : List (K × V)) (k : K), item (a ++ b) k = (item a k).or (item b k) := by
    intro a b k
    induction a with
    | nil => simp [item]
    | cons p a ih =>
      simp only [List.cons_append, item]
      split
      · simp
      · exact ih
  induction items with
  | nil => intro d k; simp [item]
  | cons p items ih =>
    intro d k
    rw [List.foldl_cons, ih, get_put, List.reverse_cons, app]
    cases item items.reverse k with
    | some v => simp
    | none =>
      simp only [Option.none_or, item]
      by_cases h : p.1 = k
      · subst h; simp
      · rw [if_neg h, if_neg (fun e => h e.symm)]; simp

theorem get_append (a b : List (K × V)) (k : K) : item (a ++ b) k = (item a k).or (item b k) := by
  induction a with
  | nil => simp [item]
  | cons p a ih =>
    simp only [List.cons_append, item]
    split
    · simp
    · exact ih

theorem get_ofList (items : List (K × V)) (k : K) : item (ofList items) k = item items.reverse k := by
  rw [ofList, get_foldl]
  simp [item]

theorem nodup_foldl (items : List (K × V)) : ∀ {d : List (K × V)}, (keys d).Nodup →
    (keys (items.foldl (fun d p => put d p.1 p.2) d)).Nodup := by
  induction items with
  | nil => intro d h; exact h
  | cons p items ih => intro d h; exact ih (nodup_put h _ _)

theorem nodup_ofList (items : List (K × V)) : (keys (ofList items)).Nodup :=
  nodup_foldl items (by simp [keys])

theorem get_perm {a b : List (K × V)} (h : a.Perm b) (hn : (keys a).Nodup) (k : K) : item a k = item b k := by
  have hn' : (keys b).Nodup := (h.map (fun p : K × V => p.1)).nodup_iff.1 hn
  cases hb : item b k with
  | none =>
    rw [get_none] at hb ⊢
    exact fun hk => hb ((h.map (fun p : K × V => p.1)).mem_iff.1 hk)
  | some v => exact get_of_mem hn (h.mem_iff.2 (mem_of_get hb))

theorem get_reverse {a : List (K × V)} (hn : (keys a).Nodup) (k : K) : item a.reverse k = item a k :=
  (get_perm (List.reverse_perm a).symm hn k).symm

/-- A dictionary made of different keys is the list of its items. -/
theorem get_ofList_nodup {items : List (K × V)} (hn : (keys items).Nodup) (k : K) : item (ofList items) k = item items k := by
  rw [get_ofList, get_reverse hn]

theorem mem_keys_ofList {items : List (K × V)} {k : K} : k ∈ keys (ofList items) ↔ k ∈ keys items := by
  have h1 : k ∈ keys (ofList items) ↔ ¬ item (ofList items) k = none := by rw [get_none]; simp
  have h2 : k ∈ keys items ↔ ¬ item items.reverse k = none := by rw [get_none]; simp [keys]
  rw [h1, h2, get_ofList]

/-- `d.pop(k, None)` -/
def del (d : List (K × V)) (k : K) : List (K × V) := d.filter (fun p => p.1 ≠ k)

theorem get_del (d : List (K × V)) (k k' : K) : item (del d k) k' = if k' = k then none else item d k' := by
  induction d with
  | nil => simp [del, item]
  | cons p d ih =>
    obtain ⟨a, b⟩ := p
    unfold del at ih ⊢
    by_cases h : a = k
    · subst h
      rw [List.filter_cons_of_neg (by simp), ih]
      simp only [item]
      by_cases h2 : k' = a
      · rw [if_pos h2, if_pos h2]
      · rw [if_neg h2, if_neg h2, if_neg (fun e => h2 e.symm)]
    · rw [List.filter_cons_of_pos (by simp [h])]
      simp only [item]
      by_cases h2 : a = k'
      · subst h2; rw [if_pos rfl, if_neg h, if_pos rfl]
      · rw [if_neg h2, ih, if_neg h2]

theorem keys_del (d : List (K × V)) (k : K) : keys (del d k) = (keys d).filter (· ≠ k) := by
  unfold keys del
  rw [List.filter_map]
  rfl

theorem nodup_del {d : List (K × V)} (h : (keys d).Nodup) (k : K) : (keys (del d k)).Nodup := by
  rw [keys_del]; exact List.Pairwise.filter _ h

end Verif.Assoc
