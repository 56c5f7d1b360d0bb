import Verif.NestBook

/-!
What expanding the imports of a stylesheet means, independently of the way in which it is done, and the parts of the
proof which are about one rule.
-/

namespace Verif.Nest

open Verif.Reader Verif.Css Verif.Assoc

/-- Only whitespace. -/
def Blanks (ts : List Tok) : Prop := ∀ t ∈ ts, ∃ v, t = .whitespace v

/-- `y` is `x` without some of the whitespace at both ends. -/
def Trim (x y : List Tok) : Prop := ∃ u v, Blanks u ∧ Blanks v ∧ x = u ++ y ++ v

/-- `Expands env decls ts out`: every import comment of `ts` is replaced by the declarations of the rule which it names,
with the imports in them expanded, up to whitespace at their ends; everything else is kept.  `decls` gives the
declarations of the rules. -/
inductive Expands (env : Env) (decls : Ref → Option (List Tok)) : List Tok → List Tok → Prop
  | nil : Expands env decls [] []
  | keep {t ts out} : getImport env t = none → Expands env decls ts out → Expands env decls (t :: ts) (t :: out)
  | replace {t r body b b' ts out} : getImport env t = some r → decls r = some body → Expands env decls body b →
      Trim b b' → Expands env decls ts out → Expands env decls (t :: ts) (b' ++ out)

/-- Declarations without blocks in them. -/
def Flat (ts : List Tok) : Prop := ∀ t ∈ ts, t ≠ .leftCurly ∧ t ≠ .rightCurly ∧ t ≠ .eof

/-- Balanced brackets. -/
inductive Balanced : List Tok → Prop
  | nil : Balanced []
  | one {t ts} : t ≠ .leftCurly → t ≠ .rightCurly → t ≠ .eof → Balanced ts → Balanced (t :: ts)
  | block {a b} : Balanced a → Balanced b → Balanced (.leftCurly :: a ++ .rightCurly :: b)

/-- `Sheet env ts rules`: `ts` are the tokens of a stylesheet whose rules at the top level are `rules`, given by their
selectors and declarations.  It consists of whitespace, comments, at-rules with a block, and rules with flat
declarations. -/
inductive Sheet (env : Env) : List Tok → List (Text × List Tok) → Prop
  | eof : Sheet env [.eof] []
  | blank {v ts rules} : Sheet env ts rules → Sheet env (.whitespace v :: ts) rules
  | comment {v ts rules} : Sheet env ts rules → Sheet env (.comment v :: ts) rules
  | atRule {v pre block ts rules} : (∀ t ∈ pre, t ≠ .leftCurly ∧ t ≠ .eof ∧ t ≠ .semicolon) → Balanced block →
      Sheet env ts rules → Sheet env (.atKeyword v :: pre ++ .leftCurly :: block ++ .rightCurly :: ts) rules
  | rule {t pre body ts rules} : (∀ v, t ≠ .whitespace v) → (∀ v, t ≠ .comment v) → (∀ v, t ≠ .atKeyword v) → t ≠ .cdo →
      (∀ x ∈ t :: pre, x ≠ .leftCurly ∧ x ≠ .eof) → Flat body → Sheet env ts rules →
      Sheet env (t :: pre ++ .leftCurly :: body ++ .rightCurly :: ts) ((nameOf env (t :: pre), body) :: rules)

/-- The references in some tokens. -/
def Imports (env : Env) (ts : List Tok) (r : Ref) : Prop := ∃ t ∈ ts, getImport env t = some r

/-! ## Facts about the specification -/

theorem Blanks.nil : Blanks [] := by intro t h; simp at h

theorem Blanks.append {a b : List Tok} (ha : Blanks a) (hb : Blanks b) : Blanks (a ++ b) := by
  intro t h
  rcases List.mem_append.1 h with h | h
  · exact ha t h
  · exact hb t h

theorem Trim.refl (x : List Tok) : Trim x x := ⟨[], [], .nil, .nil, by simp⟩

theorem Trim.trans {x y z : List Tok} (h1 : Trim x y) (h2 : Trim y z) : Trim x z := by
  obtain ⟨u, v, hu, hv, rfl⟩ := h1
  obtain ⟨u', v', hu', hv', rfl⟩ := h2
  exact ⟨u ++ u', v' ++ v, hu.append hu', hv'.append hv, by simp⟩

variable {env : Env} {decls : Ref → Option (List Tok)}

theorem Expands.append {a b x y : List Tok} (ha : Expands env decls a x) (hb : Expands env decls b y) :
    Expands env decls (a ++ b) (x ++ y) := by
  induction ha with
  | nil => exact hb
  | keep h _ ih => exact .keep h ih
  | replace h1 h2 h3 h4 _ _ ih => rw [List.cons_append, List.append_assoc]; exact .replace h1 h2 h3 h4 ih

theorem Expands.split {a b out : List Tok} (h : Expands env decls (a ++ b) out) :
    ∃ x y, out = x ++ y ∧ Expands env decls a x ∧ Expands env decls b y := by
  induction a generalizing out with
  | nil => exact ⟨[], out, rfl, .nil, h⟩
  | cons t a ih =>
    rw [List.cons_append] at h
    cases h with
    | keep h1 h2 =>
      obtain ⟨x, y, rfl, h3, h4⟩ := ih h2
      exact ⟨t :: x, y, rfl, .keep h1 h3, h4⟩
    | replace h1 h2 h3 h4 h5 =>
      obtain ⟨x, y, rfl, h6, h7⟩ := ih h5
      exact ⟨_, y, (List.append_assoc _ _ _).symm, .replace h1 h2 h3 h4 h6, h7⟩

/-- No imports. -/
def Pure (env : Env) (ts : List Tok) : Prop := ∀ t ∈ ts, getImport env t = none

theorem Expands.of_pure {ts : List Tok} (h : Pure env ts) : Expands env decls ts ts := by
  induction ts with
  | nil => exact .nil
  | cons t ts ih => exact .keep (h t (by simp)) (ih fun x hx => h x (by simp [hx]))

theorem Expands.eq_of_pure {ts out : List Tok} (h : Pure env ts) (he : Expands env decls ts out) : out = ts := by
  induction ts generalizing out with
  | nil => cases he; rfl
  | cons t ts ih =>
    have ht := h t (by simp)
    cases he with
    | keep h1 h2 => rw [ih (fun x hx => h x (by simp [hx])) h2]
    | replace h1 h2 h3 h4 h5 => rw [ht] at h1; cases h1

theorem Pure.append {a b : List Tok} (ha : Pure env a) (hb : Pure env b) : Pure env (a ++ b) := by
  intro t h
  rcases List.mem_append.1 h with h | h
  · exact ha t h
  · exact hb t h

theorem Flat.append {a b : List Tok} (ha : Flat a) (hb : Flat b) : Flat (a ++ b) := by
  intro t h
  rcases List.mem_append.1 h with h | h
  · exact ha t h
  · exact hb t h

theorem Blanks.pure {ts : List Tok} (h : Blanks ts) : Pure env ts := by
  intro t ht
  obtain ⟨v, rfl⟩ := h t ht
  rfl

theorem Imports.of_expands {ts out : List Tok} (h : Expands env decls ts out) {r : Ref} (hr : Imports env ts r) :
    ∃ body b, decls r = some body ∧ Expands env decls body b := by
  induction h with
  | nil => obtain ⟨t, h1, -⟩ := hr; simp at h1
  | keep h _ ih =>
    obtain ⟨t, h1, h2⟩ := hr
    rcases List.mem_cons.1 h1 with h3 | h3
    · subst h3; rw [h] at h2; cases h2
    · exact ih ⟨t, h3, h2⟩
  | replace h1 h2 h3 h4 _ _ ih =>
    obtain ⟨t, h5, h6⟩ := hr
    rcases List.mem_cons.1 h5 with h7 | h7
    · subst h7; rw [h1] at h6; cases h6; exact ⟨_, _, h2, h3⟩
    · exact ih ⟨t, h7, h6⟩

/-! ## Fuel -/

/-- With enough fuel the result is `res`. -/
def Ends {α : Type} (f : Nat → α) (res : α) : Prop := ∃ N, ∀ n, N ≤ n → f n = res

theorem Ends.const {α : Type} (a : α) : Ends (fun _ => a) a := ⟨0, fun _ _ => rfl⟩

theorem Ends.step {α : Type} {f g : Nat → α} {res : α} (h : ∀ n, f (n + 1) = g n) (hg : Ends g res) : Ends f res := by
  obtain ⟨N, hN⟩ := hg
  refine ⟨N + 1, fun n hn => ?_⟩
  obtain ⟨k, rfl⟩ : ∃ k, n = k + 1 := ⟨n - 1, by omega⟩
  rw [h]; exact hN k (by omega)

theorem Ends.bind {α β : Type} {f : Nat → α} {g : Nat → α → β} {a : α} {b : β} (hf : Ends f a)
    (hg : Ends (fun n => g n a) b) : Ends (fun n => g n (f n)) b := by
  obtain ⟨N, hN⟩ := hf
  obtain ⟨M, hM⟩ := hg
  refine ⟨max N M, fun n hn => ?_⟩
  simp only
  rw [hN n (by omega)]; exact hM n (by omega)

theorem Ends.unique {α : Type} {f : Nat → α} {a b : α} (ha : Ends f a) (hb : Ends f b) : a = b := by
  obtain ⟨N, hN⟩ := ha
  obtain ⟨M, hM⟩ := hb
  rw [← hN (max N M) (by omega), hM (max N M) (by omega)]

/-! ## Reading a rule -/

/-- What is known about the rules which are available. -/
def Sound (env : Env) (decls : Ref → Option (List Tok)) (avail : List (Ref × List Tok)) : Prop :=
  ∀ r b, item avail r = some b → Flat b ∧ Pure env b ∧ ∃ body b0, decls r = some body ∧ Expands env decls body b0 ∧ Trim b0 b

theorem mem_add {s : List Ref} {x y : Ref} : y ∈ add s x ↔ y ∈ s ∨ y = x := by
  unfold add
  split
  · next hw => constructor
               · exact .inl
               · rintro (h | rfl)
                 · exact h
                 · exact hw
  · simp

theorem nodup_add {s : List Ref} (h : s.Nodup) (x : Ref) : (add s x).Nodup := by
  unfold add
  split
  · exact h
  · next hx => rw [List.nodup_append]; exact ⟨h, by simp, fun a ha b hb => by
      rw [List.mem_singleton] at hb; subst hb; intro e; subst e; exact hx ha⟩

/-- What `takeBody` gives when it still has to read `rest`, for which it has `value` and `missing` so far. -/
structure BodyOk (env : Env) (decls : Ref → Option (List Tok)) (avail : List (Ref × List Tok))
    (rest body value : List Tok) (missing : List Ref) (value' : List Tok) (missing' : List Ref) : Prop where
  leads : ∀ out, Expands env decls value' out → ∃ u, Blanks u ∧ Expands env decls (value ++ rest) (u ++ out)
  flat : Flat value → Flat value'
  nodup : missing.Nodup → missing'.Nodup
  unavail : (∀ m ∈ missing, item avail m = none) → ∀ m ∈ missing', item avail m = none
  from_ : ∀ m ∈ missing', m ∈ missing ∨ Imports env body m
  imports : (∀ m, Imports env value m → m ∈ missing) → ∀ m, Imports env value' m → m ∈ missing'

theorem blank_iff {t : Tok} : isBlank t = true ↔ ∃ v, t = .whitespace v := by
  cases t <;> simp [isBlank]

theorem takeBody_spec (hs : Sound env decls avail) (g : List Tok) : ∀ (body : List Tok), Flat body →
    ∀ (stack value : List Tok) (missing : List Ref), Flat stack → Pure env stack →
    ∃ value' missing', Ends (fun n => takeBody env avail n stack value missing (body ++ .rightCurly :: g))
        (.ok (value', missing', g)) ∧
      BodyOk env decls avail (stack ++ body) body value missing value' missing' := by
  intro body
  induction body with
  | nil =>
    intro _ stack
    induction stack with
    | nil =>
      intro value missing _ _
      refine ⟨value, missing, Ends.step (g := fun _ => .ok (value, missing, g)) (fun n => ?_) (.const _), ?_⟩
      · simp [takeBody, popTok, isBlank, getImport]
      · exact ⟨fun out h => ⟨[], .nil, by simpa using h⟩, id, id, id, fun m h => .inl h, id⟩
    | cons t stack ih =>
      intro value missing hf hp
      have hf' : Flat stack := fun x hx => hf x (by simp [hx])
      have hp' : Pure env stack := fun x hx => hp x (by simp [hx])
      have ht := hf t (by simp)
      have hti := hp t (by simp)
      by_cases hb : value = [] ∧ isBlank t
      · obtain ⟨value', missing', h1, h2⟩ := ih value missing hf' hp'
        refine ⟨value', missing', Ends.step (fun n => ?_) h1, ?_⟩
        · simp [takeBody, popTok, hb]
        · refine ⟨fun out h => ?_, h2.flat, h2.nodup, h2.unavail, h2.from_, h2.imports⟩
          obtain ⟨u, hu, h3⟩ := h2.leads out h
          rw [hb.1] at h3 ⊢
          obtain ⟨v, rfl⟩ := blank_iff.1 hb.2
          exact ⟨.whitespace v :: u, fun x hx => by
            rcases List.mem_cons.1 hx with h | h
            · exact ⟨v, h⟩
            · exact hu x h, .keep rfl h3⟩
      · obtain ⟨value', missing', h1, h2⟩ := ih (value ++ [t]) missing hf' hp'
        refine ⟨value', missing', Ends.step (fun n => ?_) h1, ?_⟩
        · simp only [takeBody, popTok, if_neg hb, hti, if_neg ht.1, if_neg ht.2.1, if_neg ht.2.2]
        · refine ⟨fun out h => ?_, fun h => h2.flat (h.append (by simpa [Flat] using ht)), h2.nodup, h2.unavail, h2.from_,
            fun h => h2.imports fun m hm => ?_⟩
          · have := h2.leads out h
            simpa using this
          · obtain ⟨x, h3, h4⟩ := hm
            rcases List.mem_append.1 h3 with h5 | h5
            · exact h m ⟨x, h5, h4⟩
            · rw [List.mem_singleton] at h5; subst h5; rw [hti] at h4; cases h4
  | cons t body ihb =>
    intro hfb stack
    have ihb := ihb (fun x hx => hfb x (by simp [hx]))
    have hft := hfb t (by simp)
    have up : ∀ m, Imports env body m → Imports env (t :: body) m := fun m ⟨x, h1, h2⟩ => ⟨x, by simp [h1], h2⟩
    induction stack with
    | nil =>
      intro value missing _ _
      rw [List.nil_append]
      by_cases hb : value = [] ∧ isBlank t
      · obtain ⟨value', missing', h1, h2⟩ := ihb [] value missing (by simp [Flat]) (by simp [Pure])
        refine ⟨value', missing', Ends.step (fun n => ?_) h1, ?_⟩
        · simp [takeBody, popTok, hb]
        · refine ⟨fun out h => ?_, h2.flat, h2.nodup, h2.unavail, fun m h => (h2.from_ m h).imp id (up m), h2.imports⟩
          obtain ⟨u, hu, h3⟩ := h2.leads out h
          rw [hb.1] at h3 ⊢
          obtain ⟨v, rfl⟩ := blank_iff.1 hb.2
          exact ⟨.whitespace v :: u, fun x hx => by
            rcases List.mem_cons.1 hx with h | h
            · exact ⟨v, h⟩
            · exact hu x h, .keep rfl h3⟩
      · cases hti : getImport env t with
        | none =>
          obtain ⟨value', missing', h1, h2⟩ := ihb [] (value ++ [t]) missing (by simp [Flat]) (by simp [Pure])
          refine ⟨value', missing', Ends.step (fun n => ?_) h1, ?_⟩
          · simp only [List.cons_append, takeBody, popTok, if_neg hb, hti, if_neg hft.1, if_neg hft.2.1, if_neg hft.2.2]
          · refine ⟨fun out h => ?_, fun h => h2.flat (h.append (by simpa [Flat] using hft)), h2.nodup, h2.unavail,
              fun m h => (h2.from_ m h).imp id (up m), fun h => h2.imports fun m hm => ?_⟩
            · have := h2.leads out h
              simpa using this
            · obtain ⟨x, h3, h4⟩ := hm
              rcases List.mem_append.1 h3 with h5 | h5
              · exact h m ⟨x, h5, h4⟩
              · rw [List.mem_singleton] at h5; subst h5; rw [hti] at h4; cases h4
        | some r =>
          cases ha : item avail r with
          | some b =>
            obtain ⟨hbf, hbp, body0, b0, hd, he, htr⟩ := hs r b ha
            obtain ⟨value', missing', h1, h2⟩ := ihb b value missing hbf hbp
            refine ⟨value', missing', Ends.step (fun n => ?_) h1, ?_⟩
            · simp only [List.cons_append, takeBody, popTok, if_neg hb, hti, ha, List.append_nil]
            · refine ⟨fun out h => ?_, h2.flat, h2.nodup, h2.unavail, fun m h => (h2.from_ m h).imp id (up m), h2.imports⟩
              obtain ⟨u, hu, h3⟩ := h2.leads out h
              obtain ⟨x, y, hxy, h4, h5⟩ := h3.split
              obtain ⟨z, w, rfl, h6, h7⟩ := h5.split
              obtain rfl := Expands.eq_of_pure hbp h6
              exact ⟨u, hu, by rw [hxy]; exact h4.append (.replace hti hd he htr h7)⟩
          | none =>
            obtain ⟨value', missing', h1, h2⟩ := ihb [] (value ++ [t]) (add missing r) (by simp [Flat]) (by simp [Pure])
            refine ⟨value', missing', Ends.step (fun n => ?_) h1, ?_⟩
            · simp only [List.cons_append, takeBody, popTok, if_neg hb, hti, ha]
            · refine ⟨fun out h => ?_, fun h => h2.flat (h.append (by simpa [Flat] using hft)),
                fun h => h2.nodup (nodup_add h r), fun h => h2.unavail fun m hm => ?_,
                fun m h => ?_, fun h => h2.imports fun m hm => ?_⟩
              · have := h2.leads out h
                simpa using this
              · rcases mem_add.1 hm with h3 | h3
                · exact h m h3
                · subst h3; exact ha
              · rcases h2.from_ m h with h3 | h3
                · rcases mem_add.1 h3 with h4 | h4
                  · exact .inl h4
                  · subst h4; exact .inr ⟨t, by simp, hti⟩
                · exact .inr (up m h3)
              · obtain ⟨x, h3, h4⟩ := hm
                rw [mem_add]
                rcases List.mem_append.1 h3 with h5 | h5
                · exact .inl (h m ⟨x, h5, h4⟩)
                · rw [List.mem_singleton] at h5; subst h5; rw [hti] at h4; cases h4; exact .inr rfl
    | cons s stack ih =>
      intro value missing hf hp
      have hf' : Flat stack := fun x hx => hf x (by simp [hx])
      have hp' : Pure env stack := fun x hx => hp x (by simp [hx])
      have ht := hf s (by simp)
      have hti := hp s (by simp)
      by_cases hb : value = [] ∧ isBlank s
      · obtain ⟨value', missing', h1, h2⟩ := ih value missing hf' hp'
        refine ⟨value', missing', Ends.step (fun n => ?_) h1, ?_⟩
        · simp [takeBody, popTok, hb]
        · refine ⟨fun out h => ?_, h2.flat, h2.nodup, h2.unavail, h2.from_, h2.imports⟩
          obtain ⟨u, hu, h3⟩ := h2.leads out h
          rw [hb.1] at h3 ⊢
          obtain ⟨v, rfl⟩ := blank_iff.1 hb.2
          exact ⟨.whitespace v :: u, fun x hx => by
            rcases List.mem_cons.1 hx with h | h
            · exact ⟨v, h⟩
            · exact hu x h, .keep rfl h3⟩
      · obtain ⟨value', missing', h1, h2⟩ := ih (value ++ [s]) missing hf' hp'
        refine ⟨value', missing', Ends.step (fun n => ?_) h1, ?_⟩
        · simp only [takeBody, popTok, if_neg hb, hti, if_neg ht.1, if_neg ht.2.1, if_neg ht.2.2]
        · refine ⟨fun out h => ?_, fun h => h2.flat (h.append (by simpa [Flat] using ht)), h2.nodup, h2.unavail, h2.from_,
            fun h => h2.imports fun m hm => ?_⟩
          · have := h2.leads out h
            simpa using this
          · obtain ⟨x, h3, h4⟩ := hm
            rcases List.mem_append.1 h3 with h5 | h5
            · exact h m ⟨x, h5, h4⟩
            · rw [List.mem_singleton] at h5; subst h5; rw [hti] at h4; cases h4

theorem popBlank_spec (value : List Tok) : ∃ w, Blanks w ∧ value = popBlank value ++ w := by
  refine ⟨(value.reverse.takeWhile isBlank).reverse, ?_, ?_⟩
  · intro t ht
    rw [List.mem_reverse] at ht
    have := List.all_takeWhile (p := isBlank) (l := value.reverse)
    exact blank_iff.1 (List.all_eq_true.1 this t ht)
  · unfold popBlank
    rw [← List.reverse_append, List.takeWhile_append_dropWhile, List.reverse_reverse]

/-! ## Resolving a rule -/

theorem expand_pure (avail : List (Ref × List Tok)) {pre : List Tok} (h : Pure env pre) (stack nodes : List Tok) (res : Except Err (List Tok))
    (he : Ends (fun n => expand env avail n stack (nodes ++ pre)) res) :
    Ends (fun n => expand env avail n (pre ++ stack) nodes) res := by
  induction pre generalizing nodes with
  | nil => simpa using he
  | cons t pre ih =>
    refine Ends.step (fun n => ?_) (ih (fun x hx => h x (by simp [hx])) (nodes ++ [t]) (by simpa using he))
    rw [List.cons_append]
    simp only [expand, h t (by simp)]

theorem expand_spec (hs : Sound env decls avail) : ∀ (block nodes : List Tok), Flat block →
    (∀ m, Imports env block m → (item avail m).isSome) →
    ∃ out, Ends (fun n => expand env avail n block nodes) (.ok (nodes ++ out)) ∧ Expands env decls block out ∧ Flat out ∧ Pure env out := by
  intro block
  induction block with
  | nil =>
    intro nodes _ _
    refine ⟨[], Ends.step (g := fun _ => .ok nodes) (fun n => ?_) (by simpa using Ends.const (Except.ok nodes)), .nil, by simp [Flat], by simp [Pure]⟩
    rfl
  | cons t block ih =>
    intro nodes hf hi
    have hf' : Flat block := fun x hx => hf x (by simp [hx])
    have hi' : ∀ m, Imports env block m → (item avail m).isSome := fun m ⟨x, h1, h2⟩ => hi m ⟨x, by simp [h1], h2⟩
    cases hti : getImport env t with
    | none =>
      obtain ⟨out, h1, h2, h3, h4⟩ := ih (nodes ++ [t]) hf' hi'
      refine ⟨t :: out, Ends.step (fun n => ?_) (by simpa using h1), .keep hti h2, ?_, ?_⟩
      · simp only [expand, hti]
      · intro x hx
        rcases List.mem_cons.1 hx with h | h
        · rw [h]; exact hf t (by simp)
        · exact h3 x h
      · intro x hx
        rcases List.mem_cons.1 hx with h | h
        · rw [h]; exact hti
        · exact h4 x h
    | some r =>
      have ha := hi r ⟨t, by simp, hti⟩
      cases hb : item avail r with
      | none => rw [hb] at ha; cases ha
      | some b =>
        obtain ⟨hbf, hbp, body0, b0, hd, he, htr⟩ := hs r b hb
        obtain ⟨out, h1, h2, h3, h4⟩ := ih (nodes ++ b) hf' hi'
        refine ⟨b ++ out, Ends.step (g := fun n => expand env avail n (b ++ block) nodes) (fun n => ?_)
          (expand_pure avail hbp _ _ _ (by simpa using h1)), .replace hti hd he htr h2, hbf.append h3, hbp.append h4⟩
        simp only [expand, hti, hb]

end Verif.Nest
