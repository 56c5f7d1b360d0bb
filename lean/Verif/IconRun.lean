import Verif.IconSpec

/-!
# Proofs about icon commands (C52)
-/

namespace Verif.Icons

open Verif.Reader (Text txt substitute)
open Verif.Css (Uni Tok)
open Verif.Assoc
open Verif.Nest (Sp after_iff dropWhile_sp dropWhile_head)
open Verif.Paths (join isAbs)
open Verif.Handlers (Bytes Fs Scan Built hashBuild hashTarget hashTarget_out outWww)

/-! ## The command -/

theorem iconArgs_iff {space : Nat → Bool} (h1 : space 33 = false) (h2 : space 80 = false) (h3 : space 58 = false) (h4 : space 105 = false)
    (v a : Text) : iconArgs space v = some a ↔ IsIcon space v a := by
  have e1 : txt "!" = [33] := by decide
  have e2 : txt "PREPROCESSOR" = [80, 82, 69, 80, 82, 79, 67, 69, 83, 83, 79, 82] := by decide
  have e3 : txt ":" = [58] := by decide
  have e4 : txt "icon" = [105, 99, 111, 110] := by decide
  have a1 : ∀ s r, Nest.after (txt "!") (s.dropWhile space) = some r ↔ ∃ w, Sp space w ∧ s = w ++ txt "!" ++ r :=
    fun s r => after_iff (by rw [e1]; simp) (by rw [e1]; simpa using h1)
  have a2 : ∀ s r, Nest.after (txt "PREPROCESSOR") (s.dropWhile space) = some r ↔ ∃ w, Sp space w ∧ s = w ++ txt "PREPROCESSOR" ++ r :=
    fun s r => after_iff (by rw [e2]; simp) (by rw [e2]; simpa using h2)
  have a3 : ∀ s r, Nest.after (txt ":") (s.dropWhile space) = some r ↔ ∃ w, Sp space w ∧ s = w ++ txt ":" ++ r :=
    fun s r => after_iff (by rw [e3]; simp) (by rw [e3]; simpa using h3)
  have a4 : ∀ s r, Nest.after (txt "icon") (s.dropWhile space) = some r ↔ ∃ w, Sp space w ∧ s = w ++ txt "icon" ++ r :=
    fun s r => after_iff (by rw [e4]; simp) (by rw [e4]; simpa using h4)
  have hd : ∀ s : Text, ((s.head?.map space).getD false = true) ↔ ∃ c, s.head? = some c ∧ space c = true := by
    intro s; cases s <;> simp
  have hsp : ∀ (w r : Text), w ≠ [] → Sp space w → ∃ c, (w ++ r).head? = some c ∧ space c = true := by
    intro w r hne hw
    cases w with
    | nil => exact absurd rfl hne
    | cons c w => exact ⟨c, rfl, hw c (by simp)⟩
  unfold iconArgs IsIcon
  simp only [Option.bind_eq_some_iff, a1, a2, a3]
  constructor
  · rintro ⟨s1, ⟨w1, hw1, rfl⟩, s2, ⟨w2, hw2, rfl⟩, s3, ⟨w3, hw3, rfl⟩, h⟩
    split at h
    · next hs3 =>
      simp only [Option.bind_eq_some_iff, a4] at h
      obtain ⟨s4, ⟨w4, hw4, rfl⟩, h⟩ := h
      split at h
      · next hs4 =>
        cases h
        refine ⟨w1, w2, w3, w4, s4.takeWhile space, hw1, hw2, hw3, hw4, fun c hc => List.all_eq_true.1 List.all_takeWhile c hc, ?_, ?_,
          dropWhile_head s4, ?_⟩
        · rintro rfl
          obtain ⟨c, hc, hcs⟩ := (hd _).1 hs3
          rw [e4] at hc
          simp only [List.nil_append, List.cons_append, List.head?_cons, Option.some.injEq] at hc
          subst hc; rw [h4] at hcs; cases hcs
        · intro hnil
          obtain ⟨c, hc, hcs⟩ := (hd _).1 hs4
          cases s4 with
          | nil => simp at hc
          | cons x s4 =>
            simp only [List.head?_cons, Option.some.injEq] at hc
            subst hc
            rw [List.takeWhile_cons_of_pos hcs] at hnil
            cases hnil
        · simp only [List.append_assoc, List.takeWhile_append_dropWhile]
      · cases h
    · cases h
  · rintro ⟨w1, w2, w3, w4, w5, hw1, hw2, hw3, hw4, hw5, hn4, hn5, ha, rfl⟩
    refine ⟨w2 ++ txt "PREPROCESSOR" ++ (w3 ++ txt ":" ++ (w4 ++ txt "icon" ++ (w5 ++ a))), ⟨w1, hw1, by simp only [List.append_assoc]⟩,
      w3 ++ txt ":" ++ (w4 ++ txt "icon" ++ (w5 ++ a)), ⟨w2, hw2, rfl⟩, w4 ++ txt "icon" ++ (w5 ++ a), ⟨w3, hw3, rfl⟩, ?_⟩
    rw [if_pos ((hd _).2 (by rw [List.append_assoc]; exact hsp _ _ hn4 hw4))]
    simp only [Option.bind_eq_some_iff, a4]
    refine ⟨w5 ++ a, ⟨w4, hw4, rfl⟩, ?_⟩
    rw [if_pos ((hd _).2 (hsp _ _ hn5 hw5)), dropWhile_sp hw5 ha]

theorem distinct_go (p : Text → Prop) (ys : List Text) : ∀ (pre acc : List Text), (∀ x ∈ ys, p x) → Firsts p pre acc →
    Firsts p (pre ++ ys) (ys.foldl (fun acc x => if x ∈ acc then acc else acc ++ [x]) acc) := by
  induction ys with
  | nil => intro pre acc _ h; simpa using h
  | cons y ys ih =>
    intro pre acc hp h
    have hy := hp y (by simp)
    have e : pre ++ y :: ys = (pre ++ [y]) ++ ys := by simp
    rw [e, List.foldl_cons]
    refine ih _ _ (fun x hx => hp x (by simp [hx])) ?_
    obtain ⟨h1, h2, h3⟩ := h
    split
    · next hm =>
      refine ⟨h1, ?_, ?_⟩
      · intro x
        rw [h2]
        simp only [List.mem_append, List.mem_singleton]
        constructor
        · rintro ⟨h, hx⟩; exact ⟨.inl h, hx⟩
        · rintro ⟨h | rfl, hx⟩
          · exact ⟨h, hx⟩
          · exact (h2 _).1 hm
      · intro l x r hlr
        obtain ⟨a, b, rfl, h4, h5⟩ := h3 l x r hlr
        exact ⟨a, b ++ [y], by simp, h4, h5⟩
    · next hm =>
      have hpre : y ∉ pre := fun h => hm ((h2 y).2 ⟨h, hy⟩)
      refine ⟨?_, ?_, ?_⟩
      · rw [List.nodup_append]
        refine ⟨h1, by simp, ?_⟩
        intro a ha b hb
        simp only [List.mem_singleton] at hb
        subst hb
        rintro rfl; exact hm ha
      · intro x
        simp only [List.mem_append, List.mem_singleton, h2]
        constructor
        · rintro (⟨h, hx⟩ | rfl)
          · exact ⟨.inl h, hx⟩
          · exact ⟨.inr rfl, hy⟩
        · rintro ⟨h | rfl, hx⟩
          · exact .inl ⟨h, hx⟩
          · exact .inr rfl
      · intro l x r hlr
        rcases List.append_eq_append_iff.1 hlr with ⟨a', h4, h5⟩ | ⟨c', h4, h5⟩
        · -- the new one
          cases a' with
          | nil =>
            simp only [List.append_nil] at h4
            simp only [List.nil_append, List.cons.injEq] at h5
            obtain ⟨rfl, rfl⟩ := h5
            subst h4
            exact ⟨pre, [], rfl, hpre, fun z hz => ((h2 z).1 hz).1⟩
          | cons a a' =>
            have := congrArg List.length h5
            simp at this
        · cases c' with
          | nil =>
            simp only [List.append_nil] at h4
            simp only [List.nil_append, List.cons.injEq] at h5
            obtain ⟨rfl, rfl⟩ := h5
            subst h4
            exact ⟨pre, [], rfl, hpre, fun z hz => ((h2 z).1 hz).1⟩
          | cons c c' =>
            simp only [List.cons_append, List.cons.injEq] at h5
            obtain ⟨rfl, rfl⟩ := h5
            obtain ⟨a, b, rfl, h6, h7⟩ := h3 l x c' h4
            exact ⟨a, b ++ [y], by simp, h6, h7⟩

theorem Firsts.filter {p : Text → Prop} [DecidablePred p] {xs out : List Text} (h : Firsts p (xs.filter fun x => p x) out) : Firsts p xs out := by
  obtain ⟨h1, h2, h3⟩ := h
  refine ⟨h1, ?_, ?_⟩
  · intro x; rw [h2]; simp
  · intro l x r hlr
    obtain ⟨a, b, h4, h5, h6⟩ := h3 l x r hlr
    have key : ∀ (xs a : List Text), xs.filter (fun x => decide (p x)) = a ++ x :: b → x ∉ a →
        ∃ a' b', xs = a' ++ x :: b' ∧ x ∉ a' ∧ ∀ y ∈ a, y ∈ a' := by
      intro xs
      induction xs with
      | nil => intro a h; simp at h
      | cons z xs ih =>
        intro a h hx
        have hpx : p x := by
          have : x ∈ (z :: xs).filter (fun x => decide (p x)) := by rw [h]; simp
          simpa using (List.mem_filter.1 this).2
        by_cases hz : p z
        · rw [List.filter_cons_of_pos (by simpa using hz)] at h
          cases a with
          | nil =>
            simp only [List.nil_append, List.cons.injEq] at h
            exact ⟨[], xs, by simp [h.1], by simp, by simp⟩
          | cons w a =>
            simp only [List.cons_append, List.cons.injEq] at h
            obtain ⟨rfl, h⟩ := h
            obtain ⟨a', b', rfl, h7, h8⟩ := ih a h (fun hm => hx (by simp [hm]))
            refine ⟨z :: a', b', rfl, ?_, ?_⟩
            · intro hm
              rcases List.mem_cons.1 hm with rfl | hm
              · exact hx (by simp)
              · exact h7 hm
            · intro y hy
              rcases List.mem_cons.1 hy with rfl | hy
              · simp
              · exact List.mem_cons_of_mem _ (h8 y hy)
        · rw [List.filter_cons_of_neg (by simpa using hz)] at h
          obtain ⟨a', b', rfl, h7, h8⟩ := ih a h hx
          refine ⟨z :: a', b', rfl, ?_, fun y hy => List.mem_cons_of_mem _ (h8 y hy)⟩
          intro hm
          rcases List.mem_cons.1 hm with rfl | hm
          · exact hz hpx
          · exact h7 hm
    obtain ⟨a', b', h7, h8, h9⟩ := key xs a h4 h5
    exact ⟨a', b', h7, h8, fun y hy => h9 y (h6 y hy)⟩

theorem distinct_spec (p : Text → Prop) [DecidablePred p] (xs : List Text) : Firsts p xs (distinct (fun x => decide (p x)) xs) := by
  refine Firsts.filter ?_
  have := distinct_go p (xs.filter fun x => decide (p x)) [] [] (fun x hx => by simpa using (List.mem_filter.1 hx).2)
    ⟨List.nodup_nil, by simp, by intro l x r h; simp at h⟩
  rw [List.nil_append] at this
  exact this

/-- There is only one such list. -/
theorem Firsts.unique {p : Text → Prop} {xs out out' : List Text} (h : Firsts p xs out) (h' : Firsts p xs out') : out = out' := by
  obtain ⟨h1, h2, h3⟩ := h
  obtain ⟨h1', h2', h3'⟩ := h'
  -- the elements in front of an element are the same
  have before : ∀ {o o' : List Text}, o.Nodup → (∀ x, x ∈ o ↔ x ∈ xs ∧ p x) →
      (∀ l x r, o = l ++ x :: r → ∃ a b, xs = a ++ x :: b ∧ x ∉ a ∧ ∀ y ∈ l, y ∈ a) → o'.Nodup → (∀ x, x ∈ o' ↔ x ∈ xs ∧ p x) →
      (∀ l x r, o' = l ++ x :: r → ∃ a b, xs = a ++ x :: b ∧ x ∉ a ∧ ∀ y ∈ l, y ∈ a) →
      ∀ l x r l' r', o = l ++ x :: r → o' = l' ++ x :: r' → ∀ y ∈ l, y ∈ l' := by
    intro o o' n1 m1 f1 n2 m2 f2 l x r l' r' e e' y hy
    obtain ⟨a, b, ha, hxa, hla⟩ := f1 l x r e
    have hyo : y ∈ o' := (m2 y).2 ((m1 y).1 (by rw [e]; simp [hy]))
    rw [e'] at hyo
    simp only [List.mem_append, List.mem_cons] at hyo
    rcases hyo with h | rfl | h
    · exact h
    · -- `x` twice
      rw [e, List.nodup_append] at n1
      exact absurd rfl (n1.2.2 y hy y (by simp))
    · -- `y` behind `x` in `o'`, thus first met behind `x`
      obtain ⟨r1, r2, rfl⟩ := List.append_of_mem h
      obtain ⟨a', b', ha', hya', hla'⟩ := f2 (l' ++ x :: r1) y r2 (by rw [e']; simp)
      have hxa' : x ∈ a' := hla' x (by simp)
      have hya : y ∈ a := hla y hy
      -- `x` is in `a'`, `y` is not; `y` is in `a`, `x` is not
      exfalso
      rw [ha] at ha'
      rcases List.append_eq_append_iff.1 ha' with ⟨c, h4, h5⟩ | ⟨c, h4, h5⟩
      · exact hya' (by rw [h4]; simp [hya])
      · exact hxa (by rw [h4]; simp [hxa'])
  have go : ∀ (r r' l : List Text), out = l ++ r → out' = l ++ r' → r = r' := by
    intro r
    induction r with
    | nil =>
      intro r' l e e'
      cases r' with
      | nil => rfl
      | cons y r' =>
        have : y ∈ out := (h2 y).2 ((h2' y).1 (by rw [e']; simp))
        rw [e, List.append_nil] at this
        rw [e', List.nodup_append] at h1'
        exact absurd rfl (h1'.2.2 y this y (by simp))
    | cons x r ih =>
      intro r' l e e'
      have hx : x ∈ out' := (h2' x).2 ((h2 x).1 (by rw [e]; simp))
      have hxl : x ∉ l := by
        intro h
        rw [e, List.nodup_append] at h1
        exact absurd rfl (h1.2.2 x h x (by simp))
      rw [e'] at hx
      rcases List.mem_append.1 hx with h | h
      · exact absurd h hxl
      · obtain ⟨r1, r2, rfl⟩ := List.append_of_mem h
        cases r1 with
        | nil => rw [List.nil_append, ih r2 (l ++ [x]) (by rw [e]; simp) (by rw [e']; simp)]
        | cons y r1 =>
          have hy : y ∈ l := before h1' h2' h3' h1 h2 h3 (l ++ y :: r1) x r2 l r (by rw [e']; simp) e y (by simp)
          rw [e', List.nodup_append] at h1'
          exact absurd rfl (h1'.2.2 y hy y (by simp))
  exact go out out' [] rfl rfl

/-- What is configured. -/
theorem known_iff (env : Env) (c : Text) : env.known c = true ↔ c ∈ keys env.settings.colors := by
  unfold Env.known
  cases h : item env.settings.colors c with
  | none => simpa using get_none.1 h
  | some b =>
    have : c ∈ keys env.settings.colors := Decidable.byContradiction fun hn => by rw [get_none.2 hn] at h; cases h
    simpa using this

theorem bad_iff (env : Env) (b : Button) : env.bad b = false ↔ Good env.settings b := by
  unfold Env.bad Good
  rw [← known_iff, ← known_iff, ← known_iff]
  cases env.known b.active <;> cases env.known b.hover <;> cases env.known b.disabled <;> simp

theorem chosen_unique {l : List Text} {o : Option (List Text)} {out out' : List Text} (h : Chosen l o out) (h' : Chosen l o out') : out = out' := by
  cases o with
  | none => exact Eq.trans h (Eq.symm h')
  | some a => exact Firsts.unique h h'

theorem realButtons_good (env : Env) (bs : Buttons) (h : ∀ x ∈ bs.named, Good env.settings x.2) :
    realButtons env bs = .ok (goodButtons env.settings bs) := by
  have hp : (bs.named.filter fun x => env.bad x.2) = [] := by
    rw [List.filter_eq_nil_iff]
    intro x hx
    rw [(bad_iff env x.2).2 (h x hx)]; simp
  unfold realButtons goodButtons
  simp only [hp, List.map_nil, if_true]
  congr 2
  · cases bs.default with
    | none => rfl
    | some b =>
      simp only
      by_cases hg : Good env.settings b
      · rw [if_pos hg, (bad_iff env b).2 hg]; simp
      · rw [if_neg hg]
        cases hb : env.bad b with
        | true => simp
        | false => exact absurd ((bad_iff env b).1 hb) hg
  · rw [List.filter_eq_self.2]
    intro x hx
    simpa using h x hx

/-- The colors or sizes. -/
def pickOf (configured : List Text) (p : Text → Bool) : Option (List Text) → List Text
  | some l => distinct p l
  | none => configured

theorem pickOf_chosen (configured : List Text) (p : Text → Bool) (hp : ∀ x, p x = true ↔ x ∈ configured) (o : Option (List Text)) :
    Chosen configured o (pickOf configured p o) := by
  cases o with
  | none => exact rfl
  | some l =>
    have e : p = fun x => decide (x ∈ configured) := by
      funext x
      cases h : p x with
      | true => simp [(hp x).1 h]
      | false =>
        have : x ∉ configured := fun hm => by rw [(hp x).2 hm] at h; cases h
        simp [this]
    simp only [pickOf, e]
    exact distinct_spec (· ∈ configured) l

theorem realize_eq (env : Env) (c : Command) : realize env c = (if env.known c.initial then
      if pickOf (keys env.settings.colors) env.known c.colors = [] ∨
          pickOf env.settings.sizes (fun s => decide (s ∈ env.settings.sizes)) c.sizes = [] then .ok none
      else
        match asked env.settings c.button with
        | none => .ok (some ⟨c.name, c.initial, pickOf (keys env.settings.colors) env.known c.colors,
            pickOf env.settings.sizes (fun s => decide (s ∈ env.settings.sizes)) c.sizes, none⟩)
        | some bs =>
          match realButtons env bs with
          | .error e => .error e
          | .ok b => .ok (some ⟨c.name, c.initial, pickOf (keys env.settings.colors) env.known c.colors,
              pickOf env.settings.sizes (fun s => decide (s ∈ env.settings.sizes)) c.sizes, some b⟩)
      else .ok none) := by
  unfold realize
  cases h1 : c.colors <;> cases h2 : c.sizes <;> cases h3 : c.button <;> rfl

theorem realize_iff (env : Env) (c : Command) (hb : ∀ bs, asked env.settings c.button = some bs → ∀ x ∈ bs.named, Good env.settings x.2) :
    ∃ o, realize env c = .ok o ∧ ∀ i, o = some i ↔ Real env.settings c i := by
  have hc := pickOf_chosen (keys env.settings.colors) env.known (known_iff env) c.colors
  have hs := pickOf_chosen env.settings.sizes (fun s => decide (s ∈ env.settings.sizes)) (by simp) c.sizes
  have hno : (¬ ∃ i, Real env.settings c i) → ∀ i, (none : Option Icon) = some i ↔ Real env.settings c i := by
    intro h i
    simp only [reduceCtorEq, false_iff]
    exact fun hr => h ⟨i, hr⟩
  rw [realize_eq]
  by_cases hk : env.known c.initial = true
  · rw [if_pos hk]
    by_cases hemp : pickOf (keys env.settings.colors) env.known c.colors = [] ∨
        pickOf env.settings.sizes (fun s => decide (s ∈ env.settings.sizes)) c.sizes = []
    · rw [if_pos hemp]
      refine ⟨none, rfl, hno ?_⟩
      rintro ⟨i, hr⟩
      rcases hemp with h | h
      · exact hr.colorsNe (by rw [← h]; exact chosen_unique hr.colors hc)
      · exact hr.sizesNe (by rw [← h]; exact chosen_unique hr.sizes hs)
    · rw [if_neg hemp]
      have mk : ∀ b, b = (asked env.settings c.button).map (goodButtons env.settings) → ∀ i,
          some (⟨c.name, c.initial, pickOf (keys env.settings.colors) env.known c.colors,
            pickOf env.settings.sizes (fun s => decide (s ∈ env.settings.sizes)) c.sizes, b⟩ : Icon) = some i ↔ Real env.settings c i := by
        intro b hb i
        constructor
        · intro h
          cases h
          exact ⟨rfl, rfl, (known_iff env _).1 hk, hc, hs, fun h => hemp (.inl h), fun h => hemp (.inr h), hb⟩
        · intro hr
          obtain ⟨n, i0, cs, ss, bb⟩ := i
          have h1 := hr.name; have h2 := hr.initial; have h3 := hr.button
          have h4 := chosen_unique hr.colors hc; have h5 := chosen_unique hr.sizes hs
          simp only at h1 h2 h3 h4 h5
          rw [h1, h2, h3, h4, h5, hb]
      cases ha : asked env.settings c.button with
      | none => exact ⟨_, rfl, mk none (by rw [ha]; rfl)⟩
      | some bs =>
        simp only [realButtons_good env bs (hb bs ha)]
        exact ⟨_, rfl, mk _ (by rw [ha]; rfl)⟩
  · rw [if_neg hk]
    refine ⟨none, rfl, hno ?_⟩
    rintro ⟨i, hr⟩
    exact hk ((known_iff env _).2 hr.known)

/-- Whitespace is no letter. -/
def Spaces (space : Nat → Bool) : Prop := space 33 = false ∧ space 80 = false ∧ space 58 = false ∧ space 105 = false

theorem IsIcon.unique {space : Nat → Bool} (hs : Spaces space) {v a a' : Text} (h : IsIcon space v a) (h' : IsIcon space v a') : a = a' := by
  have h1 := (iconArgs_iff hs.1 hs.2.1 hs.2.2.1 hs.2.2.2 v a).2 h
  rw [(iconArgs_iff hs.1 hs.2.1 hs.2.2.1 hs.2.2.2 v a').2 h'] at h1
  cases h1; rfl

theorem CommandOf.unique {ts : List ITok} {c c' : Command} (h : CommandOf ts c) (h' : CommandOf ts c') : c = c' := by
  have h1 := (C52_syntax ts c).2 h
  rw [(C52_syntax ts c').2 h'] at h1
  cases h1; rfl

theorem getIcon_spec (env : Env) (hs : Spaces env.space) {doc : List Tok} (hw : WellFormed env doc) {t : Tok} (ht : t ∈ doc) :
    ∃ o, getIcon env t = .ok o ∧ ∀ i, o = some i ↔ IconOf env t i := by
  have hno : (∀ v a, t = .comment v → ¬ IsIcon env.space v a) → ∀ i, (none : Option Icon) = some i ↔ IconOf env t i := by
    intro h i
    simp only [reduceCtorEq, false_iff]
    rintro ⟨v, a, c, h1, h2, -⟩
    exact h v a h1 h2
  cases t
  case comment v =>
    simp only [getIcon]
    cases ha : iconArgs env.space v with
    | none =>
      refine ⟨none, rfl, hno ?_⟩
      intro v' a h h1
      cases h
      rw [(iconArgs_iff hs.1 hs.2.1 hs.2.2.1 hs.2.2.2 v a).2 h1] at ha
      cases ha
    | some a =>
      have hi := (iconArgs_iff hs.1 hs.2.1 hs.2.2.1 hs.2.2.2 v a).1 ha
      obtain ⟨c, hc, hg⟩ := hw _ ht v a rfl hi
      simp only [(C52_syntax _ c).2 hc]
      obtain ⟨o, h1, h2⟩ := realize_iff env c hg
      refine ⟨o, h1, fun i => (h2 i).trans ?_⟩
      constructor
      · intro hr; exact ⟨v, a, c, rfl, hi, hc, hr⟩
      · rintro ⟨v', a', c', h3, h4, h5, h6⟩
        cases h3
        cases IsIcon.unique hs hi h4
        cases CommandOf.unique hc h5
        exact h6
  all_goals exact ⟨none, rfl, hno (by intro v a h; cases h)⟩

/-! ## The classes -/

theorem RulesOf.append {a b : List Tok} {x y : List (Text × List Tok)} (ha : RulesOf a x) (hb : RulesOf b y) : RulesOf (a ++ b) (x ++ y) := by
  induction ha with
  | nil => exact hb
  | space _ ih => exact .space ih
  | @rule sel body ts rules h1 _ ih =>
    have := RulesOf.rule (sel := sel) h1 ih
    simpa only [List.append_assoc, List.cons_append] using this

theorem Classes.append {x y : List (Text × List (Text × List Tok))} {a b : List Tok} (ha : Classes x a) (hb : Classes y b) :
    Classes (x ++ y) (a ++ b) := by
  obtain ⟨r, h1, h2⟩ := ha
  obtain ⟨r', h3, h4⟩ := hb
  refine ⟨r ++ r', h1.append h3, ?_⟩
  clear h1 h3
  induction h2 with
  | nil => exact h4
  | cons h _ ih => exact .cons h ih

theorem Classes.nil : Classes [] [] := ⟨[], .nil, .nil⟩

theorem Classes.space {x : List (Text × List (Text × List Tok))} {a : List Tok} (w : Text) (h : Classes x a) : Classes x (.whitespace w :: a) := by
  obtain ⟨r, h1, h2⟩ := h
  exact ⟨r, .space h1, h2⟩

theorem Classes.block {sel : Text} {body : List Tok} {ds : List (Text × List Tok)} (hb : ∀ t ∈ body, t ≠ .leftCurly ∧ t ≠ .rightCurly)
    (hd : ∀ d ∈ ds, HasDecl (body ++ [.whitespace (txt "\n")]) d.1 d.2) : Classes [(sel, ds)] (block sel body) := by
  refine ⟨[(sel, body ++ [.whitespace (txt "\n")])], ?_, .cons ⟨rfl, hd⟩ .nil⟩
  have := RulesOf.rule (sel := sel) (body := body ++ [.whitespace (txt "\n")]) (ts := []) (rules := []) (by
    intro t ht
    rcases List.mem_append.1 ht with h | h
    · exact hb t h
    · simp only [List.mem_singleton] at h; subst h; simp) .nil
  simpa only [Icons.block, sp, List.append_assoc, List.cons_append, List.nil_append] using this

/-- No curly bracket. -/
def plain : Tok → Bool
  | .leftCurly => false
  | .rightCurly => false
  | _ => true

theorem plain_spec {body : List Tok} (h : body.all plain = true) : ∀ t ∈ body, t ≠ .leftCurly ∧ t ≠ .rightCurly := by
  intro t ht
  have := List.all_eq_true.1 h t ht
  constructor <;> rintro rfl <;> simp [plain] at this

theorem HasDecl.here (n : String) (v rest : List Tok) : HasDecl (decl n v ++ rest) (txt n) v :=
  ⟨[indent], rest, by simp [decl, word, sp]⟩

theorem HasDecl.pre {body : List Tok} {n : Text} {v : List Tok} (pre : List Tok) (h : HasDecl body n v) : HasDecl (pre ++ body) n v := by
  obtain ⟨a, b, rfl⟩ := h
  exact ⟨pre ++ a, b, by simp⟩

theorem HasDecl.app {body : List Tok} {n : Text} {v : List Tok} (post : List Tok) (h : HasDecl body n v) : HasDecl (body ++ post) n v := by
  obtain ⟨a, b, rfl⟩ := h
  exact ⟨a, b ++ post, by simp⟩

theorem iconDecls_has (i : Icon) (size color : Text) : ∀ d ∈ [(txt "width", sizeOf size), (txt "height", sizeOf size),
    (txt "background-image", imageUrl i.name color)], HasDecl (iconDecls size (i.web color) ++ [.whitespace (txt "\n")]) d.1 d.2 := by
  intro d hd
  refine HasDecl.app _ ?_
  unfold iconDecls
  simp only [List.append_assoc]
  simp only [List.mem_cons, List.not_mem_nil, or_false] at hd
  rcases hd with rfl | rfl | rfl
  · exact .pre _ (.pre _ (.pre _ (.pre _ (.here _ _ _))))
  · exact .pre _ (.pre _ (.pre _ (.pre _ (.pre _ (.here _ _ _)))))
  · have := HasDecl.here "background-image" (urlTo (i.web color)) []
    rw [List.append_nil] at this
    exact .pre _ (.pre _ (.pre _ (.pre _ (.pre _ (.pre _ (.pre _ this))))))

theorem iconClass_spec (i : Icon) (s c : Text) : Classes [(txt "icon-" ++ i.name ++ txt "-" ++ s ++ txt "-" ++ c,
    [(txt "width", sizeOf s), (txt "height", sizeOf s), (txt "background-image", imageUrl i.name c)])] (iconClass i s c) :=
  Classes.block (plain_spec rfl) (iconDecls_has i s c)

theorem iconClasses_spec (i : Icon) : Classes (i.sizes.flatMap fun s => i.colors.map fun c =>
    (txt "icon-" ++ i.name ++ txt "-" ++ s ++ txt "-" ++ c,
      [(txt "width", sizeOf s), (txt "height", sizeOf s), (txt "background-image", imageUrl i.name c)])) (iconClasses i) := by
  have e : (i.sizes.flatMap fun s => i.colors.map fun c => (txt "icon-" ++ i.name ++ txt "-" ++ s ++ txt "-" ++ c,
      [(txt "width", sizeOf s), (txt "height", sizeOf s), (txt "background-image", imageUrl i.name c)])) =
      (i.sizes.flatMap fun s => i.colors.map fun c => (s, c)).map fun x => (txt "icon-" ++ i.name ++ txt "-" ++ x.1 ++ txt "-" ++ x.2,
      [(txt "width", sizeOf x.1), (txt "height", sizeOf x.1), (txt "background-image", imageUrl i.name x.2)]) := by
    rw [List.map_flatMap]
    simp only [List.map_map]
    rfl
  rw [e]
  unfold iconClasses
  generalize (i.sizes.flatMap fun s => i.colors.map fun c => (s, c)) = ps
  have go : ∀ (ps : List (Text × Text)) (w : List (Text × List (Text × List Tok))) (acc : List Tok), Classes w acc →
      Classes (w ++ ps.map fun x => (txt "icon-" ++ i.name ++ txt "-" ++ x.1 ++ txt "-" ++ x.2,
        [(txt "width", sizeOf x.1), (txt "height", sizeOf x.1), (txt "background-image", imageUrl i.name x.2)]))
        (ps.foldl (fun acc x => (if acc = [] then acc else acc ++ [gap]) ++ iconClass i x.1 x.2) acc) := by
    intro ps
    induction ps with
    | nil => intro w acc h; simpa using h
    | cons p ps ih =>
      intro w acc h
      rw [List.map_cons, List.foldl_cons, List.append_cons]
      refine ih _ _ (Classes.append ?_ (iconClass_spec i p.1 p.2))
      split
      · exact h
      · have := h.append (Classes.space (txt "\n\n") Classes.nil)
        rw [List.append_nil] at this
        exact this
  have := go ps [] [] .nil
  rw [List.nil_append] at this
  exact this

theorem buttonClass_spec (i : Icon) (s suffix : Text) (b : Button) : Classes (buttonRules i.name s suffix b) (buttonClass i s suffix b) := by
  have one : ∀ (n : String) (v : List Tok), ∀ d ∈ [(txt n, v)], HasDecl (decl n v ++ [.whitespace (txt "\n")]) d.1 d.2 := by
    intro n v d hd
    simp only [List.mem_singleton] at hd
    subst hd
    exact .here _ _ _
  unfold buttonRules buttonClass
  simp only [List.append_assoc]
  have h5 := Classes.block (sel := txt "icon-btn-" ++ i.name ++ txt "-" ++ s ++ suffix ++ txt ":disabled .icon-btn--icon")
    (body := decl "background-image" (urlTo (i.web b.disabled))) (ds := [(txt "background-image", imageUrl i.name b.disabled)])
    (plain_spec rfl) (one _ _)
  have h4 := Classes.block (sel := txt "icon-btn-" ++ i.name ++ txt "-" ++ s ++ suffix ++ txt ":hover .icon-btn--icon")
    (body := decl "background-image" (urlTo (i.web b.hover))) (ds := [(txt "background-image", imageUrl i.name b.hover)])
    (plain_spec rfl) (one _ _)
  have h3 := Classes.block (sel := txt "icon-btn-" ++ i.name ++ txt "-" ++ s ++ suffix ++ txt " .icon-btn--icon")
    (body := iconDecls s (i.web b.active)) (plain_spec rfl) (iconDecls_has i s b.active)
  have h2 := Classes.block (sel := txt "icon-btn-" ++ i.name ++ txt "-" ++ s ++ suffix ++ txt ":disabled")
    (body := decl "cursor" [word "not-allowed"]) (ds := [(txt "cursor", [word "not-allowed"])]) (plain_spec rfl) (one _ _)
  have h1 := Classes.block (sel := txt "icon-btn-" ++ i.name ++ txt "-" ++ s ++ suffix)
    (body := decl "-webkit-appearance" [word "none"] ++ (decl "appearance" [word "none"] ++ (decl "background" [word "transparent"] ++
      (decl "border" [word "none"] ++ (decl "border-radius" [word "0"] ++ (decl "box-shadow" [word "none"] ++
      (decl "outline" [word "none"] ++ (decl "padding" [word "0"] ++ (decl "margin" [word "0"] ++
      (decl "text-align" [word "center"] ++ (decl "display" [word "inline-block"] ++ decl "cursor" [word "pointer"])))))))))))
    (ds := [(txt "cursor", [word "pointer"])]) (plain_spec rfl) (by
      intro d hd
      simp only [List.append_assoc]
      exact .pre _ (.pre _ (.pre _ (.pre _ (.pre _ (.pre _ (.pre _ (.pre _ (.pre _ (.pre _ (.pre _ (one _ _ d hd))))))))))))
  have g := ((h1.space (txt "\n\n")).append ((h2.space (txt "\n\n")).append ((h3.space (txt "\n\n")).append
    ((h4.space (txt "\n\n")).append (h5.space (txt "\n\n"))))))
  simp only [List.append_assoc, List.cons_append, List.nil_append] at g ⊢
  exact g

/-- All named buttons are there. -/
def AllButtons (named : List (Text × Entry)) : Prop := ∀ x ∈ named, ∃ b, x.2 = .button b

theorem namedClasses_spec (i : Icon) (s : Text) (named : List (Text × Entry)) (h : AllButtons named) :
    ∃ ts, namedClasses i s named = .ok ts ∧ Classes (named.flatMap fun x =>
      match x.2 with
      | .button b => buttonRules i.name s (txt "-" ++ x.1) b
      | .letter _ => []) ts := by
  induction named with
  | nil => exact ⟨[], rfl, .nil⟩
  | cons x named ih =>
    obtain ⟨k, e⟩ := x
    obtain ⟨ts, h1, h2⟩ := ih fun y hy => h y (by simp [hy])
    obtain ⟨b, hb⟩ := h (k, e) (by simp)
    simp only at hb
    subst hb
    refine ⟨buttonClass i s (txt "-" ++ k) b ++ ts, by simp only [namedClasses, h1], ?_⟩
    rw [List.flatMap_cons]
    exact (buttonClass_spec i s _ b).append h2

theorem buttonClasses_spec (i : Icon) (d : Option Button) (named : List (Text × Entry)) (h : AllButtons named) (sizes : List Text) :
    ∃ ts, buttonClasses i d named sizes = .ok ts ∧ Classes (sizes.flatMap fun s =>
      (match d with
        | some b => buttonRules i.name s [] b
        | none => []) ++
      named.flatMap fun x =>
        match x.2 with
        | .button b => buttonRules i.name s (txt "-" ++ x.1) b
        | .letter _ => []) ts := by
  induction sizes with
  | nil => exact ⟨[], rfl, .nil⟩
  | cons s sizes ih =>
    obtain ⟨ts, h1, h2⟩ := ih
    obtain ⟨ts', h3, h4⟩ := namedClasses_spec i s named h
    refine ⟨(match d with
        | some b => buttonClass i s [] b
        | none => []) ++ ts' ++ ts, by cases d <;> simp only [buttonClasses, h3, h1], ?_⟩
    rw [List.flatMap_cons]
    refine Classes.append (Classes.append ?_ h4) h2
    cases d with
    | none => exact .nil
    | some b => exact buttonClass_spec i s [] b

theorem output_spec (i : Icon) (h : ∀ d named, i.button = some (d, named) → AllButtons named) :
    ∃ ts, output i = .ok ts ∧ Classes (iconRules i) ts := by
  unfold output iconRules
  cases hb : i.button with
  | none =>
    refine ⟨_, rfl, ?_⟩
    rw [List.append_nil]
    exact iconClasses_spec i
  | some p =>
    obtain ⟨d, named⟩ := p
    obtain ⟨ts, h1, h2⟩ := buttonClasses_spec i d named (h d named hb) i.sizes
    simp only [h1]
    exact ⟨_, rfl, (iconClasses_spec i).append h2⟩

/-! ## The files -/

theorem replaceAll_spec {old new : Text} (hne : old ≠ []) : ∀ (n : Nat) (s : Text), s.length < n → ReplaceOf old new s (replaceAll old new n s) := by
  intro n
  induction n with
  | zero => intro s h; omega
  | succ n ih =>
    intro s h
    cases s with
    | nil => exact .nil
    | cons c s =>
      simp only [replaceAll]
      split
      · next hp =>
        obtain ⟨t, ht⟩ := List.isPrefixOf_iff_prefix.1 hp
        rw [← ht, List.drop_left]
        refine .hit (ih t ?_)
        have := congrArg List.length ht
        have : 0 < old.length := List.length_pos_iff.2 hne
        simp at *; omega
      · next hp =>
        exact .miss (fun h => hp (List.isPrefixOf_iff_prefix.2 h)) (ih s (by simp at h; omega))

theorem quoted_ne (c : Color) : quoted c ≠ [] := by
  have e : txt "\"" = [34] := by decide
  unfold quoted
  rw [e]; simp

theorem join_rel {a b : Text} (ha : a ≠ []) (hl : a.getLast? ≠ some 47) (hb : b.head? ≠ some 47) : join a b = a ++ 47 :: b := by
  unfold join isAbs
  rw [if_neg (by simpa using hb), if_neg (by simp [ha, hl])]

theorem head_ne {a b : Text} (hne : a ≠ []) (h : 47 ∉ a) : (a ++ b).head? ≠ some 47 := by
  cases a with
  | nil => exact absurd rfl hne
  | cons c a => simp only [List.cons_append, List.head?_cons, ne_eq, Option.some.injEq]; rintro rfl; exact h (by simp)

theorem head_ne' {a b : Text} (h : 47 ∉ a) (hb : b.head? ≠ some 47) : (a ++ b).head? ≠ some 47 := by
  cases a with
  | nil => exact hb
  | cons c a => simp only [List.cons_append, List.head?_cons, ne_eq, Option.some.injEq]; rintro rfl; exact h (by simp)

theorem input_eq {i : Icon} (hn : i.name ≠ []) (hs : 47 ∉ i.name) : i.input = source i.name := by
  have e : join (join (join (txt "src") (txt "public")) (txt "img")) (txt "icons") = txt "src/public/img/icons" := by decide
  have e2 : txt "src/public/img/icons" ++ [47] = txt "src/public/img/icons/" := by decide
  unfold Icon.input source
  rw [e, join_rel (by decide) (by decide) (head_ne hn hs), List.append_cons, e2, List.append_assoc]

theorem output_eq {i : Icon} (hn : i.name ≠ []) (hs : 47 ∉ i.name) {c : Text} (hc : 47 ∉ c) : i.output c = image i.name c := by
  have e : join (join (join (txt "out") (txt "www")) (txt "img")) (txt "icons") = txt "out/www/img/icons" := by decide
  have e2 : txt "out/www/img/icons" ++ [47] = txt "out/www/img/icons/" := by decide
  have e3 : txt "/" = [47] := by decide
  have h1 := head_ne (b := []) hn hs
  rw [List.append_nil] at h1
  unfold Icon.output Icon.folder image
  rw [e, join_rel (by decide) (by decide) h1, List.append_cons, e2, join_rel (by simp [hn]) ?_ (head_ne' hc (by decide)), e3]
  · simp
  · rw [List.getLast?_append]
    intro h
    cases hl : i.name.getLast? with
    | none => exact hn (List.getLast?_eq_none_iff.1 hl)
    | some x =>
      rw [hl] at h
      simp only [Option.some_or, Option.some.injEq] at h
      subst h
      exact hs (List.mem_of_getLast? hl)

theorem image_out (n c : Text) : ∃ q, image n c = outWww ++ q := by
  have e : txt "out/www/img/icons/" = outWww ++ txt "img/icons/" := by decide
  exact ⟨txt "img/icons/" ++ n ++ txt "/" ++ c ++ txt ".svg", by unfold image; rw [e]; simp⟩

theorem image_ne_hash (n c n' c' : Text) : image n c ≠ image n' c' ++ txt ".hash" := by
  have e1 : txt ".svg" = [46, 115, 118] ++ [103] := by decide
  have e2 : txt ".hash" = [46, 104, 97, 115] ++ [104] := by decide
  intro h
  have h := congrArg List.getLast? h
  unfold image at h
  rw [e1, e2] at h
  simp [List.getLast?_append] at h

theorem source_ne (n n' c' : Text) : source n ≠ image n' c' ∧ source n ≠ image n' c' ++ txt ".hash" := by
  have e1 : txt "src/public/img/icons/" = 115 :: txt "rc/public/img/icons/" := by decide
  have e2 : txt "out/www/img/icons/" = 111 :: txt "ut/www/img/icons/" := by decide
  unfold source image
  rw [e1, e2]
  constructor <;> intro h <;> simp only [List.cons_append, List.cons.injEq] at h <;> omega

/-- What is said to be there after the build. -/
def St.reported (st : St) (p : Text) : Prop := p ∈ st.produced ∨ p ∈ st.reused

theorem mem_add {s : List Text} {x y : Text} : y ∈ add s x ↔ y ∈ s ∨ y = x := by
  unfold add
  split
  · next h =>
    constructor
    · exact .inl
    · rintro (h' | rfl)
      · exact h'
      · exact h
  · simp

theorem mem_addAll {xs : List Text} : ∀ {s : List Text} {y : Text}, y ∈ addAll s xs ↔ y ∈ s ∨ y ∈ xs := by
  induction xs with
  | nil => intro s y; simp [addAll]
  | cons x xs ih =>
    intro s y
    have e : addAll s (x :: xs) = addAll (add s x) xs := rfl
    rw [e, ih, mem_add]
    simp only [List.mem_cons]
    constructor
    · rintro ((h | h) | h)
      · exact .inl h
      · exact .inr (.inl h)
      · exact .inr (.inr h)
    · rintro (h | h | h)
      · exact .inl (.inl h)
      · exact .inl (.inr h)
      · exact .inr h

/-- The effect of painting the icon in one color. -/
structure Paint (env : Env) (name initial color : Text) (st st' : St) : Prop where
  kept : ∀ p b, st.fs p = some b → st'.fs p = some b
  fresh : ∀ p b, st.fs p = none → st'.fs p = some b →
    (p = image name color ∧ Painted env st.fs name initial color b) ∨
    (p = image name color ++ txt ".hash" ∧ ∃ b', st'.fs (image name color) = some b' ∧ b = env.digest b')
  image : (st'.fs (image name color)).isSome
  hash : st.fs (Icons.image name color) = none → (st'.fs (Icons.image name color ++ txt ".hash")).isSome
  reported : ∀ p, st'.reported p ↔ st.reported p ∨ p = Icons.image name color ∨
    (p = Icons.image name color ++ txt ".hash" ∧ st.fs (Icons.image name color) = none)
  scan : st'.dependencies = st.dependencies ∧ st'.produces = st.produces ∧ ∀ x, x ∈ st'.children ↔ x ∈ st.children

theorem produce_spec {env : Env} {i : Icon} (hn : i.name ≠ []) (hs : 47 ∉ i.name) {c : Text} (hc : 47 ∉ c) {st st' : St}
    (h : produce env i st c = .ok st') : Paint env i.name i.initial c st st' := by
  unfold produce at h
  simp only [output_eq hn hs hc, input_eq hn hs] at h
  split at h
  · next hex =>
    cases h
    refine ⟨fun p b h => h, ?_, hex, ?_, ?_, rfl, rfl, fun _ => Iff.rfl⟩
    · intro p b h1 h2
      simp only at h2
      rw [h1] at h2; cases h2
    · intro h; rw [h] at hex; cases hex
    · intro p
      simp only [St.reported, mem_add]
      constructor
      · rintro (h | h | h)
        · exact .inl (.inl h)
        · exact .inl (.inr h)
        · exact .inr (.inl h)
      · rintro ((h | h) | h | ⟨-, h⟩)
        · exact .inl h
        · exact .inr (.inl h)
        · exact .inr (.inr h)
        · rw [h] at hex; cases hex
  · next hex =>
    have hno : st.fs (image i.name c) = none := by simpa using hex
    split at h
    · cases h
    · next svg hsvg =>
      split at h
      · next og target hog htg =>
        obtain ⟨q, hq⟩ := image_out i.name c
        have ht : hashTarget (image i.name c) = some (image i.name c ++ txt ".hash") := by rw [hq]; exact hashTarget_out q
        have hne : image i.name c ≠ image i.name c ++ txt ".hash" := image_ne_hash _ _ _ _
        have hpaint : Painted env st.fs i.name i.initial c
            (env.encode (replaceAll (quoted og) (quoted target) ((env.decode svg).length + 1) (env.decode svg))) :=
          ⟨svg, og, target, _, hsvg, hog, htg, replaceAll_spec (quoted_ne og) _ _ (by omega), rfl⟩
        revert h
        generalize env.encode (replaceAll (quoted og) (quoted target) ((env.decode svg).length + 1) (env.decode svg)) = text at hpaint
        intro h
        split at h
        · cases h
        · next r fs2 hb =>
          cases h
          unfold hashBuild at hb
          rw [ht] at hb
          simp only at hb
          split at hb
          · next b0 hh =>
            cases hb
            refine ⟨?_, ?_, ?_, ?_, ?_, rfl, rfl, fun x => by simp [mem_addAll]⟩
            · intro p b hp
              simp only [Fs.write]
              split
              · next e => subst e; rw [hno] at hp; cases hp
              · exact hp
            · intro p b hp hp'
              simp only [Fs.write] at hp'
              split at hp'
              · next e => cases hp'; exact .inl ⟨e, hpaint⟩
              · rw [hp] at hp'; cases hp'
            · simp [Fs.write]
            · intro _
              simp only [hh, Option.isSome_some]
            · intro p
              simp only [St.reported, mem_add, mem_addAll, List.not_mem_nil, or_false, List.mem_singleton]
              constructor
              · rintro ((h | h) | h | h)
                · exact .inl (.inl h)
                · exact .inr (.inl h)
                · exact .inl (.inr h)
                · exact .inr (.inr ⟨h, hno⟩)
              · rintro ((h | h) | h | ⟨h, -⟩)
                · exact .inl (.inl h)
                · exact .inr (.inl h)
                · exact .inl (.inr h)
                · exact .inr (.inr h)
          · next hh =>
            have hh' : st.fs (image i.name c ++ txt ".hash") = none := by
              simp only [Fs.write, if_neg hne.symm] at hh; exact hh
            split at hb
            · cases hb
            · next b0 hb0 =>
              have : b0 = text := by simp only [Fs.write, if_true] at hb0; cases hb0; rfl
              subst this
              cases hb
              refine ⟨?_, ?_, ?_, ?_, ?_, rfl, rfl, fun x => by simp [mem_addAll]⟩
              · intro p b hp
                simp only [Fs.write]
                split
                · next e => subst e; rw [hh'] at hp; cases hp
                · split
                  · next e => subst e; rw [hno] at hp; cases hp
                  · exact hp
              · intro p b hp hp'
                simp only [Fs.write] at hp'
                split at hp'
                · next e =>
                  cases hp'
                  exact .inr ⟨e, b0, by simp [Fs.write, hne], rfl⟩
                · split at hp'
                  · next e => cases hp'; exact .inl ⟨e, hpaint⟩
                  · rw [hp] at hp'; cases hp'
              · simp [Fs.write, hne]
              · intro _; simp [Fs.write]
              · intro p
                simp only [St.reported, mem_add, mem_addAll, List.not_mem_nil, or_false, List.mem_singleton]
                constructor
                · rintro (((h | h) | h) | h)
                  · exact .inl (.inl h)
                  · exact .inr (.inl h)
                  · exact .inr (.inr ⟨h, hno⟩)
                  · exact .inl (.inr h)
                · rintro ((h | h) | h | ⟨h, -⟩)
                  · exact .inl (.inl (.inl h))
                  · exact .inr h
                  · exact .inl (.inl (.inr h))
                  · exact .inl (.inr h)
      · cases h

/-- It works if the source is there. -/
theorem produce_ok {env : Env} {i : Icon} (hn : i.name ≠ []) (hs : 47 ∉ i.name) {c : Text} (hc : 47 ∉ c) {st : St}
    (hsrc : (st.fs (source i.name)).isSome) (hi : i.initial ∈ keys env.settings.colors) (hk : c ∈ keys env.settings.colors) :
    ∃ st', produce env i st c = .ok st' := by
  have get : ∀ k, k ∈ keys env.settings.colors → ∃ x, item env.settings.colors k = some x := by
    intro k hk
    cases h : item env.settings.colors k with
    | none => exact absurd hk (get_none.1 h)
    | some x => exact ⟨x, rfl⟩
  obtain ⟨og, hog⟩ := get _ hi
  obtain ⟨tg, htg⟩ := get _ hk
  obtain ⟨svg, hsvg⟩ := Option.isSome_iff_exists.1 hsrc
  obtain ⟨q, hq⟩ := image_out i.name c
  have ht : hashTarget (image i.name c) = some (image i.name c ++ txt ".hash") := by rw [hq]; exact hashTarget_out q
  unfold produce
  simp only [output_eq hn hs hc, input_eq hn hs, hsvg, hog, htg]
  split
  · exact ⟨_, rfl⟩
  · unfold hashBuild
    rw [ht]
    simp only
    cases h : (Fs.write st.fs (image i.name c)
        (env.encode (replaceAll (quoted og) (quoted tg) ((env.decode svg).length + 1) (env.decode svg)))) (image i.name c ++ txt ".hash") with
    | some b => exact ⟨_, rfl⟩
    | none =>
      simp only [Fs.write, if_true]
      exact ⟨_, rfl⟩

end Verif.Icons
