import Verif.NestCase
import Verif.JsHints

/-!
# The form of an import comment, and what is read off a stylesheet before it is built
-/

namespace Verif.Nest

open Verif.Reader Verif.Css Verif.Assoc Verif.Build
open Verif.Js (strip strip_split)
open Verif.Paths (join isAbs)

/-- Only whitespace. -/
def Sp (space : Nat → Bool) (w : Text) : Prop := ∀ c ∈ w, space c = true

/-- No whitespace at the ends. -/
def Tight (space : Nat → Bool) (a : Text) : Prop :=
  (∀ c, a.head? = some c → space c = false) ∧ (∀ c, a.getLast? = some c → space c = false)

/-- The form `! PREPROCESSOR: import a` of a comment, where whitespace may be around the parts. -/
def IsImport (space : Nat → Bool) (v a : Text) : Prop :=
  ∃ w1 w2 w3 w4 w5 w6, Sp space w1 ∧ Sp space w2 ∧ Sp space w3 ∧ Sp space w4 ∧ Sp space w5 ∧ Sp space w6 ∧
    w4 ≠ [] ∧ w5 ≠ [] ∧ Tight space a ∧ 10 ∉ a ∧
    v = w1 ++ txt "!" ++ w2 ++ txt "PREPROCESSOR" ++ w3 ++ txt ":" ++ w4 ++ txt "import" ++ w5 ++ a ++ w6

variable {space : Nat → Bool}

theorem dropWhile_sp {w s : Text} (hw : Sp space w) (hs : ∀ c, s.head? = some c → space c = false) : (w ++ s).dropWhile space = s := by
  induction w with
  | nil =>
    cases s with
    | nil => rfl
    | cons c s => rw [List.nil_append, List.dropWhile_cons_of_neg]; simp [hs c rfl]
  | cons c w ih =>
    rw [List.cons_append, List.dropWhile_cons_of_pos (hw c (by simp))]
    exact ih fun x hx => hw x (by simp [hx])

theorem strip_tight {w a w' : Text} (hw : Sp space w) (hw' : Sp space w') (ha : Tight space a) : strip space (w ++ a ++ w') = a := by
  unfold strip
  cases a with
  | nil =>
    have h : ((w ++ [] ++ w').dropWhile space) = [] := by
      have := dropWhile_sp (space := space) (w := w ++ w') (s := []) (fun c hc => by
        rcases List.mem_append.1 hc with h | h
        · exact hw c h
        · exact hw' c h) (by simp)
      simpa using this
    rw [h]; rfl
  | cons c a =>
    rw [List.append_assoc, dropWhile_sp hw (by simpa using ha.1 c rfl), List.reverse_append,
      dropWhile_sp (fun x hx => hw' x (List.mem_reverse.1 hx)) (fun x hx => ha.2 x (by rw [List.head?_reverse] at hx; exact hx)),
      List.reverse_reverse]

theorem dropWhile_head (s : Text) : ∀ c, (s.dropWhile space).head? = some c → space c = false := by
  intro c h
  induction s with
  | nil => simp at h
  | cons x s ih =>
    by_cases hx : space x
    · rw [List.dropWhile_cons_of_pos hx] at h; exact ih h
    · rw [List.dropWhile_cons_of_neg (by simp [hx])] at h
      simp only [List.head?_cons, Option.some.injEq] at h
      subst h; simpa using hx

theorem tight_strip (s : Text) : Tight space (strip space s) := by
  unfold strip
  refine ⟨?_, ?_⟩
  · intro c h
    rw [List.head?_reverse] at h
    -- the last character of what is left is that of `dropWhile`
    have hsuf : ((s.dropWhile space).reverse.dropWhile space) <:+ (s.dropWhile space).reverse := List.dropWhile_suffix _
    obtain ⟨t, ht⟩ := hsuf
    have : (s.dropWhile space).reverse.getLast? = some c := by
      rw [← ht, List.getLast?_append, h]; rfl
    rw [List.getLast?_reverse] at this
    exact dropWhile_head s c this
  · intro c h
    rw [List.getLast?_reverse] at h
    exact dropWhile_head _ c h

theorem after_iff {word s r : Text} (hne : word ≠ []) (hw : ∀ c, word.head? = some c → space c = false) :
    after word (s.dropWhile space) = some r ↔ ∃ w, Sp space w ∧ s = w ++ word ++ r := by
  unfold after
  constructor
  · intro h
    split at h
    · next hp =>
      cases h
      refine ⟨s.takeWhile space, fun c hc => List.all_eq_true.1 List.all_takeWhile c hc, ?_⟩
      obtain ⟨t, ht⟩ := List.isPrefixOf_iff_prefix.1 hp
      rw [← ht, List.drop_left, List.append_assoc, ht, List.takeWhile_append_dropWhile]
    · cases h
  · rintro ⟨w, hsp, rfl⟩
    have e : (w ++ word ++ r).dropWhile space = word ++ r := by
      rw [List.append_assoc]
      refine dropWhile_sp hsp fun c hc => hw c ?_
      cases word with
      | nil => exact absurd rfl hne
      | cons a l => simpa using hc
    rw [e, if_pos (List.isPrefixOf_iff_prefix.2 ⟨r, rfl⟩), List.drop_left]

/-- The comments which are taken for imports are those of the documented form. -/
theorem importArgs_iff (h1 : space 33 = false) (h2 : space 80 = false) (h3 : space 58 = false) (h4 : space 105 = false) (v a : Text) :
    importArgs space v = some a ↔ IsImport space v a := by
  have e1 : txt "!" = [33] := by decide
  have e2 : txt "PREPROCESSOR" = [80, 82, 69, 80, 82, 79, 67, 69, 83, 83, 79, 82] := by decide
  have e3 : txt ":" = [58] := by decide
  have e4 : txt "import" = [105, 109, 112, 111, 114, 116] := by decide
  have a1 : ∀ s r, after (txt "!") (s.dropWhile space) = some r ↔ ∃ w, Sp space w ∧ s = w ++ txt "!" ++ r :=
    fun s r => after_iff (by rw [e1]; simp) (by rw [e1]; simpa using h1)
  have a2 : ∀ s r, after (txt "PREPROCESSOR") (s.dropWhile space) = some r ↔ ∃ w, Sp space w ∧ s = w ++ txt "PREPROCESSOR" ++ r :=
    fun s r => after_iff (by rw [e2]; simp) (by rw [e2]; simpa using h2)
  have a3 : ∀ s r, after (txt ":") (s.dropWhile space) = some r ↔ ∃ w, Sp space w ∧ s = w ++ txt ":" ++ r :=
    fun s r => after_iff (by rw [e3]; simp) (by rw [e3]; simpa using h3)
  have a4 : ∀ s r, after (txt "import") (s.dropWhile space) = some r ↔ ∃ w, Sp space w ∧ s = w ++ txt "import" ++ r :=
    fun s r => after_iff (by rw [e4]; simp) (by rw [e4]; simpa using h4)
  have hd : ∀ s : Text, ((s.head?.map space).getD false = true) ↔ ∃ c, s.head? = some c ∧ space c = true := by
    intro s; cases s <;> simp
  unfold importArgs IsImport
  simp only [Option.bind_eq_some_iff, a1, a2, a3, a4]
  constructor
  · rintro ⟨s1, ⟨w1, hw1, rfl⟩, s2, ⟨w2, hw2, rfl⟩, s3, ⟨w3, hw3, rfl⟩, h⟩
    split at h
    · next hs3 =>
      simp only [Option.bind_eq_some_iff, a4] at h
      obtain ⟨s4, ⟨w4, hw4, rfl⟩, h⟩ := h
      split at h
      · next hs4 =>
        cases h
        have hw4ne : w4 ≠ [] := by
          rintro rfl
          obtain ⟨c, hc, hcs⟩ := (hd _).1 hs3
          rw [e4] at hc
          simp only [List.nil_append, List.cons_append, List.head?_cons, Option.some.injEq] at hc
          subst hc; rw [h4] at hcs; cases hcs
        obtain ⟨x, y, hxy, hs⟩ := strip_split space s4
        by_cases hx : x = []
        · -- nothing in front, so that the argument is empty
          subst hx
          obtain ⟨c, hc, hcs⟩ := (hd _).1 hs4.1
          have hnil : strip space s4 = [] := by
            cases hst : strip space s4 with
            | nil => rfl
            | cons d l =>
              rw [hs, hst] at hc
              simp only [List.nil_append, List.cons_append, List.head?_cons, Option.some.injEq] at hc
              subst hc
              have := (tight_strip s4).1 d (by rw [hst]; rfl)
              rw [this] at hcs; cases hcs
          rw [hnil] at hs
          simp only [List.append_nil, List.nil_append] at hs hxy
          have hs4ne : s4 ≠ [] := by rintro rfl; simp at hc
          refine ⟨w1, w2, w3, w4, s4, [], hw1, hw2, hw3, hw4, ?_, by simp [Sp], hw4ne, hs4ne, tight_strip s4, hs4.2, ?_⟩
          · rw [hs]; exact hxy
          · rw [hnil]; simp
        · refine ⟨w1, w2, w3, w4, x, y, hw1, hw2, hw3, hw4, fun c hc => hxy c (by simp [hc]), fun c hc => hxy c (by simp [hc]),
            hw4ne, hx, tight_strip s4, hs4.2, ?_⟩
          conv => lhs; rw [hs]
          simp
      · cases h
    · cases h
  · rintro ⟨w1, w2, w3, w4, w5, w6, hw1, hw2, hw3, hw4, hw5, hw6, hne4, hne5, ht, hn, rfl⟩
    refine ⟨w2 ++ txt "PREPROCESSOR" ++ w3 ++ txt ":" ++ w4 ++ txt "import" ++ w5 ++ a ++ w6, ⟨w1, hw1, by simp⟩,
      w3 ++ txt ":" ++ w4 ++ txt "import" ++ w5 ++ a ++ w6, ⟨w2, hw2, by simp⟩,
      w4 ++ txt "import" ++ w5 ++ a ++ w6, ⟨w3, hw3, by simp⟩, ?_⟩
    have hst : strip space (w5 ++ a ++ w6) = a := strip_tight hw5 hw6 ht
    rw [if_pos]
    · simp only [Option.bind_eq_some_iff, a4]
      refine ⟨w5 ++ a ++ w6, ⟨w4, hw4, by simp⟩, ?_⟩
      rw [if_pos, hst]
      rw [hst]
      refine ⟨(hd _).2 ?_, hn⟩
      cases w5 with
      | nil => exact absurd rfl hne5
      | cons c w5 => exact ⟨c, by simp, hw5 c (by simp)⟩
    · refine (hd _).2 ?_
      cases w4 with
      | nil => exact absurd rfl hne4
      | cons c w4 => exact ⟨c, by simp, hw4 c (by simp)⟩

/-- `word` occurs in `s`. -/
def Occurs (word s : Text) : Prop := ∃ a b, s = a ++ word ++ b

theorem indexOf_none {word : Text} (hne : word ≠ []) (s : Text) : indexOf word s = none ↔ ¬ Occurs word s := by
  induction s with
  | nil =>
    simp only [indexOf, if_neg hne, true_iff]
    rintro ⟨a, b, h⟩
    have := congrArg List.length h
    simp only [List.length_nil, List.length_append] at this
    exact hne (List.length_eq_zero_iff.1 (by omega))
  | cons c s ih =>
    simp only [indexOf]
    split
    · next hp =>
      obtain ⟨t, ht⟩ := List.isPrefixOf_iff_prefix.1 hp
      simp only [reduceCtorEq, false_iff, Classical.not_not]
      exact ⟨[], t, by simpa using ht.symm⟩
    · next hp =>
      rw [Option.map_eq_none_iff, ih]
      constructor
      · rintro h ⟨a, b, hab⟩
        cases a with
        | nil => exact hp (List.isPrefixOf_iff_prefix.2 ⟨b, by simpa using hab.symm⟩)
        | cons x a => exact h ⟨a, b, by simp at hab; simpa using hab.2⟩
      · rintro h ⟨a, b, rfl⟩
        exact h ⟨c :: a, b, by simp⟩

/-- The first occurrence. -/
theorem indexOf_first {word : Text} (hne : word ≠ []) (a b : Text)
    (hfirst : ∀ x y, a ++ word ++ b = x ++ word ++ y → a.length ≤ x.length) : indexOf word (a ++ word ++ b) = some a.length := by
  induction a with
  | nil =>
    cases word with
    | nil => exact absurd rfl hne
    | cons c w =>
      have : (c :: w).isPrefixOf (c :: (w ++ b)) = true := List.isPrefixOf_iff_prefix.2 ⟨b, by simp⟩
      simp only [List.nil_append, List.cons_append, indexOf, this, if_true, List.length_nil]
  | cons c a ih =>
    simp only [List.cons_append, indexOf]
    rw [if_neg, ih]
    · rfl
    · intro x y hxy
      have := hfirst (c :: x) y (by simp only [List.cons_append, hxy])
      simpa using this
    · intro hp
      obtain ⟨t, ht⟩ := List.isPrefixOf_iff_prefix.1 hp
      have := hfirst [] t (by simpa using ht.symm)
      simp at this

/-- Without `from` the rule is looked for in the default stylesheet. -/
theorem refOf_default (env : Env) (a : Text) (ht : Tight env.space a) (h : ¬ Occurs (txt "from") (env.lower a)) :
    refOf env a = some ⟨env.main, a⟩ := by
  have hne : txt "from" ≠ [] := by decide
  have := strip_tight (space := env.space) (w := []) (w' := []) (by simp [Sp]) (by simp [Sp]) ht
  simp only [List.nil_append, List.append_nil] at this
  simp only [refOf, (indexOf_none hne _).2 h, this]

/-- With `from` it is looked for in the file which is named relative to `src/public`; the selector does not contain
`from` itself. -/
theorem refOf_from (env : Env) (sel from_ path : Text) (w1 w2 : Text) (hw1 : Sp env.space w1) (hw2 : Sp env.space w2)
    (hsel : Tight env.space sel) (hp : Tight env.space (47 :: path)) (hblank : 32 ∉ path) (habs : path.head? ≠ some 47)
    (hlow : ∀ s, (env.lower s).length = s.length) (hfrom : from_.length = 4)
    (hsplit : env.lower (sel ++ w1 ++ from_ ++ w2 ++ 47 :: path) = env.lower (sel ++ w1) ++ txt "from" ++ env.lower (w2 ++ 47 :: path))
    (hfirst : ∀ x y, env.lower (sel ++ w1) ++ txt "from" ++ env.lower (w2 ++ 47 :: path) = x ++ txt "from" ++ y →
      (sel ++ w1).length ≤ x.length) :
    refOf env (sel ++ w1 ++ from_ ++ w2 ++ 47 :: path) = some ⟨txt "src/public/" ++ path, sel⟩ := by
  have hne : txt "from" ≠ [] := by decide
  have hi : indexOf (txt "from") (env.lower (sel ++ w1 ++ from_ ++ w2 ++ 47 :: path)) = some (sel ++ w1).length := by
    rw [hsplit, indexOf_first hne _ _ (by rw [hlow]; exact hfirst), hlow]
  have hd : (sel ++ w1 ++ from_ ++ w2 ++ 47 :: path).drop ((sel ++ w1).length + 4) = w2 ++ 47 :: path ++ [] := by
    rw [← hfrom, ← List.length_append, List.append_assoc (sel ++ w1 ++ from_), List.drop_left]; simp
  have hs1 := strip_tight (space := env.space) (w := w2) (a := 47 :: path) (w' := []) hw2 (by simp [Sp]) hp
  have hs2 := strip_tight (space := env.space) (w := []) (a := sel) (w' := w1) (by simp [Sp]) hw1 hsel
  have ht : (sel ++ w1 ++ from_ ++ w2 ++ 47 :: path).take (sel ++ w1).length = [] ++ sel ++ w1 := by
    rw [show sel ++ w1 ++ from_ ++ w2 ++ 47 :: path = (sel ++ w1) ++ (from_ ++ w2 ++ 47 :: path) by simp, List.take_left]; simp
  unfold refOf
  rw [hi]
  dsimp only
  rw [hd, hs1, ht, hs2, if_neg (by simp [hblank])]
  congr 2
  have e0 : join (txt "src") (txt "public") = txt "src/public" := by decide
  have e1 : txt "src/public/" = txt "src/public" ++ [47] := by decide
  have e2 : (txt "src/public").getLast? ≠ some 47 := by decide
  have e3 : txt "src/public" ≠ [] := by decide
  rw [e0, e1, join]
  have : isAbs path = false := by
    unfold isAbs
    cases h : path.head? == some 47 with
    | false => rfl
    | true => exact absurd (by simpa using h) habs
  simp only [List.drop_succ_cons, List.drop_zero, this, Bool.false_eq_true, if_false, e2, e3, or_self]
  simp

/-! ## Whitespace apart, there is one expansion -/

/-- Without whitespace. -/
def solid (ts : List Tok) : List Tok := ts.filter (fun t => !isBlank t)

theorem solid_append (a b : List Tok) : solid (a ++ b) = solid a ++ solid b := List.filter_append _ _

theorem solid_blanks {w : List Tok} (h : Blanks w) : solid w = [] := by
  apply List.filter_eq_nil_iff.2
  intro t ht
  obtain ⟨v, rfl⟩ := h t ht
  simp [isBlank]

theorem Trim.solid {x y : List Tok} (h : Trim x y) : solid x = Nest.solid y := by
  obtain ⟨u, v, hu, hv, rfl⟩ := h
  rw [solid_append, solid_append, solid_blanks hu, solid_blanks hv]; simp

/-- Two expansions differ in whitespace only. -/
theorem Expands.unique {env : Env} {decls : Ref → Option (List Tok)} {ts a b : List Tok} (ha : Expands env decls ts a)
    (hb : Expands env decls ts b) : solid a = solid b := by
  induction ha generalizing b with
  | nil => cases hb; rfl
  | keep h1 _ ih =>
    cases hb with
    | keep h2 h3 =>
      simp only [solid, List.filter_cons] at ih ⊢
      rw [ih h3]
    | replace h2 => rw [h1] at h2; cases h2
  | replace h1 h2 h3 h4 h5 ih1 ih2 =>
    cases hb with
    | keep h6 => rw [h1] at h6; cases h6
    | replace h6 h7 h8 h9 h10 =>
      rw [h1] at h6; cases h6
      rw [h2] at h7; cases h7
      rw [solid_append, solid_append, ih2 h10, ← h4.solid, ← h9.solid, ih1 h8]

/-! ## Scanning and building name the same files -/

/-- The files from which a stylesheet imports, itself apart. -/
def ImportsFrom (env : Env) (doc : List Tok) (p : Text) : Prop := ∃ r, Imports env doc r ∧ r.relpath = p ∧ p ≠ env.self

theorem scan_spec (env : Env) (doc : List Tok) : ∀ (deps : List Text) (p : Text),
    p ∈ doc.foldl (scan env) deps ↔ p ∈ deps ∨ ImportsFrom env doc p := by
  induction doc with
  | nil => intro deps p; simp [ImportsFrom, Imports]
  | cons t doc ih =>
    intro deps p
    rw [List.foldl_cons, ih]
    have hcons : ImportsFrom env (t :: doc) p ↔ (∃ r, getImport env t = some r ∧ r.relpath = p ∧ p ≠ env.self) ∨ ImportsFrom env doc p := by
      constructor
      · rintro ⟨r, ⟨x, hx, hr⟩, h1, h2⟩
        rcases List.mem_cons.1 hx with h | h
        · subst h; exact .inl ⟨r, hr, h1, h2⟩
        · exact .inr ⟨r, ⟨x, h, hr⟩, h1, h2⟩
      · rintro (⟨r, hr, h1, h2⟩ | ⟨r, ⟨x, hx, hr⟩, h1, h2⟩)
        · exact ⟨r, ⟨t, by simp, hr⟩, h1, h2⟩
        · exact ⟨r, ⟨x, by simp [hx], hr⟩, h1, h2⟩
    rw [hcons, ← or_assoc]
    refine or_congr ?_ Iff.rfl
    unfold scan
    cases ht : getImport env t with
    | none => simp
    | some r =>
      simp only [Option.some.injEq, exists_eq_left']
      by_cases h : r.relpath = env.self ∨ r.relpath ∈ deps
      · rw [if_pos h]
        constructor
        · exact .inl
        · rintro (h1 | ⟨h1, h2⟩)
          · exact h1
          · subst h1
            rcases h with h | h
            · exact absurd h h2
            · exact h
      · rw [if_neg h, List.mem_append, List.mem_singleton]
        constructor
        · rintro (h1 | rfl)
          · exact .inl h1
          · exact .inr ⟨rfl, fun e => h (.inl e)⟩
        · rintro (h1 | ⟨h1, -⟩)
          · exact .inl h1
          · exact .inr h1.symm

/-- Expanding keeps the children which are noted. -/
theorem ensureResolved_children {env : Env} {n : Nat} {r : Ref} {st st' : St} (h : ensureResolved env n r st = .ok st') :
    st'.children = st.children := by
  unfold ensureResolved at h
  split at h
  · cases h
  · split at h
    · cases h; rfl
    · split at h
      · cases h
      · split at h
        · cases h
        · cases h; rfl

/-- What a successful build notes as children: the files of all imports which it expanded.  If the rules which were inserted
have no imports any more, these are the imports of the stylesheet. -/
theorem children_spec {paths : Text → Prop} {env : Env} {sheets : Text → List (Text × List Tok)} (hp : Project env paths sheets) :
    ∀ (doc : List Tok), (∀ r, Imports env doc r → paths r.relpath) → ∀ (st : St), Good env paths sheets st →
    ∀ n f pre b, loop [nest env n] f ⟨pre, none, st⟩ doc = some (.ok b) →
    ∀ p, p ∈ b.st.children ↔ p ∈ st.children ∨ ImportsFrom env doc p := by
  intro doc
  induction doc with
  | nil =>
    intro _ st _ n f pre b h p
    have : b = ⟨pre, none, st⟩ := by cases f <;> (simp only [loop, Option.some.injEq, Except.ok.injEq] at h; exact h.symm)
    subst this
    simp [ImportsFrom, Imports]
  | cons t doc ih =>
    intro hpaths st hg n f pre b h p
    have hpaths' : ∀ r, Imports env doc r → paths r.relpath := fun r ⟨x, h1, h2⟩ => hpaths r ⟨x, by simp [h1], h2⟩
    cases f with
    | zero => simp only [loop] at h; cases h
    | succ f =>
      rw [loop_step] at h
      cases ht : getImport env t with
      | none =>
        rw [ht] at h
        rw [ih hpaths' st hg n f _ b h p]
        refine or_congr Iff.rfl ?_
        constructor
        · rintro ⟨r, ⟨x, hx, hr⟩, h1⟩; exact ⟨r, ⟨x, by simp [hx], hr⟩, h1⟩
        · rintro ⟨r, ⟨x, hx, hr⟩, h1⟩
          rcases List.mem_cons.1 hx with h2 | h2
          · subst h2; rw [ht] at hr; cases hr
          · exact ⟨r, ⟨x, h2, hr⟩, h1⟩
      | some r =>
        rw [ht] at h
        dsimp only at h
        have hscan := scan_spec env [t] st.children p
        cases hs : start env st t with
        | error e => simp [start, ht] at hs
        | ok q =>
          obtain ⟨bo, st1⟩ := q
          rw [hs] at h
          dsimp only at h
          simp only [start, ht, Except.ok.injEq, Prod.mk.injEq] at hs
          have hch : p ∈ st1.children ↔ p ∈ st.children ∨ ImportsFrom env [t] p := by
            rw [← hscan, List.foldl_cons, List.foldl_nil, scan, ht, ← hs.2]
            dsimp only
            split <;> rfl
          have hg1 : Good env paths sheets st1 := by
            have : st1.rules = st.rules ∧ st1.gens = st.gens := by rw [← hs.2]; split <;> exact ⟨rfl, rfl⟩
            obtain ⟨a, b, c⟩ := hg
            refine ⟨by rw [this.1]; exact a, ?_, ?_⟩
            · intro p hpp g h; rw [this.2] at h; rw [this.1]; exact b p hpp g h
            · intro p hpp h; rw [this.2] at h; rw [this.1]; exact c p hpp h
          have happ : ImportsFrom env (t :: doc) p ↔ ImportsFrom env [t] p ∨ ImportsFrom env doc p := by
            constructor
            · rintro ⟨r, ⟨x, hx, hr⟩, h1⟩
              rcases List.mem_cons.1 hx with h2 | h2
              · exact .inl ⟨r, ⟨x, by simp [h2], hr⟩, h1⟩
              · exact .inr ⟨r, ⟨x, h2, hr⟩, h1⟩
            · rintro (⟨r, ⟨x, hx, hr⟩, h1⟩ | ⟨r, ⟨x, hx, hr⟩, h1⟩)
              · rw [List.mem_singleton] at hx; exact ⟨r, ⟨x, by simp [hx], hr⟩, h1⟩
              · exact ⟨r, ⟨x, by simp [hx], hr⟩, h1⟩
          rw [happ, ← or_assoc, ← hch]
          cases hc : cont env n st1 t with
          | error e => rw [hc] at h; simp at h
          | ok q =>
            obtain ⟨a, st2⟩ := q
            rw [hc] at h
            simp only [cont, ht] at hc
            split at hc
            · cases hc
            · next st' he =>
              split at hc
              · cases hc
              · next blk hblk =>
                cases hc
                dsimp only at h
                rcases ensureResolved_spec hp r (hpaths r ⟨t, by simp, ht⟩) hg1 with
                  ⟨st3, k1, k2, k3, k4, -⟩ | ⟨e, -, k1, -⟩
                · have : st3 = st2 := by
                    obtain ⟨N, hN⟩ := k1
                    have e1 := hN (max N n) (by omega)
                    have mono : ∀ k, ensureResolved env (n + k) r st1 = .ok st2 := by
                      intro k
                      induction k with
                      | zero => exact he
                      | succ k ih => rw [← ih]; exact ensureResolved_stays (n + k) r st1 (by rw [ih]; simp)
                    have e2 := mono (max N n - n)
                    rw [show n + (max N n - n) = max N n by omega] at e2
                    dsimp only at e1
                    rw [e1] at e2
                    exact Except.ok.inj e2
                  subst this
                  obtain ⟨hbf, hbp, -⟩ := k2.inv.sound r blk hblk
                  by_cases hlen : f < blk.length
                  · -- not enough fuel for the block
                    exfalso
                    have : ∀ (ts stack out : List Tok) (f : Nat), Pure env ts → f < ts.length →
                        loop [nest env n] f ⟨out, none, st3⟩ (ts ++ stack) = none := by
                      intro ts
                      induction ts with
                      | nil => intro stack out f _ hl; simp at hl
                      | cons x ts ihx =>
                        intro stack out f hpu hl
                        cases f with
                        | zero => rfl
                        | succ f =>
                          rw [List.cons_append, loop_step, hpu x (by simp)]
                          exact ihx _ _ _ (fun y hy => hpu y (by simp [hy])) (by simpa using hl)
                    rw [this blk doc pre f hbp hlen] at h
                    cases h
                  · obtain ⟨k, rfl⟩ : ∃ k, f = k + blk.length := ⟨f - blk.length, by omega⟩
                    rw [loop_pure n hbp doc pre st3 k] at h
                    rw [ih hpaths' st3 k2 n k _ b h p, k4]
                · exfalso
                  obtain ⟨N, hN⟩ := k1
                  have e1 := hN (max N n) (by omega)
                  have mono : ∀ k, ensureResolved env (n + k) r st1 = .ok st2 := by
                    intro k
                    induction k with
                    | zero => exact he
                    | succ k ih => rw [← ih]; exact ensureResolved_stays (n + k) r st1 (by rw [ih]; simp)
                  have e2 := mono (max N n - n)
                  rw [show n + (max N n - n) = max N n by omega] at e2
                  dsimp only at e1
                  rw [e1] at e2
                  cases e2

/-- C34 for imports of rules: the dependencies which scanning finds are the children which building finds, and both are the
files from which the stylesheet imports. -/
theorem C34_nest {paths : Text → Prop} {env : Env} {sheets : Text → List (Text × List Tok)} (hp : Project env paths sheets)
    (doc : List Tok) (hpaths : ∀ r, Imports env doc r → paths r.relpath) (n f : Nat) (b : State St Tok Err)
    (h : loop [nest env n] f ⟨[], none, St.new⟩ doc = some (.ok b)) (p : Text) :
    (p ∈ b.st.children ↔ ImportsFrom env doc p) ∧ (p ∈ doc.foldl (scan env) [] ↔ ImportsFrom env doc p) := by
  refine ⟨?_, ?_⟩
  · rw [children_spec hp doc hpaths St.new (.new paths) n f [] b h p]; simp [St.new]
  · rw [scan_spec]; simp

end Verif.Nest
