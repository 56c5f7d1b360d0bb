import Verif.Cli

/-!
C101: a command line is carried out as it is written, or not at all.
-/

namespace Verif.Cli

open Verif.Reader (Text txt)

/-! ## Specification -/

/-- `w` is the name `n`, or its beginning and not the beginning of any other name. -/
def Spelled (o : Options) (w n : Text) : Prop :=
  n ∈ names o ∧ (w = n ∨ (txt "--" <+: w ∧ w <+: n ∧ ∀ m ∈ names o, w <+: m → m = n))

/-- A negative number: digits, or a point with digits behind it and maybe before it. -/
def Negative (digit : Nat → Bool) (v : Text) : Prop :=
  ∃ a b, (∀ c ∈ a, digit c = true) ∧ (∀ c ∈ b, digit c = true) ∧ b ≠ [] ∧ (v = 45 :: b ∨ v = 45 :: (a ++ 46 :: b))

/-- An argument which is taken for an option: `-h…`, or something which, up to a `=`, is the beginning of a name. -/
def LooksLikeOption (o : Options) (v : Text) : Prop :=
  txt "-h" <+: v ∨ (txt "--" <+: v ∧ ∃ w, (w = v ∨ ∃ x, v = w ++ 61 :: x) ∧ 61 ∉ w ∧ ∃ n ∈ names o, w <+: n)

/-- An argument which may be the value of an option, written behind it: it does not begin with a dash, or is a dash, or, not being taken
for an option, is a negative number or has a space in it. -/
def Plain (digit : Nat → Bool) (o : Options) (v : Text) : Prop :=
  ¬ txt "-" <+: v ∨ v = txt "-" ∨ (¬ LooksLikeOption o v ∧ (Negative digit v ∨ 32 ∈ v))

/-- The value is a number if one is asked for. -/
def Fits (int : Text → Option Int) (k : Kind) (v : Text) : Prop := k = .number → ∃ z, int v = some z

/-- The arguments are written as they should: `Written o args seen` if they are the options `seen` with their values. -/
inductive Written (digit : Nat → Bool) (int : Text → Option Int) (o : Options) : List Text → List (Text × List Text) → Prop
  | nil : Written digit int o [] []
  /-- `--watch` -/
  | flag {w n rest seen} : 61 ∉ w → Spelled o w n → (n, Kind.flag) ∈ o → Written digit int o rest seen →
      Written digit int o (w :: rest) ((n, []) :: seen)
  /-- `--folder=x` -/
  | glued {w n k v rest seen} : 61 ∉ w → Spelled o w n → (n, k) ∈ o → k ≠ Kind.flag → Fits int k v → Written digit int o rest seen →
      Written digit int o ((w ++ 61 :: v) :: rest) ((n, [v]) :: seen)
  /-- `--folder x` -/
  | apart {w n k v rest seen} : 61 ∉ w → Spelled o w n → (n, k) ∈ o → k = Kind.text ∨ k = Kind.number → Plain digit o v →
      Fits int k v → Written digit int o rest seen → Written digit int o (w :: v :: rest) ((n, [v]) :: seen)
  /-- `--delay-files x y` -/
  | many {w n vs rest seen} : 61 ∉ w → Spelled o w n → (n, Kind.many) ∈ o → vs ≠ [] → (∀ v ∈ vs, Plain digit o v) →
      (∀ t, rest.head? = some t → ¬ Plain digit o t) → Written digit int o rest seen →
      Written digit int o (w :: (vs ++ rest)) ((n, vs) :: seen)

/-- The option is given. -/
def Given (seen : List (Text × List Text)) (n : Text) : Prop := ∃ vs, (n, vs) ∈ seen

/-- The option is given, and the last time with these values. -/
def Last (seen : List (Text × List Text)) (n : Text) (vs : List Text) : Prop :=
  ∃ a b, seen = a ++ (n, vs) :: b ∧ ¬ Given b n

/-- `r` is the last value which was given, or the default. -/
def Value (seen : List (Text × List Text)) (n default r : Text) : Prop := Last seen n [r] ∨ (¬ Given seen n ∧ r = default)

/-- `z` is the last number which was given, or the default. -/
def Number (int : Text → Option Int) (seen : List (Text × List Text)) (n : Text) (default z : Int) : Prop :=
  (∃ v, Last seen n [v] ∧ int v = some z) ∨ (¬ Given seen n ∧ z = default)

/-- Yes and no are options of their own; yes counts if both are given. -/
def Choice (seen : List (Text × List Text)) (yes no : Text) (r : Option Bool) : Prop :=
  (r = some true ↔ Given seen yes) ∧ (r = some false ↔ ¬ Given seen yes ∧ Given seen no)

/-- What the options of each command mean. -/
inductive Means (int : Text → Option Int) (seen : List (Text × List Text)) : Text → Call → Prop
  | init {folder host} : Value seen (txt "--folder") (txt ".") folder →
      (∀ h, host = some h ↔ Last seen (txt "--host") [h]) → Means int seen (txt "init") (.init folder host)
  | build {folder dev symlinks delay} : Value seen (txt "--folder") (txt ".") folder → (dev = true ↔ Given seen (txt "--dev")) →
      Choice seen (txt "--symlinks") (txt "--no-symlinks") symlinks →
      (Last seen (txt "--delay-files") delay ∨ (¬ Given seen (txt "--delay-files") ∧ delay = [])) →
      Means int seen (txt "build") (.build folder dev symlinks delay)
  | run {host port folder} : Value seen (txt "--host") (txt "localhost") host → Number int seen (txt "--port") 8888 port →
      Value seen (txt "--folder") (txt ".") folder → Means int seen (txt "run") (.run host port folder)
  | clean {folder placeholders} : Value seen (txt "--folder") (txt ".") folder →
      Choice seen (txt "--placeholders") (txt "--no-placeholders") placeholders →
      Means int seen (txt "clean") (.clean folder placeholders)
  | dev {folder host port watch debounce} : Value seen (txt "--folder") (txt ".") folder →
      Value seen (txt "--host") (txt "localhost") host → Number int seen (txt "--port") 8888 port →
      (watch = true ↔ Given seen (txt "--watch")) → Number int seen (txt "--debounce") 100 debounce →
      Means int seen (txt "dev") (.dev folder host port watch debounce)

/-- The options each command has (README.md:55-90 and the help texts). -/
inductive HasOptions : Text → Options → Prop
  | init : HasOptions (txt "init") [(txt "--folder", .text), (txt "--host", .text)]
  | build : HasOptions (txt "build") [(txt "--dev", .flag), (txt "--symlinks", .flag), (txt "--no-symlinks", .flag),
      (txt "--folder", .text), (txt "--delay-files", .many)]
  | run : HasOptions (txt "run") [(txt "--port", .number), (txt "--host", .text), (txt "--folder", .text)]
  | clean : HasOptions (txt "clean") [(txt "--folder", .text), (txt "--placeholders", .flag), (txt "--no-placeholders", .flag)]
  | dev : HasOptions (txt "dev") [(txt "--folder", .text), (txt "--host", .text), (txt "--port", .number), (txt "--watch", .flag),
      (txt "--debounce", .number)]

/-- The names of a command: all different, with two dashes and without `=`. -/
structure Proper (o : Options) : Prop where
  nodup : (names o).Nodup
  dashes : ∀ n ∈ names o, txt "--" <+: n
  noEq : ∀ n ∈ names o, 61 ∉ n
  longer : ∀ n ∈ names o, n ≠ txt "--"

theorem proper_of {o : Options} (h : (decide (names o).Nodup && (names o).all fun n => (txt "--").isPrefixOf n && !n.contains 61
    && n != txt "--") = true) : Proper o := by
  simp only [Bool.and_eq_true, decide_eq_true_eq, List.all_eq_true] at h
  refine ⟨h.1, fun n hn => List.isPrefixOf_iff_prefix.1 (h.2 n hn).1.1, fun n hn => ?_, fun n hn => ?_⟩
  · have := (h.2 n hn).1.2
    simpa using this
  · have := (h.2 n hn).2
    simpa using this

/-! ## One argument -/

theorem cut_none : ∀ t : Text, 61 ∉ t → cut t = (t, none)
  | [], _ => rfl
  | c :: cs, h => by
    have h1 : c ≠ 61 := fun e => h (by simp [e])
    have h2 : 61 ∉ cs := fun e => h (List.mem_cons_of_mem _ e)
    simp [cut, h1, cut_none cs h2]

theorem cut_some : ∀ w x : Text, 61 ∉ w → cut (w ++ 61 :: x) = (w, some x)
  | [], x, _ => by simp [cut]
  | c :: cs, x, h => by
    have h1 : c ≠ 61 := fun e => h (by simp [e])
    have h2 : 61 ∉ cs := fun e => h (List.mem_cons_of_mem _ e)
    simp [cut, h1, cut_some cs x h2]

theorem cut_cases (t : Text) : (61 ∉ t ∧ cut t = (t, none)) ∨ ∃ w x, 61 ∉ w ∧ t = w ++ 61 :: x ∧ cut t = (w, some x) := by
  by_cases h : 61 ∈ t
  · obtain ⟨w, x, rfl, hw⟩ := List.eq_append_cons_of_mem h
    exact Or.inr ⟨w, x, hw, rfl, cut_some w x hw⟩
  · exact Or.inl ⟨h, cut_none t h⟩

theorem dashdash : txt "--" = [45, 45] := by decide
theorem dash : txt "-" = [45] := by decide
theorem dashh : txt "-h" = [45, 104] := by decide

theorem prefix_cut {t : Text} : txt "--" <+: t → txt "--" <+: (cut t).1 := by
  rw [dashdash]
  rintro ⟨r, rfl⟩
  simp [cut]

theorem dropWhile_all {digit : Nat → Bool} : ∀ l : Text, l.all digit = true → l.dropWhile digit = []
  | [], _ => rfl
  | c :: cs, h => by
    simp only [List.all_cons, Bool.and_eq_true] at h
    simp [List.dropWhile_cons, h.1, dropWhile_all cs h.2]

theorem negative_iff {digit : Nat → Bool} (v : Text) (hpt : digit 46 = false) : negative digit v = true ↔ Negative digit v := by
  cases v with
  | nil => simp [negative, Negative]
  | cons c cs =>
    unfold negative Negative
    simp only [Bool.and_eq_true, Bool.or_eq_true, decide_eq_true_eq, List.all_eq_true, Bool.not_eq_true', List.isEmpty_eq_false_iff]
    constructor
    · rintro ⟨rfl, h | h⟩
      · exact ⟨[], cs, by simp, h.2, h.1, Or.inl rfl⟩
      · split at h
        · rename_i ds hds
          simp only [Bool.and_eq_true, Bool.not_eq_true', List.isEmpty_eq_false_iff, List.all_eq_true] at h
          refine ⟨cs.takeWhile digit, ds, ?_, h.2, h.1, Or.inr ?_⟩
          · intro x hx
            exact List.all_eq_true.1 (List.all_takeWhile (p := digit) (l := cs)) x hx
          · rw [← hds, List.takeWhile_append_dropWhile]
        · cases h
    · rintro ⟨a, b, ha, hb, hne, h | h⟩
      · rw [List.cons.injEq] at h
        obtain ⟨rfl, rfl⟩ := h
        exact ⟨rfl, Or.inl ⟨hne, hb⟩⟩
      · rw [List.cons.injEq] at h
        obtain ⟨rfl, rfl⟩ := h
        refine ⟨rfl, Or.inr ?_⟩
        have : (a ++ 46 :: b).dropWhile digit = 46 :: b := by
          rw [List.dropWhile_append_of_pos ha]
          simp [hpt]
        rw [this]
        simp only [Bool.and_eq_true, Bool.not_eq_true', List.isEmpty_eq_false_iff, List.all_eq_true]
        exact ⟨hne, hb⟩

theorem single {l : List Text} {n : Text} (hd : l.Nodup) (hn : n ∈ l) (h : ∀ m ∈ l, m = n) : l = [n] := by
  match l, hd, hn, h with
  | [a], _, _, h => rw [h a (by simp)]
  | a :: b :: r, hd, _, h =>
    have e : a = b := (h a (by simp)).trans (h b (by simp)).symm
    simp [e] at hd

theorem spelled_iff {o : Options} (hp : Proper o) {p n : Text} (hd : txt "--" <+: p) :
    Spelled o p n ↔ if p ∈ names o then n = p else (names o).filter (fun m => p.isPrefixOf m) = [n] := by
  split
  · rename_i hm
    constructor
    · rintro ⟨_, e | ⟨_, _, h⟩⟩
      · exact e.symm
      · exact (h p hm (List.prefix_rfl)).symm
    · rintro rfl
      exact ⟨hm, Or.inl rfl⟩
  · rename_i hm
    constructor
    · rintro ⟨hn, e | ⟨_, h1, h2⟩⟩
      · exact absurd (e ▸ hn) hm
      · refine single (hp.nodup.filter _) ?_ ?_
        · exact List.mem_filter.2 ⟨hn, List.isPrefixOf_iff_prefix.2 h1⟩
        · intro m hm
          obtain ⟨h3, h4⟩ := List.mem_filter.1 hm
          exact h2 m h3 (List.isPrefixOf_iff_prefix.1 h4)
    · intro h
      have hn : n ∈ (names o).filter (fun m => p.isPrefixOf m) := by rw [h]; simp
      obtain ⟨h3, h4⟩ := List.mem_filter.1 hn
      refine ⟨h3, Or.inr ⟨hd, List.isPrefixOf_iff_prefix.1 h4, ?_⟩⟩
      intro m hm hpre
      have : m ∈ (names o).filter (fun m => p.isPrefixOf m) := List.mem_filter.2 ⟨hm, List.isPrefixOf_iff_prefix.2 hpre⟩
      rw [h] at this
      simpa using this

theorem word_dash {digit : Nat → Bool} {o : Options} (hp : Proper o) {t : Text} (ht : txt "--" <+: t) :
    word digit o t = if (cut t).1 ∈ names o then some (.opt (cut t).1 (cut t).2) else
      match (names o).filter (fun n => (cut t).1.isPrefixOf n) with
      | [] => some (if negative digit t then .plain t else if 32 ∈ t then .plain t else .unknown)
      | [n] => some (.opt n (cut t).2)
      | _ => none := by
  rw [dashdash] at ht
  obtain ⟨r, rfl⟩ := ht
  show word digit o (45 :: 45 :: r) = _
  simp only [List.cons_append, List.nil_append]
  rw [word]
  rw [if_neg (by decide), if_pos rfl]
  rcases cut_cases (45 :: 45 :: r) with ⟨h1, h2⟩ | ⟨w, x, h1, h2, h3⟩
  · rw [h2]
    by_cases hm : (45 :: 45 :: r) ∈ names o
    · rw [if_pos hm, if_pos hm]
    · rw [if_neg hm, if_neg hm, if_neg (by simp)]
      rfl
  · rw [if_neg (fun hm => hp.noEq _ hm (by rw [h2]; simp)), h3]
    by_cases hm : w ∈ names o
    · rw [if_pos hm, if_pos ⟨rfl, hm⟩]
    · rw [if_neg (fun h => hm h.2), if_neg hm]
      rfl

theorem looks_iff {o : Options} (hp : Proper o) {t : Text} (ht : txt "--" <+: t) :
    LooksLikeOption o t ↔ (names o).filter (fun n => (cut t).1.isPrefixOf n) ≠ [] := by
  have hh : ¬ txt "-h" <+: t := by
    rw [dashdash] at ht
    obtain ⟨r, rfl⟩ := ht
    rw [dashh]
    rintro ⟨q, hq⟩
    simp at hq
  constructor
  · rintro (h | ⟨_, w, hw, h1, n, hn, hpre⟩)
    · exact absurd h hh
    · have : (cut t).1 = w := by
        rcases hw with rfl | ⟨x, rfl⟩
        · rw [cut_none _ h1]
        · rw [cut_some _ _ h1]
      rw [this]
      exact List.ne_nil_of_mem (List.mem_filter.2 ⟨hn, List.isPrefixOf_iff_prefix.2 hpre⟩)
  · intro h
    obtain ⟨n, hn⟩ := List.exists_mem_of_ne_nil _ h
    obtain ⟨h3, h4⟩ := List.mem_filter.1 hn
    refine Or.inr ⟨ht, (cut t).1, ?_, ?_, n, h3, List.isPrefixOf_iff_prefix.1 h4⟩
    · rcases cut_cases t with ⟨_, h2⟩ | ⟨w, x, _, h2, h3⟩
      · exact Or.inl (by rw [h2])
      · exact Or.inr ⟨x, by rw [h3, ← h2]⟩
    · rcases cut_cases t with ⟨h1, h2⟩ | ⟨w, x, h1, h2, h3⟩
      · rw [h2]; exact h1
      · rw [h3]; exact h1

theorem word_opt {digit : Nat → Bool} {o : Options} (hp : Proper o) {t n : Text} {val : Option Text} :
    word digit o t = some (.opt n val) ↔
      ∃ w, 61 ∉ w ∧ Spelled o w n ∧ ((val = none ∧ t = w) ∨ ∃ x, val = some x ∧ t = w ++ 61 :: x) := by
  have hsp : ∀ w, Spelled o w n → txt "--" <+: w := by
    rintro w ⟨hn, rfl | ⟨h, _⟩⟩
    · exact hp.dashes _ hn
    · exact h
  constructor
  · intro h
    have ht : txt "--" <+: t := by
      rw [dashdash]
      match t, h with
      | [], h => simp [word] at h
      | [c], h => simp [word] at h
      | c :: d :: r, h =>
        rw [word] at h
        split at h
        · cases h
        · rename_i hc
          split at h
          · rename_i hd
            exact ⟨r, by simp [hd, Decidable.of_not_not hc]⟩
          · split at h
            · cases h
            · split at h
              · cases h
              · split at h <;> cases h
    rw [word_dash hp ht] at h
    have hw : Spelled o (cut t).1 n ∧ val = (cut t).2 := by
      rw [spelled_iff hp (prefix_cut ht)]
      split at h
      · rename_i hm
        simp only [Option.some.injEq, Word.opt.injEq] at h
        rw [if_pos hm]
        exact ⟨h.1.symm, h.2.symm⟩
      · rename_i hm
        rw [if_neg hm]
        split at h
        · split at h
          · cases h
          · split at h <;> cases h
        · rename_i m hm
          simp only [Option.some.injEq, Word.opt.injEq] at h
          rw [hm, h.1]
          exact ⟨rfl, h.2.symm⟩
        · cases h
    rcases cut_cases t with ⟨h1, h2⟩ | ⟨w, x, h1, h2, h3⟩
    · rw [h2] at hw
      exact ⟨t, h1, hw.1, Or.inl ⟨hw.2, rfl⟩⟩
    · rw [h3] at hw
      exact ⟨w, h1, hw.1, Or.inr ⟨x, hw.2, h2⟩⟩
  · rintro ⟨w, h1, h2, h3⟩
    have hc : (cut t) = (w, val) := by
      rcases h3 with ⟨rfl, rfl⟩ | ⟨x, rfl, rfl⟩
      · exact cut_none _ h1
      · exact cut_some _ _ h1
    have ht : txt "--" <+: t := by
      rcases h3 with ⟨_, rfl⟩ | ⟨x, _, rfl⟩
      · exact hsp _ h2
      · exact (hsp _ h2).trans (List.prefix_append _ _)
    rw [word_dash hp ht, hc]
    have := (spelled_iff hp (hsp _ h2)).1 h2
    split at this
    · rename_i hm
      rw [if_pos hm, this]
    · rename_i hm
      rw [if_neg hm, this]

theorem word_plain {digit : Nat → Bool} (hpt : digit 46 = false) {o : Options} (hp : Proper o) {t v : Text} :
    word digit o t = some (.plain v) ↔ v = t ∧ Plain digit o t := by
  match t with
  | [] => simp [word, Plain, dash, eq_comm]
  | [c] =>
    simp only [word, Plain, dash, Option.some.injEq, Word.plain.injEq]
    constructor
    · rintro rfl
      refine ⟨rfl, ?_⟩
      by_cases hc : c = 45
      · exact Or.inr (Or.inl (by rw [hc]))
      · refine Or.inl ?_
        rintro ⟨r, hr⟩
        simp at hr
        exact hc hr.1.symm
    · exact fun h => h.1.symm
  | c :: d :: r =>
    have rest : ∀ P : Prop, (¬ LooksLikeOption o (c :: d :: r) ↔ P) → c = 45 →
        ((if negative digit (c :: d :: r) then Word.plain (c :: d :: r) else if 32 ∈ (c :: d :: r) then .plain (c :: d :: r) else .unknown)
          = .plain v ∧ P ↔ v = c :: d :: r ∧ Plain digit o (c :: d :: r)) := by
      intro P hP hc
      unfold Plain
      rw [hP, ← negative_iff _ hpt]
      have h1 : txt "-" <+: c :: d :: r := by rw [dash, hc]; exact ⟨d :: r, rfl⟩
      have h2 : c :: d :: r ≠ txt "-" := by rw [dash]; simp
      by_cases hn : negative digit (c :: d :: r) = true
      · rw [if_pos hn]
        simp only [Word.plain.injEq]
        constructor
        · rintro ⟨rfl, h⟩; exact ⟨rfl, Or.inr (Or.inr ⟨h, Or.inl hn⟩)⟩
        · rintro ⟨rfl, h | h | h⟩
          · exact absurd h1 h
          · exact absurd h h2
          · exact ⟨rfl, h.1⟩
      · rw [if_neg hn]
        by_cases hs : 32 ∈ c :: d :: r
        · rw [if_pos hs]
          simp only [Word.plain.injEq]
          constructor
          · rintro ⟨rfl, h⟩; exact ⟨rfl, Or.inr (Or.inr ⟨h, Or.inr hs⟩)⟩
          · rintro ⟨rfl, h | h | h⟩
            · exact absurd h1 h
            · exact absurd h h2
            · exact ⟨rfl, h.1⟩
        · rw [if_neg hs]
          constructor
          · rintro ⟨h, _⟩; cases h
          · rintro ⟨rfl, h | h | ⟨_, h | h⟩⟩
            · exact absurd h1 h
            · exact absurd h h2
            · exact absurd h hn
            · exact absurd h hs
    by_cases hc : c = 45
    · by_cases hd : d = 45
      · have ht : txt "--" <+: c :: d :: r := by rw [dashdash, hc, hd]; exact ⟨r, rfl⟩
        have hl := looks_iff hp ht
        rw [word_dash hp ht, ← rest _ (not_congr hl) hc]
        split
        · rename_i hm
          constructor
          · intro h; cases h
          · rintro ⟨_, h⟩
            exact absurd (fun e => (List.filter_eq_nil_iff.1 e) _ hm (List.isPrefixOf_iff_prefix.2 List.prefix_rfl)) h
        · split
          · rename_i he
            rw [he]
            simp
          · rename_i he
            rw [he]
            simp
          · rename_i h1 h2
            constructor
            · intro h; cases h
            · rintro ⟨_, h⟩
              exact absurd (fun e => h1 e) h
      · rw [word, if_neg (by simp [hc]), if_neg hd]
        by_cases hh : d = 104
        · rw [if_pos hh]
          constructor
          · intro h; cases h
          · rintro ⟨_, h | h | h⟩
            · exact absurd (by rw [dash, hc]; exact ⟨d :: r, rfl⟩) h
            · rw [dash] at h; simp at h
            · exact absurd (Or.inl (by rw [dashh, hc, hh]; exact ⟨r, rfl⟩)) h.1
        · rw [if_neg hh, ← rest True ?_ hc]
          · simp
          · simp only [iff_true]
            rintro (h | ⟨h, _⟩)
            · rw [dashh] at h
              obtain ⟨q, hq⟩ := h
              simp at hq
              exact hh hq.2.1.symm
            · rw [dashdash] at h
              obtain ⟨q, hq⟩ := h
              simp at hq
              exact hd hq.2.1.symm
    · rw [word, if_pos hc]
      simp only [Option.some.injEq, Word.plain.injEq]
      constructor
      · rintro rfl
        refine ⟨rfl, Or.inl ?_⟩
        rw [dash]
        rintro ⟨q, hq⟩
        simp at hq
        exact hc hq.1.symm
      · exact fun h => h.1.symm

/-! ## All the arguments -/

theorem not_plain_dashdash {digit : Nat → Bool} (hpt : digit 46 = false) {o : Options} (hp : Proper o) : ¬ Plain digit o (txt "--") := by
  intro h
  have h1 := (word_plain hpt hp).2 ⟨rfl, h⟩
  have hm : help ∈ (names o).filter (fun n => (cut (txt "--")).1.isPrefixOf n) := by
    refine List.mem_filter.2 ⟨by simp [names], by decide⟩
  rw [word_dash hp List.prefix_rfl] at h1
  split at h1
  · cases h1
  · split at h1
    · rename_i he
      rw [he] at hm
      cases hm
    · cases h1
    · cases h1

theorem wordList_cons {digit : Nat → Bool} {o : Options} {t : Text} {ts : List Text} {ws : List Word} (ht : t ≠ txt "--") :
    wordList digit o (t :: ts) = some ws ↔ ∃ w r, ws = w :: r ∧ word digit o t = some w ∧ wordList digit o ts = some r := by
  rw [wordList, if_neg ht]
  constructor
  · intro h
    split at h
    · rename_i w r h1 h2
      exact ⟨w, r, (Option.some.inj h).symm, h1, h2⟩
    · cases h
  · rintro ⟨w, r, rfl, h1, h2⟩
    rw [h1, h2]

theorem leading_spec {digit : Nat → Bool} (hpt : digit 46 = false) {o : Options} (hp : Proper o) : ∀ (ts : List Text) (ws : List Word),
    wordList digit o ts = some ws → ∃ rest, ts = (leading ws).1 ++ rest ∧ wordList digit o rest = some (leading ws).2 ∧
      (∀ v ∈ (leading ws).1, Plain digit o v) ∧ (∀ t, rest.head? = some t → ¬ Plain digit o t)
  | [], ws, h => by
    simp only [wordList, Option.some.injEq] at h
    subst h
    exact ⟨[], by simp [leading, wordList]⟩
  | t :: ts, ws, h => by
    by_cases ht : t = txt "--"
    · refine ⟨t :: ts, ?_⟩
      have h' := h
      rw [wordList, if_pos ht] at h'
      have e := Option.some.inj h'
      subst e
      refine ⟨by simp [leading], by simpa [leading] using h, by simp [leading], ?_⟩
      rintro x hx
      simp only [List.head?_cons, Option.some.injEq] at hx
      rw [← hx, ht]
      exact not_plain_dashdash hpt hp
    · obtain ⟨w, r, rfl, h1, h2⟩ := (wordList_cons ht).1 h
      have other : (∀ v, w ≠ .plain v) → leading (w :: r) = ([], w :: r) := by
        intro hw
        cases w with
        | plain v => exact absurd rfl (hw v)
        | opt n v => rfl
        | unknown => rfl
        | stop => rfl
      by_cases hw : ∃ v, w = .plain v
      · obtain ⟨v, rfl⟩ := hw
        obtain ⟨rfl, hpl⟩ := (word_plain hpt hp).1 h1
        obtain ⟨rest, e1, e2, e3, e4⟩ := leading_spec hpt hp ts r h2
        refine ⟨rest, ?_, e2, ?_, e4⟩
        · show v :: ts = (v :: (leading r).1) ++ rest
          rw [List.cons_append, ← e1]
        · intro x hx
          rcases List.mem_cons.1 hx with rfl | hx
          · exact hpl
          · exact e3 x hx
      · rw [other (fun v e => hw ⟨v, e⟩)]
        refine ⟨t :: ts, by simp, h, by simp, ?_⟩
        intro x hx hpl
        simp only [List.head?_cons, Option.some.injEq] at hx
        subst hx
        rw [(word_plain hpt hp).2 ⟨rfl, hpl⟩] at h1
        exact hw ⟨t, (Option.some.inj h1).symm⟩

theorem find_mem {o : Options} (hp : Proper o) {n : Text} {k : Kind} : o.find? (fun x => x.1 = n) = some (n, k) ↔ (n, k) ∈ o := by
  have hd : (o.map (·.1)).Nodup := (List.nodup_cons.1 hp.nodup).2
  clear hp
  induction o with
  | nil => simp
  | cons x o ih =>
    rw [List.map_cons, List.nodup_cons] at hd
    rw [List.find?_cons]
    by_cases hx : x.1 = n
    · simp only [hx, decide_true, Option.some.injEq, List.mem_cons]
      constructor
      · exact fun h => Or.inl h.symm
      · rintro (h | h)
        · exact h.symm
        · exact absurd (List.mem_map.2 ⟨_, h, hx.symm⟩) hd.1
    · simp only [hx, decide_false]
      rw [List.mem_cons]
      refine (ih hd.2).trans ?_
      constructor
      · exact Or.inr
      · rintro (h | h)
        · exact absurd (by rw [← h]) hx
        · exact h

theorem accepts_iff {int : Text → Option Int} {k : Kind} {v : Text} : accepts int k v = true ↔ Fits int k v := by
  cases k <;> simp [accepts, Fits, Option.isSome_iff_exists]

theorem written_of_consume {digit : Nat → Bool} (hpt : digit 46 = false) {int : Text → Option Int} {o : Options} (hp : Proper o) :
    ∀ (l : Nat) (args : List Text) (ws : List Word) (seen : List (Text × List Text)), args.length ≤ l → wordList digit o args = some ws →
      consume int o ws = some seen → Written digit int o args seen := by
  intro l
  induction l with
  | zero =>
    intro args ws seen hl h1 h2
    have : args = [] := List.length_eq_zero_iff.1 (by omega)
    subst this
    simp only [wordList, Option.some.injEq] at h1
    subst h1
    rw [consume] at h2
    rw [← Option.some.inj h2]
    exact .nil
  | succ l ih =>
    intro args ws seen hl h1 h2
    match args, hl, h1 with
    | [], _, h1 =>
      simp only [wordList, Option.some.injEq] at h1
      subst h1
      rw [consume] at h2
      rw [← Option.some.inj h2]
      exact .nil
    | t :: ts, hl, h1 =>
      have hl' : ts.length ≤ l := by simp at hl; omega
      by_cases ht : t = txt "--"
      · rw [wordList, if_pos ht] at h1
        rw [← Option.some.inj h1, consume] at h2
        cases h2
      · obtain ⟨w, r, rfl, hw, hr⟩ := (wordList_cons ht).1 h1
        cases w with
        | plain v => rw [consume] at h2; cases h2
        | unknown => rw [consume] at h2; cases h2
        | stop => rw [consume] at h2; cases h2
        | opt n val =>
          obtain ⟨w, hw1, hw2, hw3⟩ := (word_opt hp).1 hw
          rw [consume] at h2
          cases hf : o.find? (fun x => x.1 = n) with
          | none => rw [hf] at h2; cases h2
          | some y =>
            obtain ⟨n', k⟩ := y
            have hn : n' = n := by simpa using List.find?_some hf
            subst hn
            rw [hf] at h2
            dsimp only at h2
            have hk := (find_mem hp).1 hf
            rcases hw3 with ⟨rfl, rfl⟩ | ⟨v, rfl, rfl⟩
            · dsimp only at h2
              have one : k = .text ∨ k = .number → ∀ v ws', r = .plain v :: ws' → accepts int k v = true →
                  (consume int o ws').map ((n', [v]) :: ·) = some seen → Written digit int o (t :: ts) seen := by
                rintro hkk v ws' rfl hacc h2
                rw [Option.map_eq_some_iff] at h2
                obtain ⟨s, hs, rfl⟩ := h2
                match ts, hr, hl' with
                | [], hr, _ => simp [wordList] at hr
                | u :: us, hr, hl' =>
                  by_cases hu : u = txt "--"
                  · rw [wordList, if_pos hu] at hr
                    simp at hr
                  · obtain ⟨w2, r2, e, hw4, hr2⟩ := (wordList_cons hu).1 hr
                    rw [List.cons.injEq] at e
                    obtain ⟨rfl, rfl⟩ := e
                    obtain ⟨rfl, hpl⟩ := (word_plain hpt hp).1 hw4
                    exact .apart hw1 hw2 hk hkk hpl (accepts_iff.1 hacc) (ih us _ s (by simp at hl'; omega) hr2 hs)
              cases k with
              | flag =>
                dsimp only at h2
                rw [Option.map_eq_some_iff] at h2
                obtain ⟨s, hs, rfl⟩ := h2
                exact .flag hw1 hw2 hk (ih ts r s hl' hr hs)
              | many =>
                dsimp only at h2
                split at h2
                · cases h2
                · rename_i hne
                  rw [Option.map_eq_some_iff] at h2
                  obtain ⟨s, hs, rfl⟩ := h2
                  obtain ⟨rest, e1, e2, e3, e4⟩ := leading_spec hpt hp ts r hr
                  rw [e1]
                  exact .many hw1 hw2 hk hne e3 e4 (ih rest _ s (by
                    have := congrArg List.length e1
                    simp at this
                    omega) e2 hs)
              | text =>
                dsimp only at h2
                split at h2
                · split at h2
                  · rename_i hacc
                    exact one (Or.inl rfl) _ _ rfl hacc h2
                  · cases h2
                · cases h2
              | number =>
                dsimp only at h2
                split at h2
                · split at h2
                  · rename_i hacc
                    exact one (Or.inr rfl) _ _ rfl hacc h2
                  · cases h2
                · cases h2
            · dsimp only at h2
              have glued : k ≠ .flag → (if accepts int k v then (consume int o r).map ((n', [v]) :: ·) else none) = some seen →
                  Written digit int o ((w ++ 61 :: v) :: ts) seen := by
                intro hkk h2
                split at h2
                · rename_i hacc
                  rw [Option.map_eq_some_iff] at h2
                  obtain ⟨s, hs, rfl⟩ := h2
                  exact .glued hw1 hw2 hk hkk (accepts_iff.1 hacc) (ih ts r s hl' hr hs)
                · cases h2
              cases k with
              | flag => cases h2
              | many => exact glued (by simp) h2
              | text => exact glued (by simp) h2
              | number => exact glued (by simp) h2

theorem word_ne {o : Options} (hp : Proper o) (hm : ∃ n ∈ names o, n ≠ help) {w n : Text} (h : Spelled o w n) :
    w ≠ txt "--" := by
  rintro rfl
  obtain ⟨h1, h2 | ⟨_, _, h2⟩⟩ := h
  · exact hp.longer n h1 h2.symm
  · obtain ⟨m, hm, hne⟩ := hm
    have e1 := h2 m hm (hp.dashes m hm)
    have e2 := h2 help (by simp [names]) (by decide)
    exact hne (e1.trans e2.symm)

theorem leading_map {vs : List Text} {ws : List Word} (h : ∀ v, ws.head? ≠ some (.plain v)) : leading (vs.map .plain ++ ws) = (vs, ws) := by
  induction vs with
  | nil =>
    match ws with
    | [] => rfl
    | .plain v :: _ => exact absurd rfl (h v)
    | .opt _ _ :: _ => rfl
    | .unknown :: _ => rfl
    | .stop :: _ => rfl
  | cons v vs ih => simp [leading, ih]

theorem consume_of_written {digit : Nat → Bool} (hpt : digit 46 = false) {int : Text → Option Int} {o : Options} (hp : Proper o)
    {args : List Text} {seen : List (Text × List Text)} (h : Written digit int o args seen) :
    ∃ ws, wordList digit o args = some ws ∧ consume int o ws = some seen := by
  have other : ∀ {n k}, (n, k) ∈ o → ∃ m ∈ names o, m ≠ help := by
    intro n k hk
    have := hp.nodup
    refine ⟨n, List.mem_cons_of_mem _ (List.mem_map.2 ⟨_, hk, rfl⟩), ?_⟩
    rintro rfl
    exact (List.nodup_cons.1 this).1 (List.mem_map.2 ⟨_, hk, rfl⟩)
  have pl : ∀ {v}, Plain digit o v → v ≠ txt "--" := by
    rintro v h rfl
    exact not_plain_dashdash hpt hp h
  induction h with
  | nil => exact ⟨[], by simp [wordList], by rw [consume]⟩
  | @flag w n rest seen h1 h2 h3 h4 ih =>
    obtain ⟨ws, e1, e2⟩ := ih
    refine ⟨.opt n none :: ws, (wordList_cons (word_ne hp (other h3) h2)).2 ⟨_, _, rfl, (word_opt hp).2 ⟨w, h1, h2, Or.inl ⟨rfl, rfl⟩⟩, e1⟩, ?_⟩
    rw [consume, (find_mem hp).2 h3]
    dsimp only
    rw [e2]
    rfl
  | @glued w n k v rest seen h1 h2 h3 hk h4 h5 ih =>
    obtain ⟨ws, e1, e2⟩ := ih
    have hne : w ++ 61 :: v ≠ txt "--" := by
      intro e
      have : 61 ∈ txt "--" := by rw [← e]; simp
      revert this
      decide
    refine ⟨.opt n (some v) :: ws, (wordList_cons hne).2 ⟨_, _, rfl, (word_opt hp).2 ⟨w, h1, h2, Or.inr ⟨v, rfl, rfl⟩⟩, e1⟩, ?_⟩
    rw [consume, (find_mem hp).2 h3]
    have := accepts_iff.2 h4
    cases k with
    | flag => exact absurd rfl hk
    | text => dsimp only; rw [if_pos this, e2]; rfl
    | number => dsimp only; rw [if_pos this, e2]; rfl
    | many => dsimp only; rw [if_pos this, e2]; rfl
  | @apart w n k v rest seen h1 h2 h3 hk hpl h4 h5 ih =>
    obtain ⟨ws, e1, e2⟩ := ih
    refine ⟨.opt n none :: .plain v :: ws, (wordList_cons (word_ne hp (other h3) h2)).2
      ⟨_, _, rfl, (word_opt hp).2 ⟨w, h1, h2, Or.inl ⟨rfl, rfl⟩⟩,
        (wordList_cons (pl hpl)).2 ⟨_, _, rfl, (word_plain hpt hp).2 ⟨rfl, hpl⟩, e1⟩⟩, ?_⟩
    rw [consume, (find_mem hp).2 h3]
    have := accepts_iff.2 h4
    rcases hk with rfl | rfl
    · dsimp only; rw [if_pos this, e2]; rfl
    · dsimp only; rw [if_pos this, e2]; rfl
  | @many w n vs rest seen h1 h2 h3 hne hpl hrest h5 ih =>
    obtain ⟨ws, e1, e2⟩ := ih
    have hws : ∀ vs : List Text, (∀ v ∈ vs, Plain digit o v) → wordList digit o (vs ++ rest) = some (vs.map .plain ++ ws) := by
      intro vs hpl
      induction vs with
      | nil => exact e1
      | cons v vs ihv =>
        exact (wordList_cons (pl (hpl v (by simp)))).2 ⟨_, _, rfl, (word_plain hpt hp).2 ⟨rfl, hpl v (by simp)⟩,
          ihv fun x hx => hpl x (List.mem_cons_of_mem _ hx)⟩
    have hhead : ∀ v, ws.head? ≠ some (.plain v) := by
      intro v hv
      match rest, e1, hrest with
      | [], e1, _ =>
        simp only [wordList, Option.some.injEq] at e1
        subst e1
        cases hv
      | t :: ts, e1, hrest =>
        by_cases ht : t = txt "--"
        · rw [wordList, if_pos ht] at e1
          rw [← Option.some.inj e1] at hv
          simp at hv
        · obtain ⟨w, r, rfl, hw, _⟩ := (wordList_cons ht).1 e1
          simp only [List.head?_cons, Option.some.injEq] at hv
          subst hv
          exact hrest t rfl ((word_plain hpt hp).1 hw).2
    refine ⟨.opt n none :: (vs.map .plain ++ ws), (wordList_cons (word_ne hp (other h3) h2)).2
      ⟨_, _, rfl, (word_opt hp).2 ⟨w, h1, h2, Or.inl ⟨rfl, rfl⟩⟩, hws vs hpl⟩, ?_⟩
    rw [consume, (find_mem hp).2 h3]
    dsimp only
    rw [leading_map hhead, if_neg hne]
    dsimp only
    rw [e2]
    rfl

theorem parse_iff {digit : Nat → Bool} (hpt : digit 46 = false) {int : Text → Option Int} {o : Options} (hp : Proper o) {args : List Text}
    {seen : List (Text × List Text)} : parse digit int o args = some seen ↔ Written digit int o args seen := by
  unfold parse
  constructor
  · intro h
    split at h
    · cases h
    · rename_i ws hws
      exact written_of_consume hpt hp _ args ws seen (Nat.le_refl _) hws h
  · intro h
    obtain ⟨ws, e1, e2⟩ := consume_of_written hpt hp h
    rw [e1]
    exact e2

/-! ## What the options mean -/

theorem getLast_filter {seen : List (Text × List Text)} {n : Text} :
    (¬ Given seen n ∧ (seen.filter fun x => x.1 = n).getLast? = none) ∨
      ∃ vs, Last seen n vs ∧ (seen.filter fun x => x.1 = n).getLast? = some (n, vs) := by
  induction seen with
  | nil => exact Or.inl ⟨by rintro ⟨_, h⟩; exact (List.not_mem_nil h), rfl⟩
  | cons x seen ih =>
    rcases ih with ⟨h1, h2⟩ | ⟨vs, ⟨a, b, h1, h2⟩, h3⟩
    · by_cases hx : x.1 = n
      · refine Or.inr ⟨x.2, ⟨[], seen, by rw [← hx]; rfl, h1⟩, ?_⟩
        rw [List.getLast?_eq_none_iff] at h2
        rw [List.filter_cons, if_pos (by simpa using hx), h2, ← hx]
        rfl
      · refine Or.inl ⟨?_, ?_⟩
        · rintro ⟨vs, h⟩
          rcases List.mem_cons.1 h with h | h
          · exact hx (by rw [← h])
          · exact h1 ⟨vs, h⟩
        · rw [List.filter_cons, if_neg (by simpa using hx), h2]
    · refine Or.inr ⟨vs, ⟨x :: a, b, by rw [h1]; rfl, h2⟩, ?_⟩
      rw [List.filter_cons]
      split
      · rw [List.getLast?_cons, h3]
        rfl
      · exact h3

theorem last_unique {seen : List (Text × List Text)} {n : Text} {vs ws : List Text} (h1 : Last seen n vs) (h2 : Last seen n ws) : vs = ws := by
  have : ∀ vs, Last seen n vs → (seen.filter fun x => x.1 = n).getLast? = some (n, vs) := by
    rintro vs ⟨a, b, rfl, hb⟩
    have hb' : b.filter (fun x => x.1 = n) = [] := by
      rw [List.filter_eq_nil_iff]
      intro x hx e
      exact hb ⟨x.2, by rw [← of_decide_eq_true e]; exact hx⟩
    rw [List.filter_append, List.filter_cons, if_pos (by simp), hb']
    simp
  have e1 := this _ h1
  rw [this _ h2] at e1
  simp only [Option.some.injEq, Prod.mk.injEq, true_and] at e1
  exact e1.symm

theorem last_given {seen : List (Text × List Text)} {n : Text} {vs : List Text} (h : Last seen n vs) : Given seen n := by
  obtain ⟨a, b, rfl, _⟩ := h
  exact ⟨vs, by simp⟩

theorem isGiven_iff {seen : List (Text × List Text)} {n : Text} : isGiven seen n = true ↔ Given seen n := by
  unfold isGiven Given
  rw [List.any_eq_true]
  constructor
  · rintro ⟨x, hx, e⟩
    exact ⟨x.2, by rw [← of_decide_eq_true e]; exact hx⟩
  · rintro ⟨vs, h⟩
    exact ⟨_, h, by simp⟩

/-- The option takes one value. -/
theorem shape {digit : Nat → Bool} {int : Text → Option Int} {o : Options} {args : List Text} {seen : List (Text × List Text)}
    (h : Written digit int o args seen) : ∀ n vs, (n, vs) ∈ seen → ∃ k, (n, k) ∈ o ∧
      (k = .text ∨ k = .number → ∃ v, vs = [v] ∧ Fits int k v) := by
  induction h with
  | nil => intro n vs h; cases h
  | @flag w n rest seen h1 h2 h3 h4 ih =>
    intro m vs h
    rcases List.mem_cons.1 h with h | h
    · cases h
      exact ⟨_, h3, by simp⟩
    · exact ih _ _ h
  | @glued w n k v rest seen h1 h2 h3 hk h4 h5 ih =>
    intro m vs h
    rcases List.mem_cons.1 h with h | h
    · cases h
      exact ⟨_, h3, fun _ => ⟨v, rfl, h4⟩⟩
    · exact ih _ _ h
  | @apart w n k v rest seen h1 h2 h3 hk hpl h4 h5 ih =>
    intro m vs h
    rcases List.mem_cons.1 h with h | h
    · cases h
      exact ⟨_, h3, fun _ => ⟨v, rfl, h4⟩⟩
    · exact ih _ _ h
  | @many w n vs rest seen h1 h2 h3 hne hpl hrest h5 ih =>
    intro m us h
    rcases List.mem_cons.1 h with h | h
    · cases h
      exact ⟨_, h3, by simp⟩
    · exact ih _ _ h

theorem kind_unique {o : Options} (hp : Proper o) {n : Text} {k k' : Kind} (h : (n, k) ∈ o) (h' : (n, k') ∈ o) : k = k' := by
  have e := (find_mem hp).2 h
  rw [(find_mem hp).2 h'] at e
  simpa using e.symm

theorem given_spec {digit : Nat → Bool} {int : Text → Option Int} {o : Options} (hp : Proper o) {args : List Text}
    {seen : List (Text × List Text)} (h : Written digit int o args seen) {n : Text} {k : Kind} (hk : (n, k) ∈ o)
    (hkk : k = .text ∨ k = .number) :
    (¬ Given seen n ∧ given seen n = none) ∨ ∃ v, Last seen n [v] ∧ given seen n = some v ∧ Fits int k v := by
  rcases getLast_filter (seen := seen) (n := n) with ⟨h1, h2⟩ | ⟨vs, h1, h2⟩
  · exact Or.inl ⟨h1, by unfold given; rw [h2]⟩
  · have hmem : (n, vs) ∈ seen := by
      obtain ⟨a, b, rfl, _⟩ := h1
      simp
    obtain ⟨k', hk', hs⟩ := shape h _ _ hmem
    obtain rfl := kind_unique hp hk hk'
    obtain ⟨v, rfl, hf⟩ := hs hkk
    exact Or.inr ⟨v, h1, by unfold given; rw [h2], hf⟩

theorem value_iff {digit : Nat → Bool} {int : Text → Option Int} {o : Options} (hp : Proper o) {args : List Text}
    {seen : List (Text × List Text)} (h : Written digit int o args seen) {n : Text} (hk : (n, Kind.text) ∈ o) {d r : Text} :
    (given seen n).getD d = r ↔ Value seen n d r := by
  rcases given_spec hp h hk (Or.inl rfl) with ⟨h1, h2⟩ | ⟨v, h1, h2, _⟩
  · rw [h2]
    constructor
    · rintro rfl; exact Or.inr ⟨h1, rfl⟩
    · rintro (h | h)
      · exact absurd (last_given h) h1
      · exact h.2.symm
  · rw [h2]
    constructor
    · rintro rfl; exact Or.inl h1
    · rintro (h | h)
      · simpa using last_unique h1 h
      · exact absurd (last_given h1) h.1

theorem number_iff {digit : Nat → Bool} {int : Text → Option Int} {o : Options} (hp : Proper o) {args : List Text}
    {seen : List (Text × List Text)} (h : Written digit int o args seen) {n : Text} (hk : (n, Kind.number) ∈ o) {d r : Int} :
    numberOr int seen n d = r ↔ Number int seen n d r := by
  unfold numberOr
  rcases given_spec hp h hk (Or.inr rfl) with ⟨h1, h2⟩ | ⟨v, h1, h2, hf⟩
  · rw [h2]
    constructor
    · rintro rfl; exact Or.inr ⟨h1, rfl⟩
    · rintro (⟨_, h, _⟩ | h)
      · exact absurd (last_given h) h1
      · exact h.2.symm
  · rw [h2]
    obtain ⟨z, hz⟩ := hf rfl
    dsimp only
    rw [hz]
    constructor
    · rintro rfl; exact Or.inl ⟨v, h1, hz⟩
    · rintro (⟨u, h, hu⟩ | h)
      · have := last_unique h1 h
        simp only [List.cons.injEq, and_true] at this
        rw [← this, hz] at hu
        simpa using hu
      · exact absurd (last_given h1) h.1

theorem choice_iff {seen : List (Text × List Text)} {yes no : Text} {r : Option Bool} : choice seen yes no = r ↔ Choice seen yes no r := by
  unfold choice Choice
  rw [← isGiven_iff, ← isGiven_iff]
  cases isGiven seen yes <;> cases isGiven seen no <;> rcases r with _ | _ | _ <;> simp

theorem flag_iff {seen : List (Text × List Text)} {n : Text} {b : Bool} : isGiven seen n = b ↔ (b = true ↔ Given seen n) := by
  rw [← isGiven_iff]
  cases isGiven seen n <;> cases b <;> simp

theorem many_iff {seen : List (Text × List Text)} {n : Text} {vs : List Text} :
    ((seen.filter fun x => x.1 = n).getLast?.map (·.2)).getD [] = vs ↔ (Last seen n vs ∨ (¬ Given seen n ∧ vs = [])) := by
  rcases getLast_filter (seen := seen) (n := n) with ⟨h1, h2⟩ | ⟨us, h1, h2⟩
  · rw [h2]
    constructor
    · rintro rfl; exact Or.inr ⟨h1, rfl⟩
    · rintro (h | h)
      · exact absurd (last_given h) h1
      · exact h.2.symm
  · rw [h2]
    constructor
    · rintro rfl; exact Or.inl h1
    · rintro (h | h)
      · exact last_unique h1 h
      · exact absurd (last_given h1) h.1

theorem host_iff {digit : Nat → Bool} {int : Text → Option Int} {o : Options} (hp : Proper o) {args : List Text}
    {seen : List (Text × List Text)} (h : Written digit int o args seen) {n : Text} (hk : (n, Kind.text) ∈ o) {r : Option Text} :
    given seen n = r ↔ ∀ v, r = some v ↔ Last seen n [v] := by
  rcases given_spec hp h hk (Or.inl rfl) with ⟨h1, h2⟩ | ⟨v, h1, h2, _⟩
  · rw [h2]
    constructor
    · rintro rfl v
      exact ⟨fun h => by simp at h, fun h => absurd (last_given h) h1⟩
    · intro h
      cases r with
      | none => rfl
      | some v => exact absurd (last_given ((h v).1 rfl)) h1
  · rw [h2]
    constructor
    · rintro rfl u
      constructor
      · intro e; cases e; exact h1
      · intro h
        have := last_unique h1 h
        simp only [List.cons.injEq, and_true] at this
        rw [this]
    · intro h
      exact ((h v).2 h1).symm

theorem properInit : Proper initOptions := proper_of (by decide +kernel)
theorem properBuild : Proper buildOptions := proper_of (by decide +kernel)
theorem properRun : Proper runOptions := proper_of (by decide +kernel)
theorem properClean : Proper cleanOptions := proper_of (by decide +kernel)
theorem properDev : Proper devOptions := proper_of (by decide +kernel)

/-- **C101, what is done.**  A command is carried out with these settings if and only if the command line is written so: the command comes
first, and each option which follows is one of its options or a unique beginning of one, with its value behind it or behind `=`; what the
settings are is said by `Means`.  In all other cases nothing is done.  (A hypothesis about the digits: the point is none.) -/
theorem C101_partial {digit : Nat → Bool} (hpt : digit 46 = false) {int : Text → Option Int} {args : List Text} {call : Call} :
    main digit int args = some call ↔
      ∃ cmd rest o seen, args = cmd :: rest ∧ HasOptions cmd o ∧ Written digit int o rest seen ∧ Means int seen cmd call := by
  have d1 : txt "build" ≠ txt "init" := by decide
  have d2 : txt "run" ≠ txt "init" ∧ txt "run" ≠ txt "build" := by decide
  have d3 : txt "clean" ≠ txt "init" ∧ txt "clean" ≠ txt "build" ∧ txt "clean" ≠ txt "run" := by decide
  have d4 : txt "dev" ≠ txt "init" ∧ txt "dev" ≠ txt "build" ∧ txt "dev" ≠ txt "run" ∧ txt "dev" ≠ txt "clean" := by decide
  constructor
  · intro h
    match args, h with
    | [], h => cases h
    | c :: args, h =>
      simp only [main] at h
      split at h
      · rename_i hc
        unfold initMain at h
        rw [Option.map_eq_some_iff] at h
        obtain ⟨s, hs, rfl⟩ := h
        have hw := (parse_iff hpt properInit).1 hs
        subst hc
        exact ⟨_, _, _, _, rfl, .init, hw, .init ((value_iff properInit hw (by decide +kernel)).1 rfl)
          ((host_iff properInit hw (by decide +kernel)).1 rfl)⟩
      · split at h
        · rename_i hc
          unfold buildMain at h
          rw [Option.map_eq_some_iff] at h
          obtain ⟨s, hs, rfl⟩ := h
          have hw := (parse_iff hpt properBuild).1 hs
          subst hc
          exact ⟨_, _, _, _, rfl, .build, hw, .build ((value_iff properBuild hw (by decide +kernel)).1 rfl) (flag_iff.1 rfl)
            (choice_iff.1 rfl) (many_iff.1 rfl)⟩
        · split at h
          · rename_i hc
            unfold runMain at h
            rw [Option.map_eq_some_iff] at h
            obtain ⟨s, hs, rfl⟩ := h
            have hw := (parse_iff hpt properRun).1 hs
            subst hc
            exact ⟨_, _, _, _, rfl, .run, hw, .run ((value_iff properRun hw (by decide +kernel)).1 rfl)
              ((number_iff properRun hw (by decide +kernel)).1 rfl) ((value_iff properRun hw (by decide +kernel)).1 rfl)⟩
          · split at h
            · rename_i hc
              unfold cleanMain at h
              rw [Option.map_eq_some_iff] at h
              obtain ⟨s, hs, rfl⟩ := h
              have hw := (parse_iff hpt properClean).1 hs
              subst hc
              exact ⟨_, _, _, _, rfl, .clean, hw, .clean ((value_iff properClean hw (by decide +kernel)).1 rfl) (choice_iff.1 rfl)⟩
            · split at h
              · rename_i hc
                unfold devMain at h
                rw [Option.map_eq_some_iff] at h
                obtain ⟨s, hs, rfl⟩ := h
                have hw := (parse_iff hpt properDev).1 hs
                subst hc
                exact ⟨_, _, _, _, rfl, .dev, hw, .dev ((value_iff properDev hw (by decide +kernel)).1 rfl)
                  ((value_iff properDev hw (by decide +kernel)).1 rfl) ((number_iff properDev hw (by decide +kernel)).1 rfl)
                  (flag_iff.1 rfl) ((number_iff properDev hw (by decide +kernel)).1 rfl)⟩
              · cases h
  · rintro ⟨cmd, rest, o, seen, rfl, ho, hw, hm⟩
    simp only [main]
    cases ho with
    | init =>
      rw [if_pos rfl]
      unfold initMain
      rw [(parse_iff hpt properInit).2 hw]
      generalize hcmd : txt "init" = cmd at hm
      cases hm with
      | init h1 h2 =>
        rw [Option.map_some, (value_iff properInit hw (by decide +kernel)).2 h1, (host_iff properInit hw (by decide +kernel)).2 h2]
      | build => exact absurd hcmd.symm d1
      | run => exact absurd hcmd.symm d2.1
      | clean => exact absurd hcmd.symm d3.1
      | dev => exact absurd hcmd.symm d4.1
    | build =>
      rw [if_neg d1, if_pos rfl]
      unfold buildMain
      rw [(parse_iff hpt properBuild).2 hw]
      generalize hcmd : txt "build" = cmd at hm
      cases hm with
      | init => exact absurd hcmd d1
      | build h1 h2 h3 h4 =>
        rw [Option.map_some, (value_iff properBuild hw (by decide +kernel)).2 h1, flag_iff.2 h2, choice_iff.2 h3, many_iff.2 h4]
      | run => exact absurd hcmd.symm d2.2
      | clean => exact absurd hcmd.symm d3.2.1
      | dev => exact absurd hcmd.symm d4.2.1
    | run =>
      rw [if_neg d2.1, if_neg d2.2, if_pos rfl]
      unfold runMain
      rw [(parse_iff hpt properRun).2 hw]
      generalize hcmd : txt "run" = cmd at hm
      cases hm with
      | init => exact absurd hcmd d2.1
      | build => exact absurd hcmd d2.2
      | run h1 h2 h3 =>
        rw [Option.map_some, (value_iff properRun hw (by decide +kernel)).2 h1, (number_iff properRun hw (by decide +kernel)).2 h2,
          (value_iff properRun hw (by decide +kernel)).2 h3]
      | clean => exact absurd hcmd.symm d3.2.2
      | dev => exact absurd hcmd.symm d4.2.2.1
    | clean =>
      rw [if_neg d3.1, if_neg d3.2.1, if_neg d3.2.2, if_pos rfl]
      unfold cleanMain
      rw [(parse_iff hpt properClean).2 hw]
      generalize hcmd : txt "clean" = cmd at hm
      cases hm with
      | init => exact absurd hcmd d3.1
      | build => exact absurd hcmd d3.2.1
      | run => exact absurd hcmd d3.2.2
      | clean h1 h2 => rw [Option.map_some, (value_iff properClean hw (by decide +kernel)).2 h1, choice_iff.2 h2]
      | dev => exact absurd hcmd.symm d4.2.2.2
    | dev =>
      rw [if_neg d4.1, if_neg d4.2.1, if_neg d4.2.2.1, if_neg d4.2.2.2, if_pos rfl]
      unfold devMain
      rw [(parse_iff hpt properDev).2 hw]
      generalize hcmd : txt "dev" = cmd at hm
      cases hm with
      | init => exact absurd hcmd d4.1
      | build => exact absurd hcmd d4.2.1
      | run => exact absurd hcmd d4.2.2.1
      | clean => exact absurd hcmd d4.2.2.2
      | dev h1 h2 h3 h4 h5 =>
        rw [Option.map_some, (value_iff properDev hw (by decide +kernel)).2 h1, (value_iff properDev hw (by decide +kernel)).2 h2,
          (number_iff properDev hw (by decide +kernel)).2 h3, flag_iff.2 h4, (number_iff properDev hw (by decide +kernel)).2 h5]

/-- **C101, order.**  Two command lines in which each option is given the same values in the same order do the same, however different
options are mixed and spelled. -/
theorem C101_order {digit : Nat → Bool} (hpt : digit 46 = false) {int : Text → Option Int} {cmd : Text} {o : Options} (ho : HasOptions cmd o)
    {args args' : List Text} {seen seen' : List (Text × List Text)} (h : Written digit int o args seen) (h' : Written digit int o args' seen')
    (same : ∀ n, (seen.filter fun x => x.1 = n) = (seen'.filter fun x => x.1 = n)) :
    main digit int (cmd :: args) = main digit int (cmd :: args') := by
  have g1 : ∀ n, given seen n = given seen' n := by intro n; unfold given; rw [same]
  have g2 : ∀ n, isGiven seen n = isGiven seen' n := by
    intro n
    have : ∀ l : List (Text × List Text), isGiven l n = !(l.filter fun x => x.1 = n).isEmpty := by
      intro l
      unfold isGiven
      induction l with
      | nil => rfl
      | cons x l ih =>
        rw [List.any_cons, List.filter_cons, ih]
        split
        · rename_i hx; simp [hx]
        · rename_i hx; simp [hx]
    rw [this, this, same]
  have g3 : ∀ n d, numberOr int seen n d = numberOr int seen' n d := by intro n d; unfold numberOr; rw [g1]
  have g4 : ∀ a b, choice seen a b = choice seen' a b := by intro a b; unfold choice; rw [g2, g2]
  have d1 : txt "build" ≠ txt "init" := by decide
  have d2 : txt "run" ≠ txt "init" ∧ txt "run" ≠ txt "build" := by decide
  have d3 : txt "clean" ≠ txt "init" ∧ txt "clean" ≠ txt "build" ∧ txt "clean" ≠ txt "run" := by decide
  have d4 : txt "dev" ≠ txt "init" ∧ txt "dev" ≠ txt "build" ∧ txt "dev" ≠ txt "run" ∧ txt "dev" ≠ txt "clean" := by decide
  simp only [main]
  cases ho with
  | init =>
    rw [if_pos rfl, if_pos rfl]
    unfold initMain
    rw [(parse_iff hpt properInit).2 h, (parse_iff hpt properInit).2 h']
    simp only [Option.map_some, g1]
  | build =>
    rw [if_neg d1, if_pos rfl, if_neg d1, if_pos rfl]
    unfold buildMain
    rw [(parse_iff hpt properBuild).2 h, (parse_iff hpt properBuild).2 h']
    simp only [Option.map_some, g1, g2, g4, same]
  | run =>
    rw [if_neg d2.1, if_neg d2.2, if_pos rfl, if_neg d2.1, if_neg d2.2, if_pos rfl]
    unfold runMain
    rw [(parse_iff hpt properRun).2 h, (parse_iff hpt properRun).2 h']
    simp only [Option.map_some, g1, g3]
  | clean =>
    rw [if_neg d3.1, if_neg d3.2.1, if_neg d3.2.2, if_pos rfl, if_neg d3.1, if_neg d3.2.1, if_neg d3.2.2, if_pos rfl]
    unfold cleanMain
    rw [(parse_iff hpt properClean).2 h, (parse_iff hpt properClean).2 h']
    simp only [Option.map_some, g1, g4]
  | dev =>
    rw [if_neg d4.1, if_neg d4.2.1, if_neg d4.2.2.1, if_neg d4.2.2.2, if_pos rfl, if_neg d4.1, if_neg d4.2.1, if_neg d4.2.2.1, if_neg d4.2.2.2, if_pos rfl]
    unfold devMain
    rw [(parse_iff hpt properDev).2 h, (parse_iff hpt properDev).2 h']
    simp only [Option.map_some, g1, g2, g3]

/-! ## Cases, and what is false -/

namespace Toy

/-- ASCII digits -/
def digit (c : Nat) : Bool := decide (48 ≤ c ∧ c ≤ 57)

/-- Decimal numbers, maybe with a sign. -/
def int (t : Text) : Option Int :=
  match t with
  | 45 :: ds => if ds ≠ [] ∧ ds.all digit then some (-(ds.foldl (fun n c => n * 10 + (c - 48)) 0 : Nat)) else none
  | ds => if ds ≠ [] ∧ ds.all digit then some (ds.foldl (fun n c => n * 10 + (c - 48)) 0 : Nat) else none

def words (l : List String) : List Text := l.map txt

/-- README.md:66, abbreviations, `=`, and values which are repeated. -/
theorem C101_case :
    main digit int (words ["dev", "--port", "80", "--watch"]) = some (.dev (txt ".") (txt "localhost") 80 true 100) ∧
    main digit int (words ["dev", "--w", "--p=81", "--folder", "a b", "--port", "82"]) = some (.dev (txt "a b") (txt "localhost") 82 true 100) ∧
    main digit int (words ["build", "--delay-files", "x", "y", "--dev"]) = some (.build (txt ".") true none [txt "x", txt "y"]) ∧
    main digit int (words ["build", "--de"]) = none ∧ main digit int (words ["build", "x"]) = none ∧
    main digit int (words ["run", "--port", "x"]) = none ∧ main digit int (words ["run", "--port", "--host", "y"]) = none := by
  decide +kernel

/-- **C101 is false of options which contradict each other.**  They are not refused, and the last one does not count: whoever adds
`--no-placeholders` to a command with `--placeholders` loses the placeholders, and is not asked. -/
theorem C101_false_both :
    main digit int (words ["clean", "--placeholders", "--no-placeholders"]) = some (.clean (txt ".") (some true)) ∧
    main digit int (words ["build", "--symlinks", "--no-symlinks"]) = some (.build (txt ".") false (some true) []) := by
  decide +kernel

/-- **C101, before the command.**  Options before the command end the program; there are no common options. -/
theorem C101_before : main digit int (words ["--folder", "x", "build"]) = none ∧ main digit int (words ["-h"]) = none := by
  decide +kernel

/-- **Numbers are not checked** for being ports. -/
theorem C101_ports : main digit int (words ["run", "--port", "-5"]) = some (.run (txt "localhost") (-5) (txt ".")) ∧
    main digit int (words ["run", "--port", "99999"]) = some (.run (txt "localhost") 99999 (txt ".")) := by
  decide +kernel

end Toy

end Verif.Cli
