import Verif.JsIdent
import Verif.JsManip
/-!
# C99: making the tables of identifier characters

Model of `postprocess` (vanillaplusjs/build/js/unicode_derived.py:18-73), which the developers run to make derived_core_properties.py from
Unicode's DerivedCoreProperties.txt, and of how Python reads what it has written.
-/
namespace Verif.Js.Make
open Verif.Reader (Text txt)
open Verif.Js (strip isMatch orderedRanges)

inductive Property where
  | idStart
  | idContinue
deriving DecidableEq, Repr

def Property.name : Property → Text
  | .idStart => txt "ID_Start"
  | .idContinue => txt "ID_Continue"

/-- `property.upper()` -/
def Property.upper : Property → Text
  | .idStart => txt "ID_START"
  | .idContinue => txt "ID_CONTINUE"

/-- ValueError is all that is raised. -/
inductive Err where
  | valueError
deriving DecidableEq, Repr

/-- The lines behind the first one with a property; a file is the list of its lines, with their newlines, as `readline` gives them.
unicode_derived.py:29-33 and 35-39. -/
def behind (p : Text → Bool) : List Text → Option (List Text)
  | [] => none
  | l :: ls => if p l then some ls else behind p ls

/-- unicode_derived.py:48, 63; `space` is `str.isspace` of a character. -/
def part (space : Nat → Bool) (line : Text) : Text := strip space (line.takeWhile (· ≠ 59))

/-- unicode_derived.py:44-46, 59-61: the lines up to an empty one -/
def dataLines (space : Nat → Bool) (ls : List Text) : List Text := ls.takeWhile fun l => strip space l ≠ []

/-- `".." in relevant_part` -/
def dots : Text → Bool
  | [] => false
  | c :: cs => (c == 46 && cs.head? == some 46) || dots cs

/-- `relevant_part.split("..")`, at the first place -/
def cut : Text → Text × Text
  | [] => ([], [])
  | c :: cs => if c == 46 && cs.head? == some 46 then ([], cs.drop 1) else (c :: (cut cs).1, (cut cs).2)

/-- unicode_derived.py:44-52 -/
def exacts (parts : List Text) : Text := parts.flatMap fun p => if dots p then [] else txt "\\u" ++ p

/-- unicode_derived.py:58-71: the text, and `num_since_last_newline` at the end; more than two pieces are a ValueError. -/
def ranges : List Text → Nat → Except Err (Text × Nat)
  | [], n => .ok ([], n)
  | p :: ps, n =>
    if dots p then
      if dots (cut p).2 then .error .valueError
      else
        match ranges ps (if n + 1 > 5 then 0 else n + 1) with
        | .error e => .error e
        | .ok (t, k) => .ok (txt " (0x" ++ (cut p).1 ++ txt ", 0x" ++ (cut p).2 ++ txt ")," ++ (if n + 1 > 5 then txt "\n   " else []) ++ t, k)
    else ranges ps n

/-- unicode_derived.py:41-73 -/
def tables (prop : Property) (parts : List Text) : Except Err Text :=
  match ranges parts 0 with
  | .error e => .error e
  | .ok (t, k) =>
    .ok (txt "EXACT_MATCHES_" ++ prop.upper ++ txt " = frozenset(\n    '" ++ exacts parts ++ txt "'\n)\n\nMATCH_RANGES_" ++ prop.upper ++ txt " = (\n   " ++ t ++
      (if k ≠ 0 then txt "\n" else []) ++ txt ")\n")

/-- unicode_derived.py:18-73: what is written, unless there is an exception -/
def postprocess (space : Nat → Bool) (prop : Property) (file : List Text) : Except Err Text :=
  match behind (fun l => (txt "# Derived Property: " ++ prop.name).isPrefixOf l) file with
  | none => .error .valueError
  | some ls =>
    match behind (fun l => !(txt "#").isPrefixOf l) ls with
    | none => .error .valueError
    | some ls => tables prop ((dataLines space ls).map (part space))

/-! ## Specification -/

/-- Hexadecimal digits as Unicode's files have them. -/
def Hex (c : Nat) : Prop := (48 ≤ c ∧ c ≤ 57) ∨ (65 ≤ c ∧ c ≤ 70)

instance (c : Nat) : Decidable (Hex c) := by unfold Hex; infer_instance

def digit (c : Nat) : Nat := if c ≤ 57 then c - 48 else c - 55

def value (t : Text) : Nat := t.foldl (fun n c => 16 * n + digit c) 0

/-- A line lists a code point, or a range of them. -/
inductive Entry where
  | one (hex : Text)
  | range (first last : Text)
deriving DecidableEq, Repr

def Entry.text : Entry → Text
  | .one h => h
  | .range a b => a ++ txt ".." ++ b

def Entry.Ok : Entry → Prop
  | .one h => h ≠ [] ∧ ∀ c ∈ h, Hex c
  | .range a b => (a ≠ [] ∧ ∀ c ∈ a, Hex c) ∧ b ≠ [] ∧ ∀ c ∈ b, Hex c

/-- The code point is listed by the entry. -/
def Entry.Has (c : Nat) : Entry → Prop
  | .one h => c = value h
  | .range a b => value a ≤ c ∧ c ≤ value b

/-- `0041..005A    ; ID_Start # L&  [26] LATIN CAPITAL LETTER A..LATIN CAPITAL LETTER Z` -/
def Line (line : Text) (e : Entry) : Prop := ∃ n rest, line = e.text ++ List.replicate n 32 ++ 59 :: rest

/-- The lines are those of a list. -/
inductive Lines : List Text → List Entry → Prop
  | nil : Lines [] []
  | cons {l e ls es} (h : Line l e) (t : Lines ls es) : Lines (l :: ls) (e :: es)

/-- Unicode's file: the list of a property has a heading, comments, an empty line, the entries and an empty line. -/
structure Listing (prop : Property) (file : List Text) (entries : List Entry) : Prop where
  ok : ∀ e ∈ entries, e.Ok
  lines : ∃ before heading comments ls after, file = before ++ (txt "# Derived Property: " ++ prop.name ++ heading) :: comments ++ [10] :: ls ++ [10] :: after ∧
    (∀ l ∈ before, (txt "# Derived Property: " ++ prop.name).isPrefixOf l = false) ∧ (∀ l ∈ comments, ∃ t, l = 35 :: t) ∧ Lines ls entries

/-- What Python reads between the quotes of a string literal: `\uXXXX` is a character, and everything but quotes, backslashes and newlines stands for
itself. -/
inductive Literal : Text → List Nat → Prop
  | nil : Literal [] []
  | code {a b c d : Nat} {t : Text} {cs : List Nat} (ha : Hex a) (hb : Hex b) (hc : Hex c) (hd : Hex d) (h : Literal t cs) :
      Literal (92 :: 117 :: a :: b :: c :: d :: t) (value [a, b, c, d] :: cs)
  | char {c : Nat} {t : Text} {cs : List Nat} (hq : c ≠ 39) (hb : c ≠ 92) (hn : c ≠ 10) (h : Literal t cs) : Literal (c :: t) (c :: cs)

/-- What Python reads between the parentheses of a tuple of pairs, all with a comma behind them. -/
inductive Pairs : Text → List (Nat × Nat) → Prop
  | nil : Pairs [] []
  | space {t : Text} {ps : List (Nat × Nat)} (h : Pairs t ps) : Pairs (32 :: t) ps
  | newline {t : Text} {ps : List (Nat × Nat)} (h : Pairs t ps) : Pairs (10 :: t) ps
  | pair {a b t : Text} {ps : List (Nat × Nat)} (ha : a ≠ [] ∧ ∀ c ∈ a, Hex c) (hb : b ≠ [] ∧ ∀ c ∈ b, Hex c) (h : Pairs t ps) :
      Pairs (txt "(0x" ++ a ++ txt ", 0x" ++ b ++ txt ")," ++ t) ((value a, value b) :: ps)

/-- The two names which are defined when the text is run as a Python module. -/
def Defines (prop : Property) (text : Text) (cs : List Nat) (ps : List (Nat × Nat)) : Prop :=
  ∃ s r, text = txt "EXACT_MATCHES_" ++ prop.upper ++ txt " = frozenset(\n    '" ++ s ++ txt "'\n)\n\nMATCH_RANGES_" ++ prop.upper ++ txt " = (" ++ r ++ txt ")\n" ∧
    Literal s cs ∧ Pairs r ps

/-- The ranges of a list, in their order. -/
def listed : List Entry → List (Nat × Nat)
  | [] => []
  | .one _ :: es => listed es
  | .range a b :: es => (value a, value b) :: listed es

/-! ## Proofs -/

theorem behind_append {p : Text → Bool} : ∀ {xs : List Text} {y : Text} {ys : List Text}, (∀ x ∈ xs, p x = false) → p y = true → behind p (xs ++ y :: ys) = some ys := by
  intro xs
  induction xs with
  | nil => intro y ys _ hy; simp [behind, hy]
  | cons x xs ih =>
    intro y ys h hy
    simp only [List.cons_append, behind, h x (by simp)]
    exact ih (fun x hx => h x (by simp [hx])) hy

theorem hex_ne {c : Nat} (h : Hex c) : c ≠ 46 ∧ c ≠ 59 ∧ c ≠ 32 ∧ c ≠ 10 := by unfold Hex at h; omega

/-- The characters of an entry. -/
theorem entry_chars {e : Entry} (h : e.Ok) : ∀ c ∈ e.text, Hex c ∨ c = 46 := by
  intro c hc
  cases e with
  | one h' => exact .inl (h.2 c hc)
  | range a b =>
    simp only [Entry.text, List.mem_append] at hc
    rcases hc with (hc | hc) | hc
    · exact .inl (h.1.2 c hc)
    · right; revert c; decide
    · exact .inl (h.2.2 c hc)

/-- Whitespace is not in entries; spaces and newlines are whitespace. -/
structure Spaces (space : Nat → Bool) : Prop where
  blank : space 32 = true
  newline : space 10 = true
  hex : ∀ c, Hex c → space c = false
  dot : space 46 = false

theorem takeWhile_stop {p : Nat → Bool} : ∀ {xs : List Nat} {y : Nat} {ys : List Nat}, (∀ x ∈ xs, p x = true) → p y = false → (xs ++ y :: ys).takeWhile p = xs := by
  intro xs
  induction xs with
  | nil => intro y ys _ hy; simp [List.takeWhile, hy]
  | cons x xs ih =>
    intro y ys h hy
    simp only [List.cons_append, List.takeWhile, h x (by simp)]
    rw [ih (fun x hx => h x (by simp [hx])) hy]

theorem strip_padded {space : Nat → Bool} (hs : Spaces space) {t : Text} (ht : ∀ c ∈ t, space c = false) (n : Nat) : strip space (t ++ List.replicate n 32) = t := by
  unfold strip
  have h1 : ∀ u : Text, (∀ c ∈ u, space c = false) → u.dropWhile space = u := by
    intro u hu
    cases u with
    | nil => rfl
    | cons c u => simp [List.dropWhile, hu c (by simp)]
  have h2 : ∀ (n : Nat) (u : Text), (List.replicate n 32 ++ u).dropWhile space = u.dropWhile space := by
    intro n u
    induction n with
    | zero => rfl
    | succ n ih => rw [List.replicate_succ, List.cons_append]; simp only [List.dropWhile, hs.blank]; exact ih
  cases t with
  | nil =>
    have := h2 n []
    simp only [List.append_nil, List.dropWhile_nil] at this
    simp [this]
  | cons c t =>
    rw [List.cons_append, List.dropWhile, ht c (by simp)]
    simp only [List.reverse_cons, List.reverse_append, List.reverse_replicate, List.append_assoc]
    rw [h2, h1 _ (by intro x hx; simp at hx; exact ht x (List.mem_cons.2 hx.symm))]
    rw [List.reverse_append, List.reverse_reverse]; rfl

theorem entry_ne {e : Entry} (h : e.Ok) : e.text ≠ [] := by
  cases e with
  | one _ => exact h.1
  | range a b => simp [Entry.text, h.1.1]

theorem part_line {space : Nat → Bool} (hs : Spaces space) {l : Text} {e : Entry} (he : e.Ok) (h : Line l e) : part space l = e.text := by
  obtain ⟨n, rest, rfl⟩ := h
  unfold part
  rw [takeWhile_stop (by
    intro c hc
    simp only [List.mem_append, List.mem_replicate] at hc
    rcases hc with hc | ⟨-, rfl⟩
    · rcases entry_chars he c hc with h | rfl
      · simp [(hex_ne h).2.1]
      · rfl
    · rfl) (by rfl)]
  exact strip_padded hs (fun c hc => by
    rcases entry_chars he c hc with h | rfl
    · exact hs.hex c h
    · exact hs.dot) n

theorem dropWhile_nil {p : Nat → Bool} : ∀ {t : Text}, t.dropWhile p = [] → ∀ c ∈ t, p c = true := by
  intro t
  induction t with
  | nil => intro _ c hc; cases hc
  | cons x t ih =>
    intro h c hc
    cases hx : p x with
    | false => simp [List.dropWhile, hx] at h
    | true =>
      rw [List.dropWhile, hx] at h
      rcases List.mem_cons.1 hc with rfl | hc
      · exact hx
      · exact ih h c hc

theorem strip_nil {space : Nat → Bool} {t : Text} (h : strip space t = []) : ∀ c ∈ t, space c = true := by
  unfold strip at h
  rw [List.reverse_eq_nil_iff] at h
  intro c hc
  have h1 : ∀ x ∈ (t.dropWhile space).reverse, space x = true := dropWhile_nil h
  by_cases hd : t.dropWhile space = []
  · exact dropWhile_nil hd c hc
  · have := List.head_dropWhile_not space hd
    rw [h1 _ (by rw [List.mem_reverse]; exact List.head_mem hd)] at this
    cases this

theorem line_nonblank {space : Nat → Bool} (hs : Spaces space) {l : Text} {e : Entry} (he : e.Ok) (h : Line l e) : strip space l ≠ [] := by
  intro h0
  obtain ⟨n, rest, rfl⟩ := h
  cases ht : e.text with
  | nil => exact entry_ne he ht
  | cons c t =>
    have h1 := strip_nil h0 c (by simp [ht])
    rcases entry_chars he c (by simp [ht]) with h | rfl
    · rw [hs.hex c h] at h1; cases h1
    · rw [hs.dot] at h1; cases h1

theorem dataLines_lines {space : Nat → Bool} (hs : Spaces space) {ls : List Text} {es : List Entry} (h : Lines ls es) :
    (∀ e ∈ es, e.Ok) → ∀ after, dataLines space (ls ++ [10] :: after) = ls ∧ ls.map (part space) = es.map Entry.text := by
  induction h with
  | nil =>
    intro _ after
    refine ⟨?_, rfl⟩
    have : strip space [10] = [] := by simp [strip, List.dropWhile, hs.newline]
    simp [dataLines, List.takeWhile, this]
  | @cons l e ls es h t ih =>
    intro ho after
    obtain ⟨h1, h2⟩ := ih (fun e he => ho e (by simp [he])) after
    refine ⟨?_, by rw [List.map_cons, List.map_cons, part_line hs (ho e (by simp)) h, h2]⟩
    unfold dataLines at h1 ⊢
    rw [List.cons_append, List.takeWhile, show decide (strip space l ≠ []) = true from by simp [line_nonblank hs (ho e (by simp)) h]]
    simp only [h1]

theorem dots_hex {t : Text} (h : ∀ c ∈ t, Hex c) : dots t = false := by
  induction t with
  | nil => rfl
  | cons c t ih => simp [dots, (hex_ne (h c (by simp))).1, ih (fun c hc => h c (by simp [hc]))]

theorem cut_range {a : Text} (h : ∀ c ∈ a, Hex c) (b : Text) : dots (a ++ txt ".." ++ b) = true ∧ cut (a ++ txt ".." ++ b) = (a, b) := by
  have e : txt ".." = [46, 46] := by decide
  rw [e]
  induction a with
  | nil => simp [dots, cut]
  | cons c a ih =>
    obtain ⟨i1, i2⟩ := ih (fun c hc => h c (by simp [hc]))
    have hc := (hex_ne (h c (by simp))).1
    simp only [List.cons_append]
    simp only [List.append_assoc] at i1 i2 ⊢
    refine ⟨by simp only [dots, i1, Bool.or_true], ?_⟩
    simp only [cut, i2]
    simp [hc]

theorem literal_digits {t : Text} {cs : List Nat} (h : Literal t cs) : ∀ {u : Text}, (∀ c ∈ u, Hex c) → Literal (u ++ t) (u ++ cs) := by
  intro u
  induction u with
  | nil => intro _; exact h
  | cons c u ih =>
    intro hu
    have hc := hu c (by simp)
    unfold Hex at hc
    exact .char (by omega) (by omega) (by omega) (ih fun c hc => hu c (by simp [hc]))

/-- The numbers of the entries, as the string literal has them: the first four digits are a character, and each digit behind is one. -/
theorem exacts_literal {es : List Entry} (ho : ∀ e ∈ es, e.Ok) (h4 : ∀ h, .one h ∈ es → 4 ≤ h.length) :
    ∃ cs, Literal (exacts (es.map Entry.text)) cs ∧ ∀ c, c ∈ cs ↔ ∃ h, .one h ∈ es ∧ (c = value (h.take 4) ∨ c ∈ h.drop 4) := by
  induction es with
  | nil => exact ⟨[], .nil, by simp⟩
  | cons e es ih =>
    obtain ⟨cs, i1, i2⟩ := ih (fun e he => ho e (by simp [he])) (fun h hh => h4 h (by simp [hh]))
    cases e with
    | range a b =>
      refine ⟨cs, ?_, fun c => by simp [i2]⟩
      have hd := (cut_range (ho (.range a b) (by simp)).1.2 b).1
      simp only [exacts, List.map_cons, List.flatMap_cons, Entry.text, hd, if_true, List.nil_append]
      exact i1
    | one h =>
      have hh := ho (.one h) (by simp)
      have hl := h4 h (by simp)
      have hd := dots_hex hh.2
      match h, hl, hh, hd with
      | a :: b :: c :: d :: u, _, hh, hd =>
        refine ⟨value [a, b, c, d] :: (u ++ cs), ?_, fun x => ?_⟩
        · simp only [exacts, List.map_cons, List.flatMap_cons, Entry.text, hd]
          have e : txt "\\u" = [92, 117] := by decide
          rw [e]
          exact .code (hh.2 a (by simp)) (hh.2 b (by simp)) (hh.2 c (by simp)) (hh.2 d (by simp)) (literal_digits i1 fun x hx => hh.2 x (by simp [hx]))
        · simp only [List.mem_cons, List.mem_append, i2, Entry.one.injEq]
          constructor
          · rintro (rfl | hx | ⟨h', hh', hx⟩)
            · exact ⟨_, .inl rfl, .inl rfl⟩
            · exact ⟨_, .inl rfl, .inr hx⟩
            · exact ⟨h', .inr hh', hx⟩
          · rintro ⟨h', rfl | hh', hx⟩
            · rcases hx with hx | hx
              · exact .inl hx
              · exact .inr (.inl hx)
            · exact .inr (.inr ⟨h', hh', hx⟩)

theorem pairs_append {s t : Text} {ps qs : List (Nat × Nat)} (h : Pairs s ps) (h' : Pairs t qs) : Pairs (s ++ t) (ps ++ qs) := by
  induction h with
  | nil => exact h'
  | space _ ih => exact .space ih
  | newline _ ih => exact .newline ih
  | @pair a b t' ps ha hb _ ih =>
    have := Pairs.pair ha hb ih
    simpa only [List.append_assoc, List.cons_append] using this

theorem ranges_pairs {es : List Entry} (ho : ∀ e ∈ es, e.Ok) : ∀ n, ∃ t k, ranges (es.map Entry.text) n = .ok (t, k) ∧ Pairs t (listed es) := by
  induction es with
  | nil => intro n; exact ⟨[], n, rfl, .nil⟩
  | cons e es ih =>
    intro n
    have ih := ih (fun e he => ho e (by simp [he]))
    cases e with
    | one h =>
      obtain ⟨t, k, h1, h2⟩ := ih n
      refine ⟨t, k, ?_, h2⟩
      simp [ranges, Entry.text, dots_hex (ho (.one h) (by simp)).2, h1]
    | range a b =>
      have hab := ho (.range a b) (by simp)
      obtain ⟨c1, c2⟩ := cut_range hab.1.2 b
      obtain ⟨t, k, h1, h2⟩ := ih (if n + 1 > 5 then 0 else n + 1)
      refine ⟨_, k, by simp only [List.map_cons, Entry.text, ranges, c1, c2, dots_hex hab.2.2, if_true, h1]; rfl, ?_⟩
      have nl : Pairs (if n + 1 > 5 then txt "\n   " else []) [] := by
        split
        · have e : txt "\n   " = [10, 32, 32, 32] := by decide
          rw [e]
          exact .newline (.space (.space (.space .nil)))
        · exact .nil
      have := Pairs.space (Pairs.pair hab.1 hab.2 (pairs_append nl h2))
      have e : txt " (0x" = 32 :: txt "(0x" := by decide
      rw [e]
      simpa only [List.append_assoc, List.cons_append, List.nil_append, listed] using this

theorem mem_listed {es : List Entry} {r : Nat × Nat} : r ∈ listed es ↔ ∃ a b, .range a b ∈ es ∧ r = (value a, value b) := by
  induction es with
  | nil => simp [listed]
  | cons e es ih =>
    cases e with
    | one h => simp [listed, ih]
    | range a b =>
      simp only [listed, List.mem_cons, ih, Entry.range.injEq]
      constructor
      · rintro (rfl | ⟨a', b', h, rfl⟩)
        · exact ⟨a, b, .inl ⟨rfl, rfl⟩, rfl⟩
        · exact ⟨a', b', .inr h, rfl⟩
      · rintro ⟨a', b', ⟨rfl, rfl⟩ | h, rfl⟩
        · exact .inl rfl
        · exact .inr ⟨a', b', h, rfl⟩

theorem postprocess_eq {space : Nat → Bool} (hs : Spaces space) {prop : Property} {file : List Text} {es : List Entry} (h : Listing prop file es) :
    postprocess space prop file = tables prop (es.map Entry.text) := by
  obtain ⟨before, heading, comments, ls, after, rfl, hb, hc, hl⟩ := h.lines
  unfold postprocess
  simp only [List.append_assoc, List.cons_append]
  rw [behind_append hb (by rw [List.isPrefixOf_iff_prefix, ← List.append_assoc]; exact List.prefix_append _ _)]
  have e35 : txt "#" = [35] := by decide
  simp only [e35]
  rw [behind_append (p := fun l => !([35] : Text).isPrefixOf l) (by
    intro l hlc
    obtain ⟨t, rfl⟩ := hc l hlc
    simp [List.isPrefixOf]) (by rfl)]
  obtain ⟨h1, h2⟩ := dataLines_lines hs hl h.ok after
  simp only [h1, h2]

theorem literal_quote {s : Text} {cs : List Nat} (h : Literal s cs) : 39 ∉ s := by
  induction h with
  | nil => simp
  | code ha hb hc hd _ ih => simp only [List.mem_cons, not_or]; unfold Hex at *; refine ⟨by omega, by omega, by omega, by omega, by omega, by omega, ih⟩
  | char hq _ _ _ ih => simp only [List.mem_cons, not_or]; exact ⟨fun h => hq h.symm, ih⟩

theorem Literal.unique {s : Text} {cs cs' : List Nat} (h : Literal s cs) (h' : Literal s cs') : cs = cs' := by
  induction h generalizing cs' with
  | nil => cases h'; rfl
  | code _ _ _ _ _ ih =>
    cases h' with
    | code _ _ _ _ h' => rw [ih h']
    | char _ hb _ _ => exact absurd rfl hb
  | char _ hb _ _ ih =>
    cases h' with
    | code _ _ _ _ h' => exact absurd rfl hb
    | char _ _ _ h' => rw [ih h']

theorem split_first {x : Nat} : ∀ {s s' t t' : Text}, x ∉ s → x ∉ s' → s ++ x :: t = s' ++ x :: t' → s = s' ∧ t = t' := by
  intro s
  induction s with
  | nil =>
    intro s' t t' _ h' e
    cases s' with
    | nil => simpa using e
    | cons c s' => simp only [List.nil_append, List.cons_append, List.cons.injEq] at e; simp [e.1] at h'
  | cons c s ih =>
    intro s' t t' h h' e
    cases s' with
    | nil => simp only [List.nil_append, List.cons_append, List.cons.injEq] at e; simp [e.1] at h
    | cons c' s' =>
      simp only [List.cons_append, List.cons.injEq] at e
      simp only [List.mem_cons, not_or] at h h'
      obtain ⟨h1, h2⟩ := ih h.2 h'.2 e.2
      exact ⟨by rw [e.1, h1], h2⟩

theorem Pairs.unique {s : Text} {ps ps' : List (Nat × Nat)} (h : Pairs s ps) (h' : Pairs s ps') : ps = ps' := by
  have e1 : txt "(0x" = [40, 48, 120] := by decide
  have e2 : txt ", 0x" = [44, 32, 48, 120] := by decide
  have e3 : txt ")," = [41, 44] := by decide
  have nh : ∀ {a : Text} {x : Nat}, (∀ c ∈ a, Hex c) → ¬ Hex x → x ∉ a := fun h hx hm => hx (h _ hm)
  have main : ∀ {s s' : Text} {ps ps' : List (Nat × Nat)}, Pairs s ps → Pairs s' ps' → s = s' → ps = ps' := by
    intro s s' ps ps' h
    induction h generalizing s' ps' with
    | nil =>
      intro h' e
      cases h' with
      | nil => rfl
      | space _ => cases e
      | newline _ => cases e
      | pair _ _ _ => simp [e1] at e
    | space _ ih =>
      intro h' e
      cases h' with
      | nil => cases e
      | space h' => exact ih h' (by simpa using e)
      | newline _ => simp at e
      | pair _ _ _ => simp [e1] at e
    | newline _ ih =>
      intro h' e
      cases h' with
      | nil => cases e
      | space h' => simp at e
      | newline h' => exact ih h' (by simpa using e)
      | pair _ _ _ => simp [e1] at e
    | @pair a b t ps ha hb _ ih =>
      intro h' e
      cases h' with
      | nil => simp [e1] at e
      | space h' => simp [e1] at e
      | newline h' => simp [e1] at e
      | @pair a' b' t' ps' ha' hb' h' =>
        rw [e1, e2, e3] at e
        simp only [List.append_assoc, List.cons_append, List.nil_append, List.cons.injEq, true_and] at e
        obtain ⟨ea, e⟩ := split_first (nh ha.2 (by decide)) (nh ha'.2 (by decide)) e
        simp only [List.cons.injEq, true_and] at e
        obtain ⟨eb, e⟩ := split_first (nh hb.2 (by decide)) (nh hb'.2 (by decide)) e
        simp only [List.cons.injEq, true_and] at e
        rw [ea, eb, ih h' e]
  exact main h h' rfl

/-- A text defines one pair of tables. -/
theorem Defines.unique {prop : Property} {text : Text} {cs cs' : List Nat} {ps ps' : List (Nat × Nat)} (h : Defines prop text cs ps) (h' : Defines prop text cs' ps') :
    cs = cs' ∧ ps = ps' := by
  obtain ⟨s, r, e, h1, h2⟩ := h
  obtain ⟨s', r', e', h1', h2'⟩ := h'
  rw [e] at e'
  have q : txt "'\n)\n\nMATCH_RANGES_" = 39 :: txt "\n)\n\nMATCH_RANGES_" := by decide
  rw [q] at e'
  simp only [List.append_assoc, List.append_cancel_left_eq, List.cons_append] at e'
  obtain ⟨es, er⟩ := split_first (literal_quote h1) (literal_quote h1') e'
  simp only [List.append_cancel_left_eq, List.append_cancel_right_eq] at er
  subst es er
  exact ⟨h1.unique h1', h2.unique h2'⟩

/-- What the tables are, whatever is listed: Python ends `\uXXXX` after four digits, and takes further digits for characters of their own. -/
theorem C99_exact {space : Nat → Bool} (hs : Spaces space) {prop : Property} {file : List Text} {es : List Entry} (h : Listing prop file es)
    (h4 : ∀ hex, .one hex ∈ es → 4 ≤ hex.length) :
    ∃ out cs, postprocess space prop file = .ok out ∧ Defines prop out cs (listed es) ∧
      ∀ c, c ∈ cs ↔ ∃ hex, .one hex ∈ es ∧ (c = value (hex.take 4) ∨ c ∈ hex.drop 4) := by
  rw [postprocess_eq hs h]
  obtain ⟨cs, i1, i2⟩ := exacts_literal h.ok h4
  obtain ⟨t, k, j1, j2⟩ := ranges_pairs h.ok 0
  refine ⟨_, cs, by unfold tables; rw [j1], ?_, i2⟩
  refine ⟨exacts (es.map Entry.text), txt "\n   " ++ t ++ (if k ≠ 0 then txt "\n" else []), ?_, i1, ?_⟩
  · have e : txt " = (\n   " = txt " = (" ++ txt "\n   " := by decide
    rw [e]
    simp only [List.append_assoc]
  · have e : txt "\n   " = [10, 32, 32, 32] := by decide
    have e' : txt "\n" = [10] := by decide
    rw [e, e']
    have nl : Pairs (if k ≠ 0 then [10] else []) [] := by
      split
      · exact .newline .nil
      · exact .nil
    have := pairs_append j2 nl
    rw [List.append_nil] at this
    simp only [List.cons_append, List.nil_append]
    exact .newline (.space (.space (.space this)))

/-- **C99**, for lists in which single code points have four digits: the tables which are made have exactly the listed code points, the ranges in the
order of the list. -/
theorem C99_tables_partial {space : Nat → Bool} (hs : Spaces space) {prop : Property} {file : List Text} {es : List Entry} (h : Listing prop file es)
    (h4 : ∀ hex, .one hex ∈ es → hex.length = 4) :
    ∃ out, postprocess space prop file = .ok out ∧ (∃ cs ps, Defines prop out cs ps) ∧
      ∀ cs ps, Defines prop out cs ps → ∀ c, (c ∈ cs ∨ ∃ r ∈ ps, r.1 ≤ c ∧ c ≤ r.2) ↔ ∃ e ∈ es, e.Has c := by
  obtain ⟨out, cs, h1, h2, h3⟩ := C99_exact hs h (fun hex hh => by rw [h4 hex hh]; exact Nat.le_refl 4)
  refine ⟨out, h1, ⟨cs, _, h2⟩, fun cs' ps' h' => ?_⟩
  obtain ⟨rfl, rfl⟩ := h2.unique h'
  intro c
  rw [h3]
  constructor
  · rintro (⟨h', hh, hc⟩ | ⟨r, hr, hle⟩)
    · have hl := h4 h' hh
      rw [List.take_of_length_le (by omega), List.drop_eq_nil_of_le (by omega)] at hc
      exact ⟨_, hh, by show c = value h'; simpa using hc⟩
    · obtain ⟨a, b, hab, rfl⟩ := mem_listed.1 hr
      exact ⟨_, hab, hle⟩
  · rintro ⟨e, he, hc⟩
    cases e with
    | one h' => exact .inl ⟨h', he, .inl (by rw [List.take_of_length_le (by rw [h4 h' he]; exact Nat.le_refl 4)]; exact hc)⟩
    | range a b => exact .inr ⟨_, mem_listed.2 ⟨a, b, he, rfl⟩, hc⟩

/-- **C99**, for the classification: if besides the ranges of the list are in order, then the characters which are found with the tables are the listed
ones. -/
theorem C99_classified_partial {space : Nat → Bool} (hs : Spaces space) {prop : Property} {file : List Text} {es : List Entry} (h : Listing prop file es)
    (h4 : ∀ hex, .one hex ∈ es → hex.length = 4) (hr : orderedRanges (listed es) = true) :
    ∃ out cs ps, postprocess space prop file = .ok out ∧ Defines prop out cs ps ∧ ∀ c, isMatch c cs ps = true ↔ ∃ e ∈ es, e.Has c := by
  obtain ⟨out, cs, h1, h2, -⟩ := C99_exact hs h (fun hex hh => by rw [h4 hex hh]; exact Nat.le_refl 4)
  obtain ⟨out', h1', -, h3⟩ := C99_tables_partial hs h h4
  rw [h1] at h1'
  cases h1'
  exact ⟨out, cs, _, h1, h2, fun c => by rw [isMatch_spec c _ _ hr, h3 cs _ h2]⟩

/-- **C99 is false** as soon as a single code point of more than four digits is listed: the digits behind the fourth are characters of the table. -/
theorem C99_false_digits {space : Nat → Bool} (hs : Spaces space) {prop : Property} {file : List Text} {es : List Entry} (h : Listing prop file es)
    (h4 : ∀ hex, .one hex ∈ es → 4 ≤ hex.length) {hex : Text} {d : Nat} (hh : .one hex ∈ es) (hd : d ∈ hex.drop 4) (hr : orderedRanges (listed es) = true) :
    ∃ out cs ps, postprocess space prop file = .ok out ∧ Defines prop out cs ps ∧ isMatch d cs ps = true ∧ Hex d := by
  obtain ⟨out, cs, h1, h2, h3⟩ := C99_exact hs h h4
  exact ⟨out, cs, _, h1, h2, (isMatch_spec d _ _ hr).2 (.inl ((h3 d).2 ⟨hex, hh, .inr hd⟩)), (h.ok _ hh).2 d (List.mem_of_mem_drop hd)⟩

namespace TableToy

def space (c : Nat) : Bool := c == 32 || c == 10 || c == 9

theorem spaces : Spaces space := by
  refine ⟨rfl, rfl, fun c h => ?_, rfl⟩
  unfold Hex at h
  have h1 : c ≠ 32 := by omega
  have h2 : c ≠ 10 := by omega
  have h3 : c ≠ 9 := by omega
  simp [space, h1, h2, h3]

/-- The beginning of Unicode's list, with one entry from further down. -/
def entries (last : Text) : List Entry := [.range (txt "0041") (txt "005A"), .range (txt "0061") (txt "007A"), .one (txt "00AA"), .one last]

def file (last : Text) : List Text :=
  [txt "# DerivedCoreProperties-14.0.0.txt\n", txt "\n", txt "# Derived Property: ID_Start\n", txt "#  Characters that can start an identifier.\n", txt "\n",
    txt "0041..005A    ; ID_Start # L&  [26] LATIN CAPITAL LETTER A..LATIN CAPITAL LETTER Z\n", txt "0061..007A    ; ID_Start # L&  [26] LATIN SMALL LETTER A..LATIN SMALL LETTER Z\n",
    txt "00AA          ; ID_Start # Lo       FEMININE ORDINAL INDICATOR\n", last ++ txt "          ; ID_Start # a letter\n", txt "\n", txt "# Total code points: 54\n"]

theorem listing (last : Text) (h : last ≠ [] ∧ ∀ c ∈ last, Hex c) : Listing .idStart (file last) (entries last) where
  ok := by
    intro e he
    simp only [entries, List.mem_cons, List.not_mem_nil, or_false] at he
    rcases he with rfl | rfl | rfl | rfl
    · exact ⟨by decide, by decide⟩
    · exact ⟨by decide, by decide⟩
    · exact ⟨by decide, by decide⟩
    · exact h
  lines := by
    refine ⟨[txt "# DerivedCoreProperties-14.0.0.txt\n", txt "\n"], txt "\n", [txt "#  Characters that can start an identifier.\n"],
      [txt "0041..005A    ; ID_Start # L&  [26] LATIN CAPITAL LETTER A..LATIN CAPITAL LETTER Z\n", txt "0061..007A    ; ID_Start # L&  [26] LATIN SMALL LETTER A..LATIN SMALL LETTER Z\n",
        txt "00AA          ; ID_Start # Lo       FEMININE ORDINAL INDICATOR\n", last ++ txt "          ; ID_Start # a letter\n"], [txt "# Total code points: 54\n"], ?_, by decide, ?_, ?_⟩
    · have e1 : txt "\n" = [10] := by decide
      have e2 : txt "# Derived Property: ID_Start\n" = txt "# Derived Property: " ++ Property.idStart.name ++ [10] := by decide
      simp only [file, e1, e2, List.cons_append, List.nil_append]
    · intro l hl
      simp only [List.mem_singleton] at hl
      subst hl
      exact ⟨_, rfl⟩
    · refine .cons ⟨4, txt " ID_Start # L&  [26] LATIN CAPITAL LETTER A..LATIN CAPITAL LETTER Z\n", by decide⟩ (.cons ⟨4, txt " ID_Start # L&  [26] LATIN SMALL LETTER A..LATIN SMALL LETTER Z\n", by decide⟩
        (.cons ⟨10, txt " ID_Start # Lo       FEMININE ORDINAL INDICATOR\n", by decide⟩ (.cons ⟨10, txt " ID_Start # a letter\n", ?_⟩ .nil)))
      have e : txt "          ; ID_Start # a letter\n" = List.replicate 10 32 ++ 59 :: txt " ID_Start # a letter\n" := by decide
      rw [e, ← List.append_assoc]
      rfl

/-- A list for which the tables are right. -/
theorem C99_case : ∃ out cs ps, postprocess space .idStart (file (txt "00B5")) = .ok out ∧ Defines .idStart out cs ps ∧
    ∀ c, isMatch c cs ps = true ↔ ∃ e ∈ entries (txt "00B5"), e.Has c :=
  C99_classified_partial spaces (listing _ (by decide)) (by
    intro hex h
    simp only [entries, List.mem_cons, List.not_mem_nil, or_false, Entry.one.injEq, reduceCtorEq, false_or] at h
    rcases h with rfl | rfl <;> decide) (by decide)

/-- U+10341, the letter which is missing in derived_core_properties.py: the digit 1 is taken for an identifier start. -/
theorem C99_false_case : ∃ out cs ps, postprocess space .idStart (file (txt "10341")) = .ok out ∧ Defines .idStart out cs ps ∧
    isMatch 49 cs ps = true ∧ isMatch 0x10341 cs ps = false ∧ (∃ e ∈ entries (txt "10341"), e.Has 0x10341) ∧ ¬ ∃ e ∈ entries (txt "10341"), e.Has 49 := by
  obtain ⟨out, cs, h1, h2, h3⟩ := C99_exact spaces (listing (txt "10341") (by decide)) (by
    intro hex h
    simp only [entries, List.mem_cons, List.not_mem_nil, or_false, Entry.one.injEq, reduceCtorEq, false_or] at h
    rcases h with rfl | rfl <;> decide)
  have hr : orderedRanges (listed (entries (txt "10341"))) = true := by decide
  refine ⟨out, cs, _, h1, h2, ?_, ?_, ?_, ?_⟩
  · rw [isMatch_spec _ _ _ hr, h3]
    exact .inl ⟨txt "10341", by decide, .inr (by decide)⟩
  · rw [Bool.eq_false_iff, Ne, isMatch_spec _ _ _ hr, h3]
    rintro (⟨hex, hh, hc⟩ | ⟨r, hr, hc⟩)
    · simp only [entries, List.mem_cons, List.not_mem_nil, or_false, Entry.one.injEq, reduceCtorEq, false_or] at hh
      rcases hh with rfl | rfl <;> revert hc <;> decide
    · revert r; decide
  · exact ⟨.one (txt "10341"), by decide, by show _ = _; decide⟩
  · rintro ⟨e, he, hc⟩
    simp only [entries, List.mem_cons, List.not_mem_nil, or_false] at he
    rcases he with rfl | rfl | rfl | rfl
    · exact absurd hc.1 (by decide)
    · exact absurd hc.1 (by decide)
    · exact absurd (show 49 = value (txt "00AA") from hc) (by decide)
    · exact absurd (show 49 = value (txt "10341") from hc) (by decide)

end TableToy

end Verif.Js.Make
