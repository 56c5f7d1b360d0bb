import Verif.HtmlJson
import Verif.ImgCommandThm
import Verif.PyFloat

/-!
Image commands with Python's `int` and `json`, C119: what a command which is written by a program says is what is used.

The model of commands (`ImgCommand`) has `int(str)` and `json.loads` as parameters; here they are Python's.
-/

namespace Verif.Img.Arguments

open Verif.Reader Verif.Paths Verif.JsonText Verif.Img

/-- The digits of `int(str)`, with single underscores between them; digits of other scripts than ASCII are left out. -/
def intDigits : Bool → ℕ → Text → Option ℕ
  | true, acc, [] => some acc
  | false, _, [] => none
  | digit, acc, c :: r =>
    if isDigit c then intDigits true (acc * 10 + (c - 48)) r
    else if c = 95 ∧ digit = true then intDigits false acc r
    else none

/-- command.py:107, 116 `int(str)` for a text without whitespace. -/
def pyInt : Text → Option ℤ
  | 45 :: r => (intDigits false 0 r).map fun n : ℕ => - (n : ℤ)
  | 43 :: r => (intDigits false 0 r).map fun n : ℕ => (n : ℤ)
  | r => (intDigits false 0 r).map fun n : ℕ => (n : ℤ)

/-- command.py:155 `json.loads`; `none` is the JSONDecodeError. -/
def pyJson (t : Text) : Option Value :=
  match loads t with
  | .ok v => some v
  | .error _ => none

/-- Python, for image commands. -/
def python (space : ℕ → Bool) : Py Value := ⟨space, pyInt, pyJson, .obj []⟩

/-- The arguments of a command: source, width, height, crop style and the JSON of the crop arguments. -/
def written (path : Text) (W H : ℤ) (items : List (Text × Value)) : Text :=
  path ++ [32] ++ showInt W ++ [32] ++ showInt H ++ [32] ++ txt "cover" ++ [32] ++ dump none 0 (.obj items)

/-- Digits, with single underscores between them, and the number they are in base ten. -/
inductive Numeral : Text → ℕ → Prop
  | one {d : ℕ} : d < 10 → Numeral [48 + d] d
  | more {t : Text} {n d : ℕ} : Numeral t n → d < 10 → Numeral (t ++ [48 + d]) (n * 10 + d)
  | under {t : Text} {n d : ℕ} : Numeral t n → d < 10 → Numeral (t ++ [95, 48 + d]) (n * 10 + d)

/-- A numeral with or without a sign. -/
inductive Integer : Text → ℤ → Prop
  | bare {t : Text} {n : ℕ} : Numeral t n → Integer t n
  | plus {t : Text} {n : ℕ} : Numeral t n → Integer (43 :: t) n
  | minus {t : Text} {n : ℕ} : Numeral t n → Integer (45 :: t) (-(n : ℤ))

/-! ## Proofs -/

theorem digit_at {d : ℕ} (hd : d < 10) (b : Bool) (acc : ℕ) (r : Text) : intDigits b acc ((48 + d) :: r) = intDigits true (acc * 10 + d) r := by
  have h : isDigit (48 + d) = true := by simp [isDigit]; omega
  rw [intDigits, if_pos h, Nat.add_sub_cancel_left]

theorem under_at (acc : ℕ) (r : Text) : intDigits true acc (95 :: r) = intDigits false acc r := by
  rw [intDigits, if_neg (by decide), if_pos ⟨rfl, rfl⟩]

theorem Numeral.reads {t : Text} {n : ℕ} (h : Numeral t n) : ∀ r, intDigits false 0 (t ++ r) = intDigits true n r := by
  induction h with
  | one hd => intro r; simpa using digit_at hd false 0 r
  | more _ hd ih => intro r; rw [List.append_assoc, ih, List.singleton_append, digit_at hd]
  | under _ hd ih => intro r; rw [List.append_assoc, ih, List.cons_append, List.singleton_append, under_at, digit_at hd]

theorem reads_numeral : ∀ (r : Text) (b : Bool) (acc v : ℕ) (t : Text), Numeral t acc → intDigits b acc r = some v →
    Numeral (if b then t ++ r else t ++ 95 :: r) v
  | [], true, acc, v, t, h, e => by
    simp only [intDigits, Option.some.injEq] at e
    subst e
    simpa using h
  | [], false, acc, v, t, h, e => by simp [intDigits] at e
  | c :: r, b, acc, v, t, h, e => by
    rw [intDigits] at e
    split at e
    · next hc =>
      simp only [isDigit, Bool.and_eq_true, decide_eq_true_eq] at hc
      obtain ⟨d, rfl⟩ := Nat.exists_eq_add_of_le hc.1
      rw [Nat.add_sub_cancel_left] at e
      cases b with
      | true => simpa using reads_numeral r true _ v _ (h.more (d := d) (by omega)) e
      | false => simpa using reads_numeral r true _ v _ (h.under (d := d) (by omega)) e
    · split at e
      · next hc =>
        obtain ⟨rfl, rfl⟩ := hc
        exact reads_numeral r false _ v _ h e
      · cases e

theorem intDigits_iff {t : Text} {n : ℕ} : intDigits false 0 t = some n ↔ Numeral t n := by
  constructor
  · intro h
    match t, h with
    | [], h => simp [intDigits] at h
    | c :: r, h =>
      rw [intDigits] at h
      split at h
      · next hc =>
        simp only [isDigit, Bool.and_eq_true, decide_eq_true_eq] at hc
        obtain ⟨d, rfl⟩ := Nat.exists_eq_add_of_le hc.1
        have := reads_numeral r true _ n _ (Numeral.one (d := d) (by omega)) (by simpa using h)
        simpa using this
      · rw [if_neg (by simp)] at h
        cases h
  · intro h
    have := h.reads []
    rw [List.append_nil] at this
    rw [this, intDigits]

theorem Numeral.head {t : Text} {n : ℕ} (h : Numeral t n) : ∃ d r, t = d :: r ∧ 48 ≤ d := by
  induction h with
  | one => exact ⟨_, _, rfl, by omega⟩
  | more _ _ ih => obtain ⟨d, r, rfl, h⟩ := ih; exact ⟨d, _, rfl, h⟩
  | under _ _ ih => obtain ⟨d, r, rfl, h⟩ := ih; exact ⟨d, _, rfl, h⟩

/-- C119: the sizes are read as Python reads integers. -/
theorem C119_int {t : Text} {z : ℤ} : pyInt t = some z ↔ Integer t z := by
  constructor
  · intro h
    unfold pyInt at h
    split at h <;> obtain ⟨n, h1, rfl⟩ := Option.map_eq_some_iff.1 h
    · exact .minus (intDigits_iff.1 h1)
    · exact .plus (intDigits_iff.1 h1)
    · exact .bare (intDigits_iff.1 h1)
  · intro h
    cases h with
    | minus h => rw [pyInt, intDigits_iff.2 h]; rfl
    | plus h => rw [pyInt, intDigits_iff.2 h]; rfl
    | bare h =>
      obtain ⟨d, r, rfl, hd⟩ := h.head
      unfold pyInt
      split
      · next e => cases e; omega
      · next e => cases e; omega
      · rw [intDigits_iff.2 h]; rfl

/-- `-1_20` is an integer; `1_` is none. -/
theorem C119_int_case : Integer (txt "-1_20") (-120) ∧ pyInt (txt "1_") = none ∧ pyInt (txt "-") = none :=
  ⟨C119_int.1 (by decide), by decide, by decide⟩

theorem intDigits_digits (ds : Text) (h : ∀ c ∈ ds, isDigit c = true) (b : Bool) (acc : ℕ) (hne : b = true ∨ ds ≠ []) :
    intDigits b acc ds = some (ds.foldl (fun a d => a * 10 + (d - 48)) acc) := by
  induction ds generalizing b acc with
  | nil =>
    rcases hne with rfl | h
    · rfl
    · exact absurd rfl h
  | cons c r ih =>
    rw [intDigits, if_pos (h c List.mem_cons_self), ih (fun c hc => h c (List.mem_cons_of_mem _ hc)) _ _ (.inl rfl)]
    rfl

theorem showNat_ne (n : ℕ) : showNat n ≠ [] := by
  by_cases h : n = 0
  · subst h; simp [showNat]
  · obtain ⟨d, q, e, _⟩ := showNat_cons h
    simp [e]

theorem intDigits_showNat (n : ℕ) : intDigits false 0 (showNat n) = some n := by
  rw [intDigits_digits _ (fun c hc => showNat_digits hc) _ _ (.inr (showNat_ne n))]
  exact congrArg some (natOf_showNat n)

theorem pyInt_showInt (n : ℤ) : pyInt (showInt n) = some n := by
  cases n with
  | ofNat n =>
    show pyInt (showNat n) = _
    have h1 := intDigits_showNat n
    have h2 := fun c => showNat_digits (n := n) (c := c)
    cases e : showNat n with
    | nil => exact absurd e (showNat_ne n)
    | cons c r =>
      rw [e] at h1 h2
      have hc := h2 c List.mem_cons_self
      have c1 : c ≠ 45 := by rintro rfl; exact absurd hc (by decide)
      have c2 : c ≠ 43 := by rintro rfl; exact absurd hc (by decide)
      unfold pyInt
      split
      · next h => exact absurd (List.cons.inj h).1 c1
      · next h => exact absurd (List.cons.inj h).1 c2
      · rw [h1]; rfl
  | negSucc n =>
    show pyInt (45 :: showNat (n + 1)) = _
    rw [pyInt, intDigits_showNat]
    rfl

theorem showInt_visible {n : ℤ} {c : ℕ} (h : c ∈ showInt n) : isDigit c = true ∨ c = 45 := by
  cases n with
  | ofNat n => exact .inl (showNat_digits h)
  | negSucc n =>
    rcases List.mem_cons.1 h with rfl | h
    · exact .inr rfl
    · exact .inl (showNat_digits h)

theorem visible {space : ℕ → Bool} (hg : GoodSpace space) {c : ℕ} (h : isDigit c = true ∨ c = 45) : space c = false := by
  rcases h with h | rfl
  · have : 48 ≤ c ∧ c ≤ 57 := by simpa [isDigit] using h
    exact hg.2.2 c (by omega) (by omega)
  · exact hg.2.2 45 (by decide) (by decide)

theorem showInt_word {space : ℕ → Bool} (hg : GoodSpace space) (n : ℤ) : Word space (showInt n) := by
  refine ⟨?_, fun c hc => visible hg (showInt_visible hc)⟩
  cases n with
  | ofNat n => exact showNat_ne n
  | negSucc n => exact List.cons_ne_nil _ _

/-- The text of a dictionary is between brackets. -/
theorem dump_brackets (items : List (Text × Value)) : ∃ b, dump none 0 (.obj items) = 123 :: b ++ [125] := by
  cases items with
  | nil => exact ⟨[], rfl⟩
  | cons e l =>
    obtain ⟨k, v⟩ := e
    rw [dump]
    exact ⟨newline none 1 ++ (dumpStr k ++ 58 :: 32 :: (dump none 1 v ++ (dumpPairs none 1 l ++ newline none 0))), by simp⟩

theorem split_written {space : ℕ → Bool} (hg : GoodSpace space) {path : Text} (hp : Word space path) (W H : ℤ) (items : List (Text × Value)) (rest : Text) :
    splitMax space 4 (written path W H items ++ rest) =
      [path, showInt W, showInt H, txt "cover", dump none 0 (.obj items) ++ rest] := by
  obtain ⟨b, hb⟩ := dump_brackets items
  have G : Gap space [32] := ⟨by simp, by simp [hg.1]⟩
  have e : written path W H items ++ rest = [] ++ path ++ ([32] ++ (showInt W ++ ([32] ++ (showInt H ++ ([32] ++ (txt "cover" ++ ([32] ++
      (dump none 0 (.obj items) ++ rest)))))))) := by simp [written]
  rw [e]
  refine splitMax_cons.2 ⟨[], _, rfl, by simp [Blank], hp, ends_of_gap G, ?_⟩
  refine splitMax_cons.2 ⟨[32], _, (List.append_assoc ..).symm, G.2, showInt_word hg W, ends_of_gap G, ?_⟩
  refine splitMax_cons.2 ⟨[32], _, (List.append_assoc ..).symm, G.2, showInt_word hg H, ends_of_gap G, ?_⟩
  refine splitMax_cons.2 ⟨[32], _, (List.append_assoc ..).symm, G.2, cover_word hg, ends_of_gap G, ?_⟩
  refine splitMax_zero.2 ⟨rfl, [32], rfl, G.2, 123, ?_, hg.2.2 123 (by decide) (by decide)⟩
  rw [hb]
  rfl

theorem parse_written {space : ℕ → Bool} (hg : GoodSpace space) {path : Text} (hp : Word space path) (W H : ℤ) (items : List (Text × Value)) (rest : Text) :
    parseCommand (python space) (written path W H items ++ rest) =
      match parseCrop (python space) (dump none 0 (.obj items) ++ rest) with
      | .error e => .error e
      | .ok (j, l) => .ok ⟨path, W, H, txt "cover", j, l⟩ := by
  have h := split_written hg hp W H items rest
  have h1 : (python space).int (showInt W) = some W := pyInt_showInt W
  have h2 : (python space).int (showInt H) = some H := pyInt_showInt H
  have h3 : splitMax (python space).space 4 (written path W H items ++ rest) = _ := h
  simp only [parseCommand, h3, h1, h2, ne_eq, not_true_eq_false, if_false]
  cases parseCrop (python space) (dump none 0 (.obj items) ++ rest) <;> rfl

/-- C119: a command with crop arguments which Python's `json` has written, in which no closing bracket comes before the last one, is
understood as it was meant; with anything behind it, it is loaded eagerly if a blank follows. -/
theorem C119_understood {space : ℕ → Bool} (hg : GoodSpace space) {path : Text} (hp : Word space path) (W H : ℤ) {items : List (Text × Value)}
    (hi : Genuine (.obj items)) (hb : 125 ∉ (dump none 0 (.obj items)).dropLast) (rest : Text) :
    parseCommand (python space) (written path W H items ++ rest) =
      .ok ⟨path, W, H, txt "cover", .obj items, decide (rest.head? ≠ some 32)⟩ := by
  obtain ⟨b, e⟩ := dump_brackets items
  rw [parse_written hg hp]
  have hj : (python space).json (123 :: b ++ [125]) = some (.obj items) := by
    show pyJson _ = _
    rw [pyJson, ← e, loads_dump hi trivial]
  have hb' : 125 ∉ b := by
    rw [e] at hb
    intro h
    apply hb
    rw [List.dropLast_concat]
    exact List.mem_cons_of_mem _ h
  have : parseCrop (python space) (dump none 0 (.obj items) ++ rest) = .ok (.obj items, decide (rest.head? ≠ some 32)) :=
    parseCrop_spec.2 ⟨b, rest, hb', by rw [e], hj, rfl⟩
  rw [this]

/-- C119: a command with crop arguments in which a closing bracket comes earlier, in a text or behind a dictionary in the dictionary, is
refused; it is never taken for another command. -/
theorem C119_refused {space : ℕ → Bool} (hg : GoodSpace space) {path : Text} (hp : Word space path) (W H : ℤ) {items : List (Text × Value)}
    (hi : Genuine (.obj items)) (hb : 125 ∈ (dump none 0 (.obj items)).dropLast) (rest : Text) :
    parseCommand (python space) (written path W H items ++ rest) = .error .valueError := by
  obtain ⟨b, e⟩ := dump_brackets items
  rw [parse_written hg hp]
  have hb' : 125 ∈ b := by
    rw [e, List.dropLast_concat] at hb
    rcases List.mem_cons.1 hb with h | h
    · exact absurd h (by decide)
    · exact h
  obtain ⟨p, s, hps, hnp⟩ : ∃ p s, b = p ++ 125 :: s ∧ 125 ∉ p := by
    obtain ⟨p, s, h1, h2⟩ := List.eq_append_cons_of_mem hb'
    exact ⟨p, s, h1, h2⟩
  have hl : loads (123 :: p ++ [125]) = .error .decode := by
    refine torn_dump hi (k := none) (s := s ++ [125]) ?_ (by simp)
    rw [e, hps]
    simp
  have hcut : cutObject (dump none 0 (.obj items) ++ rest) = some (123 :: p ++ [125], s ++ [125] ++ rest) := by
    have h1 : ∀ r, (p ++ 125 :: r).takeWhile (fun c => decide (c ≠ 125)) = p ∧ (p ++ 125 :: r).dropWhile (fun c => decide (c ≠ 125)) = 125 :: r := by
      intro r
      clear hps hl
      induction p with
      | nil => simp
      | cons c p ih =>
        have hc : c ≠ 125 := fun h => hnp (by rw [h]; exact List.mem_cons_self)
        have := ih (fun h => hnp (List.mem_cons_of_mem _ h))
        simp only [List.cons_append, List.takeWhile_cons, List.dropWhile_cons, decide_eq_true hc, if_true, this.1, this.2, and_self]
    have e2 : dump none 0 (.obj items) ++ rest = 123 :: (p ++ 125 :: (s ++ [125] ++ rest)) := by
      rw [e, hps]; simp
    rw [e2, cutObject]
    simp only [h1]
  have : parseCrop (python space) (dump none 0 (.obj items) ++ rest) = .error .valueError := by
    have hj : (python space).json (123 :: p ++ [125]) = none := by
      show pyJson _ = _
      rw [pyJson, hl]
    simp only [parseCrop, hcut, hj]
  rw [this]

/-! ## Numbers -/

/-- A number in the crop arguments: Python's `int` or `float`. -/
inductive Amount where
  | whole (n : ℤ)
  | float (q : ℚ)

/-- The number itself. -/
def Amount.number : Amount → ℚ
  | .whole n => n
  | .float q => q

/-- What `json` makes of it. -/
def Amount.value : Amount → Value
  | .whole n => .int n
  | .float q => .float (PyFloat.shown q)

/-- Crop arguments with numbers: names of characters without a closing bracket, each one once, and floats which are floats. -/
structure Numbers (crop : List (Text × Amount)) : Prop where
  keys : ∀ e ∈ crop, JsonText.Plain e.1 ∧ 125 ∉ e.1
  once : (crop.map (·.1)).Nodup
  floats : ∀ k q, (k, Amount.float q) ∈ crop → Num.fl q = q

/-- The crop arguments as values of JSON. -/
def items (crop : List (Text × Amount)) : List (Text × Value) := crop.map fun e => (e.1, e.2.value)

theorem hexDigit_small {n : ℕ} (h : n < 16) : hexDigit n ≠ 125 := by unfold hexDigit; split <;> omega

theorem unicodeEscape_bracket (n : ℕ) : 125 ∉ unicodeEscape n := by
  have h := fun k => hexDigit_small (Nat.mod_lt k (by decide : 0 < 16))
  intro hc
  simp only [unicodeEscape, List.mem_cons, List.not_mem_nil, or_false] at hc
  rcases hc with hc | hc | hc | hc | hc | hc
  · exact absurd hc (by decide)
  · exact absurd hc (by decide)
  · exact h _ hc.symm
  · exact h _ hc.symm
  · exact h _ hc.symm
  · exact h _ hc.symm

theorem escapeChar_bracket {c : ℕ} (h : c ≠ 125) : 125 ∉ escapeChar c := by
  unfold escapeChar
  have := unicodeEscape_bracket
  split_ifs <;> simp_all
  omega

theorem dumpStr_bracket {s : Text} (h : 125 ∉ s) : 125 ∉ dumpStr s := by
  intro hc
  simp only [dumpStr, escape, List.mem_cons, List.mem_append, List.mem_flatMap, List.not_mem_nil, or_false] at hc
  rcases hc with hc | ⟨c, h1, h2⟩ | hc
  · exact absurd hc (by decide)
  · exact escapeChar_bracket (fun e => h (e ▸ h1)) h2
  · exact absurd hc (by decide)

theorem showInt_bracket (n : ℤ) : 125 ∉ showInt n := by
  intro h
  rcases showInt_visible h with h | h
  · exact absurd h (by decide)
  · exact absurd h (by decide)

theorem shown_bracket {q : ℚ} (hq : Num.fl q = q) : 125 ∉ PyFloat.shown q := by
  intro h
  rcases PyFloat.shown_chars hq h with h | h | h | h | h <;> exact absurd h (by decide)

theorem value_bracket {a : Amount} (h : ∀ q, a = .float q → Num.fl q = q) (level : ℕ) : 125 ∉ dump none level a.value := by
  cases a with
  | whole n => rw [Amount.value, dump]; exact showInt_bracket n
  | float q => rw [Amount.value, dump]; exact shown_bracket (h q rfl)

theorem Numbers.tail {e : Text × Amount} {l : List (Text × Amount)} (h : Numbers (e :: l)) : Numbers l :=
  ⟨fun x hx => h.keys x (List.mem_cons_of_mem _ hx), (List.nodup_cons.1 h.once).2, fun k q hk => h.floats k q (List.mem_cons_of_mem _ hk)⟩

theorem pairs_bracket {crop : List (Text × Amount)} (h : Numbers crop) (level : ℕ) : 125 ∉ dumpPairs none level (items crop) := by
  induction crop with
  | nil => simp [items, dumpPairs]
  | cons e l ih =>
    obtain ⟨k, a⟩ := e
    have h1 := ih h.tail
    have h2 := dumpStr_bracket (h.keys (k, a) List.mem_cons_self).2
    have h3 := value_bracket (a := a) (fun q e => h.floats k q (by rw [← e]; exact List.mem_cons_self)) level
    simp only [items, List.map_cons] at h1 ⊢
    simp [dumpPairs, gap, h1, h2, h3]

theorem items_bracket {crop : List (Text × Amount)} (h : Numbers crop) : 125 ∉ (dump none 0 (.obj (items crop))).dropLast := by
  cases crop with
  | nil => simp [items, dump]
  | cons e l =>
    obtain ⟨k, a⟩ := e
    have h1 := pairs_bracket h.tail 1
    have h2 := dumpStr_bracket (h.keys (k, a) List.mem_cons_self).2
    have h3 := value_bracket (a := a) (fun q e => h.floats k q (by rw [← e]; exact List.mem_cons_self)) 1
    have e : dump none 0 (.obj (items ((k, a) :: l))) =
        (123 :: (dumpStr k ++ 58 :: 32 :: (dump none 1 a.value ++ dumpPairs none 1 (items l)))) ++ [125] := by
      simp [items, dump, newline]
    rw [e, List.dropLast_concat]
    simp [h1, h2, h3]

theorem items_genuine {crop : List (Text × Amount)} (h : Numbers crop) : Genuine (.obj (items crop)) := by
  have hk : (items crop).map (·.1) = crop.map (·.1) := by simp [items]
  rw [Genuine, hk]
  refine ⟨?_, h.once⟩
  clear hk
  induction crop with
  | nil => trivial
  | cons e l ih =>
    obtain ⟨k, a⟩ := e
    refine ⟨(h.keys (k, a) List.mem_cons_self).1, ?_, ih h.tail⟩
    cases a with
    | whole n => trivial
    | float q => exact (PyFloat.C118_float (h.floats k q List.mem_cons_self)).1

/-- C119: a comment with an image command whose crop arguments are numbers gives the command with these numbers, if the image is there and
is not enlarged, and is left alone otherwise. -/
theorem C119_command {space : ℕ → Bool} (hg : GoodSpace space) {image : Text → Option (ℤ × ℤ)} {cwd folder rel path : Text}
    (hp : Word space path) (W H : ℤ) {crop : List (Text × Amount)} (hc : Numbers crop) :
    getCommand (python space) image cwd folder rel (txt "[IMAGE: " ++ written path W H (items crop) ++ [93]) =
      .ok (if validate image cwd folder (join folder rel) (⟨path, W, H, txt "cover", .obj (items crop), true⟩ : Command Value) then
        some ⟨path, W, H, txt "cover", .obj (items crop), true⟩ else none) ∧
    ∀ e ∈ crop, e.2.value.num PyFloat.python = some e.2.number := by
  have h10 : 10 ∉ written path W H (items crop) := by
    have a1 : 10 ∉ path := fun h => by have := hp.2 10 h; rw [hg.2.1] at this; cases this
    have a2 : ∀ n, 10 ∉ showInt n := fun n h => by
      rcases showInt_visible h with h | h <;> exact absurd h (by decide)
    have a3 := Html.dump_line (.obj (items crop)) 0 (items_genuine hc)
    have a4 : 10 ∉ txt "cover" := by decide
    simp [written, a1, a2, a3, a4]
  have hargs : imageArgs space (txt "[IMAGE: " ++ written path W H (items crop) ++ [93]) = some (written path W H (items crop)) := by
    refine (C45_comment hg _ _).2 ⟨[], [], [], [32], [], ?_, by simp [Blank], by simp [Blank], by simp [Blank], ⟨by simp, by simp [hg.1]⟩, by simp [Blank], h10, ?_⟩
    · have : txt "[IMAGE: " = [] ++ [91] ++ [] ++ txt "IMAGE" ++ [] ++ [58] ++ [32] := by decide
      rw [this]
      simp
    · intro x hx
      obtain ⟨hne, hw⟩ := hp
      cases path with
      | nil => exact absurd rfl hne
      | cons c r =>
        have : c = x := by simpa [written] using hx
        exact this ▸ hw c List.mem_cons_self
  have hparse := C119_understood hg hp W H (items_genuine hc) (items_bracket hc) []
  rw [List.append_nil] at hparse
  constructor
  · have hargs' : imageArgs (python space).space (txt "[IMAGE: " ++ written path W H (items crop) ++ [93]) = _ := hargs
    simp only [getCommand, hargs', hparse]
    rfl
  · rintro ⟨k, a⟩ ha
    cases a with
    | whole n => rfl
    | float q => exact (PyFloat.C118_float (hc.floats k q ha)).2

/-! ## Cases -/

/-- Python's whitespace, as far as ASCII goes. -/
def ascii (c : ℕ) : Bool := c == 32 || (9 ≤ c && c ≤ 13) || (28 ≤ c && c ≤ 31)

theorem ascii_good : GoodSpace ascii := ⟨rfl, rfl, fun c h1 h2 => by simp [ascii]; omega⟩

def demo : List (Text × Amount) := [(txt "top", .float (Num.fl (1 / 10))), (txt "left", .whole (-5))]

theorem demo_numbers : Numbers demo where
  keys := by
    intro e he
    simp only [demo, List.mem_cons, List.not_mem_nil, or_false] at he
    rcases he with rfl | rfl
    · exact ⟨plain_txt _, by decide⟩
    · exact ⟨plain_txt _, by decide⟩
  once := by decide
  floats := by
    intro k q h
    simp only [demo, List.mem_cons, List.not_mem_nil, or_false, Prod.mk.injEq, Amount.float.injEq, reduceCtorEq, and_false] at h
    rw [h.2]
    exact PyFloat.fl_fl _

/-- The hypotheses of C119 are met, and the comment is what one would write. -/
theorem C119_case : GoodSpace ascii ∧ Word ascii (txt "/img/t.jpg") ∧ Numbers demo ∧
    txt "[IMAGE: " ++ written (txt "/img/t.jpg") 200 50 (items demo) ++ [93] =
      txt "[IMAGE: /img/t.jpg 200 50 cover {\"top\": 0.1, \"left\": -5}]" := by
  refine ⟨ascii_good, by unfold Word; decide, demo_numbers, ?_⟩
  have h : PyFloat.shown (Num.fl (1 / 10)) = [48, 46, 49] := PyFloat.C118_case.1
  simp only [written, items, demo, List.map_cons, List.map_nil, Amount.value, dump, dumpPairs, gap, newline, h]
  decide +kernel

/-- Refused: a text with a bracket, and a dictionary in the dictionary. -/
theorem C119_refused_case :
    parseCommand (python ascii) (written (txt "/a.jpg") 2 5 [(txt "top", .str (txt "}"))]) = .error .valueError ∧
    parseCommand (python ascii) (written (txt "/a.jpg") 2 5 [(txt "top", .obj [(txt "a", .int 1)])]) = .error .valueError := by
  have hw : Word ascii (txt "/a.jpg") := by unfold Word; decide
  have h1 : Genuine (.obj [(txt "top", .str (txt "}"))]) := by
    simp only [Genuine, GenuinePairs, List.map_cons, List.map_nil]
    exact ⟨⟨plain_txt _, plain_txt _, trivial⟩, by decide⟩
  have h2 : Genuine (.obj [(txt "top", .obj [(txt "a", .int 1)])]) := by
    simp only [Genuine, GenuinePairs, List.map_cons, List.map_nil]
    exact ⟨⟨plain_txt _, ⟨⟨plain_txt _, trivial, trivial⟩, by decide⟩, trivial⟩, by decide⟩
  have a1 := C119_refused ascii_good hw 2 5 h1 (by simp only [dump, dumpPairs, newline]; decide +kernel) []
  have a2 := C119_refused ascii_good hw 2 5 h2 (by simp only [dump, dumpPairs, newline]; decide +kernel) []
  rw [List.append_nil] at a1 a2
  exact ⟨a1, a2⟩

end Verif.Img.Arguments
