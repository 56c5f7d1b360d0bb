import Verif.JsonDump
import Verif.JsonTextCase
import Verif.HtmlTemplateThm
/-!
# C116: the arguments of templates in the comments which are put around them

template.py:134-155 writes the path and the variables of an inclusion as JSON into comments and reads them from there;
`Html.Faithful` says what the theorems about templates assume of this.  Here it is proved of Python's `json`.
-/
namespace Verif.Html
open Verif.JsonText (Value Genuine Genuines GenuinePairs number showInt dump loads)
open Verif.Reader (Text txt)

/-- A number, given by its `str`, as JSON: Python writes infinities and NaN in another way than `str` shows them. -/
def numValue (t : Text) : Value :=
  if t = [105, 110, 102] then .infinite false
  else if t = [45, 105, 110, 102] then .infinite true
  else if t = [110, 97, 110] then .nan
  else match number t with
    | some (.int n, []) => .int n
    | _ => .float t

mutual
/-- A value as the tree `json.dumps` writes (template.py:138-148); simplification: Python has no such step. -/
def toValue : Json → Value
  | .null => .null
  | .bool b => .bool b
  | .num t => numValue t
  | .str s => .str s
  | .arr l => .arr (toValues l)
  | .obj l => .obj (toPairs l)
def toValues : List Json → List Value
  | [] => []
  | v :: l => toValue v :: toValues l
def toPairs : List (Text × Json) → List (Text × Value)
  | [] => []
  | (k, v) :: l => (k, toValue v) :: toPairs l
end

mutual
/-- What `json.loads` gives (template.py:98-123); `shown t` is `str(float(t))`. -/
def ofValue (shown : Text → Text) : Value → Json
  | .null => .null
  | .bool b => .bool b
  | .int n => .num (showInt n)
  | .float t => .num (shown t)
  | .infinite false => .num [105, 110, 102]
  | .infinite true => .num [45, 105, 110, 102]
  | .nan => .num [110, 97, 110]
  | .str s => .str s
  | .arr l => .arr (ofValues shown l)
  | .obj l => .obj (ofPairs shown l)
def ofValues (shown : Text → Text) : List Value → List Json
  | [] => []
  | v :: l => ofValue shown v :: ofValues shown l
def ofPairs (shown : Text → Text) : List (Text × Value) → List (Text × Json)
  | [] => []
  | (k, v) :: l => (k, ofValue shown v) :: ofPairs shown l
end

/-- The numbers of Python: what `str` shows for an int, for a float, and for the infinities and NaN. -/
def PyNum (shown : Text → Text) (t : Text) : Prop :=
  t = [105, 110, 102] ∨ t = [45, 105, 110, 102] ∨ t = [110, 97, 110] ∨ (∃ n, t = showInt n) ∨
    (number t = some (.float t, []) ∧ shown t = t)

mutual
/-- The values Python has. -/
def PyValue (shown : Text → Text) : Json → Prop
  | .num t => PyNum shown t
  | .str s => JsonText.Plain s
  | .arr l => PyValues shown l
  | .obj l => PyPairs shown l ∧ (l.map (·.1)).Nodup
  | _ => True
def PyValues (shown : Text → Text) : List Json → Prop
  | [] => True
  | v :: l => PyValue shown v ∧ PyValues shown l
def PyPairs (shown : Text → Text) : List (Text × Json) → Prop
  | [] => True
  | (k, v) :: l => JsonText.Plain k ∧ PyValue shown v ∧ PyPairs shown l
end

theorem numValue_num {shown : Text → Text} {t : Text} (h : PyNum shown t) :
    Genuine (numValue t) ∧ ofValue shown (numValue t) = .num t := by
  rcases h with rfl | rfl | rfl | ⟨n, rfl⟩ | ⟨h1, h2⟩
  · simp [numValue, Genuine, ofValue]
  · simp [numValue, Genuine, ofValue]
  · simp [numValue, Genuine, ofValue]
  · have hn := JsonText.number_showInt n
    have k : ∀ t : Text, number t = none → showInt n ≠ t := fun t h e => by rw [e, h] at hn; cases hn
    have k1 := k [105, 110, 102] rfl
    have k2 := k [45, 105, 110, 102] rfl
    have k3 := k [110, 97, 110] rfl
    simp [numValue, k1, k2, k3, hn, Genuine, ofValue]
  · have k : ∀ u : Text, number u = none → t ≠ u := fun u h e => by rw [e, h] at h1; cases h1
    have k1 := k [105, 110, 102] rfl
    have k2 := k [45, 105, 110, 102] rfl
    have k3 := k [110, 97, 110] rfl
    simp [numValue, k1, k2, k3, h1, Genuine, ofValue, h2]

theorem toPairs_keys : ∀ l, (toPairs l).map (·.1) = l.map (·.1)
  | [] => by simp [toPairs]
  | (k, v) :: l => by simp [toPairs, toPairs_keys l]

mutual
theorem of_to (shown : Text → Text) : ∀ v, PyValue shown v → Genuine (toValue v) ∧ ofValue shown (toValue v) = v
  | .null, _ => by simp [toValue, Genuine, ofValue]
  | .bool b, _ => by simp [toValue, Genuine, ofValue]
  | .num t, h => by
    simp only [PyValue] at h
    simpa only [toValue] using numValue_num h
  | .str s, h => by
    simp only [PyValue] at h
    simp [toValue, Genuine, ofValue, h]
  | .arr l, h => by
    simp only [PyValue] at h
    have := of_to_list shown l h
    simp only [toValue, Genuine, ofValue, this.2]
    exact ⟨this.1, trivial⟩
  | .obj l, h => by
    simp only [PyValue] at h
    have := of_to_pairs shown l h.1
    simp only [toValue, Genuine, ofValue, this.2, toPairs_keys]
    exact ⟨⟨this.1, h.2⟩, trivial⟩
theorem of_to_list (shown : Text → Text) : ∀ l, PyValues shown l → Genuines (toValues l) ∧ ofValues shown (toValues l) = l
  | [], _ => by simp [toValues, Genuines, ofValues]
  | v :: l, h => by
    simp only [PyValues] at h
    have h1 := of_to shown v h.1
    have h2 := of_to_list shown l h.2
    simp only [toValues, Genuines, ofValues, h1.2, h2.2]
    exact ⟨⟨h1.1, h2.1⟩, trivial⟩
theorem of_to_pairs (shown : Text → Text) : ∀ l, PyPairs shown l → GenuinePairs (toPairs l) ∧ ofPairs shown (toPairs l) = l
  | [], _ => by simp [toPairs, GenuinePairs, ofPairs]
  | (k, v) :: l, h => by
    simp only [PyPairs] at h
    have h1 := of_to shown v h.2.1
    have h2 := of_to_pairs shown l h.2.2
    simp only [toPairs, GenuinePairs, ofPairs, h1.2, h2.2]
    exact ⟨⟨h.1, h1.1, h2.1⟩, trivial⟩
end

/-! ## The text has no newline -/

theorem dumpStr_line (s : Text) : 10 ∉ JsonText.dumpStr s := fun h => by
  have := JsonText.printable_str s 10 h
  simp [JsonText.Printable] at this

mutual
theorem dump_line : ∀ v level, Genuine v → 10 ∉ dump none level v
  | .null, _, _ => by simp [dump]
  | .bool true, _, _ => by simp [dump]
  | .bool false, _, _ => by simp [dump]
  | .int n, _, _ => by
    simp only [dump]
    obtain ⟨u, h1, h2⟩ := JsonText.number_text (JsonText.number_showInt n)
    rw [h1, List.append_nil]
    intro h
    have := h2 10 h
    simp [JsonText.Printable] at this
  | .float t, _, hg => by
    simp only [Genuine] at hg
    simp only [dump]
    obtain ⟨u, h1, h2⟩ := JsonText.number_text hg
    rw [h1, List.append_nil]
    intro h
    have := h2 10 h
    simp [JsonText.Printable] at this
  | .infinite false, _, _ => by simp [dump]
  | .infinite true, _, _ => by simp [dump]
  | .nan, _, _ => by simp [dump]
  | .str s, _, _ => by simp only [dump]; exact dumpStr_line s
  | .arr [], _, _ => by simp [dump]
  | .arr (v :: l), level, hg => by
    simp only [Genuine, Genuines] at hg
    have h1 := dump_line v (level + 1) hg.1
    have h2 := dumpRest_line l (level + 1) hg.2
    simp [dump, JsonText.newline, h1, h2]
  | .obj [], _, _ => by simp [dump]
  | .obj ((k, v) :: l), level, hg => by
    simp only [Genuine, GenuinePairs] at hg
    have h1 := dump_line v (level + 1) hg.1.2.1
    have h2 := dumpPairs_line l (level + 1) hg.1.2.2
    simp [dump, JsonText.newline, h1, h2, dumpStr_line]
theorem dumpRest_line : ∀ l level, Genuines l → 10 ∉ JsonText.dumpRest none level l
  | [], _, _ => by simp [JsonText.dumpRest]
  | v :: l, level, hg => by
    simp only [Genuines] at hg
    have h1 := dump_line v level hg.1
    have h2 := dumpRest_line l level hg.2
    simp [JsonText.dumpRest, JsonText.gap, h1, h2]
theorem dumpPairs_line : ∀ l level, GenuinePairs l → 10 ∉ JsonText.dumpPairs none level l
  | [], _, _ => by simp [JsonText.dumpPairs]
  | (k, v) :: l, level, hg => by
    simp only [GenuinePairs] at hg
    have h1 := dump_line v level hg.2.1
    have h2 := dumpPairs_line l level hg.2.2
    simp [JsonText.dumpPairs, JsonText.gap, h1, h2, dumpStr_line]
end

/-! ## Values which Python does not have -/

mutual
/-- A number for each part of a value. -/
def code : Json → List Nat
  | .null => [0]
  | .bool b => [1, b.toNat]
  | .num t => 2 :: t.length :: t
  | .str t => 3 :: t.length :: t
  | .arr l => 4 :: l.length :: codes l
  | .obj l => 5 :: l.length :: codePairs l
def codes : List Json → List Nat
  | [] => []
  | v :: l => code v ++ codes l
def codePairs : List (Text × Json) → List Nat
  | [] => []
  | (k, v) :: l => k.length :: (k ++ (code v ++ codePairs l))
end

theorem split_append {a b r s : List Nat} (hl : a.length = b.length) (h : a ++ r = b ++ s) : a = b ∧ r = s :=
  List.append_inj h hl

mutual
theorem code_inj : ∀ (a b : Json) (r s : List Nat), code a ++ r = code b ++ s → a = b ∧ r = s
  | .null, b, r, s, h => by cases b <;> simp_all [code]
  | .bool x, b, r, s, h => by
    cases b <;> simp [code] at h
    next y => cases x <;> cases y <;> simp_all
  | .num t, b, r, s, h => by
    cases b <;> simp [code] at h
    next u => have := split_append h.1 h.2; exact ⟨by rw [this.1], this.2⟩
  | .str t, b, r, s, h => by
    cases b <;> simp [code] at h
    next u => have := split_append h.1 h.2; exact ⟨by rw [this.1], this.2⟩
  | .arr l, b, r, s, h => by
    cases b <;> simp [code] at h
    next m => have := codes_inj l m r s h.1 h.2; exact ⟨by rw [this.1], this.2⟩
  | .obj l, b, r, s, h => by
    cases b <;> simp [code] at h
    next m => have := codePairs_inj l m r s h.1 h.2; exact ⟨by rw [this.1], this.2⟩
theorem codes_inj : ∀ (a b : List Json) (r s : List Nat), a.length = b.length → codes a ++ r = codes b ++ s → a = b ∧ r = s
  | [], b, r, s, hl, h => by cases b <;> simp_all [codes]
  | v :: a, b, r, s, hl, h => by
    cases b with
    | nil => simp at hl
    | cons w b =>
      simp only [codes, List.append_assoc] at h
      obtain ⟨e1, h1⟩ := code_inj v w _ _ h
      subst e1
      obtain ⟨e2, h2⟩ := codes_inj a b r s (by simpa using hl) h1
      exact ⟨by rw [e2], h2⟩
theorem codePairs_inj : ∀ (a b : List (Text × Json)) (r s : List Nat), a.length = b.length → codePairs a ++ r = codePairs b ++ s → a = b ∧ r = s
  | [], b, r, s, hl, h => by cases b <;> simp_all [codePairs]
  | (k, v) :: a, b, r, s, hl, h => by
    cases b with
    | nil => simp at hl
    | cons w b =>
      obtain ⟨k', w⟩ := w
      simp only [codePairs, List.cons_append, List.append_assoc, List.cons.injEq] at h
      obtain ⟨e0, h0⟩ := split_append h.1 h.2
      obtain ⟨e1, h1⟩ := code_inj v w _ _ h0
      obtain ⟨e2, h2⟩ := codePairs_inj a b r s (by simpa using hl) h1
      exact ⟨by rw [e0, e1, e2], h2⟩
end

theorem code_injective : Function.Injective code := fun a b h => (code_inj a b [] [] (by rw [h])).1

open Classical in
/-- `json.dumps` (template.py:138-148); for values which Python does not have, a text which is no JSON. -/
noncomputable def pyDumps (shown : Text → Text) (v : Json) : Text :=
  if PyValue shown v then dump none 0 (toValue v) else 91 :: 0 :: (code v).map (· + 11)

open Classical in
/-- `json.loads` (template.py:98-123); the first case is for the texts above which are no JSON. -/
noncomputable def pyLoads (shown : Text → Text) (t : Text) : Option Json :=
  if h : ∃ v, 91 :: 0 :: (code v).map (· + 11) = t then some h.choose
  else match loads t with
    | .ok v => some (ofValue shown v)
    | .error _ => none

theorem junk_error {v : Json} {w : Value} : loads (91 :: 0 :: (code v).map (· + 11)) ≠ .ok w := by
  intro h
  unfold loads at h
  rw [JsonText.ws_cons rfl] at h
  have ha : ∀ q : Text, JsonText.atom (0 :: q) = none := by
    intro q
    have hw : ∀ c w, c ≠ 0 → JsonText.word (c :: w) (0 :: q) = none := fun c w h => JsonText.word_other (Ne.symm h)
    unfold JsonText.atom
    rw [hw 110 _ (by decide), hw 116 _ (by decide), hw 102 _ (by decide), hw 78 _ (by decide), hw 73 _ (by decide), hw 45 _ (by decide)]
    rfl
  have hv : ∀ n, JsonText.value n (91 :: 0 :: (code v).map (· + 11)) = .error .decode ∨ JsonText.value n (91 :: 0 :: (code v).map (· + 11)) = .error .fuel := by
    intro n
    match n with
    | 0 => right; simp [JsonText.value]
    | 1 =>
      right
      simp [JsonText.value, JsonText.elements, JsonText.eat, JsonText.ws_cons (show JsonText.isSpace 0 = false from rfl)]
    | 2 =>
      right
      simp [JsonText.value, JsonText.elements, JsonText.eat, JsonText.ws_cons (show JsonText.isSpace 0 = false from rfl)]
    | n + 3 =>
      left
      simp [JsonText.value, JsonText.elements, JsonText.eat, JsonText.ws_cons (show JsonText.isSpace 0 = false from rfl), ha]
  rcases hv _ with hv | hv <;> rw [hv] at h <;> cases h

/-- C116: Python's `json` is as the theorems about templates assume it, for all values Python has. -/
theorem C116_faithful {env : TplEnv} (shown : Text → Text) (hd : env.dumps = pyDumps shown) (hl : env.loads = pyLoads shown)
    (hb : env.space 32 = true) (hk : ∀ c ∈ txt "[]:STACKTEMPLATE", env.space c = false) :
    Faithful env ∧ (∀ v, PyValue shown v → env.dumps v = dump none 0 (toValue v)) ∧
    (∀ t v, loads t = .ok v → env.loads t = some (ofValue shown v)) ∧
    ∀ t, (∀ v, loads t ≠ .ok v) → (∀ c ∈ t, c ≠ 0) → env.loads t = none := by
  have hne : ∀ l, PyValue shown (.arr l) → ∃ q, dump none 0 (toValue (.arr l)) = 91 :: q := by
    intro l _
    simp only [toValue]
    cases l with
    | nil => exact ⟨[93], by simp [toValues, dump]⟩
    | cons v l => simp only [toValues, dump]; exact ⟨_, rfl⟩
  have hread : ∀ t v, loads t = .ok v → env.loads t = some (ofValue shown v) := by
    intro t v h
    have hno : ¬ ∃ u, 91 :: 0 :: (code u).map (· + 11) = t := by
      rintro ⟨u, rfl⟩
      exact junk_error h
    rw [hl]
    unfold pyLoads
    rw [dif_neg hno, h]
  refine ⟨⟨fun l => ?_, fun l => ?_, fun l => ?_, hb, hk⟩, fun v h => ?_, hread, fun t h h0 => ?_⟩
  · by_cases h : PyValue shown (.arr l)
    · rw [hd]
      unfold pyDumps
      rw [if_pos h]
      have := of_to shown _ h
      rw [hread _ _ (JsonText.loads_dump this.1 (by simp only [toValue]; trivial) none), this.2]
    · rw [hd, hl]
      unfold pyDumps pyLoads
      rw [if_neg h]
      have hx : ∃ v, 91 :: 0 :: (code v).map (· + 11) = 91 :: 0 :: (code (.arr l)).map (· + 11) := ⟨_, rfl⟩
      rw [dif_pos hx]
      have hs := hx.choose_spec
      have this := (List.cons.inj (List.cons.inj hs).2).2
      exact congrArg some (code_injective ((List.map_injective_iff (f := (· + 11))).2 (fun a b h => Nat.add_right_cancel h) this))
  · by_cases h : PyValue shown (.arr l)
    · obtain ⟨q, hq⟩ := hne l h
      rw [hd]; unfold pyDumps; rw [if_pos h, hq]; rfl
    · rw [hd]; unfold pyDumps; rw [if_neg h]; rfl
  · by_cases h : PyValue shown (.arr l)
    · rw [hd]; unfold pyDumps; rw [if_pos h]
      exact dump_line _ 0 (of_to shown _ h).1
    · rw [hd]; unfold pyDumps; rw [if_neg h]
      simp
  · rw [hd]; exact if_pos h
  · have hno : ¬ ∃ u, 91 :: 0 :: (code u).map (· + 11) = t := by
      rintro ⟨u, rfl⟩
      exact h0 0 (by simp) rfl
    rw [hl]
    unfold pyLoads
    rw [dif_neg hno]
    cases hx : loads t with
    | ok v => exact absurd hx (h v)
    | error e => rfl

/-- C116: the path and the variables of an inclusion come out of the comment as they were put into it. -/
theorem C116_comment {env : TplEnv} (shown : Text → Text) (hd : env.dumps = pyDumps shown) (hl : env.loads = pyLoads shown)
    (hb : env.space 32 = true) (hk : ∀ c ∈ txt "[]:STACKTEMPLATE", env.space c = false) (s : Text) (l : List Json)
    (hp : PyValue shown (.arr (.str s :: l))) :
    stackComment env (.str s :: l) = .comment (txt "[STACK: " ++ dump none 0 (toValue (.arr (.str s :: l))) ++ txt "]") ∧
    stackArgs env (stackComment env (.str s :: l)) = some (.str s :: l) := by
  obtain ⟨hf, hw, -, -⟩ := C116_faithful (env := env) shown hd hl hb hk
  refine ⟨?_, stackArgs_comment hf s l⟩
  rw [← hw _ hp]
  rfl

/-! ## A case -/

namespace JsonCase

noncomputable def env : TplEnv := ⟨fun c => c == 32 || c == 10, pyLoads id, pyDumps id, txt "/t", fun _ => none⟩

/-- The path a.html and the variables of `{"n": 2.5, "é": ["line\n", -3, null, true, {}]}`. -/
def args : List Json :=
  [.obj [(txt "n", .num (txt "2.5")), ([233], .arr [.str (txt "line" ++ [10]), .num (txt "-3"), .null, .bool true, .obj []])]]

theorem py : PyValue id (.arr (.str (txt "a.html") :: args)) := by
  have h1 : txt "2.5" = [50, 46, 53] := by decide
  have h2 : txt "-3" = showInt (-3) := by decide
  have hp : ∀ t : Text, (∀ c ∈ t, c < 55296) → JsonText.Plain t := fun t h =>
    ⟨fun c hc => Nat.lt_of_lt_of_le (h c hc) (by decide), by
      have hh : ∀ c ∈ t, JsonText.isHigh c = false := fun c hc => by
        have := h c hc
        simp [JsonText.isHigh]; omega
      clear h
      induction t with
      | nil => trivial
      | cons a t ih =>
        cases t with
        | nil => trivial
        | cons b t =>
          simp only [JsonText.NoPair]
          refine ⟨?_, ih fun c hc => hh c (List.mem_cons_of_mem _ hc)⟩
          simp [hh a (List.mem_cons_self ..)]⟩
  simp only [args, PyValue, PyValues, PyPairs, and_true, true_and, List.map_cons, List.map_nil]
  refine ⟨hp _ (by decide), ⟨hp _ (by decide), ?_, hp _ (by decide), hp _ (by decide), ?_, by decide⟩, by decide⟩
  · exact .inr (.inr (.inr (.inr ⟨rfl, rfl⟩)))
  · exact .inr (.inr (.inr (.inl ⟨-3, h2⟩)))

theorem C116_case :
    stackComment env (.str (txt "a.html") :: args) =
      .comment (txt "[STACK: [\"a.html\", {\"n\": 2.5, \"\\u00e9\": [\"line\\n\", -3, null, true, {}]}]]") ∧
    stackArgs env (stackComment env (.str (txt "a.html") :: args)) = some (.str (txt "a.html") :: args) := by
  obtain ⟨h1, h2⟩ := C116_comment (env := env) id rfl rfl rfl (by decide) (txt "a.html") args py
  refine ⟨?_, h2⟩
  rw [h1]
  have hn : numValue (txt "2.5") = .float (txt "2.5") := rfl
  have hm : numValue (txt "-3") = .int (-3) := rfl
  simp only [args, toValue, toValues, toPairs, hn, hm, dump, JsonText.dumpRest, JsonText.dumpPairs]
  exact congrArg HTok.comment (by decide +kernel)

end JsonCase

end Verif.Html
