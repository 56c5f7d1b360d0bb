import Verif.IconRun

/-!
# C52: the text of a command

What the tokens of a text are, and that the documented way of writing a command is understood.
-/

namespace Verif.Icons

open Verif.Reader (Text txt substitute subNewlines subSurrogates)
open Verif.Css (Uni Tok isWs isIdentStart isIdentChar isDigit isValidEscape identLoop consumeIdent stringLoop)
open Verif.Assoc

/-! ## Specification -/

def Letter (c : Nat) : Prop := (65 ≤ c ∧ c ≤ 90) ∨ (97 ≤ c ∧ c ≤ 122) ∨ c = 95

instance : DecidablePred Letter := fun c => by unfold Letter; infer_instance

/-- Letters, digits, `-` and `_`; no digit and no `-` at the beginning. -/
def Word (v : Text) : Prop := ∃ c cs, v = c :: cs ∧ Letter c ∧ ∀ x ∈ cs, Letter x ∨ (48 ≤ x ∧ x ≤ 57) ∨ x = 45

/-- The words which are not names. -/
def Reserved (v : Text) : Prop := v = txt "true" ∨ v = txt "false" ∨ v = txt "null"

/-- What can be written between quotes as it is: printable ASCII other than the quote and the backslash. -/
def Printable (v : Text) : Prop := ∀ c ∈ v, 32 ≤ c ∧ c ≤ 126 ∧ c ≠ 34 ∧ c ≠ 92

/-- The word ends here. -/
def Stops (rest : Text) : Prop := ∀ c, rest.head? = some c → c < 128 ∧ ¬ Letter c ∧ ¬ (48 ≤ c ∧ c ≤ 57) ∧ c ≠ 45 ∧ c ≠ 92

/-- `Lexes s ts`: the text consists of the tokens `ts`. -/
inductive Lexes : Text → List ITok → Prop
  | nil : Lexes [] [.eof]
  | blank {w rest ts} : w ≠ [] → (∀ c ∈ w, c = 32 ∨ c = 9 ∨ c = 10) → (∀ c, rest.head? = some c → c ≠ 32 ∧ c ≠ 9 ∧ c ≠ 10) →
      Lexes rest ts → Lexes (w ++ rest) (.ws :: ts)
  | word {v rest ts} : Word v → ¬ Reserved v → Stops rest → Lexes rest ts → Lexes (v ++ rest) (.ident v :: ts)
  | true {rest ts} : Stops rest → Lexes rest ts → Lexes (txt "true" ++ rest) (.tru :: ts)
  | false {rest ts} : Stops rest → Lexes rest ts → Lexes (txt "false" ++ rest) (.fls :: ts)
  | null {rest ts} : Stops rest → Lexes rest ts → Lexes (txt "null" ++ rest) (.null :: ts)
  | str {v rest ts} : Printable v → Lexes rest ts → Lexes (txt "\"" ++ v ++ txt "\"" ++ rest) (.str v :: ts)
  | colon {rest ts} : Lexes rest ts → Lexes (txt ":" ++ rest) (.colon :: ts)
  | comma {rest ts} : Lexes rest ts → Lexes (txt "," ++ rest) (.comma :: ts)
  | openCurly {rest ts} : Lexes rest ts → Lexes (txt "{" ++ rest) (.openCurly :: ts)
  | closeCurly {rest ts} : Lexes rest ts → Lexes (txt "}" ++ rest) (.closeCurly :: ts)
  | openSquare {rest ts} : Lexes rest ts → Lexes (txt "[" ++ rest) (.openSquare :: ts)
  | closeSquare {rest ts} : Lexes rest ts → Lexes (txt "]" ++ rest) (.closeSquare :: ts)

/-- `"a", "b"` -/
def writeStrings : List Text → Text
  | [] => []
  | [v] => txt "\"" ++ v ++ txt "\""
  | v :: w :: vs => txt "\"" ++ v ++ txt "\"" ++ (txt "," ++ (txt " " ++ writeStrings (w :: vs)))

/-- `["a", "b"]`, or the word for all. -/
def writeList (word : String) : Option (List Text) → Text
  | none => txt word
  | some vs => txt "[" ++ (writeStrings vs ++ txt "]")

/-- `"name": ["active", "hover", "disabled"]` -/
def writeButton (x : Text × Button) : Text :=
  txt "\"" ++ x.1 ++ txt "\"" ++ (txt ":" ++ (txt " " ++ (txt "[" ++ (writeStrings [x.2.active, x.2.hover, x.2.disabled] ++ txt "]"))))

def writeButtonList : List (Text × Button) → Text
  | [] => []
  | [x] => writeButton x
  | x :: y :: xs => writeButton x ++ (txt "," ++ (txt " " ++ writeButtonList (y :: xs)))

/-- The buttons by name. -/
def Buttons.all (bs : Buttons) : List (Text × Button) :=
  (match bs.default with
    | some b => [(txt "default", b)]
    | none => []) ++ bs.named

def writeButtons : ButtonArg → Text
  | .none => txt " " ++ txt "no-btn"
  | .default => []
  | .some bs => txt " " ++ (txt "{" ++ (writeButtonList bs.all ++ txt "}"))

/-- icons/manip.py:42-56 (the documentation): `name initial colors sizes buttons` -/
def write (c : Command) : Text :=
  c.name ++ (txt " " ++ (c.initial ++ (txt " " ++ (writeList "all-colors" c.colors ++ (txt " " ++ (writeList "all-sizes" c.sizes ++ writeButtons c.button))))))

def PrintableButton (x : Text × Button) : Prop := Printable x.1 ∧ Printable x.2.active ∧ Printable x.2.hover ∧ Printable x.2.disabled

/-- The command can be written without escapes. -/
structure Writable (c : Command) : Prop where
  name : Word c.name ∧ ¬ Reserved c.name
  initial : Word c.initial ∧ ¬ Reserved c.initial
  colors : ∀ l, c.colors = some l → ∀ v ∈ l, Printable v
  sizes : ∀ l, c.sizes = some l → ∀ v ∈ l, Printable v
  buttons : ∀ bs, c.button = .some bs → (∀ x ∈ bs.all, PrintableButton x) ∧ (keys bs.named).Nodup ∧ txt "default" ∉ keys bs.named

/-! ## The tokenizer -/

theorem letter_start {c : Nat} (h : Letter c) : isIdentStart c = true ∧ isWs c = false ∧ c ≠ 47 := by
  unfold Letter at h
  unfold isIdentStart isWs
  refine ⟨?_, ?_, ?_⟩
  · rcases h with h | h | h <;> simp [h]
  · rcases h with h | h | h <;> simp <;> omega
  · omega

theorem inner_char (U : Uni) {c : Nat} (h : Letter c ∨ (48 ≤ c ∧ c ≤ 57) ∨ c = 45) : isIdentChar U c = true := by
  unfold isIdentChar
  rcases h with h | h | h
  · simp [(letter_start h).1]
  · simp [isDigit, h]
  · simp [h]

theorem stops_char (U : Uni) {c : Nat} (h : c < 128 ∧ ¬ Letter c ∧ ¬ (48 ≤ c ∧ c ≤ 57) ∧ c ≠ 45 ∧ c ≠ 92) : isIdentChar U c = false ∧ c ≠ 92 := by
  unfold Letter at h
  refine ⟨?_, h.2.2.2.2⟩
  have h1 : isIdentStart c = false := by unfold isIdentStart; simp; omega
  have h2 : isDigit U c = false := by unfold isDigit; simp; omega
  simp [isIdentChar, h1, h2, h.2.2.2.1]

theorem identLoop_word (U : Uni) {rest : Text} (hr : Stops rest) : ∀ (cs res : Text) (n : Nat), cs.length + rest.length < n →
    (∀ x ∈ cs, Letter x ∨ (48 ≤ x ∧ x ≤ 57) ∨ x = 45) → identLoop U n res (cs ++ rest) = (res ++ cs, rest) := by
  intro cs
  induction cs with
  | nil =>
    intro res n hn _
    obtain ⟨m, rfl⟩ : ∃ m, n = m + 1 := ⟨n - 1, by omega⟩
    cases rest with
    | nil => simp [identLoop]
    | cons d ds =>
      obtain ⟨h1, h2⟩ := stops_char U (hr d rfl)
      have h4 : isValidEscape (d :: ds.take 1) = false := by
        cases ds <;> simp [isValidEscape, h2]
      simp [identLoop, h1, h4]
  | cons x cs ih =>
    intro res n hn hx
    obtain ⟨m, rfl⟩ : ∃ m, n = m + 1 := ⟨n - 1, by omega⟩
    simp only [List.cons_append, identLoop, inner_char U (hx x (by simp)), if_true]
    rw [ih _ _ (by simp at hn; omega) (fun y hy => hx y (by simp [hy]))]
    simp

theorem consumeIdent_word (U : Uni) {v rest : Text} (hv : Word v) (hr : Stops rest) : consumeIdent U (v ++ rest) = (v, rest) := by
  obtain ⟨c, cs, rfl, hc, hcs⟩ := hv
  unfold consumeIdent
  rw [identLoop_word U hr (c :: cs) [] _ (by simp; omega) (by
    intro x hx
    rcases List.mem_cons.1 hx with rfl | hx
    · exact .inl hc
    · exact hcs x hx)]
  simp

theorem stringLoop_plain {v rest : Text} (hv : Printable v) : ∀ (n : Nat) (res : Text), v.length < n →
    stringLoop 34 n res (v ++ 34 :: rest) = (.str (res ++ v), rest) := by
  induction v with
  | nil =>
    intro n res hn
    obtain ⟨m, rfl⟩ : ∃ m, n = m + 1 := ⟨n - 1, by omega⟩
    simp [stringLoop]
  | cons c v ih =>
    intro n res hn
    obtain ⟨m, rfl⟩ : ∃ m, n = m + 1 := ⟨n - 1, by omega⟩
    obtain ⟨h1, h2, h3, h4⟩ := hv c (by simp)
    have h5 : c ≠ 10 := by omega
    simp only [List.cons_append, stringLoop, if_neg h3, if_neg h5, if_neg h4]
    rw [ih (fun x hx => hv x (by simp [hx])) _ _ (by simp at hn; omega)]
    simp

theorem istep_word (U : Uni) {v rest : Text} (hv : Word v) (hr : Stops rest) :
    ∃ c cs, v ++ rest = c :: cs ∧ istep U c cs = some (identTok v, rest) := by
  have h := consumeIdent_word U hv hr
  obtain ⟨c, cs, rfl, hc, hcs⟩ := hv
  obtain ⟨h1, h2, h3⟩ := letter_start hc
  refine ⟨c, cs ++ rest, rfl, ?_⟩
  rw [List.cons_append] at h
  unfold istep
  have h4 : ¬ (c :: (cs ++ rest)).take 2 = [47, 47] := by
    cases cs ++ rest <;> simp [h3]
  simp only [h4, h2, h1, h, if_false, if_true, Bool.false_eq_true]

theorem lexes_loop (U : Uni) {s : Text} {ts : List ITok} (h : Lexes s ts) : ∀ n, s.length ≤ n → itokenLoop U n s = ts := by
  -- one token in front of the rest
  have go : ∀ {s rest : Text} {t : ITok} {ts : List ITok}, (∃ c cs, s = c :: cs ∧ istep U c cs = some (t, rest)) → rest.length < s.length →
      (∀ n, rest.length ≤ n → itokenLoop U n rest = ts) → ∀ n, s.length ≤ n → itokenLoop U n s = t :: ts := by
    rintro s rest t ts ⟨c, cs, rfl, hs⟩ hlt ih n hn
    obtain ⟨m, rfl⟩ : ∃ m, n = m + 1 := ⟨n - 1, by simp at hn; omega⟩
    simp only [itokenLoop, hs]
    rw [ih m (by omega)]
  have word : ∀ {v rest : Text} {t : ITok} {ts : List ITok}, Word v → identTok v = t → Stops rest →
      (∀ n, rest.length ≤ n → itokenLoop U n rest = ts) → ∀ n, (v ++ rest).length ≤ n → itokenLoop U n (v ++ rest) = t :: ts := by
    intro v rest t ts hv ht hr ih
    obtain ⟨c, cs, h1, h2⟩ := istep_word U hv hr
    refine go ⟨c, cs, h1, by rw [h2, ht]⟩ ?_ ih
    obtain ⟨c, cs, rfl, -⟩ := hv
    simp only [List.cons_append, List.length_cons, List.length_append]
    omega
  have fixed : ∀ {p : Nat} {w rest : Text} {t : ITok} {ts : List ITok}, w = [p] → istep U p rest = some (t, rest) →
      (∀ n, rest.length ≤ n → itokenLoop U n rest = ts) → ∀ n, (w ++ rest).length ≤ n → itokenLoop U n (w ++ rest) = t :: ts := by
    rintro p w rest t ts rfl hs ih
    exact go ⟨p, rest, rfl, hs⟩ (by simp) ih
  have single : ∀ {p : Nat} {rest : Text}, p ≠ 47 → ¬ (p :: rest).take 2 = [47, 47] := by
    intro p rest hp h
    cases rest <;> simp [hp] at h
  induction h with
  | nil => intro n _; cases n <;> rfl
  | @blank w rest ts hw hc hr _ ih =>
    cases w with
    | nil => exact absurd rfl hw
    | cons c cs =>
      refine go ⟨c, cs ++ rest, rfl, ?_⟩ (by simp; omega) ih
      have ws : ∀ x, x ∈ c :: cs → isWs x = true := by
        intro x hx
        rcases hc x hx with h | h | h <;> simp [isWs, h]
      have h1 : c ≠ 47 := by
        rcases hc c (by simp) with h | h | h <;> omega
      have hd : (c :: (cs ++ rest)).dropWhile isWs = rest := by
        rw [← List.cons_append, List.dropWhile_append_of_pos ws]
        cases rest with
        | nil => rfl
        | cons d ds =>
          obtain ⟨h2, h3, h4⟩ := hr d rfl
          have : isWs d = false := by simp [isWs, h2, h3, h4]
          simp [this]
      unfold istep
      simp only [single h1, ws c (by simp), hd, if_false, if_true]
  | word hv hn hr _ ih =>
    refine word hv ?_ hr ih
    unfold Reserved at hn
    simp only [not_or] at hn
    simp [identTok, hn]
  | true hr _ ih => exact word (v := txt "true") ⟨116, [114, 117, 101], by decide, by decide, by decide⟩ (by decide) hr ih
  | false hr _ ih => exact word (v := txt "false") ⟨102, [97, 108, 115, 101], by decide, by decide, by decide⟩ (by decide) hr ih
  | null hr _ ih => exact word (v := txt "null") ⟨110, [117, 108, 108], by decide, by decide, by decide⟩ (by decide) hr ih
  | @str v rest ts hv _ ih =>
    have e : txt "\"" = [34] := by decide
    have e2 : txt "\"" ++ v ++ txt "\"" ++ rest = 34 :: (v ++ 34 :: rest) := by rw [e]; simp
    refine go ⟨34, v ++ 34 :: rest, e2, ?_⟩ (by rw [e2]; simp; omega) ih
    have h1 : isWs 34 = false := by decide
    have h2 : isIdentStart 34 = false := by decide
    unfold istep
    rw [stringLoop_plain hv _ _ (by simp; omega)]
    simp [single (p := 34) (rest := v ++ 34 :: rest) (by decide), h1, h2]
  | @colon rest _ _ ih => exact fixed (p := 58) (by decide) (by unfold istep; simp [single (p := 58) (rest := rest) (by decide), isWs, isIdentStart]) ih
  | @comma rest _ _ ih => exact fixed (p := 44) (by decide) (by unfold istep; simp [single (p := 44) (rest := rest) (by decide), isWs, isIdentStart]) ih
  | @openCurly rest _ _ ih => exact fixed (p := 123) (by decide) (by unfold istep; simp [single (p := 123) (rest := rest) (by decide), isWs, isIdentStart]) ih
  | @closeCurly rest _ _ ih => exact fixed (p := 125) (by decide) (by unfold istep; simp [single (p := 125) (rest := rest) (by decide), isWs, isIdentStart]) ih
  | @openSquare rest _ _ ih => exact fixed (p := 91) (by decide) (by unfold istep; simp [single (p := 91) (rest := rest) (by decide), isWs, isIdentStart]) ih
  | @closeSquare rest _ _ ih => exact fixed (p := 93) (by decide) (by unfold istep; simp [single (p := 93) (rest := rest) (by decide), isWs, isIdentStart]) ih

theorem lexes_tokenize (U : Uni) {s : Text} {ts : List ITok} (h : Lexes s ts) : itokenize U s = ts := lexes_loop U h _ (Nat.le_refl _)

/-! ## Plain text is not changed by the reader -/

theorem lexes_plain {s : Text} {ts : List ITok} (h : Lexes s ts) : ∀ c ∈ s, c = 9 ∨ c = 10 ∨ (32 ≤ c ∧ c ≤ 126) := by
  have word : ∀ {v : Text}, Word v → ∀ c ∈ v, c = 9 ∨ c = 10 ∨ (32 ≤ c ∧ c ≤ 126) := by
    rintro v ⟨d, ds, rfl, h1, h2⟩ c hc
    rcases List.mem_cons.1 hc with rfl | hc
    · unfold Letter at h1; omega
    · have := h2 c hc; unfold Letter at this; omega
  have fixed : ∀ {w rest : Text}, (∀ c ∈ w, 32 ≤ c ∧ c ≤ 126) → (∀ c ∈ rest, c = 9 ∨ c = 10 ∨ (32 ≤ c ∧ c ≤ 126)) →
      ∀ c ∈ w ++ rest, c = 9 ∨ c = 10 ∨ (32 ≤ c ∧ c ≤ 126) := by
    intro w rest h1 h2 c hc
    rcases List.mem_append.1 hc with hc | hc
    · exact .inr (.inr (h1 c hc))
    · exact h2 c hc
  induction h with
  | nil => simp
  | blank _ hw _ _ ih =>
    intro c hc
    rcases List.mem_append.1 hc with hc | hc
    · have := hw c hc; omega
    · exact ih c hc
  | word hv _ _ _ ih =>
    intro c hc
    rcases List.mem_append.1 hc with hc | hc
    · exact word hv c hc
    · exact ih c hc
  | str hv _ ih =>
    intro c hc
    simp only [List.mem_append] at hc
    have e : ∀ c ∈ txt "\"", 32 ≤ c ∧ c ≤ 126 := by decide
    rcases hc with ((hc | hc) | hc) | hc
    · exact .inr (.inr (e c hc))
    · have := hv c hc; omega
    · exact .inr (.inr (e c hc))
    · exact ih c hc
  | true _ _ ih => exact fixed (by decide) ih
  | false _ _ ih => exact fixed (by decide) ih
  | null _ _ ih => exact fixed (by decide) ih
  | colon _ ih => exact fixed (by decide) ih
  | comma _ ih => exact fixed (by decide) ih
  | openCurly _ ih => exact fixed (by decide) ih
  | closeCurly _ ih => exact fixed (by decide) ih
  | openSquare _ ih => exact fixed (by decide) ih
  | closeSquare _ ih => exact fixed (by decide) ih

theorem substitute_plain {s : Text} (h : ∀ c ∈ s, c = 9 ∨ c = 10 ∨ (32 ≤ c ∧ c ≤ 126)) : substitute s = s := by
  have h1 : subNewlines s = s := by
    induction s with
    | nil => rfl
    | cons c cs ih =>
      have hc := h c (by simp)
      have h2 : subNewlines (c :: cs) = c :: subNewlines cs := by
        have a : c ≠ 13 := by omega
        have b : c ≠ 12 := by omega
        cases cs <;> simp [subNewlines, a, b]
      rw [h2, ih (fun x hx => h x (by simp [hx]))]
  rw [substitute, h1, subSurrogates]
  conv => rhs; rw [← List.map_id s]
  apply List.map_congr_left
  intro c hc
  have := h c hc
  rw [if_neg (by omega)]
  rfl

/-! ## Writing a command -/

theorem first_here {t : ITok} {ts : List ITok} (h1 : t ≠ .ws) (h2 : t ≠ .comment) (h3 : t ≠ .raised) : First (t :: ts) t ts :=
  ⟨[], by simp [Gap], rfl, h1, h2, h3⟩

theorem First.ws {t : ITok} {ts rest : List ITok} (h : First ts t rest) : First (.ws :: ts) t rest := by
  obtain ⟨g, h1, rfl, h3⟩ := h
  exact ⟨.ws :: g, h1.cons (.inl rfl), rfl, h3⟩

theorem StringsTo.ws {ts rest : List ITok} {vs : List Text} (h : StringsTo ts vs rest) : StringsTo (.ws :: ts) vs rest := by
  cases h with
  | close h => exact .close h.ws
  | last h h' => exact .last h.ws h'
  | item h h' h'' => exact .item h.ws h' h''

theorem ButtonTo.ws {ts rest : List ITok} {n : Text} {b : Button} (h : ButtonTo ts n b rest) : ButtonTo (.ws :: ts) n b rest := by
  obtain ⟨t1, t2, t3, h1, h2⟩ := h
  exact ⟨t1, t2, t3, h1.ws, h2⟩

theorem ButtonsTo.ws {ts rest : List ITok} {bs : List (Text × Button)} (h : ButtonsTo ts bs rest) : ButtonsTo (.ws :: ts) bs rest := by
  cases h with
  | close h => exact .close h.ws
  | last h h' => exact .last h.ws h'
  | item h h' h'' => exact .item h.ws h' h''

theorem lexes_space {rest : Text} {ts : List ITok} (hr : ∀ c, rest.head? = some c → c ≠ 32 ∧ c ≠ 9 ∧ c ≠ 10) (h : Lexes rest ts) :
    Lexes (txt " " ++ rest) (.ws :: ts) :=
  .blank (by decide) (by decide) hr h

theorem quoted_head {v rest : Text} : ∀ c, (txt "\"" ++ v ++ txt "\"" ++ rest).head? = some c → c ≠ 32 ∧ c ≠ 9 ∧ c ≠ 10 := by
  have e : txt "\"" = [34] := by decide
  intro c h
  rw [e] at h
  simp at h
  omega

theorem write_strings {rest : Text} {ts : List ITok} (hr : Lexes rest ts) : ∀ (vs : List Text), (∀ v ∈ vs, Printable v) →
    ∃ ts', Lexes (writeStrings vs ++ (txt "]" ++ rest)) ts' ∧ StringsTo ts' vs ts ∧
      (∀ c, (writeStrings vs ++ (txt "]" ++ rest)).head? = some c → c ≠ 32 ∧ c ≠ 9 ∧ c ≠ 10)
  | [], _ => by
    refine ⟨_, .closeSquare hr, .close (first_here (by simp) (by simp) (by simp)), ?_⟩
    have e : txt "]" = [93] := by decide
    intro c h
    rw [e] at h
    simp [writeStrings] at h
    omega
  | [v], hv => by
    refine ⟨_, .str (hv v (by simp)) (.closeSquare hr), .last (first_here (by simp) (by simp) (by simp)) (first_here (by simp) (by simp) (by simp)), ?_⟩
    exact quoted_head
  | v :: w :: vs, hv => by
    obtain ⟨ts', h1, h2, h3⟩ := write_strings hr (w :: vs) (fun x hx => hv x (by simp only [List.mem_cons] at hx ⊢; exact .inr hx))
    have h4 := Lexes.str (hv v (by simp)) (.comma (lexes_space h3 h1))
    refine ⟨_, ?_, .item (v := v) (first_here (by simp) (by simp) (by simp)) (first_here (by simp) (by simp) (by simp)) h2.ws, ?_⟩
    · simpa only [writeStrings, List.append_assoc] using h4
    · simp only [writeStrings]
      intro c h
      refine quoted_head (v := v) (rest := (txt "," ++ (txt " " ++ writeStrings (w :: vs))) ++ (txt "]" ++ rest)) c ?_
      rw [← h]
      simp only [List.append_assoc]

theorem write_button {rest : Text} {ts : List ITok} (hr : Lexes rest ts) {x : Text × Button} (hx : PrintableButton x) :
    ∃ ts', Lexes (writeButton x ++ rest) ts' ∧ ButtonTo ts' x.1 x.2 ts := by
  obtain ⟨h0, h1, h2, h3⟩ := hx
  obtain ⟨ts', h4, h5, h6⟩ := write_strings hr [x.2.active, x.2.hover, x.2.disabled] (by
    intro v hv
    simp only [List.mem_cons, List.not_mem_nil, or_false] at hv
    rcases hv with rfl | rfl | rfl <;> assumption)
  have e : txt "[" = [91] := by decide
  have h7 := Lexes.str h0 (.colon (lexes_space (rest := txt "[" ++ _) (by
    intro c h
    rw [e] at h
    simp at h
    omega) (.openSquare h4)))
  refine ⟨_, ?_, _, _, ts', first_here (by simp) (by simp) (by simp), first_here (by simp) (by simp) (by simp), (first_here (by simp) (by simp) (by simp)).ws, h5⟩
  simpa only [writeButton, List.append_assoc] using h7

theorem button_head {x : Text × Button} {rest : Text} : ∀ c, (writeButton x ++ rest).head? = some c → c ≠ 32 ∧ c ≠ 9 ∧ c ≠ 10 := by
  intro c h
  refine quoted_head (v := x.1) (rest := txt ":" ++ (txt " " ++ (txt "[" ++ (writeStrings [x.2.active, x.2.hover, x.2.disabled] ++ txt "]"))) ++ rest) c ?_
  rw [← h]
  simp only [writeButton, List.append_assoc]

theorem write_button_list {rest : Text} {ts : List ITok} (hr : Lexes rest ts) : ∀ (bs : List (Text × Button)), (∀ x ∈ bs, PrintableButton x) →
    ∃ ts', Lexes (writeButtonList bs ++ (txt "}" ++ rest)) ts' ∧ ButtonsTo ts' bs ts
  | [], _ => ⟨_, .closeCurly hr, .close (first_here (by simp) (by simp) (by simp))⟩
  | [x], hx => by
    obtain ⟨ts', h1, h2⟩ := write_button (.closeCurly hr) (hx x (by simp))
    exact ⟨ts', h1, .last h2 (first_here (by simp) (by simp) (by simp))⟩
  | x :: y :: xs, hx => by
    obtain ⟨ts1, h1, h2⟩ := write_button_list hr (y :: xs) (fun z hz => hx z (by simp only [List.mem_cons] at hz ⊢; exact .inr hz))
    have h3 : ∀ c, (writeButtonList (y :: xs) ++ (txt "}" ++ rest)).head? = some c → c ≠ 32 ∧ c ≠ 9 ∧ c ≠ 10 := by
      cases xs with
      | nil => exact button_head
      | cons z zs =>
        intro c h
        simp only [writeButtonList, List.append_assoc] at h
        exact button_head c h
    obtain ⟨ts2, h4, h5⟩ := write_button (.comma (lexes_space h3 h1)) (hx x (by simp))
    refine ⟨ts2, ?_, .item (n := x.1) (b := x.2) h5 (first_here (by simp) (by simp) (by simp)) h2.ws⟩
    simpa only [writeButtonList, List.append_assoc] using h4

theorem ofList_nodup {K V : Type} [DecidableEq K] : ∀ (d acc : List (K × V)), (keys (acc ++ d)).Nodup →
    d.foldl (fun d p => put d p.1 p.2) acc = acc ++ d := by
  have hput : ∀ (acc : List (K × V)) (k : K) (v : V), k ∉ keys acc → put acc k v = acc ++ [(k, v)] := by
    intro acc k v
    induction acc with
    | nil => intro _; rfl
    | cons p acc ih =>
      intro h
      simp only [keys, List.map_cons, List.mem_cons, not_or] at h
      simp only [put, if_neg (fun e => h.1 (Eq.symm e)), List.cons_append]
      rw [ih h.2]
  intro d
  induction d with
  | nil => intro acc _; simp
  | cons p d ih =>
    intro acc h
    have h1 : p.1 ∉ keys acc := by
      simp only [keys, List.map_append, List.map_cons] at h
      exact fun hm => (List.nodup_append.1 h).2.2 _ hm _ (by simp) rfl
    rw [List.foldl_cons, hput acc _ _ h1, ih]
    · simp
    · simpa using h

theorem settingsOf_all {bs : Buttons} (h1 : (keys bs.named).Nodup) (h2 : txt "default" ∉ keys bs.named) : settingsOf bs.all = bs := by
  obtain ⟨d, nm⟩ := bs
  have hf : nm.filter (fun x => decide (x.1 ≠ txt "default")) = nm := by
    apply List.filter_eq_self.2
    intro x hx
    simp only [decide_eq_true_eq]
    intro h
    exact h2 (by rw [← h]; exact List.mem_map_of_mem hx)
  have ho : ofList nm = nm := by
    have := ofList_nodup nm [] (by simpa using h1)
    simpa [ofList] using this
  have hr : item nm.reverse (txt "default") = none := by
    rw [get_reverse h1, get_none]; exact h2
  unfold settingsOf Buttons.all
  cases d with
  | none => simp only [List.nil_append, hf, ho, hr]
  | some b =>
    simp only [List.cons_append, List.nil_append, List.reverse_cons, get_append, hr, Option.none_or, item, if_true]
    congr 1
    · rw [List.filter_cons_of_neg (by simp), hf, ho]

theorem stops_space {rest : Text} : Stops (txt " " ++ rest) := by
  have e : txt " " = [32] := by decide
  intro c h
  rw [e] at h
  simp only [List.cons_append, List.head?_cons, Option.some.injEq] at h
  subst h
  decide

theorem word_head {v rest : Text} (hv : Word v) : ∀ c, (v ++ rest).head? = some c → c ≠ 32 ∧ c ≠ 9 ∧ c ≠ 10 := by
  obtain ⟨d, ds, rfl, hd, -⟩ := hv
  intro c h
  simp only [List.cons_append, List.head?_cons, Option.some.injEq] at h
  subst h
  unfold Letter at hd
  omega

theorem write_list {word : String} (hw : Word (txt word)) (hn : ¬ Reserved (txt word)) {rest : Text} {ts : List ITok} (hr : Lexes rest ts)
    (hs : Stops rest) {l : Option (List Text)} (hl : ∀ vs, l = some vs → ∀ v ∈ vs, Printable v) :
    ∃ ts', Lexes (txt " " ++ (writeList word l ++ rest)) ts' ∧ ListTo (txt word) ts' l ts := by
  cases l with
  | none => exact ⟨_, lexes_space (word_head hw) (.word hw hn hs hr), .all (first_here (by simp) (by simp) (by simp)).ws⟩
  | some vs =>
    obtain ⟨ts', h1, h2, -⟩ := write_strings hr vs (hl vs rfl)
    have e : txt "[" = [91] := by decide
    refine ⟨_, lexes_space ?_ ?_, .list (first_here (t := .openSquare) (by simp) (by simp) (by simp)).ws h2⟩
    · intro c h
      simp only [writeList, e, List.cons_append, List.head?_cons, Option.some.injEq] at h
      omega
    · have := Lexes.openSquare h1
      simpa only [writeList, List.append_assoc] using this

theorem write_buttons {a : ButtonArg} (h : ∀ bs, a = .some bs → (∀ x ∈ bs.all, PrintableButton x) ∧ (keys bs.named).Nodup ∧ txt "default" ∉ keys bs.named) :
    ∃ ts, Lexes (writeButtons a) ts ∧ ButtonArgOf ts a ∧ Stops (writeButtons a) := by
  cases a with
  | default => exact ⟨_, .nil, .nothing (first_here (by simp) (by simp) (by simp)), by intro c h; cases h⟩
  | none =>
    have hw : Word (txt "no-btn") := ⟨110, [111, 45, 98, 116, 110], by decide, by decide, by decide⟩
    have h1 := Lexes.word hw (by unfold Reserved; decide) (by intro c h; cases h) .nil
    rw [List.append_nil] at h1
    have h2 := lexes_space (by have := word_head (rest := []) hw; simpa using this) h1
    exact ⟨_, h2, .none (first_here (by simp) (by simp) (by simp)).ws, stops_space⟩
  | some bs =>
    obtain ⟨h1, h2, h3⟩ := h bs rfl
    obtain ⟨ts', h4, h5⟩ := write_button_list .nil bs.all h1
    rw [List.append_nil] at h4
    have e : txt "{" = [123] := by decide
    have h6 := lexes_space (by
      intro c h
      rw [e] at h
      simp only [List.cons_append, List.head?_cons, Option.some.injEq] at h
      omega) (.openCurly h4)
    refine ⟨_, h6, ?_, stops_space⟩
    have := ButtonArgOf.some (first_here (t := .openCurly) (ts := ts') (by simp) (by simp) (by simp)).ws h5
    rwa [settingsOf_all h2 h3] at this

theorem stops_list (word : String) (l : Option (List Text)) (rest : Text) : Stops (txt " " ++ (writeList word l ++ rest)) := stops_space

/-- Every command which is written as documented is understood as it was meant. -/
theorem C52_written (U : Uni) {c : Command} (h : Writable c) : CommandOf (itokenize U (substitute (write c))) c := by
  obtain ⟨t4, h1, h2, h3⟩ := write_buttons h.buttons
  have hc : Word (txt "all-colors") ∧ ¬ Reserved (txt "all-colors") :=
    ⟨⟨97, [108, 108, 45, 99, 111, 108, 111, 114, 115], by decide, by decide, by decide⟩, by unfold Reserved; decide⟩
  have hz : Word (txt "all-sizes") ∧ ¬ Reserved (txt "all-sizes") :=
    ⟨⟨97, [108, 108, 45, 115, 105, 122, 101, 115], by decide, by decide, by decide⟩, by unfold Reserved; decide⟩
  obtain ⟨t3, h4, h5⟩ := write_list hz.1 hz.2 h1 h3 h.sizes
  obtain ⟨t2, h6, h7⟩ := write_list hc.1 hc.2 h4 stops_space h.colors
  have h8 := lexes_space (word_head h.initial.1) (.word h.initial.1 h.initial.2 stops_space h6)
  have h9 := Lexes.word h.name.1 h.name.2 stops_space h8
  have h10 : Lexes (write c) _ := h9
  rw [substitute_plain (lexes_plain h10), lexes_tokenize U h10]
  exact ⟨_, t2, t3, t4, first_here (by simp) (by simp) (by simp), (first_here (by simp) (by simp) (by simp)).ws, h7, h5, h2⟩

/-- `true`, `false` and `null` are no names of icons or colors. -/
theorem C52_reserved (U : Uni) {w rest : Text} (hw : Reserved w) {ts : List ITok} (hr : Lexes (txt " " ++ rest) ts) :
    (∀ c, ¬ CommandOf (itokenize U (substitute (w ++ (txt " " ++ rest)))) c) ∧
    ∀ n, Word n → ¬ Reserved n → ∀ c, ¬ CommandOf (itokenize U (substitute (n ++ (txt " " ++ (w ++ (txt " " ++ rest)))))) c := by
  have key : ∃ t, Lexes (w ++ (txt " " ++ rest)) (t :: ts) ∧ (∀ v, t ≠ .ident v) ∧ t ≠ .ws ∧ t ≠ .comment ∧ t ≠ .raised ∧ Word w := by
    rcases hw with rfl | rfl | rfl
    · exact ⟨_, .true stops_space hr, by simp, by simp, by simp, by simp, 116, [114, 117, 101], by decide, by decide, by decide⟩
    · exact ⟨_, .false stops_space hr, by simp, by simp, by simp, by simp, 102, [97, 108, 115, 101], by decide, by decide, by decide⟩
    · exact ⟨_, .null stops_space hr, by simp, by simp, by simp, by simp, 110, [117, 108, 108], by decide, by decide, by decide⟩
  obtain ⟨t, h1, h2, h3, h4, h5, h6⟩ := key
  refine ⟨?_, ?_⟩
  · rintro c ⟨t1, _, _, _, hf, -⟩
    rw [substitute_plain (lexes_plain h1), lexes_tokenize U h1] at hf
    exact h2 _ ((first_here h3 h4 h5).unique hf).1
  · rintro n hn hn' c ⟨t1, _, _, _, hf, hf', -⟩
    have h7 := Lexes.word hn hn' stops_space (lexes_space (word_head h6) h1)
    rw [substitute_plain (lexes_plain h7), lexes_tokenize U h7] at hf
    obtain ⟨-, rfl⟩ := (first_here (by simp) (by simp) (by simp)).unique hf
    exact h2 _ ((first_here h3 h4 h5).ws.unique hf').1

namespace TextToy

def cmd : Command := ⟨txt "check", txt "black", some [txt "red", txt "black"], none, .some ⟨some ⟨txt "red", txt "black", txt "red"⟩, [(txt "x", ⟨txt "a", txt "b", txt "c"⟩)]⟩⟩

example : write cmd = txt "check black [\"red\", \"black\"] all-sizes {\"default\": [\"red\", \"black\", \"red\"], \"x\": [\"a\", \"b\", \"c\"]}" := by
  decide +kernel

/-- A command with everything in it can be written. -/
theorem C52_written_case : Writable cmd := by
  refine ⟨⟨⟨99, [104, 101, 99, 107], by decide, by decide, by decide⟩, by unfold Reserved; decide⟩,
    ⟨⟨98, [108, 97, 99, 107], by decide, by decide, by decide⟩, by unfold Reserved; decide⟩, ?_, ?_, ?_⟩
  · rintro l h
    cases h
    unfold Printable
    decide
  · rintro l h
    cases h
  · rintro l h
    cases h
    unfold PrintableButton Printable
    decide

end TextToy

end Verif.Icons
