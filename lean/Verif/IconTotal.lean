import Verif.IconCase
/-!
# C52: every text after the word `icon` is decided

The tokenizer of icon commands ends on every text, its tokens end with the end of the file or an exception, and the parser does not read past
that.  So a comment with the word `icon` is a command, or it is an error; it is passed over only if the colors or sizes it names are not known.
-/
namespace Verif.Icons
open Verif.Reader (Text txt substitute)
open Verif.Css
open Verif.Assoc

/-- The tokens end as they should. -/
def Finished (ts : List ITok) : Prop := .eof ∈ ts ∨ .raised ∈ ts

theorem dropWhile_le (p : Nat → Bool) (s : Text) : (s.dropWhile p).length ≤ s.length := (List.dropWhile_sublist p).length_le

theorem ident_shorter (U : Uni) {s : Text} (h : (∃ c, s.head? = some c ∧ NameChar U c) ∨ EscapeStart s) : (consumeIdent U s).2.length < s.length := by
  obtain ⟨p, h1, h2⟩ := consumeIdent_spec U s
  have := List.length_pos_iff.2 (h2.ne_nil (by rw [← h1]; exact h))
  have := congrArg List.length h1
  simp only [List.length_append] at this
  omega

theorem num_shorter (U : Uni) {s : Text} (h : NumberStart U s ∨ ∃ c, s.head? = some c ∧ Dig U c) {x : ITok × Text} (hx : numTok U s = some x) :
    x.2.length < s.length := by
  unfold numTok at hx
  rcases consumeNumber_spec U s h with ⟨h1, -⟩ | ⟨p, n, i, r, h1, h2, h3, -⟩
  · rw [h1] at hx; cases hx
  · rw [h1] at hx
    cases hx
    have hp : p ≠ [] := h3.ne_nil
    have := List.length_pos_iff.2 hp
    have := congrArg List.length h2
    simp only [List.length_append] at this
    simp only; omega

theorem istep_shorter (U : Uni) {c : Nat} {cs : Text} {x : ITok × Text} (h : istep U c cs = some x) : x.2.length < (c :: cs).length := by
  have hws : isWs c = true → ((c :: cs).dropWhile isWs).length < (c :: cs).length := by
    intro hc
    rw [List.dropWhile_cons_of_pos hc]
    exact Nat.lt_succ_of_le (dropWhile_le _ _)
  unfold istep at h
  by_cases c1 : (c :: cs).take 2 = [47, 47]
  · rw [if_pos c1] at h
    cases h
    simp only [List.length_drop]
    have := dropWhile_le (fun x => decide (x ≠ 10)) ((c :: cs).drop 2)
    rw [List.length_drop, List.length_cons] at this
    rw [List.length_cons]
    omega
  · rw [if_neg c1] at h
    by_cases hc : isWs c = true
    · rw [if_pos hc] at h; cases h; exact hws hc
    · rw [if_neg hc] at h
      by_cases hc : isIdentStart c = true
      · rw [if_pos hc] at h
        cases h
        exact ident_shorter U (Or.inl ⟨c, rfl, Or.inl ((isIdentStart_iff c).1 hc)⟩)
      · rw [if_neg hc] at h
        by_cases hq : c = 39 ∨ c = 34
        · rw [if_pos hq] at h
          obtain ⟨b, v, -, hs⟩ := stringLoop_spec (q := c) (by rcases hq with rfl | rfl <;> simp) (cs.length + 1) [] cs (by omega)
          rcases hs with ⟨rest, h1, h2⟩ | ⟨e, -, h1, h2⟩ | ⟨rest, h1, h2⟩
          · rw [h2] at h; cases h; rw [h1]; simp; omega
          · rw [h2] at h; cases h; simp
          · rw [h2] at h; cases h; rw [h1]; simp; omega
        · rw [if_neg hq] at h
          have one : ∀ t : ITok, some (t, cs) = some x → x.2.length < (c :: cs).length := by
            intro t ht; cases ht; simp
          have num : isNumber U ((c :: cs).take 3) = true → numTok U (c :: cs) = some x → x.2.length < (c :: cs).length := by
            intro h1 h2
            exact num_shorter U (Or.inl ((isNumber_iff U _).1 h1)) h2
          by_cases q : c = 58
          · rw [if_pos q] at h; exact one _ h
          rw [if_neg q] at h; clear q
          by_cases q : c = 44
          · rw [if_pos q] at h; exact one _ h
          rw [if_neg q] at h; clear q
          by_cases q : c = 123
          · rw [if_pos q] at h; exact one _ h
          rw [if_neg q] at h; clear q
          by_cases q : c = 125
          · rw [if_pos q] at h; exact one _ h
          rw [if_neg q] at h; clear q
          by_cases q : c = 91
          · rw [if_pos q] at h; exact one _ h
          rw [if_neg q] at h; clear q
          by_cases q : c = 93
          · rw [if_pos q] at h; exact one _ h
          rw [if_neg q] at h; clear q
          by_cases q : c = 46
          · rw [if_pos q] at h
            by_cases q2 : isNumber U ((c :: cs).take 3) = true
            · rw [if_pos q2] at h; exact num q2 h
            · rw [if_neg q2] at h; exact one _ h
          rw [if_neg q] at h; clear q
          by_cases q : isDigit U c = true
          · rw [if_pos q] at h
            exact num_shorter U (Or.inr ⟨c, rfl, (isDigit_iff U c).1 q⟩) h
          rw [if_neg q] at h; clear q
          by_cases q : c = 43
          · rw [if_pos q] at h
            by_cases q2 : isNumber U ((c :: cs).take 3) = true
            · rw [if_pos q2] at h; exact num q2 h
            · rw [if_neg q2] at h; exact one _ h
          rw [if_neg q] at h; clear q
          by_cases q : c = 45
          · rw [if_pos q] at h
            by_cases q2 : isNumber U ((c :: cs).take 3) = true
            · rw [if_pos q2] at h; exact num q2 h
            · rw [if_neg q2] at h
              by_cases q3 : isIdentSequence ((c :: cs).take 3) = true
              · rw [if_pos q3] at h; cases h; exact ident_shorter U (identSequence_start U q3)
              · rw [if_neg q3] at h; exact one _ h
          rw [if_neg q] at h
          exact one _ h

/-- The tokenizer ends. -/
theorem itokenLoop_finished (U : Uni) : ∀ (n : Nat) (s : Text), s.length ≤ n → Finished (itokenLoop U n s) := by
  intro n
  induction n with
  | zero =>
    intro s hs
    have : s = [] := List.length_eq_zero_iff.1 (by omega)
    subst this
    simp [itokenLoop, Finished]
  | succ n ih =>
    intro s hs
    cases s with
    | nil => simp [itokenLoop, Finished]
    | cons c cs =>
      unfold itokenLoop
      split
      · simp [Finished]
      · next t r h =>
        have := istep_shorter U h
        rcases ih r (by simp only [List.length_cons] at *; omega) with h | h
        · exact Or.inl (List.mem_cons_of_mem _ h)
        · exact Or.inr (List.mem_cons_of_mem _ h)

theorem next_finished : ∀ {ts : List ITok}, Finished ts → next ts ≠ .error .out ∧
    ∀ t ts', next ts = .ok (t, ts') → ts'.length < ts.length ∧ (t ≠ .eof → Finished ts') := by
  intro ts
  induction ts with
  | nil => intro h; simp [Finished] at h
  | cons a ts ih =>
    intro h
    have tail : a ≠ .eof → a ≠ .raised → Finished ts := by
      intro h1 h2
      rcases h with h | h
      · exact Or.inl ((List.mem_cons.1 h).resolve_left (fun e => h1 e.symm))
      · exact Or.inr ((List.mem_cons.1 h).resolve_left (fun e => h2 e.symm))
    have skip : a = .ws ∨ a = .comment → next (a :: ts) = next ts := by rintro (rfl | rfl) <;> rfl
    by_cases hs : a = .ws ∨ a = .comment
    · rw [skip hs]
      obtain ⟨h1, h2⟩ := ih (tail (by rcases hs with rfl | rfl <;> simp) (by rcases hs with rfl | rfl <;> simp))
      refine ⟨h1, fun t ts' h => ?_⟩
      obtain ⟨h3, h4⟩ := h2 t ts' h
      exact ⟨by simp only [List.length_cons]; omega, h4⟩
    · by_cases hr : a = .raised
      · subst hr
        simp [next]
      · have hn : next (a :: ts) = .ok (a, ts) := by
          cases a <;> simp at hs hr <;> rfl
        rw [hn]
        refine ⟨by simp, ?_⟩
        intro t ts' e
        cases e
        exact ⟨by simp, fun he => tail he hr⟩

theorem strings_finished : ∀ (n : Nat) (b : Bool) (acc : List Text) {ts : List ITok}, Finished ts → ts.length < n →
    strings n b acc ts ≠ .error .out ∧ ∀ l ts', strings n b acc ts = .ok (l, ts') → Finished ts' ∧ ts'.length < ts.length := by
  intro n
  induction n with
  | zero => intro _ _ ts _ h; omega
  | succ n ih =>
    intro b acc ts hf hl
    obtain ⟨h1, h2⟩ := next_finished hf
    unfold strings
    cases hn : next ts with
    | error e =>
      rw [hn] at h1
      exact ⟨by simpa using h1, by simp⟩
    | ok x =>
      obtain ⟨t, ts'⟩ := x
      obtain ⟨h3, h4⟩ := h2 t ts' hn
      by_cases hc : t = .closeSquare
      · subst hc
        simp only
        refine ⟨by simp, ?_⟩
        intro l ts'' e
        cases e
        exact ⟨h4 (by simp), h3⟩
      · have step : ∀ b' acc', t ≠ .eof → strings n b' acc' ts' ≠ .error .out ∧
            ∀ l ts'', strings n b' acc' ts' = .ok (l, ts'') → Finished ts'' ∧ ts''.length < ts.length := by
          intro b' acc' ht
          obtain ⟨h5, h6⟩ := ih b' acc' (h4 ht) (by omega)
          exact ⟨h5, fun l ts'' e => ⟨(h6 l ts'' e).1, by have := (h6 l ts'' e).2; omega⟩⟩
        cases b with
        | true =>
          by_cases hk : t = .comma
          · subst hk
            simpa using step false acc (by simp)
          · cases t <;> simp at hc hk ⊢
        | false =>
          cases t <;> simp at hc ⊢
          next v => exact (by simpa using step true (acc ++ [v]) (by simp))

theorem buttonColors_finished {ts : List ITok} (hf : Finished ts) :
    buttonColors ts ≠ .error .out ∧ ∀ l ts', buttonColors ts = .ok (l, ts') → Finished ts' ∧ ts'.length < ts.length := by
  obtain ⟨h1, h2⟩ := next_finished hf
  unfold buttonColors
  cases hn : next ts with
  | error e => rw [hn] at h1; exact ⟨by simpa using h1, by simp⟩
  | ok x =>
    obtain ⟨t, ts1⟩ := x
    obtain ⟨h3, h4⟩ := h2 t ts1 hn
    cases t <;> try ((constructor <;> simp); done)
    have hf1 := h4 (by simp)
    obtain ⟨g1, g2⟩ := next_finished hf1
    dsimp only
    cases hn1 : next ts1 with
    | error e => rw [hn1] at g1; exact ⟨by simpa using g1, by simp⟩
    | ok x =>
      obtain ⟨t, ts2⟩ := x
      obtain ⟨g3, g4⟩ := g2 t ts2 hn1
      cases t <;> try ((constructor <;> simp); done)
      obtain ⟨k1, k2⟩ := strings_finished (ts2.length + 1) false [] (g4 (by simp)) (by omega)
      dsimp only
      unfold stringList
      cases hs : strings (ts2.length + 1) false [] ts2 with
      | error e => rw [hs] at k1; exact ⟨by simpa using k1, by simp⟩
      | ok y =>
        obtain ⟨l, ts3⟩ := y
        obtain ⟨k3, k4⟩ := k2 l ts3 hs
        match l with
        | [] => exact ⟨by simp, by simp⟩
        | [_] => exact ⟨by simp, by simp⟩
        | [_, _] => exact ⟨by simp, by simp⟩
        | [a, b, c] =>
          refine ⟨by simp, ?_⟩
          intro l ts' e
          cases e
          exact ⟨k3, by omega⟩
        | _ :: _ :: _ :: _ :: _ => exact ⟨by simp, by simp⟩

theorem buttons_finished : ∀ (n : Nat) (b : Bool) (bs : Buttons) {ts : List ITok}, Finished ts → ts.length < n →
    buttons n b bs ts ≠ .error .out := by
  intro n
  induction n with
  | zero => intro _ _ ts _ h; omega
  | succ n ih =>
    intro b bs ts hf hl
    obtain ⟨h1, h2⟩ := next_finished hf
    unfold buttons
    cases hn : next ts with
    | error e => rw [hn] at h1; simpa using h1
    | ok x =>
      obtain ⟨t, ts'⟩ := x
      obtain ⟨h3, h4⟩ := h2 t ts' hn
      by_cases hc : t = .closeCurly
      · subst hc
        simp
      · cases b with
        | true =>
          by_cases hk : t = .comma
          · subst hk
            simpa using ih false bs (h4 (by simp)) (by omega)
          · cases t <;> simp at hc hk ⊢
        | false =>
          cases t <;> simp at hc ⊢
          obtain ⟨k1, k2⟩ := buttonColors_finished (h4 (by simp))
          cases hb : buttonColors ts' with
          | error e => rw [hb] at k1; simpa using k1
          | ok y =>
            obtain ⟨l, ts2⟩ := y
            obtain ⟨k3, k4⟩ := k2 l ts2 hb
            exact ih _ _ k3 (by omega)

theorem identifier_finished {ts : List ITok} (hf : Finished ts) :
    identifier ts ≠ .error .out ∧ ∀ v ts', identifier ts = .ok (v, ts') → Finished ts' := by
  obtain ⟨h1, h2⟩ := next_finished hf
  unfold identifier
  cases hn : next ts with
  | error e => rw [hn] at h1; exact ⟨by simpa using h1, by simp⟩
  | ok x =>
    obtain ⟨t, ts1⟩ := x
    obtain ⟨-, h4⟩ := h2 t ts1 hn
    cases t <;> try ((constructor <;> simp); done)
    refine ⟨by simp, ?_⟩
    intro v ts' e
    cases e
    exact h4 (by simp)

theorem listOr_finished (w : Text) {ts : List ITok} (hf : Finished ts) :
    listOr w ts ≠ .error .out ∧ ∀ v ts', listOr w ts = .ok (v, ts') → Finished ts' := by
  obtain ⟨h1, h2⟩ := next_finished hf
  unfold listOr
  cases hn : next ts with
  | error e => rw [hn] at h1; exact ⟨by simpa using h1, by simp⟩
  | ok x =>
    obtain ⟨t, ts1⟩ := x
    obtain ⟨-, h4⟩ := h2 t ts1 hn
    cases t <;> try ((constructor <;> simp); done)
    · dsimp only
      split
      · refine ⟨by simp, ?_⟩
        intro v ts' e
        cases e
        exact h4 (by simp)
      · exact ⟨by simp, by simp⟩
    · obtain ⟨k1, k2⟩ := strings_finished (ts1.length + 1) false [] (h4 (by simp)) (by omega)
      dsimp only
      unfold stringList
      cases hs : strings (ts1.length + 1) false [] ts1 with
      | error e => rw [hs] at k1; exact ⟨by simpa using k1, by simp⟩
      | ok y =>
        obtain ⟨l, ts3⟩ := y
        refine ⟨by simp, ?_⟩
        intro v ts' e
        cases e
        exact (k2 l ts3 hs).1

/-- The parser never runs out of tokens: what it is given ends with the end of the file, or an exception of the tokenizer. -/
theorem C52_never_out (U : Uni) (s : Text) : parse (itokenize U s) ≠ .error .out := by
  have h0 : Finished (itokenize U s) := itokenLoop_finished U _ s (Nat.le_refl _)
  unfold parse
  obtain ⟨a1, a2⟩ := identifier_finished h0
  cases h1 : identifier (itokenize U s) with
  | error e => rw [h1] at a1; simpa using a1
  | ok x =>
    obtain ⟨b1, b2⟩ := identifier_finished (a2 x.1 x.2 h1)
    dsimp only
    cases h2 : identifier x.2 with
    | error e => rw [h2] at b1; simpa using b1
    | ok y =>
      obtain ⟨c1, c2⟩ := listOr_finished (txt "all-colors") (b2 y.1 y.2 h2)
      dsimp only
      cases h3 : listOr (txt "all-colors") y.2 with
      | error e => rw [h3] at c1; simpa using c1
      | ok z =>
        obtain ⟨d1, d2⟩ := listOr_finished (txt "all-sizes") (c2 z.1 z.2 h3)
        dsimp only
        cases h4 : listOr (txt "all-sizes") z.2 with
        | error e => rw [h4] at d1; simpa using d1
        | ok w =>
          have h5 := d2 w.1 w.2 h4
          dsimp only
          have key : buttonArg w.2 ≠ .error .out := by
            obtain ⟨e1, e2⟩ := next_finished h5
            unfold buttonArg
            cases h6 : next w.2 with
            | error e => rw [h6] at e1; simpa using e1
            | ok u =>
              obtain ⟨t, ts⟩ := u
              obtain ⟨-, e4⟩ := e2 t ts h6
              cases t <;> simp
              · split
                · simp
                · split <;> simp
              · have := buttons_finished (ts.length + 1) false ⟨none, []⟩ (e4 (by simp)) (by omega)
                unfold buttonSettings
                cases h7 : buttons (ts.length + 1) false ⟨none, []⟩ ts with
                | error e => rw [h7] at this; simpa using this
                | ok u => simp
          cases h6 : buttonArg w.2 with
          | error e => rw [h6] at key; simpa using key
          | ok u => simp

/-- **A part of C52: no command is passed over in silence.**  If a comment is left as it is, then it is not an icon command at all, or it is a
command of the documented form whose initial color, or all of whose colors or sizes, are not configured.  Anything else behind the word `icon` is
an error. -/
theorem C52_passed_over {env : Env} (hs : Spaces env.space) {v : Text} (h : getIcon env (.comment v) = .ok none) :
    (∀ a, ¬ IsIcon env.space v a) ∨
    ∃ a c, IsIcon env.space v a ∧ CommandOf (itokenize env.uni (substitute a)) c ∧
      (c.initial ∉ keys env.settings.colors ∨
        (match c.colors with | some l => ∀ x ∈ l, x ∉ keys env.settings.colors | none => env.settings.colors = []) ∨
        (match c.sizes with | some l => ∀ x ∈ l, x ∉ env.settings.sizes | none => env.settings.sizes = [])) := by
  simp only [getIcon] at h
  split at h
  · next hi =>
    left
    intro a ha
    rw [(iconArgs_iff hs.1 hs.2.1 hs.2.2.1 hs.2.2.2 v a).2 ha] at hi
    cases hi
  · next a hi =>
    right
    split at h
    · next hp => exact absurd hp (C52_never_out _ _)
    · cases h
    · next c hp =>
      refine ⟨a, c, (iconArgs_iff hs.1 hs.2.1 hs.2.2.1 hs.2.2.2 v a).1 hi, (C52_syntax _ c).1 hp, ?_⟩
      have hno : ∀ (p : Text → Bool) (l : List Text), distinct p l = [] → ∀ x ∈ l, p x = false := by
        intro p l hl x hx
        cases hpx : p x with
        | false => rfl
        | true =>
          have hd : distinct (fun x => decide (p x = true)) l = distinct p l := by congr 1; funext x; simp
          have : x ∈ distinct p l := by
            rw [← hd]
            exact ((distinct_spec (fun x => p x = true) l).2.1 x).2 ⟨hx, hpx⟩
          rw [hl] at this
          cases this
      have aux : ∀ (C S : List Text) (bs : Option Buttons), (if C = [] ∨ S = [] then Except.ok none else
          match bs with
          | none => .ok (some ⟨c.name, c.initial, C, S, none⟩)
          | some bs =>
            match realButtons env bs with
            | .error e => .error e
            | .ok b => .ok (some ⟨c.name, c.initial, C, S, some b⟩)) = (Except.ok none : Except MErr (Option Icon)) → C = [] ∨ S = [] := by
        intro C S bs h
        refine Classical.byContradiction fun hn => ?_
        rw [if_neg hn] at h
        cases bs with
        | none => cases h
        | some bs =>
          dsimp only at h
          cases hb : realButtons env bs with
          | error e => rw [hb] at h; cases h
          | ok b => rw [hb] at h; cases h
      obtain ⟨name, initial, colors, sizes, button⟩ := c
      unfold realize at h
      by_cases hk : env.known initial = true
      · rw [if_pos hk] at h
        right
        have h := aux _ _ _ h
        refine h.imp (fun h => ?_) (fun h => ?_)
        · cases colors with
          | none => simpa [keys] using h
          | some l =>
            intro x hx hm
            have := hno _ l h x hx
            rw [(known_iff env x).2 hm] at this
            cases this
        · cases sizes with
          | none => exact h
          | some l =>
            intro x hx hm
            have := hno _ l h x hx
            simp [hm] at this
      · left
        intro hm
        exact hk ((known_iff env _).2 hm)

namespace IconToy

/-- A misspelt command. -/
def misspelt : Text := txt "! PREPROCESSOR: icon check black [\"red\""

/-- It is an error, and a command for a color which is not configured is passed over. -/
theorem C52_passed_over_case : getIcon env (.comment misspelt) = .error (.parse .value) ∧
    getIcon env (.comment (txt "! PREPROCESSOR: icon check pink all-colors all-sizes")) = .ok none := by decide +kernel

end IconToy
end Verif.Icons
