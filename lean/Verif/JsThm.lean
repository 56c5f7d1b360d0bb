import Verif.JsSpec
/-! # JavaScript rewriting: C26, C27, C28 (JavaScript part) -/
namespace Verif.Js
open Verif.Reader (Text txt)

theorem isHex_iff (c : Nat) : isHex c = true ↔ HexDigit c := by
  simp [isHex, HexDigit, Digit, or_assoc]

theorem isNewline_iff (c : Nat) : isNewline c = true ↔ LineEnd c := by
  simp [isNewline, LineEnd, or_assoc]

theorem isNewline_false_iff (c : Nat) : isNewline c = false ↔ ¬ LineEnd c := by
  rw [← isNewline_iff]; simp

/-! ## Unicode escapes -/

theorem braceScan_spec : ∀ (t acc : Text), braceScan t acc = true →
    ∃ hs rest, t = hs ++ 125 :: rest ∧ (∀ h ∈ hs, HexDigit h) ∧ acc ++ hs ≠ [] ∧ hexNum (acc ++ hs) ≤ 0x10FFFF := by
  intro t
  induction t with
  | nil => intro acc h; simp [braceScan] at h
  | cons c cs ih =>
    intro acc h
    unfold braceScan at h
    split at h
    · next hc =>
      subst hc
      split at h
      · cases h
      · next hacc => exact ⟨[], cs, rfl, by simp, by simpa using hacc, by simpa using h⟩
    · split at h
      · next hx =>
        obtain ⟨hs, rest, h1, h2, h3, h4⟩ := ih _ h
        refine ⟨c :: hs, rest, by rw [h1]; rfl, ?_, ?_, ?_⟩
        · intro d hd
          rcases List.mem_cons.1 hd with rfl | hd
          · exact (isHex_iff d).1 hx
          · exact h2 d hd
        · simp
        · simpa using h4
      · cases h

theorem hex_ne_brace {h : Nat} (hh : HexDigit h) : h ≠ 125 := by
  unfold HexDigit Digit at hh; omega

theorem takeWhile_hex {hs rest : Text} (h : ∀ c ∈ hs, HexDigit c) :
    (hs ++ 125 :: rest).takeWhile (fun c => decide (c ≠ 125)) = hs ∧
    (hs ++ 125 :: rest).dropWhile (fun c => decide (c ≠ 125)) = 125 :: rest := by
  have hall : ∀ c ∈ hs, (fun c => decide (c ≠ 125)) c = true := fun c hc => by
    simpa using hex_ne_brace (h c hc)
  constructor
  · rw [List.takeWhile_append_of_pos hall]; simp
  · rw [List.dropWhile_append_of_pos hall]; simp

/-- What the check for a unicode escape means. -/
theorem unicode_ok (cs : Text) (h : isUnicodeEscape (cs.take 9) = true) :
    ∃ hs rest, (∀ h ∈ hs, HexDigit h) ∧ consumeUnicode cs = some (hexNum hs, rest) ∧
      ((cs = 117 :: (hs ++ rest) ∧ hs.length = 4) ∨
       (cs = 117 :: 123 :: (hs ++ 125 :: rest) ∧ hs ≠ [] ∧ hexNum hs ≤ 0x10FFFF)) := by
  unfold isUnicodeEscape at h
  split at h
  · cases h
  split at h
  · cases h
  · next hlen hu =>
    obtain ⟨t, rfl⟩ : ∃ t, cs = 117 :: t := by
      cases cs with
      | nil => simp at hlen
      | cons x t => simp at hu; exact ⟨t, by rw [hu]⟩
    split at h
    · next hb =>
      obtain ⟨t, rfl⟩ : ∃ t', t = 123 :: t' := by
        cases t with
        | nil => simp at hb
        | cons x t => simp at hb; exact ⟨t, by rw [hb]⟩
      obtain ⟨hs, rest, h1, h2, h3, h4⟩ := braceScan_spec _ _ h
      simp only [List.nil_append] at h3 h4
      have hp : hs ++ [125] <+: t := by
        have e1 : (List.drop 2 (List.take 9 (117 :: 123 :: t))).dropLast <+: t := by
          refine (List.dropLast_prefix _).trans ?_
          simp only [List.take_succ_cons, List.drop_succ_cons, List.drop_zero]
          exact List.take_prefix _ _
        rw [h1] at e1
        exact List.IsPrefix.trans ⟨rest, by simp⟩ e1
      obtain ⟨rest', hr⟩ := hp
      have ht : t = hs ++ 125 :: rest' := by rw [← hr]; simp
      refine ⟨hs, rest', h2, ?_, Or.inr ⟨by rw [ht], h3, h4⟩⟩
      subst ht
      simp only [consumeUnicode]
      rw [(takeWhile_hex h2).1, (takeWhile_hex h2).2]
      dsimp only
      rw [if_pos]
      rw [List.all_eq_true]
      exact fun c hc => (isHex_iff c).2 (h2 c hc)
    · next hb =>
      rw [Bool.and_eq_true] at h
      obtain ⟨h1, h2⟩ := h
      simp only [decide_eq_true_eq] at h1
      have hl4 : (t.take 4).length = 4 := by
        simp only [List.length_take, List.length_cons] at h1 ⊢
        omega
      have hall : (t.take 4).all isHex = true := by
        simpa [List.take_succ_cons, List.take_take] using h2
      refine ⟨t.take 4, t.drop 4, ?_, ?_, Or.inl ⟨by rw [List.take_append_drop], hl4⟩⟩
      · intro c hc; exact (isHex_iff c).1 (List.all_eq_true.1 hall c hc)
      · unfold consumeUnicode
        split
        · next t' heq =>
          exfalso; apply hb
          simp only [List.cons.injEq, true_and] at heq
          rw [heq]; simp
        · next t' _ heq =>
          simp only [List.cons.injEq, true_and] at heq
          subst heq
          rw [if_pos ⟨hl4, hall⟩]
        · next hne => exact absurd rfl (hne t)

/-! ## Comments -/

theorem noEnd_nil : NoEnd [] := by intro pre post h; simp at h

theorem noEnd_cons {c : Nat} {v : Text} (h : NoEnd v) (hc : ¬ (c = 42 ∧ v.head? = some 47)) : NoEnd (c :: v) := by
  intro pre post he
  cases pre with
  | nil =>
    simp only [List.nil_append, List.cons.injEq] at he
    exact hc ⟨he.1, by rw [he.2]; rfl⟩
  | cons x pre =>
    simp only [List.cons_append, List.cons.injEq] at he
    exact h pre post he.2

theorem NoEnd.tail {c : Nat} {v : Text} (h : NoEnd (c :: v)) : NoEnd v := by
  intro pre post he
  exact h (c :: pre) post (by rw [he]; rfl)

theorem cleanComment_head (v : Text) : (cleanComment v).head? = v.head? := by
  fun_cases cleanComment v <;> rfl

theorem cleanComment_noEnd (v : Text) : NoEnd (cleanComment v) := by
  fun_induction cleanComment v with
  | case1 cs ih => exact noEnd_cons (noEnd_cons (noEnd_cons ih (by simp)) (by simp)) (by simp)
  | case2 c cs h ih =>
    refine noEnd_cons ih ?_
    rw [cleanComment_head]
    rintro ⟨rfl, h2⟩
    cases cs with
    | nil => cases h2
    | cons x xs =>
      simp only [List.head?_cons, Option.some.injEq] at h2
      exact h xs rfl (by rw [h2])
  | case3 => exact noEnd_nil

theorem cleanComment_id (v : Text) (h : NoEnd v) : cleanComment v = v := by
  fun_induction cleanComment v with
  | case1 cs ih => exact absurd rfl (h [] cs)
  | case2 c cs _ ih => rw [ih h.tail]
  | case3 => rfl

theorem multiLine_spec : ∀ (s : Text), NoEnd (multiLine s).1 ∧
    (s = (multiLine s).1 ++ [42, 47] ++ (multiLine s).2 ∨ (s = (multiLine s).1 ∧ (multiLine s).2 = [])) := by
  intro s
  induction s with
  | nil => exact ⟨noEnd_nil, Or.inr ⟨rfl, rfl⟩⟩
  | cons c cs ih =>
    unfold multiLine
    split
    · next h =>
      refine ⟨noEnd_nil, Or.inl ?_⟩
      cases cs with
      | nil => simp at h
      | cons x xs => simp at h; simp [h]
    · next h =>
      obtain ⟨h1, h2⟩ := ih
      refine ⟨noEnd_cons h1 ?_, ?_⟩
      · rintro ⟨rfl, h3⟩
        apply h
        cases hm : (multiLine cs).1 with
        | nil => rw [hm] at h3; cases h3
        | cons x xs =>
          rw [hm] at h3 h2
          simp only [List.head?_cons, Option.some.injEq] at h3
          subst h3
          rcases h2 with h2 | ⟨h2, _⟩
          · rw [h2]; simp
          · rw [h2]; simp
      · rcases h2 with h2 | ⟨h2, h3⟩
        · exact Or.inl (by dsimp only; conv => lhs; rw [h2]
                           simp)
        · exact Or.inr ⟨by dsimp only; rw [← h2], h3⟩

/-- **C27.** Whatever the text of a comment is, its serialised form begins with `/*`, ends with `*/`, and
the first `*/` behind the opening is the one at its end. -/
theorem C27_comment_closed (v : Text) : ∃ w, serialize (.comment v) = [47, 42] ++ w ++ [42, 47] ∧
    ∀ pre post, w ++ [42, 47] = pre ++ [42, 47] ++ post → pre = w ∧ post = [] := by
  refine ⟨cleanComment v, rfl, ?_⟩
  have h := cleanComment_noEnd v
  generalize cleanComment v = w at h
  intro pre
  induction pre generalizing w with
  | nil =>
    intro post he
    cases w with
    | nil => simp at he; simp [he]
    | cons x xs =>
      exfalso
      cases xs with
      | nil => simp at he
      | cons y ys =>
        simp only [List.cons_append, List.nil_append, List.cons.injEq] at he
        exact h [] ys (by rw [he.1, he.2.1]; rfl)
  | cons x pre ih =>
    intro post he
    cases w with
    | nil =>
      exfalso
      have := congrArg List.length he
      simp at this
      omega
    | cons y w =>
      simp only [List.cons_append, List.cons.injEq] at he
      obtain ⟨h1, h2⟩ := ih w h.tail post he.2
      exact ⟨by rw [he.1, h1], h2⟩

/-- **C27.** Tokenising the serialised comment gives back one comment with the (cleaned) text, whatever
follows. -/
theorem C27_comment_round_trip (v next : Text) : ∃ w, (NoEnd v → w = v) ∧
    consumeComment (serialize (.comment v) ++ next) = some (.comment w, next) := by
  refine ⟨cleanComment v, cleanComment_id v, ?_⟩
  have key : ∀ (w next : Text), NoEnd w → multiLine (w ++ 42 :: 47 :: next) = (w, next) := by
    intro w next
    induction w with
    | nil => intro _; simp [multiLine]
    | cons c w ih =>
      intro h
      rw [List.cons_append, multiLine, if_neg, ih h.tail]
      intro h'
      cases w with
      | nil => simp at h'
      | cons d w =>
        simp only [List.cons_append, List.take_succ_cons, List.cons.injEq] at h'
        exact h [] w (by rw [h'.1, h'.2.1]; rfl)
  unfold consumeComment serialize
  rw [if_neg (by simp), if_pos (by simp)]
  have := key (cleanComment v) next (cleanComment_noEnd v)
  simp only [List.cons_append, List.nil_append, List.append_assoc, List.drop_succ_cons, List.drop_zero]
  rw [this]

example : serialize (.comment (txt " a */ b **/")) = txt "/* a *\\/ b **\\/*/" := by decide

end Verif.Js
