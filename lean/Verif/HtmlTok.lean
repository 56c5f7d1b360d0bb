import Verif.Html
/-!
# C81: comments in titles

Model of `vanillaplusjs/build/html/tokenizer.py`: html5lib reads the contents of elements such as `title` as text, with a token of its own
for every `<`; the tokenizer puts comments back together.  The tokens which html5lib gives are the input of the model.
-/
namespace Verif.HtmlTok
open Verif.Html (HTok)
open Verif.Reader (Text txt)

/-- tokenizer.py:55-56, 65 `data.index("-->")`: what is before and behind the first `-->`. -/
def cut : Text → Option (Text × Text)
  | [] => none
  | 45 :: 45 :: 62 :: r => some ([], r)
  | c :: r => (cut r).map fun x => (c :: x.1, x.2)

/-- tokenizer.py:53-72: the tokens for the text behind a `<`, if it is a comment.  The index of the first `-->` may be 1 or 2, then
`data[3:index]` is empty; `data[:index]` is `b`. -/
def comment (data : Text) : Option (List HTok) :=
  if (txt "!--").isPrefixOf data then
    (cut data).map fun x => .comment (x.1.drop 3) :: if x.2 = [] then [] else [.characters x.2]
  else none

/-- tokenizer.py:50-76: the tokens for a token behind a `<`, if they are a comment. -/
def behind : HTok → Option (List HTok)
  | .characters data => comment data
  | _ => none

/-- tokenizer.py:32-82 -/
def correct : List HTok → List HTok
  | [] => []
  | [t] => [t]
  | t :: u :: ts =>
    if t = .characters (txt "<") then
      match behind u with
      | some us => us ++ correct ts
      | none => t :: u :: correct ts
    else t :: correct (u :: ts)

/-! ## Specification -/

/-- Text which is a comment, as the HTML standard has it, up to the first end and what follows: `<!--c-->`, where `c` may not contain `-->`, or
begin with `>` or `->`, and the two short forms `<!-->` and `<!--->` of the empty comment. -/
inductive Comment : Text → Text → Text → Prop
  | plain (c r : Text) : ¬ txt "-->" <:+: c ++ txt "--" → ¬ txt ">" <+: c → ¬ txt "->" <+: c → Comment (txt "!--" ++ c ++ txt "-->" ++ r) c r
  | short (r : Text) : Comment (txt "!-->" ++ r) [] r
  | short' (r : Text) : Comment (txt "!--->" ++ r) [] r

/-- What the tokenizer may do: it puts comments together and keeps everything else. -/
inductive Kept : List HTok → List HTok → Prop
  | nil : Kept [] []
  | keep (t : HTok) {ts us : List HTok} : Kept ts us → Kept (t :: ts) (t :: us)
  | join {data c r : Text} {ts us : List HTok} : Comment data c r → Kept ts us →
      Kept (.characters (txt "<") :: .characters data :: ts) (.comment c :: (if r = [] then [] else [.characters r]) ++ us)

/-! ## Proofs -/

theorem cut_some {d b r : Text} : cut d = some (b, r) ↔ d = b ++ txt "-->" ++ r ∧ ¬ txt "-->" <:+: b ++ txt "--" := by
  have e : txt "-->" = [45, 45, 62] := by decide
  have e2 : txt "--" = [45, 45] := by decide
  rw [e, e2]
  induction d using cut.induct generalizing b r with
  | case1 => simp [cut]
  | case2 q =>
    rw [cut]
    constructor
    · rintro ⟨⟩
      refine ⟨rfl, ?_⟩
      rintro ⟨x, y, h⟩
      have := congrArg List.length h
      simp at this
      omega
    · rintro ⟨h1, h2⟩
      match b, h1, h2 with
      | [], h1, _ => simp at h1; simp [h1]
      | [c], h1, _ => simp at h1
      | [c, d], h1, _ => simp at h1
      | c :: d :: x :: b, h1, h2 =>
        simp at h1
        obtain ⟨rfl, rfl, rfl, -⟩ := h1
        exact absurd ⟨[], b ++ [45, 45], by simp⟩ h2
  | case3 c q hne ih =>
    rw [cut]
    · constructor
      · intro h
        obtain ⟨⟨b', r'⟩, h1, h2⟩ := Option.map_eq_some_iff.1 h
        cases h2
        obtain ⟨h3, h4⟩ := ih.1 h1
        refine ⟨by rw [h3]; simp, ?_⟩
        intro hi
        rcases List.infix_cons_iff.1 (show [45, 45, 62] <:+: c :: (b' ++ [45, 45]) from hi) with h5 | h5
        · obtain ⟨y, hy⟩ := h5
          simp only [List.cons_append, List.nil_append, List.cons.injEq] at hy
          obtain ⟨rfl, hy⟩ := hy
          refine hne (q.drop 2) ?_ ?_
          · rfl
          · match b', hy with
            | [], hy => simp at hy
            | [x], hy => simp at hy
            | x :: z :: b', hy =>
              simp at hy
              rw [h3]
              simp [hy.1, hy.2.1]
        · exact h4 h5
      · rintro ⟨h1, h2⟩
        match b, h1, h2 with
        | [], h1, _ =>
          simp at h1
          exact absurd h1.2 (fun h => hne r h1.1 h)
        | x :: b, h1, h2 =>
          simp only [List.cons_append, List.cons.injEq] at h1
          obtain ⟨rfl, h1⟩ := h1
          have : cut q = some (b, r) := ih.2 ⟨h1, fun h => h2 (List.infix_cons_iff.2 (.inr h))⟩
          simp [this]
    · exact hne

theorem comment_some {data : Text} {us : List HTok} : comment data = some us ↔
    ∃ c r, Comment data c r ∧ us = .comment c :: if r = [] then [] else [.characters r] := by
  have e : txt "-->" = [45, 45, 62] := by decide
  have e1 : txt "!--" = [33, 45, 45] := by decide
  have e2 : txt "--" = [45, 45] := by decide
  have e3 : txt "!-->" = [33, 45, 45, 62] := by decide
  have e4 : txt "!--->" = [33, 45, 45, 45, 62] := by decide
  have e5 : txt ">" = [62] := by decide
  have e6 : txt "->" = [45, 62] := by decide
  unfold comment
  constructor
  · intro h
    split at h
    · next hp =>
      obtain ⟨⟨b, r⟩, h1, h2⟩ := Option.map_eq_some_iff.1 h
      obtain ⟨h3, h4⟩ := cut_some.1 h1
      obtain ⟨d, hd⟩ := List.isPrefixOf_iff_prefix.1 hp
      rw [e] at h3 h4
      rw [e1] at hd
      subst h2
      refine ⟨_, _, ?_, rfl⟩
      dsimp only
      rw [e2] at h4
      match b, h3, h4 with
      | [], h3, _ => rw [h3] at hd; simp at hd
      | [x], h3, _ =>
        rw [h3] at hd ⊢
        simp at hd
        rw [← hd.1]
        exact Comment.short r
      | [x, y], h3, _ =>
        rw [h3] at hd ⊢
        simp at hd
        rw [← hd.1, ← hd.2.1]
        exact Comment.short' r
      | x :: y :: z :: c, h3, h4 =>
        rw [h3] at hd
        simp at hd
        obtain ⟨rfl, rfl, rfl, -⟩ := hd
        rw [h3, show 33 :: 45 :: 45 :: c ++ [45, 45, 62] ++ r = txt "!--" ++ c ++ txt "-->" ++ r by rw [e, e1]; rfl]
        refine Comment.plain c r ?_ ?_ ?_
        · rw [e, e2]
          exact fun ⟨p, q, h⟩ => h4 ⟨33 :: 45 :: 45 :: p, q, by simp at h; simp [h]⟩
        · rw [e5]
          rintro ⟨q, h⟩
          exact h4 ⟨[33], q ++ [45, 45], by rw [← h]; simp⟩
        · rw [e6]
          rintro ⟨q, h⟩
          exact h4 ⟨[33, 45], q ++ [45, 45], by rw [← h]; simp⟩
    · cases h
  · rintro ⟨c, r, h, rfl⟩
    cases h with
    | plain _ _ h1 h2 h3 =>
      rw [if_pos (by rw [List.append_assoc, List.append_assoc]; exact List.isPrefixOf_iff_prefix.2 ⟨_, rfl⟩)]
      rw [cut_some.2 ⟨rfl, ?_⟩]
      · simp [e1]
      · rw [e, e2] at h1 ⊢
        rw [e5] at h2
        rw [e6] at h3
        rw [e1]
        intro hi
        simp only [List.cons_append, List.nil_append, List.infix_cons_iff] at hi
        rcases hi with hi | hi | hi | hi
        · obtain ⟨q, h⟩ := hi; simp at h
        · obtain ⟨q, h⟩ := hi
          match c, h, h2 with
          | [], h, _ => simp at h
          | x :: c, h, h2 => simp at h; exact h2 ⟨c, by simp [h.1]⟩
        · obtain ⟨q, h⟩ := hi
          match c, h, h3 with
          | [], h, _ => simp at h
          | [x], h, _ => simp at h
          | x :: y :: c, h, h3 => simp at h; exact h3 ⟨c, by simp [h.1, h.2.1]⟩
        · exact h1 hi
    | short =>
      rw [e1, e3]
      have : cut (33 :: 45 :: 45 :: 62 :: r) = some ([33], r) := by simp [cut]
      simp [List.isPrefixOf, this]
    | short' =>
      rw [e1, e4]
      have : cut (33 :: 45 :: 45 :: 45 :: 62 :: r) = some ([33, 45], r) := by simp [cut]
      simp [List.isPrefixOf, this]

theorem behind_some {u : HTok} {us : List HTok} : behind u = some us ↔
    ∃ data c r, u = .characters data ∧ Comment data c r ∧ us = .comment c :: if r = [] then [] else [.characters r] := by
  cases u with
  | characters d =>
    simp only [behind, comment_some]
    constructor
    · rintro ⟨c, r, h⟩; exact ⟨d, c, r, rfl, h⟩
    · rintro ⟨_, c, r, ⟨⟩, h⟩; exact ⟨c, r, h⟩
  | _ => simp [behind]

/-- Whatever html5lib gives, comments are put together and everything else is kept, in order. -/
theorem C81_kept (ts : List HTok) : Kept ts (correct ts) := by
  induction ts using correct.induct with
  | case1 => exact .nil
  | case2 t => exact .keep t .nil
  | case3 u ts us h ih =>
    rw [correct, if_pos rfl]
    simp only [h]
    obtain ⟨d, c, r, rfl, h1, rfl⟩ := behind_some.1 h
    exact .join h1 ih
  | case4 u ts h ih =>
    rw [correct, if_pos rfl]
    simp only [h]
    exact .keep _ (.keep _ ih)
  | case5 t u ts h ih =>
    rw [correct, if_neg h]
    exact .keep _ ih

/-- What comes behind a token other than `<` is read as if it were alone. -/
theorem correct_append {pre : List HTok} (hp : pre.getLast? ≠ some (.characters (txt "<"))) (post : List HTok) :
    correct (pre ++ post) = correct pre ++ correct post := by
  induction pre using correct.induct with
  | case1 => simp [correct]
  | case2 t =>
    cases post with
    | nil => simp [correct]
    | cons u post =>
      have : t ≠ .characters (txt "<") := fun h => hp (by simp [h])
      simp [correct, this]
  | case3 u ts us h ih =>
    have hp' : ts.getLast? ≠ some (.characters (txt "<")) := by
      cases ts with
      | nil => simp
      | cons x ts => simpa using hp
    simp only [List.cons_append, correct, if_true, h, ih hp', List.append_assoc]
  | case4 u ts h ih =>
    have hp' : ts.getLast? ≠ some (.characters (txt "<")) := by
      cases ts with
      | nil => simp
      | cons x ts => simpa using hp
    simp only [List.cons_append, correct, if_true, h, ih hp']
  | case5 t u ts h ih =>
    have := ih (by simpa using hp)
    simp only [List.cons_append] at this ⊢
    rw [correct, if_neg h, this, correct, if_neg h]
    rfl

/-- Every comment is found, unless there is another `<` right before it. -/
theorem C81_found_partial {pre : List HTok} (hp : pre.getLast? ≠ some (.characters (txt "<"))) {data c r : Text} (h : Comment data c r) (post : List HTok) :
    correct (pre ++ .characters (txt "<") :: .characters data :: post) =
      correct pre ++ .comment c :: (if r = [] then [] else [.characters r]) ++ correct post := by
  rw [correct_append hp, correct, if_pos rfl]
  simp only [behind_some.2 ⟨data, c, r, rfl, h, rfl⟩]
  simp

/-- Tokens among which there is no comment in two pieces are kept. -/
theorem C81_same {ts : List HTok} (h : ∀ data c r, [HTok.characters (txt "<"), .characters data] <:+: ts → ¬ Comment data c r) : correct ts = ts := by
  induction ts using correct.induct with
  | case1 => rfl
  | case2 t => rfl
  | case3 u ts us hc ih =>
    obtain ⟨d, c, r, rfl, h1, -⟩ := behind_some.1 hc
    exact absurd h1 (h d c r ⟨[], ts, by simp⟩)
  | case4 u ts hc ih =>
    rw [correct, if_pos rfl]
    simp only [hc]
    rw [ih fun d c r hi => h d c r (List.infix_cons_iff.2 (.inr (List.infix_cons_iff.2 (.inr hi))))]
  | case5 t u ts hn ih =>
    rw [correct, if_neg hn, ih fun d c r hi => h d c r (List.infix_cons_iff.2 (.inr hi))]

/-- `<title>a<!--b-->c</title>` -/
theorem C81_case : correct [.startTag (txt "title") [], .characters (txt "a"), .characters (txt "<"), .characters (txt "!--b-->c"), .endTag (txt "title")] =
      [.startTag (txt "title") [], .characters (txt "a"), .comment (txt "b"), .characters (txt "c"), .endTag (txt "title")] ∧
    Comment (txt "!--b-->c") (txt "b") (txt "c") := by
  refine ⟨by decide, ?_⟩
  have : txt "!--b-->c" = txt "!--" ++ txt "b" ++ txt "-->" ++ txt "c" := by decide
  rw [this]
  exact .plain _ _ (by decide) (by decide) (by decide)

/-- `<title><<!--b--></title>`: the comment stays in the title as text. -/
theorem C81_false_missed : ∃ data, Comment data (txt "b") [] ∧
    correct [.startTag (txt "title") [], .characters (txt "<"), .characters (txt "<"), .characters data, .endTag (txt "title")] =
      [.startTag (txt "title") [], .characters (txt "<"), .characters (txt "<"), .characters data, .endTag (txt "title")] := by
  refine ⟨txt "!--b-->", ?_, by decide⟩
  have : txt "!--b-->" = txt "!--" ++ txt "b" ++ txt "-->" ++ [] := by decide
  rw [this]
  exact .plain _ _ (by decide) (by decide) (by decide)

end Verif.HtmlTok
