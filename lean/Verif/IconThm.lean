import Verif.IconCmd
import Verif.NestSyntax
import Verif.HandlersThm

/-!
# Icon commands (C52)
-/

namespace Verif.Icons

open Verif.Reader (Text txt substitute)
open Verif.Css (Uni Tok)
open Verif.Assoc
open Verif.Paths (join)
open Verif.Handlers (Bytes Fs Scan Built hashBuild hashTarget)

/-! ## Specification: the text of a command -/

/-- Whitespace and comments between the parts of a command. -/
def Gap (ts : List ITok) : Prop := ∀ t ∈ ts, t = .ws ∨ t = .comment

/-- `t` behind whitespace and comments. -/
def First (ts : List ITok) (t : ITok) (rest : List ITok) : Prop :=
  ∃ g, Gap g ∧ ts = g ++ t :: rest ∧ t ≠ .ws ∧ t ≠ .comment ∧ t ≠ .raised

/-- Strings with commas between them, and perhaps one at the end, up to the closing bracket. -/
inductive StringsTo : List ITok → List Text → List ITok → Prop
  | close {ts rest} : First ts .closeSquare rest → StringsTo ts [] rest
  | last {ts v ts' rest} : First ts (.str v) ts' → First ts' .closeSquare rest → StringsTo ts [v] rest
  | item {ts v ts' ts'' vs rest} : First ts (.str v) ts' → First ts' .comma ts'' → StringsTo ts'' vs rest → StringsTo ts (v :: vs) rest

/-- `"name": ["active", "hover", "disabled"]` -/
def ButtonTo (ts : List ITok) (name : Text) (b : Button) (rest : List ITok) : Prop :=
  ∃ t1 t2 t3, First ts (.str name) t1 ∧ First t1 .colon t2 ∧ First t2 .openSquare t3 ∧ StringsTo t3 [b.active, b.hover, b.disabled] rest

/-- Buttons with commas between them, up to the closing bracket. -/
inductive ButtonsTo : List ITok → List (Text × Button) → List ITok → Prop
  | close {ts rest} : First ts .closeCurly rest → ButtonsTo ts [] rest
  | last {ts n b ts' rest} : ButtonTo ts n b ts' → First ts' .closeCurly rest → ButtonsTo ts [(n, b)] rest
  | item {ts n b ts' ts'' bs rest} : ButtonTo ts n b ts' → First ts' .comma ts'' → ButtonsTo ts'' bs rest → ButtonsTo ts ((n, b) :: bs) rest

/-- A list of strings, or the word which stands for everything. -/
inductive ListTo (word : Text) : List ITok → Option (List Text) → List ITok → Prop
  | all {ts rest} : First ts (.ident word) rest → ListTo word ts none rest
  | list {ts ts' vs rest} : First ts .openSquare ts' → StringsTo ts' vs rest → ListTo word ts (some vs) rest

/-- The last of several buttons of the same name counts; the name `default` is the one without a suffix. -/
def settingsOf (bs : List (Text × Button)) : Buttons :=
  ⟨item bs.reverse (txt "default"), ofList (bs.filter fun x => x.1 ≠ txt "default")⟩

/-- What is said about buttons. -/
inductive ButtonArgOf : List ITok → ButtonArg → Prop
  | nothing {ts rest} : First ts .eof rest → ButtonArgOf ts .default
  | none {ts rest} : First ts (.ident (txt "no-btn")) rest → ButtonArgOf ts .none
  | btn {ts rest} : First ts (.ident (txt "btn")) rest → ButtonArgOf ts .default
  | default {ts rest} : First ts (.ident (txt "default")) rest → ButtonArgOf ts .default
  | some {ts ts' bs rest} : First ts .openCurly ts' → ButtonsTo ts' bs rest → ButtonArgOf ts (.some (settingsOf bs))

/-- `name initial colors sizes buttons` -/
def CommandOf (ts : List ITok) (c : Command) : Prop :=
  ∃ t1 t2 t3 t4, First ts (.ident c.name) t1 ∧ First t1 (.ident c.initial) t2 ∧ ListTo (txt "all-colors") t2 c.colors t3 ∧
    ListTo (txt "all-sizes") t3 c.sizes t4 ∧ ButtonArgOf t4 c.button

/-! ## The parser -/

theorem Gap.cons {t : ITok} {g : List ITok} (ht : t = .ws ∨ t = .comment) (hg : Gap g) : Gap (t :: g) := by
  intro x hx
  rcases List.mem_cons.1 hx with h | h
  · subst h; exact ht
  · exact hg x h

theorem next_iff (ts : List ITok) (t : ITok) (rest : List ITok) : next ts = .ok (t, rest) ↔ First ts t rest := by
  induction ts with
  | nil =>
    simp only [next, reduceCtorEq, false_iff]
    rintro ⟨g, -, h, -⟩
    simp at h
  | cons x ts ih =>
    constructor
    · intro h
      cases x <;> simp only [next, Except.ok.injEq, Prod.mk.injEq, reduceCtorEq] at h
      case ws =>
        obtain ⟨g, h1, rfl, h3⟩ := ih.1 h
        exact ⟨.ws :: g, h1.cons (.inl rfl), rfl, h3⟩
      case comment =>
        obtain ⟨g, h1, rfl, h3⟩ := ih.1 h
        exact ⟨.comment :: g, h1.cons (.inr rfl), rfl, h3⟩
      all_goals
        obtain ⟨rfl, rfl⟩ := h
        exact ⟨[], by simp [Gap], rfl, by simp, by simp, by simp⟩
    · rintro ⟨g, h1, h2, h3, h4, h5⟩
      cases g with
      | nil =>
        simp only [List.nil_append, List.cons.injEq] at h2
        obtain ⟨rfl, rfl⟩ := h2
        cases x <;> simp_all [next]
      | cons y g =>
        simp only [List.cons_append, List.cons.injEq] at h2
        obtain ⟨rfl, rfl⟩ := h2
        have : next (g ++ t :: rest) = .ok (t, rest) := ih.2 ⟨g, fun z hz => h1 z (by simp [hz]), rfl, h3, h4, h5⟩
        rcases h1 x (by simp) with rfl | rfl <;> simpa only [next] using this

theorem First.length {ts : List ITok} {t : ITok} {rest : List ITok} (h : First ts t rest) : rest.length < ts.length := by
  obtain ⟨g, -, rfl, -⟩ := h
  simp; omega

theorem First.unique {ts : List ITok} {t t' : ITok} {rest rest' : List ITok} (h : First ts t rest) (h' : First ts t' rest') :
    t = t' ∧ rest = rest' := by
  have a := (next_iff ts t rest).2 h
  rw [(next_iff ts t' rest').2 h'] at a
  cases a; exact ⟨rfl, rfl⟩

/-- What the loop gives when a comma or the end of the list is due. -/
def AfterItem (ts : List ITok) (vs : List Text) (rest : List ITok) : Prop :=
  (vs = [] ∧ First ts .closeSquare rest) ∨ ∃ ts', First ts .comma ts' ∧ StringsTo ts' vs rest

theorem strings_sound : ∀ (n : Nat) (c : Bool) (acc out : List Text) (ts rest : List ITok), strings n c acc ts = .ok (out, rest) →
    ∃ vs, out = acc ++ vs ∧ if c then AfterItem ts vs rest else StringsTo ts vs rest := by
  intro n
  induction n with
  | zero => intro c acc out ts rest h; simp [strings] at h
  | succ n ih =>
    intro c acc out ts rest h
    simp only [strings] at h
    split at h
    · cases h
    · next ts1 h1 =>
      cases h
      have := (next_iff _ _ _).1 h1
      refine ⟨[], by simp, ?_⟩
      cases c
      · exact .close this
      · exact .inl ⟨rfl, this⟩
    · next t ts1 _ h1 =>
      have hf := (next_iff _ _ _).1 h1
      split at h
      · next hc =>
        subst hc
        split at h
        · next ht =>
          subst ht
          obtain ⟨l, h2, h3⟩ := ih _ _ _ _ _ h
          exact ⟨l, h2, .inr ⟨ts1, hf, h3⟩⟩
        · cases h
      · next hc =>
        have hc : c = false := by simpa using hc
        subst hc
        split at h
        · next _ v _ =>
          obtain ⟨l, h2, h3⟩ := ih _ _ _ _ _ h
          refine ⟨v :: l, by simp [h2], ?_⟩
          rcases h3 with ⟨rfl, h3⟩ | ⟨ts', h3, h5⟩
          · exact .last hf h3
          · exact .item hf h3 h5
        · cases h

theorem strings_complete : ∀ (n : Nat) (acc vs : List Text) (ts rest : List ITok), ts.length < n → StringsTo ts vs rest →
    strings n false acc ts = .ok (acc ++ vs, rest) := by
  intro n
  induction n using Nat.strongRecOn with
  | ind n ih =>
    intro acc vs ts rest hl h
    cases n with
    | zero => omega
    | succ n =>
      cases h with
      | close h => simp only [strings, (next_iff _ _ _).2 h, List.append_nil]
      | @last _ v ts' _ h h1 =>
        have := h.length
        cases n with
        | zero => omega
        | succ n => simp only [strings, (next_iff _ _ _).2 h, Bool.false_eq_true, if_false, (next_iff _ _ _).2 h1]
      | @item _ v ts' ts'' l _ h h1 h4 =>
        have := h.length; have := h1.length
        cases n with
        | zero => omega
        | succ n =>
          simp only [strings, (next_iff _ _ _).2 h, Bool.false_eq_true, if_false, (next_iff _ _ _).2 h1, if_true]
          rw [ih n (by omega) _ _ _ _ (by omega) h4]
          simp

theorem stringList_iff (ts : List ITok) (vs : List Text) (rest : List ITok) : stringList ts = .ok (vs, rest) ↔ StringsTo ts vs rest := by
  unfold stringList
  constructor
  · intro h
    obtain ⟨l, h1, h2⟩ := strings_sound _ _ _ _ _ _ h
    rw [List.nil_append] at h1
    subst h1; exact h2
  · intro h; exact strings_complete _ _ _ _ _ (by omega) h

theorem StringsTo.length {ts : List ITok} {vs : List Text} {rest : List ITok} (h : StringsTo ts vs rest) : rest.length < ts.length := by
  induction h with
  | close h => exact h.length
  | last h1 h2 => have := h1.length; have := h2.length; omega
  | item h1 h2 _ ih => have := h1.length; have := h2.length; omega

/-- The three colors behind the name. -/
def ColorsTo (ts : List ITok) (b : Button) (rest : List ITok) : Prop :=
  ∃ t2 t3, First ts .colon t2 ∧ First t2 .openSquare t3 ∧ StringsTo t3 [b.active, b.hover, b.disabled] rest

theorem ColorsTo.length {ts : List ITok} {b : Button} {rest : List ITok} (h : ColorsTo ts b rest) : rest.length < ts.length := by
  obtain ⟨t2, t3, h1, h2, h3⟩ := h
  have := h1.length; have := h2.length; have := h3.length; omega

theorem buttonColors_iff (ts : List ITok) (b : Button) (rest : List ITok) : buttonColors ts = .ok (b, rest) ↔ ColorsTo ts b rest := by
  unfold buttonColors
  constructor
  · intro h
    split at h
    · cases h
    · next ts1 h1 =>
      split at h
      · cases h
      · next ts2 h2 =>
        split at h
        · cases h
        · next x y z ts3 h3 =>
          cases h
          exact ⟨ts1, ts2, (next_iff _ _ _).1 h1, (next_iff _ _ _).1 h2, (stringList_iff _ _ _).1 h3⟩
        · cases h
      · cases h
    · cases h
  · rintro ⟨t2, t3, h1, h2, h3⟩
    simp only [(next_iff _ _ _).2 h1, (next_iff _ _ _).2 h2, (stringList_iff _ _ _).2 h3]

theorem buttonTo_iff (ts : List ITok) (n : Text) (b : Button) (rest : List ITok) :
    ButtonTo ts n b rest ↔ ∃ t1, First ts (.str n) t1 ∧ ColorsTo t1 b rest := by
  constructor
  · rintro ⟨t1, t2, t3, h1, h2, h3, h4⟩; exact ⟨t1, h1, t2, t3, h2, h3, h4⟩
  · rintro ⟨t1, h1, t2, t3, h2, h3, h4⟩; exact ⟨t1, t2, t3, h1, h2, h3, h4⟩

/-- The buttons one after the other. -/
def setButtons (bs : Buttons) (l : List (Text × Button)) : Buttons := l.foldl (fun bs x => setButton bs x.1 x.2) bs

def AfterButton (ts : List ITok) (l : List (Text × Button)) (rest : List ITok) : Prop :=
  (l = [] ∧ First ts .closeCurly rest) ∨ ∃ ts', First ts .comma ts' ∧ ButtonsTo ts' l rest

theorem buttons_sound : ∀ (n : Nat) (c : Bool) (bs out : Buttons) (ts rest : List ITok), buttons n c bs ts = .ok (out, rest) →
    ∃ l, out = setButtons bs l ∧ if c then AfterButton ts l rest else ButtonsTo ts l rest := by
  intro n
  induction n with
  | zero => intro c bs out ts rest h; simp [buttons] at h
  | succ n ih =>
    intro c bs out ts rest h
    simp only [buttons] at h
    split at h
    · cases h
    · next ts1 h1 =>
      cases h
      have := (next_iff _ _ _).1 h1
      refine ⟨[], rfl, ?_⟩
      cases c
      · exact .close this
      · exact .inl ⟨rfl, this⟩
    · next t ts1 _ h1 =>
      have hf := (next_iff _ _ _).1 h1
      split at h
      · next hc =>
        subst hc
        split at h
        · next ht =>
          subst ht
          obtain ⟨l, h2, h3⟩ := ih _ _ _ _ _ h
          exact ⟨l, h2, .inr ⟨ts1, hf, h3⟩⟩
        · cases h
      · next hc =>
        have hc : c = false := by simpa using hc
        subst hc
        split at h
        · next _ v _ =>
          split at h
          · cases h
          · next b ts2 h4 =>
            have h4 := (buttonColors_iff _ _ _).1 h4
            obtain ⟨l, h2, h3⟩ := ih _ _ _ _ _ h
            refine ⟨(v, b) :: l, h2, ?_⟩
            rcases h3 with ⟨rfl, h3⟩ | ⟨ts', h3, h5⟩
            · exact .last ((buttonTo_iff _ _ _ _).2 ⟨ts1, hf, h4⟩) h3
            · exact .item ((buttonTo_iff _ _ _ _).2 ⟨ts1, hf, h4⟩) h3 h5
        · cases h

theorem buttons_complete : ∀ (n : Nat) (bs : Buttons) (ts rest : List ITok) (l : List (Text × Button)), ts.length < n → ButtonsTo ts l rest →
    buttons n false bs ts = .ok (setButtons bs l, rest) := by
  intro n
  induction n using Nat.strongRecOn with
  | ind n ih =>
    intro bs ts rest l hl h
    cases n with
    | zero => omega
    | succ n =>
      cases h with
      | close h => simp only [buttons, (next_iff _ _ _).2 h, setButtons, List.foldl_nil]
      | @last _ nm b ts' _ h h1 =>
        obtain ⟨t1, h2, h3⟩ := (buttonTo_iff _ _ _ _).1 h
        have := h2.length; have := h3.length
        cases n with
        | zero => omega
        | succ n =>
          simp only [buttons, (next_iff _ _ _).2 h2, Bool.false_eq_true, if_false, (buttonColors_iff _ _ _).2 h3, (next_iff _ _ _).2 h1,
            setButtons, List.foldl_cons, List.foldl_nil]
      | @item _ nm b ts' ts'' l _ h h1 h4 =>
        obtain ⟨t1, h2, h3⟩ := (buttonTo_iff _ _ _ _).1 h
        have := h2.length; have := h3.length; have := h1.length
        cases n with
        | zero => omega
        | succ n =>
          simp only [buttons, (next_iff _ _ _).2 h2, Bool.false_eq_true, if_false, (buttonColors_iff _ _ _).2 h3, (next_iff _ _ _).2 h1, if_true]
          rw [ih n (by omega) _ _ _ _ (by omega) h4]
          rfl

theorem setButtons_eq (l : List (Text × Button)) : ∀ (bs : Buttons), setButtons bs l =
    ⟨(item l.reverse (txt "default")).or bs.default, (l.filter fun x => x.1 ≠ txt "default").foldl (fun d x => put d x.1 x.2) bs.named⟩ := by
  induction l with
  | nil => intro bs; simp [setButtons, item]
  | cons x l ih =>
    intro bs
    have e : setButtons bs (x :: l) = setButtons (setButton bs x.1 x.2) l := rfl
    rw [e, ih]
    unfold setButton
    by_cases h : x.1 = txt "default"
    · rw [if_pos h, List.filter_cons_of_neg (by simp [h])]
      simp only [List.reverse_cons, get_append]
      congr 1
      cases h' : item l.reverse (txt "default") with
      | some b => rfl
      | none => simp [item, h]
    · rw [if_neg h, List.filter_cons_of_pos (by simp [h]), List.foldl_cons]
      simp only [List.reverse_cons, get_append]
      congr 1
      cases h' : item l.reverse (txt "default") with
      | some b => rfl
      | none => simp [item, h]

theorem buttonSettings_iff (ts : List ITok) (b : Buttons) :
    (∃ rest, buttonSettings ts = .ok (b, rest)) ↔ ∃ l rest, ButtonsTo ts l rest ∧ b = settingsOf l := by
  have e : ∀ l, setButtons ⟨none, []⟩ l = settingsOf l := by
    intro l
    rw [setButtons_eq]
    simp only [Option.or_none]
    rfl
  constructor
  · rintro ⟨rest, h⟩
    obtain ⟨l, h1, h2⟩ := buttons_sound _ _ _ _ _ _ h
    exact ⟨l, rest, h2, by rw [h1, e]⟩
  · rintro ⟨l, rest, h, rfl⟩
    exact ⟨rest, by rw [← e]; exact buttons_complete _ _ _ _ _ (by omega) h⟩

theorem identifier_iff (ts : List ITok) (v : Text) (rest : List ITok) : identifier ts = .ok (v, rest) ↔ First ts (.ident v) rest := by
  rw [← next_iff]
  unfold identifier
  constructor
  · intro h
    split at h
    · cases h
    · next h1 => cases h; exact h1
    · cases h
  · intro h; rw [h]

theorem listOr_iff (word : Text) (ts : List ITok) (o : Option (List Text)) (rest : List ITok) :
    listOr word ts = .ok (o, rest) ↔ ListTo word ts o rest := by
  unfold listOr
  constructor
  · intro h
    split at h
    · cases h
    · next h1 =>
      split at h
      · cases h
      · next h2 => cases h; exact .list ((next_iff _ _ _).1 h1) ((stringList_iff _ _ _).1 h2)
    · next h1 =>
      split at h
      · next e => cases h; subst e; exact .all ((next_iff _ _ _).1 h1)
      · cases h
    · cases h
  · intro h
    cases h with
    | all h => rw [(next_iff _ _ _).2 h]; simp
    | list h1 h2 => rw [(next_iff _ _ _).2 h1]; simp only [(stringList_iff _ _ _).2 h2]

theorem buttonArg_iff (ts : List ITok) (a : ButtonArg) : buttonArg ts = .ok a ↔ ButtonArgOf ts a := by
  unfold buttonArg
  constructor
  · intro h
    split at h
    · cases h
    · next h1 => cases h; exact .nothing ((next_iff _ _ _).1 h1)
    · next h1 =>
      split at h
      · cases h
      · next h2 =>
        cases h
        obtain ⟨l, rest, h3, rfl⟩ := (buttonSettings_iff _ _).1 ⟨_, h2⟩
        exact .some ((next_iff _ _ _).1 h1) h3
    · next h1 =>
      have h1 := (next_iff _ _ _).1 h1
      split at h
      · next e => cases h; subst e; exact .none h1
      · split at h
        · next e => cases h; rcases e with rfl | rfl; exact .btn h1; exact .default h1
        · cases h
    · cases h
  · have e1 : txt "btn" ≠ txt "no-btn" := by decide
    have e2 : txt "default" ≠ txt "no-btn" := by decide
    intro h
    cases h with
    | nothing h => rw [(next_iff _ _ _).2 h]
    | none h => rw [(next_iff _ _ _).2 h]; simp
    | btn h => rw [(next_iff _ _ _).2 h]; simp [e1]
    | default h => rw [(next_iff _ _ _).2 h]; simp [e2]
    | some h1 h2 =>
      rw [(next_iff _ _ _).2 h1]
      obtain ⟨r, h3⟩ := (buttonSettings_iff _ _).2 ⟨_, _, h2, rfl⟩
      simp only [h3]

/-- The commands which are accepted are those of the documented form. -/
theorem C52_syntax (ts : List ITok) (c : Command) : parse ts = .ok c ↔ CommandOf ts c := by
  unfold parse
  constructor
  · intro h
    split at h
    · cases h
    · next h1 =>
      split at h
      · cases h
      · next h2 =>
        split at h
        · cases h
        · next h3 =>
          split at h
          · cases h
          · next h4 =>
            split at h
            · cases h
            · next h5 =>
              cases h
              exact ⟨_, _, _, _, (identifier_iff _ _ _).1 h1, (identifier_iff _ _ _).1 h2, (listOr_iff _ _ _ _).1 h3, (listOr_iff _ _ _ _).1 h4,
                (buttonArg_iff _ _).1 h5⟩
  · rintro ⟨t1, t2, t3, t4, h1, h2, h3, h4, h5⟩
    simp only [(identifier_iff _ _ _).2 h1, (identifier_iff _ _ _).2 h2, (listOr_iff _ _ _ _).2 h3, (listOr_iff _ _ _ _).2 h4, (buttonArg_iff _ _).2 h5]

end Verif.Icons
