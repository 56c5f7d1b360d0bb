import Verif.JsManip
import Verif.JsManipSpec
/-!
# The import manipulator follows the grammar
-/
namespace Verif.Js
open Verif.Reader (Text txt)

theorem isGap_iff (t : Tok) : isGap t = true ↔ Gap t := by
  cases t <;> simp [isGap, Gap]

theorem significant_gap {t : Tok} (h : Gap t) (ts : List Tok) : significant (t :: ts) = significant ts := by
  simp [significant, h]

theorem significant_cons {t : Tok} (h : ¬ Gap t) (ts : List Tok) : significant (t :: ts) = t :: significant ts := by
  simp [significant, h]

theorem significant_append (a b : List Tok) : significant (a ++ b) = significant a ++ significant b := by
  simp [significant]

/-- What `hiResumeAt` decides. -/
inductive Move where
  | go (g : Pos)
  | done (s : Text)
  | bad (hint : Text)

def moveFrom (t : Tok) : Move :=
  match t with
  | .kwFrom => .go .l111
  | _ => .bad (txt "expected from")

def moveCurly (t : Tok) : Move :=
  match t with
  | .closeCurly => .go .l103
  | .identifier _ => .go .l83
  | _ => .bad (txt "expected named export")

def move (t : Tok) : Pos → Move
  | .l42 =>
    match t with
    | .str s => .done s
    | .identifier _ => .go .l48
    | .asterisk => .go .l64
    | .openCurly => .go .l80
    | _ => .bad (txt "expected next import")
  | .l48 => match t with | .kwAs => .go .l50 | .comma => .go .l59 | _ => moveFrom t
  | .l50 => match t with | .identifier _ => .go .l53 | _ => .bad (txt "expected alias for default export")
  | .l53 => match t with | .comma => .go .l59 | _ => moveFrom t
  | .l59 => match t with | .asterisk => .go .l64 | .openCurly => .go .l80 | _ => .bad (txt "expected next import")
  | .l64 => match t with | .kwAs => .go .l66 | .comma => .go .l75 | _ => moveFrom t
  | .l66 => match t with | .identifier _ => .go .l69 | _ => .bad (txt "expected alias for asterisk")
  | .l69 => match t with | .comma => .go .l75 | _ => moveFrom t
  | .l75 => match t with | .openCurly => .go .l80 | _ => .bad (txt "expected next import")
  | .l80 => moveCurly t
  | .l83 => match t with | .kwAs => .go .l85 | .comma => .go .l80 | _ => moveCurly t
  | .l85 => match t with | .identifier _ => .go .l90 | _ => .bad (txt "expected alias for named export")
  | .l90 =>
    match t with
    | .comma => .go .l80
    | .closeCurly => .go .l103
    | _ => .bad (txt "expected comma or close curly bracket")
  | .l103 => moveFrom t
  | .l111 => match t with | .str s => .done s | _ => .bad (txt "expected string literal after from")

theorem hiResumeAt_move (env : HiEnv) (p : HiP) (stack : List Tok) (t : Tok) (g : Pos) :
    hiResumeAt env p stack t g =
      match move t g with
      | .go g' => .ok (p, .yield g')
      | .done s => handleImport env p stack s
      | .bad h => .ok (p, markBad env stack h) := by
  cases g <;> cases t <;> rfl

theorem move_done {t : Tok} {g : Pos} {s : Text} (h : move t g = .done s) : t = .str s := by
  cases g <;> cases t <;> simp [move, moveFrom, moveCurly] at h <;> simp [h]

/-- The tokens which can be inside a statement. -/
def inner : Tok → Bool
  | .identifier _ => true
  | .asterisk => true
  | .kwAs => true
  | .comma => true
  | .openCurly => true
  | .closeCurly => true
  | .kwFrom => true
  | _ => false

theorem move_go {t : Tok} {g g' : Pos} (h : move t g = .go g') : inner t = true := by
  cases g <;> cases t <;> simp [move, moveFrom, moveCurly] at h <;> rfl

/-- What can still follow, without gaps, at a position. -/
inductive Rest : Pos → List Tok → Text → Prop
  | done {g t s} : move t g = .done s → Rest g [t] s
  | go {g t g' ts s} : move t g = .go g' → Rest g' ts s → Rest g (t :: ts) s

/-! ### Rest is the grammar -/

/-- `Rest` from `}`. -/
theorem rest_close (s : Text) : Rest .l103 [.kwFrom, .str s] s := .go rfl (.done rfl)

theorem rest_names {ts : List Tok} (h : Names ts) (s : Text) : Rest .l80 (ts ++ [.closeCurly, .kwFrom, .str s]) s ∧
    Rest .l83 (ts ++ [.closeCurly, .kwFrom, .str s]) s := by
  induction h with
  | nil => exact ⟨.go rfl (rest_close s), .go rfl (rest_close s)⟩
  | name _ ih => exact ⟨.go rfl ih.2, .go rfl ih.2⟩
  | comma _ ih => exact ⟨.go rfl (.go rfl ih.1), .go rfl (.go rfl ih.1)⟩
  | renamed _ ih => exact ⟨.go rfl (.go rfl (.go rfl (.go rfl ih.1))), .go rfl (.go rfl (.go rfl (.go rfl ih.1)))⟩
  | last => exact ⟨.go rfl (.go rfl (.go rfl (.go rfl (rest_close s)))), .go rfl (.go rfl (.go rfl (.go rfl (rest_close s))))⟩

theorem rest_named {c : List Tok} (h : NamedImports c) (s : Text) :
    Rest .l42 (c ++ [.kwFrom, .str s]) s ∧ Rest .l59 (c ++ [.kwFrom, .str s]) s ∧ Rest .l75 (c ++ [.kwFrom, .str s]) s := by
  cases h with
  | @braces ts hn =>
    have := (rest_names hn s).1
    rw [List.cons_append, List.cons_append, List.append_assoc]
    exact ⟨.go rfl this, .go rfl this, .go rfl this⟩

/-- After the namespace import. -/
def TailN (ts : List Tok) (s : Text) : Prop :=
  ts = [.kwFrom, .str s] ∨ ∃ c, NamedImports c ∧ ts = .comma :: c ++ [.kwFrom, .str s]

theorem rest_tailN {ts : List Tok} {s : Text} (h : TailN ts s) : Rest .l64 ts s ∧ Rest .l69 ts s := by
  rcases h with rfl | ⟨c, hc, rfl⟩
  · exact ⟨.go rfl (.done rfl), .go rfl (.done rfl)⟩
  · have := (rest_named hc s).2.2
    exact ⟨.go rfl this, .go rfl this⟩

theorem rest_namespace {b ts : List Tok} {s : Text} (hb : NamespaceImport b) (h : TailN ts s) :
    Rest .l42 (b ++ ts) s ∧ Rest .l59 (b ++ ts) s := by
  cases hb with
  | all => exact ⟨.go rfl (rest_tailN h).1, .go rfl (rest_tailN h).1⟩
  | renamed => exact ⟨.go rfl (.go rfl (.go rfl (rest_tailN h).2)), .go rfl (.go rfl (.go rfl (rest_tailN h).2))⟩

/-- After the default import. -/
def TailD (ts : List Tok) (s : Text) : Prop :=
  ts = [.kwFrom, .str s] ∨ (∃ c, NamedImports c ∧ ts = .comma :: c ++ [.kwFrom, .str s]) ∨
    ∃ b r, NamespaceImport b ∧ TailN r s ∧ ts = .comma :: b ++ r

theorem rest_tailD {ts : List Tok} {s : Text} (h : TailD ts s) : Rest .l48 ts s ∧ Rest .l53 ts s := by
  rcases h with rfl | ⟨c, hc, rfl⟩ | ⟨b, r, hb, hr, rfl⟩
  · exact ⟨.go rfl (.done rfl), .go rfl (.done rfl)⟩
  · have := (rest_named hc s).2.1
    exact ⟨.go rfl this, .go rfl this⟩
  · have := (rest_namespace hb hr).2
    exact ⟨.go rfl this, .go rfl this⟩

theorem rest_default {a ts : List Tok} {s : Text} (ha : DefaultImport a) (h : TailD ts s) : Rest .l42 (a ++ ts) s := by
  cases ha with
  | name => exact .go rfl (rest_tailD h).1
  | renamed => exact .go rfl (.go rfl (.go rfl (rest_tailD h).2))

theorem rest_of_statement {ts : List Tok} {s : Text} (h : Statement (.kwImport :: ts) s) : Rest .l42 ts s := by
  generalize hx : Tok.kwImport :: ts = x at h
  cases h with
  | bare => cases hx; exact .done rfl
  | clause s hc =>
    simp only [List.cons_append, List.cons.injEq, true_and] at hx
    subst hx
    cases hc with
    | d ha => exact rest_default ha (.inl rfl)
    | n hb => exact (rest_namespace hb (.inl rfl)).1
    | c hc => exact (rest_named hc s).1
    | dn ha hb =>
      rw [List.append_assoc]
      exact rest_default ha (.inr (.inr ⟨_, _, hb, .inl rfl, rfl⟩))
    | dc ha hc =>
      rw [List.append_assoc]
      exact rest_default ha (.inr (.inl ⟨_, hc, rfl⟩))
    | nc hb hc =>
      rw [List.append_assoc]
      exact (rest_namespace hb (.inr ⟨_, hc, rfl⟩)).1
    | dnc ha hb hc =>
      rw [List.append_assoc, List.append_assoc]
      exact rest_default ha (.inr (.inr ⟨_, _, hb, .inr ⟨_, hc, rfl⟩, by simp⟩))

/-- The other direction, by position. -/
def Good (s : Text) (ts : List Tok) : Pos → Prop
  | .l42 => Statement (.kwImport :: ts) s
  | .l48 => TailD ts s ∨ ∃ w r, ts = .kwAs :: .identifier w :: r ∧ TailD r s
  | .l50 => ∃ w r, ts = .identifier w :: r ∧ TailD r s
  | .l53 => TailD ts s
  | .l59 => (∃ c, NamedImports c ∧ ts = c ++ [.kwFrom, .str s]) ∨ ∃ b r, NamespaceImport b ∧ TailN r s ∧ ts = b ++ r
  | .l64 => TailN ts s ∨ ∃ w r, ts = .kwAs :: .identifier w :: r ∧ TailN r s
  | .l66 => ∃ w r, ts = .identifier w :: r ∧ TailN r s
  | .l69 => TailN ts s
  | .l75 => ∃ c, NamedImports c ∧ ts = c ++ [.kwFrom, .str s]
  | .l80 => ∃ n, Names n ∧ ts = n ++ [.closeCurly, .kwFrom, .str s]
  | .l83 => ∃ n, (∀ v, Names (.identifier v :: n)) ∧ ts = n ++ [.closeCurly, .kwFrom, .str s]
  | .l85 => ∃ n, (∀ v, Names (.identifier v :: .kwAs :: n)) ∧ ts = n ++ [.closeCurly, .kwFrom, .str s]
  | .l90 => ∃ n, (∀ v w, Names (.identifier v :: .kwAs :: .identifier w :: n)) ∧ ts = n ++ [.closeCurly, .kwFrom, .str s]
  | .l103 => ts = [.kwFrom, .str s]
  | .l111 => ts = [.str s]

theorem named_of_good {s : Text} {ts : List Tok} (h : Good s ts .l80) :
    ∃ c, NamedImports c ∧ .openCurly :: ts = c ++ [.kwFrom, .str s] := by
  obtain ⟨n, hn, rfl⟩ := h
  exact ⟨_, .braces hn, by simp⟩

theorem namespace_of_good {s : Text} {ts : List Tok} (h : Good s ts .l64) :
    ∃ b r, NamespaceImport b ∧ TailN r s ∧ .asterisk :: ts = b ++ r := by
  rcases h with h | ⟨w, r, rfl, h⟩
  · exact ⟨_, _, .all, h, rfl⟩
  · exact ⟨_, _, .renamed w, h, rfl⟩

theorem tailD_of_good {s : Text} {ts : List Tok} (h : Good s ts .l59) : TailD (.comma :: ts) s := by
  rcases h with ⟨c, hc, rfl⟩ | ⟨b, r, hb, hr, rfl⟩
  · exact .inr (.inl ⟨c, hc, rfl⟩)
  · exact .inr (.inr ⟨b, r, hb, hr, rfl⟩)

theorem clause_tailN {a b r : List Tok} {s : Text} (ha : a = [] ∨ ∃ d, DefaultImport d ∧ a = d ++ [.comma])
    (hb : NamespaceImport b) (hr : TailN r s) : Statement (.kwImport :: (a ++ (b ++ r))) s := by
  rcases ha with rfl | ⟨d, hd, rfl⟩
  · rcases hr with rfl | ⟨c, hc, rfl⟩
    · exact .clause s (.n hb)
    · have := Statement.clause s (.nc hb hc)
      simpa using this
  · rcases hr with rfl | ⟨c, hc, rfl⟩
    · have := Statement.clause s (.dn hd hb)
      simpa using this
    · have := Statement.clause s (.dnc hd hb hc)
      simpa using this

theorem statement_tailD {d r : List Tok} {s : Text} (hd : DefaultImport d) (hr : TailD r s) :
    Statement (.kwImport :: (d ++ r)) s := by
  rcases hr with rfl | ⟨c, hc, rfl⟩ | ⟨b, r, hb, hr, rfl⟩
  · exact .clause s (.d hd)
  · have := Statement.clause s (.dc hd hc)
    simpa using this
  · have := clause_tailN (.inr ⟨d, hd, rfl⟩) hb hr
    simpa using this

theorem good_of_rest {g : Pos} {ts : List Tok} {s : Text} (h : Rest g ts s) : Good s ts g := by
  induction h with
  | @done g t s h =>
    cases g <;> cases t <;> simp [move, moveFrom, moveCurly] at h
    · subst h; exact .bare _
    · subst h; rfl
  | @go g t g' ts s h _ ih =>
    cases g <;> cases t <;> simp only [move, moveFrom, moveCurly, Move.go.injEq, reduceCtorEq] at h <;> subst h
    case l42.openCurly =>
      obtain ⟨c, hc, he⟩ := named_of_good ih
      show Statement (.kwImport :: (.openCurly :: ts)) s
      rw [he]
      exact .clause s (.c hc)
    case l42.asterisk =>
      obtain ⟨b, r, hb, hr, he⟩ := namespace_of_good ih
      show Statement (.kwImport :: (.asterisk :: ts)) s
      rw [he]
      exact clause_tailN (.inl rfl) hb hr
    case l42.identifier v _ =>
      rcases ih with h | ⟨w, r, rfl, h⟩
      · exact statement_tailD (.name v) h
      · exact statement_tailD (.renamed v w) h
    case l48.kwAs => obtain ⟨w, r, rfl, h⟩ := ih; exact .inr ⟨w, r, rfl, h⟩
    case l48.kwFrom => cases ih; exact .inl (.inl rfl)
    case l48.comma => exact .inl (tailD_of_good ih)
    case l50.identifier v _ => exact ⟨v, _, rfl, ih⟩
    case l53.kwFrom => cases ih; exact .inl rfl
    case l53.comma => exact tailD_of_good ih
    case l59.openCurly => exact .inl (named_of_good ih)
    case l59.asterisk => exact .inr (namespace_of_good ih)
    case l64.kwAs => obtain ⟨w, r, rfl, h⟩ := ih; exact .inr ⟨w, r, rfl, h⟩
    case l64.kwFrom => cases ih; exact .inl (.inl rfl)
    case l64.comma => obtain ⟨c, hc, rfl⟩ := ih; exact .inl (.inr ⟨c, hc, rfl⟩)
    case l66.identifier v _ => exact ⟨v, _, rfl, ih⟩
    case l69.kwFrom => cases ih; exact .inl rfl
    case l69.comma => obtain ⟨c, hc, rfl⟩ := ih; exact .inr ⟨c, hc, rfl⟩
    case l75.openCurly => exact named_of_good ih
    case l80.closeCurly => cases ih; exact ⟨[], .nil, rfl⟩
    case l80.identifier v _ => obtain ⟨n, hn, rfl⟩ := ih; exact ⟨_, hn v, rfl⟩
    case l83.closeCurly => cases ih; exact ⟨[], fun _ => .name .nil, rfl⟩
    case l83.kwAs => obtain ⟨n, hn, rfl⟩ := ih; exact ⟨_, hn, rfl⟩
    case l83.comma => obtain ⟨n, hn, rfl⟩ := ih; exact ⟨.comma :: n, fun _ => .comma hn, rfl⟩
    case l83.identifier v _ => obtain ⟨n, hn, rfl⟩ := ih; exact ⟨.identifier v :: n, fun _ => .name (hn v), rfl⟩
    case l85.identifier w _ => obtain ⟨n, hn, rfl⟩ := ih; exact ⟨.identifier w :: n, fun v => hn v w, rfl⟩
    case l90.closeCurly => cases ih; exact ⟨[], fun _ _ => .last, rfl⟩
    case l90.comma => obtain ⟨n, hn, rfl⟩ := ih; exact ⟨.comma :: n, fun _ _ => .renamed hn, rfl⟩
    case l103.kwFrom => cases ih; rfl

/-- The statements are what the manipulator goes through. -/
theorem statement_iff (ts : List Tok) (s : Text) : Statement (.kwImport :: ts) s ↔ Rest .l42 ts s :=
  ⟨rest_of_statement, good_of_rest⟩

/-- From every position a statement can be completed. -/
theorem rest_exists (g : Pos) : ∃ ts, Rest g ts [] ∧ ts.getLast? = some (.str []) ∧ significant ts = ts := by
  have h111 : Rest .l111 [.str []] [] := .done rfl
  have h103 : Rest .l103 [.kwFrom, .str []] [] := .go rfl h111
  have h80 : Rest .l80 [.closeCurly, .kwFrom, .str []] [] := .go rfl h103
  have h75 : Rest .l75 [.openCurly, .closeCurly, .kwFrom, .str []] [] := .go rfl h80
  cases g with
  | l42 => exact ⟨[.str []], .done rfl, rfl, rfl⟩
  | l48 => exact ⟨.kwFrom :: _, .go rfl h111, rfl, rfl⟩
  | l50 => exact ⟨.identifier [] :: .kwFrom :: _, .go (g' := .l53) rfl (.go rfl h111), rfl, rfl⟩
  | l53 => exact ⟨.kwFrom :: _, .go rfl h111, rfl, rfl⟩
  | l59 => exact ⟨.openCurly :: _, .go rfl h80, rfl, rfl⟩
  | l64 => exact ⟨.kwFrom :: _, .go rfl h111, rfl, rfl⟩
  | l66 => exact ⟨.identifier [] :: .kwFrom :: _, .go (g' := .l69) rfl (.go rfl h111), rfl, rfl⟩
  | l69 => exact ⟨.kwFrom :: _, .go rfl h111, rfl, rfl⟩
  | l75 => exact ⟨_, h75, rfl, rfl⟩
  | l80 => exact ⟨_, h80, rfl, rfl⟩
  | l83 => exact ⟨.closeCurly :: _, .go rfl h103, rfl, rfl⟩
  | l85 => exact ⟨.identifier [] :: .closeCurly :: _, .go (g' := .l90) rfl (.go rfl h103), rfl, rfl⟩
  | l90 => exact ⟨.closeCurly :: _, .go rfl h103, rfl, rfl⟩
  | l103 => exact ⟨_, h103, rfl, rfl⟩
  | l111 => exact ⟨_, h111, rfl, rfl⟩

/-! ### Going through a run -/

/-- The manipulator goes through the tokens and yields after each. -/
inductive Walk : Pos → List Tok → Pos → Prop
  | nil {g} : Walk g [] g
  | gap {g t ts g'} : Gap t → Walk g ts g' → Walk g (t :: ts) g'
  | go {g t g1 ts g'} : ¬ Gap t → move t g = .go g1 → Walk g1 ts g' → Walk g (t :: ts) g'

theorem Walk.append {g g1 g2 : Pos} {a b : List Tok} (h : Walk g a g1) (h2 : Walk g1 b g2) : Walk g (a ++ b) g2 := by
  induction h with
  | nil => exact h2
  | gap hg _ ih => exact .gap hg (ih h2)
  | go hg hm _ ih => exact .go hg hm (ih h2)

theorem Walk.rest {g g' : Pos} {mid x : List Tok} {s : Text} (h : Walk g mid g') :
    Rest g (significant mid ++ x) s ↔ Rest g' x s := by
  induction h with
  | nil => rfl
  | gap hg _ ih => rw [significant_gap hg]; exact ih
  | @go g t g1 ts g' hg hm _ ih =>
    rw [significant_cons hg, List.cons_append, ← ih]
    constructor
    · intro h
      generalize significant ts ++ x = y at h ⊢
      cases h with
      | done h => rw [hm] at h; cases h
      | go h h2 => rw [hm] at h; cases h; exact h2
    · intro h; exact .go hm h

theorem Walk.mem {g g' : Pos} {mid : List Tok} (h : Walk g mid g') : ∀ t ∈ mid, Gap t ∨ inner t = true := by
  induction h with
  | nil => simp
  | gap hg _ ih =>
    intro t ht
    rcases List.mem_cons.1 ht with rfl | ht
    · exact .inl hg
    · exact ih t ht
  | go hg hm _ ih =>
    intro t ht
    rcases List.mem_cons.1 ht with rfl | ht
    · exact .inr (move_go hm)
    · exact ih t ht

/-- A beginning of what can follow is gone through. -/
theorem walk_of_rest {s : Text} : ∀ (mid : List Tok) (g : Pos) (x : List Tok), x ≠ [] → Rest g (significant mid ++ x) s →
    ∃ g', Walk g mid g' ∧ Rest g' x s := by
  intro mid
  induction mid with
  | nil => intro g x _ h; exact ⟨g, .nil, h⟩
  | cons t mid ih =>
    intro g x hx h
    by_cases hg : Gap t
    · rw [significant_gap hg] at h
      obtain ⟨g', h1, h2⟩ := ih g x hx h
      exact ⟨g', .gap hg h1, h2⟩
    · rw [significant_cons hg, List.cons_append] at h
      generalize hy : significant mid ++ x = y at h
      cases h with
      | done h => simp [hx] at hy
      | go hm h =>
        rw [← hy] at h
        obtain ⟨g', h1, h2⟩ := ih _ x hx h
        exact ⟨g', .go hg hm h1, h2⟩

/-- In a list which ends with the end of file, the run ends. -/
theorem walk_ends : ∀ (body : List Tok) (g : Pos), ∃ mid t rest g', body ++ [.eof] = mid ++ t :: rest ∧ Walk g mid g' ∧
    ¬ Gap t ∧ ((∃ s, move t g' = .done s) ∨ ∃ h, move t g' = .bad h) := by
  intro body
  induction body with
  | nil =>
    intro g
    refine ⟨[], .eof, [], g, rfl, .nil, by decide, .inr ?_⟩
    cases g <;> exact ⟨_, rfl⟩
  | cons t body ih =>
    intro g
    by_cases hg : Gap t
    · obtain ⟨mid, t', rest, g', h1, h2, h3⟩ := ih g
      exact ⟨t :: mid, t', rest, g', by rw [List.cons_append, h1]; rfl, .gap hg h2, h3⟩
    · cases hm : move t g with
      | go g1 =>
        obtain ⟨mid, t', rest, g', h1, h2, h3⟩ := ih g1
        exact ⟨t :: mid, t', rest, g', by rw [List.cons_append, h1]; rfl, .go hg hm h2, h3⟩
      | done s => exact ⟨[], t, body ++ [.eof], g, rfl, .nil, hg, .inl ⟨s, hm⟩⟩
      | bad h => exact ⟨[], t, body ++ [.eof], g, rfl, .nil, hg, .inr ⟨h, hm⟩⟩

/-! ### The same in terms of `Complete` and `Begins` -/

theorem not_gap_import : ¬ Gap .kwImport := by decide
theorem not_gap_str (s : Text) : ¬ Gap (.str s) := by rintro (⟨v, h⟩ | h) <;> cases h

theorem complete_walk {run : List Tok} {s : Text} (h : Complete (run ++ [.str s]) s) :
    ∃ mid g, run = .kwImport :: mid ∧ Walk .l42 mid g ∧ move (.str s) g = .done s := by
  obtain ⟨h1, -, h3⟩ := h
  cases run with
  | nil => simp at h1
  | cons t mid =>
    simp at h1; subst h1
    rw [significant_append, significant_cons not_gap_import, List.cons_append, statement_iff,
      significant_cons (not_gap_str s)] at h3
    obtain ⟨g, hw, hr⟩ := walk_of_rest mid .l42 _ (by simp) h3
    refine ⟨mid, g, rfl, hw, ?_⟩
    cases hr with
    | done h => exact h
    | go h h2 => cases h2

theorem walk_complete {mid : List Tok} {g : Pos} {s : Text} (h : Walk .l42 mid g) (hm : move (.str s) g = .done s) :
    Complete (.kwImport :: mid ++ [.str s]) s := by
  refine ⟨rfl, by rw [List.getLast?_append]; rfl, ?_⟩
  rw [significant_append, significant_cons not_gap_import, List.cons_append, statement_iff,
    significant_cons (not_gap_str s), h.rest]
  exact .done hm

theorem complete_last {run : List Tok} {t : Tok} {s : Text} (h : Complete (run ++ [t]) s) : t = .str s := by
  have := h.2.1
  simpa using this

theorem significant_ne_nil {more : List Tok} {s : Text} (h : more.getLast? = some (.str s)) : significant more ≠ [] := by
  intro h2
  have hmem := List.mem_of_getLast? h
  simp only [significant, List.filter_eq_nil_iff, decide_eq_true_eq] at h2
  exact h2 _ hmem (not_gap_str s)

theorem begins_walk {run : List Tok} (h : Begins run) : ∃ mid g, run = .kwImport :: mid ∧ Walk .l42 mid g := by
  obtain ⟨more, s, hne, hrne, h1, h2, h3⟩ := h
  cases run with
  | nil => exact absurd rfl hrne
  | cons t mid =>
    simp at h1; subst h1
    rw [List.cons_append, significant_cons not_gap_import, significant_append, statement_iff] at h3
    have hlast : more.getLast? = some (.str s) := by
      rw [List.getLast?_append] at h2
      cases hm : more.getLast? with
      | none => exact absurd (List.getLast?_eq_none_iff.1 hm) hne
      | some x => rw [hm] at h2; simpa using h2
    obtain ⟨g, hw, hr⟩ := walk_of_rest mid .l42 _ (significant_ne_nil hlast) h3
    exact ⟨mid, g, rfl, hw⟩

theorem walk_begins {mid : List Tok} {g : Pos} (h : Walk .l42 mid g) : Begins (.kwImport :: mid) := by
  obtain ⟨ts, hr, hl, hs⟩ := rest_exists g
  refine ⟨ts, [], ?_, by simp, rfl, ?_, ?_⟩
  · intro h; rw [h] at hl; simp at hl
  · rw [List.getLast?_append, hl]; rfl
  · rw [List.cons_append, significant_cons not_gap_import, significant_append, statement_iff, hs, h.rest]
    exact hr

theorem Walk.unique {g g1 g2 : Pos} {mid : List Tok} (h : Walk g mid g1) (h2 : Walk g mid g2) : g1 = g2 := by
  induction h with
  | nil => cases h2; rfl
  | gap hg _ ih =>
    cases h2 with
    | gap _ h => exact ih h
    | go hn => exact absurd hg hn
  | go hg hm _ ih =>
    cases h2 with
    | gap h => exact absurd h hg
    | go _ hm' h => rw [hm] at hm'; cases hm'; exact ih h

/-- Where the manipulator does not yield, no statement goes on. -/
theorem not_begins {mid : List Tok} {g : Pos} {t : Tok} (h : Walk .l42 mid g) (hg : ¬ Gap t)
    (hm : ∀ g', move t g ≠ .go g') : ¬ Begins (.kwImport :: mid ++ [t]) := by
  intro hb
  obtain ⟨mid', g', he, hw⟩ := begins_walk hb
  simp only [List.cons_append, List.cons.injEq, true_and] at he
  subst he
  have : ∀ (mid : List Tok) (g0 g : Pos), Walk g0 mid g → Walk g0 (mid ++ [t]) g' → Walk g [t] g' := by
    intro mid
    induction mid with
    | nil => intro g0 g h1 h2; cases h1; exact h2
    | cons x mid ih =>
      intro g0 g h1 h2
      cases h1 with
      | gap hx h1 =>
        cases h2 with
        | gap _ h2 => exact ih _ _ h1 h2
        | go hn => exact absurd hx hn
      | go hx hm1 h1 =>
        cases h2 with
        | gap h => exact absurd h hx
        | go _ hm2 h2 => rw [hm1] at hm2; cases hm2; exact ih _ _ h1 h2
  have := this _ _ _ h hw
  cases this with
  | gap h => exact hg h
  | go _ h => exact hm _ h

end Verif.Js
