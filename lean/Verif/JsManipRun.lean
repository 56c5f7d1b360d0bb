import Verif.JsManipLemmas
/-!
# What the import manipulator makes of a sequence of tokens, alone and behind the type hint manipulator
-/
namespace Verif.Js
open Verif.Reader (Text txt)
open Verif.Build

/-- The manipulator, from the attributes `p`, takes the tokens `run` and gives `r`. -/
def HiRun (env : HiEnv) (p : HiP) (run r : List Tok) (p' : HiP) : Prop :=
  ∃ t s1, run.head? = some t ∧ (hashImports env).toManip.start (p, .unmarked) t = .ok (true, s1) ∧
    Closed (hashImports env).toManip s1 run r (p', .unmarked)

/-- The manipulator raises `e` at the last of the tokens `run`. -/
def HiFail (env : HiEnv) (p : HiP) (run : List Tok) (e : MErr) : Prop :=
  ∃ t s1 ts x s2, run = ts ++ [x] ∧ run.head? = some t ∧
    (hashImports env).toManip.start (p, .unmarked) t = .ok (true, s1) ∧
    Open (hashImports env).toManip s1 ts s2 ∧ (hashImports env).toManip.cont s2 x = .error e

theorem open_walk (env : HiEnv) (p : HiP) {g g' : Pos} {mid : List Tok} (h : Walk g mid g') : ∀ (stack : List Tok),
    Open (hashImports env).toManip (p, .marking stack g) mid (p, .marking (stack ++ mid) g') := by
  induction h with
  | nil => intro stack; rw [List.append_nil]; exact .nil
  | @gap g t ts g' hg _ ih =>
    intro stack
    have := ih (stack ++ [t])
    rw [List.append_assoc] at this
    refine .cons ?_ this
    have he : isEof t = false := by rcases hg with ⟨v, rfl⟩ | rfl <;> rfl
    simp [YManip.toManip, YManip.cont, hashImports, hiResume, (isGap_iff t).2 hg, he]
  | @go g t g1 ts g' hg hm _ ih =>
    intro stack
    have := ih (stack ++ [t])
    rw [List.append_assoc] at this
    refine .cons ?_ this
    have he : isEof t = false := by have := move_go hm; cases t <;> first | rfl | cases this
    have hg' : isGap t = false := by rw [← Bool.not_eq_true, isGap_iff]; exact hg
    simp [YManip.toManip, YManip.cont, hashImports, hiResume, hg', hiResumeAt_move, hm, he]

theorem start_import (env : HiEnv) (ds : List Text) :
    (hashImports env).toManip.start (⟨false, ds⟩, .unmarked) .kwImport =
      .ok (true, (⟨false, ds⟩, .skipping [.kwImport] .l42)) := rfl

theorem cont_skip (env : HiEnv) (p : HiP) (stack : List Tok) (g : Pos) (t : Tok) :
    (hashImports env).toManip.cont (p, .skipping stack g) t = .ok (none, (p, .marking stack g)) := rfl

/-- The run up to its last token. -/
theorem open_run (env : HiEnv) (p : HiP) {mid : List Tok} {g : Pos} (h : Walk .l42 mid g) :
    Open (hashImports env).toManip (p, .skipping [.kwImport] .l42) (.kwImport :: mid)
      (p, .marking (.kwImport :: mid) g) :=
  .cons (cont_skip env p _ _ _) (open_walk env p h [.kwImport])

theorem cont_last (env : HiEnv) (p : HiP) (stack : List Tok) (g : Pos) {t : Tok} (hg : ¬ Gap t) :
    (hashImports env).toManip.cont (p, .marking stack g) t =
      match move t g with
      | .go g' => if isEof t then .error .yieldedOnEof else .ok (none, (p, .marking (stack ++ [t]) g'))
      | .done s =>
        match handleImport env p (stack ++ [t]) s with
        | .error e => .error e
        | .ok (p, .yield g') => if isEof t then .error .yieldedOnEof else .ok (none, (p, .marking (stack ++ [t]) g'))
        | .ok (p, .pass) => .ok (some (stack ++ [t]), (p, .unmarked))
        | .ok (p, .replace l) => .ok (some l, (p, .unmarked))
      | .bad h => .ok (some (.comment (txt "PREPROCESSOR: ignore-import " ++ h ++ txt "; final token: " ++
          env.typeName t) :: (stack ++ [t])), (p, .unmarked)) := by
  have hg' : isGap t = false := by rw [← Bool.not_eq_true, isGap_iff]; exact hg
  simp only [YManip.toManip, YManip.cont, hashImports, hiResume, List.getLast?_append, List.getLast?_singleton,
    Option.some_or, Option.getD_some, hg', hiResumeAt_move, Bool.false_eq_true, if_false]
  cases move t g with
  | go g' => rfl
  | bad h => simp [markBad]
  | done s =>
    dsimp only
    cases handleImport env p (stack ++ [t]) s with
    | error e => rfl
    | ok r => obtain ⟨p', a⟩ := r; cases a <;> rfl

/-- The comment put in front of an import which is not understood. -/
def badComment (env : HiEnv) (h : Text) (t : Tok) : Text :=
  txt "PREPROCESSOR: ignore-import " ++ (h ++ txt "; final token: " ++ env.typeName t)

theorem run_bad (env : HiEnv) (ds : List Text) {mid : List Tok} {g : Pos} {t : Tok} {h : Text} (hw : Walk .l42 mid g)
    (hg : ¬ Gap t) (hm : move t g = .bad h) :
    HiRun env ⟨false, ds⟩ (.kwImport :: mid ++ [t]) (.comment (badComment env h t) :: (.kwImport :: mid ++ [t])) ⟨false, ds⟩ := by
  refine ⟨.kwImport, _, rfl, start_import env ds, .kwImport :: mid, t, _, rfl, open_run env _ hw, ?_⟩
  rw [cont_last env _ _ _ hg, hm]
  simp [badComment]

theorem isSkipMark_iff (t : Tok) : isSkipMark t = true ↔ IgnoreMark t := by
  cases t <;> simp [isSkipMark, IgnoreMark, List.isPrefixOf_iff_prefix]

theorem prefixOk_iff (s : Text) : prefixOk s = true ↔ (txt "/" <+: s ∨ txt "./" <+: s ∨ txt "../" <+: s) := by
  simp [prefixOk, List.isPrefixOf_iff_prefix]

theorem noQuery_iff (s : Text) : (txt "?#").any (fun c => s.contains c) = false ↔ 63 ∉ s ∧ 35 ∉ s := by
  have h : txt "?#" = [63, 35] := rfl
  simp [h]

/-- What becomes of the module specifier. -/
def newSpec (env : HiEnv) (s : Text) : Option Text :=
  if env.scan then some s
  else (env.hash (env.resolve s).1).map fun h => (env.resolve s).2 ++ txt "?" ++ env.query h

/-- The file which is depended upon. -/
def depOf (env : HiEnv) (s : Text) : Text := (env.resolve s).1

theorem handleImport_supported (env : HiEnv) (p : HiP) (stack : List Tok) (s : Text) (h : Supported s) :
    handleImport env p stack s =
      match newSpec env s with
      | none => .error (.notFound (depOf env s))
      | some s' => .ok (⟨true, p.deps ++ [depOf env s]⟩, if env.scan then .pass else .replace (stack.dropLast ++ [.str s'])) := by
  have h1 := (prefixOk_iff s).2 h.1
  have h2 := (noQuery_iff s).2 h.2
  unfold handleImport newSpec
  rw [h1, h2]
  cases hs : env.scan with
  | true => simp [depOf]
  | false =>
    simp only [depOf]
    cases env.hash (env.resolve s).1 <;> simp

theorem handleImport_unsupported (env : HiEnv) (p : HiP) (stack : List Tok) (s : Text) (h : ¬ Supported s) :
    ∃ hint, handleImport env p stack s = .ok (p, markBad env stack hint) := by
  unfold handleImport
  cases h1 : prefixOk s with
  | false => exact ⟨_, rfl⟩
  | true =>
    cases h2 : (txt "?#").any (fun c => s.contains c) with
    | true => exact ⟨_, rfl⟩
    | false => exact absurd ⟨(prefixOk_iff s).1 h1, (noQuery_iff s).1 h2⟩ h

theorem run_unsupported (env : HiEnv) (ds : List Text) {mid : List Tok} {g : Pos} {s : Text} (hw : Walk .l42 mid g)
    (hm : move (.str s) g = .done s) (hs : ¬ Supported s) :
    ∃ h, HiRun env ⟨false, ds⟩ (.kwImport :: mid ++ [.str s])
      (.comment (badComment env h (.str s)) :: (.kwImport :: mid ++ [.str s])) ⟨false, ds⟩ := by
  obtain ⟨h, hh⟩ := handleImport_unsupported env ⟨false, ds⟩ ((.kwImport :: mid) ++ [.str s]) s hs
  refine ⟨h, .kwImport, _, rfl, start_import env ds, .kwImport :: mid, .str s, _, rfl, open_run env _ hw, ?_⟩
  rw [cont_last env _ _ _ (not_gap_str s), hm]
  have hl : (Tok.kwImport :: (mid ++ [Tok.str s])).getLast? = some (.str s) := by
    rw [← List.cons_append, List.getLast?_append]; rfl
  simp only [hh]
  simp [markBad, badComment, hl]

theorem run_hash (env : HiEnv) (ds : List Text) {mid : List Tok} {g : Pos} {s s' : Text} (hw : Walk .l42 mid g)
    (hm : move (.str s) g = .done s) (hs : Supported s) (hn : newSpec env s = some s') :
    HiRun env ⟨false, ds⟩ (.kwImport :: mid ++ [.str s]) (.kwImport :: mid ++ [.str s']) ⟨true, ds ++ [depOf env s]⟩ := by
  refine ⟨.kwImport, _, rfl, start_import env ds, .kwImport :: mid, .str s, _, rfl, open_run env _ hw, ?_⟩
  rw [cont_last env _ _ _ (not_gap_str s), hm]
  simp only [handleImport_supported env _ _ s hs, hn]
  cases hsc : env.scan with
  | true =>
    have : s' = s := by simp [newSpec, hsc] at hn; exact hn.symm
    subst this
    simp
  | false =>
    have hd : ((Tok.kwImport :: mid) ++ [Tok.str s]).dropLast = Tok.kwImport :: mid := List.dropLast_concat
    rw [hd]
    simp

theorem run_missing (env : HiEnv) (ds : List Text) {mid : List Tok} {g : Pos} {s : Text} (hw : Walk .l42 mid g)
    (hm : move (.str s) g = .done s) (hs : Supported s) (hn : newSpec env s = none) :
    HiFail env ⟨false, ds⟩ (.kwImport :: mid ++ [.str s]) (.notFound (depOf env s)) := by
  refine ⟨.kwImport, _, .kwImport :: mid, .str s, _, rfl, rfl, start_import env ds, open_run env _ hw, ?_⟩
  rw [cont_last env _ _ _ (not_gap_str s), hm]
  simp only [handleImport_supported env _ _ s hs, hn]

/-! ## Behind which other manipulators -/

/-- The manipulators `ms` do on the lists of tokens `ok` what the import manipulator alone does; `st` are the
states in which none has a mark. -/
structure Carrier {S : Type} (env : HiEnv) (ms : List (Manip S Tok MErr)) (st : HiP → S → Prop) (ok : List Tok → Prop) :
    Prop where
  nil : ∀ p s, st p s → ∃ s', Stream ms s [] [] none s' ∧ st p s'
  keep : ∀ p t p', hiHandle p t = .ok (p', .pass) → ∀ ts out p'', ok (t :: ts) →
    (∀ s, st p' s → ∃ s', Stream ms s ts out none s' ∧ st p'' s') →
    ∀ s, st p s → ∃ s', Stream ms s (t :: ts) (t :: out) none s' ∧ st p'' s'
  keepFail : ∀ p t p', hiHandle p t = .ok (p', .pass) → ∀ ts e, ok (t :: ts) →
    (∀ s, st p' s → Fails ms s ts e) → ∀ s, st p s → Fails ms s (t :: ts) e
  replace : ∀ p run r p', HiRun env p run r p' → ∀ rest out p'', ok (run ++ rest) →
    (∀ s, st p' s → ∃ s', Stream ms s (r ++ rest) out none s' ∧ st p'' s') →
    ∀ s, st p s → ∃ s', Stream ms s (run ++ rest) out none s' ∧ st p'' s'
  replaceFail : ∀ p run r p', HiRun env p run r p' → ∀ rest e, ok (run ++ rest) →
    (∀ s, st p' s → Fails ms s (r ++ rest) e) → ∀ s, st p s → Fails ms s (run ++ rest) e
  fail : ∀ p run e, HiFail env p run e → ∀ rest, ok (run ++ rest) → ∀ s, st p s → Fails ms s (run ++ rest) e

/-- What may stand in an accepted list. -/
structure OkClosed (ok : List Tok → Prop) : Prop where
  tail : ∀ t ts, ok (t :: ts) → ts ≠ [] → ok ts
  comment : ∀ v ts, ok ts → ts ≠ [] → ok (.comment (txt "PREPROCESSOR: ignore-import " ++ v) :: ts)
  subst : ∀ a s s' b, ok (a ++ .str s :: b) → ok (a ++ .str s' :: b)

section
variable {S : Type} {env : HiEnv} {ms : List (Manip S Tok MErr)} {st : HiP → S → Prop} {ok : List Tok → Prop}

/-- Tokens inside a statement are kept. -/
theorem handle_inner (p : HiP) {t : Tok} (h : Gap t ∨ inner t = true) : hiHandle p t = .ok (p, .pass) := by
  have h1 : isSkipMark t = false := by
    rcases h with (⟨v, rfl⟩ | rfl) | h
    · rfl
    · rfl
    · cases t <;> first | rfl | cases h
  have h2 : t ≠ .kwImport := by
    rintro rfl
    rcases h with (⟨v, h⟩ | h) | h <;> cases h
  simp [hiHandle, h1, h2]

theorem handle_str (p : HiP) (s : Text) : hiHandle p (.str s) = .ok (p, .pass) := by
  simp [hiHandle, isSkipMark]

theorem ok_drop (hc : OkClosed ok) : ∀ (a : List Tok) (b : List Tok), b ≠ [] → ok (a ++ b) → ok b := by
  intro a
  induction a with
  | nil => intro b _ h; exact h
  | cons t a ih => intro b hb h; exact ih b hb (hc.tail t _ h (by simp [hb]))

/-- A list of tokens, all kept. -/
theorem carry_keep (C : Carrier env ms st ok) (hc : OkClosed ok) (p p'' : HiP) (rest out : List Tok) (hne : rest ≠ []) :
    ∀ (mid : List Tok), (∀ t ∈ mid, hiHandle p t = .ok (p, .pass)) → ok (mid ++ rest) →
    (∀ s, st p s → ∃ s', Stream ms s rest out none s' ∧ st p'' s') →
    ∀ s, st p s → ∃ s', Stream ms s (mid ++ rest) (mid ++ out) none s' ∧ st p'' s' := by
  intro mid
  induction mid with
  | nil => intro _ _ h; exact h
  | cons t mid ih =>
    intro hk hok h
    exact C.keep p t p (hk t (by simp)) _ _ _ hok
      (ih (fun t ht => hk t (by simp [ht])) (hc.tail t _ hok (by simp [hne])) h)

theorem carry_keepFail (C : Carrier env ms st ok) (hc : OkClosed ok) (p : HiP) (rest : List Tok) (e : MErr)
    (hne : rest ≠ []) : ∀ (mid : List Tok), (∀ t ∈ mid, hiHandle p t = .ok (p, .pass)) → ok (mid ++ rest) →
    (∀ s, st p s → Fails ms s rest e) → ∀ s, st p s → Fails ms s (mid ++ rest) e := by
  intro mid
  induction mid with
  | nil => intro _ _ h; exact h
  | cons t mid ih =>
    intro hk hok h
    exact C.keepFail p t p (hk t (by simp)) _ _ hok
      (ih (fun t ht => hk t (by simp [ht])) (hc.tail t _ hok (by simp [hne])) h)

/-- The import manipulator behind others does what the specification says: the tokens are rewritten, or
there is a hash missing. -/
theorem carry_main (C : Carrier env ms st ok) (hc : OkClosed ok) {b : Bool} {ts o : List Tok} {ds : List Text}
    (h : Hashed some (depOf env) b ts o ds) : ok ts ∨ ts = [] → ∀ d0,
    (∃ out b', Hashed (newSpec env) (depOf env) b ts out ds ∧
      ∀ s, st ⟨b, d0⟩ s → ∃ s', Stream ms s ts out none s' ∧ st ⟨b', d0 ++ ds⟩ s') ∨
    (∃ x, newSpec env x = none ∧ depOf env x ∈ ds ∧ ∀ s, st ⟨b, d0⟩ s → Fails ms s ts (.notFound (depOf env x))) := by
  induction h with
  | nil =>
    rename_i b
    intro _ d0
    exact .inl ⟨[], b, .nil, fun s hs => by rw [List.append_nil]; exact C.nil _ s hs⟩
  | @keep b t ts o ds h1 h2 _ ih =>
    intro hok d0
    have hok := hok.resolve_right (by simp)
    have hh : hiHandle ⟨b, d0⟩ t = .ok (⟨b, d0⟩, .pass) := by
      rcases h2 with rfl | h2
      · simp [hiHandle, h1]
      · have : isSkipMark t = false := by
          rw [Bool.eq_false_iff, ne_eq, isSkipMark_iff]
          exact h2
        simp [hiHandle, h1, this]
    have hok' : ok ts ∨ ts = [] := by
      by_cases hn : ts = []
      · exact .inr hn
      · exact .inl (hc.tail t ts hok hn)
    rcases ih hok' d0 with ⟨out, b', hr, hs⟩ | ⟨x, hx, hxd, hf⟩
    · exact .inl ⟨t :: out, b', .keep h1 h2 hr, C.keep _ _ _ hh _ _ _ hok hs⟩
    · exact .inr ⟨x, hx, hxd, C.keepFail _ _ _ hh _ _ hok hf⟩
  | @mark t ts o ds h1 _ ih =>
    intro hok d0
    have hok := hok.resolve_right (by simp)
    have hh : hiHandle ⟨false, d0⟩ t = .ok (⟨true, d0⟩, .pass) := by
      obtain ⟨v, rfl, hv⟩ := h1
      simp [hiHandle, isSkipMark, List.isPrefixOf_iff_prefix.2 hv]
    have hok' : ok ts ∨ ts = [] := by
      by_cases hn : ts = []
      · exact .inr hn
      · exact .inl (hc.tail t ts hok hn)
    rcases ih hok' d0 with ⟨out, b', hr, hs⟩ | ⟨x, hx, hxd, hf⟩
    · exact .inl ⟨t :: out, b', .mark h1 hr, C.keep _ _ _ hh _ _ _ hok hs⟩
    · exact .inr ⟨x, hx, hxd, C.keepFail _ _ _ hh _ _ hok hf⟩
  | @ignored ts o ds _ ih =>
    intro hok d0
    have hok := hok.resolve_right (by simp)
    have hh : hiHandle ⟨true, d0⟩ .kwImport = .ok (⟨false, d0⟩, .pass) := by
      simp [hiHandle]
    have hok' : ok ts ∨ ts = [] := by
      by_cases hn : ts = []
      · exact .inr hn
      · exact .inl (hc.tail _ ts hok hn)
    rcases ih hok' d0 with ⟨out, b', hr, hs⟩ | ⟨x, hx, hxd, hf⟩
    · exact .inl ⟨.kwImport :: out, b', .ignored hr, C.keep _ _ _ hh _ _ _ hok hs⟩
    · exact .inr ⟨x, hx, hxd, C.keepFail _ _ _ hh _ _ hok hf⟩
  | @hash run s _ rest o ds h1 h2 _ _ ih =>
    intro hok d0
    have hok := hok.resolve_right (by simp)
    obtain ⟨mid, g, rfl, hw, hm⟩ := complete_walk h1
    cases hn : newSpec env s with
    | none =>
      refine .inr ⟨s, hn, by simp, ?_⟩
      have := C.fail _ _ _ (run_missing env d0 hw hm h2 hn) rest (by simpa using hok)
      simpa using this
    | some s' =>
      have hrun := run_hash env d0 hw hm h2 hn
      have hok1 : ok ((Tok.kwImport :: mid ++ [.str s]) ++ rest) := by simpa using hok
      have hok2 : ok (Tok.kwImport :: (mid ++ .str s' :: rest)) := by
        have := hc.subst (Tok.kwImport :: mid) s s' rest (by simpa using hok)
        simpa using this
      have hok3 : ok (mid ++ .str s' :: rest) := hc.tail _ _ hok2 (by simp)
      have hok4 : ok (Tok.str s' :: rest) := ok_drop hc mid _ (by simp) hok3
      have hh : ∀ d, hiHandle ⟨true, d⟩ .kwImport = .ok (⟨false, d⟩, .pass) := by intro d; simp [hiHandle]
      have hok' : ok rest ∨ rest = [] := by
        by_cases hn : rest = []
        · exact .inr hn
        · exact .inl (hc.tail _ rest hok4 hn)
      rcases ih hok' (d0 ++ [depOf env s]) with ⟨out, b', hr, hs⟩ | ⟨x, hx, hxd, hf⟩
      · refine .inl ⟨_, b', .hash h1 h2 hn hr, ?_⟩
        have k1 := C.keep _ _ _ (handle_str ⟨false, d0 ++ [depOf env s]⟩ s') rest out _ hok4 hs
        have k2 := carry_keep C hc _ _ _ _ (by simp) mid (fun t ht => handle_inner _ (hw.mem t ht)) hok3 k1
        have k3 := C.keep _ _ _ (hh (d0 ++ [depOf env s])) _ _ _ hok2 k2
        have k4 := C.replace _ _ _ _ hrun rest (.kwImport :: (mid ++ .str s' :: out)) ⟨b', d0 ++ [depOf env s] ++ ds⟩ hok1
          (by simpa using k3)
        simpa using k4
      · refine .inr ⟨x, hx, by simp [hxd], ?_⟩
        have k1 := C.keepFail _ _ _ (handle_str ⟨false, d0 ++ [depOf env s]⟩ s') rest _ hok4 hf
        have k2 := carry_keepFail C hc _ _ _ (by simp) mid (fun t ht => handle_inner _ (hw.mem t ht)) hok3 k1
        have k3 := C.keepFail _ _ _ (hh (d0 ++ [depOf env s])) _ _ hok2 k2
        have k4 := C.replaceFail _ _ _ _ hrun rest (.notFound (depOf env x)) hok1 (by simpa using k3)
        simpa using k4
  | @bad run t rest o ds note h1 h2 h3 _ ih =>
    intro hok d0
    have hok := hok.resolve_right (by simp)
    obtain ⟨mid, g, rfl, hw⟩ := begins_walk h1
    have hg : ¬ Gap t := by
      intro hg
      exact h2 (walk_begins (hw.append (.gap hg .nil)))
    -- the manipulator puts a comment in front
    have hrun : ∃ h, HiRun env ⟨false, d0⟩ (.kwImport :: mid ++ [t])
        (.comment (badComment env h t) :: (.kwImport :: mid ++ [t])) ⟨false, d0⟩ := by
      cases hm : move t g with
      | go g' => exact absurd (walk_begins (hw.append (.go hg hm .nil))) h2
      | bad h => exact ⟨h, run_bad env d0 hw hg hm⟩
      | done s =>
        have := move_done hm
        subst this
        exact run_unsupported env d0 hw hm (h3 s (walk_complete hw hm))
    obtain ⟨h, hrun⟩ := hrun
    have hok1 : ok ((Tok.kwImport :: mid ++ [t]) ++ rest) := by simpa using hok
    have hok0 : ok (.comment (badComment env h t) :: .kwImport :: (mid ++ t :: rest)) :=
      hc.comment _ _ (by simpa using hok) (by simp)
    have hok2 : ok (Tok.kwImport :: (mid ++ t :: rest)) := by simpa using hok
    have hok3 : ok (mid ++ t :: rest) := hc.tail _ _ hok2 (by simp)
    have hok4 : ok (t :: rest) := ok_drop hc mid _ (by simp) hok3
    have hh : hiHandle ⟨true, d0⟩ .kwImport = .ok (⟨false, d0⟩, .pass) := by simp [hiHandle]
    have hcm : hiHandle ⟨false, d0⟩ (.comment (badComment env h t)) = .ok (⟨true, d0⟩, .pass) := by
      have : isSkipMark (.comment (badComment env h t)) = true := by
        simp only [isSkipMark, badComment, List.isPrefixOf_iff_prefix]
        have e : txt "PREPROCESSOR: ignore-import " = txt "PREPROCESSOR: ignore-import" ++ [32] := by decide
        rw [e, List.append_assoc]
        exact List.prefix_append _ _
      simp [hiHandle, this]
    rcases ih (.inl hok4) d0 with ⟨out, b', hr, hs⟩ | ⟨x, hx, hxd, hf⟩
    · refine .inl ⟨_, b', .bad (note := h ++ txt "; final token: " ++ env.typeName t) h1 h2 h3 hr, ?_⟩
      have k2 := carry_keep C hc _ _ _ _ (by simp) mid (fun t ht => handle_inner _ (hw.mem t ht)) hok3 hs
      have k3 := C.keep _ _ _ hh _ _ _ hok2 k2
      have k3' := C.keep _ _ _ hcm _ _ _ hok0 k3
      have k4 := C.replace _ _ _ _ hrun rest (.comment (badComment env h t) :: .kwImport :: (mid ++ out))
        ⟨b', d0 ++ ds⟩ hok1 (by simpa using k3')
      simpa [badComment] using k4
    · refine .inr ⟨x, hx, hxd, ?_⟩
      have k2 := carry_keepFail C hc _ _ _ (by simp) mid (fun t ht => handle_inner _ (hw.mem t ht)) hok3 hf
      have k3 := C.keepFail _ _ _ hh _ _ hok2 k2
      have k3' := C.keepFail _ _ _ hcm _ _ hok0 k3
      have k4 := C.replaceFail _ _ _ _ hrun rest (.notFound (depOf env x)) hok1 (by simpa using k3')
      simpa using k4

end

/-! ## Every list of tokens which ends with the end of file is covered -/

theorem EofEnd.tail {t : Tok} {ts : List Tok} (h : EofEnd (t :: ts)) (hne : ts ≠ []) : EofEnd ts := by
  obtain ⟨body, h1, h2⟩ := h
  cases body with
  | nil => simp at h2; exact absurd h2.2 hne
  | cons x body =>
    simp at h2
    exact ⟨body, fun hm => h1 (by simp [hm]), h2.2⟩

theorem EofEnd.drop : ∀ (a : List Tok) {b : List Tok}, EofEnd (a ++ b) → b ≠ [] → EofEnd b := by
  intro a
  induction a with
  | nil => intro b h _; exact h
  | cons t a ih => intro b h hb; exact ih (h.tail (by simp [hb])) hb

theorem hashed_total (dep : Text → Text) : ∀ (n : Nat) (b : Bool) (ts : List Tok), ts.length ≤ n → EofEnd ts ∨ ts = [] →
    ∃ o ds, Hashed some dep b ts o ds := by
  intro n
  induction n with
  | zero =>
    intro b ts hl _
    have : ts = [] := List.length_eq_zero_iff.1 (by omega)
    subst this
    exact ⟨[], [], .nil⟩
  | succ n ih =>
    intro b ts hl he
    cases ts with
    | nil => exact ⟨[], [], .nil⟩
    | cons t ts =>
      have he := he.resolve_right (by simp)
      have he' : EofEnd ts ∨ ts = [] := by
        by_cases hn : ts = []
        · exact .inr hn
        · exact .inl (he.tail hn)
      simp only [List.length_cons] at hl
      by_cases ht : t = .kwImport
      · subst ht
        cases b with
        | true =>
          obtain ⟨o, ds, h⟩ := ih false ts (by omega) he'
          exact ⟨_, _, .ignored h⟩
        | false =>
          obtain ⟨body, hb1, hb2⟩ := he
          cases body with
          | nil => simp at hb2
          | cons x body =>
            simp at hb2
            obtain ⟨rfl, rfl⟩ := hb2
            obtain ⟨mid, t, rest, g, h1, hw, hg, h2⟩ := walk_ends body .l42
            rw [h1]
            have hlen := congrArg List.length h1
            simp at hlen hl
            have herest : EofEnd (t :: rest) := by
              refine EofEnd.drop (.kwImport :: mid) (b := t :: rest) ?_ (by simp)
              rw [List.cons_append, ← h1]
              exact ⟨_, hb1, rfl⟩
            have herest' : EofEnd rest ∨ rest = [] := by
              by_cases hn : rest = []
              · exact .inr hn
              · exact .inl (herest.tail hn)
            by_cases hok : ∃ s, move t g = .done s ∧ Supported s
            · obtain ⟨s, hm, hs⟩ := hok
              have := move_done hm
              subst this
              obtain ⟨o, ds, h⟩ := ih false rest (by omega) herest'
              exact ⟨_, _, .hash (run := .kwImport :: mid) (walk_complete hw hm) hs rfl h⟩
            · obtain ⟨o, ds, h⟩ := ih false (t :: rest) (by simp; omega) (.inl herest)
              refine ⟨_, _, .bad (run := .kwImport :: mid) (note := []) (walk_begins hw) ?_ ?_ h⟩
              · apply not_begins hw hg
                intro g' hm
                rcases h2 with ⟨s, h2⟩ | ⟨h, h2⟩ <;> rw [h2] at hm <;> cases hm
              · intro s hc hs
                have := complete_last hc
                subst this
                obtain ⟨mid', g', he, hw', hm'⟩ := complete_walk hc
                simp only [List.cons.injEq, true_and] at he
                subst he
                have := hw.unique hw'
                subst this
                exact hok ⟨s, hm', hs⟩
      · cases b with
        | true =>
          obtain ⟨o, ds, h⟩ := ih true ts (by omega) he'
          exact ⟨_, _, .keep ht (.inl rfl) h⟩
        | false =>
          by_cases hi : IgnoreMark t
          · obtain ⟨o, ds, h⟩ := ih true ts (by omega) he'
            exact ⟨_, _, .mark hi h⟩
          · obtain ⟨o, ds, h⟩ := ih false ts (by omega) he'
            exact ⟨_, _, .keep ht (.inr hi) h⟩

end Verif.Js
