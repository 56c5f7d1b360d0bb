import Verif.CssReads
import Verif.CssPageThm
import Verif.CssMain
import Verif.NestFuel
import Verif.CssScan
/-!
# What becomes of a stylesheet without icons and images

Import commands are replaced by rules, and URLs of files of the website get the hash of what they refer to.
-/
namespace Verif.Css.Page
open Verif.Reader (Text txt)
open Verif.Css (Tok tokenize serializeMany)
open Verif.Build
open Verif.Handlers (Bytes Fs Built hashBuild)
open Verif.Icons (add addAll mem_addAll)
open Verif.Css.Urls (UrlAt Local Inside Versioned urlHere flagAfter withValue)

/-! ## Proofs -/

/-- One token after the other. -/
inductive Vers (env : Urls.Env) (fs : Fs) : Bool → List Tok → List Tok → Prop
  | nil {b} : Vers env fs b [] []
  | keep {b t ts out} : (∀ v, urlHere b t = some v → Urls.hashOf env v = none) → Vers env fs (flagAfter env b t) ts out → Vers env fs b (t :: ts) (t :: out)
  | hash {b t v h y ts out} : urlHere b t = some v → Urls.hashOf env v = some h → txt "out/www/" <+: h → fs h = some y → Vers env fs b ts out →
      Vers env fs b (t :: ts) (withValue t (v ++ txt "?" ++ env.query y) :: out)

/-- No file outside of the website. -/
theorem hashOf_rooted {env : Urls.Env} {v h : Text} (hh : Urls.hashOf env v = some h) (hp : txt "out/www/" <+: h) : ¬ txt "//" <+: v := by
  rintro ⟨x, rfl⟩
  have e2 : txt "//" = [47, 47] := by decide
  rw [e2] at hh
  simp only [List.cons_append, List.nil_append, Urls.hashOf] at hh
  split at hh
  · cases hh
  · split at hh
    · cases hh
    · split at hh
      · cases hh
      · cases hh
        obtain ⟨y, hy⟩ := hp
        have a2 : txt "out/www/" = 111 :: txt "ut/www/" := by decide
        rw [a2] at hy
        simp [Paths.join, Paths.isAbs] at hy

theorem hashOf_none {env : Urls.Env} (hs : txt "src/public/" <+: env.self) {v path : Text} (hh : Urls.hashOf env v = none) : ¬ Local env.self v path := by
  by_cases hr : txt "//" <+: v
  · obtain ⟨x, rfl⟩ := hr
    rintro ⟨h1, h2, h3⟩
    have e2 : txt "//" = [47, 47] := by decide
    rw [e2] at hh h2
    simp only [List.cons_append, List.nil_append, Urls.hashOf, ne_eq, not_true, if_false] at hh h2
    rw [if_neg h2] at hh
    split at hh
    · next he =>
      rw [← he] at hs
      obtain ⟨y, hy⟩ := hs
      have a2 : txt "src/public/" = 115 :: txt "rc/public/" := by decide
      rw [a2] at hy
      simp [Paths.join, Paths.isAbs] at hy
    · cases hh
  · intro hl
    rw [(Urls.hashOf_spec env hr _).2 ⟨path, hl, rfl⟩] at hh
    cases hh

theorem vers_versioned {env : Urls.Env} (hs : txt "src/public/" <+: env.self) {fs : Fs} {b : Bool} {ts out : List Tok} (h : Vers env fs b ts out) :
    ∀ pre, (b = true ↔ Inside env.lower pre pre.length) → out.length = ts.length ∧ ∀ k t, ts[k]? = some t →
    (∀ v path, UrlAt env.lower (pre ++ ts) (pre.length + k) v → Local env.self v path →
      ∃ y, fs (Urls.hashFile path) = some y ∧ out[k]? = some (withValue t (v ++ txt "?" ++ env.query y))) ∧
    ((∀ v path, UrlAt env.lower (pre ++ ts) (pre.length + k) v → ¬ Local env.self v path) → out[k]? = some t) := by
  have hu : ∀ {b : Bool} {pre : List Tok}, (b = true ↔ Inside env.lower pre pre.length) → ∀ t ts v, UrlAt env.lower (pre ++ t :: ts) pre.length v ↔ urlHere b t = some v := by
    intro b pre hb t ts v
    rw [Urls.urlAt_here, Urls.urlHere_iff, hb]
  have hshift : ∀ (pre : List Tok) (t : Tok) (ts : List Tok) (k : Nat) (v : Text), UrlAt env.lower (pre ++ t :: ts) (pre.length + (k + 1)) v ↔
      UrlAt env.lower ((pre ++ [t]) ++ ts) ((pre ++ [t]).length + k) v := by
    intro pre t ts k v
    rw [List.append_assoc, List.length_append, List.length_singleton, Nat.add_assoc, Nat.add_comm 1 k]
    rfl
  induction h with
  | nil => intro pre _; simp
  | @keep b t ts out h1 _ ih =>
    intro pre hb
    obtain ⟨e1, e2⟩ := ih (pre ++ [t]) (Urls.flagAfter_inside hb t)
    refine ⟨by simp [e1], fun k t' hk => ?_⟩
    cases k with
    | zero =>
      simp only [List.getElem?_cons_zero, Option.some.injEq] at hk
      subst hk
      refine ⟨fun v path hv hl => ?_, fun _ => rfl⟩
      exact absurd hl (hashOf_none hs (h1 v ((hu hb t ts v).1 hv)))
    | succ k =>
      simp only [List.getElem?_cons_succ] at hk ⊢
      obtain ⟨q1, q2⟩ := e2 k t' hk
      exact ⟨fun v path hv hl => q1 v path ((hshift pre t ts k v).1 hv) hl, fun hn => q2 fun v path hv => hn v path ((hshift pre t ts k v).2 hv)⟩
  | @hash b t v h y ts out h1 h2 h3 h4 _ ih =>
    intro pre hb
    have hb' : b = true ↔ Inside env.lower (pre ++ [t]) (pre ++ [t]).length := by
      rw [← Urls.flagAfter_inside hb t, Urls.flagAfter_url h1]
    obtain ⟨e1, e2⟩ := ih (pre ++ [t]) hb'
    obtain ⟨path0, hl0, rfl⟩ := (Urls.hashOf_spec env (hashOf_rooted h2 h3) h).1 h2
    refine ⟨by simp [e1], fun k t' hk => ?_⟩
    cases k with
    | zero =>
      simp only [List.getElem?_cons_zero, Option.some.injEq] at hk
      subst hk
      refine ⟨fun v' path hv hl => ?_, fun hn => absurd hl0 (hn v path0 ((hu hb t ts v).2 h1))⟩
      have := (hu hb t ts v').1 hv
      rw [h1] at this
      cases this
      rw [Urls.local_unique hl hl0]
      exact ⟨y, h4, rfl⟩
    | succ k =>
      simp only [List.getElem?_cons_succ] at hk ⊢
      obtain ⟨q1, q2⟩ := e2 k t' hk
      exact ⟨fun v path hv hl => q1 v path ((hshift pre t ts k v).1 hv) hl, fun hn => q2 fun v path hv => hn v path ((hshift pre t ts k v).2 hv)⟩

/-! ### The steps -/

/-- Files are left alone unless there is an icon or an image. -/
def Calm (s s' : St) : Prop := (Quiet s' → Quiet s ∧ s'.fs = s.fs) ∧ s.urls.children ⊆ s'.urls.children

theorem Calm.refl (s : St) : Calm s s := ⟨fun h => ⟨h, rfl⟩, fun _ h => h⟩
theorem Calm.trans {a b c : St} (h : Calm a b) (h' : Calm b c) : Calm a c :=
  ⟨fun q => ⟨(h.1 (h'.1 q).1).1, (h'.1 q).2.trans (h.1 (h'.1 q).1).2⟩, fun _ x => h'.2 (h.2 x)⟩

theorem imports_start_plain {n : Nat} {env : Env} {s s' : St} {t : Tok} {b : Bool} (h : (imports n env).start s t = .ok (b, s')) :
    Calm s s' ∧ s'.urls = s.urls ∧ Nest.start env.nest s.nest t = .ok (b, s'.nest) ∧
    (b = false → Nest.getImport env.nest t = none ∧ s'.nest = s.nest) ∧ (b = true → ∃ r, Nest.getImport env.nest t = some r) := by
  obtain ⟨a, h1, rfl⟩ := part_start_iff.1 h
  refine ⟨⟨fun q => ⟨⟨q.1, q.2, q.3, q.4, q.5, q.6, q.7⟩, rfl⟩, fun _ h => h⟩, rfl, h1, ?_⟩
  change Nest.start env.nest s.nest t = .ok (b, a) at h1
  unfold Nest.start at h1
  split at h1
  · cases h1; simp_all
  · cases h1; simp_all

theorem imports_cont_plain {n : Nat} {env : Env} {s s' : St} {t : Tok} {o : Option (List Tok)} (h : (imports n env).cont s t = .ok (o, s')) :
    Calm s s' ∧ s'.urls = s.urls ∧ Nest.cont env.nest n s.nest t = .ok (o, s'.nest) ∧ o ≠ none := by
  obtain ⟨a, h1, rfl⟩ := part_cont_iff.1 h
  refine ⟨⟨fun q => ⟨⟨q.1, q.2, q.3, q.4, q.5, q.6, q.7⟩, rfl⟩, fun _ h => h⟩, rfl, h1, ?_⟩
  change Nest.cont env.nest n s.nest t = .ok (o, a) at h1
  unfold Nest.cont at h1
  split at h1
  · cases h1
  · split at h1
    · cases h1
    · split at h1
      · cases h1
      · cases h1; simp

theorem icons_start_plain {env : Env} {s s' : St} {t : Tok} {b : Bool} (h : (icons false env).start s t = .ok (b, s')) : Calm s s' ∧ s'.urls = s.urls ∧ s'.nest = s.nest := by
  obtain ⟨a, h1, rfl⟩ := part_start_iff.1 h
  change Icons.start env.icon { s.icon with fs := s.fs } t = .ok (b, a) at h1
  have : a = { s.icon with fs := s.fs } := by
    unfold Icons.start at h1
    split at h1
    · cases h1
    · cases h1; rfl
    · cases h1; rfl
  subst this
  exact ⟨⟨fun q => ⟨⟨q.1, q.2, q.3, q.4, q.5, q.6, q.7⟩, rfl⟩, fun _ h => h⟩, rfl, rfl⟩

theorem icons_cont_plain {env : Env} {s s' : St} {t : Tok} {o : Option (List Tok)} (h : (icons false env).cont s t = .ok (o, s')) : ¬ Quiet s' ∧ o ≠ none := by
  obtain ⟨a, h1, rfl⟩ := part_cont_iff.1 h
  change Icons.cont env.icon { s.icon with fs := s.fs } t = .ok (o, a) at h1
  unfold Icons.cont at h1
  split at h1
  · cases h1
  · cases h1
  · next i hi =>
    split at h1
    · cases h1
    · next st hp =>
      split at h1
      · cases h1
      · cases h1
        refine ⟨fun q => ?_, by simp⟩
        rcases produceAll_loud hp (.inl (icon_colors hi)) with h2 | h2
        · exact h2 q.iconProduced
        · exact h2 q.iconReused

theorem data_start_plain {env : Env} {s s' : St} {t : Tok} {b : Bool} (h : (data false env).start s t = .ok (b, s')) :
    Calm s s' ∧ s'.urls = s.urls ∧ s'.nest = s.nest ∧ (b = true → t = .function (txt "url") ∧ s'.data.stage = some .url ∧ s'.data.stack = []) := by
  obtain ⟨a, h1, rfl⟩ := part_start_iff.1 h
  change Data.start { s.data with fs := s.fs } t = .ok (b, a) at h1
  unfold Data.start at h1
  split at h1
  · split at h1
    · cases h1
      exact ⟨⟨fun q => ⟨⟨q.1, q.2, q.3, q.4, q.5, q.6, q.7⟩, rfl⟩, fun _ h => h⟩, rfl, rfl, by simp⟩
    · next hv =>
      split at h1
      · cases h1
        exact ⟨⟨fun q => ⟨⟨q.1, q.2, q.3, q.4, q.5, q.6, q.7⟩, rfl⟩, fun _ h => h⟩, rfl, rfl, by simp⟩
      · cases h1
        refine ⟨⟨fun q => ⟨⟨q.1, q.2, q.3, q.4, q.5, q.6, q.7⟩, rfl⟩, fun _ h => h⟩, rfl, rfl, fun _ => ⟨?_, rfl, rfl⟩⟩
        rw [Classical.not_not.1 hv]
  · cases h1
    exact ⟨⟨fun q => ⟨⟨q.1, q.2, q.3, q.4, q.5, q.6, q.7⟩, rfl⟩, fun _ h => h⟩, rfl, rfl, by simp⟩

theorem data_cont_plain {env : Env} {s s' : St} {t : Tok} {o : Option (List Tok)} (h : (data false env).cont s t = .ok (o, s')) :
    Calm s s' ∧ s'.urls = s.urls ∧ s'.nest = s.nest ∧ (s.data.stage = some .url → o = none ∧ s'.data.stage = some .string ∧ s'.data.stack = s.data.stack ++ [t]) ∧
      (s.data.stage = some .string → o ≠ none ∧ (Quiet s' → o = some (s.data.stack ++ [t]))) := by
  obtain ⟨a, h1, rfl⟩ := part_cont_iff.1 h
  change Data.cont false env.data { s.data with fs := s.fs } t = .ok (o, a) at h1
  unfold Data.cont at h1
  dsimp only at h1
  split at h1
  · cases h1
  · next hst =>
    split at h1
    · cases h1
      exact ⟨⟨fun q => ⟨⟨q.1, q.2, q.3, q.4, q.5, q.6, q.7⟩, rfl⟩, fun _ h => h⟩, rfl, rfl, fun _ => ⟨rfl, rfl, rfl⟩, by simp [hst]⟩
    · cases h1
  · next hst =>
    split at h1
    · cases h1
      exact ⟨⟨fun q => ⟨⟨q.1, q.2, q.3, q.4, q.5, q.6, q.7⟩, rfl⟩, fun _ h => h⟩, rfl, rfl, by simp [hst], fun _ => ⟨by simp, fun _ => rfl⟩⟩
    · rw [if_neg (by simp)] at h1
      split at h1
      · cases h1
      · next b2 st2 h2 =>
        cases h1
        have loud : ¬ Quiet { s with fs := a.fs, data := a } := by
          intro q
          have hb := q.byData
          dsimp only at hb
          rw [make_byData h2] at hb
          exact allot_loud _ _ _ _ hb
        exact ⟨⟨fun q => absurd q loud, fun _ h => h⟩, rfl, rfl, by simp [hst], fun _ => ⟨by simp, fun q => absurd q loud⟩⟩

theorem urls_start_plain {env : Env} {s s' : St} {t : Tok} {b : Bool} (h : (urls false env).start s t = .ok (b, s')) :
    Calm s s' ∧ s'.urls.children = s.urls.children ∧ s'.nest = s.nest ∧
    (b = false → (∀ v, urlHere s.urls.inUrl t = some v → Urls.hashOf env.urls v = none) ∧ s'.urls.inUrl = flagAfter env.urls s.urls.inUrl t) ∧
    (b = true → s'.urls.inUrl = s.urls.inUrl ∧ ∃ v p, urlHere s.urls.inUrl t = some v ∧ Urls.hashOf env.urls v = some p) := by
  obtain ⟨a, h1, rfl⟩ := part_start_iff.1 h
  change Urls.start false env.urls { s.urls with fs := s.fs } t = .ok (b, a) at h1
  rw [Urls.start_spec] at h1
  cases hh : (urlHere s.urls.inUrl t).bind (Urls.hashOf env.urls) with
  | none =>
    rw [hh] at h1
    cases h1
    refine ⟨⟨fun q => ⟨⟨q.1, q.2, q.3, q.4, q.5, q.6, q.7⟩, rfl⟩, fun _ h => h⟩, rfl, rfl, fun _ => ⟨fun v hv => by rw [hv] at hh; exact hh, rfl⟩, by simp⟩
  | some p =>
    rw [hh] at h1
    simp only [Bool.false_eq_true, if_false] at h1
    cases h1
    obtain ⟨v, h2, h3⟩ := Option.bind_eq_some_iff.1 hh
    exact ⟨⟨fun q => ⟨⟨q.1, q.2, q.3, q.4, q.5, q.6, q.7⟩, rfl⟩, fun _ h => h⟩, rfl, rfl, by simp, fun _ => ⟨rfl, v, p, h2, h3⟩⟩

theorem urls_cont_plain {env : Env} {s s' : St} {t : Tok} {o : Option (List Tok)} (h : (urls false env).cont s t = .ok (o, s')) :
    Calm s s' ∧ s'.urls.inUrl = s.urls.inUrl ∧ s'.nest = s.nest ∧ ∀ v p, urlHere s.urls.inUrl t = some v → Urls.hashOf env.urls v = some p →
      p ∈ s'.urls.children ∧ ∃ y, s.fs p = some y ∧ o = some [withValue t (v ++ txt "?" ++ env.urls.query y)] := by
  obtain ⟨a, h1, rfl⟩ := part_cont_iff.1 h
  change Urls.cont env.urls { s.urls with fs := s.fs } t = .ok (o, a) at h1
  have hsuf : ∀ {v w}, Urls.suffixed env.urls { s.urls with fs := s.fs } v = .ok (w, a) → a.fs = s.fs ∧ a.inUrl = s.urls.inUrl ∧ s.urls.children ⊆ a.children ∧
      ∀ p, Urls.hashOf env.urls v = some p → p ∈ a.children ∧ ∃ y, s.fs p = some y ∧ w = v ++ txt "?" ++ env.urls.query y := by
    intro v w h
    unfold Urls.suffixed at h
    split at h
    · next hn => cases h; exact ⟨rfl, rfl, fun _ h => h, fun p hp => by rw [hn] at hp; cases hp⟩
    · next p hp =>
      split at h
      · cases h
      · next y hy =>
        cases h
        refine ⟨rfl, rfl, fun x hx => (mem_add_iff _ _ _).2 (.inl hx), fun p' hp' => ?_⟩
        rw [hp] at hp'
        cases hp'
        exact ⟨(mem_add_iff _ _ _).2 (.inr rfl), y, hy, rfl⟩
  unfold Urls.cont at h1
  cases t <;> simp only at h1 <;> try cases h1
  case str v =>
    split at h1
    · cases h1
    · next h2 =>
      cases h1
      obtain ⟨e1, e2, e3, e4⟩ := hsuf h2
      refine ⟨⟨fun q => ⟨⟨q.1, q.2, q.3, q.4, q.5, q.6, q.7⟩, e1⟩, e3⟩, e2, rfl, fun v' p hv hp => ?_⟩
      have : v = v' := by
        rcases (Urls.urlHere_iff _ _ _).1 hv with ⟨h, -⟩ | ⟨h, -⟩
        · cases h; rfl
        · cases h
      subst this
      obtain ⟨q1, y, q2, rfl⟩ := e4 p hp
      exact ⟨q1, y, q2, rfl⟩
  case url v =>
    split at h1
    · cases h1
    · next h2 =>
      cases h1
      obtain ⟨e1, e2, e3, e4⟩ := hsuf h2
      refine ⟨⟨fun q => ⟨⟨q.1, q.2, q.3, q.4, q.5, q.6, q.7⟩, e1⟩, e3⟩, e2, rfl, fun v' p hv hp => ?_⟩
      have : v = v' := by
        rcases (Urls.urlHere_iff _ _ _).1 hv with ⟨h, -⟩ | ⟨h, -⟩
        · cases h
        · cases h; rfl
      subst this
      obtain ⟨q1, y, q2, rfl⟩ := e4 p hp
      exact ⟨q1, y, q2, rfl⟩

/-! ### All of it -/

/-- A token which all decline. -/
theorem declined_plain {n : Nat} {env : Env} {s s' : St} {t : Tok} (h : Declined (buildManips n env) s t s') :
    Calm s s' ∧ s'.nest = s.nest ∧ Nest.getImport env.nest t = none ∧
    (∀ v, urlHere s.urls.inUrl t = some v → Urls.hashOf env.urls v = none) ∧ s'.urls.inUrl = flagAfter env.urls s.urls.inUrl t := by
  obtain ⟨q1, q2⟩ := declined_step h
  unfold buildManips at h
  cases h with
  | cons h0 h =>
    cases h with
    | cons h1 h =>
      cases h with
      | cons h2 h =>
        cases h with
        | cons h3 h =>
          cases h
          obtain ⟨a1, -, -, a2, -⟩ := imports_start_plain h0
          obtain ⟨b1, -, b2⟩ := icons_start_plain h1
          obtain ⟨c1, -, c2, -⟩ := data_start_plain h2
          obtain ⟨d1, -, d2, -⟩ := urls_start_plain h3
          exact ⟨((a1.trans b1).trans c1).trans d1, d2.trans (c2.trans (b2.trans (a2 rfl).2)), (a2 rfl).1, q1, q2⟩

/-- What a run of tokens is replaced by. -/
inductive Step (n : Nat) (env : Env) (s : St) : List Tok → List Tok → St → Prop
  | rule {t r s1 s'} : Nest.start env.nest s.nest t = .ok (true, s1) → Nest.cont env.nest n s1 t = .ok (some r, s'.nest) →
      (∃ ref, Nest.getImport env.nest t = some ref) → s'.urls.inUrl = s.urls.inUrl → Step n env s [t] r s'
  | same {run s'} : s'.nest = s.nest → s'.urls.inUrl = s.urls.inUrl → Step n env s run run s'
  | hash {t v p y s'} : s'.nest = s.nest → s'.urls.inUrl = s.urls.inUrl → Nest.getImport env.nest t = none → urlHere s.urls.inUrl t = some v →
      Urls.hashOf env.urls v = some p → p ∈ s'.urls.children → s.fs p = some y → Step n env s [t] [withValue t (v ++ txt "?" ++ env.urls.query y)] s'

theorem closed_one {m : Manip St Tok Err} {s s' : St} {run r : List Tok} {t : Tok} (hh : run.head? = some t) (h : Closed m s run r s')
    (hc : ∀ o s1, m.cont s t = .ok (o, s1) → o ≠ none) : run = [t] ∧ m.cont s t = .ok (some r, s') := by
  obtain ⟨ts, x, s1, rfl, h1, h2⟩ := h
  cases h1 with
  | nil => simp at hh; subst hh; exact ⟨rfl, h2⟩
  | cons h3 _ => simp at hh; subst hh; exact absurd rfl (hc _ _ h3)

theorem replaced_plain {n : Nat} {env : Env} {s s1 s' : St} {t : Tok} {m : Manip St Tok Err} {run r : List Tok}
    (h : Taken (buildManips n env) s t m s1) (hh : run.head? = some t) (hc : Closed m s1 run r s') : Calm s s' ∧ (Quiet s' → Step n env s run r s') := by
  have hfl : s'.urls.inUrl = s.urls.inUrl := by
    obtain ⟨hm, hf⟩ := taken_flag h
    rw [closed_flag hm hc, hf]
  unfold buildManips at h
  cases h with
  | head h0 =>
    obtain ⟨a1, a2, a3, -, a4⟩ := imports_start_plain h0
    obtain ⟨rfl, hc2⟩ := closed_one hh hc (fun o s2 h => (imports_cont_plain h).2.2.2)
    obtain ⟨b1, b2, b3, -⟩ := imports_cont_plain hc2
    exact ⟨a1.trans b1, fun _ => .rule a3 b3 (a4 rfl) hfl⟩
  | tail h0 h =>
    obtain ⟨a1, a2, -, a3, -⟩ := imports_start_plain h0
    obtain ⟨a3, a4⟩ := a3 rfl
    cases h with
    | head h1 =>
      obtain ⟨b1, b2, b3⟩ := icons_start_plain h1
      obtain ⟨rfl, hc2⟩ := closed_one hh hc (fun o s2 h => (icons_cont_plain h).2)
      obtain ⟨c1, c2⟩ := icons_cont_plain hc2
      obtain ⟨a, -, rfl⟩ := part_cont_iff.1 hc2
      refine ⟨⟨fun q => absurd q c1, ?_⟩, fun q => absurd q c1⟩
      exact (a1.trans b1).2
    | tail h1 h =>
      obtain ⟨b1, b2, b3⟩ := icons_start_plain h1
      cases h with
      | head h2 =>
        obtain ⟨c1, c2, c3, c4⟩ := data_start_plain h2
        obtain ⟨c4, c5, c6⟩ := c4 rfl
        obtain ⟨ts, x, s2, rfl, hopen, hlast⟩ := hc
        cases hopen with
        | nil =>
          obtain ⟨-, -, -, d1, -⟩ := data_cont_plain hlast
          cases (d1 c5).1
        | @cons _ t' s3 ts _ h3 hopen =>
          obtain ⟨d1, d2, d3, d4, -⟩ := data_cont_plain h3
          obtain ⟨-, d5, d6⟩ := d4 c5
          cases hopen with
          | cons h4 _ =>
            obtain ⟨-, -, -, -, e1⟩ := data_cont_plain h4
            exact absurd rfl (e1 d5).1
          | nil =>
            obtain ⟨e1, e2, e3, -, e4⟩ := data_cont_plain hlast
            obtain ⟨-, e4⟩ := e4 d5
            refine ⟨(((a1.trans b1).trans c1).trans d1).trans e1, fun q => ?_⟩
            have := e4 q
            rw [d6, c6] at this
            cases this
            exact .same (by rw [e3, d3, c3, b3, a4]) hfl
      | tail h2 h =>
        obtain ⟨c1, c2, c3, c4⟩ := data_start_plain h2
        cases h with
        | head h3 =>
          obtain ⟨d1, d2, d3, -, d4⟩ := urls_start_plain h3
          obtain ⟨d4, v, p, d5, d6⟩ := d4 rfl
          obtain ⟨rfl, hc2⟩ := closed_one hh hc (fun o s4 h => by
            obtain ⟨-, -, -, e⟩ := urls_cont_plain h
            obtain ⟨-, y, -, e⟩ := e v p (by rw [d4]; exact d5) d6
            rw [e]; simp)
          obtain ⟨e1, e2, e3, e4⟩ := urls_cont_plain hc2
          obtain ⟨e7, y, e5, e6⟩ := e4 v p (by rw [d4]; exact d5) d6
          cases e6
          have hcalm := (((a1.trans b1).trans c1).trans d1).trans e1
          refine ⟨hcalm, fun q => .hash (by rw [e3, d3, c3, b3, a4]) hfl a3 (by rw [c2, b2, a2] at d5; exact d5) d6 e7 ?_⟩
          rw [← e5]
          have q1 := (e1.1 q).1
          rw [← ((((a1.trans b1).trans c1).trans d1).1 q1).2]
        | tail _ h => cases h

/-- A run which is never finished ends with the opening of a function. -/
theorem unfinished_plain {n : Nat} {env : Env} {s s1 s' : St} {t : Tok} {m : Manip St Tok Err} {run : List Tok}
    (h : Taken (buildManips n env) s t m s1) (hh : run.head? = some t) (hc : Open m s1 run s') : Calm s s' ∧ run = [.function (txt "url")] := by
  unfold buildManips at h
  cases hc with
  | nil => simp at hh
  | @cons _ t' s2 ts _ hc hrest =>
    simp at hh
    subst hh
    cases h with
    | head h0 => exact absurd rfl (imports_cont_plain hc).2.2.2
    | tail h0 h =>
      obtain ⟨a1, a2, -, a3, -⟩ := imports_start_plain h0
      cases h with
      | head h1 => exact absurd rfl (icons_cont_plain hc).2
      | tail h1 h =>
        obtain ⟨b1, b2, b3⟩ := icons_start_plain h1
        cases h with
        | head h2 =>
          obtain ⟨c1, c2, c3, c4⟩ := data_start_plain h2
          obtain ⟨c4, c5, c6⟩ := c4 rfl
          obtain ⟨d0, -, -, d1, -⟩ := data_cont_plain hc
          obtain ⟨-, d2, -⟩ := d1 c5
          cases hrest with
          | nil => exact ⟨((a1.trans b1).trans c1).trans d0, by rw [c4]⟩
          | cons h4 _ =>
            obtain ⟨-, -, -, -, e1⟩ := data_cont_plain h4
            exact absurd rfl (e1 d2).1
        | tail h2 h =>
          obtain ⟨c1, c2, c3, c4⟩ := data_start_plain h2
          cases h with
          | head h3 =>
            obtain ⟨d1, d2, d3, -, d4⟩ := urls_start_plain h3
            obtain ⟨d4, v, p, d5, d6⟩ := d4 rfl
            obtain ⟨-, -, -, e⟩ := urls_cont_plain hc
            obtain ⟨-, y, -, e⟩ := e v p (by rw [d4]; exact d5) d6
            cases e
          | tail _ h => cases h

theorem stream_calm {n : Nat} {env : Env} {s s' : St} {ts out : List Tok} {m : Option (Manip St Tok Err)}
    (h : Stream (buildManips n env) s ts out m s') : Calm s s' := by
  induction h with
  | nil => exact .refl _
  | keep h1 _ ih => exact (declined_plain h1).1.trans ih
  | replace h1 h2 h3 _ ih => exact (replaced_plain h1 h2 h3).1.trans ih
  | unfinished h1 h2 h3 => exact (unfinished_plain h1 h2 h3).1

/-- An import command is not kept. -/
theorem nest_head {n : Nat} {env : Nest.Env} {st st' : Nest.St} {t : Tok} {ts mid : List Tok} {m : Option (Manip Nest.St Tok Nest.Err)}
    (ht : Nest.getImport env t = none) (h : Stream [Nest.nest env n] st (t :: ts) mid m st') :
    ∃ mid', mid = t :: mid' ∧ Stream [Nest.nest env n] st ts mid' m st' := by
  have no : ∀ {m s1}, ¬ Taken [Nest.nest env n] st t m s1 := by
    intro m s1 hm
    cases hm with
    | head h => simp [Nest.nest, Nest.start, ht] at h
    | tail _ h => cases h
  generalize hx : t :: ts = x at h
  cases h with
  | nil => cases hx
  | keep h1 h2 =>
    cases hx
    cases h1 with
    | cons h3 h4 =>
      cases h4
      simp only [Nest.nest, Nest.start, ht, Except.ok.injEq, Prod.mk.injEq, true_and] at h3
      subst h3
      exact ⟨_, rfl, h2⟩
  | @replace _ t' _ _ run _ _ _ _ _ _ h1 h2 _ _ =>
    cases run with
    | nil => simp at h2
    | cons a run => simp at h2; subst h2; cases hx; exact absurd h1 no
  | unfinished h1 h2 _ =>
    subst hx; simp at h2; subst h2; exact absurd h1 no

theorem withValue_url {env : Urls.Env} {nest : Nest.Env} {b : Bool} {t : Tok} {v w : Text} (h : urlHere b t = some v) :
    urlHere b (withValue t w) = some w ∧ Nest.getImport nest (withValue t w) = none ∧ withValue t w ≠ .eof ∧ t ≠ .eof := by
  rcases (Urls.urlHere_iff _ _ _).1 h with ⟨rfl, hb⟩ | ⟨rfl, hb⟩
  · exact ⟨(Urls.urlHere_iff _ _ _).2 (.inl ⟨rfl, hb⟩), rfl, by simp [withValue], by simp⟩
  · exact ⟨(Urls.urlHere_iff _ _ _).2 (.inr ⟨rfl, hb⟩), rfl, by simp [withValue], by simp⟩

/-- In two steps: first the rules, then the hashes. -/
theorem stream_plain {n : Nat} {env : Env} {s s' : St} {ts out : List Tok} {m : Option (Manip St Tok Err)}
    (h : Stream (buildManips n env) s ts out m s') (hq : Quiet s') (hp : ∀ p ∈ s'.urls.children, txt "out/www/" <+: p)
    (he : ts = [] ∨ ts.getLast? = some .eof) :
    ∃ mid, Stream [Nest.nest env.nest n] s.nest ts mid none s'.nest ∧ Vers env.urls s.fs s.urls.inUrl mid out := by
  induction h with
  | nil => exact ⟨[], .nil, .nil⟩
  | @keep s t s1 ts out m s2 h1 h2 ih =>
    obtain ⟨a1, a2, a3, a4, a5⟩ := declined_plain h1
    obtain ⟨mid, b1, b2⟩ := ih hq hp (by
      cases ts with
      | nil => exact .inl rfl
      | cons a b => right; simpa using he)
    rw [a2] at b1
    rw [(a1.1 ((stream_calm h2).1 hq).1).2, a5] at b2
    exact ⟨t :: mid, .keep (.cons (by simp [Nest.nest, Nest.start, a3]) .nil) b1, .keep a4 b2⟩
  | @replace s t m s1 run r s2 rest out m' s3 h1 h2 h3 h4 ih =>
    obtain ⟨a1, a2⟩ := replaced_plain h1 h2 h3
    have c := stream_calm h4
    obtain ⟨q1, q2⟩ := a1.1 (c.1 hq).1
    cases a2 (c.1 hq).1 with
    | @rule t' _ st1 _ e1 e2 e3 e4 =>
      simp at h2
      subst h2
      obtain ⟨ref, e3⟩ := e3
      obtain ⟨mid, b1, b2⟩ := ih hq hp (by
        cases rest with
        | nil =>
          exfalso
          simp at he
          subst he
          cases e3
        | cons a b => right; simpa [List.getLast?_append] using he)
      rw [q2, e4] at b2
      exact ⟨mid, .replace (.head e1) rfl ⟨[], t', st1, rfl, .nil, e2⟩ b1, b2⟩
    | same e1 e2 =>
      obtain ⟨mid, b1, b2⟩ := ih hq hp he
      rw [q2, e2] at b2
      rw [e1] at b1
      exact ⟨mid, b1, b2⟩
    | @hash t' v p y _ e1 e2 e3 e4 e5 e6 e7 =>
      simp at h2
      subst h2
      obtain ⟨w1, w2, w3, w4⟩ := withValue_url (env := env.urls) (nest := env.nest) (w := v ++ txt "?" ++ env.urls.query y) e4
      obtain ⟨mid, b1, b2⟩ := ih hq hp (by
        cases rest with
        | nil => simp at he; exact absurd he w4
        | cons a b => right; simpa [List.getLast?_append] using he)
      rw [q2, e2] at b2
      rw [e1] at b1
      obtain ⟨mid', rfl, b3⟩ := nest_head w2 b1
      refine ⟨t' :: mid', .keep (.cons (by simp [Nest.nest, Nest.start, e3]) .nil) b3, ?_⟩
      cases b2 with
      | keep f1 f2 =>
        rw [Urls.flagAfter_url w1] at f2
        exact .hash e4 e5 (hp p (c.2 e6)) e7 f2
      | hash f1 f2 =>
        rw [w1] at f1
        cases f1
        rw [Urls.hashOf_query] at f2
        cases f2
  | unfinished h1 h2 h3 =>
    rw [(unfinished_plain h1 h2 h3).2] at he
    simp at he

theorem last_eof {U : Uni} {text : Text} {ts : List Tok} (h : tokenize U text = .ok ts) : ts.getLast? = some .eof := by
  rcases C30_partial U text with ⟨e, h1, -⟩ | ⟨ts', h1, -⟩
  · rw [h] at h1; cases h1
  · rw [h] at h1; cases h1; simp

/-- The run over a stylesheet without icons and images: the import commands are replaced by rules, and then URLs of files of the
website get hashes. -/
theorem run_plain {fuel n : Nat} {env : Env} (hs : txt "src/public/" <+: env.urls.self) {fs : Fs} {text : Text} {ts out : List Tok} {b : State St Tok Err}
    (ht : tokenize env.nest.uni text = .ok ts)
    (h : runOps (buildManips n env) fuel (State.new (St.new fs)) [] (perToken ts) = some (.ok (out, b))) (hp : Flat b.st) :
    ∃ mid, Nest.Result env.nest ts (.ok mid) ∧ Versioned env.urls fs mid out := by
  have hst := C32 _ _ _ _ _ _ h
  rw [runOps_perToken rfl h, List.append_nil] at hst
  have htk : tokensOf (perToken ts) = ts := tokensOf_perToken ts
  rw [htk] at hst
  obtain ⟨mid, h1, h2⟩ := stream_plain hst hp.quiet hp.hashes (.inr (last_eof ht))
  obtain ⟨f, hf⟩ := loop_complete h1 (State.new _) rfl rfl
  refine ⟨mid, Nest.Result.of_run n f ts _ (by
    have hf : loop [Nest.nest env.nest n] f ⟨[], none, Nest.St.new⟩ ts = _ := hf
    rw [hf]; rfl) (by simp), ?_⟩
  have := vers_versioned hs h2 [] (by simpa [St.new] using Urls.not_inside_nil env.urls.lower)
  simpa [Versioned, St.new] using this

/-- What the build of such a stylesheet leaves if its hash is not there.  It is the same with more files. -/
theorem build_plain {fuel n : Nat} {env : Env} {name : Text} {fs fs1 : Fs} {r : Built}
    (hh : fs (txt "out/www/" ++ name ++ txt ".hash") = none) (h : buildFile fuel n env (txt "src/public/" ++ name) fs = some (.ok (r, fs1)))
    (hp : plainFile fuel n env (txt "src/public/" ++ name) fs = true) (tokens : Bytes → List Tok) (hf : env.nest.files = fun p => (fs p).map tokens)
    (hs : env.nest.self = txt "src/public/" ++ name) (hu : env.urls.self = txt "src/public/" ++ name) :
    ∃ b ts out, fs (txt "src/public/" ++ name) = some b ∧ tokenize env.nest.uni (env.decode b) = .ok ts ∧
      txt "out/www/" ++ name ∈ r.produced ∧ txt "out/www/" ++ name ++ txt ".hash" ∈ r.produced ∧
      fs1 (txt "out/www/" ++ name) = some (env.encode (serializeMany env.nest.uni out)) ∧
      fs1 (txt "out/www/" ++ name ++ txt ".hash") = some (env.data.digest (env.encode (serializeMany env.nest.uni out))) ∧
      ∀ fs', (∀ p y, fs p = some y → fs' p = some y) →
        ∃ mid, Nest.Result (env.nest.with fun p => (fs' p).map tokens) ts (.ok mid) ∧ Versioned env.urls fs' mid out := by
  obtain ⟨b, ts, out, s, h1, h2, h3, h4, rfl, rfl⟩ := (build_bare hh).1 ⟨h, hp⟩
  obtain ⟨m1, m2, m3⟩ := mem_report (name := name) h4.quiet
  obtain ⟨e1, e2, e3, e4⟩ := run_reads h3 h4.quiet
  refine ⟨b, ts, out, h1, h2, (m2 _).2 (.inl rfl), (m2 _).2 (.inr rfl), ?_, ?_, fun fs' hle => ?_⟩
  · simp only [leave, Handlers.Fs.write, if_neg (fun e => Js.File.hash_ne name (Eq.symm e)), if_true]
  · simp only [leave, Handlers.Fs.write, if_true]
  · obtain ⟨s', q1, q2⟩ := e4 fs' (fun p => (fs' p).map tokens) (by rw [hf, hs]; dsimp only; rw [h1, hle _ _ h1])
      (fun p hp => by
        obtain ⟨y, hy⟩ := Option.ne_none_iff_exists'.1 (e2 p hp)
        rw [hy, hle _ _ hy])
      (fun c hc => by
        have := e3 c hc
        rw [hf] at this ⊢
        dsimp only at this ⊢
        cases hy : fs (Nest.source env.nest c) with
        | none => simp [hy] at this
        | some y => rw [hle _ _ hy])
    have hP : Flat s'.st := by
      rw [q1]
      obtain ⟨⟨a1, a2, a3, a4, a5, a6, a7⟩, b2, b3⟩ := h4
      exact ⟨⟨a1, a2, a3, a4, a5, a6, a7⟩, b2, b3⟩
    exact run_plain (env := env.with fun p => (fs' p).map tokens) (by rw [show (env.with fun p => (fs' p).map tokens).urls.self = env.urls.self from rfl, hu]; exact ⟨name, rfl⟩) h2 q2 hP

end Verif.Css.Page
