import Verif.BuildFollow
import Verif.NestLocal
import Verif.CssPage
/-!
# What the build of a stylesheet depends on

The build of a stylesheet without icons and images reads the stylesheet, those it imports rules from, and the hashes of the files
it refers to, and nothing else: with other files which agree on these it gives the same.
-/
namespace Verif.Css.Page
open Verif.Reader (Text txt)
open Verif.Css (Tok)
open Verif.Build
open Verif.Handlers (Bytes Fs)
open Verif.Icons (add addAll)

/-- No icons and no images so far. -/
structure Quiet (s : St) : Prop where
  iconChildren : s.icon.children = []
  iconProduced : s.icon.produced = []
  iconReused : s.icon.reused = []
  byData : s.data.byData = []
  dataChildren : s.data.children = []
  dataProduced : s.data.produced = []
  dataReused : s.data.reused = []

instance (s : St) : Decidable (Quiet s) :=
  decidable_of_iff (s.icon.children = [] ∧ s.icon.produced = [] ∧ s.icon.reused = [] ∧ s.data.byData = [] ∧ s.data.children = [] ∧
    s.data.produced = [] ∧ s.data.reused = []) ⟨fun ⟨a, b, c, d, e, f, g⟩ => ⟨a, b, c, d, e, f, g⟩, fun ⟨a, b, c, d, e, f, g⟩ => ⟨a, b, c, d, e, f, g⟩⟩

/-- The environment with other stylesheets to import from. -/
def Env.with (env : Env) (files : Text → Option (List Tok)) : Env := { env with nest := env.nest.with files }

/-- The state with another file system. -/
def St.onto (fs : Fs) (s : St) : St :=
  { s with fs := fs, icon := { s.icon with fs := fs }, data := { s.data with fs := fs }, urls := { s.urls with fs := fs } }

/-- From `env` to other files `fs` and other stylesheets `files`. -/
def follow (env : Env) (fs : Fs) (files : Text → Option (List Tok)) : Follow St where
  I s := (Quiet s → ∀ h ∈ s.urls.children, s.fs h ≠ none) ∧ Nest.Opened env.nest s.nest
  ext s s' := (Quiet s' → Quiet s ∧ s'.fs = s.fs) ∧ s.nest.children ⊆ s'.nest.children ∧ s.urls.children ⊆ s'.urls.children
  Good s := Quiet s ∧ (∀ c ∈ s.nest.children, files (Nest.source env.nest c) = env.nest.files (Nest.source env.nest c)) ∧ ∀ h ∈ s.urls.children, fs h = s.fs h
  move := St.onto fs

theorem follow_laws (env : Env) (fs : Fs) (files : Text → Option (List Tok)) : (follow env fs files).Laws where
  refl s := ⟨fun h => ⟨h, rfl⟩, fun _ h => h, fun _ h => h⟩
  trans := fun ⟨a1, a2, a3⟩ ⟨b1, b2, b3⟩ => ⟨fun h => ⟨(a1 (b1 h).1).1, (b1 h).2.trans (a1 (b1 h).1).2⟩, fun _ h => b2 (a2 h), fun _ h => b3 (a3 h)⟩
  down := fun ⟨a1, a2, a3⟩ ⟨g1, g2, g3⟩ => ⟨(a1 g1).1, fun c hc => g2 c (a2 hc), fun h hh => by rw [g3 h (a3 hh), (a1 g1).2]⟩

variable {env : Env} {fs : Fs} {files : Text → Option (List Tok)}

theorem part_start_iff {A E : Type} {look : St → A} {store : St → A → St} {err : E → Err} {m : Manip A Tok E} {s s' : St} {t : Tok} {b : Bool} :
    (part look store err m).start s t = .ok (b, s') ↔ ∃ a, m.start (look s) t = .ok (b, a) ∧ store s a = s' := by
  unfold part
  dsimp only
  split
  · next h => simp [h]
  · next h => simp [h]

theorem part_cont_iff {A E : Type} {look : St → A} {store : St → A → St} {err : E → Err} {m : Manip A Tok E} {s s' : St} {t : Tok} {b : Option (List Tok)} :
    (part look store err m).cont s t = .ok (b, s') ↔ ∃ a, m.cont (look s) t = .ok (b, a) ∧ store s a = s' := by
  unfold part
  dsimp only
  split
  · next h => simp [h]
  · next h => simp [h]

/-! ## Icons -/

theorem add_ne_nil (s : List Text) (x : Text) : add s x ≠ [] := by
  unfold add
  split
  · next h => intro e; rw [e] at h; cases h
  · simp

theorem addAll_ne_nil {s : List Text} (h : s ≠ []) (xs : List Text) : addAll s xs ≠ [] := by
  induction xs generalizing s with
  | nil => exact h
  | cons x xs ih => exact ih (add_ne_nil s x)

theorem produce_loud {e : Icons.Env} {i : Icons.Icon} {st st' : Icons.St} {c : Text} (h : Icons.produce e i st c = .ok st') :
    st'.produced ≠ [] ∨ st'.reused ≠ [] := by
  unfold Icons.produce at h
  dsimp only at h
  split at h
  · cases h; exact .inr (add_ne_nil _ _)
  · split at h
    · cases h
    · split at h
      · split at h
        · cases h
        · cases h; exact .inl (addAll_ne_nil (add_ne_nil _ _) _)
      · cases h

theorem produceAll_loud {e : Icons.Env} {i : Icons.Icon} {cs : List Text} : ∀ {st st' : Icons.St}, Icons.produceAll e i st cs = .ok st' →
    (cs ≠ [] ∨ st.produced ≠ [] ∨ st.reused ≠ []) → st'.produced ≠ [] ∨ st'.reused ≠ [] := by
  induction cs with
  | nil => intro st st' h hc; simp only [Icons.produceAll, Except.ok.injEq] at h; subst h; simpa using hc
  | cons c cs ih =>
    intro st st' h _
    unfold Icons.produceAll at h
    split at h
    · cases h
    · next st1 h1 => exact ih h (.inr (produce_loud h1))

theorem realize_colors {e : Icons.Env} {c : Icons.Command} {i : Icons.Icon} (h : Icons.realize e c = .ok (some i)) : i.colors ≠ [] := by
  have key : ∀ {colors sizes : List Text} {bs : Option Icons.Buttons}, (if colors = [] ∨ sizes = [] then .ok none
      else match bs with
      | none => .ok (some ⟨c.name, c.initial, colors, sizes, none⟩)
      | some bs =>
        match Icons.realButtons e bs with
        | .error e => .error e
        | .ok b => .ok (some ⟨c.name, c.initial, colors, sizes, some b⟩)) = (.ok (some i) : Except Icons.MErr (Option Icons.Icon)) → i.colors ≠ [] := by
    intro colors sizes bs h
    split at h
    · cases h
    · next hne =>
      rw [not_or] at hne
      split at h
      · cases h; exact hne.1
      · split at h
        · cases h
        · cases h; exact hne.1
  unfold Icons.realize at h
  split at h
  · exact key h
  · cases h

theorem icon_colors {e : Icons.Env} {t : Tok} {i : Icons.Icon} (h : Icons.getIcon e t = .ok (some i)) : i.colors ≠ [] := by
  unfold Icons.getIcon at h
  split at h
  · split at h
    · cases h
    · split at h
      · cases h
      · cases h
      · exact realize_colors h
  · cases h

theorem icons_steps : Steps (follow env fs files) (icons false env) (icons false (env.with files)) where
  start := by
    intro s t b s' hI h
    obtain ⟨a, h1, e⟩ := part_start_iff.1 h
    clear h
    rename' h1 => h
    change Icons.start env.icon { s.icon with fs := s.fs } t = .ok (b, a) at h
    subst e
    have hall : a = { s.icon with fs := s.fs } ∧ ∀ st, Icons.start env.icon st t = .ok (b, st) := by
      unfold Icons.start at h ⊢
      split at h
      · cases h
      · cases h; exact ⟨rfl, fun _ => rfl⟩
      · cases h; exact ⟨rfl, fun _ => rfl⟩
    obtain ⟨rfl, hall⟩ := hall
    refine ⟨⟨fun q => hI.1 ⟨q.1, q.2, q.3, q.4, q.5, q.6, q.7⟩, hI.2⟩,
        ⟨fun q => ⟨⟨q.1, q.2, q.3, q.4, q.5, q.6, q.7⟩, rfl⟩, fun _ h => h, fun _ h => h⟩, fun _ => ?_⟩
    exact part_start_iff.2 ⟨_, hall _, rfl⟩
  cont := by
    intro s t b s' hI h
    obtain ⟨a, h1, rfl⟩ := part_cont_iff.1 h
    change Icons.cont env.icon { s.icon with fs := s.fs } t = .ok (b, a) at h1
    · have loud : ¬ Quiet { s with fs := a.fs, icon := a } := by
        intro q
        unfold Icons.cont at h1
        split at h1
        · cases h1
        · cases h1
        · next i hi =>
          split at h1
          · cases h1
          · next st hp =>
            split at h1
            · cases h1
            · simp only [Except.ok.injEq, Prod.mk.injEq] at h1
              obtain ⟨_, rfl⟩ := h1
              rcases produceAll_loud hp (.inl (icon_colors hi)) with h2 | h2
              · exact h2 q.iconProduced
              · exact h2 q.iconReused
      exact ⟨⟨fun q => absurd q loud, hI.2⟩, ⟨fun q => absurd q loud, fun _ h => h, fun _ h => h⟩, fun g => absurd g.1 loud⟩

/-! ## Images -/

theorem make_byData {e : Data.Env} {new : Bool} {p d : Text} {st st' : Data.St} {b : Bytes} (h : Data.make e new p d st = .ok (b, st')) : st'.byData = st.byData := by
  unfold Data.make at h
  dsimp only at h
  have hs : ∀ st, (Data.store e p d st).byData = st.byData := by intro st; unfold Data.store; split <;> rfl
  split at h
  · cases h
  · next st1 h1 =>
    split at h
    · cases h
    · cases h
      split at h1
      · split at h1
        · cases h1
        · cases h1; exact hs st
      · cases h1; rfl

theorem put_ne_nil (d : List (Text × Text)) (k v : Text) : Assoc.put d k v ≠ [] := by
  intro e
  have := Assoc.get_put d k k v
  rw [e] at this
  simp [Assoc.item] at this

theorem allot_loud (e : Data.Env) (st : Data.St) (type d : Text) : (Data.allot e st type d).2.2.byData ≠ [] := by
  unfold Data.allot
  split
  · next p hp => intro he; dsimp only at he; rw [he] at hp; cases hp
  · exact put_ne_nil _ _ _

theorem data_steps : Steps (follow env fs files) (data false env) (data false (env.with files)) where
  start := by
    intro s t b s' hI h
    obtain ⟨a, h1, e⟩ := part_start_iff.1 h
    clear h
    rename' h1 => h
    change Data.start { s.data with fs := s.fs } t = .ok (b, a) at h
    change ({ s with fs := a.fs, data := a } : St) = s' at e
    have key : ∀ (b : Bool) (f : Data.St → Data.St), (∀ st, f st = { st with skip := (f st).skip, stage := (f st).stage, stack := (f st).stack }) →
        (∀ st g, f { st with fs := g } = { f st with fs := g }) →
        (∀ fs, Data.start { s.data with fs := fs } t = .ok (b, f { s.data with fs := fs })) → s' = { s with fs := (f { s.data with fs := s.fs }).fs, data := f { s.data with fs := s.fs } } →
        (follow env fs files).I s' ∧ (follow env fs files).ext s s' ∧
          ((follow env fs files).Good s' → (data false (env.with files)).start (St.onto fs s) t = .ok (b, St.onto fs s')) := by
      rintro b f hf hfg hall rfl
      have hc : (f { s.data with fs := s.fs }) = { s.data with fs := s.fs, skip := (f { s.data with fs := s.fs }).skip, stage := (f { s.data with fs := s.fs }).stage, stack := (f { s.data with fs := s.fs }).stack } := by
        have := hf { s.data with fs := s.fs }
        exact this
      have hq : Quiet { s with fs := (f { s.data with fs := s.fs }).fs, data := f { s.data with fs := s.fs } } → Quiet s := by
        rw [hc]
        exact fun q => ⟨q.1, q.2, q.3, q.4, q.5, q.6, q.7⟩
      have hfs : (f { s.data with fs := s.fs }).fs = s.fs := by rw [hc]
      refine ⟨⟨fun q => by dsimp only; rw [hfs]; exact hI.1 (hq q), hI.2⟩, ⟨fun q => ⟨hq q, hfs⟩, fun _ h => h, fun _ h => h⟩, fun _ => ?_⟩
      refine part_start_iff.2 ⟨_, hall fs, ?_⟩
      have : f { s.data with fs := fs } = { f { s.data with fs := s.fs } with fs := fs } := hfg { s.data with fs := s.fs } fs
      rw [this]
      rfl
    cases t with
    | function v =>
      unfold Data.start at h
      dsimp only at h
      by_cases hv : v ≠ txt "url"
      · rw [if_pos hv] at h
        simp only [Except.ok.injEq, Prod.mk.injEq] at h
        obtain ⟨rfl, rfl⟩ := h; subst e
        exact key false id (fun _ => rfl) (fun _ _ => rfl) (fun fs => by simp only [Data.start, if_pos hv]; rfl) rfl
      · rw [if_neg hv] at h
        by_cases hs : s.data.skip = true
        · rw [if_pos hs] at h
          simp only [Except.ok.injEq, Prod.mk.injEq] at h
          obtain ⟨rfl, rfl⟩ := h; subst e
          exact key false (fun st => { st with skip := false }) (fun _ => rfl) (fun _ _ => rfl) (fun fs => by simp only [Data.start, if_neg hv, if_pos hs]) rfl
        · rw [if_neg hs] at h
          simp only [Except.ok.injEq, Prod.mk.injEq] at h
          obtain ⟨rfl, rfl⟩ := h; subst e
          exact key true (fun st => { st with stage := some .url, stack := [] }) (fun _ => rfl) (fun _ _ => rfl)
            (fun fs => by simp only [Data.start, if_neg hv]; rw [if_neg hs]) rfl
    | _ =>
      simp only [Data.start, Except.ok.injEq, Prod.mk.injEq] at h
      obtain ⟨rfl, rfl⟩ := h; subst e
      exact key false id (fun _ => rfl) (fun _ _ => rfl) (fun fs => rfl) rfl
  cont := by
    intro s t b s' hI h
    obtain ⟨a, h1, e⟩ := part_cont_iff.1 h
    clear h
    rename' h1 => h
    change Data.cont false env.data { s.data with fs := s.fs } t = .ok (b, a) at h
    change ({ s with fs := a.fs, data := a } : St) = s' at e
    have key : ∀ (sk : Bool) (stage : Option Data.Stage) (stack : List Tok),
        (∀ fs, Data.cont false env.data { s.data with fs := fs } t = .ok (b, { s.data with fs := fs, skip := sk, stage := stage, stack := stack })) →
        s' = { s with data := { s.data with fs := s.fs, skip := sk, stage := stage, stack := stack } } →
        (follow env fs files).I s' ∧ (follow env fs files).ext s s' ∧
          ((follow env fs files).Good s' → (data false (env.with files)).cont (St.onto fs s) t = .ok (b, St.onto fs s')) := by
      rintro sk stage stack hall rfl
      have hq : Quiet { s with data := { s.data with fs := s.fs, skip := sk, stage := stage, stack := stack } } → Quiet s := fun q => ⟨q.1, q.2, q.3, q.4, q.5, q.6, q.7⟩
      refine ⟨⟨fun q => hI.1 (hq q), hI.2⟩, ⟨fun q => ⟨hq q, rfl⟩, fun _ h => h, fun _ h => h⟩, fun _ => ?_⟩
      exact part_cont_iff.2 ⟨_, hall fs, rfl⟩
    cases hst : s.data.stage with
    | none => simp [Data.cont, hst] at h
    | some st =>
      cases st with
      | url =>
        by_cases ht : t = .function (txt "url")
        · simp only [Data.cont, hst, if_pos ht, Except.ok.injEq, Prod.mk.injEq] at h
          obtain ⟨rfl, rfl⟩ := h; subst e
          exact key s.data.skip (some .string) (s.data.stack ++ [t]) (fun fs => by simp only [Data.cont, hst, if_pos ht]) rfl
        · simp [Data.cont, hst, if_neg ht] at h
      | string =>
        cases hd : Data.tokData t with
        | none =>
          have hd' : Data.tokData t = none := hd
          simp only [Data.cont, hst, hd', Except.ok.injEq, Prod.mk.injEq] at h
          obtain ⟨rfl, rfl⟩ := h; subst e
          exact key true none [] (fun fs => by simp only [Data.cont, hst, hd']) rfl
        | some td =>
          obtain ⟨type, d⟩ := td
          have hd' : Data.tokData t = some (type, d) := hd
          have loud : ¬ Quiet s' := by
            intro q
            subst e
            simp only [Data.cont, hst, hd'] at h
            rw [if_neg (by simp)] at h
            split at h
            · cases h
            · next b2 st2 h2 =>
              simp only [Except.ok.injEq, Prod.mk.injEq] at h
              obtain ⟨rfl, rfl⟩ := h
              have hb := q.byData
              dsimp only at hb
              rw [make_byData h2] at hb
              exact allot_loud _ _ _ _ hb
          subst e
          exact ⟨⟨fun q => absurd q loud, hI.2⟩, ⟨fun q => absurd q loud, fun _ h => h, fun _ h => h⟩, fun g => absurd g.1 loud⟩

/-! ## URLs -/

theorem mem_add_iff (s : List Text) (x y : Text) : y ∈ add s x ↔ y ∈ s ∨ y = x := by
  unfold add
  split
  · next h =>
    refine ⟨.inl, ?_⟩
    rintro (h1 | rfl)
    · exact h1
    · exact h
  · simp

theorem suffixed_local {s : St} (hI : (follow env fs files).I s) {v w : Text} {a : Urls.St} (h : Urls.suffixed env.urls { s.urls with fs := s.fs } v = .ok (w, a)) :
    a.fs = s.fs ∧ (follow env fs files).I { s with fs := a.fs, urls := a } ∧ (follow env fs files).ext s { s with fs := a.fs, urls := a } ∧
      ((follow env fs files).Good { s with fs := a.fs, urls := a } → Urls.suffixed env.urls { s.urls with fs := fs } v = .ok (w, { a with fs := fs })) := by
  unfold Urls.suffixed at h ⊢
  cases hh : Urls.hashOf env.urls v with
  | none =>
    rw [hh] at h
    simp only [Except.ok.injEq, Prod.mk.injEq] at h
    obtain ⟨rfl, rfl⟩ := h
    exact ⟨rfl, ⟨fun q => hI.1 ⟨q.1, q.2, q.3, q.4, q.5, q.6, q.7⟩, hI.2⟩,
      ⟨fun q => ⟨⟨q.1, q.2, q.3, q.4, q.5, q.6, q.7⟩, rfl⟩, fun _ h => h, fun _ h => h⟩, fun _ => rfl⟩
  | some p =>
    rw [hh] at h
    dsimp only at h
    split at h
    · cases h
    · next b hb =>
      simp only [Except.ok.injEq, Prod.mk.injEq] at h
      obtain ⟨rfl, rfl⟩ := h
      refine ⟨rfl, ⟨fun q y hy => ?_, hI.2⟩, ⟨fun q => ⟨⟨q.1, q.2, q.3, q.4, q.5, q.6, q.7⟩, rfl⟩, fun _ h => h, fun y hy => (mem_add_iff _ _ _).2 (.inl hy)⟩, fun g => ?_⟩
      · rcases (mem_add_iff _ _ _).1 hy with hy | rfl
        · exact hI.1 ⟨q.1, q.2, q.3, q.4, q.5, q.6, q.7⟩ y hy
        · dsimp only; rw [hb]; simp
      · have := g.2.2 p ((mem_add_iff _ _ _).2 (.inr rfl))
        dsimp only at this ⊢
        rw [this, hb]

theorem urls_steps : Steps (follow env fs files) (urls false env) (urls false (env.with files)) where
  start := by
    intro s t b s' hI h
    obtain ⟨a, h1, rfl⟩ := part_start_iff.1 h
    change Urls.start false env.urls { s.urls with fs := s.fs } t = .ok (b, a) at h1
    have key : ∃ i, a = { s.urls with fs := s.fs, inUrl := i } ∧ ∀ fs, Urls.start false env.urls { s.urls with fs := fs } t = .ok (b, { s.urls with fs := fs, inUrl := i }) := by
      unfold Urls.start at h1 ⊢
      simp only [Bool.false_eq_true, if_false] at h1 ⊢
      cases hi : s.urls.inUrl with
      | true =>
        simp only [hi, if_true] at h1 ⊢
        cases t <;> simp only at h1 ⊢
        case str v => cases hh : Urls.hashOf env.urls v <;> simp only [hh] at h1 ⊢ <;> cases h1 <;> exact ⟨true, by rw [← hi], fun _ => by rw [← hi]⟩
        case rightParens => cases h1; exact ⟨false, rfl, fun _ => rfl⟩
        all_goals cases h1; exact ⟨true, by rw [← hi], fun _ => by rw [← hi]⟩
      | false =>
        simp only [hi, Bool.false_eq_true, if_false] at h1 ⊢
        cases t <;> simp only at h1 ⊢
        case url v => cases hh : Urls.hashOf env.urls v <;> simp only [hh] at h1 ⊢ <;> cases h1 <;> exact ⟨false, by rw [← hi], fun _ => by rw [← hi]⟩
        case function v =>
          by_cases hv : env.urls.lower v = txt "url"
          · simp only [if_pos hv] at h1 ⊢; cases h1; exact ⟨true, rfl, fun _ => rfl⟩
          · simp only [if_neg hv] at h1 ⊢; cases h1; exact ⟨false, by rw [← hi], fun _ => by rw [← hi]⟩
        all_goals cases h1; exact ⟨false, by rw [← hi], fun _ => by rw [← hi]⟩
    obtain ⟨i, rfl, hall⟩ := key
    exact ⟨⟨fun q => hI.1 ⟨q.1, q.2, q.3, q.4, q.5, q.6, q.7⟩, hI.2⟩,
      ⟨fun q => ⟨⟨q.1, q.2, q.3, q.4, q.5, q.6, q.7⟩, rfl⟩, fun _ h => h, fun _ h => h⟩, fun _ => part_start_iff.2 ⟨_, hall fs, rfl⟩⟩
  cont := by
    intro s t b s' hI h
    obtain ⟨a, h1, rfl⟩ := part_cont_iff.1 h
    change Urls.cont env.urls { s.urls with fs := s.fs } t = .ok (b, a) at h1
    unfold Urls.cont at h1
    cases t <;> simp only at h1 <;> try cases h1
    case str v =>
      split at h1
      · cases h1
      · next w a' h2 =>
        cases h1
        obtain ⟨-, e1, e2, e3⟩ := suffixed_local (fs := fs) (files := files) hI h2
        refine ⟨e1, e2, fun g => part_cont_iff.2 ⟨{ a with fs := fs }, ?_, rfl⟩⟩
        change Urls.cont env.urls { s.urls with fs := fs } (.str v) = _
        simp only [Urls.cont, e3 g]
    case url v =>
      split at h1
      · cases h1
      · next w a' h2 =>
        cases h1
        obtain ⟨-, e1, e2, e3⟩ := suffixed_local (fs := fs) (files := files) hI h2
        refine ⟨e1, e2, fun g => part_cont_iff.2 ⟨{ a with fs := fs }, ?_, rfl⟩⟩
        change Urls.cont env.urls { s.urls with fs := fs } (.url v) = _
        simp only [Urls.cont, e3 g]

/-! ## Imports -/

theorem imports_shots (hself : files env.nest.self = env.nest.files env.nest.self) {n : Nat} : Shots (follow env fs files) (imports n env) (imports n (env.with files)) where
  decline := by
    intro s t s' hI h
    obtain ⟨a, h1, rfl⟩ := part_start_iff.1 h
    change Nest.start env.nest s.nest t = .ok (false, a) at h1
    have : a = s.nest ∧ Nest.start (env.nest.with files) s.nest t = .ok (false, s.nest) := by
      unfold Nest.start at h1 ⊢
      rw [show Nest.getImport (env.nest.with files) t = Nest.getImport env.nest t from rfl]
      cases hi : Nest.getImport env.nest t with
      | none => rw [hi] at h1; cases h1; exact ⟨rfl, rfl⟩
      | some r => rw [hi] at h1; simp at h1
    obtain ⟨rfl, h2⟩ := this
    exact ⟨⟨fun q => hI.1 ⟨q.1, q.2, q.3, q.4, q.5, q.6, q.7⟩, hI.2⟩,
      ⟨fun q => ⟨⟨q.1, q.2, q.3, q.4, q.5, q.6, q.7⟩, rfl⟩, fun _ h => h, fun _ h => h⟩, fun _ => part_start_iff.2 ⟨_, h2, rfl⟩⟩
  take := by
    intro s t s1 r s2 hI h h'
    obtain ⟨a, h1, rfl⟩ := part_start_iff.1 h
    obtain ⟨a', h2, rfl⟩ := part_cont_iff.1 h'
    change Nest.start env.nest s.nest t = .ok (true, a) at h1
    change Nest.cont env.nest n a t = .ok (r, a') at h2
    obtain ⟨e1, e2, e3, e4⟩ := Nest.take_opened hI.2 h1 h2
    refine ⟨e1, ⟨fun q => hI.1 ⟨q.1, q.2, q.3, q.4, q.5, q.6, q.7⟩, e2⟩, ⟨fun q => ⟨⟨q.1, q.2, q.3, q.4, q.5, q.6, q.7⟩, rfl⟩, e3, fun _ h => h⟩, fun g => ?_⟩
    obtain ⟨q1, q2⟩ := e4 files g.2.1 hself
    exact ⟨part_start_iff.2 ⟨_, q1, rfl⟩, part_cont_iff.2 ⟨_, q2, rfl⟩⟩

/-! ## Runs -/

theorem run_reads {fuel n : Nat} {fs0 : Fs} {ops : List (Op Tok)} {out : List Tok} {b : State St Tok Err}
    (h : runOps (buildManips n env) fuel (State.new (St.new fs0)) [] ops = some (.ok (out, b))) (hq : Quiet b.st) :
    b.st.fs = fs0 ∧ (∀ p ∈ b.st.urls.children, fs0 p ≠ none) ∧ (∀ c ∈ b.st.nest.children, env.nest.files (Nest.source env.nest c) ≠ none) ∧
    ∀ fs files, files env.nest.self = env.nest.files env.nest.self → (∀ p ∈ b.st.urls.children, fs p = fs0 p) →
      (∀ c ∈ b.st.nest.children, files (Nest.source env.nest c) = env.nest.files (Nest.source env.nest c)) →
      ∃ b', b'.st = b.st.onto fs ∧ runOps (buildManips n (env.with files)) fuel (State.new (St.new fs)) [] ops = some (.ok (out, b')) := by
  have key := fun (fs : Fs) (files : Text → Option (List Tok)) (hself : files env.nest.self = env.nest.files env.nest.self) =>
    runOps_follow (F := follow env fs files) (ms' := buildManips n (env.with files)) (follow_laws env fs files)
      (.cons (.shots (imports_shots hself)) (.cons (.steps icons_steps) (.cons (.steps data_steps) (.cons (.steps urls_steps) .nil)))) (mk := none) .none
      ⟨fun _ p hp => by simp [State.new, St.new] at hp, Nest.Opened.new _⟩ h
  obtain ⟨hI, hE, -⟩ := key fs0 env.nest.files rfl
  have hfs : b.st.fs = fs0 := (hE.1 hq).2
  refine ⟨hfs, fun p hp => by rw [← hfs]; exact hI.1 hq p hp, hI.2.children, fun fs files hself h1 h2 => ?_⟩
  obtain ⟨-, -, mk, -, hG⟩ := key fs files hself
  exact ⟨_, rfl, hG ⟨hq, h2, fun p hp => by rw [h1 p hp, hfs]⟩⟩

end Verif.Css.Page
