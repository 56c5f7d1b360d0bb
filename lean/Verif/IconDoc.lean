import Verif.IconRun

/-!
# Documents with icon commands (C52)
-/

namespace Verif.Icons

open Verif.Reader (Text txt substitute)
open Verif.Css (Uni Tok)
open Verif.Assoc
open Verif.Build
open Verif.Handlers (Bytes Fs)

/-! ## What is put in place of a command has no commands -/

/-- No comment. -/
def quiet : Tok → Bool
  | .comment _ => false
  | _ => true

theorem getIcon_quiet (env : Env) {t : Tok} (h : quiet t = true) : getIcon env t = .ok none := by
  cases t <;> first | rfl | simp [quiet] at h

theorem iconClasses_quiet (i : Icon) : (iconClasses i).all quiet = true := by
  unfold iconClasses
  generalize (i.sizes.flatMap fun s => i.colors.map fun c => (s, c)) = ps
  have go : ∀ (ps : List (Text × Text)) (acc : List Tok), acc.all quiet = true →
      (ps.foldl (fun acc x => (if acc = [] then acc else acc ++ [gap]) ++ iconClass i x.1 x.2) acc).all quiet = true := by
    intro ps
    induction ps with
    | nil => intro acc h; exact h
    | cons p ps ih =>
      intro acc h
      rw [List.foldl_cons]
      refine ih _ ?_
      rw [List.all_append, Bool.and_eq_true]
      refine ⟨?_, rfl⟩
      split
      · exact h
      · rw [List.all_append, h]; rfl
  exact go ps [] rfl

theorem namedClasses_quiet (i : Icon) (s : Text) : ∀ (named : List (Text × Entry)) (ts : List Tok), namedClasses i s named = .ok ts →
    ts.all quiet = true := by
  intro named
  induction named with
  | nil => intro ts h; simp only [namedClasses, Except.ok.injEq] at h; subst h; rfl
  | cons x named ih =>
    intro ts h
    obtain ⟨k, e⟩ := x
    cases e with
    | letter c => simp [namedClasses] at h
    | button b =>
      simp only [namedClasses] at h
      split at h
      · cases h
      · next ts' h' =>
        cases h
        rw [List.all_append, ih _ h']
        rfl

theorem buttonClasses_quiet (i : Icon) (d : Option Button) (named : List (Text × Entry)) : ∀ (sizes : List Text) (ts : List Tok),
    buttonClasses i d named sizes = .ok ts → ts.all quiet = true := by
  intro sizes
  induction sizes with
  | nil => intro ts h; simp only [buttonClasses, Except.ok.injEq] at h; subst h; rfl
  | cons s sizes ih =>
    intro ts h
    simp only [buttonClasses] at h
    split at h
    · cases h
    · next t1 h1 =>
      split at h
      · cases h
      · next t2 h2 =>
        cases h
        rw [List.all_append, List.all_append, ih _ h2, namedClasses_quiet i s named t1 h1]
        cases d <;> rfl

theorem output_quiet {i : Icon} {ts : List Tok} (h : output i = .ok ts) : ts.all quiet = true := by
  unfold output at h
  split at h
  · cases h; exact iconClasses_quiet i
  · next d named _ =>
    split at h
    · cases h
    · next t1 h1 =>
      cases h
      rw [List.all_append, iconClasses_quiet, buttonClasses_quiet i d named _ _ h1]; rfl

theorem start_eq {env : Env} {st : St} {t : Tok} {b : Bool} {st1 : St} (h : start env st t = .ok (b, st1)) :
    st1 = st ∧ ∃ o, getIcon env t = .ok o ∧ b = o.isSome := by
  unfold start at h
  cases hg : getIcon env t with
  | error e => rw [hg] at h; cases h
  | ok o =>
    rw [hg] at h
    cases o with
    | none => cases h; exact ⟨rfl, none, rfl, rfl⟩
    | some i => cases h; exact ⟨rfl, some i, rfl, rfl⟩

theorem icons_single (env : Env) : Single (icons env) := by
  intro s t s1 o s2 h1 h2
  have h2 : cont env s1 t = .ok (o, s2) := h2
  unfold cont at h2
  split at h2
  · cases h2
  · cases h2
  · split at h2
    · cases h2
    · split at h2
      · cases h2
      · next ts hts =>
        cases h2
        refine ⟨ts, rfl, fun x hx s => ?_⟩
        have := getIcon_quiet env (List.all_eq_true.1 (output_quiet hts) x hx)
        show start env s x = _
        unfold start; rw [this]

/-! ## One command -/

/-- The file of the configuration is added for every file but itself. -/
def withMain (env : Env) (st : St) : St := if env.self = env.main then st else { st with children := add st.children env.main }

theorem withMain_fs (env : Env) (st : St) : (withMain env st).fs = st.fs ∧ (∀ p, (withMain env st).reported p ↔ st.reported p) ∧
    (withMain env st).dependencies = st.dependencies ∧ (withMain env st).produces = st.produces := by
  unfold withMain
  split <;> exact ⟨rfl, fun _ => Iff.rfl, rfl, rfl⟩

theorem produceAll_spec {env : Env} {i : Icon} (hn : i.name ≠ []) (hs : 47 ∉ i.name) : ∀ (cs : List Text) (st st' : St),
    (∀ c ∈ cs, 47 ∉ c) → produceAll env i st cs = .ok st' →
    (∀ p b, st.fs p = some b → st'.fs p = some b) ∧
    (∀ p b, st.fs p = none → st'.fs p = some b → ∃ c ∈ cs,
      (p = image i.name c ∧ Painted env st.fs i.name i.initial c b) ∨
      (p = image i.name c ++ txt ".hash" ∧ ∃ b', st'.fs (image i.name c) = some b' ∧ b = env.digest b')) ∧
    (∀ c ∈ cs, (st'.fs (image i.name c)).isSome) ∧
    (∀ c ∈ cs, st.fs (image i.name c) = none → (st'.fs (image i.name c ++ txt ".hash")).isSome) ∧
    (∀ p, st'.reported p ↔ st.reported p ∨ ∃ c ∈ cs, p = image i.name c ∨ (p = image i.name c ++ txt ".hash" ∧ st.fs (image i.name c) = none)) ∧
    st'.dependencies = st.dependencies ∧ st'.produces = st.produces ∧ ∀ x, x ∈ st'.children ↔ x ∈ st.children := by
  intro cs
  induction cs with
  | nil =>
    intro st st' _ h
    simp only [produceAll, Except.ok.injEq] at h
    subst h
    refine ⟨fun p b h => h, fun p b h h' => (by rw [h] at h'; cases h'), by simp, by simp, by simp, rfl, rfl, fun _ => Iff.rfl⟩
  | cons c cs ih =>
    intro st st' hc h
    simp only [produceAll] at h
    split at h
    · cases h
    · next st1 h1 =>
      have P := produce_spec hn hs (hc c (by simp)) h1
      obtain ⟨k, f, m, hh, r, d1, d2, d3⟩ := ih st1 st' (fun x hx => hc x (by simp [hx])) h
      refine ⟨fun p b hp => k p b (P.kept p b hp), ?_, ?_, ?_, ?_, d1.trans P.scan.1, d2.trans P.scan.2.1, fun x => (d3 x).trans (P.scan.2.2 x)⟩
      · intro p b hp hp'
        cases h2 : st1.fs p with
        | some b1 =>
          have : b1 = b := by have := k p b1 h2; rw [hp'] at this; cases this; rfl
          subst this
          refine ⟨c, by simp, ?_⟩
          rcases P.fresh p b1 hp h2 with h3 | ⟨h3, b', h4, h5⟩
          · exact .inl h3
          · exact .inr ⟨h3, b', k _ _ h4, h5⟩
        | none =>
          obtain ⟨c', hc', h3⟩ := f p b h2 hp'
          refine ⟨c', by simp [hc'], ?_⟩
          rcases h3 with ⟨h3, svg, og, tg, text, h4, h5⟩ | h3
          · refine .inl ⟨h3, svg, og, tg, text, ?_, h5⟩
            cases h6 : st.fs (source i.name) with
            | some b' => rw [P.kept _ _ h6] at h4; exact h4
            | none =>
              exfalso
              rcases P.fresh _ _ h6 h4 with ⟨h7, -⟩ | ⟨h7, -⟩
              · exact (source_ne _ _ _).1 h7
              · exact (source_ne _ _ _).2 h7
          · exact .inr h3
      · intro x hx
        rcases List.mem_cons.1 hx with rfl | hx
        · obtain ⟨b, hb⟩ := Option.isSome_iff_exists.1 P.image
          rw [k _ _ hb]; rfl
        · exact m x hx
      · intro x hx hno
        rcases List.mem_cons.1 hx with rfl | hx
        · obtain ⟨b, hb⟩ := Option.isSome_iff_exists.1 (P.hash hno)
          rw [k _ _ hb]; rfl
        · cases h2 : st1.fs (image i.name x) with
          | none => exact hh x hx h2
          | some b =>
            rcases P.fresh _ _ hno h2 with ⟨h3, -⟩ | ⟨h3, -⟩
            · rw [h3] at hno ⊢
              obtain ⟨b', hb'⟩ := Option.isSome_iff_exists.1 (P.hash hno)
              rw [k _ _ hb']; rfl
            · exact absurd h3 (image_ne_hash _ _ _ _)
      · intro p
        rw [r, P.reported]
        constructor
        · rintro ((h2 | h2 | ⟨h2, h3⟩) | ⟨x, hx, h2⟩)
          · exact .inl h2
          · exact .inr ⟨c, by simp, .inl h2⟩
          · exact .inr ⟨c, by simp, .inr ⟨h2, h3⟩⟩
          · refine .inr ⟨x, by simp [hx], ?_⟩
            rcases h2 with h2 | ⟨h2, h3⟩
            · exact .inl h2
            · refine .inr ⟨h2, ?_⟩
              cases h4 : st.fs (image i.name x) with
              | none => rfl
              | some b => rw [P.kept _ _ h4] at h3; cases h3
        · rintro (h2 | ⟨x, hx, h2⟩)
          · exact .inl (.inl h2)
          · rcases List.mem_cons.1 hx with rfl | hx
            · exact .inl (.inr h2)
            · rcases h2 with h2 | ⟨h2, h3⟩
              · exact .inr ⟨x, hx, .inl h2⟩
              · cases h4 : st1.fs (image i.name x) with
                | none => exact .inr ⟨x, hx, .inr ⟨h2, h4⟩⟩
                | some b =>
                  rcases P.fresh _ _ h3 h4 with ⟨h5, -⟩ | ⟨h5, -⟩
                  · rw [h5] at h2 h3
                    exact .inl (.inr (.inr ⟨h2, h3⟩))
                  · exact absurd h5 (image_ne_hash _ _ _ _)

theorem produceAll_ok {env : Env} {i : Icon} (hn : i.name ≠ []) (hs : 47 ∉ i.name) (hi : i.initial ∈ keys env.settings.colors) :
    ∀ (cs : List Text) (st : St), (∀ c ∈ cs, 47 ∉ c ∧ c ∈ keys env.settings.colors) → (st.fs (source i.name)).isSome →
    ∃ st', produceAll env i st cs = .ok st' := by
  intro cs
  induction cs with
  | nil => intro st _ _; exact ⟨st, rfl⟩
  | cons c cs ih =>
    intro st hc hsrc
    obtain ⟨st1, h1⟩ := produce_ok hn hs (hc c (by simp)).1 hsrc hi (hc c (by simp)).2
    have P := produce_spec hn hs (hc c (by simp)).1 h1
    obtain ⟨b, hb⟩ := Option.isSome_iff_exists.1 hsrc
    obtain ⟨st2, h2⟩ := ih st1 (fun x hx => hc x (by simp [hx])) (by rw [P.kept _ _ hb]; rfl)
    exact ⟨st2, by simp only [produceAll, h1, h2]⟩

theorem Chosen.sub {l : List Text} {o : Option (List Text)} {out : List Text} (h : Chosen l o out) : ∀ x ∈ out, x ∈ l := by
  cases o with
  | none =>
    have h : out = l := h
    subst h; intro x hx; exact hx
  | some a =>
    intro x hx
    exact (((h : Firsts _ _ _).2.1 x).1 hx).2

theorem IconOf.facts {env : Env} {t : Tok} {i : Icon} (h : IconOf env t i) :
    (∀ c ∈ i.colors, c ∈ keys env.settings.colors) ∧ i.initial ∈ keys env.settings.colors ∧ ∀ d named, i.button = some (d, named) → AllButtons named := by
  obtain ⟨v, a, c, -, -, -, hr⟩ := h
  refine ⟨hr.colors.sub, by rw [hr.initial]; exact hr.known, ?_⟩
  intro d named hb
  rw [hr.button] at hb
  cases ha : asked env.settings c.button with
  | none => rw [ha] at hb; cases hb
  | some bs =>
    rw [ha] at hb
    simp only [Option.map_some, Option.some.injEq, goodButtons, Prod.mk.injEq] at hb
    obtain ⟨-, rfl⟩ := hb
    intro x hx
    obtain ⟨y, -, rfl⟩ := List.mem_map.1 hx
    exact ⟨y.2, rfl⟩

/-! ## The document -/

theorem Wants.cons {env : Env} {t : Tok} {ts : List Tok} {n i c : Text} : Wants env (t :: ts) n i c ↔
    (∃ j, IconOf env t j ∧ n = j.name ∧ i = j.initial ∧ c ∈ j.colors) ∨ Wants env ts n i c := by
  unfold Wants
  simp only [List.mem_cons, exists_eq_or_imp]

/-- The files which the commands of the document need are reported as produced or reused: every image, and the hash of
every image which was not there. -/
def ReportsOf (env : Env) (doc : List Tok) (fs : Fs) (p : Text) : Prop :=
  ∃ n i c, Wants env doc n i c ∧ (p = image n c ∨ (p = image n c ++ txt ".hash" ∧ fs (image n c) = none))

theorem subAll_spec {env : Env} (hs : Spaces env.space) : ∀ (doc : List Tok), WellFormed env doc → Slashless env doc →
    ∀ (st st' : St) (out : List Tok), subAll (icons env) st doc = .ok (out, st') →
    DocOf env doc out ∧ FilesOf env doc st.fs st'.fs ∧ (∀ p, st'.reported p ↔ st.reported p ∨ ReportsOf env doc st.fs p) := by
  intro doc
  induction doc with
  | nil =>
    intro _ _ st st' out h
    simp only [subAll, Except.ok.injEq, Prod.mk.injEq] at h
    obtain ⟨rfl, rfl⟩ := h
    have hw : ∀ n i c, ¬ Wants env [] n i c := by rintro n i c ⟨t, ht, -⟩; cases ht
    refine ⟨.nil, ⟨fun p b h => h, fun p b h h' => (by rw [h] at h'; cases h'), fun n i c h => absurd h (hw n i c),
      fun n i c h => absurd h (hw n i c)⟩, ?_⟩
    intro p
    constructor
    · exact .inl
    · rintro (h | ⟨n, i, c, h, -⟩)
      · exact h
      · exact absurd h (hw n i c)
  | cons t doc ih =>
    intro hw hsl st st' out h
    have hw' : WellFormed env doc := fun x hx => hw x (by simp [hx])
    have hsl' : Slashless env doc := ⟨hsl.1, fun x hx => hsl.2 x (by simp [hx])⟩
    obtain ⟨o, ho, hi⟩ := getIcon_spec env hs hw (t := t) (by simp)
    simp only [subAll, sub] at h
    cases o with
    | none =>
      have hst : (icons env).start st t = .ok (false, st) := by show start env st t = _; unfold start; rw [ho]
      rw [hst] at h
      simp only at h
      have hno : ∀ j, ¬ IconOf env t j := fun j hj => by have := (hi j).2 hj; cases this
      split at h
      · cases h
      · next out' st2 h1 =>
        cases h
        obtain ⟨a, b, c⟩ := ih hw' hsl' st st' out' h1
        have hwant : ∀ n i c, Wants env (t :: doc) n i c ↔ Wants env doc n i c := by
          intro n i c
          rw [Wants.cons]
          constructor
          · rintro (⟨j, hj, -⟩ | h)
            · exact absurd hj (hno j)
            · exact h
          · exact .inr
        refine ⟨.keep (fun ⟨j, hj⟩ => hno j hj) a, ⟨b.kept, ?_, ?_, ?_⟩, ?_⟩
        · intro p x hp hp'
          obtain ⟨n, i, c, h2, h3⟩ := b.fresh p x hp hp'
          exact ⟨n, i, c, (hwant n i c).2 h2, h3⟩
        · intro n i c h2; exact b.image n i c ((hwant n i c).1 h2)
        · intro n i c h2; exact b.hash n i c ((hwant n i c).1 h2)
        · intro p
          rw [c]
          unfold ReportsOf
          simp only [hwant]
    | some i =>
      have hiof : IconOf env t i := (hi i).1 rfl
      obtain ⟨hname, hslash⟩ := hsl.2 t (by simp) i hiof
      have hst : (icons env).start st t = .ok (true, st) := by show start env st t = _; unfold start; rw [ho]
      rw [hst] at h
      simp only at h
      split at h
      · cases h
      · next r st2 hc =>
        have huniq : ∀ j, IconOf env t j → j = i := fun j hj => by have := (hi j).2 hj; cases this; rfl
        split at hc
        · cases hc
        · next r' st3 hc' =>
          cases hc
          have hc' : cont env st t = .ok (some r, st2) := hc'
          unfold cont at hc'
          rw [ho] at hc'
          simp only at hc'
          split at hc'
          · cases hc'
          · next st4 hp =>
            obtain ⟨ts, hts, hcls⟩ := output_spec i hiof.facts.2.2
            rw [hts] at hc'
            cases hc'
            split at h
            · cases h
            · next out' st5 h1 =>
              cases h
              obtain ⟨a, b, c⟩ := ih hw' hsl' st2 st' out' h1
              have hp : produceAll env i (withMain env st) i.colors = .ok st2 := hp
              obtain ⟨k, f, m, hh, rr, -, -, -⟩ := produceAll_spec hname hslash i.colors (withMain env st) st2
                (fun x hx => hsl.1 x (hiof.facts.1 x hx)) hp
              obtain ⟨w1, w2, -, -⟩ := withMain_fs env st
              rw [w1] at k f hh
              simp only [w1] at f hh rr
              have hsrc : ∀ n b, st2.fs (source n) = some b → st.fs (source n) = some b := by
                intro n b h4
                cases h6 : st.fs (source n) with
                | some b' => rw [k _ _ h6] at h4; exact h4
                | none =>
                  exfalso
                  obtain ⟨x, -, h7⟩ := f _ _ h6 h4
                  rcases h7 with ⟨h7, -⟩ | ⟨h7, -⟩
                  · exact (source_ne _ _ _).1 h7
                  · exact (source_ne _ _ _).2 h7
              have himg : ∀ n x, st.fs (image n x) = none → ∀ y, st2.fs (image n x) = some y → ∃ z ∈ i.colors, image n x = image i.name z := by
                intro n x h4 y h5
                obtain ⟨z, hz, h7⟩ := f _ _ h4 h5
                rcases h7 with ⟨h7, -⟩ | ⟨h7, -⟩
                · exact ⟨z, hz, h7⟩
                · exact absurd h7 (image_ne_hash _ _ _ _)
              refine ⟨.icon hiof hcls a, ⟨fun p x hpx => b.kept p x (k p x hpx), ?_, ?_, ?_⟩, ?_⟩
              · intro p x hpx hpx'
                cases h2 : st2.fs p with
                | some x1 =>
                  have : x1 = x := by have := b.kept p x1 h2; rw [hpx'] at this; cases this; rfl
                  subst this
                  obtain ⟨z, hz, h3⟩ := f p x1 hpx h2
                  refine ⟨i.name, i.initial, z, Wants.cons.2 (.inl ⟨i, hiof, rfl, rfl, hz⟩), ?_⟩
                  rcases h3 with h3 | ⟨h3, b', h4, h5⟩
                  · exact .inl h3
                  · exact .inr ⟨h3, b', b.kept _ _ h4, h5⟩
                | none =>
                  obtain ⟨n, i0, z, h3, h4⟩ := b.fresh p x h2 hpx'
                  refine ⟨n, i0, z, Wants.cons.2 (.inr h3), ?_⟩
                  rcases h4 with ⟨h4, svg, og, tg, text, h5, h6⟩ | h4
                  · exact .inl ⟨h4, svg, og, tg, text, hsrc _ _ h5, h6⟩
                  · exact .inr h4
              · intro n i0 z hwz
                rcases Wants.cons.1 hwz with ⟨j, hj, rfl, -, hz⟩ | hwz
                · cases huniq j hj
                  obtain ⟨y, hy⟩ := Option.isSome_iff_exists.1 (m z hz)
                  rw [b.kept _ _ hy]; rfl
                · exact b.image n i0 z hwz
              · intro n i0 z hwz hno
                rcases Wants.cons.1 hwz with ⟨j, hj, rfl, -, hz⟩ | hwz
                · cases huniq j hj
                  obtain ⟨y, hy⟩ := Option.isSome_iff_exists.1 (hh z hz hno)
                  rw [b.kept _ _ hy]; rfl
                · cases h2 : st2.fs (image n z) with
                  | none => exact b.hash n i0 z hwz h2
                  | some y =>
                    obtain ⟨z', hz', h3⟩ := himg _ _ hno y h2
                    rw [h3] at hno ⊢
                    obtain ⟨y, hy⟩ := Option.isSome_iff_exists.1 (hh z' hz' hno)
                    rw [b.kept _ _ hy]; rfl
              · intro p
                rw [c, rr, w2]
                constructor
                · rintro ((h2 | ⟨z, hz, h2⟩) | ⟨n, i0, z, hwz, h2⟩)
                  · exact .inl h2
                  · exact .inr ⟨i.name, i.initial, z, Wants.cons.2 (.inl ⟨i, hiof, rfl, rfl, hz⟩), h2⟩
                  · refine .inr ⟨n, i0, z, Wants.cons.2 (.inr hwz), ?_⟩
                    rcases h2 with h2 | ⟨h2, h3⟩
                    · exact .inl h2
                    · refine .inr ⟨h2, ?_⟩
                      cases h4 : st.fs (image n z) with
                      | none => rfl
                      | some y => rw [k _ _ h4] at h3; cases h3
                · rintro (h2 | ⟨n, i0, z, hwz, h2⟩)
                  · exact .inl (.inl h2)
                  · rcases Wants.cons.1 hwz with ⟨j, hj, rfl, -, hz⟩ | hwz
                    · cases huniq j hj
                      exact .inl (.inr ⟨z, hz, h2⟩)
                    · rcases h2 with h2 | ⟨h2, h3⟩
                      · exact .inr ⟨n, i0, z, hwz, .inl h2⟩
                      · cases h4 : st2.fs (image n z) with
                        | none => exact .inr ⟨n, i0, z, hwz, .inr ⟨h2, h4⟩⟩
                        | some y =>
                          obtain ⟨z', hz', h5⟩ := himg _ _ h3 y h4
                          rw [h5] at h2 h3
                          exact .inl (.inr ⟨z', hz', .inr ⟨h2, h3⟩⟩)
        · next s4 hc' =>
          obtain ⟨r', h7, -⟩ := icons_single env _ _ _ _ _ hst hc'
          cases h7

/-- The commands of a document are well-formed and their sources are there: then it can be built. -/
theorem subAll_ok {env : Env} (hs : Spaces env.space) : ∀ (doc : List Tok), WellFormed env doc → Slashless env doc →
    ∀ (st : St), (∀ n i c, Wants env doc n i c → (st.fs (source n)).isSome) → ∃ r, subAll (icons env) st doc = .ok r := by
  intro doc
  induction doc with
  | nil => intro _ _ st _; exact ⟨_, rfl⟩
  | cons t doc ih =>
    intro hw hsl st hsrc
    have hw' : WellFormed env doc := fun x hx => hw x (by simp [hx])
    have hsl' : Slashless env doc := ⟨hsl.1, fun x hx => hsl.2 x (by simp [hx])⟩
    obtain ⟨o, ho, hi⟩ := getIcon_spec env hs hw (t := t) (by simp)
    simp only [subAll, sub]
    cases o with
    | none =>
      have hst : (icons env).start st t = .ok (false, st) := by show start env st t = _; unfold start; rw [ho]
      obtain ⟨r, hr⟩ := ih hw' hsl' st fun n i c h => hsrc n i c (Wants.cons.2 (.inr h))
      simp only [hst, hr]
      exact ⟨_, rfl⟩
    | some i =>
      have hiof : IconOf env t i := (hi i).1 rfl
      obtain ⟨hname, hslash⟩ := hsl.2 t (by simp) i hiof
      have hst : (icons env).start st t = .ok (true, st) := by show start env st t = _; unfold start; rw [ho]
      obtain ⟨w1, -⟩ := withMain_fs env st
      have hne : ∃ c, c ∈ i.colors := by
        obtain ⟨v, a, c, -, -, -, hr⟩ := hiof
        exact List.exists_mem_of_ne_nil _ hr.colorsNe
      obtain ⟨c0, hc0⟩ := hne
      obtain ⟨st2, h2⟩ := produceAll_ok hname hslash hiof.facts.2.1 i.colors (withMain env st)
        (fun c hc => ⟨hsl.1 c (hiof.facts.1 c hc), hiof.facts.1 c hc⟩)
        (by rw [w1]; exact hsrc i.name i.initial c0 (Wants.cons.2 (.inl ⟨i, hiof, rfl, rfl, hc0⟩)))
      obtain ⟨ts, hts, -⟩ := output_spec i hiof.facts.2.2
      have hcont : (icons env).cont st t = .ok (some ts, st2) := by
        show cont env st t = _
        unfold cont
        rw [ho]
        have h2 : produceAll env i (if env.self = env.main then st else { st with children := add st.children env.main }) i.colors = .ok st2 := h2
        simp only [h2, hts]
      have k := (produceAll_spec hname hslash i.colors (withMain env st) st2 (fun x hx => hsl.1 x (hiof.facts.1 x hx)) h2).1
      rw [w1] at k
      obtain ⟨r, hr⟩ := ih hw' hsl' st2 fun n i c h => by
        obtain ⟨b, hb⟩ := Option.isSome_iff_exists.1 (hsrc n i c (Wants.cons.2 (.inr h)))
        rw [k _ _ hb]; rfl
      simp only [hst, hcont, hr]
      exact ⟨_, rfl⟩

/-! ## The scan -/

theorem scanIcon_spec (env : Env) (i : Icon) (st : St) :
    (scanIcon env i st).fs = st.fs ∧ (scanIcon env i st).produced = st.produced ∧ (scanIcon env i st).reused = st.reused ∧
    (scanIcon env i st).children = st.children ∧
    (∀ p, p ∈ (scanIcon env i st).produces ↔ p ∈ st.produces ∨ ∃ c ∈ i.colors, p = i.output c ∨ p = i.output c ++ txt ".hash") ∧
    (∀ p, p ∈ (scanIcon env i st).dependencies ↔ p ∈ st.dependencies ∨ (p = env.main ∧ env.self ≠ env.main) ∨ p = i.input ∨
      ∃ c ∈ i.colors, p = i.output c ++ txt ".hash") := by
  have go : ∀ (cs : List Text) (st : St),
      let st' := cs.foldl (fun st c => { st with
        produces := add (add st.produces (i.output c)) (i.output c ++ txt ".hash")
        dependencies := add st.dependencies (i.output c ++ txt ".hash") }) st
      st'.fs = st.fs ∧ st'.produced = st.produced ∧ st'.reused = st.reused ∧ st'.children = st.children ∧
      (∀ p, p ∈ st'.produces ↔ p ∈ st.produces ∨ ∃ c ∈ cs, p = i.output c ∨ p = i.output c ++ txt ".hash") ∧
      (∀ p, p ∈ st'.dependencies ↔ p ∈ st.dependencies ∨ ∃ c ∈ cs, p = i.output c ++ txt ".hash") := by
    intro cs
    induction cs with
    | nil => intro st; simp
    | cons c cs ih =>
      intro st
      simp only [List.foldl_cons]
      obtain ⟨a, b, d, e, f, g⟩ := ih { st with
        produces := add (add st.produces (i.output c)) (i.output c ++ txt ".hash")
        dependencies := add st.dependencies (i.output c ++ txt ".hash") }
      refine ⟨a, b, d, e, ?_, ?_⟩
      · intro p
        rw [f]
        simp only [mem_add, List.mem_cons, exists_eq_or_imp, or_assoc]
      · intro p
        rw [g]
        simp only [mem_add, List.mem_cons, exists_eq_or_imp, or_assoc]
  unfold scanIcon
  simp only
  obtain ⟨a, b, d, e, f, g⟩ := go i.colors { (if env.self = env.main then st else { st with dependencies := add st.dependencies env.main }) with
    dependencies := add (if env.self = env.main then st else { st with dependencies := add st.dependencies env.main }).dependencies i.input }
  refine ⟨a.trans ?_, b.trans ?_, d.trans ?_, e.trans ?_, fun p => (f p).trans ?_, fun p => (g p).trans ?_⟩
  · split <;> rfl
  · split <;> rfl
  · split <;> rfl
  · split <;> rfl
  · split <;> rfl
  · by_cases h : env.self = env.main
    · simp only [h, if_true, mem_add, ne_eq, not_true, and_false, false_or, or_assoc]
    · simp only [h, if_false, mem_add, ne_eq, not_false_eq_true, and_true, or_assoc]

/-- What is announced before the build. -/
theorem scan_spec {env : Env} (hs : Spaces env.space) : ∀ (doc : List Tok), WellFormed env doc → Slashless env doc → ∀ (st : St),
    ∃ st', subAll (iconsScan env) st doc = .ok (doc, st') ∧ st'.fs = st.fs ∧
    (∀ p, p ∈ st'.produces ↔ p ∈ st.produces ∨ ∃ n i c, Wants env doc n i c ∧ (p = image n c ∨ p = image n c ++ txt ".hash")) ∧
    (∀ p, p ∈ st'.dependencies ↔ p ∈ st.dependencies ∨ ∃ n i c, Wants env doc n i c ∧
      ((p = env.main ∧ env.self ≠ env.main) ∨ p = source n ∨ p = image n c ++ txt ".hash")) := by
  intro doc
  induction doc with
  | nil =>
    intro _ _ st
    refine ⟨st, rfl, rfl, ?_, ?_⟩ <;> intro p <;> constructor
    · exact .inl
    · rintro (h | ⟨n, i, c, ⟨t, ht, -⟩, -⟩)
      · exact h
      · cases ht
    · exact .inl
    · rintro (h | ⟨n, i, c, ⟨t, ht, -⟩, -⟩)
      · exact h
      · cases ht
  | cons t doc ih =>
    intro hw hsl st
    have hw' : WellFormed env doc := fun x hx => hw x (by simp [hx])
    have hsl' : Slashless env doc := ⟨hsl.1, fun x hx => hsl.2 x (by simp [hx])⟩
    obtain ⟨o, ho, hi⟩ := getIcon_spec env hs hw (t := t) (by simp)
    simp only [subAll, sub]
    cases o with
    | none =>
      have hst : (iconsScan env).start st t = .ok (false, st) := by show scanStart env st t = _; unfold scanStart; rw [ho]
      have hno : ∀ j, ¬ IconOf env t j := fun j hj => by have := (hi j).2 hj; cases this
      have hwant : ∀ n i c, Wants env (t :: doc) n i c ↔ Wants env doc n i c := by
        intro n i c
        rw [Wants.cons]
        constructor
        · rintro (⟨j, hj, -⟩ | h)
          · exact absurd hj (hno j)
          · exact h
        · exact .inr
      obtain ⟨st', h1, h2, h3, h4⟩ := ih hw' hsl' st
      simp only [hst, h1, hwant]
      exact ⟨st', rfl, h2, h3, h4⟩
    | some i =>
      have hiof : IconOf env t i := (hi i).1 rfl
      obtain ⟨hname, hslash⟩ := hsl.2 t (by simp) i hiof
      have huniq : ∀ j, IconOf env t j → j = i := fun j hj => by have := (hi j).2 hj; cases this; rfl
      have hst : (iconsScan env).start st t = .ok (false, scanIcon env i st) := by show scanStart env st t = _; unfold scanStart; rw [ho]
      obtain ⟨a, -, -, -, f, g⟩ := scanIcon_spec env i st
      obtain ⟨st', h1, h2, h3, h4⟩ := ih hw' hsl' (scanIcon env i st)
      simp only [hst, h1]
      have hout : ∀ c ∈ i.colors, i.output c = image i.name c := fun c hc => output_eq hname hslash (hsl.1 c (hiof.facts.1 c hc))
      have hne : ∃ c, c ∈ i.colors := by
        obtain ⟨v, a, c, -, -, -, hr⟩ := hiof
        exact List.exists_mem_of_ne_nil _ hr.colorsNe
      obtain ⟨c0, hc0⟩ := hne
      refine ⟨st', rfl, h2.trans a, ?_, ?_⟩
      · intro p
        rw [h3, f]
        constructor
        · rintro ((h | ⟨c, hc, h⟩) | ⟨n, i0, c, hwc, h⟩)
          · exact .inl h
          · rw [hout c hc] at h; exact .inr ⟨_, _, c, Wants.cons.2 (.inl ⟨i, hiof, rfl, rfl, hc⟩), h⟩
          · exact .inr ⟨n, i0, c, Wants.cons.2 (.inr hwc), h⟩
        · rintro (h | ⟨n, i0, c, hwc, h⟩)
          · exact .inl (.inl h)
          · rcases Wants.cons.1 hwc with ⟨j, hj, rfl, -, hc⟩ | hwc
            · cases huniq j hj
              rw [← hout c hc] at h
              exact .inl (.inr ⟨c, hc, h⟩)
            · exact .inr ⟨n, i0, c, hwc, h⟩
      · intro p
        rw [h4, g]
        constructor
        · rintro ((h | h | h | ⟨c, hc, h⟩) | ⟨n, i0, c, hwc, h⟩)
          · exact .inl h
          · exact .inr ⟨_, _, c0, Wants.cons.2 (.inl ⟨i, hiof, rfl, rfl, hc0⟩), .inl h⟩
          · rw [input_eq hname hslash] at h
            exact .inr ⟨_, _, c0, Wants.cons.2 (.inl ⟨i, hiof, rfl, rfl, hc0⟩), .inr (.inl h)⟩
          · rw [hout c hc] at h; exact .inr ⟨_, _, c, Wants.cons.2 (.inl ⟨i, hiof, rfl, rfl, hc⟩), .inr (.inr h)⟩
          · exact .inr ⟨n, i0, c, Wants.cons.2 (.inr hwc), h⟩
        · rintro (h | ⟨n, i0, c, hwc, h⟩)
          · exact .inl (.inl h)
          · rcases Wants.cons.1 hwc with ⟨j, hj, rfl, -, hc⟩ | hwc
            · cases huniq j hj
              rw [← hout c hc, ← input_eq hname hslash] at h
              rcases h with h | h | h
              · exact .inl (.inr (.inl h))
              · exact .inl (.inr (.inr (.inl h)))
              · exact .inl (.inr (.inr (.inr ⟨c, hc, h⟩)))
            · exact .inr ⟨n, i0, c, hwc, h⟩

theorem iconsScan_single (env : Env) : Single (iconsScan env) := by
  intro s t s1 o s2 h1
  have h1 : scanStart env s t = .ok (true, s1) := h1
  unfold scanStart at h1
  split at h1 <;> cases h1

end Verif.Icons
