import Verif.CssPageThm

/-!
# C65: the build of a stylesheet reports what it writes
-/

namespace Verif.Css.Page

open Verif.Reader (Text txt)
open Verif.Css (Uni Tok tokenize serializeMany)
open Verif.Build
open Verif.Handlers (Bytes Fs Scan Built copyScan hashScan copyTarget hashBuild)
open Verif.Icons (add addAll mem_add mem_addAll)

/-- From the files `fs`, with `P` produced and `R` reused, to `fs'`: files are not removed, what has changed is among what is
produced, and what is reported exists. -/
structure Rep (fs : Fs) (P R : List Text) (fs' : Fs) (P' R' : List Text) : Prop where
  grow : ∀ p, (fs p).isSome → (fs' p).isSome
  sub : ∀ p ∈ P, p ∈ P'
  changed : ∀ p, fs' p ≠ fs p → p ∈ P'
  produced : ∀ p ∈ P', p ∈ P ∨ (fs' p).isSome
  reused : ∀ p ∈ R', p ∈ R ∨ (fs' p).isSome

theorem Rep.refl (fs : Fs) (P R : List Text) : Rep fs P R fs P R :=
  ⟨fun _ h => h, fun _ h => h, fun _ h => absurd rfl h, fun _ h => .inl h, fun _ h => .inl h⟩

theorem Rep.trans {fs fs1 fs2 : Fs} {P P1 P2 R R1 R2 : List Text} (h : Rep fs P R fs1 P1 R1) (h' : Rep fs1 P1 R1 fs2 P2 R2) :
    Rep fs P R fs2 P2 R2 where
  grow p hp := h'.grow p (h.grow p hp)
  sub p hp := h'.sub p (h.sub p hp)
  changed p hp := by
    by_cases h1 : fs2 p = fs1 p
    · rw [h1] at hp; exact h'.sub p (h.changed p hp)
    · exact h'.changed p h1
  produced p hp := by
    rcases h'.produced p hp with h1 | h1
    · exact (h.produced p h1).imp id (h'.grow p)
    · exact .inr h1
  reused p hp := by
    rcases h'.reused p hp with h1 | h1
    · exact (h.reused p h1).imp id (h'.grow p)
    · exact .inr h1

/-- A file is written, and reported. -/
theorem Rep.write (fs : Fs) (P R : List Text) (p : Text) (b : Bytes) : Rep fs P R (fs.write p b) (add P p) R where
  grow q hq := by by_cases h : q = p <;> simp [Fs.write, h, hq]
  sub q hq := by rw [mem_add]; exact .inl hq
  changed q hq := by
    rw [mem_add]
    by_cases h : q = p
    · exact .inr h
    · simp [Fs.write, h] at hq
  produced q hq := by
    rw [mem_add] at hq
    exact hq.imp id (fun h => by simp [Fs.write, h])
  reused q hq := .inl hq

/-- A file which exists is reported as reused. -/
theorem Rep.reuse {fs : Fs} (P R : List Text) {p : Text} (h : (fs p).isSome) : Rep fs P R fs P (add R p) where
  grow q hq := hq
  sub q hq := hq
  changed q hq := absurd rfl hq
  produced q hq := .inl hq
  reused q hq := by
    rw [mem_add] at hq
    exact hq.imp id (fun h1 => by rw [h1]; exact h)

/-- The hash of a file. -/
theorem Rep.hash {digest : Bytes → Bytes} {p : Text} {fs fs' : Fs} {r : Built} (P R : List Text) (h : hashBuild digest p fs = .ok (r, fs')) :
    Rep fs P R fs' (addAll P r.produced) (addAll R r.reused) := by
  unfold hashBuild at h
  split at h
  · cases h; exact .refl _ _ _
  · split at h
    · next heq => cases h; exact .reuse _ _ (by rw [heq]; rfl)
    · split at h
      · cases h
      · cases h; exact .write _ _ _ _ _

theorem produce_rep {env : Icons.Env} {i : Icons.Icon} {st st' : Icons.St} {c : Text} (h : Icons.produce env i st c = .ok st') :
    Rep st.fs st.produced st.reused st'.fs st'.produced st'.reused := by
  unfold Icons.produce at h
  simp only at h
  split at h
  · next hs => cases h; exact .reuse _ _ hs
  · split at h
    · cases h
    · split at h
      · split at h
        · cases h
        · next hh => cases h; exact (Rep.write _ _ _ _ _).trans (Rep.hash _ _ hh)
      · cases h

theorem produceAll_rep {env : Icons.Env} {i : Icons.Icon} : ∀ {cs : List Text} {st st' : Icons.St}, Icons.produceAll env i st cs = .ok st' →
    Rep st.fs st.produced st.reused st'.fs st'.produced st'.reused := by
  intro cs
  induction cs with
  | nil => intro st st' h; cases h; exact .refl _ _ _
  | cons c cs ih =>
    intro st st' h
    simp only [Icons.produceAll] at h
    split at h
    · cases h
    · next h1 => exact (produce_rep h1).trans (ih h)

theorem icons_rep {env : Icons.Env} {st st' : Icons.St} {t : Tok} {r : Option (List Tok)} (h : Icons.cont env st t = .ok (r, st')) :
    Rep st.fs st.produced st.reused st'.fs st'.produced st'.reused := by
  unfold Icons.cont at h
  split at h
  · cases h
  · cases h
  · split at h
    · cases h
    · next h1 =>
      split at h
      · cases h
      · cases h
        have h2 := produceAll_rep h1
        split at h2 <;> exact h2

/-- `os.path.lexists` is asked in the folder of the project. -/
def AtHome (env : Data.Env) : Prop := ∀ fs p, env.lexists fs p = (fs p).isSome

theorem make_rep {env : Data.Env} (hl : AtHome env) {new : Bool} {p d : Text} {st st' : Data.St} {b : Bytes}
    (h : Data.make env new p d st = .ok (b, st')) : Rep st.fs st.produced st.reused st'.fs st'.produced st'.reused := by
  unfold Data.make at h
  simp only at h
  split at h
  · cases h
  · next st1 heq =>
    split at h
    · cases h
    · cases h
      split at heq
      · split at heq
        · cases heq
        · next hh =>
          cases heq
          refine Rep.trans ?_ (Rep.hash _ _ hh)
          unfold Data.store
          split
          · next hx => exact .reuse _ _ (by rw [hl] at hx; exact hx)
          · exact .write _ _ _ _ _
      · cases heq; exact .refl _ _ _

theorem data_rep {env : Data.Env} (hl : AtHome env) {st st' : Data.St} {t : Tok} {r : Option (List Tok)}
    (h : Data.cont false env st t = .ok (r, st')) : Rep st.fs st.produced st.reused st'.fs st'.produced st'.reused := by
  unfold Data.cont at h
  simp only at h
  split at h
  · cases h
  · split at h
    · cases h; exact .refl _ _ _
    · cases h
  · split at h
    · cases h; exact .refl _ _ _
    · simp only [Bool.false_eq_true, if_false] at h
      split at h
      · cases h
      · next hm =>
        cases h
        have h1 := make_rep hl hm
        unfold Data.allot at h1
        split at h1 <;> exact h1

/-- So far. -/
structure Inv (fs : Fs) (s : St) : Prop where
  grow : ∀ p, (fs p).isSome → (s.fs p).isSome
  changed : ∀ p, s.fs p ≠ fs p → p ∈ s.icon.produced ∨ p ∈ s.data.produced
  exist : ∀ p, p ∈ s.icon.produced ∨ p ∈ s.icon.reused ∨ p ∈ s.data.produced ∨ p ∈ s.data.reused → (s.fs p).isSome

theorem Inv.new (fs : Fs) : Inv fs (St.new fs) := ⟨fun _ h => h, fun _ h => absurd rfl h, fun p h => by simp [St.new] at h⟩

theorem Inv.icon {fs : Fs} {s : St} (h : Inv fs s) {a : Icons.St} (hr : Rep s.fs s.icon.produced s.icon.reused a.fs a.produced a.reused) :
    Inv fs { s with fs := a.fs, icon := a } where
  grow p hp := hr.grow p (h.grow p hp)
  changed p hp := by
    by_cases h1 : a.fs p = s.fs p
    · replace hp : a.fs p ≠ fs p := hp
      rw [h1] at hp
      exact (h.changed p hp).imp (hr.sub p) id
    · exact .inl (hr.changed p h1)
  exist p hp := by
    show (a.fs p).isSome
    rcases hp with hp | hp | hp | hp
    · exact (hr.produced p hp).elim (fun h1 => hr.grow p (h.exist p (.inl h1))) id
    · exact (hr.reused p hp).elim (fun h1 => hr.grow p (h.exist p (.inr (.inl h1)))) id
    · exact hr.grow p (h.exist p (.inr (.inr (.inl hp))))
    · exact hr.grow p (h.exist p (.inr (.inr (.inr hp))))

theorem Inv.data {fs : Fs} {s : St} (h : Inv fs s) {a : Data.St} (hr : Rep s.fs s.data.produced s.data.reused a.fs a.produced a.reused) :
    Inv fs { s with fs := a.fs, data := a } where
  grow p hp := hr.grow p (h.grow p hp)
  changed p hp := by
    by_cases h1 : a.fs p = s.fs p
    · replace hp : a.fs p ≠ fs p := hp
      rw [h1] at hp
      exact (h.changed p hp).imp id (hr.sub p)
    · exact .inr (hr.changed p h1)
  exist p hp := by
    show (a.fs p).isSome
    rcases hp with hp | hp | hp | hp
    · exact hr.grow p (h.exist p (.inl hp))
    · exact hr.grow p (h.exist p (.inr (.inl hp)))
    · exact (hr.produced p hp).elim (fun h1 => hr.grow p (h.exist p (.inr (.inr (.inl h1))))) id
    · exact (hr.reused p hp).elim (fun h1 => hr.grow p (h.exist p (.inr (.inr (.inr h1))))) id

theorem part_start {A E : Type} {look : St → A} {store : St → A → St} {err : E → Err} {m : Manip A Tok E} {s s' : St} {t : Tok} {x : Bool}
    (h : (part look store err m).start s t = .ok (x, s')) : ∃ a, m.start (look s) t = .ok (x, a) ∧ s' = store s a := by
  simp only [part] at h
  split at h
  · cases h
  · next heq => cases h; exact ⟨_, heq, rfl⟩

theorem inv_start {fs : Fs} {n : Nat} {env : Env} {s s' : St} {t : Tok} {m : Manip St Tok Err} {x : Bool} (hm : m ∈ buildManips n env)
    (h : m.start s t = .ok (x, s')) (hi : Inv fs s) : Inv fs s' := by
  simp only [buildManips, List.mem_cons, List.not_mem_nil, or_false] at hm
  rcases hm with rfl | rfl | rfl | rfl
  · obtain ⟨a, -, rfl⟩ := part_start h; exact ⟨hi.grow, hi.changed, hi.exist⟩
  · obtain ⟨a, ha, rfl⟩ := part_start h
    refine hi.icon ?_
    replace ha : Icons.start env.icon _ t = .ok (x, a) := ha
    unfold Icons.start at ha
    split at ha
    · cases ha
    · cases ha; exact .refl _ _ _
    · cases ha; exact .refl _ _ _
  · obtain ⟨a, ha, rfl⟩ := part_start h
    refine hi.data ?_
    replace ha : Data.start _ t = .ok (x, a) := ha
    unfold Data.start at ha
    split at ha
    · split at ha
      · cases ha; exact .refl _ _ _
      · split at ha <;> cases ha <;> exact .refl _ _ _
    · cases ha; exact .refl _ _ _
  · obtain ⟨a, ha, rfl⟩ := part_start h
    replace ha : Urls.start false env.urls _ t = .ok (x, a) := ha
    have hfs : a.fs = s.fs := by
      rw [Urls.start_spec] at ha
      split at ha
      · simp only [Bool.false_eq_true, if_false, Except.ok.injEq, Prod.mk.injEq] at ha; rw [← ha.2]
      · simp only [Except.ok.injEq, Prod.mk.injEq] at ha; rw [← ha.2]
    refine ⟨?_, ?_, ?_⟩ <;> simp only [hfs]
    · exact hi.grow
    · exact hi.changed
    · exact hi.exist

theorem inv_cont {fs : Fs} {n : Nat} {env : Env} (hl : AtHome env.data) {s s' : St} {t : Tok} {m : Manip St Tok Err} {r : Option (List Tok)}
    (hm : m ∈ buildManips n env) (h : m.cont s t = .ok (r, s')) (hi : Inv fs s) : Inv fs s' := by
  simp only [buildManips, List.mem_cons, List.not_mem_nil, or_false] at hm
  rcases hm with rfl | rfl | rfl | rfl
  · obtain ⟨a, -, rfl⟩ := part_goes h; exact ⟨hi.grow, hi.changed, hi.exist⟩
  · obtain ⟨a, ha, rfl⟩ := part_goes h
    exact hi.icon (icons_rep (env := env.icon) ha)
  · obtain ⟨a, ha, rfl⟩ := part_goes h
    exact hi.data (data_rep (env := env.data) hl ha)
  · obtain ⟨a, ha, rfl⟩ := part_goes h
    replace ha : Urls.cont env.urls _ t = .ok (r, a) := ha
    have hsuf : ∀ st st' v w, Urls.suffixed env.urls st v = .ok (w, st') → st'.fs = st.fs := by
      intro st st' v w h
      unfold Urls.suffixed at h
      split at h
      · cases h; rfl
      · split at h
        · cases h
        · cases h; rfl
    have hfs : a.fs = s.fs := by
      unfold Urls.cont at ha
      split at ha
      · split at ha
        · cases ha
        · next h2 => cases ha; have h3 := hsuf _ _ _ _ h2; exact h3
      · split at ha
        · cases ha
        · next h2 => cases ha; have h3 := hsuf _ _ _ _ h2; exact h3
      · cases ha
    refine ⟨?_, ?_, ?_⟩ <;> simp only [hfs]
    · exact hi.grow
    · exact hi.changed
    · exact hi.exist

/-- A property which is kept by each manipulator is kept by all. -/
theorem stream_inv {S τ E : Type} {ms : List (Manip S τ E)} (I : S → Prop) (h1 : ∀ m ∈ ms, ∀ s t x s', m.start s t = .ok (x, s') → I s → I s')
    (h2 : ∀ m ∈ ms, ∀ s t r s', m.cont s t = .ok (r, s') → I s → I s') {s s' : S} {ts out : List τ} {m : Option (Manip S τ E)}
    (h : Stream ms s ts out m s') : I s → I s' := by
  have hdec : ∀ {ms' : List (Manip S τ E)} {s t s'}, (∀ m ∈ ms', m ∈ ms) → Declined ms' s t s' → I s → I s' := by
    intro ms' s t s' hsub hd
    induction hd with
    | nil => exact id
    | cons h _ ih => intro hi; exact ih (fun m hm => hsub m (List.mem_cons_of_mem _ hm)) (h1 _ (hsub _ (by simp)) _ _ _ _ h hi)
  have htake : ∀ {ms' : List (Manip S τ E)} {s t m s'}, (∀ m ∈ ms', m ∈ ms) → Taken ms' s t m s' → I s → I s' ∧ m ∈ ms := by
    intro ms' s t m s' hsub hd
    induction hd with
    | head h => intro hi; exact ⟨h1 _ (hsub _ (by simp)) _ _ _ _ h hi, hsub _ (by simp)⟩
    | tail h _ ih => intro hi; exact ih (fun m hm => hsub m (List.mem_cons_of_mem _ hm)) (h1 _ (hsub _ (by simp)) _ _ _ _ h hi)
  have hopen : ∀ {m : Manip S τ E} {s ts s'}, m ∈ ms → Open m s ts s' → I s → I s' := by
    intro m s ts s' hm ho
    induction ho with
    | nil => exact id
    | cons h _ ih => intro hi; exact ih (h2 _ hm _ _ _ _ h hi)
  induction h with
  | nil => exact id
  | keep h _ ih => intro hi; exact ih (hdec (fun _ h => h) h hi)
  | replace h _ hc _ ih =>
    intro hi
    obtain ⟨hi1, hm⟩ := htake (fun _ h => h) h hi
    obtain ⟨a, x, s1, -, ho, hx⟩ := hc
    exact ih (h2 _ hm _ _ _ _ hx (hopen hm ho hi1))
  | unfinished h _ ho =>
    intro hi
    obtain ⟨hi1, hm⟩ := htake (fun _ h => h) h hi
    exact hopen hm ho hi1

theorem mem_merge (r x : Built) (p : Text) : (p ∈ (merge r x).produced ↔ p ∈ r.produced ∨ p ∈ x.produced) ∧
    (p ∈ (merge r x).reused → p ∈ r.reused ∨ p ∈ x.reused) := by
  refine ⟨mem_addAll, fun h => ?_⟩
  rcases mem_addAll.1 h with h | h
  · exact .inl h
  · exact .inr (List.mem_filter.1 h).1

/-- **C65**: when a stylesheet has been built, every file which is not as it was before is reported as produced, no file is
removed, everything that is reported exists, and the output is reported. -/
theorem C65 {fuel n : Nat} {env : Env} (hl : AtHome env.data) {rel target : Text} {fs fs' : Fs} {r : Built}
    (h : buildFile fuel n env rel fs = some (.ok (r, fs'))) (ht : copyTarget rel = some target) :
    (∀ p, fs' p ≠ fs p → p ∈ r.produced) ∧ (∀ p, (fs p).isSome → (fs' p).isSome) ∧
    (∀ p, p ∈ r.produced ∨ p ∈ r.reused → (fs' p).isSome) ∧ target ∈ r.produced := by
  unfold buildFile at h
  rw [ht] at h
  simp only at h
  split at h
  · cases h
  · split at h
    · cases h
    · next ts _ =>
      simp only [Option.map_eq_some_iff] at h
      obtain ⟨x, h1, h2⟩ := h
      split at h2
      · cases h2
      · next out b =>
        split at h2
        · cases h2
        · next hb fs2 hh =>
          cases h2
          have hi : Inv fs b.st := stream_inv (Inv fs) (fun m hm s t x s' h hi => inv_start hm h hi)
            (fun m hm s t r s' h hi => inv_cont hl hm h hi) (C32 _ _ _ _ _ _ h1) (.new fs)
          have hr : Rep b.st.fs [] [] fs' (addAll (add [] target) hb.produced) (addAll [] hb.reused) :=
            (Rep.write _ _ _ _ _).trans (Rep.hash _ _ hh)
          have hp : ∀ p, p ∈ (buildResult target hb b.st).produced ↔
              p ∈ addAll (add [] target) hb.produced ∨ p ∈ b.st.icon.produced ∨ p ∈ b.st.data.produced := by
            intro p
            simp only [buildResult, List.foldl_cons, List.foldl_nil, (mem_merge _ _ _).1, mem_addAll, mem_add, List.not_mem_nil,
              List.mem_singleton, or_false, false_or]
            constructor
            · rintro (((rfl | h) | h) | h) <;> simp_all
            · rintro ((rfl | h) | h | h) <;> simp_all
          have hre : ∀ p, p ∈ (buildResult target hb b.st).reused →
              p ∈ addAll [] hb.reused ∨ p ∈ b.st.icon.reused ∨ p ∈ b.st.data.reused := by
            intro p h
            rw [mem_addAll]
            have h' := (mem_merge _ _ _).2 h
            rcases h' with h' | h'
            · rcases (mem_merge _ _ _).2 h' with h' | h'
              · rcases (mem_merge _ _ _).2 h' with h' | h'
                · rcases (mem_merge _ _ _).2 h' with h' | h'
                  · rcases (mem_merge _ _ _).2 h' with h' | h'
                    · simp at h'
                    · exact .inl (.inr h')
                  · simp at h'
                · exact .inr (.inl h')
              · exact .inr (.inr h')
            · simp at h'
          refine ⟨?_, fun p h => hr.grow p (hi.grow p h), ?_, ?_⟩
          · intro p h
            rw [hp]
            by_cases h3 : fs' p = b.st.fs p
            · rw [h3] at h; exact .inr (hi.changed p h)
            · exact .inl (hr.changed p h3)
          · intro p h
            rcases h with h | h
            · rcases (hp p).1 h with h | h | h
              · exact (hr.produced p h).elim (by simp) id
              · exact hr.grow p (hi.exist p (.inl h))
              · exact hr.grow p (hi.exist p (.inr (.inr (.inl h))))
            · rcases hre p h with h | h | h
              · exact (hr.reused p h).elim (by simp) id
              · exact hr.grow p (hi.exist p (.inr (.inl h)))
              · exact hr.grow p (hi.exist p (.inr (.inr (.inr h))))
          · rw [hp, mem_addAll, mem_add]; simp

end Verif.Css.Page
