import Verif.CssAgree

/-!
# Rules of other stylesheets
-/

namespace Verif.Css.Page

open Verif.Reader (Text txt)
open Verif.Css (Uni Tok tokenize serializeMany)
open Verif.Build
open Verif.Handlers (Bytes Fs Scan Built copyScan hashScan copyTarget hashBuild)
open Verif.Icons (add addAll mem_add mem_addAll)

/-! ## What has been built needs nothing -/

theorem settled_suffices {env : Env} {D P : Text → Prop} (hl : env.urls.lower (txt "url") = txt "url") {ts : List Tok} (h : Settled env ts) {σ : Pos}
    (ho : σ.Outside) : Suffices env D P σ ts σ := by
  obtain ⟨pr, sk, ins, bd, n⟩ := σ
  obtain ⟨rfl, rfl, rfl⟩ := ho
  have inner : ∀ (ws : List Tok) (prev : Bool), (∀ t ∈ ws, NoCommand env t) → (∀ v, .str v ∈ ws → Urls.hashOf env.urls v = none ∧ Data.dataOf v = none) →
      .rightParens ∉ ws → .function (txt "url") ∉ ws → ∃ prev', Suffices env D P ⟨prev, false, true, bd, n⟩ ws ⟨prev', false, true, bd, n⟩ := by
    intro ws
    induction ws with
    | nil => intro prev _ _ _ _; exact ⟨prev, rfl⟩
    | cons t ws ih =>
      intro prev h1 h2 h3 h4
      have hf : Data.found prev t = none := by
        unfold Data.found Data.tokData
        split
        · cases t <;> try rfl
          exact (h2 _ (by simp)).2
        · rfl
      have e : Pos.next env ⟨prev, false, true, bd, n⟩ t = ⟨false, false, true, bd, n⟩ := by
        have e1 : Data.isUrl t = false := decide_eq_false (by rintro rfl; exact h4 (by simp))
        have e2 : Urls.flagAfter env.urls true t = true := by
          cases t <;> first | rfl | exact absurd (by simp) h3
        simp [Pos.next, hf, e1, e2]
      obtain ⟨p', hp⟩ := ih false (fun x hx => h1 x (by simp [hx])) (fun v hv => h2 v (by simp [hv])) (fun h => h3 (by simp [h])) (fun h => h4 (by simp [h]))
      obtain ⟨c1, c2⟩ := h1 t (by simp)
      refine ⟨p', ⟨?_, ?_, ?_, ?_⟩, by rw [e]; exact hp⟩
      · intro v g hv hg
        rcases (Urls.urlHere_iff _ _ _).1 hv with ⟨rfl, -⟩ | ⟨-, h⟩
        · rw [(h2 v (by simp)).1] at hg; cases hg
        · exact absurd rfl h
      · intro i hi; rw [c1] at hi; cases hi
      · intro r hr; rw [c2] at hr; cases hr
      · intro x p hx
        rw [show Data.found (Pos.mk prev false true bd n).prev t = none from hf] at hx
        cases hx
  induction h with
  | nil => rfl
  | @one t ts hc hf hu _ ih =>
    have e : Pos.next env ⟨false, false, false, bd, n⟩ t = ⟨false, false, false, bd, n⟩ := by
      have h1 : Data.isUrl t = false := decide_eq_false (by rintro rfl; exact hf _ rfl hl)
      have h2 : Urls.flagAfter env.urls false t = false := by
        cases t <;> try rfl
        next v => simpa [Urls.flagAfter] using hf v rfl
      simp [Pos.next, Data.found, h1, h2]
    refine ⟨⟨?_, ?_, ?_, ?_⟩, by rw [e]; exact ih⟩
    · intro v g hv hg
      rcases (Urls.urlHere_iff _ _ _).1 hv with ⟨-, h⟩ | ⟨rfl, -⟩
      · cases h
      · rw [hu v rfl] at hg; cases hg
    · intro i hi; rw [hc.1] at hi; cases hi
    · intro r hr; rw [hc.2] at hr; cases hr
    · intro x p hx; cases hx
  | @url f ws ts hf h1 h2 h3 h4 _ ih =>
    refine ⟨⟨fun v g hv => (by cases hv), fun i hi => (by cases hi), fun r hr => (by cases hr), fun x p hx => (by cases hx)⟩, ?_⟩
    have e1 : Pos.next env ⟨false, false, false, bd, n⟩ (.function f) = ⟨Data.isUrl (.function f), false, true, bd, n⟩ := by
      simp [Pos.next, Data.found, Urls.flagAfter, hf]
    rw [e1]
    obtain ⟨p', hp⟩ := inner ws _ (fun t ht => (h1 t ht).1) h2 h3 h4
    refine hp.append ⟨⟨fun v g hv => (by cases hv), fun i hi => (by cases hi), fun r hr => (by cases hr), fun x p hx => ?_⟩, ?_⟩
    · simp [Data.found, Data.tokData] at hx
    · have e2 : Pos.next env ⟨p', false, true, bd, n⟩ .rightParens = ⟨false, false, false, bd, n⟩ := by
        simp [Pos.next, Data.found, Data.tokData, Data.isUrl, Urls.flagAfter]
      rw [e2]
      exact ih

/-! ## Parts of what has been built -/

theorem Settled.commands {env : Env} {ts : List Tok} (h : Settled env ts) : ∀ t ∈ ts, NoCommand env t := by
  induction h with
  | nil => intro t ht; simp at ht
  | one hc _ _ _ ih =>
    intro t ht
    rcases List.mem_cons.1 ht with rfl | ht
    · exact hc
    · exact ih t ht
  | url _ h1 _ _ _ _ ih =>
    intro t ht
    simp only [List.cons_append, List.mem_cons, List.mem_append] at ht
    rcases ht with rfl | ht | rfl | ht
    · exact ⟨rfl, rfl⟩
    · exact (h1 t ht).1
    · exact ⟨rfl, rfl⟩
    · exact ih t ht

/-- Brackets and the like are not inside of an URL. -/
theorem Settled.cut {env : Env} {ts : List Tok} (h : Settled env ts) : ∀ {a b : List Tok} {c : Tok}, ts = a ++ c :: b →
    (c = .leftCurly ∨ c = .rightCurly ∨ c = .cdc ∨ c = .eof) → Settled env a ∧ Settled env b := by
  induction h with
  | nil => intro a b c e; simp at e
  | @one t ts hc hf hu hts ih =>
    intro a b c e hcc
    cases a with
    | nil =>
      cases e
      exact ⟨.nil, hts⟩
    | cons x a =>
      cases e
      obtain ⟨h1, h2⟩ := ih rfl hcc
      exact ⟨.one hc hf hu h1, h2⟩
  | @url f ws ts hf h1 h2 h3 h4 hts ih =>
    intro a b c e hcc
    have hnot : c ∉ (Tok.function f :: ws ++ [.rightParens]) := by
      intro hm
      simp only [List.cons_append, List.mem_cons, List.mem_append, List.not_mem_nil, or_false] at hm
      rcases hm with rfl | hm | rfl
      · simp at hcc
      · have := h1 c hm
        rcases hcc with rfl | rfl | rfl | rfl <;> simp at this
      · simp at hcc
    have e' : (Tok.function f :: ws ++ [.rightParens]) ++ ts = a ++ c :: b := by rw [← e]; simp
    rcases List.append_eq_append_iff.1 e' with ⟨a', ha, hb⟩ | ⟨c', hc', hd⟩
    · obtain ⟨g1, g2⟩ := ih hb hcc
      subst ha
      refine ⟨?_, g2⟩
      have := Settled.url hf h1 h2 h3 h4 g1
      simpa using this
    · cases c' with
      | nil =>
        simp only [List.append_nil] at hc'
        obtain ⟨g1, g2⟩ := ih (a := []) hd.symm hcc
        rw [← hc']
        exact ⟨by simpa using Settled.url hf h1 h2 h3 h4 .nil, g2⟩
      | cons y c' =>
        cases hd
        exact absurd (by rw [hc']; simp) hnot

theorem Settled.init {env : Env} {ts : List Tok} (h : Settled env ts) : ∀ {a : List Tok} {c : Tok}, ts = a ++ [c] → c ≠ .rightParens → Settled env a := by
  induction h with
  | nil => intro a c e; simp at e
  | @one t ts hc hf hu hts ih =>
    intro a c e hcc
    cases a with
    | nil => exact .nil
    | cons x a =>
      cases e
      exact .one hc hf hu (ih rfl hcc)
  | @url f ws ts hf h1 h2 h3 h4 hts ih =>
    intro a c e hcc
    rcases List.eq_nil_or_concat ts with rfl | ⟨ts', x, rfl⟩
    · exfalso
      have : (Tok.function f :: ws) ++ [.rightParens] = a ++ [c] := e
      have h := List.append_inj_right' this rfl
      cases h
      exact hcc rfl
    · rw [List.concat_eq_append] at e ih
      have e' : (Tok.function f :: ws ++ .rightParens :: ts') ++ [x] = a ++ [c] := by rw [← e]; simp
      have g1 := List.append_inj_left' e' rfl
      have g2 := List.append_inj_right' e' rfl
      cases g2
      rw [← g1]
      exact .url hf h1 h2 h3 h4 (ih rfl hcc)

theorem Settled.tail {env : Env} {t : Tok} {ts : List Tok} (h : Settled env (t :: ts)) (ht : ∀ v, t ≠ .function v) : Settled env ts := by
  generalize e : t :: ts = l at h
  cases h with
  | nil => cases e
  | one _ _ _ h => cases e; exact h
  | url => simp only [List.cons_append, List.cons.injEq] at e; exact absurd e.1 (ht _)

theorem Settled.popBlank {env : Env} {ts : List Tok} (h : Settled env ts) : Settled env (Nest.popBlank ts) := by
  induction hn : ts.length generalizing ts with
  | zero => cases List.length_eq_zero_iff.1 hn; exact .nil
  | succ n ih =>
    rcases List.eq_nil_or_concat ts with rfl | ⟨a, c, rfl⟩
    · exact .nil
    · rw [List.concat_eq_append] at h hn ⊢
      unfold Nest.popBlank at ih ⊢
      simp only [List.reverse_append, List.reverse_singleton, List.singleton_append, List.dropWhile_cons]
      split
      · next hb =>
        refine ih (h.init rfl (by rintro rfl; cases hb)) (by simpa using hn)
      · simpa using h

/-! ## Reading the rules -/

theorem takeBlock_part : ∀ (n : Nat) (g xs r : List Tok), Nest.takeBlock (n + 1) g = .ok (xs, r) → ∃ ys, xs = ys ++ [.rightCurly] ∧ g = xs ++ r := by
  intro n g
  induction g generalizing n with
  | nil => intro xs r h; simp [Nest.takeBlock] at h
  | cons t g ih =>
    intro xs r h
    by_cases he : t = .eof
    · subst he; simp [Nest.takeBlock] at h
    rw [Nest.takeBlock.eq_4 _ _ _ he] at h
    split at h
    · cases h
    · next ys r' h1 =>
      cases h
      split at h1
      · obtain ⟨zs, rfl, rfl⟩ := ih _ _ _ h1
        exact ⟨t :: zs, rfl, rfl⟩
      · split at h1
        · next hr =>
          subst hr
          cases n with
          | zero =>
            simp only [Nest.takeBlock] at h1
            cases h1
            exact ⟨[], rfl, rfl⟩
          | succ m =>
            obtain ⟨zs, rfl, rfl⟩ := ih _ _ _ h1
            exact ⟨_ :: zs, rfl, rfl⟩
        · obtain ⟨zs, rfl, rfl⟩ := ih _ _ _ h1
          exact ⟨t :: zs, rfl, rfl⟩

theorem takePrelude_part : ∀ (g pre r : List Tok), Nest.takePrelude g = .ok (pre, r) → g = pre ++ .leftCurly :: r := by
  intro g
  induction g with
  | nil => intro pre r h; cases h
  | cons t g ih =>
    intro pre r h
    unfold Nest.takePrelude at h
    split at h
    · cases h
    · cases h
    · next heq => cases heq; cases h; rfl
    · next heq =>
      cases heq
      split at h
      · cases h
      · next h1 => cases h; rw [ih _ _ h1]; rfl

theorem skipOpen_part : ∀ (g r : List Tok), Nest.skipOpen g = .ok r → ∃ a, g = a ++ .leftCurly :: r := by
  intro g
  induction g with
  | nil => intro r h; cases h
  | cons t g ih =>
    intro r h
    unfold Nest.skipOpen at h
    split at h
    · cases h
    · cases h
    · next heq => cases heq; cases h; exact ⟨[], rfl⟩
    · next heq =>
      cases heq
      obtain ⟨a, rfl⟩ := ih _ h
      exact ⟨t :: a, rfl⟩

theorem skipCdc_part : ∀ (g r : List Tok), Nest.skipCdc g = .ok r → ∃ a, g = a ++ .cdc :: r := by
  intro g
  induction g with
  | nil => intro r h; cases h
  | cons t g ih =>
    intro r h
    unfold Nest.skipCdc at h
    split at h
    · cases h
    · cases h
    · next heq => cases heq; cases h; exact ⟨[], rfl⟩
    · next heq =>
      cases heq
      obtain ⟨a, rfl⟩ := ih _ h
      exact ⟨t :: a, rfl⟩

/-- The block of a rule without imports: what is read, but for whitespace at the beginning. -/
theorem takeBody_part {env : Nest.Env} {avail : List (Nest.Ref × List Tok)} : ∀ (n : Nat) (value : List Tok) (missing : List Nest.Ref) (g v : List Tok)
    (m : List Nest.Ref) (r : List Tok), (∀ t ∈ g, Nest.getImport env t = none) → Nest.takeBody env avail n [] value missing g = .ok (v, m, r) →
    m = missing ∧ ∃ bl seg, (∀ t ∈ bl, Nest.isBlank t = true) ∧ (value ≠ [] → bl = []) ∧ g = bl ++ seg ++ .rightCurly :: r ∧ v = value ++ seg := by
  intro n
  induction n with
  | zero => intro value missing g v m r _ h; cases h
  | succ n ih =>
    intro value missing g v m r hg h
    unfold Nest.takeBody at h
    cases g with
    | nil => simp [Nest.popTok] at h
    | cons t g =>
      have hg' : ∀ t ∈ g, Nest.getImport env t = none := fun x hx => hg x (by simp [hx])
      simp only [Nest.popTok, hg t (by simp)] at h
      split at h
      · next hb =>
        obtain ⟨h1, bl, seg, h2, -, h3, h4⟩ := ih _ _ _ _ _ _ hg' h
        refine ⟨h1, t :: bl, seg, ?_, fun hne => absurd hb.1 hne, by rw [h3]; rfl, h4⟩
        intro x hx
        rcases List.mem_cons.1 hx with rfl | hx
        · exact hb.2
        · exact h2 x hx
      · split at h
        · cases h
        · split at h
          · next hl =>
            subst hl
            split at h
            · cases h
            · next xs g' hb =>
              obtain ⟨ys, rfl, rfl⟩ := takeBlock_part _ _ _ _ hb
              obtain ⟨h1, bl, seg, h2, h5, h3, h4⟩ := ih _ _ _ _ _ _ (fun x hx => hg' x (by simp [hx])) h
              have h6 := h5 (by simp)
              subst h6
              refine ⟨h1, [], .leftCurly :: (ys ++ [.rightCurly]) ++ seg, by simp, fun _ => rfl, ?_, ?_⟩
              · rw [h3]; simp
              · rw [h4]; simp
          · split at h
            · next hr =>
              subst hr
              cases h
              exact ⟨rfl, [], [], by simp, fun _ => rfl, rfl, by simp⟩
            · obtain ⟨h1, bl, seg, h2, h5, h3, h4⟩ := ih _ _ _ _ _ _ hg' h
              have h6 := h5 (by simp)
              subst h6
              refine ⟨h1, [], t :: seg, by simp, fun _ => rfl, ?_, ?_⟩
              · rw [h3]; simp
              · rw [h4]; simp

theorem settled_blanks {env : Env} {bl ts : List Tok} (hb : ∀ t ∈ bl, Nest.isBlank t = true) (h : Settled env (bl ++ ts)) : Settled env ts := by
  induction bl with
  | nil => exact h
  | cons t bl ih =>
    refine ih (fun x hx => hb x (by simp [hx])) (Settled.tail (t := t) h ?_)
    rintro v rfl
    have := hb (.function v) (by simp)
    cases this

/-- The rules which have been read are settled, and none waits for another. -/
structure Tidy (env : Env) (rs : Nest.Rules) : Prop where
  avail : ∀ r b, Assoc.item rs.avail r = some b → Settled env b
  unres : rs.unres = []
  waiting : rs.waiting = []
  resolvable : rs.resolvable = []

theorem Tidy.set {env : Env} {rs rs' : Nest.Rules} {ref : Nest.Ref} {b : List Tok} (h : Tidy env rs) (hb : Settled env b)
    (hs : Nest.setRule rs ref b [] = .ok rs') : Tidy env rs' := by
  unfold Nest.setRule at hs
  split at hs
  · cases hs
  · simp only [if_true, h.waiting, Assoc.item] at hs
    cases hs
    refine ⟨?_, by simp [h.unres, Assoc.del], rfl, by simp [h.resolvable]⟩
    intro r b' hr
    simp only [Assoc.get_put] at hr
    split at hr
    · cases hr; exact hb
    · exact h.avail r b' hr

theorem Tidy.resolveAll {env : Env} {n : Nat} {rs rs' : Nest.Rules} (h : Tidy env rs) (hr : Nest.resolveAll env.nest n rs = .ok rs') : rs' = rs := by
  cases n with
  | zero => cases hr
  | succ n => simp only [Nest.resolveAll, h.resolvable, if_true] at hr; cases hr; rfl

theorem readNext_tidy {env : Env} {n : Nat} {imp : Nest.Ref} {g g' : List Tok} {rs rs' : Nest.Rules} (h : Tidy env rs) (hg : Settled env g)
    (hr : Nest.readNext env.nest n imp g rs = .ok (g', rs')) : Tidy env rs' ∧ Settled env g' := by
  have rule : ∀ t g, Settled env (t :: g) → Nest.readRule env.nest n imp t g rs = .ok (g', rs') → Tidy env rs' ∧ Settled env g' := by
    intro t g hg hr
    unfold Nest.readRule at hr
    split at hr
    · cases hr
    · next pre g1 hp =>
      have e1 := takePrelude_part _ _ _ hp
      have hg1 : Settled env g1 := (hg.cut (a := t :: pre) (b := g1) (by rw [e1]; rfl) (.inl rfl)).2
      split at hr
      · cases hr
      · next value missing g2 hb =>
        obtain ⟨rfl, bl, seg, b1, -, b2, b3⟩ := takeBody_part _ _ _ _ _ _ _ (fun x hx => (hg1.commands x hx).2) hb
        obtain ⟨c1, c2⟩ := hg1.cut b2 (.inr (.inl rfl))
        have c3 := settled_blanks b1 c1
        simp only [List.nil_append] at b3
        subst b3
        split at hr
        · cases hr
        · next hs => cases hr; exact ⟨h.set c3.popBlank hs, c2⟩
  unfold Nest.readNext at hr
  split at hr
  · cases hr
  · cases hr
  · split at hr
    · cases hr
    · next h1 =>
      cases hr
      obtain ⟨a, ha⟩ := skipCdc_part _ _ h1
      exact ⟨h, (hg.cut (a := .cdo :: a) (by rw [ha]; rfl) (.inr (.inr (.inl rfl)))).2⟩
  · split at hr
    · cases hr
    · next h1 =>
      obtain ⟨a, ha⟩ := skipOpen_part _ _ h1
      split at hr
      · cases hr
      · next h2 =>
        cases hr
        have hg1 := (hg.cut (a := .atKeyword _ :: a) (by rw [ha]; rfl) (.inl rfl)).2
        obtain ⟨ys, rfl, e⟩ := takeBlock_part _ _ _ _ h2
        exact ⟨h, (hg1.cut (a := ys) (b := g') (by rw [e]; simp) (.inr (.inl rfl))).2⟩
  · cases hr; exact ⟨h, hg.tail (by simp)⟩
  · cases hr; exact ⟨h, hg.tail (by simp)⟩
  · exact rule _ _ hg hr

theorem ensureUsing_tidy {env : Env} {imp : Nest.Ref} : ∀ (n : Nat) (g g' : List Tok) (rs rs' : Nest.Rules), Tidy env rs → Settled env g →
    Nest.ensureUsing env.nest imp n g rs = .ok (g', rs') → Tidy env rs' ∧ Settled env g' := by
  intro n
  induction n with
  | zero => intro g g' rs rs' _ _ h; cases h
  | succ n ih =>
    intro g g' rs rs' h hg hr
    simp only [Nest.ensureUsing] at hr
    split at hr
    · cases hr
    · next rs1 h1 =>
      have := h.resolveAll h1
      subst this
      split at hr
      · cases hr; exact ⟨h, hg⟩
      · split at hr
        · cases hr
        · next h2 =>
          obtain ⟨t1, t2⟩ := readNext_tidy h hg h2
          exact ih _ _ _ _ t1 t2 hr

/-- What holds while only rules of other stylesheets have been imported. -/
def TidySt (env : Env) (st : Nest.St) : Prop := Tidy env st.rules ∧ ∀ p g, st.gens p = some g → Settled env g

theorem tidy_meets {env : Env} {n : Nat} {D P : Text → Prop} (hl : env.urls.lower (txt "url") = txt "url") : NestMeets env n D P (TidySt env) := by
  refine ⟨fun st cs h => h, ?_⟩
  intro st st' t r b hr hf hI hc
  simp only [Nest.cont, hr] at hc
  split at hc
  · cases hc
  · next st1 h1 =>
    have h2 : TidySt env st1 := by
      unfold Nest.ensureResolved at h1
      split at h1
      · cases h1
      · next rs hrs =>
        have := hI.1.resolveAll hrs
        subst this
        split at h1
        · cases h1; exact hI
        · split at h1
          · cases h1
          · next g hg =>
            have hg' : Settled env g := by
              rw [Option.or_eq_some_iff] at hg
              rcases hg with hg | ⟨-, hg⟩
              · exact hI.2 _ _ hg
              · exact hf.2 _ hg
            split at h1
            · cases h1
            · next g1 rs1 hu =>
              cases h1
              obtain ⟨u1, u2⟩ := ensureUsing_tidy _ _ _ _ _ hI.1 hg' hu
              refine ⟨u1, fun p x hx => ?_⟩
              simp only at hx
              split at hx
              · cases hx; exact u2
              · exact hI.2 p x hx
    split at hc
    · cases hc
    · next hb =>
      cases hc
      exact ⟨h2, fun σ ho => settled_suffices hl (h2.1.avail _ _ hb) ho⟩

/-! ## The property -/

theorem new_tidy (env : Env) : TidySt env Nest.St.new :=
  ⟨⟨fun r b h => (by cases h), rfl, rfl, rfl⟩, fun p g h => (by cases h)⟩

theorem mem_merge_children (r x : Built) (p : Text) : p ∈ (merge r x).children ↔ p ∈ r.children ∨ p ∈ x.children := mem_addAll

/-- What the build of a stylesheet reports is what the stylesheet needs and becomes. -/
theorem build_reports {env : Env} {rel stem : Text} (hrel : Data.Stylesheet rel stem) (hself : env.data.self = rel) {fs fs' : Fs} {b : Bytes}
    (hb : fs rel = some b) {ts : List Tok} (ht : tokenize env.nest.uni (env.decode b) = .ok ts) (he : Data.Ended ts) (hr : Urls.Rooted ts)
    (hsp : Icons.Spaces env.icon.space) (hw : Icons.WellFormed env.icon ts) (hsl : Icons.Slashless env.icon ts)
    (hl : env.urls.lower (txt "url") = txt "url") (hv : env.urls.lower (txt "var") ≠ txt "url") (htame : Tame env ts)
    {fuel n : Nat} {r : Built} (h : buildFile fuel n env rel fs = some (.ok (r, fs'))) :
    (∀ p ∈ r.children, Depends env ts p) ∧ (∀ p, p ∈ r.produced ∨ p ∈ r.reused → Makes env stem ts p) := by
  have e1 : Handlers.Public rel (stem ++ txt ".css") := by
    unfold Handlers.Public
    rw [hrel.1, List.append_assoc]
  subst hself
  obtain ⟨out, da, h1, h2, h3, h4⟩ := data_scan hrel fs he
  obtain ⟨f, acc, rest, h5⟩ : ∃ out st', Data.run true env.data false (Data.fresh fs) ts = .ok (out, st') ∧ ∀ q ∈ st'.produces, Data.Outputs stem ts q := by
    obtain ⟨out, pos, st, g1, g2⟩ := Data.inv_run (scan := true) (env := { env.data with lexists := fun fs p => (fs p).isSome }) (fs := fun _ => none)
      (stem := stem) hrel (fun _ _ => rfl) (fun _ _ => rfl) ts
    have g3 := run_files env.data _ fs ts _ _ _ _ g1
    exact ⟨out, _, g3, fun q hq => by simpa using (g2.made q).1 hq⟩
  obtain ⟨σ', hσ⟩ := suffices_doc (stem := stem) hr hsp hw hsl htame ts [] ⟨false, false, false, [], 0⟩ (Data.fresh fs) _ _ rfl rfl
    (by simpa using Urls.not_inside_nil env.urls.lower) rfl rfl rest h5
  unfold buildFile at h
  rw [Handlers.copyTarget_public e1, hb] at h
  simp only [ht, Option.map_eq_some_iff] at h
  obtain ⟨x, h6, h7⟩ := h
  split at h7
  · cases h7
  · next out' bst =>
    split at h7
    · cases h7
    · next hb' fs2 hh =>
      cases h7
      have hs := C32 _ _ _ _ _ _ h6
      rw [tokensOf_perToken] at hs
      have hrep := stream_reports (D := Depends env ts) (P := Makes env stem ts) (tidy_meets hl) hl hv hs
        ⟨by simp [St.new, Nest.St.new], by simp [St.new], by simp [St.new], by simp [St.new], by simp [St.new], by simp [St.new], by simp [St.new], by simp [St.new]⟩
        (new_tidy env) ⟨false, false, false, [], 0⟩ σ' ⟨rfl, rfl, rfl, rfl, rfl⟩ (fun h => by cases h) hσ
      obtain ⟨b1, b2, b3⟩ := hashBuild_reports hh
      have e4 : (hashScan (Handlers.outWww ++ (stem ++ txt ".css"))).produces = [txt "out/www/" ++ stem ++ txt ".css" ++ txt ".hash"] := by
        unfold hashScan
        rw [Handlers.hashTarget_out, ← List.append_assoc]; rfl
      have m1 : Makes env stem ts (Handlers.outWww ++ (stem ++ txt ".css")) := .inl (.inl (by rw [← List.append_assoc]; rfl))
      have m2 : ∀ q ∈ (hashScan (Handlers.outWww ++ (stem ++ txt ".css"))).produces, Makes env stem ts q := by
        intro q hq
        rw [e4] at hq
        exact .inl (.inr (by simpa using hq))
      constructor
      · intro p hp
        simp only [buildResult, List.foldl_cons, List.foldl_nil, mem_merge_children, List.not_mem_nil, false_or, b1] at hp
        rcases hp with ((hp | hp) | hp) | hp
        · exact hrep.nest p hp
        · exact hrep.iconC p hp
        · exact hrep.dataC p hp
        · exact hrep.urls p hp
      · intro p hp
        rcases hp with hp | hp
        · simp only [buildResult, List.foldl_cons, List.foldl_nil, (mem_merge _ _ _).1, List.not_mem_nil, List.mem_singleton, or_false] at hp
          rcases hp with ((hp | hp) | hp) | hp
          · rw [hp]; exact m1
          · exact m2 p (b2 p hp)
          · exact hrep.iconP p hp
          · exact hrep.dataP p hp
        · rcases (mem_merge _ _ _).2 hp with hp | hp
          · rcases (mem_merge _ _ _).2 hp with hp | hp
            · rcases (mem_merge _ _ _).2 hp with hp | hp
              · rcases (mem_merge _ _ _).2 hp with hp | hp
                · rcases (mem_merge _ _ _).2 hp with hp | hp
                  · simp at hp
                  · exact m2 p (b3 p hp)
                · simp at hp
              · exact hrep.iconR p hp
            · exact hrep.dataR p hp
          · simp at hp

/-- **C78**, but for stylesheets which import their own rules: what the build of a stylesheet reports has been announced by its
scan.  The scan is made when the source is the same; the other files may differ. -/
theorem C78_partial {env : Env} {rel stem : Text} (hrel : Data.Stylesheet rel stem) (hself : env.data.self = rel) {fs fs' : Fs} {b : Bytes}
    (hb : fs rel = some b) {ts : List Tok} (ht : tokenize env.nest.uni (env.decode b) = .ok ts) (he : Data.Ended ts) (hr : Urls.Rooted ts)
    (hsp : Icons.Spaces env.icon.space) (hw : Icons.WellFormed env.icon ts) (hsl : Icons.Slashless env.icon ts)
    (hl : env.urls.lower (txt "url") = txt "url") (hv : env.urls.lower (txt "var") ≠ txt "url") (htame : Tame env ts)
    {fuel n : Nat} {r : Built} (h : buildFile fuel n env rel fs = some (.ok (r, fs')))
    {files : Text → Option (List Tok)} {fs0 : Fs} (hb0 : fs0 rel = some b) {fuel0 : Nat} {sc : Scan}
    (h0 : scanFile fuel0 { env with nest := { env.nest with files := files } } rel fs0 = some (.ok sc)) :
    (∀ p ∈ r.children, p ∈ sc.dependencies) ∧ (∀ p ∈ r.produced, p ∈ sc.produces) ∧ ∀ p ∈ r.reused, p ∈ sc.produces := by
  obtain ⟨g1, g2⟩ := build_reports hrel hself hb ht he hr hsp hw hsl hl hv htame h
  obtain ⟨f, r0, c1, c2, c3, c4, -⟩ := C77 (env := { env with nest := { env.nest with files := files } }) hrel hself hb0 ht he hr hsp hw hsl
  have := c2 _ _ h0
  cases this
  refine ⟨fun p hp => c4 p (g1 p hp), fun p hp => (c3 p).2 (g2 p (.inl hp)), fun p hp => (c3 p).2 (g2 p (.inr hp))⟩

end Verif.Css.Page
