import Verif.NestRun

/-!
# C46: nested rule imports expand completely
-/

namespace Verif.Nest

open Verif.Reader Verif.Css Verif.Assoc Verif.Build

variable {env : Env} {sheets : Text → List (Text × List Tok)}

/-- The stylesheets which can be imported from: `paths` are their paths in the project, `sheets` gives their rules.
The file itself is read as it is, of the others what was built from them.  No two rules of a file have the same selector,
and imports in the rules are from these files, too. -/
structure Project (env : Env) (paths : Text → Prop) (sheets : Text → List (Text × List Tok)) : Prop where
  /-- `next(iter(s))` is an element of the set. -/
  pick : ∀ l, l ≠ [] → env.pick l ∈ l
  /-- Different stylesheets are in different files. -/
  source : ∀ p q, paths p → paths q → source env p = source env q → p = q
  /-- What is in the files; a file which is not there has no rules. -/
  files : ∀ p, paths p → (∃ ts, env.files (Nest.source env p) = some ts ∧ Sheet env ts (sheets p)) ∨
    env.files (Nest.source env p) = none ∧ sheets p = []
  distinct : ∀ p, paths p → (keys (sheets p)).Nodup
  closed : ∀ p, paths p → ∀ rule ∈ sheets p, ∀ r, Imports env rule.2 r → paths r.relpath

/-- The state of the manipulator while it is used. -/
structure Good (env : Env) (paths : Text → Prop) (sheets : Text → List (Text × List Tok)) (st : St) : Prop where
  inv : Inv env (declsOf sheets) st.rules
  reading : ∀ p, paths p → ∀ g, st.gens (source env p) = some g → Reading env sheets st.rules p g
  fresh : ∀ p, paths p → st.gens (source env p) = none → ∀ q, ¬ Registered st.rules ⟨p, q⟩

theorem Good.new (paths : Text → Prop) : Good env paths sheets St.new :=
  ⟨.empty, fun p _ g h => by simp [St.new] at h,
    fun p _ _ q h => by rcases h with h | h <;> simp [St.new, Rules.empty, item] at h⟩

theorem ensureResolved_spec {paths : Text → Prop} (hp : Project env paths sheets) (imp : Ref) (hpath : paths imp.relpath)
    {st : St} (hg : Good env paths sheets st) :
    (∃ st', Ends (fun n => ensureResolved env n imp st) (.ok st') ∧ Good env paths sheets st' ∧
      (item st'.rules.avail imp).isSome ∧ st'.children = st.children ∧
      (∀ x, (item st.rules.avail x).isSome → (item st'.rules.avail x).isSome)) ∨
    (∃ e, (e = .notFound ∨ e = .noFile) ∧ Ends (fun n => ensureResolved env n imp st) (.error e) ∧
      ∀ known : Ref → Prop, (∀ x, known x → (item st.rules.avail x).isSome) → ¬ Solvable env (declsOf sheets) known imp) := by
  obtain ⟨rs1, h1, h2, h3, h4, h5⟩ := resolveAll_spec hp.pick (keys st.rules.unres).length (keys st.rules.unres) st.rules
    (Nat.le_refl _) hg.inv.book.nodup
    (fun x hx => by
      by_cases h : x ∈ keys st.rules.unres
      · exact h
      · rw [get_none.2 h] at hx; cases hx) hg.inv
  obtain ⟨N1, e1⟩ := h1
  have hreg : ∀ p g, Reading env sheets st.rules p g → Reading env sheets rs1 p g := by
    rintro p g ⟨d, r, a, b, c⟩
    exact ⟨d, r, a, b, fun q => by rw [h4]; exact c q⟩
  cases ha : item rs1.avail imp with
  | some b =>
    refine .inl ⟨{ st with rules := rs1 }, ⟨N1, fun n hn => ?_⟩, ⟨h2, ?_, ?_⟩, by dsimp only; rw [ha]; rfl, rfl, h5⟩
    · have e : resolveAll env n st.rules = .ok rs1 := e1 n hn
      simp [ensureResolved, e, ha]
    · intro p hpp g hgg; exact hreg p g (hg.reading p hpp g hgg)
    · intro p hpp hgg q hq; exact hg.fresh p hpp hgg q ((h4 _).1 hq)
  | none =>
    -- what is still to be read
    cases hsrc : (st.gens (source env imp.relpath)).or (env.files (source env imp.relpath)) with
    | none =>
      simp only [Option.or_eq_none_iff] at hsrc
      refine .inr ⟨.noFile, .inr rfl, ⟨N1, fun n hn => ?_⟩, ?_⟩
      · have e : resolveAll env n st.rules = .ok rs1 := e1 n hn
        simp [ensureResolved, e, ha, hsrc.1, hsrc.2]
      · intro known hk hsol
        rcases hp.files imp.relpath hpath with ⟨ts, h6, -⟩ | ⟨-, h6⟩
        · rw [hsrc.2] at h6; cases h6
        · cases hsol with
          | seen h => have := h5 _ (hk _ h); rw [ha] at this; cases this
          | rule hd _ _ => unfold declsOf at hd; rw [h6] at hd; cases hd
    | some g =>
      have hread : Reading env sheets rs1 imp.relpath g := by
        cases hgen : st.gens (source env imp.relpath) with
        | some g0 =>
          rw [hgen] at hsrc
          simp only [Option.some_or, Option.some.injEq] at hsrc
          subst hsrc
          exact hreg _ _ (hg.reading _ hpath _ hgen)
        | none =>
          rw [hgen, Option.none_or] at hsrc
          rcases hp.files imp.relpath hpath with ⟨ts, h6, h7⟩ | ⟨h6, -⟩
          · rw [hsrc] at h6; cases h6
            refine ⟨[], sheets imp.relpath, rfl, h7, fun q => ?_⟩
            rw [h4]
            simp only [keys, List.map_nil, List.not_mem_nil, iff_false]
            exact hg.fresh _ hpath hgen q
          · rw [hsrc] at h6; cases h6
      obtain ⟨done, rest, h6, h7, h8⟩ := hread
      have run : ∀ (res : Except Err (List Tok × Rules)), Ends (fun n => ensureUsing env imp n g rs1) res →
          Ends (fun n => ensureResolved env n imp st) (match res with
            | .error e => .error e
            | .ok (g', rs') => .ok { st with
                rules := rs'
                gens := fun p => if p = source env imp.relpath then some g' else st.gens p }) := by
        rintro res ⟨N2, e2⟩
        refine ⟨max N1 N2, fun n hn => ?_⟩
        have e : resolveAll env n st.rules = .ok rs1 := e1 n (by omega)
        have e' : ensureUsing env imp n g rs1 = res := e2 n (by omega)
        simp only [ensureResolved, e, ha, Option.isSome_none, Bool.false_eq_true, if_false, hsrc, e']
        cases res <;> rfl
      rcases ensureUsing_spec hp.pick imp (hp.distinct _ hpath) h7 done rs1 h2 h6 h8 with
        ⟨g', rs', k1, k2, k3, k4, k5, k6⟩ | ⟨k1, k2⟩
      · refine .inl ⟨_, run _ k1, ⟨k2, ?_, ?_⟩, k3, rfl, fun x hx => k6 x (h5 x hx)⟩
        · intro p hpp g1 hg1
          dsimp only at hg1 ⊢
          split at hg1
          · next e =>
            cases hg1
            rw [hp.source p imp.relpath hpp hpath e]; exact k4
          · next e =>
            obtain ⟨d, r, a, b, c⟩ := hg.reading p hpp g1 hg1
            refine ⟨d, r, a, b, fun q => ?_⟩
            rw [k5 ⟨p, q⟩ (fun he => e (by rw [show p = imp.relpath from he])), h4]; exact c q
        · intro p hpp hg1 q hq
          dsimp only at hg1 hq
          split at hg1
          · cases hg1
          · next e =>
            rw [k5 ⟨p, q⟩ (fun he => e (by rw [show p = imp.relpath from he])), h4] at hq
            exact hg.fresh p hpp hg1 q hq
      · exact .inr ⟨.notFound, .inl rfl, run _ k1, fun known hk => k2 known fun x hx => h5 x (hk x hx)⟩

theorem start_none (st : St) {t : Tok} (h : getImport env t = none) : start env st t = .ok (false, st) := by
  simp [start, h]

/-- Tokens without imports are kept. -/
theorem loop_pure (n : Nat) {ts : List Tok} (h : Pure env ts) : ∀ (stack out : List Tok) (st : St) (f : Nat),
    loop [nest env n] (f + ts.length) ⟨out, none, st⟩ (ts ++ stack) = loop [nest env n] f ⟨out ++ ts, none, st⟩ stack := by
  induction ts with
  | nil => intro stack out st f; simp
  | cons t ts ih =>
    intro stack out st f
    have ht := h t (by simp)
    rw [List.length_cons, ← Nat.add_assoc, List.cons_append]
    simp only [loop, round, findMark, nest, start_none st ht]
    have := ih (fun x hx => h x (by simp [hx])) stack (out ++ [t]) st f
    rw [List.append_assoc, List.singleton_append] at this
    exact this

/-- The tokens of a document, one import after the other: with `known` already resolved. -/
theorem document_spec {paths : Text → Prop} (hp : Project env paths sheets) : ∀ (doc : List Tok),
    (∀ r, Imports env doc r → paths r.relpath) → ∀ (st : St), Good env paths sheets st →
    (∃ out st', Expands env (declsOf sheets) doc out ∧ Good env paths sheets st' ∧
      ∃ N F, ∀ n, N ≤ n → ∀ f, F ≤ f → ∀ pre, loop [nest env n] f ⟨pre, none, st⟩ doc = some (.ok ⟨pre ++ out, none, st'⟩)) ∨
    (∃ e, (e = .notFound ∨ e = .noFile) ∧
      (∃ N F, ∀ n, N ≤ n → ∀ f, F ≤ f → ∀ pre, loop [nest env n] f ⟨pre, none, st⟩ doc = some (.error e)) ∧
      ∃ a t b r, doc = a ++ t :: b ∧ getImport env t = some r ∧
        ∀ known : Ref → Prop, (∀ x, known x → (item st.rules.avail x).isSome ∨ Imports env a x) →
          ¬ Solvable env (declsOf sheets) known r) := by
  intro doc
  induction doc with
  | nil =>
    intro _ st hg
    exact .inl ⟨[], st, .nil, hg, 0, 0, fun n _ f _ pre => by cases f <;> simp [loop]⟩
  | cons t doc ih =>
    intro hpaths st hg
    have hpaths' : ∀ r, Imports env doc r → paths r.relpath := fun r ⟨x, h1, h2⟩ => hpaths r ⟨x, by simp [h1], h2⟩
    cases ht : getImport env t with
    | none =>
      have hstep : ∀ n f pre, loop [nest env n] (f + 1) ⟨pre, none, st⟩ (t :: doc) = loop [nest env n] f ⟨pre ++ [t], none, st⟩ doc := by
        intro n f pre
        simp only [loop, round, findMark, nest, start_none st ht]
      rcases ih hpaths' st hg with ⟨out, st', h1, h2, N, F, h3⟩ | ⟨e, he, ⟨N, F, h3⟩, a, t', b, r, h4, h5, h6⟩
      · refine .inl ⟨t :: out, st', .keep ht h1, h2, N, F + 1, fun n hn f hf pre => ?_⟩
        obtain ⟨k, rfl⟩ : ∃ k, f = k + 1 := ⟨f - 1, by omega⟩
        rw [hstep, h3 n hn k (by omega)]; simp
      · refine .inr ⟨e, he, ⟨N, F + 1, fun n hn f hf pre => ?_⟩, t :: a, t', b, r, by rw [h4]; rfl, h5, fun known hk => h6 known fun x hx => ?_⟩
        · obtain ⟨k, rfl⟩ : ∃ k, f = k + 1 := ⟨f - 1, by omega⟩
          rw [hstep, h3 n hn k (by omega)]
        · rcases hk x hx with h | ⟨y, h7, h8⟩
          · exact .inl h
          · rcases List.mem_cons.1 h7 with h9 | h9
            · subst h9; rw [ht] at h8; cases h8
            · exact .inr ⟨y, h9, h8⟩
    | some r =>
      -- `start` notes the file
      let st1 : St := if r.relpath = env.self ∨ r.relpath ∈ st.children then st
        else { st with children := st.children ++ [r.relpath] }
      have hst1 : st1.rules = st.rules ∧ st1.gens = st.gens := by
        show (if _ then _ else _ : St).rules = _ ∧ (if _ then _ else _ : St).gens = _
        split <;> exact ⟨rfl, rfl⟩
      have hstart : start env st t = .ok (true, st1) := by simp only [start, ht]; rfl
      have hg1 : Good env paths sheets st1 := by
        obtain ⟨a, b, c⟩ := hg
        refine ⟨by rw [hst1.1]; exact a, ?_, ?_⟩
        · intro p hpp g h; rw [hst1.2] at h; rw [hst1.1]; exact b p hpp g h
        · intro p hpp h; rw [hst1.2] at h; rw [hst1.1]; exact c p hpp h
      rcases ensureResolved_spec hp r (hpaths r ⟨t, by simp, ht⟩) hg1 with
        ⟨st2, h1, h2, h3, h4, h5⟩ | ⟨e, he, h1, h2⟩
      · cases hb : item st2.rules.avail r with
        | none => rw [hb] at h3; cases h3
        | some b =>
          obtain ⟨hbf, hbp, body, b0, hd, hex, htr⟩ := h2.inv.sound r b hb
          obtain ⟨N1, e1⟩ := h1
          have hstep : ∀ n, N1 ≤ n → ∀ f pre, loop [nest env n] (f + b.length + 1) ⟨pre, none, st⟩ (t :: doc) =
              loop [nest env n] f ⟨pre ++ b, none, st2⟩ doc := by
            intro n hn f pre
            have e1' : ensureResolved env n r st1 = .ok st2 := e1 n hn
            have hc : cont env n st1 t = .ok (some b, st2) := by simp only [cont, ht, e1', hb]
            rw [← loop_pure n hbp doc pre st2 f]
            rw [loop]
            simp only [round, findMark, continueMark, nest, hstart, hc]
          rcases ih hpaths' st2 h2 with ⟨out, st', k1, k2, N, F, k3⟩ | ⟨e, he, ⟨N, F, k3⟩, a, t', b', r', k4, k5, k6⟩
          · refine .inl ⟨b ++ out, st', .replace ht hd hex htr k1, k2, max N N1, F + b.length + 1, fun n hn f hf pre => ?_⟩
            obtain ⟨k, rfl⟩ : ∃ k, f = k + b.length + 1 := ⟨f - (b.length + 1), by omega⟩
            rw [hstep n (by omega), k3 n (by omega) k (by omega)]; simp
          · refine .inr ⟨e, he, ⟨max N N1, F + b.length + 1, fun n hn f hf pre => ?_⟩, t :: a, t', b', r', by rw [k4]; rfl, k5,
              fun known hk => k6 known fun x hx => ?_⟩
            · obtain ⟨k, rfl⟩ : ∃ k, f = k + b.length + 1 := ⟨f - (b.length + 1), by omega⟩
              rw [hstep n (by omega), k3 n (by omega) k (by omega)]
            · rcases hk x hx with h | ⟨y, h7, h8⟩
              · exact .inl (h5 x (by rw [hst1.1]; exact h))
              · rcases List.mem_cons.1 h7 with h9 | h9
                · subst h9; rw [ht] at h8; cases h8; exact .inl h3
                · exact .inr ⟨y, h9, h8⟩
      · refine .inr ⟨e, he, ?_, [], t, doc, r, rfl, ht, fun known hk => h2 known fun x hx => ?_⟩
        · obtain ⟨N1, e1⟩ := h1
          refine ⟨N1, 1, fun n hn f hf pre => ?_⟩
          obtain ⟨k, rfl⟩ : ∃ k, f = k + 1 := ⟨f - 1, by omega⟩
          have e1' : ensureResolved env n r st1 = .error e := e1 n hn
          have hc : cont env n st1 t = .error e := by simp only [cont, ht, e1']
          rw [loop]
          simp only [round, findMark, continueMark, nest, hstart, hc]
        · rcases hk x hx with h | ⟨y, h7, -⟩
          · rw [hst1.1]; exact h
          · simp at h7

/-! ## The property -/

/-- The whole run over a stylesheet: with enough fuel the result is `res`, which are the tokens of the output or an
exception. -/
def Result (env : Env) (doc : List Tok) (res : Except Err (List Tok)) : Prop :=
  ∃ N F, ∀ n, N ≤ n → ∀ f, F ≤ f →
    (loop [nest env n] f ⟨[], none, St.new⟩ doc).map (fun r => r.map (·.output)) = some res

/-- C46: the imports of a stylesheet `doc` are expanded, whatever the order of the rules, if every import names a rule
which can be found: one whose imports are in the same file and can be found, or are also imported further up in
`doc`. -/
theorem C46_partial {paths : Text → Prop} (hp : Project env paths sheets) (doc : List Tok)
    (hpaths : ∀ r, Imports env doc r → paths r.relpath)
    (hsolv : ∀ a t b r, doc = a ++ t :: b → getImport env t = some r →
      Solvable env (declsOf sheets) (Imports env a) r) :
    ∃ out, Expands env (declsOf sheets) doc out ∧ Result env doc (.ok out) := by
  rcases document_spec hp doc hpaths St.new (.new paths) with ⟨out, st', h1, -, N, F, h2⟩ | ⟨e, -, -, a, t, b, r, h3, h4, h5⟩
  · refine ⟨out, h1, N, F, fun n hn f hf => ?_⟩
    rw [h2 n hn f hf]; rfl
  · exact absurd (hsolv a t b r h3 h4) (h5 _ fun x hx => .inr hx)

/-- C46: what comes out is the stylesheet with all its imports expanded, or else an exception says that a rule or a file
was not found; it never goes on for ever. -/
theorem C46_ends {paths : Text → Prop} (hp : Project env paths sheets) (doc : List Tok)
    (hpaths : ∀ r, Imports env doc r → paths r.relpath) :
    (∃ out, Expands env (declsOf sheets) doc out ∧ Result env doc (.ok out)) ∨
    Result env doc (.error .notFound) ∨ Result env doc (.error .noFile) := by
  rcases document_spec hp doc hpaths St.new (.new paths) with ⟨out, st', h1, -, N, F, h2⟩ | ⟨e, he, ⟨N, F, h3⟩, -⟩
  · refine .inl ⟨out, h1, N, F, fun n hn f hf => ?_⟩
    rw [h2 n hn f hf]; rfl
  · have : Result env doc (.error e) := ⟨N, F, fun n hn f hf => by rw [h3 n hn f hf]; rfl⟩
    rcases he with rfl | rfl
    · exact .inr (.inl this)
    · exact .inr (.inr this)

/-- C46: if an import is circular or names a rule which is not there, so that the imports cannot be expanded, this is
reported. -/
theorem C46_reported {paths : Text → Prop} (hp : Project env paths sheets) (doc : List Tok)
    (hpaths : ∀ r, Imports env doc r → paths r.relpath) (hno : ¬ ∃ out, Expands env (declsOf sheets) doc out) :
    Result env doc (.error .notFound) ∨ Result env doc (.error .noFile) := by
  rcases C46_ends hp doc hpaths with ⟨out, h, -⟩ | h
  · exact absurd ⟨out, h⟩ hno
  · exact h

/-- A rule whose imports can be expanded can be found, if the rules of every file import from that file only. -/
theorem solvable_of_expands (hlocal : ∀ p, ∀ rule ∈ sheets p, ∀ r, Imports env rule.2 r → r.relpath = p) (known : Ref → Prop)
    {ts out : List Tok} (h : Expands env (declsOf sheets) ts out) : ∀ r, Imports env ts r → Solvable env (declsOf sheets) known r := by
  induction h with
  | nil => rintro r ⟨t, h, -⟩; simp at h
  | keep h1 _ ih =>
    rintro r ⟨t, h2, h3⟩
    rcases List.mem_cons.1 h2 with h4 | h4
    · subst h4; rw [h1] at h3; cases h3
    · exact ih r ⟨t, h4, h3⟩
  | @replace t0 r0 body b b' ts0 out0 h1 h2 _ _ _ ihb ih =>
    rintro r ⟨t, h3, h4⟩
    rcases List.mem_cons.1 h3 with h5 | h5
    · subst h5; rw [h1] at h4; cases h4
      exact .rule h2 (fun m hm => .inr (hlocal _ _ (mem_of_get h2) m hm)) ihb
    · exact ih r ⟨t, h5, h4⟩

/-- C46 for stylesheets whose rules import from the same file only (all others are built before and have no imports left):
the imports are expanded whenever this is possible, and otherwise it is reported. -/
theorem C46_local {paths : Text → Prop} (hp : Project env paths sheets) (doc : List Tok)
    (hpaths : ∀ r, Imports env doc r → paths r.relpath)
    (hlocal : ∀ p, ∀ rule ∈ sheets p, ∀ r, Imports env rule.2 r → r.relpath = p) :
    ((∃ out, Expands env (declsOf sheets) doc out) →
      ∃ out, Expands env (declsOf sheets) doc out ∧ Result env doc (.ok out)) ∧
    ((¬ ∃ out, Expands env (declsOf sheets) doc out) →
      Result env doc (.error .notFound) ∨ Result env doc (.error .noFile)) := by
  refine ⟨fun ⟨out, h⟩ => C46_partial hp doc hpaths fun a t b r hd ht => ?_, C46_reported hp doc hpaths⟩
  exact solvable_of_expands hlocal _ h r ⟨t, by rw [hd]; simp, ht⟩

theorem Result.unique {env : Env} {doc : List Tok} {a b : Except Err (List Tok)} (ha : Result env doc a) (hb : Result env doc b) :
    a = b := by
  obtain ⟨N, F, h1⟩ := ha
  obtain ⟨M, G, h2⟩ := hb
  have e1 := h1 (max N M) (by omega) (max F G) (by omega)
  have e2 := h2 (max N M) (by omega) (max F G) (by omega)
  rw [e1] at e2
  exact Option.some.inj e2

end Verif.Nest
