import Verif.NestThm

/-!
A run which comes to an end with some fuel comes to the same end with more.
-/

namespace Verif.Nest

open Verif.Reader Verif.Css Verif.Assoc Verif.Build

/-- The results agree unless the fuel did not suffice for the first. -/
def Stays {α : Type} (a b : Except Err α) : Prop := a ≠ .error .fuel → b = a

theorem Stays.refl {α : Type} (a : Except Err α) : Stays a a := fun _ => rfl

theorem Stays.cases {α : Type} {a b : Except Err α} (h : Stays a b) : a = .error .fuel ∨ b = a := by
  by_cases ha : a = .error .fuel
  · exact .inl ha
  · exact .inr (h ha)

variable {env : Env}

theorem takeBody_stays (avail : List (Ref × List Tok)) : ∀ (n : Nat) (stack value : List Tok) (missing : List Ref) (g : List Tok),
    Stays (takeBody env avail n stack value missing g) (takeBody env avail (n + 1) stack value missing g) := by
  intro n
  induction n with
  | zero => intro s v m g h; exact absurd rfl h
  | succ n ih =>
    intro stack value missing g
    rw [takeBody, takeBody]
    cases popTok stack g with
    | none => exact .refl _
    | some p =>
      obtain ⟨t, stack, g⟩ := p
      dsimp only
      by_cases h1 : value = [] ∧ isBlank t
      · rw [if_pos h1, if_pos h1]; exact ih _ _ _ _
      · rw [if_neg h1, if_neg h1]
        cases getImport env t with
        | some r =>
          dsimp only
          cases item avail r with
          | some b => exact ih _ _ _ _
          | none => exact ih _ _ _ _
        | none =>
          dsimp only
          by_cases h2 : t = .eof
          · rw [if_pos h2, if_pos h2]; exact .refl _
          · rw [if_neg h2, if_neg h2]
            by_cases h3 : t = .leftCurly
            · rw [if_pos h3, if_pos h3]
              cases takeBlock 1 g with
              | error e => exact .refl _
              | ok p => exact ih _ _ _ _
            · rw [if_neg h3, if_neg h3]
              by_cases h4 : t = .rightCurly
              · rw [if_pos h4, if_pos h4]; exact .refl _
              · rw [if_neg h4, if_neg h4]; exact ih _ _ _ _

theorem expand_stays (avail : List (Ref × List Tok)) : ∀ (n : Nat) (stack nodes : List Tok),
    Stays (expand env avail n stack nodes) (expand env avail (n + 1) stack nodes) := by
  intro n
  induction n with
  | zero => intro s v h; cases s <;> exact absurd rfl h
  | succ n ih =>
    intro stack nodes
    cases stack with
    | nil => exact .refl _
    | cons t stack =>
      rw [expand, expand]
      cases getImport env t with
      | none => exact ih _ _
      | some r =>
        dsimp only
        cases item avail r with
        | none => exact .refl _
        | some b => exact ih _ _

theorem resolve_stays (n : Nat) (r : Ref) (rs : Rules) : Stays (resolve env n r rs) (resolve env (n + 1) r rs) := by
  rw [resolve, resolve]
  cases item rs.unres r with
  | none => exact .refl _
  | some u =>
    dsimp only
    rcases (expand_stays (env := env) rs.avail n u.block []).cases with h | h
    · rw [h]; exact fun hne => absurd rfl hne
    · rw [h]; exact .refl _

theorem resolveAll_stays : ∀ (n : Nat) (rs : Rules), Stays (resolveAll env n rs) (resolveAll env (n + 1) rs) := by
  intro n
  induction n with
  | zero => intro rs h; exact absurd rfl h
  | succ n ih =>
    intro rs
    rw [resolveAll, resolveAll]
    by_cases h : rs.resolvable = []
    · rw [if_pos h, if_pos h]; exact .refl _
    · rw [if_neg h, if_neg h]
      rcases (resolve_stays (env := env) n (env.pick rs.resolvable) rs).cases with h | h
      · rw [h]; exact fun hne => absurd rfl hne
      · rw [h]
        cases resolve env n (env.pick rs.resolvable) rs with
        | error e => exact .refl _
        | ok rs' => exact ih rs'

theorem readRule_stays (n : Nat) (imp : Ref) (t : Tok) (g : List Tok) (rs : Rules) :
    Stays (readRule env n imp t g rs) (readRule env (n + 1) imp t g rs) := by
  rw [readRule, readRule]
  cases takePrelude g with
  | error e => exact .refl _
  | ok p =>
    dsimp only
    rcases (takeBody_stays (env := env) rs.avail n [] [] [] p.2).cases with h | h
    · rw [h]; exact fun hne => absurd rfl hne
    · rw [h]; exact .refl _

theorem readNext_stays (n : Nat) (imp : Ref) (g : List Tok) (rs : Rules) :
    Stays (readNext env n imp g rs) (readNext env (n + 1) imp g rs) := by
  cases g with
  | nil => exact .refl _
  | cons t g => cases t <;> first | exact .refl _ | exact readRule_stays _ _ _ _ _

theorem ensureUsing_stays (imp : Ref) : ∀ (n : Nat) (g : List Tok) (rs : Rules),
    Stays (ensureUsing env imp n g rs) (ensureUsing env imp (n + 1) g rs) := by
  intro n
  induction n with
  | zero => intro g rs h; exact absurd rfl h
  | succ n ih =>
    intro g rs
    rw [ensureUsing, ensureUsing]
    rcases (resolveAll_stays (env := env) n rs).cases with h | h
    · rw [h]; exact fun hne => absurd rfl hne
    · rw [h]
      cases resolveAll env n rs with
      | error e => exact .refl _
      | ok rs =>
        dsimp only
        by_cases h : (item rs.avail imp).isSome
        · rw [if_pos h, if_pos h]; exact .refl _
        · rw [if_neg h, if_neg h]
          rcases (readNext_stays (env := env) n imp g rs).cases with h | h
          · rw [h]; exact fun hne => absurd rfl hne
          · rw [h]
            cases readNext env n imp g rs with
            | error e => exact .refl _
            | ok p => exact ih p.1 p.2

theorem ensureResolved_stays (n : Nat) (imp : Ref) (st : St) :
    Stays (ensureResolved env n imp st) (ensureResolved env (n + 1) imp st) := by
  rw [ensureResolved, ensureResolved]
  rcases (resolveAll_stays (env := env) n st.rules).cases with h | h
  · rw [h]; exact fun hne => absurd rfl hne
  · rw [h]
    cases resolveAll env n st.rules with
    | error e => exact .refl _
    | ok rs =>
      dsimp only
      by_cases h : (item rs.avail imp).isSome
      · rw [if_pos h, if_pos h]; exact .refl _
      · rw [if_neg h, if_neg h]
        cases (st.gens (source env imp.relpath)).or (env.files (source env imp.relpath)) with
        | none => exact .refl _
        | some g =>
          dsimp only
          rcases (ensureUsing_stays (env := env) imp n g rs).cases with h | h
          · rw [h]; exact fun hne => absurd rfl hne
          · rw [h]; exact .refl _

theorem cont_stays (n : Nat) (st : St) (t : Tok) : Stays (cont env n st t) (cont env (n + 1) st t) := by
  rw [cont, cont]
  cases getImport env t with
  | none => exact .refl _
  | some r =>
    dsimp only
    rcases (ensureResolved_stays (env := env) n r st).cases with h | h
    · rw [h]; exact fun hne => absurd rfl hne
    · rw [h]; exact .refl _

theorem loop_step (n f : Nat) (out : List Tok) (st : St) (t : Tok) (stack : List Tok) :
    loop [nest env n] (f + 1) ⟨out, none, st⟩ (t :: stack) =
      match getImport env t with
      | none => loop [nest env n] f ⟨out ++ [t], none, st⟩ stack
      | some _ =>
        match start env st t with
        | .error e => some (.error e)
        | .ok (_, st1) =>
          match cont env n st1 t with
          | .error e => some (.error e)
          | .ok (some b, st2) => loop [nest env n] f ⟨out, none, st2⟩ (b ++ stack)
          | .ok (none, st2) => loop [nest env n] f ⟨out, some (nest env n), st2⟩ stack := by
  cases h : getImport env t with
  | none => simp only [loop, round, findMark, nest, start_none st h]
  | some r =>
    dsimp only
    simp only [loop, round, findMark, nest, start, h, continueMark]
    cases cont env n _ t with
    | error e => rfl
    | ok p => obtain ⟨a, b⟩ := p; cases a <;> rfl

theorem loop_stays : ∀ (f n : Nat) (out : List Tok) (st : St) (stack : List Tok) (res : Except Err (List Tok)),
    (loop [nest env n] f ⟨out, none, st⟩ stack).map (fun r => r.map (·.output)) = some res → res ≠ .error .fuel →
    (loop [nest env (n + 1)] f ⟨out, none, st⟩ stack).map (fun r => r.map (·.output)) = some res := by
  intro f
  induction f with
  | zero =>
    intro n out st stack res h hne
    cases stack with
    | nil => simpa only [loop] using h
    | cons t s => simp only [loop] at h; cases h
  | succ f ih =>
    intro n out st stack res h hne
    cases stack with
    | nil => simpa only [loop] using h
    | cons t stack =>
      rw [loop_step] at h ⊢
      cases ht : getImport env t with
      | none => rw [ht] at h; exact ih _ _ _ _ _ h hne
      | some r =>
        rw [ht] at h
        dsimp only at h ⊢
        cases hs : start env st t with
        | error e => simp [start, ht] at hs
        | ok p =>
          obtain ⟨b, st1⟩ := p
          rw [hs] at h
          dsimp only at h ⊢
          cases hc : cont env n st1 t with
          | error e =>
            rw [hc] at h
            have hef : e ≠ .fuel := by
              rintro rfl
              simp only [Option.map_some, Except.map, Option.some.injEq] at h
              exact hne h.symm
            rw [cont_stays n st1 t (by rw [hc]; simpa using hef), hc]; exact h
          | ok p =>
            rw [cont_stays n st1 t (by rw [hc]; simp), hc]
            rw [hc] at h
            obtain ⟨a, st2⟩ := p
            cases a with
            | some b => exact ih _ _ _ _ _ h hne
            | none =>
              simp only [cont, ht] at hc
              split at hc
              · cases hc
              · split at hc <;> cases hc

/-- A run with some fuel shows the result. -/
theorem Result.of_run (n f : Nat) (doc : List Tok) (res : Except Err (List Tok))
    (h : (loop [nest env n] f ⟨[], none, St.new⟩ doc).map (fun r => r.map (·.output)) = some res) (hne : res ≠ .error .fuel) :
    Result env doc res := by
  have up : ∀ k, (loop [nest env (n + k)] f ⟨[], none, St.new⟩ doc).map (fun r => r.map (·.output)) = some res := by
    intro k
    induction k with
    | zero => exact h
    | succ k ih => exact loop_stays _ _ _ _ _ _ ih hne
  refine ⟨n, f, fun n' hn f' hf => ?_⟩
  obtain ⟨k, rfl⟩ : ∃ k, n' = n + k := ⟨n' - n, by omega⟩
  obtain ⟨j, rfl⟩ : ∃ j, f' = f + j := ⟨f' - f, by omega⟩
  have hk := up k
  cases hl : loop [nest env (n + k)] f ⟨[], none, St.new⟩ doc with
  | none => rw [hl] at hk; cases hk
  | some r => rw [loop_mono _ f j _ _ r hl]; rw [hl] at hk; exact hk

end Verif.Nest
