import Verif.NestThm
/-!
# Which files imports read

An import in a stylesheet reads the file it names, and no other; and it fails if that is not there.
-/
namespace Verif.Nest
open Verif.Reader Verif.Css Verif.Assoc

/-! ## Which rules are known -/

def Knows (rs : Rules) (r : Ref) : Prop := item rs.avail r ≠ none ∨ item rs.unres r ≠ none

theorem release_known (ref : Ref) {r : Ref} : ∀ {ws : List Ref} {rs rs' : Rules}, release ref ws rs = .ok rs' → Knows rs' r → Knows rs r := by
  intro ws
  induction ws with
  | nil => intro rs rs' h hk; simp only [release, Except.ok.injEq] at h; subst h; exact hk
  | cons w ws ih =>
    intro rs rs' h hk
    unfold release at h
    split at h
    · cases h
    · next u hu =>
      split at h
      · rcases ih h hk with h1 | h1
        · exact .inl h1
        · right
          dsimp only at h1
          rw [get_put] at h1
          split at h1
          · next e => subst e; rw [hu]; simp
          · exact h1
      · cases h

theorem await_known (ref : Ref) {r : Ref} : ∀ {ms : List Ref} {rs : Rules}, Knows (ms.foldl (await ref) rs) r → Knows rs r := by
  intro ms
  induction ms with
  | nil => intro rs h; exact h
  | cons m ms ih => intro rs h; exact ih (rs := await ref rs m) h

theorem unawait_known {ref m : Ref} {rs rs' : Rules} (h : unawait ref rs m = .ok rs') {r : Ref} (hk : Knows rs' r) : Knows rs r := by
  unfold unawait at h
  split at h
  · cases h
  · split at h
    · split at h
      · split at h
        · cases h
        · cases h; exact hk
      · cases h; exact hk
    · cases h

theorem unawaitAll_known (ref : Ref) {r : Ref} : ∀ {ms : List Ref} {rs rs' : Rules}, unawaitAll ref ms rs = .ok rs' → Knows rs' r → Knows rs r := by
  intro ms
  induction ms with
  | nil => intro rs rs' h hk; simp only [unawaitAll, Except.ok.injEq] at h; subst h; exact hk
  | cons m ms ih =>
    intro rs rs' h hk
    unfold unawaitAll at h
    split at h
    · cases h
    · next rs1 h1 => exact unawait_known h1 (ih h hk)

theorem setRule_known {rs rs' : Rules} {ref : Ref} {block : List Tok} {missing : List Ref} (h : setRule rs ref block missing = .ok rs') {r : Ref}
    (hk : Knows rs' r) : r = ref ∨ Knows rs r := by
  by_cases hr : r = ref
  · exact .inl hr
  · right
    unfold setRule at h
    split at h
    · cases h
    · split at h
      · have key : ∀ {x : Rules}, x.unres = del rs.unres ref → x.avail = put rs.avail ref block → Knows x r → Knows rs r := by
          rintro x h1 h2 (h | h)
          · rw [h2, get_put, if_neg hr] at h; exact .inl h
          · rw [h1, get_del, if_neg hr] at h; exact .inr h
        dsimp only at h
        split at h
        · cases h; exact key rfl rfl hk
        · split at h
          · cases h
          · exact key rfl rfl (release_known ref h hk)
      · dsimp only at h
        rcases await_known ref (unawaitAll_known ref h hk) with h1 | h1
        · exact .inl h1
        · right
          dsimp only at h1
          rw [get_put, if_neg hr, get_del, if_neg hr] at h1
          exact h1

theorem resolveAll_known (env : Env) {r : Ref} : ∀ {n : Nat} {rs rs' : Rules}, resolveAll env n rs = .ok rs' → Knows rs' r → Knows rs r := by
  intro n
  induction n with
  | zero => intro rs rs' h; simp [resolveAll] at h
  | succ n ih =>
    intro rs rs' h hk
    unfold resolveAll at h
    split at h
    · cases h; exact hk
    · split at h
      · cases h
      · next rs1 h1 =>
        have hk1 := ih h hk
        unfold resolve at h1
        split at h1
        · cases h1
        · next u hu =>
          split at h1
          · cases h1
          · rcases setRule_known h1 hk1 with e | h2
            · right; rw [e, hu]; simp
            · exact h2

theorem readNext_known (env : Env) {n : Nat} {imp r : Ref} {g g' : List Tok} {rs rs' : Rules} (h : readNext env n imp g rs = .ok (g', rs'))
    (hk : Knows rs' r) : r.relpath = imp.relpath ∨ Knows rs r := by
  have hrule : ∀ {t : Tok} {g : List Tok}, readRule env n imp t g rs = .ok (g', rs') → r.relpath = imp.relpath ∨ Knows rs r := by
    intro t g h
    unfold readRule at h
    split at h
    · cases h
    · split at h
      · cases h
      · split at h
        · cases h
        · next h1 =>
          simp only [Except.ok.injEq, Prod.mk.injEq] at h
          obtain ⟨rfl, rfl⟩ := h
          rcases setRule_known h1 hk with e | h2
          · left; rw [e]
          · exact .inr h2
  unfold readNext at h
  split at h
  · cases h
  · cases h
  · split at h
    · cases h
    · cases h; exact .inr hk
  · split at h
    · cases h
    · split at h
      · cases h
      · cases h; exact .inr hk
  · cases h; exact .inr hk
  · cases h; exact .inr hk
  · exact hrule h

theorem ensureUsing_known (env : Env) {imp r : Ref} : ∀ {n : Nat} {g g' : List Tok} {rs rs' : Rules}, ensureUsing env imp n g rs = .ok (g', rs') → Knows rs' r →
    r.relpath = imp.relpath ∨ Knows rs r := by
  intro n
  induction n with
  | zero => intro g g' rs rs' h; simp [ensureUsing] at h
  | succ n ih =>
    intro g g' rs rs' h hk
    unfold ensureUsing at h
    split at h
    · cases h
    · next rs1 h1 =>
      split at h
      · cases h; exact .inr (resolveAll_known env h1 hk)
      · split at h
        · cases h
        · next g2 rs2 h2 =>
          rcases ih h hk with e | h3
          · exact .inl e
          · rcases readNext_known env h2 h3 with e | h4
            · exact .inl e
            · exact .inr (resolveAll_known env h1 h4)

/-! ## Other files -/

/-- The same with other files. -/
def Env.with (env : Env) (files : Text → Option (List Tok)) : Env := { env with files := files }

theorem expand_with (env : Env) (files : Text → Option (List Tok)) (avail : List (Ref × List Tok)) : ∀ (n : Nat) (stack nodes : List Tok),
    expand (env.with files) avail n stack nodes = expand env avail n stack nodes := by
  intro n
  induction n with
  | zero => intro stack nodes; rfl
  | succ n ih =>
    intro stack nodes
    cases stack with
    | nil => rfl
    | cons t stack =>
      simp only [expand, ih]
      rfl

theorem resolveAll_with (env : Env) (files : Text → Option (List Tok)) : ∀ (n : Nat) (rs : Rules), resolveAll (env.with files) n rs = resolveAll env n rs := by
  intro n
  induction n with
  | zero => intro rs; rfl
  | succ n ih =>
    intro rs
    simp only [resolveAll, resolve, expand_with, ih]
    rfl

theorem takeBody_with (env : Env) (files : Text → Option (List Tok)) (avail : List (Ref × List Tok)) : ∀ (n : Nat) (stack value : List Tok) (missing : List Ref) (g : List Tok),
    takeBody (env.with files) avail n stack value missing g = takeBody env avail n stack value missing g := by
  intro n
  induction n with
  | zero => intro stack value missing g; rfl
  | succ n ih =>
    intro stack value missing g
    simp only [takeBody, ih]
    rfl

theorem readNext_with (env : Env) (files : Text → Option (List Tok)) (n : Nat) (imp : Ref) (g : List Tok) (rs : Rules) :
    readNext (env.with files) n imp g rs = readNext env n imp g rs := by
  have : ∀ t g, readRule (env.with files) n imp t g rs = readRule env n imp t g rs := by
    intro t g
    simp only [readRule, takeBody_with]
    rfl
  unfold readNext
  split <;> try rfl
  exact this _ _

theorem ensureUsing_with (env : Env) (files : Text → Option (List Tok)) (imp : Ref) : ∀ (n : Nat) (g : List Tok) (rs : Rules),
    ensureUsing (env.with files) imp n g rs = ensureUsing env imp n g rs := by
  intro n
  induction n with
  | zero => intro g rs; rfl
  | succ n ih =>
    intro g rs
    simp only [ensureUsing, resolveAll_with, readNext_with, ih]

/-! ## The manipulator -/

/-- The files of the rules which are known have been opened, and are there; and so are those of the children. -/
structure Opened (env : Env) (st : St) : Prop where
  gens : ∀ p, st.gens p ≠ none → env.files p ≠ none
  rules : ∀ r, Knows st.rules r → st.gens (source env r.relpath) ≠ none
  children : ∀ c ∈ st.children, env.files (source env c) ≠ none

theorem Opened.new (env : Env) : Opened env .new where
  gens p h := absurd rfl h
  rules r h := by simp [Knows, St.new, Rules.empty, item] at h
  children c h := by simp [St.new] at h

/-- An import which succeeds has read its file. -/
theorem ensureResolved_opened {env : Env} {n : Nat} {imp : Ref} {st st' : St} (h : ensureResolved env n imp st = .ok st')
    (hg : ∀ p, st.gens p ≠ none → env.files p ≠ none) (hr : ∀ r, Knows st.rules r → st.gens (source env r.relpath) ≠ none) :
    st'.children = st.children ∧ (∀ p, st'.gens p ≠ none → env.files p ≠ none) ∧ (∀ r, Knows st'.rules r → st'.gens (source env r.relpath) ≠ none) ∧
      st'.gens (source env imp.relpath) ≠ none ∧
      ∀ files, files (source env imp.relpath) = env.files (source env imp.relpath) → ensureResolved (env.with files) n imp st = .ok st' := by
  unfold ensureResolved at h
  split at h
  · cases h
  · next rs h1 =>
    split at h
    · next ha =>
      cases h
      have hk : ∀ r, Knows rs r → st.gens (source env r.relpath) ≠ none := fun r hk => hr r (resolveAll_known env h1 hk)
      refine ⟨rfl, hg, hk, hk imp (.inl (by intro e; rw [e] at ha; cases ha)), fun files _ => ?_⟩
      unfold ensureResolved
      simp only [resolveAll_with, h1, ha, if_true]
    · next ha =>
      split at h
      · cases h
      · next g hgen =>
        split at h
        · cases h
        · next g' rs' h2 =>
          cases h
          have hf : env.files (source env imp.relpath) ≠ none := by
            cases hc : st.gens (source env imp.relpath) with
            | none => rw [hc, Option.none_or] at hgen; rw [hgen]; simp
            | some x => exact hg _ (by rw [hc]; simp)
          refine ⟨rfl, fun p hp => ?_, fun r hk => ?_, by simp, fun files hfiles => ?_⟩
          · dsimp only at hp
            split at hp
            · next e => rw [e]; exact hf
            · exact hg p hp
          · dsimp only
            split
            · simp
            · next hne =>
              rcases ensureUsing_known env h2 hk with e | h3
              · exact absurd (by rw [e]) hne
              · exact hr r (resolveAll_known env h1 h3)
          · unfold ensureResolved
            have hs : ∀ p, source (env.with files) p = source env p := fun _ => rfl
            simp only [resolveAll_with, h1, ha, hs]
            rw [show (env.with files).files = files from rfl, hfiles, hgen]
            simp only [ensureUsing_with, h2]
            rfl

/-- A token which is taken: the file is among the children, unless it is the one which is being built. -/
theorem take_opened {env : Env} {n : Nat} {st s1 s2 : St} {t : Tok} {o : Option (List Tok)} (h : Opened env st) (hs : start env st t = .ok (true, s1))
    (hc : cont env n s1 t = .ok (o, s2)) : o ≠ none ∧ Opened env s2 ∧ st.children ⊆ s2.children ∧
      ∀ files, (∀ c ∈ s2.children, files (source env c) = env.files (source env c)) → files env.self = env.files env.self →
        start (env.with files) st t = .ok (true, s1) ∧ cont (env.with files) n s1 t = .ok (o, s2) := by
  unfold start at hs
  cases hi : getImport env t with
  | none => rw [hi] at hs; simp at hs
  | some r =>
    rw [hi] at hs
    simp only [Except.ok.injEq, Prod.mk.injEq, true_and] at hs
    have e1 : s1.rules = st.rules ∧ s1.gens = st.gens ∧ st.children ⊆ s1.children ∧ (∀ c ∈ s1.children, c ∈ st.children ∨ c = r.relpath) ∧
        (r.relpath = env.self ∨ r.relpath ∈ s1.children) := by
      subst hs
      split
      · next h => exact ⟨rfl, rfl, fun _ h => h, fun c h => .inl h, h⟩
      · refine ⟨rfl, rfl, by simp, by simp, .inr (by simp)⟩
    obtain ⟨er, eg, ec, en, em⟩ := e1
    unfold cont at hc
    rw [hi] at hc
    dsimp only at hc
    split at hc
    · cases hc
    · next st' h1 =>
      split at hc
      · cases hc
      · next b hb =>
        simp only [Except.ok.injEq, Prod.mk.injEq] at hc
        obtain ⟨rfl, rfl⟩ := hc
        obtain ⟨q1, q2, q3, q4, q5⟩ := ensureResolved_opened h1 (by rw [eg]; exact h.gens) (by rw [eg, er]; exact h.rules)
        refine ⟨by simp, ⟨q2, q3, fun c hcm => ?_⟩, by rw [q1]; exact ec, fun files hf hfs => ⟨?_, ?_⟩⟩
        · rw [q1] at hcm
          rcases en c hcm with h2 | rfl
          · exact h.children c h2
          · exact q2 _ q4
        · unfold start
          rw [show getImport (env.with files) t = some r from hi]
          simp only [Except.ok.injEq, Prod.mk.injEq, true_and]
          exact hs
        · unfold cont
          rw [show getImport (env.with files) t = some r from hi]
          dsimp only
          rw [q5 files ?_]
          · dsimp only; rw [hb]
          · rcases em with e | e
            · unfold source; rw [if_pos e, e]; exact hfs
            · exact hf _ (by rw [q1]; exact e)

end Verif.Nest
