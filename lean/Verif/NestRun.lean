import Verif.NestSpec

/-!
The rules while a stylesheet is read: an invariant, and what the search for a rule comes to.
-/

namespace Verif.Nest

open Verif.Reader Verif.Css Verif.Assoc

variable {env : Env} {decls : Ref → Option (List Tok)}

/-- A rule is available or waits. -/
def Registered (rs : Rules) (r : Ref) : Prop := (item rs.avail r).isSome ∨ (item rs.unres r).isSome

/-- The invariant. -/
structure Inv (env : Env) (decls : Ref → Option (List Tok)) (rs : Rules) : Prop where
  book : Book rs
  sound : Sound env decls rs.avail
  unres : ∀ r u, item rs.unres r = some u → ∃ body, decls r = some body ∧ Flat u.block ∧
    (∀ out, Expands env decls u.block out → ∃ out', Expands env decls body out' ∧ Trim out' out) ∧
    (∀ m, Imports env u.block m → m ∈ u.missing ∨ (item rs.avail m).isSome) ∧
    (∀ m ∈ u.missing, Imports env body m)

theorem Inv.empty : Inv env decls .empty :=
  ⟨.empty, fun r b h => by simp [Rules.empty, item] at h, fun r u h => by simp [Rules.empty, item] at h⟩

/-- A rule whose block has no imports any more becomes available. -/
theorem Inv.avail {rs : Rules} (hi : Inv env decls rs) (ref : Ref) (block body b0 : List Tok) (hna : item rs.avail ref = none)
    (hu : ∀ u, item rs.unres ref = some u → u.missing = []) (hf : Flat block) (hp : Pure env block)
    (hd : decls ref = some body) (he : Expands env decls body b0) (ht : Trim b0 block) :
    ∃ rs', setRule rs ref block [] = .ok rs' ∧ Inv env decls rs' ∧
      (∀ r, (item rs'.avail r).isSome ↔ (item rs.avail r).isSome ∨ r = ref) ∧
      (∀ r, (item rs'.unres r).isSome ↔ (item rs.unres r).isSome ∧ r ≠ ref) := by
  obtain ⟨rs', h1, h2, h3, h4, -⟩ := setRule_avail hi.book ref block hna hu
  have hav : ∀ r, (item rs'.avail r).isSome ↔ (item rs.avail r).isSome ∨ r = ref := by
    intro r
    rw [h3, get_put]
    by_cases h : r = ref
    · simp [h]
    · simp [h]
  refine ⟨rs', h1, ⟨h2, ?_, ?_⟩, hav, ?_⟩
  · intro r b h
    rw [h3, get_put] at h
    split at h
    · next e => cases h; subst e; exact ⟨hf, hp, body, b0, hd, he, ht⟩
    · exact hi.sound r b h
  · intro r u' h
    rw [h4] at h
    split at h
    · cases h
    · next hr =>
      cases h' : item rs.unres r with
      | none => rw [h'] at h; cases h
      | some u =>
        rw [h'] at h; cases h
        obtain ⟨body', h5, h6, h7, h8, h9⟩ := hi.unres r u h'
        refine ⟨body', h5, h6, h7, ?_, fun m hm => h9 m (List.mem_of_mem_erase hm)⟩
        intro m hm
        rcases h8 m hm with h10 | h10
        · by_cases hmr : m = ref
          · exact .inr ((hav m).2 (.inr hmr))
          · exact .inl ((List.mem_erase_of_ne hmr).2 h10)
        · exact .inr ((hav m).2 (.inl h10))
  · intro r
    rw [h4]
    by_cases h : r = ref
    · simp [h]
    · simp [h]

/-- A rule with missing references is registered. -/
theorem Inv.wait {rs : Rules} (hi : Inv env decls rs) (ref : Ref) (block body : List Tok) (missing : List Ref)
    (hna : item rs.avail ref = none) (hnu : item rs.unres ref = none) (hne : missing ≠ []) (hn : missing.Nodup)
    (hm : ∀ m ∈ missing, item rs.avail m = none) (hd : decls ref = some body) (hf : Flat block)
    (hl : ∀ out, Expands env decls block out → ∃ out', Expands env decls body out' ∧ Trim out' out)
    (him : ∀ m, Imports env block m → m ∈ missing) (hmi : ∀ m ∈ missing, Imports env body m) :
    ∃ rs', setRule rs ref block missing = .ok rs' ∧ Inv env decls rs' ∧ rs'.avail = rs.avail ∧
      (∀ r, (item rs'.unres r).isSome ↔ (item rs.unres r).isSome ∨ r = ref) := by
  obtain ⟨rs', h1, h2, h3, h4, -⟩ := setRule_unres hi.book ref block missing hne hn hm hna hnu
  refine ⟨rs', h1, ⟨h2, by rw [h3]; exact hi.sound, ?_⟩, h3, ?_⟩
  · intro r u h
    rw [h4] at h
    rw [h3]
    split at h
    · next e => cases h; subst e; exact ⟨body, hd, hf, hl, fun m h => .inl (him m h), hmi⟩
    · exact hi.unres r u h
  · intro r
    rw [h4]
    by_cases h : r = ref
    · simp [h]
    · simp [h]

/-! ## Resolving what can be resolved -/

theorem resolve_spec {rs : Rules} (hi : Inv env decls rs) {r : Ref} (hr : r ∈ rs.resolvable) :
    ∃ rs', Ends (fun n => resolve env n r rs) (.ok rs') ∧ Inv env decls rs' ∧
      (∀ x, (item rs'.avail x).isSome ↔ (item rs.avail x).isSome ∨ x = r) ∧
      (∀ x, (item rs'.unres x).isSome ↔ (item rs.unres x).isSome ∧ x ≠ r) := by
  obtain ⟨u, hu, hmiss⟩ := (hi.book.ready r).1 hr
  obtain ⟨body, hd, hf, hl, him, -⟩ := hi.unres r u hu
  obtain ⟨out, h1, h2, h3, h4⟩ := expand_spec hi.sound u.block [] hf (fun m hm => by
    rcases him m hm with h | h
    · rw [hmiss] at h; simp at h
    · exact h)
  obtain ⟨b0, h5, h6⟩ := hl out h2
  obtain ⟨rs', h7, h8, h9, h10⟩ := hi.avail r out body b0 (hi.book.apart r u hu) (fun u' hu' => by
    rw [hu] at hu'; cases hu'; exact hmiss) h3 h4 hd h5 h6
  refine ⟨rs', ?_, h8, h9, h10⟩
  obtain ⟨N, hN⟩ := h1
  refine ⟨N, fun n hn => ?_⟩
  simp only [resolve, hu, hN n hn, List.nil_append]
  exact h7

theorem resolveAll_spec (hpick : ∀ l, l ≠ [] → env.pick l ∈ l) : ∀ (k : Nat) (todo : List Ref) (rs : Rules), todo.length ≤ k →
    todo.Nodup → (∀ x, (item rs.unres x).isSome → x ∈ todo) → Inv env decls rs →
    ∃ rs', Ends (fun n => resolveAll env n rs) (.ok rs') ∧ Inv env decls rs' ∧ rs'.resolvable = [] ∧
      (∀ x, Registered rs' x ↔ Registered rs x) ∧ (∀ x, (item rs.avail x).isSome → (item rs'.avail x).isSome) := by
  intro k
  induction k with
  | zero =>
    intro todo rs hk hn ht hi
    have hnil : rs.resolvable = [] := by
      cases h : rs.resolvable with
      | nil => rfl
      | cons r l =>
        obtain ⟨u, hu, -⟩ := (hi.book.ready r).1 (by rw [h]; simp)
        have := ht r (by rw [hu]; rfl)
        have : todo = [] := List.length_eq_zero_iff.1 (by omega)
        simp_all
    refine ⟨rs, Ends.step (g := fun _ => .ok rs) (fun n => ?_) (.const _), hi, hnil, fun x => Iff.rfl, fun x h => h⟩
    simp only [resolveAll, if_pos hnil]
  | succ k ih =>
    intro todo rs hk hn ht hi
    by_cases hnil : rs.resolvable = []
    · refine ⟨rs, Ends.step (g := fun _ => .ok rs) (fun n => ?_) (.const _), hi, hnil, fun x => Iff.rfl, fun x h => h⟩
      simp only [resolveAll, if_pos hnil]
    · have hr := hpick _ hnil
      obtain ⟨u, hu, -⟩ := (hi.book.ready _).1 hr
      have hmem := ht _ (by rw [hu]; rfl)
      obtain ⟨rs1, h1, h2, h3, h4⟩ := resolve_spec hi hr
      obtain ⟨rs', h5, h6, h7, h8, h9⟩ := ih (todo.erase (env.pick rs.resolvable)) rs1
        (by rw [List.length_erase_of_mem hmem]; omega) (hn.erase _)
        (fun x hx => by
          obtain ⟨h10, h11⟩ := (h4 x).1 hx
          exact (List.mem_erase_of_ne h11).2 (ht x h10)) h2
      refine ⟨rs', ?_, h6, h7, ?_, fun x hx => h9 x ((h3 x).2 (.inl hx))⟩
      · obtain ⟨N1, e1⟩ := h1
        obtain ⟨N2, e2⟩ := h5
        refine ⟨max N1 N2 + 1, fun n hn => ?_⟩
        obtain ⟨j, rfl⟩ : ∃ j, n = j + 1 := ⟨n - 1, by omega⟩
        have e1' : resolve env j (env.pick rs.resolvable) rs = .ok rs1 := e1 j (by omega)
        have e2' : resolveAll env j rs1 = .ok rs' := e2 j (by omega)
        simp [resolveAll, hnil, e1', e2']
      · intro x
        rw [h8]
        unfold Registered
        rw [h3, h4]
        by_cases hx : x = env.pick rs.resolvable
        · have : (item rs.unres x).isSome := by rw [hx, hu]; rfl
          simp [hx, hu]
        · simp [hx]

/-! ## Reading a stylesheet -/

theorem takeBlock_balanced {a : List Tok} (h : Balanced a) : ∀ (n : Nat) (r : List Tok) (xs g : List Tok),
    takeBlock (n + 1) r = .ok (xs, g) → takeBlock (n + 1) (a ++ r) = .ok (a ++ xs, g) := by
  induction h with
  | nil => intro n r xs g h; exact h
  | @one t ts h1 h2 h3 _ ih =>
    intro n r xs g h
    have : takeBlock (n + 1) (t :: (ts ++ r)) = match takeBlock (if t = .leftCurly then n + 2 else if t = .rightCurly then n else n + 1) (ts ++ r) with
        | .error e => .error e
        | .ok (xs, r) => .ok (t :: xs, r) := by
      cases t <;> first | exact absurd rfl h3 | rfl
    rw [List.cons_append, this, if_neg h1, if_neg h2, ih n r xs g h]
    rfl
  | @block a b _ _ iha ihb =>
    intro n r xs g h
    have h1 : takeBlock (n + 2) (a ++ .rightCurly :: (b ++ r)) = .ok (a ++ .rightCurly :: (b ++ xs), g) := by
      apply iha
      simp only [takeBlock, if_neg (show Tok.rightCurly ≠ Tok.leftCurly by decide), if_true]
      rw [ihb n r xs g h]
    rw [List.append_assoc, List.cons_append, List.cons_append, List.cons_append]
    simp only [takeBlock, if_true, h1]
    simp

theorem skipOpen_spec {pre : List Tok} (h : ∀ t ∈ pre, t ≠ .leftCurly ∧ t ≠ .eof ∧ t ≠ .semicolon) (g : List Tok) :
    skipOpen (pre ++ .leftCurly :: g) = .ok g := by
  induction pre with
  | nil => rfl
  | cons t pre ih =>
    have ht := h t (by simp)
    have ih := ih (fun x hx => h x (by simp [hx]))
    rw [List.cons_append]
    cases t <;> first | exact absurd rfl ht.1 | exact absurd rfl ht.2.1 | exact ih

theorem takePrelude_spec {pre : List Tok} (h : ∀ t ∈ pre, t ≠ .leftCurly ∧ t ≠ .eof) (g : List Tok) :
    takePrelude (pre ++ .leftCurly :: g) = .ok (pre, g) := by
  induction pre with
  | nil => rfl
  | cons t pre ih =>
    have ht := h t (by simp)
    have ih := ih (fun x hx => h x (by simp [hx]))
    have : takePrelude (t :: (pre ++ .leftCurly :: g)) = match takePrelude (pre ++ .leftCurly :: g) with
        | .error e => .error e
        | .ok (xs, r) => .ok (t :: xs, r) := by
      cases t <;> first | exact absurd rfl ht.1 | exact absurd rfl ht.2 | rfl
    rw [List.cons_append, this, ih]

/-- A rule is read and registered. -/
theorem readRule_spec {rs : Rules} (hi : Inv env decls rs) (imp : Ref) (t : Tok) (pre body g : List Tok)
    (hpre : ∀ x ∈ t :: pre, x ≠ .leftCurly ∧ x ≠ .eof) (hf : Flat body)
    (hnew : ¬ Registered rs ⟨imp.relpath, nameOf env (t :: pre)⟩)
    (hd : decls ⟨imp.relpath, nameOf env (t :: pre)⟩ = some body) :
    ∃ rs', Ends (fun n => readRule env n imp t (pre ++ .leftCurly :: body ++ .rightCurly :: g) rs) (.ok (g, rs')) ∧
      Inv env decls rs' ∧ (∀ x, Registered rs' x ↔ Registered rs x ∨ x = ⟨imp.relpath, nameOf env (t :: pre)⟩) ∧
      (∀ x, (item rs.avail x).isSome → (item rs'.avail x).isSome) := by
  have hna : item rs.avail ⟨imp.relpath, nameOf env (t :: pre)⟩ = none := by
    cases h : item rs.avail ⟨imp.relpath, nameOf env (t :: pre)⟩ with
    | none => rfl
    | some b => exact absurd (.inl (by rw [h]; rfl)) hnew
  have hnu : item rs.unres ⟨imp.relpath, nameOf env (t :: pre)⟩ = none := by
    cases h : item rs.unres ⟨imp.relpath, nameOf env (t :: pre)⟩ with
    | none => rfl
    | some b => exact absurd (.inr (by rw [h]; rfl)) hnew
  obtain ⟨value, missing, h1, h2⟩ := takeBody_spec hi.sound g body hf [] [] [] (by simp [Flat]) (by simp [Pure])
  obtain ⟨w, hw, hval⟩ := popBlank_spec value
  have hfv : Flat (popBlank value) := by
    intro x hx
    exact h2.flat (by simp [Flat]) x (by rw [hval]; exact List.mem_append_left _ hx)
  have hleads : ∀ out, Expands env decls (popBlank value) out → ∃ out', Expands env decls body out' ∧ Trim out' out := by
    intro out ho
    have h3 : Expands env decls value (out ++ w) := by
      rw [hval]; exact ho.append (.of_pure hw.pure)
    obtain ⟨u, hu, h4⟩ := h2.leads _ h3
    exact ⟨u ++ (out ++ w), by simpa using h4, u, w, hu, hw, by simp⟩
  have himp : ∀ m, Imports env (popBlank value) m → m ∈ missing := by
    rintro m ⟨x, hx, hxm⟩
    exact h2.imports (by rintro m ⟨x, hx, -⟩; simp at hx) m ⟨x, by rw [hval]; exact List.mem_append_left _ hx, hxm⟩
  have hfrom : ∀ m ∈ missing, Imports env body m := by
    intro m hm
    rcases h2.from_ m hm with h | h
    · simp at h
    · exact h
  have run : ∀ rs', setRule rs ⟨imp.relpath, nameOf env (t :: pre)⟩ (popBlank value) missing = .ok rs' →
      Ends (fun n => readRule env n imp t (pre ++ .leftCurly :: body ++ .rightCurly :: g) rs) (.ok (g, rs')) := by
    intro rs' hset
    obtain ⟨N, hN⟩ := h1
    refine ⟨N, fun n hn => ?_⟩
    have hp := takePrelude_spec (fun x hx => hpre x (by simp [hx])) (body ++ .rightCurly :: g) (pre := pre)
    have hN' : takeBody env rs.avail n [] [] [] (body ++ .rightCurly :: g) = .ok (value, missing, g) := hN n hn
    simp only [readRule, List.append_assoc, List.cons_append, hp, hN', hset]
  by_cases hm : missing = []
  · have hp : Pure env (popBlank value) := by
      intro x hx
      cases h : getImport env x with
      | none => rfl
      | some m => have := himp m ⟨x, hx, h⟩; rw [hm] at this; simp at this
    obtain ⟨b0, h3, h4⟩ := hleads _ (.of_pure hp)
    obtain ⟨rs', h5, h6, h7, h8⟩ := hi.avail ⟨imp.relpath, nameOf env (t :: pre)⟩ (popBlank value) body b0 hna
      (fun u hu => by rw [hnu] at hu; cases hu) hfv hp hd h3 h4
    refine ⟨rs', run rs' (by rw [hm]; exact h5), h6, ?_, fun x hx => (h7 x).2 (.inl hx)⟩
    intro x
    unfold Registered
    rw [h7, h8]
    by_cases hx : x = ⟨imp.relpath, nameOf env (t :: pre)⟩
    · simp [hx]
    · simp [hx]
  · obtain ⟨rs', h5, h6, h7, h8⟩ := hi.wait ⟨imp.relpath, nameOf env (t :: pre)⟩ (popBlank value) body missing hna hnu hm
      (h2.nodup (by simp)) (h2.unavail (by simp)) hd hfv hleads himp hfrom
    refine ⟨rs', run rs' h5, h6, ?_, fun x hx => by rw [h7]; exact hx⟩
    intro x
    unfold Registered
    rw [h7, h8]
    exact or_assoc.symm

/-- Rules which can be found: those which are known, and those all of whose imports are known, or are in the same file
and can be found. -/
inductive Solvable (env : Env) (decls : Ref → Option (List Tok)) (known : Ref → Prop) : Ref → Prop
  | seen {r} : known r → Solvable env decls known r
  | rule {r body} : decls r = some body → (∀ m, Imports env body m → known m ∨ m.relpath = r.relpath) →
      (∀ m, Imports env body m → Solvable env decls known m) → Solvable env decls known r

/-- The rules of the files, by selector. -/
def declsOf (sheets : Text → List (Text × List Tok)) (r : Ref) : Option (List Tok) := item (sheets r.relpath) r.prelude

/-- How far the file `p` was read: the rules which were read are registered. -/
def Reading (env : Env) (sheets : Text → List (Text × List Tok)) (rs : Rules) (p : Text) (g : List Tok) : Prop :=
  ∃ done rest, sheets p = done ++ rest ∧ Sheet env g rest ∧ ∀ q, Registered rs ⟨p, q⟩ ↔ q ∈ keys done

theorem ensureUsing_spec {sheets : Text → List (Text × List Tok)} (hpick : ∀ l, l ≠ [] → env.pick l ∈ l)
    (imp : Ref) (hnd : (keys (sheets imp.relpath)).Nodup) {g : List Tok} {rest : List (Text × List Tok)}
    (hg : Sheet env g rest) : ∀ (done : List (Text × List Tok)) (rs : Rules),
    Inv env (declsOf sheets) rs → sheets imp.relpath = done ++ rest →
    (∀ q, Registered rs ⟨imp.relpath, q⟩ ↔ q ∈ keys done) →
    (∃ g' rs', Ends (fun n => ensureUsing env imp n g rs) (.ok (g', rs')) ∧ Inv env (declsOf sheets) rs' ∧
      (item rs'.avail imp).isSome ∧ Reading env sheets rs' imp.relpath g' ∧
      (∀ x, x.relpath ≠ imp.relpath → (Registered rs' x ↔ Registered rs x)) ∧
      (∀ x, (item rs.avail x).isSome → (item rs'.avail x).isSome)) ∨
    (Ends (fun n => ensureUsing env imp n g rs) (.error .notFound) ∧
      ∀ known : Ref → Prop, (∀ x, known x → (item rs.avail x).isSome) → ¬ Solvable env (declsOf sheets) known imp) := by
  -- one round of the loop, up to reading on
  have start : ∀ (g : List Tok) (rest done : List (Text × List Tok)) (rs : Rules), Inv env (declsOf sheets) rs →
      sheets imp.relpath = done ++ rest → (∀ q, Registered rs ⟨imp.relpath, q⟩ ↔ q ∈ keys done) → Sheet env g rest →
      (∃ g' rs', Ends (fun n => ensureUsing env imp n g rs) (.ok (g', rs')) ∧ Inv env (declsOf sheets) rs' ∧
        (item rs'.avail imp).isSome ∧ Reading env sheets rs' imp.relpath g' ∧
        (∀ x, x.relpath ≠ imp.relpath → (Registered rs' x ↔ Registered rs x)) ∧
        (∀ x, (item rs.avail x).isSome → (item rs'.avail x).isSome)) ∨
      (∃ rs1, Ends (fun n => resolveAll env n rs) (.ok rs1) ∧ Inv env (declsOf sheets) rs1 ∧ rs1.resolvable = [] ∧
        item rs1.avail imp = none ∧ (∀ x, Registered rs1 x ↔ Registered rs x) ∧
        (∀ x, (item rs.avail x).isSome → (item rs1.avail x).isSome)) := by
    intro g rest done rs hi hsplit hreg hsheet
    obtain ⟨rs1, h1, h2, h3, h4, h5⟩ := resolveAll_spec hpick (keys rs.unres).length (keys rs.unres) rs (Nat.le_refl _) hi.book.nodup
      (fun x hx => by
        by_cases h : x ∈ keys rs.unres
        · exact h
        · rw [get_none.2 h] at hx; cases hx) hi
    cases ha : item rs1.avail imp with
    | none => exact .inr ⟨rs1, h1, h2, h3, ha, h4, h5⟩
    | some b =>
      refine .inl ⟨g, rs1, ?_, h2, by rw [ha]; rfl, ⟨done, rest, hsplit, hsheet, fun q => by rw [h4]; exact hreg q⟩,
        fun x _ => h4 x, h5⟩
      obtain ⟨N, hN⟩ := h1
      refine ⟨N + 1, fun n hn => ?_⟩
      obtain ⟨k, rfl⟩ : ∃ k, n = k + 1 := ⟨n - 1, by omega⟩
      have hN' : resolveAll env k rs = .ok rs1 := hN k (by omega)
      simp [ensureUsing, hN', ha]
  -- reading on
  have next : ∀ (g g1 : List Tok) (rs rs1 rs2 : Rules) (res : Except Err (List Tok × Rules)),
      Ends (fun n => resolveAll env n rs) (.ok rs1) → item rs1.avail imp = none →
      Ends (fun n => readNext env n imp g rs1) (.ok (g1, rs2)) → Ends (fun n => ensureUsing env imp n g1 rs2) res →
      Ends (fun n => ensureUsing env imp n g rs) res := by
    intro g g1 rs rs1 rs2 res ⟨N1, h1⟩ ha ⟨N2, h2⟩ ⟨N3, h3⟩
    refine ⟨max N1 (max N2 N3) + 1, fun n hn => ?_⟩
    obtain ⟨k, rfl⟩ : ∃ k, n = k + 1 := ⟨n - 1, by omega⟩
    have e1 : resolveAll env k rs = .ok rs1 := h1 k (by omega)
    have e2 : readNext env k imp g rs1 = .ok (g1, rs2) := h2 k (by omega)
    have e3 : ensureUsing env imp k g1 rs2 = res := h3 k (by omega)
    simp [ensureUsing, e1, ha, e2, e3]
  -- what is skipped
  have skip : ∀ (g g1 : List Tok) (rest : List (Text × List Tok)), Sheet env g rest →
      (∀ n rs, readNext env n imp g rs = .ok (g1, rs)) →
      (∀ (done : List (Text × List Tok)) (rs : Rules), Inv env (declsOf sheets) rs → sheets imp.relpath = done ++ rest →
        (∀ q, Registered rs ⟨imp.relpath, q⟩ ↔ q ∈ keys done) →
        (∃ g' rs', Ends (fun n => ensureUsing env imp n g1 rs) (.ok (g', rs')) ∧ Inv env (declsOf sheets) rs' ∧
          (item rs'.avail imp).isSome ∧ Reading env sheets rs' imp.relpath g' ∧
          (∀ x, x.relpath ≠ imp.relpath → (Registered rs' x ↔ Registered rs x)) ∧
          (∀ x, (item rs.avail x).isSome → (item rs'.avail x).isSome)) ∨
        (Ends (fun n => ensureUsing env imp n g1 rs) (.error .notFound) ∧
          ∀ known : Ref → Prop, (∀ x, known x → (item rs.avail x).isSome) → ¬ Solvable env (declsOf sheets) known imp)) →
      ∀ (done : List (Text × List Tok)) (rs : Rules), Inv env (declsOf sheets) rs → sheets imp.relpath = done ++ rest →
        (∀ q, Registered rs ⟨imp.relpath, q⟩ ↔ q ∈ keys done) →
        (∃ g' rs', Ends (fun n => ensureUsing env imp n g rs) (.ok (g', rs')) ∧ Inv env (declsOf sheets) rs' ∧
          (item rs'.avail imp).isSome ∧ Reading env sheets rs' imp.relpath g' ∧
          (∀ x, x.relpath ≠ imp.relpath → (Registered rs' x ↔ Registered rs x)) ∧
          (∀ x, (item rs.avail x).isSome → (item rs'.avail x).isSome)) ∨
        (Ends (fun n => ensureUsing env imp n g rs) (.error .notFound) ∧
          ∀ known : Ref → Prop, (∀ x, known x → (item rs.avail x).isSome) → ¬ Solvable env (declsOf sheets) known imp) := by
    intro g g1 rest hsheet hread ih done rs hi hsplit hreg
    rcases start g rest done rs hi hsplit hreg hsheet with h | ⟨rs1, h1, h2, h3, h4, h5, h6⟩
    · exact .inl h
    · rcases ih done rs1 h2 hsplit (fun q => by rw [h5]; exact hreg q) with ⟨g', rs', h7, h8, h9, h10, h11, h12⟩ | ⟨h7, h8⟩
      · exact .inl ⟨g', rs', next g g1 rs rs1 rs1 _ h1 h4 ⟨0, fun n _ => hread n rs1⟩ h7, h8, h9, h10,
          fun x hx => (h11 x hx).trans (h5 x), fun x hx => h12 x (h6 x hx)⟩
      · exact .inr ⟨next g g1 rs rs1 rs1 _ h1 h4 ⟨0, fun n _ => hread n rs1⟩ h7,
          fun known hk => h8 known fun x hx => h6 x (hk x hx)⟩
  induction hg with
  | eof =>
    intro done rs hi hsplit hreg
    rcases start [.eof] [] done rs hi hsplit hreg .eof with h | ⟨rs1, h1, h2, h3, h4, h5, h6⟩
    · exact .inl h
    · refine .inr ⟨?_, ?_⟩
      · obtain ⟨N, hN⟩ := h1
        refine ⟨N + 1, fun n hn => ?_⟩
        obtain ⟨k, rfl⟩ : ∃ k, n = k + 1 := ⟨n - 1, by omega⟩
        have hN' : resolveAll env k rs = .ok rs1 := hN k (by omega)
        simp [ensureUsing, hN', h4, readNext]
      · intro known hk hsol
        -- what can be found in this file is available
        have key : ∀ r, Solvable env (declsOf sheets) known r → known r ∨ r.relpath = imp.relpath → (item rs1.avail r).isSome := by
          intro r hr
          induction hr with
          | seen h => intro _; exact h6 _ (hk _ h)
          | @rule r body hd him _ ih =>
            intro hor
            rcases hor with h | hp
            · exact h6 _ (hk _ h)
            · have hmem : r.prelude ∈ keys done := by
                have hd' : item (sheets r.relpath) r.prelude = some body := hd
                rw [hp, hsplit, List.append_nil] at hd'
                by_cases h : r.prelude ∈ keys done
                · exact h
                · rw [get_none.2 h] at hd'; cases hd'
              have hr1 : Registered rs1 r := by
                rw [h5]
                have := (hreg r.prelude).2 hmem
                rw [← hp] at this
                exact this
              rcases hr1 with h | h
              · exact h
              · cases hu : item rs1.unres r with
                | none => rw [hu] at h; cases h
                | some u =>
                  obtain ⟨body', hd', -, -, -, hmi⟩ := h2.unres r u hu
                  rw [hd] at hd'; cases hd'
                  cases hmm : u.missing with
                  | nil =>
                    have := (h2.book.ready r).2 ⟨u, hu, hmm⟩
                    rw [h3] at this; simp at this
                  | cons m ms =>
                    have hm : m ∈ u.missing := by rw [hmm]; simp
                    have h7 := h2.book.missing r u hu m hm
                    have h8 := ih m (hmi m hm) ((him m (hmi m hm)).imp id fun e => e.trans hp)
                    rw [h7] at h8; cases h8
        have := key imp hsol (.inr rfl)
        rw [h4] at this; cases this
  | @blank v ts rules hs ih => exact skip _ ts _ (.blank hs) (fun n rs => rfl) ih
  | @comment v ts rules hs ih => exact skip _ ts _ (.comment hs) (fun n rs => rfl) ih
  | @atRule v pre block ts rules hpre hbal hs ih =>
    refine skip _ ts _ (.atRule hpre hbal hs) (fun n rs => ?_) ih
    have h1 := skipOpen_spec hpre (block ++ .rightCurly :: ts)
    have h2 : takeBlock 1 (block ++ .rightCurly :: ts) = .ok (block ++ [.rightCurly], ts) := by
      refine takeBlock_balanced hbal 0 _ [.rightCurly] ts ?_
      simp [takeBlock]
    rw [List.append_assoc, List.cons_append, List.cons_append]
    simp only [readNext, h1, h2]
  | @rule t pre body ts rules hw hc hat hcdo hpre hf hs ih =>
    intro done rs hi hsplit hreg
    have hsheet : Sheet env (t :: pre ++ .leftCurly :: body ++ .rightCurly :: ts) ((nameOf env (t :: pre), body) :: rules) :=
      .rule hw hc hat hcdo hpre hf hs
    rcases start _ _ done rs hi hsplit hreg hsheet with h | ⟨rs1, h1, h2, h3, h4, h5, h6⟩
    · exact .inl h
    · have hnd' := hnd
      rw [hsplit] at hnd'
      simp only [keys, List.map_append, List.map_cons] at hnd'
      rw [List.nodup_append] at hnd'
      have hfresh : nameOf env (t :: pre) ∉ keys done := by
        intro h
        exact hnd'.2.2 _ h _ (by simp) rfl
      have hd : declsOf sheets ⟨imp.relpath, nameOf env (t :: pre)⟩ = some body := by
        unfold declsOf
        apply get_of_mem hnd
        dsimp only
        rw [hsplit]; simp
      obtain ⟨rs2, h7, h8, h9, h10⟩ := readRule_spec h2 imp t pre body ts hpre hf
        (fun h => hfresh ((hreg _).1 ((h5 _).1 h))) hd
      have hread : Ends (fun n => readNext env n imp (t :: pre ++ .leftCurly :: body ++ .rightCurly :: ts) rs1) (.ok (ts, rs2)) := by
        obtain ⟨N, hN⟩ := h7
        refine ⟨N, fun n hn => ?_⟩
        have e : readNext env n imp (t :: pre ++ .leftCurly :: body ++ .rightCurly :: ts) rs1 =
            readRule env n imp t (pre ++ .leftCurly :: body ++ .rightCurly :: ts) rs1 := by
          rw [List.cons_append, List.cons_append]
          have hte := (hpre t (by simp)).2
          cases t <;> first | rfl | exact absurd rfl hte | exact absurd rfl hcdo | exact absurd rfl (hw _) | exact absurd rfl (hc _) | exact absurd rfl (hat _)
        exact e.trans (hN n hn)
      rcases ih (done ++ [(nameOf env (t :: pre), body)]) rs2 h8 (by rw [hsplit]; simp) (fun q => by
        rw [h9, h5, hreg]
        simp [keys]) with ⟨g', rs', k1, k2, k3, k4, k5, k6⟩ | ⟨k1, k2⟩
      · refine .inl ⟨g', rs', next _ ts rs rs1 rs2 _ h1 h4 hread k1, k2, k3, k4, fun x hx => ?_, fun x hx => k6 x (h10 x (h6 x hx))⟩
        rw [k5 x hx, h9, h5]
        constructor
        · rintro (h | h)
          · exact h
          · exact absurd (by rw [h]) hx
        · exact .inl
      · exact .inr ⟨next _ ts rs rs1 rs2 _ h1 h4 hread k1, fun known hk => k2 known fun x hx => h10 x (h6 x (hk x hx))⟩

end Verif.Nest
