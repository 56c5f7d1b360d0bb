import Verif.NestFuel
import Verif.CssThm

/-!
# C46: a concrete project, and what goes wrong outside of the hypotheses
-/

namespace Verif.Nest

open Verif.Reader Verif.Css Verif.Assoc Verif.Build

namespace Toy

deriving instance DecidableEq for Except

/-- Whitespace and lower case as in ASCII. -/
def space (c : Nat) : Bool := c == 32 || (9 ≤ c && c ≤ 13)

def lower (s : Text) : Text := s.map fun c => if 65 ≤ c ∧ c ≤ 90 then c + 32 else c

def main : Text := txt "src/public/css/main.css"

/-- The stylesheet `main` of a project with these files. -/
def env (files : Text → Option (List Tok)) : Env where
  uni := plainU
  space := space
  lower := lower
  main := main
  self := main
  files := files
  pick := fun l => l.headD ⟨[], []⟩

/-- The import comment. -/
def imp (s : Text) : Tok := .comment (txt "! PREPROCESSOR: import " ++ s ++ [32])

/-- `.name { … }` on a line of its own. -/
def rule (name : Text) (body : List Tok) : List Tok :=
  .delim [46] :: [.ident name, .whitespace [32]] ++ .leftCurly :: body ++ .rightCurly :: [.whitespace [10]]

/-- `name: value;` -/
def decl (name value : Text) : List Tok := [.ident name, .colon, .whitespace [32], .ident value, .semicolon]

def button : List Tok := [.whitespace [32]] ++ decl (txt "color") (txt "red") ++ [imp (txt ".elevated"), .whitespace [32]]
def elevated : List Tok := [.whitespace [32], imp (txt ".white"), .whitespace [32], imp (txt ".shadow"), .whitespace [32]]
def white : List Tok := [.whitespace [32]] ++ decl (txt "background") (txt "white") ++ [.whitespace [32]]
def shadow : List Tok := [.whitespace [32]] ++ decl (txt "box-shadow") (txt "none")

/-- The example of nest.py:256-273, with an at-rule before it: every rule imports rules which are defined further down. -/
def doc : List Tok :=
  .atKeyword (txt "media") :: [.whitespace [32], .ident (txt "print")] ++ .leftCurly ::
    (.ident (txt "p") :: .leftCurly :: [] ++ .rightCurly :: []) ++ .rightCurly ::
  (rule (txt "button") button ++ (rule (txt "elevated") elevated ++ (rule (txt "white") white ++
    (rule (txt "shadow") shadow ++ [.eof]))))

def project : Env := env fun p => if p = main then some doc else none

/-- The rules of the project. -/
def sheets (p : Text) : List (Text × List Tok) :=
  if p = main then [(txt ".button", button), (txt ".elevated", elevated), (txt ".white", white), (txt ".shadow", shadow)] else []

end Toy

open Toy

theorem sheet_rule (env : Env) (name : Text) (body ts : List Tok) (rules : List (Text × List Tok)) (hf : Flat body)
    (hs : Sheet env ts rules) :
    Sheet env (Toy.rule name body ++ ts) ((nameOf env [.delim [46], .ident name, .whitespace [32]], body) :: rules) := by
  have := Sheet.rule (env := env) (t := .delim [46]) (pre := [.ident name, .whitespace [32]]) (body := body)
    (ts := .whitespace [10] :: ts) (rules := rules) (by simp) (by simp) (by simp) (by simp) (by simp) hf (.blank hs)
  simpa [Toy.rule] using this

theorem flat_decide {ts : List Tok} (h : ts.all (fun t => t ≠ .leftCurly ∧ t ≠ .rightCurly ∧ t ≠ .eof) = true) : Flat ts := by
  intro t ht
  have := List.all_eq_true.1 h t ht
  simpa using this

theorem toy_sheet : Sheet project doc (sheets main) := by
  have e1 : nameOf project [.delim [46], .ident (txt "button"), .whitespace [32]] = txt ".button" := by decide +kernel
  have e2 : nameOf project [.delim [46], .ident (txt "elevated"), .whitespace [32]] = txt ".elevated" := by decide +kernel
  have e3 : nameOf project [.delim [46], .ident (txt "white"), .whitespace [32]] = txt ".white" := by decide +kernel
  have e4 : nameOf project [.delim [46], .ident (txt "shadow"), .whitespace [32]] = txt ".shadow" := by decide +kernel
  rw [show sheets main = [(txt ".button", button), (txt ".elevated", elevated), (txt ".white", white), (txt ".shadow", shadow)] by
    simp [sheets], ← e1, ← e2, ← e3, ← e4]
  refine .atRule (by simp) ?_ ?_
  · exact .one (by simp) (by simp) (by simp) (.block .nil .nil)
  · refine sheet_rule _ _ _ _ _ (flat_decide (by decide +kernel)) (sheet_rule _ _ _ _ _ (flat_decide (by decide +kernel))
      (sheet_rule _ _ _ _ _ (flat_decide (by decide +kernel)) (sheet_rule _ _ _ _ _ (flat_decide (by decide +kernel)) .eof)))

/-- All imports of some tokens, as a list. -/
def importList (env : Env) (ts : List Tok) : List Ref := ts.filterMap (getImport env)

theorem mem_importList {env : Env} {ts : List Tok} {r : Ref} : r ∈ importList env ts ↔ Imports env ts r := by
  unfold importList Imports; rw [List.mem_filterMap]

theorem toy_project : Project project (· = main) sheets where
  pick := by
    intro l hl
    cases l with
    | nil => exact absurd rfl hl
    | cons a l => simp [project, env]
  source := by rintro p q rfl rfl _; rfl
  files := by
    rintro p rfl
    refine .inl ⟨doc, ?_, toy_sheet⟩
    simp [project, env, source]
  distinct := by rintro p rfl; decide +kernel
  closed := by
    rintro p rfl rule hr r hi
    have h : (sheets main).all (fun rule => (importList project rule.2).all (fun r => r.relpath = main)) = true := by decide +kernel
    have h1 := List.all_eq_true.1 (List.all_eq_true.1 h rule hr) r (mem_importList.2 hi)
    simpa using h1

/-- The hypotheses of C46 are met by the example of the documentation, and what comes out. -/
theorem C46_case :
    Project project (· = main) sheets ∧ (∀ r, Imports project doc r → r.relpath = main) ∧
    (∀ p, ∀ rule ∈ sheets p, ∀ r, Imports project rule.2 r → r.relpath = p) ∧
    Result project doc (.ok (
      [.atKeyword (txt "media"), .whitespace [32], .ident (txt "print"), .leftCurly, .ident (txt "p"), .leftCurly, .rightCurly, .rightCurly] ++
      rule (txt "button") ([.whitespace [32]] ++ decl (txt "color") (txt "red") ++ decl (txt "background") (txt "white") ++
        [.whitespace [32]] ++ decl (txt "box-shadow") (txt "none") ++ [.whitespace [32]]) ++
      rule (txt "elevated") ([.whitespace [32]] ++ decl (txt "background") (txt "white") ++ [.whitespace [32]] ++
        decl (txt "box-shadow") (txt "none") ++ [.whitespace [32]]) ++
      rule (txt "white") white ++ rule (txt "shadow") shadow ++ [.eof])) := by
  refine ⟨toy_project, ?_, ?_, ?_⟩
  · intro r hr
    have h : (importList project doc).all (fun r => r.relpath = main) = true := by decide +kernel
    simpa using List.all_eq_true.1 h r (mem_importList.2 hr)
  · intro p rule hr r hi
    by_cases hp : p = main
    · subst hp; exact toy_project.closed _ rfl rule hr r hi
    · simp [sheets, hp] at hr
  · exact Result.of_run 80 120 _ _ (by decide +kernel) (by simp)

/-! ## Circular and missing imports are reported -/

/-- Two rules which import each other. -/
def circular : List Tok :=
  rule (txt "a") [imp (txt ".b")] ++ (rule (txt "b") [imp (txt ".a")] ++ [.eof])

theorem C46_circular : Result (env fun p => if p = main then some circular else none) circular (.error .notFound) :=
  Result.of_run 60 60 _ _ (by decide +kernel) (by simp)

/-! ## The property is false in general -/

/-- The declarations of the rules of `main`, and of others. -/
def declared (l : List (Ref × List Tok)) (r : Ref) : Option (List Tok) := item l r

theorem pure_decide {e : Env} {ts : List Tok} (h : (ts.all fun t => getImport e t = none) = true) : Pure e ts :=
  fun t ht => by simpa using List.all_eq_true.1 h t ht

theorem expands_rule {e : Env} {d : Ref → Option (List Tok)} (name : Text) {body out : List Tok} (h : Expands e d body out) :
    Expands e d (rule name body) (rule name out) := by
  have h1 : Expands e d [.delim [46], .ident name, .whitespace [32], .leftCurly] [.delim [46], .ident name, .whitespace [32], .leftCurly] :=
    .keep rfl (.keep rfl (.keep rfl (.keep rfl .nil)))
  have h2 : Expands e d [.rightCurly, .whitespace [10]] [.rightCurly, .whitespace [10]] := .keep rfl (.keep rfl .nil)
  have := (h1.append h).append h2
  simpa [rule] using this

/-- Two rules with the same selector, neither of which is imported. -/
def twice : List Tok :=
  rule (txt "a") (decl (txt "color") (txt "red")) ++ (rule (txt "a") (decl (txt "margin") (txt "auto")) ++
    (rule (txt "b") [imp (txt ".c")] ++ (rule (txt "c") (decl (txt "top") (txt "auto")) ++ [.eof])))

/-- C46 is false in general: a selector which occurs twice in the file is an exception even if it is not imported. -/
theorem C46_false :
    (∃ out, Expands (env fun p => if p = main then some twice else none)
      (declared [(⟨main, txt ".c"⟩, decl (txt "top") (txt "auto"))]) twice out) ∧
    Result (env fun p => if p = main then some twice else none) twice (.error .already) := by
  refine ⟨?_, Result.of_run 60 60 _ _ (by decide +kernel) (by simp)⟩
  have hi : getImport (env fun p => if p = main then some twice else none) (imp (txt ".c")) = some ⟨main, txt ".c"⟩ := by decide +kernel
  refine ⟨rule (txt "a") (decl (txt "color") (txt "red")) ++ (rule (txt "a") (decl (txt "margin") (txt "auto")) ++
    (rule (txt "b") (decl (txt "top") (txt "auto") ++ []) ++ (rule (txt "c") (decl (txt "top") (txt "auto")) ++ [.eof]))), ?_⟩
  exact (Expands.of_pure (pure_decide (by decide +kernel))).append ((Expands.of_pure (pure_decide (by decide +kernel))).append
    ((expands_rule _ (.replace hi rfl (.of_pure (pure_decide (by decide +kernel))) (.refl _) .nil)).append
      (.of_pure (pure_decide (by decide +kernel)))))

/-- A rule imports one which is further down, and which imports from another file. -/
def across : List Tok :=
  rule (txt "a") [imp (txt ".b")] ++ (rule (txt "b") [imp (txt ".x FROM /css/o.css")] ++ [.eof])

def other : List Tok := rule (txt "x") (decl (txt "color") (txt "red")) ++ [.eof]

def acrossFiles (p : Text) : Option (List Tok) :=
  if p = main then some across else if p = txt "out/www/css/o.css" then some other else none

/-- C46 is false in general: the order does matter if the rule which is imported imports from another file. -/
theorem C46_false_across :
    (∃ out, Expands (env acrossFiles) (declared [(⟨main, txt ".b"⟩, [imp (txt ".x FROM /css/o.css")]),
      (⟨txt "src/public/css/o.css", txt ".x"⟩, decl (txt "color") (txt "red"))]) across out) ∧
    Result (env acrossFiles) across (.error .notFound) := by
  refine ⟨?_, Result.of_run 60 60 _ _ (by decide +kernel) (by simp)⟩
  have hi1 : getImport (env acrossFiles) (imp (txt ".b")) = some ⟨main, txt ".b"⟩ := by decide +kernel
  have hi2 : getImport (env acrossFiles) (imp (txt ".x FROM /css/o.css")) = some ⟨txt "src/public/css/o.css", txt ".x"⟩ := by
    decide +kernel
  have hd : declared [(⟨main, txt ".b"⟩, [imp (txt ".x FROM /css/o.css")]),
      (⟨txt "src/public/css/o.css", txt ".x"⟩, decl (txt "color") (txt "red"))] ⟨txt "src/public/css/o.css", txt ".x"⟩ =
      some (decl (txt "color") (txt "red")) := by decide +kernel
  have one : ∀ d : Ref → Option (List Tok), d ⟨txt "src/public/css/o.css", txt ".x"⟩ = some (decl (txt "color") (txt "red")) →
      Expands (env acrossFiles) d [imp (txt ".x FROM /css/o.css")] (decl (txt "color") (txt "red") ++ []) :=
    fun d h => .replace hi2 h (.of_pure (pure_decide (by decide +kernel))) (.refl _) .nil
  exact ⟨_, (expands_rule (txt "a") (.replace hi1 rfl (one _ hd) (.refl _) .nil)).append
    ((expands_rule (txt "b") (one _ hd)).append (.keep rfl .nil))⟩

/-- `@charset "x";` before a rule. -/
def charset : List Tok :=
  [.atKeyword (txt "charset"), .whitespace [32], .str (txt "x"), .semicolon] ++
    (rule (txt "c") (decl (txt "top") (txt "auto")) ++ (rule (txt "b") [imp (txt ".c")] ++ [.eof]))

/-- C46 is false in general: the rule behind an at-rule without a block is not found. -/
theorem C46_false_statement : Result (env fun p => if p = main then some charset else none) charset (.error .notFound) :=
  Result.of_run 60 60 _ _ (by decide +kernel) (by simp)

/-- C46 is false in general: if `from` occurs in the selector the comment is not taken for an import, and stays. -/
theorem C46_false_from : getImport (env fun _ => none) (imp (txt ".from-left")) = none := by decide +kernel

/-- An import of a rule into a block within the rule itself. -/
def nested : List Tok :=
  rule (txt "a") (.ident (txt "p") :: .leftCurly :: [imp (txt ".a")] ++ [.rightCurly]) ++ [.eof]

/-- The declarations of the rule. -/
def block : List Tok := [.ident (txt "p"), .leftCurly, imp (txt ".a"), .rightCurly]

/-- C46 is false in general: a circular import within a block in a rule goes on for ever. -/
theorem C46_false_endless (n f : Nat) (res : Except Err (List Tok)) :
    (loop [nest (env fun p => if p = main then some nested else none) n] f ⟨[], none, St.new⟩ nested).map
      (fun r => r.map (·.output)) = some res → res = .error .fuel := by
  generalize henv : (env fun p => if p = main then some nested else none) = e
  have hi : getImport e (imp (txt ".a")) = some ⟨main, txt ".a"⟩ := by subst henv; decide +kernel
  have hself : e.self = main := by subst henv; rfl
  -- once the rule is available, it is replaced by itself again and again
  have again : ∀ (n f : Nat) (out stack : List Tok) (st : St), st.rules.resolvable = [] →
      item st.rules.avail ⟨main, txt ".a"⟩ = some block → ∀ res,
      (loop [nest e n] f ⟨out, none, st⟩ (imp (txt ".a") :: stack)).map (fun r => r.map (·.output)) = some res →
      res = .error .fuel := by
    intro n f
    induction f using Nat.strongRecOn with
    | ind f ih =>
      intro out stack st h1 h2 res h
      cases f with
      | zero => simp only [loop] at h; cases h
      | succ f =>
        rw [loop_step, hi] at h
        dsimp only at h
        have hs : start e st (imp (txt ".a")) = .ok (true, st) := by simp [start, hi, hself]
        rw [hs] at h
        dsimp only at h
        cases n with
        | zero =>
          have hc : cont e 0 st (imp (txt ".a")) = .error .fuel := by simp only [cont, hi, ensureResolved, resolveAll]
          rw [hc] at h
          simp only [Option.map_some, Except.map, Option.some.injEq] at h
          exact h.symm
        | succ n =>
          have hr : resolveAll e (n + 1) st.rules = .ok st.rules := by simp only [resolveAll, h1, if_true]
          have hc : cont e (n + 1) st (imp (txt ".a")) = .ok (some block, st) := by
            simp only [cont, hi, ensureResolved, hr, h2, Option.isSome_some, if_true]
          rw [hc] at h
          dsimp only at h
          unfold block at h
          cases f with
          | zero => simp only [List.cons_append, loop] at h; cases h
          | succ f =>
            rw [List.cons_append, loop_step] at h
            simp only [getImport] at h
            cases f with
            | zero => simp only [List.cons_append, loop] at h; cases h
            | succ f =>
              rw [List.cons_append, loop_step] at h
              simp only [getImport] at h
              rw [List.cons_append] at h
              exact ih f (by omega) _ _ st h1 h2 res h
  -- the tokens up to the import
  intro h
  have hpre : nested = [.delim [46], .ident (txt "a"), .whitespace [32], .leftCurly, .ident (txt "p"), .leftCurly] ++
      imp (txt ".a") :: [.rightCurly, .rightCurly, .whitespace [10], .eof] := rfl
  rw [hpre] at h
  by_cases hf : f < 7
  · have : f = 0 ∨ f = 1 ∨ f = 2 ∨ f = 3 ∨ f = 4 ∨ f = 5 ∨ f = 6 := by omega
    rcases this with rfl | rfl | rfl | rfl | rfl | rfl | rfl <;>
      simp only [List.cons_append, List.nil_append, loop, round, findMark, nest, start, getImport] at h <;> cases h
  · obtain ⟨k, rfl⟩ : ∃ k, f = k + 1 + 6 := ⟨f - 7, by omega⟩
    have hpure : Pure e [.delim [46], .ident (txt "a"), .whitespace [32], .leftCurly, .ident (txt "p"), .leftCurly] := by
      intro t ht
      simp only [List.mem_cons, List.not_mem_nil, or_false] at ht
      rcases ht with rfl | rfl | rfl | rfl | rfl | rfl <;> rfl
    have hl := loop_pure n hpure (imp (txt ".a") :: [.rightCurly, .rightCurly, .whitespace [10], .eof]) [] St.new (k + 1)
    simp only [List.length_cons, List.length_nil, Nat.zero_add] at hl
    rw [hl] at h
    rw [loop_step, hi] at h
    dsimp only at h
    have hs : start e St.new (imp (txt ".a")) = .ok (true, St.new) := by simp [start, hi, hself]
    rw [hs] at h
    dsimp only at h
    -- the rule is read
    have hc : cont e n St.new (imp (txt ".a")) = .error .fuel ∨ ∃ st, cont e n St.new (imp (txt ".a")) = .ok (some block, st) ∧
        st.rules.resolvable = [] ∧ item st.rules.avail ⟨main, txt ".a"⟩ = some block := by
      have big : ∃ st, cont e 20 St.new (imp (txt ".a")) = .ok (some block, st) ∧
          st.rules.resolvable = [] ∧ item st.rules.avail ⟨main, txt ".a"⟩ = some block := by
        have h20 : (match cont e 20 St.new (imp (txt ".a")) with
            | .ok (some b, st) => decide (b = block ∧ st.rules.resolvable = [] ∧ item st.rules.avail ⟨main, txt ".a"⟩ = some block)
            | _ => false) = true := by subst henv; decide +kernel
        revert h20
        cases cont e 20 St.new (imp (txt ".a")) with
        | error _ => intro h; cases h
        | ok p =>
          obtain ⟨a, st⟩ := p
          cases a with
          | none => intro h; cases h
          | some b => intro h; have h := of_decide_eq_true h; exact ⟨st, by rw [h.1], h.2.1, h.2.2⟩
      have mono : ∀ a k, cont e a St.new (imp (txt ".a")) ≠ .error .fuel →
          cont e (a + k) St.new (imp (txt ".a")) = cont e a St.new (imp (txt ".a")) := by
        intro a k hne
        induction k with
        | zero => rfl
        | succ k ih => rw [← ih]; exact cont_stays (a + k) _ _ (by rw [ih]; exact hne)
      by_cases hfu : cont e n St.new (imp (txt ".a")) = .error .fuel
      · exact .inl hfu
      · right
        obtain ⟨st, b1, b2, b3⟩ := big
        refine ⟨st, ?_, b2, b3⟩
        have m1 := mono n 20 hfu
        have m2 := mono 20 n (by rw [b1]; simp)
        rw [← m1, Nat.add_comm, m2, b1]
    rcases hc with hc | ⟨st, hc, h1, h2⟩
    · rw [hc] at h
      simp only [Option.map_some, Except.map, Option.some.injEq] at h
      exact h.symm
    · rw [hc] at h
      dsimp only at h
      unfold block at h
      cases k with
      | zero => simp only [List.cons_append, loop] at h; cases h
      | succ k =>
        rw [List.cons_append, loop_step] at h
        simp only [getImport] at h
        cases k with
        | zero => simp only [List.cons_append, loop] at h; cases h
        | succ k =>
          rw [List.cons_append, loop_step] at h
          simp only [getImport] at h
          rw [List.cons_append] at h
          exact again n k _ _ st h1 h2 res h

end Verif.Nest
