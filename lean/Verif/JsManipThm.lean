import Verif.JsManipRun
import Verif.BuilderThm
import Verif.JsMain
/-!
# C33, C34, C55: imports and type hints
-/
namespace Verif.Js
open Verif.Reader (Text txt)
open Verif.Build

/-! ## The import manipulator alone -/

theorem start_pass (env : HiEnv) {p p' : HiP} {t : Tok} (h : hiHandle p t = .ok (p', .pass)) :
    (hashImports env).toManip.start (p, .unmarked) t = .ok (false, (p', .unmarked)) := by
  simp [YManip.toManip, YManip.start, hashImports, h]

theorem carrier_alone (env : HiEnv) :
    Carrier env [(hashImports env).toManip] (fun p s => s = (p, .unmarked)) (fun _ => True) where
  nil := by rintro p s rfl; exact ⟨_, .nil, rfl⟩
  keep := by
    rintro p t p' h ts out p'' - hs s rfl
    obtain ⟨s', h1, h2⟩ := hs _ rfl
    exact ⟨s', .keep (.cons (start_pass env h) .nil) h1, h2⟩
  keepFail := by
    rintro p t p' h ts e - hs s rfl
    exact .keep (.cons (start_pass env h) .nil) (hs _ rfl)
  replace := by
    rintro p run r p' ⟨t, s1, h1, h2, h3⟩ rest out p'' - hs s rfl
    obtain ⟨s', h4, h5⟩ := hs _ rfl
    exact ⟨s', .replace (.head h2) h1 h3 h4, h5⟩
  replaceFail := by
    rintro p run r p' ⟨t, s1, h1, h2, h3⟩ rest e - hs s rfl
    exact .replace (.head h2) h1 h3 (hs _ rfl)
  fail := by
    rintro p run e ⟨t, s1, ts, x, s2, rfl, h1, h2, h3, h4⟩ rest - s rfl
    have := Fails.cont (rest := rest) (Taken.head (ms := []) h2) h1 h3 h4
    simpa using this

theorem okClosed_true : OkClosed (fun _ => True) := ⟨by simp, by simp, by simp⟩

/-- **C33.**  For every sequence of tokens which ends with the end of file, handed to a builder with the
import manipulator in any way: the builder comes to an end with no run left open, and the tokens are
rewritten as `Hashed` says - the module specifiers of the import statements become `newSpec`, a
comment is put in front of the imports which are not understood, nothing else changes - and the files depended
upon are those of the import statements; or else, a hash file of one of these is missing, and this is
the exception. -/
theorem C33 (env : HiEnv) (ops : List (Op Tok)) (h : EofEnd (tokensOf ops)) :
    (∃ fuel acc rest b ds, runOps [(hashImports env).toManip] fuel (State.new (⟨false, []⟩, .unmarked)) [] ops =
        some (.ok (acc, { output := rest, mark := none, st := (⟨b, ds⟩, .unmarked) })) ∧
      Hashed (newSpec env) (depOf env) false (tokensOf ops) (acc ++ rest) ds) ∨
    (∃ fuel x o ds b, loop [(hashImports env).toManip] fuel (State.new (⟨false, []⟩, .unmarked)) (tokensOf ops) =
        some (.error (.notFound (depOf env x))) ∧ newSpec env x = none ∧ depOf env x ∈ ds ∧ b = false ∧
      Hashed some (depOf env) b (tokensOf ops) o ds) := by
  obtain ⟨o, ds, hr⟩ := hashed_total (depOf env) _ false (tokensOf ops) (Nat.le_refl _) (.inl h)
  rcases carry_main (carrier_alone env) okClosed_true hr (.inl trivial) [] with ⟨out, b', h1, h2⟩ | ⟨x, h1, h2, h3⟩
  · obtain ⟨s', h3, rfl⟩ := h2 _ rfl
    obtain ⟨fuel, acc, rest, h4, h5⟩ := C32_complete _ _ _ ops _ _ h3
    exact .inl ⟨fuel, acc, rest, b', [] ++ ds, h4, by rw [h5]; exact h1⟩
  · obtain ⟨f, hf⟩ := loop_fails (h3 _ rfl) (State.new _) rfl rfl
    exact .inr ⟨f, x, o, ds, false, hf, h1, h2, rfl, hr⟩

/-- Building never fails when every hash file is there. -/
theorem C33_total (env : HiEnv) (hh : ∀ p, env.hash p ≠ none) (ops : List (Op Tok)) (h : EofEnd (tokensOf ops)) :
    ∃ fuel acc rest b ds, runOps [(hashImports env).toManip] fuel (State.new (⟨false, []⟩, .unmarked)) [] ops =
        some (.ok (acc, { output := rest, mark := none, st := (⟨b, ds⟩, .unmarked) })) ∧
      Hashed (newSpec env) (depOf env) false (tokensOf ops) (acc ++ rest) ds := by
  rcases C33 env ops h with h | ⟨_, x, _, _, _, _, h2, _⟩
  · exact h
  · exfalso
    unfold newSpec at h2
    split at h2
    · cases h2
    · rw [Option.map_eq_none_iff] at h2
      exact hh _ h2

/-- What is in the output, apart from comments and module specifiers, is what was in the input. -/
theorem Hashed.frame {new : Text → Option Text} {dep : Text → Text} {b : Bool} {ts o : List Tok} {ds : List Text}
    (h : Hashed new dep b ts o ds) :
    (o.filter fun t => match t with | .comment v => !(txt "PREPROCESSOR: ignore-import").isPrefixOf v | .str _ => false | _ => true) =
    (ts.filter fun t => match t with | .comment v => !(txt "PREPROCESSOR: ignore-import").isPrefixOf v | .str _ => false | _ => true) := by
  induction h with
  | nil => rfl
  | keep _ _ _ ih => simp only [List.filter_cons, ih]
  | mark _ _ ih => simp only [List.filter_cons, ih]
  | ignored _ ih => simp only [List.filter_cons, ih]
  | hash _ _ _ _ ih => simp [List.filter_append, List.filter_cons, ih]
  | @bad run t rest o ds note _ _ _ _ ih =>
    have e : (txt "PREPROCESSOR: ignore-import").isPrefixOf (txt "PREPROCESSOR: ignore-import " ++ note) = true := by
      rw [List.isPrefixOf_iff_prefix]
      have e : txt "PREPROCESSOR: ignore-import " = txt "PREPROCESSOR: ignore-import" ++ [32] := by decide
      rw [e, List.append_assoc]
      exact List.prefix_append _ _
    rw [List.cons_append, List.filter_append, List.filter_cons]
    simp only [e, Bool.not_true, Bool.false_eq_true, if_false, List.filter_append, ih]

deriving instance DecidableEq for Except

/-! ### A case: `import a from '/x'; import 1` -/

def caseEnv : HiEnv :=
  { scan := false, resolve := fun s => (txt "src/public" ++ s, s), hash := fun _ => some (txt "HASH"),
    query := fun h => txt "v=" ++ h ++ txt "&pv=1", typeName := fun _ => txt "T" }

def caseToks : List Tok :=
  [.kwImport, .whitespace [32], .identifier (txt "a"), .lineTerminator, .kwFrom, .str (txt "/x"), .semicolon,
    .kwImport, .whitespace [32], .invalid (txt "1"), .comment (txt "PREPROCESSOR: ignore-import"), .kwImport,
    .str (txt "/y"), .eof]

theorem C33_case : EofEnd caseToks ∧
    (loop [(hashImports caseEnv).toManip] 100 (State.new (⟨false, []⟩, .unmarked)) caseToks).map
      (fun r => r.map fun b => (b.output, b.st.1.deps)) =
    some (.ok ([.kwImport, .whitespace [32], .identifier (txt "a"), .lineTerminator, .kwFrom,
      .str (txt "/x?v=HASH&pv=1"), .semicolon,
      .comment (txt "PREPROCESSOR: ignore-import expected next import; final token: T"),
      .kwImport, .whitespace [32], .invalid (txt "1"), .comment (txt "PREPROCESSOR: ignore-import"), .kwImport,
      .str (txt "/y"), .eof], [txt "src/public/x"])) :=
  ⟨⟨caseToks.dropLast, by decide, by decide⟩, by decide +kernel⟩

end Verif.Js
