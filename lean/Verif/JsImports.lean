import Verif.JsHintFile
/-!
# What a script imports

The scan of a script and its build, whatever the hashes are, report the same files: those which the import statements name.
-/
namespace Verif.Js.File
open Verif.Reader (Text txt)
open Verif.Build
open Verif.Handlers (Bytes Fs Scan Built copyScan hashScan copyTarget hashTarget hashBuild)
open Verif.Icons (add addAll mem_add mem_addAll)

/-! ## Specification -/

/-- The import statements of the script `rel` with the content `y` name the file `d`. -/
def Imports (env : Env) (rel : Text) (y : Bytes) (d : Text) : Prop :=
  ∃ ts out ds, tokenize (env.decode y) = some ts ∧ Hashed some (fileOf env rel) false ts out ds ∧ d ∈ ds

/-- Lines with type hints are apart from the import statements, and no imports are in them. -/
def Orderly (env : Env) (y : Bytes) : Prop := ∀ ts, tokenize (env.decode y) = some ts → Apart (Hint env.space) ts ∧ Quiet (Hint env.space) ts

/-! ## Proofs -/

/-- The scan of the tokens reports what the import statements name. -/
theorem scan_loop (env : HiEnv) (space : Nat → Bool) {ts o : List Tok} {ds : List Text} (h : Hashed some (depOf env) false ts o ds) :
    ∃ fuel b, loop (jsManips ⟨true, space⟩ (scanEnv env)) fuel (State.new jsInit) ts = some (.ok b) ∧ b.st.2.1.deps = ds := by
  rcases carry_main (carrier_scan ⟨true, space⟩ (scanEnv env) rfl) okClosed_true h (.inl trivial) [] with ⟨out, b', h3, h4⟩ | ⟨x, h3, -⟩
  · obtain ⟨s', h5, b, rfl⟩ := h4 jsInit ⟨false, rfl⟩
    obtain ⟨f, hf⟩ := loop_complete h5 (State.new jsInit) rfl rfl
    exact ⟨f, _, hf, rfl⟩
  · simp [newSpec, scanEnv] at h3

theorem loop_unique {S τ E : Type} {ms : List (Manip S τ E)} {m n : Nat} {b : State S τ E} {l : List τ} {r r' : Except E (State S τ E)}
    (h1 : loop ms m b l = some r) (h2 : loop ms n b l = some r') : r = r' := by
  have e1 := loop_mono ms m n _ _ _ h1
  have e2 := loop_mono ms n m _ _ _ h2
  rw [Nat.add_comm] at e2
  rw [e1] at e2
  exact Option.some.inj e2

theorem hashed_unique (env : HiEnv) {ts o o' : List Tok} {ds ds' : List Text} (h : Hashed some (depOf env) false ts o ds)
    (h' : Hashed some (depOf env) false ts o' ds') : ds = ds' := by
  obtain ⟨f, b, h1, rfl⟩ := scan_loop env (fun _ => false) h
  obtain ⟨f', b', h2, rfl⟩ := scan_loop env (fun _ => false) h'
  cases loop_unique h1 h2
  rfl

/-- Every script has import statements, perhaps none. -/
theorem imports_list (env : Env) (rel : Text) (y : Bytes) : ∃ ts o ds, tokenize (env.decode y) = some ts ∧ Hashed some (fileOf env rel) false ts o ds ∧
    ∀ d, Imports env rel y d ↔ d ∈ ds := by
  obtain ⟨ts, h1, h2⟩ := tokenize_eofEnd (env.decode y)
  obtain ⟨o, ds, hr⟩ := hashed_total (fileOf env rel) _ false ts (Nat.le_refl _) (.inl h2)
  refine ⟨ts, o, ds, h1, hr, fun d => ⟨?_, fun h => ⟨ts, o, ds, h1, hr, h⟩⟩⟩
  rintro ⟨ts', o', ds', h3, h4, h5⟩
  rw [h1] at h3
  cases h3
  have h6 : Hashed some (depOf (hiEnv env true rel fun _ => none)) false ts o ds := hr
  have h7 : Hashed some (depOf (hiEnv env true rel fun _ => none)) false ts o' ds' := h4
  rwa [hashed_unique _ h6 h7]

/-- **C34** for whole files, and whatever the hashes: scan and build report the imported files, and the build succeeds unless one of their hashes is
missing. -/
theorem C34_imports_partial {env : Env} (hs : SpaceOk env.space) {name : Text} (hjs : txt ".js" <:+ txt "src/public/" ++ name) {fs : Fs} {y : Bytes}
    (hy : fs (txt "src/public/" ++ name) = some y) (ho : Orderly env y) :
    (∃ fuel s, scanFile fuel env (txt "src/public/" ++ name) fs = some (.ok s) ∧ (∀ p, p ∈ s.dependencies ↔ Imports env (txt "src/public/" ++ name) y p) ∧
      ∀ p, p ∈ s.produces ↔ p = txt "out/www/" ++ name ∨ p = txt "out/www/" ++ name ++ txt ".hash") ∧
    ((∃ fuel r fs', buildFile fuel env (txt "src/public/" ++ name) fs = some (.ok (r, fs')) ∧
        ∀ p, p ∈ r.children ↔ Imports env (txt "src/public/" ++ name) y p) ∨
      ∃ fuel p, buildFile fuel env (txt "src/public/" ++ name) fs = some (.error (.manip (.notFound p))) ∧
        Imports env (txt "src/public/" ++ name) y p ∧ fs (hashPath env p) = none) := by
  have hj := List.isSuffixOf_iff_suffix.2 hjs
  obtain ⟨ts, o, ds, h1, hr, hi⟩ := imports_list env (txt "src/public/" ++ name) y
  obtain ⟨ha, hq⟩ := ho ts h1
  obtain ⟨ts', cs, h1', -, h2⟩ := C34_hints_partial (hiEnv env true (txt "src/public/" ++ name) fs) env.space hs (env.decode y)
  rw [h1] at h1'
  cases h1'
  obtain ⟨ds', hscan, h5⟩ := h2 ha
  obtain ⟨f1, b1, h3, -, h4⟩ := hscan hq
  obtain ⟨f0, b0, h6, h7⟩ := scan_loop (hiEnv env true (txt "src/public/" ++ name) fs) env.space hr
  cases loop_unique h3 h6
  have : ds' = ds := h4.symm.trans h7
  subst this
  constructor
  · have h3' : loop (manips env true (txt "src/public/" ++ name) fs) f1 { State.new jsInit with output := [] ++ (State.new (E := MErr) (τ := Tok) jsInit).output }
        (tokensOf (ts.map Op.token)) = some (.ok b1) := by rw [tokensOf_tokens]; exact h3
    obtain ⟨acc, rest, h6, -⟩ := loop_runOps _ _ _ _ _ _ h3'
    refine ⟨f1, ⟨addAll [] b1.st.2.1.deps, addAll (addAll [] (copyScan (txt "src/public/" ++ name)).produces) (hashScan (txt "src/public/" ++ name)).produces⟩, ?_, ?_, ?_⟩
    · unfold scanFile
      rw [hj]
      simp only [Bool.not_true, Bool.false_eq_true, if_false, hy, h1, h6, Option.map_some]
    · intro p; simp [mem_addAll, h4, hi]
    · intro p
      simp [mem_addAll, copyScan, hashScan, copyTarget_name, hashTarget_name]
  · rcases h5 with ⟨f2, b2, h6, -, h7, h8⟩ | ⟨f2, p, h6, h7, h8⟩
    · left
      have h6' : loop (manips env false (txt "src/public/" ++ name) fs) f2 { State.new jsInit with output := [] ++ (State.new (E := MErr) (τ := Tok) jsInit).output }
          (tokensOf (perToken ts)) = some (.ok b2) := by rw [tokensOf_perToken]; exact h6
      obtain ⟨acc, rest, h9, h10⟩ := loop_runOps _ _ _ _ _ _ h6'
      obtain ⟨hh, fs1, h11, h12, h13⟩ := hash_written (env := env) (name := name) (fs := fs) (out := acc)
      refine ⟨f2, _, fs1, ?_, fun p => ((h13 ds').children p).trans (hi p).symm⟩
      unfold buildFile
      rw [hj, copyTarget_name]
      simp only [Bool.not_true, Bool.false_eq_true, if_false, hy, h1, h9, Option.map_some, h11]
      rw [h7]
    · right
      have h6' : loop (manips env false (txt "src/public/" ++ name) fs) f2 { State.new jsInit with output := [] ++ (State.new (E := MErr) (τ := Tok) jsInit).output }
          (tokensOf (perToken ts)) = some (.error (.notFound p)) := by rw [tokensOf_perToken]; exact h6
      have h9 := loop_runOps_error _ _ _ _ _ _ h6'
      refine ⟨f2, p, ?_, (hi p).2 h7, ?_⟩
      · unfold buildFile
        rw [hj, copyTarget_name]
        simp only [Bool.not_true, Bool.false_eq_true, if_false, hy, h1, h9, Option.map_some]
      · have h8' : (fs (hashPath env p)).map env.decode = none := h8
        simpa using h8'

theorem scan_unique {env : Env} {rel : Text} {fs : Fs} {m n : Nat} {a b : Except Err Scan}
    (h1 : scanFile m env rel fs = some a) (h2 : scanFile n env rel fs = some b) : a = b := by
  have mono : ∀ m k a, scanFile m env rel fs = some a → scanFile (m + k) env rel fs = some a := by
    intro m k a h
    unfold scanFile at h ⊢
    split at h
    · next hx => rw [if_pos hx]; exact h
    · next hx =>
      rw [if_neg hx]
      split at h
      · exact h
      · split at h
        · cases h
        · rw [Option.map_eq_some_iff] at h ⊢
          obtain ⟨x, h3, h4⟩ := h
          exact ⟨x, runOps_mono _ _ _ _ _ _ _ h3, h4⟩
  have e1 := mono m n a h1
  have e2 := mono n m b h2
  rw [Nat.add_comm] at e2
  rw [e1] at e2
  exact Option.some.inj e2

end Verif.Js.File
