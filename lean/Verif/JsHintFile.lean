import Verif.JsHinted
import Verif.JsFileCase
/-!
# C70 for scripts with type hints, and cases
-/
namespace Verif.Js.File
open Verif.Reader (Text txt)
open Verif.Build
open Verif.Handlers (Bytes Fs Scan Built copyScan hashScan copyTarget hashTarget hashBuild)
open Verif.Icons (add addAll mem_add mem_addAll)

/-- **C70** for scripts whose lines with type hints are apart from the import statements, and do not come directly after an empty
line.  The script is built as `Commented` and `Hashed` say: the lines with type hints become comments, and of what then stands there
the module specifiers of the import statements get the hashes of the files they name; nothing else is changed; the files are
reported as what the script depends on; unless a hash is missing, which is the only reason for a build to fail.  If the lines with
type hints have no imports in them the scan announces the same files.  Missing: the other scripts with type hints, see `C34_false`, `C55_false` and `C70_false`. -/
theorem C70_hints_partial {env : Env} (hs : SpaceOk env.space) {name : Text} (hjs : txt ".js" <:+ txt "src/public/" ++ name) {fs : Fs}
    {b : Bytes} (hb : fs (txt "src/public/" ++ name) = some b) :
    ∃ ts, tokenize (env.decode b) = some ts ∧ (Apart (Hint env.space) ts → NotAfterBlank (Hint env.space) ts →
      ∃ cs ds, Commented (Hint env.space) ts cs ∧
      (Quiet (Hint env.space) ts → ∃ fuel s, scanFile fuel env (txt "src/public/" ++ name) fs = some (.ok s) ∧ (∀ p, p ∈ s.dependencies ↔ p ∈ ds) ∧
        ∀ p, p ∈ s.produces ↔ p = txt "out/www/" ++ name ∨ p = txt "out/www/" ++ name ++ txt ".hash") ∧
      ((∃ fuel r fs' out, buildFile fuel env (txt "src/public/" ++ name) fs = some (.ok (r, fs')) ∧
          Hashed (newPath env (txt "src/public/" ++ name) fs) (fileOf env (txt "src/public/" ++ name)) false cs out ds ∧
          Written env name fs out fs' ∧ Reported name fs ds r) ∨
        ∃ fuel p, buildFile fuel env (txt "src/public/" ++ name) fs = some (.error (.manip (.notFound p))) ∧ p ∈ ds ∧
          fs (hashPath env p) = none)) := by
  have hj := List.isSuffixOf_iff_suffix.2 hjs
  obtain ⟨ts, cs, h1, hc, h2⟩ := C34_hints_partial (hiEnv env true (txt "src/public/" ++ name) fs) env.space hs (env.decode b)
  refine ⟨ts, h1, fun ha hn => ?_⟩
  obtain ⟨ds, hscan, h5⟩ := h2 ha
  have hend : EofEnd ts := by
    obtain ⟨ts', e1, e2⟩ := tokenize_eofEnd (env.decode b)
    rw [h1] at e1
    cases e1
    exact e2
  refine ⟨cs, ds, commented_of_notAfterBlank hc hn (.inl hend), ?_, ?_⟩
  · intro hq
    obtain ⟨f1, b1, h3, -, h4⟩ := hscan hq
    have h3' : loop (manips env true (txt "src/public/" ++ name) fs) f1 { State.new jsInit with output := [] ++ (State.new (E := MErr) (τ := Tok) jsInit).output }
        (tokensOf (ts.map Op.token)) = some (.ok b1) := by rw [tokensOf_tokens]; exact h3
    obtain ⟨acc, rest, h6, -⟩ := loop_runOps _ _ _ _ _ _ h3'
    refine ⟨f1, ⟨addAll [] b1.st.2.1.deps, addAll (addAll [] (copyScan (txt "src/public/" ++ name)).produces) (hashScan (txt "src/public/" ++ name)).produces⟩, ?_, ?_, ?_⟩
    · unfold scanFile
      rw [hj]
      simp only [Bool.not_true, Bool.false_eq_true, if_false, hb, h1, h6, Option.map_some]
    · intro p; simp [mem_addAll, h4]
    · intro p
      simp [mem_addAll, copyScan, hashScan, copyTarget_name, hashTarget_name]
  · rcases h5 with ⟨f2, b2, h6, -, h7, h8⟩ | ⟨f2, p, h6, h7, h8⟩
    · left
      have h6' : loop (manips env false (txt "src/public/" ++ name) fs) f2 { State.new jsInit with output := [] ++ (State.new (E := MErr) (τ := Tok) jsInit).output }
          (tokensOf (perToken ts)) = some (.ok b2) := by rw [tokensOf_perToken]; exact h6
      obtain ⟨acc, rest, h9, h10⟩ := loop_runOps _ _ _ _ _ _ h6'
      have hrest : rest = [] := runOps_perToken rfl h9
      rw [hrest, List.append_nil] at h10
      obtain ⟨hh, fs1, h11, h12, h13⟩ := hash_written (env := env) (name := name) (fs := fs) (out := acc)
      refine ⟨f2, _, fs1, acc, ?_, ?_, h12, h13 ds⟩
      · unfold buildFile
        rw [hj, copyTarget_name]
        simp only [Bool.not_true, Bool.false_eq_true, if_false, hb, h1, h9, Option.map_some, h11]
        rw [h7]
      · rw [h10, ← newSpec_newPath]; exact h8
    · right
      have h6' : loop (manips env false (txt "src/public/" ++ name) fs) f2 { State.new jsInit with output := [] ++ (State.new (E := MErr) (τ := Tok) jsInit).output }
          (tokensOf (perToken ts)) = some (.error (.notFound p)) := by rw [tokensOf_perToken]; exact h6
      have h9 := loop_runOps_error _ _ _ _ _ _ h6'
      refine ⟨f2, p, ?_, h7, ?_⟩
      · unfold buildFile
        rw [hj, copyTarget_name]
        simp only [Bool.not_true, Bool.false_eq_true, if_false, hb, h1, h9, Option.map_some]
      · have h8' : (fs (hashPath env p)).map env.decode = none := h8
        simpa using h8'

/-- Scripts without type hints are among these, and nothing in them becomes a comment. -/
theorem noHint_apart {space : Nat → Bool} {ts : List Tok} (h : NoHint space ts) :
    Apart (Hint space) ts ∧ NotAfterBlank (Hint space) ts ∧ Quiet (Hint space) ts ∧ ∀ cs, Commented (Hint space) ts cs → cs = ts := by
  refine ⟨?_, ?_, ?_, ?_⟩
  · rintro a run line t b rfl _ _ _ _ x hx
    exact h x (by simp [hx])
  · rintro a line t b rfl _ _ _ x hx
    exact h x (by simp [hx])
  · rintro line ⟨a, t, b, rfl, _, _, _, x, hx, hh⟩
    exact absurd hh (h x (by simp [hx]))
  · intro cs hc
    induction hc with
    | nil => rfl
    | plain _ _ _ _ ih => rw [ih fun x hx => h x (by simp [hx])]
    | hint _ _ h3 _ _ =>
      obtain ⟨x, hx, hh⟩ := h3
      exact absurd hh (h x (by simp [hx]))

/-! ## A case -/

namespace HintToy

/-- The lines without their ends. -/
def splitLines : List Tok → List (List Tok)
  | [] => []
  | t :: ts => if endsLine t then [] :: splitLines ts else
      match splitLines ts with
      | [] => [[t]]
      | l :: ls => (t :: l) :: ls

theorem split_line {line : List Tok} {t : Tok} {b : List Tok} (h : Line line) (ht : LineEnds t) :
    splitLines (line ++ t :: b) = line :: splitLines b := by
  induction line with
  | nil => simp [splitLines, (endsLine_iff t).2 ht]
  | cons x line ih =>
    have h1 := not_ends h (t := x) (by simp)
    simp only [List.cons_append, splitLines, h1, Bool.false_eq_true, if_false]
    rw [ih ⟨fun h' => h.1 (by simp [h']), fun h' => h.2 (by simp [h'])⟩]

theorem split_append (c : List Tok) : ∀ (a : List Tok), (a = [] ∨ a.getLast? = some .lineTerminator) →
    splitLines (a ++ c) = splitLines a ++ splitLines c := by
  intro a
  induction a with
  | nil => intro _; rfl
  | cons x a ih =>
    intro h
    have h := h.resolve_left (by simp)
    by_cases hx : endsLine x = true
    · have h' : a = [] ∨ a.getLast? = some .lineTerminator := by
        cases a with
        | nil => exact .inl rfl
        | cons y a => right; rw [List.getLast?_cons_cons] at h; exact h
      simp only [List.cons_append, splitLines, hx, if_true]
      rw [ih h']
    · have hne : a ≠ [] := by
        rintro rfl
        simp at h
        subst h
        exact hx rfl
      have h' : a.getLast? = some .lineTerminator := by
        cases a with
        | nil => exact absurd rfl hne
        | cons y a => rw [List.getLast?_cons_cons] at h; exact h
      have hs : splitLines a ≠ [] := by
        cases a with
        | nil => exact absurd rfl hne
        | cons y a =>
          simp only [splitLines]
          split
          · simp
          · split <;> simp
      simp only [List.cons_append, splitLines, hx]
      rw [ih (.inr h')]
      cases h2 : splitLines a with
      | nil => exact absurd h2 hs
      | cons l ls => rfl

theorem hintLine_mem {hint : Tok → Prop} {ts line : List Tok} (h : HintLine hint ts line) : line ∈ splitLines ts ∧ ∃ x ∈ line, hint x := by
  obtain ⟨a, t, b, rfl, ha, h1, h2, h3⟩ := h
  refine ⟨?_, h3⟩
  rw [List.append_assoc, split_append _ _ ha, split_line h1 h2]
  simp

/-- One import statement in one line, and no other: no type hint comes inside it. -/
theorem apart_one {hint : Tok → Prop} {u v : List Tok} {s : Text} (h1 : .lineTerminator ∉ u) (h2 : .kwImport ∉ u) (h3 : .kwImport ∉ v) :
    Apart hint (.kwImport :: u ++ .str s :: v) := by
  intro a run line t b e hb hl _ _
  exfalso
  obtain ⟨mid, g, rfl, hw⟩ := begins_walk hb
  cases a with
  | cons x a =>
    simp only [List.cons_append, List.cons.injEq] at e
    have : Tok.kwImport ∈ u ++ .str s :: v := by rw [e.2]; simp
    rcases List.mem_append.1 this with h | h
    · exact h2 h
    · rcases List.mem_cons.1 h with h | h
      · cases h
      · exact h3 h
  | nil =>
    simp only [List.nil_append, List.cons_append, List.cons.injEq, true_and, List.append_assoc] at e
    have hmid : Tok.lineTerminator ∈ mid := by
      cases mid with
      | nil => simp at hl
      | cons y mid => rw [List.getLast?_cons_cons] at hl; exact List.mem_of_getLast? hl
    rcases List.append_eq_append_iff.1 e with ⟨c, rfl, hc⟩ | ⟨c, rfl, hc⟩
    · rcases List.mem_append.1 hmid with h | h
      · exact h1 h
      · cases c with
        | nil => simp at h
        | cons z c =>
          simp only [List.cons_append, List.cons.injEq] at hc
          have := hw.mem z (by simp)
          rw [← hc.1] at this
          rcases this with (⟨w, h⟩ | h) | h <;> cases h
    · exact h1 (by simp [hmid])

/-- No type hint in a line after an empty one. -/
def pairsOk (hint : Tok → Bool) : List (List Tok) → Bool
  | l1 :: l2 :: ls => (!l1.isEmpty || !l2.any hint) && pairsOk hint (l2 :: ls)
  | _ => true

theorem pairs_mid {hint : Tok → Bool} {line : List Tok} {q : List (List Tok)} : ∀ (p : List (List Tok)),
    pairsOk hint (p ++ [] :: line :: q) = true → line.any hint = false := by
  intro p
  induction p with
  | nil => intro h; simp only [List.nil_append, pairsOk, Bool.and_eq_true] at h; simpa using h.1
  | cons l p ih =>
    intro h
    cases p with
    | nil => simp only [List.cons_append, List.nil_append, pairsOk, Bool.and_eq_true] at h; exact ih (by simpa [pairsOk] using h.2)
    | cons l' p => simp only [List.cons_append, pairsOk, Bool.and_eq_true] at h; exact ih h.2

theorem notAfterBlank_of {hint : Tok → Prop} {f : Tok → Bool} (hf : ∀ t, hint t → f t = true) {ts : List Tok}
    (h : pairsOk f (splitLines ts) = true) : NotAfterBlank hint ts := by
  rintro a line t b rfl ha h1 h2 x hx hh
  have e : splitLines (a ++ .lineTerminator :: line ++ t :: b) = splitLines a ++ [] :: line :: splitLines b := by
    rw [List.append_assoc, split_append _ _ ha]
    congr 1
    have := split_line (line := []) (t := .lineTerminator) (b := line ++ t :: b) ⟨by simp, by simp⟩ (.inl rfl)
    rw [split_line h1 h2] at this
    simpa using this
  rw [e] at h
  have := List.any_eq_false.1 (pairs_mid _ h) x hx
  exact this (hf x hh)

/-- A script with an import, an empty line, and a declaration with a type hint. -/
def overload : Text := txt "import {x} from './b.js';\n\nx();\nfunction f(a); //@@type-hint\nfunction f(a) {}\n"

def toks : List Tok := (tokenize overload).getD []

theorem spaceOk : SpaceOk toy.space := by
  intro c h4 h5
  have : (c == 32) = false := by simp; omega
  exact this

/-- C34, C55, C70 with type hints: the hypotheses are met, and the script is built. -/
theorem C70_hints_case : (tokenize overload = some toks ∧ Apart (Hint toy.space) toks ∧ Quiet (Hint toy.space) toks ∧
      NotAfterBlank (Hint toy.space) toks ∧ ¬ NoHint toy.space toks) ∧
    ((buildFile 200 toy (txt "src/public/js/a.js") (files overload)).map fun
      | .ok (r, fs) => some (r.children, fs (txt "out/www/js/a.js"))
      | .error _ => none) =
    some (some ([txt "src/public/js/b.js"],
      some (txt "import {x} from \"/js/b.js?v=abc&pv=1.3.2\";\n\nx();\n/*function f(a); /*@@type-hint*\\/*/\nfunction f(a) {}\n"))) := by
  refine ⟨⟨?_, ?_, ?_, ?_, ?_⟩, by decide +kernel⟩
  · have h : (tokenize overload).isSome = true := by decide +kernel
    obtain ⟨ts, h1⟩ := Option.isSome_iff_exists.1 h
    rw [toks, h1]; rfl
  · have e : toks = .kwImport :: (toks.drop 1).take 7 ++ .str (txt "./b.js") :: toks.drop 9 := by decide +kernel
    rw [e]
    exact apart_one (by decide +kernel) (by decide +kernel) (by decide +kernel)
  · intro line hl
    obtain ⟨h1, x, hx, hh⟩ := hintLine_mem hl
    have h2 := (isHint_iff ⟨false, toy.space⟩ spaceOk x).2 hh
    have h3 : (splitLines toks).all (fun l => !l.any (isHint ⟨false, toy.space⟩) ||
        (!l.contains .kwImport && l.all (fun t => !isSkipMark t) && !isSkipMark (.comment (serializeMany l)))) = true := by decide +kernel
    have h4 := List.all_eq_true.1 h3 line h1
    rw [List.any_eq_true.2 ⟨x, hx, h2⟩] at h4
    simp only [Bool.not_true, Bool.false_or, Bool.and_eq_true, Bool.not_eq_true', List.all_eq_true] at h4
    refine ⟨?_, ?_, ?_⟩
    · intro hm
      have := List.contains_iff_mem.2 hm
      rw [h4.1.1] at this
      cases this
    · intro t ht hm
      have := h4.1.2 t ht
      rw [(isSkipMark_iff t).2 hm] at this
      cases this
    · intro hm
      have := h4.2
      rw [(isSkipMark_iff _).2 hm] at this
      cases this
  · exact notAfterBlank_of (f := isHint ⟨false, toy.space⟩) (fun t ht => (isHint_iff ⟨false, toy.space⟩ spaceOk t).2 ht) (by decide +kernel)
  · intro h
    have h2 : toks.any (isHint ⟨false, toy.space⟩) = true := by decide +kernel
    obtain ⟨t, ht, hh⟩ := List.any_eq_true.1 h2
    exact h t ht ((isHint_iff ⟨false, toy.space⟩ spaceOk t).1 hh)

end HintToy
end Verif.Js.File
