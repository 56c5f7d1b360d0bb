import Verif.JsDeps
import Verif.JsResolve
import Verif.HtmlFiles

/-!
# Scripts

Model of vanillaplusjs/build/handlers/js.py with its manipulators, js/manipulate_and_serialize.py and the paths of
hash_imports.py.  Paths are relative to the project folder.
-/

namespace Verif.Js.File

open Verif.Reader (Text txt)
open Verif.Build
open Verif.Paths (join relpath)
open Verif.Handlers (Bytes Fs Scan Built copyScan hashScan copyTarget hashTarget hashBuild)
open Verif.Icons (add addAll mem_add mem_addAll)
open Verif.Html (cacheQuery)
open Verif.Html.Page (Handler Honest Covers Exact)

/-- What the handler is given.  `typeName` is the type of a token in a message. -/
structure Env where
  cwd : Text
  folder : Text
  space : Nat → Bool
  enc : Nat → Text
  typeName : Tok → Text
  digest : Bytes → Bytes
  /-- the text of a file, and back -/
  decode : Bytes → Text
  encode : Text → Bytes

inductive Err where
  | manip (e : MErr)
  | files (e : Handlers.Err)
deriving DecidableEq, Repr

/-- hash_imports.py:148-152: the file with the hash, relative to the project. -/
def hashPath (env : Env) (root : Text) : Text :=
  join (join (txt "out") (txt "www")) (relpath env.cwd root (join (txt "src") (txt "public")) ++ txt ".hash")

/-- hash_imports.py:20-27 and 117-165, for the file `rel`. -/
def hiEnv (env : Env) (scan : Bool) (rel : Text) (fs : Fs) : HiEnv where
  scan := scan
  resolve := resolvePath env.cwd env.folder rel
  hash root := (fs (hashPath env root)).map env.decode
  query := cacheQuery env.enc
  typeName := env.typeName

def manips (env : Env) (scan : Bool) (rel : Text) (fs : Fs) : List (Manip JsSt Tok MErr) :=
  jsManips ⟨scan, env.space⟩ (hiEnv env scan rel fs)

/-- js/manipulate_and_serialize.py:34-37: the tokens one after the other, the output being collected after each. -/
def perToken (ts : List Tok) : List (Op Tok) := ts.flatMap fun t => [.token t, .consume]

/-- js.py:35-59; without output the tokens are only handed over (js/manipulate_and_serialize.py:22-26). -/
def scanFile (fuel : Nat) (env : Env) (rel : Text) (fs : Fs) : Option (Except Err Scan) :=
  if !(txt ".js").isSuffixOf rel then some (.ok ⟨[], []⟩)
  else match fs rel with
  | none => some (.error (.files .notFound))
  | some b =>
    match tokenize (env.decode b) with
    | none => none
    | some ts =>
      (runOps (manips env true rel fs) fuel (State.new jsInit) [] (ts.map .token)).map fun
        | .error e => .error (.manip e)
        | .ok (_, s) => .ok ⟨addAll [] s.st.2.1.deps, addAll (addAll [] (copyScan rel).produces) (hashScan rel).produces⟩

/-- js.py:62-94.  The output is written at the end (js/manipulate_and_serialize.py:31-37 writes while it reads; no
manipulator reads the output). -/
def buildFile (fuel : Nat) (env : Env) (rel : Text) (fs : Fs) : Option (Except Err (Built × Fs)) :=
  if !(txt ".js").isSuffixOf rel then some (.ok (⟨[], [], []⟩, fs))
  else match copyTarget rel with
  | none => some (.error (.files .typeError))
  | some target =>
    match fs rel with
    | none => some (.error (.files .notFound))
    | some b =>
      match tokenize (env.decode b) with
      | none => none
      | some ts =>
        (runOps (manips env false rel fs) fuel (State.new jsInit) [] (perToken ts)).map fun
          | .error e => .error (.manip e)
          | .ok (out, s) =>
            match hashBuild env.digest target (fs.write target (env.encode (serializeMany out))) with
            | .error e => .error (.files e)
            | .ok (h, fs) => .ok (⟨addAll (addAll [] h.children) s.st.2.1.deps, addAll [target] h.produced, addAll [] h.reused⟩, fs)

/-! ## Specification -/

/-- The module specifier which replaces `s`: the path from the root, with the hash in out/www as a parameter. -/
def newPath (env : Env) (rel : Text) (fs : Fs) (s : Text) : Option Text :=
  (fs (hashPath env (resolvePath env.cwd env.folder rel s).1)).map fun h =>
    (resolvePath env.cwd env.folder rel s).2 ++ txt "?v=" ++ Html.quotePlus env.enc (env.decode h) ++ txt "&pv=1.3.2"

/-- The file which a module specifier names. -/
def fileOf (env : Env) (rel s : Text) : Text := (resolvePath env.cwd env.folder rel s).1

/-- What the build of `src/public/name` leaves: the script `out`, its hash unless there is one, nothing else. -/
structure Written (env : Env) (name : Text) (fs : Fs) (out : List Tok) (fs' : Fs) : Prop where
  script : fs' (txt "out/www/" ++ name) = some (env.encode (serializeMany out))
  hash : fs' (txt "out/www/" ++ name ++ txt ".hash") =
    some ((fs (txt "out/www/" ++ name ++ txt ".hash")).getD (env.digest (env.encode (serializeMany out))))
  others : ∀ p, p ≠ txt "out/www/" ++ name → p ≠ txt "out/www/" ++ name ++ txt ".hash" → fs' p = fs p

/-- What is reported for it, if it imports `ds`. -/
structure Reported (name : Text) (fs : Fs) (ds : List Text) (r : Built) : Prop where
  children : ∀ p, p ∈ r.children ↔ p ∈ ds
  produced : ∀ p, p ∈ r.produced ↔ p = txt "out/www/" ++ name ∨
    p = txt "out/www/" ++ name ++ txt ".hash" ∧ fs (txt "out/www/" ++ name ++ txt ".hash") = none
  reused : ∀ p, p ∈ r.reused ↔ p = txt "out/www/" ++ name ++ txt ".hash" ∧ fs (txt "out/www/" ++ name ++ txt ".hash") ≠ none

/-! ## Proofs -/

section builder
variable {S τ E : Type}

/-- Whatever the result. -/
theorem loop_split_any (ms : List (Manip S τ E)) : ∀ (f : Nat) (b : State S τ E) (stack more : List τ) (r : Except E (State S τ E)),
    loop ms f b (stack ++ more) = some r →
    (∃ b1, loop ms f b stack = some (.ok b1) ∧ loop ms f b1 more = some r) ∨ ∃ e, r = .error e ∧ loop ms f b stack = some (.error e) := by
  intro f
  induction f with
  | zero =>
    intro b stack more r h
    cases stack with
    | cons t ts => simp [loop] at h
    | nil => exact .inl ⟨b, by simp only [loop], h⟩
  | succ f ih =>
    intro b stack more r h
    cases stack with
    | nil => exact .inl ⟨b, by simp only [loop], h⟩
    | cons t ts =>
      rw [List.cons_append] at h
      simp only [loop] at h ⊢
      rw [round_append] at h
      cases hr : Build.round ms b t ts with
      | error e => simp only [hr, Option.some.injEq] at h; exact .inr ⟨e, h.symm, rfl⟩
      | ok p =>
        obtain ⟨stack', b'⟩ := p
        simp only [hr] at h ⊢
        rcases ih _ _ _ _ h with ⟨b1, h1, h2⟩ | h
        · exact .inl ⟨b1, h1, loop_mono ms f 1 _ _ _ h2⟩
        · exact .inr h

/-- The exceptions of the calls one after the other are those of the loop. -/
theorem loop_runOps_error (ms : List (Manip S τ E)) (f : Nat) : ∀ (ops : List (Op τ)) (b : State S τ E) (acc : List τ) (e : E),
    loop ms f { b with output := acc ++ b.output } (tokensOf ops) = some (.error e) → runOps ms f b acc ops = some (.error e) := by
  intro ops
  induction ops with
  | nil => intro b acc e h; simp [tokensOf, loop] at h
  | cons op ops ih =>
    intro b acc e h
    cases op with
    | consume =>
      simp only [runOps]
      exact ih _ _ _ (by simpa [tokensOf] using h)
    | token t =>
      have h' : loop ms f { b with output := acc ++ b.output } ([t] ++ tokensOf ops) = some (.error e) := h
      rcases loop_split_any ms _ _ _ _ _ h' with ⟨b1, h1, h2⟩ | ⟨e', he, h1⟩
      · rw [loop_output] at h1
        cases ht : loop ms f b [t] with
        | none => simp [ht] at h1
        | some r =>
          cases r with
          | error e => simp [ht, Except.map] at h1
          | ok b2 =>
            simp only [ht, Option.map, Except.map, Option.some.injEq, Except.ok.injEq] at h1
            subst h1
            simp only [runOps, handleToken, ht]
            exact ih _ _ _ h2
      · cases he
        rw [loop_output] at h1
        cases ht : loop ms f b [t] with
        | none => simp [ht] at h1
        | some r =>
          cases r with
          | ok b2 => simp [ht, Except.map] at h1
          | error e =>
            simp only [ht, Option.map, Except.map, Option.some.injEq, Except.error.injEq] at h1
            subst h1
            simp only [runOps, handleToken, ht]

/-- More fuel gives the same. -/
theorem runOps_mono (ms : List (Manip S τ E)) (f k : Nat) : ∀ (ops : List (Op τ)) (b : State S τ E) (acc : List τ)
    (r : Except E (List τ × State S τ E)), runOps ms f b acc ops = some r → runOps ms (f + k) b acc ops = some r := by
  intro ops
  induction ops with
  | nil => intro b acc r h; exact h
  | cons op ops ih =>
    intro b acc r h
    cases op with
    | consume => exact ih _ _ _ h
    | token t =>
      simp only [runOps, handleToken] at h ⊢
      split at h
      · cases h
      · next h1 => rw [loop_mono ms f k _ _ _ h1]; exact h
      · next h1 => rw [loop_mono ms f k _ _ _ h1]; exact ih _ _ _ h

end builder

theorem tokensOf_perToken (ts : List Tok) : tokensOf (perToken ts) = ts := by
  induction ts with
  | nil => rfl
  | cons t ts ih =>
    have e : perToken (t :: ts) = .token t :: .consume :: perToken ts := rfl
    rw [e]
    simp only [tokensOf, ih]

theorem tokensOf_tokens (ts : List Tok) : tokensOf (ts.map Op.token) = ts := by
  induction ts with
  | nil => rfl
  | cons t ts ih => simp only [List.map_cons, tokensOf, ih]

theorem runOps_perToken {S E : Type} {ms : List (Manip S Tok E)} {fuel : Nat} : ∀ {ts : List Tok} {b b' : State S Tok E} {acc acc' : List Tok},
    b.output = [] → runOps ms fuel b acc (perToken ts) = some (.ok (acc', b')) → b'.output = [] := by
  intro ts
  induction ts with
  | nil =>
    intro b b' acc acc' hb h
    simp only [perToken, List.flatMap_nil, runOps, Option.some.injEq, Except.ok.injEq, Prod.mk.injEq] at h
    rw [← h.2]; exact hb
  | cons t ts ih =>
    intro b b' acc acc' hb h
    have e : perToken (t :: ts) = .token t :: .consume :: perToken ts := rfl
    simp only [e, runOps] at h
    split at h
    · cases h
    · cases h
    · exact ih rfl h

theorem copyTarget_name (name : Text) : copyTarget (txt "src/public/" ++ name) = some (txt "out/www/" ++ name) := by
  have e1 : txt "src/public/" = Handlers.srcPublic ++ [47] := by decide
  have e3 : (txt "src/public/").length = Handlers.srcPublic.length + 1 := by decide
  unfold copyTarget
  rw [if_pos, List.drop_left' e3]
  · rfl
  · rw [List.isPrefixOf_iff_prefix, e1]; simp

theorem hashTarget_name (name : Text) : hashTarget (txt "src/public/" ++ name) = some (txt "out/www/" ++ name ++ txt ".hash") := by
  have e2 : Handlers.srcPublic ++ txt "/" = txt "src/public/" := by decide
  unfold hashTarget
  rw [e2, if_pos (by simp), List.drop_left' rfl]
  rfl

theorem hashTarget_out (name : Text) : hashTarget (txt "out/www/" ++ name) = some (txt "out/www/" ++ name ++ txt ".hash") := by
  have e5 : (Handlers.srcPublic ++ txt "/") = 115 :: txt "rc/public/" := by decide
  have e6 : txt "out/www/" = 111 :: txt "ut/www/" := by decide
  have e7 : Handlers.outWww = txt "out/www/" := rfl
  unfold hashTarget
  rw [if_neg, if_pos, e7, List.drop_left' rfl]
  · rw [e7]; simp
  · rw [e5, e6]; simp

theorem hash_ne (name : Text) : txt "out/www/" ++ name ++ txt ".hash" ≠ txt "out/www/" ++ name := by
  intro he
  have := congrArg List.length he
  have e : (txt ".hash").length = 5 := by decide
  simp [e] at this

/-- A file is written and hashed. -/
theorem hash_written {env : Env} {name : Text} {fs : Fs} {out : List Tok} : ∃ h fs',
    hashBuild env.digest (txt "out/www/" ++ name) (fs.write (txt "out/www/" ++ name) (env.encode (serializeMany out))) = .ok (h, fs') ∧
    Written env name fs out fs' ∧ ∀ ds, Reported name fs ds
      ⟨addAll (addAll [] h.children) ds, addAll [txt "out/www/" ++ name] h.produced, addAll [] h.reused⟩ := by
  have hne := hash_ne name
  have e1 : (fs.write (txt "out/www/" ++ name) (env.encode (serializeMany out))) (txt "out/www/" ++ name ++ txt ".hash") =
      fs (txt "out/www/" ++ name ++ txt ".hash") := by simp only [Fs.write, if_neg hne]
  have e2 : (fs.write (txt "out/www/" ++ name) (env.encode (serializeMany out))) (txt "out/www/" ++ name) =
      some (env.encode (serializeMany out)) := by simp [Fs.write]
  unfold hashBuild
  rw [hashTarget_out]
  simp only [e1, e2]
  cases hf : fs (txt "out/www/" ++ name ++ txt ".hash") with
  | some x =>
    refine ⟨_, _, rfl, ⟨e2, by rw [e1, hf]; rfl, fun p h1 h2 => by simp only [Fs.write, if_neg h1]⟩, fun ds => ⟨?_, ?_, ?_⟩⟩
    · intro p; simp [-List.append_assoc, mem_addAll]
    · intro p; simp [-List.append_assoc, mem_addAll, hf]
    · intro p; simp [-List.append_assoc, mem_addAll, hf]
  | none =>
    refine ⟨_, _, rfl, ⟨?_, by simp [-List.append_assoc, Fs.write, hf], fun p h1 h2 => by simp only [Fs.write, if_neg h1, if_neg h2]⟩, fun ds => ⟨?_, ?_, ?_⟩⟩
    · simp only [Fs.write, if_neg hne.symm, if_true]
    · intro p; simp [-List.append_assoc, mem_addAll]
    · intro p; simp [-List.append_assoc, mem_addAll, hf]
    · intro p; simp [-List.append_assoc, mem_addAll, hf]

/-- The result does not depend on the fuel. -/
theorem build_unique {env : Env} {rel : Text} {fs : Fs} {m n : Nat} {a b : Except Err (Built × Fs)}
    (h1 : buildFile m env rel fs = some a) (h2 : buildFile n env rel fs = some b) : a = b := by
  have mono : ∀ m k a, buildFile m env rel fs = some a → buildFile (m + k) env rel fs = some a := by
    intro m k a h
    unfold buildFile at h ⊢
    split at h
    · next hx => rw [if_pos hx]; exact h
    · next hx =>
      rw [if_neg hx]
      split at h
      · exact h
      · split at h
        · exact h
        · split at h
          · cases h
          · rw [Option.map_eq_some_iff] at h ⊢
            obtain ⟨x, h3, h4⟩ := h
            exact ⟨x, runOps_mono _ _ _ _ _ _ _ h3, h4⟩
  have e1 := mono m n a h1
  have e2 := mono n m b h2
  rw [Nat.add_comm] at e2
  rw [e1] at e2
  exact Option.some.inj e2

/-- What a build has done which succeeded, whatever the script. -/
theorem build_done {fuel : Nat} {env : Env} {name : Text} (hjs : (txt ".js").isSuffixOf (txt "src/public/" ++ name) = true) {fs fs' : Fs} {r : Built}
    (h : buildFile fuel env (txt "src/public/" ++ name) fs = some (.ok (r, fs'))) :
    ∃ b ts out s, fs (txt "src/public/" ++ name) = some b ∧ tokenize (env.decode b) = some ts ∧
      runOps (manips env false (txt "src/public/" ++ name) fs) fuel (State.new jsInit) [] (perToken ts) = some (.ok (out, s)) ∧
      Written env name fs out fs' ∧ Reported name fs s.st.2.1.deps r := by
  unfold buildFile at h
  rw [hjs, copyTarget_name] at h
  simp only [Bool.not_true, Bool.false_eq_true, if_false] at h
  split at h
  · cases h
  · next b hb =>
    split at h
    · cases h
    · next ts hts =>
      rw [Option.map_eq_some_iff] at h
      obtain ⟨x, h1, h2⟩ := h
      split at h2
      · cases h2
      · next out s =>
        obtain ⟨hh, fs1, h3, h4, h5⟩ := hash_written (env := env) (name := name) (fs := fs) (out := out)
        rw [h3] at h2
        cases h2
        exact ⟨b, ts, out, s, hb, hts, h1, h4, h5 _⟩

/-- **C70.** Whatever the script, a build which succeeds writes the script and its hash and nothing else, and reports this. -/
theorem C70_files {fuel : Nat} {env : Env} {name : Text} (hjs : txt ".js" <:+ txt "src/public/" ++ name) {fs fs' : Fs} {r : Built}
    (h : buildFile fuel env (txt "src/public/" ++ name) fs = some (.ok (r, fs'))) :
    (∃ out, Written env name fs out fs') ∧ (∃ ds, Reported name fs ds r) ∧ Honest (fun _ => False) fs fs' r := by
  obtain ⟨b, ts, out, s, -, -, -, h1, h2⟩ := build_done (List.isSuffixOf_iff_suffix.2 hjs) h
  refine ⟨⟨out, h1⟩, ⟨_, h2⟩, ?_, ?_, ?_⟩
  · intro p _ hp
    by_cases e1 : p = txt "out/www/" ++ name
    · rw [e1, h1.script]; rfl
    · by_cases e2 : p = txt "out/www/" ++ name ++ txt ".hash"
      · rw [e2, h1.hash]; rfl
      · rw [h1.others p e1 e2]; exact hp
  · intro p _ hp
    rw [h2.produced]
    by_contra hn
    rw [not_or, not_and] at hn
    by_cases e2 : p = txt "out/www/" ++ name ++ txt ".hash"
    · cases hf : fs (txt "out/www/" ++ name ++ txt ".hash") with
      | none => exact hn.2 e2 hf
      | some x => exact hp (by rw [e2, h1.hash, hf]; rfl)
    · exact hp (h1.others p hn.1 e2)
  · intro p _ hp
    rw [h2.produced, h2.reused] at hp
    rcases hp with (rfl | ⟨rfl, -⟩) | ⟨rfl, -⟩
    · rw [h1.script]; rfl
    · rw [h1.hash]; rfl
    · rw [h1.hash]; rfl

theorem newSpec_newPath (env : Env) (rel : Text) (fs : Fs) : newSpec (hiEnv env false rel fs) = newPath env rel fs := by
  have e : Html.quotePlus env.enc Html.processorVersion = txt "1.3.2" := rfl
  have e1 : txt "?v=" = txt "?" ++ txt "v=" := by decide
  have e2 : txt "&pv=1.3.2" = txt "&pv=" ++ txt "1.3.2" := by decide
  funext s
  simp only [newSpec, hiEnv, newPath, Bool.false_eq_true, if_false, Option.map_map]
  congr 1
  funext h
  simp only [Function.comp, cacheQuery]
  rw [e, e1, e2]
  simp only [List.append_assoc]

/-- **C70.** A script without type hints is scanned and built as `Hashed` says: the module specifiers of its import statements
get the hashes of the files they name, nothing else is changed, the files are announced and reported as what the script depends
on; unless a hash is missing, which is the only reason for a build to fail. -/
theorem C70_build {env : Env} (hs : SpaceOk env.space) {name : Text} (hjs : txt ".js" <:+ txt "src/public/" ++ name) {fs : Fs} {b : Bytes}
    (hb : fs (txt "src/public/" ++ name) = some b) :
    ∃ ts, tokenize (env.decode b) = some ts ∧ (NoHint env.space ts → ∃ ds,
      (∃ fuel s, scanFile fuel env (txt "src/public/" ++ name) fs = some (.ok s) ∧ (∀ p, p ∈ s.dependencies ↔ p ∈ ds) ∧
        ∀ p, p ∈ s.produces ↔ p = txt "out/www/" ++ name ∨ p = txt "out/www/" ++ name ++ txt ".hash") ∧
      ((∃ fuel r fs' out, buildFile fuel env (txt "src/public/" ++ name) fs = some (.ok (r, fs')) ∧
          Hashed (newPath env (txt "src/public/" ++ name) fs) (fileOf env (txt "src/public/" ++ name)) false ts out ds ∧
          Written env name fs out fs' ∧ Reported name fs ds r) ∨
        ∃ fuel p, buildFile fuel env (txt "src/public/" ++ name) fs = some (.error (.manip (.notFound p))) ∧ p ∈ ds ∧
          fs (hashPath env p) = none)) := by
  have hj := List.isSuffixOf_iff_suffix.2 hjs
  obtain ⟨ts, h1, h2⟩ := C34_partial (hiEnv env true (txt "src/public/" ++ name) fs) env.space hs (env.decode b)
  refine ⟨ts, h1, fun hn => ?_⟩
  obtain ⟨ds, ⟨f1, b1, h3, -, h4⟩, h5⟩ := h2 hn
  refine ⟨ds, ?_, ?_⟩
  · have h3' : loop (manips env true (txt "src/public/" ++ name) fs) f1 { State.new jsInit with output := [] ++ (State.new (E := MErr) (τ := Tok) jsInit).output }
        (tokensOf (ts.map Op.token)) = some (.ok b1) := by rw [tokensOf_tokens]; exact h3
    obtain ⟨acc, rest, h6, -⟩ := loop_runOps _ _ _ _ _ _ h3'
    refine ⟨f1, ⟨addAll [] b1.st.2.1.deps, addAll (addAll [] (copyScan (txt "src/public/" ++ name)).produces) (hashScan (txt "src/public/" ++ name)).produces⟩, ?_, ?_, ?_⟩
    · unfold scanFile
      rw [hj]
      simp only [Bool.not_true, Bool.false_eq_true, if_false, hb, h1, h6, Option.map_some]
    · intro p; simp [mem_addAll, h4]
    · intro p
      simp [mem_addAll, copyScan, hashScan, copyTarget_name, hashTarget_name]
  · rcases h5 with ⟨f2, b2, h6, -, h7, h8⟩ | ⟨f2, p, h6, h7, h8⟩
    · left
      have h6' : loop (manips env false (txt "src/public/" ++ name) fs) f2 { State.new jsInit with output := [] ++ (State.new (E := MErr) (τ := Tok) jsInit).output }
          (tokensOf (perToken ts)) = some (.ok b2) := by rw [tokensOf_perToken]; exact h6
      obtain ⟨acc, rest, h9, h10⟩ := loop_runOps _ _ _ _ _ _ h6'
      have hrest : rest = [] := runOps_perToken rfl h9
      rw [hrest, List.append_nil] at h10
      obtain ⟨hh, fs1, h11, h12, h13⟩ := hash_written (env := env) (name := name) (fs := fs) (out := acc)
      refine ⟨f2, _, fs1, acc, ?_, ?_, h12, h13 ds⟩
      · unfold buildFile
        rw [hj, copyTarget_name]
        simp only [Bool.not_true, Bool.false_eq_true, if_false, hb, h1, h9, Option.map_some, h11]
        rw [h7]
      · rw [h10, ← newSpec_newPath]; exact h8
    · right
      have h6' : loop (manips env false (txt "src/public/" ++ name) fs) f2 { State.new jsInit with output := [] ++ (State.new (E := MErr) (τ := Tok) jsInit).output }
          (tokensOf (perToken ts)) = some (.error (.notFound p)) := by rw [tokensOf_perToken]; exact h6
      have h9 := loop_runOps_error _ _ _ _ _ _ h6'
      refine ⟨f2, p, ?_, h7, ?_⟩
      · unfold buildFile
        rw [hj, copyTarget_name]
        simp only [Bool.not_true, Bool.false_eq_true, if_false, hb, h1, h9, Option.map_some]
      · have h8' : (fs (hashPath env p)).map env.decode = none := h8
        simpa using h8'

end Verif.Js.File
