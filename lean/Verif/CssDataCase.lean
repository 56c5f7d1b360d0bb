import Verif.CssDataInv

/-!
# C62: every image in a stylesheet becomes a file, and what is missing
-/

namespace Verif.Css.Data

open Verif.Reader (Text txt)
open Verif.Css (Tok)
open Verif.Assoc
open Verif.Build
open Verif.Handlers (Bytes Fs hashScan hashBuild hashTarget)
open Verif.Icons (add addAll mem_add)

/-- A manipulator at the beginning. -/
def fresh (fs : Fs) : St := ⟨fs, [], [], [], [], [], [], 0, false, none, []⟩

theorem inv_nil (scan : Bool) (env : Env) (stem : Text) (fs : Fs) : Inv scan env stem fs [] [] [] (fresh fs) := by
  have hno : ∀ k a b, ¬ ImageAt [] k a b := fun k a b h => by have := imageAt_lt h; simp at this
  have hp : Found [] [] := ⟨.nil, fun k => by simp only [List.not_mem_nil, false_iff]; rintro ⟨a, b, h⟩; exact hno _ _ _ h.1⟩
  have ha : ∀ d a, ¬ AddrAt stem [] [] d a := by rintro d a ⟨i, k, t, e, h, -⟩; simp at h
  have ha' : ∀ d a, ¬ AddressOf stem [] d a := fun d a h => ha d a ((addressOf_iff hp d a).1 h)
  have ho : ∀ q, ¬ Outputs stem [] q := by rintro q ⟨d, a, h, -⟩; exact ha' d a h
  refine ⟨hp, rfl, ?_, ⟨rfl, by simp⟩, ?_, rfl, rfl, rfl, ?_⟩
  · intro d p
    simp [fresh, item, ha]
  · intro q
    simp only [ho, iff_false]
    cases scan <;> simp [fresh]
  · cases scan
    · simp only [Bool.false_eq_true, if_false]
      exact ⟨fun d a h => absurd h (ha' d a), fun q _ => rfl⟩
    · rfl

theorem inv_run {scan : Bool} {env : Env} {stem : Text} {fs : Fs} (hs : Stylesheet env.self stem) (hin : InProject env) (hc : Cleared stem fs)
    (ts : List Tok) : ∃ out pos st, run scan env false (fresh fs) ts = .ok (out, st) ∧ Inv scan env stem fs ts out pos st := by
  induction h : ts.length generalizing ts with
  | zero =>
    cases List.length_eq_zero_iff.1 h
    exact ⟨[], [], fresh fs, rfl, inv_nil _ _ _ _⟩
  | succ n ih =>
    have hne : ts ≠ [] := by rintro rfl; simp at h
    rw [← List.dropLast_concat_getLast hne]
    obtain ⟨out, pos, st, h1, h2⟩ := ih ts.dropLast (by simp [h])
    obtain ⟨t', st', pos', h3, h4⟩ := inv_step hs hin hc h2 (ts.getLast hne)
    refine ⟨out ++ [t'], pos', st', ?_, h4⟩
    rw [run_snoc, h1]
    simp only [h3]

/-- The document does not end within `url(`: tokens of a file end with that for the end of the file. -/
def Ended (ts : List Tok) : Prop := ts.getLast? ≠ some (.function (txt "url"))

instance (ts : List Tok) : Decidable (Ended ts) := inferInstanceAs (Decidable (_ ≠ _))

/-- Whenever the builder comes to an end, this holds, and it does. -/
theorem loop_inv {scan : Bool} {env : Env} {stem : Text} {fs : Fs} (hs : Stylesheet env.self stem) (hin : InProject env) (hc : Cleared stem fs)
    {ts : List Tok} (he : Ended ts) : ∃ f out pos st, loop [outlineData scan env] f ⟨[], none, fresh fs⟩ ts = some (.ok ⟨out, none, st⟩) ∧
      Inv scan env stem fs ts out pos st := by
  obtain ⟨out, pos, st, h1, h2⟩ := inv_run hs hin hc ts (scan := scan)
  obtain ⟨f, hf⟩ := loop_run scan env ts.length ts [] (fresh fs) (Nat.le_refl _) ⟨rfl, rfl, rfl⟩ he
  rw [h1] at hf
  exact ⟨f, out, pos, st, hf, h2⟩

/-- C62, building: every image in the data of an URL is written to a file of its own, once for equal data, the URL refers to
that file and has its hash, and all other tokens and files are as they were.  The files, their hashes included, are reported as
produced.  Nothing fails.
Missing: the file has everything behind the first `;` or `,`, that is, with a `;` also the parameters (see `C62_false_base64`);
images with the same data but other types share a file (see `C62_false_type`); the working directory has to be the
folder of the project (see `C62_false_folder`) and earlier images must have been deleted (see `C62_false_stale`). -/
theorem C62_partial {env : Env} {stem : Text} (hs : Stylesheet env.self stem) (hin : InProject env) {fs : Fs} (hc : Cleared stem fs)
    {ts : List Tok} (he : Ended ts) : ∃ f s, loop [outlineData false env] f ⟨[], none, fresh fs⟩ ts = some (.ok s) ∧ s.mark = none ∧
      Outlined stem (fun data => txt "?" ++ env.query (env.digest (env.unquoted data))) ts s.output ∧
      Written stem env ts fs s.st.fs ∧ (∀ q, q ∈ s.st.produced ↔ Outputs stem ts q) ∧ s.st.reused = [] ∧ s.st.children = [] := by
  obtain ⟨f, out, pos, st, h1, h2⟩ := loop_inv (scan := false) hs hin hc he
  refine ⟨f, _, h1, rfl, ?_, ?_, ?_, h2.reused, h2.children⟩
  · exact h2.outlined
  · simpa using h2.files
  · simpa using h2.made

/-- C62 and C34, scanning: the outputs announced are those of the build, there are no dependencies, and nothing is written. -/
theorem C62_scan {env : Env} {stem : Text} (hs : Stylesheet env.self stem) (hin : InProject env) {fs : Fs} (hc : Cleared stem fs)
    {ts : List Tok} (he : Ended ts) : ∃ f s, loop [outlineData true env] f ⟨[], none, fresh fs⟩ ts = some (.ok s) ∧ s.mark = none ∧
      s.st.fs = fs ∧ (∀ q, q ∈ s.st.produces ↔ Outputs stem ts q) ∧ s.st.dependencies = [] := by
  obtain ⟨f, out, pos, st, h1, h2⟩ := loop_inv (scan := true) hs hin hc he
  refine ⟨f, _, h1, rfl, ?_, ?_, h2.dependencies⟩
  · simpa using h2.files
  · simpa using h2.made

/-- C62: different data never share a file, and equal data do. -/
theorem C62_distinct {stem : Text} {ts : List Tok} {d d' a a' : Text} (h : AddressOf stem ts d a) (h' : AddressOf stem ts d' a') : a = a' ↔ d = d' := by
  obtain ⟨pos, i, k, t, e, hp, h1, h2, h3, h4⟩ := h
  obtain ⟨pos', i', k', t', e', hp', h1', h2', h3', h4'⟩ := h'
  cases hp.unique hp'
  constructor
  · rintro rfl
    have : i + 1 = i' + 1 := (name_inj (stem := stem) (h4.symm.trans h4')).1
    have : i = i' := by omega
    subst this
    rw [h1] at h1'
    cases h1'
    exact (h2.1.unique h2'.1).2
  · rintro rfl
    exact addrAt_unique hp ⟨i, k, t, e, h1, h2, h3, h4⟩ ⟨i', k', t', e', h1', h2', h3', h4'⟩

/-- C62: every image has an address. -/
theorem C62_address (stem : Text) {env : Env} (hs : Stylesheet env.self stem) (hin : InProject env) {fs : Fs} (hc : Cleared stem fs) {ts : List Tok} {k : Nat}
    {type data : Text} (h : ImageAt ts k type data) : ∃ a, AddressOf stem ts data a := by
  obtain ⟨out, pos, st, -, h2⟩ := inv_run (scan := true) hs hin hc ts
  obtain ⟨a, ha⟩ := addrAt_exists (stem := stem) h2.found h
  exact ⟨a, (addressOf_iff h2.found _ _).2 ha⟩

end Verif.Css.Data

namespace Verif.Css.Data.DataToy

open Verif.Reader (Text txt)
open Verif.Css (Tok)
open Verif.Build
open Verif.Handlers (Bytes Fs)

/-- Data without percent signs are not changed by `unquote`. -/
def env : Env := ⟨txt "src/public/css/main.css", fun fs p => (fs p).isSome, id, fun b => txt "h" ++ b, fun b => txt "v=" ++ b⟩

def fs : Fs := fun _ => none

theorem sheet : Stylesheet env.self (txt "css/main") :=
  ⟨by decide +kernel, by decide +kernel, 109, by decide +kernel, by decide +kernel⟩

theorem inProject : InProject env := fun _ _ => rfl

def doc : List Tok := [.ident (txt "a"), .function (txt "url"), .str (txt "data:image/svg+xml,x"), .rightParens,
  .function (txt "url"), .str (txt "data:image/png,y"), .rightParens, .function (txt "url"), .str (txt "data:image/gif,x"), .eof]

theorem cleared : Cleared (txt "css/main") fs := fun _ _ => rfl

theorem doc_run : (run false env false (fresh fs) doc).map Prod.fst = .ok
    [.ident (txt "a"), .function (txt "url"), .str (txt "/img/gen/css/main/1.svg?v=hx"), .rightParens,
      .function (txt "url"), .str (txt "/img/gen/css/main/2.png?v=hy"), .rightParens, .function (txt "url"),
      .str (txt "/img/gen/css/main/1.svg?v=hx"), .eof] := by decide +kernel

/-- The hypotheses are met, and this is the result: the third image shares the file of the first, although it is of another
type (`C62_false_type`). -/
theorem C62_case : Stylesheet env.self (txt "css/main") ∧ InProject env ∧ Cleared (txt "css/main") fs ∧ Ended doc ∧
    ∃ f s, loop [outlineData false env] f ⟨[], none, fresh fs⟩ doc = some (.ok s) ∧ s.output =
      [.ident (txt "a"), .function (txt "url"), .str (txt "/img/gen/css/main/1.svg?v=hx"), .rightParens,
        .function (txt "url"), .str (txt "/img/gen/css/main/2.png?v=hy"), .rightParens, .function (txt "url"),
        .str (txt "/img/gen/css/main/1.svg?v=hx"), .eof] := by
  have he : Ended doc := by decide +kernel
  refine ⟨sheet, inProject, cleared, he, ?_⟩
  obtain ⟨f, hf⟩ := loop_run false env doc.length doc [] (fresh fs) (Nat.le_refl _) ⟨rfl, rfl, rfl⟩ he
  have hs := doc_run
  cases h : run false env false (fresh fs) doc with
  | error e => rw [h] at hs; cases hs
  | ok p =>
    rw [h] at hs hf
    simp only [Except.map, Except.ok.injEq] at hs
    exact ⟨f, _, hf, by simpa [done] using hs⟩

/-- What the file with this path has in it when the document has been built. -/
def content (env : Env) (fs : Fs) (doc : List Tok) (p : Text) : Except DErr (Option Bytes) :=
  (run false env false (fresh fs) doc).map fun r => r.2.fs p

/-- The builder ends in this state. -/
theorem content_loop {env : Env} {fs : Fs} {doc : List Tok} {p : Text} {b : Option Bytes} (he : Ended doc) (h : content env fs doc p = .ok b) :
    ∃ f s, loop [outlineData false env] f ⟨[], none, fresh fs⟩ doc = some (.ok s) ∧ s.st.fs p = b := by
  obtain ⟨f, hf⟩ := loop_run false env doc.length doc [] (fresh fs) (Nat.le_refl _) ⟨rfl, rfl, rfl⟩ he
  unfold content at h
  cases hr : run false env false (fresh fs) doc with
  | error e => rw [hr] at h; cases h
  | ok q =>
    rw [hr] at h hf
    simp only [Except.map, Except.ok.injEq] at h
    exact ⟨f, _, hf, h⟩

/-- C62 is false for data in base64: they are not decoded, the file has the text of the URL, including the name of the
encoding. -/
theorem C62_false_base64 : ∃ f s, loop [outlineData false env] f ⟨[], none, fresh fs⟩
    [.function (txt "url"), .str (txt "data:image/png;base64,iVBORw=="), .rightParens] = some (.ok s) ∧
    s.st.fs (txt "out/www/img/gen/css/main/1.png") = some (txt "base64,iVBORw==") :=
  content_loop (by decide +kernel) (by decide +kernel)

/-- C62 is false for data with a character set: it becomes a part of the file. -/
theorem C62_false_charset : ∃ f s, loop [outlineData false env] f ⟨[], none, fresh fs⟩
    [.function (txt "url"), .str (txt "data:image/svg+xml;utf8,<svg/>"), .rightParens] = some (.ok s) ∧
    s.st.fs (txt "out/www/img/gen/css/main/1.svg") = some (txt "utf8,<svg/>") :=
  content_loop (by decide +kernel) (by decide +kernel)

/-- Files from an earlier build, with another image. -/
def old : Fs := fun p =>
  if p = txt "out/www/img/gen/css/main/1.png" then some (txt "old") else if p = txt "out/www/img/gen/css/main/1.png.hash" then some (txt "hold") else none

/-- C62 is false when a file with the same number is left from an earlier build: it is kept, with another image. -/
theorem C62_false_stale : ∃ f s, loop [outlineData false env] f ⟨[], none, fresh old⟩
    [.function (txt "url"), .str (txt "data:image/png,new"), .rightParens] = some (.ok s) ∧
    s.st.fs (txt "out/www/img/gen/css/main/1.png") = some (txt "old") :=
  content_loop (by decide +kernel) (by decide +kernel)

/-- C62 is false outside of the folder of the project: a file below the working directory is taken for that of the project, so that
the image is not written and the build fails. -/
theorem C62_false_folder : ∃ f, loop [outlineData false { env with lexists := fun _ _ => true }] f ⟨[], none, fresh fs⟩
    [.function (txt "url"), .str (txt "data:image/png,new"), .rightParens] = some (.error .notFound) := by
  obtain ⟨f, hf⟩ := loop_run false { env with lexists := fun _ _ => true } 3
    [.function (txt "url"), .str (txt "data:image/png,new"), .rightParens] [] (fresh fs) (by decide) ⟨rfl, rfl, rfl⟩ (by decide +kernel)
  refine ⟨f, ?_⟩
  rw [hf]
  have h : (run false { env with lexists := fun _ _ => true } false (fresh fs)
      [.function (txt "url"), .str (txt "data:image/png,new"), .rightParens]).map Prod.fst = .error .notFound := by decide +kernel
  revert h
  cases run false { env with lexists := fun _ _ => true } false (fresh fs) [.function (txt "url"), .str (txt "data:image/png,new"), .rightParens] with
  | error e => intro h; cases h; rfl
  | ok p => intro h; cases h

/-- C62 is false for the type: the second image is an SVG, but its URL is that of a file with the extension of the first. -/
theorem C62_false_type : AddressOf (txt "css/main") doc (txt "x") (txt "/img/gen/css/main/1.svg") ∧
    ImageAt doc 8 (txt "gif") (txt "x") := by
  have him : ImageAt doc 8 (txt "gif") (txt "x") := by
    refine ⟨7, txt "data:image/gif,x", rfl, rfl, rfl, ?_⟩
    rw [← dataOf_spec]
    decide +kernel
  obtain ⟨a, ha⟩ := C62_address (txt "css/main") sheet inProject cleared him
  have : a = txt "/img/gen/css/main/1.svg" := by
    obtain ⟨pos, i, k, t, e, hp, h1, h2, h3, h4⟩ := ha
    have himg2 : ImageAt doc 2 (txt "svg+xml") (txt "x") := by
      refine ⟨1, txt "data:image/svg+xml,x", rfl, rfl, rfl, ?_⟩
      rw [← dataOf_spec]
      decide +kernel
    have hfirst : FirstAt doc 2 (txt "svg+xml") (txt "x") := by
      refine ⟨himg2, ?_⟩
      rintro j t' hj ⟨j', v, rfl, hf, hg, -⟩
      have : j' = 0 := by omega
      subst this
      simp [doc] at hf
    obtain ⟨rfl, rfl⟩ := first_unique h2 hfirst
    have he : e = txt "svg" := h3.unique (by
      have := extOf_spec (txt "svg+xml")
      have e' : (txt "svg+xml").takeWhile (· != 43) = txt "svg" := by decide +kernel
      rwa [e'] at this)
    have hi : i = 0 := by
      cases i with
      | zero => rfl
      | succ i =>
        have hlen := (List.getElem?_eq_some_iff.1 h1).1
        have hlt : pos[0]'(by omega) < 2 := by
          have := List.pairwise_iff_getElem.1 hp.1 0 (i + 1) (by omega) hlen (by omega)
          rw [(List.getElem?_eq_some_iff.1 h1).2] at this
          exact this
        obtain ⟨t', d', hf'⟩ := (hp.2 _).1 (List.getElem_mem (l := pos) (n := 0) (by omega))
        obtain ⟨j, v, hj, hf, -⟩ := hf'.1
        have : j = 0 := by omega
        subst this
        simp [doc] at hf
    subst he hi
    rw [h4]
    decide +kernel
  subst this
  exact ⟨ha, him⟩

/-- C62 is false for an URL without quotes, and for one with a space in front of the string: they stay as they are. -/
theorem C62_false_unquoted : (∃ f s, loop [outlineData false env] f ⟨[], none, fresh fs⟩ [.url (txt "data:image/png,x")] = some (.ok s) ∧
      s.output = [.url (txt "data:image/png,x")]) ∧
    ∃ f s, loop [outlineData false env] f ⟨[], none, fresh fs⟩ [.function (txt "url"), .whitespace (txt " "), .str (txt "data:image/png,x")] = some (.ok s) ∧
      s.output = [.function (txt "url"), .whitespace (txt " "), .str (txt "data:image/png,x")] := by
  constructor
  · obtain ⟨f, hf⟩ := loop_run false env 1 [.url (txt "data:image/png,x")] [] (fresh fs) (by decide) ⟨rfl, rfl, rfl⟩ (by decide +kernel)
    exact ⟨f, _, hf, rfl⟩
  · obtain ⟨f, hf⟩ := loop_run false env 3 [.function (txt "url"), .whitespace (txt " "), .str (txt "data:image/png,x")] [] (fresh fs) (by decide)
      ⟨rfl, rfl, rfl⟩ (by decide +kernel)
    exact ⟨f, _, hf, rfl⟩

end Verif.Css.Data.DataToy
