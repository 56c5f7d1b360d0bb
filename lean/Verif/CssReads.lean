import Verif.CssLocal
import Verif.CssPageFiles
import Verif.JsFile
/-!
# Builds of stylesheets with other files

Like `build_reads` in `JsLocal.lean`.
-/
namespace Verif.Css.Page
open Verif.Reader (Text txt)
open Verif.Css (Tok tokenize serializeMany)
open Verif.Build
open Verif.Handlers (Bytes Fs Built hashBuild)
open Verif.Icons (addAll mem_addAll)

/-- No icons and no images, and only files of the website. -/
structure Flat (s : St) : Prop where
  quiet : Quiet s
  rules : ∀ c ∈ s.nest.children, txt "src/public/" <+: c
  hashes : ∀ h ∈ s.urls.children, txt "out/www/" <+: h

instance (s : St) : Decidable (Flat s) :=
  decidable_of_iff (Quiet s ∧ (∀ c ∈ s.nest.children, (txt "src/public/").isPrefixOf c = true) ∧ ∀ h ∈ s.urls.children, (txt "out/www/").isPrefixOf h = true)
    ⟨fun ⟨a, b, c⟩ => ⟨a, fun x hx => List.isPrefixOf_iff_prefix.1 (b x hx), fun x hx => List.isPrefixOf_iff_prefix.1 (c x hx)⟩,
      fun ⟨a, b, c⟩ => ⟨a, fun x hx => List.isPrefixOf_iff_prefix.2 (b x hx), fun x hx => List.isPrefixOf_iff_prefix.2 (c x hx)⟩⟩

/-- The stylesheet has neither icons nor images, and refers to files of the website only. -/
def plainFile (fuel n : Nat) (env : Env) (rel : Text) (fs : Fs) : Bool :=
  match fs rel with
  | none => false
  | some b =>
    match tokenize env.nest.uni (env.decode b) with
    | .error _ => false
    | .ok ts =>
      match runOps (buildManips n env) fuel (State.new (St.new fs)) [] (perToken ts) with
      | some (.ok (_, b)) => decide (Flat b.st)
      | _ => false

/-- What is read because of a child: of stylesheets the output, and hashes themselves. -/
def readOf (env : Env) (d : Text) : Text := if (txt "src/public/").isPrefixOf d then Nest.source env.nest d else d

/-- The new files. -/
def leave (env : Env) (name : Text) (fs : Fs) (out : List Tok) : Fs :=
  (fs.write (txt "out/www/" ++ name) (env.encode (serializeMany env.nest.uni out))).write (txt "out/www/" ++ name ++ txt ".hash")
    (env.data.digest (env.encode (serializeMany env.nest.uni out)))

/-- What is reported if the hash is not there. -/
def report (name : Text) (s : St) : Built := buildResult (txt "out/www/" ++ name) ⟨[], [txt "out/www/" ++ name ++ txt ".hash"], []⟩ s

/-- The build of a stylesheet whose hash is not there. -/
theorem build_bare {fuel n : Nat} {env : Env} {name : Text} {fs : Fs} (hh : fs (txt "out/www/" ++ name ++ txt ".hash") = none) {r : Built} {fs' : Fs} :
    (buildFile fuel n env (txt "src/public/" ++ name) fs = some (.ok (r, fs')) ∧ plainFile fuel n env (txt "src/public/" ++ name) fs = true) ↔
    ∃ b ts out s, fs (txt "src/public/" ++ name) = some b ∧ tokenize env.nest.uni (env.decode b) = .ok ts ∧
      runOps (buildManips n env) fuel (State.new (St.new fs)) [] (perToken ts) = some (.ok (out, s)) ∧ Flat s.st ∧
      r = report name s.st ∧ fs' = leave env name fs out := by
  have hhash : ∀ out, hashBuild env.data.digest (txt "out/www/" ++ name) (fs.write (txt "out/www/" ++ name) (env.encode (serializeMany env.nest.uni out))) =
      .ok (⟨[], [txt "out/www/" ++ name ++ txt ".hash"], []⟩, leave env name fs out) := by
    intro out
    unfold hashBuild
    rw [Js.File.hashTarget_out]
    dsimp only
    have e1 : (fs.write (txt "out/www/" ++ name) (env.encode (serializeMany env.nest.uni out))) (txt "out/www/" ++ name ++ txt ".hash") = none := by
      simp only [Handlers.Fs.write, if_neg (Js.File.hash_ne name)]; exact hh
    have e2 : (fs.write (txt "out/www/" ++ name) (env.encode (serializeMany env.nest.uni out))) (txt "out/www/" ++ name) = some (env.encode (serializeMany env.nest.uni out)) := by
      simp [Handlers.Fs.write]
    rw [e1, e2]
    rfl
  unfold buildFile plainFile
  rw [Js.File.copyTarget_name]
  dsimp only
  constructor
  · rintro ⟨h, hp⟩
    split at h
    · cases h
    · next b hb =>
      split at h
      · cases h
      · next ts hts =>
        cases hrun : runOps (buildManips n env) fuel (State.new (St.new fs)) [] (perToken ts) with
        | none => rw [hrun] at h; cases h
        | some x =>
          rw [hrun] at h
          simp only [hb, hts, hrun] at hp
          cases x with
          | error e => simp at h
          | ok x =>
            obtain ⟨out, s⟩ := x
            have hp : Flat s.st := of_decide_eq_true hp
            have hfs := (run_reads hrun hp.quiet).1
            simp only [Option.map_some, Option.some.injEq, hfs, hhash, Except.ok.injEq, Prod.mk.injEq] at h
            exact ⟨b, ts, out, s, hb, hts, hrun, hp, h.1.symm, h.2.symm⟩
  · rintro ⟨b, ts, out, s, h1, h2, h3, h4, rfl, rfl⟩
    rw [h1]
    dsimp only
    rw [h2]
    dsimp only
    rw [h3]
    have hfs := (run_reads h3 h4.quiet).1
    simp only [Option.map_some, hfs, hhash, decide_eq_true_eq]
    exact ⟨rfl, h4⟩

/-- What is reported. -/
theorem mem_report {name : Text} {s : St} (h : Quiet s) : (∀ d, d ∈ (report name s).children ↔ d ∈ s.nest.children ∨ d ∈ s.urls.children) ∧
    (∀ o, o ∈ (report name s).produced ↔ o = txt "out/www/" ++ name ∨ o = txt "out/www/" ++ name ++ txt ".hash") ∧ (report name s).reused = [] := by
  refine ⟨fun d => ?_, fun o => ?_, ?_⟩
  · simp [report, buildResult, merge, mem_addAll, h.iconChildren, h.dataChildren]
  · simp [report, buildResult, merge, mem_addAll, h.iconProduced, h.dataProduced]
  · refine List.eq_nil_iff_forall_not_mem.2 fun o ho => ?_
    simp [report, buildResult, merge, mem_addAll, h.iconReused, h.dataReused] at ho

/-- C84, for stylesheets: what is read because of the children is there; with other files which agree on the stylesheet and on what is
read because of its children the build gives the same. -/
theorem build_reads {fuel n : Nat} {env : Env} {name : Text} {fs fs1 : Fs} {r : Built}
    (hh : fs (txt "out/www/" ++ name ++ txt ".hash") = none) (h : buildFile fuel n env (txt "src/public/" ++ name) fs = some (.ok (r, fs1)))
    (hp : plainFile fuel n env (txt "src/public/" ++ name) fs = true) (tokens : Bytes → List Tok) (hf : env.nest.files = fun p => (fs p).map tokens)
    (hs : env.nest.self = txt "src/public/" ++ name) :
    (∀ d ∈ r.children, fs (readOf env d) ≠ none) ∧
    ∀ fs', fs' (txt "src/public/" ++ name) = fs (txt "src/public/" ++ name) → fs' (txt "out/www/" ++ name ++ txt ".hash") = none →
      (∀ d ∈ r.children, fs' (readOf env d) = fs (readOf env d)) →
      ∃ fs1', buildFile fuel n (env.with fun p => (fs' p).map tokens) (txt "src/public/" ++ name) fs' = some (.ok (r, fs1')) ∧
        plainFile fuel n (env.with fun p => (fs' p).map tokens) (txt "src/public/" ++ name) fs' = true ∧ ∀ o ∈ r.produced, fs1' o = fs1 o := by
  obtain ⟨b, ts, out, s, h1, h2, h3, h4, rfl, rfl⟩ := (build_bare hh).1 ⟨h, hp⟩
  obtain ⟨m1, m2, m3⟩ := mem_report (name := name) h4.quiet
  obtain ⟨e1, e2, e3, e4⟩ := run_reads h3 h4.quiet
  have hrule : ∀ c ∈ s.st.nest.children, readOf env c = Nest.source env.nest c := fun c hc => by
    unfold readOf; rw [if_pos (List.isPrefixOf_iff_prefix.2 (h4.rules c hc))]
  have hhash : ∀ c ∈ s.st.urls.children, readOf env c = c := fun c hc => by
    unfold readOf
    rw [if_neg]
    intro hx
    obtain ⟨x, rfl⟩ := h4.hashes c hc
    obtain ⟨y, hy⟩ := List.isPrefixOf_iff_prefix.1 hx
    have a1 : txt "src/public/" = 115 :: txt "rc/public/" := by decide
    have a2 : txt "out/www/" = 111 :: txt "ut/www/" := by decide
    rw [a1, a2] at hy
    simp at hy
  constructor
  · intro d hd
    rcases (m1 d).1 hd with hd | hd
    · rw [hrule d hd]
      have := e3 d hd
      rw [hf] at this
      intro hn
      simp [hn] at this
    · rw [hhash d hd]; exact e2 d hd
  · intro fs' hsrc hh' hd
    obtain ⟨s', q1, q2⟩ := e4 fs' (fun p => (fs' p).map tokens) (by rw [hf, hs]; dsimp only; rw [hsrc])
      (fun p hp => by have := hd p ((m1 p).2 (.inr hp)); rwa [hhash p hp] at this)
      (fun c hc => by have := hd c ((m1 c).2 (.inl hc)); rw [hrule c hc] at this; rw [hf]; dsimp only; rw [this])
    have hP : Flat s'.st := by
      rw [q1]
      obtain ⟨⟨a1, a2, a3, a4, a5, a6, a7⟩, b2, b3⟩ := h4
      exact ⟨⟨a1, a2, a3, a4, a5, a6, a7⟩, b2, b3⟩
    obtain ⟨w1, w2⟩ := (build_bare (env := env.with fun p => (fs' p).map tokens) hh').2 ⟨b, ts, out, s', by rw [hsrc, h1], h2, q2, hP, rfl, rfl⟩
    refine ⟨leave (env.with fun p => (fs' p).map tokens) name fs' out, ?_, w2, fun o ho => ?_⟩
    · rw [w1, q1]; rfl
    · rcases (m2 o).1 ho with rfl | rfl
      · simp [leave, Handlers.Fs.write, Env.with]; rfl
      · simp [leave, Handlers.Fs.write, Env.with]; rfl

end Verif.Css.Page
