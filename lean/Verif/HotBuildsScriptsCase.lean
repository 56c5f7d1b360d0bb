import Verif.HotBuildsScripts
import Verif.HotScriptsCase
/-!
# A case for C110
-/
namespace Verif.Hot.Scripts.Site
open Verif Verif.Hot Verif.Graph
open Verif.Reader (Text txt)
open Verif.Paths (split isAbs Name Seg)
open Verif.Handlers (Bytes Fs Scan)

def textA : Bytes := script true
def textB : Bytes := txt "import './a.js';\n"
def toksA : List Js.Tok := (Js.tokenize textA).getD []
def toksB : List Js.Tok := [.kwImport, .whitespace [32], .str [46, 47, 97, 46, 106, 115], .semicolon, .lineTerminator, .eof]

theorem tokA : Js.tokenize (cfg.js.decode textA) = some toksA := by
  have h : (Js.tokenize textA).isSome = true := by decide +kernel
  obtain ⟨ts, h1⟩ := Option.isSome_iff_exists.1 h
  show Js.tokenize textA = _
  rw [toksA, h1]; rfl

theorem tokB : Js.tokenize (cfg.js.decode textB) = some toksB := by
  decide +kernel

theorem hashedA : Js.Hashed some (Js.File.fileOf cfg.js (txt "src/public/a.js")) false toksA toksA [] := by
  have h1 : ∀ t ∈ toksA, t ≠ .kwImport := by decide +kernel
  have h2 : ∀ t ∈ toksA, ¬ Js.IgnoreMark t := by
    have h : ∀ t ∈ toksA, Js.isSkipMark t = false := by decide +kernel
    intro t ht hm
    rw [← Js.isSkipMark_iff, h t ht] at hm
    cases hm
  generalize toksA = l at h1 h2
  induction l with
  | nil => exact .nil
  | cons t l ih => exact .keep (h1 t (by simp)) (.inr (h2 t (by simp))) (ih (fun t h => h1 t (by simp [h])) (fun t h => h2 t (by simp [h])))

theorem hashedB : ∃ out, Js.Hashed some (Js.File.fileOf cfg.js (txt "src/public/b.js")) false toksB out [txt "src/public/a.js"] := by
  have e : Js.File.fileOf cfg.js (txt "src/public/b.js") (txt "./a.js") = txt "src/public/a.js" := by decide +kernel
  have e1 : toksB = [.kwImport, .whitespace [32]] ++ .str (txt "./a.js") :: [.semicolon, .lineTerminator, .eof] := by decide +kernel
  have key : ∀ l : List Js.Tok, (∀ t ∈ l, t ≠ .kwImport ∧ Js.isSkipMark t = false) → Js.Hashed some (Js.File.fileOf cfg.js (txt "src/public/b.js")) false l l [] := by
    intro l
    induction l with
    | nil => intro _; exact .nil
    | cons t l ih =>
      intro h
      refine .keep (h t (by simp)).1 (.inr fun hm => ?_) (ih fun t ht => h t (by simp [ht]))
      rw [← Js.isSkipMark_iff, (h t (by simp)).2] at hm
      cases hm
  refine ⟨[.kwImport, .whitespace [32]] ++ .str (txt "./a.js") :: [.semicolon, .lineTerminator, .eof], ?_⟩
  rw [e1, ← e]
  refine .hash (s' := txt "./a.js") ⟨rfl, rfl, ?_⟩ ⟨?_, ?_, ?_⟩ rfl (key _ ?_)
  · have : Js.significant ([.kwImport, .whitespace [32]] ++ [.str (txt "./a.js")]) = [.kwImport, .str (txt "./a.js")] := by decide +kernel
    rw [this]
    exact .bare _
  · exact .inr (.inl (List.isPrefixOf_iff_prefix.1 (by decide)))
  · decide
  · decide
  · decide

theorem importsA (d : Text) : ¬ Js.File.Imports cfg.js (txt "src/public/a.js") textA d := by
  rintro ⟨ts, out, ds, h1, h2, h3⟩
  rw [tokA] at h1
  have h1 := Option.some.inj h1
  subst h1
  have := Js.File.hashed_unique (Js.File.hiEnv cfg.js true (txt "src/public/a.js") fun _ => none) hashedA h2
  subst this
  cases h3

theorem importsB (d : Text) : Js.File.Imports cfg.js (txt "src/public/b.js") textB d ↔ d = txt "src/public/a.js" := by
  obtain ⟨o, ho⟩ := hashedB
  constructor
  · rintro ⟨ts, out, ds, h1, h2, h3⟩
    rw [tokB] at h1
    cases h1
    have := Js.File.hashed_unique (Js.File.hiEnv cfg.js true (txt "src/public/b.js") fun _ => none) ho h2
    subst this
    simpa using h3
  · rintro rfl
    exact ⟨_, _, _, tokB, ho, by simp⟩

theorem orderly {y : Bytes} {ts : List Js.Tok} (h : Js.tokenize (cfg.js.decode y) = some ts) (hn : ts.all (fun t => !Js.isHint ⟨false, cfg.js.space⟩ t) = true) :
    Js.File.Orderly cfg.js y := by
  intro ts' h'
  rw [h] at h'
  cases h'
  have hs : Js.SpaceOk cfg.js.space := fun c h1 h2 => by simp [cfg, Js.File.toy]; omega
  have : Js.NoHint cfg.js.space ts := by
    intro t ht hh
    have h1 := (Js.isHint_iff ⟨false, cfg.js.space⟩ hs t).2 hh
    have h2 := List.all_eq_true.1 hn t ht
    simp_all
  have := Js.File.noHint_apart this
  exact ⟨this.1, this.2.2.1⟩

theorem enough_of {f : String} {y : Bytes} {ts : List Js.Tok} (hts : Js.tokenize (cfg.js.decode y) = some ts)
    (h1 : ∀ fs, (Build.runOps (Js.File.manips cfg.js true (txt f) fs) cfg.fuel (Build.State.new Js.jsInit) [] (ts.map .token)).isSome = true)
    (h2 : ∀ fs, (Build.runOps (Js.File.manips cfg.js false (txt f) fs) cfg.fuel (Build.State.new Js.jsInit) [] (Js.File.perToken ts)).isSome = true) :
    Enough cfg f y := by
  intro fs hy
  obtain ⟨r1, e1⟩ := Option.isSome_iff_exists.1 (h1 fs)
  obtain ⟨r2, e2⟩ := Option.isSome_iff_exists.1 (h2 fs)
  constructor
  · unfold Js.File.scanFile
    split
    · simp
    · rw [hy]
      simp only [hts, e1, Option.map_some]
      simp
  · unfold Js.File.buildFile
    split
    · simp
    · split
      · simp
      · rw [hy]
        simp only [hts, e2, Option.map_some]
        simp

set_option maxRecDepth 1000000 in
theorem runA1 (fs : Fs) : (Build.runOps (Js.File.manips cfg.js true (txt "src/public/a.js") fs) 100 (Build.State.new Js.jsInit) [] (toksA.map .token)).isSome = true := rfl
set_option maxRecDepth 1000000 in
theorem runA2 (fs : Fs) : (Build.runOps (Js.File.manips cfg.js false (txt "src/public/a.js") fs) 100 (Build.State.new Js.jsInit) [] (Js.File.perToken toksA)).isSome = true := rfl
set_option maxRecDepth 1000000 in
theorem runB1 (fs : Fs) : (Build.runOps (Js.File.manips cfg.js true (txt "src/public/b.js") fs) 100 (Build.State.new Js.jsInit) [] (toksB.map .token)).isSome = true := rfl
set_option maxRecDepth 1000000 in
set_option maxHeartbeats 4000000 in
theorem runB2 (fs : Fs) : (Build.runOps (Js.File.manips cfg.js false (txt "src/public/b.js") fs) 100 (Build.State.new Js.jsInit) [] (Js.File.perToken toksB)).isSome = true := by
  have e : fs = fun p => if p = txt "out/www/a.js.hash" then fs (txt "out/www/a.js.hash") else fs p := by
    funext p
    split
    · next h => rw [h]
    · rfl
  rw [e]
  generalize fs (txt "out/www/a.js.hash") = o
  cases o
  · rfl
  · rfl

theorem edited_sources {f : String} {y : Bytes} (hf : Source f) (h : edited f = some y) :
    f = "src/public/a.js" ∧ y = textA ∨ f = "src/public/b.js" ∧ y = textB ∨ f = "src/public/k.js" := by
  have hn : edited f ≠ none := by rw [h]; simp
  have hno : f ∉ (outA false ++ outB false ++ outK).map (·.1) := by
    intro hc
    have ho := ((lawful cfg.constants).src f hf).2
    have : ∀ o ∈ (outA false ++ outB false ++ outK).map (·.1), isOutput o = true := by decide
    rw [this f hc] at ho
    cases ho
  rw [edited, tab_skip hno] at h
  rw [edited, tab_ne] at hn
  rw [List.map_append, List.mem_append] at hn
  have hm := hn.resolve_left hno
  simp only [sources, List.map_cons, List.map_nil, List.mem_cons, List.not_mem_nil, or_false] at hm
  rcases hm with rfl | rfl | rfl
  · have e : tab (sources true) "src/public/a.js" = some textA := by decide
    rw [e] at h
    exact .inl ⟨rfl, (Option.some.inj h).symm⟩
  · have e : tab (sources true) "src/public/b.js" = some textB := by decide
    rw [e] at h
    exact .inr (.inl ⟨rfl, (Option.some.inj h).symm⟩)
  · exact .inr (.inr rfl)

theorem complete : Complete cfg edited := by
  intro f y hf hy
  rcases edited_sources hf hy with ⟨rfl, rfl⟩ | ⟨rfl, rfl⟩ | rfl
  · refine ⟨⟨⟨_, pubA, by decide⟩, .inr ⟨by decide, by decide⟩, fun _ => ⟨enough_of tokA runA1 runA2, orderly tokA (by decide +kernel), fun d h => absurd h (importsA d)⟩⟩,
      fun g h => absurd h.2 (importsA _)⟩
  · refine ⟨⟨⟨_, pubB, by decide⟩, .inr ⟨by decide, by decide⟩, fun _ => ⟨enough_of tokB runB1 runB2, orderly tokB (by decide +kernel), fun d h => ?_⟩⟩, fun g h => ?_⟩
    · exact ⟨_, _, (importsB d).1 h, pubA⟩
    · have := txt_inj ((importsB _).1 h.2)
      subst this
      exact ⟨source _ (by simp), by decide⟩
  · exact ⟨⟨⟨_, pubK, by decide⟩, .inl rfl, fun h => absurd rfl h.1⟩, fun g h => absurd rfl h.1.1⟩

theorem acyclic (f : String) (hf : Source f) : ¬ Path (Uses cfg edited) f f := by
  have step : ∀ {x y}, Uses cfg edited x y → Source x → x = "src/public/b.js" ∧ y = "src/public/a.js" := by
    rintro x y ⟨z, hz, hr⟩ hx
    rcases edited_sources hx hz with ⟨rfl, rfl⟩ | ⟨rfl, rfl⟩ | rfl
    · exact absurd hr.2 (importsA _)
    · exact ⟨rfl, txt_inj ((importsB _).1 hr.2)⟩
    · exact absurd rfl hr.1.1
  intro h
  cases h with
  | one e => have := step e hf; rw [this.1] at this; exact absurd this.2 (by decide)
  | more e q =>
    obtain ⟨rfl, rfl⟩ := step e hf
    cases q with
    | one e => have := step e (source _ (by simp)); exact absurd this.1 (by decide)
    | more e _ => have := step e (source _ (by simp)); exact absurd this.1 (by decide)

theorem scansBy : ScansBy (tool cfg) env edited := by
  have key : (dispatchScan cfg (txt "src/public/a.js") (fsOf edited)) = some ⟨[], [txt "out/www/a.js", txt "out/www/a.js.hash"]⟩ ∧
      (dispatchScan cfg (txt "src/public/b.js") (fsOf edited)) = some ⟨[txt "src/public/a.js"], [txt "out/www/b.js", txt "out/www/b.js.hash"]⟩ ∧
      (dispatchScan cfg (txt "src/public/k.js") (fsOf edited)) = some ⟨[], [txt "out/www/k.js", txt "out/www/k.js.hash"]⟩ := by
    decide +kernel
  have hA : (tool cfg).scan "src/public/a.js" edited = some ⟨[], ["out/www/a.js", "out/www/a.js.hash"], []⟩ := by
    unfold tool; dsimp only
    rw [if_pos (source _ (by simp)), key.1]; simp [str_txt]
  have hB : (tool cfg).scan "src/public/b.js" edited = some ⟨["src/public/a.js"], ["out/www/b.js", "out/www/b.js.hash"], []⟩ := by
    unfold tool; dsimp only
    rw [if_pos (source _ (by simp)), key.2.1]; simp [str_txt]
  have hK : (tool cfg).scan "src/public/k.js" edited = some ⟨[], ["out/www/k.js", "out/www/k.js.hash"], []⟩ := by
    unfold tool; dsimp only
    rw [if_pos (source _ (by simp)), key.2.2]; simp [str_txt]
  intro d f s
  constructor
  · intro h
    have h : scanner d f = .ok s := h
    unfold scanner at h
    split at h
    · next hf => subst hf; cases h; exact hA
    · split at h
      · next hf => subst hf; cases h; exact hB
      · split at h
        · next hf => subst hf; cases h; exact hK
        · cases h
  · intro hn hs
    obtain ⟨y, hy⟩ := Option.ne_none_iff_exists'.1 hn
    have hf : Source f := Classical.byContradiction fun hc => by
      unfold tool at hs; dsimp only at hs
      rw [if_neg hc] at hs
      cases hs
    show scanner d f = .ok s
    rcases edited_sources hf hy with ⟨rfl, rfl⟩ | ⟨rfl, rfl⟩ | rfl
    · rw [hA] at hs; cases hs; rfl
    · rw [hB] at hs; cases hs; rfl
    · rw [hK] at hs; cases hs; rfl

theorem housed : Housed run1.disk := by
  intro o ho
  rw [runs.2.1] at ho
  revert o
  decide +kernel

def attempt2 : Attempt (tool cfg) env edit run2 edited where
  view := view true outK
  wrote := wrote true outK
  start := tab (outK ++ sources true)
  start_unlinked := work2.start_unlinked
  start_kept := work2.start_kept
  ran := work2.ran
  raised f h := by
    obtain ⟨h1, h2, -⟩ := h
    rw [runs2.2.2.1] at h1
    exfalso
    simp only [List.mem_cons, Event.started.injEq, reduceCtorEq, List.not_mem_nil, or_false, false_or] at h1
    rcases h1 with rfl | rfl
    · exact h2 rA (log2.2 (by simp))
    · exact h2 rB (log2.2 (by simp))
  sees pre f post e c := by
    have hpre : ∀ g r, Event.finished g r ∈ pre → f = "src/public/b.js" ∧ r = rA := by
      rw [runs2.2.2.1] at e
      intro g r h
      match pre, e, h with
      | [], _, h => cases h
      | [x], e, h => simp at e
      | [x, y], e, h =>
        simp only [List.cons_append, List.nil_append, List.cons.injEq, Event.started.injEq] at e
        obtain ⟨rfl, rfl, rfl, rfl⟩ := e
        simp only [List.mem_cons, reduceCtorEq, Event.finished.injEq, List.not_mem_nil, or_false, false_or] at h
        exact ⟨rfl, h.2⟩
      | [x, y, z], e, h => simp at e
      | x :: y :: z :: w :: pre, e, h => simp at e
    by_cases hc : f = "src/public/b.js" ∧ c ∈ rA.produced
    · obtain ⟨rfl, hc⟩ := hc
      refine .inr ⟨"src/public/a.js", rA, by decide, log2.2 (by simp), hc, ?_⟩
      rw [(wroteA true c hc).2, ← doneA true outK c hc]
      rfl
    · rcases view_sees true outK f c with h1 | ⟨h1, h2, -⟩
      · refine .inl ⟨h1, ?_⟩
        rintro ⟨g, r, hg, hr⟩
        obtain ⟨rfl, rfl⟩ := hpre g r hg
        exact hc ⟨rfl, hr⟩
      · exact absurd ⟨h1, h2⟩ hc

/-- The hypotheses of C110 are met: the project of C80 has been built, and one script changed; another imports it. -/
theorem C110_case : isAbs cfg.js.cwd = true ∧ Js.SpaceOk cfg.js.space ∧ Source cfg.constants ∧
    Worked (project cfg.constants) (tool cfg) .dev (done false) edit.old run1.disk.mode ∧ ValidOrder env ∧ ScansBy (tool cfg) env edited ∧ 0 < env.scanFuel ∧
    edit.constants = cfg.constants ∧ Edits (project cfg.constants) edit run1.disk (done false) edited ∧ Housed run1.disk ∧
    Nonempty (Attempt (tool cfg) env edit (hotRebuild env edit run1.disk) edited) ∧ Complete cfg edited ∧ (∀ f, Source f → ¬ Path (Uses cfg edited) f f) ∧
    Uses cfg edited "src/public/b.js" "src/public/a.js" ∧ (hotRebuild env edit run1.disk).status ≠ .waiting :=
  ⟨cwd, fun c h1 h2 => by simp [cfg, Js.File.toy]; omega, source _ (by simp [cfg]), hist1 false, order, scansBy, by decide, rfl, edits2, housed, ⟨attempt2⟩,
    complete, acyclic, ⟨textB, by decide, ⟨by decide, List.isSuffixOf_iff_suffix.1 (by decide)⟩, (importsB _).2 rfl⟩,
    by have := runs2.1; unfold run2 at this; rw [this]; simp⟩

end Verif.Hot.Scripts.Site
