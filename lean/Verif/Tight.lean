import Verif.HtmlTemplateThm
import Verif.RunnersThm
import Verif.ImgCommandThm

/-!
Additions to C45, C48 and C53: where the source of an image command is, pages in which a push has no pop, and what the user
answers before something is deleted.
-/

namespace Verif.Html

open Verif.Reader (Text txt)
open Verif.Build (Manip State loop round)

/-- C48: a page in which a push has no pop is refused. -/
theorem C48_unbalanced {env : TplEnv} (hfaith : Faithful env) (hfiles : FilesBal env) {fuel : Nat} {relpath p : Text}
    {pre ts : List HTok} {t : HTok} {b' : State TplSt HTok HErr} (hpre : Bal env pre) (ht : IsPush env t p) (hbal : Bal env ts)
    (hl : loop [template env] fuel ⟨[], none, ⟨[], [], ⟨relpath, []⟩⟩⟩ (pre ++ t :: ts) = some (.ok b')) :
    tplResult b'.st = .error .asserted := by
  obtain ⟨b1, h1, h2⟩ := Verif.Build.loop_split _ _ _ _ _ _ hl
  obtain ⟨_, f1, _, _, _, hm, hs⟩ := C48_partial hfaith hfiles fuel pre _ b1 hpre rfl h1
  obtain ⟨more, ht⟩ := ht
  cases fuel with
  | zero => simp [loop] at h2
  | succ fuel =>
    simp only [loop, round_stack hm ht, stack_push, Except.map, List.nil_append] at h2
    obtain ⟨_, f2, _, _, _, _, hs2⟩ := C48_partial hfaith hfiles fuel ts _ b' hbal rfl h2
    rw [hs2]
    simp [tplResult]

namespace Toy

/-- There are such pages, and the builder gets through them. -/
theorem C48_unbalanced_case : (∃ p, IsPush (env files) (stk [.str (txt "push"), .str (txt "a.html")]) p) ∧
    Bal (env files) page ∧
    ((loop [template (env files)] 100 ⟨[], none, ⟨[], [], ⟨txt "index.html", []⟩⟩⟩
      ([] ++ stk [.str (txt "push"), .str (txt "a.html")] :: [.characters (txt "x")])).map fun
      | .ok b => some (b.output, tplResult b.st)
      | .error _ => none) = some (some ([.characters (txt "x")], .error .asserted)) :=
  ⟨⟨txt "a.html", [], stackArgs_comment (faithful _) _ _⟩, C48_case.2.2.1, by decide +kernel⟩

end Toy

end Verif.Html

namespace Verif.Runners

open Verif.Reader (Text txt)

/-- `a` is the first of the answers which is `y` or `n`. -/
def Decides (answers : List Text) (a : Text) : Prop :=
  ∃ before after, answers = before ++ a :: after ∧ ∀ x ∈ before, x ≠ txt "y" ∧ x ≠ txt "n"

/-- C53: the files are deleted exactly if the first answer among `y` and `n` is `y`, and kept exactly if it is `n`; without
such an answer nothing is done. -/
theorem C53_answer (answers : List Text) :
    (answer answers = some true ↔ Decides answers (txt "y")) ∧ (answer answers = some false ↔ Decides answers (txt "n")) ∧
    (answer answers = none ↔ ∀ x ∈ answers, x ≠ txt "y" ∧ x ≠ txt "n") := by
  have hne : txt "n" ≠ txt "y" := by decide
  have tail : ∀ {a x : Text} {rest : List Text}, x ≠ txt "y" → x ≠ txt "n" → (a = txt "y" ∨ a = txt "n") →
      (Decides (x :: rest) a ↔ Decides rest a) := by
    intro a x rest h1 h2 ha
    constructor
    · rintro ⟨before, after, e, hb⟩
      cases before with
      | nil => simp only [List.nil_append, List.cons.injEq] at e; rcases ha with rfl | rfl <;> simp_all
      | cons y before =>
        simp only [List.cons_append, List.cons.injEq] at e
        exact ⟨before, after, e.2, fun z hz => hb z (List.mem_cons_of_mem _ hz)⟩
    · rintro ⟨before, after, rfl, hb⟩
      refine ⟨x :: before, after, rfl, fun z hz => ?_⟩
      rcases List.mem_cons.1 hz with rfl | hz
      · exact ⟨h1, h2⟩
      · exact hb z hz
  have head : ∀ {a x : Text} {rest : List Text}, (x = txt "y" ∨ x = txt "n") → (a = txt "y" ∨ a = txt "n") →
      (Decides (x :: rest) a ↔ x = a) := by
    intro a x rest hx ha
    constructor
    · rintro ⟨before, after, e, hb⟩
      cases before with
      | nil => simp only [List.nil_append, List.cons.injEq] at e; exact e.1
      | cons y before =>
        simp only [List.cons_append, List.cons.injEq] at e
        have := hb y (by simp)
        rw [← e.1] at this
        rcases hx with h | h
        · exact absurd h this.1
        · exact absurd h this.2
    · rintro rfl
      exact ⟨[], rest, rfl, by simp⟩
  induction answers with
  | nil =>
    refine ⟨?_, ?_, by simp [answer]⟩ <;>
    · simp only [answer, reduceCtorEq, false_iff]
      rintro ⟨before, after, e, _⟩
      simp at e
  | cons x rest ih =>
    by_cases h1 : x = txt "y"
    · rw [head (.inl h1) (.inl rfl), head (.inl h1) (.inr rfl)]
      simp only [answer, if_pos h1, true_iff, h1, ne_eq, List.mem_cons, forall_eq_or_imp]
      simp [hne.symm]
    · by_cases h2 : x = txt "n"
      · rw [head (.inr h2) (.inl rfl), head (.inr h2) (.inr rfl)]
        simp only [answer, if_neg h1, if_pos h2, h2, ne_eq, List.mem_cons, forall_eq_or_imp]
        simp [hne]
      · rw [tail h1 h2 (.inl rfl), tail h1 h2 (.inr rfl)]
        simp only [answer, if_neg h1, if_neg h2, ih, List.mem_cons, forall_eq_or_imp]
        simp [h1, h2]

/-- Other answers are asked for again. -/
theorem C53_answer_case : Decides [txt "yes", txt "", txt "y", txt "n"] (txt "y") ∧
    answer [txt "yes", txt "", txt "y", txt "n"] = some true :=
  ⟨⟨[txt "yes", txt ""], [txt "n"], rfl, by decide⟩, by decide⟩

end Verif.Runners

namespace Verif.Img

open Verif.Reader (Text txt)
open Verif.Paths (isAbs join comps walk abspath dirname)

theorem isAbs_normpath {q : Text} (hq : isAbs q = true) : isAbs (Paths.normpath q) = true := by
  have hne : q ≠ [] := by rintro rfl; simp [isAbs] at hq
  have h1 : q.head? = some 47 := by simpa [isAbs] using hq
  have h2 : ∃ n, Paths.initialSlashes q = n + 1 := by
    unfold Paths.initialSlashes
    rw [if_pos h1]
    split
    · exact ⟨1, rfl⟩
    · exact ⟨0, rfl⟩
  obtain ⟨n, h2⟩ := h2
  simp [Paths.normpath, hne, h2, List.replicate_succ, isAbs]

/-- C45: a source which begins with a slash is below src/public; any other is where it leads to from the folder of the page. -/
theorem C45_source {J : Type} {cwd folder file : Text} (hc : isAbs cwd = true) (c : Command J) :
    (∀ p, c.path = 47 :: p → isAbs p = false → sourcePath cwd folder file c = txt "src/public/" ++ p) ∧
    (isAbs c.path = false → walk (comps (abspath cwd folder)) (comps (sourcePath cwd folder file c)) =
      walk [] ((if isAbs (dirname file) then [] else comps cwd) ++ comps (dirname file) ++ comps c.path)) := by
  constructor
  · intro p hp ha
    have e1 : Paths.join (txt "src") (txt "public") = txt "src/public" := by decide
    have e3 : txt "src/public/" = txt "src/public" ++ [47] := by decide
    have e4 : ¬ (txt "src/public" = [] ∨ (txt "src/public").getLast? = some 47) := by decide
    have h1' : isAbs (47 :: p) = true := by simp [isAbs]
    simp only [sourcePath, hp, h1', if_true, List.drop_one, List.tail_cons, e1]
    simp only [join, ha, Bool.false_eq_true, if_false, if_neg e4, e3, List.append_assoc, List.singleton_append]
  · intro ha
    have hjoin : isAbs (join (dirname file) c.path) = isAbs (dirname file) := by
      unfold join
      rw [ha]
      simp only [Bool.false_eq_true, if_false]
      cases dirname file with
      | nil => simpa [isAbs] using ha
      | cons x d => split <;> simp [isAbs]
    have habs : isAbs (abspath cwd (join (dirname file) c.path)) = true := by
      unfold abspath
      apply isAbs_normpath
      split
      · next h => exact h
      · next h =>
        rw [Bool.not_eq_true] at h
        generalize join (dirname file) c.path = q at h
        unfold join
        rw [h]
        cases cwd with
        | nil => simp [isAbs] at hc
        | cons x d => simp only [Bool.false_eq_true, if_false]; split <;> simpa [isAbs] using hc
    have hnames : ∀ x ∈ comps (abspath cwd (join (dirname file) c.path)), Paths.Name x := by
      rw [Paths.comps_abspath hc]
      apply Paths.walk_name_mem
      · intro x hx
        rcases List.mem_append.1 hx with hx | hx
        · split at hx
          · simp at hx
          · exact Paths.comps_seg hx
        · exact Paths.comps_seg hx
      · simp
    simp only [sourcePath, ha, Bool.false_eq_true, if_false]
    rw [Paths.relpath_leads hc, Paths.comps_abspath hc, habs]
    simp only [if_true, List.nil_append]
    rw [Paths.walk_names hnames, List.nil_append, Paths.comps_abspath hc, hjoin, Paths.comps_join ha, List.append_assoc]

/-- A page in a folder, and an image next to it or above it. -/
theorem C45_source_case :
    sourcePath (txt "/home") (txt "p") (txt "p/src/public/blog/a.html") (⟨txt "../img/x.png", 1, 1, [], (), true⟩ : Command Unit) =
      txt "src/public/img/x.png" ∧
    sourcePath (txt "/home") (txt "p") (txt "p/src/public/blog/a.html") (⟨txt "/img/x.png", 1, 1, [], (), true⟩ : Command Unit) =
      txt "src/public/img/x.png" := by decide +kernel

end Verif.Img
