import Verif.HtmlPage
import Verif.HtmlTemplateThm
import Verif.HtmlLinksThm
import Verif.ImgCommandThm
import Verif.CssPageThm

/-!
# C64 for pages: no command survives the build
-/

namespace Verif.Html.Page

open Verif.Reader (Text txt)
open Verif.Build
open Verif.Assoc (item put ofList keys)
open Verif.Paths (join)
open Verif.Handlers (Bytes Fs Scan Built copyScan hashScan copyTarget hashBuild)
open Verif.Img (Blank Gap GoodSpace Accepted)

variable {E J : Type}

/-! ## Specification -/

/-- The comment has the form `[IMAGE: arguments]`, with whitespace anywhere but inside the word, and at least some behind
the colon. -/
def ImageForm (space : Nat → Bool) (s args : Text) : Prop :=
  ∃ a b c d z, s = a ++ [91] ++ b ++ txt "IMAGE" ++ c ++ [58] ++ d ++ args ++ [93] ++ z ∧ Blank space a ∧ Blank space b ∧
    Blank space c ∧ Gap space d ∧ Blank space z ∧ 10 ∉ args ∧ ∀ x, args.head? = some x → space x = false

/-- The source of the image: below the public folder if it begins with a slash, otherwise relative to the page. -/
abbrev source (env : Env E J) (c : Img.Command J) : Text := Img.sourcePath env.cwd env.folder (join env.folder env.rel) c

/-- The token is a comment with a command for an image; its source is below the public folder and is not to be enlarged. -/
def ImageOf (env : Env E J) (t : HTok) (c : Img.Command J) : Prop :=
  ∃ data args w h, t = .comment data ∧ ImageForm env.py.space data args ∧ Accepted env.py args c ∧
    txt "src/public" <+: source env c ∧ env.image (join env.folder (source env c)) = some (w, h) ∧ c.width ≤ w ∧ c.height ≤ h

/-- The token begins an inline script or stylesheet. -/
inductive Inline : HTok → Kind → Attrs → Prop
  | script {attrs : Attrs} : item attrs (none, txt "src") = none → Inline (.startTag (txt "script") attrs) .script attrs
  | style {attrs : Attrs} : Inline (.startTag (txt "style") attrs) .style attrs

/-- Nothing is left to be done: no link to a file of the website without parameters, no canonical URL without a host, no
image command, no inline script, no inline stylesheet, and no command for templates and variables. -/
structure Done (env : Env E J) (out : List HTok) : Prop where
  links : ∀ t ∈ out, ∀ a p, ¬ Links t a p
  canon : ∀ t ∈ out, ∀ a d, Canon t a d → ∃ u, item d (none, a) = some (txt "http" ++ u)
  images : ∀ t ∈ out, ∀ c, ¬ ImageOf env t c
  inline : ∀ t ∈ out, ∀ k d, ¬ Inline t k d
  stack : ∀ data args s l, .comment data ∈ out → Reads env.tpl.space (txt "STACK") false data args →
    env.tpl.loads args ≠ some (.arr (.str s :: l))
  template : ∀ data args s l, .comment data ∈ out → Reads env.tpl.space (txt "TEMPLATE") true data args →
    env.tpl.loads args ≠ some (.arr (.str s :: l))

/-! ## Proofs -/

theorem command_some {env : Env E J} (hg : GoodSpace env.py.space) {t : HTok} {c : Img.Command J} :
    command env t = .ok (some c) ↔ ImageOf env t c := by
  constructor
  · intro h
    cases t with
    | comment data =>
      obtain ⟨args, h1, h2, h3, w, hh, h4, h5, h6⟩ := Img.C45_validated hg h
      exact ⟨data, args, w, hh, rfl, (Img.C45_comment hg _ _).1 h1, h2, h3, h4, h5, h6⟩
    | _ => simp [command] at h
  · rintro ⟨data, args, w, hh, rfl, h1, h2, h3, h4, h5, h6⟩
    have h1' := (Img.C45_comment hg _ _).2 h1
    have h2' := (Img.C45_exact hg args c).1.2 h2
    have ej : join (txt "src") (txt "public") = txt "src/public" := by decide
    have hv : Img.validate env.image env.cwd env.folder (join env.folder env.rel) c = true := by
      simp only [Img.validate, ej, Bool.and_eq_true]
      refine ⟨List.isPrefixOf_iff_prefix.2 h3, ?_⟩
      rw [h4]
      simp [h5, h6]
    simp only [command, Img.getCommand, h1', h2', hv, if_true]

theorem outlined_iff {t : HTok} {k : Kind} {d : Attrs} : outlined t = some (k, d) ↔ Inline t k d := by
  have hne : txt "style" ≠ txt "script" := by decide
  constructor
  · intro h
    unfold outlined at h
    split at h
    · split at h
      · next hs => cases h; obtain ⟨rfl, h2⟩ := hs; exact .script h2
      · split at h
        · next hs => cases h; subst hs; exact .style
        · cases h
    · cases h
  · intro h
    cases h with
    | script h => simp [outlined, h]
    | style => simp [outlined, hne]

theorem outlined_none {t : HTok} : outlined t = none ↔ ∀ k d, ¬ Inline t k d := by
  constructor
  · intro h k d hi
    rw [outlined_iff.2 hi] at h; cases h
  · intro h
    cases ho : outlined t with
    | none => rfl
    | some p => exact absurd (outlined_iff.1 ho) (h _ _)

/-- A canonical url is left alone exactly if it has a host already. -/
theorem canonTag_none {t : HTok} : canonTag t = none ↔ ∀ a d, Canon t a d → ∃ u, item d (none, a) = some (txt "http" ++ u) := by
  constructor
  · intro h a d hcn
    have hi := (canonInner_iff (tag := ⟨if a = txt "href" then txt "link" else txt "meta", a⟩)).2 ⟨rfl, hcn⟩
    unfold canonTag at h
    rw [hi] at h
    dsimp only at h
    cases hg : item d (none, a) with
    | none => rw [hg] at h; cases h
    | some u =>
      rw [hg] at h
      dsimp only at h
      split at h
      · next hp =>
        obtain ⟨r, hr⟩ := List.isPrefixOf_iff_prefix.1 hp
        exact ⟨r, by rw [hr]⟩
      · cases h
  · intro h
    cases hi : canonInner t with
    | none => simp [canonTag, hi]
    | some p =>
      obtain ⟨tag, d⟩ := p
      obtain ⟨u, hu⟩ := h _ _ (canonInner_iff.1 hi).2
      exact canonTag_http (canonInner_iff.1 hi).2 hu (List.isPrefixOf_iff_prefix.2 ⟨u, rfl⟩)

/-- All manipulators but the last decline. -/
structure Calm (env : Env E J) (t : HTok) : Prop where
  canon : canonTag t = none
  link : asDependency t = none
  image : command env t = .ok none
  inline : outlined t = none

theorem declined_build {env : Env E J} (hb : env.scan = false) {s s' : St} {t : HTok} (h : Declined (manips env) s t s') :
    Calm env t ∧ Ordinary env.tpl t := by
  have mem : ∀ m ∈ manips env, ∃ s1 s2, m.start s1 t = .ok (false, s2) := fun m hm => declined_mem h hm
  refine ⟨⟨?_, ?_, ?_, ?_⟩, ?_⟩
  · obtain ⟨s1, s2, h1⟩ := mem (canon env) (by simp [manips])
    simp only [canon, canonStart, Env.canonEnv, hb] at h1
    cases hc : canonTag t with
    | none => rfl
    | some x => simp [hc] at h1
  · obtain ⟨s1, s2, h1⟩ := mem (links env) (by simp [manips])
    simp only [links, linkStart, Env.linkEnv, hb] at h1
    cases hc : asDependency t with
    | none => rfl
    | some x => simp [hc] at h1
  · obtain ⟨s1, s2, h1⟩ := mem (images env) (by simp [manips])
    simp only [images, imageStart, hb] at h1
    split at h1
    · cases h1
    · assumption
    · simp at h1
  · obtain ⟨s1, s2, h1⟩ := mem (outline env) (by simp [manips])
    simp only [outline, outlineStart] at h1
    cases hc : outlined t with
    | none => rfl
    | some x => simp [hc] at h1
  · obtain ⟨s1, s2, h1⟩ := mem (templates env) (by simp [manips])
    simp only [templates, tplStart] at h1
    cases hc : stackArgs env.tpl t with
    | some x => simp [hc] at h1
    | none =>
      cases hc' : templateArgs env.tpl t with
      | some x => simp [hc, hc'] at h1
      | none => exact ⟨hc, hc'⟩

theorem done_of_stream {env : Env E J} (hb : env.scan = false) (hg : GoodSpace env.py.space) (hf : Faithful env.tpl) {s s' : St}
    {ts out : List HTok} {m : Option (Manip St HTok (PErr E))} (h : Stream (manips env) s ts out m s') : Done env out := by
  have key : ∀ t ∈ out, Calm env t ∧ Ordinary env.tpl t := by
    intro t ht
    obtain ⟨s1, s2, hd⟩ := stream_declined h t ht
    exact declined_build hb hd
  refine ⟨?_, ?_, ?_, ?_, ?_, ?_⟩
  · intro t ht; exact asDependency_none.1 (key t ht).1.link
  · intro t ht; exact canonTag_none.1 (key t ht).1.canon
  · intro t ht c hc
    have h1 := (key t ht).1.image
    rw [(command_some hg).2 hc] at h1
    simp at h1
  · intro t ht; exact outlined_none.1 (key t ht).1.inline
  · intro data args s l ht hr hl
    have h1 : Stack env.tpl (.comment data) (.str s :: l) := (stack_reads hf).2 ⟨_, _, _, _, rfl, hr, hl, rfl⟩
    have h2 := (key _ ht).2.1
    rw [show stackArgs _ _ = _ from h1] at h2
    cases h2
  · intro data args s l ht hr hl
    have h1 : Template env.tpl (.comment data) (.str s :: l) := (template_reads hf).2 ⟨_, _, _, _, rfl, hr, hl, rfl⟩
    have h2 := (key _ ht).2.2
    rw [h1.2] at h2
    cases h2

theorem tokensOf_all (ts : List HTok) : tokensOf (allTokens ts) = ts := by
  unfold allTokens
  induction ts with
  | nil => rfl
  | cons t ts ih => simp only [List.map_cons, List.cons_append, tokensOf, ih]

/-- Where the output of a builder is. -/
theorem runOps_all {S τ F : Type} {ms : List (Manip S τ F)} {fuel : Nat} : ∀ {ts : List τ} {b b' : State S τ F} {acc out : List τ},
    runOps ms fuel b acc (ts.map .token ++ [.consume]) = some (.ok (out, b')) → b'.output = [] := by
  intro ts
  induction ts with
  | nil =>
    intro b b' acc out h
    simp only [List.map_nil, List.nil_append, runOps, Option.some.injEq, Except.ok.injEq, Prod.mk.injEq] at h
    rw [← h.2]
  | cons t ts ih =>
    intro b b' acc out h
    simp only [List.map_cons, List.cons_append, runOps] at h
    split at h
    · cases h
    · cases h
    · exact ih h

/-- What a successful build of a page comes from. -/
theorem buildFile_ok {fuel : Nat} {env : Env E J} {target : Text} {fs fs' : Fs} {r : Built}
    (h : buildFile fuel env fs = some (.ok (r, fs'))) (ht : copyTarget env.rel = some target) :
    ∃ content ts out m s hb deps, fs env.rel = some content ∧ env.parse content = some ts ∧
      Stream (manips env) (St.new fs env.rel) ts out m s ∧
      hashBuild env.digest target (s.fs.write target (env.write out)) = .ok (hb, fs') ∧ tplResult s.tpl = .ok deps ∧
      r = [hb, ⟨s.links, [], []⟩, s.imgBuilt, s.outBuilt, ⟨deps, [], []⟩].foldl Css.Page.merge ⟨[], [target], []⟩ ∧
      fs' target = some (env.write out) := by
  unfold buildFile at h
  rw [ht] at h
  simp only at h
  split at h
  · cases h
  · next content hc =>
    split at h
    · cases h
    · next ts hp =>
      simp only [Option.map_eq_some_iff] at h
      obtain ⟨x, h1, h2⟩ := h
      split at h2
      · cases h2
      · next out b =>
        split at h2
        · cases h2
        · next hb fs2 hh =>
          split at h2
          · cases h2
          · next deps hd =>
            cases h2
            have hs := C32 _ _ _ _ _ _ h1
            rw [tokensOf_all, runOps_all h1, List.append_nil] at hs
            refine ⟨content, ts, out, b.mark, b.st, hb, deps, hc, hp, hs, hh, hd, rfl, ?_⟩
            unfold hashBuild at hh
            split at hh
            · cases hh; simp [Fs.write]
            · next tt htt =>
              split at hh
              · cases hh; simp [Fs.write]
              · simp only [Fs.write, if_true, Except.ok.injEq, Prod.mk.injEq] at hh
                rw [← hh.2]
                have : target ≠ tt := by
                  intro he
                  unfold Handlers.hashTarget at htt
                  rw [← he] at htt
                  have e : ∀ a b : Text, a = b → a.length = b.length := fun a b h => by rw [h]
                  split at htt
                  · next hp =>
                    simp only [Option.some.injEq] at htt
                    have hl := e _ _ htt
                    simp [List.isPrefixOf_iff_prefix] at hp
                    have := hp.length_le
                    have l1 : Handlers.outWww.length = 8 := by decide
                    have l2 : Handlers.srcPublic.length = 10 := by decide
                    have l3 : (txt ".hash").length = 5 := by decide
                    have l4 : (txt "/").length = 1 := by decide
                    simp only [List.length_append, List.length_drop, l1, l2, l3, l4] at hl this
                    omega
                  · split at htt
                    · next hp =>
                      simp only [Option.some.injEq] at htt
                      have hl := e _ _ htt
                      simp [List.isPrefixOf_iff_prefix] at hp
                      have := hp.length_le
                      have l3 : (txt ".hash").length = 5 := by decide
                      simp only [List.length_append, List.length_drop, l3] at hl
                      omega
                    · cases htt
                simp [Fs.write, this]

/-- **C64** for pages: when a page has been built, whatever it and its templates held, its output is the text of tokens in
which nothing is left to be done. -/
theorem C64_page {fuel : Nat} {env : Env E J} (hb : env.scan = false) (hg : GoodSpace env.py.space) (hf : Faithful env.tpl)
    {target : Text} {fs fs' : Fs} {r : Built} (h : buildFile fuel env fs = some (.ok (r, fs'))) (ht : copyTarget env.rel = some target) :
    ∃ out, fs' target = some (env.write out) ∧ Done env out := by
  obtain ⟨_, ts, out, m, s, _, _, _, _, hs, _, _, _, ho⟩ := buildFile_ok h ht
  exact ⟨out, ho, done_of_stream hb hg hf hs⟩

end Verif.Html.Page
