import Verif.HtmlPageRender

/-!
# C66, C67: every page which can become something is built
-/

namespace Verif.Html.Page

open Verif.Reader (Text txt)
open Verif.Build
open Verif.Assoc (item put ofList keys)
open Verif.Paths (join)
open Verif.Handlers (Bytes Fs Scan Built)

variable {E J : Type}

/-! ## Specification -/

/-- The same token, but for the order of attributes. -/
inductive Alike : HTok → HTok → Prop
  | refl {t : HTok} : Alike t t
  | start {n : Text} {d d' : Attrs} : (∀ k, item d k = item d' k) → Alike (.startTag n d) (.startTag n d')
  | empty {n : Text} {d d' : Attrs} : (∀ k, item d k = item d' k) → Alike (.emptyTag n d) (.emptyTag n d')

/-! ## Proofs -/

theorem alike_refl (r : List HTok) : List.Forall₂ Alike r r := by
  induction r with
  | nil => exact .nil
  | cons t r ih => exact .cons .refl ih

theorem withAttr_alike {t t1 t2 : HTok} {a v : Text} (h1 : WithAttr t t1 a v) (h2 : WithAttr t t2 a v) : Alike t1 t2 := by
  obtain ⟨n1, d1, d1', e1, -, f1, g1⟩ := h1
  obtain ⟨n2, d2, d2', e2, -, f2, g2⟩ := h2
  have key : d1 = d2 → ∀ k, item d1' k = item d2' k := by
    rintro rfl k
    by_cases hk : k = (none, a)
    · rw [hk, f1, f2]
    · rw [g1 k hk, g2 k hk]
  rcases e1 with ⟨rfl, rfl⟩ | ⟨rfl, rfl⟩ <;> rcases e2 with ⟨e, rfl⟩ | ⟨e, rfl⟩ <;> cases e
  · exact .start (key rfl)
  · exact .empty (key rfl)

theorem tags_alike {k : Kind} {d : Attrs} {url : Text} {r1 r2 : List HTok} (h1 : Tags k d url r1) (h2 : Tags k d url r2) :
    List.Forall₂ Alike r1 r2 := by
  cases h1 with
  | script n1 s1 o1 =>
    cases h2 with
    | script n2 s2 o2 =>
      refine .cons (.start fun x => ?_) (.cons .refl .nil)
      by_cases hx : x = (none, txt "src")
      · rw [hx, s1, s2]
      · rw [o1 x hx, o2 x hx]
  | style n1 s1 r1 o1 =>
    cases h2 with
    | style n2 s2 r2 o2 =>
      refine .cons (.empty fun x => ?_) .nil
      by_cases hx : x = (none, txt "href")
      · rw [hx, s1, s2]
      · by_cases hr : x = (none, txt "rel")
        · rw [hr, r1, r2]
        · rw [o1 x hx hr, o2 x hx hr]

theorem picture_back {format : Text} {c : Img.Command J} {outputs : List (Text × List Pic)} {r : List HTok} (h : Picture format c outputs r) :
    (picture format c outputs : Except (PErr E) (List HTok)) = .ok r := by
  cases h with
  | @mk ps before after p _ _ h1 h2 h3 h4 h5 h6 h7 =>
    rw [sources_eq h6, h7.eq]
    have hfind : (ps.find? fun p => p.width = c.width ∧ p.height = c.height) = some p := by
      rw [List.find?_eq_some_iff_append]
      refine ⟨by simp [h3, h4], before, after, h2, fun q hq => ?_⟩
      simp only [Bool.not_eq_true', decide_eq_false_iff_not]
      exact h5 q hq
    unfold picture
    simp only [h1, hfind]
    simp

section run
variable {env : Env E J} {P : State St HTok (PErr E) → Prop}

/-- The builder gets through, and the result is as it should be. -/
def Runs (env : Env E J) (b : State St HTok (PErr E)) (ts : List HTok) (P : State St HTok (PErr E) → Prop) : Prop :=
  ∃ fuel b', loop (manips env) fuel b ts = some (.ok b') ∧ P b'

theorem Runs.step {b b1 : State St HTok (PErr E)} {t : HTok} {ts ts' : List HTok} (h : Build.round (manips env) b t ts = .ok (ts', b1))
    (hr : Runs env b1 ts' P) : Runs env b (t :: ts) P := by
  obtain ⟨n, b', h1, h2⟩ := hr
  exact ⟨n + 1, b', by simp only [loop, h]; exact h1, h2⟩

theorem Runs.keeps {rest : List HTok} : ∀ (r : List HTok) (b : State St HTok (PErr E)), b.mark = none →
    (∀ t ∈ r, Calm env t ∧ Ordinary env.tpl t) → Runs env { b with output := b.output ++ r } rest P → Runs env b (r ++ rest) P := by
  intro r
  induction r with
  | nil => intro b _ _ h; simpa using h
  | cons t r ih =>
    intro b hm hc h
    refine .step (round_keep hm (hc t (by simp)).1 (hc t (by simp)).2) ?_
    refine ih _ hm (fun x hx => hc x (by simp [hx])) ?_
    simpa using h

theorem Runs.append {b : State St HTok (PErr E)} {ts more : List HTok} {Q : State St HTok (PErr E) → Prop} (h : Runs env b ts Q)
    (hr : ∀ b1, Q b1 → Runs env b1 more P) : Runs env b (ts ++ more) P := by
  obtain ⟨n, b1, h1, h2⟩ := h
  obtain ⟨m, b2, h3, h4⟩ := hr b1 h2
  exact ⟨n + m, b2, loop_append _ _ _ _ _ _ _ _ h1 h3, h4⟩

theorem Runs.texts {rest : List HTok} {body : List HTok} {x : Text} (h : Texts body x) : ∀ (b : State St HTok (PErr E)) (j : Job),
    b.mark = some (outline env) → b.st.job = some j →
    Runs env { b with st := { b.st with job := some { j with text := j.text ++ x } } } rest P → Runs env b (body ++ rest) P := by
  have hstep : ∀ (t : HTok) (d : Text) (ts : List HTok) (b : State St HTok (PErr E)) (j : Job), b.mark = some (outline env) →
      (outline env).cont b.st t = .ok (none, { b.st with job := some { j with text := j.text ++ d } }) →
      Build.round (manips env) b t ts = .ok (ts, { b with st := { b.st with job := some { j with text := j.text ++ d } } }) := by
    intro t d ts b j hm hc
    simp [Build.round, hm, continueMark, hc]
  induction h with
  | nil =>
    intro b j hm hj h
    have e1 : ({ b.st with job := some { j with text := j.text ++ [] } } : St) = b.st := by
      simp only [List.append_nil]
      rw [← hj]
    rw [e1] at h
    exact h
  | @chars d x ts _ ih =>
    intro b j hm hj h
    refine .step (hstep (.characters d) d _ b j hm (by simp [outline, outlineCont, hj])) (ih _ _ hm rfl ?_)
    simpa only [List.append_assoc] using h
  | @spaces d x ts _ ih =>
    intro b j hm hj h
    refine .step (hstep (.spaces d) d _ b j hm (by simp [outline, outlineCont, hj])) (ih _ _ hm rfl ?_)
    simpa only [List.append_assoc] using h

end run

/-- An element can be opened. -/
theorem open_back {env : Env E J} {s : St} {t : HTok} {k : Kind} {d : Attrs} (h : Inline t k d) (hk : s.count k = 0 ∨ env.kept k = true)
    {url : Text} {tags : List HTok} (ht : Tags k d url tags) : ∃ s', outlineOpen env s t = .ok (none, s') := by
  have h1 := outlined_iff.2 h
  unfold outlineOpen
  rw [h1]
  cases ht with
  | script =>
    simp only
    rw [if_neg]
    · exact ⟨_, rfl⟩
    · rintro ⟨h2, h3⟩
      rcases hk with hk | hk
      · exact h2 hk
      · rw [h3] at hk; cases hk
  | style =>
    simp only
    rw [if_neg]
    · exact ⟨_, rfl⟩
    · rintro ⟨h2, h3⟩
      rcases hk with hk | hk
      · exact h2 hk
      · rw [h3] at hk; cases hk

/-- An element can be closed. -/
theorem close_back {env : Env E J} (hb : env.scan = false) {stem : Text} (hs : PageFile env.rel stem) {s : St} {k : Kind} {n : Nat}
    {a : List (Text × Text)} {text : Text} (hn : s.count k = n) {res : Built} {fs : Fs} {hash : Bytes}
    (h1 : (env.handler k).build (s.fs.write (txt "src/public/" ++ generated stem k n) (env.encode text)) (txt "src/public/" ++ generated stem k n) =
      .ok (res, fs)) (h2 : fs (txt "src/public/" ++ generated stem k n) ≠ none)
    (h3 : fs (txt "out/www/" ++ generated stem k n ++ txt ".hash") = some hash) :
    ∃ r s', outlineClose env s ⟨k, genFile (txt "src/public") k env.rel n, a, text⟩ = .ok (some r, s') := by
  have e1 : txt "src/public" ++ txt "/" = txt "src/public/" := by decide
  have e2 : txt "out/www" ++ txt "/" = txt "out/www/" := by decide
  have hne : txt "out/www/" ++ generated stem k n ++ txt ".hash" ≠ txt "src/public/" ++ generated stem k n := by
    have e4 : txt "out/www/" = 111 :: txt "ut/www/" := by decide
    have e5 : txt "src/public/" = 115 :: txt "rc/public/" := by decide
    rw [e4, e5]
    simp
  obtain ⟨c, hc⟩ := Option.ne_none_iff_exists'.1 h2
  have h4 : remove fs (txt "src/public/" ++ generated stem k n) (txt "out/www/" ++ generated stem k n ++ txt ".hash") = some hash := by
    unfold remove
    rw [if_neg hne, h3]
  unfold outlineClose
  rw [genFile_spec hs k n (.inl rfl), e1]
  simp only [hb, Bool.false_eq_true, if_false, h1, hc]
  rw [hn, genFile_spec hs k n (.inr rfl), e2, h4]
  exact ⟨_, _, rfl⟩

/-- What is shown of the result. -/
def Good (b : State St HTok (PErr E)) (out : List HTok) (w' : World) (f' : Frame) (b' : State St HTok (PErr E)) : Prop :=
  (∃ out2, b'.output = b.output ++ out2 ∧ List.Forall₂ Alike out out2) ∧ worldOf b'.st = w' ∧ Quiet b b' f'

theorem Runs.mono {env : Env E J} {b : State St HTok (PErr E)} {ts : List HTok} {P Q : State St HTok (PErr E) → Prop} (h : Runs env b ts P)
    (hpq : ∀ b', P b' → Q b') : Runs env b ts Q := by
  obtain ⟨n, b', h1, h2⟩ := h
  exact ⟨n, b', h1, hpq b' h2⟩

theorem Good.after {b c : State St HTok (PErr E)} {pre pre2 out : List HTok} {w' : World} {f' : Frame} {b' : State St HTok (PErr E)}
    (h : Good c out w' f' b') (ho : c.output = b.output ++ pre2) (hp : List.Forall₂ Alike pre pre2) (hst : c.st.tpl.stack = b.st.tpl.stack) :
    Good b (pre ++ out) w' f' b' := by
  obtain ⟨⟨out2, h1, h2⟩, h3, h4⟩ := h
  refine ⟨⟨pre2 ++ out2, by rw [h1, ho]; simp, List.rel_append hp h2⟩, h3, h4.mark, h4.job, h4.stack.trans hst, h4.cur⟩

theorem template_calm {env : Env E J} (hf : Fit env) {t : HTok} {l : List Json} (h : Template env.tpl t l) : Calm env t := by
  obtain ⟨data, args, op, more, rfl, hr, -, -⟩ := (template_reads hf.json).1 h
  rw [hf.same] at hr
  have e : txt "TEMPLATE" = 84 :: [69, 77, 80, 76, 65, 84, 69] := by decide
  have := not_image hf.space e (hf.space.2.2 84 (by omega) (by omega)) (by omega) hr
  exact ⟨rfl, rfl, by simp [command, Img.getCommand, this], rfl⟩

theorem runs_block {env : Env E J} (hf : Fit env) {t t' : HTok} {p : Text} {body ts out1 out : List HTok} {w1 w' : World} {f1 f' : Frame}
    (h : IsPush env.tpl t p) (h' : IsPop env.tpl t') (b : State St HTok (PErr E)) (hm : b.mark = none) (hj : b.st.job = none)
    (hb : ∀ c : State St HTok (PErr E), c.mark = none → c.st.job = none → worldOf c.st = worldOf b.st → c.st.tpl.cur = ⟨p, []⟩ →
      Runs env c body (Good c out1 w1 f1))
    (hr : ∀ c : State St HTok (PErr E), c.mark = none → c.st.job = none → worldOf c.st = w1 → c.st.tpl.cur = b.st.tpl.cur →
      Runs env c ts (Good c out w' f')) :
    Runs env b (t :: (body ++ t' :: ts)) (Good b (out1 ++ out) w' f') := by
  obtain ⟨more, h⟩ := h
  obtain ⟨more', h'⟩ := h'
  refine .step (by rw [round_stack' hm (stack_calm hf h) h, stack_push]) ?_
  rw [List.nil_append]
  refine .append (hb _ (by exact rfl) (by exact hj) (by exact rfl) (by exact rfl)) ?_
  rintro b1 ⟨⟨o1, h1, h2⟩, h3, h4⟩
  have hst : b1.st.tpl.stack = b.st.tpl.cur :: b.st.tpl.stack := h4.stack
  refine .step (by rw [round_stack' h4.mark (stack_calm hf h') h', stack_pop _ _ _ _ hst]) ?_
  rw [List.nil_append]
  refine (hr _ (by exact rfl) (by exact h4.job) (by exact h3) (by exact rfl)).mono fun b' hg => ?_
  exact hg.after (pre2 := o1) h1 h2 rfl

/-- **C66**, the other direction: a page which can become `out` is built, and becomes `out`, but for the order of attributes. -/
theorem C66_complete {env : Env E J} (hf : Fit env) {host stem : Text} (hh : env.host = some host) (hs : PageFile env.rel stem)
    {w w' : World} {f f' : Frame} {ts out : List HTok} (h : Render env host stem w f ts out w' f') :
    Sane ts → ∀ b : State St HTok (PErr E), b.mark = none → b.st.job = none → worldOf b.st = w → b.st.tpl.cur = f →
      Runs env b ts (Good b out w' f') := by
  induction h with
  | nil =>
    intro _ b hm hj hw hc
    exact ⟨0, b, rfl, ⟨[], by simp, .nil⟩, hw, hm, hj, rfl, hc⟩
  | @keep w f t ts out w' f' h _ ih =>
    intro hsane b hm hj hw hc
    refine .step (round_keep hm (calm_of_keeps hf h) h.ordinary) ?_
    refine (ih (fun x hx => hsane x (by simp [hx])) { b with output := b.output ++ [t] } hm hj hw hc).mono fun b' hg => ?_
    exact hg.after (pre := [t]) rfl (alike_refl _) rfl
  | @canon w f t t' a d url ts out w' f' h hu ht _ ih =>
    intro hsane b hm hj hw hc
    have hn : ∀ u, item d (none, a) = some u → (txt "http").isPrefixOf u = false := by
      intro u hi
      rcases hu with ⟨h1, -⟩ | ⟨h1, h2⟩
      · rw [hi] at h1; cases h1
      · rw [hi] at h1
        cases h1
        rw [Bool.eq_false_iff]
        intro hp
        exact h2 (List.isPrefixOf_iff_prefix.1 hp)
    have hpl := (hsane t (by simp)).1 (.inr (.inl ⟨a, d, h⟩))
    obtain ⟨t2, hr, hw2, hcalm, hord⟩ := round_canon (stack := ts) hf hh hm h (canon_attrs h ▸ hpl) hn
    replace hw2 : WithAttr t t2 a (txt "https://" ++ host ++ url) := by
      rcases hu with ⟨h1, h2⟩ | ⟨h1, -⟩
      · rw [h1] at hw2; rw [h2]; exact hw2
      · rw [h1] at hw2; exact hw2
    refine .step hr (.keeps [t2] b hm (by simpa using ⟨hcalm, hord⟩) ?_)
    refine (ih (fun x hx => hsane x (by simp [hx])) { b with output := b.output ++ [t2] } hm hj hw hc).mono fun b' hg => ?_
    exact hg.after (pre := [t']) rfl (.cons (withAttr_alike ht hw2) .nil) rfl
  | @link w f t t' a p hash ts out w' f' h hfile ht _ ih =>
    intro hsane b hm hj hw hc
    have hpl := (hsane t (by simp)).1 (.inl ⟨a, p, h⟩)
    have hcan : canonTag t = none := by
      by_contra hx
      obtain ⟨a', d', hcan, -⟩ := canon_some hx
      exact canon_not_links hcan h
    subst hw
    have hfile' : b.st.fs (join (txt "out/www") p ++ txt ".hash") = some hash := hfile
    rcases round_link (stack := ts) hf hm h hpl (hsane t (by simp)).2 hcan with ⟨hx, -⟩ | ⟨hash2, t2, hfile2, hr, hw2, hcalm, hord⟩
    · rw [hfile'] at hx; cases hx
    · rw [hfile'] at hfile2
      cases hfile2
      refine .step hr (.keeps [t2] _ hm (by simpa using ⟨hcalm, hord⟩) ?_)
      refine (ih (fun x hx => hsane x (by simp [hx])) _ (by exact hm) (by exact hj) (by exact rfl) (by exact hc)).mono fun b' hg => ?_
      exact hg.after (pre := [t']) rfl (.cons (withAttr_alike ht hw2) .nil) rfl
  | @image w f t c outputs r fs pic ts out w' f' h he hp _ ih =>
    intro hsane b hm hj hw hc
    subst hw
    have himg := (command_some hf.space).2 h
    have hcom : ∃ data, t = .comment data := by obtain ⟨data, _, _, _, ht, -⟩ := h; exact ⟨data, ht⟩
    obtain ⟨data, rfl⟩ := hcom
    have hstart : (images env).start b.st (.comment data) = .ok (true, b.st) := by simp [images, imageStart, himg, hf.build]
    have he' : env.exportImage b.st.fs c = .ok (outputs, r, fs) := he
    have hround : Build.round (manips env) b (.comment data) ts = .ok (pic ++ ts, { b with mark := none, st := { b.st with fs := fs, imgBuilt := addBuilt b.st.imgBuilt r } }) := by
      have h1 : Build.round (manips env) b (.comment data) ts = continueMark (images env) b b.st (.comment data) ts := by
        simp [Build.round, hm, manips, findMark, canon_pass (show canonTag (.comment data) = none from rfl),
          links_pass (show asDependency (.comment data) = none from rfl), hstart]
      rw [h1]
      simp only [continueMark, images, imageCont, himg, he', picture_back hp]
    refine .step hround (.keeps pic _ rfl (picture_calm hp) ?_)
    refine (ih (fun x hx => hsane x (by simp [hx])) _ (by exact rfl) (by exact hj) (by exact rfl) (by exact hc)).mono fun b' hg => ?_
    exact hg.after (pre := pic) rfl (alike_refl _) rfl
  | @inline w f t k attrs body text n file r fs hash tags ts out w' f' h hb hk hfile hh' hx hs' ht _ ih =>
    intro hsane b hm hj hw hc
    subst hw
    have hwc : (worldOf b.st).count k = b.st.count k := by cases k <;> rfl
    rw [hwc] at hk hfile hs' ht
    subst hfile
    obtain ⟨s1, hop⟩ := open_back (env := env) (s := b.st) h hk ht
    obtain ⟨a, -, -, htags, hjob, hfs, hcount, hworld, htpl⟩ := open_spec h hop
    have e1 : txt "src/public" ++ txt "/" = txt "src/public/" := by decide
    have hstart : Build.round (manips env) b t (body ++ .endTag n :: ts) = .ok (body ++ .endTag n :: ts, { b with mark := some (outline env), st := s1 }) := by
      have hcan : canonTag t = none := by cases h <;> rfl
      have hne : txt "style" ≠ txt "script" := by decide
      have hdep : asDependency t = none := by
        cases h with
        | script h0 => rw [asDependency_none]; intro a p hl; cases hl with | script h1 _ => rw [h0] at h1; cases h1
        | style => rw [asDependency_none]; intro a p hl; cases hl; 
      have himg : command env t = .ok none := by cases h <;> rfl
      have hk' := outlined_iff.2 h
      have h1 : Build.round (manips env) b t (body ++ .endTag n :: ts) = continueMark (outline env) b b.st t (body ++ .endTag n :: ts) := by
        simp [Build.round, hm, manips, findMark, canon_pass hcan, links_pass hdep, images_pass himg, outline, outlineStart, hk']
      have hco : (outline env).cont b.st t = outlineOpen env b.st t := by simp [outline, outlineCont, hj]
      rw [h1, continueMark, hco, hop]
    refine .step hstart (.texts hb _ _ rfl hjob ?_)
    simp only [List.nil_append]
    have hcount' : St.count { s1 with job := some ⟨k, genFile (txt "src/public") k env.rel (b.st.count k + 1), a, text⟩ } k = b.st.count k + 1 := by
      rw [← hcount]
      cases k <;> rfl
    obtain ⟨tags2, s2, hclose⟩ := close_back (a := a) (text := text) hf.build hs hcount' (res := r) (fs := fs) (hash := hash)
      (by
        dsimp only
        rw [hfs, genFile_spec hs k _ (.inl rfl), e1, write_write]
        exact hh') hx hs'
    have hround : Build.round (manips env) { b with mark := some (outline env), st := { s1 with job := some ⟨k, genFile (txt "src/public") k env.rel (b.st.count k + 1), a, text⟩ } }
        (.endTag n) ts = .ok (tags2 ++ ts, { b with mark := none, st := s2 }) := by
      simp only [Build.round, continueMark]
      have hco : (outline env).cont { s1 with job := some ⟨k, genFile (txt "src/public") k env.rel (b.st.count k + 1), a, text⟩ } (.endTag n) =
          outlineClose env { s1 with job := some ⟨k, genFile (txt "src/public") k env.rel (b.st.count k + 1), a, text⟩ }
            ⟨k, genFile (txt "src/public") k env.rel (b.st.count k + 1), a, text⟩ := by simp [outline, outlineCont]
      rw [hco, hclose]
    refine .step hround ?_
    obtain ⟨res, fs2, hash2, hbuild, hthere, hhash, rfl, rfl⟩ := close_spec hf.build hs hcount' hclose
    dsimp only at hbuild
    rw [hfs, genFile_spec hs k _ (.inl rfl), e1, write_write] at hbuild
    have hh2 : (env.handler k).build (b.st.fs.write (txt "src/public/" ++ generated stem k (b.st.count k + 1)) (env.encode text))
      (txt "src/public/" ++ generated stem k (b.st.count k + 1)) = .ok (r, fs) := hh'
    rw [hh2] at hbuild
    cases hbuild
    rw [hs'] at hhash
    cases hhash
    have hd : attrsOf t = attrs := by cases h <;> rfl
    have hpl := (hsane t (by simp)).1 (.inr (.inr ⟨k, attrs, h⟩))
    have htg := htags (txt "src/public/" ++ generated stem k (b.st.count k + 1)) text
      (txt "/" ++ generated stem k (b.st.count k + 1) ++ query env (env.decode hash)) (hd ▸ hpl)
    refine .keeps _ _ rfl (tags_calm htg) ?_
    refine (ih (fun x hx => hsane x (by simp [hx])) _ rfl rfl ?_ ?_).mono fun b' hg => ?_
    · rw [← hworld]
      have : s1.outBuilt = (worldOf b.st).made := by
        have := congrArg World.made hworld
        cases k <;> exact this
      simp only [worldOf] at this ⊢
      rw [this]
    · dsimp only
      rw [htpl]
      exact hc
    · exact hg.after (pre := tags) rfl (tags_alike ht htg) (by dsimp only; rw [htpl])
  | @define w f t k v ts out w' f' h _ ih =>
    intro hsane b hm hj hw hc
    have hst : Stack env.tpl t [.str (txt "define"), .str k, v] := h
    refine .step (by rw [round_stack' hm (stack_calm hf hst) hst, stack_define]) ?_
    refine (ih (fun x hx => hsane x (by simp [hx])) _ (by exact rfl) (by exact hj) (by exact hw) (by dsimp only; rw [hc])).mono fun b' hg => hg.after (pre := []) (pre2 := []) (by simp) .nil rfl
  | @retrieve w f t k v text ts out w' f' h hk hv hsh _ ih =>
    intro hsane b hm hj hw hc
    have hst : Stack env.tpl t [.str (txt "retrieve"), .str k] := h
    refine .step (by rw [round_stack' hm (stack_calm hf hst) hst, stack_retrieve _ _ _ _ hk (hc ▸ hv) hsh]) ?_
    refine .keeps [_] _ rfl (by simpa using calm_text (env := env) text) ?_
    refine (ih (fun x hx => hsane x (by simp [hx])) _ (by exact rfl) (by exact hj) (by exact hw) (by exact hc)).mono fun b' hg => ?_
    exact hg.after (pre := [_]) rfl (alike_refl _) rfl
  | @unknown w f t ts out w' f' h _ ih =>
    intro hsane b hm hj hw hc
    have hst : Sane ts := fun x hx => hsane x (by simp [hx])
    cases h with
    | stack h h1 h2 h3 h4 =>
      refine .step (by rw [round_stack' hm (stack_calm hf h) h, stack_unknown (tryCommand_str h) h1 h2 h3 h4]) ?_
      refine (ih hst _ (by exact rfl) (by exact hj) (by exact hw) (by exact hc)).mono fun b' hg => hg.after (pre := []) (pre2 := []) (by simp) .nil rfl
    | @template path v more h hv =>
      have : templateCommand env.tpl b.st.tpl (.str path :: v :: more) = .ok ([], b.st.tpl) := by
        have hi : templateImport b.st.tpl.cur (.str path :: v :: more) = none := by
          unfold templateImport
          cases v with
          | obj o => exact absurd rfl (hv o)
          | _ => rfl
        simp only [templateCommand, hi]
      refine .step (by rw [round_template' hm (template_calm hf h) h, this]) ?_
      refine (ih hst _ (by exact rfl) (by exact hj) (by exact hw) (by exact hc)).mono fun b' hg => hg.after (pre := []) (pre2 := []) (by simp) .nil rfl
  | @block w f t t' p body out1 w1 f1 ts out w' f' h h' _ _ ihb ihr =>
    intro hsane b hm hj hw hc
    subst hw
    refine runs_block hf h h' b hm hj (fun c c1 c2 c3 c4 => ihb (fun x hx => hsane x (by simp [hx])) c c1 c2 c3 c4) ?_
    exact fun c c1 c2 c3 c4 => ihr (fun x hx => hsane x (by simp [hx])) c c1 c2 c3 (c4.trans hc)
  | @template w f t rel vars body out1 w1 f1 ts out w' f' h hb _ _ ihb ihr =>
    intro hsane b hm hj hw hc
    subst hw
    obtain ⟨l, ht, hi⟩ := includes_iff.1 h
    rw [← hc] at hi
    refine .step (by rw [round_template' hm (template_calm hf ht) ht, templateCommand, hi]; dsimp only; rw [hb]) ?_
    simp only [List.cons_append, List.append_assoc, List.nil_append]
    rw [← List.append_assoc]
    have hdefs : ∀ (vs : List (Text × Json)) (c : State St HTok (PErr E)), c.mark = none → c.st.job = none →
        worldOf c.st = { worldOf b.st with incs := (worldOf b.st).incs ++ [rel] } →
        (⟨c.st.tpl.cur.relpath, vs.foldl (fun d p => put d p.1 p.2) c.st.tpl.cur.vars⟩ : Frame) = ⟨rel, ofList vars⟩ →
        Runs env c ((vs.map fun p => stackComment env.tpl [.str (txt "define"), .str p.1, p.2]) ++ body) (Good c out1 w1 f1) := by
      intro vs
      induction vs with
      | nil => intro c c1 c2 c3 c4; exact ihb (hf.sane _ _ hb) c c1 c2 c3 c4
      | cons p vs ihv =>
        intro c c1 c2 c3 c4
        have hst : Stack env.tpl (stackComment env.tpl [.str (txt "define"), .str p.1, p.2])
          [.str (txt "define"), .str p.1, p.2] := stackArgs_comment hf.json _ _
        rw [List.map_cons, List.cons_append]
        refine .step (by rw [round_stack' c1 (stack_calm hf hst) hst, stack_define]) ?_
        refine (ihv _ (by exact rfl) (by exact c2) (by exact c3) (by exact c4)).mono fun b' hg => hg.after (pre := []) (pre2 := []) (by simp) .nil rfl
    have hfin := runs_block (env := env) hf (t := stackComment env.tpl [.str (txt "push"), .str rel])
      (t' := stackComment env.tpl [.str (txt "pop")]) (p := rel) (body := (vars.map fun p => stackComment env.tpl [.str (txt "define"), .str p.1, p.2]) ++ body)
      (ts := ts) (out1 := out1) (out := out) (w1 := w1) (w' := w') (f1 := f1) (f' := f') ⟨[], stackArgs_comment hf.json _ _⟩
      ⟨[], stackArgs_comment hf.json _ _⟩ (withTpl b ⟨b.st.tpl.deps ++ [rel], b.st.tpl.stack, b.st.tpl.cur⟩) rfl hj
      (fun c c1 c2 c3 c4 => hdefs vars c c1 c2 c3 (by rw [c4]; rfl))
      (fun c c1 c2 c3 c4 => ihr (fun x hx => hsane x (by simp [hx])) c c1 c2 c3 (c4.trans hc))
    exact hfin.mono fun b' hg => hg.after (pre := []) (pre2 := []) (by simp) .nil rfl

/-- A page becomes one thing only, but for the order of attributes. -/
theorem C66_unique {env : Env E J} (hf : Fit env) {host stem : Text} (hh : env.host = some host) (hs : PageFile env.rel stem) {fs : Fs}
    {w1 w2 : World} {f1 f2 : Frame} {ts out1 out2 : List HTok} (hsane : Sane ts)
    (h1 : Render env host stem (World.start fs) ⟨env.rel, []⟩ ts out1 w1 f1) (h2 : Render env host stem (World.start fs) ⟨env.rel, []⟩ ts out2 w2 f2) :
    w1 = w2 ∧ f1 = f2 ∧ ∃ out, List.Forall₂ Alike out1 out ∧ List.Forall₂ Alike out2 out := by
  obtain ⟨n1, b1, e1, ⟨o1, p1, q1⟩, r1, s1⟩ := C66_complete hf hh hs h1 hsane (State.new (St.new fs env.rel)) rfl rfl rfl rfl
  obtain ⟨n2, b2, e2, ⟨o2, p2, q2⟩, r2, s2⟩ := C66_complete hf hh hs h2 hsane (State.new (St.new fs env.rel)) rfl rfl rfl rfl
  have e1' := loop_mono _ _ n2 _ _ _ e1
  have e2' := loop_mono _ _ n1 _ _ _ e2
  rw [Nat.add_comm, e1'] at e2'
  simp only [Option.some.injEq, Except.ok.injEq] at e2'
  subst e2'
  have : o1 = o2 := List.append_cancel_left (p1.symm.trans p2)
  subst this
  exact ⟨r1.symm.trans r2, s1.cur.symm.trans s2.cur, o1, q1, q2⟩

/-- **C67**, in part: every page which can become something is built.  Missing: further inline elements of the same kind,
unless the folder is kept, and stylesheets with attributes (see `Render.inline` and `Tags.style`); they fail. -/
theorem C67_partial {env : Env E J} (hf : Fit env) {host stem : Text} (hh : env.host = some host) (hs : PageFile env.rel stem) {fs : Fs}
    {content : Bytes} {ts out : List HTok} (h0 : fs env.rel = some content) (hp : env.parse content = some ts) (hsane : Sane ts) {w : World} {f : Frame}
    (h : Render env host stem (World.start fs) ⟨env.rel, []⟩ ts out w f) :
    ∃ fuel r fs' out2, buildFile fuel env fs = some (.ok (r, fs')) ∧ fs' (pageOut stem) = some (env.write out2) ∧ List.Forall₂ Alike out out2 := by
  obtain ⟨n, b, e, ⟨o, p, q⟩, r, s⟩ := C66_complete hf hh hs h hsane (State.new (St.new fs env.rel)) rfl rfl rfl rfl
  have e' : loop (manips env) n { (State.new (St.new fs env.rel) : State St HTok (PErr E)) with output := [] ++ (State.new (St.new fs env.rel) : State St HTok (PErr E)).output }
      (tokensOf (allTokens ts)) = some (.ok b) := by
    rw [tokensOf_all]
    exact e
  obtain ⟨acc, rest, h1, h2⟩ := loop_runOps _ _ _ _ _ _ e'
  have h3 := runOps_all h1
  dsimp only at h3
  subst h3
  have hacc : acc = o := by
    rw [List.append_nil] at h2
    rw [h2, p]
    rfl
  subst hacc
  have hstack : b.st.tpl.stack = [] := s.stack
  have hne : pageOut stem ++ txt ".hash" ≠ pageOut stem := by
    intro he
    have := congrArg List.length he
    have e : (txt ".hash").length = 5 := by decide
    simp [e] at this
  have hhash : ∃ hb fs', Handlers.hashBuild env.digest (pageOut stem) (b.st.fs.write (pageOut stem) (env.write acc)) = .ok (hb, fs') ∧
      fs' (pageOut stem) = some (env.write acc) := by
    have e2 : (b.st.fs.write (pageOut stem) (env.write acc)) (pageOut stem) = some (env.write acc) := by simp [Fs.write]
    unfold Handlers.hashBuild
    rw [hashTarget_page]
    simp only [e2]
    split
    · exact ⟨_, _, rfl, e2⟩
    · exact ⟨_, _, rfl, by simp [Fs.write, hne.symm]⟩
  obtain ⟨hb, fs', h4, h5⟩ := hhash
  refine ⟨n, [hb, ⟨b.st.links, [], []⟩, b.st.imgBuilt, b.st.outBuilt, ⟨b.st.tpl.deps, [], []⟩].foldl Css.Page.merge ⟨[], [pageOut stem], []⟩,
    fs', acc, ?_, h5, q⟩
  unfold buildFile
  rw [copyTarget_page hs]
  simp only [h0, hp, h1, Option.map_some, h4, tplResult, hstack, if_true]

end Verif.Html.Page
