import Verif.HtmlRenderThm

/-!
# C66: what a page becomes, the induction
-/

namespace Verif.Html.Page

open Verif.Reader (Text txt)
open Verif.Build
open Verif.Assoc (item put ofList keys)
open Verif.Paths (join)
open Verif.Handlers (Bytes Fs Scan Built)

variable {E J : Type}

/-- Nothing is left open. -/
structure Quiet (b b' : State St HTok (PErr E)) (f' : Frame) : Prop where
  mark : b'.mark = none
  job : b'.st.job = none
  stack : b'.st.tpl.stack = b.st.tpl.stack
  cur : b'.st.tpl.cur = f'

/-- In the middle of an inline element. -/
structure Hangs (env : Env E J) (b' : State St HTok (PErr E)) : Prop where
  mark : b'.mark = some (outline env)
  job : b'.st.job.isSome

/-- What the builder did with the document. -/
def Ends (env : Env E J) (host stem : Text) (b b' : State St HTok (PErr E)) (ts : List HTok) : Prop :=
  (∃ out f', Render env host stem (worldOf b.st) b.st.tpl.cur ts out (worldOf b'.st) f' ∧ b'.output = b.output ++ out ∧ Quiet b b' f') ∨
    (Cut ts ∧ Hangs env b')

theorem stack_comment {env : TplEnv} {t : HTok} {l : List Json} (h : stackArgs env t = some l) : ∃ d, t = .comment d := by
  unfold stackArgs tryCommand at h
  cases t <;> first | exact ⟨_, rfl⟩ | simp at h

/-- An element is not ended by a comment. -/
theorem hangs_comment {env : Env E J} {b b' : State St HTok (PErr E)} (h : Hangs env b) {d : Text} {ts : List HTok} {fuel : Nat} :
    loop (manips env) fuel b (.comment d :: ts) ≠ some (.ok b') := by
  cases fuel with
  | zero => simp [loop]
  | succ fuel =>
    obtain ⟨j, hj⟩ := Option.isSome_iff_exists.1 h.job
    simp [loop, Build.round, h.mark, continueMark, outline, outlineCont, hj]

theorem canon_some {t : HTok} (h : canonTag t ≠ none) : ∃ a d, Canon t a d ∧ ¬ ∃ u, item d (none, a) = some (txt "http" ++ u) := by
  by_contra hc
  apply h
  rw [canonTag_none]
  intro a d hcan
  by_contra hn
  exact hc ⟨a, d, hcan, hn⟩

theorem canon_attrs {t : HTok} {a : Text} {d : Attrs} (h : Canon t a d) : attrsOf t = d := by cases h <;> rfl

theorem write_write (fs : Fs) (p : Text) (x y : Bytes) : (fs.write p x).write p y = fs.write p y := by
  funext q
  simp only [Fs.write]
  split <;> rfl

/-- The state in which an element has been opened. -/
theorem open_spec {env : Env E J} {s s' : St} {t : HTok} {r : Option (List HTok)} {k : Kind} {d : Attrs} (h : Inline t k d)
    (ho : outlineOpen env s t = .ok (r, s')) : ∃ a, r = none ∧ (s.count k = 0 ∨ env.kept k = true) ∧ (∀ path text url, Plain d → Tags k d url (outlineTags ⟨k, path, a, text⟩ url)) ∧
      s'.job = some ⟨k, genFile (txt "src/public") k env.rel (s.count k + 1), a, []⟩ ∧
      s'.fs = s.fs.write (genFile (txt "src/public") k env.rel (s.count k + 1)) [] ∧ s'.count k = s.count k + 1 ∧
      worldOf { s' with fs := s.fs } = (worldOf s).bump k ∧ s'.tpl = s.tpl := by
  have h1 := outlined_iff.2 h
  unfold outlineOpen at ho
  rw [h1] at ho
  cases h with
  | script h0 =>
    simp only at ho
    split at ho
    · cases ho
    next hk =>
    simp only [Except.ok.injEq, Prod.mk.injEq] at ho
    obtain ⟨rfl, rfl⟩ := ho
    exact ⟨scriptAttrs _, rfl, by simpa [St.count, imp_iff_not_or, or_comm] using hk, fun path text url hp => tags_script hp h0 path text url, rfl, rfl, rfl, rfl, rfl⟩
  | style =>
    simp only at ho
    split at ho
    · cases ho
    next hk =>
    cases d with
    | nil =>
      simp only [styleAttrs, Except.ok.injEq, Prod.mk.injEq] at ho
      obtain ⟨rfl, rfl⟩ := ho
      exact ⟨[], rfl, by simpa [St.count, imp_iff_not_or, or_comm] using hk, fun path text url _ => tags_style path text url, rfl, rfl, rfl, rfl, rfl⟩
    | cons x d =>
      obtain ⟨⟨ns, n⟩, v⟩ := x
      cases ns <;> simp [styleAttrs] at ho

theorem render_main {env : Env E J} (hf : Fit env) {host stem : Text} (hh : env.host = some host) (hs : PageFile env.rel stem) :
    ∀ (fuel : Nat) (ts : List HTok) (b b' : State St HTok (PErr E)), Bal env.tpl ts → Sane ts → b.mark = none → b.st.job = none →
      loop (manips env) fuel b ts = some (.ok b') → Ends env host stem b b' ts := by
  intro fuel
  induction fuel using Nat.strongRecOn with
  | ind fuel ih =>
  have ih' : ∀ g, g < fuel → ∀ {ts : List HTok} {b b' : State St HTok (PErr E)}, loop (manips env) g b ts = some (.ok b') →
      Bal env.tpl ts → Sane ts → b.mark = none → b.st.job = none → Ends env host stem b b' ts :=
    fun g hg _ _ _ h1 h2 h3 h4 h5 => ih g hg _ _ _ h2 h3 h4 h5 h1
  -- a block
  have hblock : ∀ (g : Nat), g ≤ fuel → ∀ (t t' : HTok) (p : Text) (body ts : List HTok)
      (b b' : State St HTok (PErr E)), IsPush env.tpl t p → IsPop env.tpl t' → Bal env.tpl body → Bal env.tpl ts → Sane body → Sane ts →
      b.mark = none → b.st.job = none → loop (manips env) g b (t :: (body ++ t' :: ts)) = some (.ok b') →
      (∃ out1 w1 f1 out f', Render env host stem (worldOf b.st) ⟨p, []⟩ body out1 w1 f1 ∧
        Render env host stem w1 b.st.tpl.cur ts out (worldOf b'.st) f' ∧ b'.output = b.output ++ (out1 ++ out) ∧ Quiet b b' f') ∨
      (Cut ts ∧ Hangs env b') := by
    intro g hg t t' p body ts b b' hpush hpop hbody hts hsb hst hm hj hl
    obtain ⟨more, hpush⟩ := hpush
    obtain ⟨more', hpop⟩ := hpop
    cases g with
    | zero => simp [loop] at hl
    | succ g =>
      simp only [loop, round_stack' hm (stack_calm hf hpush) hpush, stack_push, List.nil_append] at hl
      obtain ⟨b1, hl1, hl2⟩ := Verif.Build.loop_split _ _ _ _ _ _ hl
      rcases ih' g (by omega) hl1 hbody hsb rfl hj with ⟨out1, f1, he1, ho1, hq1⟩ | ⟨-, hh1⟩
      · cases g with
        | zero => simp [loop] at hl2
        | succ g =>
          have hst1 : b1.st.tpl.stack = b.st.tpl.cur :: b.st.tpl.stack := hq1.stack
          simp only [loop, round_stack' hq1.mark (stack_calm hf hpop) hpop, stack_pop _ _ _ _ hst1, List.nil_append] at hl2
          rcases ih' g (by omega) hl2 hts hst rfl hq1.job with ⟨out, f', he, ho, hq⟩ | hc
          · refine .inl ⟨out1, _, f1, out, f', he1, he, ?_, hq.mark, hq.job, hq.stack, hq.cur⟩
            rw [ho]; dsimp only; rw [ho1]; simp
          · exact .inr hc
      · obtain ⟨d, rfl⟩ := stack_comment hpop
        exact absurd hl2 (hangs_comment hh1)
  intro ts b b' hbal hsane hm hj hl
  have hput : ∀ (t : HTok) (rest : List HTok), Cut rest ∧ Hangs env b' → Cut (t :: rest) ∧ Hangs env b' := fun t rest h => ⟨cut_cons h.1, h.2⟩
  cases hbal with
  | nil =>
    have : b' = b := by cases fuel <;> (simp only [loop, Option.some.injEq, Except.ok.injEq] at hl; exact hl.symm)
    subst this
    exact .inl ⟨[], _, .nil, by simp, hm, hj, rfl, rfl⟩
  | block hpush hpop hbody hts =>
    rcases hblock fuel (Nat.le_refl _) _ _ _ _ _ _ _ hpush hpop hbody hts (fun x hx => hsane x (by simp [hx]))
      (fun x hx => hsane x (by simp [hx])) hm hj hl with ⟨out1, w1, f1, out, f', he1, he, ho, hq⟩ | ⟨hc, hg⟩
    · exact .inl ⟨_, f', .block hpush hpop he1 he, ho, hq⟩
    · exact .inr ⟨cut_cons (cut_append (cut_cons hc)), hg⟩
  | @cons t ts hnpush hnpop hts =>
    have hst : Sane ts := fun x hx => hsane x (by simp [hx])
    have hpl := (hsane t (by simp)).1
    have hnh := (hsane t (by simp)).2
    cases fuel with
    | zero => simp [loop] at hl
    | succ fuel =>
    by_cases hcan : canonTag t = none
    swap
    · -- the address of the page
      obtain ⟨a, d, hc, hn⟩ := canon_some hcan
      have hu : ∀ u, item d (none, a) = some u → (txt "http").isPrefixOf u = false := by
        intro u hu
        rw [Bool.eq_false_iff]
        intro hp
        obtain ⟨v, rfl⟩ := List.isPrefixOf_iff_prefix.1 hp
        exact hn ⟨v, hu⟩
      obtain ⟨t', hr, hw, hcalm, hord⟩ := round_canon (stack := ts) hf hh hm hc (canon_attrs hc ▸ hpl (.inr (.inl ⟨a, d, hc⟩))) hu
      simp only [loop, hr] at hl
      obtain ⟨g, hg, hl⟩ := loop_keeps [t'] fuel b hm (by simpa using ⟨hcalm, hord⟩) hl
      rcases ih' g (by omega) hl hts hst hm hj with ⟨out, f', he, ho, hq⟩ | hc
      · refine .inl ⟨t' :: out, f', .canon hc ?_ hw he, by rw [ho]; simp, hq.mark, hq.job, hq.stack, hq.cur⟩
        cases hi : item d (none, a) with
        | none => exact .inl ⟨rfl, rfl⟩
        | some u =>
          refine .inr ⟨rfl, ?_⟩
          rintro ⟨v, hv⟩
          exact hn ⟨v, by rw [hi]; exact congrArg some hv.symm⟩
      · exact .inr (hput _ _ hc)
    by_cases hdep : asDependency t = none
    swap
    · -- a link
      have : ∃ a p, Links t a p := by
        by_contra hc
        exact hdep (asDependency_none.2 fun a p h => hc ⟨a, p, h⟩)
      obtain ⟨a, p, hlk⟩ := this
      rcases round_link (stack := ts) hf hm hlk (hpl (.inl ⟨a, p, hlk⟩)) hnh hcan with ⟨-, e, he⟩ | ⟨hash, t', hfile, hr, hw, hcalm, hord⟩
      · simp [loop, he] at hl
      · simp only [loop, hr] at hl
        obtain ⟨g, hg, hl⟩ := loop_keeps [t'] fuel _ (by exact hm) (by simpa using ⟨hcalm, hord⟩) hl
        rcases ih' g (by omega) hl hts hst hm hj with ⟨out, f', he, ho, hq⟩ | hc
        · exact .inl ⟨t' :: out, f', .link hlk hfile hw he, by rw [ho]; simp, hq.mark, hq.job, hq.stack, hq.cur⟩
        · exact .inr (hput _ _ hc)
    cases himg : command env t with
    | error e =>
      have : Build.round (manips env) b t ts = .error (.image e) := by
        simp [Build.round, hm, manips, findMark, canon_pass hcan, links_pass hdep, images, imageStart, himg]
      simp [loop, this] at hl
    | ok r =>
    cases r with
    | some c =>
      -- an image
      have hstart : (images env).start b.st t = .ok (true, b.st) := by simp [images, imageStart, himg, hf.build]
      have hround : Build.round (manips env) b t ts = continueMark (images env) b b.st t ts := by
        simp [Build.round, hm, manips, findMark, canon_pass hcan, links_pass hdep, hstart]
      simp only [loop, hround, continueMark, images, imageCont, himg] at hl
      cases hex : env.exportImage b.st.fs c with
      | error e => rw [hex] at hl; simp at hl
      | ok r =>
        obtain ⟨outputs, r, fs⟩ := r
        rw [hex] at hl
        dsimp only at hl
        cases hpic : (picture env.defaultFormat c outputs : Except (PErr E) (List HTok)) with
        | error e => rw [hpic] at hl; simp at hl
        | ok pic =>
          rw [hpic] at hl
          dsimp only at hl
          have hp := picture_spec hpic
          obtain ⟨g, hg, hl⟩ := loop_keeps pic fuel _ (by rfl) (picture_calm hp) hl
          rcases ih' g (by omega) hl hts hst rfl hj with ⟨out, f', he, ho, hq⟩ | hc
          · exact .inl ⟨pic ++ out, f', .image ((command_some hf.space).1 himg) hex hp he, by rw [ho]; simp, hq.mark, hq.job, hq.stack, hq.cur⟩
          · exact .inr (hput _ _ hc)
    | none =>
    by_cases hin : outlined t = none
    swap
    · -- an inline element
      obtain ⟨⟨k, d⟩, hk⟩ := Option.ne_none_iff_exists'.1 hin
      have hinl := outlined_iff.1 hk
      have hround : Build.round (manips env) b t ts = continueMark (outline env) b b.st t ts := by
        simp [Build.round, hm, manips, findMark, canon_pass hcan, links_pass hdep, images_pass himg, outline, outlineStart, hk]
      simp only [loop, hround, continueMark] at hl
      have hco : (outline env).cont b.st t = outlineOpen env b.st t := by simp [outline, outlineCont, hj]
      rw [hco] at hl
      cases hop : outlineOpen env b.st t with
      | error e => rw [hop] at hl; simp at hl
      | ok r =>
        obtain ⟨r, s1⟩ := r
        obtain ⟨a, rfl, hkept, htags, hjob, hfs, hcount, hworld, htpl⟩ := open_spec hinl hop
        rw [hop] at hl
        dsimp only at hl
        rcases outline_run fuel ts _ _ rfl hjob hl with ⟨x, hx, h1, h2⟩ | ⟨body, x, n, rest, g, r, s', rfl, hx, hg, hclose, hl⟩
        · exact .inr ⟨⟨[], t, k, d, ts, x, rfl, hinl, hx⟩, h1, h2⟩
        · simp only [List.nil_append] at hclose
          have hcount' : St.count { s1 with job := some ⟨k, genFile (txt "src/public") k env.rel (b.st.count k + 1), a, x⟩ } k = b.st.count k + 1 := by
            rw [← hcount]
            cases k <;> rfl
          obtain ⟨res, fs, hash, hbuild, hthere, hhash, rfl, rfl⟩ := close_spec hf.build hs hcount' hclose
          dsimp only at hbuild
          have e1 : txt "src/public" ++ txt "/" = txt "src/public/" := by decide
          rw [hfs, genFile_spec hs k _ (.inl rfl), e1, write_write] at hbuild
          have hd : attrsOf t = d := by cases hinl <;> rfl
          have htg := htags (txt "src/public/" ++ generated stem k (b.st.count k + 1)) x
            (txt "/" ++ generated stem k (b.st.count k + 1) ++ query env (env.decode hash)) (hd ▸ hpl (.inr (.inr ⟨k, d, hinl⟩)))
          obtain ⟨g', hg', hl⟩ := loop_keeps _ g _ (by rfl) (tags_calm htg) hl
          have hbal' := bal_texts hx hts
          rcases ih' g' (by omega) hl hbal' (fun y hy => hst y (by simp [hy])) rfl rfl with ⟨out, f', he, ho, hq⟩ | hc
          · have hwc : (worldOf b.st).count k = b.st.count k := by cases k <;> rfl
            have hw2 : ∀ (fs2 : Fs) (jb : Option Job) (bu : Built), worldOf { s1 with fs := fs2, job := jb, outBuilt := addBuilt s1.outBuilt bu } =
                { (worldOf b.st).bump k with fs := fs2, made := addBuilt (worldOf b.st).made bu } := by
              intro fs2 jb bu
              rw [← hworld]
              have : s1.outBuilt = (worldOf b.st).made := by
                have := congrArg World.made hworld
                cases k <;> exact this
              simp only [worldOf] at this ⊢
              rw [this]
            refine .inl ⟨_ ++ out, f', .inline (n := n) hinl hx (by rw [hwc]; exact hkept) (by rw [hwc]) hbuild hthere (by rw [hwc]; exact hhash) (by rw [hwc]; exact htg) ?_, by rw [ho]; simp, hq.mark, hq.job, ?_, hq.cur⟩
            · have hcur : s1.tpl.cur = b.st.tpl.cur := by rw [htpl]
              dsimp only at he
              rw [hcur] at he
              have := hw2 (remove fs (txt "src/public/" ++ generated stem k (b.st.count k + 1))) none res
              rw [← this]
              exact he
            · rw [hq.stack]; dsimp only; rw [htpl]
          · exact .inr (hput _ _ ⟨cut_append (cut_cons hc.1), hc.2⟩)
    have hcalm : Calm env t := ⟨hcan, hdep, himg, hin⟩
    cases hsa : stackArgs env.tpl t with
    | some l =>
      have hstk : Stack env.tpl t l := hsa
      simp only [loop, round_stack' hm hcalm hstk] at hl
      cases hc : stackCommand b.st.tpl l with
      | error e => rw [hc] at hl; simp at hl
      | ok r =>
        obtain ⟨r, s'⟩ := r
        rw [hc] at hl
        simp only at hl
        have hstr := tryCommand_str (show tryCommand env.tpl _ _ t = some l from hsa)
        have hn1 : ∀ p more, l ≠ .str (txt "push") :: .str p :: more := fun p more he => hnpush p ⟨more, he ▸ hstk⟩
        have hn2 : ∀ more, l ≠ .str (txt "pop") :: more := fun more he => hnpop ⟨more, he ▸ hstk⟩
        rcases stack_other hstr hn1 hn2 hc with ⟨k, v, rfl⟩ | ⟨k, v, text, hk, rfl, hv, hsh⟩ | ⟨h3, h4, rfl, rfl⟩
        · rw [stack_define] at hc
          cases hc
          rcases ih' fuel (by omega) hl hts hst rfl hj with ⟨out, f', he, ho, hq⟩ | hc
          · exact .inl ⟨out, f', .define hstk he, ho, hq.mark, hq.job, hq.stack, hq.cur⟩
          · exact .inr (hput _ _ hc)
        · rw [stack_retrieve _ _ _ _ hk hv hsh] at hc
          cases hc
          obtain ⟨g, hg, hl⟩ := loop_keeps [HTok.characters text] fuel _ (by rfl) (by simpa using calm_text (env := env) text) hl
          rcases ih' g (by omega) hl hts hst rfl hj with ⟨out, f', he, ho, hq⟩ | hc
          · exact .inl ⟨_ :: out, f', .retrieve hstk hk hv hsh he, by rw [ho]; simp, hq.mark, hq.job, hq.stack, hq.cur⟩
          · exact .inr (hput _ _ hc)
        · rcases ih' fuel (by omega) hl hts hst rfl hj with ⟨out, f', he, ho, hq⟩ | hc
          · exact .inl ⟨out, f', .unknown (.stack hstk hn1 hn2 h3 h4) he, ho, hq.mark, hq.job, hq.stack, hq.cur⟩
          · exact .inr (hput _ _ hc)
    | none =>
      cases hta : templateArgs env.tpl t with
      | none =>
        simp only [loop, round_keep hm hcalm ⟨hsa, hta⟩] at hl
        rcases ih' fuel (by omega) hl hts hst hm hj with ⟨out, f', he, ho, hq⟩ | hc
        · exact .inl ⟨_ :: out, f', .keep (keeps_of_calm hf hcalm ⟨hsa, hta⟩) he, by rw [ho]; simp, hq.mark, hq.job, hq.stack, hq.cur⟩
        · exact .inr (hput _ _ hc)
      | some l =>
        have htp : Template env.tpl t l := ⟨hsa, hta⟩
        simp only [loop, round_template' hm hcalm htp] at hl
        unfold templateCommand at hl
        cases hi : templateImport b.st.tpl.cur l with
        | none =>
          rw [hi] at hl
          simp only [List.nil_append] at hl
          have hu : Unknown env.tpl t := by
            obtain ⟨path, rest, rfl⟩ := tryCommand_str (show tryCommand env.tpl _ _ t = some l from hta)
            unfold templateImport at hi
            dsimp only at hi
            split at hi
            · cases hi
            · cases hi
            · rename_i h1 h2
              cases rest with
              | nil => exact absurd rfl h1
              | cons v more => exact .template htp (fun o ho => h2 o more (by rw [ho]))
          rcases ih' fuel (by omega) hl hts hst rfl hj with ⟨out, f', he, ho, hq⟩ | hc
          · exact .inl ⟨out, f', .unknown hu he, ho, hq.mark, hq.job, hq.stack, hq.cur⟩
          · exact .inr (hput _ _ hc)
        | some r =>
          obtain ⟨rel, vars⟩ := r
          rw [hi] at hl
          dsimp only at hl
          cases hbd : env.tpl.files (join env.tpl.folder rel) with
          | none => rw [hbd] at hl; simp at hl
          | some body =>
            rw [hbd] at hl
            have hpush : IsPush env.tpl (stackComment env.tpl [.str (txt "push"), .str rel]) rel :=
              ⟨[], stackArgs_comment hf.json _ _⟩
            have hpop : IsPop env.tpl (stackComment env.tpl [.str (txt "pop")]) := ⟨[], stackArgs_comment hf.json _ _⟩
            have hbb := bal_map hf.json (hf.balanced _ _ hbd) vars
            simp only [List.cons_append, List.append_assoc, List.nil_append] at hl
            rw [← List.append_assoc] at hl
            rcases hblock fuel (by omega) _ _ _ _ _ (withTpl b ⟨b.st.tpl.deps ++ [rel], b.st.tpl.stack, b.st.tpl.cur⟩) _ hpush hpop hbb hts (sane_defs (hf.sane _ _ hbd) vars) hst rfl hj hl with
              ⟨out1, w1, f1, out, f', he1, he, ho, hq⟩ | hc
            · have he1' := defs_render hf vars _ he1
              exact .inl ⟨out1 ++ out, f', .template (includes_iff.2 ⟨l, htp, hi⟩) hbd he1' he, ho, hq.mark, hq.job, hq.stack, hq.cur⟩
            · exact .inr (hput _ _ hc)

end Verif.Html.Page
