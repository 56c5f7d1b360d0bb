import Verif.HtmlRenderComplete
import Verif.HtmlScan
import Verif.HtmlLocal

/-!
# What a page refers to

`Finds` says which files a page without images and inline elements links to, and which templates it includes, directly or
through others, whatever has been built so far.  A scan reports just these, such a page can be built as soon as the hashes of
the files it links to exist, and the build reports the same.
-/

namespace Verif.Html.Page

open Verif.Reader (Text txt)
open Verif.Build
open Verif.Assoc (item put ofList keys)
open Verif.Paths (join)
open Verif.Handlers (Bytes Fs Scan Built copyTarget)

variable {E J : Type}

/-! ## Specification -/

/-- `Finds env f ts ls is f'`: in the scope `f`, the document `ts` links to the files `ls` and includes the templates `is`, and
leaves the scope `f'`. -/
inductive Finds (env : Env E J) : Frame → List HTok → List Text → List Text → Frame → Prop
  | nil {f} : Finds env f [] [] [] f
  | keep {f t ts ls is f'} (h : Keeps env t) (hr : Finds env f ts ls is f') : Finds env f (t :: ts) ls is f'
  | canon {f t a d ts ls is f'} (h : Canon t a d) (hu : ∀ u, item d (none, a) = some u → ¬ txt "http" <+: u)
      (hr : Finds env f ts ls is f') : Finds env f (t :: ts) ls is f'
  | link {f t a p ts ls is f'} (h : Links t a p) (hr : Finds env f ts ls is f') :
      Finds env f (t :: ts) (join (txt "src/public") p :: ls) is f'
  | define {f t k v ts ls is f'} (h : IsDefine env.tpl t k v) (hr : Finds env { f with vars := put f.vars k v } ts ls is f') :
      Finds env f (t :: ts) ls is f'
  | retrieve {f t k v text ts ls is f'} (h : IsRetrieve env.tpl t k) (hk : k ≠ []) (hv : item f.vars k = some v) (hs : Shown v text)
      (hr : Finds env f ts ls is f') : Finds env f (t :: ts) ls is f'
  | unknown {f t ts ls is f'} (h : Unknown env.tpl t) (hr : Finds env f ts ls is f') : Finds env f (t :: ts) ls is f'
  | block {f t t' p body ls1 is1 f1 ts ls is f'} (h : IsPush env.tpl t p) (h' : IsPop env.tpl t')
      (hb : Finds env ⟨p, []⟩ body ls1 is1 f1) (hr : Finds env f ts ls is f') :
      Finds env f (t :: (body ++ t' :: ts)) (ls1 ++ ls) (is1 ++ is) f'
  | template {f t rel vars body ls1 is1 f1 ts ls is f'} (h : Includes env.tpl f t rel vars)
      (hf : env.tpl.files (join env.tpl.folder rel) = some body) (hb : Finds env ⟨rel, ofList vars⟩ body ls1 is1 f1)
      (hr : Finds env f ts ls is f') : Finds env f (t :: ts) (ls1 ++ ls) (rel :: (is1 ++ is)) f'

/-- No image is made and no inline element is built. -/
structure NoParts (env : Env E J) : Prop where
  image : ∀ fs c r, env.exportImage fs c ≠ .ok r
  inline : ∀ k fs p r, (env.handler k).build fs p ≠ .ok r

/-- The same project, with other templates. -/
def Env.templates (env : Env E J) (F : Text → Option (List HTok)) : Env E J := { env with tpl := { env.tpl with files := F } }

/-! ## Proofs -/

theorem Keeps.other {env : Env E J} {F : Text → Option (List HTok)} {t : HTok} (h : Keeps env t) : Keeps (env.templates F) t :=
  ⟨h.links, h.canon, h.images, h.readable, h.inline, h.ordinary⟩

/-- What a scan has seen. -/
def Looked (b : State St HTok (PErr E)) (ls is : List Text) (f' : Frame) (b' : State St HTok (PErr E)) : Prop :=
  b'.mark = none ∧ b'.st = { b.st with links := b.st.links ++ ls, tpl := ⟨b.st.tpl.deps ++ is, b.st.tpl.stack, f'⟩ }

theorem Looked.after {b c : State St HTok (PErr E)} {l1 ls i1 is : List Text} {f' : Frame} {b' : State St HTok (PErr E)} {x : Frame}
    (h : Looked c ls is f' b') (hst : c.st = { b.st with links := b.st.links ++ l1, tpl := ⟨b.st.tpl.deps ++ i1, b.st.tpl.stack, x⟩ }) :
    Looked b (l1 ++ ls) (i1 ++ is) f' b' := by
  refine ⟨h.1, ?_⟩
  rw [h.2, hst]
  simp [List.append_assoc]

theorem Looked.after' {b c : State St HTok (PErr E)} {ls is : List Text} {f' : Frame} {b' : State St HTok (PErr E)} {x : Frame}
    (h : Looked c ls is f' b') (hst : c.st = { b.st with tpl := ⟨b.st.tpl.deps, b.st.tpl.stack, x⟩ }) : Looked b ls is f' b' := by
  refine ⟨h.1, ?_⟩
  rw [h.2, hst]

section scan
variable {env : Env E J} {t : HTok} {b : State St HTok (PErr E)} {stack : List HTok}

theorem calm_mode {F : Text → Option (List HTok)} (h : Calm (env.templates F) t) : Calm (env.mode true) t := ⟨h.canon, h.link, h.image, h.inline⟩

theorem round_canon_scan (hm : b.mark = none) {host : Text} (hh : env.host = some host) {a : Text} {d : Attrs} (h : Canon t a d) :
    Build.round (manips (env.mode true)) b t stack = .ok (stack, { b with output := b.output ++ [t] }) := by
  have hl : asDependency t = none := asDependency_none.2 fun x p hp => canon_not_links h hp
  have hi : command (env.mode true) t = .ok none := by cases h <;> rfl
  have ho : outlined t = none := by
    cases h' : outlined t with
    | none => rfl
    | some k => cases h <;> cases h'
  have hord : Ordinary (env.mode true).tpl t := by cases h <;> exact ⟨rfl, rfl⟩
  have hc : (canon (env.mode true)).start b.st t = .ok (false, b.st) := by
    cases hx : canonTag t with
    | none => exact canon_pass hx
    | some x =>
      have e : (env.mode true).canonEnv.scan = true := rfl
      have e2 : (env.mode true).canonEnv.host = some host := hh
      simp [canon, canonStart, hx, e, e2]
  simp [Build.round, hm, manips, findMark, hc, links_pass hl, images_pass hi, outline_pass ho, templates_pass hord]

theorem round_link_scan (hm : b.mark = none) {a p : Text} (h : Links t a p) :
    Build.round (manips (env.mode true)) b t stack =
      .ok (stack, { b with output := b.output ++ [t], st := { b.st with links := b.st.links ++ [join (txt "src/public") p] } }) := by
  have hcan : canonTag t = none := by
    by_contra hx
    obtain ⟨a', d', hcan, -⟩ := canon_some hx
    exact canon_not_links hcan h
  have hi : command (env.mode true) t = .ok none := by cases h <;> rfl
  have ho : outlined t = none := by
    cases h' : outlined t with
    | none => rfl
    | some x =>
      obtain ⟨k, d⟩ := x
      have := outlined_iff.1 h'
      cases this with
      | script h0 => cases h with | script h1 _ => rw [h0] at h1; cases h1
      | style => cases h
  have hord : Ordinary (env.mode true).tpl t := by cases h <;> exact ⟨rfl, rfl⟩
  obtain ⟨name, attrs, -, -, -, hd⟩ := asDependency_links h
  have e1 : join (txt "src") (txt "public") = txt "src/public" := by decide
  have hs : ∀ s : St, (links (env.mode true)).start s t = .ok (false, { s with links := s.links ++ [join (txt "src/public") p] }) := by
    intro s
    have e : ((env.mode true).linkEnv s.fs).scan = true := rfl
    simp [links, linkStart, hd, e1, e]
  simp [Build.round, hm, manips, findMark, canon_pass hcan, hs, images_pass hi, outline_pass ho, templates_pass hord]

end scan

theorem scans_block {env : Env E J} {F : Text → Option (List HTok)} (hf : Fit (env.templates F)) {t t' : HTok} {p : Text} {body ts : List HTok} {ls1 is1 ls is : List Text} {f1 f' : Frame}
    (h : IsPush env.tpl t p) (h' : IsPop env.tpl t') (b : State St HTok (PErr E)) (hm : b.mark = none)
    (hb : ∀ c : State St HTok (PErr E), c.mark = none → c.st.tpl.cur = ⟨p, []⟩ → Runs (env.mode true) c body (Looked c ls1 is1 f1))
    (hr : ∀ c : State St HTok (PErr E), c.mark = none → c.st.tpl.cur = b.st.tpl.cur → Runs (env.mode true) c ts (Looked c ls is f')) :
    Runs (env.mode true) b (t :: (body ++ t' :: ts)) (Looked b (ls1 ++ ls) (is1 ++ is) f') := by
  obtain ⟨more, h⟩ := h
  obtain ⟨more', h'⟩ := h'
  refine .step (by rw [round_stack' hm (calm_mode (stack_calm hf h)) h, stack_push]) ?_
  rw [List.nil_append]
  refine .append (hb _ (by exact rfl) (by exact rfl)) ?_
  rintro b1 ⟨h1, h2⟩
  have hst : b1.st.tpl.stack = b.st.tpl.cur :: b.st.tpl.stack := by rw [h2]
  refine .step (by rw [round_stack' h1 (calm_mode (stack_calm hf h')) h', stack_pop _ _ _ _ hst]) ?_
  rw [List.nil_append]
  refine (hr _ (by exact rfl) (by exact rfl)).mono fun b' hg => ?_
  refine hg.after (x := b.st.tpl.cur) ?_
  dsimp only
  rw [h2]

/-- A scan sees what there is. -/
theorem finds_scan {env : Env E J} {F : Text → Option (List HTok)} (hf : Fit (env.templates F)) {host : Text} (hh : env.host = some host) {f f' : Frame} {ts : List HTok}
    {ls is : List Text} (h : Finds env f ts ls is f') : ∀ b : State St HTok (PErr E), b.mark = none → b.st.tpl.cur = f →
      Runs (env.mode true) b ts (Looked b ls is f') := by
  induction h with
  | nil =>
    intro b hm hc
    refine ⟨0, b, rfl, hm, ?_⟩
    rw [← hc]
    simp
  | keep h _ ih =>
    intro b hm hc
    refine .step (round_keep hm (calm_mode (calm_of_keeps hf h.other)) h.ordinary) ?_
    exact ih _ hm hc
  | canon h _ _ ih =>
    intro b hm hc
    refine .step (round_canon_scan hm hh h) ?_
    exact ih _ hm hc
  | link h _ ih =>
    intro b hm hc
    refine .step (round_link_scan hm h) ?_
    refine (ih _ (by exact hm) (by exact hc)).mono fun b' hg => ?_
    exact hg.after (l1 := [_]) (i1 := []) (x := b.st.tpl.cur) (by simp)
  | @define f t k v ts ls is f' h _ ih =>
    intro b hm hc
    have hst : Stack env.tpl t [.str (txt "define"), .str k, v] := h
    refine .step (by rw [round_stack' hm (calm_mode (stack_calm hf hst)) hst, stack_define]) ?_
    exact (ih _ (by exact rfl) (by dsimp only; rw [hc])).mono fun b' hg => hg.after' rfl
  | @retrieve f t k v text ts ls is f' h hk hv hsh _ ih =>
    intro b hm hc
    have hst : Stack env.tpl t [.str (txt "retrieve"), .str k] := h
    refine .step (by rw [round_stack' hm (calm_mode (stack_calm hf hst)) hst, stack_retrieve _ _ _ _ hk (hc ▸ hv) hsh]) ?_
    refine .keeps [_] _ rfl (by simpa using calm_text (env := env.mode true) text) ?_
    exact (ih _ (by exact rfl) (by exact hc)).mono fun b' hg => hg.after' rfl
  | unknown h _ ih =>
    intro b hm hc
    cases h with
    | stack h h1 h2 h3 h4 =>
      refine .step (by rw [round_stack' hm (calm_mode (stack_calm hf h)) h, stack_unknown (tryCommand_str h) h1 h2 h3 h4]) ?_
      exact (ih _ (by exact rfl) (by exact hc)).mono fun b' hg => hg.after' rfl
    | @template path v more h hv =>
      have : templateCommand env.tpl b.st.tpl (.str path :: v :: more) = .ok ([], b.st.tpl) := by
        have hi : templateImport b.st.tpl.cur (.str path :: v :: more) = none := by
          unfold templateImport
          cases v with
          | obj o => exact absurd rfl (hv o)
          | _ => rfl
        simp only [templateCommand, hi]
      refine .step (by rw [round_template' hm (calm_mode (template_calm hf h)) h]; erw [this]) ?_
      exact (ih _ (by exact rfl) (by exact hc)).mono fun b' hg => hg.after' rfl
  | block h h' _ _ ihb ihr =>
    intro b hm hc
    exact scans_block hf h h' b hm (fun c c1 c2 => ihb c c1 c2) (fun c c1 c2 => ihr c c1 (c2.trans hc))
  | @template f t rel vars body ls1 is1 f1 ts ls is f' h hb _ _ ihb ihr =>
    intro b hm hc
    obtain ⟨l, ht, hi⟩ := includes_iff.1 h
    rw [← hc] at hi
    have htc : templateCommand (env.mode true).tpl b.st.tpl l = templateCommand env.tpl b.st.tpl l := rfl
    refine .step (by rw [round_template' hm (calm_mode (template_calm hf ht)) ht, htc, templateCommand, hi]; dsimp only; rw [hb]) ?_
    simp only [List.cons_append, List.append_assoc, List.nil_append]
    rw [← List.append_assoc]
    have hdefs : ∀ (vs : List (Text × Json)) (c : State St HTok (PErr E)), c.mark = none →
        (⟨c.st.tpl.cur.relpath, vs.foldl (fun d p => put d p.1 p.2) c.st.tpl.cur.vars⟩ : Frame) = ⟨rel, ofList vars⟩ →
        Runs (env.mode true) c ((vs.map fun p => stackComment env.tpl [.str (txt "define"), .str p.1, p.2]) ++ body) (Looked c ls1 is1 f1) := by
      intro vs
      induction vs with
      | nil => intro c c1 c2; exact ihb c c1 c2
      | cons p vs ihv =>
        intro c c1 c2
        have hst : Stack env.tpl (stackComment env.tpl [.str (txt "define"), .str p.1, p.2])
          [.str (txt "define"), .str p.1, p.2] := stackArgs_comment hf.json _ _
        rw [List.map_cons, List.cons_append]
        refine .step (by rw [round_stack' c1 (calm_mode (stack_calm hf (t := stackComment env.tpl [.str (txt "define"), .str p.1, p.2])
          (l := [.str (txt "define"), .str p.1, p.2]) (by exact hst))) hst, stack_define]) ?_
        exact (ihv _ (by exact rfl) (by exact c2)).mono fun b' hg => hg.after' rfl
    have hfin := scans_block (env := env) hf (t := stackComment env.tpl [.str (txt "push"), .str rel])
      (t' := stackComment env.tpl [.str (txt "pop")]) (p := rel) (body := (vars.map fun p => stackComment env.tpl [.str (txt "define"), .str p.1, p.2]) ++ body)
      (ts := ts) (ls1 := ls1) (is1 := is1) (ls := ls) (is := is) (f1 := f1) (f' := f') ⟨[], stackArgs_comment hf.json _ _⟩
      ⟨[], stackArgs_comment hf.json _ _⟩ (withTpl b ⟨b.st.tpl.deps ++ [rel], b.st.tpl.stack, b.st.tpl.cur⟩) rfl
      (fun c c1 c2 => hdefs vars c c1 (by rw [c2]; rfl))
      (fun c c1 c2 => ihr c c1 (c2.trans hc))
    refine hfin.mono fun b' hg => ?_
    exact hg.after (l1 := []) (i1 := [rel]) (x := b.st.tpl.cur) (by simp)

/-- A page refers to one list of files only. -/
theorem Finds.unique {env : Env E J} {F : Text → Option (List HTok)} (hf : Fit (env.templates F)) {host : Text} (hh : env.host = some host) {f f1 f2 : Frame} {ts : List HTok}
    {l1 i1 l2 i2 : List Text} (h1 : Finds env f ts l1 i1 f1) (h2 : Finds env f ts l2 i2 f2) : l1 = l2 ∧ i1 = i2 := by
  let b : State St HTok (PErr E) := State.new { St.new (fun _ => none) env.rel with tpl := ⟨[], [], f⟩ }
  obtain ⟨n1, b1, e1, -, s1⟩ := finds_scan hf hh h1 b rfl rfl
  obtain ⟨n2, b2, e2, -, s2⟩ := finds_scan hf hh h2 b rfl rfl
  have e1' := loop_mono _ _ n2 _ _ _ e1
  have e2' := loop_mono _ _ n1 _ _ _ e2
  rw [Nat.add_comm, e1'] at e2'
  simp only [Option.some.injEq, Except.ok.injEq] at e2'
  subst e2'
  rw [s1] at s2
  have a1 : ([] ++ l1 : List Text) = [] ++ l2 := congrArg St.links s2
  have a2 : ([] ++ i1 : List Text) = [] ++ i2 := congrArg (fun s : St => s.tpl.deps) s2
  exact ⟨by simpa using a1, by simpa using a2⟩

/-- With the hashes of all files it links to, a page can become something. -/
theorem finds_render {env : Env E J} (hf : Fit env) {host : Text} (stem : Text) (hh : env.host = some host) {f f' : Frame} {ts : List HTok}
    {ls is : List Text} (h : Finds env f ts ls is f') : Sane ts → ∀ w : World,
      (∀ p, join (txt "src/public") p ∈ ls → w.fs (join (txt "out/www") p ++ txt ".hash") ≠ none) →
      ∃ out w', Render env host stem w f ts out w' f' ∧ w' = { w with links := w.links ++ ls, incs := w.incs ++ is } := by
  induction h with
  | nil => exact fun _ w _ => ⟨_, _, .nil, by simp⟩
  | keep h _ ih =>
    intro hs w hw
    obtain ⟨out, w', h1, h2⟩ := ih (fun x hx => hs x (by simp [hx])) w hw
    exact ⟨_, _, .keep h h1, h2⟩
  | @canon f t a d ts ls is f' h hu _ ih =>
    intro hs w hw
    obtain ⟨out, w', h1, h2⟩ := ih (fun x hx => hs x (by simp [hx])) w hw
    have hpl := (hs t (by simp)).1 (.inr (.inl ⟨a, d, h⟩))
    obtain ⟨t2, -, hw2, -⟩ := round_canon (stack := []) (b := State.new (St.new w.fs env.rel)) hf hh rfl h (canon_attrs h ▸ hpl) (fun u hi => by
      rw [Bool.eq_false_iff]
      intro hp
      exact hu u hi (List.isPrefixOf_iff_prefix.1 hp))
    cases hi : item d (none, a) with
    | none => rw [hi] at hw2; exact ⟨_, _, .canon h (.inl ⟨hi, rfl⟩) hw2 h1, h2⟩
    | some u => rw [hi] at hw2; exact ⟨_, _, .canon h (.inr ⟨hi, hu u hi⟩) hw2 h1, h2⟩
  | @link f t a p ts ls is f' h _ ih =>
    intro hs w hw
    have hpl := (hs t (by simp)).1 (.inl ⟨a, p, h⟩)
    have hcan : canonTag t = none := by
      by_contra hx
      obtain ⟨a', d', hcan, -⟩ := canon_some hx
      exact canon_not_links hcan h
    rcases round_link (stack := []) (b := State.new (St.new w.fs env.rel)) hf rfl h hpl (hs t (by simp)).2 hcan with
      ⟨hx, -⟩ | ⟨hash2, t2, hfile2, -, hw2, -⟩
    · exact absurd hx (hw p (by simp))
    · obtain ⟨out, w', h1, h2⟩ := ih (fun x hx => hs x (by simp [hx])) { w with links := w.links ++ [join (txt "src/public") p] }
        (fun q hq => hw q (by simp [hq]))
      exact ⟨_, _, .link h hfile2 hw2 h1, by simp [h2]⟩
  | define h _ ih =>
    intro hs w hw
    obtain ⟨out, w', h1, h2⟩ := ih (fun x hx => hs x (by simp [hx])) w hw
    exact ⟨_, _, .define h h1, h2⟩
  | retrieve h hk hv hsh _ ih =>
    intro hs w hw
    obtain ⟨out, w', h1, h2⟩ := ih (fun x hx => hs x (by simp [hx])) w hw
    exact ⟨_, _, .retrieve h hk hv hsh h1, h2⟩
  | unknown h _ ih =>
    intro hs w hw
    obtain ⟨out, w', h1, h2⟩ := ih (fun x hx => hs x (by simp [hx])) w hw
    exact ⟨_, _, .unknown h h1, h2⟩
  | block h h' _ _ ihb ihr =>
    intro hs w hw
    obtain ⟨out1, w1, h1, h2⟩ := ihb (fun x hx => hs x (by simp [hx])) w (fun p hp => hw p (by simp [hp]))
    obtain ⟨out, w', h3, h4⟩ := ihr (fun x hx => hs x (by simp [hx])) w1 (fun p hp => by rw [h2]; exact hw p (by simp [hp]))
    exact ⟨_, _, .block h h' h1 h3, by simp [h4, h2]⟩
  | @template f t rel vars body ls1 is1 f1 ts ls is f' h hb _ _ ihb ihr =>
    intro hs w hw
    obtain ⟨out1, w1, h1, h2⟩ := ihb (hf.sane _ _ hb) { w with incs := w.incs ++ [rel] } (fun p hp => hw p (by simp [hp]))
    obtain ⟨out, w', h3, h4⟩ := ihr (fun x hx => hs x (by simp [hx])) w1 (fun p hp => by rw [h2]; exact hw p (by simp [hp]))
    exact ⟨_, _, .template h hb h1 h3, by simp [h4, h2]⟩

/-- A page which becomes something refers to the files which are reported. -/
theorem render_finds {env : Env E J} (hn : NoParts env) {host stem : Text} {w w' : World} {f f' : Frame} {ts out : List HTok}
    (h : Render env host stem w f ts out w' f') :
    ∃ ls is, Finds env f ts ls is f' ∧ w'.links = w.links ++ ls ∧ w'.incs = w.incs ++ is ∧ w'.images = w.images ∧ w'.made = w.made := by
  induction h with
  | nil => exact ⟨[], [], .nil, by simp, by simp, rfl, rfl⟩
  | keep h _ ih =>
    obtain ⟨ls, is, h1, h2⟩ := ih
    exact ⟨ls, is, .keep h h1, h2⟩
  | canon h hu _ _ ih =>
    obtain ⟨ls, is, h1, h2⟩ := ih
    refine ⟨ls, is, .canon h (fun u hi => ?_) h1, h2⟩
    rcases hu with ⟨h3, -⟩ | ⟨h3, h4⟩
    · rw [hi] at h3; cases h3
    · rw [hi] at h3; cases h3; exact h4
  | link h _ _ _ ih =>
    obtain ⟨ls, is, h1, h2, h3⟩ := ih
    exact ⟨_, is, .link h h1, by simp [h2], h3⟩
  | image _ he => exact absurd he (hn.image _ _ _)
  | inline _ _ _ _ hb => exact absurd hb (hn.inline _ _ _ _)
  | define h _ ih =>
    obtain ⟨ls, is, h1, h2⟩ := ih
    exact ⟨ls, is, .define h h1, h2⟩
  | retrieve h hk hv hsh _ ih =>
    obtain ⟨ls, is, h1, h2⟩ := ih
    exact ⟨ls, is, .retrieve h hk hv hsh h1, h2⟩
  | unknown h _ ih =>
    obtain ⟨ls, is, h1, h2⟩ := ih
    exact ⟨ls, is, .unknown h h1, h2⟩
  | block h h' _ _ ihb ihr =>
    obtain ⟨l1, i1, a1, a2, a3, a4, a5⟩ := ihb
    obtain ⟨l2, i2, b1, b2, b3, b4, b5⟩ := ihr
    exact ⟨_, _, .block h h' a1 b1, by rw [b2, a2]; simp, by rw [b3, a3]; simp, b4.trans a4, b5.trans a5⟩
  | template h hb _ _ ihb ihr =>
    obtain ⟨l1, i1, a1, a2, a3, a4, a5⟩ := ihb
    obtain ⟨l2, i2, b1, b2, b3, b4, b5⟩ := ihr
    exact ⟨_, _, .template h hb a1 b1, by rw [b2, a2]; simp, by rw [b3, a3]; simp, b4.trans a4, b5.trans a5⟩

/-- What a page refers to depends on the templates it includes only. -/
theorem Finds.files {env : Env E J} {F : Text → Option (List HTok)}
    {f f' : Frame} {ts : List HTok} {ls is : List Text} (h : Finds env f ts ls is f') :
    (∀ rel ∈ is, F (join env.tpl.folder rel) = env.tpl.files (join env.tpl.folder rel)) → Finds (env.templates F) f ts ls is f' := by
  induction h with
  | nil => exact fun _ => .nil
  | keep h _ ih => exact fun hi => .keep ⟨h.links, h.canon, h.images, h.readable, h.inline, h.ordinary⟩ (ih hi)
  | canon h hu _ ih => exact fun hi => .canon h hu (ih hi)
  | link h _ ih => exact fun hi => .link h (ih hi)
  | define h _ ih => exact fun hi => .define h (ih hi)
  | retrieve h hk hv hsh _ ih => exact fun hi => .retrieve h hk hv hsh (ih hi)
  | unknown h _ ih =>
    refine fun hi => .unknown ?_ (ih hi)
    cases h with
    | stack h h1 h2 h3 h4 => exact .stack h h1 h2 h3 h4
    | template h hv => exact .template h hv
  | block h h' _ _ ihb ihr => exact fun hi => .block h h' (ihb fun r hr => hi r (by simp [hr])) (ihr fun r hr => hi r (by simp [hr]))
  | @template f t rel vars body ls1 is1 f1 ts ls is f' h hb _ _ ihb ihr =>
    intro hi
    refine .template ?_ ?_ (ihb fun r hr => hi r (by simp [hr])) (ihr fun r hr => hi r (by simp [hr]))
    · obtain ⟨l, ht, hx⟩ := includes_iff.1 h
      exact includes_iff.2 ⟨l, ht, hx⟩
    · exact (hi rel (by simp)).trans hb

/-- Pushes and pops fit together, in all that is included as well. -/
theorem Finds.bal {env : Env E J} {f f' : Frame} {ts : List HTok} {ls is : List Text} (h : Finds env f ts ls is f') :
    Bal env.tpl ts ∧ ∀ rel ∈ is, ∃ body, env.tpl.files (join env.tpl.folder rel) = some body ∧ Bal env.tpl body := by
  have hord : ∀ {t : HTok}, Ordinary env.tpl t → (∀ p, ¬ IsPush env.tpl t p) ∧ ¬ IsPop env.tpl t := by
    intro t ho
    constructor
    · rintro p ⟨more, h⟩
      have h : stackArgs env.tpl t = _ := h
      rw [ho.1] at h; cases h
    · rintro ⟨more, h⟩
      have h : stackArgs env.tpl t = _ := h
      rw [ho.1] at h; cases h
  have hstack : ∀ {t : HTok} {s : Text} {l : List Json}, Stack env.tpl t (.str s :: l) → s ≠ txt "push" → s ≠ txt "pop" →
      (∀ p, ¬ IsPush env.tpl t p) ∧ ¬ IsPop env.tpl t := by
    intro t s l h h1 h2
    have h : stackArgs env.tpl t = _ := h
    constructor
    · rintro p ⟨more, h'⟩
      have h' : stackArgs env.tpl t = _ := h'
      rw [h] at h'
      cases h'
      exact h1 rfl
    · rintro ⟨more, h'⟩
      have h' : stackArgs env.tpl t = _ := h'
      rw [h] at h'
      cases h'
      exact h2 rfl
  have htpl : ∀ {t : HTok} {l : List Json}, Template env.tpl t l → (∀ p, ¬ IsPush env.tpl t p) ∧ ¬ IsPop env.tpl t := by
    intro t l h
    constructor
    · rintro p ⟨more, h'⟩
      have h' : stackArgs env.tpl t = _ := h'
      rw [h.1] at h'; cases h'
    · rintro ⟨more, h'⟩
      have h' : stackArgs env.tpl t = _ := h'
      rw [h.1] at h'; cases h'
  induction h with
  | nil => exact ⟨.nil, by simp⟩
  | keep h _ ih => exact ⟨.cons (hord h.ordinary).1 (hord h.ordinary).2 ih.1, ih.2⟩
  | @canon f t a d ts ls is f' h _ _ ih =>
    have ho : Ordinary env.tpl t := by cases h <;> exact ⟨rfl, rfl⟩
    exact ⟨.cons (hord ho).1 (hord ho).2 ih.1, ih.2⟩
  | @link f t a p ts ls is f' h _ ih =>
    have ho : Ordinary env.tpl t := by cases h <;> exact ⟨rfl, rfl⟩
    exact ⟨.cons (hord ho).1 (hord ho).2 ih.1, ih.2⟩
  | @define f t k v ts ls is f' h _ ih =>
    have := hstack (t := t) (s := txt "define") (l := [.str k, v]) h (by decide) (by decide)
    exact ⟨.cons this.1 this.2 ih.1, ih.2⟩
  | @retrieve f t k v text ts ls is f' h _ _ _ _ ih =>
    have := hstack (t := t) (s := txt "retrieve") (l := [.str k]) h (by decide) (by decide)
    exact ⟨.cons this.1 this.2 ih.1, ih.2⟩
  | unknown h _ ih =>
    cases h with
    | stack h h1 h2 h3 h4 =>
      have h : stackArgs env.tpl _ = _ := h
      refine ⟨.cons ?_ ?_ ih.1, ih.2⟩
      · rintro p ⟨more, h'⟩
        have h' : stackArgs env.tpl _ = _ := h'
        rw [h] at h'
        exact h1 _ _ (Option.some.inj h')
      · rintro ⟨more, h'⟩
        have h' : stackArgs env.tpl _ = _ := h'
        rw [h] at h'
        exact h2 _ (Option.some.inj h')
    | template h hv => exact ⟨.cons (htpl h).1 (htpl h).2 ih.1, ih.2⟩
  | block h h' _ _ ihb ihr =>
    refine ⟨.block h h' ihb.1 ihr.1, fun rel hrel => ?_⟩
    rcases List.mem_append.1 hrel with hrel | hrel
    · exact ihb.2 rel hrel
    · exact ihr.2 rel hrel
  | template h hb _ _ ihb ihr =>
    obtain ⟨l, ht, hx⟩ := includes_iff.1 h
    refine ⟨.cons (htpl ht).1 (htpl ht).2 ihr.1, fun rel hrel => ?_⟩
    rcases List.mem_cons.1 hrel with rfl | hrel
    · exact ⟨_, hb, ihb.1⟩
    · rcases List.mem_append.1 hrel with hrel | hrel
      · exact ihb.2 rel hrel
      · exact ihr.2 rel hrel

/-- The scan of a page reports what the page refers to. -/
theorem finds_page_scan {env : Env E J} {F : Text → Option (List HTok)} (hf : Fit (env.templates F)) {host : Text} (hh : env.host = some host)
    {name : Text} (hrel : env.rel = txt "src/public/" ++ name) {fs : Fs} {content : Bytes} {ts : List HTok} (h0 : fs env.rel = some content)
    (hp : env.parse content = some ts) {ls is : List Text} {f' : Frame} (h : Finds env ⟨env.rel, []⟩ ts ls is f') :
    ∃ fuel s, scanFile fuel (env.mode true) fs = some (.ok (s, fs)) ∧ (∀ d, d ∈ s.dependencies ↔ d ∈ ls ∨ d ∈ is) ∧
      ∀ o, o ∈ s.produces ↔ o = txt "out/www/" ++ name ∨ o = txt "out/www/" ++ name ++ txt ".hash" := by
  obtain ⟨n, b, e, -, hst⟩ := finds_scan hf hh h (State.new (St.new fs env.rel)) rfl rfl
  have e' : loop (manips (env.mode true)) n { (State.new (St.new fs env.rel) : State St HTok (PErr E)) with
      output := [] ++ (State.new (St.new fs env.rel) : State St HTok (PErr E)).output } (tokensOf (ts.map Op.token)) = some (.ok b) := by
    rw [tokensOf_map]
    exact e
  obtain ⟨acc, rest, h1, h2⟩ := loop_runOps _ _ _ _ _ _ e'
  have hcs : (Handlers.copyScan (txt "src/public/" ++ name)).produces = [txt "out/www/" ++ name] := Handlers.copyScan_produces (Js.File.copyTarget_name name)
  have hhs : (Handlers.hashScan (txt "src/public/" ++ name)).produces = [txt "out/www/" ++ name ++ txt ".hash"] :=
    Handlers.hashScan_produces (Js.File.hashTarget_name name)
  have hcd : (Handlers.copyScan (txt "src/public/" ++ name)).dependencies = [] := by
    unfold Handlers.copyScan
    split <;> rfl
  have hhd : (Handlers.hashScan (txt "src/public/" ++ name)).dependencies = [] := by
    unfold Handlers.hashScan
    split <;> rfl
  refine ⟨n, [Handlers.copyScan env.rel, Handlers.hashScan env.rel, ⟨ls, []⟩, ⟨[], []⟩, ⟨[], []⟩, ⟨is, []⟩].foldl addScan ⟨[], []⟩, ?_, fun d => ?_, fun o => ?_⟩
  · have ht : copyTarget (env.mode true).rel = some (txt "out/www/" ++ name) := by
      rw [show (env.mode true).rel = env.rel from rfl, hrel, Js.File.copyTarget_name]
    have h0' : fs (env.mode true).rel = some content := h0
    have hp' : (env.mode true).parse content = some ts := hp
    unfold scanFile
    rw [ht]
    dsimp only
    rw [h0']
    dsimp only
    rw [hp']
    dsimp only
    rw [show (env.mode true).rel = env.rel from rfl, h1]
    have hb : ({ b with output := rest } : State St HTok (PErr E)).st = b.st := rfl
    simp only [Option.map_some, hst]
    simp [tplResult, State.new, St.new]
  · rw [hrel]
    simp [addScan, hcd, hhd, Icons.mem_addAll]
  · rw [hrel]
    simp [addScan, hcs, hhs, Icons.mem_addAll]

/-- With the hashes of what it links to, a page is built, and reports what it refers to. -/
theorem finds_page_build {env : Env E J} (hf : Fit env) {host stem : Text} (hh : env.host = some host) (hs : PageFile env.rel stem)
    {fs : Fs} {content : Bytes} {ts : List HTok} (h0 : fs env.rel = some content) (hp : env.parse content = some ts) (hsane : Sane ts)
    {ls is : List Text} {f' : Frame} (h : Finds env ⟨env.rel, []⟩ ts ls is f')
    (hl : ∀ p, join (txt "src/public") p ∈ ls → fs (join (txt "out/www") p ++ txt ".hash") ≠ none)
    (hbare : fs (pageOut stem ++ txt ".hash") = none) :
    ∃ fuel out, buildFile fuel env fs = some (.ok (report (stem ++ txt ".html") ls is, leave env (stem ++ txt ".html") fs out)) ∧
      plainPage fuel env fs = true := by
  obtain ⟨out, w', hr, hw⟩ := finds_render hf stem hh h hsane (World.start fs) hl
  obtain ⟨n, b, e, -, hst, hq⟩ := C66_complete hf hh hs hr hsane (State.new (St.new fs env.rel)) rfl rfl rfl rfl
  have e' : loop (manips env) n { (State.new (St.new fs env.rel) : State St HTok (PErr E)) with output := [] ++ (State.new (St.new fs env.rel) : State St HTok (PErr E)).output }
      (tokensOf (allTokens ts)) = some (.ok b) := by
    rw [tokensOf_all]
    exact e
  obtain ⟨acc, rest, h1, -⟩ := loop_runOps _ _ _ _ _ _ e'
  rw [hw] at hst
  have hrel : env.rel = txt "src/public/" ++ (stem ++ txt ".html") := by rw [← List.append_assoc]; exact hs.1
  have k1 : b.st.fs = fs := congrArg World.fs hst
  have k2 : b.st.outBuilt = ⟨[], [], []⟩ := congrArg World.made hst
  have k3 : b.st.imgBuilt = ⟨[], [], []⟩ := congrArg World.images hst
  have k4 : b.st.scripts = 0 := congrArg World.scripts hst
  have k5 : b.st.styles = 0 := congrArg World.styles hst
  have k6 : b.st.links = ls := (congrArg World.links hst).trans (by simp [World.start])
  have k7 : b.st.tpl.deps = is := (congrArg World.incs hst).trans (by simp [World.start])
  have := build_of_run (name := stem ++ txt ".html") hrel (by rw [← List.append_assoc]; exact hbare) h0 hp h1 ⟨k4, k5⟩ hq.stack k1 k2 k3
  dsimp only at this
  rw [k6, k7] at this
  exact ⟨n, acc, this⟩

section fuel
variable {env : Env E J} {fs : Fs} {m n : Nat}

theorem runOps_fuel {S τ F : Type} {ms : List (Manip S τ F)} {ops : List (Op τ)} {b : State S τ F} {acc : List τ} {r : Except F (List τ × State S τ F)}
    (h : runOps ms m b acc ops = some r) (hn : runOps ms n b acc ops ≠ none) : runOps ms n b acc ops = some r := by
  obtain ⟨r', h'⟩ := Option.ne_none_iff_exists'.1 hn
  have a1 := Js.File.runOps_mono ms m n ops _ _ _ h
  have a2 := Js.File.runOps_mono ms n m ops _ _ _ h'
  rw [Nat.add_comm, a1] at a2
  rw [h', ← a2]

/-- The number of steps does not matter, if it is enough. -/
theorem scan_fuel {r : Except (PErr E) (Scan × Fs)} (h : scanFile m env fs = some r) (hn : scanFile n env fs ≠ none) : scanFile n env fs = some r := by
  unfold scanFile at h hn ⊢
  cases ht : copyTarget env.rel with
  | none => simp only [ht] at h hn ⊢; exact h
  | some t =>
    simp only [ht] at h hn ⊢
    cases hy : fs env.rel with
    | none => simp only [hy] at h hn ⊢; exact h
    | some y =>
      simp only [hy] at h hn ⊢
      cases hts : env.parse y with
      | none => simp only [hts] at h hn ⊢; exact h
      | some ts =>
        simp only [hts] at h hn ⊢
        obtain ⟨q, h1, h2⟩ := Option.map_eq_some_iff.1 h
        have := runOps_fuel (n := n) h1 (fun hx => hn (by rw [hx]; rfl))
        rw [this, ← h2]
        rfl

theorem build_fuel {r : Except (PErr E) (Built × Fs)} (h : buildFile m env fs = some r) (hn : buildFile n env fs ≠ none) {t : Text}
    (ht : copyTarget env.rel = some t) : buildFile n env fs = some r ∧ (plainPage m env fs = true → plainPage n env fs = true) := by
  unfold buildFile at h hn ⊢
  unfold plainPage
  simp only [ht] at h hn ⊢
  cases hy : fs env.rel with
  | none => simp only [hy] at h hn ⊢; exact ⟨h, id⟩
  | some y =>
    simp only [hy] at h hn ⊢
    cases hts : env.parse y with
    | none => simp only [hts] at h hn ⊢; exact ⟨h, id⟩
    | some ts =>
      simp only [hts] at h hn ⊢
      obtain ⟨q, h1, h2⟩ := Option.map_eq_some_iff.1 h
      have := runOps_fuel (n := n) h1 (fun hx => hn (by rw [hx]; rfl))
      rw [this, h1, ← h2]
      exact ⟨rfl, id⟩

end fuel

end Verif.Html.Page
