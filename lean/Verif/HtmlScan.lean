import Verif.HtmlPageRender

/-!
# C68: the scan of a page announces what its build reads and writes
-/

namespace Verif.Html.Page

open Verif.Reader (Text txt)
open Verif.Build
open Verif.Assoc (item put ofList keys get_put get_none mem_keys_put)
open Verif.Paths (join)
open Verif.Handlers (Bytes Fs Scan Built copyScan hashScan copyTarget hashTarget hashBuild)
open Verif.Icons (addAll mem_addAll)
open Verif.Img (GoodSpace digits)

variable {E J : Type}

/-! ## Specification -/

/-- The same project, for scanning or for building. -/
def Env.mode (env : Env E J) (scan : Bool) : Env E J := { env with scan := scan }

/-- All that is reported was announced. -/
structure Covers (s : Scan) (r : Built) : Prop where
  children : ∀ p ∈ r.children, p ∈ s.dependencies
  produced : ∀ p ∈ r.produced, p ∈ s.produces
  reused : ∀ p ∈ r.reused, p ∈ s.produces

/-- What is reported is what was announced. -/
structure Exact (s : Scan) (r : Built) : Prop where
  children : ∀ p, p ∈ s.dependencies ↔ p ∈ r.children
  outputs : ∀ p, p ∈ s.produces ↔ p ∈ r.produced ∨ p ∈ r.reused

/-- The scans and builds of images, scripts and stylesheets are related by `A` whenever the files at the scan and those at
the build are related by `Q`, and they remain so. -/
structure Agree (env : Env E J) (Q : Fs → Fs → Prop) (A : Scan → Built → Prop) : Prop where
  write : ∀ f g p x, Q f g → Q (f.write p x) (g.write p x)
  remove : ∀ f g p, Q f g → Q (remove f p) (remove g p)
  images : ∀ f g c s f' o r g', Q f g → env.scanImage f c = .ok (s, f') → env.exportImage g c = .ok (o, r, g') → A s r ∧ Q f' g'
  handler : ∀ k f g p s r g', Q f g → (env.handler k).scan f p = .ok s → (env.handler k).build g p = .ok (r, g') → A s r ∧ Q f g'

/-! ## Tags which are written are left alone -/

/-- Only the manipulator for canonical URLs may take the token. -/
structure Settled (env : Env E J) (t : HTok) : Prop where
  link : asDependency t = none
  image : command env t = .ok none
  inline : outlined t = none
  ordinary : Ordinary env.tpl t

theorem any_query {a b : Text} : (a ++ txt "?" ++ b).any (fun c => c == 63 || c == 35) = true := by
  have e : txt "?" = [63] := by decide
  rw [e]; simp

theorem canon_again {t : HTok} {tag : CanonTag} {attrs : Attrs} {other : List (Text × Text)} (h : canonTag t = some (tag, attrs, other)) (x : Text) :
    canonTag (.emptyTag tag.name (canonData other tag.attr (txt "https://" ++ x))) = none ∧
      asDependency (.emptyTag tag.name (canonData other tag.attr (txt "https://" ++ x))) = none := by
  have hi : item (canonData other tag.attr (txt "https://" ++ x)) (none, tag.attr) = some (txt "https://" ++ x) := by
    unfold canonData
    rw [get_byName, if_pos ⟨rfl, mem_sortKeys.2 (mem_keys_put.2 (.inl rfl))⟩, get_put, if_pos rfl]
    rfl
  have hp : (txt "http").isPrefixOf (txt "https://" ++ x) = true := by
    have e1 : txt "https://" = txt "http" ++ [115, 58, 47, 47] := by decide
    rw [List.isPrefixOf_iff_prefix, e1, List.append_assoc]
    exact ⟨_, rfl⟩
  have h0 : (txt "https://" ++ x).head? ≠ some 47 := by
    have e1 : txt "https://" = 104 :: [116, 116, 112, 115, 58, 47, 47] := by decide
    rw [e1]; simp
  generalize hd : canonData other tag.attr (txt "https://" ++ x) = d at hi ⊢
  have htag : ∃ a, canonInner t = some (tag, a) := by
    unfold canonTag at h
    split at h
    · cases h
    · next tg at' hc =>
      refine ⟨at', ?_⟩
      rw [hc]
      split at h
      · split at h
        · cases h
        · cases h; rfl
      · cases h; rfl
  obtain ⟨a, hin⟩ := htag
  obtain ⟨hn, hc⟩ := canonInner_iff.1 hin
  obtain ⟨name, attr⟩ := tag
  dsimp only at hn hc hi ⊢
  have n1 : txt "content" ≠ txt "href" := by decide
  have n2 : txt "meta" ≠ txt "link" := by decide
  have n3 : txt "meta" ≠ txt "script" := by decide
  cases hc with
  | link _ =>
    rw [if_pos rfl] at hn
    subst hn
    constructor
    · by_cases hr : item d (none, txt "rel") = some (txt "canonical")
      · simp [canonTag, canonInner, hr, hi, hp]
      · simp [canonTag, canonInner, hr]
    · unfold asDependency
      split
      · rfl
      · next an nm ats hl =>
        unfold linkType at hl
        dsimp only at hl
        split at hl
        · cases hl
          rw [hi]
          dsimp only
          rw [if_pos (.inl h0)]
        · cases hl
  | og _ =>
    rw [if_neg n1] at hn
    subst hn
    constructor
    · by_cases hr : item d (none, txt "property") = some (txt "og:url")
      · simp [canonTag, canonInner, hr, hi, hp, n2]
      · simp [canonTag, canonInner, hr, n2]
    · simp [asDependency, linkType, n2]

theorem link_again {env : Env E J} {t : HTok} {dep : LinkDep} (h : asDependency t = some dep) (q : Text) :
    Settled env (retag t dep.name (linkData dep (47 :: dep.path ++ txt "?" ++ q))) ∧ command env t = .ok none ∧ outlined t = none ∧
      Ordinary env.tpl t := by
  have hi : item (linkData dep (47 :: dep.path ++ txt "?" ++ q)) (none, dep.attrName) = some (47 :: dep.path ++ txt "?" ++ q) := by
    unfold linkData
    have := get_byName (fun key => if key ≠ dep.attrName then (item dep.attributes key).getD [] else 47 :: dep.path ++ txt "?" ++ q)
      (sortKeys (keys dep.attributes ++ [dep.attrName])) (none, dep.attrName)
    rw [this, if_pos ⟨rfl, mem_sortKeys.2 (by simp)⟩]
    simp
  have hq := any_query (a := 47 :: dep.path) (b := q)
  generalize hu : 47 :: dep.path ++ txt "?" ++ q = u at hi hq ⊢
  generalize linkData dep u = d at hi ⊢
  obtain ⟨name, attrs, ht, ha, hg, hd⟩ := asDependency_links (links_of_dep h)
  have hs : txt "script" ≠ txt "style" := by decide
  unfold asDependency at h
  split at h
  · cases h
  next an nm ats hl =>
  split at h
  · cases h
  next href hh =>
  split at h
  · cases h
  cases h
  dsimp only at hi ⊢
  cases t with
  | startTag n a =>
    unfold linkType at hl
    dsimp only at hl
    split at hl
    · next hn =>
      cases hl
      subst hn
      refine ⟨⟨?_, rfl, by simp [retag, outlined, hi, hs], rfl, rfl⟩, rfl, by simp [outlined, hh, hs], rfl, rfl⟩
      simp [retag, asDependency, linkType, hi, hq]
    · cases hl
  | emptyTag n a =>
    unfold linkType at hl
    dsimp only at hl
    split at hl
    · next hn =>
      cases hl
      obtain ⟨rfl, -⟩ := hn
      refine ⟨⟨?_, rfl, rfl, rfl, rfl⟩, rfl, rfl, rfl, rfl⟩
      simp only [retag, asDependency, linkType]
      split
      · rfl
      · next heq =>
        split at heq
        · cases heq
          rw [hi]
          simp [hq]
        · cases heq
    · cases hl
  | _ => cases hl

/-- The tags for an inline element. -/
theorem outlineTags_calm {env : Env E J} (j : Job) (x q : Text) : ∀ t ∈ outlineTags j (x ++ txt "?" ++ q), Calm env t ∧ Ordinary env.tpl t := by
  have hq := any_query (a := x) (b := q)
  generalize x ++ txt "?" ++ q = u at hq
  intro t ht
  unfold outlineTags at ht
  cases hk : j.kind with
  | script =>
    simp only [hk, List.mem_cons, List.not_mem_nil, or_false] at ht
    rcases ht with rfl | rfl
    · have hi : item (ofList ((sortKeys (keys (put j.attrs (txt "src") u))).map fun k => (((none, k) : Option Text × Text), (item (put j.attrs (txt "src") u) k).getD []))) (none, txt "src") = some u := by
        rw [get_byName, if_pos ⟨rfl, mem_sortKeys.2 (mem_keys_put.2 (.inl rfl))⟩, get_put, if_pos rfl]
        rfl
      have hs : txt "script" ≠ txt "style" := by decide
      exact ⟨⟨rfl, by simp [asDependency, linkType, hi, hq], rfl, by simp [outlined, hi, hs]⟩, rfl, rfl⟩
    · exact ⟨⟨rfl, rfl, rfl, rfl⟩, rfl, rfl⟩
  | style =>
    simp only [hk, List.mem_cons, List.not_mem_nil, or_false] at ht
    subst ht
    have hne : txt "href" ≠ txt "rel" := by decide
    have hl : txt "stylesheet" ≠ txt "canonical" := by decide
    have h1 : item (ofList ((sortKeys (keys (put (put j.attrs (txt "href") u) (txt "rel") (txt "stylesheet")))).map fun k => (((none, k) : Option Text × Text), (item (put (put j.attrs (txt "href") u) (txt "rel") (txt "stylesheet")) k).getD []))) (none, txt "href") = some u := by
      rw [get_byName, if_pos ⟨rfl, mem_sortKeys.2 (mem_keys_put.2 (.inr (mem_keys_put.2 (.inl rfl))))⟩, get_put, if_neg hne, get_put, if_pos rfl]
      rfl
    have h2 : item (ofList ((sortKeys (keys (put (put j.attrs (txt "href") u) (txt "rel") (txt "stylesheet")))).map fun k => (((none, k) : Option Text × Text), (item (put (put j.attrs (txt "href") u) (txt "rel") (txt "stylesheet")) k).getD []))) (none, txt "rel") = some (txt "stylesheet") := by
      rw [get_byName, if_pos ⟨rfl, mem_sortKeys.2 (mem_keys_put.2 (.inl rfl))⟩, get_put, if_pos rfl]
      rfl
    exact ⟨⟨by simp [canonTag, canonInner, h2, hl], by simp [asDependency, linkType, h1, h2, hq], rfl, rfl⟩, rfl, rfl⟩

/-- A settled token is put out, perhaps with a host. -/
theorem loop_settled {env : Env E J} (hb : env.scan = false) {b b' : State St HTok (PErr E)} {t : HTok} {rest : List HTok} {fuel : Nat}
    (hm : b.mark = none) (hs : Settled env t) (hl : loop (manips env) fuel b (t :: rest) = some (.ok b')) :
    ∃ g o, g < fuel ∧ loop (manips env) g { b with output := o } rest = some (.ok b') := by
  cases fuel with
  | zero => simp [loop] at hl
  | succ fuel =>
  cases hc : canonTag t with
  | none =>
    simp only [loop, round_keep hm ⟨hc, hs.link, hs.image, hs.inline⟩ hs.ordinary] at hl
    exact ⟨fuel, _, by omega, hl⟩
  | some x =>
    obtain ⟨tag, attrs, other⟩ := x
    have hstart : (canon env).start b.st t = .ok (true, b.st) := by
      simp [canon, canonStart, hc, Env.canonEnv, hb]
    have hhref : ∃ x, canonHref env.canonEnv (item attrs (none, tag.attr)) = txt "https://" ++ x := by
      unfold canonHref
      split
      · exact ⟨_, by rw [List.append_assoc, List.append_assoc]⟩
      · exact ⟨_, by rw [List.append_assoc]⟩
    obtain ⟨x, hx⟩ := hhref
    have hcont : (canon env).cont b.st t = .ok (some [.emptyTag tag.name (canonData other tag.attr (txt "https://" ++ x))], b.st) := by
      simp [canon, canonCont, hc, hx]
    have hround : Build.round (manips env) b t rest = .ok (.emptyTag tag.name (canonData other tag.attr (txt "https://" ++ x)) :: rest, b) := by
      obtain ⟨o, m, st⟩ := b
      dsimp only at hm
      subst hm
      simp [Build.round, manips, findMark, hstart, continueMark, hcont]
    simp only [loop, hround] at hl
    obtain ⟨h1, h2⟩ := canon_again hc x
    cases fuel with
    | zero => simp [loop] at hl
    | succ fuel =>
      simp only [loop, round_keep (env := env) hm ⟨h1, h2, rfl, rfl⟩ ⟨rfl, rfl⟩] at hl
      exact ⟨fuel, _, by omega, hl⟩

/-- An image command is no command for templates. -/
theorem image_ordinary {env : Env E J} (hg : GoodSpace env.py.space) (hsame : env.tpl.space = env.py.space) (hj : Faithful env.tpl)
    {t : HTok} {c : Img.Command J} (h : command env t = .ok (some c)) : Ordinary env.tpl t := by
  have hcmd : ∀ data, t = .comment data → Img.imageArgs env.py.space data ≠ none := by
    rintro data rfl hn
    simp [command, Img.getCommand, hn] at h
  have hn : ∀ (kw data args : Text) (dot : Bool) (k : Nat) (kw' : Text), kw = k :: kw' → env.py.space k = false → k ≠ 73 → t = .comment data →
      ¬ Reads env.tpl.space kw dot data args := by
    intro kw data args dot k kw' h1 h2 h3 h4 h5
    rw [hsame] at h5
    exact hcmd data h4 (not_image hg h1 h2 h3 h5)
  constructor
  · cases hs : stackArgs env.tpl t with
    | none => rfl
    | some l =>
      obtain ⟨data, args, op, more, rfl, hr, -, -⟩ := (stack_reads hj).1 hs
      exact absurd hr (hn _ _ _ _ 83 [84, 65, 67, 75] (by decide) (hg.2.2 83 (by omega) (by omega)) (by omega) rfl)
  · cases hs : templateArgs env.tpl t with
    | none => rfl
    | some l =>
      by_cases hst : stackArgs env.tpl t = none
      · obtain ⟨data, args, op, more, rfl, hr, -, -⟩ := (template_reads hj).1 (show Template env.tpl t l from ⟨hst, hs⟩)
        exact absurd hr (hn _ _ _ _ 84 [69, 77, 80, 76, 65, 84, 69] (by decide) (hg.2.2 84 (by omega) (by omega)) (by omega) rfl)
      · obtain ⟨l', hl'⟩ := Option.ne_none_iff_exists'.1 hst
        obtain ⟨data, args, op, more, rfl, hr, -, -⟩ := (stack_reads hj).1 hl'
        exact absurd hr (hn _ _ _ _ 83 [84, 65, 67, 75] (by decide) (hg.2.2 83 (by omega) (by omega)) (by omega) rfl)

/-! ## Scan and build side by side -/

section
variable {env : Env E J} {Q : Fs → Fs → Prop} {A : Scan → Built → Prop}

/-- The builder of the build and that of the scan at the same token. -/
structure Tied (env : Env E J) (Q : Fs → Fs → Prop) (A : Scan → Built → Prop) (b s : State St HTok (PErr E)) : Prop where
  mark : (b.mark = none ∧ s.mark = none ∧ b.st.job = none ∧ s.st.job = none) ∨
    (b.mark = some (outline (env.mode false)) ∧ s.mark = some (outline (env.mode true)) ∧ ∃ j, b.st.job = some j ∧ s.st.job = some j)
  links : s.st.links = b.st.links
  scripts : s.st.scripts = b.st.scripts
  styles : s.st.styles = b.st.styles
  tpl : s.st.tpl = b.st.tpl
  images : A s.st.imgScan b.st.imgBuilt
  made : A s.st.outScan b.st.outBuilt
  files : Q s.st.fs b.st.fs

theorem loop_nil {S τ F : Type} {ms : List (Manip S τ F)} {fuel : Nat} {b b' : State S τ F} (h : loop ms fuel b [] = some (.ok b')) : b' = b := by
  cases fuel <;> (simp only [loop, Option.some.injEq, Except.ok.injEq] at h; exact h.symm)

theorem close_scan {s s' : St} {j : Job} {r : Option (List HTok)} (h : outlineClose (env.mode true) s j = .ok (r, s')) :
    ∃ sc, (env.handler j.kind).scan (s.fs.write j.path (env.encode j.text)) j.path = .ok sc ∧
      r = some (outlineTags j (j.path.drop (txt "src/public").length ++ txt "?" ++ txt "v=tmp&pv=1")) ∧
      s' = { s with fs := remove (s.fs.write j.path (env.encode j.text)) j.path, job := none, outScan := addScan s.outScan sc } := by
  have e : txt "?v=tmp&pv=1" = txt "?" ++ txt "v=tmp&pv=1" := by decide
  have hh : (env.mode true).handler j.kind = env.handler j.kind := by cases j.kind <;> rfl
  unfold outlineClose at h
  rw [hh] at h
  simp only [Env.mode, if_true, e] at h
  split at h
  · cases h
  · next sc hsc =>
    cases h
    exact ⟨sc, hsc, by simp only [List.append_assoc], rfl⟩

theorem close_build {s s' : St} {j : Job} {r : Option (List HTok)} (h : outlineClose (env.mode false) s j = .ok (r, s')) :
    ∃ res fs q, (env.handler j.kind).build (s.fs.write j.path (env.encode j.text)) j.path = .ok (res, fs) ∧
      r = some (outlineTags j (j.path.drop (txt "src/public").length ++ txt "?" ++ q)) ∧
      s' = { s with fs := remove fs j.path, job := none, outBuilt := addBuilt s.outBuilt res } := by
  have hh : (env.mode false).handler j.kind = env.handler j.kind := by cases j.kind <;> rfl
  unfold outlineClose at h
  rw [hh] at h
  simp only [Env.mode, Bool.false_eq_true, if_false] at h
  split at h
  · cases h
  · next res fs hb =>
    split at h
    · cases h
    · split at h
      · cases h
      · cases h
        exact ⟨res, fs, _, hb, rfl, rfl⟩

theorem open_same (m : Bool) {s s' : St} {t : HTok} {r : Option (List HTok)} (h : outlineOpen (env.mode m) s t = .ok (r, s')) :
    ∃ k d a, outlined t = some (k, d) ∧ r = none ∧ (match k with
      | .script => a = scriptAttrs d
      | .style => styleAttrs d = .ok a) ∧
      s' = { s with
        fs := s.fs.write (genFile (txt "src/public") k env.rel (s.count k + 1)) [],
        job := some ⟨k, genFile (txt "src/public") k env.rel (s.count k + 1), a, []⟩,
        scripts := (match k with | .script => s.scripts + 1 | .style => s.scripts),
        styles := (match k with | .script => s.styles | .style => s.styles + 1) } := by
  unfold outlineOpen at h
  split at h
  · next d ho =>
    simp only at h
    split at h
    · cases h
    · cases h
      exact ⟨.script, d, _, ho, rfl, rfl, rfl⟩
  · next d ho =>
    simp only at h
    split at h
    · cases h
    · split at h
      · cases h
      · next a hst =>
        cases h
        exact ⟨.style, d, a, ho, rfl, hst, rfl⟩
  · cases h

theorem tied_main (hg : GoodSpace env.py.space) (hsame : env.tpl.space = env.py.space) (hj : Faithful env.tpl)
    (ha : Agree env Q A) (hadd : ∀ s r s' r', A s r → A s' r' → A (addScan s s') (addBuilt r r')) :
    ∀ (fuel g : Nat) (ts : List HTok) (b b' s s' : State St HTok (PErr E)), Tied env Q A b s →
      loop (manips (env.mode false)) fuel b ts = some (.ok b') → loop (manips (env.mode true)) g s ts = some (.ok s') → Tied env Q A b' s' := by
  intro fuel
  induction fuel using Nat.strongRecOn with
  | ind fuel ih =>
  have ih' : ∀ f, f < fuel → ∀ {g : Nat} {ts : List HTok} {b b' s s' : State St HTok (PErr E)},
      loop (manips (env.mode false)) f b ts = some (.ok b') → loop (manips (env.mode true)) g s ts = some (.ok s') → Tied env Q A b s →
      Tied env Q A b' s' := fun f hf _ _ _ _ _ _ h1 h2 h3 => ih f hf _ _ _ _ _ _ h3 h1 h2
  intro g ts b b' s s' ht hb hs
  cases ts with
  | nil => rw [loop_nil hb, loop_nil hs]; exact ht
  | cons t ts =>
  cases fuel with
  | zero => simp [loop] at hb
  | succ fuel =>
  cases g with
  | zero => simp [loop] at hs
  | succ g =>
  rcases ht.mark with ⟨m1, m2, j1, j2⟩ | ⟨m1, m2, j, j1, j2⟩
  swap
  · -- inside an element
    have r1 : Build.round (manips (env.mode false)) b t ts = continueMark (outline (env.mode false)) b b.st t ts := by simp [Build.round, m1]
    have r2 : Build.round (manips (env.mode true)) s t ts = continueMark (outline (env.mode true)) s s.st t ts := by simp [Build.round, m2]
    have c1 : (outline (env.mode false)).cont b.st t = outlineCont (env.mode false) b.st t := rfl
    have c2 : (outline (env.mode true)).cont s.st t = outlineCont (env.mode true) s.st t := rfl
    rw [loop, r1, continueMark, c1] at hb
    rw [loop, r2, continueMark, c2] at hs
    simp only [outlineCont, j1] at hb
    simp only [outlineCont, j2] at hs
    cases t with
    | characters d =>
      exact ih' fuel (by omega) hb hs ⟨.inr ⟨rfl, rfl, _, rfl, rfl⟩, ht.links, ht.scripts, ht.styles, ht.tpl, ht.images, ht.made, ht.files⟩
    | spaces d =>
      exact ih' fuel (by omega) hb hs ⟨.inr ⟨rfl, rfl, _, rfl, rfl⟩, ht.links, ht.scripts, ht.styles, ht.tpl, ht.images, ht.made, ht.files⟩
    | endTag n =>
      dsimp only at hb hs
      cases o1 : outlineClose (env.mode false) b.st j with
      | error e => rw [o1] at hb; simp at hb
      | ok p1 =>
      cases o2 : outlineClose (env.mode true) s.st j with
      | error e => rw [o2] at hs; simp at hs
      | ok p2 =>
        obtain ⟨r1, s1⟩ := p1
        obtain ⟨r2, s2⟩ := p2
        obtain ⟨res, fs, q, h1, rfl, rfl⟩ := close_build o1
        obtain ⟨sc, h2, rfl, rfl⟩ := close_scan o2
        rw [o1] at hb
        rw [o2] at hs
        dsimp only at hb hs
        obtain ⟨f', hf', hb⟩ := loop_keeps _ fuel _ (by rfl) (outlineTags_calm j _ _) hb
        obtain ⟨g', hg', hs⟩ := loop_keeps _ g _ (by rfl) (outlineTags_calm j _ _) hs
        have hag := ha.handler _ _ _ _ _ _ _ (ha.write _ _ j.path (env.encode j.text) ht.files) h2 h1
        exact ih' f' (by omega) hb hs ⟨.inl ⟨rfl, rfl, rfl, rfl⟩, ht.links, ht.scripts, ht.styles, ht.tpl, ht.images, hadd _ _ _ _ ht.made hag.1,
          ha.remove _ _ _ hag.2⟩
    | startTag n d => simp at hb
    | emptyTag n d => simp at hb
    | comment d => simp at hb
    | doctype d => simp at hb
  have sm : ∀ m, (env.mode m).scan = m := fun _ => rfl
  have si : (env.mode true).scanImage = env.scanImage := rfl
  have sx : (env.mode false).exportImage = env.exportImage := rfl
  have cb : ∀ t, command (env.mode false) t = command env t := fun t => by cases t <;> rfl
  have cs : ∀ t, command (env.mode true) t = command env t := fun t => by cases t <;> rfl
  by_cases hcan : canonTag t = none
  swap
  · -- a canonical url
    obtain ⟨⟨tag, attrs, other⟩, hc⟩ := Option.ne_none_iff_exists'.1 hcan
    obtain ⟨a, d, hcn, -⟩ := canon_some hcan
    have hdep : asDependency t = none := asDependency_none.2 (fun b q => canon_not_links hcn)
    have hset : ∀ m, Settled (env.mode m) t := by
      intro m
      cases hcn <;> exact ⟨hdep, rfl, rfl, rfl, rfl⟩
    obtain ⟨f', o, hf', hb⟩ := loop_settled rfl m1 (hset false) hb
    have hst : (canon (env.mode true)).start s.st t = .ok (false, s.st) ∨ ∃ e, (canon (env.mode true)).start s.st t = .error e := by
      have hsc : (env.mode true).canonEnv.scan = true := rfl
      simp only [canon, canonStart, hc, hsc, if_true]
      by_cases hh : (env.mode true).canonEnv.host = none
      · right; exact ⟨_, by rw [if_pos hh]⟩
      · left; rw [if_neg hh]
    rcases hst with hst | ⟨e, hst⟩
    · have hr : Build.round (manips (env.mode true)) s t ts = .ok (ts, { s with output := s.output ++ [t] }) := by
        simp [Build.round, m2, manips, findMark, hst, links_pass hdep, images_pass (hset true).image, outline_pass (hset true).inline,
          templates_pass (hset true).ordinary]
      simp only [loop, hr] at hs
      exact ih' f' (by omega) hb hs ⟨.inl ⟨m1, m2, j1, j2⟩, ht.links, ht.scripts, ht.styles, ht.tpl, ht.images, ht.made, ht.files⟩
    · have hr : Build.round (manips (env.mode true)) s t ts = .error e := by
        simp [Build.round, m2, manips, findMark, hst]
      simp [loop, hr] at hs
  by_cases hdep : asDependency t = none
  swap
  · -- a link
    obtain ⟨dep, hd⟩ := Option.ne_none_iff_exists'.1 hdep
    have hla : ∀ m q, _ := fun m q => link_again (env := env.mode m) hd q
    have hst : ∀ m (s : St), (links (env.mode m)).start s t = .ok (!m, { s with links := s.links ++ [join (join (txt "src") (txt "public")) dep.path] }) := by
      intro m s
      simp [links, linkStart, hd, Env.linkEnv, Env.mode]
    have hr : Build.round (manips (env.mode true)) s t ts =
        .ok (ts, { s with output := s.output ++ [t], st := { s.st with links := s.st.links ++ [join (join (txt "src") (txt "public")) dep.path] } }) := by
      simp [Build.round, m2, manips, findMark, canon_pass hcan, hst, images_pass (hla true []).2.1, outline_pass (hla true []).2.2.1,
        templates_pass (hla true []).2.2.2]
    simp only [loop, hr] at hs
    have hrb : Build.round (manips (env.mode false)) b t ts = continueMark (links (env.mode false)) b { b.st with links := b.st.links ++ [join (join (txt "src") (txt "public")) dep.path] } t ts := by
      simp [Build.round, m1, manips, findMark, canon_pass hcan, hst]
    rw [loop, hrb, continueMark] at hb
    cases hc : (links (env.mode false)).cont { b.st with links := b.st.links ++ [join (join (txt "src") (txt "public")) dep.path] } t with
    | error e => rw [hc] at hb; simp at hb
    | ok p =>
      rw [hc] at hb
      simp only [links, linkCont, hd] at hc
      split at hc
      · cases hc
      next x hx =>
      split at hx
      · cases hx
      next content hread =>
      cases hx
      cases hc
      simp only [List.cons_append, List.nil_append] at hb
      obtain ⟨f', o, hf', hb⟩ := loop_settled rfl (by rfl) (hla false _).1 hb
      exact ih' f' (by omega) hb hs ⟨.inl ⟨rfl, m2, j1, j2⟩, by dsimp only; rw [ht.links], ht.scripts, ht.styles, ht.tpl, ht.images, ht.made, ht.files⟩
  cases himg : command env t with
  | error e =>
    have : Build.round (manips (env.mode false)) b t ts = .error (.image e) := by
      simp [Build.round, m1, manips, findMark, canon_pass hcan, links_pass hdep, images, imageStart, cb, himg]
    simp [loop, this] at hb
  | ok r =>
  cases r with
  | some c =>
    -- an image
    have hord := image_ordinary hg hsame hj himg
    have hinl : outlined t = none := by
      cases t with
      | comment d => rfl
      | _ => simp [command] at himg
    have hstart : (images (env.mode false)).start b.st t = .ok (true, b.st) := by simp [images, imageStart, cb, himg, sm]
    have hrb : Build.round (manips (env.mode false)) b t ts = continueMark (images (env.mode false)) b b.st t ts := by
      simp [Build.round, m1, manips, findMark, canon_pass hcan, links_pass hdep, hstart]
    simp only [loop, hrb, continueMark, images, imageCont, cb, himg] at hb
    cases hex : env.exportImage b.st.fs c with
    | error e => simp [sx, hex] at hb
    | ok p =>
    obtain ⟨outputs, r, fs⟩ := p
    cases hsc : env.scanImage s.st.fs c with
    | error e =>
      have : Build.round (manips (env.mode true)) s t ts = .error (.image e) := by
        simp [Build.round, m2, manips, findMark, canon_pass hcan, links_pass hdep, images, imageStart, cs, himg, sm, si, hsc]
      simp [loop, this] at hs
    | ok p =>
    obtain ⟨sc, fs2⟩ := p
    have hag := ha.images _ _ _ _ _ _ _ _ ht.files hsc hex
    have hst2 : (images (env.mode true)).start s.st t = .ok (false, { s.st with fs := fs2, imgScan := addScan s.st.imgScan sc }) := by
      simp [images, imageStart, cs, himg, sm, si, hsc]
    have hrs : Build.round (manips (env.mode true)) s t ts =
        .ok (ts, { s with output := s.output ++ [t], st := { s.st with fs := fs2, imgScan := addScan s.st.imgScan sc } }) := by
      simp [Build.round, m2, manips, findMark, canon_pass hcan, links_pass hdep, hst2, outline_pass hinl,
        templates_pass (env := env.mode true) hord]
    simp only [loop, hrs] at hs
    have hex' : (env.mode false).exportImage b.st.fs c = .ok (outputs, r, fs) := hex
    rw [hex'] at hb
    dsimp only at hb
    cases hpic : (picture (env.mode false).defaultFormat c outputs : Except (PErr E) (List HTok)) with
    | error e => rw [hpic] at hb; simp at hb
    | ok pic =>
      rw [hpic] at hb
      dsimp only at hb
      obtain ⟨f', hf', hb⟩ := loop_keeps pic fuel _ (by rfl) (picture_calm (picture_spec hpic)) hb
      exact ih' f' (by omega) hb hs ⟨.inl ⟨rfl, m2, j1, j2⟩, ht.links, ht.scripts, ht.styles, ht.tpl, hadd _ _ _ _ ht.images hag.1, ht.made, hag.2⟩
  | none =>
  by_cases hin : outlined t = none
  swap
  · -- an inline element
    obtain ⟨⟨k, d⟩, hk⟩ := Option.ne_none_iff_exists'.1 hin
    have hrnd : ∀ m (b : State St HTok (PErr E)), b.mark = none →
        Build.round (manips (env.mode m)) b t ts = continueMark (outline (env.mode m)) b b.st t ts := by
      intro m b hm
      have hi : command (env.mode m) t = .ok none := by cases m <;> [rw [cb, himg]; rw [cs, himg]]
      simp [Build.round, hm, manips, findMark, canon_pass hcan, links_pass hdep, images_pass hi, outline, outlineStart, hk]
    have hco : ∀ m (s : St), s.job = none → (outline (env.mode m)).cont s t = outlineOpen (env.mode m) s t := by
      intro m s hm
      simp [outline, outlineCont, hm]
    rw [loop, hrnd false b m1, continueMark, hco false _ j1] at hb
    rw [loop, hrnd true s m2, continueMark, hco true _ j2] at hs
    cases o1 : outlineOpen (env.mode false) b.st t with
    | error e => rw [o1] at hb; simp at hb
    | ok p1 =>
    cases o2 : outlineOpen (env.mode true) s.st t with
    | error e => rw [o2] at hs; simp at hs
    | ok p2 =>
      obtain ⟨r1, s1⟩ := p1
      obtain ⟨r2, s2⟩ := p2
      obtain ⟨k1, d1, a1, q1, rfl, w1, rfl⟩ := open_same false o1
      obtain ⟨k2, d2, a2, q2, rfl, w2, rfl⟩ := open_same true o2
      rw [q1] at q2
      cases q2
      have haa : a1 = a2 := by
        cases k1 with
        | script => rw [w1, w2]
        | style => rw [w1] at w2; exact Except.ok.inj w2
      subst haa
      have hcount : s.st.count k1 = b.st.count k1 := by cases k1 <;> [exact ht.scripts; exact ht.styles]
      rw [o1] at hb
      rw [o2] at hs
      dsimp only at hb hs
      rw [hcount] at hs
      exact ih' fuel (by omega) hb hs ⟨.inr ⟨rfl, rfl, _, rfl, rfl⟩, ht.links, by dsimp only; rw [ht.scripts], by dsimp only; rw [ht.styles], ht.tpl, ht.images, ht.made,
        ha.write _ _ _ _ ht.files⟩
  have hcalm : ∀ m, Calm (env.mode m) t := fun m => ⟨hcan, hdep, by cases m <;> [rw [cb, himg]; rw [cs, himg]], hin⟩
  cases hsa : stackArgs env.tpl t with
  | some l =>
    have h1 := round_stack' (stack := ts) m1 (hcalm false) (show Stack (env.mode false).tpl t l from hsa)
    have h2 := round_stack' (stack := ts) m2 (hcalm true) (show Stack (env.mode true).tpl t l from hsa)
    rw [ht.tpl] at h2
    simp only [loop, h1] at hb
    simp only [loop, h2] at hs
    cases hc : stackCommand b.st.tpl l with
    | error e => rw [hc] at hb; simp at hb
    | ok p =>
      rw [hc] at hb hs
      dsimp only at hb hs
      exact ih' fuel (by omega) hb hs ⟨.inl ⟨rfl, rfl, j1, j2⟩, ht.links, ht.scripts, ht.styles, rfl, ht.images, ht.made, ht.files⟩
  | none =>
    cases hta : templateArgs env.tpl t with
    | some l =>
      have h1 := round_template' (stack := ts) m1 (hcalm false) (show Template (env.mode false).tpl t l from ⟨hsa, hta⟩)
      have h2 := round_template' (stack := ts) m2 (hcalm true) (show Template (env.mode true).tpl t l from ⟨hsa, hta⟩)
      rw [ht.tpl] at h2
      simp only [loop, h1] at hb
      simp only [loop, h2] at hs
      have he : templateCommand (env.mode true).tpl b.st.tpl l = templateCommand (env.mode false).tpl b.st.tpl l := rfl
      rw [he] at hs
      cases hc : templateCommand (env.mode false).tpl b.st.tpl l with
      | error e => rw [hc] at hb; simp at hb
      | ok p =>
        rw [hc] at hb hs
        dsimp only at hb hs
        exact ih' fuel (by omega) hb hs ⟨.inl ⟨rfl, rfl, j1, j2⟩, ht.links, ht.scripts, ht.styles, rfl, ht.images, ht.made, ht.files⟩
    | none =>
      simp only [loop, round_keep m1 (hcalm false) ⟨hsa, hta⟩] at hb
      simp only [loop, round_keep m2 (hcalm true) ⟨hsa, hta⟩] at hs
      exact ih' fuel (by omega) hb hs ⟨.inl ⟨m1, m2, j1, j2⟩, ht.links, ht.scripts, ht.styles, ht.tpl, ht.images, ht.made, ht.files⟩

end

theorem tokensOf_map (ts : List HTok) : tokensOf (ts.map Op.token) = ts := by
  induction ts with
  | nil => rfl
  | cons t ts ih => simp only [List.map_cons, tokensOf, ih]

theorem loop_of_scan {fuel : Nat} {env : Env E J} {target : Text} {fs fs' : Fs} {r : Scan} {content : Bytes} {ts : List HTok}
    (h : scanFile fuel env fs = some (.ok (r, fs'))) (ht : copyTarget env.rel = some target) (h0 : fs env.rel = some content)
    (hp : env.parse content = some ts) :
    ∃ g b, loop (manips env) g (State.new (St.new fs env.rel)) ts = some (.ok b) ∧ b.st.tpl.stack = [] ∧ fs' = b.st.fs ∧
      r = [copyScan env.rel, hashScan env.rel, ⟨b.st.links, []⟩, b.st.imgScan, b.st.outScan, ⟨b.st.tpl.deps, []⟩].foldl addScan ⟨[], []⟩ := by
  unfold scanFile at h
  rw [ht] at h
  simp only [h0, hp] at h
  simp only [Option.map_eq_some_iff] at h
  obtain ⟨x, h1, h2⟩ := h
  split at h2
  · cases h2
  · next out b =>
    split at h2
    · cases h2
    · next deps hd =>
      cases h2
      obtain ⟨g, hg⟩ := runOps_loop _ _ _ _ _ _ _ h1
      rw [tokensOf_map] at hg
      unfold tplResult at hd
      split at hd
      · next hst =>
        cases hd
        exact ⟨g, _, hg, hst, rfl, rfl⟩
      · cases hd

/-- The loops of a scan and of a build of the same page. -/
theorem tied_files {env : Env E J} {Q : Fs → Fs → Prop} {A : Scan → Built → Prop} (hg : GoodSpace env.py.space)
    (hsame : env.tpl.space = env.py.space) (hj : Faithful env.tpl) (ha : Agree env Q A)
    (hadd : ∀ s r s' r', A s r → A s' r' → A (addScan s s') (addBuilt r r')) (hnil : A ⟨[], []⟩ ⟨[], [], []⟩)
    {name : Text} (hrel : env.rel = txt "src/public/" ++ name) {f f' g g' : Fs} {s : Scan} {r : Built} {m n : Nat}
    (h0 : f env.rel = g env.rel) (hq : Q f g) (hs : scanFile m (env.mode true) f = some (.ok (s, f')))
    (hb : buildFile n (env.mode false) g = some (.ok (r, g'))) :
    ∃ links deps img out img' out' hb, A img img' ∧ A out out' ∧
      s = [⟨[], [txt "out/www/" ++ name]⟩, ⟨[], [txt "out/www/" ++ name ++ txt ".hash"]⟩, ⟨links, []⟩, img, out, ⟨deps, []⟩].foldl addScan ⟨[], []⟩ ∧
      (hb = ⟨[], [txt "out/www/" ++ name ++ txt ".hash"], []⟩ ∨ hb = ⟨[], [], [txt "out/www/" ++ name ++ txt ".hash"]⟩) ∧
      r = [hb, ⟨links, [], []⟩, img', out', ⟨deps, [], []⟩].foldl Css.Page.merge ⟨[], [txt "out/www/" ++ name], []⟩ := by
  have e1 : txt "src/public/" = Handlers.srcPublic ++ [47] := by decide
  have e2 : Handlers.srcPublic ++ txt "/" = txt "src/public/" := by decide
  have e3 : (txt "src/public/").length = Handlers.srcPublic.length + 1 := by decide
  have ht : copyTarget env.rel = some (txt "out/www/" ++ name) := by
    unfold copyTarget
    rw [hrel, if_pos, List.drop_left' e3]
    · rfl
    · rw [List.isPrefixOf_iff_prefix, e1]; simp
  have hcs : copyScan env.rel = ⟨[], [txt "out/www/" ++ name]⟩ := by unfold copyScan; rw [ht]
  have hhs : hashScan env.rel = ⟨[], [txt "out/www/" ++ name ++ txt ".hash"]⟩ := by
    have : hashTarget env.rel = some (txt "out/www/" ++ name ++ txt ".hash") := by
      unfold hashTarget
      rw [hrel, e2, if_pos (by simp), List.drop_left' rfl]
      rfl
    unfold hashScan; rw [this]
  have hht : hashTarget (txt "out/www/" ++ name) = some (txt "out/www/" ++ name ++ txt ".hash") := by
    have e5 : (Handlers.srcPublic ++ txt "/") = 115 :: txt "rc/public/" := by decide
    have e6 : txt "out/www/" = 111 :: txt "ut/www/" := by decide
    have e7 : Handlers.outWww = txt "out/www/" := rfl
    unfold hashTarget
    rw [if_neg, if_pos, e7, List.drop_left' rfl]
    · rw [e7]; simp
    · rw [e5, e6]; simp
  cases hc : f env.rel with
  | none =>
    unfold scanFile at hs
    have hr : (env.mode true).rel = env.rel := rfl
    simp [hr, ht, hc] at hs
  | some content =>
  cases hp : env.parse content with
  | none =>
    unfold scanFile at hs
    have hr : (env.mode true).rel = env.rel := rfl
    have hpp : (env.mode true).parse = env.parse := rfl
    simp [hr, hpp, ht, hc, hp] at hs
  | some ts =>
    obtain ⟨n1, b1, hl1, hst1, -, hr1⟩ := loop_of_scan hs ht hc hp
    obtain ⟨n2, b2, hb2, hl2, hh, hst2, hr2⟩ := loop_of_build hb ht (h0 ▸ hc) hp
    have htied := tied_main hg hsame hj ha hadd n2 n1 ts (State.new (St.new g env.rel)) b2 (State.new (St.new f env.rel)) b1 ⟨.inl ⟨rfl, rfl, rfl, rfl⟩, rfl, rfl, rfl, rfl, hnil, hnil, hq⟩ hl2 hl1
    refine ⟨b2.st.links, b2.st.tpl.deps, b1.st.imgScan, b1.st.outScan, b2.st.imgBuilt, b2.st.outBuilt, hb2, htied.images, htied.made, ?_, ?_, hr2⟩
    · rw [hr1, ← htied.links, ← htied.tpl]
      have hr : (env.mode true).rel = env.rel := rfl
      rw [hr, hcs, hhs]
    · unfold hashBuild at hh
      rw [hht] at hh
      dsimp only at hh
      split at hh
      · cases hh; exact .inr rfl
      · split at hh
        · cases hh
        · cases hh; exact .inl rfl

/-- **C68.** All that the build of a page reports to have read, produced or reused was announced by its scan, if that is so of
the images, scripts and stylesheets in it: the links, the templates of any depth, the page itself and its hash included.
It holds for every page, whatever its tags and commands. -/
theorem C68_covers {env : Env E J} {Q : Fs → Fs → Prop} (hg : GoodSpace env.py.space)
    (hsame : env.tpl.space = env.py.space) (hj : Faithful env.tpl) (ha : Agree env Q Covers)
    {name : Text} (hrel : env.rel = txt "src/public/" ++ name) {f f' g g' : Fs} {s : Scan} {r : Built} {m n : Nat}
    (h0 : f env.rel = g env.rel) (hq : Q f g) (hs : scanFile m (env.mode true) f = some (.ok (s, f')))
    (hb : buildFile n (env.mode false) g = some (.ok (r, g'))) : Covers s r := by
  obtain ⟨links, deps, img, out, img', out', hx, h1, h2, rfl, h3, rfl⟩ := tied_files hg hsame hj ha
    (fun s r s' r' h h' => ⟨fun p => by
      simp only [addScan, addBuilt, mem_addAll]; rintro (hp | hp); exact .inl (h.children p hp); exact .inr (h'.children p hp),
      fun p => by
      simp only [addScan, addBuilt, mem_addAll]; rintro (hp | hp); exact .inl (h.produced p hp); exact .inr (h'.produced p hp),
      fun p => by
      simp only [addScan, addBuilt, mem_addAll]; rintro (hp | hp); exact .inl (h.reused p hp); exact .inr (h'.reused p hp)⟩)
    ⟨by simp, by simp, by simp⟩ hrel h0 hq hs hb
  have key : ∀ p, p ∈ hx.produced ∨ p ∈ hx.reused ↔ p = txt "out/www/" ++ name ++ txt ".hash" := by
    intro p; rcases h3 with rfl | rfl <;> simp
  have hch : hx.children = [] := by rcases h3 with rfl | rfl <;> rfl
  have out1 : ∀ p, p ∈ ([hx, ⟨links, [], []⟩, img', out', ⟨deps, [], []⟩].foldl Css.Page.merge ⟨[], [txt "out/www/" ++ name], []⟩).produced ∨
      p ∈ ([hx, ⟨links, [], []⟩, img', out', ⟨deps, [], []⟩].foldl Css.Page.merge ⟨[], [txt "out/www/" ++ name], []⟩).reused →
      p ∈ ([⟨[], [txt "out/www/" ++ name]⟩, ⟨[], [txt "out/www/" ++ name ++ txt ".hash"]⟩, ⟨links, []⟩, img, out, ⟨deps, []⟩].foldl addScan ⟨[], []⟩).produces := by
    intro p
    simp only [List.foldl_cons, List.foldl_nil, merge_all, key, addScan, mem_addAll, List.not_mem_nil, or_false, false_or, List.mem_singleton]
    rintro (((h | h) | h | h) | h | h)
    · exact .inl (.inl (.inl h))
    · exact .inl (.inl (.inr h))
    · exact .inl (.inr (h1.produced p h))
    · exact .inl (.inr (h1.reused p h))
    · exact .inr (h2.produced p h)
    · exact .inr (h2.reused p h)
  refine ⟨?_, fun p hp => out1 p (.inl hp), fun p hp => out1 p (.inr hp)⟩
  intro p
  simp only [List.foldl_cons, List.foldl_nil, Css.Page.merge, addScan, mem_addAll, hch, List.not_mem_nil, or_false, false_or]
  rintro (((h | h) | h) | h)
  · exact .inl (.inl (.inl h))
  · exact .inl (.inl (.inr (h1.children p h)))
  · exact .inl (.inr (h2.children p h))
  · exact .inr h

/-- **C68.** If images, scripts and stylesheets report exactly what they announced, then so does the page. -/
theorem C68_exact {env : Env E J} {Q : Fs → Fs → Prop} (hg : GoodSpace env.py.space)
    (hsame : env.tpl.space = env.py.space) (hj : Faithful env.tpl) (ha : Agree env Q Exact)
    {name : Text} (hrel : env.rel = txt "src/public/" ++ name) {f f' g g' : Fs} {s : Scan} {r : Built} {m n : Nat}
    (h0 : f env.rel = g env.rel) (hq : Q f g) (hs : scanFile m (env.mode true) f = some (.ok (s, f')))
    (hb : buildFile n (env.mode false) g = some (.ok (r, g'))) : Exact s r := by
  obtain ⟨links, deps, img, out, img', out', hx, h1, h2, rfl, h3, rfl⟩ := tied_files hg hsame hj ha
    (fun s r s' r' h h' => ⟨fun p => by simp only [addScan, addBuilt, mem_addAll, h.children, h'.children],
      fun p => by simp only [addScan, addBuilt, mem_addAll, h.outputs, h'.outputs]; exact or_or_or_comm⟩)
    ⟨by simp, by simp⟩ hrel h0 hq hs hb
  have key : ∀ p, p ∈ hx.produced ∨ p ∈ hx.reused ↔ p = txt "out/www/" ++ name ++ txt ".hash" := by
    intro p; rcases h3 with rfl | rfl <;> simp
  have hch : hx.children = [] := by rcases h3 with rfl | rfl <;> rfl
  constructor
  · intro p
    simp only [List.foldl_cons, List.foldl_nil, Css.Page.merge, addScan, mem_addAll, hch, List.not_mem_nil, or_false, false_or, h1.children, h2.children]
  · intro p
    simp only [List.foldl_cons, List.foldl_nil, merge_all, key, addScan, mem_addAll, List.not_mem_nil, or_false, false_or, List.mem_singleton, h1.outputs, h2.outputs]

end Verif.Html.Page
