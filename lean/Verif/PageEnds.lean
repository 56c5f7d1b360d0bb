import Verif.BuilderEnds
import Verif.JsEnds
import Verif.HtmlRenderComplete
/-!
# C112 for pages

What the manipulators of a page put in the place of a token is left alone by them, but for the templates, which are expanded.
The handling of a page ends if no template includes itself, directly or through others.
-/
namespace Verif.Html.Page.Ends
open Verif.Reader (Text txt)
open Verif.Build
open Verif.Assoc (item put ofList keys mem_keys_put get_put)
open Verif.Paths (join)
open Verif.Handlers (Bytes Fs Scan Built copyScan hashScan copyTarget hashBuild)
open Verif.Img (GoodSpace digits)

variable {E J : Type}

/-! ## Specification -/

/-- `Nests env r ts`: in the document `ts`, which is at `r`, the inclusions come to an end: a tree of finite height is what
includes what. -/
inductive Nests (env : TplEnv) : Text → List HTok → Prop
  | nil {r} : Nests env r []
  /-- neither a template nor the beginning or the end of a block -/
  | other {r t ts} (h : ∀ p, ¬ IsPush env t p) (h' : ¬ IsPop env t) (hi : ∀ p vars, ¬ Includes env ⟨r, []⟩ t p vars) (hr : Nests env r ts) :
      Nests env r (t :: ts)
  /-- a block written by hand -/
  | block {r t t' body ts p} (h : IsPush env t p) (h' : IsPop env t') (hb : Nests env p body) (hr : Nests env r ts) :
      Nests env r (t :: (body ++ t' :: ts))
  | template {r t ts p vars body} (h : Includes env ⟨r, []⟩ t p vars) (hf : env.files (join env.folder p) = some body) (hb : Nests env p body)
      (hr : Nests env r ts) : Nests env r (t :: ts)
  /-- a template which is not there, which raises -/
  | missing {r t ts p vars} (h : Includes env ⟨r, []⟩ t p vars) (hf : env.files (join env.folder p) = none) : Nests env r (t :: ts)

/-! ## The number of steps -/

/-- A token is handled at most as often, with what takes its place; pictures have at most `K` formats. -/
def price (K : Nat) (t : HTok) : Nat :=
  1 + (if canonTag t = none then 0 else 1) + (if asDependency t = none then 0 else 2) + (if outlined t = none then 0 else 3) +
    (match t with | .comment _ => K + 4 | _ => 0)

theorem price_pos (K : Nat) (t : HTok) : 1 ≤ price K t := by unfold price; omega

theorem price_comment (K : Nat) (d : Text) : K + 5 ≤ price K (.comment d) := by
  show K + 5 ≤ 1 + 0 + 0 + 0 + (K + 4)
  omega

/-- Neither a template nor the beginning or the end of a block. -/
structure Free (env : TplEnv) (r : Text) (t : HTok) : Prop where
  push : ∀ p, ¬ IsPush env t p
  pop : ¬ IsPop env t
  inc : ∀ p vars, ¬ Includes env ⟨r, []⟩ t p vars

/-- The tokens to come, in the blocks `rs`, take at most `n` steps. -/
inductive Pend (env : TplEnv) (K : Nat) : List Text → List HTok → Nat → Prop
  | nil {rs} : Pend env K rs [] 0
  | tok {r rs t ts n} (h : Free env r t) (hr : Pend env K (r :: rs) ts n) : Pend env K (r :: rs) (t :: ts) (price K t + n)
  | push {r rs t ts p n} (h : IsPush env t p) (hr : Pend env K (p :: r :: rs) ts n) : Pend env K (r :: rs) (t :: ts) (n + 2)
  | pop {r rs t ts n} (h : IsPop env t) (hr : Pend env K rs ts n) : Pend env K (r :: rs) (t :: ts) (n + 2)
  | incl {r rs t ts p vars body n} (h : Includes env ⟨r, []⟩ t p vars) (hf : env.files (join env.folder p) = some body)
      (hr : Pend env K (p :: r :: rs) (body ++ stackComment env [.str (txt "pop")] :: ts) n) :
      Pend env K (r :: rs) (t :: ts) (n + (K + 5) * vars.length + 3)
  | stop {r rs t ts p vars} (h : Includes env ⟨r, []⟩ t p vars) (hf : env.files (join env.folder p) = none) : Pend env K (r :: rs) (t :: ts) 1

theorem pend_nests {env : TplEnv} (hf : Faithful env) (K : Nat) {r : Text} {ts : List HTok} (h : Nests env r ts) :
    ∀ {rs : List Text} {rest : List HTok} {n : Nat}, Pend env K (r :: rs) rest n → ∃ m, Pend env K (r :: rs) (ts ++ rest) m := by
  induction h with
  | nil => intro rs rest n hr; exact ⟨n, hr⟩
  | other h h' hi _ ih =>
    intro rs rest n hr
    obtain ⟨m, hm⟩ := ih hr
    exact ⟨_, .tok ⟨h, h', hi⟩ hm⟩
  | block h h' _ _ ihb ih =>
    intro rs rest n hr
    obtain ⟨m, hm⟩ := ih hr
    obtain ⟨m', hm'⟩ := ihb (.pop h' hm)
    rw [List.cons_append, List.append_assoc, List.cons_append]
    exact ⟨_, .push h hm'⟩
  | template h hfile _ _ ihb ih =>
    intro rs rest n hr
    obtain ⟨m, hm⟩ := ih hr
    have hpop : IsPop env (stackComment env [.str (txt "pop")]) := ⟨[], stackArgs_comment hf _ _⟩
    obtain ⟨m', hm'⟩ := ihb (.pop hpop hm)
    exact ⟨_, .incl h hfile hm'⟩
  | missing h hfile => intro rs rest n hr; exact ⟨_, .stop h hfile⟩

/-! ## Tokens which are left alone -/

/-- A token which is no comment and which nothing is done with. -/
structure Still (t : HTok) : Prop where
  canon : canonTag t = none
  link : asDependency t = none
  inline : outlined t = none
  visible : ∀ d, t ≠ .comment d

theorem Still.price {t : HTok} (h : Still t) (K : Nat) : price K t = 1 := by
  unfold Ends.price
  rw [if_pos h.canon, if_pos h.link, if_pos h.inline]
  split
  · next d => exact absurd rfl (h.visible d)
  · rfl

theorem visible_free {env : TplEnv} {t : HTok} (h : ∀ d, t ≠ .comment d) (r : Text) : Free env r t := by
  have hs : ∀ l, ¬ Stack env t l := by
    intro l hl
    obtain ⟨d, hd⟩ := stack_comment hl
    exact h d hd
  have ht : ∀ l, ¬ Template env t l := by
    intro l hl
    cases t with
    | comment d => exact h d rfl
    | _ => cases hl.2
  refine ⟨fun p ⟨m, hp⟩ => hs _ hp, fun ⟨m, hp⟩ => hs _ hp, fun p vars hi => ?_⟩
  obtain ⟨l, hl, -⟩ := includes_iff.1 hi
  exact ht l hl

theorem pend_still {env : TplEnv} {K : Nat} {r : Text} {rs : List Text} {ts : List HTok} {n : Nat} (hr : Pend env K (r :: rs) ts n) :
    ∀ {l : List HTok}, (∀ t ∈ l, Still t) → Pend env K (r :: rs) (l ++ ts) (l.length + n)
  | [], _ => by simpa using hr
  | t :: l, h => by
    have hn : (t :: l).length + n = price K t + (l.length + n) := by
      rw [(h t (List.mem_cons_self ..)).price, List.length_cons]; omega
    rw [hn]
    exact .tok (visible_free (h t (List.mem_cons_self ..)).visible r) (pend_still hr fun x hx => h x (List.mem_cons_of_mem _ hx))

/-- A URL with a question mark is left alone. -/
theorem dep_query {t : HTok} (h : ∀ a n attrs, linkType t = some (a, n, attrs) → ∃ u, item attrs (none, a) = some u ∧ 63 ∈ u) : asDependency t = none := by
  unfold asDependency
  split
  · rfl
  · next a n attrs ht =>
    obtain ⟨u, hu, hq⟩ := h a n attrs ht
    simp only [hu]
    rw [if_pos]
    exact .inr (List.any_eq_true.2 ⟨63, hq, rfl⟩)

theorem dep_link {attrs : Attrs} {u : Text} (hu : item attrs (none, txt "href") = some u) (hq : 63 ∈ u) : asDependency (.emptyTag (txt "link") attrs) = none := by
  refine dep_query fun a n d h => ?_
  simp only [linkType] at h
  split at h
  · cases h; exact ⟨u, hu, hq⟩
  · cases h

theorem dep_script {attrs : Attrs} {u : Text} (hu : item attrs (none, txt "src") = some u) (hq : 63 ∈ u) : asDependency (.startTag (txt "script") attrs) = none := by
  refine dep_query fun a n d h => ?_
  simp only [linkType, if_true] at h
  cases h; exact ⟨u, hu, hq⟩

theorem still_script {attrs : Attrs} {u : Text} (hu : item attrs (none, txt "src") = some u) (hq : 63 ∈ u) : Still (.startTag (txt "script") attrs) := by
  have hne : txt "script" ≠ txt "style" := by decide
  exact ⟨rfl, dep_script hu hq, by simp [outlined, hu, hne], fun _ h => by cases h⟩

/-! ## The single manipulators -/

theorem canon_tags {t : HTok} {tag : CanonTag} {d : Attrs} (h : canonInner t = some (tag, d)) :
    tag = ⟨txt "link", txt "href"⟩ ∨ tag = ⟨txt "meta", txt "content"⟩ := by
  unfold canonInner at h
  split at h
  · split at h
    · split at h
      · cases h; exact .inl rfl
      · cases h
    · split at h
      · split at h
        · cases h; exact .inr rfl
        · cases h
      · cases h
  · cases h

theorem still_canon {tag : CanonTag} {d : Attrs} {u : Text} (h : tag = ⟨txt "link", txt "href"⟩ ∨ tag = ⟨txt "meta", txt "content"⟩)
    (hu : item d (none, tag.attr) = some u) (hp : (txt "http").isPrefixOf u = true) : Still (.emptyTag tag.name d) := by
  have hne : ¬ txt "meta" = txt "link" := by decide
  have hh : ¬ u.head? = some 47 := by
    have e : txt "http" = 104 :: [116, 116, 112] := by decide
    rw [e] at hp
    cases u with
    | nil => cases hp
    | cons c u =>
      simp only [List.isPrefixOf, Bool.and_eq_true, beq_iff_eq] at hp
      rw [← hp.1]; simp
  refine ⟨?_, ?_, rfl, fun _ h => by cases h⟩
  · rw [canonTag_none]
    intro a d' hc
    have : d' = d ∧ a = tag.attr := by
      rcases h with rfl | rfl
      · generalize hn : txt "link" = n at hc
        cases hc with
        | link _ => exact ⟨rfl, rfl⟩
        | og _ => exact absurd hn.symm hne
      · generalize hn : txt "meta" = n at hc
        cases hc with
        | link _ => exact absurd hn hne
        | og _ => exact ⟨rfl, rfl⟩
    obtain ⟨rfl, rfl⟩ := this
    obtain ⟨w, rfl⟩ := List.isPrefixOf_iff_prefix.1 hp
    exact ⟨w, hu⟩
  · unfold asDependency
    rcases h with rfl | rfl
    · simp only [linkType]
      split
      · rfl
      · next a n x hx =>
        split at hx
        · cases hx
          simp only at hu
          simp only [hu]
          rw [if_pos (.inl hh)]
        · cases hx
    · simp only [linkType, hne, false_and, if_false]

theorem canon_result {env : CanonEnv} {s s' : St} {t : HTok} {x : Option (List HTok)} (h : canonCont env s t = .ok (x, s')) :
    s' = s ∧ ∃ t', x = some [t'] ∧ Still t' := by
  unfold canonCont at h
  split at h
  · cases h
  · next tag attrs other hc =>
    cases h
    refine ⟨rfl, _, rfl, ?_⟩
    have hin : ∃ d, canonInner t = some (tag, d) := by
      unfold canonTag at hc
      split at hc
      · cases hc
      · next tg d hi =>
        split at hc
        · split at hc
          · cases hc
          · cases hc; exact ⟨_, hi⟩
        · cases hc; exact ⟨_, hi⟩
    obtain ⟨d, hin⟩ := hin
    generalize hu : canonHref env (item attrs (none, tag.attr)) = u
    refine still_canon (u := u) (canon_tags hin) ?_ ?_
    · unfold canonData
      simp only
      rw [get_byName, if_pos ⟨rfl, mem_sortKeys.2 (by rw [mem_keys_put]; exact .inl rfl)⟩, get_put, if_pos rfl]
      rfl
    · have e1 : txt "https://" = txt "http" ++ [115, 58, 47, 47] := by decide
      rw [← hu, List.isPrefixOf_iff_prefix]
      unfold canonHref
      split <;> rw [e1] <;> simp only [List.append_assoc] <;> exact ⟨_, rfl⟩

/-- A link which has been rewritten is not one any more; it may be a canonical URL. -/
theorem link_result {env : LinkEnv} {l l' : List Text} {t : HTok} {x : Option (List HTok)} (h : linkCont env l t = .ok (x, l')) :
    ∃ t', x = some [t'] ∧ asDependency t' = none ∧ outlined t' = none ∧ ∀ d, t' ≠ .comment d := by
  unfold linkCont at h
  split at h
  · cases h
  · next dep hd =>
    split at h
    · cases h
    · next content hc =>
      cases h
      refine ⟨_, rfl, ?_⟩
      generalize hu : (47 :: dep.path ++ txt "?" ++ cacheQuery env.enc (env.strip content)) = u
      have hq : 63 ∈ u := by
        have e : txt "?" = [63] := by decide
        rw [← hu, e]; simp
      have hitem : item (linkData dep u) (none, dep.attrName) = some u := by
        unfold linkData
        rw [get_byName, if_pos ⟨rfl, mem_sortKeys.2 (by simp)⟩]
        simp
      unfold asDependency at hd
      split at hd
      · cases hd
      · next a n attrs hl =>
        split at hd
        · cases hd
        · split at hd
          · cases hd
          · cases hd
            dsimp only at hitem ⊢
            revert hitem
            generalize linkData _ u = D
            intro hitem
            unfold linkType at hl
            split at hl
            · split at hl
              · next hc => cases hl; rw [hc.1]; exact ⟨dep_link hitem hq, rfl, fun _ h => by cases h⟩
              · cases hl
            · split at hl
              · next hc =>
                cases hl
                subst hc
                exact ⟨(still_script hitem hq).link, (still_script hitem hq).inline, fun _ h => by cases h⟩
              · cases hl
            · cases hl

theorem link_price {K : Nat} {t : HTok} (h1 : asDependency t = none) (h2 : outlined t = none) (h3 : ∀ d, t ≠ .comment d) : price K t ≤ 2 := by
  unfold price
  rw [if_pos h1, if_pos h2]
  have : (match t with | .comment _ => K + 4 | _ => 0) = 0 := by
    split
    · next d => exact absurd rfl (h3 d)
    · rfl
  rw [this]
  split <;> omega

theorem picture_still {format : Text} {c : Img.Command J} {outputs : List (Text × List Pic)} {r : List HTok}
    (h : (picture format c outputs : Except (PErr E) (List HTok)) = .ok r) : r.length ≤ outputs.length + 3 ∧ ∀ t ∈ r, Still t := by
  have n1 : txt "picture" ≠ txt "script" := by decide
  have n2 : txt "picture" ≠ txt "style" := by decide
  have n3 : txt "source" ≠ txt "link" := by decide
  have n4 : txt "source" ≠ txt "meta" := by decide
  have n5 : txt "img" ≠ txt "link" := by decide
  have n6 : txt "img" ≠ txt "meta" := by decide
  have hstart : ∀ d, Still (.startTag (txt "picture") d) := fun d =>
    ⟨rfl, by simp [asDependency, linkType, n1], by simp [outlined, n1, n2], fun _ h => by cases h⟩
  have hsrc : ∀ d, Still (.emptyTag (txt "source") d) := fun d =>
    ⟨by simp [canonTag, canonInner, n3, n4], by simp [asDependency, linkType, n3], rfl, fun _ h => by cases h⟩
  have himg : ∀ d, Still (.emptyTag (txt "img") d) := fun d =>
    ⟨by simp [canonTag, canonInner, n5, n6], by simp [asDependency, linkType, n5], rfl, fun _ h => by cases h⟩
  have hend : Still (.endTag (txt "picture")) := ⟨rfl, rfl, rfl, fun _ h => by cases h⟩
  unfold picture at h
  split at h
  · cases h
  · split at h
    · cases h
    · cases h
      refine ⟨?_, ?_⟩
      · simp only [List.length_append, List.length_cons, List.length_map, List.length_nil]
        have := List.length_filter_le (fun o : Text × List Pic => decide (o.1 ≠ format)) outputs
        omega
      · intro t ht
        simp only [List.cons_append, List.mem_append, List.mem_map, List.mem_cons, List.not_mem_nil, or_false] at ht
        rcases ht with rfl | ⟨o, -, rfl⟩ | rfl | rfl
        · exact hstart _
        · exact hsrc _
        · exact himg _
        · exact hend

theorem tags_still {j : Job} {url : Text} (hq : 63 ∈ url) : (outlineTags j url).length ≤ 2 ∧ ∀ t ∈ outlineTags j url, Still t := by
  have hne : txt "href" ≠ txt "rel" := by decide
  have hsc : txt "stylesheet" ≠ txt "canonical" := by decide
  obtain ⟨kind, path, attrs, text⟩ := j
  cases kind with
  | script =>
    refine ⟨Nat.le_refl _, ?_⟩
    intro t ht
    simp only [outlineTags, List.mem_cons, List.not_mem_nil, or_false] at ht
    rcases ht with rfl | rfl
    · refine still_script (u := url) ?_ hq
      rw [get_byName, if_pos ⟨rfl, mem_sortKeys.2 (by rw [mem_keys_put]; exact .inl rfl)⟩, get_put, if_pos rfl]
      rfl
    · exact ⟨rfl, rfl, rfl, fun _ h => by cases h⟩
  | style =>
    refine ⟨Nat.le_succ _, ?_⟩
    intro t ht
    simp only [outlineTags, List.mem_singleton] at ht
    subst ht
    refine ⟨?_, dep_link (u := url) ?_ hq, rfl, fun _ h => by cases h⟩
    · have hrel : ∀ d : Attrs, item d (none, txt "rel") = some (txt "stylesheet") → canonTag (.emptyTag (txt "link") d) = none := by
        intro d hd
        simp [canonTag, canonInner, hd, hsc]
      apply hrel
      rw [get_byName, if_pos ⟨rfl, mem_sortKeys.2 (by rw [mem_keys_put]; exact .inl rfl)⟩, get_put, if_pos rfl]
      rfl
    · rw [get_byName, if_pos ⟨rfl, mem_sortKeys.2 (by rw [mem_keys_put, mem_keys_put]; exact .inr (.inl rfl))⟩, get_put, if_neg hne, get_put, if_pos rfl]
      rfl

/-! ## The rounds -/

theorem stack_quiet {env : Env E J} (hg : GoodSpace env.py.space) (hsame : env.tpl.space = env.py.space) (hf : Faithful env.tpl) {t : HTok} {l : List Json}
    (h : Stack env.tpl t l) : Calm env t := by
  obtain ⟨data, args, op, more, rfl, hr, -, -⟩ := (stack_reads hf).1 h
  rw [hsame] at hr
  have e : txt "STACK" = 83 :: [84, 65, 67, 75] := by decide
  have := not_image hg e (hg.2.2 83 (by omega) (by omega)) (by omega) hr
  exact ⟨rfl, rfl, by simp [command, Img.getCommand, this], rfl⟩

theorem template_quiet {env : Env E J} (hg : GoodSpace env.py.space) (hsame : env.tpl.space = env.py.space) (hf : Faithful env.tpl) {t : HTok} {l : List Json}
    (h : Template env.tpl t l) : Calm env t := by
  obtain ⟨data, args, op, more, rfl, hr, -, -⟩ := (template_reads hf).1 h
  rw [hsame] at hr
  have e : txt "TEMPLATE" = 84 :: [69, 77, 80, 76, 65, 84, 69] := by decide
  have := not_image hg e (hg.2.2 84 (by omega) (by omega)) (by omega) hr
  exact ⟨rfl, rfl, by simp [command, Img.getCommand, this], rfl⟩

theorem template_comment {env : TplEnv} {t : HTok} {l : List Json} (h : Template env t l) : ∃ d, t = .comment d := by
  cases t with
  | comment d => exact ⟨d, rfl⟩
  | _ => cases h.2

/-- The places of the blocks which are open, the innermost first. -/
def frames (s : TplSt) : List Text := s.cur.relpath :: s.stack.map (·.relpath)

/-- The path of an included file does not depend on the variables, nor does the number of its arguments. -/
theorem import_vars {r : Text} {vs vs' : List (Text × Json)} {l : List Json} {p : Text} {vars : List (Text × Json)}
    (h : templateImport ⟨r, vs⟩ l = some (p, vars)) : ∃ vars', templateImport ⟨r, vs'⟩ l = some (p, vars') ∧ vars'.length = vars.length := by
  unfold templateImport at h ⊢
  split at h
  · split at h
    · cases h; exact ⟨_, rfl, rfl⟩
    · cases h; exact ⟨_, rfl, by simp⟩
    · cases h
  · cases h

/-- What the manipulators say to a token. -/
theorem find_cases {env : Env E J} {s s' : St} {t : HTok} {m : Option (Manip St HTok (PErr E))} (h : findMark (manips env) s t = .ok (m, s')) :
    s'.tpl = s.tpl ∧ s'.job = s.job ∧
    (m = none ∨ (m = some (canon env) ∧ canonTag t ≠ none) ∨ (m = some (links env) ∧ asDependency t ≠ none) ∨
      (m = some (images env) ∧ ∃ d, t = .comment d) ∨ (m = some (outline env) ∧ outlined t ≠ none) ∨
      (m = some (templates env) ∧ ∃ d, t = .comment d)) := by
  simp only [manips, findMark] at h
  split at h
  · cases h
  · next s1 h1 =>
    cases h
    simp only [canon, canonStart] at h1
    split at h1
    · cases h1
    · next r hr =>
      cases h1
      split at hr
      · cases hr
      · next hc =>
        split at hr
        · split at hr <;> cases hr
        · cases hr; exact ⟨rfl, rfl, .inr (.inl ⟨rfl, by rw [hc]; simp⟩)⟩
  · next s1 h1 =>
    have e1 : s1 = s := by
      simp only [canon, canonStart] at h1
      split at h1
      · cases h1
      · next r hr =>
        cases h1
        split at hr
        · cases hr; rfl
        · split at hr
          · split at hr <;> cases hr; rfl
          · cases hr
    subst e1
    split at h
    · cases h
    · next s2 h2 =>
      cases h
      simp only [links, linkStart] at h2
      split at h2
      · cases h2
      · next b l hr =>
        cases h2
        split at hr
        · cases hr
        · next hc => exact ⟨rfl, rfl, .inr (.inr (.inl ⟨rfl, by rw [hc]; simp⟩))⟩
    · next s2 h2 =>
      have e2 : s2.tpl = s1.tpl ∧ s2.job = s1.job := by
        simp only [links] at h2
        split at h2
        · cases h2
        · cases h2; exact ⟨rfl, rfl⟩
      rw [← e2.1, ← e2.2]
      split at h
      · cases h
      · next s3 h3 =>
        cases h
        simp only [images, imageStart] at h3
        split at h3
        · cases h3
        · cases h3
        · next c hc =>
          split at h3
          · split at h3 <;> cases h3
          · cases h3
            refine ⟨rfl, rfl, .inr (.inr (.inr (.inl ⟨rfl, ?_⟩)))⟩
            cases t with
            | comment d => exact ⟨d, rfl⟩
            | _ => cases hc
      · next s3 h3 =>
        have e3 : s3.tpl = s2.tpl ∧ s3.job = s2.job := by
          simp only [images, imageStart] at h3
          split at h3
          · cases h3
          · cases h3; exact ⟨rfl, rfl⟩
          · split at h3
            · split at h3 <;> cases h3; exact ⟨rfl, rfl⟩
            · cases h3
        rw [← e3.1, ← e3.2]
        cases ho : outlined t with
        | some x =>
          have hs : (outline env).start s3 t = .ok (true, s3) := by simp [outline, outlineStart, ho]
          simp only [hs] at h
          cases h
          exact ⟨rfl, rfl, .inr (.inr (.inr (.inr (.inl ⟨rfl, by simp⟩))))⟩
        | none =>
          simp only [outline_pass ho] at h
          have ht : (templates env).start s3 t = .ok ((stackArgs env.tpl t).isSome || (templateArgs env.tpl t).isSome, s3) := rfl
          rw [ht] at h
          cases hb : (stackArgs env.tpl t).isSome || (templateArgs env.tpl t).isSome with
          | false =>
            rw [hb] at h
            cases h
            exact ⟨rfl, rfl, .inl rfl⟩
          | true =>
            rw [hb] at h
            cases h
            refine ⟨rfl, rfl, .inr (.inr (.inr (.inr (.inr ⟨rfl, ?_⟩))))⟩
            cases t with
            | comment d => exact ⟨d, rfl⟩
            | _ => cases hb

/-- A stack command which is neither push nor pop leaves the blocks as they are. -/
theorem stack_free {s s' : TplSt} {l : List Json} {r : List HTok} (hstr : ∃ o m, l = .str o :: m)
    (h1 : ∀ p more, l ≠ .str (txt "push") :: .str p :: more) (h2 : ∀ more, l ≠ .str (txt "pop") :: more)
    (h : stackCommand s l = .ok (r, s')) : frames s' = frames s ∧ r.length ≤ 1 ∧ ∀ t ∈ r, Still t := by
  rcases stack_other hstr h1 h2 h with ⟨k, v, rfl⟩ | ⟨k, v, text, hk, rfl, hv, hs⟩ | ⟨-, -, rfl, rfl⟩
  · rw [stack_define] at h
    cases h
    exact ⟨rfl, by simp, by simp⟩
  · rw [stack_retrieve s k text v hk hv hs] at h
    cases h
    refine ⟨rfl, by simp, ?_⟩
    intro t ht
    rw [List.mem_singleton.1 ht]
    exact ⟨rfl, rfl, rfl, fun _ h => by cases h⟩
  · exact ⟨rfl, by simp, by simp⟩

/-- The tokens to come take at most `n` steps. -/
inductive Inv (env : Env E J) (K : Nat) : Nat → State St HTok (PErr E) → List HTok → Prop
  | free {n b ts} (hm : b.mark = none) (hj : b.st.job = none) (h : Pend env.tpl K (frames b.st.tpl) ts n) : Inv env K n b ts
  | live {n b ts j} (hm : b.mark = some (outline env)) (hj : b.st.job = some j) (h : Pend env.tpl K (frames b.st.tpl) ts n) : Inv env K (n + 2) b ts

theorem pend_pos {env : TplEnv} {K : Nat} {rs : List Text} {t : HTok} {ts : List HTok} {n : Nat} (h : Pend env K rs (t :: ts) n) : 1 ≤ n := by
  cases h with
  | tok _ _ => have := price_pos K t; omega
  | _ => omega

/-- Only comments open and close blocks. -/
theorem pend_visible {env : TplEnv} {K : Nat} {rs : List Text} {t : HTok} {ts : List HTok} {n : Nat} (h : Pend env K rs (t :: ts) n) (hv : ∀ d, t ≠ .comment d) :
    ∃ m < n, Pend env K rs ts m := by
  cases h with
  | tok _ hr => have := price_pos K t; exact ⟨_, by omega, hr⟩
  | push h _ => obtain ⟨m, h⟩ := h; obtain ⟨d, hd⟩ := stack_comment h; exact absurd hd (hv d)
  | pop h _ => obtain ⟨m, h⟩ := h; obtain ⟨d, hd⟩ := stack_comment h; exact absurd hd (hv d)
  | incl h _ _ =>
    obtain ⟨l, h, -⟩ := includes_iff.1 h
    obtain ⟨d, hd⟩ := template_comment h
    exact absurd hd (hv d)
  | stop h _ =>
    obtain ⟨l, h, -⟩ := includes_iff.1 h
    obtain ⟨d, hd⟩ := template_comment h
    exact absurd hd (hv d)

theorem outline_result {env : Env E J} {s s' : St} {t : HTok} {x : Option (List HTok)} (hj : s.job = none) (h : outlineCont env s t = .ok (x, s')) :
    x = none ∧ s'.tpl = s.tpl ∧ ∃ j, s'.job = some j := by
  simp only [outlineCont, hj, outlineOpen] at h
  split at h
  · split at h
    · cases h
    · cases h; exact ⟨rfl, rfl, _, rfl⟩
  · split at h
    · cases h
    · split at h
      · cases h
      · cases h; exact ⟨rfl, rfl, _, rfl⟩
  · cases h

theorem close_result {env : Env E J} {s s' : St} {j : Job} {x : Option (List HTok)} (h : outlineClose env s j = .ok (x, s')) :
    s'.tpl = s.tpl ∧ s'.job = none ∧ ∃ r, x = some r ∧ r.length ≤ 2 ∧ ∀ t ∈ r, Still t := by
  have q1 : 63 ∈ txt "?v=tmp&pv=1" := by decide
  have q2 : 63 ∈ txt "?" := by decide
  simp only [outlineClose] at h
  split at h
  · split at h
    · cases h
    · cases h
      have := tags_still (j := j) (url := j.path.drop (txt "src/public").length ++ txt "?v=tmp&pv=1") (List.mem_append_right _ q1)
      exact ⟨rfl, rfl, _, rfl, this.1, this.2⟩
  · split at h
    · cases h
    · split at h
      · cases h
      · split at h
        · cases h
        · next hh _ =>
          cases h
          have := tags_still (j := j) (url := j.path.drop (txt "src/public").length ++ txt "?" ++ cacheQuery env.enc (env.decode hh))
            (List.mem_append_left _ (List.mem_append_right _ q2))
          exact ⟨rfl, rfl, _, rfl, this.1, this.2⟩

theorem step_live {env : Env E J} {K n : Nat} {b b' : State St HTok (PErr E)} {t : HTok} {ts ts' : List HTok} {j : Job} (hm : b.mark = some (outline env))
    (hj : b.st.job = some j) (hp : Pend env.tpl K (frames b.st.tpl) (t :: ts) n) (h : Build.round (manips env) b t ts = .ok (ts', b')) :
    ∃ k < n + 2, Inv env K k b' ts' := by
  simp only [Build.round, hm, continueMark, outline, outlineCont, hj] at h
  split at h
  · cases h
  · next r s' hr =>
    cases h
    split at hr
    · obtain ⟨m, hm', hr'⟩ := pend_visible hp (by simp)
      obtain ⟨h1, h2, r', h3, h4, h5⟩ := close_result hr
      cases h3
      rw [← h1] at hr'
      exact ⟨_, by omega, .free rfl h2 (pend_still hr' h5)⟩
    · cases hr
    · cases hr
    · cases hr
  · next s' hr =>
    cases h
    split at hr
    · obtain ⟨-, -, r', h3, -⟩ := close_result hr
      cases h3
    · obtain ⟨m, hm', hr'⟩ := pend_visible hp (by simp)
      cases hr
      exact ⟨m + 2, by omega, .live rfl rfl hr'⟩
    · obtain ⟨m, hm', hr'⟩ := pend_visible hp (by simp)
      cases hr
      exact ⟨m + 2, by omega, .live rfl rfl hr'⟩
    · cases hr

theorem step_tok {env : Env E J} {K n : Nat} (hK : ∀ fs c outputs r fs', env.exportImage fs c = .ok (outputs, r, fs') → outputs.length ≤ K)
    {b b' : State St HTok (PErr E)} {t : HTok} {ts ts' : List HTok} (hm : b.mark = none) (hj : b.st.job = none)
    (hf : Free env.tpl b.st.tpl.cur.relpath t) (hp : Pend env.tpl K (frames b.st.tpl) ts n) (h : Build.round (manips env) b t ts = .ok (ts', b')) :
    ∃ k < price K t + n, Inv env K k b' ts' := by
  have hpos := price_pos K t
  simp only [Build.round, hm] at h
  split at h
  · cases h
  · next s' hfind =>
    cases h
    obtain ⟨h1, h2, -⟩ := find_cases hfind
    refine ⟨n, by omega, .free rfl (h2.trans hj) ?_⟩
    show Pend env.tpl K (frames s'.tpl) ts n
    rw [h1]; exact hp
  · next m s' hfind =>
    obtain ⟨h1, h2, h3⟩ := find_cases hfind
    rw [← h1] at hp hf
    rw [← h2] at hj
    rcases h3 with h3 | ⟨h3, h4⟩ | ⟨h3, h4⟩ | ⟨h3, d, h4⟩ | ⟨h3, h4⟩ | ⟨h3, d, h4⟩
    · cases h3
    · -- a canonical URL
      cases h3
      have hprice : 2 ≤ price K t := by unfold price; rw [if_neg h4]; omega
      cases hc : canonCont env.canonEnv s' t with
      | error e => simp only [continueMark, canon, hc] at h; cases h
      | ok x =>
        obtain ⟨x, s2⟩ := x
        obtain ⟨rfl, t', rfl, hst⟩ := canon_result hc
        simp only [continueMark, canon, hc] at h
        cases h
        exact ⟨_, by have : ([t'] : List HTok).length = 1 := rfl; omega, .free rfl hj (pend_still hp (l := [t']) (by simpa using hst))⟩
    · -- a link
      cases h3
      have hprice : 3 ≤ price K t := by unfold price; rw [if_neg h4]; omega
      cases hc : linkCont (env.linkEnv s'.fs) s'.links t with
      | error e => simp only [continueMark, links, hc] at h; cases h
      | ok x =>
        obtain ⟨x, s2⟩ := x
        obtain ⟨t', rfl, h5, h6, h7⟩ := link_result hc
        simp only [continueMark, links, hc] at h
        cases h
        have := link_price (K := K) h5 h6 h7
        exact ⟨_, by omega, .free rfl hj (.tok (t := t') (visible_free h7 _) hp)⟩
    · -- an image
      cases h3
      have hprice : price K t ≥ K + 5 := by subst h4; exact price_comment K d
      simp only [continueMark, images, imageCont] at h
      split at h
      · cases h
      · next r s2 hr =>
        cases h
        split at hr
        · cases hr
        · cases hr
        · split at hr
          · cases hr
          · next outputs rb fs' he =>
            split at hr
            · cases hr
            · next res hres =>
              cases hr
              obtain ⟨h5, h6⟩ := picture_still hres
              have := hK _ _ _ _ _ he
              exact ⟨_, by omega, .free rfl hj (pend_still hp h6)⟩
      · next s2 hr =>
        split at hr
        · cases hr
        · cases hr
        · split at hr
          · cases hr
          · split at hr <;> cases hr
    · -- an inline element
      cases h3
      have hprice : 4 ≤ price K t := by unfold price; rw [if_neg h4]; omega
      simp only [continueMark, outline] at h
      cases hc : outlineCont env s' t with
      | error e => simp only [hc] at h; cases h
      | ok x =>
        obtain ⟨x, s2⟩ := x
        obtain ⟨rfl, h5, j, h6⟩ := outline_result hj hc
        simp only [hc] at h
        cases h
        rw [← h5] at hp
        exact ⟨n + 2, by omega, .live rfl h6 hp⟩
    · -- a command
      cases h3
      have hprice : price K t ≥ K + 5 := by subst h4; exact price_comment K d
      simp only [continueMark, templates, tplCont] at h
      cases hs : stackArgs env.tpl t with
      | some l =>
        simp only [hs] at h
        cases hc : stackCommand s'.tpl l with
        | error e => simp only [hc, Except.map] at h; cases h
        | ok x =>
          obtain ⟨r, x⟩ := x
          simp only [hc, Except.map] at h
          cases h
          obtain ⟨h5, h6, h7⟩ := stack_free (tryCommand_str hs) (fun p more he => hf.push p ⟨more, by rw [← he]; exact hs⟩)
            (fun more he => hf.pop ⟨more, by rw [← he]; exact hs⟩) hc
          refine ⟨r.length + n, by omega, .free rfl hj ?_⟩
          show Pend env.tpl K (frames x) _ _
          rw [h5]
          exact pend_still hp h7
      | none =>
        simp only [hs] at h
        cases ht : templateArgs env.tpl t with
        | none => simp only [ht] at h; cases h; exact ⟨n, by omega, .free rfl hj hp⟩
        | some l =>
          simp only [ht] at h
          have hi : templateImport s'.tpl.cur l = none := by
            cases hi : templateImport s'.tpl.cur l with
            | none => rfl
            | some x =>
              obtain ⟨p, vars⟩ := x
              obtain ⟨vars', h5, -⟩ := import_vars (vs' := []) hi
              exact absurd (includes_iff.2 ⟨l, ⟨hs, ht⟩, h5⟩) (hf.inc p vars')
          simp only [templateCommand, hi, Except.map] at h
          cases h
          exact ⟨n, by omega, .free rfl hj hp⟩

theorem define_free {env : TplEnv} (hf : Faithful env) (r k : Text) (v : Json) : Free env r (stackComment env [.str (txt "define"), .str k, v]) := by
  have hs : Stack env (stackComment env [.str (txt "define"), .str k, v]) [.str (txt "define"), .str k, v] := stackArgs_comment hf _ _
  have heq : ∀ l, Stack env (stackComment env [.str (txt "define"), .str k, v]) l → l = [.str (txt "define"), .str k, v] := by
    intro l hl
    exact (Option.some.inj (Eq.trans (Eq.symm hs) hl)).symm
  refine ⟨fun p ⟨m, h⟩ => ?_, fun ⟨m, h⟩ => ?_, fun p vars h => ?_⟩
  · have := heq _ h
    simp only [List.cons.injEq, Json.str.injEq] at this
    exact ne_def_push this.1.symm
  · have := heq _ h
    simp only [List.cons.injEq, Json.str.injEq] at this
    exact ne_def_pop this.1.symm
  · obtain ⟨l, h, -⟩ := includes_iff.1 h
    have h1 : stackArgs env (stackComment env [.str (txt "define"), .str k, v]) = none := h.1
    have h2 : stackArgs env (stackComment env [.str (txt "define"), .str k, v]) = some _ := hs
    rw [h1] at h2
    cases h2

theorem pend_defs {env : TplEnv} (hf : Faithful env) {K : Nat} {r : Text} {rs : List Text} {ts : List HTok} {n : Nat} (hr : Pend env K (r :: rs) ts n) :
    ∀ vars : List (Text × Json), Pend env K (r :: rs) ((vars.map fun p => stackComment env [.str (txt "define"), .str p.1, p.2]) ++ ts) (n + (K + 5) * vars.length)
  | [] => by simpa using hr
  | p :: vars => by
    have h := Pend.tok (define_free hf r p.1 p.2) (pend_defs hf hr vars)
    have e : price K (stackComment env [.str (txt "define"), .str p.1, p.2]) = K + 5 := by
      show 1 + 0 + 0 + 0 + (K + 4) = K + 5
      omega
    rw [e] at h
    have : n + (K + 5) * (p :: vars).length = K + 5 + (n + (K + 5) * vars.length) := by
      rw [List.length_cons, Nat.mul_succ]; omega
    rw [this]
    exact h

/-- What is known about whitespace and JSON; pictures have at most `K` formats. -/
structure Usual (env : Env E J) (K : Nat) : Prop where
  space : GoodSpace env.py.space
  same : env.tpl.space = env.py.space
  json : Faithful env.tpl
  formats : ∀ fs c outputs r fs', env.exportImage fs c = .ok (outputs, r, fs') → outputs.length ≤ K

theorem tokens_map (ts : List HTok) : tokensOf (ts.map Op.token) = ts := by
  induction ts with
  | nil => rfl
  | cons t ts ih => simp only [List.map_cons, tokensOf, ih]

theorem step {env : Env E J} {K : Nat} (hu : Usual env K) (n : Nat) (b : State St HTok (PErr E)) (t : HTok) (ts ts' : List HTok) (b' : State St HTok (PErr E))
    (hi : Inv env K n b (t :: ts)) (h : Build.round (manips env) b t ts = .ok (ts', b')) : ∃ k < n, Inv env K k b' ts' := by
  cases hi with
  | live hm hj hp => exact step_live hm hj hp h
  | free hm hj hp =>
    generalize hfr : frames b.st.tpl = fr at hp
    cases hp with
    | tok hf hr =>
      rename_i r rs n
      have h1 : b.st.tpl.cur.relpath = r := (List.cons.inj hfr).1
      rw [← hfr] at hr
      rw [← h1] at hf
      exact step_tok hu.formats hm hj hf hr h
    | push hp hr =>
      rename_i r rs p n
      obtain ⟨more, hs⟩ := hp
      rw [round_stack' hm (stack_quiet hu.space hu.same hu.json hs) hs, stack_push] at h
      cases h
      refine ⟨n, by omega, .free rfl hj ?_⟩
      show Pend env.tpl K (p :: frames b.st.tpl) _ _
      rw [hfr]
      exact hr
    | pop hp hr =>
      rename_i r rs n
      obtain ⟨more, hs⟩ := hp
      rw [round_stack' hm (stack_quiet hu.space hu.same hu.json hs) hs] at h
      cases hst : b.st.tpl.stack with
      | nil =>
        have he : stackCommand b.st.tpl (.str (txt "pop") :: more) = .error .asserted := by
          have : (txt "pop" == txt "push") = false := by simp [ne_pop_push]
          simp only [stackCommand, this, if_true, hst]
        rw [he] at h
        cases h
      | cons f fs =>
        rw [stack_pop _ f fs more hst] at h
        cases h
        refine ⟨n, by omega, .free rfl hj ?_⟩
        have h2 := (List.cons.inj hfr).2
        rw [hst] at h2
        show Pend env.tpl K (f.relpath :: fs.map (·.relpath)) _ _
        rw [show f.relpath :: fs.map (·.relpath) = rs from h2]
        exact hr
    | incl hp hf hr =>
      rename_i r rs p vars body n
      obtain ⟨l, hl, hi⟩ := includes_iff.1 hp
      have h1 : b.st.tpl.cur.relpath = r := (List.cons.inj hfr).1
      rw [round_template' hm (template_quiet hu.space hu.same hu.json hl) hl] at h
      obtain ⟨vars', h3, h4⟩ := import_vars (vs' := b.st.tpl.cur.vars) hi
      have h5 : templateImport b.st.tpl.cur l = some (p, vars') := by rw [← h1] at h3; exact h3
      simp only [templateCommand, h5, hf] at h
      cases h
      have hpush : IsPush env.tpl (stackComment env.tpl [.str (txt "push"), .str p]) p := ⟨[], stackArgs_comment hu.json _ _⟩
      have := Pend.push hpush (pend_defs hu.json hr vars')
      refine ⟨n + (K + 5) * vars'.length + 2, ?_, .free rfl hj ?_⟩
      · rw [h4]; omega
      · show Pend env.tpl K (frames b.st.tpl) _ _
        rw [hfr]
        simpa [List.append_assoc] using this
    | stop hp hf =>
      rename_i r rs p vars
      obtain ⟨l, hl, hi⟩ := includes_iff.1 hp
      have h1 : b.st.tpl.cur.relpath = r := (List.cons.inj hfr).1
      rw [round_template' hm (template_quiet hu.space hu.same hu.json hl) hl] at h
      obtain ⟨vars', h3, h4⟩ := import_vars (vs' := b.st.tpl.cur.vars) hi
      have h5 : templateImport b.st.tpl.cur l = some (p, vars') := by rw [← h1] at h3; exact h3
      simp only [templateCommand, h5, hf] at h
      cases h

end Verif.Html.Page.Ends

namespace Verif.Html.Page
open Verif.Reader (Text txt)
open Verif.Build
open Verif.Assoc (item put ofList keys)
open Verif.Paths (join)
open Verif.Handlers (Bytes Fs Scan Built copyScan hashScan copyTarget hashBuild)
open Ends

variable {E J : Type}

theorem page_pend {env : Env E J} {K n : Nat} {ts : List HTok} (hu : Usual env K) (hp : Pend env.tpl K [env.rel] ts n) {fs : Fs} {y : Bytes} (hy : fs env.rel = some y)
    (hts : env.parse y = some ts) :
    (∃ r, ∀ fuel, n + 1 ≤ fuel → scanFile fuel env fs = some r) ∧ ∃ r, ∀ fuel, n + 1 ≤ fuel → buildFile fuel env fs = some r := by
  have hends : ∀ ops : List (Op HTok), tokensOf ops = ts → runOps (manips env) (n + 1) (State.new (St.new fs env.rel)) [] ops ≠ none := by
    intro ops ho
    refine runOps_counted (I := Ends.Inv env K) (step hu) ?_ ops n _ _ ?_ (Nat.lt_succ_self n)
    · intro n b o rest hb
      cases hb with
      | free hm hj h => exact .free hm hj h
      | live hm hj h => exact .live hm hj h
    · rw [ho]
      exact .free rfl rfl hp
  refine ⟨?_, ?_⟩
  · unfold scanFile
    cases copyTarget env.rel with
    | none => exact ⟨_, fun _ _ => rfl⟩
    | some target =>
      simp only [hy, hts]
      cases h : runOps (manips env) (n + 1) (State.new (St.new fs env.rel)) [] (ts.map .token) with
      | none => exact absurd h (hends _ (tokens_map ts))
      | some r =>
        exact Js.File.steady (f := fun fuel => runOps (manips env) fuel (State.new (St.new fs env.rel)) [] (ts.map .token)) (fun k => Js.File.runOps_mono _ _ k _ _ _ _ h) _
  · unfold buildFile
    cases copyTarget env.rel with
    | none => exact ⟨_, fun _ _ => rfl⟩
    | some target =>
      simp only [hy, hts]
      cases h : runOps (manips env) (n + 1) (State.new (St.new fs env.rel)) [] (allTokens ts) with
      | none => exact absurd h (hends _ (tokensOf_all ts))
      | some r =>
        exact Js.File.steady (f := fun fuel => runOps (manips env) fuel (State.new (St.new fs env.rel)) [] (allTokens ts)) (fun k => Js.File.runOps_mono _ _ k _ _ _ _ h) _

/-- **C112** for pages: if the inclusions of templates come to an end, then so does the scan and the build of the page, with a
result or an exception, and the number of steps depends only on the page and the templates: not on the other files, the hashes,
or what the handlers of scripts, stylesheets and images do. -/
theorem C112_page (tpl : TplEnv) (rel : Text) (ts : List HTok) (K : Nat) (hf : Faithful tpl) (hn : Nests tpl rel ts) :
    ∃ N, ∀ (env : Env E J), env.tpl = tpl → env.rel = rel → Usual env K → ∀ (fs : Fs) (y : Bytes), fs rel = some y → env.parse y = some ts →
      (∃ r, ∀ fuel, N ≤ fuel → scanFile fuel env fs = some r) ∧ ∃ r, ∀ fuel, N ≤ fuel → buildFile fuel env fs = some r := by
  obtain ⟨n, hp⟩ := pend_nests hf K hn (rs := []) (rest := []) (n := 0) .nil
  rw [List.append_nil] at hp
  refine ⟨n + 1, ?_⟩
  rintro env rfl rfl hu fs y hy hts
  exact page_pend hu hp hy hts

/-- The file at `r` includes the file at `p`. -/
def Uses (env : TplEnv) (p r : Text) : Prop := ∃ body t vars, env.files (join env.folder r) = some body ∧ t ∈ body ∧ Includes env ⟨r, []⟩ t p vars

/-- There are no blocks written by hand. -/
def NoBlocks (env : TplEnv) (ts : List HTok) : Prop := ∀ t ∈ ts, (∀ p, ¬ IsPush env t p) ∧ ¬ IsPop env t

theorem nests_list {env : TplEnv} {r : Text} : ∀ {ts : List HTok}, NoBlocks env ts →
    (∀ t ∈ ts, ∀ p vars body, Includes env ⟨r, []⟩ t p vars → env.files (join env.folder p) = some body → Nests env p body) → Nests env r ts
  | [], _, _ => .nil
  | t :: ts, hb, h => by
    have hr : Nests env r ts := nests_list (fun x hx => hb x (List.mem_cons_of_mem _ hx)) (fun x hx => h x (List.mem_cons_of_mem _ hx))
    obtain ⟨h1, h2⟩ := hb t (List.mem_cons_self ..)
    by_cases hi : ∃ p vars, Includes env ⟨r, []⟩ t p vars
    · obtain ⟨p, vars, hi⟩ := hi
      cases hf : env.files (join env.folder p) with
      | none => exact .missing hi hf
      | some body => exact .template hi hf (h t (List.mem_cons_self ..) p vars body hi hf) hr
    · exact .other h1 h2 (fun p vars hp => hi ⟨p, vars, hp⟩) hr

/-- Files without an infinite chain of inclusions. -/
theorem nests_acc {env : TplEnv} (hb : ∀ path body, env.files path = some body → NoBlocks env body) {r : Text} (h : Acc (Uses env) r) :
    ∀ body, env.files (join env.folder r) = some body → Nests env r body := by
  induction h with
  | intro r _ ih =>
    intro body hf
    exact nests_list (hb _ _ hf) fun t ht p vars body' hi hf' => ih p ⟨body, t, vars, hf, ht, hi⟩ body' hf'

/-- **C112** for pages, in terms of the relation "includes": if no infinite chain of inclusions starts at the page, and nobody
writes blocks by hand, the handling of the page comes to an end. -/
theorem C112_page_acyclic (tpl : TplEnv) (rel : Text) (ts : List HTok) (K : Nat) (hf : Faithful tpl) (hb : ∀ path body, tpl.files path = some body → NoBlocks tpl body)
    (hp : NoBlocks tpl ts) (hacc : ∀ t ∈ ts, ∀ p vars, Includes tpl ⟨rel, []⟩ t p vars → Acc (Uses tpl) p) :
    ∃ N, ∀ (env : Env E J), env.tpl = tpl → env.rel = rel → Usual env K → ∀ (fs : Fs) (y : Bytes), fs rel = some y → env.parse y = some ts →
      (∃ r, ∀ fuel, N ≤ fuel → scanFile fuel env fs = some r) ∧ ∃ r, ∀ fuel, N ≤ fuel → buildFile fuel env fs = some r :=
  C112_page tpl rel ts K hf (nests_list hp fun t ht p vars body hi hfile => nests_acc hb (hacc t ht p vars hi) body hfile)

/-! ## A template which includes itself -/

theorem endless {env : Env E J} {K : Nat} (hu : Usual env K) {t : HTok} {rel : Text} (hinc : ∀ f, ∃ vars, Includes env.tpl f t rel vars)
    (hf : env.tpl.files (join env.tpl.folder rel) = some [t]) :
    ∀ (fuel : Nat) (b : State St HTok (PErr E)) (rest : List HTok), b.mark = none → loop (manips env) fuel b (t :: rest) = none := by
  intro fuel
  induction fuel using Nat.strongRecOn with
  | ind fuel ih =>
  intro b rest hm
  cases fuel with
  | zero => rfl
  | succ fuel =>
    obtain ⟨vars, hv⟩ := hinc b.st.tpl.cur
    obtain ⟨l, ht, hi⟩ := includes_iff.1 hv
    have hc : templateCommand env.tpl b.st.tpl l = .ok (stackComment env.tpl [.str (txt "push"), .str rel] ::
        (vars.map fun p => stackComment env.tpl [.str (txt "define"), .str p.1, p.2]) ++ [t] ++
        [stackComment env.tpl [.str (txt "pop")]], { b.st.tpl with deps := b.st.tpl.deps ++ [rel] }) := by
      simp only [templateCommand, hi, hf]
    simp only [loop, round_template' hm (template_quiet hu.space hu.same hu.json ht) ht, hc]
    have hdefs : ∀ (vs : List (Text × Json)) (g : Nat), g ≤ fuel → ∀ (c : State St HTok (PErr E)) (r : List HTok),
        c.mark = none → loop (manips env) g c
          ((vs.map fun p => stackComment env.tpl [.str (txt "define"), .str p.1, p.2]) ++ t :: r) = none := by
      intro vs
      induction vs with
      | nil => intro g hg c r hc; exact ih g (by omega) c r hc
      | cons p vs ihv =>
        intro g hg c r hc
        cases g with
        | zero => rfl
        | succ g =>
          have hs : Stack env.tpl (stackComment env.tpl [.str (txt "define"), .str p.1, p.2])
            [.str (txt "define"), .str p.1, p.2] := stackArgs_comment hu.json _ _
          simp only [List.map_cons, List.cons_append, loop, round_stack' hc (stack_quiet hu.space hu.same hu.json hs) hs, stack_define,
            List.nil_append]
          exact ihv g (by omega) _ _ rfl
    cases fuel with
    | zero => rfl
    | succ fuel =>
      have hs : Stack env.tpl (stackComment env.tpl [.str (txt "push"), .str rel]) [.str (txt "push"), .str rel] :=
        stackArgs_comment hu.json _ _
      have hr := fun r => round_stack' (b := withTpl b { b.st.tpl with deps := b.st.tpl.deps ++ [rel] }) (stack := r) rfl
        (stack_quiet hu.space hu.same hu.json hs) hs
      simp only [List.cons_append, List.append_assoc, List.nil_append, loop, hr, stack_push]
      exact hdefs vars fuel (by omega) _ _ rfl

/-- **C112** is false of pages in general: a page which includes a template which includes itself is handled for ever, when it
is scanned and when it is built. -/
theorem C112_false {env : Env E J} {K : Nat} (hu : Usual env K) {t : HTok} {p : Text} (hinc : ∀ f, ∃ vars, Includes env.tpl f t p vars)
    (hf : env.tpl.files (join env.tpl.folder p) = some [t]) {fs : Fs} {y : Bytes} {rest : List HTok} (hr : copyTarget env.rel ≠ none)
    (hy : fs env.rel = some y) (hts : env.parse y = some (t :: rest)) (fuel : Nat) : scanFile fuel env fs = none ∧ buildFile fuel env fs = none := by
  have hrun : ∀ ops : List (Op HTok), runOps (manips env) fuel (State.new (St.new fs env.rel)) [] (.token t :: ops) = none := by
    intro ops
    unfold runOps handleToken
    rw [endless hu hinc hf fuel _ [] rfl]
  constructor
  · unfold scanFile
    split
    · next h => exact absurd h hr
    · simp only [hy, hts, List.map_cons, hrun, Option.map_none]
  · unfold buildFile
    split
    · next h => exact absurd h hr
    · simp only [hy, hts, allTokens, List.map_cons, List.cons_append, hrun, Option.map_none]

end Verif.Html.Page
