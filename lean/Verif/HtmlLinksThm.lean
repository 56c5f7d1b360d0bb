import Verif.Html
import Verif.BuilderThm
import Batteries.Data.List.Basic

/-!
C49 and C50: what is done with links and canonical urls.
-/

namespace Verif.Html

deriving instance DecidableEq for Except

open Verif.Reader (Text txt)
open Verif.Build
open Verif.Assoc

/-! ## Specification -/

/-- `Links t a p`: the tag `t` is a stylesheet or preload link, or a script, and its attribute `a` is the url `/p` on
the same domain, without query and fragment. -/
inductive Links : HTok → Text → Text → Prop
  | sheet {attrs : Attrs} {p : Text} : item attrs (none, txt "rel") = some (txt "stylesheet") →
      item attrs (none, txt "href") = some (47 :: p) → 63 ∉ p → 35 ∉ p → Links (.emptyTag (txt "link") attrs) (txt "href") p
  | preload {attrs : Attrs} {p : Text} : item attrs (none, txt "rel") = some (txt "preload") →
      item attrs (none, txt "href") = some (47 :: p) → 63 ∉ p → 35 ∉ p → Links (.emptyTag (txt "link") attrs) (txt "href") p
  | script {attrs : Attrs} {p : Text} :
      item attrs (none, txt "src") = some (47 :: p) → 63 ∉ p → 35 ∉ p → Links (.startTag (txt "script") attrs) (txt "src") p

/-- `Canon t a attrs`: the tag `t` with the attributes `attrs` tells the canonical url of the page, in the attribute
`a`. -/
inductive Canon : HTok → Text → Attrs → Prop
  | link {attrs : Attrs} : item attrs (none, txt "rel") = some (txt "canonical") →
      Canon (.emptyTag (txt "link") attrs) (txt "href") attrs
  | og {attrs : Attrs} : item attrs (none, txt "property") = some (txt "og:url") →
      Canon (.emptyTag (txt "meta") attrs) (txt "content") attrs

/-- `t'` is the tag `t` with the attribute `a` set to `v`; type, name and all other attributes are the same. -/
def WithAttr (t t' : HTok) (a v : Text) : Prop :=
  ∃ (n : Text) (d d' : Attrs), ((t = .startTag n d ∧ t' = .startTag n d') ∨ (t = .emptyTag n d ∧ t' = .emptyTag n d')) ∧
    (keys d').Nodup ∧ item d' (none, a) = some v ∧ ∀ k, k ≠ (none, a) → item d' k = item d k

/-- The attributes of a tag. -/
def attrsOf : HTok → Attrs
  | .startTag _ d => d
  | .emptyTag _ d => d
  | _ => []

/-- Attributes of HTML proper: different names, no namespaces. -/
def Plain (d : Attrs) : Prop := (keys d).Nodup ∧ ∀ p ∈ d, p.1.1 = none

/-- A script has no `href`. -/
def NoHref (t : HTok) : Prop := ∀ d, t = .startTag (txt "script") d → item d (none, txt "href") = none

/-- A url with a scheme of the web. -/
def Absolute (u : Text) : Prop := (∃ r, u = txt "http://" ++ r) ∨ ∃ r, u = txt "https://" ++ r

/-! ## Lemmas -/

theorem mem_insertKey {k x : Text} {l : List Text} : x ∈ insertKey k l ↔ x = k ∨ x ∈ l := by
  induction l with
  | nil => simp [insertKey]
  | cons y l ih =>
    simp only [insertKey]
    split
    · simp
    · simp only [List.mem_cons, ih]
      constructor
      · rintro (h | h | h)
        · exact .inr (.inl h)
        · exact .inl h
        · exact .inr (.inr h)
      · rintro (h | h | h)
        · exact .inr (.inl h)
        · exact .inl h
        · exact .inr (.inr h)

theorem mem_sortKeys {x : Text} {l : List Text} : x ∈ sortKeys l ↔ x ∈ l := by
  induction l with
  | nil => simp [sortKeys]
  | cons k l ih => simp [sortKeys, mem_insertKey, ih]

/-- A dictionary given by a function of the names. -/
theorem get_byName (f : Text → Text) (l : List Text) (k : Option Text × Text) :
    item (ofList (l.map fun key => (((none, key) : Option Text × Text), f key))) k =
      if k.1 = none ∧ k.2 ∈ l then some (f k.2) else none := by
  rw [get_ofList, ← List.map_reverse]
  have : ∀ m : List Text, item (m.map fun key => (((none, key) : Option Text × Text), f key)) k =
      if k.1 = none ∧ k.2 ∈ m then some (f k.2) else none := by
    intro m
    induction m with
    | nil => simp [item]
    | cons x m ih =>
      simp only [List.map_cons, item]
      obtain ⟨ns, n⟩ := k
      by_cases h : ((none, x) : Option Text × Text) = (ns, n)
      · cases h; simp
      · rw [if_neg h, ih]
        have : ¬ (ns = none ∧ n = x) := by rintro ⟨rfl, rfl⟩; exact h rfl
        by_cases h1 : ns = none
        · have h2 : n ≠ x := fun e => this ⟨h1, e⟩
          simp [h1, h2]
        · simp [h1]
  rw [this]
  simp

/-- The attributes without those of one name, by name. -/
theorem get_others {d : Attrs} (hd : Plain d) (drop k : Text) :
    item (ofList ((d.filter fun p => decide (p.1.2 ≠ drop)).map fun p => (p.1.2, p.2))) k =
      if k = drop then none else item d (none, k) := by
  obtain ⟨hn, hns⟩ := hd
  have hnod : (keys ((d.filter fun p => decide (p.1.2 ≠ drop)).map fun p => (p.1.2, p.2))).Nodup := by
    have h1 : (keys (d.filter fun p => decide (p.1.2 ≠ drop))).Nodup := (List.filter_sublist.map _).nodup hn
    have h2 : ∀ p ∈ d.filter (fun p => decide (p.1.2 ≠ drop)), p.1.1 = none := fun p hp => hns p ((List.mem_filter.1 hp).1)
    clear hn hns
    generalize d.filter (fun p => decide (p.1.2 ≠ drop)) = e at *
    induction e with
    | nil => simp [keys]
    | cons p e ih =>
      simp only [keys, List.map_cons, List.nodup_cons] at h1 ⊢
      refine ⟨?_, ih h1.2 (fun q hq => h2 q (List.mem_cons_of_mem _ hq))⟩
      intro hm
      simp only [List.mem_map] at hm
      obtain ⟨a, ⟨q, hq, rfl⟩, hk⟩ := hm
      apply h1.1
      refine List.mem_map.2 ⟨q, hq, ?_⟩
      exact Prod.ext_iff.2 ⟨by rw [h2 p (by simp), h2 q (List.mem_cons_of_mem _ hq)], hk⟩
  rw [get_ofList_nodup hnod]
  clear hnod
  induction d with
  | nil => simp [item]
  | cons p d ih =>
    obtain ⟨⟨ns, n⟩, v⟩ := p
    have hns0 : ns = none := hns ((ns, n), v) (by simp)
    subst hns0
    simp only [keys, List.map_cons, List.nodup_cons] at hn
    have ih' := ih hn.2 (fun q hq => hns q (List.mem_cons_of_mem _ hq))
    by_cases h : n = drop
    · subst h
      rw [List.filter_cons_of_neg (by simp), ih']
      by_cases hk : k = n
      · simp [hk]
      · have : ((none, n) : Option Text × Text) ≠ (none, k) := by simpa using fun e : n = k => hk e.symm
        simp [item, hk, this]
    · rw [List.filter_cons_of_pos (by simpa using h)]
      simp only [List.map_cons, item]
      by_cases hk : n = k
      · subst hk; simp [h]
      · have : ((none, n) : Option Text × Text) ≠ (none, k) := by simpa using hk
        rw [if_neg hk, if_neg this, ih']

theorem get_ns {d : Attrs} (hd : Plain d) {ns : Option Text} {n : Text} (h : ns ≠ none) : item d (ns, n) = none := by
  cases hg : item d (ns, n) with
  | none => rfl
  | some v => exact absurd (hd.2 _ (mem_of_get hg)) h

/-- The attributes which `ofList` of a function of the names gives, where all names of `d` but perhaps `a` are there. -/
theorem get_rewritten {d : Attrs} (hd : Plain d) {names : List Text} {a v : Text} {f : Text → Text}
    (hmem : ∀ k, k ∈ names ↔ k = a ∨ item d (none, k) ≠ none) (hfa : f a = v)
    (hf : ∀ k, k ≠ a → ∀ w, item d (none, k) = some w → f k = w) :
    item (ofList ((sortKeys names).map fun key => (((none, key) : Option Text × Text), f key))) (none, a) = some v ∧
    ∀ k, k ≠ (none, a) →
      item (ofList ((sortKeys names).map fun key => (((none, key) : Option Text × Text), f key))) k = item d k := by
  constructor
  · rw [get_byName, if_pos ⟨rfl, mem_sortKeys.2 ((hmem a).2 (.inl rfl))⟩, hfa]
  · rintro ⟨ns, n⟩ hk
    rw [get_byName]
    by_cases h1 : ns = none
    · subst h1
      have hna : n ≠ a := fun e => hk (by rw [e])
      cases hg : item d (none, n) with
      | none =>
        rw [if_neg]
        rintro ⟨-, h⟩
        rcases (hmem n).1 (mem_sortKeys.1 h) with h | h
        · exact hna h
        · exact h hg
      | some w =>
        rw [if_pos ⟨rfl, mem_sortKeys.2 ((hmem n).2 (.inr (by simp [hg])))⟩, hf n hna w hg]
    · rw [if_neg (fun h => h1 h.1), get_ns hd h1]

/-! ## Links -/

theorem head_slash {u : Text} : u.head? = some 47 ↔ ∃ p, u = 47 :: p := by
  cases u with
  | nil => simp
  | cons c u => simp

theorem asDependency_links {t : HTok} {a p : Text} (h : Links t a p) : ∃ name attrs,
    (t = .startTag name attrs ∨ t = .emptyTag name attrs) ∧ (a = txt "href" ∨ t = .startTag (txt "script") attrs) ∧
    item attrs (none, a) = some (47 :: p) ∧
    asDependency t = some (LinkDep.mk name a p (ofList ((attrs.filter fun q => q.1.2 ≠ txt "href").map fun q => (q.1.2, q.2)))) := by
  have hany : ∀ {p : Text}, 63 ∉ p → 35 ∉ p → (47 :: p).any (fun c => c == 63 || c == 35) = false := by
    intro p h1 h2
    rw [List.any_eq_false]
    intro c hc
    simp only [Bool.or_eq_true, beq_iff_eq]
    rintro (rfl | rfl)
    · exact h1 (by simpa using hc)
    · exact h2 (by simpa using hc)
  cases h with
  | @sheet attrs p h1 h2 h3 h4 =>
    refine ⟨_, attrs, .inr rfl, .inl rfl, h2, ?_⟩
    simp only [asDependency, linkType]
    rw [if_pos ⟨trivial, .inl h1⟩]
    simp only [h2, hany h3 h4]
    simp
  | @preload attrs p h1 h2 h3 h4 =>
    refine ⟨_, attrs, .inr rfl, .inl rfl, h2, ?_⟩
    simp only [asDependency, linkType]
    rw [if_pos ⟨trivial, .inr h1⟩]
    simp only [h2, hany h3 h4]
    simp
  | @script attrs p h2 h3 h4 =>
    refine ⟨_, attrs, .inl rfl, .inr rfl, h2, ?_⟩
    simp only [asDependency, linkType, if_pos]
    simp only [h2, hany h3 h4]
    simp

theorem links_of_dep {t : HTok} {dep : LinkDep} (h : asDependency t = some dep) : Links t dep.attrName dep.path := by
  have key : ∀ {href : Text}, ¬ (href.head? ≠ some 47 ∨ (href.any fun c => c == 63 || c == 35) = true) →
      ∃ p, href = 47 :: p ∧ 63 ∉ p ∧ 35 ∉ p := by
    intro href hno
    have h1 : href.head? = some 47 := by
      cases hh : decide (href.head? = some 47) with
      | true => simpa using hh
      | false => exact absurd (.inl (by simpa using hh)) hno
    obtain ⟨p, rfl⟩ := head_slash.1 h1
    refine ⟨p, rfl, fun hm => hno (.inr ?_), fun hm => hno (.inr ?_)⟩
    · rw [List.any_eq_true]; exact ⟨63, by simp [hm], by simp⟩
    · rw [List.any_eq_true]; exact ⟨35, by simp [hm], by simp⟩
  unfold asDependency linkType at h
  split at h
  · cases h
  · next a name attrs hl =>
    split at hl
    · next n d =>
      split at hl
      · next hc =>
        cases hl
        split at h
        · cases h
        · next href hg =>
          split at h
          · cases h
          · next hno =>
            cases h
            obtain ⟨p, rfl, h1, h2⟩ := key hno
            obtain ⟨rfl, hr | hr⟩ := hc
            · exact .sheet hr hg h1 h2
            · exact .preload hr hg h1 h2
      · cases hl
    · split at hl
      · next hc =>
        cases hl
        subst hc
        split at h
        · cases h
        · next href hg =>
          split at h
          · cases h
          · next hno =>
            cases h
            obtain ⟨p, rfl, h1, h2⟩ := key hno
            exact .script hg h1 h2
      · cases hl
    · cases hl

theorem asDependency_none {t : HTok} : asDependency t = none ↔ ∀ a p, ¬ Links t a p := by
  constructor
  · intro h a p hl
    obtain ⟨_, _, _, _, _, e⟩ := asDependency_links hl
    rw [h] at e; cases e
  · intro h
    cases hd : asDependency t with
    | none => rfl
    | some dep => exact absurd (links_of_dep hd) (h _ _)

/-- The new url of a link. -/
def busted (env : LinkEnv) (p content : Text) : Text :=
  47 :: p ++ txt "?v=" ++ quotePlus env.enc (env.strip content) ++ txt "&pv=" ++ txt "1.3.2"

theorem busted_eq (env : LinkEnv) (p content : Text) :
    47 :: p ++ txt "?" ++ cacheQuery env.enc (env.strip content) = busted env p content := by
  have h1 : quotePlus env.enc processorVersion = txt "1.3.2" := by
    have : processorVersion = [49, 46, 51, 46, 50] := by decide
    have e2 : txt "1.3.2" = [49, 46, 51, 46, 50] := by decide
    rw [this, e2]
    simp [quotePlus, isUrlSafe]
  have h2 : txt "?v=" = txt "?" ++ txt "v=" := by decide
  unfold busted cacheQuery
  rw [h1, h2]
  simp only [List.append_assoc]

/-- **C49**, one tag: a link is replaced by the same tag with the new url. -/
theorem link_step {env : LinkEnv} {t : HTok} {a p content : Text} (h : Links t a p) (hp : Plain (attrsOf t))
    (hh : NoHref t) (hr : env.read (linkHashFile env.folder p) = some content) (deps : List Text) :
    ∃ t', linkCont env deps t = .ok (some [t'], deps) ∧ WithAttr t t' a (busted env p content) := by
  obtain ⟨name, attrs, ht, ha, hg, hd⟩ := asDependency_links h
  have hpl : Plain attrs := by rcases ht with rfl | rfl <;> exact hp
  have ho : ∀ k, item (ofList ((attrs.filter fun q => decide (q.1.2 ≠ txt "href")).map fun q => (q.1.2, q.2))) k =
      if k = txt "href" then none else item attrs (none, k) := get_others hpl (txt "href")
  refine ⟨retag t name (linkData (LinkDep.mk name a p (ofList ((attrs.filter fun q => q.1.2 ≠ txt "href").map fun q => (q.1.2, q.2)))) (busted env p content)), ?_, ?_⟩
  · unfold linkCont
    rw [hd]
    simp only [hr, busted_eq]
  · have hsrc : a = txt "href" ∨ item attrs (none, txt "href") = none := by
      rcases ha with ha | ha
      · exact .inl ha
      · exact .inr (hh attrs ha)
    have key := get_rewritten hpl (a := a) (v := busted env p content)
      (names := keys (ofList ((attrs.filter fun q => decide (q.1.2 ≠ txt "href")).map fun q => (q.1.2, q.2))) ++ [a])
      (f := fun key => if key ≠ a then (item (ofList ((attrs.filter fun q => decide (q.1.2 ≠ txt "href")).map
        fun q => (q.1.2, q.2))) key).getD [] else busted env p content)
      (by
        intro k
        have e : k ∈ keys (ofList ((attrs.filter fun q => decide (q.1.2 ≠ txt "href")).map fun q => (q.1.2, q.2))) ↔
            item (ofList ((attrs.filter fun q => decide (q.1.2 ≠ txt "href")).map fun q => (q.1.2, q.2))) k ≠ none := by
          rw [ne_eq, get_none]; simp
        rw [List.mem_append, List.mem_singleton, e, ho]
        constructor
        · rintro (h | h)
          · split at h
            · exact absurd rfl h
            · exact .inr h
          · exact .inl h
        · rintro (h | h)
          · exact .inr h
          · by_cases hk : k = txt "href"
            · subst hk
              rcases hsrc with hs | hs
              · exact .inr hs.symm
              · exact absurd hs h
            · rw [if_neg hk]; exact .inl h)
      (by simp)
      (by
        intro k hk w hw
        simp only [ne_eq, hk, not_false_eq_true, if_true, ho]
        rw [if_neg]
        · simp [hw]
        · rintro rfl
          rcases hsrc with hs | hs
          · exact hk hs.symm
          · rw [hs] at hw; cases hw)
    refine ⟨name, attrs, linkData (LinkDep.mk name a p (ofList ((attrs.filter fun q => q.1.2 ≠ txt "href").map fun q => (q.1.2, q.2)))) (busted env p content), ?_, nodup_ofList _, by unfold linkData; exact key.1, by unfold linkData; exact key.2⟩
    rcases ht with rfl | rfl
    · exact .inl ⟨rfl, rfl⟩
    · exact .inr ⟨rfl, rfl⟩

/-! ## Canonical urls -/

theorem canonInner_iff {t : HTok} {tag : CanonTag} {attrs : Attrs} :
    canonInner t = some (tag, attrs) ↔ tag.name = (if tag.attr = txt "href" then txt "link" else txt "meta") ∧ Canon t tag.attr attrs := by
  have hne : ¬ txt "content" = txt "href" := by decide
  have hlm : ¬ txt "meta" = txt "link" := by decide
  constructor
  · intro h
    unfold canonInner at h
    split at h
    · next n d =>
      split at h
      · next hn =>
        subst hn
        split at h
        · next hr => cases h; exact ⟨by simp, .link hr⟩
        · cases h
      · split at h
        · next hn =>
          subst hn
          split at h
          · next hr => cases h; exact ⟨by simp [hne], .og hr⟩
          · cases h
        · cases h
    · cases h
  · rintro ⟨h1, h2⟩
    obtain ⟨n, a⟩ := tag
    dsimp only at h1 h2
    cases h2 with
    | link hr => simp only [if_pos] at h1; subst h1; simp only [canonInner, if_pos, hr]
    | og hr => rw [if_neg hne] at h1; subst h1; simp only [canonInner, if_neg hlm, if_pos, hr]

/-- **C50**, one tag: a canonical url which does not begin with `http` is replaced. -/
theorem canon_step {S : Type} {env : CanonEnv} {host : Text} (hh : env.host = some host) {t : HTok} {a : Text} {attrs : Attrs}
    (h : Canon t a attrs) (hp : Plain attrs) (hu : ∀ u, item attrs (none, a) = some u → (txt "http").isPrefixOf u = false)
    (s : S) :
    ∃ t', canonStart env s t = (if env.scan then .ok (false, s) else .ok (true, s)) ∧
      canonCont env s t = .ok (some [t'], s) ∧
      WithAttr t t' a (txt "https://" ++ host ++ (match item attrs (none, a) with
        | some u => u
        | none => txt "/" ++ env.relpath.drop 11)) := by
  obtain ⟨tag, rfl, hi⟩ : ∃ tag : CanonTag, tag.attr = a ∧ canonInner t = some (tag, attrs) :=
    ⟨⟨if a = txt "href" then txt "link" else txt "meta", a⟩, rfl, canonInner_iff.2 ⟨rfl, h⟩⟩
  have hct : canonTag t = some (tag, attrs, ofList ((attrs.filter fun p => p.1.2 ≠ tag.attr).map fun p => (p.1.2, p.2))) := by
    unfold canonTag
    rw [hi]
    dsimp only
    cases hg : item attrs (none, tag.attr) with
    | none => rfl
    | some u => simp [hu u hg]
  have hname : t = .emptyTag tag.name attrs := by
    have := (canonInner_iff.1 hi).1
    have hne : ¬ txt "content" = txt "href" := by decide
    obtain ⟨n, a⟩ := tag
    dsimp only at this h
    cases h with
    | link _ => simp only [if_pos] at this; rw [this]
    | og _ => rw [if_neg hne] at this; rw [this]
  have hlen : publicPrefixLength = 11 := by decide
  have hhref : canonHref env (item attrs (none, tag.attr)) = txt "https://" ++ host ++ (match item attrs (none, tag.attr) with
        | some u => u
        | none => txt "/" ++ env.relpath.drop 11) := by
    unfold canonHref
    rw [hh, hlen]
    cases item attrs (none, tag.attr) <;> simp
  refine ⟨.emptyTag tag.name (canonData (ofList ((attrs.filter fun p => p.1.2 ≠ tag.attr).map fun p => (p.1.2, p.2)))
      tag.attr (canonHref env (item attrs (none, tag.attr)))), ?_, ?_, ?_⟩
  · unfold canonStart
    rw [hct]
    dsimp only
    rw [hh]
    simp
  · unfold canonCont
    rw [hct]
  · rw [← hhref]
    generalize canonHref env (item attrs (none, tag.attr)) = v
    have ho := get_others hp tag.attr
    generalize hod : ofList ((attrs.filter fun p => decide (p.1.2 ≠ tag.attr)).map fun p => (p.1.2, p.2)) = other at *
    have key := get_rewritten hp (a := tag.attr) (v := v) (names := keys (put other tag.attr v))
      (f := fun k => (item (put other tag.attr v) k).getD [])
      (by
        intro k
        rw [mem_keys_put]
        have e : k ∈ keys other ↔ item other k ≠ none := by rw [ne_eq, get_none]; simp
        rw [e, ho]
        constructor
        · rintro (h | h)
          · exact .inl h
          · split at h
            · next hk => exact .inl hk
            · exact .inr h
        · rintro (h | h)
          · exact .inl h
          · by_cases hk : k = tag.attr
            · exact .inl hk
            · rw [if_neg hk]; exact .inr h)
      (by simp [get_put])
      (by
        intro k hk w hw
        simp [get_put, hk, ho, hw])
    exact ⟨tag.name, attrs, _, .inr ⟨hname, rfl⟩, nodup_ofList _, key.1, key.2⟩

theorem http_absolute {u : Text} (h : Absolute u) : (txt "http").isPrefixOf u = true := by
  have e1 : txt "http://" = [104, 116, 116, 112, 58, 47, 47] := by decide
  have e2 : txt "https://" = [104, 116, 116, 112, 115, 58, 47, 47] := by decide
  have e3 : txt "http" = [104, 116, 116, 112] := by decide
  rcases h with ⟨r, rfl⟩ | ⟨r, rfl⟩
  · rw [e1, e3]; rfl
  · rw [e2, e3]; rfl

theorem http_slash (p : Text) : (txt "http").isPrefixOf (47 :: p) = false := by
  have e3 : txt "http" = [104, 116, 116, 112] := by decide
  rw [e3]; rfl

theorem canonTag_http {t : HTok} {a : Text} {attrs : Attrs} {u : Text} (h : Canon t a attrs) (hg : item attrs (none, a) = some u)
    (hu : (txt "http").isPrefixOf u = true) : canonTag t = none := by
  have hi := (canonInner_iff (tag := ⟨if a = txt "href" then txt "link" else txt "meta", a⟩)).2 ⟨rfl, h⟩
  unfold canonTag
  rw [hi]
  simp only [hg, hu, if_true]

theorem canonTag_not {t : HTok} (h : ∀ a attrs, ¬ Canon t a attrs) : canonTag t = none := by
  cases hi : canonInner t with
  | none => simp [canonTag, hi]
  | some p => exact absurd (canonInner_iff.1 hi).2 (h _ _)

/-! ## Whole documents -/

/-- The manipulators of handlers/html.py:38-50: the first two, and the others, whose states are a value of `R`. -/
def pageManips {R : Type} (c : CanonEnv) (l : LinkEnv) (rest : List (Manip (List Text × R) HTok HErr)) :
    List (Manip (List Text × R) HTok HErr) :=
  canonical c :: lift Prod.fst (fun s a => (a, s.2)) (linkHash l) :: rest

/-- What becomes of a token. -/
structure Fate (host file : Text) (env : LinkEnv) (t t' : HTok) : Prop where
  link : ∀ a p, Links t a p → p.head? ≠ some 47 → ∃ content,
    env.read (Paths.join env.folder (txt "out/www/" ++ p ++ txt ".hash")) = some content ∧
    WithAttr t t' a (txt "/" ++ p ++ txt "?v=" ++ quotePlus env.enc (env.strip content) ++ txt "&pv=1.3.2")
  own : ∀ a d, Canon t a d → item d (none, a) = none → WithAttr t t' a (txt "https://" ++ host ++ txt "/" ++ file)
  path : ∀ a d p, Canon t a d → item d (none, a) = some (txt "/" ++ p) →
    WithAttr t t' a (txt "https://" ++ host ++ txt "/" ++ p)
  absolute : ∀ a d u, Canon t a d → item d (none, a) = some u → Absolute u → t' = t
  other : (∀ a p, ¬ Links t a p) → (∀ a d, ¬ Canon t a d) → t' = t

/-- The documents spoken of: the attributes are those of HTML, scripts have no `href`, links name a path on the domain
whose hash file is there, and canonical urls are absolute or a path. -/
structure Sound (env : LinkEnv) (t : HTok) : Prop where
  plain : Plain (attrsOf t)
  noHref : NoHref t
  domain : ∀ a p, Links t a p → p.head? ≠ some 47
  hash : ∀ a p, Links t a p → (env.read (Paths.join env.folder (txt "out/www/" ++ p ++ txt ".hash"))).isSome
  canon : ∀ a d u, Canon t a d → item d (none, a) = some u → Absolute u ∨ ∃ p, u = txt "/" ++ p

theorem txt_slash : txt "/" = [47] := by decide

theorem linkHashFile_eq {folder p : Text} (h : p.head? ≠ some 47) :
    linkHashFile folder p = Paths.join folder (txt "out/www/" ++ p ++ txt ".hash") := by
  have e1 : Paths.join (txt "out") (txt "www") = txt "out/www" := by decide
  have e2 : Paths.join (txt "out/www") p = txt "out/www/" ++ p := by
    have e3 : txt "out/www/" = txt "out/www" ++ [47] := by decide
    have e4 : ¬ (txt "out/www" = [] ∨ (txt "out/www").getLast? = some 47) := by decide
    have : Paths.isAbs p = false := by simpa [Paths.isAbs] using h
    simp only [Paths.join, this, Bool.false_eq_true, if_false, if_neg e4, e3, List.append_assoc, List.singleton_append]
  unfold linkHashFile
  rw [e1, e2]

theorem busted_spelled (env : LinkEnv) (p content : Text) :
    busted env p content = txt "/" ++ p ++ txt "?v=" ++ quotePlus env.enc (env.strip content) ++ txt "&pv=1.3.2" := by
  have e : txt "&pv=1.3.2" = txt "&pv=" ++ txt "1.3.2" := by decide
  rw [busted, e, txt_slash]
  simp only [List.append_assoc, List.cons_append, List.nil_append]

theorem srcPublic_join {p : Text} (h : p.head? ≠ some 47) :
    Paths.join (Paths.join (txt "src") (txt "public")) p = txt "src/public/" ++ p := by
  have e1 : Paths.join (txt "src") (txt "public") = txt "src/public" := by decide
  have e3 : txt "src/public/" = txt "src/public" ++ [47] := by decide
  have e4 : ¬ (txt "src/public" = [] ∨ (txt "src/public").getLast? = some 47) := by decide
  have : Paths.isAbs p = false := by simpa [Paths.isAbs] using h
  rw [e1]
  simp only [Paths.join, this, Bool.false_eq_true, if_false, if_neg e4, e3, List.append_assoc, List.singleton_append]

/-- A canonical url is no link. -/
theorem canon_not_links {t : HTok} {a b p : Text} {d : Attrs} (h : Canon t a d) : ¬ Links t b p := by
  have e1 : txt "canonical" ≠ txt "stylesheet" := by decide
  have e2 : txt "canonical" ≠ txt "preload" := by decide
  have e3 : txt "meta" ≠ txt "link" := by decide
  intro hl
  cases h with
  | link hr =>
    cases hl with
    | sheet h1 => rw [hr] at h1; exact e1 (Option.some.inj h1)
    | preload h1 => rw [hr] at h1; exact e2 (Option.some.inj h1)
  | og hr =>
    generalize ht : txt "meta" = m at hl e3
    cases hl with
    | sheet _ => exact e3 rfl
    | preload _ => exact e3 rfl

theorem canon_withAttr {t t' : HTok} {a v : Text} {d : Attrs} (h : Canon t a d) (hw : WithAttr t t' a v) :
    ∃ d', Canon t' a d' ∧ item d' (none, a) = some v := by
  have e1 : txt "rel" ≠ txt "href" := by decide
  have e2 : txt "property" ≠ txt "content" := by decide
  obtain ⟨n, d1, d2, ht, hn, hv, ho⟩ := hw
  cases h with
  | link hr =>
    rcases ht with ⟨h1, h2⟩ | ⟨h1, h2⟩
    · cases h1
    · cases h1
      subst h2
      exact ⟨d2, .link (by rw [ho _ (by simpa using e1)]; exact hr), hv⟩
  | og hr =>
    rcases ht with ⟨h1, h2⟩ | ⟨h1, h2⟩
    · cases h1
    · cases h1
      subst h2
      exact ⟨d2, .og (by rw [ho _ (by simpa using e2)]; exact hr), hv⟩

theorem links_attr {t : HTok} {a p : Text} (h : Links t a p) : item (attrsOf t) (none, a) = some (47 :: p) ∧
    (a = txt "href" ∨ a = txt "src") := by
  cases h with
  | sheet _ h2 => exact ⟨h2, .inl rfl⟩
  | preload _ h2 => exact ⟨h2, .inl rfl⟩
  | script h2 => exact ⟨h2, .inr rfl⟩

theorem links_det {t : HTok} {a a' p p' : Text} (h : Links t a p) (h' : Links t a' p') : a = a' ∧ p = p' := by
  obtain ⟨n1, d1, _, _, g1, e1⟩ := asDependency_links h
  obtain ⟨n2, d2, _, _, g2, e2⟩ := asDependency_links h'
  rw [e1] at e2
  simp only [Option.some.injEq, LinkDep.mk.injEq] at e2
  exact ⟨e2.2.1, e2.2.2.1⟩

/-- A link with the new url is neither a link to be changed nor a canonical url. -/
theorem links_withAttr {env : LinkEnv} {t t' : HTok} {a p content : Text} (h : Links t a p)
    (hw : WithAttr t t' a (busted env p content)) : (∀ b q, ¬ Links t' b q) ∧ ∀ b d, ¬ Canon t' b d := by
  have e1 : txt "rel" ≠ txt "href" := by decide
  have e2 : txt "canonical" ≠ txt "stylesheet" := by decide
  have e3 : txt "canonical" ≠ txt "preload" := by decide
  have e4 : txt "link" ≠ txt "meta" := by decide
  have hq : ∀ q, busted env p content = 47 :: q → 63 ∈ q := by
    intro q hq
    have : txt "?v=" = [63, 118, 61] := by decide
    unfold busted at hq
    rw [this] at hq
    simp only [List.cons_append, List.cons.injEq, true_and] at hq
    rw [← hq]
    simp
  obtain ⟨n, d1, d2, ht, hn, hv, ho⟩ := hw
  refine ⟨?_, ?_⟩
  · intro b q hl
    have hab : a = b := by
      rcases ht with ⟨h1, h2⟩ | ⟨h1, h2⟩
      · subst h1 h2; cases h; cases hl; rfl
      · subst h1 h2
        cases h <;> cases hl <;> rfl
    subst hab
    have h1 := (links_attr hl).1
    have h2 : attrsOf t' = d2 := by rcases ht with ⟨_, rfl⟩ | ⟨_, rfl⟩ <;> rfl
    rw [h2, hv] at h1
    have h3 := hq q (Option.some.inj h1)
    cases hl with
    | sheet _ _ h => exact h h3
    | preload _ _ h => exact h h3
    | script _ h => exact h h3
  · intro b d hc
    rcases ht with ⟨h1, h2⟩ | ⟨h1, h2⟩
    · subst h2; cases hc
    · subst h1 h2
      generalize hm : txt "link" = m at h
      cases h with
      | sheet hr hu hx hy =>
        cases hc with
        | link h => rw [ho _ (by simpa using e1), hr] at h; exact e2 (Option.some.inj h).symm
      | preload hr hu hx hy =>
        cases hc with
        | link h => rw [ho _ (by simpa using e1), hr] at h; exact e3 (Option.some.inj h).symm

variable {R : Type}

theorem canon_declines {c : CanonEnv} {s : List Text × R} {t : HTok} (h : canonTag t = none) :
    (canonical c).start s t = .ok (false, s) := by
  simp [canonical, canonStart, h]

theorem link_declines {l : LinkEnv} {s : List Text × R} {t : HTok} (h : ∀ a p, ¬ Links t a p) :
    (lift Prod.fst (fun s a => (a, s.2)) (linkHash l) : Manip (List Text × R) HTok HErr).start s t = .ok (false, s) := by
  simp [lift, linkHash, linkStart, asDependency_none.2 h]

theorem declined_rest {rest : List (Manip (List Text × R) HTok HErr)} {s : List Text × R} {t : HTok}
    (h : ∀ m ∈ rest, ∀ s, m.start s t = .ok (false, s)) : Declined rest s t s := by
  induction rest with
  | nil => exact .nil
  | cons m rest ih => exact .cons (h m (by simp) s) (ih fun m' hm => h m' (by simp [hm]))

/-- The paths which the links of a document name. -/
def Named (ts : List HTok) (q : Text) : Prop := ∃ t ∈ ts, ∃ a p, Links t a p ∧ q = txt "src/public/" ++ p

/-- **C49 and C50**, a whole document: every token has its fate, and the children are the linked files.  `rest` are the
other manipulators, which do not take any of the tokens. -/
theorem page_build {c : CanonEnv} {l : LinkEnv} {rest : List (Manip (List Text × R) HTok HErr)} {host file : Text}
    (hc : c.scan = false) (hl : l.scan = false) (hh : c.host = some host) (hf : c.relpath = txt "src/public/" ++ file)
    {ts : List HTok} (hs : ∀ t ∈ ts, Sound l t)
    (hr : ∀ m ∈ rest, ∀ s t', (t' ∈ ts ∨ ∃ t ∈ ts, ∃ a v, WithAttr t t' a v) → m.start s t' = .ok (false, s))
    (deps : List Text) (r : R) :
    ∃ out deps', Stream (pageManips c l rest) (deps, r) ts out none (deps', r) ∧
      List.Forall₂ (Fate host file l) ts out ∧ ∀ q, q ∈ deps' ↔ q ∈ deps ∨ Named ts q := by
  induction ts generalizing deps with
  | nil => exact ⟨[], deps, .nil, .nil, fun q => by simp [Named]⟩
  | cons t ts ih =>
    have hst := hs t (by simp)
    have ih' := ih (fun t' ht => hs t' (by simp [ht]))
      (fun m hm s t' h => hr m hm s t' (by
        rcases h with h | ⟨u, hu, h⟩
        · exact .inl (by simp [h])
        · exact .inr ⟨u, by simp [hu], h⟩))
    have hrest : ∀ t', (t' = t ∨ ∃ a v, WithAttr t t' a v) → ∀ m ∈ rest, ∀ s, m.start s t' = .ok (false, s) := by
      intro t' h m hm s
      refine hr m hm s t' ?_
      rcases h with rfl | h
      · exact .inl (by simp)
      · exact .inr ⟨t, by simp, h⟩
    -- tokens which nobody takes
    have keep : ∀ t', canonTag t' = none → (∀ a p, ¬ Links t' a p) → (∀ m ∈ rest, ∀ s, m.start s t' = .ok (false, s)) →
        ∀ d, Declined (pageManips c l rest) ((d, r) : List Text × R) t' (d, r) := by
      intro t' h1 h2 h3 d
      exact .cons (canon_declines h1) (.cons (link_declines h2) (declined_rest h3))
    by_cases hlk : ∃ a p, Links t a p
    · obtain ⟨a, p, hlp⟩ := hlk
      have hp47 := hst.domain a p hlp
      obtain ⟨content, hcont⟩ := Option.isSome_iff_exists.1 (hst.hash a p hlp)
      have hread : l.read (linkHashFile l.folder p) = some content := by rw [linkHashFile_eq hp47]; exact hcont
      obtain ⟨t', h1, h2⟩ := link_step hlp hst.plain hst.noHref hread (deps ++ [txt "src/public/" ++ p])
      have hnc : ∀ b d, ¬ Canon t b d := fun b d hcn => canon_not_links hcn hlp
      obtain ⟨hn1, hn2⟩ := links_withAttr hlp h2
      obtain ⟨out, deps', g1, g2, g3⟩ := ih' (deps ++ [txt "src/public/" ++ p])
      refine ⟨t' :: out, deps', ?_, .cons ?_ g2, ?_⟩
      · have htake : Taken (pageManips c l rest) ((deps, r) : List Text × R) t
            (lift Prod.fst (fun s a => (a, s.2)) (linkHash l)) (deps ++ [txt "src/public/" ++ p], r) := by
          refine .tail (canon_declines (canonTag_not hnc)) (.head ?_)
          obtain ⟨nm, ats, -, -, -, hd⟩ := asDependency_links hlp
          simp [lift, linkHash, linkStart, hd, hl, srcPublic_join hp47]
        have hclose : Closed (lift Prod.fst (fun s a => (a, s.2)) (linkHash l) : Manip (List Text × R) HTok HErr)
            (deps ++ [txt "src/public/" ++ p], r) [t] [t'] (deps ++ [txt "src/public/" ++ p], r) := by
          refine ⟨[], t, _, rfl, .nil, ?_⟩
          simp [lift, linkHash, h1]
        have := Stream.replace (rest := ts) htake rfl hclose
          (.keep (keep t' (canonTag_not hn2) hn1 (hrest t' (.inr ⟨_, _, h2⟩)) _) g1)
        exact this
      · refine ⟨?_, fun b d hcn => absurd hcn (hnc b d), fun b d _ hcn => absurd hcn (hnc b d), fun b d _ hcn => absurd hcn (hnc b d),
          fun hno _ => absurd hlp (hno a p)⟩
        intro b q hbq hq
        obtain ⟨rfl, rfl⟩ := links_det hlp hbq
        exact ⟨content, hcont, by rw [← busted_spelled]; exact h2⟩
      · intro q
        rw [g3]
        constructor
        · rintro (h | ⟨u, hu, h⟩)
          · rcases List.mem_append.1 h with h | h
            · exact .inl h
            · exact .inr ⟨t, by simp, a, p, hlp, by simpa using h⟩
          · exact .inr ⟨u, by simp [hu], h⟩
        · rintro (h | ⟨u, hu, b, p', h, rfl⟩)
          · exact .inl (by simp [h])
          · rcases List.mem_cons.1 hu with rfl | hu
            · obtain ⟨-, rfl⟩ := links_det hlp h
              exact .inl (by simp)
            · exact .inr ⟨u, hu, b, p', h, rfl⟩
    · have hnl : ∀ a p, ¬ Links t a p := fun a p h => hlk ⟨a, p, h⟩
      have hnamed : ∀ q, Named (t :: ts) q ↔ Named ts q := by
        intro q
        constructor
        · rintro ⟨u, hu, b, p', h, e⟩
          rcases List.mem_cons.1 hu with rfl | hu
          · exact absurd h (hnl b p')
          · exact ⟨u, hu, b, p', h, e⟩
        · rintro ⟨u, hu, h⟩
          exact ⟨u, by simp [hu], h⟩
      obtain ⟨out, deps', g1, g2, g3⟩ := ih' deps
      by_cases hcn : ∃ a d, Canon t a d
      · obtain ⟨a, d, hcad⟩ := hcn
        have hdet : ∀ b e, Canon t b e → b = a ∧ e = d := by
          intro b e h
          generalize ht : t = t0 at h
          cases hcad with
          | link _ => cases h with
            | link _ => cases ht; exact ⟨rfl, rfl⟩
            | og _ =>
              have : txt "link" ≠ txt "meta" := by decide
              simp only [HTok.emptyTag.injEq] at ht
              exact absurd ht.1 this
          | og _ => cases h with
            | og _ => cases ht; exact ⟨rfl, rfl⟩
            | link _ =>
              have : txt "meta" ≠ txt "link" := by decide
              simp only [HTok.emptyTag.injEq] at ht
              exact absurd ht.1 this
        have hpl : Plain d := by
          have := hst.plain
          cases hcad <;> exact this
        by_cases habs : ∃ u, item d (none, a) = some u ∧ Absolute u
        · obtain ⟨u, hu, hab⟩ := habs
          refine ⟨t :: out, deps', .keep (keep t (canonTag_http hcad hu (http_absolute hab)) hnl (hrest t (.inl rfl)) deps) g1,
            .cons ?_ g2, fun q => by rw [g3, hnamed]⟩
          refine ⟨fun b p h => absurd h (hnl b p), ?_, ?_, fun _ _ _ _ _ _ => rfl, fun _ _ => rfl⟩
          · intro b e h hn
            obtain ⟨rfl, rfl⟩ := hdet b e h
            rw [hu] at hn; cases hn
          · intro b e p h hn
            obtain ⟨rfl, rfl⟩ := hdet b e h
            rw [hu, txt_slash] at hn
            have h1 := http_absolute hab
            rw [Option.some.inj hn] at h1
            have h2 := http_slash p
            rw [List.singleton_append, h2] at h1; cases h1
        · have hu : ∀ u, item d (none, a) = some u → (txt "http").isPrefixOf u = false := by
            intro u hu
            rcases hst.canon a d u hcad hu with h | ⟨p, rfl⟩
            · exact absurd ⟨u, hu, h⟩ habs
            · rw [txt_slash]; exact http_slash p
          obtain ⟨t', h1, h2, h3⟩ := canon_step hh hcad hpl hu ((deps, r) : List Text × R)
          rw [hc] at h1
          simp only [Bool.false_eq_true, if_false] at h1
          obtain ⟨d', hc', hv'⟩ := canon_withAttr hcad h3
          have hpre : (txt "http").isPrefixOf (txt "https://" ++ host ++ (match item d (none, a) with
              | some u => u
              | none => txt "/" ++ c.relpath.drop 11)) = true := by
            rw [List.append_assoc]
            exact http_absolute (.inr ⟨_, rfl⟩)
          refine ⟨t' :: out, deps', ?_, .cons ?_ g2, fun q => by rw [g3, hnamed]⟩
          · have htake : Taken (pageManips c l rest) ((deps, r) : List Text × R) t (canonical c) (deps, r) := .head h1
            have hclose : Closed (canonical c : Manip (List Text × R) HTok HErr) (deps, r) [t] [t'] (deps, r) :=
              ⟨[], t, _, rfl, .nil, h2⟩
            exact Stream.replace (rest := ts) htake rfl hclose
              (.keep (keep t' (canonTag_http hc' hv' hpre) (fun b p => canon_not_links hc') (hrest t' (.inr ⟨_, _, h3⟩)) _) g1)
          · refine ⟨fun b p h => absurd h (hnl b p), ?_, ?_, ?_, fun _ hno => absurd hcad (hno a d)⟩
            · intro b e h hn
              obtain ⟨rfl, rfl⟩ := hdet b e h
              rw [hn] at h3
              dsimp only at h3
              have e11 : (txt "src/public/").length = 11 := by decide
              rw [hf, ← e11, List.drop_left] at h3
              rw [List.append_assoc] at h3 ⊢
              rw [List.append_assoc]
              exact h3
            · intro b e p h hn
              obtain ⟨rfl, rfl⟩ := hdet b e h
              rw [hn] at h3
              dsimp only at h3
              rw [List.append_assoc] at h3 ⊢
              rw [List.append_assoc]
              exact h3
            · intro b e u h hn hab
              obtain ⟨rfl, rfl⟩ := hdet b e h
              exact absurd ⟨u, hn, hab⟩ habs
      · have hnc : ∀ a d, ¬ Canon t a d := fun a d h => hcn ⟨a, d, h⟩
        refine ⟨t :: out, deps', .keep (keep t (canonTag_not hnc) hnl (hrest t (.inl rfl)) deps) g1, .cons ?_ g2,
          fun q => by rw [g3, hnamed]⟩
        exact ⟨fun b p h => absurd h (hnl b p), fun b d h => absurd h (hnc b d), fun b d _ h => absurd h (hnc b d),
          fun b d _ h => absurd h (hnc b d), fun _ _ => rfl⟩

/-- In scan mode the document passes through unchanged, and the dependencies are the same as the children of the
build. -/
theorem page_scan {c : CanonEnv} {l : LinkEnv} {rest : List (Manip (List Text × R) HTok HErr)} {host : Text}
    (hc : c.scan = true) (hl : l.scan = true) (hh : c.host = some host) {ts : List HTok}
    (hs : ∀ t ∈ ts, ∀ a p, Links t a p → p.head? ≠ some 47)
    (hr : ∀ m ∈ rest, ∀ s, ∀ t ∈ ts, m.start s t = .ok (false, s)) (deps : List Text) (r : R) :
    ∃ deps', Stream (pageManips c l rest) (deps, r) ts ts none (deps', r) ∧ ∀ q, q ∈ deps' ↔ q ∈ deps ∨ Named ts q := by
  induction ts generalizing deps with
  | nil => exact ⟨deps, .nil, fun q => by simp [Named]⟩
  | cons t ts ih =>
    have ih' := ih (fun t' ht => hs t' (by simp [ht])) (fun m hm s t' h => hr m hm s t' (by simp [h]))
    have h1 : ∀ s : List Text × R, (canonical c).start s t = .ok (false, s) := by
      intro s
      simp only [canonical, canonStart]
      split
      · rfl
      · simp [hc, hh]
    have h3 : ∀ s : List Text × R, Declined rest s t s := fun s => declined_rest (fun m hm s => hr m hm s t (by simp))
    by_cases hlk : ∃ a p, Links t a p
    · obtain ⟨a, p, hlp⟩ := hlk
      obtain ⟨deps', g1, g2⟩ := ih' (deps ++ [txt "src/public/" ++ p])
      refine ⟨deps', .keep (.cons (h1 _) (.cons (s' := (deps ++ [txt "src/public/" ++ p], r)) ?_ (h3 _))) g1, ?_⟩
      · obtain ⟨nm, ats, -, -, -, hd⟩ := asDependency_links hlp
        simp [lift, linkHash, linkStart, hd, hl, srcPublic_join (hs t (by simp) a p hlp)]
      · intro q
        rw [g2]
        constructor
        · rintro (h | ⟨u, hu, h⟩)
          · rcases List.mem_append.1 h with h | h
            · exact .inl h
            · exact .inr ⟨t, by simp, a, p, hlp, by simpa using h⟩
          · exact .inr ⟨u, by simp [hu], h⟩
        · rintro (h | ⟨u, hu, b, p', h, rfl⟩)
          · exact .inl (by simp [h])
          · rcases List.mem_cons.1 hu with rfl | hu
            · obtain ⟨-, rfl⟩ := links_det hlp h
              exact .inl (by simp)
            · exact .inr ⟨u, hu, b, p', h, rfl⟩
    · have hnl : ∀ a p, ¬ Links t a p := fun a p h => hlk ⟨a, p, h⟩
      obtain ⟨deps', g1, g2⟩ := ih' deps
      refine ⟨deps', .keep (.cons (h1 _) (.cons (link_declines hnl) (h3 _))) g1, ?_⟩
      intro q
      rw [g2]
      constructor
      · rintro (h | ⟨u, hu, h⟩)
        · exact .inl h
        · exact .inr ⟨u, by simp [hu], h⟩
      · rintro (h | ⟨u, hu, b, p', h, e⟩)
        · exact .inl h
        · rcases List.mem_cons.1 hu with rfl | hu
          · exact absurd h (hnl b p')
          · exact .inr ⟨u, hu, b, p', h, e⟩

/-! ## C49 and C50 -/

/-- **C49 and C50 in part**: the builder, however the tokens are handed over and collected, gives every token its fate.
Missing: scripts with an `href`, attributes with namespaces, urls `//...`, canonical urls which are neither absolute
nor begin with a slash (for all of these the property is false, see below); and documents in which the other
manipulators take tokens, for which see `C49_output`. -/
theorem C49_C50_partial {c : CanonEnv} {l : LinkEnv} {rest : List (Manip (List Text × R) HTok HErr)} {host file : Text}
    (hc : c.scan = false) (hl : l.scan = false) (hh : c.host = some host) (hf : c.relpath = txt "src/public/" ++ file)
    (ops : List (Op HTok)) (hs : ∀ t ∈ tokensOf ops, Sound l t)
    (hr : ∀ m ∈ rest, ∀ s t', (t' ∈ tokensOf ops ∨ ∃ t ∈ tokensOf ops, ∃ a v, WithAttr t t' a v) → m.start s t' = .ok (false, s))
    (r : R) :
    ∃ fuel acc left children, runOps (pageManips c l rest) fuel (State.new ([], r)) [] ops =
        some (.ok (acc, { output := left, mark := none, st := (children, r) })) ∧
      List.Forall₂ (Fate host file l) (tokensOf ops) (acc ++ left) ∧ ∀ q, q ∈ children ↔ Named (tokensOf ops) q := by
  obtain ⟨out, deps', h1, h2, h3⟩ := page_build hc hl hh hf hs hr [] r
  obtain ⟨fuel, acc, left, h4, h5⟩ := C32_complete _ _ _ ops _ _ h1
  exact ⟨fuel, acc, left, deps', h4, by rw [h5]; exact h2, fun q => by rw [h3]; simp⟩

/-- The tokens of the output of a builder were declined by all its manipulators. -/
theorem stream_declined {S τ E : Type} {ms : List (Manip S τ E)} {s s' : S} {ts out : List τ} {m : Option (Manip S τ E)}
    (h : Stream ms s ts out m s') : ∀ t ∈ out, ∃ s1 s2, Declined ms s1 t s2 := by
  induction h with
  | nil => simp
  | keep h1 _ ih =>
    intro t ht
    rcases List.mem_cons.1 ht with rfl | ht
    · exact ⟨_, _, h1⟩
    · exact ih t ht
  | replace _ _ _ _ ih => exact ih
  | unfinished => simp

theorem declined_mem {S τ E : Type} {ms : List (Manip S τ E)} {s s' : S} {t : τ} (h : Declined ms s t s')
    {m : Manip S τ E} (hm : m ∈ ms) : ∃ s1 s2, m.start s1 t = .ok (false, s2) := by
  induction h with
  | nil => simp at hm
  | cons h1 _ ih =>
    rcases List.mem_cons.1 hm with rfl | hm
    · exact ⟨_, _, h1⟩
    · exact ih hm

/-- **C49**, every document and any other manipulators, before and behind: the output has no link without the
parameters. -/
theorem C49_output {S : Type} {ms : List (Manip S HTok HErr)} {l : LinkEnv} (hl : l.scan = false)
    {look : S → List Text} {store : S → List Text → S} (hm : lift look store (linkHash l) ∈ ms) {fuel : Nat} {s : S}
    {ops : List (Op HTok)} {acc : List HTok} {b : State S HTok HErr}
    (h : runOps ms fuel (State.new s) [] ops = some (.ok (acc, b))) : ∀ t ∈ acc ++ b.output, ∀ a p, ¬ Links t a p := by
  intro t ht a p hlp
  obtain ⟨s1, s2, hd⟩ := stream_declined (C32 ms fuel s ops acc b h) t ht
  obtain ⟨s3, s4, hst⟩ := declined_mem hd hm
  obtain ⟨nm, ats, -, -, -, hdep⟩ := asDependency_links hlp
  simp [lift, linkHash, linkStart, hdep, hl] at hst

/-- **C50**, every document and any other manipulators: the output has no canonical url which does not begin with
`http`. -/
theorem C50_output {S : Type} {ms : List (Manip S HTok HErr)} {c : CanonEnv} (hc : c.scan = false)
    (hm : canonical c ∈ ms) {fuel : Nat} {s : S}
    {ops : List (Op HTok)} {acc : List HTok} {b : State S HTok HErr}
    (h : runOps ms fuel (State.new s) [] ops = some (.ok (acc, b))) :
    ∀ t ∈ acc ++ b.output, ∀ a d, Canon t a d → ∃ u, item d (none, a) = some (txt "http" ++ u) := by
  intro t ht a d hcn
  obtain ⟨s1, s2, hd⟩ := stream_declined (C32 ms fuel s ops acc b h) t ht
  obtain ⟨s3, s4, hst⟩ := declined_mem hd hm
  have hi := (canonInner_iff (tag := ⟨if a = txt "href" then txt "link" else txt "meta", a⟩)).2 ⟨rfl, hcn⟩
  cases hg : item d (none, a) with
  | none => simp [canonical, canonStart, canonTag, hi, hg, hc] at hst
  | some u =>
    cases hp : (txt "http").isPrefixOf u with
    | false => simp [canonical, canonStart, canonTag, hi, hg, hc, hp] at hst
    | true =>
      obtain ⟨r, hr⟩ := List.isPrefixOf_iff_prefix.1 hp
      exact ⟨r, by rw [hr]⟩

/-! ## The parameters -/

/-- How a server reads the value of a parameter, for ASCII. -/
def unquote : Text → Text
  | 37 :: a :: b :: cs =>
    (16 * (if a ≤ 57 then a - 48 else a - 55) + (if b ≤ 57 then b - 48 else b - 55)) :: unquote cs
  | 43 :: cs => 32 :: unquote cs
  | c :: cs => c :: unquote cs
  | [] => []

theorem unquote_other {c : Nat} (h1 : c ≠ 37) (h2 : c ≠ 43) (cs : Text) : unquote (c :: cs) = c :: unquote cs := by
  rw [unquote.eq_def]
  split
  · next e => cases e; exact absurd rfl h1
  · next e => cases e; exact absurd rfl h2
  · next e => cases e; rfl
  · next e => cases e

/-- **C49**: the parameter is the hash, for every ASCII text. -/
theorem C49_query (enc : Nat → Text) : ∀ {s : Text}, (∀ c ∈ s, c < 128) → unquote (quotePlus enc s) = s := by
  intro s
  induction s with
  | nil => intro _; simp [quotePlus, unquote]
  | cons c s ih =>
    intro h
    have hc := h c (by simp)
    have ih' := ih (fun x hx => h x (by simp [hx]))
    simp only [quotePlus]
    by_cases h1 : isUrlSafe c = true
    · rw [if_pos h1]
      have h37 : c ≠ 37 := by rintro rfl; simp [isUrlSafe] at h1
      have h43 : c ≠ 43 := by rintro rfl; simp [isUrlSafe] at h1
      rw [List.singleton_append, unquote_other h37 h43, ih']
    · rw [if_neg h1]
      by_cases h2 : c = 32
      · subst h2; rw [if_pos rfl, List.singleton_append, unquote, ih']
      · rw [if_neg h2, if_pos hc]
        simp only [List.cons_append, List.nil_append, unquote, ih', List.cons.injEq, and_true]
        unfold upperHexDigit
        split <;> split <;> (try split) <;> (try split) <;> omega

/-- The separators do not occur in the value of a parameter of ASCII characters. -/
theorem C49_query_safe (enc : Nat → Text) : ∀ {s : Text}, (∀ c ∈ s, c < 128) →
    ∀ c ∈ quotePlus enc s, c ≠ 38 ∧ c ≠ 35 ∧ c ≠ 61 ∧ c ≠ 32 ∧ c ≠ 34 ∧ c ≠ 63 := by
  intro s
  induction s with
  | nil => intro _ c hc; simp [quotePlus] at hc
  | cons x s ih =>
    intro h c hc
    have hx := h x (by simp)
    simp only [quotePlus, List.mem_append] at hc
    rcases hc with hc | hc
    · by_cases h1 : isUrlSafe x = true
      · rw [if_pos h1] at hc
        simp at hc; subst hc
        refine ⟨?_, ?_, ?_, ?_, ?_, ?_⟩ <;> rintro rfl <;> simp [isUrlSafe] at h1
      · rw [if_neg h1] at hc
        by_cases h2 : x = 32
        · rw [if_pos h2] at hc; simp at hc; subst hc; simp
        · rw [if_neg h2, if_pos hx] at hc
          simp only [List.mem_cons, List.not_mem_nil, or_false] at hc
          have hup : ∀ d, d < 16 → 48 ≤ upperHexDigit d ∧ upperHexDigit d ≠ 61 ∧ upperHexDigit d ≠ 63 := by
            intro d hd; unfold upperHexDigit; split <;> omega
          rcases hc with rfl | rfl | rfl
          · simp
          · have := hup (x / 16) (by omega); omega
          · have := hup (x % 16) (by omega); omega
    · exact ih (fun y hy => h y (by simp [hy])) c hc

/-! ## A case, and where the property is false -/

def demoLink : LinkEnv where
  scan := false
  folder := txt "p"
  strip := id
  enc := fun _ => []
  read := fun p => if p = txt "p/out/www/js/a.js.hash" then some (txt "ab-_=") else none

def demoCanon : CanonEnv := { scan := false, host := some (txt "example.com"), relpath := txt "src/public/x/index.html" }

def demoDoc : List HTok :=
  [.emptyTag (txt "link") [((none, txt "rel"), txt "canonical")],
   .emptyTag (txt "meta") [((none, txt "property"), txt "og:url"), ((none, txt "content"), txt "/y")],
   .startTag (txt "script") [((none, txt "src"), txt "/js/a.js"), ((none, txt "async"), [])],
   .endTag (txt "script"), .startTag (txt "p") [], .comment (txt "x")]

theorem C49_C50_case : (runOps (pageManips demoCanon demoLink []) 20 (State.new (([], ()) : List Text × Unit)) []
      (demoDoc.map .token ++ [.consume])).map (fun r => r.map fun p => (p.1, p.2.st.1)) =
    some (.ok ([.emptyTag (txt "link") [((none, txt "href"), txt "https://example.com/x/index.html"), ((none, txt "rel"), txt "canonical")],
      .emptyTag (txt "meta") [((none, txt "content"), txt "https://example.com/y"), ((none, txt "property"), txt "og:url")],
      .startTag (txt "script") [((none, txt "async"), []), ((none, txt "src"), txt "/js/a.js?v=ab-_%3D&pv=1.3.2")],
      .endTag (txt "script"), .startTag (txt "p") [], .comment (txt "x")], [txt "src/public/js/a.js"])) := by
  decide +kernel

/-- The conditions on the tokens, decided. -/
theorem sound_of {l : LinkEnv} {t : HTok} (h1 : (keys (attrsOf t)).Nodup) (h2 : ∀ p ∈ attrsOf t, p.1.1 = none)
    (h3 : item (attrsOf t) (none, txt "href") = none ∨ ∀ d, t ≠ .startTag (txt "script") d)
    (h4 : (asDependency t).all (fun dep => dep.path.head? != some 47 &&
      (l.read (Paths.join l.folder (txt "out/www/" ++ dep.path ++ txt ".hash"))).isSome) = true)
    (h5 : (canonInner t).all (fun q => (item q.2 (none, q.1.attr)).all fun u =>
      (txt "http://").isPrefixOf u || (txt "https://").isPrefixOf u || (txt "/").isPrefixOf u) = true) : Sound l t := by
  have hp : ∀ a p, Links t a p → p.head? ≠ some 47 ∧ (l.read (Paths.join l.folder (txt "out/www/" ++ p ++ txt ".hash"))).isSome = true := by
    intro a p h
    obtain ⟨_, _, _, _, _, e⟩ := asDependency_links h
    rw [e] at h4
    simpa using h4
  refine ⟨⟨h1, h2⟩, ?_, fun a p h => (hp a p h).1, fun a p h => (hp a p h).2, ?_⟩
  · intro d hd
    rcases h3 with h | h
    · rw [hd] at h; exact h
    · exact absurd hd (h d)
  · intro a d u hc hu
    have hi := (canonInner_iff (tag := ⟨if a = txt "href" then txt "link" else txt "meta", a⟩)).2 ⟨rfl, hc⟩
    rw [hi] at h5
    simp only [Option.all_some, hu, Bool.or_eq_true] at h5
    rcases h5 with (h | h) | h
    · obtain ⟨r, hr⟩ := List.isPrefixOf_iff_prefix.1 h
      exact .inl (.inl ⟨r, hr.symm⟩)
    · obtain ⟨r, hr⟩ := List.isPrefixOf_iff_prefix.1 h
      exact .inl (.inr ⟨r, hr.symm⟩)
    · obtain ⟨r, hr⟩ := List.isPrefixOf_iff_prefix.1 h
      exact .inr ⟨r, hr.symm⟩

/-- The case meets the hypotheses of `C49_C50_partial`. -/
theorem C49_C50_case_sound : ∀ t ∈ demoDoc, Sound demoLink t := by
  intro t ht
  simp only [demoDoc, List.mem_cons, List.not_mem_nil, or_false] at ht
  rcases ht with rfl | rfl | rfl | rfl | rfl | rfl <;>
    exact sound_of (by decide +kernel) (by decide +kernel) (.inl (by decide +kernel)) (by decide +kernel) (by decide +kernel)

/-- **C49 is false** for a script with an `href`: the attribute is lost. -/
theorem C49_false_href : linkCont demoLink [] (.startTag (txt "script") [((none, txt "src"), txt "/js/a.js"), ((none, txt "href"), txt "h")]) =
    .ok (some [.startTag (txt "script") [((none, txt "src"), txt "/js/a.js?v=ab-_%3D&pv=1.3.2")]], []) := by
  decide +kernel

/-- **C49 is false** for attributes with a namespace, which they lose. -/
theorem C49_false_namespace :
    linkCont demoLink [] (.startTag (txt "script") [((none, txt "src"), txt "/js/a.js"), ((some (txt "xml"), txt "lang"), txt "en")]) =
    .ok (some [.startTag (txt "script") [((none, txt "lang"), txt "en"), ((none, txt "src"), txt "/js/a.js?v=ab-_%3D&pv=1.3.2")]], []) := by
  decide +kernel

/-- **C49 is false** for a script on another domain: `//cdn/x.js` is looked up as the file `/cdn/x.js`. -/
theorem C49_false_protocol : linkStart demoLink [] (.startTag (txt "script") [((none, txt "src"), txt "//cdn/x.js")]) =
      .ok (true, [txt "/cdn/x.js"]) ∧
    linkCont demoLink [] (.startTag (txt "script") [((none, txt "src"), txt "//cdn/x.js")]) = .error (.noHash (txt "/cdn/x.js.hash")) := by
  decide +kernel

/-- **C50 is false** for an absolute url with an upper-case scheme, for a url relative to the page, and for one whose
first folder begins with `http`. -/
theorem C50_false :
    canonCont demoCanon () (.emptyTag (txt "link") [((none, txt "rel"), txt "canonical"), ((none, txt "href"), txt "HTTPS://a.b/")]) =
      .ok (some [.emptyTag (txt "link") [((none, txt "href"), txt "https://example.comHTTPS://a.b/"), ((none, txt "rel"), txt "canonical")]], ()) ∧
    canonCont demoCanon () (.emptyTag (txt "link") [((none, txt "rel"), txt "canonical"), ((none, txt "href"), txt "about.html")]) =
      .ok (some [.emptyTag (txt "link") [((none, txt "href"), txt "https://example.comabout.html"), ((none, txt "rel"), txt "canonical")]], ()) ∧
    canonStart demoCanon () (.emptyTag (txt "link") [((none, txt "rel"), txt "canonical"), ((none, txt "href"), txt "http-intro.html")]) =
      .ok (false, ()) := by
  decide +kernel

end Verif.Html
