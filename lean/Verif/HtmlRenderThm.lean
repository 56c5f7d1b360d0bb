import Verif.HtmlRender

/-!
# C66: the proof
-/

namespace Verif.Html.Page

open Verif.Reader (Text txt)
open Verif.Build
open Verif.Assoc (item put ofList keys get_put get_none get_ofList_nodup nodup_ofList mem_keys_put)
open Verif.Paths (join)
open Verif.Handlers (Bytes Fs Scan Built copyScan hashScan copyTarget hashBuild)
open Verif.Img (GoodSpace digits)

variable {E J : Type}

/-! ## Pictures -/

theorem srcset_spec : ∀ ps : List Pic, SrcSet ps (srcset ps)
  | [] => .nil
  | [_] => .one
  | p :: q :: ps => by
    have := SrcSet.more (p := p) (srcset_spec (q :: ps))
    have e : txt "w, " = txt "w" ++ txt ", " := by decide
    rw [e] at this
    simpa [srcset, commaJoin] using this

theorem SrcSet.eq : ∀ {ps : List Pic} {x : Text}, SrcSet ps x → x = srcset ps
  | _, _, .nil => rfl
  | _, _, .one => rfl
  | _, _, @SrcSet.more p q ps x h => by
    have e : txt "w, " = txt "w" ++ txt ", " := by decide
    rw [h.eq, e]
    simp [srcset, commaJoin]

theorem sources_spec : ∀ os : List (Text × List Pic),
    List.Forall₂ Source os (os.map fun o => .emptyTag (txt "source") [((none, txt "srcset"), srcset o.2)])
  | [] => .nil
  | o :: os => .cons (.mk (srcset_spec o.2)) (sources_spec os)

theorem sources_eq {os : List (Text × List Pic)} {ts : List HTok} (h : List.Forall₂ Source os ts) :
    ts = os.map fun o => .emptyTag (txt "source") [((none, txt "srcset"), srcset o.2)] := by
  induction h with
  | nil => rfl
  | cons h1 _ ih =>
    cases h1 with
    | mk hx => rw [ih, hx.eq]; rfl

theorem picture_spec {format : Text} {c : Img.Command J} {outputs : List (Text × List Pic)} {r : List HTok}
    (h : (picture format c outputs : Except (PErr E) (List HTok)) = .ok r) : Picture format c outputs r := by
  unfold picture at h
  split at h
  · cases h
  · next ps hps =>
    split at h
    · cases h
    · next p hp =>
      rw [List.find?_eq_some_iff_append] at hp
      obtain ⟨h1, before, after, h2, h3⟩ := hp
      simp only [decide_eq_true_eq] at h1
      cases h
      have := Picture.mk (c := c) hps h2 h1.1 h1.2 (fun q hq => by
        have := h3 q hq
        simp only [Bool.not_eq_true', decide_eq_false_iff_not] at this
        exact this) (sources_spec _) (srcset_spec ps)
      simpa using this

/-- Nothing is done with the tokens of a picture. -/
theorem picture_calm {env : Env E J} {format : Text} {c : Img.Command J} {outputs : List (Text × List Pic)} {r : List HTok}
    (h : Picture format c outputs r) : ∀ t ∈ r, Calm env t ∧ Ordinary env.tpl t := by
  have n1 : txt "picture" ≠ txt "script" := by decide
  have n2 : txt "picture" ≠ txt "style" := by decide
  have n3 : txt "source" ≠ txt "link" := by decide
  have n4 : txt "source" ≠ txt "meta" := by decide
  have n5 : txt "img" ≠ txt "link" := by decide
  have n6 : txt "img" ≠ txt "meta" := by decide
  have hstart : ∀ d, Calm env (.startTag (txt "picture") d) ∧ Ordinary env.tpl (.startTag (txt "picture") d) := fun d =>
    ⟨⟨rfl, by simp [asDependency, linkType, n1], rfl, by simp [outlined, n1, n2]⟩, rfl, rfl⟩
  have hsrc : ∀ d, Calm env (.emptyTag (txt "source") d) ∧ Ordinary env.tpl (.emptyTag (txt "source") d) := fun d =>
    ⟨⟨by simp [canonTag, canonInner, n3, n4], by simp [asDependency, linkType, n3], rfl, rfl⟩, rfl, rfl⟩
  have himg : ∀ d, Calm env (.emptyTag (txt "img") d) ∧ Ordinary env.tpl (.emptyTag (txt "img") d) := fun d =>
    ⟨⟨by simp [canonTag, canonInner, n5, n6], by simp [asDependency, linkType, n5], rfl, rfl⟩, rfl, rfl⟩
  have hend : Calm env (.endTag (txt "picture")) ∧ Ordinary env.tpl (.endTag (txt "picture")) := ⟨⟨rfl, rfl, rfl, rfl⟩, rfl, rfl⟩
  cases h with
  | mk _ _ _ _ _ hsrcs _ =>
    rw [sources_eq hsrcs]
    intro t ht
    simp only [List.mem_append, List.mem_singleton, List.mem_map, List.mem_cons, List.not_mem_nil, or_false] at ht
    rcases ht with (rfl | ⟨o, -, rfl⟩) | rfl | rfl
    · exact hstart _
    · exact hsrc _
    · exact himg _
    · exact hend

/-! ## Inline elements -/

theorem get_names {d : Attrs} (hd : Plain d) (h : item d (none, txt "src") = none) (k : Text) : item (scriptAttrs d) k = item d (none, k) := by
  have hf : d.filter (fun p => decide (p.1.2 ≠ txt "src")) = d := by
    rw [List.filter_eq_self]
    intro p hp
    simp only [decide_eq_true_eq]
    intro he
    rw [get_none] at h
    apply h
    refine List.mem_map.2 ⟨p, hp, ?_⟩
    exact Prod.ext_iff.2 ⟨hd.2 p hp, he⟩
  have := get_others hd (txt "src") k
  rw [hf] at this
  unfold scriptAttrs
  rw [this]
  split
  · next hk => rw [hk, h]
  · rfl

theorem tags_script {d : Attrs} (hd : Plain d) (h : item d (none, txt "src") = none) (path text url : Text) :
    Tags .script d url (outlineTags ⟨.script, path, scriptAttrs d, text⟩ url) := by
  have ho := get_names hd h
  have key := get_rewritten hd (a := txt "src") (v := url) (names := keys (put (scriptAttrs d) (txt "src") url))
    (f := fun k => (item (put (scriptAttrs d) (txt "src") url) k).getD [])
    (by
      intro k
      rw [mem_keys_put]
      have e : k ∈ keys (scriptAttrs d) ↔ item (scriptAttrs d) k ≠ none := by rw [ne_eq, get_none]; simp
      rw [e, ho])
    (by simp [get_put])
    (by
      intro k hk w hw
      simp [get_put, hk, ho, hw])
  exact .script (nodup_ofList _) key.1 key.2

theorem tags_style (path text url : Text) : Tags .style [] url (outlineTags ⟨.style, path, [], text⟩ url) := by
  have hne : txt "rel" ≠ txt "href" := by decide
  have hk : ∀ k, k ∈ keys (put (put ([] : List (Text × Text)) (txt "href") url) (txt "rel") (txt "stylesheet")) ↔ k = txt "rel" ∨ k = txt "href" := by
    intro k
    rw [mem_keys_put, mem_keys_put]
    simp [keys]
  have hi : ∀ k, item (put (put ([] : List (Text × Text)) (txt "href") url) (txt "rel") (txt "stylesheet")) k =
      if k = txt "rel" then some (txt "stylesheet") else if k = txt "href" then some url else none := by
    intro k
    rw [get_put, get_put]
    split
    · rfl
    · split <;> rfl
  refine .style (nodup_ofList _) ?_ ?_ ?_
  · simp only
    rw [get_byName, if_pos ⟨rfl, mem_sortKeys.2 ((hk _).2 (.inr rfl))⟩, hi, if_neg hne.symm, if_pos rfl]
    rfl
  · simp only
    rw [get_byName, if_pos ⟨rfl, mem_sortKeys.2 ((hk _).2 (.inl rfl))⟩, hi, if_pos rfl]
    rfl
  · rintro ⟨ns, n⟩ h1 h2
    simp only
    rw [get_byName, if_neg]
    rintro ⟨rfl, hm⟩
    rcases (hk _).1 (mem_sortKeys.1 hm) with rfl | rfl
    · exact h2 rfl
    · exact h1 rfl

/-- The new tags are left alone. -/
theorem tags_calm {env : Env E J} {k : Kind} {d : Attrs} {x hash : Text} {r : List HTok} (h : Tags k d (txt "/" ++ x ++ query env hash) r) :
    ∀ t ∈ r, Calm env t ∧ Ordinary env.tpl t := by
  have hq : ∀ q, txt "/" ++ x ++ query env hash = 47 :: q → 63 ∈ q := by
    intro q hq
    have e1 : txt "?v=" = [63, 118, 61] := by decide
    have e2 : txt "/" = [47] := by decide
    unfold query at hq
    rw [e1, e2] at hq
    simp only [List.cons_append, List.nil_append, List.cons.injEq, true_and] at hq
    rw [← hq]
    simp
  cases h with
  | @script _ d' _ _ h1 _ =>
    intro t ht
    simp only [List.mem_cons, List.not_mem_nil, or_false] at ht
    rcases ht with rfl | rfl
    · have hne : txt "script" ≠ txt "style" := by decide
      refine ⟨⟨rfl, asDependency_none.2 ?_, rfl, by simp [outlined, h1, hne]⟩, rfl, rfl⟩
      intro a p hl
      cases hl with
      | script h2 h3 => rw [h1] at h2; exact h3 (hq _ (Option.some.inj h2))
    · exact ⟨⟨rfl, rfl, rfl, rfl⟩, rfl, rfl⟩
  | @style d' _ _ h1 h2 _ =>
    intro t ht
    simp only [List.mem_cons, List.not_mem_nil, or_false] at ht
    subst ht
    have hne : txt "stylesheet" ≠ txt "canonical" := by decide
    refine ⟨⟨by simp [canonTag, canonInner, h2, hne], asDependency_none.2 ?_, rfl, rfl⟩, rfl, rfl⟩
    intro a p hl
    cases hl with
    | sheet _ h3 h4 => rw [h1] at h3; exact h4 (hq _ (Option.some.inj h3))
    | preload _ h3 h4 => rw [h1] at h3; exact h4 (hq _ (Option.some.inj h3))

/-- Inside an element: either the document ends there, or the element ends and is replaced. -/
theorem outline_run {env : Env E J} {b' : State St HTok (PErr E)} : ∀ (fuel : Nat) (ts : List HTok) (b : State St HTok (PErr E)) (j : Job),
    b.mark = some (outline env) → b.st.job = some j → loop (manips env) fuel b ts = some (.ok b') →
    (∃ x, Texts ts x ∧ b'.mark = some (outline env) ∧ b'.st.job.isSome) ∨
    (∃ body x n rest g r s', ts = body ++ .endTag n :: rest ∧ Texts body x ∧ g < fuel ∧
      outlineClose env { b.st with job := some { j with text := j.text ++ x } } { j with text := j.text ++ x } = .ok (some r, s') ∧
      loop (manips env) g { b with mark := none, st := s' } (r ++ rest) = some (.ok b')) := by
  intro fuel
  induction fuel with
  | zero =>
    intro ts b j hm hj hl
    cases ts with
    | nil =>
      simp only [loop, Option.some.injEq, Except.ok.injEq] at hl
      subst hl
      exact .inl ⟨[], .nil, hm, by simp [hj]⟩
    | cons t ts => simp [loop] at hl
  | succ fuel ih =>
    intro ts b j hm hj hl
    cases ts with
    | nil =>
      simp only [loop, Option.some.injEq, Except.ok.injEq] at hl
      subst hl
      exact .inl ⟨[], .nil, hm, by simp [hj]⟩
    | cons t ts =>
      have hround : Build.round (manips env) b t ts = continueMark (outline env) b b.st t ts := by simp [Build.round, hm]
      simp only [loop, hround] at hl
      have htext : ∀ d : Text, (outline env).cont b.st t = .ok (none, { b.st with job := some { j with text := j.text ++ d } }) →
          (∀ {ts x}, Texts ts x → Texts (t :: ts) (d ++ x)) →
          (∃ x, Texts (t :: ts) x ∧ b'.mark = some (outline env) ∧ b'.st.job.isSome) ∨
          (∃ body x n rest g r s', t :: ts = body ++ .endTag n :: rest ∧ Texts body x ∧ g < fuel + 1 ∧
            outlineClose env { b.st with job := some { j with text := j.text ++ x } } { j with text := j.text ++ x } = .ok (some r, s') ∧
            loop (manips env) g { b with mark := none, st := s' } (r ++ rest) = some (.ok b')) := by
        intro d hcont htx
        rw [continueMark, hcont] at hl
        rcases ih ts _ _ rfl rfl hl with ⟨x, h1, h2, h3⟩ | ⟨body, x, n, rest, g, r, s', h1, h2, h3, h4, h5⟩
        · exact .inl ⟨d ++ x, htx h1, h2, h3⟩
        · refine .inr ⟨t :: body, d ++ x, n, rest, g, r, s', by rw [h1]; rfl, htx h2, by omega, ?_, h5⟩
          simpa only [List.append_assoc] using h4
      cases t with
      | characters d => exact htext d (by simp [outline, outlineCont, hj]) .chars
      | spaces d => exact htext d (by simp [outline, outlineCont, hj]) .spaces
      | endTag n =>
        have hcont : (outline env).cont b.st (.endTag n) = outlineClose env b.st j := by simp [outline, outlineCont, hj]
        rw [continueMark, hcont] at hl
        cases hc : outlineClose env b.st j with
        | error e => rw [hc] at hl; simp at hl
        | ok p =>
          obtain ⟨r, s'⟩ := p
          rw [hc] at hl
          cases r with
          | none =>
            unfold outlineClose at hc
            simp only at hc
            split at hc
            · split at hc <;> cases hc
            · split at hc
              · cases hc
              · split at hc
                · cases hc
                · split at hc <;> cases hc
          | some r =>
            refine .inr ⟨[], [], n, ts, fuel, r, s', rfl, .nil, by omega, ?_, hl⟩
            have e1 : ({ b.st with job := some { j with text := j.text ++ [] } } : St) = b.st := by
              simp only [List.append_nil]
              rw [← hj]
            have e2 : ({ j with text := j.text ++ [] } : Job) = j := by simp
            rw [e1, e2]
            exact hc
      | startTag n d => simp [continueMark, outline, outlineCont, hj] at hl
      | emptyTag n d => simp [continueMark, outline, outlineCont, hj] at hl
      | comment d => simp [continueMark, outline, outlineCont, hj] at hl
      | doctype d => simp [continueMark, outline, outlineCont, hj] at hl

theorem query_eq (env : Env E J) (hash : Text) : txt "?" ++ cacheQuery env.enc hash = query env hash := by
  have h1 : quotePlus env.enc processorVersion = txt "1.3.2" := by
    have : processorVersion = [49, 46, 51, 46, 50] := by decide
    have e2 : txt "1.3.2" = [49, 46, 51, 46, 50] := by decide
    rw [this, e2]
    simp [quotePlus, isUrlSafe]
  have h2 : txt "?v=" = txt "?" ++ txt "v=" := by decide
  have h3 : txt "&pv=1.3.2" = txt "&pv=" ++ txt "1.3.2" := by decide
  unfold query cacheQuery
  rw [h1, h2, h3]
  simp only [List.append_assoc]

/-- The end of an element. -/
theorem close_spec {env : Env E J} (hb : env.scan = false) {stem : Text} (hs : PageFile env.rel stem) {s s' : St} {k : Kind} {n : Nat}
    {a : List (Text × Text)} {text : Text} {r : List HTok} (hn : s.count k = n)
    (h : outlineClose env s ⟨k, genFile (txt "src/public") k env.rel n, a, text⟩ = .ok (some r, s')) :
    ∃ res fs hash, (env.handler k).build (s.fs.write (txt "src/public/" ++ generated stem k n) (env.encode text)) (txt "src/public/" ++ generated stem k n) =
        .ok (res, fs) ∧ fs (txt "src/public/" ++ generated stem k n) ≠ none ∧ fs (txt "out/www/" ++ generated stem k n ++ txt ".hash") = some hash ∧
      r = outlineTags ⟨k, txt "src/public/" ++ generated stem k n, a, text⟩ (txt "/" ++ generated stem k n ++ query env (env.decode hash)) ∧
      s' = { s with fs := remove fs (txt "src/public/" ++ generated stem k n), job := none, outBuilt := addBuilt s.outBuilt res } := by
  have e1 : txt "src/public" ++ txt "/" = txt "src/public/" := by decide
  have e2 : txt "out/www" ++ txt "/" = txt "out/www/" := by decide
  have e3 : txt "src/public/" = txt "src/public" ++ txt "/" := by decide
  rw [genFile_spec hs k n (.inl rfl), e1] at h
  unfold outlineClose at h
  simp only [hb, Bool.false_eq_true, if_false] at h
  rw [hn, genFile_spec hs k n (.inr rfl), e2] at h
  split at h
  · cases h
  · next res fs hbd =>
    split at h
    · cases h
    · next hx =>
      split at h
      · cases h
      · next hash hh =>
        simp only [Except.ok.injEq, Prod.mk.injEq, Option.some.injEq] at h
        have hne : txt "out/www/" ++ generated stem k n ++ txt ".hash" ≠ txt "src/public/" ++ generated stem k n := by
          have e4 : txt "out/www/" = 111 :: txt "ut/www/" := by decide
          have e5 : txt "src/public/" = 115 :: txt "rc/public/" := by decide
          rw [e4, e5]
          simp
        refine ⟨res, fs, hash, hbd, by rw [hx]; simp, ?_, ?_, h.2.symm⟩
        · unfold remove at hh
          rwa [if_neg hne] at hh
        · rw [← h.1, ← query_eq]
          have hd : (txt "src/public/" ++ generated stem k n).drop (txt "src/public").length = txt "/" ++ generated stem k n := by
            rw [e3, List.append_assoc, List.drop_left' rfl]
          rw [hd]
          simp only [List.append_assoc]

/-! ## The page -/

/-- What the page has done. -/
def worldOf (s : St) : World := ⟨s.fs, s.links, s.imgBuilt, s.scripts, s.styles, s.outBuilt, s.tpl.deps⟩

theorem loop_keeps {env : Env E J} {b' : State St HTok (PErr E)} {rest : List HTok} : ∀ (r : List HTok) (fuel : Nat) (b : State St HTok (PErr E)),
    b.mark = none → (∀ t ∈ r, Calm env t ∧ Ordinary env.tpl t) → loop (manips env) fuel b (r ++ rest) = some (.ok b') →
    ∃ g, g ≤ fuel ∧ loop (manips env) g { b with output := b.output ++ r } rest = some (.ok b') := by
  intro r
  induction r with
  | nil => intro fuel b _ _ hl; exact ⟨fuel, Nat.le_refl _, by simpa using hl⟩
  | cons t r ih =>
    intro fuel b hm hc hl
    cases fuel with
    | zero => simp [loop] at hl
    | succ fuel =>
      simp only [List.cons_append, loop, round_keep hm (hc t (by simp)).1 (hc t (by simp)).2] at hl
      obtain ⟨g, h1, h2⟩ := ih fuel { b with output := b.output ++ [t] } hm (fun x hx => hc x (by simp [hx])) hl
      exact ⟨g, by omega, by simpa using h2⟩

/-- Definitions at the beginning of a document. -/
theorem defs_render {env : Env E J} (hf : Fit env) {host stem : Text} {body out : List HTok} {w w' : World} {f' : Frame} :
    ∀ (vars : List (Text × Json)) (f : Frame),
    Render env host stem w f ((vars.map fun p => stackComment env.tpl [.str (txt "define"), .str p.1, p.2]) ++ body) out w' f' →
    Render env host stem w { f with vars := vars.foldl (fun d p => put d p.1 p.2) f.vars } body out w' f' := by
  intro vars
  induction vars with
  | nil => intro f h; exact h
  | cons p vars ih =>
    intro f h
    have hs : Stack env.tpl (stackComment env.tpl [.str (txt "define"), .str p.1, p.2]) [.str (txt "define"), .str p.1, p.2] :=
      stackArgs_comment hf.json _ _
    have hcalm := stack_calm hf hs
    have hs' : stackArgs env.tpl _ = _ := hs
    rw [List.map_cons, List.cons_append] at h
    generalize ht : stackComment env.tpl [.str (txt "define"), .str p.1, p.2] = t at h hs hs' hcalm
    generalize hr : (vars.map fun p => stackComment env.tpl [.str (txt "define"), .str p.1, p.2]) ++ body = r at h
    cases h with
    | keep h _ => have := h.ordinary.1; rw [this] at hs'; cases hs'
    | canon h => unfold stackComment at ht; subst ht; cases h
    | link h => unfold stackComment at ht; subst ht; cases h
    | image h =>
      have := hcalm.image
      rw [(command_some hf.space).2 h] at this
      simp at this
    | inline h => unfold stackComment at ht; subst ht; cases h
    | define h h' =>
      have h0 : stackArgs env.tpl t = _ := h
      rw [hs'] at h0
      simp only [Option.some.injEq, List.cons.injEq, Json.str.injEq, true_and, and_true] at h0
      rw [← h0.1, ← h0.2] at h'
      subst hr
      exact ih _ h'
    | retrieve h _ _ _ _ =>
      have h0 : stackArgs env.tpl t = _ := h
      rw [hs'] at h0
      simp at h0
    | unknown h _ =>
      cases h with
      | stack h _ _ h3 _ =>
        have h0 : stackArgs env.tpl t = _ := h
        rw [hs'] at h0
        cases h0
        exact absurd rfl (h3 _ _)
      | template h _ => have h0 := h.1; rw [hs'] at h0; cases h0
    | block h _ _ _ =>
      obtain ⟨more, h⟩ := h
      have h0 : stackArgs env.tpl t = _ := h
      rw [hs'] at h0
      simp only [Option.some.injEq, List.cons.injEq, Json.str.injEq] at h0
      exact absurd h0.1 ne_def_push
    | template h _ _ _ =>
      obtain ⟨l, h, _⟩ := includes_iff.1 h
      have h0 := h.1
      rw [hs'] at h0; cases h0

theorem bal_texts {env : TplEnv} {n : Text} {rest : List HTok} : ∀ {body : List HTok} {x : Text}, Texts body x →
    Bal env (body ++ .endTag n :: rest) → Bal env rest := by
  intro body x ht
  have inv : ∀ {t : HTok} {ts : List HTok}, stackArgs env t = none → Bal env (t :: ts) → Bal env ts := by
    intro t ts hs hb
    cases hb with
    | cons _ _ h => exact h
    | block h _ _ _ =>
      obtain ⟨m, h⟩ := h
      have h0 : stackArgs env t = _ := h
      rw [hs] at h0; cases h0
  induction ht with
  | nil => intro hb; exact inv rfl hb
  | chars _ ih => intro hb; exact ih (inv rfl hb)
  | spaces _ ih => intro hb; exact ih (inv rfl hb)

theorem sane_defs {env : TplEnv} {body : List HTok} (h : Sane body) (vars : List (Text × Json)) :
    Sane ((vars.map fun p => stackComment env [.str (txt "define"), .str p.1, p.2]) ++ body) := by
  intro t ht
  rcases List.mem_append.1 ht with ht | ht
  · obtain ⟨p, -, rfl⟩ := List.mem_map.1 ht
    refine ⟨fun _ => ⟨by simp [stackComment, attrsOf, keys], by simp [stackComment, attrsOf]⟩, ?_⟩
    intro d hd
    simp [stackComment] at hd
  · exact h t ht

end Verif.Html.Page
