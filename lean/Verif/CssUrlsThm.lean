import Verif.CssUrls
import Verif.BuilderSub
import Verif.IconRun

/-!
# C61: URLs in stylesheets carry the hash of what they refer to
-/

namespace Verif.Css.Urls

open Verif.Reader (Text txt)
open Verif.Css (Tok)
open Verif.Paths (join)
open Verif.Build
open Verif.Handlers (Bytes Fs)
open Verif.Icons (add mem_add join_rel)

/-! ## Specification -/

/-- The token with number `k` is between `url(` and the next bracket. -/
def Inside (lower : Text → Text) (ts : List Tok) (k : Nat) : Prop :=
  ∃ j v, j < k ∧ ts[j]? = some (.function v) ∧ lower v = txt "url" ∧ ∀ i, j < i → i < k → ts[i]? ≠ some .rightParens

/-- The token with number `k` is the URL `v`: a string in `url(…)`, or an URL without quotes. -/
def UrlAt (lower : Text → Text) (ts : List Tok) (k : Nat) (v : Text) : Prop :=
  (ts[k]? = some (.str v) ∧ Inside lower ts k) ∨ (ts[k]? = some (.url v) ∧ ¬ Inside lower ts k)

/-- The URL is that of a file of the website, other than the stylesheet itself: `path` is its place below the folder which is
served. -/
def Local (self v path : Text) : Prop := v = txt "/" ++ path ∧ 63 ∉ v ∧ txt "src/public/" ++ path ≠ self

/-- No `//` at the beginning. -/
def Rooted (ts : List Tok) : Prop := ∀ v, (.str v ∈ ts ∨ .url v ∈ ts) → ¬ txt "//" <+: v

def hashFile (path : Text) : Text := txt "out/www/" ++ path ++ txt ".hash"

/-- The same token with another value. -/
def withValue (t : Tok) (w : Text) : Tok :=
  match t with
  | .str _ => .str w
  | .url _ => .url w
  | t => t

/-- `out` is `ts` where every local URL has got the hash and the version behind a question mark. -/
def Versioned (env : Env) (fs : Fs) (ts out : List Tok) : Prop :=
  out.length = ts.length ∧ ∀ k t, ts[k]? = some t →
    (∀ v path, UrlAt env.lower ts k v → Local env.self v path →
      ∃ b, fs (hashFile path) = some b ∧ out[k]? = some (withValue t (v ++ txt "?" ++ env.query b))) ∧
    ((∀ v path, UrlAt env.lower ts k v → ¬ Local env.self v path) → out[k]? = some t)

/-- The hash files of the local URLs. -/
def Needs (env : Env) (ts : List Tok) (h : Text) : Prop := ∃ k v path, UrlAt env.lower ts k v ∧ Local env.self v path ∧ h = hashFile path

/-! ## Proofs -/

theorem hashOf_spec (env : Env) {v : Text} (hr : ¬ txt "//" <+: v) (h : Text) :
    hashOf env v = some h ↔ ∃ path, Local env.self v path ∧ h = hashFile path := by
  have e1 : txt "/" = [47] := by decide
  have e2 : txt "//" = [47, 47] := by decide
  have e3 : join (txt "src") (txt "public") = txt "src/public" := by decide
  have e4 : join (txt "out") (txt "www") = txt "out/www" := by decide
  have e5 : txt "src/public" ++ [47] = txt "src/public/" := by decide
  have e6 : txt "out/www" ++ [47] = txt "out/www/" := by decide
  unfold Local hashFile
  rw [e1]
  cases v with
  | nil => simp [hashOf]
  | cons c rest =>
    by_cases hc : c = 47
    · subst hc
      have hhead : rest.head? ≠ some 47 := by
        intro hh
        cases rest with
        | nil => simp at hh
        | cons d rest =>
          simp only [List.head?_cons, Option.some.injEq] at hh
          subst hh
          exact hr ⟨rest, by rw [e2]; rfl⟩
      have hj1 : join (txt "src/public") rest = txt "src/public/" ++ rest := by
        rw [join_rel (by decide) (by decide) hhead, List.append_cons, e5]
      have hhead' : (rest ++ txt ".hash").head? ≠ some 47 := by
        cases rest with
        | nil => decide
        | cons d rest => simpa using hhead
      have hj2 : join (txt "out/www") (rest ++ txt ".hash") = txt "out/www/" ++ rest ++ txt ".hash" := by
        rw [join_rel (by decide) (by decide) hhead', List.append_cons, e6, List.append_assoc]
      simp only [hashOf, e3, e4, hj1, hj2, ne_eq, not_true, if_false]
      constructor
      · intro h1
        split at h1
        · cases h1
        · next hq =>
          split at h1
          · cases h1
          · next hs => cases h1; exact ⟨rest, ⟨rfl, hq, hs⟩, rfl⟩
      · rintro ⟨path, ⟨h1, h2, h3⟩, rfl⟩
        simp only [List.singleton_append, List.cons.injEq, true_and] at h1
        subst h1
        rw [if_neg h2, if_neg h3]
    · simp only [hashOf, ne_eq, hc, not_false_eq_true, if_true, reduceCtorEq, false_iff]
      rintro ⟨path, ⟨h1, -⟩, -⟩
      simp only [List.singleton_append, List.cons.injEq] at h1
      exact hc h1.1

theorem hashOf_query (env : Env) (v w : Text) : hashOf env (v ++ txt "?" ++ w) = none := by
  have e : txt "?" = [63] := by decide
  rw [e]
  unfold hashOf
  cases v with
  | nil => rfl
  | cons c rest =>
    simp only [List.cons_append]
    split
    · rfl
    · rw [if_pos (by simp)]

theorem urls_single (scan : Bool) (env : Env) : Single (versionUrls scan env) := by
  intro s t s1 o s2 h1 h2
  replace h1 : start scan env s t = .ok (true, s1) := h1
  replace h2 : cont env s1 t = .ok (o, s2) := h2
  have hsome : ∀ v, (t = .str v ∨ t = .url v) → ∃ h, hashOf env v = some h := by
    intro v hv
    cases hh : hashOf env v with
    | some h => exact ⟨h, rfl⟩
    | none =>
      unfold start at h1
      rcases hv with rfl | rfl <;> cases hi : s.inUrl <;> simp [hi, hh] at h1
  unfold cont at h2
  cases t
  case str v =>
    obtain ⟨h, hh⟩ := hsome v (.inl rfl)
    simp only [suffixed, hh] at h2
    split at h2
    · cases h2
    · next heq =>
      split at heq
      · cases heq
      · cases heq; cases h2
        refine ⟨_, rfl, fun x hx s => ?_⟩
        simp only [List.mem_singleton] at hx
        subst hx
        simp only [versionUrls, start, hashOf_query]
        split <;> rfl
  case url v =>
    obtain ⟨h, hh⟩ := hsome v (.inr rfl)
    simp only [suffixed, hh] at h2
    split at h2
    · cases h2
    · next heq =>
      split at heq
      · cases heq
      · cases heq; cases h2
        refine ⟨_, rfl, fun x hx s => ?_⟩
        simp only [List.mem_singleton] at hx
        subst hx
        simp only [versionUrls, start, hashOf_query]
        split <;> rfl
  all_goals cases h2

/-- Whether the next token is inside, if the tokens so far are `ts`. -/
theorem inside_snoc (lower : Text → Text) (ts : List Tok) (t : Tok) : Inside lower (ts ++ [t]) (ts.length + 1) ↔
    (∃ v, t = .function v ∧ lower v = txt "url") ∨ (Inside lower ts ts.length ∧ t ≠ .rightParens) := by
  constructor
  · rintro ⟨j, v, hj, h1, h2, h3⟩
    by_cases hjl : j = ts.length
    · subst hjl
      simp at h1
      exact .inl ⟨v, h1, h2⟩
    · have hjl : j < ts.length := by omega
      rw [List.getElem?_append_left hjl] at h1
      refine .inr ⟨⟨j, v, hjl, h1, h2, ?_⟩, ?_⟩
      · intro i hi hi'
        have := h3 i hi (by omega)
        rwa [List.getElem?_append_left hi'] at this
      · intro ht
        refine h3 ts.length hjl (by omega) ?_
        simp [ht]
  · rintro (⟨v, rfl, hv⟩ | ⟨⟨j, v, hj, h1, h2, h3⟩, ht⟩)
    · exact ⟨ts.length, v, by omega, by simp, hv, fun i hi hi' => by omega⟩
    · refine ⟨j, v, by omega, by rw [List.getElem?_append_left hj]; exact h1, h2, ?_⟩
      intro i hi hi'
      by_cases hil : i < ts.length
      · rw [List.getElem?_append_left hil]; exact h3 i hi hil
      · have : i = ts.length := by omega
        subst this
        simpa using ht

theorem inside_prefix (lower : Text → Text) (ts more : List Tok) (k : Nat) (hk : k ≤ ts.length) :
    Inside lower (ts ++ more) k ↔ Inside lower ts k := by
  unfold Inside
  constructor
  · rintro ⟨j, v, hj, h1, h2, h3⟩
    refine ⟨j, v, hj, by rwa [List.getElem?_append_left (by omega)] at h1, h2, fun i hi hi' => ?_⟩
    have := h3 i hi hi'
    rwa [List.getElem?_append_left (by omega)] at this
  · rintro ⟨j, v, hj, h1, h2, h3⟩
    refine ⟨j, v, hj, by rw [List.getElem?_append_left (by omega)]; exact h1, h2, fun i hi hi' => ?_⟩
    rw [List.getElem?_append_left (by omega)]
    exact h3 i hi hi'

theorem urlAt_here (lower : Text → Text) (pre : List Tok) (t : Tok) (ts : List Tok) (v : Text) : UrlAt lower (pre ++ t :: ts) pre.length v ↔
    (t = .str v ∧ Inside lower pre pre.length) ∨ (t = .url v ∧ ¬ Inside lower pre pre.length) := by
  unfold UrlAt
  rw [inside_prefix lower pre (t :: ts) pre.length (Nat.le_refl _)]
  simp

/-- What becomes of one token. -/
def Step (env : Env) (fs : Fs) (inside : Prop) (t t' : Tok) : Prop :=
  (∀ v path, ((t = .str v ∧ inside) ∨ (t = .url v ∧ ¬ inside)) → Local env.self v path →
      ∃ b, fs (hashFile path) = some b ∧ t' = withValue t (v ++ txt "?" ++ env.query b)) ∧
    ((∀ v path, ((t = .str v ∧ inside) ∨ (t = .url v ∧ ¬ inside)) → ¬ Local env.self v path) → t' = t)

theorem local_unique {self v p p' : Text} (h : Local self v p) (h' : Local self v p') : p = p' := by
  have := h.1.symm.trans h'.1
  exact List.append_cancel_left this

/-- The URL a token is, if it is one at this place. -/
def urlHere (inside : Bool) (t : Tok) : Option Text :=
  match t, inside with
  | .str v, true => some v
  | .url v, false => some v
  | _, _ => none

theorem urlHere_iff (inside : Bool) (t : Tok) (v : Text) : urlHere inside t = some v ↔
    (t = .str v ∧ inside = true) ∨ (t = .url v ∧ ¬ inside = true) := by
  cases t <;> cases inside <;> simp [urlHere]

/-- The flag behind the token. -/
def flagAfter (env : Env) (inside : Bool) (t : Tok) : Bool :=
  match t with
  | .function v => inside || decide (env.lower v = txt "url")
  | .rightParens => false
  | _ => inside

theorem start_spec (scan : Bool) (env : Env) (st : St) (t : Tok) : start scan env st t =
    match (urlHere st.inUrl t).bind (hashOf env) with
    | some h => if scan then .ok (false, { st with dependencies := add st.dependencies h }) else .ok (true, st)
    | none => .ok (false, { st with inUrl := flagAfter env st.inUrl t }) := by
  obtain ⟨fs, ds, cs, b⟩ := st
  cases b
  · cases t
    case url v => simp only [start, urlHere, Option.bind_some]; cases hashOf env v <;> simp [flagAfter]
    case function v => simp only [start, urlHere, flagAfter]; by_cases hl : env.lower v = txt "url" <;> simp [hl]
    all_goals simp [start, urlHere, flagAfter]
  · cases t
    case str v => simp only [start, urlHere, Option.bind_some]; cases hashOf env v <;> simp [flagAfter]
    all_goals simp [start, urlHere, flagAfter]

theorem flagAfter_url {env : Env} {inside : Bool} {t : Tok} {v : Text} (h : urlHere inside t = some v) : flagAfter env inside t = inside := by
  cases t <;> cases inside <;> simp [urlHere] at h <;> rfl

theorem flagAfter_inside {env : Env} {pre : List Tok} {b : Bool} (hb : b = true ↔ Inside env.lower pre pre.length) (t : Tok) :
    flagAfter env b t = true ↔ Inside env.lower (pre ++ [t]) (pre ++ [t]).length := by
  rw [List.length_append, List.length_singleton, inside_snoc, ← hb]
  cases t
  case function v => simp [flagAfter, or_comm]
  all_goals simp [flagAfter]

/-- Building: every local URL is given its suffix, and the hash files which have been read are reported. -/
theorem build_spec (env : Env) : ∀ (ts pre : List Tok) (st st' : St) (out : List Tok), Rooted ts →
    (st.inUrl = true ↔ Inside env.lower pre pre.length) → subAll (versionUrls false env) st ts = .ok (out, st') →
    out.length = ts.length ∧ st'.fs = st.fs ∧
    (∀ k t, ts[k]? = some t →
      (∀ v path, UrlAt env.lower (pre ++ ts) (pre.length + k) v → Local env.self v path →
        ∃ b, st.fs (hashFile path) = some b ∧ out[k]? = some (withValue t (v ++ txt "?" ++ env.query b))) ∧
      ((∀ v path, UrlAt env.lower (pre ++ ts) (pre.length + k) v → ¬ Local env.self v path) → out[k]? = some t)) ∧
    (∀ h, h ∈ st'.children ↔ h ∈ st.children ∨
      ∃ k v path, UrlAt env.lower (pre ++ ts) (pre.length + k) v ∧ Local env.self v path ∧ h = hashFile path) := by
  intro ts
  induction ts with
  | nil =>
    intro pre st st' out _ hin h
    simp only [subAll, Except.ok.injEq, Prod.mk.injEq] at h
    obtain ⟨rfl, rfl⟩ := h
    refine ⟨rfl, rfl, by simp, fun h => ⟨.inl, ?_⟩⟩
    rintro (h | ⟨k, v, path, h, -⟩)
    · exact h
    · rcases h with ⟨h, -⟩ | ⟨h, -⟩ <;> simp at h
  | cons t ts ih =>
    intro pre st st' out hr hin h
    have hr' : Rooted ts := fun v hv => hr v (hv.imp (List.mem_cons_of_mem _) (List.mem_cons_of_mem _))
    simp only [subAll] at h
    split at h
    · cases h
    · next r st1 hs =>
      split at h
      · cases h
      · next out' st2 h2 =>
        cases h
        -- the first token
        have hfirst : ∃ t', r = [t'] ∧ st1.fs = st.fs ∧ (st1.inUrl = true ↔ Inside env.lower (pre ++ [t]) (pre ++ [t]).length) ∧
            (∀ v path, UrlAt env.lower (pre ++ t :: ts) pre.length v → Local env.self v path →
              ∃ b, st.fs (hashFile path) = some b ∧ t' = withValue t (v ++ txt "?" ++ env.query b)) ∧
            ((∀ v path, UrlAt env.lower (pre ++ t :: ts) pre.length v → ¬ Local env.self v path) → t' = t) ∧
            (∀ h, h ∈ st1.children ↔ h ∈ st.children ∨ ∃ v path, UrlAt env.lower (pre ++ t :: ts) pre.length v ∧ Local env.self v path ∧ h = hashFile path) := by
          have hu : ∀ v, UrlAt env.lower (pre ++ t :: ts) pre.length v ↔ urlHere st.inUrl t = some v := by
            intro v
            rw [urlAt_here, urlHere_iff, hin]
          have hstart : (versionUrls false env).start st t = start false env st t := rfl
          simp only [sub, hstart, start_spec] at hs
          cases hh : (urlHere st.inUrl t).bind (hashOf env) with
          | none =>
            rw [hh] at hs
            simp only [Except.ok.injEq, Prod.mk.injEq] at hs
            obtain ⟨rfl, rfl⟩ := hs
            have hnl : ∀ v path, UrlAt env.lower (pre ++ t :: ts) pre.length v → ¬ Local env.self v path := by
              intro v path h1 h3
              rw [(hu v).1 h1] at hh
              simp only [Option.bind_some] at hh
              have hroot : ¬ txt "//" <+: v := by
                refine hr v ?_
                rcases (urlHere_iff _ _ _).1 ((hu v).1 h1) with ⟨h4, -⟩ | ⟨h4, -⟩
                · exact .inl (by simp [h4])
                · exact .inr (by simp [h4])
              rw [(hashOf_spec env hroot _).2 ⟨path, h3, rfl⟩] at hh
              cases hh
            refine ⟨t, rfl, rfl, flagAfter_inside hin t, fun v path h1 h3 => absurd h3 (hnl v path h1), fun _ => rfl, fun h => ⟨.inl, ?_⟩⟩
            rintro (h | ⟨v, path, h1, h3, -⟩)
            · exact h
            · exact absurd h3 (hnl v path h1)
          | some hf =>
            obtain ⟨v, hv, hf'⟩ := Option.bind_eq_some_iff.1 hh
            rw [hh] at hs
            simp only [Bool.false_eq_true, if_false] at hs
            have hroot : ¬ txt "//" <+: v := by
              refine hr v ?_
              rcases (urlHere_iff _ _ _).1 hv with ⟨h4, -⟩ | ⟨h4, -⟩
              · exact .inl (by simp [h4])
              · exact .inr (by simp [h4])
            obtain ⟨path, hloc, rfl⟩ := (hashOf_spec env hroot hf).1 hf'
            have hcont : (versionUrls false env).cont st t =
                match st.fs (hashFile path) with
                | none => .error .notFound
                | some b => .ok (some [withValue t (v ++ txt "?" ++ env.query b)], { st with children := add st.children (hashFile path) }) := by
              show cont env st t = _
              rcases (urlHere_iff _ _ _).1 hv with ⟨rfl, -⟩ | ⟨rfl, -⟩
              all_goals
                simp only [cont, suffixed, hf', withValue]
                cases st.fs (hashFile path) <;> rfl
            rw [hcont] at hs
            cases hb : st.fs (hashFile path) with
            | none => rw [hb] at hs; cases hs
            | some b =>
              rw [hb] at hs
              simp only [Except.ok.injEq, Prod.mk.injEq] at hs
              obtain ⟨rfl, rfl⟩ := hs
              have hflag := flagAfter_inside hin t
              rw [flagAfter_url hv] at hflag
              refine ⟨_, rfl, rfl, hflag, ?_, ?_, ?_⟩
              · intro v' path' h1 h3
                have := (hu v').1 h1
                rw [hv] at this
                cases this
                cases local_unique hloc h3
                exact ⟨b, hb, rfl⟩
              · intro hno; exact absurd hloc (hno v path ((hu v).2 hv))
              · intro h
                simp only [mem_add]
                constructor
                · rintro (h1 | h1)
                  · exact .inl h1
                  · exact .inr ⟨v, path, (hu v).2 hv, hloc, h1⟩
                · rintro (h1 | ⟨v', path', h1, h3, h4⟩)
                  · exact .inl h1
                  · have := (hu v').1 h1
                    rw [hv] at this
                    cases this
                    cases local_unique hloc h3
                    exact .inr h4
        obtain ⟨t', rfl, hfs, hin', f1, f2, f3⟩ := hfirst
        have e : pre ++ t :: ts = pre ++ [t] ++ ts := by simp
        obtain ⟨a, b, c, d⟩ := ih (pre ++ [t]) st1 st' out' hr' hin' h2
        rw [← e] at c d
        have elen : ∀ k, (pre ++ [t]).length + k = pre.length + (k + 1) := by intro k; simp; omega
        simp only [elen] at c d
        rw [hfs] at c
        refine ⟨by simp [a], b.trans hfs, ?_, ?_⟩
        · intro k t0 hk
          cases k with
          | zero =>
            simp only [List.getElem?_cons_zero, Option.some.injEq] at hk
            subst hk
            refine ⟨fun v path h1 h3 => ?_, fun hno => ?_⟩
            · obtain ⟨b', h4, h5⟩ := f1 v path h1 h3
              exact ⟨b', h4, by simp [h5]⟩
            · simp [f2 hno]
          | succ k =>
            simp only [List.getElem?_cons_succ] at hk
            obtain ⟨c1, c2⟩ := c k t0 hk
            refine ⟨fun v path h1 h3 => ?_, fun hno => ?_⟩
            · obtain ⟨b', h4, h5⟩ := c1 v path h1 h3
              exact ⟨b', h4, by simpa using h5⟩
            · simpa using c2 hno
        · intro h
          rw [d, f3]
          constructor
          · rintro ((h1 | ⟨v, path, h1⟩) | ⟨k, v, path, h1⟩)
            · exact .inl h1
            · exact .inr ⟨0, v, path, h1⟩
            · exact .inr ⟨k + 1, v, path, h1⟩
          · rintro (h1 | ⟨k, v, path, h1⟩)
            · exact .inl (.inl h1)
            · cases k with
              | zero => exact .inl (.inr ⟨v, path, h1⟩)
              | succ k => exact .inr ⟨k, v, path, h1⟩

/-- Scanning: nothing is changed, and the hash files which will be read are the dependencies. -/
theorem scan_spec (env : Env) : ∀ (ts pre : List Tok) (st : St), Rooted ts →
    (st.inUrl = true ↔ Inside env.lower pre pre.length) → ∃ st', subAll (versionUrls true env) st ts = .ok (ts, st') ∧
    st'.fs = st.fs ∧ (∀ h, h ∈ st'.dependencies ↔ h ∈ st.dependencies ∨
      ∃ k v path, UrlAt env.lower (pre ++ ts) (pre.length + k) v ∧ Local env.self v path ∧ h = hashFile path) := by
  intro ts
  induction ts with
  | nil =>
    intro pre st _ hin
    refine ⟨st, rfl, rfl, fun h => ⟨.inl, ?_⟩⟩
    rintro (h | ⟨k, v, path, h, -⟩)
    · exact h
    · rcases h with ⟨h, -⟩ | ⟨h, -⟩ <;> simp at h
  | cons t ts ih =>
    intro pre st hr hin
    have hr' : Rooted ts := fun v hv => hr v (hv.imp (List.mem_cons_of_mem _) (List.mem_cons_of_mem _))
    have hu : ∀ v, UrlAt env.lower (pre ++ t :: ts) pre.length v ↔ urlHere st.inUrl t = some v := by
      intro v
      rw [urlAt_here, urlHere_iff, hin]
    have hroot : ∀ v, urlHere st.inUrl t = some v → ¬ txt "//" <+: v := by
      intro v hv
      refine hr v ?_
      rcases (urlHere_iff _ _ _).1 hv with ⟨h4, -⟩ | ⟨h4, -⟩
      · exact .inl (by simp [h4])
      · exact .inr (by simp [h4])
    have hfirst : ∃ st1, sub (versionUrls true env) st t = .ok ([t], st1) ∧ st1.fs = st.fs ∧
        (st1.inUrl = true ↔ Inside env.lower (pre ++ [t]) (pre ++ [t]).length) ∧
        (∀ h, h ∈ st1.dependencies ↔ h ∈ st.dependencies ∨
          ∃ v path, UrlAt env.lower (pre ++ t :: ts) pre.length v ∧ Local env.self v path ∧ h = hashFile path) := by
      have hstart : (versionUrls true env).start st t = start true env st t := rfl
      simp only [sub, hstart, start_spec]
      cases hh : (urlHere st.inUrl t).bind (hashOf env) with
      | none =>
        refine ⟨_, rfl, rfl, flagAfter_inside hin t, fun h => ⟨.inl, ?_⟩⟩
        rintro (h | ⟨v, path, h1, h3, -⟩)
        · exact h
        · have hv := (hu v).1 h1
          rw [hv, Option.bind_some, (hashOf_spec env (hroot v hv) _).2 ⟨path, h3, rfl⟩] at hh
          cases hh
      | some hf =>
        obtain ⟨v, hv, hf'⟩ := Option.bind_eq_some_iff.1 hh
        obtain ⟨path, hloc, rfl⟩ := (hashOf_spec env (hroot v hv) hf).1 hf'
        have hflag := flagAfter_inside hin t
        rw [flagAfter_url hv] at hflag
        refine ⟨_, rfl, rfl, hflag, fun h => ?_⟩
        simp only [mem_add]
        constructor
        · rintro (h1 | h1)
          · exact .inl h1
          · exact .inr ⟨v, path, (hu v).2 hv, hloc, h1⟩
        · rintro (h1 | ⟨v', path', h1, h3, h4⟩)
          · exact .inl h1
          · have := (hu v').1 h1
            rw [hv] at this
            cases this
            cases local_unique hloc h3
            exact .inr h4
    obtain ⟨st1, hs, hfs, hin', f3⟩ := hfirst
    have e : pre ++ t :: ts = pre ++ [t] ++ ts := by simp
    obtain ⟨st', a, b, d⟩ := ih (pre ++ [t]) st1 hr' hin'
    rw [← e] at d
    have elen : ∀ k, (pre ++ [t]).length + k = pre.length + (k + 1) := by intro k; simp; omega
    simp only [elen] at d
    refine ⟨st', by simp [subAll, hs, a], b.trans hfs, fun h => ?_⟩
    rw [d, f3]
    constructor
    · rintro ((h1 | ⟨v, path, h1⟩) | ⟨k, v, path, h1⟩)
      · exact .inl h1
      · exact .inr ⟨0, v, path, h1⟩
      · exact .inr ⟨k + 1, v, path, h1⟩
    · rintro (h1 | ⟨k, v, path, h1⟩)
      · exact .inl (.inl h1)
      · cases k with
        | zero => exact .inl (.inr ⟨v, path, h1⟩)
        | succ k => exact .inr ⟨k, v, path, h1⟩

/-- Building succeeds when all hash files are there. -/
theorem build_ok (env : Env) : ∀ (ts pre : List Tok) (st : St), Rooted ts →
    (st.inUrl = true ↔ Inside env.lower pre pre.length) →
    (∀ k v path, UrlAt env.lower (pre ++ ts) (pre.length + k) v → Local env.self v path → (st.fs (hashFile path)).isSome) →
    ∃ out st', subAll (versionUrls false env) st ts = .ok (out, st') := by
  intro ts
  induction ts with
  | nil => intro pre st _ _ _; exact ⟨[], st, rfl⟩
  | cons t ts ih =>
    intro pre st hr hin hall
    have hr' : Rooted ts := fun v hv => hr v (hv.imp (List.mem_cons_of_mem _) (List.mem_cons_of_mem _))
    have hu : ∀ v, UrlAt env.lower (pre ++ t :: ts) pre.length v ↔ urlHere st.inUrl t = some v := by
      intro v
      rw [urlAt_here, urlHere_iff, hin]
    have hfirst : ∃ r st1, sub (versionUrls false env) st t = .ok (r, st1) ∧ st1.fs = st.fs ∧
        (st1.inUrl = true ↔ Inside env.lower (pre ++ [t]) (pre ++ [t]).length) := by
      have hstart : (versionUrls false env).start st t = start false env st t := rfl
      simp only [sub, hstart, start_spec]
      cases hh : (urlHere st.inUrl t).bind (hashOf env) with
      | none => exact ⟨_, _, rfl, rfl, flagAfter_inside hin t⟩
      | some hf =>
        obtain ⟨v, hv, hf'⟩ := Option.bind_eq_some_iff.1 hh
        have hroot : ¬ txt "//" <+: v := by
          refine hr v ?_
          rcases (urlHere_iff _ _ _).1 hv with ⟨h4, -⟩ | ⟨h4, -⟩
          · exact .inl (by simp [h4])
          · exact .inr (by simp [h4])
        obtain ⟨path, hloc, rfl⟩ := (hashOf_spec env hroot hf).1 hf'
        obtain ⟨b, hb⟩ := Option.isSome_iff_exists.1 (hall 0 v path ((hu v).2 hv) hloc)
        have hflag := flagAfter_inside hin t
        rw [flagAfter_url hv] at hflag
        simp only [Bool.false_eq_true, if_false]
        rcases (urlHere_iff _ _ _).1 hv with ⟨rfl, -⟩ | ⟨rfl, -⟩
        all_goals
          simp only [versionUrls, cont, suffixed, hf', hb]
          exact ⟨_, _, rfl, rfl, hflag⟩
    obtain ⟨r, st1, hs, hfs, hin'⟩ := hfirst
    have e : pre ++ t :: ts = pre ++ [t] ++ ts := by simp
    have elen : ∀ k, (pre ++ [t]).length + k = pre.length + (k + 1) := by intro k; simp; omega
    obtain ⟨out, st', a⟩ := ih (pre ++ [t]) st1 hr' hin' (by
      intro k v path h1 h2
      rw [← e, elen] at h1
      rw [hfs]
      exact hall (k + 1) v path h1 h2)
    exact ⟨r ++ out, st', by simp [subAll, hs, a]⟩

theorem not_inside_nil (lower : Text → Text) : ¬ Inside lower [] 0 := by
  rintro ⟨j, v, hj, -⟩
  omega

/-! ## The property -/

/-- A manipulator at the beginning. -/
def fresh (fs : Fs) : St := ⟨fs, [], [], false⟩

/-- C61, building: whenever the builder comes to an end without an error, every URL of a file of the website has got the
hash of that file, all other tokens are as they were, and the files which have been read are reported.
Missing: URLs which begin with `//` (see `C61_false_external`), URLs with a fragment (see `C61_false_fragment`). -/
theorem C61_partial (env : Env) {ts : List Tok} (hr : Rooted ts) {fs : Fs} {f : Nat} {s : State St Tok Err}
    (h : loop [versionUrls false env] f ⟨[], none, fresh fs⟩ ts = some (.ok s)) :
    Versioned env fs ts s.output ∧ s.mark = none ∧ s.st.fs = fs ∧ ∀ h, h ∈ s.st.children ↔ Needs env ts h := by
  have h := loop_single (urls_single false env) h
  cases hs : subAll (versionUrls false env) (fresh fs) ts with
  | error e => rw [hs] at h; cases h
  | ok p =>
    obtain ⟨out, st'⟩ := p
    rw [hs] at h
    simp only [done, List.nil_append, Except.ok.injEq] at h
    subst h
    obtain ⟨a, b, c, d⟩ := build_spec env ts [] (fresh fs) st' out hr (by simp [fresh, not_inside_nil]) hs
    simp only [List.nil_append, List.length_nil, Nat.zero_add] at c d
    exact ⟨⟨a, c⟩, rfl, b, fun h => by rw [d]; simp [fresh, Needs]⟩

/-- C61: it comes to an end without an error when the hash files exist. -/
theorem C61_succeeds (env : Env) {ts : List Tok} (hr : Rooted ts) {fs : Fs} (hall : ∀ h, Needs env ts h → (fs h).isSome) :
    ∃ f s, loop [versionUrls false env] f ⟨[], none, fresh fs⟩ ts = some (.ok s) := by
  obtain ⟨out, st', hs⟩ := build_ok env ts [] (fresh fs) hr (by simp [fresh, not_inside_nil])
    (fun k v path h1 h2 => hall _ ⟨k, v, path, by simpa using h1, h2, rfl⟩)
  obtain ⟨f, hf⟩ := loop_subAll (urls_single false env) ts [] (fresh fs)
  rw [hs] at hf
  exact ⟨f, _, hf⟩

/-- C61 and C34, scanning: the document is left alone, no error occurs, and the dependencies are exactly the files which the
build will read. -/
theorem C61_scan (env : Env) {ts : List Tok} (hr : Rooted ts) (fs : Fs) :
    ∃ f s, loop [versionUrls true env] f ⟨[], none, fresh fs⟩ ts = some (.ok s) ∧ s.output = ts ∧
      ∀ h, h ∈ s.st.dependencies ↔ Needs env ts h := by
  obtain ⟨st', a, b, d⟩ := scan_spec env ts [] (fresh fs) hr (by simp [fresh, not_inside_nil])
  obtain ⟨f, hf⟩ := loop_subAll (urls_single true env) ts [] (fresh fs)
  rw [a] at hf
  refine ⟨f, _, hf, rfl, fun h => ?_⟩
  simp only [List.nil_append, List.length_nil, Nat.zero_add] at d
  rw [d]
  simp [fresh, Needs]

/-- C34 for the URLs of a stylesheet. -/
theorem C34_urls (env : Env) {ts : List Tok} (hr : Rooted ts) {fs fs' : Fs} {f f' : Nat} {s s' : State St Tok Err}
    (h : loop [versionUrls true env] f ⟨[], none, fresh fs⟩ ts = some (.ok s))
    (h' : loop [versionUrls false env] f' ⟨[], none, fresh fs'⟩ ts = some (.ok s')) :
    ∀ p, p ∈ s.st.dependencies ↔ p ∈ s'.st.children := by
  intro p
  obtain ⟨f0, s0, h0, -, hd⟩ := C61_scan env hr fs
  have e1 := loop_single (urls_single true env) h
  have e2 := loop_single (urls_single true env) h0
  rw [← e2] at e1
  cases e1
  rw [hd, (C61_partial env hr h').2.2.2]

theorem withValue_function (t : Tok) (w : Text) (v : Text) : withValue t w = .function v ↔ t = .function v := by cases t <;> simp [withValue]
theorem withValue_rightParens (t : Tok) (w : Text) : withValue t w = .rightParens ↔ t = .rightParens := by cases t <;> simp [withValue]

/-- The tokens are of the same kinds. -/
theorem versioned_kind {env : Env} {fs : Fs} {ts out : List Tok} (h : Versioned env fs ts out) (k : Nat) :
    (∀ v, out[k]? = some (.function v) ↔ ts[k]? = some (.function v)) ∧ (out[k]? = some .rightParens ↔ ts[k]? = some .rightParens) := by
  cases ht : ts[k]? with
  | none =>
    have : out[k]? = none := by
      rw [List.getElem?_eq_none_iff] at ht ⊢
      rw [h.1]; exact ht
    simp [this]
  | some t =>
    by_cases hl : ∃ v path, UrlAt env.lower ts k v ∧ Local env.self v path
    · obtain ⟨v, path, h1, h2⟩ := hl
      obtain ⟨b, -, hb⟩ := (h.2 k t ht).1 v path h1 h2
      rw [hb]
      simp [withValue_function, withValue_rightParens]
    · have hb := (h.2 k t ht).2 (fun v path h1 h2 => hl ⟨v, path, h1, h2⟩)
      rw [hb]
      simp

theorem versioned_inside {env : Env} {fs : Fs} {ts out : List Tok} (h : Versioned env fs ts out) (k : Nat) :
    Inside env.lower out k ↔ Inside env.lower ts k := by
  unfold Inside
  constructor
  · rintro ⟨j, v, hj, h1, h2, h3⟩
    exact ⟨j, v, hj, ((versioned_kind h j).1 v).1 h1, h2, fun i hi hi' h4 => h3 i hi hi' ((versioned_kind h i).2.2 h4)⟩
  · rintro ⟨j, v, hj, h1, h2, h3⟩
    exact ⟨j, v, hj, ((versioned_kind h j).1 v).2 h1, h2, fun i hi hi' h4 => h3 i hi hi' ((versioned_kind h i).2.1 h4)⟩

/-- C61: in the result no URL of a file of the website is left without a query. -/
theorem C61_no_bare_url (env : Env) {ts : List Tok} (hr : Rooted ts) {fs : Fs} {f : Nat} {s : State St Tok Err}
    (h : loop [versionUrls false env] f ⟨[], none, fresh fs⟩ ts = some (.ok s)) (k : Nat) (v path : Text)
    (hu : UrlAt env.lower s.output k v) : ¬ Local env.self v path := by
  have hv := (C61_partial env hr h).1
  intro hl
  cases ht : ts[k]? with
  | none =>
    have : s.output[k]? = none := by
      rw [List.getElem?_eq_none_iff] at ht ⊢
      rw [hv.1]; exact ht
    rcases hu with ⟨hu, -⟩ | ⟨hu, -⟩ <;> rw [this] at hu <;> cases hu
  | some t =>
    by_cases hl' : ∃ v path, UrlAt env.lower ts k v ∧ Local env.self v path
    · obtain ⟨v', path', h1, h2⟩ := hl'
      obtain ⟨b, -, hb⟩ := (hv.2 k t ht).1 v' path' h1 h2
      have hq : txt "?" = [63] := by decide
      apply hl.2.1
      rcases h1 with ⟨h1, -⟩ | ⟨h1, -⟩
      all_goals
        rw [ht] at h1
        cases h1
        rcases hu with ⟨hu, -⟩ | ⟨hu, -⟩
        all_goals
          rw [hb] at hu
          simp only [withValue, Option.some.injEq, Tok.str.injEq, Tok.url.injEq, reduceCtorEq] at hu
          try (subst hu; simp [hq])
    · have hb := (hv.2 k t ht).2 (fun v path h1 h2 => hl' ⟨v, path, h1, h2⟩)
      refine hl' ⟨v, path, ?_, hl⟩
      unfold UrlAt
      rw [ht, ← hb, ← versioned_inside hv]
      exact hu

end Verif.Css.Urls
