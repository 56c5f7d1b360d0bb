import Verif.CssPlain
import Verif.CssScan
/-!
# Stylesheets which only have URLs

A stylesheet without commands and without images in its URLs is built if and only if the hashes of all files are there to which its URLs refer.
-/
namespace Verif.Css.Page
open Verif.Reader (Text txt)
open Verif.Css (Tok tokenize serializeMany)
open Verif.Build
open Verif.Handlers (Bytes Fs Built Scan copyScan hashScan)
open Verif.Icons (mem_addAll)
open Verif.Css.Urls (Versioned UrlAt Local hashFile)

/-- No comment is a command to import a rule or to insert an icon, no URL has data, and no URL begins with `//`. -/
structure UrlsOnly (env : Env) (ts : List Tok) : Prop where
  rules : ∀ r, ¬ Nest.Imports env.nest ts r
  icons : ∀ v a, .comment v ∈ ts → ¬ Icons.IsIcon env.icon.space v a
  images : ∀ k type data, ¬ Data.ImageAt ts k type data
  rooted : Urls.Rooted ts

/-- The same, for all but the first tokens. -/
structure Left (env : Env) (ts : List Tok) : Prop where
  rules : ∀ t ∈ ts, Nest.getImport env.nest t = none
  icons : ∀ t ∈ ts, Icons.getIcon env.icon t = .ok none
  images : ∀ k type data, ¬ Data.ImageAt ts k type data
  ends : ts = [] ∨ ts.getLast? = some .eof

theorem Left.tail {env : Env} {t : Tok} {ts : List Tok} (h : Left env (t :: ts)) : Left env ts := by
  refine ⟨fun x hx => h.rules x (by simp [hx]), fun x hx => h.icons x (by simp [hx]), fun k type data => ?_, ?_⟩
  · rintro ⟨j, v, rfl, h1, h2, h3⟩
    exact h.images (j + 2) type data ⟨j + 1, v, rfl, by simpa using h1, by simpa using h2, h3⟩
  · cases ts with
    | nil => exact .inl rfl
    | cons a b =>
      right
      have := h.ends.resolve_left (by simp)
      simpa using this

theorem imports_start {n : Nat} {env : Env} {s : St} {t : Tok} (h : Nest.getImport env.nest t = none) : (imports n env).start s t = .ok (false, s) := by
  simp only [imports, part, Nest.nest, Nest.start, h]

theorem icons_start_none {env : Env} {s : St} (hs : s.icon.fs = s.fs) {t : Tok} (h : Icons.getIcon env.icon t = .ok none) :
    (icons false env).start s t = .ok (false, s) := by
  obtain ⟨fs, ne, im, ic, da, ur⟩ := s
  have hs : ic.fs = fs := hs
  simp [icons, part, Icons.icons, icon_set hs, Icons.start, h, hs]

theorem data_start_none {env : Env} {s : St} (hs : s.data.fs = s.fs) {t : Tok} (h : t ≠ .function (txt "url")) : (data false env).start s t = .ok (false, s) := by
  obtain ⟨fs, ne, im, ic, da, ur⟩ := s
  have hs : da.fs = fs := hs
  have : Data.start da t = .ok (false, da) := by
    unfold Data.start
    split
    · next v => rw [if_pos (by rintro rfl; exact h rfl)]
    · rfl
  simp [data, part, Data.outlineData, data_set hs, this, hs]

theorem urls_start_eq {env : Env} {s : St} (hs : s.urls.fs = s.fs) {t : Tok} {b : Bool} {u : Urls.St} (h : Urls.start false env.urls s.urls t = .ok (b, u))
    (hu : u.fs = s.fs) : (urls false env).start s t = .ok (b, { s with urls := u }) := by
  obtain ⟨fs, ne, im, ic, da, ur⟩ := s
  have hs : ur.fs = fs := hs
  have hu : u.fs = fs := hu
  simp only at h
  simp [urls, part, Urls.versionUrls, urls_set hs, h, hu]

theorem urls_cont_eq {env : Env} {s : St} (hs : s.urls.fs = s.fs) {t : Tok} {o : Option (List Tok)} {u : Urls.St} (h : Urls.cont env.urls s.urls t = .ok (o, u))
    (hu : u.fs = s.fs) : (urls false env).cont s t = .ok (o, { s with urls := u }) := by
  obtain ⟨fs, ne, im, ic, da, ur⟩ := s
  have hs : ur.fs = fs := hs
  have hu : u.fs = fs := hu
  simp only at h
  simp [urls, part, Urls.versionUrls, urls_set hs, h, hu]

theorem urls_start_fs {env : Urls.Env} {st st' : Urls.St} {t : Tok} {b : Bool} (h : Urls.start false env st t = .ok (b, st')) :
    st'.fs = st.fs ∧ (b = true → st' = st ∧ ((∃ v, t = .str v) ∨ ∃ v, t = .url v)) := by
  unfold Urls.start at h
  split at h
  · split at h
    · cases h; simp
    · split at h
      · simp at h; obtain ⟨rfl, rfl⟩ := h; simp
      · cases h; simp
    · cases h; simp
  · split at h
    · split at h
      · simp at h; obtain ⟨rfl, rfl⟩ := h; simp
      · cases h; simp
    · split at h <;> cases h <;> simp
    · cases h; simp

theorem urls_cont_fs {env : Urls.Env} {st st' : Urls.St} {t : Tok} {r : List Tok} (h : Urls.cont env st t = .ok (some r, st')) :
    st'.fs = st.fs ∧ ∃ w, r = [.str w] ∨ r = [.url w] := by
  have hsuf : ∀ {v w}, Urls.suffixed env st v = .ok (w, st') → st'.fs = st.fs := by
    intro v w h
    unfold Urls.suffixed at h
    split at h
    · cases h; rfl
    · split at h
      · cases h
      · cases h; rfl
  unfold Urls.cont at h
  split at h
  · split at h
    · cases h
    · next h2 => cases h; exact ⟨hsuf h2, _, .inl rfl⟩
  · split at h
    · cases h
    · next h2 => cases h; exact ⟨hsuf h2, _, .inr rfl⟩
  · cases h

/-- Nothing happens but what happens to the URLs. -/
structure Alike (s s' : St) : Prop where
  fs : s'.fs = s.fs
  nest : s'.nest = s.nest
  icon : s'.icon = s.icon
  byData : s'.data.byData = s.data.byData
  children : s'.data.children = s.data.children
  produced : s'.data.produced = s.data.produced
  reused : s'.data.reused = s.data.reused

theorem Alike.trans {a b c : St} (h : Alike a b) (h' : Alike b c) : Alike a c :=
  ⟨h'.1.trans h.1, h'.2.trans h.2, h'.3.trans h.3, h'.4.trans h.4, h'.5.trans h.5, h'.6.trans h.6, h'.7.trans h.7⟩

/-- The four manipulators do what the last of them does alone. -/
theorem lift_urls {n : Nat} {env : Env} : ∀ (ts : List Tok) (s : St), Same s → s.data.skip = false → Left env ts → ∀ out u,
    subAll (Urls.versionUrls false env.urls) s.urls ts = .ok (out, u) →
    ∃ s', Stream (buildManips n env) s ts out none s' ∧ Alike s s' ∧ s'.urls = u := by
  intro ts
  induction ts with
  | nil =>
    intro s _ _ _ out u h
    cases h
    exact ⟨s, .nil, ⟨rfl, rfl, rfl, rfl, rfl, rfl, rfl⟩, rfl⟩
  | cons t ts ih =>
    intro s hs hk hl out u h
    simp only [subAll] at h
    cases hsub : sub (Urls.versionUrls false env.urls) s.urls t with
    | error e => rw [hsub] at h; cases h
    | ok q =>
      obtain ⟨r, u1⟩ := q
      rw [hsub] at h
      simp only at h
      split at h
      · cases h
      · next out2 u2 h2 =>
        cases h
        have i0 := imports_start (n := n) (s := s) (hl.rules t (by simp))
        have i1 := icons_start_none (s := s) hs.icon (hl.icons t (by simp))
        by_cases ht : t = .function (txt "url")
        · subst ht
          have hu : Urls.start false env.urls s.urls (.function (txt "url")) = .ok (false, u1) ∧ r = [.function (txt "url")] := by
            simp only [sub, Urls.versionUrls] at hsub
            cases hst : Urls.start false env.urls s.urls (.function (txt "url")) with
            | error e => rw [hst] at hsub; cases hsub
            | ok q =>
              obtain ⟨b, u'⟩ := q
              cases b with
              | true => rcases ((urls_start_fs hst).2 rfl).2 with ⟨v, hv⟩ | ⟨v, hv⟩ <;> cases hv
              | false => rw [hst] at hsub; cases hsub; exact ⟨rfl, rfl⟩
          obtain ⟨hu, rfl⟩ := hu
          have hufs := (urls_start_fs hu).1
          cases ts with
          | nil => have := hl.ends.resolve_left (by simp); simp at this
          | cons t2 rest =>
            have hnd : Data.tokData t2 = none := by
              cases hd : Data.tokData t2 with
              | none => rfl
              | some q =>
                obtain ⟨type, data⟩ := q
                unfold Data.tokData at hd
                split at hd
                · next v => exact absurd ⟨0, v, rfl, rfl, rfl, (Data.dataOf_spec _ _ _).1 hd⟩ (hl.images 1 type data)
                · cases hd
            obtain ⟨s', g1, g2, g3⟩ := ih { s with data := { s.data with skip := false, stage := none, stack := [] }, urls := u1 }
              ⟨hs.icon, hs.data, hufs.trans hs.urls⟩ rfl hl.tail _ _ h2
            refine ⟨s', ?_, ⟨g2.1, g2.2, g2.3, g2.4, g2.5, g2.6, g2.7⟩, g3⟩
            obtain ⟨fs, ne, im, ic, da, ur⟩ := s
            have e1 : ic.fs = fs := hs.icon
            have e2 : da.fs = fs := hs.data
            have e3 : ur.fs = fs := hs.urls
            have hk : da.skip = false := hk
            dsimp only at *
            have a2 : (data false env).start ⟨fs, ne, im, ic, da, ur⟩ (.function (txt "url")) =
                .ok (true, ⟨fs, ne, im, ic, { da with stage := some .url, stack := [] }, ur⟩) := by
              simp [data, part, Data.outlineData, Data.start, hk, e2]
            have a3 : (data false env).cont ⟨fs, ne, im, ic, { da with stage := some .url, stack := [] }, ur⟩ (.function (txt "url")) =
                .ok (none, ⟨fs, ne, im, ic, { da with stage := some .string, stack := [.function (txt "url")] }, ur⟩) := by
              simp [data, part, Data.outlineData, Data.cont, e2]
            have a4 : (data false env).cont ⟨fs, ne, im, ic, { da with stage := some .string, stack := [.function (txt "url")] }, ur⟩ t2 =
                .ok (some [.function (txt "url"), t2], ⟨fs, ne, im, ic, { da with skip := true, stage := none, stack := [] }, ur⟩) := by
              simp [data, part, Data.outlineData, Data.cont, hnd, e2]
            have b0 : (imports n env).start ⟨fs, ne, im, ic, { da with skip := true, stage := none, stack := [] }, ur⟩ (.function (txt "url")) =
                .ok (false, ⟨fs, ne, im, ic, { da with skip := true, stage := none, stack := [] }, ur⟩) := imports_start rfl
            have b1 : (icons false env).start ⟨fs, ne, im, ic, { da with skip := true, stage := none, stack := [] }, ur⟩ (.function (txt "url")) =
                .ok (false, ⟨fs, ne, im, ic, { da with skip := true, stage := none, stack := [] }, ur⟩) := icons_start_none e1 rfl
            have b2 : (data false env).start ⟨fs, ne, im, ic, { da with skip := true, stage := none, stack := [] }, ur⟩ (.function (txt "url")) =
                .ok (false, ⟨fs, ne, im, ic, { da with skip := false, stage := none, stack := [] }, ur⟩) := by
              simp [data, part, Data.outlineData, Data.start, e2]
            have b3 : (urls false env).start ⟨fs, ne, im, ic, { da with skip := false, stage := none, stack := [] }, ur⟩ (.function (txt "url")) =
                .ok (false, ⟨fs, ne, im, ic, { da with skip := false, stage := none, stack := [] }, u1⟩) := urls_start_eq e3 hu (hufs.trans e3)
            exact .replace (run := [.function (txt "url"), t2]) (rest := rest) (.tail i0 (.tail i1 (.head a2))) rfl
              ⟨[.function (txt "url")], t2, _, rfl, .cons a3 .nil, a4⟩ (.keep (.cons b0 (.cons b1 (.cons b2 (.cons b3 .nil)))) g1)
        · have i2 := data_start_none (env := env) (s := s) hs.data ht
          simp only [sub, Urls.versionUrls] at hsub
          cases hst : Urls.start false env.urls s.urls t with
          | error e => rw [hst] at hsub; cases hsub
          | ok q =>
            obtain ⟨b, u'⟩ := q
            rw [hst] at hsub
            obtain ⟨f1, f2⟩ := urls_start_fs hst
            cases b with
            | false =>
              cases hsub
              have i3 := urls_start_eq (s := s) hs.urls hst (f1.trans hs.urls)
              obtain ⟨s', g1, g2, g3⟩ := ih { s with urls := u1 } ⟨hs.icon, hs.data, f1.trans hs.urls⟩ hk hl.tail _ _ h2
              exact ⟨s', .keep (.cons i0 (.cons i1 (.cons i2 (.cons i3 .nil)))) g1, ⟨g2.1, g2.2, g2.3, g2.4, g2.5, g2.6, g2.7⟩, g3⟩
            | true =>
              obtain ⟨rfl, -⟩ := f2 rfl
              have i3 := urls_start_eq (s := s) hs.urls hst (f1.trans hs.urls)
              cases hct : Urls.cont env.urls s.urls t with
              | error e => simp only [hct] at hsub; cases hsub
              | ok q =>
                obtain ⟨o, u''⟩ := q
                obtain ⟨r', rfl, hinert⟩ := Urls.urls_single false env.urls s.urls t s.urls o u'' hst hct
                simp only [hct] at hsub
                cases hsub
                obtain ⟨f3, w, hw⟩ := urls_cont_fs hct
                have i4 := urls_cont_eq (s := s) hs.urls hct (f3.trans hs.urls)
                obtain ⟨s', g1, g2, g3⟩ := ih { s with urls := u1 } ⟨hs.icon, hs.data, f3.trans hs.urls⟩ hk hl.tail _ _ h2
                have hs1 : { s with urls := s.urls } = s := rfl
                have : ∃ t', r = [t'] ∧ Nest.getImport env.nest t' = none ∧ Icons.getIcon env.icon t' = .ok none ∧ t' ≠ .function (txt "url") := by
                  rcases hw with rfl | rfl
                  · exact ⟨_, rfl, rfl, rfl, by simp⟩
                  · exact ⟨_, rfl, rfl, rfl, by simp⟩
                obtain ⟨t', rfl, k1, k2, k3⟩ := this
                have j3 : (urls false env).start { s with urls := u1 } t' = .ok (false, { s with urls := u1 }) :=
                  urls_start_eq (s := { s with urls := u1 }) (f3.trans hs.urls) (hinert t' (by simp) u1) (f3.trans hs.urls)
                refine ⟨s', ?_, ⟨g2.1, g2.2, g2.3, g2.4, g2.5, g2.6, g2.7⟩, g3⟩
                exact .replace (run := [t]) (rest := ts) (.tail i0 (.tail i1 (.tail i2 (.head i3)))) rfl ⟨[], t, _, rfl, .nil, i4⟩
                  (.keep (.cons (imports_start k1) (.cons (icons_start_none (s := { s with urls := u1 }) hs.icon k2)
                    (.cons (data_start_none (s := { s with urls := u1 }) hs.data k3) (.cons j3 .nil)))) g1)

theorem UrlsOnly.left {env : Env} (hsp : Icons.Spaces env.icon.space) {ts : List Tok} (h : UrlsOnly env ts) (he : ts.getLast? = some .eof) : Left env ts where
  rules t ht := by
    cases hg : Nest.getImport env.nest t with
    | none => rfl
    | some r => exact absurd ⟨t, ht, hg⟩ (h.rules r)
  icons t ht := by
    unfold Icons.getIcon
    split
    · next v =>
      cases hi : Icons.iconArgs env.icon.space v with
      | none => rfl
      | some a => exact absurd ((Icons.iconArgs_iff hsp.1 hsp.2.1 hsp.2.2.1 hsp.2.2.2 v a).1 hi) (h.icons v a ht)
    · rfl
  images := h.images
  ends := .inr he

theorem same_new (fs : Fs) : Same (St.new fs) := ⟨rfl, rfl, rfl⟩

/-- When the hashes are there. -/
theorem run_urls {n : Nat} {env : Env} (hsp : Icons.Spaces env.icon.space) {fs : Fs} {ts : List Tok} (he : ts.getLast? = some .eof) (hu : UrlsOnly env ts)
    (hall : ∀ h, Urls.Needs env.urls ts h → (fs h).isSome) :
    ∃ fuel acc b, runOps (buildManips n env) fuel (State.new (St.new fs)) [] (perToken ts) = some (.ok (acc, b)) ∧ Alike (St.new fs) b.st ∧
      ∀ h, h ∈ b.st.urls.children ↔ Urls.Needs env.urls ts h := by
  obtain ⟨out, u, h1⟩ := Urls.build_ok env.urls ts [] (St.new fs).urls hu.rooted (by simp [St.new, Urls.not_inside_nil])
    (fun k v path h1 h2 => hall _ ⟨k, v, path, by simpa using h1, h2, rfl⟩)
  obtain ⟨s', g1, g2, g3⟩ := lift_urls (n := n) ts (St.new fs) (same_new fs) rfl (hu.left hsp he) out u h1
  obtain ⟨-, -, -, h2⟩ := Urls.build_spec env.urls ts [] (St.new fs).urls u out hu.rooted (by simp [St.new, Urls.not_inside_nil]) h1
  rw [← tokensOf_perToken ts] at g1
  obtain ⟨fuel, acc, rest, h3, -⟩ := C32_complete _ _ _ _ _ _ g1
  refine ⟨fuel, acc, _, h3, g2, fun h => ?_⟩
  dsimp only
  rw [g3, h2]
  simp [St.new, Urls.Needs]

/-- The fuel does not matter if it suffices. -/
theorem runOps_unique {S τ E : Type} {ms : List (Manip S τ E)} {f f' : Nat} {b : State S τ E} {acc : List τ} {ops : List (Op τ)}
    {r r' : Except E (List τ × State S τ E)} (h : runOps ms f b acc ops = some r) (h' : runOps ms f' b acc ops = some r') : r = r' := by
  have h1 := Js.File.runOps_mono ms f f' ops b acc r h
  have h2 := Js.File.runOps_mono ms f' f ops b acc r' h'
  rw [Nat.add_comm, h1] at h2
  exact Option.some.inj h2

/-- Without commands nothing is imported. -/
theorem nest_same {n : Nat} {env : Nest.Env} {ts : List Tok} : ∀ {st st' : Nest.St} {mid : List Tok} {m : Option (Manip Nest.St Tok Nest.Err)},
    (∀ t ∈ ts, Nest.getImport env t = none) → Stream [Nest.nest env n] st ts mid m st' → mid = ts := by
  induction ts with
  | nil =>
    intro st st' mid m _ h
    generalize hx : ([] : List Tok) = x at h
    cases h with
    | nil => rfl
    | keep => cases hx
    | replace h1 h2 _ _ => simp at hx; rw [hx.1] at h2; simp at h2
    | unfinished h1 h2 => subst hx; simp at h2
  | cons t ts ih =>
    intro st st' mid m hn h
    obtain ⟨mid', rfl, h'⟩ := nest_head (hn t (by simp)) h
    rw [ih (fun x hx => hn x (by simp [hx])) h']

/-- The build of a stylesheet which only has URLs, if its outputs are not there: it succeeds if and only if all hashes are there, and names them. -/
theorem build_urls {fuel n : Nat} {env : Env} (hsp : Icons.Spaces env.icon.space) {name : Text} {fs : Fs} (hs : env.urls.self = txt "src/public/" ++ name)
    (hh : fs (txt "out/www/" ++ name ++ txt ".hash") = none) {b : Bytes} (hb : fs (txt "src/public/" ++ name) = some b) {ts : List Tok}
    (ht : tokenize env.nest.uni (env.decode b) = .ok ts) (hu : UrlsOnly env ts) :
    (∀ r fs', buildFile fuel n env (txt "src/public/" ++ name) fs = some (.ok (r, fs')) → plainFile fuel n env (txt "src/public/" ++ name) fs = true →
      (∀ d, d ∈ r.children ↔ Urls.Needs env.urls ts d) ∧ ∃ s, Quiet s ∧ r = report name s) ∧
    ((∀ d, Urls.Needs env.urls ts d → fs d ≠ none) → buildFile fuel n env (txt "src/public/" ++ name) fs ≠ none →
      ∃ r fs', buildFile fuel n env (txt "src/public/" ++ name) fs = some (.ok (r, fs')) ∧ plainFile fuel n env (txt "src/public/" ++ name) fs = true) := by
  have hlast := last_eof ht
  have hquiet : ∀ {s : St}, Alike (St.new fs) s → Quiet s ∧ s.nest.children = [] := by
    intro s h
    refine ⟨⟨?_, ?_, ?_, h.byData, h.children, h.produced, h.reused⟩, ?_⟩ <;> simp only [h.icon, h.nest] <;> rfl
  constructor
  · intro r fs' h hp
    obtain ⟨b', ts', out, s, h1, h2, h3, h4, rfl, rfl⟩ := (build_bare hh).1 ⟨h, hp⟩
    rw [hb] at h1
    cases h1
    rw [ht] at h2
    cases h2
    have hst := C32 _ _ _ _ _ _ h3
    rw [runOps_perToken rfl h3, List.append_nil, tokensOf_perToken ts] at hst
    obtain ⟨mid, k1, k2⟩ := stream_plain hst h4.quiet h4.hashes (.inr hlast)
    cases nest_same (hu.left hsp hlast).rules k1
    have hver := vers_versioned (env := env.urls) (by rw [hs]; exact ⟨name, rfl⟩) k2 [] (by simpa [St.new] using Urls.not_inside_nil env.urls.lower)
    have hall : ∀ h, Urls.Needs env.urls ts h → (fs h).isSome := by
      rintro h ⟨k, v, path, q1, q2, rfl⟩
      have hk : ∃ t, ts[k]? = some t := by
        rcases q1 with ⟨q, -⟩ | ⟨q, -⟩ <;> exact ⟨_, q⟩
      obtain ⟨t, hk⟩ := hk
      have hver' : Versioned env.urls fs ts out := by simpa [Versioned, St.new] using hver
      obtain ⟨y, hy, -⟩ := (hver'.2 k t hk).1 v path q1 q2
      rw [hy]
      rfl
    obtain ⟨fuel', acc, b2, e1, e2, e3⟩ := run_urls (n := n) hsp hlast hu hall
    have := runOps_unique h3 e1
    cases this
    obtain ⟨c1, c2⟩ := hquiet e2
    refine ⟨fun d => ?_, _, c1, rfl⟩
    rw [(mem_report c1).1, c2, e3]
    simp
  · intro hall hn
    obtain ⟨fuel', acc, b2, e1, e2, e3⟩ := run_urls (n := n) (fs := fs) hsp hlast hu (fun h hh => by
      obtain ⟨y, hy⟩ := Option.ne_none_iff_exists'.1 (hall h hh)
      rw [hy]; rfl)
    obtain ⟨c1, c2⟩ := hquiet e2
    have hr : runOps (buildManips n env) fuel (State.new (St.new fs)) [] (perToken ts) = some (.ok (acc, b2)) := by
      cases hrun : runOps (buildManips n env) fuel (State.new (St.new fs)) [] (perToken ts) with
      | none =>
        refine absurd ?_ hn
        unfold buildFile
        rw [Js.File.copyTarget_name]
        simp only [hb, ht, hrun]
        rfl
      | some x => rw [runOps_unique hrun e1]
    refine ⟨_, _, (build_bare hh).2 ⟨b, ts, acc, b2, hb, ht, hr, ⟨c1, by rw [c2]; simp, fun h hh => ?_⟩, rfl, rfl⟩⟩
    obtain ⟨k, v, path, -, -, rfl⟩ := (e3 h).1 hh
    exact ⟨path ++ txt ".hash", by simp [hashFile]⟩

/-! ## The scan -/

/-- Without images the second last manipulator does nothing. -/
theorem data_stream {env : Env} : ∀ (ts : List Tok) (sd : Data.St), sd.skip = false → Left env ts →
    ∃ sd', Stream [Data.outlineData true env.data] sd ts ts none sd' ∧ sd'.dependencies = sd.dependencies ∧ sd'.produces = sd.produces := by
  intro ts
  induction ts with
  | nil => intro sd _ _; exact ⟨sd, .nil, rfl, rfl⟩
  | cons t ts ih =>
    intro sd hk hl
    by_cases ht : t = .function (txt "url")
    · subst ht
      cases ts with
      | nil => have := hl.ends.resolve_left (by simp); simp at this
      | cons t2 rest =>
        have hnd : Data.tokData t2 = none := by
          cases hd : Data.tokData t2 with
          | none => rfl
          | some q =>
            obtain ⟨type, data⟩ := q
            unfold Data.tokData at hd
            split at hd
            · next v => exact absurd ⟨0, v, rfl, rfl, rfl, (Data.dataOf_spec _ _ _).1 hd⟩ (hl.images 1 type data)
            · cases hd
        obtain ⟨sd', g1, g2, g3⟩ := ih { sd with skip := false, stage := none, stack := [] } rfl hl.tail
        refine ⟨sd', ?_, g2, g3⟩
        have a2 : (Data.outlineData true env.data).start sd (.function (txt "url")) = .ok (true, { sd with stage := some .url, stack := [] }) := by
          simp [Data.outlineData, Data.start, hk]
        have a3 : (Data.outlineData true env.data).cont { sd with stage := some .url, stack := [] } (.function (txt "url")) =
            .ok (none, { sd with stage := some .string, stack := [.function (txt "url")] }) := by
          simp [Data.outlineData, Data.cont]
        have a4 : (Data.outlineData true env.data).cont { sd with stage := some .string, stack := [.function (txt "url")] } t2 =
            .ok (some [.function (txt "url"), t2], { sd with skip := true, stage := none, stack := [] }) := by
          simp [Data.outlineData, Data.cont, hnd]
        have b2 : (Data.outlineData true env.data).start { sd with skip := true, stage := none, stack := [] } (.function (txt "url")) =
            .ok (false, { sd with skip := false, stage := none, stack := [] }) := by
          simp [Data.outlineData, Data.start]
        exact .replace (run := [.function (txt "url"), t2]) (rest := rest) (.head a2) rfl
          ⟨[.function (txt "url")], t2, _, rfl, .cons a3 .nil, a4⟩ (.keep (.cons b2 .nil) g1)
    · obtain ⟨sd', g1, g2⟩ := ih sd hk hl.tail
      refine ⟨sd', .keep (.cons ?_ .nil) g1, g2⟩
      show Data.start sd t = .ok (false, sd)
      unfold Data.start
      split
      · next v => rw [if_pos (by rintro rfl; exact ht rfl)]
      · rfl

theorem icons_stream {env : Icons.Env} : ∀ (ts : List Tok) (st : Icons.St), (∀ t ∈ ts, Icons.getIcon env t = .ok none) →
    subAll (Icons.iconsScan env) st ts = .ok (ts, st) := by
  intro ts
  induction ts with
  | nil => intro st _; rfl
  | cons t ts ih =>
    intro st h
    simp only [subAll, sub, Icons.iconsScan, Icons.scanStart, h t (by simp)]
    have := ih st fun x hx => h x (by simp [hx])
    simp only [Icons.iconsScan] at this
    rw [this]
    rfl

/-- The scan of a stylesheet which only has URLs succeeds; it lists the hashes, and announces the copy and its hash. -/
theorem scan_urls {env : Env} (hsp : Icons.Spaces env.icon.space) {name : Text} {fs : Fs} {b : Bytes} (hb : fs (txt "src/public/" ++ name) = some b) {ts : List Tok}
    (ht : tokenize env.nest.uni (env.decode b) = .ok ts) (hu : UrlsOnly env ts) {fuel : Nat} (hn : scanFile fuel env (txt "src/public/" ++ name) fs ≠ none) :
    ∃ s, scanFile fuel env (txt "src/public/" ++ name) fs = some (.ok s) ∧ (∀ d, d ∈ s.dependencies ↔ Urls.Needs env.urls ts d) ∧
      ∀ o, o ∈ s.produces ↔ o = txt "out/www/" ++ name ∨ o = txt "out/www/" ++ name ++ txt ".hash" := by
  have hl := hu.left hsp (last_eof ht)
  obtain ⟨sd, d1, d2, d3⟩ := data_stream ts (St.new fs).data rfl hl
  obtain ⟨s', g1, g2, g3, g4, g5, g6, g7⟩ := scan_stream d1 rfl (St.new fs) (same_new fs) rfl _ (icons_stream ts _ hl.icons)
  obtain ⟨ur, u1, -, u3⟩ := Urls.scan_spec env.urls ts [] (St.new fs).urls hu.rooted (by simp [St.new, Urls.not_inside_nil])
  rw [u1] at g7
  have g8 : ur = s'.urls := by simpa using g7
  subst g8
  rw [← tokensOf_perToken ts] at g1
  obtain ⟨f, acc, rest, r1, -⟩ := C32_complete _ _ _ _ _ _ g1
  have hrun : runOps (scanManips env) fuel (State.new (St.new fs)) [] (perToken ts) = some (.ok (acc, ⟨rest, none, s'⟩)) := by
    cases hr : runOps (scanManips env) fuel (State.new (St.new fs)) [] (perToken ts) with
    | none =>
      refine absurd ?_ hn
      unfold scanFile
      simp only [hb, ht, hr]
      rfl
    | some x => rw [runOps_unique hr r1]
  refine ⟨scanResult (txt "src/public/" ++ name) s', ?_, fun d => ?_, fun o => ?_⟩
  · unfold scanFile
    simp only [hb, ht, hrun]
    rfl
  · have hc : (copyScan (txt "src/public/" ++ name)).dependencies = [] := by unfold copyScan; split <;> rfl
    have hh : (hashScan (txt "src/public/" ++ name)).dependencies = [] := by unfold hashScan; split <;> rfl
    have hni : ¬ Nest.ImportsFrom env.nest ts d := fun ⟨r, h, _⟩ => hu.rules r h
    have := (Nest.scan_spec env.nest ts (St.new fs).imports d)
    simp only [scanResult, List.foldl, mem_addAll, hc, hh, g4, g5, g6, d2, u3, this]
    simp [St.new, hni, Urls.Needs]
  · have hc : (copyScan (txt "src/public/" ++ name)).produces = [txt "out/www/" ++ name] := Handlers.copyScan_produces (Js.File.copyTarget_name name)
    have hh : (hashScan (txt "src/public/" ++ name)).produces = [txt "out/www/" ++ name ++ txt ".hash"] := Handlers.hashScan_produces (Js.File.hashTarget_name name)
    simp only [scanResult, List.foldl, mem_addAll, hc, hh, g5, g6, d3]
    simp [St.new]

end Verif.Css.Page
