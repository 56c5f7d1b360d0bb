import Verif.CssPageThm
import Verif.CssDataCase
import Verif.CssUrlsThm
import Verif.NestSyntax
import Verif.HandlersThm
import Verif.JsFile

/-!
# What the scan of a stylesheet announces
-/

namespace Verif.Css.Page

open Verif.Reader (Text txt)
open Verif.Css (Uni Tok tokenize serializeMany)
open Verif.Build
open Verif.Handlers (Bytes Fs Scan Built copyScan hashScan copyTarget hashBuild)
open Verif.Icons (add addAll mem_add mem_addAll)

/-- The copies of the files are those of the project. -/
structure Same (s : St) : Prop where
  icon : s.icon.fs = s.fs
  data : s.data.fs = s.fs
  urls : s.urls.fs = s.fs

theorem data_cont {env : Data.Env} {s s' : Data.St} {u : Tok} {r : Option (List Tok)} (h : (Data.outlineData true env).cont s u = .ok (r, s')) (hs : s.stage = some .string)
    (hk : ∃ t, s.stack = [t]) : s'.fs = s.fs ∧ ∃ u', r = some (s.stack ++ [u']) ∧ (u' = u ∨ (∃ v, u = .str v) ∧ ∃ w, u' = .str w) := by
  obtain ⟨t, hk⟩ := hk
  simp only [Data.outlineData, Data.cont, hs, hk, if_true] at h
  split at h
  · cases h
    exact ⟨rfl, u, by rw [hk], .inl rfl⟩
  · next type data hd =>
    cases h
    refine ⟨?_, _, by rw [hk]; rfl, .inr ⟨?_, _, rfl⟩⟩
    · unfold Data.announce Data.allot
      split <;> split <;> rfl
    · unfold Data.tokData at hd
      cases u <;> simp at hd ⊢

/-- What the manipulator of image data does while scanning: it takes `url(` and the next token. -/
theorem data_closed {env : Data.Env} {s s1 s2 : Data.St} {t : Tok} {m : Manip Data.St Tok Data.DErr} {run r : List Tok}
    (ht : Taken [Data.outlineData true env] s t m s1) (hh : run.head? = some t) (hc : Closed m s1 run r s2) :
    ∃ u u' sm, t = .function (txt "url") ∧ run = [t, u] ∧ r = [t, u'] ∧ (u' = u ∨ (∃ v, u = .str v) ∧ ∃ w, u' = .str w) ∧
      Data.start s t = .ok (true, s1) ∧ Data.cont true env s1 t = .ok (none, sm) ∧ Data.cont true env sm u = .ok (some r, s2) ∧
      s1.fs = s.fs ∧ sm.fs = s.fs ∧ s2.fs = s.fs := by
  cases ht with
  | tail _ h => cases h
  | head h =>
    have hs := h
    simp only [Data.outlineData, Data.start] at h
    split at h
    case h_2 => cases h
    case h_1 v =>
      split at h
      · cases h
      · next hv =>
        split at h
        · cases h
        · cases h
          have hv := Decidable.not_not.1 hv
          subst hv
          obtain ⟨us, u, s3, rfl, ho, hf⟩ := hc
          cases ho with
          | nil =>
            simp only [List.nil_append, List.head?_cons, Option.some.injEq] at hh
            subst hh
            simp [Data.outlineData, Data.cont] at hf
          | @cons _ x sa us _ h1 h2 =>
            simp only [List.cons_append, List.head?_cons, Option.some.injEq] at hh
            subst hh
            have h1' := h1
            simp only [Data.outlineData, Data.cont, if_true, List.nil_append] at h1
            cases h1
            cases h2 with
            | cons h3 h4 =>
              obtain ⟨-, u', hu, -⟩ := data_cont h3 rfl ⟨_, rfl⟩
              cases hu
            | nil =>
              obtain ⟨hfs, u', hu, hk⟩ := data_cont hf rfl ⟨_, rfl⟩
              cases hu
              exact ⟨u, u', _, rfl, rfl, rfl, hk, hs, h1', hf, rfl, rfl, hfs⟩

theorem urls_start {env : Urls.Env} (st : Urls.St) (t : Tok) : ∃ st', Urls.start true env st t = .ok (false, st') ∧ st'.fs = st.fs := by
  unfold Urls.start
  split
  · split
    · exact ⟨_, rfl, rfl⟩
    · split <;> exact ⟨_, rfl, rfl⟩
    · exact ⟨_, rfl, rfl⟩
  · split
    · split <;> exact ⟨_, rfl, rfl⟩
    · split <;> exact ⟨_, rfl, rfl⟩
    · exact ⟨_, rfl, rfl⟩

theorem icons_start {env : Icons.Env} {st st' : Icons.St} {t : Tok} {b : Bool} (h : Icons.scanStart env st t = .ok (b, st')) :
    b = false ∧ st'.fs = st.fs := by
  unfold Icons.scanStart at h
  split at h
  · cases h
  · cases h; exact ⟨rfl, rfl⟩
  · next i _ =>
    cases h
    refine ⟨rfl, ?_⟩
    unfold Icons.scanIcon
    generalize i.colors = cs
    have : ∀ (cs : List Text) (x : Icons.St), (cs.foldl (fun (st : Icons.St) c => { st with
        produces := add (add st.produces (i.output c)) (i.output c ++ txt ".hash")
        dependencies := add st.dependencies (i.output c ++ txt ".hash") }) x).fs = x.fs := by
      intro cs
      induction cs with
      | nil => intro x; rfl
      | cons c cs ih => intro x; rw [List.foldl_cons, ih]
    simp only [this]
    split <;> rfl

theorem icon_set {a : Icons.St} {fs : Fs} (h : a.fs = fs) : { a with fs := fs } = a := by subst h; rfl
theorem data_set {a : Data.St} {fs : Fs} (h : a.fs = fs) : { a with fs := fs } = a := by subst h; rfl
theorem urls_set {a : Urls.St} {fs : Fs} (h : a.fs = fs) : { a with fs := fs } = a := by subst h; rfl

/-- A token which none of the manipulators takes. -/
theorem declined_scan {env : Env} {s : St} {t : Tok} (hs : Same s) {ic : Icons.St} {da : Data.St} {ur : Urls.St}
    (h1 : Icons.scanStart env.icon s.icon t = .ok (false, ic)) (h2 : Data.start s.data t = .ok (false, da)) (h3 : Urls.start true env.urls s.urls t = .ok (false, ur))
    (f1 : ic.fs = s.fs) (f2 : da.fs = s.fs) (f3 : ur.fs = s.fs) :
    Declined (scanManips env) s t { s with imports := Nest.scan env.nest s.imports t, icon := ic, data := da, urls := ur } := by
  obtain ⟨fs, ne, im, ic0, da0, ur0⟩ := s
  have e1 : ic0.fs = fs := hs.icon
  have e2 : da0.fs = fs := hs.data
  have e3 : ur0.fs = fs := hs.urls
  dsimp only at *
  have a1 : (icons true env).start ⟨fs, ne, Nest.scan env.nest im t, ic0, da0, ur0⟩ t = .ok (false, ⟨fs, ne, Nest.scan env.nest im t, ic, da0, ur0⟩) := by
    simp only [icons, part, if_true, icon_set e1, Icons.iconsScan, h1, f1]
  have a2 : (data true env).start ⟨fs, ne, Nest.scan env.nest im t, ic, da0, ur0⟩ t = .ok (false, ⟨fs, ne, Nest.scan env.nest im t, ic, da, ur0⟩) := by
    simp only [data, part, data_set e2, Data.outlineData, h2, f2]
  have a3 : (urls true env).start ⟨fs, ne, Nest.scan env.nest im t, ic, da, ur0⟩ t = .ok (false, ⟨fs, ne, Nest.scan env.nest im t, ic, da, ur⟩) := by
    simp only [urls, part, urls_set e3, Urls.versionUrls, h3, f3]
  exact .cons rfl (.cons a1 (.cons a2 (.cons a3 .nil)))

theorem scan_stream {env : Env} {sd sd' : Data.St} {ts out : List Tok} {m : Option (Manip Data.St Tok Data.DErr)}
    (h : Stream [Data.outlineData true env.data] sd ts out m sd') : m = none → ∀ (s : St), Same s → s.data = sd → ∀ ic,
    subAll (Icons.iconsScan env.icon) s.icon ts = .ok (ts, ic) → ∃ s', Stream (scanManips env) s ts out none s' ∧ Same s' ∧ s'.fs = s.fs ∧
      s'.imports = ts.foldl (Nest.scan env.nest) s.imports ∧ s'.icon = ic ∧ s'.data = sd' ∧
      subAll (Urls.versionUrls true env.urls) s.urls out = .ok (out, s'.urls) := by
  induction h with
  | nil =>
    intro _ s hs hd ic hi
    cases hi
    exact ⟨s, .nil, hs, rfl, rfl, rfl, hd, rfl⟩
  | @keep sd t sd1 ts out m sd' hdec _ ih =>
    intro hm s hs hd ic hi
    subst hd
    cases hdec with
    | cons hst hnil =>
      cases hnil
      simp only [subAll, sub, Icons.iconsScan] at hi
      cases hi1 : Icons.scanStart env.icon s.icon t with
      | error e => rw [hi1] at hi; cases hi
      | ok p =>
        obtain ⟨b, ic1⟩ := p
        obtain ⟨rfl, f1⟩ := icons_start hi1
        rw [hi1] at hi
        simp only at hi
        obtain ⟨ur1, hu, f3⟩ := urls_start (env := env.urls) s.urls t
        have hst' : Data.start s.data t = .ok (false, sd1) := hst
        have f2 : sd1.fs = s.data.fs := by
          unfold Data.start at hst'
          split at hst'
          · split at hst'
            · cases hst'; rfl
            · split at hst' <;> cases hst'
              rfl
          · cases hst'; rfl
        have hdecl := declined_scan (env := env) hs hi1 hst' hu (f1.trans hs.icon) (f2.trans hs.data) (f3.trans hs.urls)
        split at hi
        · cases hi
        · next o ic2 hi2 =>
          cases hi
          obtain ⟨s', g1, g2, g3, g4, g5, g6, g7⟩ := ih hm { s with imports := Nest.scan env.nest s.imports t, icon := ic1, data := sd1, urls := ur1 }
            ⟨f1.trans hs.icon, f2.trans hs.data, f3.trans hs.urls⟩ rfl ic hi2
          refine ⟨s', .keep hdecl g1, g2, g3, g4, g5, g6, ?_⟩
          have g7' : subAll (Urls.versionUrls true env.urls) ur1 out = .ok (out, s'.urls) := g7
          simp only [subAll, sub, Urls.versionUrls, hu] at g7' ⊢
          rw [g7']
          rfl
  | @replace sd t m1 sd1 run r sd2 rest out m' sd' ht hh hc _ ih =>
    intro hm s hs hd ic hi
    subst hd
    obtain ⟨u, u', sm, rfl, rfl, rfl, hk, b1, b2, b3, c1, c2, c3⟩ := data_closed ht hh hc
    have hfun : ∀ x, Icons.scanStart env.icon x (.function (txt "url")) = .ok (false, x) := fun x => rfl
    have hstr : ∀ x v, Icons.scanStart env.icon x (.str v) = .ok (false, x) := fun x v => rfl
    have ei : ∀ x, subAll (Icons.iconsScan env.icon) x ([.function (txt "url"), u] ++ rest) = .ok ([.function (txt "url"), u] ++ rest, ic) →
        subAll (Icons.iconsScan env.icon) x ([.function (txt "url"), u'] ++ rest) = .ok ([.function (txt "url"), u'] ++ rest, ic) := by
      intro x hx
      rcases hk with rfl | ⟨⟨v, rfl⟩, w, rfl⟩
      · exact hx
      · simp only [List.cons_append, List.nil_append, subAll, sub, Icons.iconsScan, hfun, hstr] at hx ⊢
        split at hx
        · cases hx
        · next h1 => split at h1 <;> cases h1 <;> simp_all
    have em : ∀ x, ([.function (txt "url"), u'] ++ rest).foldl (Nest.scan env.nest) x = ([.function (txt "url"), u] ++ rest).foldl (Nest.scan env.nest) x := by
      intro x
      rcases hk with rfl | ⟨⟨v, rfl⟩, w, rfl⟩ <;> rfl
    obtain ⟨s', g1, g2, g3, g4, g5, g6, g7⟩ := ih hm { s with data := sd2 } ⟨hs.icon, c3.trans hs.data, hs.urls⟩ rfl ic (ei _ hi)
    refine ⟨s', ?_, g2, g3, g4.trans (em _), g5, g6, g7⟩
    obtain ⟨fs, ne, im, ic0, da0, ur0⟩ := s
    have e1 : ic0.fs = fs := hs.icon
    have e2 : da0.fs = fs := hs.data
    dsimp only at *
    have d1 : sd1.fs = fs := c1.trans e2
    have d2 : sm.fs = fs := c2.trans e2
    have d3 : sd2.fs = fs := c3.trans e2
    have a1 : (icons true env).start ⟨fs, ne, im, ic0, da0, ur0⟩ (.function (txt "url")) = .ok (false, ⟨fs, ne, im, ic0, da0, ur0⟩) := by
      simp only [icons, part, if_true, icon_set e1, Icons.iconsScan, hfun, e1]
    have a2 : (data true env).start ⟨fs, ne, im, ic0, da0, ur0⟩ (.function (txt "url")) = .ok (true, ⟨fs, ne, im, ic0, sd1, ur0⟩) := by
      simp only [data, part, data_set e2, Data.outlineData, b1, d1]
    have a3 : (data true env).cont ⟨fs, ne, im, ic0, sd1, ur0⟩ (.function (txt "url")) = .ok (none, ⟨fs, ne, im, ic0, sm, ur0⟩) := by
      simp only [data, part, data_set d1, Data.outlineData, b2, d2]
    have a4 : (data true env).cont ⟨fs, ne, im, ic0, sm, ur0⟩ u = .ok (some [.function (txt "url"), u'], ⟨fs, ne, im, ic0, sd2, ur0⟩) := by
      simp only [data, part, data_set d2, Data.outlineData, b3, d3]
    have a0 : (part (·.imports) (fun s a => { s with imports := a }) .nest (importScan env.nest)).start ⟨fs, ne, im, ic0, da0, ur0⟩
        (.function (txt "url")) = .ok (false, ⟨fs, ne, im, ic0, da0, ur0⟩) := rfl
    exact .replace (.tail a0 (.tail a1 (.head a2))) rfl ⟨[.function (txt "url")], u, _, rfl, .cons a3 .nil, a4⟩ g1
  | unfinished _ _ _ => intro hm; cases hm

/-! ## The images -/

/-- The scan does not look at the files. -/
theorem run_files (env : Data.Env) (l : Fs → Text → Bool) (fs : Fs) : ∀ (ts : List Tok) (prev : Bool) (st st' : Data.St) (out : List Tok),
    Data.run true { env with lexists := l } prev st ts = .ok (out, st') → Data.run true env prev { st with fs := fs } ts = .ok (out, { st' with fs := fs }) := by
  intro ts
  induction ts with
  | nil => intro prev st st' out h; cases h; rfl
  | cons t ts ih =>
    intro prev st st' out h
    have hstep : ∀ t' st1, Data.step true { env with lexists := l } prev st t = .ok (t', st1) →
        Data.step true env prev { st with fs := fs } t = .ok (t', { st1 with fs := fs }) := by
      intro t' st1 h1
      unfold Data.step at h1 ⊢
      cases hf : Data.found prev t with
      | none => rw [hf] at h1; cases h1; rfl
      | some p =>
        obtain ⟨type, data⟩ := p
        rw [hf] at h1
        simp only [Data.swap, if_true, Data.allot] at h1 ⊢
        cases hi : Assoc.item st.byData data with
        | none => simp only [hi] at h1 ⊢; cases h1; rfl
        | some q => simp only [hi] at h1 ⊢; cases h1; rfl
    simp only [Data.run] at h ⊢
    cases h1 : Data.step true { env with lexists := l } prev st t with
    | error e => rw [h1] at h; cases h
    | ok p =>
      obtain ⟨t', st1⟩ := p
      rw [h1] at h
      rw [hstep _ _ h1]
      simp only at h ⊢
      cases h2 : Data.run true { env with lexists := l } (Data.isUrl t) st1 ts with
      | error e => rw [h2] at h; cases h
      | ok p =>
        obtain ⟨o, st2⟩ := p
        rw [h2] at h
        cases h
        rw [ih _ _ _ _ h2]

/-- What the scan makes of the images, wherever the files are. -/
theorem data_scan {env : Data.Env} {stem : Text} (hs : Data.Stylesheet env.self stem) (fs : Fs) {ts : List Tok} (he : Data.Ended ts) :
    ∃ out st, Stream [Data.outlineData true env] (Data.fresh fs) ts out none st ∧ Data.Outlined stem (fun _ => []) ts out ∧
      (∀ q, q ∈ st.produces ↔ Data.Outputs stem ts q) ∧ st.dependencies = [] := by
  obtain ⟨out, pos, st, h1, h2⟩ := Data.inv_run (scan := true) (env := { env with lexists := fun fs p => (fs p).isSome }) (fs := fun _ => none)
    (stem := stem) hs (fun _ _ => rfl) (fun _ _ => rfl) ts
  have h3 := run_files env _ fs ts _ _ _ _ h1
  obtain ⟨f, hf⟩ := Data.loop_run true env ts.length ts [] (Data.fresh fs) (Nat.le_refl _) ⟨rfl, rfl, rfl⟩ he
  have e : Data.run true env false (Data.fresh fs) ts = .ok (out, { st with fs := fs }) := h3
  rw [e] at hf
  obtain ⟨o, g1, g2, -⟩ := loop_sound _ _ _ _ _ hf
  have g1' : out = o := by simpa using g1
  subst g1'
  exact ⟨out, _, g2 rfl, h2.outlined, by simpa using h2.made, h2.dependencies⟩

/-! ## The URLs -/

theorem outlined_get {stem : Text} {ts out : List Tok} (h : Data.Outlined stem (fun _ => []) ts out) (k : Nat) :
    (∃ t, ts[k]? = some t ∧ out[k]? = some t ∧ ∀ type data, ¬ Data.ImageAt ts k type data) ∨
    (∃ v w type data, ts[k]? = some (.str v) ∧ out[k]? = some (.str w) ∧ Data.ImageAt ts k type data ∧ Data.DataUrl v type data ∧ Data.AddressOf stem ts data w) ∨
    (ts[k]? = none ∧ out[k]? = none) := by
  cases hk : ts[k]? with
  | none =>
    refine .inr (.inr ⟨rfl, ?_⟩)
    rw [List.getElem?_eq_none_iff] at hk ⊢
    have := h.1
    omega
  | some t =>
    obtain ⟨h1, h2⟩ := h.2 k t hk
    by_cases hi : ∃ type data, Data.ImageAt ts k type data
    · obtain ⟨type, data, hi⟩ := hi
      obtain ⟨w, hw, ho⟩ := h1 type data hi
      obtain ⟨j, v, -, -, hv, hd⟩ := id hi
      rw [hk] at hv
      cases hv
      exact .inr (.inl ⟨v, w, type, data, rfl, by simpa using ho, hi, hd, hw⟩)
    · have hi' : ∀ type data, ¬ Data.ImageAt ts k type data := fun a b hab => hi ⟨a, b, hab⟩
      exact .inl ⟨t, rfl, h2 hi', hi'⟩

theorem inside_outlined {stem : Text} {ts out : List Tok} (h : Data.Outlined stem (fun _ => []) ts out) (lower : Text → Text) (k : Nat) :
    Urls.Inside lower out k ↔ Urls.Inside lower ts k := by
  have e : ∀ (i : Nat) (t : Tok), (∀ v, t ≠ .str v) → (out[i]? = some t ↔ ts[i]? = some t) := by
    intro i t ht
    rcases outlined_get h i with ⟨x, h1, h2, -⟩ | ⟨v, w, -, -, h1, h2, -⟩ | ⟨h1, h2⟩
    · rw [h1, h2]
    · rw [h1, h2]
      constructor
      · intro h; cases h; exact absurd rfl (ht w)
      · intro h; cases h; exact absurd rfl (ht v)
    · rw [h1, h2]
  unfold Urls.Inside
  constructor
  · rintro ⟨j, v, h1, h2, h3, h4⟩
    exact ⟨j, v, h1, (e _ _ (by simp)).1 h2, h3, fun i a b c => h4 i a b ((e _ _ (by simp)).2 c)⟩
  · rintro ⟨j, v, h1, h2, h3, h4⟩
    exact ⟨j, v, h1, (e _ _ (by simp)).2 h2, h3, fun i a b c => h4 i a b ((e _ _ (by simp)).1 c)⟩

theorem needs_outlined {env : Urls.Env} {stem : Text} {ts out : List Tok} (h : Data.Outlined stem (fun _ => []) ts out) {p : Text} :
    (Urls.Needs env ts p → Urls.Needs env out p) ∧ (Urls.Needs env out p → Urls.Needs env ts p ∨ Data.Outputs stem ts p) := by
  constructor
  · rintro ⟨k, v, path, hu, hl, rfl⟩
    refine ⟨k, v, path, ?_, hl, rfl⟩
    rcases outlined_get h k with ⟨x, h1, h2, -⟩ | ⟨v', w, type, data, h1, h2, -, ⟨sep, -, h4, -⟩, -⟩ | ⟨h1, h2⟩
    · unfold Urls.UrlAt
      rw [inside_outlined h, h2, ← h1]
      exact hu
    · exfalso
      rcases hu with ⟨hu, -⟩ | ⟨hu, -⟩
      · rw [h1] at hu
        cases hu
        have := hl.1
        rw [h4] at this
        have e1 : txt "data:image/" = 100 :: txt "ata:image/" := by decide
        have e2 : txt "/" = [47] := by decide
        rw [e1, e2] at this
        simp at this
      · rw [h1] at hu; cases hu
    · rcases hu with ⟨hu, -⟩ | ⟨hu, -⟩ <;> rw [h1] at hu <;> cases hu
  · rintro ⟨k, v, path, hu, hl, rfl⟩
    rcases outlined_get h k with ⟨x, h1, h2, -⟩ | ⟨v', w, type, data, h1, h2, -, -, h5⟩ | ⟨h1, h2⟩
    · refine .inl ⟨k, v, path, ?_, hl, rfl⟩
      unfold Urls.UrlAt at hu ⊢
      rw [inside_outlined h, h2, ← h1] at hu
      exact hu
    · right
      rcases hu with ⟨hu, -⟩ | ⟨hu, -⟩
      · rw [h2] at hu
        cases hu
        refine ⟨data, v, h5, .inr ?_⟩
        rw [hl.1]
        unfold Urls.hashFile
        have e1 : txt "out/www/" = txt "out/www" ++ txt "/" := by decide
        rw [e1]
        simp only [List.append_assoc]
      · rw [h2] at hu; cases hu
    · rcases hu with ⟨hu, -⟩ | ⟨hu, -⟩ <;> rw [h2] at hu <;> cases hu

theorem rooted_outlined {stem : Text} {ts out : List Tok} (h : Data.Outlined stem (fun _ => []) ts out) (hr : Urls.Rooted ts) : Urls.Rooted out := by
  have main : ∀ t ∈ out, ∀ v, (t = .str v ∨ t = .url v) → ¬ txt "//" <+: v := by
    intro t ht v htv
    obtain ⟨k, hk⟩ := List.mem_iff_getElem?.1 ht
    rcases outlined_get h k with ⟨x, h1, h2, -⟩ | ⟨v', w, type, data, h1, h2, -, -, h5⟩ | ⟨h1, h2⟩
    · rw [h2] at hk
      cases hk
      have hm : t ∈ ts := List.mem_iff_getElem?.2 ⟨k, h1⟩
      rcases htv with rfl | rfl
      · exact hr v (.inl hm)
      · exact hr v (.inr hm)
    · rw [h2] at hk
      cases hk
      rcases htv with hv | hv <;> cases hv
      obtain ⟨pos, i, k', type', ext, -, -, -, -, ha⟩ := h5
      subst ha
      rintro ⟨z, hz⟩
      have e1 : txt "//" = 47 :: 47 :: [] := by decide
      have e2 : txt "/img/gen/" = 47 :: 105 :: txt "mg/gen/" := by decide
      rw [e1, e2] at hz
      simp at hz
    · rw [h2] at hk; cases hk
  exact fun v hv => hv.elim (fun hv => main _ hv v (.inl rfl)) (fun hv => main _ hv v (.inr rfl))

/-! ## The property -/

/-- What a stylesheet needs: the stylesheets it imports from, the sources and hashes of its icons, with the stylesheet which has
the settings, and the hashes of the files to which it refers. -/
def Depends (env : Env) (ts : List Tok) (p : Text) : Prop :=
  Nest.ImportsFrom env.nest ts p ∨
  (∃ n i c, Icons.Wants env.icon ts n i c ∧
    ((p = env.icon.main ∧ env.icon.self ≠ env.icon.main) ∨ p = Icons.source n ∨ p = Icons.image n c ++ txt ".hash")) ∨
  Urls.Needs env.urls ts p

/-- What a stylesheet becomes: its copy, its icons, its images, and their hashes. -/
def Makes (env : Env) (stem : Text) (ts : List Tok) (p : Text) : Prop :=
  (p = txt "out/www/" ++ stem ++ txt ".css" ∨ p = txt "out/www/" ++ stem ++ txt ".css" ++ txt ".hash") ∨
  (∃ n i c, Icons.Wants env.icon ts n i c ∧ (p = Icons.image n c ∨ p = Icons.image n c ++ txt ".hash")) ∨
  Data.Outputs stem ts p

theorem tokensOf_perToken (ts : List Tok) : tokensOf (perToken ts) = ts := by
  induction ts with
  | nil => rfl
  | cons t ts ih =>
    have e : perToken (t :: ts) = .token t :: .consume :: perToken ts := rfl
    rw [e]
    simp only [tokensOf, ih]

/-- **C77**: the scan of a stylesheet succeeds, and announces what the stylesheet becomes and what it needs. -/
theorem C77 {env : Env} {rel stem : Text} (hrel : Data.Stylesheet rel stem) (hself : env.data.self = rel) {fs : Fs} {b : Bytes} (hb : fs rel = some b)
    {ts : List Tok} (ht : tokenize env.nest.uni (env.decode b) = .ok ts) (he : Data.Ended ts) (hr : Urls.Rooted ts)
    (hsp : Icons.Spaces env.icon.space) (hw : Icons.WellFormed env.icon ts) (hsl : Icons.Slashless env.icon ts) :
    ∃ fuel r, scanFile fuel env rel fs = some (.ok r) ∧ (∀ fuel' x, scanFile fuel' env rel fs = some x → x = .ok r) ∧
      (∀ p, p ∈ r.produces ↔ Makes env stem ts p) ∧ (∀ p, Depends env ts p → p ∈ r.dependencies) ∧
      (∀ p ∈ r.dependencies, Depends env ts p ∨ Data.Outputs stem ts p) := by
  subst hself
  obtain ⟨out, da, h1, h2, h3, h4⟩ := data_scan hrel fs he
  obtain ⟨ic, i1, i2, i3, i4⟩ := Icons.scan_spec hsp ts hw hsl (St.new fs).icon
  obtain ⟨s', g1, g2, g3, g4, g5, g6, g7⟩ := scan_stream h1 rfl (St.new fs) ⟨rfl, rfl, rfl⟩ rfl ic i1
  obtain ⟨ur, u1, u2, u3⟩ := Urls.scan_spec env.urls out [] (St.new fs).urls (rooted_outlined h2 hr) (by simp [St.new, Urls.not_inside_nil])
  rw [u1] at g7
  have g8 : ur = s'.urls := by simpa using g7
  subst g8
  rw [← tokensOf_perToken ts] at g1
  obtain ⟨fuel, acc, rest, f1, f2⟩ := C32_complete _ _ _ (perToken ts) _ _ g1
  have hscan : ∀ f, scanFile f env env.data.self fs = (runOps (scanManips env) f (State.new (St.new fs)) [] (perToken ts)).map fun
        | .error e => .error e
        | .ok (_, b) => .ok (scanResult env.data.self b.st) := by
    intro f
    unfold scanFile
    rw [hb]
    simp only [ht]
    rfl
  refine ⟨fuel, scanResult env.data.self s', ?_, ?_, ?_, ?_, ?_⟩
  · rw [hscan, f1]; rfl
  · intro fuel' x hx
    rw [hscan] at hx
    cases h5 : runOps (scanManips env) fuel' (State.new (St.new fs)) [] (perToken ts) with
    | none => rw [h5] at hx; cases hx
    | some y =>
      have a1 := Verif.Js.File.runOps_mono (scanManips env) fuel fuel' (perToken ts) _ _ _ f1
      have a2 := Verif.Js.File.runOps_mono (scanManips env) fuel' fuel (perToken ts) _ _ _ h5
      rw [Nat.add_comm, a1] at a2
      cases a2
      rw [h5] at hx
      simp only [Option.map_some, Option.some.injEq] at hx
      exact hx.symm
  · intro p
    have e1 : Handlers.Public env.data.self (stem ++ txt ".css") := by
      unfold Handlers.Public
      rw [hrel.1, List.append_assoc]
    have e2 : (copyScan env.data.self).produces = [txt "out/www/" ++ stem ++ txt ".css"] := by
      unfold copyScan
      rw [Handlers.copyTarget_public e1, ← List.append_assoc]; rfl
    have e3 : (hashScan env.data.self).produces = [txt "out/www/" ++ stem ++ txt ".css" ++ txt ".hash"] := by
      unfold hashScan
      rw [Handlers.hashTarget_public e1, ← List.append_assoc]; rfl
    simp only [scanResult, List.foldl_cons, List.foldl_nil, mem_addAll, e2, e3, List.not_mem_nil, false_or, List.mem_singleton, g5, g6, i3, h3, Makes]
    simp [St.new, or_assoc]
  all_goals
    have e4 : ∀ p, p ∈ (scanResult env.data.self s').dependencies ↔ Nest.ImportsFrom env.nest ts p ∨
        (∃ n i c, Icons.Wants env.icon ts n i c ∧
          ((p = env.icon.main ∧ env.icon.self ≠ env.icon.main) ∨ p = Icons.source n ∨ p = Icons.image n c ++ txt ".hash")) ∨
        Urls.Needs env.urls out p := by
      intro p
      have e2 : (copyScan env.data.self).dependencies = [] := by unfold copyScan; split <;> rfl
      have e3 : (hashScan env.data.self).dependencies = [] := by unfold hashScan; split <;> rfl
      simp only [scanResult, List.foldl_cons, List.foldl_nil, mem_addAll, e2, e3, List.not_mem_nil, false_or, g4, g5, g6, i4, h4, u3,
        Nest.scan_spec, List.nil_append, List.length_nil, Nat.zero_add]
      simp [St.new, or_assoc, Urls.Needs]
  · rintro p (h | h | h)
    · exact (e4 p).2 (.inl h)
    · exact (e4 p).2 (.inr (.inl h))
    · exact (e4 p).2 (.inr (.inr ((needs_outlined h2).1 h)))
  · intro p hp
    rcases (e4 p).1 hp with h | h | h
    · exact .inl (.inl h)
    · exact .inl (.inr (.inl h))
    · exact ((needs_outlined h2).2 h).imp (fun h => .inr (.inr h)) id

end Verif.Css.Page
