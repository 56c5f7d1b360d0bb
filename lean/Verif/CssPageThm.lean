import Verif.CssPage
import Verif.NestSyntax
import Verif.CssUrlsThm
import Verif.IconDoc
import Verif.HtmlLinksThm
import Verif.HandlersThm

/-!
# C64: no command survives the build of a stylesheet
-/

namespace Verif.Css.Page

open Verif.Reader (Text txt substitute)
open Verif.Css (Uni Tok tokenize serializeMany)
open Verif.Build
open Verif.Handlers (Bytes Fs Scan Built copyScan hashScan copyTarget hashBuild)
open Verif.Icons (addAll IconOf)
open Verif.Css.Urls (UrlAt Local Inside)
open Verif.Html (stream_declined declined_mem)

/-! ## Specification -/

/-- Nothing is left to be done: no import command, no icon command, and no URL of a file of the website, other than the
stylesheet itself, without a query. -/
structure Done (env : Env) (out : List Tok) : Prop where
  imports : ∀ r, ¬ Nest.Imports env.nest out r
  icons : ∀ t ∈ out, ∀ i, ¬ IconOf env.icon t i
  urls : ∀ k v path, UrlAt env.urls.lower out k v → ¬ txt "//" <+: v → ¬ Local env.urls.self v path

/-! ## Proofs -/

/-- A command which is fully valid is not passed over. -/
theorem getIcon_iconOf {env : Icons.Env} (hs : Icons.Spaces env.space) {t : Tok} {i : Icons.Icon} (h : IconOf env t i) :
    Icons.getIcon env t ≠ .ok none := by
  obtain ⟨v, a, c, rfl, hi, hc, hr⟩ := h
  simp only [Icons.getIcon, (Icons.iconArgs_iff hs.1 hs.2.1 hs.2.2.1 hs.2.2.2 v a).2 hi, (Icons.C52_syntax _ c).2 hc]
  have hk := (Icons.known_iff env _).2 hr.known
  have h1 := Icons.pickOf_chosen (Assoc.keys env.settings.colors) env.known (Icons.known_iff env) c.colors
  have h2 := Icons.pickOf_chosen env.settings.sizes (fun s => decide (s ∈ env.settings.sizes)) (by simp) c.sizes
  have e1 := Icons.chosen_unique hr.colors h1
  have e2 := Icons.chosen_unique hr.sizes h2
  have n1 := hr.colorsNe
  have n2 := hr.sizesNe
  rw [e1] at n1
  rw [e2] at n2
  have hne : ¬ (Icons.pickOf (Assoc.keys env.settings.colors) env.known c.colors = [] ∨
      Icons.pickOf env.settings.sizes (fun s => decide (s ∈ env.settings.sizes)) c.sizes = []) := by
    rintro (h | h)
    · exact n1 h
    · exact n2 h
  rw [Icons.realize_eq, if_pos hk, if_neg hne]
  split
  · simp
  · split <;> simp

theorem part_declines {A E : Type} {look : St → A} {store : St → A → St} {err : E → Err} {m : Manip A Tok E} {s s' : St} {t : Tok}
    (h : (part look store err m).start s t = .ok (false, s')) : ∃ a, m.start (look s) t = .ok (false, a) ∧ s' = store s a := by
  simp only [part] at h
  split at h
  · cases h
  · next heq => cases h; exact ⟨_, heq, rfl⟩

theorem part_takes {A E : Type} {look : St → A} {store : St → A → St} {err : E → Err} {m : Manip A Tok E} {s s' : St} {t : Tok}
    (h : (part look store err m).start s t = .ok (true, s')) : ∃ a, m.start (look s) t = .ok (true, a) ∧ s' = store s a := by
  simp only [part] at h
  split at h
  · cases h
  · next heq => cases h; exact ⟨_, heq, rfl⟩

theorem part_goes {A E : Type} {look : St → A} {store : St → A → St} {err : E → Err} {m : Manip A Tok E} {s s' : St} {t : Tok}
    {r : Option (List Tok)} (h : (part look store err m).cont s t = .ok (r, s')) : ∃ a, m.cont (look s) t = .ok (r, a) ∧ s' = store s a := by
  simp only [part] at h
  split at h
  · cases h
  · next heq => cases h; exact ⟨_, heq, rfl⟩

theorem runOps_perToken {ms : List (Manip St Tok Err)} {fuel : Nat} : ∀ {ts : List Tok} {b b' : State St Tok Err} {acc acc' : List Tok},
    b.output = [] → runOps ms fuel b acc (perToken ts) = some (.ok (acc', b')) → b'.output = [] := by
  intro ts
  induction ts with
  | nil =>
    intro b b' acc acc' hb h
    simp only [perToken, List.flatMap_nil, runOps, Option.some.injEq, Except.ok.injEq, Prod.mk.injEq] at h
    rw [← h.2]; exact hb
  | cons t ts ih =>
    intro b b' acc acc' hb h
    have e : perToken (t :: ts) = .token t :: .consume :: perToken ts := rfl
    simp only [e, runOps] at h
    split at h
    · cases h
    · cases h
    · exact ih rfl h

/-- The flag of the last manipulator does not change but when a token is kept. -/
theorem taken_flag {n : Nat} {env : Env} {s s' : St} {t : Tok} {m : Manip St Tok Err} (h : Taken (buildManips n env) s t m s') :
    m ∈ buildManips n env ∧ s'.urls.inUrl = s.urls.inUrl := by
  unfold buildManips at h ⊢
  cases h with
  | head h => obtain ⟨a, -, rfl⟩ := part_takes h; exact ⟨by simp, rfl⟩
  | tail h0 h =>
    obtain ⟨a0, -, rfl⟩ := part_declines h0
    cases h with
    | head h => obtain ⟨a, -, rfl⟩ := part_takes h; exact ⟨by simp, rfl⟩
    | tail h1 h =>
      obtain ⟨a1, -, rfl⟩ := part_declines h1
      cases h with
      | head h => obtain ⟨a, -, rfl⟩ := part_takes h; exact ⟨by simp, rfl⟩
      | tail h2 h =>
        obtain ⟨a2, -, rfl⟩ := part_declines h2
        cases h with
        | head h =>
          obtain ⟨a, ha, rfl⟩ := part_takes h
          refine ⟨by simp, ?_⟩
          have e : (Urls.versionUrls false env.urls).start = Urls.start false env.urls := rfl
          rw [e, Urls.start_spec] at ha
          split at ha
          · simp only [Bool.false_eq_true, if_false, Except.ok.injEq, Prod.mk.injEq, true_and] at ha; subst ha; rfl
          · simp at ha
        | tail h3 h => cases h

theorem cont_flag {n : Nat} {env : Env} {s s' : St} {t : Tok} {m : Manip St Tok Err} {r : Option (List Tok)} (hm : m ∈ buildManips n env)
    (h : m.cont s t = .ok (r, s')) : s'.urls.inUrl = s.urls.inUrl := by
  simp only [buildManips, List.mem_cons, List.not_mem_nil, or_false] at hm
  rcases hm with rfl | rfl | rfl | rfl
  · obtain ⟨a, -, rfl⟩ := part_goes h; rfl
  · obtain ⟨a, -, rfl⟩ := part_goes h; rfl
  · obtain ⟨a, -, rfl⟩ := part_goes h; rfl
  · obtain ⟨a, ha, rfl⟩ := part_goes h
    replace ha : Urls.cont env.urls _ t = .ok (r, a) := ha
    show a.inUrl = _
    have hsuf : ∀ st st' v w, Urls.suffixed env.urls st v = .ok (w, st') → st'.inUrl = st.inUrl := by
      intro st st' v w h
      unfold Urls.suffixed at h
      split at h
      · cases h; rfl
      · split at h
        · cases h
        · cases h; rfl
    unfold Urls.cont at ha
    split at ha
    · split at ha
      · cases ha
      · next h2 => cases ha; have h3 := hsuf _ _ _ _ h2; exact h3
    · split at ha
      · cases ha
      · next h2 => cases ha; have h3 := hsuf _ _ _ _ h2; exact h3
    · cases ha

theorem open_flag {n : Nat} {env : Env} {s s' : St} {ts : List Tok} {m : Manip St Tok Err} (hm : m ∈ buildManips n env)
    (h : Open m s ts s') : s'.urls.inUrl = s.urls.inUrl := by
  induction h with
  | nil => rfl
  | cons h1 _ ih => rw [ih, cont_flag hm h1]

theorem closed_flag {n : Nat} {env : Env} {s s' : St} {ts r : List Tok} {m : Manip St Tok Err} (hm : m ∈ buildManips n env)
    (h : Closed m s ts r s') : s'.urls.inUrl = s.urls.inUrl := by
  obtain ⟨ts', t, s1, -, h1, h2⟩ := h
  rw [cont_flag hm h2, open_flag hm h1]

/-- A token which is kept. -/
theorem declined_step {n : Nat} {env : Env} {s s' : St} {t : Tok} (h : Declined (buildManips n env) s t s') :
    (∀ v, Urls.urlHere s.urls.inUrl t = some v → Urls.hashOf env.urls v = none) ∧
    s'.urls.inUrl = Urls.flagAfter env.urls s.urls.inUrl t := by
  unfold buildManips at h
  cases h with
  | cons h0 h =>
    obtain ⟨a0, -, rfl⟩ := part_declines h0
    cases h with
    | cons h1 h =>
      obtain ⟨a1, -, rfl⟩ := part_declines h1
      cases h with
      | cons h2 h =>
        obtain ⟨a2, -, rfl⟩ := part_declines h2
        cases h with
        | cons h3 h =>
          cases h
          obtain ⟨a3, ha, rfl⟩ := part_declines h3
          have e : (Urls.versionUrls false env.urls).start = Urls.start false env.urls := rfl
          rw [e, Urls.start_spec] at ha
          split at ha
          · simp at ha
          · next hn =>
            simp only [Except.ok.injEq, Prod.mk.injEq, true_and] at ha
            subst ha
            refine ⟨fun v hv => ?_, rfl⟩
            rw [hv] at hn
            exact hn

/-- The URLs of the output. -/
theorem stream_urls {n : Nat} {env : Env} {s s' : St} {ts out : List Tok} {m : Option (Manip St Tok Err)}
    (h : Stream (buildManips n env) s ts out m s') : ∀ pre, (s.urls.inUrl = true ↔ Inside env.urls.lower pre pre.length) →
    ∀ k v, UrlAt env.urls.lower (pre ++ out) (pre.length + k) v → Urls.hashOf env.urls v = none := by
  induction h with
  | nil =>
    intro pre _ k v hu
    rcases hu with ⟨hu, -⟩ | ⟨hu, -⟩ <;> simp at hu
  | unfinished =>
    intro pre _ k v hu
    rcases hu with ⟨hu, -⟩ | ⟨hu, -⟩ <;> simp at hu
  | replace h1 _ h3 _ ih =>
    intro pre hpre
    obtain ⟨hm, hf⟩ := taken_flag h1
    exact ih pre (by rw [closed_flag hm h3, hf]; exact hpre)
  | @keep s t s' ts out m s'' h1 _ ih =>
    intro pre hpre k v hu
    obtain ⟨h2, h3⟩ := declined_step h1
    cases k with
    | zero => exact h2 v ((Urls.urlHere_iff _ _ _).2 (by rw [hpre]; exact (Urls.urlAt_here _ _ _ _ _).1 hu))
    | succ k =>
      refine ih (pre ++ [t]) (by rw [h3]; exact Urls.flagAfter_inside hpre t) k v ?_
      have e : (pre ++ [t]).length + k = pre.length + (k + 1) := by simp; omega
      rw [e, List.append_assoc]
      exact hu

theorem done_of_stream {n : Nat} {env : Env} (hs : Icons.Spaces env.icon.space) {fs : Fs} {s' : St} {ts out : List Tok}
    {m : Option (Manip St Tok Err)} (h : Stream (buildManips n env) (St.new fs) ts out m s') : Done env out := by
  refine ⟨?_, ?_, ?_⟩
  · rintro r ⟨t, ht, hi⟩
    obtain ⟨s1, s2, hd⟩ := stream_declined h t ht
    obtain ⟨s3, s4, hst⟩ := declined_mem hd (m := imports n env) (by simp [buildManips])
    obtain ⟨a, ha, -⟩ := part_declines hst
    replace ha : Nest.start env.nest _ t = .ok (false, a) := ha
    simp only [Nest.start, hi] at ha
    simp at ha
  · intro t ht i hi
    obtain ⟨s1, s2, hd⟩ := stream_declined h t ht
    obtain ⟨s3, s4, hst⟩ := declined_mem hd (m := icons false env) (by simp [buildManips])
    obtain ⟨a, ha, -⟩ := part_declines hst
    replace ha : Icons.start env.icon _ t = .ok (false, a) := ha
    have hne := getIcon_iconOf hs hi
    simp only [Icons.start] at ha
    split at ha
    · cases ha
    · next heq => exact hne heq
    · simp at ha
  · intro k v path hu hr hl
    have := stream_urls h [] (by simpa [St.new] using Urls.not_inside_nil env.urls.lower) k v (by simpa using hu)
    rw [(Urls.hashOf_spec env.urls hr _).2 ⟨path, hl, rfl⟩] at this
    cases this

/-- **C64** for stylesheets: when a stylesheet has been built, whatever it held, its output is the text of tokens among which
there is no command and no bare URL. -/
theorem C64_partial {fuel n : Nat} {env : Env} (hs : Icons.Spaces env.icon.space) {rel target : Text} {fs fs' : Fs} {r : Built}
    (h : buildFile fuel n env rel fs = some (.ok (r, fs'))) (ht : copyTarget rel = some target) :
    ∃ out, fs' target = some (env.encode (serializeMany env.nest.uni out)) ∧ Done env out := by
  unfold buildFile at h
  rw [ht] at h
  simp only at h
  split at h
  · cases h
  · split at h
    · cases h
    · next ts _ =>
      simp only [Option.map_eq_some_iff] at h
      obtain ⟨x, h1, h2⟩ := h
      split at h2
      · cases h2
      · next out b =>
        split at h2
        · cases h2
        · next hh =>
          cases h2
          refine ⟨out, ?_, ?_⟩
          · unfold hashBuild at hh
            split at hh
            · cases hh; simp [Fs.write]
            · next tt htt =>
              split at hh
              · cases hh; simp [Fs.write]
              · simp only [Fs.write, if_true, Except.ok.injEq, Prod.mk.injEq] at hh
                rw [← hh.2]
                have : target ≠ tt := by
                  intro he
                  unfold Handlers.hashTarget at htt
                  rw [← he] at htt
                  have e : ∀ a b : Text, a = b → a.length = b.length := fun a b h => by rw [h]
                  split at htt
                  · next hp =>
                    simp only [Option.some.injEq] at htt
                    have hl := e _ _ htt
                    simp [List.isPrefixOf_iff_prefix] at hp
                    have := hp.length_le
                    have l1 : Handlers.outWww.length = 8 := by decide
                    have l2 : Handlers.srcPublic.length = 10 := by decide
                    have l3 : (txt ".hash").length = 5 := by decide
                    have l4 : (txt "/").length = 1 := by decide
                    simp only [List.length_append, List.length_drop, l1, l2, l3, l4] at hl this
                    omega
                  · split at htt
                    · next hp =>
                      simp only [Option.some.injEq] at htt
                      have hl := e _ _ htt
                      simp [List.isPrefixOf_iff_prefix] at hp
                      have := hp.length_le
                      have l3 : (txt ".hash").length = 5 := by decide
                      simp only [List.length_append, List.length_drop, l3] at hl
                      omega
                    · cases htt
                simp [Fs.write, this]
          · have hst := C32 _ _ _ _ _ _ h1
            have hb : b.output = [] := runOps_perToken rfl h1
            rw [hb, List.append_nil] at hst
            exact done_of_stream hs hst

end Verif.Css.Page
