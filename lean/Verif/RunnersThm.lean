import Verif.Runners

/-!
C53: clean deletes what was generated and nothing else.  C54: init never overwrites existing work.
-/

namespace Verif.Runners

open Verif.Reader (Text txt)
open Verif.Paths (join abspath comps isAbs Name walk comps_abspath comps_join walk_append walk_names joinSegs)
open Verif.Graph (Graph)

/-! ### Specification -/

/-- Whatever is somewhere is in a folder. -/
def Tree (fs : Fs) : Prop := ∀ p q, q ≠ [] → (fs (p ++ q)).isSome → fs p = some .dir

/-- The folder of the project. -/
def root (cwd folder : Text) : List Text := comps (abspath cwd folder)

/-- A relative path as it is stored in a graph: names with slashes in between. -/
def Relative (x : Text) : Prop := isAbs x = false ∧ ∀ c ∈ comps x, Name c

/-- A file which is generated according to the graph: it has parents. -/
def Generated (g : Graph) (name : String) : Prop := ∃ n, (name, n) ∈ g ∧ n.parents ≠ []

/-- The graph which the last build left. -/
def Recorded (load : Text → Option Graph) (cwd folder : Text) (fs : Fs) (g : Graph) : Prop :=
  ∃ content, fs (root cwd folder ++ [txt "out", txt "placeholder_graph.json"]) = some (.file content) ∧
    load content = some g

/-- What clean is to delete. -/
inductive Doomed (load : Text → Option Graph) (cwd folder : Text) (asked : Bool) (fs : Fs) : List Text → Prop
  | out (q : List Text) : Doomed load cwd folder asked fs (root cwd folder ++ txt "out" :: q)
  | artifacts (q : List Text) : Doomed load cwd folder asked fs (root cwd folder ++ txt "artifacts" :: q)
  | placeholder {g : Graph} {name : String} (ha : asked = true) (hg : Recorded load cwd folder fs g)
      (hn : Generated g name) : Doomed load cwd folder asked fs (root cwd folder ++ comps (txt name))

/-! ### Paths -/

theorem isAbs_join {a b : Text} (h : isAbs b = false) : isAbs (join a b) = isAbs a := by
  unfold join
  rw [h]
  simp only [Bool.false_eq_true, if_false]
  split
  · next h2 =>
    rcases h2 with rfl | h2
    · rw [List.nil_append, h]; rfl
    · cases a with
      | nil => simp at h2
      | cons c a => rfl
  · next h2 =>
    cases a with
    | nil => exact absurd (Or.inl rfl) h2
    | cons c a => rfl

theorem place_join {cwd folder x : Text} (hc : isAbs cwd = true) (hx : Relative x) :
    place cwd (join folder x) = root cwd folder ++ comps x := by
  unfold place root
  rw [comps_abspath hc, comps_abspath hc, isAbs_join hx.1, comps_join hx.1, ← List.append_assoc, walk_append,
    walk_names hx.2]

theorem relative_name {x : Text} (h : comps x = [x]) (ha : isAbs x = false) (h1 : x ≠ [46]) (h2 : x ≠ [46, 46]) :
    Relative x := by
  refine ⟨ha, fun c hc => ?_⟩
  have hs := Verif.Paths.comps_seg hc
  rw [h] at hc
  rw [List.mem_singleton.1 hc] at hs ⊢
  exact ⟨hs, h1, h2⟩

theorem rel_out : Relative (txt "out") ∧ comps (txt "out") = [txt "out"] :=
  have h : comps (txt "out") = [txt "out"] := by decide
  ⟨relative_name h (by decide) (by decide) (by decide), h⟩
theorem rel_artifacts : Relative (txt "artifacts") ∧ comps (txt "artifacts") = [txt "artifacts"] :=
  have h : comps (txt "artifacts") = [txt "artifacts"] := by decide
  ⟨relative_name h (by decide) (by decide) (by decide), h⟩
theorem rel_config : Relative (txt "vanillaplusjs.json") ∧ comps (txt "vanillaplusjs.json") = [txt "vanillaplusjs.json"] :=
  have h : comps (txt "vanillaplusjs.json") = [txt "vanillaplusjs.json"] := by decide
  ⟨relative_name h (by decide) (by decide) (by decide), h⟩
theorem rel_graph : Relative (txt "placeholder_graph.json") ∧
    comps (txt "placeholder_graph.json") = [txt "placeholder_graph.json"] :=
  have h : comps (txt "placeholder_graph.json") = [txt "placeholder_graph.json"] := by decide
  ⟨relative_name h (by decide) (by decide) (by decide), h⟩
theorem rel_src : Relative (txt "src") ∧ comps (txt "src") = [txt "src"] :=
  have h : comps (txt "src") = [txt "src"] := by decide
  ⟨relative_name h (by decide) (by decide) (by decide), h⟩
theorem rel_public : Relative (txt "public") ∧ comps (txt "public") = [txt "public"] :=
  have h : comps (txt "public") = [txt "public"] := by decide
  ⟨relative_name h (by decide) (by decide) (by decide), h⟩
theorem rel_img : Relative (txt "img") ∧ comps (txt "img") = [txt "img"] :=
  have h : comps (txt "img") = [txt "img"] := by decide
  ⟨relative_name h (by decide) (by decide) (by decide), h⟩
theorem rel_js : Relative (txt "js") ∧ comps (txt "js") = [txt "js"] :=
  have h : comps (txt "js") = [txt "js"] := by decide
  ⟨relative_name h (by decide) (by decide) (by decide), h⟩
theorem rel_partials : Relative (txt "partials") ∧ comps (txt "partials") = [txt "partials"] :=
  have h : comps (txt "partials") = [txt "partials"] := by decide
  ⟨relative_name h (by decide) (by decide) (by decide), h⟩
theorem rel_index : Relative (txt "index.html") ∧ comps (txt "index.html") = [txt "index.html"] :=
  have h : comps (txt "index.html") = [txt "index.html"] := by decide
  ⟨relative_name h (by decide) (by decide) (by decide), h⟩

section places

variable {cwd : Text} (folder : Text) (hc : isAbs cwd = true)
include hc

theorem place_out : place cwd (join folder (txt "out")) = root cwd folder ++ [txt "out"] := by
  rw [place_join hc rel_out.1, rel_out.2]
theorem place_artifacts : place cwd (join folder (txt "artifacts")) = root cwd folder ++ [txt "artifacts"] := by
  rw [place_join hc rel_artifacts.1, rel_artifacts.2]
theorem place_config : place cwd (join folder (txt "vanillaplusjs.json")) = root cwd folder ++ [txt "vanillaplusjs.json"] := by
  rw [place_join hc rel_config.1, rel_config.2]

theorem root_join {x : Text} (hx : Relative x) : root cwd (join folder x) = root cwd folder ++ comps x := place_join hc hx

theorem place_graph : place cwd (join (join folder (txt "out")) (txt "placeholder_graph.json")) =
    root cwd folder ++ [txt "out", txt "placeholder_graph.json"] := by
  rw [place_join hc rel_graph.1, root_join folder hc rel_out.1, rel_out.2, rel_graph.2, List.append_assoc]; rfl
theorem place_partials : place cwd (join (join folder (txt "src")) (txt "partials")) =
    root cwd folder ++ [txt "src", txt "partials"] := by
  rw [place_join hc rel_partials.1, root_join folder hc rel_src.1, rel_src.2, rel_partials.2, List.append_assoc]; rfl
theorem place_img : place cwd (join (join (join folder (txt "src")) (txt "public")) (txt "img")) =
    root cwd folder ++ [txt "src", txt "public", txt "img"] := by
  rw [place_join hc rel_img.1, root_join _ hc rel_public.1, root_join folder hc rel_src.1, rel_src.2, rel_public.2,
    rel_img.2, List.append_assoc, List.append_assoc]; rfl
theorem place_js : place cwd (join (join (join folder (txt "src")) (txt "public")) (txt "js")) =
    root cwd folder ++ [txt "src", txt "public", txt "js"] := by
  rw [place_join hc rel_js.1, root_join _ hc rel_public.1, root_join folder hc rel_src.1, rel_src.2, rel_public.2,
    rel_js.2, List.append_assoc, List.append_assoc]; rfl
theorem place_index : place cwd (join (join (join folder (txt "src")) (txt "public")) (txt "index.html")) =
    root cwd folder ++ [txt "src", txt "public", txt "index.html"] := by
  rw [place_join hc rel_index.1, root_join _ hc rel_public.1, root_join folder hc rel_src.1, rel_src.2, rel_public.2,
    rel_index.2, List.append_assoc, List.append_assoc]; rfl

end places

/-! ### clean -/

theorem mem_placeholders {g : Graph} {name : String} : name ∈ placeholders g ↔ Generated g name := by
  unfold placeholders Generated
  simp only [List.mem_map, List.mem_filter, Prod.exists, exists_and_right, exists_eq_right]
  constructor
  · rintro ⟨n, h, h'⟩; exact ⟨n, h, by simpa using h'⟩
  · rintro ⟨n, h, h'⟩; exact ⟨n, h, by simpa using h'⟩

theorem removeAll_frame (cwd folder : Text) : ∀ (files : List String) (fs : Fs) (q : List Text),
    (removeAll cwd folder files fs).2 q = fs q ∨
    ((removeAll cwd folder files fs).2 q = none ∧ ∃ f ∈ files, q = place cwd (join folder (txt f))) := by
  intro files
  induction files with
  | nil => intro fs q; exact .inl rfl
  | cons f files ih =>
    intro fs q
    unfold removeAll
    split
    · exact .inl rfl
    · rename_i fs' hr
      have hfs : fs' = setAt fs (place cwd (join folder (txt f))) none := by
        unfold remove at hr; split at hr <;> cases hr; rfl
      rcases ih fs' q with h | ⟨h, f', hf', hq⟩
      · rw [h, hfs]
        unfold setAt
        split
        · rename_i hq; exact .inr ⟨rfl, f, by simp, hq⟩
        · exact .inl rfl
      · exact .inr ⟨h, f', by simp [hf'], hq⟩

theorem removeAll_ok (cwd folder : Text) : ∀ (files : List String) (fs : Fs),
    (removeAll cwd folder files fs).1 = none → ∀ q, (removeAll cwd folder files fs).2 q =
      if q ∈ files.map (fun f => place cwd (join folder (txt f))) then none else fs q := by
  intro files
  induction files with
  | nil => intro fs _ q; simp [removeAll]
  | cons f files ih =>
    intro fs h q
    unfold removeAll at h ⊢
    split at h
    · cases h
    · rename_i fs' hr
      have hfs : fs' = setAt fs (place cwd (join folder (txt f))) none := by
        unfold remove at hr; split at hr <;> cases hr; rfl
      rw [ih fs' h q, hfs]
      simp only [List.map_cons, List.mem_cons, setAt]
      by_cases h1 : q = place cwd (join folder (txt f)) <;> simp [h1]

theorem removeAll_succeeds (cwd folder : Text) : ∀ (files : List String) (fs : Fs),
    (files.map fun f => place cwd (join folder (txt f))).Nodup →
    (∀ f ∈ files, ∃ c, fs (place cwd (join folder (txt f))) = some (.file c)) → (removeAll cwd folder files fs).1 = none := by
  intro files
  induction files with
  | nil => intro fs _ _; rfl
  | cons f files ih =>
    intro fs hn h
    obtain ⟨c, hcf⟩ := h f (by simp)
    simp only [List.map_cons, List.nodup_cons] at hn
    unfold removeAll
    simp only [remove, hcf]
    refine ih _ hn.2 fun f' hf' => ?_
    obtain ⟨c', hc'⟩ := h f' (by simp [hf'])
    refine ⟨c', ?_⟩
    unfold setAt
    rw [if_neg, hc']
    intro he
    exact hn.1 (List.mem_map.2 ⟨f', hf', he⟩)

theorem rmtree_eq {fs : Fs} (ht : Tree fs) {p : List Text} (hp : ∀ c, fs p ≠ some (.file c)) (q : List Text) :
    rmtree fs p q = if p <+: q then none else fs q := by
  unfold rmtree
  by_cases h : fs p = some .dir
  · rw [if_pos h]
  · rw [if_neg h]
    split
    · rename_i hpre
      obtain ⟨r, rfl⟩ := hpre
      cases he : fs (p ++ r) with
      | none => rfl
      | some e =>
        exfalso
        cases r with
        | nil =>
          rw [List.append_nil] at he
          cases e with
          | dir => exact h he
          | file c => exact hp c he
        | cons c r => exact h (ht p (c :: r) (by simp) (by rw [he]; rfl))
    · rfl

theorem rmtree_frame (fs : Fs) (p q : List Text) : rmtree fs p q = fs q ∨ (rmtree fs p q = none ∧ p <+: q) := by
  unfold rmtree
  by_cases h : fs p = some .dir
  · rw [if_pos h]
    by_cases hq : p <+: q
    · exact .inr ⟨if_pos hq, hq⟩
    · exact .inl (if_neg hq)
  · rw [if_neg h]; exact .inl rfl

section clean

variable {load : Text → Option Graph} {cwd : Text} (folder : Text) (asked : Bool) (fs : Fs) (hc : isAbs cwd = true)
  (hg : ∀ g, Recorded load cwd folder fs g → ∀ name, Generated g name → Relative (txt name))
include hc hg

theorem cleanPlaceholders_frame (q : List Text) :
    (cleanPlaceholders load cwd folder fs).2 q = fs q ∨
    ((cleanPlaceholders load cwd folder fs).2 q = none ∧ Doomed load cwd folder true fs q) := by
  unfold cleanPlaceholders
  rw [place_graph folder hc]
  split
  · exact .inl rfl
  · exact .inl rfl
  · rename_i content hcont
    split
    · exact .inl rfl
    · rename_i g hl
      rcases removeAll_frame cwd folder (placeholders g) fs q with h | ⟨h, f, hf, hq⟩
      · exact .inl h
      · have hr : Recorded load cwd folder fs g := ⟨content, hcont, hl⟩
        refine .inr ⟨h, ?_⟩
        rw [hq, place_join hc (hg g hr f (mem_placeholders.1 hf))]
        exact .placeholder rfl hr (mem_placeholders.1 hf)

/-- C53: whatever happens, also if clean fails, everything which is not to be deleted is as before, and nothing is
created. -/
theorem C53_frame (q : List Text) :
    (clean load cwd folder asked fs).2 q = fs q ∨
    ((clean load cwd folder asked fs).2 q = none ∧ Doomed load cwd folder asked fs q) := by
  have key : ∀ r : Option Err × Fs, (r.2 q = fs q ∨ (r.2 q = none ∧ Doomed load cwd folder asked fs q)) →
      (match r with
        | (some e, fs') => (some e, fs')
        | (none, fs') => ((none : Option Err), rmtree (rmtree fs' (place cwd (join folder (txt "out"))))
            (place cwd (join folder (txt "artifacts"))))).2 q = fs q ∨
      ((match r with
        | (some e, fs') => (some e, fs')
        | (none, fs') => ((none : Option Err), rmtree (rmtree fs' (place cwd (join folder (txt "out"))))
            (place cwd (join folder (txt "artifacts"))))).2 q = none ∧ Doomed load cwd folder asked fs q) := by
    rintro ⟨e, fs'⟩ h
    cases e with
    | some e => exact h
    | none =>
      dsimp only
      rw [place_out folder hc, place_artifacts folder hc]
      rcases rmtree_frame (rmtree fs' (root cwd folder ++ [txt "out"])) (root cwd folder ++ [txt "artifacts"]) q with h1 | ⟨h1, r, h2⟩
      · rw [h1]
        rcases rmtree_frame fs' (root cwd folder ++ [txt "out"]) q with h3 | ⟨h3, r, h4⟩
        · rw [h3]; exact h
        · refine .inr ⟨h3, ?_⟩
          rw [← h4, List.append_assoc]
          exact .out r
      · refine .inr ⟨h1, ?_⟩
        rw [← h2, List.append_assoc]
        exact .artifacts r
  unfold clean
  split
  · exact .inl rfl
  · apply key
    split
    · rename_i ha; subst ha; exact cleanPlaceholders_frame folder fs hc hg q
    · exact .inl rfl

/-- C53: a clean which does not fail deletes exactly what it is to delete. -/
theorem C53_exact (ht : Tree fs) (ho : ∀ c, fs (root cwd folder ++ [txt "out"]) ≠ some (.file c))
    (ha : ∀ c, fs (root cwd folder ++ [txt "artifacts"]) ≠ some (.file c))
    (hok : (clean load cwd folder asked fs).1 = none) (q : List Text) :
    (Doomed load cwd folder asked fs q → (clean load cwd folder asked fs).2 q = none) ∧
    (¬ Doomed load cwd folder asked fs q → (clean load cwd folder asked fs).2 q = fs q) := by
  refine ⟨fun hd => ?_, fun hd => ?_⟩
  · unfold clean at hok ⊢
    split at hok
    · cases hok
    · rename_i hcfg
      rw [if_neg hcfg]
      generalize hr : (if asked then cleanPlaceholders load cwd folder fs else (none, fs)) = r at hok
      obtain ⟨e, fs'⟩ := r
      cases e with
      | some e => cases hok
      | none =>
        dsimp only
        rw [place_out folder hc, place_artifacts folder hc]
        -- the files which are left after the placeholders
        have hsub : ∀ p, fs' p = fs p ∨ fs' p = none := by
          intro p
          cases asked with
          | false => cases hr; exact .inl rfl
          | true =>
            have := cleanPlaceholders_frame folder fs hc hg p
            simp only [if_true] at hr
            rw [hr] at this
            rcases this with h | h
            · exact .inl h
            · exact .inr h.1
        have hdir : ∀ p, fs p = some .dir → fs' p = some .dir := by
          intro p hp
          cases asked with
          | false => cases hr; exact hp
          | true =>
            simp only [if_true] at hr
            unfold cleanPlaceholders at hr
            rw [place_graph folder hc] at hr
            split at hr
            · cases hr; exact hp
            · cases hr
            · split at hr
              · cases hr
              · rename_i g _
                have hk : ∀ (files : List String) (x x' : Fs), removeAll cwd folder files x = (none, x') →
                    x p = some .dir → x' p = some .dir := by
                  intro files
                  induction files with
                  | nil => intro x x' h hx; cases h; exact hx
                  | cons f files ih =>
                    intro x x' h hx
                    unfold removeAll at h
                    split at h
                    · cases h
                    · rename_i x2 hrm
                      refine ih x2 x' h ?_
                      unfold remove at hrm
                      split at hrm
                      · cases hrm
                      · cases hrm
                      · rename_i c hcf
                        cases hrm
                        unfold setAt
                        rw [if_neg]
                        · exact hx
                        · intro he; rw [← he, hx] at hcf; cases hcf
                exact hk _ _ _ hr hp
        have ht' : Tree fs' := by
          intro p r hr0 hs
          refine hdir p (ht p r hr0 ?_)
          rcases hsub (p ++ r) with h | h
          · rw [← h]; exact hs
          · rw [h] at hs; cases hs
        have ho' : ∀ c, fs' (root cwd folder ++ [txt "out"]) ≠ some (.file c) := fun c h => by
          rcases hsub (root cwd folder ++ [txt "out"]) with h' | h'
          · rw [h'] at h; exact ho c h
          · rw [h'] at h; cases h
        have ha' : ∀ c, fs' (root cwd folder ++ [txt "artifacts"]) ≠ some (.file c) := fun c h => by
          rcases hsub (root cwd folder ++ [txt "artifacts"]) with h' | h'
          · rw [h'] at h; exact ha c h
          · rw [h'] at h; cases h
        -- the first tree is gone
        have h1 := rmtree_eq ht' ho'
        have hne : ¬ (root cwd folder ++ [txt "out"]) <+: (root cwd folder ++ [txt "artifacts"]) := by
          rw [List.prefix_append_right_inj]; decide
        have ht2 : Tree (rmtree fs' (root cwd folder ++ [txt "out"])) := by
          intro p r hr0 hs
          rw [h1] at hs ⊢
          split at hs
          · cases hs
          · rename_i hn
            rw [if_neg (fun hp => hn (hp.trans (List.prefix_append _ _)))]
            exact ht' p r hr0 hs
        have ha2 : ∀ c, rmtree fs' (root cwd folder ++ [txt "out"]) (root cwd folder ++ [txt "artifacts"]) ≠ some (.file c) := by
          intro c h; rw [h1, if_neg hne] at h; exact ha' c h
        rw [rmtree_eq ht2 ha2, h1]
        cases hd with
        | out r =>
          have : (root cwd folder ++ [txt "out"]) <+: (root cwd folder ++ txt "out" :: r) := ⟨r, by simp⟩
          simp [this]
        | artifacts r =>
          have : (root cwd folder ++ [txt "artifacts"]) <+: (root cwd folder ++ txt "artifacts" :: r) := ⟨r, by simp⟩
          simp [this]
        | @placeholder g name hasked hrec hgen =>
          subst hasked
          have hrel := hg g hrec name hgen
          obtain ⟨content, hcont, hl⟩ := hrec
          simp only [if_true] at hr
          unfold cleanPlaceholders at hr
          rw [place_graph folder hc, hcont] at hr
          dsimp only at hr
          rw [hl] at hr
          dsimp only at hr
          have := removeAll_ok cwd folder (placeholders g) fs (by rw [hr]) (root cwd folder ++ comps (txt name))
          rw [hr] at this
          dsimp only at this
          rw [if_pos] at this
          · rw [this]; simp
          · exact List.mem_map.2 ⟨name, mem_placeholders.2 hgen, place_join hc hrel⟩
  · rcases C53_frame folder asked fs hc hg q with h | ⟨_, h⟩
    · exact h
    · exact absurd h hd

/-- C53: clean does not fail in a project with a configuration if every recorded placeholder is there. -/
theorem C53_succeeds (hcfg : fs (root cwd folder ++ [txt "vanillaplusjs.json"]) ≠ none)
    (hp : asked = true → fs (root cwd folder ++ [txt "out", txt "placeholder_graph.json"]) = none ∨
      ∃ g, Recorded load cwd folder fs g ∧ ((placeholders g).map fun n => comps (txt n)).Nodup ∧
        ∀ name, Generated g name → ∃ c, fs (root cwd folder ++ comps (txt name)) = some (.file c)) :
    (clean load cwd folder asked fs).1 = none := by
  have h1 : (if asked then cleanPlaceholders load cwd folder fs else (none, fs)).1 = none := by
    cases asked with
    | false => rfl
    | true =>
      simp only [if_true]
      unfold cleanPlaceholders
      rw [place_graph folder hc]
      rcases hp rfl with h | ⟨g, hr, hn, hx⟩
      · rw [h]
      · have hrel := fun f (hf : f ∈ placeholders g) => place_join (folder := folder) hc (hg g hr f (mem_placeholders.1 hf))
        obtain ⟨content, hcont, hl⟩ := hr
        rw [hcont]
        dsimp only
        rw [hl]
        dsimp only
        apply removeAll_succeeds
        · rw [List.map_congr_left hrel]
          have : ((placeholders g).map fun n => root cwd folder ++ comps (txt n)) =
              ((placeholders g).map fun n => comps (txt n)).map (root cwd folder ++ ·) := by simp [Function.comp_def]
          rw [this]
          unfold List.Nodup
          rw [List.pairwise_map]
          exact hn.imp fun h he => h (List.append_cancel_left he)
        · intro f hf
          rw [hrel f hf]
          exact hx f (mem_placeholders.1 hf)
  unfold clean
  rw [place_config folder hc]
  have h2 : ¬ (fs (root cwd folder ++ [txt "vanillaplusjs.json"])).isNone = true := by simpa using hcfg
  rw [if_neg h2]
  generalize (if asked then cleanPlaceholders load cwd folder fs else (none, fs)) = r at h1
  obtain ⟨e, fs'⟩ := r
  dsimp only at h1
  subst h1
  rfl

end clean

/-- The user is asked exactly if there is something to delete, and is shown exactly the files which will be deleted. -/
theorem C53_prompt {load : Text → Option Graph} {cwd folder : Text} {answers : List Text} {fs : Fs} {listed : List String}
    {choice : Option Bool} (hc : isAbs cwd = true)
    (h : prompt load cwd folder answers fs = .ok (listed, choice)) :
    (∀ name, name ∈ listed ↔ ∃ g, Recorded load cwd folder fs g ∧ Generated g name) ∧
    (listed = [] → choice = some false) ∧ (listed ≠ [] → choice = answer answers) := by
  unfold prompt at h
  rw [place_graph folder hc] at h
  have huniq : ∀ {c g}, fs (root cwd folder ++ [txt "out", txt "placeholder_graph.json"]) = some (.file c) →
      load c = some g → ∀ name, (∃ g, Recorded load cwd folder fs g ∧ Generated g name) ↔ name ∈ placeholders g := by
    intro c g h1 h2 name
    rw [mem_placeholders]
    constructor
    · rintro ⟨g', ⟨c', h3, h4⟩, h5⟩
      rw [h1] at h3; cases h3
      rw [h2] at h4; cases h4
      exact h5
    · exact fun h => ⟨g, ⟨c, h1, h2⟩, h⟩
  split at h
  · rename_i hn
    cases h
    refine ⟨fun name => ?_, fun _ => rfl, fun h => absurd rfl h⟩
    constructor
    · intro h; cases h
    · rintro ⟨g, ⟨c, h1, _⟩, _⟩; rw [hn] at h1; cases h1
  · cases h
  · rename_i content hcont
    split at h
    · cases h
    · rename_i g hl
      split at h
      · rename_i hg
        cases h
        refine ⟨fun name => ?_, fun _ => rfl, fun h => absurd rfl h⟩
        rw [huniq hcont hl, hg]; rfl
      · split at h
        · rename_i hg
          cases h
          refine ⟨fun name => ?_, fun _ => rfl, fun h => absurd rfl h⟩
          rw [huniq hcont hl, hg]
        · rename_i hg
          cases h
          exact ⟨fun name => (huniq hcont hl name).symm, fun h => absurd h hg, fun _ => rfl⟩

/-! ### Concrete cases -/

def ofList (l : List (List Text × Entry)) : Fs := fun p => (l.find? fun x => x.1 == p).map (·.2)

def treeB (l : List (List Text × Entry)) : Bool :=
  l.all fun x => (List.range x.1.length).all fun n => ofList l (x.1.take n) == some .dir

theorem tree_ofList {l : List (List Text × Entry)} (h : treeB l = true) : Tree (ofList l) := by
  intro p q hq hs
  have hs' : (l.find? fun x => x.1 == p ++ q).isSome := by
    simpa [ofList] using hs
  obtain ⟨x, hx⟩ := Option.isSome_iff_exists.1 hs'
  have hm := List.mem_of_find?_eq_some hx
  have hp := List.find?_some hx
  have he : x.1 = p ++ q := eq_of_beq hp
  unfold treeB at h
  have h1 := List.all_eq_true.1 h x hm
  have h2 := List.all_eq_true.1 h1 p.length (List.mem_range.2 (by
    rw [he, List.length_append]
    have : q.length ≠ 0 := by simpa using hq
    omega))
  have h3 := eq_of_beq h2
  rw [he, List.take_left] at h3
  exact h3

/-- A project with outputs, artifacts, a generated placeholder and files of the user, one of them next to the folder of
the outputs with a similar name. -/
def project (there : Bool) : List (List Text × Entry) :=
  [([], .dir), ([txt "p"], .dir), ([txt "p", txt "vanillaplusjs.json"], .file (txt "{}")), ([txt "p", txt "out"], .dir),
   ([txt "p", txt "out", txt "placeholder_graph.json"], .file (txt "graph")), ([txt "p", txt "out", txt "www"], .dir),
   ([txt "p", txt "out", txt "www", txt "a.html"], .file (txt "x")), ([txt "p", txt "outer"], .file (txt "mine")),
   ([txt "p", txt "artifacts"], .dir), ([txt "p", txt "artifacts", txt "h"], .file (txt "h")),
   ([txt "p", txt "src"], .dir), ([txt "p", txt "src", txt "a.jpg"], .file (txt "a"))] ++
  if there then [([txt "p", txt "src", txt "a.images.js"], .file (txt "generated"))] else []

def graph : Graph := [("src/a.jpg", ⟨⟨1, 0, 1⟩, [], ["src/a.images.js"]⟩), ("src/a.images.js", ⟨⟨1, 0, 2⟩, ["src/a.jpg"], []⟩)]

def loadGraph (t : Text) : Option Graph := if t = txt "graph" then some graph else none

theorem graph_relative (g : Graph) (cwd folder : Text) (fs : Fs) (h : Recorded loadGraph cwd folder fs g) (name : String)
    (hn : Generated g name) : Relative (txt name) := by
  obtain ⟨c, _, h⟩ := h
  unfold loadGraph at h
  split at h
  · cases h
    have : name = "src/a.images.js" := by
      have := mem_placeholders.2 hn
      have e : placeholders graph = ["src/a.images.js"] := by decide
      rw [e] at this; exact List.mem_singleton.1 this
    rw [this]
    have e : comps (txt "src/a.images.js") = [txt "src", txt "a.images.js"] := by decide
    refine ⟨by decide, fun x hx => ?_⟩
    have hs := Verif.Paths.comps_seg hx
    rw [e] at hx
    refine ⟨hs, ?_, ?_⟩ <;>
    · intro he
      rw [he] at hx
      revert hx
      decide
  · cases h

/-- The hypotheses of `C53_frame`, `C53_exact` and `C53_succeeds` hold of the project, also from another working
directory; the user's files and only those are left. -/
theorem C53_case : isAbs (txt "/home") = true ∧ Tree (ofList (project true)) ∧
    Recorded loadGraph (txt "/home") (txt "../p/") (ofList (project true)) graph ∧
    (∀ g, Recorded loadGraph (txt "/home") (txt "../p/") (ofList (project true)) g → ∀ name, Generated g name →
      Relative (txt name)) ∧
    (clean loadGraph (txt "/home") (txt "../p/") true (ofList (project true))).1 = none ∧
    ((project true).map (·.1)).filter (fun p =>
      ((clean loadGraph (txt "/home") (txt "../p/") true (ofList (project true))).2 p).isSome) =
      [[], [txt "p"], [txt "p", txt "vanillaplusjs.json"], [txt "p", txt "outer"], [txt "p", txt "src"],
       [txt "p", txt "src", txt "a.jpg"]] := by
  refine ⟨by decide, tree_ofList (by decide +kernel), ⟨txt "graph", by decide +kernel, by decide +kernel⟩,
    fun g h name hn => graph_relative g _ _ _ h name hn, by decide +kernel, by decide +kernel⟩

/-- C53 is false if a placeholder is missing, for example because its user deleted it: clean fails and the outputs and
artifacts are all left. -/
theorem C53_false : (clean loadGraph (txt "/") (txt "p") true (ofList (project false))).1 = some .notFound ∧
    ∀ q, (clean loadGraph (txt "/") (txt "p") true (ofList (project false))).2 q = ofList (project false) q := by
  have h1 : (ofList (project false) (place (txt "/") (join (txt "p") (txt "vanillaplusjs.json")))).isNone = false := by
    decide +kernel
  have h2 : ofList (project false) (place (txt "/") (join (join (txt "p") (txt "out")) (txt "placeholder_graph.json"))) =
      some (.file (txt "graph")) := by decide +kernel
  have h3 : loadGraph (txt "graph") = some graph := by decide +kernel
  have h4 : placeholders graph = ["src/a.images.js"] := by decide +kernel
  have h5 : ofList (project false) (place (txt "/") (join (txt "p") (txt "src/a.images.js"))) = none := by decide +kernel
  have h6 : cleanPlaceholders loadGraph (txt "/") (txt "p") (ofList (project false)) =
      (some .notFound, ofList (project false)) := by
    simp only [cleanPlaceholders, h2, h3, h4, removeAll, remove, h5]
  have h7 : clean loadGraph (txt "/") (txt "p") true (ofList (project false)) =
      (some .notFound, ofList (project false)) := by
    simp only [clean, h1, h6, Bool.false_eq_true, if_false, if_true]
  rw [h7]
  exact ⟨rfl, fun q => rfl⟩

/-! ### init -/

/-- What was there is as before, and only `A` can be new. -/
def Extends (A : List (List Text)) (fs fs' : Fs) : Prop :=
  (∀ q e, fs q = some e → fs' q = some e) ∧ ∀ q, fs q = none → fs' q ≠ none → q ∈ A

theorem Extends.refl (A : List (List Text)) (fs : Fs) : Extends A fs fs := ⟨fun _ _ h => h, fun _ h h' => absurd h h'⟩

theorem Extends.trans {A : List (List Text)} {a b c : Fs} (h1 : Extends A a b) (h2 : Extends A b c) : Extends A a c := by
  refine ⟨fun q e h => h2.1 q e (h1.1 q e h), fun q h h' => ?_⟩
  cases hb : b q with
  | none => exact h2.2 q hb h'
  | some e => exact h1.2 q h (by rw [hb]; simp)

theorem Extends.mono {A B : List (List Text)} {a b : Fs} (h : Extends A a b) (hs : ∀ q ∈ A, q ∈ B) : Extends B a b :=
  ⟨h.1, fun q h1 h2 => hs q (h.2 q h1 h2)⟩

theorem extends_set {fs : Fs} {p : List Text} (h : fs p = none) (e : Entry) : Extends [p] fs (setAt fs p (some e)) := by
  refine ⟨fun q e' hq => ?_, fun q hq hq' => ?_⟩
  · unfold setAt
    rw [if_neg, hq]
    rintro rfl
    rw [h] at hq; cases hq
  · unfold setAt at hq'
    split at hq'
    · rename_i he; simp [he]
    · exact absurd hq hq'

theorem unlessThere_extends {p : List Text} {content : Text} {fs fs' : Fs} {t : List Fs}
    (h : unlessThere p content fs = .ok (t, fs')) : (∀ x ∈ fs' :: t, Extends [p] fs x) ∧ fs' p ≠ none ∧
    (fs p = none → fs' p = some (.file content)) := by
  unfold unlessThere at h
  split at h
  · rename_i hs
    cases h
    refine ⟨?_, fun hn => (by rw [hn] at hs; cases hs), fun hn => (by rw [hn] at hs; cases hs)⟩
    intro x hx
    simp only [List.mem_cons, List.not_mem_nil, or_false] at hx
    rw [hx]; exact .refl _ _
  · rename_i hs
    have hn : fs p = none := by
      cases hp : fs p with
      | none => rfl
      | some e => rw [hp] at hs; exact absurd rfl hs
    unfold write at h
    rw [hn] at h
    dsimp only at h
    split at h
    · cases h
    · cases h
    · cases h
      refine ⟨?_, by simp [setAt], by simp [setAt]⟩
      intro x hx
      simp only [List.mem_cons, List.not_mem_nil, or_false] at hx
      rcases hx with rfl | rfl
      · exact extends_set hn _
      · exact extends_set hn _

theorem mkSteps_extends : ∀ (ps : List (List Text)) (fs : Fs),
    ∀ x ∈ (mkSteps fs ps).2 :: (mkSteps fs ps).1, Extends ps fs x := by
  intro ps
  induction ps with
  | nil =>
    intro fs x hx
    simp only [mkSteps, List.mem_cons, List.not_mem_nil, or_false] at hx
    rw [hx]; exact .refl _ _
  | cons p ps ih =>
    intro fs x hx
    unfold mkSteps at hx
    split at hx
    · rename_i hn
      have h1 : Extends (p :: ps) fs (setAt fs p (some .dir)) := (extends_set hn _).mono (by simp)
      simp only [List.mem_cons] at hx
      rcases hx with hx | hx | hx
      · exact h1.trans ((ih _ x (by simp [hx])).mono (by simp +contextual))
      · rw [hx]; exact h1
      · exact h1.trans ((ih _ x (by simp [hx])).mono (by simp +contextual))
    · exact (ih fs x hx).mono (by simp +contextual)

theorem mkSteps_dirs : ∀ (ps : List (List Text)) (fs : Fs), (∀ p ∈ ps, ∀ c, fs p ≠ some (.file c)) →
    ∀ p ∈ ps, (mkSteps fs ps).2 p = some .dir := by
  intro ps
  induction ps with
  | nil => intro fs _ p hp; cases hp
  | cons q ps ih =>
    intro fs h p hp
    unfold mkSteps
    split
    · rename_i hn
      dsimp only
      rcases List.mem_cons.1 hp with rfl | hp
      · refine (mkSteps_extends ps (setAt fs p (some .dir)) _ (by simp)).1 _ _ ?_
        simp [setAt]
      · refine ih _ ?_ p hp
        intro r hr c
        unfold setAt
        split
        · simp
        · exact h r (by simp [hr]) c
    · rename_i e he
      have hd : fs q = some .dir := by
        cases e with
        | dir => exact he
        | file c => exact absurd he (h q (by simp) c)
      rcases List.mem_cons.1 hp with rfl | hp
      · exact (mkSteps_extends ps _ _ (by simp)).1 _ _ hd
      · exact ih _ (fun r hr => h r (by simp [hr])) p hp

theorem mkSteps_same : ∀ (ps : List (List Text)) (fs : Fs), (∀ p ∈ ps, fs p = some .dir) → mkSteps fs ps = ([], fs) := by
  intro ps
  induction ps with
  | nil => intro fs _; rfl
  | cons q ps ih =>
    intro fs h
    simp only [mkSteps, h q (by simp)]
    exact ih fs (fun p hp => h p (by simp [hp]))

theorem mem_steps {p q : List Text} : q ∈ steps p ↔ q <+: p := by
  unfold steps
  simp only [List.mem_map, List.mem_range]
  constructor
  · rintro ⟨n, _, rfl⟩; exact List.take_prefix n p
  · intro h
    exact ⟨q.length, by have := h.length_le; omega, (List.prefix_iff_eq_take.1 h).symm⟩

theorem makedirs_ok {p : List Text} {fs : Fs} : (∃ r, makedirs fs p = .ok r) ↔ ∀ q, q <+: p → ∀ c, fs q ≠ some (.file c) := by
  unfold makedirs
  split
  · rename_i q hq
    have hm := mem_steps.1 (List.mem_of_find?_eq_some hq)
    have hp := List.find?_some hq
    constructor
    · rintro ⟨r, h⟩; cases h
    · intro h
      exfalso
      split at hp
      · rename_i c hc; exact h q hm c hc
      · cases hp
  · rename_i hn
    constructor
    · rintro _ q hq c hc
      have := List.find?_eq_none.1 hn q (mem_steps.2 hq)
      simp [hc] at this
    · exact fun _ => ⟨_, rfl⟩

theorem makedirs_extends {p : List Text} {fs fs' : Fs} {t : List Fs} (h : makedirs fs p = .ok (t, fs')) :
    (∀ x ∈ fs' :: t, Extends (steps p) fs x) ∧ ∀ q, q <+: p → fs' q = some .dir := by
  have hno := makedirs_ok.1 ⟨_, h⟩
  unfold makedirs at h
  split at h
  · cases h
  · simp only [Except.ok.injEq] at h
    have h1 : t = (mkSteps fs (steps p)).1 := by rw [h]
    have h2 : fs' = (mkSteps fs (steps p)).2 := by rw [h]
    subst h1 h2
    exact ⟨mkSteps_extends _ _, fun q hq => mkSteps_dirs _ _ (fun r hr => hno r (mem_steps.1 hr)) q (mem_steps.2 hq)⟩

theorem mkSteps_file : ∀ (ps : List (List Text)) (fs : Fs) (q : List Text) (c : Text),
    (mkSteps fs ps).2 q = some (.file c) → fs q = some (.file c) := by
  intro ps
  induction ps with
  | nil => intro fs q c h; exact h
  | cons p ps ih =>
    intro fs q c h
    unfold mkSteps at h
    split at h
    · have := ih _ q c h
      unfold setAt at this
      split at this
      · cases this
      · exact this
    · exact ih _ q c h

theorem makedirs_file {p : List Text} {fs fs' : Fs} {t : List Fs} (h : makedirs fs p = .ok (t, fs')) (q : List Text)
    (c : Text) (hq : fs' q = some (.file c)) : fs q = some (.file c) := by
  unfold makedirs at h
  split at h
  · cases h
  · simp only [Except.ok.injEq] at h
    have h2 : fs' = (mkSteps fs (steps p)).2 := by rw [h]
    subst h2
    exact mkSteps_file _ _ q c hq

/-- All the states so far extend the first one. -/
def Run (A : List (List Text)) (fs : Fs) (r : List Fs × Option Err × Fs) : Prop :=
  (∀ x ∈ r.1, Extends A fs x) ∧ Extends A fs r.2.2

theorem andThen_run {A : List (List Text)} {fs : Fs} {r : List Fs × Option Err × Fs}
    {f : Fs → Except Err (List Fs × Fs)} (hr : Run A fs r)
    (hf : ∀ x t x', f x = .ok (t, x') → ∀ y ∈ x' :: t, Extends A x y) : Run A fs (andThen r f) := by
  obtain ⟨t, e, x⟩ := r
  unfold andThen
  cases e with
  | some e => exact hr
  | none =>
    dsimp only
    split
    · exact hr
    · rename_i t' x' h
      have := hf x t' x' h
      refine ⟨fun y hy => ?_, hr.2.trans (this x' (by simp))⟩
      simp only [List.mem_append, List.mem_singleton] at hy
      rcases hy with (hy | hy) | hy
      · exact hr.1 y hy
      · exact hr.2.trans (this y (by simp [hy]))
      · rw [hy]; exact hr.2.trans (this x' (by simp))

theorem andThen_none {r : List Fs × Option Err × Fs} {f : Fs → Except Err (List Fs × Fs)}
    (h : (andThen r f).2.1 = none) : r.2.1 = none ∧ ∃ t, f r.2.2 = .ok (t, (andThen r f).2.2) := by
  obtain ⟨t, e, x⟩ := r
  unfold andThen at h ⊢
  cases e with
  | some e => cases h
  | none =>
    dsimp only at h ⊢
    cases hf : f x with
    | error e => rw [hf] at h; cases h
    | ok p => exact ⟨rfl, p.1, rfl⟩

theorem andThen_ok {r : List Fs × Option Err × Fs} {f : Fs → Except Err (List Fs × Fs)} (h : r.2.1 = none)
    (hf : ∃ p, f r.2.2 = .ok p) : (andThen r f).2.1 = none := by
  obtain ⟨t, e, x⟩ := r
  dsimp only at h
  subst h
  obtain ⟨p, hp⟩ := hf
  dsimp only at hp
  simp only [andThen, hp]

/-- What a project consists of after init. -/
def dirs (cwd folder : Text) : List (List Text) :=
  [root cwd folder, root cwd folder ++ [txt "src"], root cwd folder ++ [txt "src", txt "public"],
   root cwd folder ++ [txt "src", txt "public", txt "img"], root cwd folder ++ [txt "src", txt "public", txt "js"],
   root cwd folder ++ [txt "src", txt "partials"]]
def configAt (cwd folder : Text) : List Text := root cwd folder ++ [txt "vanillaplusjs.json"]
def indexAt (cwd folder : Text) : List Text := root cwd folder ++ [txt "src", txt "public", txt "index.html"]

theorem init_eq (config index : Text) {cwd : Text} (folder : Text) (hc : isAbs cwd = true) (fs : Fs) :
    init config index cwd folder fs =
      andThen (andThen (andThen (andThen (andThen ([fs], none, fs) (unlessThere (configAt cwd folder) config))
        (fun x => makedirs x (root cwd folder ++ [txt "src", txt "public", txt "img"])))
        (fun x => makedirs x (root cwd folder ++ [txt "src", txt "public", txt "js"])))
        (fun x => makedirs x (root cwd folder ++ [txt "src", txt "partials"])))
        (unlessThere (indexAt cwd folder) index) := by
  unfold init configAt indexAt
  rw [place_config folder hc, place_img folder hc, place_js folder hc, place_partials folder hc, place_index folder hc]

theorem prefix_two {R q : List Text} {a b : Text} (h : q <+: R ++ [a, b]) : q <+: R ∨ q = R ++ [a] ∨ q = R ++ [a, b] := by
  rcases List.prefix_concat_iff.1 (show q <+: (R ++ [a]) ++ [b] by simpa using h) with h | h
  · exact .inr (.inr (by simpa using h))
  · rcases List.prefix_concat_iff.1 h with h | h
    · exact .inr (.inl (by simpa using h))
    · exact .inl h

theorem prefix_three {R q : List Text} {a b c : Text} (h : q <+: R ++ [a, b, c]) :
    q <+: R ∨ q = R ++ [a] ∨ q = R ++ [a, b] ∨ q = R ++ [a, b, c] := by
  rcases List.prefix_concat_iff.1 (show q <+: (R ++ [a, b]) ++ [c] by simpa using h) with h | h
  · exact .inr (.inr (.inr (by simpa using h)))
  · rcases prefix_two h with h | h | h
    · exact .inl h
    · exact .inr (.inl h)
    · exact .inr (.inr (.inl h))

section init

variable (config index : Text) {cwd : Text} (folder : Text) (hc : isAbs cwd = true) (fs : Fs) (ht : Tree fs)
include hc

theorem init_run : Run (configAt cwd folder :: indexAt cwd folder :: (steps (root cwd folder) ++ dirs cwd folder)) fs
    (init config index cwd folder fs) := by
  have hd3 : ∀ {a : Text} q, q ∈ steps (root cwd folder ++ [txt "src", txt "public", a]) →
      root cwd folder ++ [txt "src", txt "public", a] ∈ dirs cwd folder →
      q ∈ configAt cwd folder :: indexAt cwd folder :: (steps (root cwd folder) ++ dirs cwd folder) := by
    intro a q hq ha
    simp only [List.mem_cons, List.mem_append, mem_steps] at hq ⊢
    rcases prefix_three hq with h | h | h | h
    · exact .inr (.inr (.inl h))
    · exact .inr (.inr (.inr (by rw [h]; simp [dirs])))
    · exact .inr (.inr (.inr (by rw [h]; simp [dirs])))
    · exact .inr (.inr (.inr (by rw [h]; exact ha)))
  rw [init_eq config index folder hc]
  refine andThen_run (andThen_run (andThen_run (andThen_run (andThen_run ⟨?_, .refl _ _⟩ ?_) ?_) ?_) ?_) ?_
  · intro x hx
    simp only [List.mem_singleton] at hx
    rw [hx]; exact .refl _ _
  · intro x t x' h y hy
    exact ((unlessThere_extends h).1 y hy).mono (by simp)
  · intro x t x' h y hy
    exact ((makedirs_extends h).1 y hy).mono fun q hq => hd3 q hq (by simp [dirs])
  · intro x t x' h y hy
    exact ((makedirs_extends h).1 y hy).mono fun q hq => hd3 q hq (by simp [dirs])
  · intro x t x' h y hy
    refine ((makedirs_extends h).1 y hy).mono fun q hq => ?_
    simp only [List.mem_cons, List.mem_append, mem_steps] at hq ⊢
    rcases prefix_two hq with h | h | h
    · exact .inr (.inr (.inl h))
    · exact .inr (.inr (.inr (by rw [h]; simp [dirs])))
    · exact .inr (.inr (.inr (by rw [h]; simp [dirs])))
  · intro x t x' h y hy
    exact ((unlessThere_extends h).1 y hy).mono (by simp)

theorem init_broken (hr : fs (root cwd folder) ≠ some .dir) (hcfg : fs (configAt cwd folder) = none) :
    ∃ e, init config index cwd folder fs = ([fs], some e, fs) := by
  have h : ∃ e, unlessThere (configAt cwd folder) config fs = .error e := by
    have hl : (configAt cwd folder).dropLast = root cwd folder := by simp [configAt]
    unfold unlessThere write
    rw [hcfg, hl]
    cases hx : fs (root cwd folder) with
    | none => exact ⟨_, rfl⟩
    | some e =>
      cases e with
      | dir => exact absurd hx hr
      | file c => exact ⟨_, rfl⟩
  obtain ⟨e, h⟩ := h
  refine ⟨e, ?_⟩
  rw [init_eq config index folder hc]
  simp only [andThen, h]

include ht

/-- C54: at every moment, so also if init fails or is interrupted, every file and folder which was there is as it was,
and nothing is new but the configuration, the index page and the listed folders. -/
theorem C54_keeps : ∀ x ∈ (init config index cwd folder fs).2.2 :: (init config index cwd folder fs).1,
    (∀ q e, fs q = some e → x q = some e) ∧
    ∀ q, fs q = none → x q ≠ none → q = configAt cwd folder ∨ q = indexAt cwd folder ∨ q ∈ dirs cwd folder := by
  intro x hx
  by_cases hr : fs (root cwd folder) = some .dir
  · have h := init_run config index folder hc fs
    have he : Extends (configAt cwd folder :: indexAt cwd folder :: (steps (root cwd folder) ++ dirs cwd folder)) fs x := by
      rcases List.mem_cons.1 hx with rfl | hx
      · exact h.2
      · exact h.1 x hx
    refine ⟨he.1, fun q h1 h2 => ?_⟩
    have := he.2 q h1 h2
    simp only [List.mem_cons, List.mem_append, mem_steps] at this
    rcases this with h | h | h | h
    · exact .inl h
    · exact .inr (.inl h)
    · exfalso
      obtain ⟨r, hr'⟩ := h
      cases r with
      | nil => rw [List.append_nil] at hr'; rw [hr', hr] at h1; cases h1
      | cons c r =>
        have := ht q (c :: r) (by simp) (by rw [hr', hr]; rfl)
        rw [this] at h1; cases h1
    · exact .inr (.inr h)
  · have hcfg : fs (configAt cwd folder) = none := by
      cases hx : fs (configAt cwd folder) with
      | none => rfl
      | some e => exact absurd (ht (root cwd folder) [txt "vanillaplusjs.json"] (by simp) (by
          show (fs (configAt cwd folder)).isSome; rw [hx]; rfl)) hr
    obtain ⟨e, h⟩ := init_broken config index folder hc fs hr hcfg
    rw [h] at hx
    have : x = fs := by simpa using hx
    rw [this]
    exact ⟨fun _ _ h => h, fun _ h h' => absurd h h'⟩

omit ht in
/-- C54: an init which does not fail leaves a complete project. -/
theorem C54_done (h : (init config index cwd folder fs).2.1 = none) :
    (∀ d ∈ dirs cwd folder, (init config index cwd folder fs).2.2 d = some .dir) ∧
    (init config index cwd folder fs).2.2 (configAt cwd folder) =
      some ((fs (configAt cwd folder)).getD (.file config)) ∧
    (init config index cwd folder fs).2.2 (indexAt cwd folder) =
      some ((fs (indexAt cwd folder)).getD (.file index)) := by
  have hrun := init_run config index folder hc fs
  rw [init_eq config index folder hc] at h hrun ⊢
  obtain ⟨h4, t5, e5⟩ := andThen_none h
  obtain ⟨h3, t4, e4⟩ := andThen_none h4
  obtain ⟨h2, t3, e3⟩ := andThen_none h3
  obtain ⟨h1, t2, e2⟩ := andThen_none h2
  obtain ⟨_, t1, e1⟩ := andThen_none h1
  generalize andThen ([fs], none, fs) (unlessThere (configAt cwd folder) config) = r1 at *
  generalize andThen r1 (fun x => makedirs x (root cwd folder ++ [txt "src", txt "public", txt "img"])) = r2 at *
  generalize andThen r2 (fun x => makedirs x (root cwd folder ++ [txt "src", txt "public", txt "js"])) = r3 at *
  generalize andThen r3 (fun x => makedirs x (root cwd folder ++ [txt "src", txt "partials"])) = r4 at *
  generalize andThen r4 (unlessThere (indexAt cwd folder) index) = r5 at *
  have x5 := unlessThere_extends e5
  have x4 := makedirs_extends e4
  have x3 := makedirs_extends e3
  have x2 := makedirs_extends e2
  have x1 := unlessThere_extends e1
  have k5 := (x5.1 _ (List.mem_cons_self ..)).1
  have k4 := (x4.1 _ (List.mem_cons_self ..)).1
  have k3 := (x3.1 _ (List.mem_cons_self ..)).1
  have k2 := (x2.1 _ (List.mem_cons_self ..)).1
  have k1 := (x1.1 _ (List.mem_cons_self ..)).1
  refine ⟨?_, ?_, ?_⟩
  · intro d hd
    simp only [dirs, List.mem_cons, List.not_mem_nil, or_false] at hd
    have from2 : ∀ q, q <+: root cwd folder ++ [txt "src", txt "public", txt "img"] → r5.2.2 q = some .dir :=
      fun q hq => k5 _ _ (k4 _ _ (k3 _ _ (x2.2 q hq)))
    rcases hd with rfl | rfl | rfl | rfl | rfl | rfl
    · exact from2 _ (List.prefix_append _ _)
    · exact from2 _ ⟨[txt "public", txt "img"], by simp⟩
    · exact from2 _ ⟨[txt "img"], by simp⟩
    · exact from2 _ (List.prefix_refl _)
    · exact k5 _ _ (k4 _ _ (x3.2 _ (List.prefix_refl _)))
    · exact k5 _ _ (x4.2 _ (List.prefix_refl _))
  · refine k5 _ _ (k4 _ _ (k3 _ _ (k2 _ _ ?_)))
    cases hx : fs (configAt cwd folder) with
    | some e => exact k1 _ _ hx
    | none => exact x1.2.2 hx
  · cases hx : fs (indexAt cwd folder) with
    | some e => exact k5 _ _ (k4 _ _ (k3 _ _ (k2 _ _ (k1 _ _ hx))))
    | none =>
      cases h4 : r4.2.2 (indexAt cwd folder) with
      | none => exact x5.2.2 h4
      | some e =>
        -- no step before created it
        exfalso
        have hne : ∀ q, q ∈ configAt cwd folder :: (steps (root cwd folder) ++ dirs cwd folder) → q ≠ indexAt cwd folder := by
          intro q hq he
          subst he
          simp only [List.mem_cons, List.mem_append, mem_steps] at hq
          rcases hq with hq | hq | hq
          · unfold indexAt configAt at hq
            have := List.append_cancel_left hq
            revert this; decide
          · have := hq.length_le
            simp only [indexAt, List.length_append, List.length_cons, List.length_nil] at this
            omega
          · unfold indexAt dirs at hq
            simp only [List.mem_cons, List.not_mem_nil, or_false] at hq
            rcases hq with hq | hq | hq | hq | hq | hq
            · have := congrArg List.length hq; simp at this
            · have := List.append_cancel_left hq; revert this; decide
            · have := List.append_cancel_left hq; revert this; decide
            · have := List.append_cancel_left hq; revert this; decide
            · have := List.append_cancel_left hq; revert this; decide
            · have := List.append_cancel_left hq; revert this; decide
        have hm3 : ∀ {a : Text} q, q ∈ steps (root cwd folder ++ [txt "src", txt "public", a]) →
            root cwd folder ++ [txt "src", txt "public", a] ∈ dirs cwd folder → q ≠ indexAt cwd folder := by
          intro a q hq ha
          refine hne q ?_
          simp only [List.mem_cons, List.mem_append, mem_steps] at hq ⊢
          rcases prefix_three hq with h | h | h | h
          · exact .inr (.inl h)
          · exact .inr (.inr (by rw [h]; simp [dirs]))
          · exact .inr (.inr (by rw [h]; simp [dirs]))
          · exact .inr (.inr (by rw [h]; exact ha))
        have n1 : r1.2.2 (indexAt cwd folder) = none := by
          cases hq : r1.2.2 (indexAt cwd folder) with
          | none => rfl
          | some e =>
            have := (x1.1 _ (List.mem_cons_self ..)).2 _ hx (by rw [hq]; simp)
            exact absurd (List.mem_singleton.1 this).symm (hne _ (by simp))
        have n2 : r2.2.2 (indexAt cwd folder) = none := by
          cases hq : r2.2.2 (indexAt cwd folder) with
          | none => rfl
          | some e =>
            exact absurd rfl (hm3 _ ((x2.1 _ (List.mem_cons_self ..)).2 _ n1 (by rw [hq]; simp)) (by simp [dirs]))
        have n3 : r3.2.2 (indexAt cwd folder) = none := by
          cases hq : r3.2.2 (indexAt cwd folder) with
          | none => rfl
          | some e =>
            exact absurd rfl (hm3 _ ((x3.1 _ (List.mem_cons_self ..)).2 _ n2 (by rw [hq]; simp)) (by simp [dirs]))
        have h5 := mem_steps.1 ((x4.1 _ (List.mem_cons_self ..)).2 _ n3 (by rw [h4]; simp))
        rcases prefix_two h5 with h | h | h
        · exact hne _ (by simp [mem_steps, h]) rfl
        · exact hne _ (by rw [h]; simp [dirs]) rfl
        · exact hne _ (by rw [h]; simp [dirs]) rfl

omit ht in
theorem init_complete (hd : ∀ d ∈ dirs cwd folder, fs d = some .dir) (htr : ∀ q, q <+: root cwd folder → fs q = some .dir)
    (h1 : fs (configAt cwd folder) ≠ none) (h2 : fs (indexAt cwd folder) ≠ none) :
    (init config index cwd folder fs).2 = (none, fs) ∧ ∀ x ∈ (init config index cwd folder fs).1, x = fs := by
  have hd3 : ∀ {a : Text}, root cwd folder ++ [txt "src", txt "public", a] ∈ dirs cwd folder →
      makedirs fs (root cwd folder ++ [txt "src", txt "public", a]) = .ok ([], fs) := by
    intro a ha
    have hall : ∀ q, q <+: root cwd folder ++ [txt "src", txt "public", a] → fs q = some .dir := by
      intro q hq
      rcases prefix_three hq with h | h | h | h
      · exact htr q h
      · exact hd _ (by rw [h]; simp [dirs])
      · exact hd _ (by rw [h]; simp [dirs])
      · exact hd _ (by rw [h]; exact ha)
    obtain ⟨r, hr⟩ := makedirs_ok.2 (fun q hq c => show fs q ≠ _ by rw [hall q hq]; simp)
    rw [hr]
    unfold makedirs at hr
    split at hr
    · cases hr
    · rw [mkSteps_same _ _ (fun p hp => hall p (mem_steps.1 hp))] at hr
      exact hr.symm
  have hd2 : makedirs fs (root cwd folder ++ [txt "src", txt "partials"]) = .ok ([], fs) := by
    have hall : ∀ q, q <+: root cwd folder ++ [txt "src", txt "partials"] → fs q = some .dir := by
      intro q hq
      rcases prefix_two hq with h | h | h
      · exact htr q h
      · exact hd _ (by rw [h]; simp [dirs])
      · exact hd _ (by rw [h]; simp [dirs])
    obtain ⟨r, hr⟩ := makedirs_ok.2 (fun q hq c => show fs q ≠ _ by rw [hall q hq]; simp)
    rw [hr]
    unfold makedirs at hr
    split at hr
    · cases hr
    · rw [mkSteps_same _ _ (fun p hp => hall p (mem_steps.1 hp))] at hr
      exact hr.symm
  have hu : ∀ {p : List Text} (content : Text), fs p ≠ none → unlessThere p content fs = .ok ([], fs) := by
    intro p content hp
    unfold unlessThere
    rw [if_pos]
    cases hq : fs p with
    | none => exact absurd hq hp
    | some e => rfl
  rw [init_eq config index folder hc]
  simp only [andThen, hu _ h1, hu _ h2, hd3 (a := txt "img") (by simp [dirs]), hd3 (a := txt "js") (by simp [dirs]), hd2]
  simp

/-- C54: running init again changes nothing. -/
theorem C54_again (h : (init config index cwd folder fs).2.1 = none) :
    (init config index cwd folder (init config index cwd folder fs).2.2).2 = (none, (init config index cwd folder fs).2.2) ∧
    ∀ x ∈ (init config index cwd folder (init config index cwd folder fs).2.2).1, x = (init config index cwd folder fs).2.2 := by
  obtain ⟨h1, h2, h3⟩ := C54_done config index folder hc fs h
  refine init_complete config index folder hc _ h1 ?_ (by rw [h2]; simp) (by rw [h3]; simp)
  intro q hq
  have hr : fs (root cwd folder) = some .dir := by
    by_cases hr : fs (root cwd folder) = some .dir
    · exact hr
    · have hcfg : fs (configAt cwd folder) = none := by
        cases hx : fs (configAt cwd folder) with
        | none => rfl
        | some e => exact absurd (ht (root cwd folder) [txt "vanillaplusjs.json"] (by simp) (by
            show (fs (configAt cwd folder)).isSome; rw [hx]; rfl)) hr
      obtain ⟨e, h'⟩ := init_broken config index folder hc fs hr hcfg
      rw [h'] at h; cases h
  refine (C54_keeps config index folder hc fs ht _ (List.mem_cons_self ..)).1 q _ ?_
  obtain ⟨r, hr'⟩ := hq
  cases r with
  | nil => rw [List.append_nil] at hr'; rw [hr']; exact hr
  | cons c r => exact ht q (c :: r) (by simp) (by rw [hr', hr]; rfl)

/-- init does not fail if the folder is there and no file is where a folder is needed. -/
theorem C54_succeeds (hr : fs (root cwd folder) = some .dir) (hd : ∀ d ∈ dirs cwd folder, ∀ c, fs d ≠ some (.file c)) :
    (init config index cwd folder fs).2.1 = none := by
  have hup : ∀ q, q <+: root cwd folder → fs q = some .dir := by
    rintro q ⟨r, hr'⟩
    cases r with
    | nil => rw [List.append_nil] at hr'; rw [hr']; exact hr
    | cons c r => exact ht q (c :: r) (by simp) (by rw [hr', hr]; rfl)
  have hall : ∀ q, (q <+: root cwd folder ∨ q ∈ dirs cwd folder) → ∀ c, fs q ≠ some (.file c) := by
    rintro q (hq | hq) c
    · rw [hup q hq]; simp
    · exact hd q hq c
  have h3 : ∀ {a : Text}, root cwd folder ++ [txt "src", txt "public", a] ∈ dirs cwd folder →
      ∀ q, q <+: root cwd folder ++ [txt "src", txt "public", a] → q <+: root cwd folder ∨ q ∈ dirs cwd folder := by
    intro a ha q hq
    rcases prefix_three hq with h | h | h | h
    · exact .inl h
    · exact .inr (by rw [h]; simp [dirs])
    · exact .inr (by rw [h]; simp [dirs])
    · exact .inr (by rw [h]; exact ha)
  have h2 : ∀ q, q <+: root cwd folder ++ [txt "src", txt "partials"] → q <+: root cwd folder ∨ q ∈ dirs cwd folder := by
    intro q hq
    rcases prefix_two hq with h | h | h
    · exact .inl h
    · exact .inr (by rw [h]; simp [dirs])
    · exact .inr (by rw [h]; simp [dirs])
  have hcfg : ¬ (configAt cwd folder <+: root cwd folder ∨ configAt cwd folder ∈ dirs cwd folder) := by
    rintro (h | h)
    · have := h.length_le
      simp only [configAt, List.length_append, List.length_cons, List.length_nil] at this
      omega
    · unfold configAt dirs at h
      simp only [List.mem_cons, List.not_mem_nil, or_false] at h
      rcases h with h | h | h | h | h | h
      · have := congrArg List.length h; simp at this
      · have := List.append_cancel_left h; revert this; decide
      · have := List.append_cancel_left h; revert this; decide
      · have := List.append_cancel_left h; revert this; decide
      · have := List.append_cancel_left h; revert this; decide
      · have := List.append_cancel_left h; revert this; decide
  rw [init_eq config index folder hc]
  have o1 : ∃ p, unlessThere (configAt cwd folder) config fs = .ok p := by
    unfold unlessThere
    split
    · exact ⟨_, rfl⟩
    · rename_i hs
      have hl : (configAt cwd folder).dropLast = root cwd folder := by simp [configAt]
      have hn : fs (configAt cwd folder) = none := by
        cases hp : fs (configAt cwd folder) with
        | none => rfl
        | some e => rw [hp] at hs; exact absurd rfl hs
      simp only [write, hn, hl, hr]
      exact ⟨_, rfl⟩
  have n1 : (andThen ([fs], none, fs) (unlessThere (configAt cwd folder) config)).2.1 = none := andThen_ok rfl o1
  obtain ⟨_, t1, e1⟩ := andThen_none n1
  generalize andThen ([fs], none, fs) (unlessThere (configAt cwd folder) config) = r1 at *
  have p1 : ∀ q, (q <+: root cwd folder ∨ q ∈ dirs cwd folder) → ∀ c, r1.2.2 q ≠ some (.file c) := by
    intro q hq c hqc
    have he := (unlessThere_extends e1).1 _ (List.mem_cons_self ..)
    cases hf : fs q with
    | none =>
      have := List.mem_singleton.1 (he.2 q hf (by rw [hqc]; simp))
      exact hcfg (this ▸ hq)
    | some e =>
      have := he.1 q e hf
      rw [hqc] at this; cases this
      exact hall q hq c hf
  have n2 := andThen_ok (f := fun x => makedirs x (root cwd folder ++ [txt "src", txt "public", txt "img"])) n1
    (makedirs_ok.2 fun q hq => p1 q (h3 (by simp [dirs]) q hq))
  obtain ⟨_, t2, e2⟩ := andThen_none n2
  generalize andThen r1 (fun x => makedirs x (root cwd folder ++ [txt "src", txt "public", txt "img"])) = r2 at *
  have p2 : ∀ q, (q <+: root cwd folder ∨ q ∈ dirs cwd folder) → ∀ c, r2.2.2 q ≠ some (.file c) :=
    fun q hq c h => p1 q hq c (makedirs_file e2 q c h)
  have n3 := andThen_ok (f := fun x => makedirs x (root cwd folder ++ [txt "src", txt "public", txt "js"])) n2
    (makedirs_ok.2 fun q hq => p2 q (h3 (by simp [dirs]) q hq))
  obtain ⟨_, t3, e3⟩ := andThen_none n3
  generalize andThen r2 (fun x => makedirs x (root cwd folder ++ [txt "src", txt "public", txt "js"])) = r3 at *
  have p3 : ∀ q, (q <+: root cwd folder ∨ q ∈ dirs cwd folder) → ∀ c, r3.2.2 q ≠ some (.file c) :=
    fun q hq c h => p2 q hq c (makedirs_file e3 q c h)
  have n4 := andThen_ok (f := fun x => makedirs x (root cwd folder ++ [txt "src", txt "partials"])) n3
    (makedirs_ok.2 fun q hq => p3 q (h2 q hq))
  obtain ⟨_, t4, e4⟩ := andThen_none n4
  generalize andThen r3 (fun x => makedirs x (root cwd folder ++ [txt "src", txt "partials"])) = r4 at *
  refine andThen_ok n4 ?_
  have hpub : r4.2.2 (root cwd folder ++ [txt "src", txt "public"]) = some .dir :=
    ((makedirs_extends e4).1 _ (List.mem_cons_self ..)).1 _ _ (((makedirs_extends e3).1 _ (List.mem_cons_self ..)).1 _ _
      ((makedirs_extends e2).2 _ ⟨[txt "img"], by simp⟩))
  unfold unlessThere
  split
  · exact ⟨_, rfl⟩
  · rename_i hs
    have hl : (indexAt cwd folder).dropLast = root cwd folder ++ [txt "src", txt "public"] := by
      have : indexAt cwd folder = (root cwd folder ++ [txt "src", txt "public"]) ++ [txt "index.html"] := by simp [indexAt]
      rw [this, List.dropLast_concat]
    have hn : r4.2.2 (indexAt cwd folder) = none := by
      cases hp : r4.2.2 (indexAt cwd folder) with
      | none => rfl
      | some e => rw [hp] at hs; exact absurd rfl hs
    simp only [write, hn, hl, hpub]
    exact ⟨_, rfl⟩

omit ht in
/-- What init does not ensure: interrupted while the configuration is written it leaves an empty one, and a later init
keeps that. -/
theorem C54_interrupted (hr : fs (root cwd folder) = some .dir) (hcfg : fs (configAt cwd folder) = none) :
    ∃ x ∈ (init config index cwd folder fs).1, x (configAt cwd folder) = some (.file []) ∧
      (init config index cwd folder x).2.2 (configAt cwd folder) = some (.file []) := by
  have hl : (configAt cwd folder).dropLast = root cwd folder := by simp [configAt]
  have e1 : unlessThere (configAt cwd folder) config fs =
      .ok ([setAt fs (configAt cwd folder) (some (.file []))], setAt fs (configAt cwd folder) (some (.file config))) := by
    simp only [unlessThere, hcfg, write, hl, hr]
    simp
  have hx : setAt fs (configAt cwd folder) (some (.file [])) (configAt cwd folder) = some (.file []) := by simp [setAt]
  refine ⟨setAt fs (configAt cwd folder) (some (.file [])), ?_, hx, ?_⟩
  · rw [init_eq config index folder hc]
    have hsub : ∀ (r : List Fs × Option Err × Fs) (f : Fs → Except Err (List Fs × Fs)) (x : Fs), x ∈ r.1 → x ∈ (andThen r f).1 := by
      rintro ⟨t, e, y⟩ f x hx
      unfold andThen
      cases e with
      | some e => exact hx
      | none =>
        dsimp only
        split
        · exact hx
        · simp only [List.mem_append]; exact .inl (.inl hx)
    refine hsub _ _ _ (hsub _ _ _ (hsub _ _ _ (hsub _ _ _ ?_)))
    simp [andThen, e1]
  · exact (init_run config index folder hc _).2.1 _ _ hx

end init

/-- The hypotheses hold of a folder in which there is some work already; the index page of the user is kept. -/
def started : List (List Text × Entry) :=
  [([], .dir), ([txt "p"], .dir), ([txt "p", txt "src"], .dir), ([txt "p", txt "src", txt "public"], .dir),
   ([txt "p", txt "src", txt "public", txt "index.html"], .file (txt "mine"))]

theorem C54_case : isAbs (txt "/") = true ∧ Tree (ofList started) ∧
    ofList started (root (txt "/") (txt "p")) = some .dir ∧
    (∀ d ∈ dirs (txt "/") (txt "p"), ∀ c, ofList started d ≠ some (.file c)) ∧
    (init (txt "config") (txt "page") (txt "/") (txt "p") (ofList started)).2.1 = none ∧
    (init (txt "config") (txt "page") (txt "/") (txt "p") (ofList started)).2.2
      [txt "p", txt "src", txt "public", txt "index.html"] = some (.file (txt "mine")) ∧
    (init (txt "config") (txt "page") (txt "/") (txt "p") (ofList started)).2.2 [txt "p", txt "vanillaplusjs.json"] =
      some (.file (txt "config")) := by
  have hd : ∀ d ∈ dirs (txt "/") (txt "p"), ofList started d = none ∨ ofList started d = some .dir := by decide +kernel
  refine ⟨by decide, tree_ofList (by decide +kernel), by decide +kernel, fun d h c hc => ?_, by decide +kernel,
    by decide +kernel, by decide +kernel⟩
  rcases hd d h with h | h <;> (rw [h] at hc; cases hc)

/-- A file in the way makes init fail; nothing of what was there is lost. -/
theorem C54_in_the_way : (init (txt "config") (txt "page") (txt "/") (txt "p")
    (ofList [([], .dir), ([txt "p"], .dir), ([txt "p", txt "src"], .file (txt "notes"))])).2.1 = some .notDir := by
  decide +kernel

end Verif.Runners
