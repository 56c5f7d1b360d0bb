import Verif.HotHistory
/-!
# C57: a concrete history

A page which uses a script and asks for a placeholder is built, the script is changed, and the
project is built again. -/
namespace Verif.Hot.HistoryCase
open Verif Verif.Hot Verif.Graph

/-! ## Checking the conditions on a run from tables -/

/-- Scans and builds taken from tables. -/
def tableEnv (scans : Dict ScanResult) (builds : List (Dict BuildResult)) (fuel : Nat) : Env where
  scan := fun _ f => .ok ((scans.get? f).getD ⟨[], [], []⟩)
  sig := fun _ => sig1
  order := id
  batches := builds.map (fun b f => (b.get? f).map .ok)
  scanFuel := fuel

theorem tableEnv_returned {scans builds fuel f r} (h : Returned (tableEnv scans builds fuel) f r) :
    (f, r) ∈ builds.flatten := by
  obtain ⟨b, hb, h⟩ := h
  simp only [tableEnv, List.mem_map] at hb
  obtain ⟨t, ht, rfl⟩ := hb
  dsimp only at h
  rcases hg : t.get? f with _ | r'
  · rw [hg] at h; simp at h
  · rw [hg] at h
    simp only [Option.map_some, Option.some.injEq, Except.ok.injEq] at h
    subst h
    exact List.mem_flatten.2 ⟨t, ht, Dict.mem_of_get? hg⟩

/-- The files `f` needs. -/
def needs (a : Args) (out : Outcome) (f : String) : List String :=
  (match out.scanned.get? f with
    | some r => (r.dependencies.filter (fun g => !isOutput g) ++
        (r.dependencies.filter isOutput).filterMap (producerOf a out)).filter (· ≠ f)
    | none => kids a.old.dep f) ++
  (match out.generated.get? f with
    | some g => [g]
    | none => pars a.old.ph f)

theorem needs_iff {a : Args} {out : Outcome} (hv : ValidGraphs a.old) {f g : String} : Needs a out f g ↔ g ∈ needs a out f := by
  unfold Needs needs
  rw [List.mem_append]
  refine or_congr ?_ ?_
  · rcases out.scanned.get? f with _ | r
    · exact edge_iff _ _ _
    · simp only [List.mem_filter, List.mem_append, List.mem_filterMap]
      constructor
      · rintro ⟨h1, ⟨h2, h3⟩ | ⟨o, h2, h3, h4⟩⟩
        · exact ⟨.inl ⟨h2, by simp [h3]⟩, by simp [h1]⟩
        · exact ⟨.inr ⟨o, ⟨h2, h3⟩, h4⟩, by simp [h1]⟩
      · rintro ⟨⟨h2, h3⟩ | ⟨o, ⟨h2, h3⟩, h4⟩, h1⟩
        · exact ⟨by simpa using h1, .inl ⟨h2, by simpa using h3⟩⟩
        · exact ⟨by simpa using h1, .inr ⟨o, h2, h3, h4⟩⟩
  · rcases out.generated.get? f with _ | g'
    · simp only; rw [edge_iff, hv.ph.wf.mem_pars_iff]
    · simp

theorem path_rank {R : String → String → Prop} (rank : String → Nat) (h : ∀ x y, R x y → rank y < rank x) {x y : String}
    (p : Path R x y) : rank y < rank x := by
  induction p with
  | one e => exact h _ _ e
  | more e _ ih => exact Nat.lt_trans ih (h _ _ e)

theorem edge_all {g : Graph} {Q : String → String → Prop} (h : ∀ x ∈ g.keys, ∀ y ∈ kids g x, Q x y) {x y : String}
    (he : Edge g x y) : Q x y := by
  obtain ⟨cs, hcs, hy⟩ := he
  have hk := getChildren_ok hcs
  exact h x hk.1 y (hk.2 ▸ hy)

/-- All files a run with these tables is about. -/
def known (a : Args) (out : Outcome) : List String :=
  out.scanned.keys ++ a.old.dep.keys ++ out.generated.keys ++ a.old.ph.keys

theorem needs_known {a : Args} {out : Outcome} {f g : String} (h : g ∈ needs a out f) : f ∈ known a out := by
  unfold known
  simp only [List.mem_append]
  unfold needs at h
  rcases List.mem_append.1 h with h | h
  · rcases hs : out.scanned.get? f with _ | r
    · rw [hs] at h
      refine .inl (.inl (.inr ?_))
      simp only [kids] at h
      rcases hg : a.old.dep.get? f with _ | n
      · rw [hg] at h; simp at h
      · exact Dict.mem_keys_of_get? hg
    · exact .inl (.inl (.inl (Dict.mem_keys_of_get? hs)))
  · rcases hs : out.generated.get? f with _ | r
    · rw [hs] at h
      exact .inr (mem_keys_of_has_par h)
    · exact .inl (.inr (Dict.mem_keys_of_get? hs))

/-- The pairs of generator and placeholder. -/
def generatedPairs (a : Args) (out : Outcome) : List (String × String) :=
  a.old.ph.keys.flatMap (fun x => (kids a.old.ph x).map (fun y => (x, y))) ++ out.generated.map (fun p => (p.2, p.1))

theorem generates_mem {a : Args} {out : Outcome} {x y : String} (h : Generates a out x y) : (x, y) ∈ generatedPairs a out := by
  unfold generatedPairs
  rw [List.mem_append]
  rcases h with h | h
  · left
    refine edge_all (Q := fun x y => (x, y) ∈ _) ?_ h
    intro x hx y hy
    exact List.mem_flatMap.2 ⟨x, hx, List.mem_map.2 ⟨y, hy, rfl⟩⟩
  · exact .inr (List.mem_map.2 ⟨(y, x), Dict.mem_of_get? h, rfl⟩)

/-- The makers of `c`. -/
def makersOf (a : Args) (out : Outcome) (c : String) : List String :=
  match out.scanned.reverse.find? (fun x => x.2.produces.contains c) with
  | some x => [x.1]
  | none => a.old.out.keys.filter (fun p => (kids a.old.out p).contains c)

theorem madeBy_mem {a : Args} {out : Outcome} {c p : String} (h : MadeBy a out c p) : p ∈ makersOf a out c := by
  unfold MadeBy at h
  unfold makersOf
  split
  · rename_i x hx; rw [hx] at h; simp [h]
  · rename_i hx
    rw [hx] at h
    refine edge_all (Q := fun p c => p ∈ a.old.out.keys.filter (fun p => (kids a.old.out p).contains c)) ?_ h
    intro x hx y hy
    simp [hx, hy]

/-- What `f` announced. -/
def announced (a : Args) (out : Outcome) (f : String) : List String :=
  match out.scanned.get? f with
  | some r => r.produces
  | none => kids a.old.out f

/-- `c` is a source of the project after the run, as far as this check sees. -/
def isCurrent (a : Args) (out : Outcome) (c : String) : Bool :=
  !a.deleted.contains c && (out.scanned.keys.contains c || a.old.dep.keys.contains c)

theorem current_of {a : Args} {out : Outcome} {c : String} (h : isCurrent a out c = true) : Current a out c := by
  simp only [isCurrent, Bool.and_eq_true, Bool.not_eq_true', Bool.or_eq_true, List.contains_iff_mem] at h
  have hd : c ∉ a.deleted := by simpa using h.1
  rcases h.2 with h | h
  · exact ⟨hd, .inl ⟨hd, .inl (by simp [touchedSources, h])⟩⟩
  · exact ⟨hd, .inr ((contains_iff _ _).2 h)⟩

/-- What a completed build reused. -/
def reusedBy : Event → List String
  | .started _ => []
  | .finished _ r => r.reused

theorem goodRun_check {scans : Dict ScanResult} {builds : List (Dict BuildResult)} {fuel : Nat} {a : Args} {d : Disk}
    {out : Outcome} (he : hotRebuild (tableEnv scans builds fuel) a d = out) (hv : ValidGraphs a.old) (rank : String → Nat)
    (places : List String) (hfuel : places.length < fuel)
    (hpl : ∀ x ∈ scans, ∀ p ∈ x.2.placeholders, p ∈ places)
    (hsrc : ∀ x ∈ out.scanned.keys, isOutput x = false ∧ x ∉ a.deleted)
    (hout : ∀ x ∈ out.scanned, ∀ o ∈ x.2.produces, isOutput o = true)
    (hmade : ∀ x ∈ out.scanned, ∀ o ∈ x.2.dependencies, isOutput o = true → (producerOf a out o).isSome = true)
    (hflat : ∀ p ∈ generatedPairs a out, ∀ q ∈ generatedPairs a out, q.1 ≠ p.2)
    (hone : ∀ p ∈ generatedPairs a out, ∀ q ∈ generatedPairs a out, p.1 = q.1 → p.2 = q.2)
    (hhonest : ∀ x ∈ builds.flatten, (x.2.produced ++ x.2.reused) = announced a out x.1 ∧ (x.2.produced ++ x.2.reused).Nodup)
    (hreused : ∀ e ∈ out.log, reusedBy e = [])
    (hchild : ∀ x ∈ builds.flatten, ∀ c ∈ x.2.children, isOutput c = false → isCurrent a out c = true ∧ c ∈ needs a out x.1)
    (hchild' : ∀ x ∈ builds.flatten, ∀ c ∈ x.2.children, isOutput c = true →
      (∃ y ∈ out.scanned, c ∈ y.2.produces ∨ c ∈ y.2.dependencies) ∧
      ∀ p ∈ makersOf a out c, p = x.1 ∨ (isCurrent a out p = true ∧ p ∈ needs a out x.1))
    (hrank : ∀ f ∈ known a out, ∀ g ∈ needs a out f, rank g < rank f)
    (hshare : ∀ f ∈ a.old.out.keys, ∀ o ∈ kids a.old.out f, ∀ f' ∈ a.old.out.keys, o ∈ kids a.old.out f' → f' = f)
    (hw : out.status ≠ .waiting) : GoodRun (tableEnv scans builds fuel) a d := by
  refine ⟨fun _ => .refl _, ?_, ?_, ?_, ?_, ?_, ?_⟩ <;> rw [he]
  · refine ⟨fun _ _ _ => ⟨_, rfl⟩, ⟨places, hfuel, ?_⟩, hsrc, hout, ?_, ?_⟩
    · intro dk f r h p hp
      simp only [tableEnv, Except.ok.injEq] at h
      subst h
      rcases hg : scans.get? f with _ | r
      · rw [hg] at hp; simp at hp
      · rw [hg] at hp
        exact hpl (f, r) (Dict.mem_of_get? hg) p hp
    · intro x hx o ho hio
      exact Option.isSome_iff_exists.1 (hmade x hx o ho hio)
    · intro x y z h1 h2
      exact hflat _ (generates_mem h1) _ (generates_mem h2) rfl
  · have hret : ∀ f r, Event.finished f r ∈ out.log → Returned (tableEnv scans builds fuel) f r := by
      intro f r h
      rw [← he] at h
      exact logged_returned hv (fun _ => .refl _) h
    refine ⟨⟨?_, ?_, ?_, ?_⟩, ?_⟩
    · intro f r h
      obtain ⟨h1, h2⟩ := hhonest _ (tableEnv_returned (hret _ _ h))
      refine ⟨fun o => ?_, h2⟩
      rw [h1]
      unfold announced Announced
      rcases out.scanned.get? f with _ | sr
      · exact (edge_iff _ _ _).symm
      · rfl
    · intro f r h c hc hio
      obtain ⟨h1, h2⟩ := hchild _ (tableEnv_returned (hret _ _ h)) c hc hio
      exact ⟨current_of h1, .one ((needs_iff hv).2 h2)⟩
    · intro f r h c hc hio
      obtain ⟨h1, h2⟩ := hchild' _ (tableEnv_returned (hret _ _ h)) c hc hio
      refine ⟨.inl h1, fun p hp => ?_⟩
      rcases h2 p (madeBy_mem hp) with h | ⟨h3, h4⟩
      · exact .inl h
      · exact .inr ⟨current_of h3, .one ((needs_iff hv).2 h4)⟩
    · intro f r h o ho
      have := hreused _ h
      simp only [reusedBy] at this
      rw [this] at ho
      simp at ho
    · intro b hb f e h
      simp only [tableEnv, List.mem_map] at hb
      obtain ⟨t, _, rfl⟩ := hb
      rcases t.get? f with _ | r <;> simp at h
  · intro f p
    have := path_rank rank (fun x y h => by
      rw [needs_iff hv] at h
      exact hrank x (needs_known h) y h) p
    omega
  · intro x y z h1 h2
    exact hone _ (generates_mem h1) _ (generates_mem h2) rfl
  · rintro f o hfo hna ⟨x, hx, hxo⟩
    refine hna ?_
    have := edge_all (g := a.old.out) (Q := fun f o => ∀ x, Edge a.old.out x o → x = f) (by
      intro f hf o ho x hx
      obtain ⟨cs, hcs, hy⟩ := hx
      have hk := getChildren_ok hcs
      exact hshare f hf o ho x hk.1 (hk.2 ▸ hy)) hfo x hxo
    rw [← this]; exact hx
  · exact hw

/-! ## The history -/

def scans1 : Dict ScanResult :=
  [("a.html", ⟨["b.js", "out/b"], ["out/a"], ["p.js"]⟩), ("b.js", ⟨[], ["out/b", "artifacts/b"], []⟩), ("p.js", ⟨[], ["out/x/p"], []⟩)]
def builds1 : List (Dict BuildResult) :=
  [[("b.js", ⟨[], ["out/b", "artifacts/b"], []⟩)], [("a.html", ⟨["b.js", "out/b"], ["out/a"], []⟩)], [("p.js", ⟨[], ["out/x/p"], []⟩)]]
/-- The files of a new project. -/
def disk0 : Disk := ⟨["a.html", "b.js", "c.css"], [], none⟩
def args1 : Args := ⟨"const.json", .dev, ⟨[], [], []⟩, [], [("a.html", sig0), ("b.js", sig0)], []⟩
def env1 : Env := tableEnv scans1 builds1 3
/-- The first build. -/
def first : Outcome := hotRebuild env1 args1 disk0

/-- The script is now written under another name, and the page, which was not changed, names it. -/
def scans2 : Dict ScanResult := [("b.js", ⟨[], ["out/b2", "artifacts/b"], []⟩), ("c.css", ⟨[], ["out/c"], []⟩)]
def builds2 : List (Dict BuildResult) :=
  [[("b.js", ⟨[], ["out/b2", "artifacts/b"], []⟩), ("c.css", ⟨[], ["out/c"], []⟩)],
   [("a.html", ⟨["b.js", "out/b2"], ["out/a"], []⟩)]]
def args2 : Args := ⟨"const.json", .dev, first.stored.getD ⟨[], [], []⟩, [("b.js", sig1)], [("c.css", sig1)], []⟩
def env2 : Env := tableEnv scans2 builds2 1
/-- The second build. -/
def second : Outcome := hotRebuild env2 args2 first.disk

/-- Who is built before whom. -/
def place (f : String) : Nat := if f = "b.js" then 0 else if f = "a.html" then 1 else 2

theorem first_good : GoodRun env1 args1 disk0 :=
  goodRun_check (out := first) rfl ⟨run_valid [], run_valid [], run_valid []⟩ place ["p.js"]
    (by decide) (by decide +kernel) (by decide +kernel) (by decide +kernel) (by decide +kernel) (by decide +kernel)
    (by decide +kernel) (by decide +kernel) (by decide +kernel) (by decide +kernel) (by decide +kernel)
    (by decide +kernel) (by decide +kernel) (by decide +kernel)

theorem first_stored : first.stored = some args2.old := by
  have h : first.stored.isSome = true := by decide +kernel
  obtain ⟨gs, hgs⟩ := Option.isSome_iff_exists.1 h
  simp [args2, hgs]

theorem second_good : GoodRun env2 args2 first.disk :=
  goodRun_check (out := second) rfl
    (C17_valid env1 args1 disk0 ⟨run_valid [], run_valid [], run_valid []⟩ (fun _ => .refl _) _ first_stored).1 place []
    (by decide) (by decide +kernel) (by decide +kernel) (by decide +kernel) (by decide +kernel) (by decide +kernel)
    (by decide +kernel) (by decide +kernel) (by decide +kernel) (by decide +kernel) (by decide +kernel)
    (by decide +kernel) (by decide +kernel) (by decide +kernel)

/-- The conditions of C57 hold of a history with two builds; both finish, and the second one leaves
the outputs of the new version, that of the page, which was built again although it was not changed,
that of the placeholder, which was not, and that of the new style sheet. -/
theorem history_case :
    Lifetime (second.stored.getD args2.old) second.disk ((True ∧ first.status = .finished) ∧ second.status = .finished) ∧
    second.log = [.started "b.js", .started "c.css", .finished "b.js" ⟨[], ["out/b2", "artifacts/b"], []⟩,
      .finished "c.css" ⟨[], ["out/c"], []⟩, .started "a.html", .finished "a.html" ⟨["b.js", "out/b2"], ["out/a"], []⟩] ∧
    (∀ f, f ∈ second.disk.files ↔ f ∈ ["a.html", "b.js", "c.css", "p.js", "out/b2", "artifacts/b", "out/c", "out/a", "out/x/p"]) := by
  have hfiles : second.disk.files.all (["a.html", "b.js", "c.css", "p.js", "out/b2", "artifacts/b", "out/c", "out/a", "out/x/p"].contains ·) = true ∧
      ["a.html", "b.js", "c.css", "p.js", "out/b2", "artifacts/b", "out/c", "out/a", "out/x/p"].all (second.disk.files.contains ·) = true := by
    decide +kernel
  refine ⟨?_, by decide +kernel, fun f => ⟨fun h => ?_, fun h => ?_⟩⟩
  · refine Lifetime.rebuild env2 args2 ?_ second_good
    have h1 := Lifetime.rebuild env1 args1 (Lifetime.new disk0 ?_) first_good
    · exact h1
    · intro o ho hio
      have : ∀ o ∈ disk0.files, isOutput o = false := by decide +kernel
      rw [this o ho] at hio; simp at hio
  · have := List.all_eq_true.1 hfiles.1 f h
    exact List.contains_iff_mem.1 this
  · have := List.all_eq_true.1 hfiles.2 f h
    exact List.contains_iff_mem.1 this

/-! ## What the conditions exclude -/

/-- The user deletes the placeholder and changes the page which asked for it, and nothing else is
wrong: every scan and every build succeeds.  The scan of the page makes the placeholder again, but
the rebuild still treats it as deleted and ends with a ValueError when everything else is done. -/
theorem C57_recreated_placeholder_fails :
    first.status = .finished ∧
    ∃ (env : Env) (a : Args) (d : Disk), first.stored = some a.old ∧ a.deleted = ["p.js"] ∧
      d = { first.disk with files := first.disk.files.filter (· ≠ "p.js") } ∧
      (∀ dk f, ∃ r, env.scan dk f = .ok r) ∧ (∀ b ∈ env.batches, ∀ f e, b f ≠ some (.error e)) ∧
      "p.js" ∈ (hotRebuild env a d).disk.files ∧ "p.js" ∉ startsOf (hotRebuild env a d).log ∧
      (hotRebuild env a d).stored.isNone = true ∧ (hotRebuild env a d).status = .failed .valueError := by
  refine ⟨by decide +kernel, tableEnv scans1 builds1 3, { args2 with changed := [("a.html", sig1)], added := [], deleted := ["p.js"] },
    { first.disk with files := first.disk.files.filter (· ≠ "p.js") }, first_stored, rfl, rfl, fun _ _ => ⟨_, rfl⟩, ?_,
    by decide +kernel, by decide +kernel, by decide +kernel, by decide +kernel⟩
  intro b hb f e h
  simp only [tableEnv, List.mem_map] at hb
  obtain ⟨t, _, rfl⟩ := hb
  dsimp only at h
  rcases t.get? f with _ | r <;> simp at h

end Verif.Hot.HistoryCase
