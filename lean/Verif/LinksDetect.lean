import Verif.LinksRun
/-!
# Finding out whether links can be made

C94: the test for symbolic links answers what the system allows and leaves the working folder as it was, also when it is
interrupted and started again.
-/
namespace Verif.Links
open Verif.Reader (Text txt)
open Verif.Paths
open Verif.Handlers (Bytes Built copyTarget hashTarget)

variable {cwd : Text} (hc : isAbs cwd = true)
include hc

/-- The working folder. -/
theorem place_name {x : Text} (ha : isAbs x = false) (hx : comps x = [x]) (hn : Name x) :
    place cwd x = walk [] (comps cwd) ++ [x] := by
  unfold place
  rw [comps_abspath hc, ha, if_neg (by simp), walk_append, hx, walk_names (by simpa using hn)]

theorem place_test1 : place cwd test1 = walk [] (comps cwd) ++ [test1] :=
  place_name hc (by decide) (by decide) (name_lit (by decide))

theorem place_test2 : place cwd test2 = walk [] (comps cwd) ++ [test2] :=
  place_name hc (by decide) (by decide) (name_lit (by decide))

theorem places_ne : place cwd test2 ≠ place cwd test1 := by
  rw [place_test1 hc, place_test2 hc]
  intro e
  have := List.append_cancel_left e
  revert this
  decide

theorem leads_test : leads (place cwd test2) test1 = place cwd test1 := by
  have h1 : comps test1 = [test1] := by decide
  have h2 : isAbs test1 = false := by decide
  rw [place_test1 hc, place_test2 hc]
  unfold leads
  rw [h2, h1, walk_names (by simpa using name_lit (s := test1) (by decide))]
  simp

/-- What is at the two places of the test; everything else is as in `fs`. -/
def With (cwd : Text) (fs : Fs) (a b : Option Entry) : Fs :=
  setAt (setAt fs (place cwd test1) a) (place cwd test2) b

omit hc in
theorem with_ext {fs x : Fs} (h : ∀ p, p ≠ place cwd test1 → p ≠ place cwd test2 → x p = fs p) :
    x = With cwd fs (x (place cwd test1)) (x (place cwd test2)) := by
  funext p
  unfold With setAt
  split
  · next e => rw [e]
  · next e =>
    split
    · next e' => rw [e']
    · next e' => exact h p e' e

omit hc in
theorem with_two (fs : Fs) (a b : Option Entry) : With cwd fs a b (place cwd test2) = b := by simp [With, setAt]

theorem with_one (fs : Fs) (a b : Option Entry) : With cwd fs a b (place cwd test1) = a := by
  simp [With, setAt, (places_ne hc).symm]

theorem with_set1 (fs : Fs) (a b a' : Option Entry) : setAt (With cwd fs a b) (place cwd test1) a' = With cwd fs a' b := by
  funext p
  by_cases h1 : p = place cwd test1
  · subst h1; simp [With, setAt, (places_ne hc).symm]
  · by_cases h2 : p = place cwd test2 <;> simp [With, setAt, h1, h2, places_ne hc]

omit hc in
theorem with_set2 (fs : Fs) (a b b' : Option Entry) : setAt (With cwd fs a b) (place cwd test2) b' = With cwd fs a b' := by
  funext p
  by_cases h2 : p = place cwd test2 <;> simp [With, setAt, h2]

/-- What interrupted tests can leave. -/
def Left (a b : Option Entry) : Prop :=
  (a = none ∧ b = none) ∨ (∃ c, a = some (.file c) ∧ b = none) ∨ (∃ c, a = some (.file c) ∧ b = some (.link test1))

theorem detect_left {s : System} (hw : s.writable = true) (fs : Fs) {a b : Option Entry} (h : Left a b) :
    (detect s cwd (With cwd fs a b)).1 = .ok (s.supported && b.isNone) ∧
    (detect s cwd (With cwd fs a b)).2.head? = some (With cwd fs none none) ∧
    ∀ x ∈ (detect s cwd (With cwd fs a b)).2, ∃ a' b', x = With cwd fs a' b' ∧ Left a' b' := by
  have hnl : ∀ t, With cwd fs a b (place cwd test1) ≠ some (.link t) := by
    intro t
    rw [with_one hc]
    rcases h with ⟨rfl, _⟩ | ⟨c, rfl, _⟩ | ⟨c, rfl, _⟩ <;> simp
  have hb : b = none ∨ b = some (.link test1) := by
    rcases h with ⟨_, rfl⟩ | ⟨c, _, rfl⟩ | ⟨c, _, rfl⟩ <;> simp
  have hw1 : ∀ y, write (With cwd fs a b) (place cwd test1) y = .ok (With cwd fs (some (.file y)) b) := by
    intro y
    rw [write_self hnl, with_set1 hc]
  have hread : ∀ y, read (With cwd fs (some (.file y)) (some (.link test1))) (place cwd test2) = some y := by
    intro y
    have h1 : With cwd fs (some (.file y)) (some (.link test1)) (leads (place cwd test2) test1) = some (.file y) := by
      rw [leads_test hc, with_one hc]
    rw [read_link (with_two _ _ _) (by simp [h1]), read_file h1]
  have tail : ∀ y b', b' = none ∨ b' = some (.link test1) → tidyUp s cwd (With cwd fs (some (.file y)) b') =
      (none, [With cwd fs none none, With cwd fs (some (.file y)) none]) := by
    intro y b' hb'
    have e : (if (read (With cwd fs (some (.file y)) b') (place cwd test2)).isSome then
        unlink (With cwd fs (some (.file y)) b') (place cwd test2) else .ok (With cwd fs (some (.file y)) b')) =
        .ok (With cwd fs (some (.file y)) none) := by
      rcases hb' with rfl | rfl
      · rw [read_none (with_two _ _ _)]; simp
      · rw [hread]
        simp [unlink, with_two, with_set2]
    unfold tidyUp
    simp only [hw, Bool.true_eq_false, if_false, e]
    simp [unlink, with_one hc, with_set1 hc]
  have lf : ∀ y b', b' = none ∨ b' = some (.link test1) → Left (some (.file y)) b' := by
    rintro y b' (rfl | rfl)
    · exact .inr (.inl ⟨y, rfl, rfl⟩)
    · exact .inr (.inr ⟨y, rfl, rfl⟩)
  cases hs : s.supported with
  | false =>
    have ht : tryLink s cwd (With cwd fs a b) = (false, [With cwd fs (some (.file (txt "test"))) b,
        With cwd fs (some (.file [])) b, With cwd fs a b]) := by
      unfold tryLink
      simp [hw, hw1, hs]
    unfold detect
    rw [ht]
    simp only [List.headD_cons, tail _ _ hb]
    refine ⟨by simp, by simp, ?_⟩
    intro x hx
    simp only [List.cons_append, List.nil_append, List.mem_cons, List.not_mem_nil, or_false] at hx
    rcases hx with rfl | rfl | rfl | rfl | rfl
    · exact ⟨_, _, rfl, .inl ⟨rfl, rfl⟩⟩
    · exact ⟨_, _, rfl, lf _ _ (.inl rfl)⟩
    · exact ⟨_, _, rfl, lf _ _ hb⟩
    · exact ⟨_, _, rfl, lf _ _ hb⟩
    · exact ⟨_, _, rfl, h⟩
  | true =>
    rcases hb with rfl | rfl
    · have ht : tryLink s cwd (With cwd fs a none) = (true, [With cwd fs (some (.file (txt "test"))) (some (.link test1)),
          With cwd fs (some (.file (txt "test"))) none, With cwd fs (some (.file [])) none, With cwd fs a none]) := by
        unfold tryLink
        simp [hw, hw1, hs, symlink, with_two, with_set2]
      unfold detect
      rw [ht]
      simp only [List.headD_cons, tail _ _ (.inr rfl)]
      refine ⟨by simp, by simp, ?_⟩
      intro x hx
      simp only [List.cons_append, List.nil_append, List.mem_cons, List.not_mem_nil, or_false] at hx
      rcases hx with rfl | rfl | rfl | rfl | rfl | rfl
      · exact ⟨_, _, rfl, .inl ⟨rfl, rfl⟩⟩
      · exact ⟨_, _, rfl, lf _ _ (.inl rfl)⟩
      · exact ⟨_, _, rfl, lf _ _ (.inr rfl)⟩
      · exact ⟨_, _, rfl, lf _ _ (.inl rfl)⟩
      · exact ⟨_, _, rfl, lf _ _ (.inl rfl)⟩
      · exact ⟨_, _, rfl, h⟩
    · have ht : tryLink s cwd (With cwd fs a (some (.link test1))) = (false,
          [With cwd fs (some (.file (txt "test"))) (some (.link test1)),
          With cwd fs (some (.file [])) (some (.link test1)), With cwd fs a (some (.link test1))]) := by
        unfold tryLink
        simp [hw, hw1, hs, symlink, with_two]
      unfold detect
      rw [ht]
      simp only [List.headD_cons, tail _ _ (.inr rfl)]
      refine ⟨by simp, by simp, ?_⟩
      intro x hx
      simp only [List.cons_append, List.nil_append, List.mem_cons, List.not_mem_nil, or_false] at hx
      rcases hx with rfl | rfl | rfl | rfl | rfl
      · exact ⟨_, _, rfl, .inl ⟨rfl, rfl⟩⟩
      · exact ⟨_, _, rfl, lf _ _ (.inl rfl)⟩
      · exact ⟨_, _, rfl, lf _ _ (.inr rfl)⟩
      · exact ⟨_, _, rfl, lf _ _ (.inr rfl)⟩
      · exact ⟨_, _, rfl, h⟩

/-- The test runs over and over, and is stopped at some point each time: what can be there. -/
inductive Interrupted (s : System) (cwd : Text) (fs : Fs) : Fs → Prop
  | start : Interrupted s cwd fs fs
  | again {x y} : Interrupted s cwd fs x → y ∈ (detect s cwd x).2 → Interrupted s cwd fs y

/-- C94: in a folder in which files can be made and which has none of the names of the test, the test says whether links can be made,
and all files are as before.  However often it was interrupted, at whatever points, the next one which is not leaves nothing behind;
it says that there are no links only if there are none or if the last one was stopped while its link was there. -/
theorem C94_partial {s : System} {fs : Fs} (hw : s.writable = true) (h1 : fs (place cwd test1) = none)
    (h2 : fs (place cwd test2) = none) :
    ((detect s cwd fs).1 = .ok s.supported ∧ (detect s cwd fs).2.head? = some fs) ∧
    ∀ x, Interrupted s cwd fs x →
      (∀ p, p ≠ place cwd test1 → p ≠ place cwd test2 → x p = fs p) ∧
      (detect s cwd x).1 = .ok (s.supported && (x (place cwd test2)).isNone) ∧ (detect s cwd x).2.head? = some fs := by
  have h0 : With cwd fs none none = fs := by
    have := with_ext (cwd := cwd) (fs := fs) (x := fs) (fun _ _ _ => rfl)
    rw [h1, h2] at this
    exact this.symm
  have key : ∀ x, Interrupted s cwd fs x → ∃ a b, x = With cwd fs a b ∧ Left a b := by
    intro x hx
    induction hx with
    | start => exact ⟨none, none, h0.symm, .inl ⟨rfl, rfl⟩⟩
    | again _ hy ih =>
      obtain ⟨a, b, rfl, hl⟩ := ih
      exact (detect_left hc hw fs hl).2.2 _ hy
  have all : ∀ x, Interrupted s cwd fs x →
      (∀ p, p ≠ place cwd test1 → p ≠ place cwd test2 → x p = fs p) ∧
      (detect s cwd x).1 = .ok (s.supported && (x (place cwd test2)).isNone) ∧ (detect s cwd x).2.head? = some fs := by
    intro x hx
    obtain ⟨a, b, rfl, hl⟩ := key x hx
    obtain ⟨e1, e2, _⟩ := detect_left hc hw fs hl
    refine ⟨fun p p1 p2 => by simp [With, setAt, p1, p2], ?_, by rw [e2, h0]⟩
    rw [e1, with_two]
  refine ⟨?_, all⟩
  obtain ⟨_, e1, e2⟩ := all fs .start
  exact ⟨by rw [e1, h2]; simp, e2⟩

omit hc in
/-- C94 is false of a folder in which no files can be made: instead of the answer that there are no links there is an exception, and
nothing is built (runners/build.py:204). -/
theorem C94_false_readonly {s : System} {fs : Fs} (hw : s.writable = false) (h1 : fs (place cwd test1) = none)
    (h2 : fs (place cwd test2) = none) : (detect s cwd fs).1 = .error .notFound := by
  unfold detect tryLink tidyUp
  simp [hw, h1, read_none h2]

/-- C94 is false of files of the user with these names: they are lost. -/
theorem C94_false_user {s : System} {fs : Fs} (hw : s.writable = true) {a b : Bytes} (h1 : fs (place cwd test1) = some (.file a))
    (h2 : fs (place cwd test2) = some (.file b)) :
    (detect s cwd fs).1 = .ok false ∧ ∃ x, (detect s cwd fs).2.head? = some x ∧ x (place cwd test1) = none ∧ x (place cwd test2) = none := by
  have e : fs = With cwd fs (some (.file a)) (some (.file b)) := by
    have := with_ext (cwd := cwd) (fs := fs) (x := fs) (fun _ _ _ => rfl)
    rw [h1, h2] at this
    exact this
  have hw1 : ∀ y, write fs (place cwd test1) y = .ok (With cwd fs (some (.file y)) (some (.file b))) := by
    intro y
    rw [write_self (by simp [h1])]
    conv => lhs; rw [e]
    rw [with_set1 hc]
  have ht : tryLink s cwd fs = (false, [With cwd fs (some (.file (txt "test"))) (some (.file b)),
      With cwd fs (some (.file [])) (some (.file b)), fs]) := by
    unfold tryLink
    simp [hw, hw1, symlink, with_two]
  unfold detect
  rw [ht]
  unfold tidyUp
  simp only [List.headD_cons, hw, Bool.true_eq_false, if_false, read_file (with_two fs (some (.file (txt "test"))) (some (.file b))),
    Option.isSome_some, if_true]
  simp [unlink, with_two, with_one hc, with_set1 hc, with_set2]

omit hc in
/-- The hypotheses of C94_partial are met, with every answer. -/
theorem C94_case : (detect ⟨true, true⟩ (txt "/home/p") fun _ => none).1 = .ok true ∧
    (detect ⟨true, false⟩ (txt "/home/p") fun _ => none).1 = .ok false ∧
    (∃ x ∈ (detect ⟨true, true⟩ (txt "/home/p") fun _ => none).2, (detect ⟨true, true⟩ (txt "/home/p") x).1 = .ok false) := by
  refine ⟨by decide +kernel, by decide +kernel, ?_⟩
  refine ⟨(detect ⟨true, true⟩ (txt "/home/p") fun _ => none).2[2]'(by decide +kernel), List.getElem_mem _, by decide +kernel⟩

end Verif.Links
