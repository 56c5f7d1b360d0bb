import Verif.Reader
/-!
# The functions of posixpath

Model of the functions of Python's `os.path` on POSIX which the code uses: join, normpath, abspath, relpath,
dirname, basename.  This is not code of the project: the model follows Lib/posixpath.py of CPython and is part
of the trusted base.  The separator is the code point 47, the full stop 46.
-/
namespace Verif.Paths
open Verif.Reader (Text)

/-- `s.split("/")` -/
def split : Text → List Text
  | [] => [[]]
  | c :: cs => if c = 47 then [] :: split cs
    else match split cs with
      | [] => [[c]]
      | x :: xs => (c :: x) :: xs

/-- `"/".join(xs)` -/
def joinSegs : List Text → Text
  | [] => []
  | [x] => x
  | x :: y :: xs => x ++ 47 :: joinSegs (y :: xs)

/-- `os.path.isabs` -/
def isAbs (p : Text) : Bool := p.head? == some 47

/-- posixpath.join with two arguments -/
def join (a b : Text) : Text :=
  if isAbs b then b else if a = [] ∨ a.getLast? = some 47 then a ++ b else a ++ 47 :: b

/-- One round of the loop of posixpath.normpath. -/
def normStep (slashes : Bool) (acc : List Text) (c : Text) : List Text :=
  if c = [] ∨ c = [46] then acc
  else if c ≠ [46, 46] ∨ (slashes = false ∧ acc = []) ∨ (acc ≠ [] ∧ acc.getLast? = some [46, 46]) then acc ++ [c]
  else acc.dropLast

/-- The slashes at the beginning: one, or two if there are exactly two. -/
def initialSlashes (p : Text) : Nat :=
  if p.head? = some 47 then (if p.take 2 = [47, 47] ∧ p.take 3 ≠ [47, 47, 47] then 2 else 1) else 0

/-- posixpath.normpath -/
def normpath (p : Text) : Text :=
  if p = [] then [46]
  else
    let r := List.replicate (initialSlashes p) 47 ++ joinSegs ((split p).foldl (normStep (initialSlashes p != 0)) [])
    if r = [] then [46] else r

/-- posixpath.abspath -/
def abspath (cwd p : Text) : Text := normpath (if isAbs p then p else join cwd p)

/-- The components which are not empty. -/
def comps (p : Text) : List Text := (split p).filter fun x => !x.isEmpty

/-- `os.path.commonprefix` of two lists -/
def common : List Text → List Text → Nat
  | x :: xs, y :: ys => if x = y then common xs ys + 1 else 0
  | _, _ => 0

/-- posixpath.join with many arguments -/
def joinMany : List Text → Text
  | [] => []
  | x :: xs => xs.foldl join x

/-- posixpath.relpath -/
def relpath (cwd p start : Text) : Text :=
  let s := comps (abspath cwd start)
  let q := comps (abspath cwd p)
  let i := common s q
  let rel := List.replicate (s.length - i) [46, 46] ++ q.drop i
  if rel = [] then [46] else joinMany rel

/-- The text up to and with the last slash. -/
def upToSlash (p : Text) : Text := (p.reverse.dropWhile (· != 47)).reverse

/-- `s.rstrip("/")` -/
def rstripSlash (p : Text) : Text := (p.reverse.dropWhile (· == 47)).reverse

/-- posixpath.dirname -/
def dirname (p : Text) : Text :=
  let head := upToSlash p
  if head ≠ [] ∧ head.any (· != 47) then rstripSlash head else head

/-- posixpath.basename -/
def basename (p : Text) : Text := (p.reverse.takeWhile (· != 47)).reverse

/-! ## Lemmas -/

/-- A component of a path. -/
def Seg (x : Text) : Prop := x ≠ [] ∧ 47 ∉ x

/-- A component which is neither `.` nor `..`. -/
def Name (x : Text) : Prop := Seg x ∧ x ≠ [46] ∧ x ≠ [46, 46]

theorem split_ne_nil (p : Text) : split p ≠ [] := by
  cases p with
  | nil => simp [split]
  | cons c cs =>
    unfold split
    split
    · simp
    · split <;> simp

theorem split_noSlash {x : Text} (h : 47 ∉ x) : split x = [x] := by
  induction x with
  | nil => rfl
  | cons c x ih =>
    simp only [List.mem_cons, not_or] at h
    unfold split
    rw [if_neg (fun e => h.1 e.symm), ih h.2]

theorem split_append {x : Text} (h : 47 ∉ x) (p : Text) : split (x ++ 47 :: p) = x :: split p := by
  induction x with
  | nil => simp [split]
  | cons c x ih =>
    simp only [List.mem_cons, not_or] at h
    rw [List.cons_append]
    conv => lhs; unfold split
    rw [if_neg (fun e => h.1 e.symm), ih h.2]

theorem split_slash (a b : Text) : split (a ++ 47 :: b) = split a ++ split b := by
  induction a with
  | nil => simp [split]
  | cons c a ih =>
    rw [List.cons_append]
    have e : ∀ q, split (c :: q) = if c = 47 then [] :: split q
        else match split q with
          | [] => [[c]]
          | x :: xs => (c :: x) :: xs := fun q => rfl
    rw [e, e]
    split
    · rw [ih]; rfl
    · rw [ih]
      cases hs : split a with
      | nil => exact absurd hs (split_ne_nil a)
      | cons x xs => rfl

theorem joinSegs_cons (x : Text) {xs : List Text} (h : xs ≠ []) : joinSegs (x :: xs) = x ++ 47 :: joinSegs xs := by
  cases xs with
  | nil => exact absurd rfl h
  | cons y ys => rfl

theorem split_joinSegs : ∀ {xs : List Text}, (∀ x ∈ xs, 47 ∉ x) → xs ≠ [] → split (joinSegs xs) = xs := by
  intro xs
  induction xs with
  | nil => intro _ h; exact absurd rfl h
  | cons x xs ih =>
    intro h _
    by_cases hx : xs = []
    · subst hx; exact split_noSlash (h x (by simp))
    · rw [joinSegs_cons x hx, split_append (h x (by simp)), ih (fun y hy => h y (by simp [hy])) hx]

theorem comps_slash (a b : Text) : comps (a ++ 47 :: b) = comps a ++ comps b := by
  simp [comps, split_slash]

theorem comps_joinSegs {xs : List Text} (h : ∀ x ∈ xs, Seg x) : comps (joinSegs xs) = xs := by
  by_cases hx : xs = []
  · subst hx; rfl
  · unfold comps
    rw [split_joinSegs (fun x hx => (h x hx).2) hx]
    rw [List.filter_eq_self]
    intro x hx
    have := (h x hx).1
    cases x with
    | nil => exact absurd rfl this
    | cons => rfl

theorem mem_split {p x : Text} (h : x ∈ split p) : 47 ∉ x := by
  induction p generalizing x with
  | nil => simp [split] at h; subst h; simp
  | cons c p ih =>
    unfold split at h
    split at h
    · rcases List.mem_cons.1 h with rfl | h
      · simp
      · exact ih h
    · next hc =>
      split at h
      · next he => exact absurd he (split_ne_nil p)
      · next y ys he =>
        rw [he] at ih
        rcases List.mem_cons.1 h with rfl | h
        · intro hm
          rcases List.mem_cons.1 hm with hm | hm
          · exact hc hm.symm
          · exact ih (x := y) (by simp) hm
        · exact ih (x := x) (by simp [h])

theorem comps_seg {p x : Text} (h : x ∈ comps p) : Seg x := by
  unfold comps at h
  rw [List.mem_filter] at h
  refine ⟨?_, mem_split h.1⟩
  rintro rfl
  simp at h

/-- The rounds of normpath for an absolute path, on the components which are not empty. -/
def walk (acc : List Text) (moves : List Text) : List Text :=
  moves.foldl (fun acc c => if c = [46] then acc else if c = [46, 46] then acc.dropLast else acc ++ [c]) acc

theorem walk_append (acc a b : List Text) : walk acc (a ++ b) = walk (walk acc a) b := by
  simp [walk]

theorem walk_names {acc xs : List Text} (h : ∀ x ∈ xs, Name x) : walk acc xs = acc ++ xs := by
  induction xs generalizing acc with
  | nil => simp [walk]
  | cons x xs ih =>
    have hx := h x (by simp)
    have : walk acc (x :: xs) = walk (acc ++ [x]) xs := by simp [walk, hx.2.1, hx.2.2]
    rw [this, ih (fun y hy => h y (by simp [hy]))]
    simp

theorem walk_cons (acc : List Text) (c : Text) (cs : List Text) :
    walk acc (c :: cs) = walk (if c = [46] then acc else if c = [46, 46] then acc.dropLast else acc ++ [c]) cs := rfl

theorem walk_name_mem {moves : List Text} (hm : ∀ x ∈ moves, Seg x) : ∀ {acc : List Text}, (∀ x ∈ acc, Name x) →
    ∀ x ∈ walk acc moves, Name x := by
  induction moves with
  | nil => intro acc h; exact h
  | cons c cs ih =>
    intro acc h
    rw [walk_cons]
    apply ih (fun x hx => hm x (by simp [hx]))
    intro x hx
    split at hx
    · exact h x hx
    · split at hx
      · exact h x (List.dropLast_subset _ hx)
      · next h1 h2 =>
        rcases List.mem_append.1 hx with hx | hx
        · exact h x hx
        · simp at hx; subst hx
          exact ⟨hm _ (by simp), h1, h2⟩

theorem foldl_normStep (cs : List Text) : ∀ (acc : List Text), (∀ x ∈ acc, Name x) → (∀ x ∈ cs, 47 ∉ x) →
    cs.foldl (normStep true) acc = walk acc (cs.filter fun x => !x.isEmpty) := by
  induction cs with
  | nil => intro acc _ _; rfl
  | cons c cs ih =>
    intro acc h hs
    have hs' : ∀ x ∈ cs, 47 ∉ x := fun x hx => hs x (by simp [hx])
    rw [List.foldl_cons]
    by_cases hc : c = []
    · subst hc
      rw [show normStep true acc [] = acc by simp [normStep]]
      rw [ih acc h hs']
      simp
    · have hf : (c :: cs).filter (fun x => !x.isEmpty) = c :: cs.filter (fun x => !x.isEmpty) := by
        simp [hc]
      rw [hf, walk_cons]
      by_cases h1 : c = [46]
      · subst h1
        rw [show normStep true acc [46] = acc by simp [normStep]]
        rw [ih acc h hs']; simp
      · by_cases h2 : c = [46, 46]
        · subst h2
          have : normStep true acc [46, 46] = acc.dropLast := by
            unfold normStep
            rw [if_neg (by simp), if_neg]
            simp only [ne_eq, not_true_eq_false, false_or, Bool.true_eq_false, false_and, not_and]
            intro _ hl
            exact (h _ (List.mem_of_getLast? hl)).2.2 rfl
          rw [this, ih _ (fun x hx => h x (List.dropLast_subset _ hx)) hs']
          simp
        · have : normStep true acc c = acc ++ [c] := by
            unfold normStep
            rw [if_neg (by simp [hc, h1]), if_pos (.inl h2)]
          rw [this, ih]
          · simp [h1, h2]
          · intro x hx
            rcases List.mem_append.1 hx with hx | hx
            · exact h x hx
            · simp at hx; subst hx
              exact ⟨⟨hc, hs _ (by simp)⟩, h1, h2⟩
          · exact hs'

theorem comps_replicate_slash (n : Nat) (p : Text) : comps (List.replicate n 47 ++ p) = comps p := by
  induction n with
  | zero => rfl
  | succ n ih =>
    rw [List.replicate_succ, List.cons_append]
    have := comps_slash [] (List.replicate n 47 ++ p)
    rw [List.nil_append] at this
    rw [this, ih]
    rfl

theorem comps_normpath {p : Text} (h : isAbs p = true) : comps (normpath p) = walk [] (comps p) := by
  have hp : p ≠ [] := by rintro rfl; simp [isAbs] at h
  have hh : p.head? = some 47 := by simpa [isAbs] using h
  have hi : (initialSlashes p != 0) = true := by
    unfold initialSlashes
    rw [if_pos hh]
    split <;> rfl
  have hn : 0 < initialSlashes p := by
    have : initialSlashes p ≠ 0 := by simpa using hi
    omega
  unfold normpath
  rw [if_neg hp, hi]
  have hne : List.replicate (initialSlashes p) 47 ++ joinSegs ((split p).foldl (normStep true) []) ≠ [] := by
    cases hq : initialSlashes p with
    | zero => omega
    | succ n => simp [List.replicate_succ]
  simp only
  rw [if_neg hne, comps_replicate_slash, foldl_normStep _ [] (by simp) (fun x hx => mem_split hx)]
  apply comps_joinSegs
  intro x hx
  exact (walk_name_mem (fun y hy => comps_seg hy) (by simp) x hx).1

/-- Joining joins the components. -/
theorem comps_join {a b : Text} (h : isAbs b = false) : comps (join a b) = comps a ++ comps b := by
  unfold join
  rw [h]
  simp only [Bool.false_eq_true, if_false]
  split
  · next h2 =>
    rcases h2 with rfl | h2
    · rfl
    · have : a = a.dropLast ++ [47] := by
        have hne : a ≠ [] := by rintro rfl; simp at h2
        rw [List.getLast?_eq_some_getLast hne, Option.some.injEq] at h2
        have := List.dropLast_concat_getLast hne
        rw [h2] at this
        exact this.symm
      rw [this, List.append_assoc, List.singleton_append, comps_slash]
      have e := comps_slash a.dropLast []
      rw [e]
      simp [comps, split]
  · exact comps_slash a b

theorem comps_abspath {cwd p : Text} (h : isAbs cwd = true) :
    comps (abspath cwd p) = walk [] ((if isAbs p then [] else comps cwd) ++ comps p) := by
  unfold abspath
  cases hp : isAbs p with
  | true => simp only [if_true]; rw [comps_normpath hp]; simp
  | false =>
    simp only [Bool.false_eq_true, if_false]
    have : isAbs (join cwd p) = true := by
      have hc : cwd ≠ [] := by rintro rfl; simp [isAbs] at h
      unfold join
      rw [hp]
      simp only [Bool.false_eq_true, if_false]
      cases cwd with
      | nil => exact absurd rfl hc
      | cons c cs => split <;> simpa [isAbs] using h
    rw [comps_normpath this, comps_join hp]

theorem common_append (a b : List Text) : common a (a ++ b) = a.length := by
  induction a with
  | nil => cases b <;> rfl
  | cons x a ih => simp [common, ih]

theorem join_seg {x y : Text} (hx : Seg x) (hy : Seg y) : join x y = x ++ 47 :: y := by
  unfold join
  have h1 : isAbs y = false := by
    unfold isAbs
    cases y with
    | nil => exact absurd rfl hy.1
    | cons c cs =>
      have : c ≠ 47 := fun h => hy.2 (by simp [h])
      simp [this]
  rw [h1]
  simp only [Bool.false_eq_true, if_false]
  rw [if_neg]
  rintro (h | h)
  · exact hx.1 h
  · exact hx.2 (List.mem_of_getLast? h)

theorem joinSegs_append_last {xs : List Text} (h : xs ≠ []) (y : Text) : joinSegs (xs ++ [y]) = joinSegs xs ++ 47 :: y := by
  induction xs with
  | nil => exact absurd rfl h
  | cons x xs ih =>
    by_cases hx : xs = []
    · subst hx; rfl
    · rw [List.cons_append, joinSegs_cons x (by simp), ih hx, joinSegs_cons x hx]; simp

theorem join_joinSegs {xs : List Text} {y : Text} (hne : xs ≠ []) (hx : ∀ x ∈ xs, Seg x) (hy : Seg y) :
    join (joinSegs xs) y = joinSegs (xs ++ [y]) := by
  rw [joinSegs_append_last hne]
  unfold join
  have h1 : isAbs y = false := by
    unfold isAbs
    cases y with
    | nil => exact absurd rfl hy.1
    | cons c cs =>
      have : c ≠ 47 := fun h => hy.2 (by simp [h])
      simp [this]
  rw [h1]
  simp only [Bool.false_eq_true, if_false]
  rw [if_neg]
  have hl : ∃ zs z, xs = zs ++ [z] := ⟨xs.dropLast, xs.getLast hne, (List.dropLast_concat_getLast hne).symm⟩
  obtain ⟨zs, z, rfl⟩ := hl
  have hz := hx z (by simp)
  have hlast : (joinSegs (zs ++ [z])).getLast? = z.getLast? := by
    by_cases hzs : zs = []
    · subst hzs; rfl
    · rw [joinSegs_append_last hzs, List.getLast?_append, List.getLast?_cons]
      cases hzl : z.getLast? with
      | none => exact absurd (List.getLast?_eq_none_iff.1 hzl) hz.1
      | some c => simp
  rintro (h | h)
  · have := congrArg List.getLast? h
    rw [hlast] at this
    exact hz.1 (List.getLast?_eq_none_iff.1 this)
  · rw [hlast] at h
    exact hz.2 (List.mem_of_getLast? h)

theorem joinMany_segs : ∀ {xs : List Text}, (∀ x ∈ xs, Seg x) → joinMany xs = joinSegs xs := by
  have key : ∀ (ys xs : List Text), xs ≠ [] → (∀ x ∈ xs ++ ys, Seg x) → ys.foldl join (joinSegs xs) = joinSegs (xs ++ ys) := by
    intro ys
    induction ys with
    | nil => intro xs _ _; simp
    | cons y ys ih =>
      intro xs hne h
      rw [List.foldl_cons, join_joinSegs hne (fun x hx => h x (by simp [hx])) (h y (by simp))]
      rw [ih (xs ++ [y]) (by simp) (by simpa using h)]
      simp
  intro xs
  cases xs with
  | nil => intro _; rfl
  | cons x xs =>
    intro h
    have := key xs [x] (by simp) h
    exact this

/-- relpath of a path below the start. -/
theorem relpath_below {cwd p start : Text} {base rest : List Text}
    (h1 : comps (abspath cwd start) = base) (h2 : comps (abspath cwd p) = base ++ rest) :
    relpath cwd p start = if rest = [] then [46] else joinSegs rest := by
  unfold relpath
  rw [h1, h2]
  simp only [common_append, Nat.sub_self, List.replicate_zero, List.nil_append, List.drop_left]
  split
  · rfl
  · apply joinMany_segs
    intro x hx
    exact comps_seg (p := abspath cwd p) (by rw [h2]; simp [hx])

theorem common_take (a : List Text) : ∀ (b : List Text), a.take (common a b) = b.take (common a b) := by
  induction a with
  | nil => intro b; cases b <;> simp [common]
  | cons x a ih =>
    intro b
    cases b with
    | nil => simp [common]
    | cons y b =>
      simp only [common]
      split
      · next h => subst h; simp [ih b]
      · rfl

theorem walk_up (acc : List Text) : ∀ n, walk acc (List.replicate n [46, 46]) = acc.take (acc.length - n) := by
  intro n
  induction n generalizing acc with
  | zero => simp [walk]
  | succ n ih =>
    rw [List.replicate_succ, walk_cons, if_neg (by simp), if_pos rfl, ih, List.dropLast_eq_take, List.take_take]
    congr 1
    simp
    omega

/-- Following the relative path from the start leads to the path. -/
theorem relpath_leads {cwd p start : Text} (hc : isAbs cwd = true) :
    walk (comps (abspath cwd start)) (comps (relpath cwd p start)) = comps (abspath cwd p) := by
  have names : ∀ q : Text, ∀ x ∈ comps (abspath cwd q), Name x := by
    intro q
    rw [comps_abspath hc]
    apply walk_name_mem
    · intro x hx
      rcases List.mem_append.1 hx with hx | hx
      · split at hx
        · simp at hx
        · exact comps_seg hx
      · exact comps_seg hx
    · simp
  have ns := names start
  have nq := names p
  unfold relpath
  generalize comps (abspath cwd start) = s at *
  generalize comps (abspath cwd p) = q at *
  have ht := common_take s q
  have hl : common s q ≤ s.length := by
    clear ht ns nq
    induction s generalizing q with
    | nil => cases q <;> simp [common]
    | cons x s ih =>
      cases q with
      | nil => simp [common]
      | cons y q => simp only [common]; split <;> simp [ih q]
  dsimp only
  generalize common s q = i at *
  have key : walk s (List.replicate (s.length - i) [46, 46] ++ q.drop i) = q := by
    rw [walk_append, walk_up, walk_names (fun x hx => nq x (List.mem_of_mem_drop hx))]
    have : s.length - (s.length - i) = i := by omega
    rw [this, ht, List.take_append_drop]
  split
  · next h =>
    rw [h] at key
    have : comps [46] = [[46]] := rfl
    rw [this, walk_cons, if_pos rfl]
    exact key
  · have segs : ∀ x ∈ List.replicate (s.length - i) [46, 46] ++ q.drop i, Seg x := by
      intro x hx
      rcases List.mem_append.1 hx with hx | hx
      · rw [List.eq_of_mem_replicate hx]; exact ⟨by simp, by simp⟩
      · exact (nq x (List.mem_of_mem_drop hx)).1
    rw [joinMany_segs segs, comps_joinSegs segs]
    exact key

theorem comps_dirname_aux : ∀ (q : Text), q.getLast? = some 47 → comps (rstripSlash q) = comps q := by
  intro q h
  unfold rstripSlash
  have key : ∀ (r : Text), comps (r.dropWhile (· == 47)).reverse = comps r.reverse := by
    intro r
    induction r with
    | nil => rfl
    | cons c r ih =>
      rw [List.dropWhile_cons]
      split
      · next hc =>
        have : c = 47 := by simpa using hc
        subst this
        rw [ih, List.reverse_cons]
        have := comps_slash r.reverse []
        rw [this]
        simp [comps, split]
      · rfl
  rw [key, List.reverse_reverse]

/-- The components of the folder of a file. -/
theorem comps_dirname {ds : List Text} {f : Text} (hd : ∀ x ∈ ds, Seg x) (hne : ds ≠ []) (hf : Seg f) :
    comps (dirname (joinSegs (ds ++ [f]))) = ds ∧ isAbs (dirname (joinSegs (ds ++ [f]))) = false := by
  have h1 : upToSlash (joinSegs (ds ++ [f])) = joinSegs ds ++ [47] := by
    rw [joinSegs_append_last hne]
    unfold upToSlash
    rw [List.reverse_append, List.reverse_cons, List.append_assoc]
    have : ∀ (f r : Text), 47 ∉ f → (f ++ ([47] ++ r)).dropWhile (· != 47) = 47 :: r := by
      intro f r
      induction f with
      | nil => intro _; simp
      | cons c f ih =>
        intro h
        simp only [List.mem_cons, not_or] at h
        rw [List.cons_append, List.dropWhile_cons]
        have hc : (c != 47) = true := by simpa using fun e : c = 47 => h.1 e.symm
        rw [hc]
        exact ih h.2
    rw [this _ _ (by simpa using hf.2)]
    simp
  -- the text of the folder starts and ends with a character which is no slash
  obtain ⟨x, xs, rfl⟩ : ∃ x xs, ds = x :: xs := by cases ds with | nil => exact absurd rfl hne | cons x xs => exact ⟨x, xs, rfl⟩
  have hx := hd x (by simp)
  obtain ⟨c, cs, hc⟩ : ∃ c cs, x = c :: cs := by cases x with | nil => exact absurd rfl hx.1 | cons c cs => exact ⟨c, cs, rfl⟩
  have hc47 : c ≠ 47 := fun h => hx.2 (by simp [hc, h])
  obtain ⟨tail, htail⟩ : ∃ tail, joinSegs (x :: xs) = c :: tail := by
    by_cases hxs : xs = []
    · subst hxs; exact ⟨cs, hc⟩
    · rw [joinSegs_cons x hxs, hc]; exact ⟨_, rfl⟩
  have hany : (joinSegs (x :: xs) ++ [47]).any (· != 47) = true := by
    rw [htail]; simp [hc47]
  have hdir : dirname (joinSegs (x :: xs ++ [f])) = rstripSlash (joinSegs (x :: xs) ++ [47]) := by
    unfold dirname
    rw [h1]
    simp only
    rw [if_pos ⟨by simp, hany⟩]
  constructor
  · rw [hdir, comps_dirname_aux _ (by simp)]
    have := comps_slash (joinSegs (x :: xs)) []
    rw [this, comps_joinSegs hd]
    simp [comps, split]
  · rw [hdir, htail]
    unfold rstripSlash isAbs
    have : ∀ (r : Text), ((r ++ [c]).dropWhile (· == 47)).reverse.head? = some c := by
      intro r
      induction r with
      | nil => simp [hc47]
      | cons y r ih =>
        rw [List.cons_append, List.dropWhile_cons]
        split
        · exact ih
        · simp
    have e : ((c :: tail) ++ [47]).reverse = (47 :: tail.reverse) ++ [c] := by simp
    rw [e, this]
    simp [hc47]

end Verif.Paths
