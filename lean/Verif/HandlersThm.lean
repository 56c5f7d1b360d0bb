import Verif.Handlers
/-!
# Output paths, hashes and dispatch (C36, C37, C38)
-/
namespace Verif.Handlers
open Verif.Reader (Text txt)

/-! ## Specification -/

/-- A file below src/public, with its path from there. -/
def Public (rel p : Text) : Prop := rel = txt "src/public/" ++ p

/-- All outputs a build reports. -/
def Built.outputs (r : Built) : List Text := r.produced ++ r.reused

/-- The manipulators and image exports write no files of their own for this file. -/
def Plain (env : Env) (rel : Text) : Prop :=
  (∀ fs b r fs1, (env.doc rel).build fs = .ok (b, r, fs1) → r.produced = [] ∧ r.reused = []) ∧
  (∀ fs b r fs1, (env.glue rel).build fs = .ok (b, r, fs1) → r.produced = [] ∧ r.reused = [])

/-- The kinds of files. -/
inductive Kind where
  | constants | images | html | css | js | other
deriving DecidableEq, Repr

/-- Which file is of which kind. -/
inductive IsKind (env : Env) (rel : Text) : Kind → Prop
  | constants : rel = env.constants → IsKind env rel .constants
  | images : rel ≠ env.constants → handlesImages rel = true → IsKind env rel .images
  | html {p} : rel ≠ env.constants → handlesImages rel = false → rel = p ++ txt ".html" → IsKind env rel .html
  | css {p} : rel ≠ env.constants → handlesImages rel = false → rel = p ++ txt ".css" → IsKind env rel .css
  | js {p} : rel ≠ env.constants → handlesImages rel = false → rel = p ++ txt ".js" → IsKind env rel .js
  | other : rel ≠ env.constants → handlesImages rel = false → (∀ p, rel ≠ p ++ txt ".html") →
      (∀ p, rel ≠ p ++ txt ".css") → (∀ p, rel ≠ p ++ txt ".js") → IsKind env rel .other

/-- The scan of each handler. -/
def Kind.scan (env : Env) (rel : Text) (fs : Fs) : Kind → Except Err Scan
  | .constants => constantsScan rel
  | .images => glueScan (env.glue rel) rel fs
  | .html => docScan true (env.doc rel) rel fs
  | .css => docScan false (env.doc rel) rel fs
  | .js => docScan false (env.doc rel) rel fs
  | .other => .ok (copyAndHashScan rel)

/-- The build of each handler. -/
def Kind.build (env : Env) (rel : Text) (fs : Fs) : Kind → Except Err (Built × Fs)
  | .constants => constantsBuild env.digest env.text rel fs
  | .images => glueBuild env.digest (env.glue rel) rel fs
  | .html => docBuild true true env.digest (env.doc rel) rel fs
  | .css => docBuild false true env.digest (env.doc rel) rel fs
  | .js => docBuild false false env.digest (env.doc rel) rel fs
  | .other => copyAndHashBuild env.digest rel fs

/-! ## Texts -/

theorem len_srcPublic : srcPublic.length = 10 := by decide
theorem len_json : (txt ".images.json").length = 12 := by decide
theorem suffix_iff {s r : Text} : s.isSuffixOf r = true ↔ ∃ p, r = p ++ s := by
  rw [List.isSuffixOf_iff_suffix]
  constructor
  · rintro ⟨p, h⟩; exact ⟨p, h.symm⟩
  · rintro ⟨p, h⟩; exact ⟨p, h.symm⟩

theorem public_eq (p : Text) : txt "src/public/" ++ p = srcPublic ++ 47 :: p := by
  have : txt "src/public/" = srcPublic ++ [47] := by decide
  rw [this, List.append_assoc]; rfl

theorem copyTarget_public {rel p : Text} (h : Public rel p) : copyTarget rel = some (outWww ++ p) := by
  unfold Public at h
  subst h
  rw [public_eq]
  unfold copyTarget
  rw [if_pos (by rw [List.isPrefixOf_iff_prefix]; exact ⟨_, rfl⟩)]
  have : srcPublic ++ 47 :: p = (srcPublic ++ [47]) ++ p := by simp
  rw [this, List.drop_left' (by simp)]

theorem hashTarget_public {rel p : Text} (h : Public rel p) : hashTarget rel = some (outWww ++ p ++ txt ".hash") := by
  unfold Public at h
  subst h
  have e : srcPublic ++ txt "/" = txt "src/public/" := by decide
  unfold hashTarget
  rw [e, if_pos (by rw [List.isPrefixOf_iff_prefix]; exact ⟨_, rfl⟩)]
  rw [List.drop_left' rfl]

theorem not_src_out (p : Text) : (srcPublic ++ txt "/").isPrefixOf (outWww ++ p) = false := by
  have e : srcPublic ++ txt "/" = 115 :: (srcPublic ++ txt "/").tail := by decide
  have e2 : outWww = 111 :: outWww.tail := by decide
  rw [e, e2]
  rfl

theorem hashTarget_out (p : Text) : hashTarget (outWww ++ p) = some (outWww ++ p ++ txt ".hash") := by
  unfold hashTarget
  rw [not_src_out]
  simp only [Bool.false_eq_true, if_false]
  rw [if_pos (by rw [List.isPrefixOf_iff_prefix]; exact ⟨_, rfl⟩), List.drop_left' rfl]

theorem public_prefix {rel p : Text} (h : Public rel p) : srcPublic.isPrefixOf rel = true := by
  unfold Public at h
  rw [h, public_eq, List.isPrefixOf_iff_prefix]
  exact ⟨_, rfl⟩

theorem public_inj {r1 r2 p : Text} (h1 : Public r1 p) (h2 : Public r2 p) : r1 = r2 := by
  unfold Public at h1 h2; rw [h1, h2]

theorem suffix_public {s p : Text} (hs : s.head? ≠ some 47) (hne : s ≠ []) (h47 : 47 ∉ s) {rel : Text} (h : Public rel p) :
    s.isSuffixOf rel = true ↔ s.isSuffixOf p = true := by
  unfold Public at h
  subst h
  rw [suffix_iff, suffix_iff]
  constructor
  · rintro ⟨q, hq⟩
    rw [public_eq] at hq
    -- the slash is before the suffix
    rcases List.append_eq_append_iff.1 hq with ⟨a, ha, hb⟩ | ⟨a, ha, hb⟩
    · cases a with
      | nil =>
        rw [List.nil_append] at hb
        rw [← hb] at h47
        exact absurd (by simp) h47
      | cons c a =>
        rw [List.cons_append, List.cons.injEq] at hb
        exact ⟨a, hb.2⟩
    · rw [hb] at h47
      exact absurd (by simp) h47
  · rintro ⟨q, rfl⟩
    exact ⟨txt "src/public/" ++ q, by rw [List.append_assoc]⟩

/-! ## Dispatch -/

theorem kind_unique {env : Env} {rel : Text} {k k' : Kind} (h : IsKind env rel k) (h' : IsKind env rel k') : k = k' := by
  have e1 : (txt ".html").getLast? = some 108 := by decide
  have e2 : (txt ".css").getLast? = some 115 := by decide
  have e3 : (txt ".js").getLast? = some 115 := by decide
  have e4 : (txt ".css").dropLast.getLast? = some 115 := by decide
  have e5 : (txt ".js").dropLast.getLast? = some 106 := by decide
  have key1 : ∀ p q : Text, p ++ txt ".html" ≠ q ++ txt ".css" := by
    intro p q hpq
    have := congrArg List.getLast? hpq
    rw [List.getLast?_append, List.getLast?_append, e1, e2] at this
    simp at this
  have key2 : ∀ p q : Text, p ++ txt ".html" ≠ q ++ txt ".js" := by
    intro p q hpq
    have := congrArg List.getLast? hpq
    rw [List.getLast?_append, List.getLast?_append, e1, e3] at this
    simp at this
  have key3 : ∀ p q : Text, p ++ txt ".css" ≠ q ++ txt ".js" := by
    intro p q hpq
    have := congrArg (fun l => l.dropLast.getLast?) hpq
    rw [List.dropLast_append_of_ne_nil (by decide), List.dropLast_append_of_ne_nil (by decide),
      List.getLast?_append, List.getLast?_append, e4, e5] at this
    simp at this
  cases h with
  | constants h1 => cases h' <;> first | rfl | contradiction
  | images h1 h2 => cases h' <;> first | rfl | contradiction | simp_all
  | @html p h1 h2 h3 =>
    cases h' with
    | constants g1 => contradiction
    | images g1 g2 => simp_all
    | html => rfl
    | @css q g1 g2 g3 => exact absurd (h3.symm.trans g3) (key1 p q)
    | @js q g1 g2 g3 => exact absurd (h3.symm.trans g3) (key2 p q)
    | other g1 g2 g3 g4 g5 => exact absurd h3 (g3 p)
  | @css p h1 h2 h3 =>
    cases h' with
    | constants g1 => contradiction
    | images g1 g2 => simp_all
    | @html q g1 g2 g3 => exact absurd (g3.symm.trans h3) (key1 q p)
    | css => rfl
    | @js q g1 g2 g3 => exact absurd (h3.symm.trans g3) (key3 p q)
    | other g1 g2 g3 g4 g5 => exact absurd h3 (g4 p)
  | @js p h1 h2 h3 =>
    cases h' with
    | constants g1 => contradiction
    | images g1 g2 => simp_all
    | @html q g1 g2 g3 => exact absurd (g3.symm.trans h3) (key2 q p)
    | @css q g1 g2 g3 => exact absurd (g3.symm.trans h3) (key3 q p)
    | js => rfl
    | other g1 g2 g3 g4 g5 => exact absurd h3 (g5 p)
  | other h1 h2 h3 h4 h5 =>
    cases h' with
    | constants g1 => contradiction
    | images g1 g2 => simp_all
    | @html q g1 g2 g3 => exact absurd g3 (h3 q)
    | @css q g1 g2 g3 => exact absurd g3 (h4 q)
    | @js q g1 g2 g3 => exact absurd g3 (h5 q)
    | other => rfl

/-- **C38, dispatch.**  Every path is of exactly one kind, and scan and build both use the handler of that kind. -/
theorem C38_dispatch (env : Env) (rel : Text) :
    ∃ k, IsKind env rel k ∧ (∀ k', IsKind env rel k' → k' = k) ∧
      (∀ fs, scanFile env rel fs = k.scan env rel fs) ∧ (∀ fs, buildFile env rel fs = k.build env rel fs) := by
  have fin : ∀ k, IsKind env rel k → (∀ fs, scanFile env rel fs = k.scan env rel fs) →
      (∀ fs, buildFile env rel fs = k.build env rel fs) → ∃ k, IsKind env rel k ∧ (∀ k', IsKind env rel k' → k' = k) ∧
      (∀ fs, scanFile env rel fs = k.scan env rel fs) ∧ (∀ fs, buildFile env rel fs = k.build env rel fs) :=
    fun k hk h1 h2 => ⟨k, hk, fun k' hk' => kind_unique hk' hk, h1, h2⟩
  by_cases h1 : rel = env.constants
  · exact fin .constants (.constants h1) (fun fs => by simp [scanFile, h1, Kind.scan]) (fun fs => by simp [buildFile, h1, Kind.build])
  cases h2 : handlesImages rel with
  | true => exact fin .images (.images h1 h2) (fun fs => by simp [scanFile, h1, h2, Kind.scan]) (fun fs => by simp [buildFile, h1, h2, Kind.build])
  | false =>
    by_cases h3 : (txt ".html").isSuffixOf rel = true
    · obtain ⟨p, hp⟩ := suffix_iff.1 h3
      exact fin .html (.html h1 h2 hp) (fun fs => by simp only [scanFile, h1, h2, h3, Kind.scan]; simp)
        (fun fs => by simp only [buildFile, h1, h2, h3, Kind.build]; simp)
    · by_cases h4 : (txt ".css").isSuffixOf rel = true
      · obtain ⟨p, hp⟩ := suffix_iff.1 h4
        exact fin .css (.css h1 h2 hp) (fun fs => by simp only [scanFile, h1, h2, h3, h4, Kind.scan]; simp)
          (fun fs => by simp only [buildFile, h1, h2, h3, h4, Kind.build]; simp)
      · by_cases h5 : (txt ".js").isSuffixOf rel = true
        · obtain ⟨p, hp⟩ := suffix_iff.1 h5
          exact fin .js (.js h1 h2 hp) (fun fs => by simp only [scanFile, h1, h2, h3, h4, h5, Kind.scan]; simp)
            (fun fs => by simp only [buildFile, h1, h2, h3, h4, h5, Kind.build]; simp)
        · have neg : ∀ {s : Text}, ¬ s.isSuffixOf rel = true → ∀ p, rel ≠ p ++ s := fun hs p hp => hs (suffix_iff.2 ⟨p, hp⟩)
          exact fin .other (.other h1 h2 (neg h3) (neg h4) (neg h5))
            (fun fs => by simp only [scanFile, h1, h2, h3, h4, h5, Kind.scan]; simp)
            (fun fs => by simp only [buildFile, h1, h2, h3, h4, h5, Kind.build]; simp)

/-! ## Announced and reported outputs -/

theorem hashBuild_outputs {digest : Bytes → Bytes} {rel h : Text} {fs fs' : Fs} {r : Built} (ht : hashTarget rel = some h)
    (hb : hashBuild digest rel fs = .ok (r, fs')) : (∀ x, x ∈ r.outputs ↔ x = h) ∧ (∀ x, x ∈ r.produced ∨ x ∈ r.reused ↔ x = h) ∧
      r.children = [] := by
  unfold hashBuild at hb
  rw [ht] at hb
  simp only at hb
  split at hb
  · cases hb; simp [Built.outputs]
  · split at hb
    · cases hb
    · cases hb; simp [Built.outputs]

theorem hashScan_produces {rel h : Text} (ht : hashTarget rel = some h) : (hashScan rel).produces = [h] := by
  unfold hashScan; rw [ht]

theorem copyScan_produces {rel h : Text} (ht : copyTarget rel = some h) : (copyScan rel).produces = [h] := by
  unfold copyScan; rw [ht]

/-- The manipulators of this file announce what they write. -/
def Agree (env : Env) (rel : Text) (fs fs0 : Fs) : Prop :=
  (∀ s b r fs1, (env.doc rel).scan fs = .ok s → (env.doc rel).build fs0 = .ok (b, r, fs1) →
    ∀ x, x ∈ s.produces ↔ x ∈ r.produced ++ r.reused) ∧
  (∀ s b r fs1, (env.glue rel).scan fs = .ok s → (env.glue rel).build fs0 = .ok (b, r, fs1) →
    ∀ x, x ∈ s.produces ↔ x ∈ r.produced ++ r.reused) ∧
  (env.glue rel).sane fs = (env.glue rel).sane fs0

theorem docBuild_outputs {html strict : Bool} {digest : Bytes → Bytes} {m : Doc} {rel p : Text} (hp : Public rel p)
    {fs fs' : Fs} {r : Built} (hb : docBuild html strict digest m rel fs = .ok (r, fs')) :
    ∃ b mr fs1, m.build fs = .ok (b, mr, fs1) ∧
      ∀ x, x ∈ r.outputs ↔ x = outWww ++ p ∨ x = outWww ++ p ++ txt ".hash" ∨ x ∈ mr.produced ++ mr.reused := by
  unfold docBuild at hb
  rw [copyTarget_public hp] at hb
  simp only at hb
  split at hb
  · cases hb
  · next b mr fs1 hm =>
    split at hb
    · cases hb
    · next hr fs2 hh =>
      refine ⟨b, mr, fs1, hm, ?_⟩
      obtain ⟨_, hx, _⟩ := hashBuild_outputs (hashTarget_out p) hh
      cases hb
      intro x
      simp only [Built.outputs, List.mem_append, List.mem_filter, List.mem_singleton]
      have hx' := hx x
      constructor
      · rintro (((h | h) | h) | (h | h))
        · exact .inl h
        · exact .inr (.inl (hx'.1 (.inl h)))
        · exact .inr (.inr (.inl h))
        · exact .inr (.inl (hx'.1 (.inr h.1)))
        · exact .inr (.inr (.inr h.1))
      · rintro (h | h | h | h)
        · exact .inl (.inl (.inl h))
        · rcases hx'.2 h with h | h
          · exact .inl (.inl (.inr h))
          · by_cases hc : (!strict || !([outWww ++ p] ++ hr.produced).contains x) = true
            · exact .inr (.inl ⟨h, hc⟩)
            · simp only [Bool.or_eq_true, Bool.not_eq_true', not_or, Bool.not_eq_false] at hc
              have := hc.2
              simp only [List.singleton_append, List.contains_cons, Bool.or_eq_true, beq_iff_eq, List.contains_iff_mem] at this
              rcases this with h | h
              · exact .inl (.inl (.inl h))
              · exact .inl (.inl (.inr h))
        · exact .inl (.inr h)
        · by_cases hc : (!strict || !([outWww ++ p] ++ hr.produced ++ mr.produced).contains x) = true
          · exact .inr (.inr ⟨h, hc⟩)
          · simp only [Bool.or_eq_true, Bool.not_eq_true', not_or, Bool.not_eq_false] at hc
            have := hc.2
            simp only [List.singleton_append, List.contains_iff_mem, List.mem_append, List.mem_cons] at this
            rcases this with (h | h) | h
            · exact .inl (.inl (.inl h))
            · exact .inl (.inl (.inr h))
            · exact .inl (.inr h)

theorem copyAndHashBuild_outputs {digest : Bytes → Bytes} {rel p : Text} (hp : Public rel p) {fs fs' : Fs} {r : Built}
    (hb : copyAndHashBuild digest rel fs = .ok (r, fs')) :
    ∀ x, x ∈ r.outputs ↔ x = outWww ++ p ∨ x = outWww ++ p ++ txt ".hash" := by
  unfold copyAndHashBuild at hb
  split at hb
  · cases hb
  · next c fs1 hc =>
    split at hb
    · cases hb
    · next h fs2 hh =>
      obtain ⟨_, hx, _⟩ := hashBuild_outputs (hashTarget_public hp) hh
      have hcx : ∀ x, x ∈ c.produced ∨ x ∈ c.reused ↔ x = outWww ++ p := by
        unfold copyBuild at hc
        rw [copyTarget_public hp] at hc
        simp only at hc
        split at hc
        · cases hc; simp
        · split at hc
          · cases hc
          · cases hc; simp
      cases hb
      intro x
      rw [← hcx x, ← hx x]
      simp only [Built.outputs, List.mem_append]
      constructor
      · rintro ((h | h) | (h | h))
        · exact .inl (.inl h)
        · exact .inr (.inl h)
        · exact .inl (.inr h)
        · exact .inr (.inr h)
      · rintro ((h | h) | (h | h))
        · exact .inl (.inl h)
        · exact .inr (.inl h)
        · exact .inl (.inr h)
        · exact .inr (.inr h)

theorem constantsBuild_outputs {digest : Bytes → Bytes} {text : Bytes} {rel p : Text} (hp : Public rel p) {fs fs' : Fs}
    {r : Built} (hb : constantsBuild digest text rel fs = .ok (r, fs')) :
    ∀ x, x ∈ r.outputs ↔ x = outWww ++ p ∨ x = outWww ++ p ++ txt ".hash" := by
  unfold constantsBuild at hb
  rw [copyTarget_public hp] at hb
  simp only at hb
  split at hb
  · cases hb
  · next h fs2 hh =>
    obtain ⟨_, hx, _⟩ := hashBuild_outputs (hashTarget_out p) hh
    cases hb
    intro x
    rw [← hx x]
    cases fs (outWww ++ p) with
    | none =>
      simp only [Built.outputs, List.mem_append, List.mem_singleton, List.not_mem_nil, false_or]
      constructor
      · rintro ((h | h) | h)
        · exact .inl h
        · exact .inr (.inl h)
        · exact .inr (.inr h)
      · rintro (h | h | h)
        · exact .inl (.inl h)
        · exact .inl (.inr h)
        · exact .inr h
    | some _ =>
      simp only [Built.outputs, List.mem_append, List.mem_singleton, List.not_mem_nil, false_or]
      constructor
      · rintro (h | (h | h))
        · exact .inr (.inl h)
        · exact .inl h
        · exact .inr (.inr h)
      · rintro (h | h | h)
        · exact .inr (.inl h)
        · exact .inl h
        · exact .inr (.inr h)

theorem imagesOut_out (rel : Text) : ∃ q, imagesOut rel = outWww ++ q := by
  unfold imagesOut
  exact ⟨_, List.append_assoc _ _ _⟩

theorem glueBuild_outputs {digest : Bytes → Bytes} {m : Glue} {rel : Text} {fs fs' : Fs} {r : Built}
    (hb : glueBuild digest m rel fs = .ok (r, fs')) :
    (((txt ".images.js").isSuffixOf rel = true ∨ m.sane fs = .ok false) ∧ r = ⟨[], [], []⟩) ∨
    ((txt ".images.js").isSuffixOf rel = false ∧ m.sane fs = .ok true ∧ ∃ b mr fs1, m.build fs = .ok (b, mr, fs1) ∧
      ∀ x, x ∈ r.outputs ↔ x = imagesOut rel ∨ x = imagesOut rel ++ txt ".hash" ∨ x ∈ mr.produced ++ mr.reused) := by
  unfold glueBuild at hb
  cases hs : (txt ".images.js").isSuffixOf rel with
  | true =>
    rw [hs] at hb
    simp only [if_true] at hb
    cases hb
    exact .inl ⟨.inl rfl, rfl⟩
  | false =>
    rw [hs] at hb
    simp only [Bool.false_eq_true, if_false] at hb
    split at hb
    · cases hb
    · next h => cases hb; exact .inl ⟨.inr h, rfl⟩
    · next hsane =>
      split at hb
      · cases hb
      · next b mr fs1 hm =>
        split at hb
        · cases hb
        · next h fs2 hh =>
          obtain ⟨q, hq⟩ := imagesOut_out rel
          have ht : hashTarget (imagesOut rel) = some (imagesOut rel ++ txt ".hash") := by rw [hq]; exact hashTarget_out q
          obtain ⟨_, hx, _⟩ := hashBuild_outputs ht hh
          refine .inr ⟨rfl, hsane, b, mr, fs1, hm, ?_⟩
          cases hb
          intro x
          rw [← hx x]
          simp only [Built.outputs, List.mem_append, List.mem_singleton]
          constructor
          · rintro (((h | h) | h) | (h | h))
            · exact .inr (.inr (.inl h))
            · exact .inl h
            · exact .inr (.inl (.inl h))
            · exact .inr (.inr (.inr h))
            · exact .inr (.inl (.inr h))
          · rintro (h | (h | h) | (h | h))
            · exact .inl (.inl (.inr h))
            · exact .inl (.inr h)
            · exact .inr (.inr h)
            · exact .inl (.inl (.inl h))
            · exact .inr (.inl h)

/-- **C38, outputs.**  For a file below src/public: if scan and build succeed and the manipulators announce what
they write, the outputs announced by the scan are exactly those which the build produces or reuses; for
constants and files which are only copied nothing has to be known about manipulators. -/
theorem C38_outputs {env : Env} {rel p : Text} (hp : Public rel p) {fs fs0 fs' : Fs} {s : Scan} {r : Built}
    (hs : scanFile env rel fs = .ok s) (hb : buildFile env rel fs0 = .ok (r, fs')) (ha : Agree env rel fs fs0) :
    ∀ x, x ∈ s.produces ↔ x ∈ r.outputs := by
  obtain ⟨k, hk, _, h1, h2⟩ := C38_dispatch env rel
  rw [h1] at hs
  rw [h2] at hb
  have doc : ∀ html strict, docScan html (env.doc rel) rel fs = .ok s →
      docBuild html strict env.digest (env.doc rel) rel fs0 = .ok (r, fs') → ∀ x, x ∈ s.produces ↔ x ∈ r.outputs := by
    intro html strict hs hb x
    obtain ⟨b, mr, fs1, hm, hx⟩ := docBuild_outputs hp hb
    unfold docScan at hs
    rw [copyTarget_public hp] at hs
    simp only [reduceCtorEq, and_false, if_false] at hs
    split at hs
    · cases hs
    · next s1 hs1 =>
      rw [hx x]
      rw [copyScan_produces (copyTarget_public hp), hashScan_produces (hashTarget_public hp)] at hs
      cases hs
      simp only [List.mem_append, List.mem_singleton]
      have := ha.1 s1 b mr fs1 hs1 hm x
      rw [List.mem_append] at this
      rw [this, or_assoc]
  cases k with
  | constants =>
    simp only [Kind.scan, constantsScan, copyTarget_public hp] at hs
    cases hs
    intro x
    rw [constantsBuild_outputs hp hb x]
    simp
  | images =>
    intro x
    simp only [Kind.scan, glueScan] at hs
    rcases glueBuild_outputs hb with ⟨h | h, hr⟩ | ⟨h, hsane, b, mr, fs1, hm, hx⟩
    · rw [h] at hs
      simp only [if_true] at hs
      cases hs; subst hr; simp [Built.outputs]
    · split at hs
      · cases hs; subst hr; simp [Built.outputs]
      · rw [ha.2.2, h] at hs
        cases hs; subst hr; simp [Built.outputs]
    · rw [h, ha.2.2, hsane] at hs
      simp only [Bool.false_eq_true, if_false] at hs
      split at hs
      · cases hs
      · next s1 hs1 =>
        obtain ⟨q, hq⟩ := imagesOut_out rel
        have ht : hashTarget (imagesOut rel) = some (imagesOut rel ++ txt ".hash") := by rw [hq]; exact hashTarget_out q
        rw [hashScan_produces ht] at hs
        cases hs
        rw [hx x]
        have := ha.2.1 s1 b mr fs1 hs1 hm x
        simp only [List.mem_append, List.mem_singleton] at this ⊢
        rw [this, or_assoc]
        constructor
        · rintro (h | h | h)
          · exact .inl h
          · exact .inr (.inr h)
          · exact .inr (.inl h)
        · rintro (h | h | h)
          · exact .inl h
          · exact .inr (.inr h)
          · exact .inr (.inl h)
  | html => exact doc true true hs hb
  | css => exact doc false true hs hb
  | js => exact doc false false hs hb
  | other =>
    intro x
    simp only [Kind.scan, copyAndHashScan, Except.ok.injEq] at hs
    rw [copyScan_produces (copyTarget_public hp), hashScan_produces (hashTarget_public hp)] at hs
    subst hs
    rw [copyAndHashBuild_outputs hp hb x]
    simp

/-! ## No two files have a common output -/

/-- What a file below src/public is served as, below out/www. -/
def servedAs (env : Env) (rel p : Text) : Text :=
  if rel ≠ env.constants ∧ handlesImages rel = true then p.take (p.length - (txt ".images.json").length) ++ txt ".images.js" else p

theorem outputs_served {env : Env} {rel p : Text} (hp : Public rel p) (hpl : Plain env rel) {fs fs' : Fs} {r : Built}
    (hb : buildFile env rel fs = .ok (r, fs')) : ∀ x ∈ r.outputs,
      (rel ≠ env.constants → handlesImages rel = true → (txt ".images.js").isSuffixOf rel = false) ∧
      (x = outWww ++ servedAs env rel p ∨ x = outWww ++ servedAs env rel p ++ txt ".hash") := by
  obtain ⟨k, hk, _, _, h2⟩ := C38_dispatch env rel
  rw [h2] at hb
  intro x hx
  have doc : handlesImages rel = false → ∀ html strict,
      docBuild html strict env.digest (env.doc rel) rel fs = .ok (r, fs') →
      (rel ≠ env.constants → handlesImages rel = true → (txt ".images.js").isSuffixOf rel = false) ∧
      (x = outWww ++ servedAs env rel p ∨ x = outWww ++ servedAs env rel p ++ txt ".hash") := by
    intro hi html strict hb
    obtain ⟨b, mr, fs1, hm, hx'⟩ := docBuild_outputs hp hb
    obtain ⟨e1, e2⟩ := hpl.1 _ _ _ _ hm
    have := (hx' x).1 hx
    rw [e1, e2] at this
    unfold servedAs
    rw [hi]
    simp only [Bool.false_eq_true, and_false, if_false]
    simpa using this
  cases k with
  | constants =>
    cases hk with
    | constants hc =>
      refine ⟨fun h => absurd hc h, ?_⟩
      unfold servedAs
      rw [if_neg (by simp [hc])]
      exact (constantsBuild_outputs hp hb x).1 hx
  | images =>
    cases hk with
    | images h1 h2 =>
      rcases glueBuild_outputs hb with ⟨_, hr⟩ | ⟨h, _, b, mr, fs1, hm, hx'⟩
      · subst hr; simp [Built.outputs] at hx
      · refine ⟨fun _ _ => h, ?_⟩
        obtain ⟨e1, e2⟩ := hpl.2 _ _ _ _ hm
        have := (hx' x).1 hx
        rw [e1, e2] at this
        unfold servedAs
        rw [if_pos ⟨h1, h2⟩]
        have e : imagesOut rel = outWww ++ (p.take (p.length - (txt ".images.json").length) ++ txt ".images.js") := by
          unfold imagesOut
          unfold Public at hp
          subst hp
          have hd : (txt "src/public/" ++ p).drop (srcPublic.length + 1) = p := by
            rw [public_eq]
            have : srcPublic ++ 47 :: p = (srcPublic ++ [47]) ++ p := by simp
            rw [this, List.drop_left' (by simp)]
          rw [hd, List.append_assoc]
        rw [e] at this
        simpa using this
  | html => cases hk with | html h1 h2 => exact doc h2 _ _ hb
  | css => cases hk with | css h1 h2 => exact doc h2 _ _ hb
  | js => cases hk with | js h1 h2 => exact doc h2 _ _ hb
  | other =>
    cases hk with
    | other h1 h2 =>
      refine ⟨fun _ h => (by rw [h2] at h; cases h), ?_⟩
      unfold servedAs
      rw [h2]
      simp only [Bool.false_eq_true, and_false, if_false]
      exact (copyAndHashBuild_outputs hp hb x).1 hx

theorem json_not_js (q q' : Text) : q ++ txt ".images.json" ≠ q' ++ txt ".images.js" := by
  intro h
  have := congrArg List.getLast? h
  have e1 : (txt ".images.json").getLast? = some 110 := by decide
  have e2 : (txt ".images.js").getLast? = some 115 := by decide
  rw [List.getLast?_append, List.getLast?_append, e1, e2] at this
  simp at this

theorem js_not_hash (q q' : Text) : q ++ txt ".images.js" ≠ q' ++ txt ".hash" := by
  intro h
  have := congrArg List.getLast? h
  have e1 : (txt ".hash").getLast? = some 104 := by decide
  have e2 : (txt ".images.js").getLast? = some 115 := by decide
  rw [List.getLast?_append, List.getLast?_append, e1, e2] at this
  simp at this

/-- The shape of what a file is served as. -/
theorem servedAs_cases {env : Env} {rel p : Text} (hp : Public rel p) (hc : handlesImages env.constants = false)
    (hjs : rel ≠ env.constants → handlesImages rel = true → (txt ".images.js").isSuffixOf rel = false) :
    (∃ q, p = q ++ txt ".images.json" ∧ servedAs env rel p = q ++ txt ".images.js") ∨
    (servedAs env rel p = p ∧ ∀ q, p ≠ q ++ txt ".images.js") := by
  unfold servedAs
  by_cases h : rel ≠ env.constants ∧ handlesImages rel = true
  · rw [if_pos h]
    left
    have hj := hjs h.1 h.2
    have h2 := h.2
    unfold handlesImages at h2
    rw [hj, Bool.or_false, Bool.and_eq_true] at h2
    rw [suffix_public (by decide) (by decide) (by decide) hp] at h2
    obtain ⟨q, rfl⟩ := suffix_iff.1 h2.2
    refine ⟨q, rfl, ?_⟩
    rw [List.length_append, Nat.add_sub_cancel, List.take_left' rfl]
  · rw [if_neg h]
    right
    refine ⟨rfl, fun q hq => ?_⟩
    have hi : handlesImages rel = true := by
      unfold handlesImages
      rw [public_prefix hp, Bool.true_and, Bool.or_eq_true]
      right
      rw [suffix_public (by decide) (by decide) (by decide) hp]
      exact suffix_iff.2 ⟨q, hq⟩
    apply h
    refine ⟨?_, hi⟩
    rintro rfl
    rw [hc] at hi
    cases hi

/-- **C36, in part.**  Two different files below src/public, neither ending in `.hash`, whose manipulators write
no files of their own, have no output in common.  (The constants file is not one of the `.images.json` and
`.images.js` files.)  `C36_false_prefix` and `C36_false_hash` show that the conditions are needed. -/
theorem C36_partial {env : Env} {r1 r2 p1 p2 : Text} (h1 : Public r1 p1) (h2 : Public r2 p2) (hne : r1 ≠ r2)
    (hh1 : ∀ q, p1 ≠ q ++ txt ".hash") (hh2 : ∀ q, p2 ≠ q ++ txt ".hash") (hc : handlesImages env.constants = false)
    (hpl1 : Plain env r1) (hpl2 : Plain env r2) {fs1 fs1' fs2 fs2' : Fs} {b1 b2 : Built}
    (hb1 : buildFile env r1 fs1 = .ok (b1, fs1')) (hb2 : buildFile env r2 fs2 = .ok (b2, fs2')) :
    ∀ x, x ∈ b1.outputs → x ∉ b2.outputs := by
  intro x hx1 hx2
  obtain ⟨j1, o1⟩ := outputs_served h1 hpl1 hb1 x hx1
  obtain ⟨j2, o2⟩ := outputs_served h2 hpl2 hb2 x hx2
  have c1 := servedAs_cases h1 hc j1
  have c2 := servedAs_cases h2 hc j2
  have nohash : ∀ {r p : Text} (_ : (∃ q, p = q ++ txt ".images.json" ∧ servedAs env r p = q ++ txt ".images.js") ∨
      (servedAs env r p = p ∧ ∀ q, p ≠ q ++ txt ".images.js")), (∀ q, p ≠ q ++ txt ".hash") →
      ∀ q, servedAs env r p ≠ q ++ txt ".hash" := by
    intro r p c hp q
    rcases c with ⟨q', _, hq⟩ | ⟨hq, _⟩
    · rw [hq]; exact js_not_hash q' q
    · rw [hq]; exact hp q
  have hs : servedAs env r1 p1 = servedAs env r2 p2 := by
    rcases o1 with o1 | o1 <;> rcases o2 with o2 | o2
    · rw [o1] at o2; exact List.append_cancel_left o2
    · rw [o1, List.append_assoc] at o2
      exact absurd (List.append_cancel_left o2) (nohash c1 hh1 _)
    · rw [o1, List.append_assoc] at o2
      exact absurd (List.append_cancel_left o2).symm (nohash c2 hh2 _)
    · rw [o1] at o2
      exact List.append_cancel_left (List.append_cancel_right o2)
  have hp : p1 = p2 := by
    rcases c1 with ⟨q, rfl, e1⟩ | ⟨e1, n1⟩ <;> rcases c2 with ⟨q', rfl, e2⟩ | ⟨e2, n2⟩
    · rw [e1, e2] at hs
      rw [List.append_cancel_right hs]
    · rw [e1, e2] at hs
      exact absurd hs.symm (n2 q)
    · rw [e1, e2] at hs
      exact absurd hs (n1 q')
    · rw [e1, e2] at hs; exact hs
  subst hp
  exact hne (public_inj h1 h2)

/-- Files outside src/public and without a common beginning are not copied or hashed. -/
theorem C36_outside {env : Env} {rel : Text} (hc : rel ≠ env.constants) (h : srcPublic.isPrefixOf rel = false)
    (ho : outWww.isPrefixOf rel = false) {fs fs' : Fs} {r : Built} (hb : buildFile env rel fs = .ok (r, fs')) :
    r.outputs = [] ∧ fs' = fs := by
  have hct : copyTarget rel = none := by unfold copyTarget; rw [h]; rfl
  have hpre : (srcPublic ++ txt "/").isPrefixOf rel = false := by
    cases hx : (srcPublic ++ txt "/").isPrefixOf rel with
    | false => rfl
    | true =>
      rw [List.isPrefixOf_iff_prefix] at hx
      obtain ⟨q, hq⟩ := hx
      have : srcPublic.isPrefixOf rel = true := by
        rw [List.isPrefixOf_iff_prefix]
        exact ⟨txt "/" ++ q, by rw [← hq, List.append_assoc]⟩
      rw [h] at this; cases this
  have hht : hashTarget rel = none := by unfold hashTarget; rw [hpre, ho]; rfl
  obtain ⟨k, hk, _, _, h2⟩ := C38_dispatch env rel
  rw [h2] at hb
  cases k with
  | constants => cases hk with | constants hc' => exact absurd hc' hc
  | images =>
    cases hk with
    | images h1 h2 => unfold handlesImages at h2; rw [h] at h2; cases h2
  | html => simp only [Kind.build, docBuild, hct] at hb; cases hb; exact ⟨rfl, rfl⟩
  | css => simp only [Kind.build, docBuild, hct] at hb; cases hb
  | js => simp only [Kind.build, docBuild, hct] at hb; cases hb
  | other =>
    simp only [Kind.build, copyAndHashBuild, copyBuild, hashBuild, hct, hht] at hb
    cases hb; exact ⟨rfl, rfl⟩

/-- The claim is false for a file beside src/public whose name begins with `public`: it overwrites another. -/
theorem C36_false_prefix : copyTarget (txt "src/publicfoo.txt") = copyTarget (txt "src/public/oo.txt") ∧
    copyTarget (txt "src/publicfoo.txt") = some (txt "out/www/oo.txt") := by decide +kernel

/-- The claim is false for a public file named like the hash of another. -/
theorem C36_false_hash : copyTarget (txt "src/public/a.txt.hash") = hashTarget (txt "src/public/a.txt") ∧
    hashTarget (txt "src/public/a.txt") = some (txt "out/www/a.txt.hash") := by decide +kernel

/-! ## Hashes -/

/-- What a build would serve for this file: the source, the constants, or what the manipulators make of it, with
the files afterwards. -/
def served (env : Env) (rel : Text) (fs : Fs) : Kind → Option (Bytes × Fs)
  | .constants => some (env.text, fs)
  | .images => match (env.glue rel).build fs with
    | .ok (b, _, fs1) => some (b, fs1)
    | .error _ => none
  | .other => (fs rel).map fun b => (b, fs)
  | _ => match (env.doc rel).build fs with
    | .ok (b, _, fs1) => some (b, fs1)
    | .error _ => none

/-- The output and the hash file of a file below src/public, if they are there already, are the ones which this
build would write (build_file.py:20-22 guarantees this to the handlers). -/
def UpToDate (env : Env) (rel t h : Text) (fs : Fs) : Prop :=
  ∀ k b fs1, IsKind env rel k → served env rel fs k = some (b, fs1) →
    (fs1 t = none ∨ fs1 t = some b) ∧ (fs1 h = none ∨ fs1 h = some (env.digest b))

theorem hash_ne (t : Text) : t ++ txt ".hash" ≠ t := by
  intro h
  have := congrArg List.length h
  rw [List.length_append] at this
  have e : (txt ".hash").length = 5 := by decide
  omega

theorem hashBuild_content {digest : Bytes → Bytes} {rel h : Text} {fs fs' : Fs} {r : Built} {b : Bytes}
    (ht : hashTarget rel = some h) (hb : hashBuild digest rel fs = .ok (r, fs')) (hc : fs rel = some b)
    (hok : fs h = none ∨ fs h = some (digest b)) : fs' h = some (digest b) ∧ ∀ q, q ≠ h → fs' q = fs q := by
  unfold hashBuild at hb
  rw [ht] at hb
  simp only at hb
  rcases hok with hn | hs
  · rw [hn] at hb
    simp only [hc] at hb
    cases hb
    constructor
    · simp [Fs.write]
    · intro q hq; simp [Fs.write, hq]
  · rw [hs] at hb
    cases hb
    exact ⟨hs, fun _ _ => rfl⟩

/-- **C37.**  After a successful build of a file below src/public which has an output `t`, `t.hash` is the
digest of the bytes of `t`, if the outputs which were there before are the ones this build would write. -/
theorem C37 {env : Env} {rel p : Text} (hp : Public rel p) {fs fs' : Fs} {r : Built}
    (hb : buildFile env rel fs = .ok (r, fs'))
    (hout : outWww ++ servedAs env rel p ∈ r.outputs)
    (hsrc : fs rel ≠ none) (hup : UpToDate env rel (outWww ++ servedAs env rel p) (outWww ++ servedAs env rel p ++ txt ".hash") fs) :
    ∃ b, fs' (outWww ++ servedAs env rel p) = some b ∧
      fs' (outWww ++ servedAs env rel p ++ txt ".hash") = some (env.digest b) := by
  obtain ⟨k, hk, _, _, h2⟩ := C38_dispatch env rel
  rw [h2] at hb
  have src_ne : ∀ q, outWww ++ q ≠ rel := by
    intro q h
    unfold Public at hp
    rw [hp] at h
    have e : outWww = 111 :: outWww.tail := by decide
    have e2 : txt "src/public/" = 115 :: (txt "src/public/").tail := by decide
    rw [e, e2, List.cons_append, List.cons_append, List.cons.injEq] at h
    exact absurd h.1 (by decide)
  have doc : handlesImages rel = false → (k = .html ∨ k = .css ∨ k = .js) → ∀ html strict,
      docBuild html strict env.digest (env.doc rel) rel fs = .ok (r, fs') →
      ∃ b, fs' (outWww ++ servedAs env rel p) = some b ∧
        fs' (outWww ++ servedAs env rel p ++ txt ".hash") = some (env.digest b) := by
    intro hi hkk html strict hb
    have hsv : servedAs env rel p = p := by unfold servedAs; rw [hi]; simp
    rw [hsv] at hup ⊢
    unfold docBuild at hb
    rw [copyTarget_public hp] at hb
    simp only at hb
    split at hb
    · cases hb
    · next b mr fs1 hm =>
      split at hb
      · cases hb
      · next h fs2 hh =>
        cases hb
        have hsrv : served env rel fs k = some (b, fs1) := by
          rcases hkk with rfl | rfl | rfl <;> simp only [served, hm]
        obtain ⟨_, hu⟩ := hup k b fs1 hk hsrv
        have hne := hash_ne (outWww ++ p)
        have := hashBuild_content (b := b) (hashTarget_out p) hh (by simp [Fs.write]) (by
          simp only [Fs.write, hne, if_false]; exact hu)
        refine ⟨b, ?_, this.1⟩
        rw [this.2 _ (fun h => hne h.symm)]
        simp [Fs.write]
  cases k with
  | constants =>
    cases hk with
    | constants hc =>
      have hsv : servedAs env rel p = p := by unfold servedAs; rw [if_neg (by simp [hc])]
      rw [hsv] at hup ⊢
      obtain ⟨ht, hh⟩ := hup .constants env.text fs (.constants hc) rfl
      simp only [Kind.build, constantsBuild, copyTarget_public hp] at hb
      split at hb
      · cases hb
      · next h fs2 hb2 =>
        cases hb
        have hne := hash_ne (outWww ++ p)
        rcases ht with ht | ht
        · rw [ht] at hb2
          simp only at hb2
          have := hashBuild_content (b := env.text) (hashTarget_out p) hb2 (by simp [Fs.write])
            (by simp only [Fs.write, hne, if_false]; exact hh)
          refine ⟨_, ?_, this.1⟩
          rw [this.2 _ (fun h => hne h.symm)]; simp [Fs.write]
        · rw [ht] at hb2
          simp only at hb2
          have := hashBuild_content (b := env.text) (hashTarget_out p) hb2 ht hh
          refine ⟨_, ?_, this.1⟩
          rw [this.2 _ (fun h => hne h.symm), ht]
  | images =>
    cases hk with
    | images h1 h2 =>
      have hsv : imagesOut rel = outWww ++ servedAs env rel p := by
        unfold servedAs
        rw [if_pos ⟨h1, h2⟩]
        unfold imagesOut
        unfold Public at hp
        subst hp
        have hd : (txt "src/public/" ++ p).drop (srcPublic.length + 1) = p := by
          rw [public_eq]
          have : srcPublic ++ 47 :: p = (srcPublic ++ [47]) ++ p := by simp
          rw [this, List.drop_left' (by simp)]
        rw [hd, List.append_assoc]
      simp only [Kind.build, glueBuild] at hb
      split at hb
      · cases hb; simp [Built.outputs] at hout
      · split at hb
        · cases hb
        · cases hb; simp [Built.outputs] at hout
        · split at hb
          · cases hb
          · next b mr fs1 hm =>
            split at hb
            · cases hb
            · next h fs2 hh =>
              cases hb
              rw [hsv] at hh
              obtain ⟨_, hu⟩ := hup .images b fs1 (.images h1 h2) (by simp only [served, hm])
              have hne := hash_ne (outWww ++ servedAs env rel p)
              have := hashBuild_content (b := b) (hashTarget_out _) hh (by simp [Fs.write]) (by
                simp only [Fs.write, hne, if_false]; exact hu)
              refine ⟨b, ?_, this.1⟩
              rw [this.2 _ (fun h => hne h.symm)]
              simp [Fs.write]
  | html => cases hk with | html h1 h2 => exact doc h2 (.inl rfl) _ _ hb
  | css => cases hk with | css h1 h2 => exact doc h2 (.inr (.inl rfl)) _ _ hb
  | js => cases hk with | js h1 h2 => exact doc h2 (.inr (.inr rfl)) _ _ hb
  | other =>
    have hk' := hk
    cases hk with
    | other h1 h2 h3 h4 h5 =>
      have hsv : servedAs env rel p = p := by unfold servedAs; rw [h2]; simp
      rw [hsv] at hup ⊢
      have hne := hash_ne (outWww ++ p)
      simp only [Kind.build, copyAndHashBuild] at hb
      split at hb
      · cases hb
      · next c fs1 hc =>
        split at hb
        · cases hb
        · next h fs2 hh =>
          cases hb
          -- the source is there
          cases hsrc : fs rel with
          | none => contradiction
          | some b =>
            obtain ⟨ht, hhh⟩ := hup .other b fs hk' (by simp only [served, hsrc]; rfl)
            have h1 : fs1 (outWww ++ p) = some b ∧ fs1 rel = some b ∧
                fs1 (outWww ++ p ++ txt ".hash") = fs (outWww ++ p ++ txt ".hash") := by
              unfold copyBuild at hc
              rw [copyTarget_public hp] at hc
              simp only at hc
              rcases ht with ht | ht
              · rw [ht] at hc
                simp only [hsrc] at hc
                cases hc
                refine ⟨by simp [Fs.write], ?_, ?_⟩
                · have := src_ne p
                  have h' : rel ≠ outWww ++ p := fun h => this h.symm
                  show (if rel = outWww ++ p then some b else fs rel) = some b
                  rw [if_neg h', hsrc]
                · simp only [Fs.write, hne, if_false]
              · rw [ht] at hc
                cases hc
                exact ⟨ht, hsrc, rfl⟩
            have := hashBuild_content (b := b) (hashTarget_public hp) hh h1.2.1 (by rw [h1.2.2]; exact hhh)
            refine ⟨b, ?_, this.1⟩
            rw [this.2 _ (fun h => hne h.symm), h1.1]

/-! ## Cases and counterexamples -/

/-- A project: `src/public/a.txt` is copied, `src/public/b.js` becomes the bytes 1 2 3. -/
def caseEnv : Env :=
  { constants := txt "src/public/constants.js", text := [9], digest := fun b => b ++ [0],
    doc := fun _ => { scan := fun _ => .ok ⟨[], []⟩, build := fun fs => .ok ([1, 2, 3], ⟨[], [], []⟩, fs) },
    glue := fun _ => { sane := fun _ => .ok true, scan := fun _ => .ok ⟨[], []⟩, build := fun fs => .ok ([7], ⟨[], [], []⟩, fs) } }

/-- The sources of the project. -/
def caseFs : Fs := fun p =>
  if p = txt "src/public/a.txt" then some [5] else if p = txt "src/public/b.js" then some [6] else none

/-- The project meets the conditions of `C36_partial`, `C37` and `C38_outputs`. -/
theorem handlers_case :
    Public (txt "src/public/a.txt") (txt "a.txt") ∧ Public (txt "src/public/b.js") (txt "b.js") ∧
    Plain caseEnv (txt "src/public/b.js") ∧ Agree caseEnv (txt "src/public/b.js") caseFs caseFs ∧
    handlesImages caseEnv.constants = false ∧
    UpToDate caseEnv (txt "src/public/b.js") (txt "out/www/b.js") (txt "out/www/b.js.hash") caseFs ∧
    (∃ r fs', buildFile caseEnv (txt "src/public/b.js") caseFs = .ok (r, fs') ∧
      r.produced = [txt "out/www/b.js", txt "out/www/b.js.hash"] ∧ fs' (txt "out/www/b.js.hash") = some [1, 2, 3, 0]) ∧
    (∃ r fs', buildFile caseEnv (txt "src/public/a.txt") caseFs = .ok (r, fs') ∧
      r.produced = [txt "out/www/a.txt", txt "out/www/a.txt.hash"] ∧ fs' (txt "out/www/a.txt") = some [5]) := by
  refine ⟨by unfold Public; decide +kernel, by unfold Public; decide +kernel, ⟨?_, ?_⟩, ⟨?_, ?_, rfl⟩, by decide +kernel, ?_, ?_, ?_⟩
  · intro fs b r fs1 h; cases h; exact ⟨rfl, rfl⟩
  · intro fs b r fs1 h; cases h; exact ⟨rfl, rfl⟩
  · intro s b r fs1 h h'; cases h; cases h'; simp
  · intro s b r fs1 h h'; cases h; cases h'; simp
  · intro k b fs1 hk hs
    have hfs : ∀ k, served caseEnv (txt "src/public/b.js") caseFs k = some (b, fs1) → fs1 = caseFs := by
      intro k hs
      cases k with
      | other =>
        have : caseFs (txt "src/public/b.js") = some [6] := by decide +kernel
        simp only [served, this, Option.map_some, Option.some.injEq, Prod.mk.injEq] at hs
        exact hs.2.symm
      | _ => simp only [served, caseEnv, Option.some.injEq, Prod.mk.injEq] at hs; exact hs.2.symm
    rw [hfs k hs]
    exact ⟨.inl (by decide +kernel), .inl (by decide +kernel)⟩
  · exact ⟨_, _, rfl, by decide +kernel, by decide +kernel⟩
  · exact ⟨_, _, rfl, by decide +kernel, by decide +kernel⟩

/-- C37 is false if an old hash file is still there: it is reused although the output was written anew. -/
theorem C37_false : ∃ (fs : Fs) (r : Built) (fs' : Fs), buildFile caseEnv (txt "src/public/b.js") fs = .ok (r, fs') ∧
    fs' (txt "out/www/b.js") = some [1, 2, 3] ∧ fs' (txt "out/www/b.js.hash") = some [42] ∧ caseEnv.digest [1, 2, 3] ≠ [42] := by
  refine ⟨fun p => if p = txt "src/public/b.js" then some [6] else if p = txt "out/www/b.js.hash" then some [42] else none,
    _, _, rfl, by decide +kernel, by decide +kernel, by decide⟩

/-- C38 is false for a stylesheet beside src/public whose name begins with `public`: the hash file is not
announced. -/
theorem C38_false_prefix : ∃ (fs : Fs) (s : Scan) (r : Built) (fs' : Fs),
    scanFile caseEnv (txt "src/publicfoo.css") fs = .ok s ∧ buildFile caseEnv (txt "src/publicfoo.css") fs = .ok (r, fs') ∧
    s.produces = [txt "out/www/oo.css"] ∧ r.produced = [txt "out/www/oo.css", txt "out/www/oo.css.hash"] := by
  refine ⟨fun p => if p = txt "src/publicfoo.css" then some [6] else none, _, _, _, rfl, rfl, by decide +kernel, by decide +kernel⟩

/-- A script or stylesheet elsewhere in src passes the scan and fails in the build, whatever it holds. -/
theorem C38_crash (env : Env) (fs : Fs) (hc : env.constants ≠ txt "src/tool.js") :
    buildFile env (txt "src/tool.js") fs = .error .typeError := by
  have h1 : handlesImages (txt "src/tool.js") = false := by decide +kernel
  have h2 : (txt ".html").isSuffixOf (txt "src/tool.js") = false := by decide +kernel
  have h3 : (txt ".css").isSuffixOf (txt "src/tool.js") = false := by decide +kernel
  have h4 : (txt ".js").isSuffixOf (txt "src/tool.js") = true := by decide +kernel
  have h5 : copyTarget (txt "src/tool.js") = none := by decide +kernel
  unfold buildFile
  rw [if_neg (fun h => hc h.symm), h1, h2, h3, h4]
  simp [docBuild, h5]

end Verif.Handlers
