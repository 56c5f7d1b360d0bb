import Verif.CssDataFiles

/-!
# C62: every image in a stylesheet becomes a file
-/

namespace Verif.Css.Data

open Verif.Reader (Text txt)
open Verif.Css (Tok)
open Verif.Assoc
open Verif.Build
open Verif.Handlers (Bytes Fs hashScan hashBuild hashTarget)
open Verif.Icons (add addAll mem_add)

/-- What is behind the address. -/
def suffix (scan : Bool) (env : Env) (data : Text) : Text :=
  if scan then [] else txt "?" ++ env.query (env.digest (env.unquoted data))

/-- The manipulator is run in the folder of the project. -/
def InProject (env : Env) : Prop := ∀ fs p, env.lexists fs p = (fs p).isSome

/-- None of the images is there. -/
def Cleared (stem : Text) (fs : Fs) : Prop := ∀ q, txt "out/www/img/gen/" ++ stem ++ txt "/" <+: q → fs q = none

/-- The files and their hashes, and nothing else, have been written. -/
def Written (stem : Text) (env : Env) (ts : List Tok) (fs fs' : Fs) : Prop :=
  (∀ data address, AddressOf stem ts data address → fs' (txt "out/www" ++ address) = some (env.unquoted data) ∧
    fs' (txt "out/www" ++ address ++ txt ".hash") = some (env.digest (env.unquoted data))) ∧
  ∀ q, ¬ Outputs stem ts q → fs' q = fs q

structure Inv (scan : Bool) (env : Env) (stem : Text) (fs : Fs) (ts out : List Tok) (pos : List Nat) (st : St) : Prop where
  found : Found ts pos
  counter : st.counter = pos.length
  known : ∀ d p, item st.byData d = some p ↔ ∃ a, AddrAt stem pos ts d a ∧ p = txt "out/www" ++ a
  outlined : Outlined stem (suffix scan env) ts out
  made : ∀ q, q ∈ (if scan then st.produces else st.produced) ↔ Outputs stem ts q
  dependencies : st.dependencies = []
  children : st.children = []
  reused : st.reused = []
  files : if scan then st.fs = fs else Written stem env ts fs st.fs

theorem outputs_iff {stem : Text} {ts : List Tok} {pos : List Nat} (hp : Found ts pos) (q : Text) : Outputs stem ts q ↔
    ∃ d a, AddrAt stem pos ts d a ∧ (q = txt "out/www" ++ a ∨ q = txt "out/www" ++ a ++ txt ".hash") := by
  unfold Outputs
  simp only [addressOf_iff hp]

theorem found_iff {ts : List Tok} {u : Tok} {type data : Text} :
    found (behind false ts) u = some (type, data) ↔ NewAt ts u type data := by
  unfold found NewAt tokData behind
  cases hl : ts.getLast? with
  | none => simp
  | some t =>
    simp only [isUrl, Option.some.injEq]
    by_cases ht : t = .function (txt "url")
    · subst ht
      simp only [decide_true, if_true, true_and]
      constructor
      · intro h
        split at h
        · next v => exact ⟨v, rfl, (dataOf_spec _ _ _).1 h⟩
        · cases h
      · rintro ⟨v, rfl, h⟩
        exact (dataOf_spec _ _ _).2 h
    · simp [ht]

theorem mem_addAll (s xs : List Text) (x : Text) : x ∈ addAll s xs ↔ x ∈ s ∨ x ∈ xs := by
  induction xs generalizing s with
  | nil => simp [addAll]
  | cons y xs ih =>
    have : addAll s (y :: xs) = addAll (add s y) xs := rfl
    rw [this, ih, mem_add]
    simp only [List.mem_cons, or_assoc]

theorem addAll_nil (s : List Text) : addAll s [] = s := rfl

/-- The tokens are as before, with one more at the end. -/
theorem outlined_snoc {stem : Text} {sfx : Text → Text} {ts out : List Tok} {u t' : Tok} (h : Outlined stem sfx ts out)
    (hmono : ∀ d a, AddressOf stem ts d a → AddressOf stem (ts ++ [u]) d a)
    (h1 : ∀ type data, NewAt ts u type data → ∃ a, AddressOf stem (ts ++ [u]) data a ∧ t' = .str (a ++ sfx data))
    (h2 : (∀ type data, ¬ NewAt ts u type data) → t' = u) : Outlined stem sfx (ts ++ [u]) (out ++ [t']) := by
  refine ⟨by simp [h.1], fun k t hk => ?_⟩
  have hlt := (List.getElem?_eq_some_iff.1 hk).1
  simp at hlt
  by_cases hkl : k < ts.length
  · rw [List.getElem?_append_left hkl] at hk
    rw [List.getElem?_append_left (by rw [h.1]; exact hkl)]
    obtain ⟨a, b⟩ := h.2 k t hk
    refine ⟨fun type data hi => ?_, fun hno => ?_⟩
    · rcases (imageAt_snoc _ _ _ _ _).1 hi with hi | ⟨rfl, -⟩
      · obtain ⟨address, h3, h4⟩ := a type data hi
        exact ⟨address, hmono _ _ h3, h4⟩
      · omega
    · exact b fun type data hi => hno type data ((imageAt_snoc _ _ _ _ _).2 (.inl hi))
  · have : k = ts.length := by omega
    subst this
    have hu : t = u := by simpa using hk.symm
    subst hu
    have hget : (out ++ [t'])[ts.length]? = some t' := by rw [← h.1]; simp
    rw [hget]
    refine ⟨fun type data hi => ?_, fun hno => ?_⟩
    · rcases (imageAt_snoc _ _ _ _ _).1 hi with hi | ⟨-, hi⟩
      · have := imageAt_lt hi; omega
      · obtain ⟨a, h3, h4⟩ := h1 type data hi
        exact ⟨a, h3, by rw [h4]⟩
    · rw [h2 fun type data hi => hno type data ((imageAt_snoc _ _ _ _ _).2 (.inr ⟨rfl, hi⟩))]

theorem gen_prefix (stem : Text) (n : Nat) (e : Text) : txt "out/www/img/gen/" ++ stem ++ txt "/" <+: txt "out/www" ++ name stem n e := by
  have e1 : txt "out/www/img/gen/" = txt "out/www" ++ txt "/img/gen/" := by decide
  refine ⟨txt (toString n) ++ txt "." ++ e, ?_⟩
  rw [e1]
  simp [name]

theorem inv_step {scan : Bool} {env : Env} {stem : Text} {fs : Fs} (hs : Stylesheet env.self stem) (hin : InProject env) (hc : Cleared stem fs)
    {ts out : List Tok} {pos : List Nat} {st : St} (h : Inv scan env stem fs ts out pos st) (u : Tok) :
    ∃ t' st' pos', step scan env (behind false ts) st u = .ok (t', st') ∧
      Inv scan env stem fs (ts ++ [u]) (out ++ [t']) pos' st' := by
  cases hf : found (behind false ts) u with
  | none =>
    have hno : ∀ type data, ¬ NewAt ts u type data := by
      intro type data hn
      rw [found_iff.2 hn] at hf
      cases hf
    have hsame : ∀ type data, NewAt ts u type data → ∃ j type', ImageAt ts j type' data := fun type data hn => absurd hn (hno type data)
    have hp' := found_same h.found hsame
    refine ⟨u, st, pos, by simp only [step, hf], ?_⟩
    have haddr : ∀ d a, AddressOf stem (ts ++ [u]) d a ↔ AddressOf stem ts d a := by
      intro d a
      rw [addressOf_iff hp', addressOf_iff h.found, addrAt_same hsame]
    have hout : ∀ q, Outputs stem (ts ++ [u]) q ↔ Outputs stem ts q := by
      intro q; unfold Outputs; simp only [haddr]
    refine ⟨hp', h.counter, ?_, ?_, ?_, h.dependencies, h.children, h.reused, ?_⟩
    · intro d p; rw [h.known]; simp only [addrAt_same hsame]
    · exact outlined_snoc h.outlined (fun d a => (haddr d a).2) (fun type data hn => absurd hn (hno type data)) fun _ => rfl
    · intro q; rw [h.made, hout]
    · have := h.files
      cases scan
      · simp only [Bool.false_eq_true, if_false] at this ⊢
        refine ⟨fun d a hd => this.1 d a ((haddr d a).1 hd), fun q hq => this.2 q (mt (hout q).2 hq)⟩
      · exact this
  | some p =>
    obtain ⟨type, data⟩ := p
    have hn := found_iff.1 hf
    have hdrop : ∀ x : Text, (txt "out/www" ++ x).drop (txt "out/www").length = x := fun x => List.drop_left' rfl
    cases hk : item st.byData data with
    | some path =>
      -- an image with the same data
      obtain ⟨a, ha, rfl⟩ := (h.known data path).1 hk
      have himg : ∃ j type', ImageAt ts j type' data := by
        obtain ⟨i, k, t, ext, -, h3, -⟩ := ha
        exact ⟨k, t, h3.1⟩
      have hsame : ∀ type data, NewAt ts u type data → ∃ j type', ImageAt ts j type' data := by
        intro t d hn'
        obtain ⟨rfl, rfl⟩ := hn'.unique hn
        exact himg
      have hp' := found_same h.found hsame
      have haddr : ∀ d a, AddressOf stem (ts ++ [u]) d a ↔ AddressOf stem ts d a := by
        intro d a
        rw [addressOf_iff hp', addressOf_iff h.found, addrAt_same hsame]
      have hout : ∀ q, Outputs stem (ts ++ [u]) q ↔ Outputs stem ts q := by
        intro q; unfold Outputs; simp only [haddr]
      have hswap : ∃ sk, swap scan env st type data = .ok (.str (a ++ suffix scan env data), { st with skip := sk, stage := none, stack := [] }) := by
        refine ⟨true, ?_⟩
        unfold swap
        simp only [allot, hk, hdrop]
        cases scan
        · have hfl := h.files
          simp only [Bool.false_eq_true, if_false] at hfl ⊢
          have hh := (hfl.1 data a ((addressOf_iff h.found _ _).2 ha)).2
          have hm : ∀ s : St, s.fs = st.fs → make env false (txt "out/www" ++ a) data s = .ok (env.digest (env.unquoted data), s) := by
            intro s hs
            simp only [make, Bool.false_eq_true, if_false, hs, hh]
          simp only [hm, suffix, Bool.false_eq_true, if_false, List.append_assoc]
        · simp [announce, suffix]
      obtain ⟨sk, hswap⟩ := hswap
      refine ⟨_, _, pos, by simp only [step, hf, hswap]; rfl, ?_⟩
      refine ⟨hp', h.counter, ?_, ?_, ?_, h.dependencies, h.children, h.reused, ?_⟩
      · intro d p; rw [h.known]; simp only [addrAt_same hsame]
      · refine outlined_snoc h.outlined (fun d a => (haddr d a).2) ?_ fun hno => absurd hn (hno _ _)
        intro t d hn'
        obtain ⟨rfl, rfl⟩ := hn'.unique hn
        exact ⟨a, (haddr _ _).2 ((addressOf_iff h.found _ _).2 ha), rfl⟩
      · intro q; rw [hout]; exact h.made q
      · have := h.files
        cases scan
        · simp only [Bool.false_eq_true, if_false] at this ⊢
          exact ⟨fun d a hd => this.1 d a ((haddr d a).1 hd), fun q hq => this.2 q (mt (hout q).2 hq)⟩
        · exact this
    | none =>
      -- a new one
      have hno : ∀ j type', ¬ ImageAt ts j type' data := by
        intro j type' hi
        obtain ⟨a, ha⟩ := addrAt_exists (stem := stem) h.found hi
        have := (h.known data (txt "out/www" ++ a)).2 ⟨a, ha, rfl⟩
        rw [hk] at this
        cases this
      have hp' := found_new h.found hn hno
      have haddr := fun d a => addrAt_new (stem := stem) h.found hn hno d a
      have haddr' : ∀ d a, AddressOf stem (ts ++ [u]) d a ↔
          AddressOf stem ts d a ∨ (d = data ∧ a = name stem (pos.length + 1) (type.takeWhile (· != 43))) := by
        intro d a
        rw [addressOf_iff hp', addressOf_iff h.found, haddr]
      generalize ha : name stem (pos.length + 1) (type.takeWhile (· != 43)) = a at haddr haddr'
      have hout : ∀ q, Outputs stem (ts ++ [u]) q ↔ Outputs stem ts q ∨ (q = txt "out/www" ++ a ∨ q = txt "out/www" ++ a ++ txt ".hash") := by
        intro q
        unfold Outputs
        simp only [haddr']
        constructor
        · rintro ⟨d, a', h1 | ⟨rfl, rfl⟩, h2⟩
          · exact .inl ⟨d, a', h1, h2⟩
          · exact .inr h2
        · rintro (⟨d, a', h1, h2⟩ | h2)
          · exact ⟨d, a', .inl h1, h2⟩
          · exact ⟨data, a, .inr ⟨rfl, rfl⟩, h2⟩
      have hpath : Verif.Paths.join (folder env) (txt (toString (st.counter + 1)) ++ txt "." ++ type.takeWhile (· != 43)) = txt "out/www" ++ a := by
        rw [path_spec hs, h.counter, ha]
      have htarget : hashTarget (txt "out/www" ++ a) = some (txt "out/www" ++ a ++ txt ".hash") := by
        rw [← ha]; exact hashTarget_name _ _ _
      -- the new files are different from the old ones
      have hnew : ∀ e, a = name stem (pos.length + 1) e ∨ a ++ txt ".hash" = name stem (pos.length + 1) e → ¬ Outputs stem ts (txt "out/www" ++ name stem (pos.length + 1) e) := by
        intro e _ ho
        obtain ⟨d, a', h1, h2⟩ := (outputs_iff h.found _).1 ho
        obtain ⟨n, ext, rfl, hle⟩ := addrAt_number h1
        rcases h2 with h2 | h2
        · have := (name_inj (List.append_cancel_left h2)).1; omega
        · rw [List.append_assoc, name_hash] at h2
          have := (name_inj (List.append_cancel_left h2)).1; omega
      have hn1 : ¬ Outputs stem ts (txt "out/www" ++ a) := by
        have := hnew _ (.inl ha.symm)
        rwa [ha] at this
      have hn2 : ¬ Outputs stem ts (txt "out/www" ++ a ++ txt ".hash") := by
        have e := name_hash stem (pos.length + 1) (type.takeWhile (· != 43))
        rw [ha] at e
        have := hnew _ (.inr e)
        rwa [← e, ← List.append_assoc] at this
      have hc1 : fs (txt "out/www" ++ a) = none := by
        apply hc
        rw [← ha]
        exact gen_prefix _ _ _
      have hc2 : fs (txt "out/www" ++ a ++ txt ".hash") = none := by
        apply hc
        rw [List.append_assoc (txt "out/www"), ← ha, name_hash]
        exact gen_prefix _ _ _
      have hne : txt "out/www" ++ a ++ txt ".hash" ≠ txt "out/www" ++ a := by
        intro he
        rw [List.append_right_eq_self] at he
        exact absurd he (by decide)
      have hkn : ∀ d p, item (put st.byData data (txt "out/www" ++ a)) d = some p ↔
          ∃ a', AddrAt stem (pos ++ [ts.length]) (ts ++ [u]) d a' ∧ p = txt "out/www" ++ a' := by
        intro d p
        rw [get_put]
        by_cases hd : d = data
        · subst hd
          simp only [if_true, haddr, Option.some.injEq]
          constructor
          · rintro rfl; exact ⟨a, .inr ⟨trivial, rfl⟩, rfl⟩
          · rintro ⟨a', h1 | ⟨-, rfl⟩, rfl⟩
            · have := (h.known _ _).2 ⟨a', h1, rfl⟩
              rw [hk] at this
              cases this
            · rfl
        · have hd' : ¬ data = d := fun e => hd e.symm
          simp only [hd, hd', if_false, h.known, haddr, false_and, or_false]
      have hol : ∀ t', t' = .str (a ++ suffix scan env data) → Outlined stem (suffix scan env) (ts ++ [u]) (out ++ [t']) := by
        rintro t' rfl
        refine outlined_snoc h.outlined (fun d a' hd => (haddr' d a').2 (.inl hd)) ?_ fun hno' => absurd hn (hno' _ _)
        intro t d hn'
        obtain ⟨rfl, rfl⟩ := hn'.unique hn
        exact ⟨a, (haddr' _ _).2 (.inr ⟨rfl, rfl⟩), rfl⟩
      cases scan
      · -- building
        have hfl := h.files
        have hmd := h.made
        simp only [Bool.false_eq_true, if_false] at hfl hmd
        have hf1 : st.fs (txt "out/www" ++ a) = none := (hfl.2 _ hn1).trans hc1
        have hf2 : st.fs (txt "out/www" ++ a ++ txt ".hash") = none := (hfl.2 _ hn2).trans hc2
        have hw1 : st.fs.write (txt "out/www" ++ a) (env.unquoted data) (txt "out/www" ++ a ++ txt ".hash") = none := by
          unfold Handlers.Fs.write; rw [if_neg hne]; exact hf2
        have hw2 : st.fs.write (txt "out/www" ++ a) (env.unquoted data) (txt "out/www" ++ a) = some (env.unquoted data) := by
          unfold Handlers.Fs.write; rw [if_pos rfl]
        have hw3 : (st.fs.write (txt "out/www" ++ a) (env.unquoted data)).write (txt "out/www" ++ a ++ txt ".hash")
            (env.digest (env.unquoted data)) (txt "out/www" ++ a ++ txt ".hash") = some (env.digest (env.unquoted data)) := by
          unfold Handlers.Fs.write; rw [if_pos rfl]
        have hlex : env.lexists st.fs (txt "out/www" ++ a) = false := by rw [hin, hf1]; rfl
        have hswap : swap false env st type data = .ok (.str (a ++ suffix false env data), { st with
            fs := (st.fs.write (txt "out/www" ++ a) (env.unquoted data)).write (txt "out/www" ++ a ++ txt ".hash") (env.digest (env.unquoted data))
            produced := add (add st.produced (txt "out/www" ++ a)) (txt "out/www" ++ a ++ txt ".hash")
            counter := st.counter + 1
            byData := put st.byData data (txt "out/www" ++ a)
            skip := true, stage := none, stack := [] }) := by
          unfold swap
          simp only [allot, hk, hpath, hdrop, Bool.false_eq_true, if_false]
          have etok : a ++ txt "?" ++ env.query (env.digest (env.unquoted data)) = a ++ suffix false env data := by simp [suffix]
          rw [← etok]
          simp only [make, if_true, store, hlex, Bool.false_eq_true, if_false, hashBuild, htarget, hw1, hw2, hw3]
          rfl
        refine ⟨_, _, pos ++ [ts.length], by simp only [step, hf, hswap]; rfl, ?_⟩
        refine ⟨hp', by simp [h.counter], hkn, hol _ rfl, ?_, h.dependencies, h.children, h.reused, ?_⟩
        · intro q
          simp only [Bool.false_eq_true, if_false, mem_add, hmd, hout, or_assoc]
        · simp only [Bool.false_eq_true, if_false]
          refine ⟨?_, ?_⟩
          · intro d a' hd
            rcases (haddr' d a').1 hd with hd | ⟨rfl, rfl⟩
            · have ho1 : Outputs stem ts (txt "out/www" ++ a') := ⟨d, a', hd, .inl rfl⟩
              have ho2 : Outputs stem ts (txt "out/www" ++ a' ++ txt ".hash") := ⟨d, a', hd, .inr rfl⟩
              have hne' : ∀ q, Outputs stem ts q → q ≠ txt "out/www" ++ a ∧ q ≠ txt "out/www" ++ a ++ txt ".hash" := by
                intro q hq
                constructor
                · rintro rfl; exact hn1 hq
                · rintro rfl; exact hn2 hq
              unfold Handlers.Fs.write
              simp only [if_neg (hne' _ ho1).1, if_neg (hne' _ ho1).2, if_neg (hne' _ ho2).1, if_neg (hne' _ ho2).2]
              exact hfl.1 d a' hd
            · refine ⟨?_, hw3⟩
              show (if _ then _ else _) = _
              rw [if_neg (fun e => hne e.symm)]
              exact hw2
          · intro q hq
            rw [hout] at hq
            simp only [not_or] at hq
            unfold Handlers.Fs.write
            simp only [if_neg hq.2.1, if_neg hq.2.2]
            exact hfl.2 q hq.1
      · -- scanning
        have hmd := h.made
        have hfl := h.files
        simp only [if_true] at hmd hfl
        have hscan : hashScan (txt "out/www" ++ a) = ⟨[], [txt "out/www" ++ a ++ txt ".hash"]⟩ := by
          unfold hashScan; rw [htarget]
        have hswap : swap true env st type data = .ok (.str (a ++ suffix true env data), { st with
            produces := add (add st.produces (txt "out/www" ++ a)) (txt "out/www" ++ a ++ txt ".hash")
            counter := st.counter + 1
            byData := put st.byData data (txt "out/www" ++ a)
            skip := true, stage := none, stack := [] }) := by
          unfold swap
          simp only [allot, hk, hpath, hdrop, if_true]
          simp only [announce, if_true, hscan, suffix, List.append_nil]
          rfl
        refine ⟨_, _, pos ++ [ts.length], by simp only [step, hf, hswap]; rfl, ?_⟩
        refine ⟨hp', by simp [h.counter], hkn, hol _ rfl, ?_, h.dependencies, h.children, h.reused, ?_⟩
        · intro q
          simp only [if_true, mem_add, hmd, hout, or_assoc]
        · simpa using hfl

end Verif.Css.Data
