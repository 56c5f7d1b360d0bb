import Verif.BuilderEnds
import Verif.CssAgree
import Verif.CssLocal
/-!
# The handling of a stylesheet comes to an end
-/
namespace Verif.Css.Page.Ends
open Verif.Reader (Text txt)
open Verif.Css (Tok)
open Verif.Build
open Verif.Handlers (Fs)

/-! ## What is counted -/

/-- The opening of a URL which outline_image_data.py takes. -/
def open' : Tok := .function (txt "url")

/-- The URLs which are still to be read for images; the next one is skipped if `h`. -/
def live : Bool → List Tok → Nat
  | _, [] => 0
  | h, t :: ts => (if t = open' ∧ h = false then 1 else 0) + live (h && !Data.isUrl t) ts

/-- The tokens, after all icons are inserted, and at least one for each. -/
def size (ex : Tok → List Tok) (ts : List Tok) : Nat := (ts.map fun t => max 1 (ex t).length).sum

/-- The replacements left. -/
def left (ex : Tok → List Tok) (ic ca : Tok → Bool) (skip : Bool) (ts : List Tok) : Nat :=
  ts.countP ic + live skip (ts.flatMap ex) + (ts.flatMap ex).countP ca

/-- The steps left: `k` tokens are still to be handled. -/
def weight (ex : Tok → List Tok) (ic ca : Tok → Bool) (k : Nat) (skip : Bool) (ts : List Tok) : Nat :=
  k + left ex ic ca skip ts * (size ex ts + 1)

theorem live_le : ∀ (ts : List Tok) (h : Bool), live h ts ≤ ts.length
  | [], _ => Nat.le_refl _
  | t :: ts, h => by
    unfold live
    have h1 := live_le ts (h && !Data.isUrl t)
    split <;> simp only [List.length_cons] <;> omega

section
variable {ex : Tok → List Tok} {ic ca : Tok → Bool}

theorem size_cons (t : Tok) (ts : List Tok) : size ex (t :: ts) = max 1 (ex t).length + size ex ts := by
  simp only [size, List.map_cons, List.sum_cons]

theorem size_append (a b : List Tok) : size ex (a ++ b) = size ex a + size ex b := by
  simp only [size, List.map_append, List.sum_append]

theorem length_size : ∀ ts : List Tok, ts.length ≤ size ex ts
  | [] => Nat.zero_le _
  | t :: ts => by
    have := length_size ts
    rw [size_cons]; simp only [List.length_cons]; omega

theorem size_alone : ∀ {ts : List Tok}, (∀ t ∈ ts, ex t = [t]) → size ex ts = ts.length
  | [], _ => rfl
  | t :: ts, h => by
    rw [size_cons, h t (by simp), size_alone fun x hx => h x (by simp [hx])]
    simp only [List.length_cons, List.length_nil]; omega

theorem flat_alone : ∀ {ts : List Tok}, (∀ t ∈ ts, ex t = [t]) → ts.flatMap ex = ts
  | [], _ => rfl
  | t :: ts, h => by
    rw [List.flatMap_cons, h t (by simp), flat_alone fun x hx => h x (by simp [hx])]; rfl

theorem weight_less {k k' : Nat} {skip skip' : Bool} {ts ts' : List Tok} (h : left ex ic ca skip' ts' + 1 ≤ left ex ic ca skip ts)
    (hm : size ex ts' ≤ size ex ts) (hk : k' ≤ size ex ts') : weight ex ic ca k' skip' ts' < weight ex ic ca k skip ts := by
  unfold weight
  have h1 := Nat.mul_le_mul h (show size ex ts' + 1 ≤ size ex ts + 1 by omega)
  rw [Nat.add_mul] at h1
  omega

theorem weight_keep {k k' : Nat} {skip skip' : Bool} {ts ts' : List Tok} (hk : k' < k) (h : left ex ic ca skip' ts' ≤ left ex ic ca skip ts)
    (hm : size ex ts' ≤ size ex ts) : weight ex ic ca k' skip' ts' < weight ex ic ca k skip ts := by
  unfold weight
  have h1 := Nat.mul_le_mul h (show size ex ts' + 1 ≤ size ex ts + 1 by omega)
  omega

/-- A token which is kept. -/
theorem weight_kept {t : Tok} (ht : ex t = [t]) {skip : Bool} {rest : List Tok} :
    weight ex ic ca rest.length (skip && !Data.isUrl t) rest < weight ex ic ca (t :: rest).length skip (t :: rest) := by
  refine weight_keep (by simp) ?_ (by rw [size_cons]; omega)
  unfold left
  simp only [List.flatMap_cons, ht, List.singleton_append, live, List.countP_cons]
  omega

/-- The two tokens at the beginning of a URL are put back. -/
theorem weight_data {t t' : Tok} (ho : ex open' = [open']) (hic : ic t' = true → ic t = true) (hs : (ex t').length = (ex t).length)
    (hl : ∀ ts, live false (ex t' ++ ts) = live false (ex t ++ ts)) (hc : (ex t').countP ca ≤ (ex t).countP ca) {rest : List Tok} {k : Nat} :
    weight ex ic ca (open' :: t' :: rest).length true (open' :: t' :: rest) < weight ex ic ca k false (open' :: t :: rest) := by
  have hu : Data.isUrl open' = true := by decide
  refine weight_less ?_ (by simp only [size_cons, hs]; exact Nat.le_refl _) (length_size _)
  unfold left
  have e1 : live true (open' :: (ex t' ++ rest.flatMap ex)) = live false (ex t ++ rest.flatMap ex) := by
    rw [← hl]; simp [live, hu]
  have e2 : live false (open' :: (ex t ++ rest.flatMap ex)) = 1 + live false (ex t ++ rest.flatMap ex) := by
    simp [live]
  simp only [List.flatMap_cons, ho, List.singleton_append, e1, e2, List.countP_cons, List.countP_append]
  have : (if ic t' = true then 1 else 0) ≤ (if ic t = true then 1 else 0) := by
    split
    · next h => rw [if_pos (hic h)]
    · exact Nat.zero_le _
  omega

end

/-! ## The two tokens of an image -/

theorem allot_skip (env : Data.Env) (st : Data.St) (type data : Text) : (Data.allot env st type data).2.2.skip = st.skip := by
  unfold Data.allot
  split <;> rfl

theorem announce_skip (new : Bool) (p : Text) (st : Data.St) : (Data.announce new p st).skip = st.skip := by
  unfold Data.announce
  split <;> rfl

/-- The token behind the opening is kept, or is a string and replaced by another. -/
theorem data_second {sc : Bool} {env : Env} {s s' : St} {t : Tok} {o : Option (List Tok)} (h : (data sc env).cont s t = .ok (o, s'))
    (hs : s.data.stage = some .string) (hk : s.data.stack = [open']) :
    s'.data.skip = true ∧ ∃ t', o = some [open', t'] ∧ (t' = t ∨ ∃ v v', t = .str v ∧ t' = .str v' ∧ (sc = false → 63 ∈ v')) := by
  obtain ⟨a, h1, rfl⟩ := part_cont_iff.1 h
  change Data.cont sc env.data { s.data with fs := s.fs } t = .ok (o, a) at h1
  simp only [Data.cont, hs, hk] at h1
  cases hd : Data.tokData t with
  | none => rw [hd] at h1; cases h1; exact ⟨rfl, t, rfl, .inl rfl⟩
  | some x =>
    obtain ⟨type, data⟩ := x
    obtain ⟨v, rfl⟩ : ∃ v, t = .str v := by
      cases t <;> simp [Data.tokData] at hd
      exact ⟨_, rfl⟩
    rw [hd] at h1
    cases sc with
    | true =>
      simp only [if_true] at h1
      cases h1
      refine ⟨?_, _, rfl, .inr ⟨v, _, rfl, rfl, by simp⟩⟩
      dsimp only
      rw [announce_skip, allot_skip]
    | false =>
      simp only [Bool.false_eq_true, if_false] at h1
      split at h1
      · cases h1
      · next hm =>
        cases h1
        refine ⟨?_, _, rfl, .inr ⟨v, _, rfl, rfl, fun _ => ?_⟩⟩
        · have := (make_reports (D := fun _ => True) (P := fun _ => True) hm (fun _ => ⟨trivial, fun _ _ => trivial⟩) (fun _ _ => trivial)
            (fun _ _ => trivial) (fun _ _ => trivial)).2.1
          dsimp only
          rw [this, allot_skip]
        · rw [show txt "?" = [63] from by decide]; simp

/-- The states between two rounds. -/
structure Ok (sc : Bool) (env : Env) (b : State St Tok Err) : Prop where
  open' : b.mark = none ∨ b.mark = some (data sc env) ∧ b.st.data.stage = some .string ∧ b.st.data.stack = [Ends.open'] ∧ b.st.data.skip = false

/-- The tokens which are taken. -/
def held (b : State St Tok Err) : List Tok := match b.mark with
  | none => []
  | some _ => [open']

/-- A URL is opened. -/
theorem data_first {sc : Bool} {env : Env} {s : St} (hs : s.data.stage = some .url) (hk : s.data.stack = []) :
    ∃ s', (data sc env).cont s open' = .ok (none, s') ∧ s'.data.stage = some .string ∧ s'.data.stack = [open'] ∧ s'.data.skip = s.data.skip := by
  refine ⟨{ s with data := { s.data with fs := s.fs, stage := some .string, stack := [open'] } }, ?_, rfl, rfl, rfl⟩
  refine part_cont_iff.2 ⟨{ s.data with fs := s.fs, stage := some .string, stack := [open'] }, ?_, rfl⟩
  change Data.cont sc env.data { s.data with fs := s.fs } open' = _
  simp only [Data.cont, hs, hk]
  rfl

/-! ## Scanning -/

theorem taken_scan {env : Env} {s s1 : St} {t : Tok} {m : Manip St Tok Err} (h : Taken (scanManips env) s t m s1) :
    m = data true env ∧ t = open' ∧ s.data.skip = false ∧ s1.data.stage = some .url ∧ s1.data.stack = [] ∧ s1.data.skip = false := by
  unfold scanManips at h
  cases h with
  | head h =>
    obtain ⟨a, h1, -⟩ := part_start_iff.1 h
    cases h1
  | tail h0 h =>
    obtain ⟨a0, -, rfl⟩ := part_start_iff.1 h0
    cases h with
    | head h =>
      obtain ⟨a, h1, -⟩ := part_start_iff.1 h
      change Icons.scanStart _ _ _ = _ at h1
      unfold Icons.scanStart at h1
      split at h1 <;> cases h1
    | tail h1 h =>
      obtain ⟨a1, -, rfl⟩ := part_start_iff.1 h1
      cases h with
      | head h =>
        obtain ⟨a2, h2, rfl⟩ := part_start_iff.1 h
        change Data.start { s.data with fs := _ } t = _ at h2
        unfold Data.start at h2
        split at h2
        · next v =>
          split at h2
          · cases h2
          · next hv =>
            split at h2
            · cases h2
            · next hk =>
              cases h2
              have hv := Decidable.not_not.1 hv
              subst hv
              simp only [Bool.not_eq_true] at hk
              exact ⟨rfl, rfl, hk, rfl, rfl, hk⟩
        · cases h2
      | tail h2 h =>
        cases h with
        | head h =>
          obtain ⟨a, h3, -⟩ := part_start_iff.1 h
          change Urls.start true _ _ _ = _ at h3
          rw [Urls.start_spec] at h3
          split at h3 <;> simp at h3
        | tail _ h => cases h

theorem declined_scan' {env : Env} {s s' : St} {t : Tok} (h : Declined (scanManips env) s t s') : s'.data.skip = (s.data.skip && !Data.isUrl t) := by
  unfold scanManips at h
  cases h with
  | cons h0 h =>
    obtain ⟨a0, -, rfl⟩ := part_start_iff.1 h0
    cases h with
    | cons h1 h =>
      obtain ⟨a1, -, rfl⟩ := part_start_iff.1 h1
      cases h with
      | cons h2 h =>
        obtain ⟨a2, h2', rfl⟩ := part_start_iff.1 h2
        cases h with
        | cons h3 h =>
          obtain ⟨a3, -, rfl⟩ := part_start_iff.1 h3
          cases h
          change Data.start { s.data with fs := _ } t = _ at h2'
          dsimp only
          unfold Data.start at h2'
          split at h2'
          · next v =>
            split at h2'
            · next hv =>
              cases h2'
              have : Data.isUrl (.function v) = false := decide_eq_false (by rintro ⟨⟩; exact hv rfl)
              simp [this]
            · next hv =>
              have hv := Decidable.not_not.1 hv
              subst hv
              split at h2'
              · next hk => cases h2'; rw [show Data.isUrl (.function (txt "url")) = true from rfl]; simp
              · cases h2'
          · next ht =>
            cases h2'
            have : Data.isUrl t = false := by
              unfold Data.isUrl; rw [decide_eq_false_iff_not]; exact ht _
            simp [this]

/-- Scanning, every token is counted for itself. -/
def scanWeight (b : State St Tok Err) (rest : List Tok) : Nat :=
  weight (fun t => [t]) (fun _ => false) (fun _ => false) rest.length b.st.data.skip (held b ++ rest)

theorem live_str (h : Bool) (v v' : Text) (ts : List Tok) : live h (.str v :: ts) = live h (.str v' :: ts) := by
  have h1 : ∀ v, Data.isUrl (.str v) = false := fun v => rfl
  have h2 : ∀ v, Tok.str v ≠ open' := fun v => by simp [open']
  simp only [live, h1, h2, false_and, if_false]

theorem scan_step (env : Env) (b : State St Tok Err) (t : Tok) (rest stack' : List Tok) (b' : State St Tok Err)
    (hb : Ok true env b) (h : Build.round (scanManips env) b t rest = .ok (stack', b')) :
    Ok true env b' ∧ scanWeight b' stack' < scanWeight b (t :: rest) := by
  obtain ⟨o, mark, st⟩ := b
  rcases hb.open' with hm | ⟨hm, h1, h2, h3⟩
  · dsimp only at hm
    subst hm
    simp only [Build.round] at h
    cases hf : findMark (scanManips env) st t with
    | error e => rw [hf] at h; cases h
    | ok x =>
      obtain ⟨m, s1⟩ := x
      rw [hf] at h
      cases m with
      | none =>
        cases h
        have := declined_scan' (findMark_none.1 hf)
        refine ⟨⟨.inl rfl⟩, ?_⟩
        simp only [scanWeight, held, List.nil_append, this]
        exact weight_kept rfl
      | some m =>
        obtain ⟨rfl, rfl, q1, q2, q3, q4⟩ := taken_scan (findMark_some.1 hf)
        obtain ⟨s2, r1, r2, r3, r4⟩ := data_first (sc := true) (env := env) q2 q3
        simp only [continueMark, r1] at h
        cases h
        refine ⟨⟨.inr ⟨rfl, r2, r3, r4.trans q4⟩⟩, ?_⟩
        simp only [scanWeight, held, List.singleton_append, List.nil_append, r4, q4, q1]
        exact weight_keep (by simp) (Nat.le_refl _) (Nat.le_refl _)
  · dsimp only at hm h1 h2 h3
    subst hm
    simp only [Build.round, continueMark] at h
    split at h
    · cases h
    · next r s' hc =>
      obtain ⟨q1, t', q2, q3⟩ := data_second hc h1 h2
      cases q2
      cases h
      refine ⟨⟨.inl rfl⟩, ?_⟩
      simp only [scanWeight, held, List.singleton_append, List.nil_append, List.cons_append, q1, h3]
      refine weight_data (ex := fun t => [t]) (t := t) (t' := t') rfl id rfl (fun ts => ?_) (by simp)
      rcases q3 with rfl | ⟨v, v', rfl, rfl, -⟩
      · rfl
      · exact live_str _ _ _ _
    · next s' hc =>
      obtain ⟨-, t', q2, -⟩ := data_second hc h1 h2
      cases q2

/-! ## Building -/

/-- The tokens of an icon. -/
def expand (env : Icons.Env) (t : Tok) : List Tok :=
  match Icons.getIcon env t with
  | .ok (some i) => match Icons.output i with
    | .ok ts => ts
    | .error _ => [t]
  | _ => [t]

def isIcon (env : Icons.Env) (t : Tok) : Bool :=
  match Icons.getIcon env t with
  | .ok (some _) => true
  | _ => false

/-- The token may get the hash of a file. -/
def cand (env : Urls.Env) : Tok → Bool
  | .str v => (Urls.hashOf env v).isSome
  | .url v => (Urls.hashOf env v).isSome
  | _ => false

theorem hashOf_query {env : Urls.Env} {v : Text} (h : 63 ∈ v) : Urls.hashOf env v = none := by
  unfold Urls.hashOf
  split
  · rfl
  · split
    · rfl
    · simp only [if_pos h]

theorem iconDecls_quiet (size path : Text) (v : Text) : Tok.comment v ∉ Icons.iconDecls size path := by
  simp [Icons.iconDecls, Icons.decl, Icons.indent, Icons.word, Icons.sp, Icons.sizeVar, Icons.urlTo]

theorem block_quiet {sel : Text} {body : List Tok} {v : Text} (h : Tok.comment v ∉ body) : Tok.comment v ∉ Icons.block sel body := by
  simp [Icons.block, Icons.sp, h]

theorem iconClasses_quiet (i : Icons.Icon) (v : Text) : Tok.comment v ∉ Icons.iconClasses i := by
  unfold Icons.iconClasses
  have : ∀ (l : List (Text × Text)) (acc : List Tok), Tok.comment v ∉ acc →
      Tok.comment v ∉ l.foldl (fun acc x => (if acc = [] then acc else acc ++ [Icons.gap]) ++ Icons.iconClass i x.1 x.2) acc := by
    intro l
    induction l with
    | nil => intro acc ha; exact ha
    | cons x l ih =>
      intro acc ha
      refine ih _ ?_
      rw [List.mem_append]
      rintro (h | h)
      · split at h
        · exact ha h
        · simp [Icons.gap] at h; exact ha h
      · exact block_quiet (iconDecls_quiet _ _ _) h
  exact this _ _ (by simp)

theorem buttonClass_quiet (i : Icons.Icon) (size suffix : Text) (b : Icons.Button) (v : Text) : Tok.comment v ∉ Icons.buttonClass i size suffix b := by
  have app : ∀ {a b : List Tok}, Tok.comment v ∉ a → Tok.comment v ∉ b → Tok.comment v ∉ a ++ b := by
    intro a b h1 h2 h
    rcases List.mem_append.1 h with h | h
    · exact h1 h
    · exact h2 h
  have gap : Tok.comment v ∉ [Icons.gap] := by simp [Icons.gap]
  have dec : ∀ (a b : String), Tok.comment v ∉ Icons.decl a [Icons.word b] := by
    intro a b; simp [Icons.decl, Icons.indent, Icons.word, Icons.sp]
  have img : ∀ (a : String) (p : Text), Tok.comment v ∉ Icons.decl a (Icons.urlTo p) := by
    intro a p; simp [Icons.decl, Icons.indent, Icons.word, Icons.sp, Icons.urlTo]
  unfold Icons.buttonClass
  dsimp only
  repeat' first
    | exact gap
    | exact dec _ _
    | exact img _ _
    | exact iconDecls_quiet _ _ _
    | apply block_quiet
    | apply app

theorem output_quiet {i : Icons.Icon} {ts : List Tok} (h : Icons.output i = .ok ts) (v : Text) : Tok.comment v ∉ ts := by
  have hn : ∀ (size : Text) (named : List (Text × Icons.Entry)) ts, Icons.namedClasses i size named = .ok ts → Tok.comment v ∉ ts := by
    intro size named
    induction named with
    | nil => intro ts h; cases h; simp
    | cons x named ih =>
      intro ts hts
      obtain ⟨iden, e⟩ := x
      cases e with
      | letter _ => cases hts
      | button b =>
        simp only [Icons.namedClasses] at hts
        split at hts
        · cases hts
        · next h1 =>
          cases hts
          rw [List.mem_append]
          rintro (h | h)
          · exact buttonClass_quiet _ _ _ _ _ h
          · exact ih _ h1 h
  unfold Icons.output at h
  split at h
  · cases h; exact iconClasses_quiet i v
  · next d named hb =>
    have hbs : ∀ (sizes : List Text) ts, Icons.buttonClasses i d named sizes = .ok ts → Tok.comment v ∉ ts := by
      intro sizes
      induction sizes with
      | nil => intro ts h; cases h; simp
      | cons s sizes ih =>
        intro ts hts
        simp only [Icons.buttonClasses] at hts
        split at hts
        · cases hts
        · next h1 =>
          split at hts
          · cases hts
          · next h2 =>
            cases hts
            rw [List.mem_append, List.mem_append]
            rintro ((h | h) | h)
            · split at h
              · exact buttonClass_quiet _ _ _ _ _ h
              · simp at h
            · exact hn _ _ _ h1 h
            · exact ih _ h2 h
    split at h
    · cases h
    · next h1 =>
      cases h
      rw [List.mem_append]
      rintro (h | h)
      · exact iconClasses_quiet _ _ h
      · exact hbs _ _ h1 h

theorem noIcon {env : Icons.Env} {t : Tok} (h : ∀ v, t ≠ .comment v) : Icons.getIcon env t = .ok none := by
  cases t <;> first | rfl | exact absurd rfl (h _)

theorem noImport {env : Nest.Env} {t : Tok} (h : ∀ v, t ≠ .comment v) : Nest.getImport env t = none := by
  cases t <;> first | rfl | exact absurd rfl (h _)

theorem expand_none {env : Icons.Env} {t : Tok} (h : Icons.getIcon env t = .ok none) : expand env t = [t] := by
  unfold expand; rw [h]

theorem isIcon_none {env : Icons.Env} {t : Tok} (h : Icons.getIcon env t = .ok none) : isIcon env t = false := by
  unfold isIcon; rw [h]

def buildWeight (env : Env) (b : State St Tok Err) (rest : List Tok) : Nat :=
  weight (expand env.icon) (isIcon env.icon) (cand env.urls) rest.length b.st.data.skip (held b ++ rest)

/-- No token is a command to import a rule. -/
def NoImports (env : Nest.Env) (ts : List Tok) : Prop := ∀ t ∈ ts, Nest.getImport env t = none

theorem build_step' (n : Nat) (env : Env) (b : State St Tok Err) (t : Tok) (rest stack' : List Tok) (b' : State St Tok Err)
    (hb : Ok false env b) (hi0 : b.mark = none → Nest.getImport env.nest t = none) (h : Build.round (buildManips n env) b t rest = .ok (stack', b')) :
    (Ok false env b' ∧ ∃ new, stack' = new ++ rest ∧ (NoImports env.nest new ∨ new = [open', t])) ∧ buildWeight env b' stack' < buildWeight env b (t :: rest) := by
  obtain ⟨o, mark, st⟩ := b
  have ho : expand env.icon open' = [open'] := rfl
  rcases hb.open' with hm | ⟨hm, h1, h2, h3⟩
  · dsimp only at hm
    subst hm
    replace hi0 := hi0 rfl
    simp only [Build.round] at h
    cases hf : findMark (buildManips n env) st t with
    | error e => rw [hf] at h; cases h
    | ok x =>
      obtain ⟨m, s1⟩ := x
      rw [hf] at h
      cases m with
      | none =>
        cases h
        obtain ⟨-, -, q1, rfl⟩ := declined_cases (findMark_none.1 hf)
        refine ⟨⟨⟨.inl rfl⟩, [], rfl, .inl fun _ hx => by simp at hx⟩, ?_⟩
        simp only [buildWeight, held, List.nil_append]
        exact weight_kept (expand_none q1)
      | some m =>
        rcases taken_cases (findMark_some.1 hf) with ⟨-, r, q, -⟩ | ⟨rfl, i, q, rfl⟩ | ⟨rfl, rfl, q, rfl⟩ | ⟨rfl, v, p, q1, q2, rfl⟩
        · rw [hi0] at q; cases q
        · simp only [continueMark] at h
          have hic : isIcon env.icon t = true := by unfold isIcon; rw [q]
          split at h
          · cases h
          · next r s2 hc =>
            obtain ⟨a, hc', rfl⟩ := part_cont_iff.1 hc
            obtain ⟨i', ts, q', q1, q2, -⟩ := icons_cont hc'
            change Icons.getIcon env.icon t = _ at q'
            rw [q] at q'
            cases q'
            cases q1
            cases h
            have hq := output_quiet q2
            have hex : expand env.icon t = r := by unfold expand; rw [q]; dsimp only; rw [q2]
            have hno : ∀ x ∈ r, ∀ v, x ≠ Tok.comment v := fun x hx v hv => hq v (hv ▸ hx)
            have hal : ∀ x ∈ r, expand env.icon x = [x] := fun x hx => expand_none (noIcon (hno x hx))
            refine ⟨⟨⟨.inl rfl⟩, _, rfl, .inl fun x hx => noImport (hno x hx)⟩, ?_⟩
            · simp only [buildWeight, held, List.nil_append]
              refine weight_less ?_ ?_ (length_size _)
              · unfold left
                rw [List.flatMap_append, List.flatMap_cons, flat_alone hal, hex, List.countP_append, List.countP_cons, hic]
                have : r.countP (isIcon env.icon) = 0 := by
                  rw [List.countP_eq_zero]
                  intro x hx
                  rw [isIcon_none (noIcon (hno x hx))]; simp
                simp only [this, if_true]
                omega
              · rw [size_append, size_cons, size_alone hal, hex]; omega
          · next s2 hc =>
            obtain ⟨a, hc', rfl⟩ := part_cont_iff.1 hc
            obtain ⟨i', ts, q', q1, q2, -⟩ := icons_cont hc'
            cases q1
        · obtain ⟨s2, r1, r2, r3, r4⟩ := data_first (sc := false) (env := env) (s := { st with
            icon := { st.icon with fs := st.fs }, data := { st.data with fs := st.fs, stage := some .url, stack := [] } }) rfl rfl
          simp only [continueMark] at h
          unfold open' at r1
          rw [r1] at h
          cases h
          refine ⟨⟨⟨.inr ⟨rfl, r2, r3, r4.trans q⟩⟩, [], rfl, .inl fun _ hx => by simp at hx⟩, ?_⟩
          simp only [buildWeight, held, List.singleton_append, List.nil_append, r4, q]
          exact weight_keep (by simp) (Nat.le_refl _) (Nat.le_refl _)
        · simp only [continueMark] at h
          split at h
          · cases h
          · next r s2 hc =>
            obtain ⟨a, hc', rfl⟩ := part_cont_iff.1 hc
            obtain ⟨x, e1, rfl⟩ := urls_cont q1 q2 hc'
            cases e1
            cases h
            have hq : (63 : Nat) ∈ v ++ txt "?" ++ x := by rw [show txt "?" = [63] from by decide]; simp
            have key : ∀ t', (t = .str v ∧ t' = .str (v ++ txt "?" ++ x)) ∨ (t = .url v ∧ t' = .url (v ++ txt "?" ++ x)) →
                NoImports env.nest [t'] ∧ weight (expand env.icon) (isIcon env.icon) (cand env.urls) ([t'] ++ rest).length st.data.skip ([t'] ++ rest) <
                  weight (expand env.icon) (isIcon env.icon) (cand env.urls) (t :: rest).length st.data.skip (t :: rest) := by
              intro t' ht
              have f1 : Nest.getImport env.nest t' = none ∧ expand env.icon t = [t] ∧ expand env.icon t' = [t'] ∧ isIcon env.icon t = false ∧ isIcon env.icon t' = false ∧
                  cand env.urls t = true ∧ cand env.urls t' = false ∧ Data.isUrl t = false ∧ Data.isUrl t' = false ∧ t ≠ open' ∧ t' ≠ open' := by
                rcases ht with ⟨rfl, rfl⟩ | ⟨rfl, rfl⟩
                · exact ⟨rfl, rfl, rfl, rfl, rfl, by simp [cand, q2], by simp only [cand, hashOf_query hq]; rfl, rfl, rfl, by simp [open'], by simp [open']⟩
                · exact ⟨rfl, rfl, rfl, rfl, rfl, by simp [cand, q2], by simp only [cand, hashOf_query hq]; rfl, rfl, rfl, by simp [open'], by simp [open']⟩
              obtain ⟨f1, f2, f3, f4, f5, f6, f7, f8, f9, f10, f11⟩ := f1
              refine ⟨fun y hy => ?_, weight_less ?_ ?_ (length_size _)⟩
              · rcases List.mem_singleton.1 hy with rfl
                exact f1
              · unfold left
                simp only [List.singleton_append, List.flatMap_cons, f2, f3, live, f8, f9, f10, f11, List.countP_cons, f4, f5, f6, f7, if_true, false_and, if_false,
                  Bool.false_eq_true]
                omega
              · simp only [List.singleton_append, size_cons, f2, f3]
                simp
            have ht : (t = .str v ∧ Urls.withValue t (v ++ txt "?" ++ x) = .str (v ++ txt "?" ++ x)) ∨ (t = .url v ∧ Urls.withValue t (v ++ txt "?" ++ x) = .url (v ++ txt "?" ++ x)) := by
              rcases (Urls.urlHere_iff _ _ _).1 q1 with ⟨rfl, -⟩ | ⟨rfl, -⟩
              · exact .inl ⟨rfl, rfl⟩
              · exact .inr ⟨rfl, rfl⟩
            obtain ⟨k1, k2⟩ := key _ ht
            exact ⟨⟨⟨.inl rfl⟩, _, rfl, .inl k1⟩, k2⟩
          · next s2 hc =>
            obtain ⟨a, hc', rfl⟩ := part_cont_iff.1 hc
            obtain ⟨x, e1, -⟩ := urls_cont q1 q2 hc'
            cases e1
  · dsimp only at hm h1 h2 h3
    subst hm
    simp only [Build.round, continueMark] at h
    split at h
    · cases h
    · next r s' hc =>
      obtain ⟨q1, t', q2, q3⟩ := data_second hc h1 h2
      cases q2
      cases h
      refine ⟨⟨⟨.inl rfl⟩, _, rfl, ?_⟩, ?_⟩
      · rcases q3 with rfl | ⟨v, v', rfl, rfl, -⟩
        · exact .inr rfl
        · refine .inl fun x hx => ?_
          simp only [List.mem_cons, List.not_mem_nil, or_false] at hx
          rcases hx with rfl | rfl <;> rfl
      · simp only [buildWeight, held, List.singleton_append, List.nil_append, List.cons_append, q1, h3]
        rcases q3 with rfl | ⟨v, v', rfl, rfl, q⟩
        · exact weight_data ho id rfl (fun ts => rfl) (Nat.le_refl _)
        · refine weight_data (t := .str v) (t' := .str v') ho id rfl (fun ts => live_str _ _ _ _) ?_
          have : cand env.urls (.str v') = false := by simp only [cand, hashOf_query (q rfl)]; rfl
          rw [show expand env.icon (.str v') = [.str v'] from rfl]
          simp [this]
    · next s' hc =>
      obtain ⟨-, t', q2, -⟩ := data_second hc h1 h2
      cases q2

theorem build_step (n : Nat) (env : Env) (b : State St Tok Err) (t : Tok) (rest stack' : List Tok) (b' : State St Tok Err)
    (hb : Ok false env b ∧ NoImports env.nest (t :: rest)) (h : Build.round (buildManips n env) b t rest = .ok (stack', b')) :
    (Ok false env b' ∧ NoImports env.nest stack') ∧ buildWeight env b' stack' < buildWeight env b (t :: rest) := by
  have hi0 : Nest.getImport env.nest t = none := hb.2 t (by simp)
  obtain ⟨⟨h1, new, rfl, h2⟩, h3⟩ := build_step' n env b t rest stack' b' hb.1 (fun _ => hi0) h
  refine ⟨⟨h1, fun x hx => ?_⟩, h3⟩
  rcases List.mem_append.1 hx with hx | hx
  · rcases h2 with h2 | rfl
    · exact h2 x hx
    · simp only [List.mem_cons, List.not_mem_nil, or_false] at hx
      rcases hx with rfl | rfl
      · rfl
      · exact hi0
  · exact hb.2 x (by simp [hx])

theorem tokens_perToken (ts : List Tok) : tokensOf (perToken ts) = ts := by
  unfold perToken
  induction ts with
  | nil => rfl
  | cons t ts ih => simp only [List.flatMap_cons, List.cons_append, List.nil_append, tokensOf, ih]

/-- More steps than scanning needs for `n` tokens. -/
def scanSteps (n : Nat) : Nat := n + n * (n + 1) + 1

/-- More steps than building needs for the tokens `ts`. -/
def buildSteps (env : Icons.Env) (ts : List Tok) : Nat :=
  ts.length + (ts.length + (ts.flatMap (expand env)).length + (ts.flatMap (expand env)).length) * (size (expand env) ts + 1) + 1

theorem runOps_scan (env : Env) (fs : Fs) (ts : List Tok) :
    runOps (scanManips env) (scanSteps ts.length) (State.new (St.new fs)) [] (perToken ts) ≠ none := by
  refine runOps_ends (I := fun b _ => Ok true env b) (W := scanWeight) (scan_step env) (fun b o _ hb => ⟨hb.open'⟩) (fun _ _ _ => rfl) _ _ _ ⟨.inl rfl⟩ ?_
  rw [tokens_perToken]
  simp only [scanWeight, weight, left, held, State.new, List.nil_append, scanSteps]
  rw [flat_alone (fun _ _ => rfl), size_alone (fun _ _ => rfl)]
  have h1 := Nat.mul_le_mul (live_le ts (St.new fs).data.skip) (Nat.le_refl (ts.length + 1))
  simp only [List.countP_false, Function.const_apply, Nat.zero_add, Nat.add_zero]
  omega

theorem runOps_build (n : Nat) (env : Env) (fs : Fs) {ts : List Tok} (hi : NoImports env.nest ts) :
    runOps (buildManips n env) (buildSteps env.icon ts) (State.new (St.new fs)) [] (perToken ts) ≠ none := by
  refine runOps_ends (I := fun b rest => Ok false env b ∧ NoImports env.nest rest) (W := buildWeight env) (build_step n env)
    (fun b o _ hb => ⟨⟨hb.1.open'⟩, hb.2⟩) (fun _ _ _ => rfl) _ _ _ ⟨⟨.inl rfl⟩, by rw [tokens_perToken]; exact hi⟩ ?_
  rw [tokens_perToken]
  simp only [buildWeight, weight, left, held, State.new, List.nil_append, buildSteps]
  have h1 := live_le (ts.flatMap (expand env.icon)) (St.new fs).data.skip
  have h2 : ts.countP (isIcon env.icon) ≤ ts.length := List.countP_le_length
  have h3 : (ts.flatMap (expand env.icon)).countP (cand env.urls) ≤ (ts.flatMap (expand env.icon)).length := List.countP_le_length
  have h4 := Nat.mul_le_mul (Nat.add_le_add (Nat.add_le_add h2 h1) h3) (Nat.le_refl (size (expand env.icon) ts + 1))
  omega

end Verif.Css.Page.Ends

namespace Verif.Css.Page
open Verif.Reader (Text txt)
open Verif.Css (Tok Uni tokenize)
open Verif.Build
open Verif.Handlers (Bytes Fs)

theorem steady {α β : Type} {f : Nat → Option α} {N : Nat} {r : α} (h : ∀ k, f (N + k) = some r) (g : α → β) :
    ∃ x, ∀ fuel, N ≤ fuel → (f fuel).map g = some x :=
  ⟨g r, fun fuel hf => by obtain ⟨k, rfl⟩ := Nat.le.dest hf; rw [h k]; rfl⟩

/-- **C112** for stylesheets: scanning a stylesheet comes to an end, with a result or an exception, within a number of steps which
depends only on its text. -/
theorem C112_sheet_scan (uni : Uni) (text : Text) : ∃ N, ∀ (env : Env), env.nest.uni = uni → ∀ (rel : Text) (fs : Fs) (y : Bytes), fs rel = some y →
    env.decode y = text → ∃ r, ∀ fuel, N ≤ fuel → scanFile fuel env rel fs = some r := by
  cases ht : tokenize uni text with
  | error e =>
    refine ⟨0, fun env hu rel fs y hy hd => ⟨.error (.tokens e), fun fuel _ => ?_⟩⟩
    simp only [scanFile, hy, hd, hu, ht]
  | ok ts =>
    refine ⟨Ends.scanSteps ts.length, fun env hu rel fs y hy hd => ?_⟩
    simp only [scanFile, hy, hd, hu, ht]
    cases h : runOps (scanManips env) (Ends.scanSteps ts.length) (State.new (St.new fs)) [] (perToken ts) with
    | none => exact absurd h (Ends.runOps_scan env fs ts)
    | some r =>
      exact steady (f := fun fuel => runOps (scanManips env) fuel (State.new (St.new fs)) [] (perToken ts))
        (fun k => Js.File.runOps_mono _ _ k _ _ _ _ h) _

/-- **C112** for stylesheets without commands to import rules: building comes to an end, with a result or an exception, within a
number of steps which depends only on the text and the settings of the icons: not on the other files or their hashes. -/
theorem C112_sheet_partial (uni : Uni) (icon : Icons.Env) (text : Text) : ∃ N, ∀ (env : Env), env.nest.uni = uni → env.icon = icon →
    ∀ (rel : Text) (fs : Fs) (y : Bytes), fs rel = some y → env.decode y = text →
    (∀ ts, tokenize uni text = .ok ts → ∀ r, ¬ Nest.Imports env.nest ts r) →
    ∀ n, ∃ r, ∀ fuel, N ≤ fuel → buildFile fuel n env rel fs = some r := by
  cases ht : tokenize uni text with
  | error e =>
    refine ⟨0, fun env hu hic rel fs y hy hd hi n => ?_⟩
    simp only [buildFile, hy, hd, hu, ht]
    cases Handlers.copyTarget rel <;> exact ⟨_, fun _ _ => rfl⟩
  | ok ts =>
    refine ⟨Ends.buildSteps icon ts, fun env hu hic rel fs y hy hd hi n => ?_⟩
    simp only [buildFile, hy, hd, hu, ht]
    cases Handlers.copyTarget rel with
    | none => exact ⟨_, fun _ _ => rfl⟩
    | some target =>
      dsimp only
      have hn : Ends.NoImports env.nest ts := by
        intro t htm
        cases hg : Nest.getImport env.nest t with
        | none => rfl
        | some r => exact absurd ⟨t, htm, hg⟩ (hi ts rfl r)
      cases h : runOps (buildManips n env) (Ends.buildSteps icon ts) (State.new (St.new fs)) [] (perToken ts) with
      | none => subst hic; exact absurd h (Ends.runOps_build n env fs hn)
      | some r =>
        exact steady (f := fun fuel => runOps (buildManips n env) fuel (State.new (St.new fs)) [] (perToken ts))
          (fun k => Js.File.runOps_mono _ _ k _ _ _ _ h) _

end Verif.Css.Page
