import Verif.Static
/-!
# C109: a reload shows the current file

`StaticFiles` answers a request which comes with the marks of a kept copy with 304 if the copy is still good
(starlette 0.20.4, starlette/staticfiles.py: `file_response`, `is_not_modified`; starlette/responses.py:
`FileResponse.set_stat_headers`).  `host_static_files` (vanillaplusjs/http_server.py:32-36) uses it as it is, in the watch mode
while the files are written again and again (vanillaplusjs/runners/dev.py:108-152).

One file is looked at.  Times are nanoseconds.  The header last-modified has seconds (`formatdate`); the header etag is the digest of
the exact time and the size, here an arbitrary function.  The browser sends both marks of the copy it keeps, and shows what it kept
when the answer is 304; it always asks (a reload; when browsers use a kept copy without asking is not modelled).
-/
namespace Verif.Reload
open Verif.Reader (Text)
open Verif.Handlers (Bytes)

/-- A file as it is on disk. -/
structure File where
  content : Bytes
  /-- `st_mtime` in nanoseconds -/
  mtime : Nat
deriving DecidableEq, Repr

/-- The whole seconds of a time, `formatdate`. -/
def seconds (t : Nat) : Nat := t / 1000000000

/-- The headers etag and last-modified. -/
structure Marks where
  etag : Text
  modified : Nat
deriving DecidableEq, Repr

/-- `FileResponse.set_stat_headers`; `digest` is applied to the time and the size. -/
def marks (digest : Nat → Nat → Text) (f : File) : Marks := ⟨digest f.mtime f.content.length, seconds f.mtime⟩

/-- `StaticFiles.is_not_modified`: if the tags are not the same, the times decide. -/
def isNotModified (response : Marks) (request : Option Marks) : Bool :=
  match request with
  | none => false
  | some r => if r.etag = response.etag then true else decide (response.modified ≤ r.modified)

/-- `StaticFiles.file_response`: nothing is 304. -/
def answer (digest : Nat → Nat → Text) (f : File) (request : Option Marks) : Option (Bytes × Marks) :=
  if isNotModified (marks digest f) request then none else some (f.content, marks digest f)

/-- The file and the copy the browser keeps. -/
structure State where
  file : File
  kept : Option (Bytes × Marks)
deriving DecidableEq, Repr

/-- What happens, and when. -/
inductive Act where
  /-- a build writes the file -/
  | write (time : Nat) (content : Bytes)
  /-- the browser asks for it -/
  | reload (time : Nat)
deriving DecidableEq, Repr

def Act.time : Act → Nat
  | .write t _ => t
  | .reload t => t

/-- What the browser shows after a reload, and keeps. -/
def shown (digest : Nat → Nat → Text) (s : State) : Option (Bytes × Marks) :=
  match answer digest s.file (s.kept.map (·.2)) with
  | some new => some new
  | none => s.kept

def step (digest : Nat → Nat → Text) (s : State) : Act → State
  | .write t c => { s with file := ⟨c, t⟩ }
  | .reload _ => { s with kept := shown digest s }

def run (digest : Nat → Nat → Text) (s : State) (acts : List Act) : State := acts.foldl (step digest) s

/-! ## Specification -/

/-- Time does not go back. -/
def InOrder (acts : List Act) : Prop := acts.Pairwise fun a b => a.time ≤ b.time

/-- Nothing is looked at in the second in which it was written. -/
def Unhurried (acts : List Act) : Prop :=
  acts.Pairwise fun a b => ∀ t c u, a = .write t c → b = .reload u → seconds t < seconds u

/-- The digests of times in different seconds are different. -/
def Distinct (digest : Nat → Nat → Text) : Prop := ∀ t n u m, digest t n = digest u m → seconds t = seconds u

/-- What was written last. -/
def current (first : Bytes) (acts : List Act) : Bytes :=
  acts.foldl (fun b a => match a with | .write _ c => c | .reload _ => b) first

/-! ## The theorems -/

theorem seconds_mono {t u : Nat} (h : t ≤ u) : seconds t ≤ seconds u := Nat.div_le_div_right h

theorem run_content (digest : Nat → Nat → Text) (acts : List Act) (s : State) :
    (run digest s acts).file.content = current s.file.content acts := by
  induction acts generalizing s with
  | nil => rfl
  | cons a acts ih =>
    have := ih (step digest s a)
    unfold run current at this ⊢
    rw [List.foldl_cons, List.foldl_cons, this]
    cases a <;> rfl

/-- What is kept is the file as it is, or an older one, in the marks too. -/
def Good (digest : Nat → Nat → Text) (s : State) : Prop :=
  ∀ b m, s.kept = some (b, m) → (b = s.file.content ∧ m = marks digest s.file) ∨
    ((∃ f : File, m = marks digest f) ∧ m.modified < seconds s.file.mtime)

theorem good_shown {digest : Nat → Nat → Text} (hd : Distinct digest) {s : State} (h : Good digest s) :
    shown digest s = some (s.file.content, marks digest s.file) := by
  unfold shown answer
  cases hk : s.kept with
  | none => simp [isNotModified]
  | some k =>
    obtain ⟨b, m⟩ := k
    rcases h b m hk with ⟨rfl, rfl⟩ | ⟨⟨f, rfl⟩, hlt⟩
    · simp [isNotModified]
    · have hne : (marks digest f).etag ≠ (marks digest s.file).etag := by
        intro he
        have : seconds f.mtime = seconds s.file.mtime := hd _ _ _ _ he
        have h2 : seconds f.mtime < seconds s.file.mtime := hlt
        omega
      have h2 : ¬ (marks digest s.file).modified ≤ (marks digest f).modified := Nat.not_le.2 hlt
      simp [isNotModified, hne, h2]

theorem good_run {digest : Nat → Nat → Text} (hd : Distinct digest) : ∀ (acts : List Act) (s : State), Good digest s →
    InOrder acts → Unhurried acts → (∀ a ∈ acts, s.file.mtime ≤ a.time) →
    (∀ a ∈ acts, ∀ u, a = .reload u → seconds s.file.mtime < seconds u) →
    (∀ b m, s.kept = some (b, m) → ∀ a ∈ acts, m.modified < seconds a.time) → Good digest (run digest s acts)
  | [], _, h, _, _, _, _, _ => h
  | a :: acts, s, h, ho, hu, hm, hs, hk => by
    unfold InOrder at ho
    unfold Unhurried at hu
    rw [List.pairwise_cons] at ho hu
    have e : run digest s (a :: acts) = run digest (step digest s a) acts := rfl
    rw [e]
    cases a with
    | write t c =>
      refine good_run hd acts _ ?_ ho.2 hu.2 (fun b hb => ho.1 b hb) (fun b hb u hbu => hu.1 b hb t c u rfl hbu)
        (fun b m hkm x hx => hk b m hkm x (by simp [hx]))
      intro b m hkm
      refine .inr ⟨?_, hk b m hkm (.write t c) (by simp)⟩
      rcases h b m hkm with ⟨_, h2⟩ | ⟨h2, _⟩
      · exact ⟨_, h2⟩
      · exact h2
    | reload t =>
      have hsh := good_shown hd h
      refine good_run hd acts _ ?_ ho.2 hu.2 (fun b hb => hm b (by simp [hb])) (fun b hb u hbu => hs b (by simp [hb]) u hbu) ?_
      · intro b m hkm
        have : shown digest s = some (b, m) := hkm
        rw [hsh] at this
        injection this with this
        injection this with h1 h2
        exact .inl ⟨h1.symm, h2.symm⟩
      · intro b m hkm x hx
        have : shown digest s = some (b, m) := hkm
        rw [hsh] at this
        injection this with this
        injection this with h1 h2
        subst h2
        have h3 := hs (.reload t) (by simp) t rfl
        have h4 : seconds t ≤ seconds x.time := seconds_mono (ho.1 x hx)
        show seconds s.file.mtime < _
        omega

/-- **C109, in part.**  However often the file is written and looked at, what a reload shows is what was written last, if nothing is
looked at in the same second in which it was written.  Missing: hurried users, `C109_false_hurried`. -/
theorem C109_reload_partial {digest : Nat → Nat → Text} (hd : Distinct digest) (first : File) (acts : List Act) (now : Nat)
    (ho : InOrder (.write first.mtime first.content :: acts ++ [.reload now]))
    (hu : Unhurried (.write first.mtime first.content :: acts ++ [.reload now])) :
    ∃ m, (run digest ⟨first, none⟩ (acts ++ [.reload now])).kept = some (current first.content acts, m) := by
  rw [List.cons_append] at ho hu
  unfold InOrder at ho
  unfold Unhurried at hu
  rw [List.pairwise_cons, List.pairwise_append] at ho hu
  have hg : Good digest (run digest ⟨first, none⟩ acts) := by
    refine good_run hd acts _ ?_ ho.2.1 hu.2.1 (fun a ha => ho.1 a (by simp [ha]))
      (fun a ha u hau => hu.1 a (by simp [ha]) _ _ u rfl hau) ?_
    · intro b m h; cases h
    · intro b m h; cases h
  have hsh := good_shown hd hg
  refine ⟨marks digest (run digest ⟨first, none⟩ acts).file, ?_⟩
  have e : run digest ⟨first, none⟩ (acts ++ [.reload now]) = step digest (run digest ⟨first, none⟩ acts) (.reload now) := by
    unfold run
    rw [List.foldl_append]
    rfl
  rw [e]
  show shown digest _ = _
  rw [hsh, run_content]

/-! ## Cases -/
namespace Case

/-- A digest which keeps the time and the size. -/
def plain (t n : Nat) : Text := [t, n]

theorem plain_distinct : Distinct plain := by
  intro t n u m h
  injection h with h _
  rw [h]

/-- The hypotheses are met: a page is loaded, changed twice within a second, and loaded again in the next one. -/
theorem C109_case :
    Distinct plain ∧
    InOrder [.write 1000000000 [1], .reload 2500000000, .write 3100000000 [2], .write 3900000000 [3], .reload 4000000000] ∧
    Unhurried [.write 1000000000 [1], .reload 2500000000, .write 3100000000 [2], .write 3900000000 [3], .reload 4000000000] ∧
    (run plain ⟨⟨[1], 1000000000⟩, none⟩ [.reload 2500000000, .write 3100000000 [2], .write 3900000000 [3], .reload 4000000000]).kept =
      some ([3], ⟨plain 3900000000 1, 3⟩) := by
  refine ⟨plain_distinct, ?_, ?_, by decide +kernel⟩
  · unfold InOrder
    simp [Act.time]
  · unfold Unhurried
    simp [seconds]

/-- **C109 fails for hurried users**: a page is written, loaded, written again and loaded again within one second.  The tags are
different, but the times in the headers are not, and they decide: the old page is shown.  It stays so however often it is loaded
again, and whatever the digest is, until it is written in another second. -/
theorem C109_false_hurried (digest : Nat → Nat → Text) (later : List Nat) :
    (run digest ⟨⟨[1], 3100000000⟩, none⟩ (.reload 3200000000 :: .write 3700000000 [2] :: later.map .reload)).kept =
      some ([1], marks digest ⟨[1], 3100000000⟩) := by
  have h : ∀ s : State, s.file = ⟨[2], 3700000000⟩ → s.kept = some ([1], marks digest ⟨[1], 3100000000⟩) →
      (run digest s (later.map .reload)).kept = some ([1], marks digest ⟨[1], 3100000000⟩) := by
    induction later with
    | nil => intro s _ h; exact h
    | cons t later ih =>
      intro s hf hk
      refine ih (step digest s (.reload t)) hf ?_
      show shown digest s = _
      unfold shown answer isNotModified
      rw [hk, hf]
      simp [marks, seconds]
  exact h _ rfl rfl

end Case
end Verif.Reload
