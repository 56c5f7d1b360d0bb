import Verif.JsonDump
import Verif.External
/-!
# The text of the state of external files

build_context.py:37-80, file_signature.py:24-31 and where the text is written and read
(cold_incremental_rebuild.py:126-128, 186-188).
-/
namespace Verif.Ext
open Verif Verif.Reader Verif.JsonText

/-- `dataclasses.asdict` of a `FileSignature`; `F.shown` is Python's text of a float. -/
def sigValue (F : Floats) (s : Sig) : Value :=
  .obj [(txt "mtime", .float (F.shown s.mtime)), (txt "filesize", .int s.filesize), (txt "inode", .int s.inode)]

/-- `dataclasses.asdict` of an `ExternalFileState`, build_context.py:37-52. -/
def recValue (F : Floats) (p : String × Rec) : Value :=
  .obj [(txt "relpath", .str (txt p.1)), (txt "integrity", .str (txt p.2.integrity)), (txt "signature", sigValue F p.2.sig)]

/-- `dataclasses.asdict` of an `ExternalFilesState`, build_context.py:64-70. -/
def stateValue (F : Floats) (d : Dict Rec) : Value :=
  .obj [(txt "state_by_relpath", .obj (d.map fun p => (txt p.1, recValue F p)))]

/-- cold_incremental_rebuild.py:187-188 -/
def stateText (F : Floats) (d : Dict Rec) : Text := dump none 0 (stateValue F d)

/-- file_signature.py:24-31.  Python does not look at the types; here they are numbers. -/
def loadSig (F : Floats) (v : Value) : Option Sig := do
  let mtime ← (← v.key "mtime").num F
  let filesize ← (← v.key "filesize").asInt
  let inode ← (← v.key "inode").asInt
  pure ⟨filesize, mtime, inode⟩

/-- build_context.py:54-61 -/
def loadRec (F : Floats) (v : Value) : Option (String × Rec) := do
  let relpath ← (← v.key "relpath").asStr
  let integrity ← (← v.key "integrity").asStr
  let sig ← loadSig F (← v.key "signature")
  pure (relpath, ⟨integrity, sig⟩)

/-- build_context.py:72-80.  The `relpath` of a state is not used by anything and is only read. -/
def loadState (F : Floats) (v : Value) : Option (Dict Rec) := do
  match ← v.key "state_by_relpath" with
  | .obj items => items.mapM fun p => (loadRec F p.2).map fun r => (untxt p.1, r.2)
  | _ => none

/-- cold_incremental_rebuild.py:127-128 `ExternalFilesState.from_json(json.load(f))` -/
def readState (F : Floats) (t : Text) : Except Err (Dict Rec) :=
  match loads t with
  | .error _ => .error .valueError
  | .ok v => match loadState F v with
    | some d => .ok d
    | none => .error .valueError

/-- Python shows each recorded time as the text of a float, which is read as that time. -/
def Shown (F : Floats) (d : Dict Rec) : Prop :=
  ∀ p ∈ d, number (F.shown p.2.sig.mtime) = some (.float (F.shown p.2.sig.mtime), []) ∧ F.read (F.shown p.2.sig.mtime) = some p.2.sig.mtime

theorem genuine_rec {F : Floats} {p : String × Rec} (h : number (F.shown p.2.sig.mtime) = some (.float (F.shown p.2.sig.mtime), [])) :
    Genuine (recValue F p) := by
  simp only [recValue, sigValue, Genuine, GenuinePairs, List.map_cons, List.map_nil]
  exact ⟨⟨plain_txt _, plain_txt _, plain_txt _, plain_txt _, plain_txt _,
    ⟨⟨plain_txt _, h, plain_txt _, trivial, plain_txt _, trivial, trivial⟩, by decide⟩, trivial⟩, by decide⟩

theorem genuine_recs {F : Floats} : ∀ {d : Dict Rec}, Shown F d → GenuinePairs (d.map fun p => (txt p.1, recValue F p))
  | [], _ => by simp [GenuinePairs]
  | p :: d, h => by
    simp only [List.map_cons, GenuinePairs]
    exact ⟨plain_txt _, genuine_rec (h p (List.mem_cons_self ..)).1, genuine_recs fun q hq => h q (List.mem_cons_of_mem _ hq)⟩

theorem genuine_state {F : Floats} {d : Dict Rec} (h : Shown F d) (hn : d.NodupKeys) : Genuine (stateValue F d) := by
  have h1 := genuine_recs h
  simp only [stateValue, Genuine, GenuinePairs, List.map_cons, List.map_nil]
  refine ⟨⟨plain_txt _, ⟨h1, ?_⟩, trivial⟩, by simp⟩
  have : ((d.map (·.1)).map txt).Nodup := List.Nodup.map (fun _ _ => txt_inj) hn
  simpa [List.map_map, Function.comp_def] using this

theorem loadRec_value {F : Floats} {p : String × Rec} (h : F.read (F.shown p.2.sig.mtime) = some p.2.sig.mtime) :
    loadRec F (recValue F p) = some p := by
  have k1 : (recValue F p).key "relpath" = some (.str (txt p.1)) := rfl
  have k2 : (recValue F p).key "integrity" = some (.str (txt p.2.integrity)) := rfl
  have k3 : (recValue F p).key "signature" = some (sigValue F p.2.sig) := rfl
  have k4 : (sigValue F p.2.sig).key "mtime" = some (.float (F.shown p.2.sig.mtime)) := rfl
  have k5 : (sigValue F p.2.sig).key "filesize" = some (.int p.2.sig.filesize) := rfl
  have k6 : (sigValue F p.2.sig).key "inode" = some (.int p.2.sig.inode) := rfl
  unfold loadRec loadSig
  simp only [k1, k2, k3, k4, k5, k6, h, Value.num, Value.asInt, Value.asStr, untxt_txt, Option.bind_eq_bind, Option.bind_some, Option.pure_def]

theorem loadState_value {F : Floats} {d : Dict Rec} (h : Shown F d) : loadState F (stateValue F d) = some d := by
  have k : (stateValue F d).key "state_by_relpath" = some (.obj (d.map fun p => (txt p.1, recValue F p))) := rfl
  unfold loadState
  simp only [k, Option.bind_eq_bind, Option.bind_some]
  clear k
  induction d with
  | nil => rfl
  | cons p d ih =>
    have h1 := loadRec_value (h p (List.mem_cons_self ..)).2
    have := ih (fun q hq => h q (List.mem_cons_of_mem _ hq))
    rw [List.map_cons, List.mapM_cons, this]
    simp only [h1, Option.map_some, untxt_txt]
    rfl

/-- C114: the state of external files is read as it was written. -/
theorem C114_state {F : Floats} {d : Dict Rec} (h : Shown F d) (hn : d.NodupKeys) : readState F (stateText F d) = .ok d := by
  unfold readState stateText
  rw [loads_dump (genuine_state h hn) trivial]
  simp only [loadState_value h]

/-- C114: a state of which only the beginning was written is refused. -/
theorem C114_torn_state {F : Floats} {d : Dict Rec} (h : Shown F d) (hn : d.NodupKeys) {p s : Text} (hp : p ++ s = stateText F d)
    (hs : s ≠ []) : readState F p = .error .valueError := by
  have : loads p = .error .decode :=
    torn_dump (k := none) (by have := genuine_state h hn; unfold stateValue at this; exact this) hp hs
  unfold readState
  rw [this]

/-- What a state file in the model of C22 and C23 is. -/
def StateFile.Is (F : Floats) (file : Option Text) : StateFile → Prop
  | .missing => file = none
  | .torn => ∃ d p s, Shown F d ∧ d.NodupKeys ∧ s ≠ [] ∧ p ++ s = stateText F d ∧ file = some p
  | .has d => Shown F d ∧ d.NodupKeys ∧ file = some (stateText F d)

/-- cold_incremental_rebuild.py:125-128, on the text of the file. -/
def loadFile (F : Floats) : Option Text → Except Err (Dict Rec)
  | none => .ok []
  | some t => readState F t

/-- C114: the states of the file in the model of external files are what its text is read as. -/
theorem C114_statefile {F : Floats} {file : Option Text} {s : StateFile} (h : s.Is F file) : loadFile F file = s.load := by
  cases s with
  | missing => simp only [StateFile.Is] at h; rw [h, loadFile, StateFile.load]
  | torn =>
    simp only [StateFile.Is] at h
    obtain ⟨d, p, s, h1, h2, h3, h4, h5⟩ := h
    rw [h5, loadFile, StateFile.load, C114_torn_state h1 h2 h4 h3]
  | has d =>
    simp only [StateFile.Is] at h
    obtain ⟨h1, h2, h3⟩ := h
    rw [h3, loadFile, StateFile.load, C114_state h1 h2]

/-! ## A case -/

def floats : Floats := ⟨fun q => if q = 3 / 2 then txt "1.5" else txt "0.0", fun t => if t = txt "1.5" then some (3 / 2) else some 0⟩

def demo : Dict Rec := [("out/a.js", ⟨"sha384-x", ⟨7, 3 / 2, 12⟩⟩), ("b.css", ⟨"sha256-y", ⟨0, 0, -1⟩⟩)]

theorem demo_shown : Shown floats demo := by
  intro p hp
  simp only [demo, List.mem_cons, List.not_mem_nil, or_false] at hp
  rcases hp with rfl | rfl
  · have h : floats.shown (3 / 2) = [49, 46, 53] := by decide +kernel
    simp only [h]
    exact ⟨rfl, by decide +kernel⟩
  · have h : floats.shown 0 = [48, 46, 48] := by decide +kernel
    simp only [h]
    exact ⟨rfl, by decide +kernel⟩

theorem demo_head : ∃ q, q ≠ [] ∧ [123] ++ q = stateText floats demo := by
  refine ⟨newline none 1 ++ (dumpStr (txt "state_by_relpath") ++ 58 :: 32 ::
    (dump none 1 (.obj (demo.map fun p => (txt p.1, recValue floats p))) ++ (dumpPairs none 1 [] ++ (newline none 0 ++ [125])))), by simp [dumpStr], ?_⟩
  rw [stateText, stateValue, dump]
  simp only [List.singleton_append, Nat.zero_add]

theorem demo_nodup : demo.NodupKeys := by
  show (["out/a.js", "b.css"] : List String).Nodup
  decide

theorem C114_state_case : (StateFile.has demo).Is floats (some (stateText floats demo)) ∧
    StateFile.torn.Is floats (some [123]) ∧ loadFile floats (some (stateText floats demo)) = .ok demo ∧
    loadFile floats (some [123]) = .error .valueError := by
  have h1 : (StateFile.has demo).Is floats (some (stateText floats demo)) := ⟨demo_shown, demo_nodup, rfl⟩
  have h2 : StateFile.torn.Is floats (some [123]) := by
    obtain ⟨q, h1, h2⟩ := demo_head
    exact ⟨demo, [123], q, demo_shown, demo_nodup, h1, h2, rfl⟩
  exact ⟨h1, h2, C114_statefile h1, C114_statefile h2⟩

end Verif.Ext
