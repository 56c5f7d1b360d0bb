import Verif.JsonTextThm
import Verif.Crash
/-! # The text of stored graphs is plain, what a crash leaves of it, and concrete cases (C08, C113) -/
namespace Verif.JsonText
open Verif Verif.Reader

/-- A character which is the same byte in every usual encoding and does not end a line. -/
def Printable (c : Nat) : Prop := 32 ≤ c ∧ c ≤ 126

theorem printable_digit {c : Nat} (h : isDigit c = true) : Printable c := by
  have : 48 ≤ c ∧ c ≤ 57 := by simpa [isDigit] using h
  exact ⟨by omega, by omega⟩

theorem digits1_text {t ds r : Text} (h : digits1 t = some (ds, r)) : t = ds ++ r ∧ ∀ c ∈ ds, Printable c := by
  cases t with
  | nil => cases h
  | cons c t =>
    simp only [digits1] at h
    split at h
    · next hc =>
      cases h
      refine ⟨by simp, fun d hd => ?_⟩
      rcases List.mem_cons.1 hd with rfl | hd
      · exact printable_digit hc
      · exact printable_digit (by simpa using List.all_eq_true.1 (List.all_takeWhile (l := t) (p := isDigit)) d hd)
    · cases h

theorem either_text {a b : Nat} (ha : Printable a) (hb : Printable b) (t : Text) :
    t = (either a b t).1 ++ (either a b t).2 ∧ ∀ c ∈ (either a b t).1, Printable c := by
  rcases either_cases a b t with ⟨h1, h2⟩ | ⟨c, r, rfl, hc, h⟩
  · rw [h1, h2]; exact ⟨rfl, fun _ h => by cases h⟩
  · rw [h]
    refine ⟨rfl, fun d hd => ?_⟩
    simp only [List.mem_singleton] at hd
    rcases hc with rfl | rfl <;> rw [hd] <;> assumption

theorem fracPart_text (t : Text) : t = (fracPart t).1 ++ (fracPart t).2 ∧ ∀ c ∈ (fracPart t).1, Printable c := by
  unfold fracPart
  rcases he : eat 46 t with _ | r
  · exact ⟨rfl, fun _ h => by cases h⟩
  · rcases hd : digits1 r with _ | ⟨ds, r'⟩
    · simp only [hd]; exact ⟨rfl, fun _ h => by cases h⟩
    · simp only [hd]
      obtain ⟨h1, h2⟩ := digits1_text hd
      refine ⟨by rw [eat_some he, h1]; rfl, fun c hc => ?_⟩
      rcases List.mem_cons.1 hc with rfl | hc
      · exact ⟨by decide, by decide⟩
      · exact h2 c hc

theorem expPart_text (t : Text) : t = (expPart t).1 ++ (expPart t).2 ∧ ∀ c ∈ (expPart t).1, Printable c := by
  unfold expPart
  simp only
  split
  · exact ⟨rfl, fun _ h => by cases h⟩
  · rcases hd : digits1 (either 43 45 (either 101 69 t).2).2 with _ | ⟨ds, r'⟩
    · exact ⟨rfl, fun _ h => by cases h⟩
    · obtain ⟨h1, h2⟩ := digits1_text hd
      obtain ⟨h3, h4⟩ := either_text (a := 43) (b := 45) ⟨by decide, by decide⟩ ⟨by decide, by decide⟩ (either 101 69 t).2
      obtain ⟨h5, h6⟩ := either_text (a := 101) (b := 69) ⟨by decide, by decide⟩ ⟨by decide, by decide⟩ t
      refine ⟨?_, fun c hc => ?_⟩
      · rw [h1] at h3
        rw [h3] at h5
        simpa using h5
      · simp only [List.mem_append] at hc
        rcases hc with (hc | hc) | hc
        · exact h6 c hc
        · exact h4 c hc
        · exact h2 c hc

theorem number_text {t r : Text} {v : Value} (h : number t = some (v, r)) : ∃ u, t = u ++ r ∧ ∀ c ∈ u, Printable c := by
  have hu : ∀ {neg : Bool} {t : Text}, unsigned neg t = some (v, r) → ∃ u, t = u ++ r ∧ ∀ c ∈ u, Printable c := by
    intro neg t h
    rcases hi : intPart t with _ | ⟨i, q⟩
    · simp [unsigned, hi] at h
    · have hr : r = (expPart (fracPart q).2).2 := by
        simp only [unsigned, hi] at h
        split at h <;> cases h <;> rfl
      have h0 : t = i ++ q ∧ ∀ c ∈ i, Printable c := by
        unfold intPart at hi
        rcases he : eat 48 t with _ | u
        · rw [he] at hi; exact digits1_text hi
        · rw [he] at hi
          cases hi
          refine ⟨eat_some he, fun c hc => ?_⟩
          simp only [List.mem_singleton] at hc
          subst hc
          exact ⟨by decide, by decide⟩
      obtain ⟨h1, h2⟩ := fracPart_text q
      obtain ⟨h3, h4⟩ := expPart_text (fracPart q).2
      refine ⟨i ++ (fracPart q).1 ++ (expPart (fracPart q).2).1, ?_, fun c hc => ?_⟩
      · rw [hr, h0.1]
        conv => lhs; rw [h1, h3]
        simp
      · simp only [List.mem_append] at hc
        rcases hc with (hc | hc) | hc
        · exact h0.2 c hc
        · exact h2 c hc
        · exact h4 c hc
  unfold number at h
  rcases he : eat 45 t with _ | u
  · rw [he] at h; exact hu h
  · rw [he] at h
    obtain ⟨w, h1, h2⟩ := hu h
    refine ⟨45 :: w, by rw [eat_some he, h1]; rfl, fun c hc => ?_⟩
    rcases List.mem_cons.1 hc with rfl | hc
    · exact ⟨by decide, by decide⟩
    · exact h2 c hc

theorem printable_hex {n : Nat} (h : n < 16) : Printable (hexDigit n) := by
  unfold hexDigit Printable
  split <;> omega

theorem printable_unicode (n : Nat) : ∀ c ∈ unicodeEscape n, Printable c := by
  intro c hc
  simp only [unicodeEscape, List.mem_cons, List.not_mem_nil, or_false] at hc
  rcases hc with rfl | rfl | rfl | rfl | rfl | rfl
  · exact ⟨by decide, by decide⟩
  · exact ⟨by decide, by decide⟩
  all_goals exact printable_hex (by omega)

theorem printable_char (x : Nat) : ∀ c ∈ escapeChar x, Printable c := by
  intro c hc
  unfold escapeChar at hc
  repeat' split at hc
  all_goals first
    | (simp only [List.mem_cons, List.not_mem_nil, or_false] at hc
       rcases hc with rfl | rfl <;> exact ⟨by decide, by decide⟩)
    | (next h => simp only [List.mem_singleton] at hc; subst hc; exact h)
    | exact printable_unicode _ c hc
    | (rcases List.mem_append.1 hc with hc | hc <;> exact printable_unicode _ c hc)

theorem printable_str (s : Text) : ∀ c ∈ dumpStr s, Printable c := by
  intro c hc
  simp only [dumpStr, List.mem_cons, List.mem_append, List.not_mem_nil, or_false] at hc
  rcases hc with rfl | hc | rfl
  · exact ⟨by decide, by decide⟩
  · obtain ⟨x, _, hx⟩ := List.mem_flatMap.1 hc
    exact printable_char x c hx
  · exact ⟨by decide, by decide⟩

theorem printable_commas : ∀ (l : List Text), (∀ t ∈ l, ∀ c ∈ t, Printable c) → ∀ c ∈ commas l, Printable c
  | [], _, c, hc => by cases hc
  | [a], h, c, hc => h a (List.mem_cons_self ..) c hc
  | a :: b :: l, h, c, hc => by
    simp only [commas, List.mem_append, List.mem_cons] at hc
    rcases hc with hc | rfl | rfl | hc
    · exact h a (List.mem_cons_self ..) c hc
    · exact ⟨by decide, by decide⟩
    · exact ⟨by decide, by decide⟩
    · exact printable_commas (b :: l) (fun t ht => h t (List.mem_cons_of_mem _ ht)) c hc

theorem printable_strs (l : List Text) : ∀ c ∈ dumpStrs l, Printable c := by
  intro c hc
  simp only [dumpStrs, List.mem_cons, List.mem_append, List.not_mem_nil, or_false] at hc
  rcases hc with rfl | hc | rfl
  · exact ⟨by decide, by decide⟩
  · refine printable_commas _ (fun t ht => ?_) c hc
    obtain ⟨x, _, rfl⟩ := List.mem_map.1 ht
    exact printable_str x
  · exact ⟨by decide, by decide⟩

theorem printable_int (n : Int) : ∀ c ∈ showInt n, Printable c := by
  obtain ⟨u, h1, h2⟩ := number_text (number_showInt n)
  rw [List.append_nil] at h1
  rw [h1]; exact h2

theorem printable_node {F : Floats} {n : Graph.Node} (h : F.Exact n.info.mtime) : ∀ c ∈ nodeText F n, Printable c := by
  have hf : ∀ c ∈ F.shown n.info.mtime, Printable c := by
    obtain ⟨u, h1, h2⟩ := number_text h.value.1
    rw [List.append_nil] at h1
    rw [h1]; exact h2
  intro c hc
  simp only [nodeText, metaText, List.mem_cons, List.mem_append, List.not_mem_nil, or_false, or_assoc] at hc
  rcases hc with hc | hc | hc | hc | hc | hc | hc | hc | hc | hc | hc | hc | hc | hc | hc | hc | hc | hc | hc | hc | hc | hc | hc | hc | hc | hc | hc | hc | hc | hc
  all_goals first
    | (subst hc; exact ⟨by decide, by decide⟩)
    | exact printable_str _ c hc
    | exact printable_strs _ c hc
    | exact printable_int _ c hc
    | exact hf c hc

theorem printable_nodes {F : Floats} : ∀ {g : Graph.Graph}, FloatsFit F g → ∀ c ∈ nodesText F g, Printable c
  | [], _, c, hc => by cases hc
  | [(p, n)], hF, c, hc => by
    simp only [nodesText, List.mem_append, List.mem_cons] at hc
    rcases hc with hc | rfl | hc
    · exact printable_str _ c hc
    · exact ⟨by decide, by decide⟩
    · exact printable_node (hF p n (List.mem_cons_self ..)) c hc
  | (p, n) :: e :: g, hF, c, hc => by
    simp only [nodesText, List.mem_append, List.mem_cons] at hc
    rcases hc with hc | rfl | hc | rfl | hc
    · exact printable_str _ c hc
    · exact ⟨by decide, by decide⟩
    · exact printable_node (hF p n (List.mem_cons_self ..)) c hc
    · exact ⟨by decide, by decide⟩
    · exact printable_nodes (fun p n h => hF p n (List.mem_cons_of_mem _ h)) c hc

/-- C113: whatever the names of the files are, the stored text is one line of printable ASCII characters,
so that the encoding with which it is written and read does not matter. -/
theorem C113_ascii {F : Floats} {g : Graph.Graph} (hF : FloatsFit F g) :
    ∃ line, storeText F g = line ++ [10] ∧ ∀ c ∈ line, Printable c := by
  refine ⟨123 :: (nodesText F g ++ [125]), by simp [storeText], fun c hc => ?_⟩
  simp only [List.mem_cons, List.mem_append, List.not_mem_nil, or_false] at hc
  rcases hc with rfl | hc | rfl
  · exact ⟨by decide, by decide⟩
  · exact printable_nodes hF c hc
  · exact ⟨by decide, by decide⟩

/-- What loading a graph file gives, as the model of the builds has it. -/
def asLoaded : Except LoadErr Graph.Graph → Except Hot.Err Graph.Graph
  | .ok g => .ok g
  | .error _ => .error .valueError

/-- C113: whatever a process which died while it stored a graph has left in the file, it is one of the two
states which the model of crashes has for it: not finished, which is refused, or the whole graph. -/
theorem C113_crash {F : Floats} {g : Graph.Graph} (hg : Graph.Valid g) (hF : FloatsFit F g) {p s : Text}
    (h : p ++ s = storeText F g) :
    asLoaded (loadText F p) = (if s = [] ∨ s = [10] then Crash.GraphFile.has g else Crash.GraphFile.torn).load := by
  obtain ⟨h1, h2⟩ := C113_torn hg hF h
  split
  · next hs =>
    rw [h1 hs, loadText_storeText hg.wf.nodup hF]
    rfl
  · next hs =>
    rw [h2 (fun e => hs (.inl e)) (fun e => hs (.inr e))]
    rfl

/-! ## Cases -/

/-- The floats of the cases. -/
def floats : Floats where
  shown q := if q = 3 / 2 then txt "1.5" else if q = 1 / 1000000 then txt "1e-06" else showInt q.num
  read t := if t = txt "1.5" then some (3 / 2) else if t = txt "1e-06" then some (1 / 1000000) else none

/-- A file whose name has a quote, a newline, a letter outside ASCII and a character above U+FFFF, and one
which uses it and another file, which has not been looked at. -/
def demo : List Graph.Op :=
  [.add "src/a\"\né😀" ⟨12, 3 / 2, 7⟩ [], .add "src/b" ⟨0, 0, 0⟩ [], .add "src/c" ⟨1024, 1 / 1000000, -8⟩ ["src/a\"\né😀", "src/b"]]

theorem demo_valid : Graph.Valid (Graph.run Graph.empty demo) :=
  ⟨demo.map .call, by simp only [Graph.run, List.foldl_map]; rfl⟩

theorem demo_floats : FloatsFit floats (Graph.run Graph.empty demo) := by
  have key : ∀ e ∈ Graph.run Graph.empty demo, e.2.info.mtime = 3 / 2 ∨ e.2.info.mtime = 0 ∨ e.2.info.mtime = 1 / 1000000 := by
    decide +kernel
  intro p n h
  rcases key _ h with h | h | h <;> simp only at h <;> rw [h]
  · have e : floats.shown (3 / 2) = txt "1.5" := by decide +kernel
    exact ⟨.float (txt "1.5"), by rw [e]; rfl, by decide +kernel⟩
  · have e : floats.shown 0 = showInt 0 := by decide +kernel
    exact ⟨.int 0, by rw [e]; rfl, by decide +kernel⟩
  · have e : floats.shown (1 / 1000000) = txt "1e-06" := by decide +kernel
    exact ⟨.float (txt "1e-06"), by rw [e]; rfl, by decide +kernel⟩

/-- The text which Python writes for it. -/
theorem demo_text : storeText floats (Graph.run Graph.empty demo) = txt
    ("{\"src/a\\\"\\n\\u00e9\\ud83d\\ude00\":{\"parents\":[\"src/c\"],\"children\":[],\"metadata\":{\"filesize\": 12, \"mtime\": 1.5, \"inode\": 7}}," ++
     "\"src/b\":{\"parents\":[\"src/c\"],\"children\":[],\"metadata\":{\"filesize\": 0, \"mtime\": 0, \"inode\": 0}}," ++
     "\"src/c\":{\"parents\":[],\"children\":[\"src/a\\\"\\n\\u00e9\\ud83d\\ude00\", \"src/b\"],\"metadata\":{\"filesize\": 1024, \"mtime\": 1e-06, \"inode\": -8}}}\n") := by
  decide +kernel

/-- C08 and C113 apply to it. -/
theorem C08_text_case : ∃ g', loadText floats (storeText floats (Graph.run Graph.empty demo)) = .ok g' ∧
    Graph.SameContent g' (Graph.run Graph.empty demo) ∧ Graph.graphEq g' (Graph.run Graph.empty demo) = some true :=
  C08_text demo_valid demo_floats

theorem C113_torn_case : loadText floats ((storeText floats (Graph.run Graph.empty demo)).take 100) = .error .valueError :=
  (C113_torn demo_valid demo_floats (List.take_append_drop 100 _)).2 (by decide +kernel) (by decide +kernel)

/-- A number which is cut off is a number: it is the missing brace which gives the torn file away. -/
theorem C113_number_case : (number (txt "1.")).map (·.2) = some (txt ".") ∧ (number (txt "12")).map (·.2) = some [] := by
  decide +kernel

end Verif.JsonText
