import Verif.HtmlRenderThm
import Verif.ImgFilesRun

/-!
# C76: what a browser makes of a picture

The specification is the HTML standard: how the attribute `srcset` is read ("parse a srcset attribute"), and which of the
`source` elements of a picture is used ("update the source set").
-/

namespace Verif.Html.Page

open Verif.Reader (Text txt)
open Verif.Assoc (item)
open Verif.Img (digits)

variable {J : Type}

/-! ## Specification: the HTML standard -/

/-- ASCII whitespace -/
def isWs (c : Nat) : Bool := c = 9 ∨ c = 10 ∨ c = 12 ∨ c = 13 ∨ c = 32

/-- The states of the descriptor tokenizer. -/
inductive DState
  | inside
  | parens
  | after
  deriving DecidableEq

/-- Step 8: the descriptors up to the next comma, and what follows it. -/
def descriptors : DState → Text → List Text → Text → List Text × Text
  | .inside, cur, acc, [] => (if cur = [] then acc else acc ++ [cur], [])
  | .parens, cur, acc, [] => (acc ++ [cur], [])
  | .after, _, acc, [] => (acc, [])
  | .inside, cur, acc, c :: t =>
    if isWs c then (if cur = [] then descriptors .inside [] acc t else descriptors .after [] (acc ++ [cur]) t)
    else if c = 44 then (if cur = [] then acc else acc ++ [cur], t)
    else if c = 40 then descriptors .parens (cur ++ [c]) acc t
    else descriptors .inside (cur ++ [c]) acc t
  | .parens, cur, acc, c :: t => if c = 41 then descriptors .inside (cur ++ [c]) acc t else descriptors .parens (cur ++ [c]) acc t
  | .after, _, acc, c :: t =>
    if isWs c then descriptors .after [] acc t
    else if c = 44 then (acc, t)
    else if c = 40 then descriptors .parens [c] acc t
    else descriptors .inside [c] acc t

/-- Rules for parsing non-negative integers, for a valid one. -/
def decimal (t : Text) : Option Nat :=
  if t ≠ [] ∧ t.all (fun c => 48 ≤ c ∧ c ≤ 57) then some (t.foldl (fun n c => 10 * n + (c - 48)) 0) else none

/-- Steps 9 to 15, for an image which has a width descriptor; images with another descriptor or with none, which are no part of
what is written here, are left out, as are those with an error. -/
def widthOf : List Text → Option Nat
  | [d] =>
    match d.getLast? with
    | some 119 =>
      match decimal d.dropLast with
      | some 0 => none
      | r => r
    | _ => none
  | _ => none

/-- "Parse a srcset attribute": the URLs, and their widths. -/
def parseSrcset : Nat → Text → List (Text × Nat)
  | 0, _ => []
  | fuel + 1, t =>
    let t := t.dropWhile fun c => isWs c || c = 44
    if t = [] then []
    else
      let url := t.takeWhile fun c => !isWs c
      let rest := t.dropWhile fun c => !isWs c
      if url.getLast? = some 44 then parseSrcset fuel rest
      else
        let (ds, rest) := descriptors .inside [] [] (rest.dropWhile isWs)
        match widthOf ds with
        | some w => (url, w) :: parseSrcset fuel rest
        | none => parseSrcset fuel rest

def readSrcset (t : Text) : List (Text × Nat) := parseSrcset (t.length + 1) t

/-- "Update the source set" of an `img` in a `picture`, for a browser which knows the formats `known` and finds all media
conditions true: the images to choose from. -/
def sourceSet (known : Text → Bool) : List HTok → List (Text × Nat)
  | [] => []
  | .emptyTag name attrs :: ts =>
    if name = txt "source" then
      match item attrs (none, txt "srcset") with
      | none => sourceSet known ts
      | some x =>
        if readSrcset x = [] then sourceSet known ts
        else match item attrs (none, txt "type") with
          | some ty => if known ty then readSrcset x else sourceSet known ts
          | none => readSrcset x
    else if name = txt "img" then
      match item attrs (none, txt "srcset") with
      | none => []
      | some x => readSrcset x
    else sourceSet known ts
  | _ :: ts => sourceSet known ts

/-! ## Reading what is written -/

/-- A path which can be read from a srcset. -/
structure Readable (p : Pic) : Prop where
  spaces : ∀ c ∈ p.relpath, isWs c = false
  comma : p.relpath.getLast? ≠ some 44
  width : 0 < p.width

theorem decimal_digits (n : Nat) : decimal (digits n) = some n := by
  have h1 : digits n ≠ [] := Html.Page.digits_ne n
  have h2 : (digits n).all (fun c => decide (48 ≤ c ∧ c ≤ 57)) = true := by
    rw [List.all_eq_true]
    intro c hc
    have := Img.digits_ge c hc
    have := Img.digits_lt c hc
    simp only [decide_eq_true_eq]
    omega
  unfold decimal
  rw [if_pos ⟨h1, h2⟩]
  congr 1
  unfold digits
  split
  · next h => subst h; rfl
  · rw [List.foldl_map, List.foldl_reverse]
    have : ∀ l : List Nat, List.foldr (fun x y => 10 * y + (x + 48 - 48)) 0 l = Nat.ofDigits 10 l := by
      intro l
      induction l with
      | nil => rfl
      | cons d l ih =>
        rw [List.foldr_cons, ih, Nat.ofDigits_cons]
        simp only [Nat.add_sub_cancel]
        omega
    rw [this, Nat.ofDigits_digits]

theorem descriptors_word : ∀ (w cur : Text) (acc : List Text) (t : Text), (∀ c ∈ w, isWs c = false ∧ c ≠ 44 ∧ c ≠ 40) →
    descriptors .inside cur acc (w ++ t) = descriptors .inside (cur ++ w) acc t := by
  intro w
  induction w with
  | nil => intro cur acc t _; simp
  | cons c w ih =>
    intro cur acc t h
    obtain ⟨h1, h2, h3⟩ := h c (by simp)
    rw [List.cons_append, descriptors, if_neg (by simp [h1]), if_neg h2, if_neg h3, ih _ _ _ (fun x hx => h x (by simp [hx]))]
    simp

theorem widthOf_digits {n : Nat} (h : 0 < n) : widthOf [digits n ++ [119]] = some n := by
  unfold widthOf
  dsimp only
  rw [List.getLast?_append_of_ne_nil _ (by simp)]
  simp only [List.getLast?_singleton, List.dropLast_concat, decimal_digits]
  cases n with
  | zero => omega
  | succ n => rfl

theorem showInt_pos {n : Int} (h : 0 < n) : showInt n = digits n.toNat := by
  unfold showInt
  rw [if_neg (by omega)]
  congr 1
  omega

/-- One image: reading goes on behind the comma. -/
theorem parse_one {p : Pic} (hp : Readable p) (fuel : Nat) (pre : Text) (hpre : ∀ c ∈ pre, isWs c = true) (t : Text) (ht : t = [] ∨ ∃ t', t = 44 :: t') :
    parseSrcset (fuel + 1) (pre ++ (txt "/" ++ p.relpath ++ txt " " ++ showInt p.width ++ txt "w" ++ t)) =
      (txt "/" ++ p.relpath, p.width.toNat) :: parseSrcset fuel t.tail := by
  have e1 : txt "/" = [47] := by decide
  have e2 : txt " " = [32] := by decide
  have e3 : txt "w" = [119] := by decide
  have hd : (pre ++ (txt "/" ++ p.relpath ++ txt " " ++ showInt p.width ++ txt "w" ++ t)).dropWhile (fun c => isWs c || c = 44) =
      (47 :: p.relpath) ++ 32 :: (digits p.width.toNat ++ [119] ++ t) := by
    rw [List.dropWhile_append_of_pos (by intro c hc; simp [hpre c hc]), e1, e2, e3, showInt_pos hp.width]
    simp only [List.cons_append, List.nil_append, List.append_assoc]
    rw [List.dropWhile_cons_of_neg (by decide)]
  have hall : ∀ c ∈ (47 :: p.relpath), (!isWs c) = true := by
    intro c hc
    rcases List.mem_cons.1 hc with rfl | hc
    · decide
    · simp [hp.spaces c hc]
  have ht1 : ((47 :: p.relpath) ++ 32 :: (digits p.width.toNat ++ [119] ++ t)).takeWhile (fun c => !isWs c) = 47 :: p.relpath := by
    rw [List.takeWhile_append_of_pos hall, List.takeWhile_cons_of_neg (by decide), List.append_nil]
  have hd1 : ((47 :: p.relpath) ++ 32 :: (digits p.width.toNat ++ [119] ++ t)).dropWhile (fun c => !isWs c) = 32 :: (digits p.width.toNat ++ [119] ++ t) := by
    rw [List.dropWhile_append_of_pos hall, List.dropWhile_cons_of_neg (by decide)]
  have hlast : (47 :: p.relpath).getLast? ≠ some 44 := by
    cases hr : p.relpath with
    | nil => decide
    | cons c r =>
      rw [List.getLast?_cons_cons, ← hr]
      exact hp.comma
  have hdig : ∀ c ∈ digits p.width.toNat ++ [119], isWs c = false ∧ c ≠ 44 ∧ c ≠ 40 := by
    intro c hc
    rcases List.mem_append.1 hc with hc | hc
    · have := Img.digits_ge c hc
      have := Img.digits_lt c hc
      refine ⟨?_, by omega, by omega⟩
      simp only [isWs, decide_eq_false_iff_not]
      omega
    · rw [List.mem_singleton.1 hc]; decide
  have hd2 : (32 :: (digits p.width.toNat ++ [119] ++ t)).dropWhile isWs = digits p.width.toNat ++ [119] ++ t := by
    rw [List.dropWhile_cons_of_pos (by decide)]
    cases hh : digits p.width.toNat ++ [119] with
    | nil => simp at hh
    | cons c r =>
      have := (hdig c (by rw [hh]; simp)).1
      rw [List.cons_append, List.dropWhile_cons_of_neg (by simp [this])]
  have hds : descriptors .inside [] [] (digits p.width.toNat ++ [119] ++ t) = ([digits p.width.toNat ++ [119]], t.tail) := by
    rw [descriptors_word _ _ _ _ hdig, List.nil_append]
    rcases ht with rfl | ⟨t', rfl⟩
    · simp [descriptors]
    · rw [descriptors, if_neg (by decide), if_pos rfl]
      simp
  rw [parseSrcset]
  simp only [hd]
  rw [if_neg (by simp), ht1, if_neg hlast, hd1, hd2, hds]
  have := hp.width
  rw [widthOf_digits (by omega), e1]
  rfl

theorem parse_srcset {ps : List Pic} {x : Text} (h : SrcSet ps x) : (∀ p ∈ ps, Readable p) → ∀ (fuel : Nat) (pre : Text), (∀ c ∈ pre, isWs c = true) →
    ps.length < fuel → parseSrcset fuel (pre ++ x) = ps.map fun p => (txt "/" ++ p.relpath, p.width.toNat) := by
  induction h with
  | nil =>
    intro _ fuel pre hpre hf
    obtain ⟨fuel, rfl⟩ : ∃ k, fuel = k + 1 := ⟨fuel - 1, by simp at hf; omega⟩
    rw [parseSrcset]
    dsimp only
    rw [List.dropWhile_append_of_pos (by intro c hc; simp [hpre c hc])]
    rfl
  | @one p =>
    intro hps fuel pre hpre hf
    obtain ⟨fuel, rfl⟩ : ∃ k, fuel = k + 2 := ⟨fuel - 2, by simp at hf; omega⟩
    have := parse_one (hps p (by simp)) (fuel + 1) pre hpre [] (.inl rfl)
    rw [List.append_nil] at this
    rw [this]
    rfl
  | @more p q ps x hx ih =>
    intro hps fuel pre hpre hf
    obtain ⟨fuel, rfl⟩ : ∃ k, fuel = k + 1 := ⟨fuel - 1, by simp at hf; omega⟩
    have e : txt "w, " = txt "w" ++ [44, 32] := by decide
    have := parse_one (hps p (by simp)) fuel pre hpre (44 :: 32 :: x) (.inr ⟨_, rfl⟩)
    have h2 := ih (fun r hr => hps r (by simp [hr])) fuel [32] (by decide) (by simp at hf ⊢; omega)
    rw [e]
    simp only [List.append_assoc, List.cons_append, List.nil_append, List.tail_cons] at this h2 ⊢
    rw [this, h2]
    rfl

theorem SrcSet.length {ps : List Pic} {x : Text} (h : SrcSet ps x) : ps.length ≤ x.length := by
  have e1 : (txt "/").length = 1 := by decide
  induction h with
  | nil => simp
  | one => simp only [List.length_append, List.length_singleton, e1]; omega
  | more _ ih => simp only [List.length_append, List.length_cons, e1] at ih ⊢; omega

/-- **C76**, a srcset: the browser finds each file with its width. -/
theorem readSrcset_eq {ps : List Pic} {x : Text} (h : SrcSet ps x) (hps : ∀ p ∈ ps, Readable p) :
    readSrcset x = ps.map fun p => (txt "/" ++ p.relpath, p.width.toNat) :=
  parse_srcset h hps _ [] (by simp) (by have := h.length; omega)

/-- What a browser should find: the URL and the width of each file. -/
def Found (ps : List Pic) : List (Text × Nat) := ps.map fun p => (txt "/" ++ p.relpath, p.width.toNat)

/-- **C76**: a browser chooses among the files of one format: the first which is not the default, or else the default. -/
theorem C76_partial {format : Text} {c : Img.Command J} {outputs : List (Text × List Pic)} {r : List HTok} (h : Picture format c outputs r)
    (hr : ∀ o ∈ outputs, o.2 ≠ [] ∧ ∀ p ∈ o.2, Readable p) (known : Text → Bool) :
    (∀ f ps, (outputs.filter fun o => o.1 ≠ format).head? = some (f, ps) → sourceSet known r = Found ps) ∧
    ((outputs.filter fun o => o.1 ≠ format) = [] → ∃ ps, item outputs format = some ps ∧ sourceSet known r = Found ps) := by
  have n1 : txt "img" ≠ txt "source" := by decide
  have n2 : (none, txt "srcset") ≠ ((none, txt "width") : Option Text × Text) := by decide
  cases h with
  | @mk ps before after p sources x h1 h2 h3 h4 h5 h6 h7 =>
    constructor
    · intro f qs hf
      cases hos : (outputs.filter fun o => decide (o.1 ≠ format)) with
      | nil => rw [hos] at hf; cases hf
      | cons o os =>
        rw [hos] at hf h6
        cases hf
        have ho : (f, qs) ∈ outputs := by
          have : (f, qs) ∈ outputs.filter fun o => decide (o.1 ≠ format) := by rw [hos]; simp
          exact List.mem_of_mem_filter this
        obtain ⟨hne, hread⟩ := hr _ ho
        cases h6 with
        | cons ha _ =>
          cases ha with
          | @mk y hy =>
            have hpr := readSrcset_eq hy hread
            have hnn : readSrcset y ≠ [] := by
              rw [hpr]
              simpa using hne
            have i1 : item ([((none, txt "srcset"), y)] : Attrs) (none, txt "srcset") = some y := by simp [Assoc.item]
            have i2 : item ([((none, txt "srcset"), y)] : Attrs) (none, txt "type") = none := by
              have : ((none, txt "srcset") : Option Text × Text) ≠ (none, txt "type") := by decide
              simp [Assoc.item, this]
            simp only [List.nil_append, List.cons_append, sourceSet, if_true, i1, i2, if_neg hnn]
            exact hpr
    · intro hos
      rw [hos] at h6
      cases h6
      refine ⟨ps, h1, ?_⟩
      have hmem : (format, ps) ∈ outputs := Assoc.mem_of_get h1
      have hpr := readSrcset_eq h7 (hr _ hmem).2
      have i1 : item ([((none, txt "width"), showInt c.width), ((none, txt "height"), showInt c.height),
            ((none, txt "src"), txt "/" ++ p.relpath), ((none, txt "srcset"), x)] ++
            if c.lazy then [((none, txt "loading"), txt "lazy")] else [] : Attrs) (none, txt "srcset") = some x := by
        have a1 : ((none, txt "width") : Option Text × Text) ≠ (none, txt "srcset") := by decide
        have a2 : ((none, txt "height") : Option Text × Text) ≠ (none, txt "srcset") := by decide
        have a3 : ((none, txt "src") : Option Text × Text) ≠ (none, txt "srcset") := by decide
        simp only [List.cons_append, Assoc.item, if_neg a1, if_neg a2, if_neg a3, if_true]
      simp only [List.cons_append, List.append_nil, List.nil_append, sourceSet, if_neg n1, if_true] at i1 ⊢
      rw [i1]
      exact hpr

/-- The paths of exported files can be read, unless there is a space in the path of the source. -/
theorem exported_readable {stem fmt : Text} {n : ℤ} {w h : ℕ} {f : Img.Format} (hs : ∀ c ∈ stem, isWs c = false) (hf : f.name = fmt)
    (hw : ∀ c ∈ fmt, isWs c = false) (hc : 44 ∉ fmt) (h0 : 0 < w) : Readable ⟨w, h, Img.Files.picPath stem n ((w, h), f)⟩ := by
  subst hf
  have hdig : ∀ n : ℕ, ∀ c ∈ digits n, isWs c = false := by
    intro n c hcm
    have := Img.digits_ge c hcm
    have := Img.digits_lt c hcm
    simp only [isWs, decide_eq_false_iff_not]
    omega
  have hid : ∀ c ∈ Img.Files.idText n, isWs c = false := by
    intro c hcm
    unfold Img.Files.idText at hcm
    split at hcm
    · rcases List.mem_append.1 hcm with h | h
      · have : txt "-" = [45] := by decide
        rw [this, List.mem_singleton] at h
        subst h; decide
      · exact hdig _ _ h
    · exact hdig _ _ hcm
  refine ⟨fun c hcm => ?_, ?_, by simpa using h0⟩
  · simp only [Img.Files.picPath, Img.outName, List.mem_append, List.mem_cons] at hcm
    rcases hcm with (h | rfl | h) | rfl | h | rfl | h | rfl | h
    · exact hs c h
    · decide
    · exact hid c h
    · decide
    · exact hdig _ _ h
    · decide
    · exact hdig _ _ h
    · decide
    · exact hw c h
  · simp only [Img.Files.picPath, Img.outName]
    cases hfn : f.name with
    | nil =>
      rw [List.getLast?_append_of_ne_nil _ (by simp), List.getLast?_cons_of_ne_nil (by simp), List.getLast?_append_of_ne_nil _ (by simp),
        List.getLast?_cons_of_ne_nil (by simp), List.getLast?_append_of_ne_nil _ (by simp)]
      decide
    | cons a r =>
      rw [List.getLast?_append_of_ne_nil _ (by simp), List.getLast?_cons_of_ne_nil (by simp), List.getLast?_append_of_ne_nil _ (by simp),
        List.getLast?_cons_of_ne_nil (by simp), List.getLast?_append_of_ne_nil _ (by simp), List.getLast?_cons_cons]
      intro he
      apply hc
      rw [hfn]
      exact List.mem_of_getLast? he

/-- The case: a picture in two formats, with two sizes each. -/
def files : List (Text × List Pic) :=
  [(txt "jpeg", [⟨2, 2, txt "i/1/2x2.jpeg"⟩, ⟨4, 4, txt "i/1/4x4.jpeg"⟩]), (txt "webp", [⟨2, 2, txt "i/1/2x2.webp"⟩, ⟨4, 4, txt "i/1/4x4.webp"⟩])]

def cmd : Img.Command Unit := ⟨txt "/i.png", 2, 2, txt "cover", (), true⟩

theorem C76_case : ∃ r, Picture (txt "jpeg") cmd files r ∧ (∀ o ∈ files, o.2 ≠ [] ∧ ∀ p ∈ o.2, Readable p) ∧
    ∀ known, sourceSet known r = [(txt "/i/1/2x2.webp", 2), (txt "/i/1/4x4.webp", 4)] := by
  have hpic : ∃ r, (picture (txt "jpeg") cmd files : Except (PErr Unit) (List HTok)) = .ok r := ⟨_, rfl⟩
  obtain ⟨r, hr⟩ := hpic
  have hP := picture_spec hr
  have hread : ∀ o ∈ files, o.2 ≠ [] ∧ ∀ p ∈ o.2, Readable p := by
    have : ∀ o ∈ files, o.2 ≠ [] ∧ ∀ p ∈ o.2, (∀ c ∈ p.relpath, isWs c = false) ∧ p.relpath.getLast? ≠ some 44 ∧ 0 < p.width := by decide
    exact fun o ho => ⟨(this o ho).1, fun p hp => ⟨((this o ho).2 p hp).1, ((this o ho).2 p hp).2.1, ((this o ho).2 p hp).2.2⟩⟩
  refine ⟨r, hP, hread, fun known => ?_⟩
  rw [(C76_partial hP hread known).1 (txt "webp") [⟨2, 2, txt "i/1/2x2.webp"⟩, ⟨4, 4, txt "i/1/4x4.webp"⟩] (by decide)]
  decide

/-- **C76** is false of browsers which do not know one of the formats: the sources have no `type`, so the first of them is
used, and the image in the default format, which the browser does know, is not. -/
theorem C76_false_type : ∃ r, (picture (txt "jpeg") cmd files : Except (PErr Unit) (List HTok)) = .ok r ∧
    sourceSet (fun ty => decide (ty = txt "image/jpeg")) r = [(txt "/i/1/2x2.webp", 2), (txt "/i/1/4x4.webp", 4)] := by
  refine ⟨_, rfl, ?_⟩
  decide +kernel

/-- **C76** is false of images with a space in their path: they are not found. -/
theorem C76_false_space : ∃ r, (picture (txt "jpeg") cmd [(txt "jpeg", [⟨2, 2, txt "my i/1/2x2.jpeg"⟩])] : Except (PErr Unit) (List HTok)) = .ok r ∧
    sourceSet (fun _ => true) r = [] := by
  refine ⟨_, rfl, ?_⟩
  decide +kernel

end Verif.Html.Page
