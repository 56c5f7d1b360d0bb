import Verif.CssData
import Verif.BuilderThm
import Verif.HandlersThm
import Verif.IconRun

/-!
# C62: images in stylesheets become files
-/

namespace Verif.Css.Data

open Verif.Reader (Text txt)
open Verif.Css (Tok)
open Verif.Assoc
open Verif.Paths (join basename)
open Verif.Build
open Verif.Handlers (Bytes Fs hashScan hashBuild hashTarget hashTarget_out outWww srcPublic)
open Verif.Icons (add addAll mem_add join_rel)

/-! ## Specification -/

/-- `v` is an URL with data: the type of the image, then `;` or `,`, then `data`. -/
def DataUrl (v type data : Text) : Prop :=
  ∃ sep, (sep = txt ";" ∨ sep = txt ",") ∧ v = txt "data:image/" ++ type ++ sep ++ data ∧
    type ≠ [] ∧ (∀ c ∈ type, [c] ≠ txt ";" ∧ [c] ≠ txt ",") ∧ data ≠ [] ∧ ∀ c ∈ data, [c] ≠ txt "\""

/-- The token with number `k` is the string behind `url(`, and an URL with data. -/
def ImageAt (ts : List Tok) (k : Nat) (type data : Text) : Prop :=
  ∃ j v, k = j + 1 ∧ ts[j]? = some (.function (txt "url")) ∧ ts[k]? = some (.str v) ∧ DataUrl v type data

/-- … and no string before has the same data. -/
def FirstAt (ts : List Tok) (k : Nat) (type data : Text) : Prop :=
  ImageAt ts k type data ∧ ∀ j type', j < k → ¬ ImageAt ts j type' data

/-- The positions of the different images, from left to right. -/
def Found (ts : List Tok) (pos : List Nat) : Prop := pos.Pairwise (· < ·) ∧ ∀ k, k ∈ pos ↔ ∃ type data, FirstAt ts k type data

/-- The part of the type before the first `+`. -/
def ExtOf (type ext : Text) : Prop := (∀ c ∈ ext, [c] ≠ txt "+") ∧ (ext = type ∨ ∃ more, type = ext ++ txt "+" ++ more)

/-- The address of the image with this data: the images are numbered from 1, the extension is that of the first. -/
def AddressOf (stem : Text) (ts : List Tok) (data address : Text) : Prop :=
  ∃ pos i k type ext, Found ts pos ∧ pos[i]? = some k ∧ FirstAt ts k type data ∧ ExtOf type ext ∧
    address = txt "/img/gen/" ++ stem ++ txt "/" ++ txt (toString (i + 1)) ++ txt "." ++ ext

/-- The stylesheet is that with the name `stem` below the public folder. -/
def Stylesheet (self stem : Text) : Prop :=
  self = txt "src/public/" ++ stem ++ txt ".css" ∧ ¬ txt "/" <+: stem ∧ ∃ c ∈ basename stem, [c] ≠ txt "."

/-- `out` is `ts` where every URL with data has been replaced by its address and what `suffix` says. -/
def Outlined (stem : Text) (suffix : Text → Text) (ts out : List Tok) : Prop :=
  out.length = ts.length ∧ ∀ k t, ts[k]? = some t →
    (∀ type data, ImageAt ts k type data → ∃ address, AddressOf stem ts data address ∧ out[k]? = some (.str (address ++ suffix data))) ∧
    ((∀ type data, ¬ ImageAt ts k type data) → out[k]? = some t)

/-- The files of the images and their hashes. -/
def Outputs (stem : Text) (ts : List Tok) (q : Text) : Prop :=
  ∃ data address, AddressOf stem ts data address ∧ (q = txt "out/www" ++ address ∨ q = txt "out/www" ++ address ++ txt ".hash")

/-! ## Reading the URL -/

theorem dataOf_spec (v type data : Text) : dataOf v = some (type, data) ↔ DataUrl v type data := by
  have e1 : txt ";" = [59] := by decide
  have e2 : txt "," = [44] := by decide
  have e3 : txt "\"" = [34] := by decide
  unfold DataUrl dataOf
  simp only [e1, e2, e3, List.cons.injEq, and_true, ne_eq]
  constructor
  · intro h
    split at h
    · next hp =>
      rw [List.isPrefixOf_iff_prefix] at hp
      obtain ⟨r, rfl⟩ := hp
      rw [List.drop_left' rfl] at h
      have hsplit := List.takeWhile_append_dropWhile (p := fun c : Nat => c != 59 && c != 44) (l := r)
      have hd : r.drop (r.takeWhile (fun c : Nat => c != 59 && c != 44)).length = r.dropWhile (fun c : Nat => c != 59 && c != 44) := by
        conv => lhs; arg 2; rw [← hsplit]
        rw [List.drop_left' rfl]
      rw [hd] at h
      cases hdr : r.dropWhile (fun c : Nat => c != 59 && c != 44) with
      | nil => rw [hdr] at h; cases h
      | cons c d =>
        rw [hdr] at h
        simp only at h
        split at h
        · cases h
        · next hn =>
          simp only [not_or] at hn
          simp only [Option.some.injEq, Prod.mk.injEq] at h
          obtain ⟨h1, rfl⟩ := h
          have hc : c = 59 ∨ c = 44 := by
            have := List.head?_dropWhile_not (fun c : Nat => c != 59 && c != 44) r
            rw [hdr] at this
            simp at this
            omega
          refine ⟨[c], ?_, ?_, ?_, ?_, hn.2.1, ?_⟩
          · rcases hc with rfl | rfl <;> simp
          · rw [← h1, List.append_assoc, List.append_assoc]
            congr 1
            conv => lhs; rw [← hsplit, hdr]
            simp
          · rw [← h1]; exact hn.1
          · rw [← h1]
            intro x hx
            have := List.all_takeWhile (p := fun c : Nat => c != 59 && c != 44) (l := r)
            rw [List.all_eq_true] at this
            have := this x hx
            simpa using this
          · intro x hx hx'
            exact hn.2.2 (hx' ▸ hx)
    · cases h
  · rintro ⟨sep, hsep, rfl, ht, htc, hd, hdc⟩
    obtain ⟨c, rfl, hc⟩ : ∃ c, sep = [c] ∧ (c = 59 ∨ c = 44) := by
      rcases hsep with rfl | rfl
      · exact ⟨59, rfl, .inl rfl⟩
      · exact ⟨44, rfl, .inr rfl⟩
    rw [List.append_assoc, List.append_assoc, if_pos (by rw [List.isPrefixOf_iff_prefix]; exact ⟨_, rfl⟩), List.drop_left' rfl]
    have htw : (type ++ ([c] ++ data)).takeWhile (fun c : Nat => c != 59 && c != 44) = type := by
      rw [List.takeWhile_append_of_pos (by intro x hx; have := htc x hx; simpa using this)]
      rcases hc with rfl | rfl <;> simp
    have hdr : (type ++ ([c] ++ data)).drop type.length = c :: data := List.drop_left' rfl
    simp only [htw, hdr]
    rw [if_neg]
    rintro (h | h | h)
    · exact ht h
    · exact hd h
    · exact hdc 34 h rfl

theorem DataUrl.unique {v a b a' b' : Text} (h : DataUrl v a b) (h' : DataUrl v a' b') : a = a' ∧ b = b' := by
  have := ((dataOf_spec _ _ _).2 h).symm.trans ((dataOf_spec _ _ _).2 h')
  simpa using this

theorem ImageAt.unique {ts : List Tok} {k : Nat} {a b a' b' : Text} (h : ImageAt ts k a b) (h' : ImageAt ts k a' b') : a = a' ∧ b = b' := by
  obtain ⟨j, v, -, -, h1, h2⟩ := h
  obtain ⟨j', v', -, -, h1', h2'⟩ := h'
  rw [h1] at h1'
  cases h1'
  exact h2.unique h2'

theorem extOf_spec (type : Text) : ExtOf type (type.takeWhile (· != 43)) := by
  have e : txt "+" = [43] := by decide
  unfold ExtOf
  simp only [e, List.cons.injEq, and_true, ne_eq]
  refine ⟨?_, ?_⟩
  · intro c hc
    have := List.all_takeWhile (p := fun c : Nat => c != 43) (l := type)
    rw [List.all_eq_true] at this
    simpa using this c hc
  · have hsplit := List.takeWhile_append_dropWhile (p := fun c : Nat => c != 43) (l := type)
    cases hdr : type.dropWhile (fun c : Nat => c != 43) with
    | nil => left; rw [hdr, List.append_nil] at hsplit; exact hsplit
    | cons c d =>
      right
      have hc : c = 43 := by
        have := List.head?_dropWhile_not (fun c : Nat => c != 43) type
        rw [hdr] at this
        simpa using this
      subst hc
      exact ⟨d, by conv => lhs; rw [← hsplit, hdr]
                   simp⟩

theorem ExtOf.unique {type e e' : Text} (h : ExtOf type e) (h' : ExtOf type e') : e = e' := by
  have key : ∀ x, ExtOf type x → x = type.takeWhile (· != 43) := by
    rintro x ⟨hx, hx'⟩
    have ep : txt "+" = [43] := by decide
    simp only [ep, List.cons.injEq, and_true, ne_eq] at hx hx'
    rcases hx' with rfl | ⟨more, rfl⟩
    · symm
      have := List.takeWhile_append_of_pos (p := fun c : Nat => c != 43) (l₁ := x) (l₂ := []) (by intro c hc; simpa using hx c hc)
      simpa using this
    · rw [List.append_assoc, List.takeWhile_append_of_pos (by intro c hc; simpa using hx c hc)]
      simp
  rw [key e h, key e' h']

/-! ## Addresses -/

theorem dec_noDot (n : Nat) : 46 ∉ txt (toString n) := by
  rw [txt, Nat.toString_eq_ofList_toDigits, String.toList_ofList, List.mem_map]
  rintro ⟨c, hc, h⟩
  have := Nat.isDigit_of_mem_toDigits (by decide) (by decide) hc
  simp only [Char.isDigit, Bool.and_eq_true, decide_eq_true_eq] at this
  have h1 := this.1
  rw [ge_iff_le, UInt32.le_iff_toNat_le] at h1
  have : c.val.toNat = 46 := h
  have h2 : ('0'.val).toNat = 48 := rfl
  omega

theorem dec_inj {n m : Nat} (h : txt (toString n) = txt (toString m)) : n = m := by
  have h1 : Nat.toDigits 10 n = Nat.toDigits 10 m := by
    rw [txt, txt, Nat.toString_eq_ofList_toDigits, Nat.toString_eq_ofList_toDigits, String.toList_ofList, String.toList_ofList] at h
    exact (List.map_inj_right (fun a b hab => Char.ext (UInt32.toNat_inj.1 hab))).1 h
  have := congrArg (fun l => Nat.ofDigitChars 10 l 0) h1
  simpa [Nat.ofDigitChars_ten_toDigits] using this

/-- The name of an image. -/
def name (stem : Text) (n : Nat) (ext : Text) : Text := txt "/img/gen/" ++ stem ++ txt "/" ++ txt (toString n) ++ txt "." ++ ext

theorem name_inj {stem : Text} {n m : Nat} {e e' : Text} (h : name stem n e = name stem m e') : n = m ∧ e = e' := by
  have ed : txt "." = [46] := by decide
  unfold name at h
  simp only [List.append_assoc] at h
  have h := List.append_cancel_left (List.append_cancel_left (List.append_cancel_left h))
  rw [ed] at h
  have key : ∀ (k : Nat) (x : Text), (txt (toString k) ++ ([46] ++ x)).takeWhile (· != 46) = txt (toString k) := by
    intro k x
    rw [List.takeWhile_append_of_pos (by intro c hc; have := dec_noDot k; simp; intro hc'; exact this (hc' ▸ hc))]
    simp
  have h1 := congrArg (List.takeWhile (· != 46)) h
  rw [key, key] at h1
  have := dec_inj h1
  subst this
  exact ⟨rfl, by simpa using List.append_cancel_left h⟩

theorem name_hash (stem : Text) (n : Nat) (e : Text) : name stem n e ++ txt ".hash" = name stem n (e ++ txt ".hash") := by
  simp [name]

end Verif.Css.Data
