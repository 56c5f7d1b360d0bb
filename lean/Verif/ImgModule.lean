import Verif.JsonDump
import Verif.ConfigText
import Verif.ImgGlueCase
/-!
# C117: what a script gets when it imports a list of images

image_glue.py:252-255 writes `export default `, the dictionary of the images as JSON with sorted keys, and a semicolon.
-/
namespace Verif.Img.Glue
open Verif Verif.JsonText
open Verif.Reader (Text txt)
open Verif.Handlers (Bytes Fs Scan Built hashScan hashBuild hashTarget imagesOut)
open Verif.Img.Files
open Verif.Config (ofJson ofList ofItems ofItems_keys)

variable {C : Type} [DecidableEq C]

/-! ## Specification: what the module is in a browser -/

/-- The values of JavaScript which literals give: strings are given by their characters, numbers by how they are written, objects
by their own properties. -/
inductive JsVal where
  | null
  | bool (b : Bool)
  | number (literal : Text)
  | str (s : Text)
  | arr (l : List JsVal)
  | obj (properties : List (Text × JsVal))

mutual
/-- The value of a JSON text as an expression of JavaScript.  By ECMA-262, 25.5.1 (JSON.parse), this is what the text says as JSON,
but for `"__proto__": v` in an object, which makes no property but sets the prototype (13.2.5.5).  `NaN` and `Infinity`, which
Python writes, are the names of the numbers. -/
def jsOf : Value → JsVal
  | .null => .null
  | .bool b => .bool b
  | .int n => .number (showInt n)
  | .float t => .number t
  | .infinite false => .number (txt "Infinity")
  | .infinite true => .number (txt "-Infinity")
  | .nan => .number (txt "NaN")
  | .str s => .str s
  | .arr l => .arr (jsList l)
  | .obj l => .obj (jsProps l)
def jsList : List Value → List JsVal
  | [] => []
  | v :: l => jsOf v :: jsList l
def jsProps : List (Text × Value) → List (Text × JsVal)
  | [] => []
  | (k, v) :: l => if k = txt "__proto__" then jsProps l else (k, jsOf v) :: jsProps l
end

/-- The value a module gives which consists of `export default`, a JSON text and a semicolon. -/
def Gives (module : Text) (w : JsVal) : Prop :=
  ∃ e v, module = txt "export default " ++ e ++ txt ";" ++ [10] ∧ loads e = .ok v ∧ w = jsOf v

/-- An own property. -/
def JsVal.get : JsVal → Text → Option JsVal
  | .obj l, k => l.lookup k
  | _, _ => none

/-- `v[k1][k2]...` -/
def JsVal.path : JsVal → List Text → Option JsVal
  | v, [] => some v
  | v, k :: ks => (v.get k).bind fun w => w.path ks

theorem Gives.unique {m : Text} {v w : JsVal} (h : Gives m v) (h' : Gives m w) : v = w := by
  obtain ⟨e, a, h1, h2, rfl⟩ := h
  obtain ⟨e', b, h3, h4, rfl⟩ := h'
  rw [h1] at h3
  have := List.append_cancel_left (List.append_cancel_right (List.append_cancel_right (by simpa [List.append_assoc] using h3 :
    (txt "export default " ++ e) ++ txt ";" ++ [10] = (txt "export default " ++ e') ++ txt ";" ++ [10])))
  subst this
  rw [h2] at h4
  cases h4
  rfl

/-! ## Model: sorted keys -/

/-- Python's `<=` of strings. -/
def before : Text → Text → Bool
  | [], _ => true
  | _ :: _, [] => false
  | a :: s, b :: t => decide (a < b) || (decide (a = b) && before s t)

def insertItem {A : Type} (x : Text × A) : List (Text × A) → List (Text × A)
  | [] => [x]
  | y :: l => if before x.1 y.1 then x :: y :: l else y :: insertItem x l

/-- `sorted(dct.items())`; keys of dictionaries are different, so values are not compared. -/
def sortItems {A : Type} : List (Text × A) → List (Text × A)
  | [] => []
  | x :: l => insertItem x (sortItems l)

mutual
/-- The order in which `json.dump(.., sort_keys=True)` (image_glue.py:254) writes the items of all dictionaries. -/
def sorted : Value → Value
  | .arr l => .arr (sortedAll l)
  | .obj l => .obj (sortItems (sortedPairs l))
  | v => v
def sortedAll : List Value → List Value
  | [] => []
  | v :: l => sorted v :: sortedAll l
def sortedPairs : List (Text × Value) → List (Text × Value)
  | [] => []
  | (k, v) :: l => (k, sorted v) :: sortedPairs l
end

/-- The dictionary as image_glue.py:254 writes it; `shown` is Python's text of a float. -/
def sortedText (shown : ℚ → Text) (v : Json) : Text := dump none 0 (sorted (ofJson shown v))

/-! ## Sorting -/

theorem before_total : ∀ s t, before s t = true ∨ before t s = true
  | [], _ => .inl rfl
  | _ :: _, [] => .inr rfl
  | a :: s, b :: t => by
    rcases Nat.lt_trichotomy a b with h | h | h
    · left; simp [before, h]
    · subst h; simpa [before] using before_total s t
    · right; simp [before, h]

theorem before_antisymm : ∀ s t, before s t = true → before t s = true → s = t
  | [], [], _, _ => rfl
  | [], _ :: _, _, h => by simp [before] at h
  | _ :: _, [], h, _ => by simp [before] at h
  | a :: s, b :: t, h, h' => by
    simp only [before, Bool.or_eq_true, Bool.and_eq_true, decide_eq_true_eq] at h h'
    rcases h with h | ⟨rfl, h⟩
    · rcases h' with h' | ⟨rfl, h'⟩ <;> omega
    · rcases h' with h' | ⟨-, h'⟩
      · omega
      · rw [before_antisymm s t h h']

theorem before_trans : ∀ s t u, before s t = true → before t u = true → before s u = true
  | [], _, _, _, _ => rfl
  | _ :: _, [], _, h, _ => by simp [before] at h
  | _ :: _, _ :: _, [], _, h => by simp [before] at h
  | a :: s, b :: t, c :: u, h, h' => by
    simp only [before, Bool.or_eq_true, Bool.and_eq_true, decide_eq_true_eq] at h h' ⊢
    rcases h with h | ⟨rfl, h⟩
    · rcases h' with h' | ⟨rfl, h'⟩
      · left; omega
      · exact .inl h
    · rcases h' with h' | ⟨rfl, h'⟩
      · exact .inl h'
      · exact .inr ⟨rfl, before_trans s t u h h'⟩

theorem insertItem_perm {A : Type} (x : Text × A) : ∀ l, (insertItem x l).Perm (x :: l)
  | [] => List.Perm.refl _
  | y :: l => by
    unfold insertItem
    split
    · exact List.Perm.refl _
    · exact ((insertItem_perm x l).cons y).trans (List.Perm.swap x y l)

theorem sortItems_perm {A : Type} : ∀ l : List (Text × A), (sortItems l).Perm l
  | [] => List.Perm.refl _
  | x :: l => (insertItem_perm x (sortItems l)).trans ((sortItems_perm l).cons x)

theorem insertItem_sorted {A : Type} (x : Text × A) : ∀ l : List (Text × A), l.Pairwise (fun a b => before a.1 b.1 = true) →
    (insertItem x l).Pairwise (fun a b => before a.1 b.1 = true)
  | [], _ => by simp [insertItem]
  | y :: l, h => by
    rw [List.pairwise_cons] at h
    unfold insertItem
    split
    · next hb =>
      rw [List.pairwise_cons, List.pairwise_cons]
      refine ⟨fun z hz => ?_, h⟩
      rcases List.mem_cons.1 hz with rfl | hz
      · exact hb
      · exact before_trans _ _ _ hb (h.1 z hz)
    · next hb =>
      rw [List.pairwise_cons]
      refine ⟨fun z hz => ?_, insertItem_sorted x l h.2⟩
      rcases List.mem_cons.1 ((insertItem_perm x l).subset hz) with rfl | hz
      · exact (before_total _ _).resolve_left (by simpa using hb)
      · exact h.1 z hz

theorem sortItems_sorted {A : Type} : ∀ l : List (Text × A), (sortItems l).Pairwise (fun a b => before a.1 b.1 = true)
  | [] => .nil
  | x :: l => insertItem_sorted x _ (sortItems_sorted l)

theorem lookup_mem_iff {A : Type} {l : List (Text × A)} (hn : (l.map (·.1)).Nodup) {k : Text} {v : A} : l.lookup k = some v ↔ (k, v) ∈ l := by
  induction l with
  | nil => simp
  | cons x l ih =>
    obtain ⟨k', v'⟩ := x
    rw [List.map_cons, List.nodup_cons] at hn
    rw [List.lookup_cons]
    by_cases h : k = k'
    · subst h
      simp only [beq_self_eq_true, List.mem_cons, Prod.mk.injEq, true_and, Option.some.injEq]
      constructor
      · rintro rfl; exact .inl rfl
      · rintro (h | h)
        · exact h.symm
        · exact absurd (List.mem_map_of_mem (f := (·.1)) h) hn.1
    · have hb : (k == k') = false := by simpa using h
      simp only [hb, List.mem_cons, Prod.mk.injEq, h, false_and, false_or]
      exact ih hn.2

theorem lookup_perm {A : Type} {l m : List (Text × A)} (hp : l.Perm m) (hn : (m.map (·.1)).Nodup) (k : Text) : l.lookup k = m.lookup k := by
  have hn' : (l.map (·.1)).Nodup := (hp.map _).nodup_iff.2 hn
  apply Option.ext
  intro v
  rw [lookup_mem_iff hn', lookup_mem_iff hn, hp.mem_iff]

theorem sortItems_unique {A : Type} {l m : List (Text × A)} (hp : l.Perm m) (hn : (m.map (·.1)).Nodup) : sortItems l = sortItems m := by
  have h1 : (sortItems l).Perm (sortItems m) := ((sortItems_perm l).trans hp).trans (sortItems_perm m).symm
  refine h1.eq_of_pairwise (fun a b ha hb hab hba => ?_) (sortItems_sorted l) (sortItems_sorted m)
  have hk := before_antisymm _ _ hab hba
  have ha' := (sortItems_perm l).mem_iff.1 ha
  have hb' := (sortItems_perm m).mem_iff.1 hb
  have e1 := (lookup_mem_iff hn (k := a.1) (v := a.2)).2 (hp.mem_iff.1 ha')
  have e2 := (lookup_mem_iff hn (k := b.1) (v := b.2)).2 hb'
  rw [← hk, e1] at e2
  exact Prod.ext hk (Option.some.inj e2)

/-! ## Sorted values -/

theorem sortedPairs_map : ∀ l, sortedPairs l = l.map fun x => (x.1, sorted x.2)
  | [] => by simp [sortedPairs]
  | (k, v) :: l => by simp [sortedPairs, sortedPairs_map l]

theorem sortedAll_map : ∀ l, sortedAll l = l.map sorted
  | [] => by simp [sortedAll]
  | v :: l => by simp [sortedAll, sortedAll_map l]

theorem jsList_map : ∀ l, jsList l = l.map jsOf
  | [] => by simp [jsList]
  | v :: l => by simp [jsList, jsList_map l]

theorem genuinePairs_iff : ∀ l, GenuinePairs l ↔ ∀ x ∈ l, JsonText.Plain x.1 ∧ Genuine x.2
  | [] => by simp [GenuinePairs]
  | (k, v) :: l => by simp [GenuinePairs, genuinePairs_iff l, and_assoc]

theorem genuines_iff : ∀ l, Genuines l ↔ ∀ x ∈ l, Genuine x
  | [] => by simp [Genuines]
  | v :: l => by simp [Genuines, genuines_iff l]

mutual
theorem genuine_sorted : ∀ v, Genuine v → Genuine (sorted v)
  | .null, h | .bool _, h | .int _, h | .float _, h | .infinite _, h | .nan, h | .str _, h => by simpa only [sorted] using h
  | .arr l, h => by
    simp only [Genuine] at h
    simp only [sorted, Genuine]
    exact genuines_sorted l h
  | .obj l, h => by
    simp only [Genuine] at h
    simp only [sorted, Genuine]
    refine ⟨?_, ?_⟩
    · rw [genuinePairs_iff]
      intro x hx
      exact (genuinePairs_iff _).1 (genuinePairs_sorted l h.1) x ((sortItems_perm _).mem_iff.1 hx)
    · rw [((sortItems_perm _).map _).nodup_iff, sortedPairs_map, List.map_map]
      exact h.2
theorem genuines_sorted : ∀ l, Genuines l → Genuines (sortedAll l)
  | [], _ => by simp [sortedAll, Genuines]
  | v :: l, h => by
    simp only [Genuines] at h
    simp only [sortedAll, Genuines]
    exact ⟨genuine_sorted v h.1, genuines_sorted l h.2⟩
theorem genuinePairs_sorted : ∀ l, GenuinePairs l → GenuinePairs (sortedPairs l)
  | [], _ => by simp [sortedPairs, GenuinePairs]
  | (k, v) :: l, h => by
    simp only [GenuinePairs] at h
    simp only [sortedPairs, GenuinePairs]
    exact ⟨h.1, genuine_sorted v h.2.1, genuinePairs_sorted l h.2.2⟩
end

theorem jsProps_lookup {k : Text} (hk : k ≠ txt "__proto__") : ∀ l, (jsProps l).lookup k = (l.lookup k).map jsOf
  | [] => by simp [jsProps]
  | (k', v) :: l => by
    unfold jsProps
    rw [List.lookup_cons]
    split
    · next h =>
      have : (k == k') = false := by rw [h]; simpa using hk
      rw [jsProps_lookup hk l, this]
    · rw [List.lookup_cons]
      split
      · rfl
      · exact jsProps_lookup hk l

theorem jsProps_none : ∀ l, (jsProps l).lookup (txt "__proto__") = none
  | [] => by simp [jsProps]
  | (k', v) :: l => by
    unfold jsProps
    split
    · exact jsProps_none l
    · next h =>
      rw [List.lookup_cons]
      have : (txt "__proto__" == k') = false := by simpa using Ne.symm h
      rw [this]
      exact jsProps_none l

/-- What a browser has of a value: objects without the items for the prototype. -/
def shownJs (v : Value) : JsVal := jsOf (sorted v)

theorem get_obj {l : List (Text × Value)} (hn : (l.map (·.1)).Nodup) {k : Text} (hk : k ≠ txt "__proto__") :
    (shownJs (.obj l)).get k = (l.lookup k).map shownJs := by
  simp only [shownJs, sorted, jsOf, JsVal.get]
  rw [jsProps_lookup hk, lookup_perm (sortItems_perm _) (by rw [sortedPairs_map, List.map_map]; exact hn), sortedPairs_map]
  clear hn
  induction l with
  | nil => rfl
  | cons x l ih =>
    rw [List.map_cons, List.lookup_cons, List.lookup_cons]
    split
    · rfl
    · exact ih

theorem get_proto (l : List (Text × Value)) : (shownJs (.obj l)).get (txt "__proto__") = none := by
  simp only [shownJs, sorted, jsOf, JsVal.get]
  exact jsProps_none _

theorem shown_arr (l : List Value) : shownJs (.arr l) = .arr (l.map shownJs) := by
  simp only [shownJs, sorted, jsOf, sortedAll_map, jsList_map, List.map_map]
  rfl

/-! ## C117 -/

/-- The object for a picture. -/
structure JsPic (p : Pic) (j : JsVal) : Prop where
  width : j.get (txt "width") = some (.number (showInt p.width))
  height : j.get (txt "height") = some (.number (showInt p.height))
  url : j.get (txt "url") = some (.str (47 :: p.relpath))
  choice : j.get (txt "choice") = some (.str p.choice)

/-- The object for an image shows the settings and, by format, the pictures which are recorded for it; `crop` are the items of the
crop settings. -/
structure JsImage (shown : ℚ → Text) (crop : List (Text × Json)) (m : Metadata C) (j : JsVal) : Prop where
  width : j.path [txt "target", txt "settings", txt "width"] = some (.number (showInt m.target.width))
  height : j.path [txt "target", txt "settings", txt "height"] = some (.number (showInt m.target.height))
  style : j.path [txt "target", txt "settings", txt "crop"] = some (.str m.target.crop)
  whole : ∀ k n, (k, .num (.int n)) ∈ crop → k ≠ txt "__proto__" →
    j.path [txt "target", txt "settings", txt "crop_settings", k] = some (.number (showInt n))
  float : ∀ k q, (k, .num (.float q)) ∈ crop → k ≠ txt "__proto__" →
    j.path [txt "target", txt "settings", txt "crop_settings", k] = some (.number (shown q))
  pictures : ∀ f pics, (f, pics) ∈ m.outputs → f ≠ txt "__proto__" →
    ∃ l, j.path [txt "target", txt "outputs", f] = some (.arr l) ∧ List.Forall₂ JsPic pics l
  only : ∀ f, (∀ pics, (f, pics) ∉ m.outputs) → j.path [txt "target", txt "outputs", f] = none

/-- The texts have only characters, formats are listed once, and crop settings are a dictionary. -/
structure GenuineImage (shown : ℚ → Text) (fields : C → Json) (crop : List (Text × Json)) (m : Metadata C) : Prop where
  style : JsonText.Plain m.target.crop
  fields : fields m.target.settings = .obj crop
  settings : Genuine (ofJson shown (.obj crop))
  pics : ∀ o ∈ m.outputs, JsonText.Plain o.1 ∧ ∀ p ∈ o.2, JsonText.Plain p.relpath ∧ JsonText.Plain p.choice
  once : (m.outputs.map (·.1)).Nodup

theorem ofItems_map (shown : ℚ → Text) : ∀ l, ofItems shown l = l.map fun x => (x.1, ofJson shown x.2)
  | [] => by simp [ofItems]
  | (k, v) :: l => by simp [ofItems, ofItems_map shown l]

theorem ofList_map (shown : ℚ → Text) : ∀ l, ofList shown l = l.map (ofJson shown)
  | [] => by simp [ofList]
  | v :: l => by simp [ofList, ofList_map shown l]

theorem plain_slash {s : Text} (h : JsonText.Plain s) : JsonText.Plain (47 :: s) := by
  refine ⟨fun c hc => ?_, ?_⟩
  · rcases List.mem_cons.1 hc with rfl | hc
    · decide
    · exact h.1 c hc
  · cases s with
    | nil => trivial
    | cons a s => exact ⟨by simp [isHigh], h.2⟩

theorem genuine_pic {shown : ℚ → Text} {p : Pic} (h1 : JsonText.Plain p.relpath) (h2 : JsonText.Plain p.choice) : Genuine (ofJson shown (picJson p)) := by
  simp only [picJson, ofJson, ofItems, Genuine, GenuinePairs, List.map_cons, List.map_nil]
  exact ⟨⟨plain_txt _, trivial, plain_txt _, trivial, plain_txt _, plain_slash h1, plain_txt _, h2, trivial⟩, by decide⟩

theorem genuine_image {shown : ℚ → Text} {fields : C → Json} {crop : List (Text × Json)} {m : Metadata C} (h : GenuineImage shown fields crop m) :
    Genuine (ofJson shown (imageJson fields m)) := by
  have ho : Genuine (ofJson shown (.obj (m.outputs.map fun x => (x.1, Json.arr (x.2.map picJson))))) := by
    simp only [ofJson, Genuine, ofItems_map, List.map_map]
    refine ⟨?_, h.once⟩
    rw [genuinePairs_iff]
    intro x hx
    obtain ⟨o, ho, rfl⟩ := List.mem_map.1 hx
    refine ⟨(h.pics o ho).1, ?_⟩
    simp only [Function.comp, ofJson, Genuine, ofList_map, List.map_map]
    rw [genuines_iff]
    intro y hy
    obtain ⟨p, hp, rfl⟩ := List.mem_map.1 hy
    exact genuine_pic ((h.pics o ho).2 p hp).1 ((h.pics o ho).2 p hp).2
  have hs := h.settings
  unfold imageJson
  rw [h.fields]
  generalize Json.obj (m.outputs.map fun x => (x.1, Json.arr (x.2.map picJson))) = o at ho
  generalize Json.obj crop = c at hs
  simp only [ofJson, ofItems, Genuine, GenuinePairs, List.map_cons, List.map_nil]
  exact ⟨⟨plain_txt _, ⟨⟨plain_txt _, ⟨⟨plain_txt _, trivial, plain_txt _, trivial, plain_txt _, h.style, plain_txt _, hs, trivial⟩, by decide⟩,
    plain_txt _, ho, trivial⟩, by decide⟩, trivial⟩, by decide⟩

theorem js_pic (shown : ℚ → Text) (p : Pic) : JsPic p (shownJs (ofJson shown (picJson p))) := by
  simp only [picJson, ofJson, ofItems]
  constructor <;> (rw [get_obj (by simp only [List.map_cons, List.map_nil]; decide) (by decide)]; rfl)

theorem js_image {shown : ℚ → Text} {fields : C → Json} {crop : List (Text × Json)} {m : Metadata C} (h : GenuineImage shown fields crop m) :
    JsImage shown crop m (shownJs (ofJson shown (imageJson fields m))) := by
  have hcrop := h.settings
  simp only [ofJson, Genuine, ofItems_keys] at hcrop
  have htarget : ∀ {a b c d s o : Value} (ks : List Text),
      (shownJs (.obj [(txt "target", .obj [(txt "settings", .obj [(txt "width", a), (txt "height", b), (txt "crop", c), (txt "crop_settings", d)]),
        (txt "outputs", o)])])).path (txt "target" :: txt "settings" :: ks) =
      (shownJs (.obj [(txt "width", a), (txt "height", b), (txt "crop", c), (txt "crop_settings", d)])).path ks := by
    intro a b c d s o ks
    simp only [JsVal.path]
    rw [get_obj (by simp only [List.map_cons, List.map_nil]; decide) (by decide)]
    simp only [show ∀ v : Value, List.lookup (txt "target") [(txt "target", v)] = some v from fun _ => rfl, Option.map_some, Option.bind_some]
    rw [get_obj (by simp only [List.map_cons, List.map_nil]; decide) (by decide)]
    simp only [show ∀ v w : Value, List.lookup (txt "settings") [(txt "settings", v), (txt "outputs", w)] = some v from fun _ _ => rfl, Option.map_some, Option.bind_some]
  have houts : ∀ {s o : Value} (ks : List Text),
      (shownJs (.obj [(txt "target", .obj [(txt "settings", s), (txt "outputs", o)])])).path (txt "target" :: txt "outputs" :: ks) = (shownJs o).path ks := by
    intro s o ks
    simp only [JsVal.path]
    rw [get_obj (by simp only [List.map_cons, List.map_nil]; decide) (by decide)]
    simp only [show ∀ v : Value, List.lookup (txt "target") [(txt "target", v)] = some v from fun _ => rfl, Option.map_some, Option.bind_some]
    rw [get_obj (by simp only [List.map_cons, List.map_nil]; decide) (by decide)]
    simp only [show ∀ v w : Value, List.lookup (txt "outputs") [(txt "settings", v), (txt "outputs", w)] = some w from fun _ _ => rfl, Option.map_some, Option.bind_some]
  have hc : ∀ k v, (k, v) ∈ crop → k ≠ txt "__proto__" →
      (shownJs (ofJson shown (imageJson fields m))).path [txt "target", txt "settings", txt "crop_settings", k] = some (shownJs (ofJson shown v)) := by
    intro k v hm hk
    simp only [imageJson, h.fields, ofJson, ofItems]
    rw [htarget (s := .null)]
    simp only [JsVal.path]
    rw [get_obj (by simp only [List.map_cons, List.map_nil]; decide) (by decide)]
    simp only [show ∀ a b c d : Value, List.lookup (txt "crop_settings") [(txt "width", a), (txt "height", b), (txt "crop", c), (txt "crop_settings", d)] = some d from
      fun _ _ _ _ => rfl, Option.map_some, Option.bind_some]
    rw [get_obj (by rw [ofItems_keys]; exact hcrop.2) hk, (lookup_mem_iff (by rw [ofItems_keys]; exact hcrop.2)).2 (by
      rw [ofItems_map]; exact List.mem_map.2 ⟨_, hm, rfl⟩)]
    rfl
  refine ⟨?_, ?_, ?_, fun k n hm hk => ?_, fun k q hm hk => ?_, fun f pics hf hk => ?_, fun f hf => ?_⟩
  · simp only [imageJson, ofJson, ofItems]
    rw [htarget (s := .null)]
    simp only [JsVal.path]
    rw [get_obj (by simp only [List.map_cons, List.map_nil]; decide) (by decide)]
    rfl
  · simp only [imageJson, ofJson, ofItems]
    rw [htarget (s := .null)]
    simp only [JsVal.path]
    rw [get_obj (by simp only [List.map_cons, List.map_nil]; decide) (by decide)]
    rfl
  · simp only [imageJson, ofJson, ofItems]
    rw [htarget (s := .null)]
    simp only [JsVal.path]
    rw [get_obj (by simp only [List.map_cons, List.map_nil]; decide) (by decide)]
    rfl
  · rw [hc k _ hm hk]
    simp only [ofJson, shownJs, sorted, jsOf]
  · rw [hc k _ hm hk]
    simp only [ofJson, shownJs, sorted, jsOf]
  · simp only [imageJson, ofJson, ofItems]
    rw [houts]
    simp only [JsVal.path]
    have hn : ((ofItems shown (m.outputs.map fun x => (x.1, Json.arr (x.2.map picJson)))).map (·.1)).Nodup := by
      rw [ofItems_keys, List.map_map]; exact h.once
    rw [get_obj hn hk, (lookup_mem_iff hn).2 (by
      rw [ofItems_map, List.map_map]; exact List.mem_map.2 ⟨_, hf, rfl⟩)]
    refine ⟨(pics.map picJson).map fun v => shownJs (ofJson shown v), ?_, ?_⟩
    · simp only [Option.map_some, Option.bind_some, ofJson, ofList_map]
      rw [shown_arr, List.map_map]
      rfl
    · rw [List.map_map, List.forall₂_map_right_iff, List.forall₂_same]
      exact fun p _ => js_pic shown p
  · simp only [imageJson, ofJson, ofItems]
    rw [houts]
    simp only [JsVal.path]
    have hn : ((ofItems shown (m.outputs.map fun x => (x.1, Json.arr (x.2.map picJson)))).map (·.1)).Nodup := by
      rw [ofItems_keys, List.map_map]; exact h.once
    by_cases hk : f = txt "__proto__"
    · rw [hk, get_proto]; rfl
    · rw [get_obj hn hk]
      have : (ofItems shown (m.outputs.map fun x => (x.1, Json.arr (x.2.map picJson)))).lookup f = none := by
        rw [List.lookup_eq_none_iff]
        intro x hx
        rw [ofItems_map, List.map_map] at hx
        obtain ⟨o, ho, rfl⟩ := List.mem_map.1 hx
        have : o.1 ≠ f := fun e => hf o.2 (by rw [← e]; exact ho)
        simpa using Ne.symm this
      rw [this]
      rfl

/-- The dictionary of images. -/
def dictionary (fields : C → Json) (ms : List (Text × Metadata C)) : List (Text × Json) := ms.map fun x => (x.1, imageJson fields x.2)

/-- **C117**: a browser which imports the module has an object with exactly the names which are listed, each with the settings and
pictures recorded for it; but a name `__proto__` is missing. -/
theorem C117_module {t : Tools C} {shown : ℚ → Text} (hd : ∀ v, t.dumps v = sortedText shown v) {ms : List (Text × Metadata C)}
    (hn : (ms.map (·.1)).Nodup) {crop : Metadata C → List (Text × Json)}
    (hg : ∀ x ∈ ms, JsonText.Plain x.1 ∧ GenuineImage shown t.fields (crop x.2) x.2) :
    ∃ w, Gives (moduleText t (dictionary t.fields ms)) w ∧
      (∀ name m, (name, m) ∈ ms → name ≠ txt "__proto__" → ∃ j, w.get name = some j ∧ JsImage shown (crop m) m j) ∧
      (∀ name, (∀ m, (name, m) ∉ ms) → w.get name = none) ∧ w.get (txt "__proto__") = none := by
  have hn' : ((ofItems shown (dictionary t.fields ms)).map (·.1)).Nodup := by
    rw [ofItems_keys, dictionary, List.map_map]; exact hn
  have hG : Genuine (ofJson shown (.obj (dictionary t.fields ms))) := by
    simp only [ofJson, Genuine]
    refine ⟨?_, hn'⟩
    rw [genuinePairs_iff]
    intro x hx
    rw [ofItems_map, dictionary, List.map_map] at hx
    obtain ⟨y, hy, rfl⟩ := List.mem_map.1 hx
    exact ⟨(hg y hy).1, genuine_image (hg y hy).2⟩
  refine ⟨shownJs (ofJson shown (.obj (dictionary t.fields ms))), ⟨t.dumps (.obj (dictionary t.fields ms)), sorted (ofJson shown (.obj (dictionary t.fields ms))), rfl, ?_, rfl⟩,
    fun name m hm hk => ?_, fun name hm => ?_, ?_⟩
  · rw [hd, sortedText]
    exact loads_dump (genuine_sorted _ hG) (by simp only [ofJson, sorted]; trivial) none
  · refine ⟨shownJs (ofJson shown (imageJson t.fields m)), ?_, js_image (hg _ hm).2⟩
    simp only [ofJson]
    rw [get_obj hn' hk, (lookup_mem_iff hn').2 (by
      rw [ofItems_map, dictionary, List.map_map]; exact List.mem_map.2 ⟨_, hm, rfl⟩)]
    rfl
  · simp only [ofJson]
    by_cases hk : name = txt "__proto__"
    · rw [hk, get_proto]
    · rw [get_obj hn' hk]
      have : (ofItems shown (dictionary t.fields ms)).lookup name = none := by
        rw [List.lookup_eq_none_iff]
        intro x hx
        rw [ofItems_map, dictionary, List.map_map] at hx
        obtain ⟨o, ho, rfl⟩ := List.mem_map.1 hx
        have : o.1 ≠ name := fun e => hm o.2 (by rw [← e]; exact ho)
        simpa using Ne.symm this
      rw [this]
      rfl
  · simp only [ofJson]
    exact get_proto _

/-- **C117**: the order in which the images are listed does not change the module. -/
theorem C117_order {t : Tools C} {shown : ℚ → Text} (hd : ∀ v, t.dumps v = sortedText shown v) {ms ms' : List (Text × Metadata C)}
    (hp : ms.Perm ms') (hn : (ms.map (·.1)).Nodup) :
    moduleText t (dictionary t.fields ms) = moduleText t (dictionary t.fields ms') := by
  have : sorted (ofJson shown (.obj (dictionary t.fields ms))) = sorted (ofJson shown (.obj (dictionary t.fields ms'))) := by
    simp only [ofJson, sorted, sortedPairs_map, ofItems_map, dictionary, List.map_map]
    rw [sortItems_unique (hp.map _) ?_]
    rw [List.map_map]
    exact (hp.map (·.1)).nodup_iff.1 hn
  unfold moduleText
  rw [hd, hd, sortedText, sortedText, this]

theorem exportAll_metadata {env : Env Json C} {fields : C → Json} {file : Text} : ∀ {items out : List (Text × Json)} {r : Built} {fs : Fs}
    {out' : List (Text × Json)} {r' : Built} {fs' : Fs}, exportAll env fields file items out r fs = .ok (out', r', fs') →
    ∃ ms : List (Text × Metadata C), out' = out ++ dictionary fields ms ∧
      List.Forall₂ (fun x y => y.1 = x.1 ∧ ∃ c g b g', command x.2 = .ok c ∧ exportCommand env file g c = .ok (y.2, b, g')) items ms
  | [], out, r, fs, out', r', fs', h => by
    cases h
    exact ⟨[], by simp [dictionary], .nil⟩
  | x :: items, out, r, fs, out', r', fs', h => by
    unfold exportAll at h
    split at h
    · cases h
    · next c hc =>
      split at h
      · cases h
      · next m b g he =>
        obtain ⟨ms, h1, h2⟩ := exportAll_metadata h
        exact ⟨(x.1, m) :: ms, by rw [h1]; simp [dictionary], .cons ⟨rfl, c, fs, b, g, hc, he⟩ h2⟩

/-- **C117**: what a browser has of the module which a build has written for a file which lists images. -/
theorem C117_build {t : Tools C} {shown : ℚ → Text} (hd : ∀ v, t.dumps v = sortedText shown v) {rel module p : Text}
    (hrel : rel = txt "src/public/" ++ p ++ txt ".images.json") (hmod : module = txt "out/www/" ++ p ++ txt ".images.js")
    {g g' : Fs} {items : List (Text × Json)} (hl : load t rel g = .ok (some items)) (hn : (items.map (·.1)).Nodup) {r : Built}
    (he : buildFile t rel g = .ok (r, g')) :
    ∃ (ms : List (Text × Metadata C)) (text : Text), g' module = some (t.env.encode text) ∧
      List.Forall₂ (fun x y => y.1 = x.1 ∧ ∃ c f b f', command x.2 = .ok c ∧ exportCommand t.env (Paths.join t.env.folder rel) f c = .ok (y.2, b, f')) items ms ∧
      ∀ crop : Metadata C → List (Text × Json), (∀ x ∈ ms, JsonText.Plain x.1 ∧ GenuineImage shown t.fields (crop x.2) x.2) →
        ∃ w, Gives text w ∧ (∀ w', Gives text w' → w' = w) ∧
          (∀ name m, (name, m) ∈ ms → name ≠ txt "__proto__" → ∃ j, w.get name = some j ∧ JsImage shown (crop m) m j) ∧
          (∀ name, name ∉ items.map (·.1) → w.get name = none) ∧ w.get (txt "__proto__") = none := by
  have hio : imagesOut rel = module := by rw [hrel, hmod]; exact imagesOut_eq p
  have hnm : (txt ".images.js").isSuffixOf rel = false := by rw [hrel]; exact not_module p
  have hht : hashTarget module = some (module ++ txt ".hash") := by rw [hmod]; exact module_target p
  unfold buildFile at he
  rw [hnm] at he
  simp only [Bool.false_eq_true, if_false] at he
  rw [hl] at he
  dsimp only at he
  split at he
  · cases he
  · next out b f hx =>
    obtain ⟨ms, h1, h2⟩ := exportAll_metadata hx
    rw [List.nil_append] at h1
    have hnames : ms.map (·.1) = items.map (·.1) := by
      clear hx h1 he hl hn
      induction h2 with
      | nil => rfl
      | cons h _ ih => rw [List.map_cons, List.map_cons, ih, h.1]
    refine ⟨ms, moduleText t out, ?_, h2, fun crop hg => ?_⟩
    · split at he
      · cases he
      · next h fs hh =>
        cases he
        rw [hio] at hh
        unfold hashBuild at hh
        rw [hht] at hh
        have hne : module ≠ module ++ txt ".hash" := fun e => by
          have := congrArg List.length e
          simp [show (txt ".hash").length = 5 from rfl] at this
        dsimp only at hh
        split at hh
        · cases hh; simp [Fs.write]
        · split at hh
          · cases hh
          · cases hh
            simp [Fs.write, hne]
    · rw [h1]
      obtain ⟨w, k1, k2, k3, k4⟩ := C117_module hd (by rw [hnames]; exact hn) hg
      exact ⟨w, k1, fun w' hw => hw.unique k1, k2, fun name hm => k3 name fun m hmem => hm (by
        rw [← hnames]; exact List.mem_map.2 ⟨_, hmem, rfl⟩), k4⟩

/-! ## Cases -/

namespace ModuleCase
open Verif.Img.Glue.Case (entry file)

/-- The tools of the case of C86, with Python's JSON. -/
noncomputable def tools : Tools Unit := { Glue.Case.tools with
  dumps := sortedText fun _ => []
  fields := fun _ => .obj [(txt "pre_top_crop", .num (.int 3)), (txt "crop_left_percentage", .num .nan)] }

theorem loads_file : load tools Glue.Case.rel Files.Case.f1 = .ok (some [(txt "first", entry)]) :=
  Glue.Case.loads_file Glue.Case.f1_rel Files.Case.f1_source

theorem builds : ∃ r g, buildFile tools Glue.Case.rel Files.Case.f1 = .ok (r, g) := by
  obtain ⟨l, p, he⟩ := Files.Case.export_run
  unfold buildFile
  rw [loads_file]
  have hn : (txt ".images.js").isSuffixOf Glue.Case.rel = false := by decide
  have hj : Paths.join tools.env.folder Glue.Case.rel = Files.Case.page := by decide
  have hx : exportCommand tools.env Files.Case.page Files.Case.f1 Files.Case.command = .ok (Files.Case.recorded, ⟨l, p, []⟩, Files.Case.f4) := he
  simp only [hn, Bool.false_eq_true, if_false, exportAll, Glue.Case.command_is, hj, hx]
  have hio : imagesOut Glue.Case.rel = txt "out/www/" ++ txt "gallery" ++ txt ".images.js" := by decide
  unfold hashBuild
  rw [hio, module_target]
  dsimp only
  split
  · next e h =>
    split at h
    · cases h
    · rw [show ∀ (g : Fs) (b : Bytes) (q : Text), (g.write q b) q = some b from fun g b q => by simp [Fs.write]] at h
      cases h
  · exact ⟨_, _, rfl⟩

/-- The crop settings of the case. -/
def crop : List (Text × Json) := [(txt "pre_top_crop", .num (.int 3)), (txt "crop_left_percentage", .num .nan)]

theorem genuine : GenuineImage (fun _ => []) tools.fields crop Files.Case.recorded where
  style := plain_txt "cover"
  fields := rfl
  settings := by
    simp only [crop, ofJson, ofItems, Genuine, GenuinePairs, List.map_cons, List.map_nil]
    exact ⟨⟨plain_txt _, trivial, plain_txt _, trivial, trivial⟩, by decide⟩
  pics := by
    intro o ho
    obtain rfl : o = _ := List.mem_singleton.1 ho
    refine ⟨plain_txt "w", fun p hp => ?_⟩
    simp only [List.mem_cons, List.not_mem_nil, or_false] at hp
    rcases hp with rfl | rfl
    · exact ⟨plain_txt _, plain_txt "b"⟩
    · exact ⟨plain_txt _, plain_txt "a"⟩
  once := by decide

theorem sorted_is : sorted (ofJson (fun _ => []) (.obj (dictionary tools.fields [(txt "first", Files.Case.recorded)]))) =
    .obj [(txt "first", .obj [(txt "target", .obj [
      (txt "outputs", .obj [(txt "w", .arr [
        .obj [(txt "choice", .str (txt "b")), (txt "height", .int 10), (txt "url", .str (txt "/img/a/1/10x10.w")), (txt "width", .int 10)],
        .obj [(txt "choice", .str (txt "a")), (txt "height", .int 20), (txt "url", .str (txt "/img/a/1/20x20.w")), (txt "width", .int 20)]])]),
      (txt "settings", .obj [(txt "crop", .str (txt "cover")),
        (txt "crop_settings", .obj [(txt "crop_left_percentage", .nan), (txt "pre_top_crop", .int 3)]),
        (txt "height", .int 10), (txt "width", .int 10)])])])] := by
  simp only [dictionary, imageJson, picJson, tools, Files.Case.recorded, Files.Case.outputs, Files.Case.target, List.map_cons, List.map_nil, ofJson, ofItems, ofList,
    sorted, sortedPairs, sortedAll]
  rfl

theorem text_is : moduleText tools (dictionary tools.fields [(txt "first", Files.Case.recorded)]) =
    txt "export default {\"first\": {\"target\": {\"outputs\": {\"w\": [{\"choice\": \"b\", \"height\": 10, \"url\": \"/img/a/1/10x10.w\", \"width\": 10}, {\"choice\": \"a\", \"height\": 20, \"url\": \"/img/a/1/20x20.w\", \"width\": 20}]}, \"settings\": {\"crop\": \"cover\", \"crop_settings\": {\"crop_left_percentage\": NaN, \"pre_top_crop\": 3}, \"height\": 10, \"width\": 10}}}};" ++ [10] := by
  have h : tools.dumps = sortedText fun _ => [] := rfl
  unfold moduleText
  rw [h, sortedText, sorted_is]
  simp only [dump, dumpRest, dumpPairs, gap, newline]
  decide +kernel

/-- The case for C117: the project of C86 is built; and an image with the name __proto__, which the module has but a browser does not. -/
theorem C117_case : (∀ v, tools.dumps v = sortedText (fun _ => []) v) ∧
    Glue.Case.rel = txt "src/public/" ++ txt "gallery" ++ txt ".images.json" ∧
    load tools Glue.Case.rel Files.Case.f1 = .ok (some [(txt "first", entry)]) ∧ (∃ r g, buildFile tools Glue.Case.rel Files.Case.f1 = .ok (r, g)) ∧
    GenuineImage (fun _ => []) tools.fields crop Files.Case.recorded ∧
    (∃ w j, Gives (moduleText tools (dictionary tools.fields [(txt "first", Files.Case.recorded)])) w ∧ w.get (txt "first") = some j ∧
      JsImage (fun _ => []) crop Files.Case.recorded j) ∧
    (∃ w, Gives (moduleText tools (dictionary tools.fields [(txt "first", Files.Case.recorded), (txt "__proto__", Files.Case.recorded)])) w ∧
      w.get (txt "__proto__") = none ∧ ∃ j, w.get (txt "first") = some j) := by
  refine ⟨fun _ => rfl, by decide, loads_file, builds, genuine, ?_, ?_⟩
  · obtain ⟨w, h1, h2, -, -⟩ := C117_module (t := tools) (shown := fun _ => []) (fun _ => rfl) (ms := [(txt "first", Files.Case.recorded)]) (crop := fun _ => crop)
      (by simp) (by
        intro x hx
        obtain rfl : x = _ := List.mem_singleton.1 hx
        exact ⟨plain_txt _, genuine⟩)
    obtain ⟨j, h3, h4⟩ := h2 _ _ (List.mem_singleton.2 rfl) (by decide)
    exact ⟨w, j, h1, h3, h4⟩
  · obtain ⟨w, h1, h2, -, h3⟩ := C117_module (t := tools) (shown := fun _ => []) (fun _ => rfl)
      (ms := [(txt "first", Files.Case.recorded), (txt "__proto__", Files.Case.recorded)]) (crop := fun _ => crop)
      (by simp only [List.map_cons, List.map_nil]; decide) (by
        intro x hx
        simp only [List.mem_cons, List.not_mem_nil, or_false] at hx
        rcases hx with rfl | rfl
        · exact ⟨plain_txt _, genuine⟩
        · exact ⟨plain_txt _, genuine⟩)
    obtain ⟨j, h4, -⟩ := h2 _ _ (List.mem_cons_self ..) (by decide)
    exact ⟨w, h1, h3, j, h4⟩

end ModuleCase

end Verif.Img.Glue
