import Verif.IconDoc
import Verif.CssThm

/-!
# C52
-/

namespace Verif.Icons

open Verif.Reader (Text txt substitute)
open Verif.Css (Uni Tok)
open Verif.Assoc
open Verif.Build
open Verif.Handlers (Bytes Fs)

/-- In a document which is built, every command has been replaced by one class for every size and color which it asks for
and which is configured, in the order asked for, and by the classes of its buttons; and the images have been made of the
source by replacing the initial color.  Reported are the images and the hashes of those images which were not there.

Missing: the colors of the named buttons have to be configured, see `C52_false_button`; the hash of an image which was
there is not reported, see `C52_false_hash`. -/
theorem C52_partial {env : Env} (hs : Spaces env.space) {doc : List Tok} (hw : WellFormed env doc) (hsl : Slashless env doc) {st : St}
    {f : Nat} {b : State St Tok MErr} (h : loop [icons env] f ⟨[], none, st⟩ doc = some (.ok b)) :
    b.mark = none ∧ DocOf env doc b.output ∧ FilesOf env doc st.fs b.st.fs ∧
    ∀ p, b.st.reported p ↔ st.reported p ∨ ReportsOf env doc st.fs p := by
  have h1 := loop_single (icons_single env) h
  cases h2 : subAll (icons env) st doc with
  | error e => rw [h2] at h1; cases h1
  | ok r =>
    obtain ⟨out, st'⟩ := r
    rw [h2] at h1
    simp only [done, Except.ok.injEq] at h1
    subst h1
    exact ⟨rfl, subAll_spec hs doc hw hsl st st' out h2⟩

/-- It is built if the sources of the icons are there. -/
theorem C52_succeeds {env : Env} (hs : Spaces env.space) {doc : List Tok} (hw : WellFormed env doc) (hsl : Slashless env doc) {st : St}
    (hsrc : ∀ n i c, Wants env doc n i c → (st.fs (source n)).isSome) : ∃ f b, loop [icons env] f ⟨[], none, st⟩ doc = some (.ok b) := by
  obtain ⟨f, hf⟩ := loop_subAll (icons_single env) doc [] st
  obtain ⟨r, hr⟩ := subAll_ok hs doc hw hsl st hsrc
  obtain ⟨out, st'⟩ := r
  rw [hr] at hf
  exact ⟨f, _, hf⟩

/-- What the scan announces for a document is what its build reports as produced or reused, provided that no image is there
before the build. -/
theorem C52_announced {env : Env} (hs : Spaces env.space) {doc : List Tok} (hw : WellFormed env doc) (hsl : Slashless env doc) {st st0 : St}
    (hempty : ∀ p, ¬ st.reported p) (hempty0 : st0.produces = []) (hnew : ∀ n i c, Wants env doc n i c → st.fs (image n c) = none)
    {f f0 : Nat} {b b0 : State St Tok MErr} (h : loop [icons env] f ⟨[], none, st⟩ doc = some (.ok b))
    (h0 : loop [iconsScan env] f0 ⟨[], none, st0⟩ doc = some (.ok b0)) : ∀ p, p ∈ b0.st.produces ↔ b.st.reported p := by
  obtain ⟨-, -, -, hr⟩ := C52_partial hs hw hsl h
  have h1 := loop_single (iconsScan_single env) h0
  obtain ⟨st', h2, -, h3, -⟩ := scan_spec hs doc hw hsl st0
  rw [h2] at h1
  simp only [done, Except.ok.injEq] at h1
  subst h1
  intro p
  rw [h3, hr]
  simp only [hempty0, List.not_mem_nil, false_or, hempty p]
  unfold ReportsOf
  constructor
  · rintro ⟨n, i, c, hwc, h | h⟩
    · exact ⟨n, i, c, hwc, .inl h⟩
    · exact ⟨n, i, c, hwc, .inr ⟨h, hnew n i c hwc⟩⟩
  · rintro ⟨n, i, c, hwc, h | ⟨h, -⟩⟩
    · exact ⟨n, i, c, hwc, .inl h⟩
    · exact ⟨n, i, c, hwc, .inr h⟩

/-- A command whose initial color, or all of whose colors or sizes, are not configured stays as it is. -/
theorem C52_unknown {env : Env} (hs : Spaces env.space) {v a : Text} {c : Command} (hi : IsIcon env.space v a)
    (hc : CommandOf (itokenize env.uni (substitute a)) c)
    (h : c.initial ∉ keys env.settings.colors ∨ (∃ l, c.colors = some l ∧ ∀ x ∈ l, x ∉ keys env.settings.colors) ∨
      ∃ l, c.sizes = some l ∧ ∀ x ∈ l, x ∉ env.settings.sizes) (st : St) (f : Nat) :
    loop [icons env] (f + 1) ⟨[], none, st⟩ [.comment v] = some (.ok ⟨[.comment v], none, st⟩) := by
  have hno : ∀ (p : Text → Bool) (l : List Text), (∀ x ∈ l, p x = false) → distinct p l = [] := by
    intro p l hl
    unfold distinct
    rw [List.filter_eq_nil_iff.2 (fun x hx => by simp [hl x hx])]
    rfl
  have hk : ∀ x, x ∉ keys env.settings.colors → env.known x = false := by
    intro x hx
    cases hkx : env.known x with
    | false => rfl
    | true => exact absurd ((known_iff env x).1 hkx) hx
  have hr : realize env c = .ok none := by
    unfold realize
    rcases h with h | ⟨l, hl, h⟩ | ⟨l, hl, h⟩
    · rw [hk _ h]; simp
    · split
      · simp only [hl, hno env.known l (fun x hx => hk x (h x hx)), true_or, if_true]
      · rfl
    · split
      · simp only [hl, hno (fun s => decide (s ∈ env.settings.sizes)) l (fun x hx => by simpa using h x hx), or_true, if_true]
      · rfl
  have hg : getIcon env (.comment v) = .ok none := by
    simp only [getIcon, (iconArgs_iff hs.1 hs.2.1 hs.2.2.1 hs.2.2.2 v a).2 hi, (C52_syntax _ c).2 hc, hr]
  have hst : (icons env).start st (.comment v) = .ok (false, st) := by show start env st _ = _; unfold start; rw [hg]
  simp [loop, round, findMark, hst]

/-! ## A stylesheet -/

namespace IconToy

deriving instance DecidableEq for Except

def space (c : Nat) : Bool := c == 32 || (9 ≤ c && c ≤ 13)

theorem spaces : Spaces space := by unfold Spaces; decide

/-- Two colors, three sizes and a button. -/
def settings : Settings where
  colors := [(txt "black", ⟨0, 0, 0⟩), (txt "red", ⟨255, 0, 0⟩)]
  sizes := [txt "small", txt "medium", txt "large"]
  buttons := some ⟨some ⟨txt "black", txt "red", txt "gray"⟩, [(txt "alert", ⟨txt "red", txt "black", txt "black"⟩)]⟩

/-- Characters stand for themselves; the digest is the length. -/
def env : Env where
  uni := Css.plainU
  space := space
  main := txt "src/public/css/main.css"
  self := txt "src/public/css/other.css"
  settings := settings
  decode := fun b => b
  encode := fun t => t
  digest := fun b => [b.length]

def empty (fs : Fs) : St := ⟨fs, [], [], [], [], []⟩

def bytes (s : String) : Bytes := txt s

/-- The source of the icon. -/
def files : Fs := fun p => if p = txt "src/public/img/icons/check.svg" then some (bytes "<svg fill=\"#000000\"/>") else none

/-- Red twice, an unknown color and an unknown size, no particular buttons. -/
def cmd : Text := txt " ! PREPROCESSOR: icon check black [\"red\", \"blue\", \"black\", \"red\"] [\"large\", \"huge\", \"small\"] "

def doc : List Tok := [.ident (txt "p"), .comment cmd, .comment (txt "remark"), .eof]

/-- What can be checked of a document by running it. -/
def check (env : Env) (t : Tok) : Bool :=
  match t with
  | .comment v =>
    match iconArgs env.space v with
    | none => true
    | some a =>
      match parse (itokenize env.uni (substitute a)) with
      | .error _ => false
      | .ok c =>
        match asked env.settings c.button with
        | none => true
        | some bs => bs.named.all fun x => decide (Good env.settings x.2)
  | _ => true

theorem wellFormed {env : Env} (hs : Spaces env.space) {doc : List Tok} (h : doc.all (check env) = true) : WellFormed env doc := by
  intro t ht v a he hi
  subst he
  have h := List.all_eq_true.1 h _ ht
  simp only [check, (iconArgs_iff hs.1 hs.2.1 hs.2.2.1 hs.2.2.2 v a).2 hi] at h
  split at h
  · cases h
  · next c hc =>
    refine ⟨c, (C52_syntax _ c).1 hc, ?_⟩
    intro bs hb x hx
    rw [hb] at h
    simpa using List.all_eq_true.1 h x hx

/-- The icon of a token. -/
def slashes (env : Env) (t : Tok) : Bool :=
  match getIcon env t with
  | .ok (some i) => decide (i.name ≠ []) && decide (47 ∉ i.name)
  | _ => true

theorem slashless {env : Env} (hs : Spaces env.space) {doc : List Tok} (hw : WellFormed env doc) (hc : ∀ c ∈ keys env.settings.colors, 47 ∉ c)
    (h : doc.all (slashes env) = true) : Slashless env doc := by
  refine ⟨hc, fun t ht i hi => ?_⟩
  obtain ⟨o, ho, h1⟩ := getIcon_spec env hs hw ht
  have e := (h1 i).2 hi
  subst e
  have := List.all_eq_true.1 h _ ht
  simp only [slashes, ho, Bool.and_eq_true, decide_eq_true_eq] at this
  exact this

end IconToy

open IconToy

theorem toy_wellFormed : WellFormed env doc := wellFormed spaces (by decide +kernel)

theorem toy_slashless : Slashless env doc := slashless spaces toy_wellFormed (by decide) (by decide +kernel)

/-- The icon of the command: red and black, large and small; the default button has an unknown color and is dropped. -/
theorem C52_case : getIcon env (.comment cmd) = .ok (some ⟨txt "check", txt "black", [txt "red", txt "black"], [txt "large", txt "small"],
    some (none, [(txt "alert", .button ⟨txt "red", txt "black", txt "black"⟩)])⟩) := by decide +kernel

/-- A command of which the icon is known. -/
theorem sub_icon {env : Env} {st st2 : St} {t : Tok} {i : Icon} {ts : List Tok} (hg : getIcon env t = .ok (some i))
    (hp : produceAll env i (withMain env st) i.colors = .ok st2) (ho : output i = .ok ts) : sub (icons env) st t = .ok (ts, st2) := by
  have hst : (icons env).start st t = .ok (true, st) := by show start env st t = _; unfold start; rw [hg]
  have hc : (icons env).cont st t = .ok (some ts, st2) := by
    show cont env st t = _
    unfold cont
    rw [hg]
    have hp : produceAll env i (if env.self = env.main then st else { st with children := add st.children env.main }) i.colors = .ok st2 := hp
    simp only [hp, ho]
  simp only [sub, hst, hc]

theorem sub_other {env : Env} {t : Tok} (hg : getIcon env t = .ok none) (st : St) : sub (icons env) st t = .ok ([t], st) := by
  have hst : (icons env).start st t = .ok (false, st) := by show start env st t = _; unfold start; rw [hg]
  simp only [sub, hst]

namespace IconToy

/-- The icon of `cmd`. -/
def check1 : Icon := ⟨txt "check", txt "black", [txt "red", txt "black"], [txt "large", txt "small"],
    some (none, [(txt "alert", .button ⟨txt "red", txt "black", txt "black"⟩)])⟩

end IconToy

theorem toy_produced : ∃ st2, produceAll env check1 (withMain env (empty files)) check1.colors = .ok st2 ∧
    st2.fs (txt "out/www/img/icons/check/red.svg") = some (bytes "<svg fill=\"#FF0000\"/>") ∧
    st2.fs (txt "out/www/img/icons/check/red.svg.hash") = some [21] := by
  have h : (match produceAll env check1 (withMain env (empty files)) check1.colors with
      | .ok st => decide (st.fs (txt "out/www/img/icons/check/red.svg") = some (bytes "<svg fill=\"#FF0000\"/>")) &&
          decide (st.fs (txt "out/www/img/icons/check/red.svg.hash") = some [21])
      | _ => false) = true := by decide +kernel
  split at h
  · next st2 h2 =>
    simp only [Bool.and_eq_true, decide_eq_true_eq] at h
    exact ⟨st2, h2, h.1, h.2⟩
  · cases h

/-- The stylesheet is built. -/
theorem C52_case_built : ∃ f b, loop [icons env] f ⟨[], none, empty files⟩ doc = some (.ok b) ∧
    b.st.fs (txt "out/www/img/icons/check/red.svg") = some (bytes "<svg fill=\"#FF0000\"/>") ∧
    b.st.fs (txt "out/www/img/icons/check/red.svg.hash") = some [21] ∧
    DocOf env doc b.output := by
  obtain ⟨st2, h1, h2, h3⟩ := toy_produced
  obtain ⟨ts, hts, -⟩ := output_spec check1 (fun d named h => by cases h; intro x hx; simp only [List.mem_singleton] at hx; subst hx; exact ⟨_, rfl⟩)
  have hall : subAll (icons env) (empty files) doc = .ok ([.ident (txt "p")] ++ (ts ++ ([.comment (txt "remark")] ++ ([.eof] ++ []))), st2) := by
    have g1 : getIcon env (.ident (txt "p")) = .ok none := rfl
    have g2 : getIcon env (.comment (txt "remark")) = .ok none := by decide +kernel
    have g3 : getIcon env .eof = .ok none := rfl
    unfold doc
    simp only [subAll, sub_other g1, sub_icon C52_case h1 hts, sub_other g2, sub_other g3]
  obtain ⟨f, hf⟩ := loop_subAll (icons_single env) doc [] (empty files)
  rw [hall] at hf
  exact ⟨f, _, hf, h2, h3, (C52_partial spaces toy_wellFormed toy_slashless hf).2.1⟩

/-! ## What goes wrong -/

namespace IconToy

/-- A command with a named button of an unknown color. -/
def badButton : Text := txt "! PREPROCESSOR: icon check black all-colors all-sizes {\"alert\": [\"gray\", \"red\", \"red\"]}"

/-- A command with a button whose colors are configured, but not asked for. -/
def otherColor : Text := txt "! PREPROCESSOR: icon check black [\"black\"] [\"small\"] {\"default\": [\"red\", \"red\", \"red\"]}"

/-- Another stylesheet has already produced the image. -/
def files' : Fs := fun p => if p = txt "out/www/img/icons/check/red.svg" then some (bytes "<svg fill=\"#FF0000\"/>")
  else if p = txt "out/www/img/icons/check/red.svg.hash" then some (bytes "abc") else files p

def redOnly : Text := txt "! PREPROCESSOR: icon check black [\"red\"] all-sizes no-btn"

end IconToy

/-- A named button with an unknown color is not dropped: the command cannot be built at all. -/
theorem C52_false_button : getIcon env (.comment badButton) = .error .unpack ∧
    ∃ c, CommandOf (itokenize env.uni (substitute (txt "check black all-colors all-sizes {\"alert\": [\"gray\", \"red\", \"red\"]}"))) c ∧
      c.button = .some ⟨none, [(txt "alert", ⟨txt "gray", txt "red", txt "red"⟩)]⟩ := by
  refine ⟨by decide +kernel, ⟨txt "check", txt "black", none, none, .some ⟨none, [(txt "alert", ⟨txt "gray", txt "red", txt "red"⟩)]⟩⟩, ?_, rfl⟩
  rw [← C52_syntax]
  decide +kernel

/-- Whenever a named button has an unknown color, the command fails, whatever the other buttons are, unless all names have two
letters. -/
theorem C52_false_named (env : Env) (bs : Buttons) {x : Text × Button} (hx : x ∈ bs.named) (hb : ¬ Good env.settings x.2)
    {y : Text × Button} (hy : y ∈ bs.named) (hl : y.1.length ≠ 2) : realButtons env bs = .error .unpack := by
  have hpur : ∀ (purge ks : List Text) (k : Text), k ∈ ks → k.length ≠ 2 → purged purge ks = none := by
    intro purge ks k
    induction ks with
    | nil => intro h; cases h
    | cons z ks ih =>
      intro hk hlen
      rcases List.mem_cons.1 hk with rfl | hk
      · match k, hlen with
        | [], _ => rfl
        | [_], _ => rfl
        | [_, _], h => simp at h
        | _ :: _ :: _ :: _, _ => rfl
      · have := ih hk hlen
        match z with
        | [] => rfl
        | [_] => rfl
        | [_, _] => simp only [purged, this, Option.map_none]
        | _ :: _ :: _ :: _ => rfl
  unfold realButtons
  simp only
  rw [if_neg, hpur _ _ y.1 (List.mem_map.2 ⟨y, hy, rfl⟩) hl]
  intro h
  have : x.1 ∈ (bs.named.filter fun x => env.bad x.2).map (·.1) := by
    refine List.mem_map.2 ⟨x, List.mem_filter.2 ⟨hx, ?_⟩, rfl⟩
    cases hbx : env.bad x.2 with
    | true => rfl
    | false => exact absurd ((bad_iff env x.2).1 hbx) hb
  rw [h] at this
  cases this

namespace IconToy

def red1 : Icon := ⟨txt "check", txt "black", [txt "red"], [txt "small", txt "medium", txt "large"], none⟩
def other1 : Icon := ⟨txt "check", txt "black", [txt "black"], [txt "small"], some (some ⟨txt "red", txt "red", txt "red"⟩, [])⟩

end IconToy

theorem toy_red : getIcon env (.comment redOnly) = .ok (some red1) := by decide +kernel

theorem toy_red_announced : txt "out/www/img/icons/check/red.svg.hash" ∈ (scanIcon env red1 (empty files')).produces := by decide +kernel

theorem toy_red_produced : ∃ st2, produceAll env red1 (withMain env (empty files')) red1.colors = .ok st2 ∧
    ¬ st2.reported (txt "out/www/img/icons/check/red.svg.hash") := by
  have h : (match produceAll env red1 (withMain env (empty files')) red1.colors with
      | .ok st => decide (txt "out/www/img/icons/check/red.svg.hash" ∉ st.produced ∧ txt "out/www/img/icons/check/red.svg.hash" ∉ st.reused)
      | _ => false) = true := by decide +kernel
  split at h
  · next st2 h2 =>
    simp only [decide_eq_true_eq] at h
    exact ⟨st2, h2, fun hr => hr.elim h.1 h.2⟩
  · cases h

theorem sub_scan {env : Env} {st : St} {t : Tok} {i : Icon} (hg : getIcon env t = .ok (some i)) :
    subAll (iconsScan env) st [t] = .ok ([t], scanIcon env i st) := by
  have hst : (iconsScan env).start st t = .ok (false, scanIcon env i st) := by show scanStart env _ _ = _; unfold scanStart; rw [hg]
  simp only [subAll, sub, hst, List.append_nil]

theorem output_plain {i : Icon} (h : i.button = none) : output i = .ok (iconClasses i) := by
  unfold output; rw [h]

/-- The hash of an image which is there is announced, but not reported. -/
theorem C52_false_hash : ∃ f f0 b b0, loop [icons env] f ⟨[], none, empty files'⟩ [.comment redOnly] = some (.ok b) ∧
    loop [iconsScan env] f0 ⟨[], none, empty files'⟩ [.comment redOnly] = some (.ok b0) ∧
    txt "out/www/img/icons/check/red.svg.hash" ∈ b0.st.produces ∧ ¬ b.st.reported (txt "out/www/img/icons/check/red.svg.hash") := by
  obtain ⟨st2, h1, h2⟩ := toy_red_produced
  have h3 : subAll (icons env) (empty files') [.comment redOnly] = .ok (iconClasses red1 ++ [], st2) := by
    simp only [subAll, sub_icon toy_red h1 (output_plain rfl)]
  obtain ⟨f, hf⟩ := loop_subAll (icons_single env) [.comment redOnly] [] (empty files')
  obtain ⟨f0, hf0⟩ := loop_subAll (iconsScan_single env) [.comment redOnly] [] (empty files')
  rw [h3] at hf
  rw [sub_scan toy_red] at hf0
  exact ⟨f, f0, ⟨[] ++ (iconClasses red1 ++ []), none, st2⟩, ⟨[] ++ [Tok.comment redOnly], none, scanIcon env red1 (empty files')⟩, hf, hf0,
    toy_red_announced, h2⟩

theorem toy_other : getIcon env (.comment otherColor) = .ok (some other1) := by decide +kernel

theorem toy_other_produced : ∃ st2 ts, produceAll env other1 (withMain env (empty files)) other1.colors = .ok st2 ∧ output other1 = .ok ts ∧
    imageUrl (txt "check") (txt "red") <:+: ts ∧ st2.fs (image (txt "check") (txt "red")) = none := by
  have h : (match produceAll env other1 (withMain env (empty files)) other1.colors with
      | .ok st => (st.fs (image (txt "check") (txt "red"))).isNone
      | _ => false) = true := by decide +kernel
  have h' : (match output other1 with
      | .ok ts => decide (imageUrl (txt "check") (txt "red") <:+: ts)
      | _ => false) = true := by decide +kernel
  split at h
  · next st2 h2 =>
    split at h'
    · next ts h3 =>
      simp only [decide_eq_true_eq] at h'
      simp only [Option.isNone_iff_eq_none] at h
      exact ⟨st2, ts, h2, h3, h', h⟩
    · cases h'
  · cases h

/-- The classes of a button refer to an image which nothing produces, if its color is not among those asked for. -/
theorem C52_false_image : ∃ f b, loop [icons env] f ⟨[], none, empty files⟩ [.comment otherColor] = some (.ok b) ∧
    imageUrl (txt "check") (txt "red") <:+: b.output ∧ b.st.fs (image (txt "check") (txt "red")) = none := by
  obtain ⟨st2, ts, h1, h2, h3, h4⟩ := toy_other_produced
  have h5 : subAll (icons env) (empty files) [.comment otherColor] = .ok (ts, st2) := by
    simp only [subAll, sub_icon toy_other h1 h2, List.append_nil]
  obtain ⟨f, hf⟩ := loop_subAll (icons_single env) [.comment otherColor] [] (empty files)
  rw [h5] at hf
  exact ⟨f, ⟨[] ++ ts, none, st2⟩, hf, h3, h4⟩

/-! ## Dependencies (C34) -/

/-- The build of icon commands reports a dependency on the file of the configuration, and on nothing else. -/
theorem children_spec {env : Env} (hs : Spaces env.space) : ∀ (doc : List Tok), WellFormed env doc → Slashless env doc →
    ∀ (st st' : St) (out : List Tok), subAll (icons env) st doc = .ok (out, st') →
    ∀ x, x ∈ st'.children ↔ x ∈ st.children ∨ (x = env.main ∧ env.self ≠ env.main ∧ ∃ n i c, Wants env doc n i c) := by
  intro doc
  induction doc with
  | nil =>
    intro _ _ st st' out h x
    simp only [subAll, Except.ok.injEq, Prod.mk.injEq] at h
    obtain ⟨rfl, rfl⟩ := h
    constructor
    · exact .inl
    · rintro (h | ⟨-, -, n, i, c, t, ht, -⟩)
      · exact h
      · cases ht
  | cons t doc ih =>
    intro hw hsl st st' out h x
    have hw' : WellFormed env doc := fun x hx => hw x (by simp [hx])
    have hsl' : Slashless env doc := ⟨hsl.1, fun x hx => hsl.2 x (by simp [hx])⟩
    obtain ⟨o, ho, hi⟩ := getIcon_spec env hs hw (t := t) (by simp)
    cases o with
    | none =>
      simp only [subAll, sub_other ho] at h
      have hno : ∀ j, ¬ IconOf env t j := fun j hj => by have := (hi j).2 hj; cases this
      split at h
      · cases h
      · next out' st2 h1 =>
        cases h
        rw [ih hw' hsl' st st' out' h1 x]
        have : (∃ n i c, Wants env (t :: doc) n i c) ↔ ∃ n i c, Wants env doc n i c := by
          constructor
          · rintro ⟨n, i, c, h⟩
            rcases Wants.cons.1 h with ⟨j, hj, -⟩ | h
            · exact absurd hj (hno j)
            · exact ⟨n, i, c, h⟩
          · rintro ⟨n, i, c, h⟩; exact ⟨n, i, c, Wants.cons.2 (.inr h)⟩
        rw [this]
    | some i =>
      have hiof : IconOf env t i := (hi i).1 rfl
      obtain ⟨hname, hslash⟩ := hsl.2 t (by simp) i hiof
      have hne : ∃ c, c ∈ i.colors := by
        obtain ⟨v, a, c, -, -, -, hr⟩ := hiof
        exact List.exists_mem_of_ne_nil _ hr.colorsNe
      obtain ⟨c0, hc0⟩ := hne
      have hwant : ∃ n i c, Wants env (t :: doc) n i c := ⟨_, _, c0, Wants.cons.2 (.inl ⟨i, hiof, rfl, rfl, hc0⟩)⟩
      simp only [subAll] at h
      split at h
      · cases h
      · next r st2 hc =>
        split at h
        · cases h
        · next out' st5 h1 =>
          cases h
          have hp : ∃ st3, produceAll env i (withMain env st) i.colors = .ok st3 ∧ st3 = st2 := by
            have hst : (icons env).start st t = .ok (true, st) := by show start env st t = _; unfold start; rw [ho]
            simp only [sub, hst] at hc
            cases hcc : (icons env).cont st t with
            | error e => rw [hcc] at hc; cases hc
            | ok q =>
              obtain ⟨oo, st3⟩ := q
              have e3 : st3 = st2 := by
                rw [hcc] at hc
                cases oo with
                | none => cases hc; rfl
                | some _ => cases hc; rfl
              subst e3
              have hcc : cont env st t = .ok (oo, st3) := hcc
              unfold cont at hcc
              rw [ho] at hcc
              simp only at hcc
              split at hcc
              · cases hcc
              · next st4 hp =>
                split at hcc
                · cases hcc
                · cases hcc; exact ⟨_, hp, rfl⟩
          obtain ⟨st3, hp, rfl⟩ := hp
          obtain ⟨-, -, -, -, -, -, -, hch⟩ := produceAll_spec hname hslash i.colors (withMain env st) st3
            (fun x hx => hsl.1 x (hiof.facts.1 x hx)) hp
          rw [ih hw' hsl' st3 st' out' h1 x, hch]
          unfold withMain
          by_cases hm : env.self = env.main
          · simp [hm]
          · simp only [hm, if_false, mem_add, ne_eq, not_false_eq_true, true_and, hwant, and_true]
            constructor
            · rintro ((h | h) | ⟨h, -⟩)
              · exact .inl h
              · exact .inr h
              · exact .inr h
            · rintro (h | h)
              · exact .inl (.inl h)
              · exact .inl (.inr h)

/-- The source of an icon is announced as a dependency, but the build does not report it: it is not rebuilt when the source
changes. -/
theorem C34_false_icon {env : Env} (hs : Spaces env.space) {doc : List Tok} (hw : WellFormed env doc) (hsl : Slashless env doc) {st st0 : St}
    (hempty : st.children = []) {n i c : Text} (hwant : Wants env doc n i c) (hmain : env.main ≠ source n)
    {f f0 : Nat} {b b0 : State St Tok MErr} (h : loop [icons env] f ⟨[], none, st⟩ doc = some (.ok b))
    (h0 : loop [iconsScan env] f0 ⟨[], none, st0⟩ doc = some (.ok b0)) : source n ∈ b0.st.dependencies ∧ source n ∉ b.st.children := by
  have h1 := loop_single (iconsScan_single env) h0
  obtain ⟨st', h2, -, -, h3⟩ := scan_spec hs doc hw hsl st0
  rw [h2] at h1
  simp only [done, Except.ok.injEq] at h1
  subst h1
  have h4 := loop_single (icons_single env) h
  cases h5 : subAll (icons env) st doc with
  | error e => rw [h5] at h4; cases h4
  | ok r =>
    obtain ⟨out, st2⟩ := r
    rw [h5] at h4
    simp only [done, Except.ok.injEq] at h4
    subst h4
    refine ⟨(h3 _).2 (.inr ⟨n, i, c, hwant, .inr (.inl rfl)⟩), ?_⟩
    rw [children_spec hs doc hw hsl st st2 out h5, hempty]
    rintro (h | ⟨h, -⟩)
    · cases h
    · exact hmain h.symm

/-- The document of `C52_case_built` is such a document. -/
theorem C34_false_icon_case : Wants env doc (txt "check") (txt "black") (txt "red") := by
  obtain ⟨o, ho, hi⟩ := getIcon_spec env spaces toy_wellFormed (t := .comment cmd) (by unfold doc; simp)
  rw [C52_case] at ho
  cases ho
  exact ⟨.comment cmd, by unfold doc; simp, _, (hi _).1 rfl, rfl, rfl, by simp⟩

end Verif.Icons
