import Verif.Static
import Verif.HandlersThm
/-!
# C106: the server gives the files of out/www, and nothing else
-/
namespace Verif.Static
open Verif.Reader (Text txt)
open Verif.Paths
open Verif.Handlers (Bytes Built copyTarget)
open Verif.Links (Place Entry Ctx copyBuild)

/-! ## Specification -/

/-- The URL of a file in the folder which is served. -/
def url (names : List Text) : Text := 47 :: joinSegs names

/-- The URL of a folder. -/
def urlFolder (names : List Text) : Text := if names = [] then [47] else url names ++ [47]

/-- There are no links on the way from `dir` to a file. -/
def Plain (fs : Links.Fs) (dir : Place) (names : List Text) : Prop :=
  ∀ i < names.length, ∀ t, fs (dir ++ names.take (i + 1)) ≠ some (.link t)

/-! ## Paths -/

theorem fold_names : ∀ (names acc : List Text), (∀ x ∈ names, Name x) → names.foldl (normStep false) acc = acc ++ names
  | [], acc, _ => by simp
  | x :: xs, acc, h => by
    have hx := h x (by simp)
    have e : normStep false acc x = acc ++ [x] := by
      simp [normStep, hx.1.1, hx.2.1, hx.2.2]
    rw [List.foldl_cons, e, fold_names xs _ fun y hy => h y (by simp [hy])]
    simp

theorem joinSegs_head {names : List Text} (hne : names ≠ []) (h : ∀ x ∈ names, Seg x) :
    joinSegs names ≠ [] ∧ (joinSegs names).head? ≠ some 47 := by
  cases names with
  | nil => exact absurd rfl hne
  | cons x xs =>
    obtain ⟨h1, h2⟩ := h x (by simp)
    cases x with
    | nil => exact absurd rfl h1
    | cons c x =>
      have hc : c ≠ 47 := fun e => h2 (by simp [e])
      cases xs with
      | nil => simp [joinSegs, hc]
      | cons y ys => simp [joinSegs, hc]

theorem seg_of_name {names : List Text} (h : ∀ x ∈ names, Name x) : ∀ x ∈ names, Seg x := fun x hx => (h x hx).1

theorem normpath_names {names : List Text} (hne : names ≠ []) (h : ∀ x ∈ names, Name x) :
    normpath (joinSegs names) = joinSegs names := by
  obtain ⟨h1, h2⟩ := joinSegs_head hne (seg_of_name h)
  unfold normpath
  rw [if_neg h1]
  have h0 : initialSlashes (joinSegs names) = 0 := by simp [initialSlashes, h2]
  simp only [h0]
  rw [split_joinSegs (fun x hx => (h x hx).1.2) hne]
  have : (0 != 0) = false := rfl
  rw [this, fold_names names [] h]
  simp [h1]

theorem normpath_slash {names : List Text} (hne : names ≠ []) (h : ∀ x ∈ names, Name x) :
    normpath (joinSegs names ++ [47]) = joinSegs names := by
  obtain ⟨h1, h2⟩ := joinSegs_head hne (seg_of_name h)
  unfold normpath
  rw [if_neg (by simp)]
  have h0 : initialSlashes (joinSegs names ++ [47]) = 0 := by
    unfold initialSlashes
    rw [if_neg]
    rw [List.head?_append]
    cases hj : joinSegs names with
    | nil => exact absurd hj h1
    | cons c cs => rw [hj] at h2; simpa using h2
  simp only [h0]
  rw [show joinSegs names ++ [47] = joinSegs names ++ 47 :: [] from rfl, split_slash,
    split_joinSegs (fun x hx => (h x hx).1.2) hne]
  have : (0 != 0) = false := rfl
  rw [this, List.foldl_append, fold_names names [] h]
  simp [split, normStep, h1]

theorem joinMany_empty {names : List Text} (hne : names ≠ []) : joinMany ([] :: names) = joinMany names := by
  cases names with
  | nil => exact absurd rfl hne
  | cons x xs =>
    have : join [] x = x := by unfold join; split <;> simp
    simp [joinMany, this]

theorem getPath_url {names : List Text} (hne : names ≠ []) (h : ∀ x ∈ names, Name x) : getPath (url names) = joinSegs names := by
  unfold getPath url
  have e : split (47 :: joinSegs names) = [] :: names := by
    show (if (47 : Nat) = 47 then [] :: split (joinSegs names) else _) = _
    rw [if_pos rfl, split_joinSegs (fun x hx => (h x hx).1.2) hne]
  rw [e, joinMany_empty hne, joinMany_segs (seg_of_name h), normpath_names hne h]

theorem joinMany_snoc {names : List Text} (hne : names ≠ []) (y : Text) : joinMany (names ++ [y]) = join (joinMany names) y := by
  cases names with
  | nil => exact absurd rfl hne
  | cons x xs => simp [joinMany]

theorem joinSegs_last {names : List Text} (hne : names ≠ []) (h : ∀ x ∈ names, Seg x) : (joinSegs names).getLast? ≠ some 47 := by
  intro he
  have hx : joinSegs names ≠ [] := (joinSegs_head hne h).1
  have : 47 ∈ names.getLast hne := by
    clear hx
    induction names with
    | nil => exact absurd rfl hne
    | cons x xs ih =>
      cases xs with
      | nil => simpa [joinSegs] using List.mem_of_getLast? he
      | cons y ys =>
        rw [List.getLast_cons (by simp)]
        refine ih (by simp) (fun z hz => h z (by simp [hz])) ?_
        have h1 := (joinSegs_head (names := y :: ys) (by simp) fun z hz => h z (by simp [hz])).1
        rw [joinSegs, List.getLast?_append] at he
        rw [List.getLast?_cons] at he
        cases hj : joinSegs (y :: ys) with
        | nil => exact absurd hj h1
        | cons c cs =>
          rw [hj] at he
          simpa [List.getLast?_cons] using he
  exact (h _ (List.getLast_mem hne)).2 this

theorem getPath_urlFolder {names : List Text} (hne : names ≠ []) (h : ∀ x ∈ names, Name x) :
    getPath (urlFolder names) = joinSegs names := by
  unfold getPath urlFolder url
  rw [if_neg hne]
  have e : split (47 :: joinSegs names ++ [47]) = [] :: (names ++ [[]]) := by
    rw [show (47 :: joinSegs names ++ [47] : Text) = 47 :: (joinSegs names ++ 47 :: []) from rfl]
    show (if (47 : Nat) = 47 then [] :: split (joinSegs names ++ 47 :: []) else _) = _
    rw [if_pos rfl, split_slash, split_joinSegs (fun x hx => (h x hx).1.2) hne]
    rfl
  rw [e, joinMany_empty (by simp), joinMany_snoc hne, joinMany_segs (seg_of_name h)]
  have : join (joinSegs names) [] = joinSegs names ++ [47] := by
    unfold join
    rw [if_neg (by decide), if_neg]
    rintro (h1 | h1)
    · exact (joinSegs_head hne (seg_of_name h)).1 h1
    · exact joinSegs_last hne (seg_of_name h) h1
  rw [this, normpath_slash hne h]

theorem getPath_root : getPath [47] = [46] := by decide

/-! ## Resolving -/

theorem real_names (fs : Links.Fs) : ∀ (names : List Text) (acc : Place) (n : Nat), (∀ x ∈ names, Name x) → Plain fs acc names →
    names.length < n → real fs n acc names = some (acc ++ names)
  | [], acc, n, _, _, hn => by
    cases n with
    | zero => simp at hn
    | succ n => simp [real]
  | x :: xs, acc, n, h, hp, hn => by
    cases n with
    | zero => simp at hn
    | succ n =>
      have hx := h x (by simp)
      have h0 := hp 0 (by simp)
      have hrec := real_names fs xs (acc ++ [x]) n (fun y hy => h y (by simp [hy])) (by
        intro i hi t
        have := hp (i + 1) (by simpa using hi) t
        simpa using this) (by simpa using hn)
      unfold real
      rw [if_neg (by simp [hx.1.1, hx.2.1]), if_neg hx.2.2]
      cases he : fs (acc ++ [x]) with
      | none => simp only; rw [hrec]; simp
      | some e =>
        cases e with
        | file b => simp only; rw [hrec]; simp
        | link t => exact absurd he (by simpa using h0 t)

/-- Names are resolved as far as there are no links. -/
theorem real_through (fs : Links.Fs) : ∀ (names : List Text) (acc : Place) (n : Nat) (rest : List Text), (∀ x ∈ names, Name x) →
    Plain fs acc names → real fs (names.length + n) acc (names ++ rest) = real fs n (acc ++ names) rest
  | [], acc, n, rest, _, _ => by simp
  | x :: xs, acc, n, rest, h, hp => by
    have hx := h x (by simp)
    have h0 := hp 0 (by simp)
    have hrec := real_through fs xs (acc ++ [x]) n rest (fun y hy => h y (by simp [hy])) (by
      intro i hi t
      have := hp (i + 1) (by simpa using hi) t
      simpa using this)
    have e : (x :: xs).length + n = (xs.length + n) + 1 := by simp; omega
    rw [e, List.cons_append]
    conv => lhs; unfold real
    rw [if_neg (by simp [hx.1.1, hx.2.1]), if_neg hx.2.2]
    cases he : fs (acc ++ [x]) with
    | none => simp only; rw [hrec]; simp
    | some e =>
      cases e with
      | file b => simp only; rw [hrec]; simp
      | link t => exact absurd he (by simpa using h0 t)

theorem real_mono (fs : Links.Fs) : ∀ (n : Nat) (acc : Place) (cs : List Text) (q : Place), real fs n acc cs = some q →
    ∀ m, n ≤ m → real fs m acc cs = some q
  | 0, _, _, _, h, _, _ => by simp [real] at h
  | n + 1, acc, [], q, h, m, hm => by
    cases m with
    | zero => omega
    | succ m => simpa [real] using h
  | n + 1, acc, c :: cs, q, h, m, hm => by
    cases m with
    | zero => omega
    | succ m =>
      have hm' : n ≤ m := by omega
      unfold real at h ⊢
      by_cases h1 : c = [] ∨ c = [46]
      · rw [if_pos h1] at h ⊢
        exact real_mono fs n _ _ _ h m hm'
      · rw [if_neg h1] at h ⊢
        by_cases h2 : c = [46, 46]
        · rw [if_pos h2] at h ⊢
          exact real_mono fs n _ _ _ h m hm'
        · rw [if_neg h2] at h ⊢
          cases he : fs (acc ++ [c]) with
          | none => rw [he] at h; exact real_mono fs n _ _ _ h m hm'
          | some e =>
            rw [he] at h
            cases e with
            | file b => exact real_mono fs n _ _ _ h m hm'
            | link t => exact real_mono fs n _ _ _ h m hm'

theorem real_segs (fs : Links.Fs) : ∀ (n : Nat) (acc : Place) (cs : List Text) (q : Place), real fs n acc cs = some q →
    (∀ x ∈ acc, Seg x) → (∀ x ∈ cs, 47 ∉ x) → ∀ x ∈ q, Seg x
  | 0, _, _, _, h, _, _ => by simp [real] at h
  | n + 1, acc, [], q, h, ha, _ => by
    simp only [real, Option.some.injEq] at h
    subst h
    exact ha
  | n + 1, acc, c :: cs, q, h, ha, hc => by
    have hcs : ∀ x ∈ cs, 47 ∉ x := fun x hx => hc x (by simp [hx])
    unfold real at h
    by_cases h1 : c = [] ∨ c = [46]
    · rw [if_pos h1] at h
      exact real_segs fs n _ _ _ h ha hcs
    · rw [if_neg h1] at h
      by_cases h2 : c = [46, 46]
      · rw [if_pos h2] at h
        exact real_segs fs n _ _ _ h (fun x hx => ha x (List.dropLast_subset _ hx)) hcs
      · rw [if_neg h2] at h
        have hnew : ∀ x ∈ acc ++ [c], Seg x := by
          intro x hx
          rcases List.mem_append.1 hx with hx | hx
          · exact ha x hx
          · simp only [List.mem_singleton] at hx
            subst hx
            exact ⟨fun e => h1 (.inl e), hc x (by simp)⟩
        cases he : fs (acc ++ [c]) with
        | none => rw [he] at h; exact real_segs fs n _ _ _ h hnew hcs
        | some e =>
          rw [he] at h
          cases e with
          | file b => exact real_segs fs n _ _ _ h hnew hcs
          | link t =>
            refine real_segs fs n _ _ _ h ?_ ?_
            · intro x hx
              split at hx
              · cases hx
              · exact ha x hx
            · intro x hx
              rcases List.mem_append.1 hx with hx | hx
              · exact mem_split hx
              · exact hcs x hx

/-! ## The test with characters -/

theorem prefix_cases {x : Text} (hx : 47 ∉ x) : ∀ {y r : Text}, x <+: y ++ r → (r = [] ∨ r.head? = some 47) → x <+: y := by
  induction x with
  | nil => intro y r _ _; exact List.nil_prefix
  | cons c x ih =>
    intro y r h hr
    simp only [List.mem_cons, not_or] at hx
    cases y with
    | nil =>
      exfalso
      rcases hr with rfl | hr
      · simp at h
      · cases r with
        | nil => simp at hr
        | cons a r =>
          simp only [List.head?_cons, Option.some.injEq] at hr
          obtain ⟨s, hs⟩ := h
          simp only [List.cons_append, List.nil_append, List.cons.injEq] at hs
          exact hx.1 (by rw [hs.1, hr])
    | cons d y =>
      rw [List.cons_append, List.cons_prefix_cons] at h
      obtain ⟨rfl, h⟩ := h
      rw [List.cons_prefix_cons]
      exact ⟨rfl, ih hx.2 h hr⟩

theorem split_at_slash {x : Text} (hx : 47 ∉ x) : ∀ {y a r : Text}, 47 ∉ y → x ++ 47 :: a <+: y ++ r → (r = [] ∨ r.head? = some 47) →
    x = y ∧ 47 :: a <+: r := by
  induction x with
  | nil =>
    intro y a r hy h hr
    cases y with
    | nil => exact ⟨rfl, h⟩
    | cons d y =>
      simp only [List.nil_append, List.cons_append, List.cons_prefix_cons] at h
      exact absurd h.1 (fun e => hy (by simp [e]))
  | cons c x ih =>
    intro y a r hy h hr
    simp only [List.mem_cons, not_or] at hx hy
    cases y with
    | nil =>
      exfalso
      rcases hr with rfl | hr
      · simp at h
      · cases r with
        | nil => simp at hr
        | cons b r =>
          simp only [List.head?_cons, Option.some.injEq] at hr
          simp only [List.nil_append, List.cons_append, List.cons_prefix_cons] at h
          exact hx.1 (by rw [h.1, hr])
    | cons d y =>
      simp only [List.cons_append, List.cons_prefix_cons] at h
      simp only [List.mem_cons, not_or] at hy
      obtain ⟨rfl, h⟩ := h
      obtain ⟨h1, h2⟩ := ih hx.2 hy.2 h hr
      exact ⟨by rw [h1], h2⟩

theorem render_head (q : Place) : render q = [] ∨ (render q).head? = some 47 := by
  cases q with
  | nil => exact .inl rfl
  | cons y q => exact .inr rfl

theorem render_cons (x : Text) (q : Place) : render (x :: q) = 47 :: (x ++ render q) := by simp [render]

/-- What passes the test: the folder, perhaps with more characters behind its name, and anything in it. -/
theorem render_prefix {www : Text} (hw : 47 ∉ www) : ∀ (base q : Place), (∀ x ∈ base, 47 ∉ x) → (∀ x ∈ q, 47 ∉ x) →
    render (base ++ [www]) <+: render q → ∃ name rest, q = base ++ name :: rest ∧ www <+: name
  | [], q, _, hq, h => by
    cases q with
    | nil => simp [render] at h
    | cons y q =>
      rw [List.nil_append, render_cons, render_cons, List.cons_prefix_cons] at h
      refine ⟨y, q, rfl, prefix_cases hw ?_ (render_head q)⟩
      simpa [render] using h.2
  | x :: base, q, hb, hq, h => by
    cases q with
    | nil => simp [render] at h
    | cons y q =>
      rw [List.cons_append, render_cons, render_cons, List.cons_prefix_cons] at h
      have hr : ∃ a, render (base ++ [www]) = 47 :: a := by
        cases base with
        | nil => exact ⟨_, render_cons _ _⟩
        | cons z zs => exact ⟨_, render_cons _ _⟩
      obtain ⟨a, ha⟩ := hr
      rw [ha] at h
      obtain ⟨rfl, h2⟩ := split_at_slash (hb x (by simp)) (hq y (by simp)) h.2 (render_head q)
      rw [← ha] at h2
      obtain ⟨name, rest, rfl, hn⟩ := render_prefix hw base q (fun z hz => hb z (by simp [hz])) (fun z hz => hq z (by simp [hz])) h2
      exact ⟨name, rest, rfl, hn⟩

theorem render_append (a b : Place) : render (a ++ b) = render a ++ render b := by simp [render]

/-! ## Nothing from outside -/

theorem lookup_file {n : Nat} {d : Disk} {base : Place} {www : Text} (hd : ∀ x ∈ base ++ [www], Seg x) {path : Text} {b : Bytes}
    (h : lookup n d (base ++ [www]) path = some (.file b)) :
    ∃ name rest, d.fs (base ++ name :: rest) = some (.file b) ∧ www <+: name := by
  unfold lookup at h
  cases hr : real d.fs n (base ++ [www]) (split path) with
  | none => rw [hr] at h; cases h
  | some q =>
    rw [hr] at h
    simp only at h
    split at h
    · next hp =>
      have hq := real_segs _ _ _ _ _ hr hd fun x hx => mem_split hx
      obtain ⟨name, rest, rfl, hn⟩ := render_prefix (hd www (by simp)).2 base q (fun x hx => (hd x (by simp [hx])).2)
        (fun x hx => (hq x hx).2) (List.isPrefixOf_iff_prefix.1 hp)
      refine ⟨name, rest, ?_, hn⟩
      simp only [Option.some.injEq, stat] at h
      cases he : d.fs (base ++ name :: rest) with
      | none => rw [he] at h; simp only at h; split at h <;> cases h
      | some e =>
        cases e with
        | file b' => rw [he] at h; simp only [Found.file.injEq] at h; rw [h]
        | link t => rw [he] at h; simp only at h; split at h <;> cases h
    · cases h

theorem missing_file {n : Nat} {d : Disk} {dir : Place} {b : Bytes} :
    missing n d dir ≠ .ok b ∧ (missing n d dir = .notFound (some b) → lookup n d dir (txt "404.html") = some (.file b)) := by
  unfold missing
  cases h : lookup n d dir (txt "404.html") with
  | none => simp
  | some f => cases f <;> simp

theorem get_file {n : Nat} {d : Disk} {dir : Place} {path : Text} {b : Bytes}
    (h : get n d dir path = .ok b ∨ get n d dir path = .notFound (some b)) : ∃ p, lookup n d dir p = some (.file b) := by
  unfold get at h
  cases h1 : lookup n d dir (getPath path) with
  | none => rw [h1] at h; simp at h
  | some f =>
    rw [h1] at h
    cases f with
    | file b' =>
      simp only [Response.ok.injEq, reduceCtorEq, or_false] at h
      exact ⟨_, by rw [h1, h]⟩
    | nothing =>
      rcases h with h | h
      · exact absurd h missing_file.1
      · exact ⟨_, missing_file.2 h⟩
    | folder =>
      simp only at h
      cases h2 : lookup n d dir (join (getPath path) (txt "index.html")) with
      | none => rw [h2] at h; simp at h
      | some f =>
        rw [h2] at h
        cases f with
        | file b' =>
          simp only at h
          split at h
          · simp only [Response.ok.injEq, reduceCtorEq, or_false] at h
            exact ⟨_, by rw [h2, h]⟩
          · simp at h
        | nothing =>
          rcases h with h | h
          · exact absurd h missing_file.1
          · exact ⟨_, missing_file.2 h⟩
        | folder =>
          rcases h with h | h
          · exact absurd h missing_file.1
          · exact ⟨_, missing_file.2 h⟩

/-- **C106: nothing from outside is given, in part.**  Whatever is asked for, with `..` and through links: what is given is in a
file of the folder, provided that there is no file in another folder beside it whose name begins with the same characters
(`C106_false_beside`). -/
theorem C106_confined_partial {n : Nat} {d : Disk} {base : Place} {www : Text} (hd : ∀ x ∈ base ++ [www], Seg x)
    (alone : ∀ name rest b, d.fs (base ++ name :: rest) = some (.file b) → www <+: name → name = www) {path : Text} {b : Bytes}
    (h : get n d (base ++ [www]) path = .ok b ∨ get n d (base ++ [www]) path = .notFound (some b)) :
    ∃ rest, d.fs (base ++ www :: rest) = some (.file b) := by
  obtain ⟨p, hp⟩ := get_file h
  obtain ⟨name, rest, h1, h2⟩ := lookup_file hd hp
  have := alone name rest b h1 h2
  subst this
  exact ⟨rest, h1⟩

/-! ## Everything inside -/

theorem lookup_names {n : Nat} {d : Disk} {dir : Place} {names : List Text} (hne : names ≠ []) (h : ∀ x ∈ names, Name x)
    (hp : Plain d.fs dir names) (hn : names.length < n) : lookup n d dir (joinSegs names) = some (stat d (dir ++ names)) := by
  unfold lookup
  rw [split_joinSegs (fun x hx => (h x hx).1.2) hne, real_names d.fs names dir n h hp hn]
  simp only
  rw [if_pos]
  rw [List.isPrefixOf_iff_prefix, render_append]
  exact List.prefix_append ..

/-- **C106: every file is given.**  A file of the folder, at whatever depth and however it is called, is what its URL gives, if
there are no links on the way. -/
theorem C106_gives {n : Nat} {d : Disk} {dir : Place} {names : List Text} (hne : names ≠ []) (h : ∀ x ∈ names, Name x)
    (hp : Plain d.fs dir names) (hn : names.length < n) {b : Bytes} (hf : d.fs (dir ++ names) = some (.file b)) :
    get n d dir (url names) = .ok b := by
  unfold get
  rw [getPath_url hne h, lookup_names hne h hp hn]
  simp [stat, hf]

theorem name_index : Name (txt "index.html") := Links.name_lit (by decide)
theorem name_404 : Name (txt "404.html") := Links.name_lit (by decide)

theorem stat_folder {d : Disk} {p : Place} (h : d.fs p = none) (hd : d.isDir p = true) : stat d p = .folder := by
  simp [stat, h, hd]

theorem join_index {names : List Text} (hne : names ≠ []) (h : ∀ x ∈ names, Name x) :
    join (joinSegs names) (txt "index.html") = joinSegs (names ++ [txt "index.html"]) :=
  join_joinSegs hne (seg_of_name h) name_index.1

/-- **C106: folders give their index page**, and without a slash at the end a redirection to the URL with it, so that relative
links in the page lead where they should. -/
theorem C106_index {n : Nat} {d : Disk} {dir : Place} {names : List Text} (h : ∀ x ∈ names, Name x)
    (hp : Plain d.fs dir (names ++ [txt "index.html"])) (hn : names.length + 2 < n) {b : Bytes}
    (hd : d.isDir (dir ++ names) = true) (hfree : d.fs (dir ++ names) = none)
    (hf : d.fs (dir ++ names ++ [txt "index.html"]) = some (.file b)) :
    get n d dir (urlFolder names) = .ok b ∧ (names ≠ [] → get n d dir (url names) = .redirect (urlFolder names)) := by
  have hall : ∀ x ∈ names ++ [txt "index.html"], Name x := by
    intro x hx
    rcases List.mem_append.1 hx with hx | hx
    · exact h x hx
    · simp only [List.mem_singleton] at hx; rw [hx]; exact name_index
  have hp' : Plain d.fs dir names := by
    intro i hi t
    have := hp i (by simp; omega) t
    rwa [List.take_append_of_le_length (by omega)] at this
  by_cases hne : names = []
  · subst hne
    refine ⟨?_, fun hh => absurd rfl hh⟩
    have e1 : lookup n d dir [46] = some (stat d dir) := by
      unfold lookup
      have : real d.fs n dir (split [46]) = some dir := by
        match n, hn with
        | n + 3, _ => simp [split, real]
      rw [this]
      simp [List.isPrefixOf_iff_prefix]
    have e2 : lookup n d dir (join [46] (txt "index.html")) = some (stat d (dir ++ [txt "index.html"])) := by
      have es : split (join [46] (txt "index.html")) = [[46], txt "index.html"] := by decide
      unfold lookup
      rw [es]
      have : real d.fs n dir [[46], txt "index.html"] = some (dir ++ [txt "index.html"]) := by
        match n, hn with
        | n + 3, _ =>
          have := real_names d.fs [txt "index.html"] dir (n + 2) (by simpa using name_index) (by simpa using hp) (by simp)
          unfold real
          simpa using this
      rw [this]
      simp only
      rw [if_pos]
      rw [List.isPrefixOf_iff_prefix, render_append]
      exact List.prefix_append ..
    unfold get
    rw [show urlFolder [] = [47] from rfl, getPath_root, e1]
    simp only [List.append_nil] at hd hfree hf
    rw [stat_folder hfree hd]
    simp only
    rw [e2]
    simp [stat, hf]
  · have key : ∀ path, getPath path = joinSegs names → get n d dir path = if path.getLast? = some 47 then .ok b else .redirect (path ++ [47]) := by
      intro path hpath
      unfold get
      rw [hpath, lookup_names hne h hp' (by omega), stat_folder hfree hd]
      simp only
      rw [join_index hne h, lookup_names (by simp) hall hp (by simp; omega), ← List.append_assoc]
      have es : stat d (dir ++ names ++ [txt "index.html"]) = .file b := by unfold stat; rw [hf]
      rw [es]
    constructor
    · rw [key _ (getPath_urlFolder hne h)]
      rw [if_pos]
      simp [urlFolder, hne]
    · intro _
      rw [key _ (getPath_url hne h), if_neg]
      · simp [urlFolder, hne]
      · have := joinSegs_last hne (seg_of_name h)
        intro he
        apply this
        unfold url at he
        rw [List.getLast?_cons] at he
        cases hj : joinSegs names with
        | nil => exact absurd hj (joinSegs_head hne (seg_of_name h)).1
        | cons c cs =>
          rw [hj] at he
          simpa [List.getLast?_cons] using he

/-- **C106: where there is nothing, nothing is given** but the page 404.html, if there is one. -/
theorem C106_missing {n : Nat} {d : Disk} {dir : Place} {names : List Text} (hne : names ≠ []) (h : ∀ x ∈ names, Name x)
    (hp : Plain d.fs dir names) (hn : names.length + 1 < n) (hd : d.isDir (dir ++ names) = false)
    (hfree : d.fs (dir ++ names) = none) (h4 : ∀ t, d.fs (dir ++ [txt "404.html"]) ≠ some (.link t)) :
    get n d dir (url names) =
      .notFound (match d.fs (dir ++ [txt "404.html"]) with | some (.file b) => some b | _ => none) := by
  unfold get
  rw [getPath_url hne h, lookup_names hne h hp (by omega)]
  have e : stat d (dir ++ names) = .nothing := by simp [stat, hfree, hd]
  rw [e]
  simp only
  unfold missing
  have h5 := lookup_names (n := n) (d := d) (dir := dir) (names := [txt "404.html"]) (by simp) (by simpa using name_404)
    (by intro i hi t
        have : i = 0 := by simp at hi; exact hi
        subst this
        simpa using h4 t) (by simp; omega)
  rw [show joinSegs [txt "404.html"] = txt "404.html" from rfl] at h5
  rw [h5]
  cases hq : d.fs (dir ++ [txt "404.html"]) with
  | none => by_cases hd4 : d.isDir (dir ++ [txt "404.html"]) = true <;> simp [stat, hq, hd4]
  | some x =>
    cases x with
    | file b => simp [stat, hq]
    | link t => exact absurd hq (h4 t)

end Verif.Static
