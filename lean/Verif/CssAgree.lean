import Verif.CssScan

/-!
# C78: what the build of a stylesheet reports has been announced
-/

namespace Verif.Css.Page

open Verif.Reader (Text txt)
open Verif.Css (Uni Tok tokenize serializeMany)
open Verif.Build
open Verif.Handlers (Bytes Fs Scan Built copyScan hashScan copyTarget hashBuild)
open Verif.Icons (add addAll mem_add mem_addAll)

/-! ## The classes of icons -/

/-- A token which matters to none of the manipulators, outside of an URL. -/
def Idle (lower : Text → Text) (t : Tok) : Prop := (∀ v, t ≠ .comment v) ∧ (∀ v, t = .function v → lower v ≠ txt "url") ∧ ∀ v, t ≠ .url v

/-- Idle tokens, and URLs of which `P` holds. -/
inductive Plain (lower : Text → Text) (P : Text → Prop) : List Tok → Prop
  | nil : Plain lower P []
  | idle {t ts} : Idle lower t → Plain lower P ts → Plain lower P (t :: ts)
  | url {v ts} : P v → Plain lower P ts → Plain lower P (.function (txt "url") :: .str v :: .rightParens :: ts)

theorem Plain.append {lower : Text → Text} {P : Text → Prop} {a b : List Tok} (ha : Plain lower P a) (hb : Plain lower P b) : Plain lower P (a ++ b) := by
  induction ha with
  | nil => exact hb
  | idle h _ ih => exact .idle h ih
  | url h _ ih => exact .url h ih

theorem Plain.ofIdle {lower : Text → Text} {P : Text → Prop} {a : List Tok} (ha : ∀ t ∈ a, Idle lower t) : Plain lower P a := by
  induction a with
  | nil => exact .nil
  | cons t a ih => exact .idle (ha t (by simp)) (ih fun x hx => ha x (by simp [hx]))

section icons
variable {lower : Text → Text} (hv : lower (txt "var") ≠ txt "url") {P : Text → Prop}

theorem plain_decl (name : String) {value : List Tok} (h : Plain lower P value) : Plain lower P (Icons.decl name value) := by
  unfold Icons.decl
  refine ((Plain.ofIdle ?_).append h).append (.ofIdle ?_)
  · simp [Idle, Icons.indent, Icons.word, Icons.sp]
  · simp [Idle]

theorem plain_block (sel : Text) {body : List Tok} (h : Plain lower P body) : Plain lower P (Icons.block sel body) := by
  unfold Icons.block
  refine ((Plain.ofIdle ?_).append h).append (.ofIdle ?_)
  · simp [Idle, Icons.sp]
  · simp [Idle]

theorem plain_words {ws : List Tok} (h : ∀ t ∈ ws, Idle lower t) (name : String) : Plain lower P (Icons.decl name ws) := plain_decl name (.ofIdle h)

include hv in
theorem plain_iconDecls (size : Text) {path : Text} (h : P path) : Plain lower P (Icons.iconDecls size path) := by
  unfold Icons.iconDecls
  refine (((((((plain_words ?_ _).append (plain_words ?_ _)).append (plain_words ?_ _)).append (plain_words ?_ _)).append (plain_words ?_ _)).append
    (plain_words ?_ _)).append (plain_words ?_ _)).append (plain_decl _ (.url h .nil))
  all_goals simp [Idle, Icons.word, Icons.sp, Icons.sizeVar, hv]

theorem plain_gap : Plain lower P [Icons.gap] := .ofIdle (by simp [Icons.gap, Idle])

include hv in
theorem plain_iconClasses {i : Icons.Icon} (h : ∀ c ∈ i.colors, P (i.web c)) : Plain lower P (Icons.iconClasses i) := by
  unfold Icons.iconClasses
  have : ∀ (l : List (Text × Text)) (acc : List Tok), (∀ x ∈ l, P (i.web x.2)) → Plain lower P acc →
      Plain lower P (l.foldl (fun acc x => (if acc = [] then acc else acc ++ [Icons.gap]) ++ Icons.iconClass i x.1 x.2) acc) := by
    intro l
    induction l with
    | nil => intro acc _ ha; exact ha
    | cons x l ih =>
      intro acc hx ha
      refine ih _ (fun y hy => hx y (by simp [hy])) ?_
      refine Plain.append ?_ (plain_block _ (plain_iconDecls hv _ (hx x (by simp))))
      split
      · exact ha
      · exact ha.append plain_gap
  refine this _ _ ?_ .nil
  intro x hx
  simp only [List.mem_flatMap, List.mem_map] at hx
  obtain ⟨s, -, c, hc, rfl⟩ := hx
  exact h c hc

include hv in
theorem plain_button (i : Icons.Icon) (size suffix : Text) {b : Icons.Button} (h : P (i.web b.active) ∧ P (i.web b.hover) ∧ P (i.web b.disabled)) :
    Plain lower P (Icons.buttonClass i size suffix b) := by
  unfold Icons.buttonClass
  refine (((((((((plain_gap.append (plain_block _ ?_)).append plain_gap).append (plain_block _ (plain_words ?_ _))).append plain_gap).append
    (plain_block _ (plain_iconDecls hv _ h.1))).append plain_gap).append (plain_block _ (plain_decl _ (.url h.2.1 .nil)))).append plain_gap).append
    (plain_block _ (plain_decl _ (.url h.2.2 .nil))))
  · refine ((((((((((((plain_words ?_ _).append (plain_words ?_ _)).append (plain_words ?_ _)).append (plain_words ?_ _)).append (plain_words ?_ _)).append
      (plain_words ?_ _)).append (plain_words ?_ _)).append (plain_words ?_ _)).append (plain_words ?_ _)).append (plain_words ?_ _)).append (plain_words ?_ _)).append (plain_words ?_ _))
    all_goals simp [Idle, Icons.word]
  · simp [Idle, Icons.word]

/-- The colors of all buttons are among those of the icon. -/
def Colored (i : Icons.Icon) : Prop :=
  ∀ d named, i.button = some (d, named) → (∀ b, d = some b → b.active ∈ i.colors ∧ b.hover ∈ i.colors ∧ b.disabled ∈ i.colors) ∧
    ∀ x ∈ named, ∀ b, x.2 = .button b → b.active ∈ i.colors ∧ b.hover ∈ i.colors ∧ b.disabled ∈ i.colors

include hv in
theorem plain_output {i : Icons.Icon} (hc : Colored i) (h : ∀ c ∈ i.colors, P (i.web c)) {ts : List Tok} (ho : Icons.output i = .ok ts) : Plain lower P ts := by
  have hn : ∀ (size : Text) (named : List (Text × Icons.Entry)), (∀ x ∈ named, ∀ b, x.2 = .button b → b.active ∈ i.colors ∧ b.hover ∈ i.colors ∧ b.disabled ∈ i.colors) →
      ∀ ts, Icons.namedClasses i size named = .ok ts → Plain lower P ts := by
    intro size named
    induction named with
    | nil => intro _ ts h; cases h; exact .nil
    | cons x named ih =>
      intro hx ts hts
      obtain ⟨iden, e⟩ := x
      cases e with
      | letter _ => cases hts
      | button b =>
        simp only [Icons.namedClasses] at hts
        split at hts
        · cases hts
        · next h1 =>
          cases hts
          obtain ⟨c1, c2, c3⟩ := hx (iden, .button b) (by simp) b rfl
          exact (plain_button hv _ _ _ ⟨h _ c1, h _ c2, h _ c3⟩).append (ih (fun y hy => hx y (by simp [hy])) _ h1)
  unfold Icons.output at ho
  split at ho
  · cases ho; exact plain_iconClasses hv h
  · next d named hb =>
    obtain ⟨hd, hna⟩ := hc d named hb
    have hbs : ∀ (sizes : List Text) ts, Icons.buttonClasses i d named sizes = .ok ts → Plain lower P ts := by
      intro sizes
      induction sizes with
      | nil => intro ts h; cases h; exact .nil
      | cons s sizes ih =>
        intro ts hts
        simp only [Icons.buttonClasses] at hts
        split at hts
        · cases hts
        · next h1 =>
          split at hts
          · cases hts
          · next h2 =>
            cases hts
            refine (Plain.append ?_ (hn _ _ hna _ h1)).append (ih _ h2)
            split
            · next b =>
              obtain ⟨c1, c2, c3⟩ := hd b rfl
              exact plain_button hv _ _ _ ⟨h _ c1, h _ c2, h _ c3⟩
            · exact .nil
    split at ho
    · cases ho
    · next h1 =>
      cases ho
      exact (plain_iconClasses hv h).append (hbs _ _ h1)

end icons

/-! ## What remains to be read -/

/-- Where a stylesheet is being read. -/
structure Pos where
  /-- the token before was `url(` -/
  prev : Bool
  /-- the next `url(` has been looked at -/
  skip : Bool
  inside : Bool
  byData : List (Text × Text)
  counter : Nat

/-- The file for new image data. -/
def newFile (env : Data.Env) (σ : Pos) (x : Text × Text) : Option Text :=
  match Assoc.item σ.byData x.2 with
  | some _ => none
  | none => some (Paths.join (Data.folder env) (txt (toString (σ.counter + 1)) ++ txt "." ++ x.1.takeWhile (· != 43)))

/-- With the image data. -/
def withData (env : Data.Env) (σ : Pos) (x : Text × Text) : Pos :=
  match newFile env σ x with
  | none => σ
  | some p => { σ with byData := Assoc.put σ.byData x.2 p, counter := σ.counter + 1 }

/-- The position behind a token. -/
def Pos.next (env : Env) (σ : Pos) (t : Tok) : Pos :=
  let σ' := match Data.found σ.prev t with
    | none => σ
    | some x => withData env.data σ x
  { σ' with prev := Data.isUrl t && !σ.skip, skip := σ.skip && !Data.isUrl t, inside := Urls.flagAfter env.urls σ.inside t }

/-- The token is no command. -/
def NoCommand (env : Env) (t : Tok) : Prop := Icons.getIcon env.icon t = .ok none ∧ Nest.getImport env.nest t = none

/-- The tokens of a stylesheet which has been built: there are no commands, and all URLs have what they need. -/
inductive Settled (env : Env) : List Tok → Prop
  | nil : Settled env []
  | one {t ts} : NoCommand env t → (∀ v, t = .function v → env.urls.lower v ≠ txt "url") → (∀ v, t = .url v → Urls.hashOf env.urls v = none) →
      Settled env ts → Settled env (t :: ts)
  | url {f ws ts} : env.urls.lower f = txt "url" → (∀ t ∈ ws, NoCommand env t ∧ t ≠ .leftCurly ∧ t ≠ .rightCurly ∧ t ≠ .cdc ∧ t ≠ .eof) →
      (∀ v, .str v ∈ ws → Urls.hashOf env.urls v = none ∧ Data.dataOf v = none) → .rightParens ∉ ws → .function (txt "url") ∉ ws →
      Settled env ts → Settled env (.function f :: ws ++ .rightParens :: ts)

/-- The rule is one of another stylesheet, which has been built. -/
def Foreign (env : Env) (r : Nest.Ref) : Prop :=
  r.relpath ≠ env.nest.self ∧ ∀ g, env.nest.files (Nest.source env.nest r.relpath) = some g → Settled env g

/-- What `D` and `P` announce suffices for an icon. -/
structure IconMeets (env : Env) (D P : Text → Prop) (i : Icons.Icon) : Prop where
  colored : Colored i
  main : env.icon.self ≠ env.icon.main → D env.icon.main
  image : ∀ c ∈ i.colors, P (i.output c)
  hash : ∀ c ∈ i.colors, ∀ q ∈ (hashScan (i.output c)).produces, P q
  url : ∀ c ∈ i.colors, ∀ h, Urls.hashOf env.urls (i.web c) = some h → D h

/-- What `D` and `P` announce suffices for a token. -/
structure Meets (env : Env) (D P : Text → Prop) (σ : Pos) (t : Tok) : Prop where
  url : ∀ v h, Urls.urlHere σ.inside t = some v → Urls.hashOf env.urls v = some h → D h
  icon : ∀ i, Icons.getIcon env.icon t = .ok (some i) → σ.inside = false ∧ IconMeets env D P i
  nest : ∀ r, Nest.getImport env.nest t = some r → σ.inside = false ∧ Foreign env r ∧ D r.relpath
  data : ∀ x p, Data.found σ.prev t = some x → newFile env.data σ x = some p → P p ∧ ∀ q ∈ (hashScan p).produces, P q

/-- What `D` and `P` announce suffices for the tokens. -/
def Suffices (env : Env) (D P : Text → Prop) : Pos → List Tok → Pos → Prop
  | σ, [], σ' => σ' = σ
  | σ, t :: ts, σ' => Meets env D P σ t ∧ Suffices env D P (σ.next env t) ts σ'

theorem Suffices.append {env : Env} {D P : Text → Prop} : ∀ {a b : List Tok} {σ σ' σ'' : Pos}, Suffices env D P σ a σ' → Suffices env D P σ' b σ'' →
    Suffices env D P σ (a ++ b) σ'' := by
  intro a
  induction a with
  | nil => intro b σ σ' σ'' h1 h2; cases h1; exact h2
  | cons t a ih => intro b σ σ' σ'' h1 h2; exact ⟨h1.1, ih h1.2 h2⟩

/-- A position between two rules. -/
def Pos.Outside (σ : Pos) : Prop := σ.prev = false ∧ σ.skip = false ∧ σ.inside = false

theorem plain_suffices {env : Env} {D P : Text → Prop} (hl : env.urls.lower (txt "url") = txt "url") {Q : Text → Prop}
    (hd : ∀ v, Q v → Data.dataOf v = none ∧ ∀ h, Urls.hashOf env.urls v = some h → D h) {ts : List Tok} (h : Plain env.urls.lower Q ts) {σ : Pos} (ho : σ.Outside) :
    Suffices env D P σ ts σ := by
  obtain ⟨pr, sk, ins, bd, n⟩ := σ
  obtain ⟨rfl, rfl, rfl⟩ := ho
  induction h with
  | nil => rfl
  | @idle t ts ht _ ih =>
    have e : Pos.next env ⟨false, false, false, bd, n⟩ t = ⟨false, false, false, bd, n⟩ := by
      have h1 : Data.isUrl t = false := by
        unfold Data.isUrl
        rw [decide_eq_false_iff_not]
        rintro rfl
        exact ht.2.1 _ rfl hl
      have h2 : Urls.flagAfter env.urls false t = false := by
        cases t <;> try rfl
        next v => simpa [Urls.flagAfter] using ht.2.1 v rfl
      simp [Pos.next, Data.found, h1, h2]
    refine ⟨⟨?_, ?_, ?_, ?_⟩, by rw [e]; exact ih⟩
    · intro v h hu
      exact absurd ((Urls.urlHere_iff _ _ _).1 hu) (by simp [ht.2.2])
    · intro i hi
      cases t <;> try (simp [Icons.getIcon] at hi; done)
      exact absurd rfl (ht.1 _)
    · intro r hr
      cases t <;> try (simp [Nest.getImport] at hr; done)
      exact absurd rfl (ht.1 _)
    · intro x p hx
      simp [Data.found] at hx
  | @url v ts hv _ ih =>
    obtain ⟨d1, d2⟩ := hd v hv
    have e1 : Pos.next env ⟨false, false, false, bd, n⟩ (.function (txt "url")) = ⟨true, false, true, bd, n⟩ := by
      simp [Pos.next, Data.found, Data.isUrl, Urls.flagAfter, hl]
    have e2 : Pos.next env ⟨true, false, true, bd, n⟩ (.str v) = ⟨false, false, true, bd, n⟩ := by
      simp [Pos.next, Data.found, Data.tokData, d1, Data.isUrl, Urls.flagAfter]
    have e3 : Pos.next env ⟨false, false, true, bd, n⟩ .rightParens = ⟨false, false, false, bd, n⟩ := by
      simp [Pos.next, Data.found, Data.isUrl, Urls.flagAfter]
    refine ⟨⟨?_, ?_, ?_, ?_⟩, ?_⟩
    · intro v h hu; cases hu
    · intro i hi; cases hi
    · intro r hr; cases hr
    · intro x p hx; cases hx
    rw [e1]
    refine ⟨⟨?_, ?_, ?_, ?_⟩, ?_⟩
    · intro w h hu hh; cases hu; exact d2 h hh
    · intro i hi; cases hi
    · intro r hr; cases hr
    · intro x p hx; simp [Data.found, Data.tokData, d1] at hx
    rw [e2]
    refine ⟨⟨?_, ?_, ?_, ?_⟩, ?_⟩
    · intro w h hu hh; cases hu
    · intro i hi; cases hi
    · intro r hr; cases hr
    · intro x p hx; cases hx
    rw [e3]
    exact ih

/-! ## The build -/

/-- Everything reported so far is announced. -/
structure Reported (D P : Text → Prop) (s : St) : Prop where
  nest : ∀ p ∈ s.nest.children, D p
  iconC : ∀ p ∈ s.icon.children, D p
  iconP : ∀ p ∈ s.icon.produced, P p
  iconR : ∀ p ∈ s.icon.reused, P p
  dataC : ∀ p ∈ s.data.children, D p
  dataP : ∀ p ∈ s.data.produced, P p
  dataR : ∀ p ∈ s.data.reused, P p
  urls : ∀ p ∈ s.urls.children, D p

/-- The manipulators are at the position, between two runs. -/
structure At (σ : Pos) (s : St) : Prop where
  prev : σ.prev = false
  skip : s.data.skip = σ.skip
  inside : s.urls.inUrl = σ.inside
  byData : s.data.byData = σ.byData
  counter : s.data.counter = σ.counter

theorem hashBuild_reports {digest : Bytes → Bytes} {p : Text} {fs fs' : Fs} {r : Built} (h : hashBuild digest p fs = .ok (r, fs')) :
    r.children = [] ∧ (∀ q ∈ r.produced, q ∈ (hashScan p).produces) ∧ ∀ q ∈ r.reused, q ∈ (hashScan p).produces := by
  unfold hashBuild at h
  unfold hashScan
  split at h
  · cases h; simp
  · split at h
    · cases h; simp
    · split at h
      · cases h
      · cases h; simp

theorem produceAll_reports {env : Icons.Env} {i : Icons.Icon} {D P : Text → Prop} : ∀ (cs : List Text) (st st' : Icons.St),
    (∀ c ∈ cs, P (i.output c) ∧ ∀ q ∈ (hashScan (i.output c)).produces, P q) → Icons.produceAll env i st cs = .ok st' →
    (∀ p ∈ st.children, D p) → (∀ p ∈ st.produced, P p) → (∀ p ∈ st.reused, P p) →
    (∀ p ∈ st'.children, D p) ∧ (∀ p ∈ st'.produced, P p) ∧ ∀ p ∈ st'.reused, P p := by
  intro cs
  induction cs with
  | nil => intro st st' _ h h1 h2 h3; cases h; exact ⟨h1, h2, h3⟩
  | cons c cs ih =>
    intro st st' hc h h1 h2 h3
    simp only [Icons.produceAll] at h
    split at h
    · cases h
    · next st1 hp =>
      obtain ⟨c1, c2⟩ := hc c (by simp)
      refine ih st1 st' (fun x hx => hc x (by simp [hx])) h ?_ ?_ ?_
      all_goals
        unfold Icons.produce at hp
        simp only at hp
        split at hp
        · cases hp
          first
            | exact h1
            | exact h2
            | (intro p hp; rcases mem_add.1 hp with hp | rfl
               · exact h3 p hp
               · exact c1)
        · split at hp
          · cases hp
          · split at hp
            · split at hp
              · cases hp
              · next hb =>
                cases hp
                obtain ⟨b1, b2, b3⟩ := hashBuild_reports hb
                first
                  | (intro p hp; rw [b1] at hp; exact h1 p (by simpa [addAll] using hp))
                  | (intro p hp
                     rcases mem_addAll.1 hp with hp | hp
                     · rcases mem_add.1 hp with hp | rfl
                       · exact h2 p hp
                       · exact c1
                     · exact c2 p (b2 p hp))
                  | (intro p hp
                     rcases mem_addAll.1 hp with hp | hp
                     · exact h3 p hp
                     · exact c2 p (b3 p hp))
            · cases hp

theorem make_reports {env : Data.Env} {D P : Text → Prop} {new : Bool} {p d : Text} {st st' : Data.St} {b : Bytes}
    (h : Data.make env new p d st = .ok (b, st')) (hn : new = true → P p ∧ ∀ q ∈ (hashScan p).produces, P q)
    (h1 : ∀ p ∈ st.children, D p) (h2 : ∀ p ∈ st.produced, P p) (h3 : ∀ p ∈ st.reused, P p) :
    ((∀ p ∈ st'.children, D p) ∧ (∀ p ∈ st'.produced, P p) ∧ ∀ p ∈ st'.reused, P p) ∧ st'.skip = st.skip ∧ st'.byData = st.byData ∧
      st'.counter = st.counter := by
  unfold Data.make at h
  simp only at h
  split at h
  · cases h
  · next st1 heq =>
    split at h
    · cases h
    · cases h
      split at heq
      · next hnew =>
        obtain ⟨n1, n2⟩ := hn hnew
        split at heq
        · cases heq
        · next hh =>
          cases heq
          obtain ⟨b1, b2, b3⟩ := hashBuild_reports hh
          have a1 : (∀ q ∈ (Data.store env p d st).children, D q) ∧ (∀ q ∈ (Data.store env p d st).produced, P q) ∧
              (∀ q ∈ (Data.store env p d st).reused, P q) ∧ (Data.store env p d st).skip = st.skip ∧
              (Data.store env p d st).byData = st.byData ∧ (Data.store env p d st).counter = st.counter := by
            unfold Data.store
            split
            · refine ⟨h1, h2, fun q hq => ?_, rfl, rfl, rfl⟩
              rcases mem_add.1 hq with hq | rfl
              · exact h3 q hq
              · exact n1
            · refine ⟨h1, fun q hq => ?_, h3, rfl, rfl, rfl⟩
              rcases mem_add.1 hq with hq | rfl
              · exact h2 q hq
              · exact n1
          obtain ⟨a1, a2, a3, a4, a5, a6⟩ := a1
          refine ⟨⟨fun q hq => ?_, fun q hq => ?_, fun q hq => ?_⟩, a4, a5, a6⟩
          · rw [b1] at hq; exact a1 q (by simpa [addAll] using hq)
          · rcases mem_addAll.1 hq with hq | hq
            · exact a2 q hq
            · exact n2 q (b2 q hq)
          · rcases mem_addAll.1 hq with hq | hq
            · exact a3 q hq
            · exact n2 q (b3 q hq)
      · cases heq
        exact ⟨⟨h1, h2, h3⟩, rfl, rfl, rfl⟩

/-- What is imported is announced as well; `I` holds of the rules which have been read. -/
structure NestMeets (env : Env) (n : Nat) (D P : Text → Prop) (I : Nest.St → Prop) : Prop where
  children : ∀ st cs, I st → I { st with children := cs }
  block : ∀ st st' t r b, Nest.getImport env.nest t = some r → Foreign env r → I st → Nest.cont env.nest n st t = .ok (some b, st') →
    I st' ∧ ∀ σ : Pos, σ.Outside → Suffices env D P σ b σ

theorem nest_children {env : Nest.Env} {n : Nat} {st st' : Nest.St} {t : Tok} {o : Option (List Tok)} (h : Nest.cont env n st t = .ok (o, st')) :
    st'.children = st.children ∧ o.isSome := by
  unfold Nest.cont at h
  split at h
  · cases h
  · split at h
    · cases h
    · next h1 =>
      split at h
      · cases h
      · cases h
        refine ⟨?_, rfl⟩
        unfold Nest.ensureResolved at h1
        split at h1
        · cases h1
        · split at h1
          · cases h1; rfl
          · split at h1
            · cases h1
            · split at h1
              · cases h1
              · cases h1; rfl

theorem closed_single {S τ E : Type} {m : Manip S τ E} {s s' : S} {run r : List τ} {t : τ} (hn : ∀ s s', m.cont s t ≠ .ok (none, s'))
    (hh : run.head? = some t) (hc : Closed m s run r s') : run = [t] ∧ m.cont s t = .ok (some r, s') := by
  obtain ⟨us, u, s1, rfl, ho, hf⟩ := hc
  cases ho with
  | nil =>
    simp only [List.nil_append, List.head?_cons, Option.some.injEq] at hh
    subst hh
    exact ⟨rfl, hf⟩
  | cons h1 _ =>
    simp only [List.cons_append, List.head?_cons, Option.some.injEq] at hh
    subst hh
    exact absurd h1 (hn _ _)

theorem open_single {S τ E : Type} {m : Manip S τ E} {s s' : S} {run : List τ} {t : τ} (hn : ∀ s s', m.cont s t ≠ .ok (none, s'))
    (hh : run.head? = some t) (ho : Open m s run s') : False := by
  cases ho with
  | nil => cases hh
  | cons h1 _ =>
    simp only [List.head?_cons, Option.some.injEq] at hh
    subst hh
    exact absurd h1 (hn _ _)

/-- Which manipulator takes a token, and the states before. -/
theorem taken_cases {n : Nat} {env : Env} {s s1 : St} {t : Tok} {m : Manip St Tok Err} (h : Taken (buildManips n env) s t m s1) :
    (m = imports n env ∧ ∃ r, Nest.getImport env.nest t = some r ∧
      (s1 = s ∨ s1 = { s with nest := { s.nest with children := s.nest.children ++ [r.relpath] } })) ∨
    (m = icons false env ∧ ∃ i, Icons.getIcon env.icon t = .ok (some i) ∧ s1 = { s with icon := { s.icon with fs := s.fs } }) ∨
    (m = data false env ∧ t = .function (txt "url") ∧ s.data.skip = false ∧ s1 = { s with
      icon := { s.icon with fs := s.fs }, data := { s.data with fs := s.fs, stage := some .url, stack := [] } }) ∨
    (m = urls false env ∧ ∃ v h, Urls.urlHere s.urls.inUrl t = some v ∧ Urls.hashOf env.urls v = some h ∧ s1 = { s with
      icon := { s.icon with fs := s.fs }, data := { s.data with fs := s.fs }, urls := { s.urls with fs := s.fs } }) := by
  have nest0 : ∀ a, Nest.start env.nest s.nest t = .ok (false, a) → a = s.nest := by
    intro a h
    unfold Nest.start at h
    split at h <;> cases h
    rfl
  have icon0 : ∀ x b a, Icons.start env.icon x t = .ok (b, a) → a = x := fun x b a h => (Icons.start_eq h).1
  unfold buildManips at h
  cases h with
  | head h =>
    obtain ⟨a, ha, rfl⟩ := part_takes h
    left
    refine ⟨rfl, ?_⟩
    replace ha : Nest.start env.nest s.nest t = .ok (true, a) := ha
    unfold Nest.start at ha
    split at ha
    · cases ha
    · next r hr =>
      cases ha
      refine ⟨r, hr, ?_⟩
      split
      · exact .inl rfl
      · exact .inr rfl
  | tail h0 h =>
    obtain ⟨a0, e0, rfl⟩ := part_declines h0
    have := nest0 _ e0
    subst this
    right
    cases h with
    | head h =>
      obtain ⟨a, ha, rfl⟩ := part_takes h
      left
      refine ⟨rfl, ?_⟩
      obtain ⟨rfl, o, g1, g2⟩ := Icons.start_eq (show Icons.start env.icon _ t = .ok (true, a) from ha)
      cases o with
      | none => cases g2
      | some i => exact ⟨i, g1, rfl⟩
    | tail h1 h =>
      obtain ⟨a1, e1, rfl⟩ := part_declines h1
      have := icon0 _ _ _ (show Icons.start env.icon _ t = .ok (false, a1) from e1)
      subst this
      right
      cases h with
      | head h =>
        obtain ⟨a, ha, rfl⟩ := part_takes h
        left
        refine ⟨rfl, ?_⟩
        replace ha : Data.start _ t = .ok (true, a) := ha
        unfold Data.start at ha
        split at ha
        · split at ha
          · cases ha
          · next hv =>
            have hv := Decidable.not_not.1 hv
            split at ha
            · cases ha
            · next hk =>
              cases ha
              exact ⟨by rw [hv], by simpa using hk, rfl⟩
        · cases ha
      | tail h2 h =>
        obtain ⟨a2, e2, rfl⟩ := part_declines h2
        right
        cases h with
        | tail _ h => cases h
        | head h =>
          obtain ⟨a, ha, rfl⟩ := part_takes h
          refine ⟨rfl, ?_⟩
          have e : (Urls.versionUrls false env.urls).start = Urls.start false env.urls := rfl
          rw [e, Urls.start_spec] at ha
          split at ha
          · next hh =>
            simp only [Bool.false_eq_true, if_false, Except.ok.injEq, Prod.mk.injEq, true_and] at ha
            subst ha
            rw [Option.bind_eq_some_iff] at hh
            obtain ⟨v, v1, v2⟩ := hh
            refine ⟨v, _, v1, v2, ?_⟩
            have : a2 = { s.data with fs := s.fs } := by
              replace e2 : Data.start _ t = .ok (false, a2) := e2
              unfold Data.start at e2
              split at e2
              · rcases (Urls.urlHere_iff _ _ _).1 v1 with ⟨h, -⟩ | ⟨h, -⟩ <;> cases h
              · cases e2; rfl
            subst this
            rfl
          · simp at ha

/-- A token which all decline. -/
theorem declined_cases {n : Nat} {env : Env} {s s' : St} {t : Tok} (h : Declined (buildManips n env) s t s') :
    (t = .function (txt "url") → s.data.skip = true) ∧ Nest.getImport env.nest t = none ∧ Icons.getIcon env.icon t = .ok none ∧
    s' = { s with
      icon := { s.icon with fs := s.fs }
      data := { s.data with fs := s.fs, skip := s.data.skip && !Data.isUrl t }
      urls := { s.urls with fs := s.fs, inUrl := Urls.flagAfter env.urls s.urls.inUrl t } } := by
  unfold buildManips at h
  cases h with
  | cons h0 h =>
    obtain ⟨a0, e0, rfl⟩ := part_declines h0
    replace e0 : Nest.start env.nest s.nest t = .ok (false, a0) := e0
    have n0 : Nest.getImport env.nest t = none ∧ a0 = s.nest := by
      unfold Nest.start at e0
      split at e0
      · next hn => cases e0; exact ⟨hn, rfl⟩
      · cases e0
    obtain ⟨n1, rfl⟩ := n0
    cases h with
    | cons h1 h =>
      obtain ⟨a1, e1, rfl⟩ := part_declines h1
      obtain ⟨rfl, o, g1, g2⟩ := Icons.start_eq (show Icons.start env.icon _ t = .ok (false, a1) from e1)
      have g3 : o = none := by
        cases o with
        | none => rfl
        | some _ => cases g2
      subst g3
      cases h with
      | cons h2 h =>
        obtain ⟨a2, e2, rfl⟩ := part_declines h2
        replace e2 : Data.start { s.data with fs := s.fs } t = .ok (false, a2) := e2
        have d0 : (t = .function (txt "url") → s.data.skip = true) ∧ a2 = { s.data with fs := s.fs, skip := s.data.skip && !Data.isUrl t } := by
          unfold Data.start at e2
          split at e2
          · next v =>
            split at e2
            · next hv =>
              cases e2
              refine ⟨fun h => absurd (by cases h; rfl) hv, ?_⟩
              have : Data.isUrl (.function v) = false := decide_eq_false (by rintro ⟨⟩; exact hv rfl)
              simp [this]
            · next hv =>
              have hv := Decidable.not_not.1 hv
              subst hv
              split at e2
              · next hk => cases e2; exact ⟨fun _ => hk, by rw [show Data.isUrl (.function (txt "url")) = true from rfl]; simp⟩
              · cases e2
          · next ht =>
            cases e2
            refine ⟨fun h => absurd h (ht _), ?_⟩
            have : Data.isUrl t = false := by
              unfold Data.isUrl; rw [decide_eq_false_iff_not]; exact ht _
            simp [this]
        obtain ⟨d1, rfl⟩ := d0
        cases h with
        | cons h3 h =>
          cases h
          obtain ⟨a3, ha, rfl⟩ := part_declines h3
          have e : (Urls.versionUrls false env.urls).start = Urls.start false env.urls := rfl
          rw [e, Urls.start_spec] at ha
          split at ha
          · simp at ha
          · simp only [Except.ok.injEq, Prod.mk.injEq, true_and] at ha
            subst ha
            exact ⟨d1, n1, g1, rfl⟩

theorem icons_cont {env : Icons.Env} {st st' : Icons.St} {t : Tok} {o : Option (List Tok)} (h : Icons.cont env st t = .ok (o, st')) :
    ∃ i ts, Icons.getIcon env t = .ok (some i) ∧ o = some ts ∧ Icons.output i = .ok ts ∧
      Icons.produceAll env i (if env.self = env.main then st else { st with children := add st.children env.main }) i.colors = .ok st' := by
  unfold Icons.cont at h
  split at h
  · cases h
  · cases h
  · next i hi =>
    split at h
    · cases h
    · next h1 =>
      split at h
      · cases h
      · next ts h2 => cases h; exact ⟨i, ts, hi, rfl, h2, h1⟩

theorem urls_cont {env : Urls.Env} {st st' : Urls.St} {t : Tok} {o : Option (List Tok)} {v h : Text} {b : Bool} (hv : Urls.urlHere b t = some v)
    (hh : Urls.hashOf env v = some h) (hc : Urls.cont env st t = .ok (o, st')) :
    ∃ x, o = some [Urls.withValue t (v ++ txt "?" ++ x)] ∧ st' = { st with children := add st.children h } := by
  rcases (Urls.urlHere_iff _ _ _).1 hv with ⟨rfl, -⟩ | ⟨rfl, -⟩
  all_goals
    simp only [Urls.cont, Urls.suffixed, hh] at hc
    split at hc
    · cases hc
    · next hs =>
      split at hs
      · cases hs
      · cases hs; cases hc
        exact ⟨_, rfl, rfl⟩

/-- The two tokens of the manipulator of image data. -/
theorem data_build {env : Data.Env} {s s' : Data.St} {u : Tok} {o : Option (List Tok)} (h : (Data.outlineData false env).cont s u = .ok (o, s'))
    (hs : s.stage = some .string) :
    (Data.tokData u = none ∧ o = some (s.stack ++ [u]) ∧ s' = { s with skip := true, stage := none, stack := [] }) ∨
    ∃ type data b url, Data.tokData u = some (type, data) ∧
      Data.make env (Data.allot env { s with skip := true, stage := none, stack := [] } type data).2.1
        (Data.allot env { s with skip := true, stage := none, stack := [] } type data).1 data
        (Data.allot env { s with skip := true, stage := none, stack := [] } type data).2.2 = .ok (b, s') ∧
      o = some ((s.stack ++ [u]).take 1 ++ [.str (url ++ txt "?" ++ env.query b)]) := by
  simp only [Data.outlineData, Data.cont, hs] at h
  cases hd : Data.tokData u with
  | none => rw [hd] at h; cases h; exact .inl ⟨rfl, rfl, rfl⟩
  | some x =>
    obtain ⟨type, data⟩ := x
    rw [hd] at h
    simp only [Bool.false_eq_true, if_false] at h
    split at h
    · cases h
    · next hm =>
      cases h
      exact .inr ⟨type, data, _, _, rfl, hm, rfl⟩

theorem stream_reports {env : Env} {n : Nat} {D P : Text → Prop} {I : Nest.St → Prop} (hI : NestMeets env n D P I)
    (hl : env.urls.lower (txt "url") = txt "url") (hv : env.urls.lower (txt "var") ≠ txt "url")
    {s s' : St} {ts out : List Tok} {m : Option (Manip St Tok Err)} (h : Stream (buildManips n env) s ts out m s') :
    Reported D P s → I s.nest → ∀ σ σ', At σ s → (σ.skip = true → ts.head? = some (.function (txt "url"))) → Suffices env D P σ ts σ' → Reported D P s' := by
  induction h with
  | nil => intro hr _ _ _ _ _ _; exact hr
  | @keep s t s1 ts out m s2 hd _ ih =>
    intro hr hi σ σ' hat hsk hsu
    obtain ⟨d1, d2, d3, rfl⟩ := declined_cases hd
    refine ih ⟨hr.nest, hr.iconC, hr.iconP, hr.iconR, hr.dataC, hr.dataP, hr.dataR, hr.urls⟩ hi (σ.next env t) σ' ?_ ?_ hsu.2
    · have hf : Data.found σ.prev t = none := by simp [Data.found, hat.prev]
      refine ⟨?_, ?_, ?_, ?_, ?_⟩
      · simp only [Pos.next]
        cases hu : Data.isUrl t with
        | false => rfl
        | true =>
          have := d1 (of_decide_eq_true hu)
          rw [hat.skip] at this
          rw [this]; rfl
      · simp only [Pos.next, hat.skip]
      · simp only [Pos.next, hat.inside]
      · simp only [Pos.next, hf, hat.byData]
      · simp only [Pos.next, hf, hat.counter]
    · intro hk
      simp only [Pos.next, Bool.and_eq_true, Bool.not_eq_true'] at hk
      have := hsk hk.1
      simp only [List.head?_cons, Option.some.injEq] at this
      subst this
      exact absurd hk.2 (by decide)
  | @replace s t m s1 run r s2 rest out m' s3 ht hh hc _ ih =>
    intro hr hi σ σ' hat hsk hsu
    have hout : σ.inside = false → t ≠ .function (txt "url") → σ.Outside := by
      intro hin hne
      refine ⟨hat.prev, ?_, hin⟩
      cases hk : σ.skip with
      | false => rfl
      | true =>
        have := hsk hk
        rw [List.head?_append, hh] at this
        simp only [Option.some_or, Option.some.injEq] at this
        exact absurd this hne
    rcases taken_cases ht with ⟨rfl, r0, hr0, hs1⟩ | ⟨rfl, i, hi0, rfl⟩ | ⟨rfl, rfl, hk, rfl⟩ | ⟨rfl, v, h, hu, hh0, rfl⟩
    · -- imports
      obtain ⟨rfl, hcont⟩ := closed_single (t := t) (by
        intro a a' h
        obtain ⟨x, hx, -⟩ := part_goes h
        have := (nest_children (show Nest.cont env.nest n _ t = .ok (none, x) from hx)).2
        cases this) hh hc
      obtain ⟨x, hx, rfl⟩ := part_goes hcont
      replace hx : Nest.cont env.nest n s1.nest t = .ok (some r, x) := hx
      obtain ⟨hin, hne, hD⟩ := hsu.1.nest r0 hr0
      have hI1 : I s1.nest := by
        rcases hs1 with rfl | rfl
        · exact hi
        · exact hI.children _ _ hi
      obtain ⟨hI2, hb⟩ := hI.block _ _ _ _ _ hr0 hne hI1 hx
      have hch := (nest_children hx).1
      have ho := hout hin (by rintro rfl; cases hr0)
      have hnext : σ.next env t = σ := by
        obtain ⟨o1, o2, o3⟩ := ho
        obtain ⟨pr, sk, ins, bd, nn⟩ := σ
        dsimp only at o1 o2 o3
        subst o1 o2 o3
        cases t <;> first | (cases hr0; done) | rfl
      refine ih ?_ hI2 σ σ' ?_ (fun h => by rw [ho.2.1] at h; cases h) ((hb σ ho).append (by have := hsu.2; rw [hnext] at this; exact this))
      · refine ⟨?_, ?_, ?_, ?_, ?_, ?_, ?_, ?_⟩
        · show ∀ p ∈ x.children, D p
          rw [hch]
          rcases hs1 with rfl | rfl
          · exact hr.nest
          · intro p hp
            rcases List.mem_append.1 hp with hp | hp
            · exact hr.nest p hp
            · rw [List.mem_singleton.1 hp]; exact hD
        all_goals rcases hs1 with rfl | rfl
        exacts [hr.iconC, hr.iconC, hr.iconP, hr.iconP, hr.iconR, hr.iconR, hr.dataC, hr.dataC, hr.dataP, hr.dataP, hr.dataR, hr.dataR, hr.urls, hr.urls]
      · rcases hs1 with rfl | rfl <;> exact ⟨hat.prev, hat.skip, hat.inside, hat.byData, hat.counter⟩
    · -- icons
      obtain ⟨rfl, hcont⟩ := closed_single (t := t) (by
        intro a a' h
        obtain ⟨x, hx, -⟩ := part_goes h
        obtain ⟨_, _, _, h2, _⟩ := icons_cont (show Icons.cont env.icon _ t = .ok (none, x) from hx)
        cases h2) hh hc
      obtain ⟨x, hx, rfl⟩ := part_goes hcont
      obtain ⟨i', ts, g1, g2, g3, g4⟩ := icons_cont (show Icons.cont env.icon _ t = .ok (some r, x) from hx)
      rw [hi0] at g1
      cases g1
      cases g2
      obtain ⟨hin, hm⟩ := hsu.1.icon i hi0
      have ho := hout hin (by rintro rfl; cases hi0)
      have hnext : σ.next env t = σ := by
        obtain ⟨o1, o2, o3⟩ := ho
        obtain ⟨pr, sk, ins, bd, nn⟩ := σ
        dsimp only at o1 o2 o3
        subst o1 o2 o3
        cases t <;> first | (cases hi0; done) | rfl
      have hpl := plain_output hv (P := fun v => ∃ c ∈ i.colors, v = i.web c) hm.colored (fun c hc => ⟨c, hc, rfl⟩) g3
      have hsuf : Suffices env D P σ r σ := plain_suffices hl (by
        rintro v ⟨c, hc, rfl⟩
        exact ⟨rfl, hm.url c hc⟩) hpl ho
      have hrep := produceAll_reports (D := D) (P := P) i.colors _ _ (fun c hc => ⟨hm.image c hc, hm.hash c hc⟩) g4
        (by
          split
          · exact hr.iconC
          · next hne =>
            intro p hp
            rcases mem_add.1 hp with hp | rfl
            · exact hr.iconC p hp
            · exact hm.main hne)
        (by split <;> exact hr.iconP) (by split <;> exact hr.iconR)
      exact ih ⟨hr.nest, hrep.1, hrep.2.1, hrep.2.2, hr.dataC, hr.dataP, hr.dataR, hr.urls⟩ hi σ σ'
        ⟨hat.prev, hat.skip, hat.inside, hat.byData, hat.counter⟩ (fun h => by rw [ho.2.1] at h; cases h)
        (hsuf.append (by have := hsu.2; rw [hnext] at this; exact this))
    · -- image data
      obtain ⟨us, u, s4, rfl, ho, hf⟩ := hc
      cases ho with
      | nil =>
        simp only [List.nil_append, List.head?_cons, Option.some.injEq] at hh
        subst hh
        obtain ⟨x, hx, -⟩ := part_goes hf
        simp only [Data.outlineData, Data.cont, if_true] at hx
        cases hx
      | @cons _ y sa us _ h1 h2 =>
        simp only [List.cons_append, List.head?_cons, Option.some.injEq] at hh
        subst hh
        obtain ⟨x, hx, rfl⟩ := part_goes h1
        simp only [Data.outlineData, Data.cont, if_true] at hx
        cases hx
        cases h2 with
        | cons h3 h4 =>
          obtain ⟨x, hx, -⟩ := part_goes h3
          rcases data_build hx rfl with ⟨-, h, -⟩ | ⟨_, _, _, _, _, _, h⟩ <;> cases h
        | nil =>
          obtain ⟨x, hx, rfl⟩ := part_goes hf
          have hskip : σ.skip = false := by rw [← hat.skip]; exact hk
          obtain ⟨pr, sk, ins, bd, nn⟩ := σ
          have q1 : pr = false := hat.prev
          have q2 : sk = false := hskip
          subst q1 q2
          obtain ⟨-, q3, q4, q5, q6⟩ := hat
          dsimp only at q3 q4 q5 q6
          obtain ⟨m1, m2, hrest⟩ := hsu
          have hn1 : ∀ b, Pos.next env ⟨false, b, ins, bd, nn⟩ (.function (txt "url")) = ⟨!b, false, true, bd, nn⟩ := by
            intro b
            have e1 : Data.isUrl (.function (txt "url")) = true := rfl
            simp only [Pos.next, Data.found, e1, Urls.flagAfter, hl]
            simp
          have hM : ∀ b bd nn, Meets env D P ⟨false, b, ins, bd, nn⟩ (.function (txt "url")) := fun b bd nn =>
            ⟨fun v h hu => (by cases hu), fun i hi => (by cases hi), fun r hr => (by cases hr), fun x p hx => (by cases hx)⟩
          rw [hn1] at m2 hrest
          rcases data_build hx rfl with ⟨b1, b2, rfl⟩ | ⟨type, dat, b, url, b1, b2, b3⟩
          · cases b2
            refine ih ⟨hr.nest, hr.iconC, hr.iconP, hr.iconR, hr.dataC, hr.dataP, hr.dataR, hr.urls⟩ hi ⟨false, true, ins, bd, nn⟩ σ'
              ⟨rfl, rfl, q4, q5, q6⟩ (fun _ => rfl) ⟨hM _ _ _, ?_⟩
            rw [hn1]
            refine ⟨⟨m2.url, m2.icon, m2.nest, fun x p hx => (by cases hx)⟩, ?_⟩
            have e : Pos.next env ⟨!true, false, true, bd, nn⟩ u = Pos.next env ⟨!false, false, true, bd, nn⟩ u := by
              simp [Pos.next, Data.found, b1]
            rw [e]
            exact hrest
          · cases b3
            have hfound : Data.found (!false) u = some (type, dat) := b1
            have hal : ∃ bd' nn', withData env.data ⟨true, false, true, bd, nn⟩ (type, dat) = ⟨true, false, true, bd', nn'⟩ ∧
                (Data.allot env.data { s.data with fs := s.fs, skip := true, stage := none, stack := [] } type dat).2.2 =
                  { s.data with fs := s.fs, skip := true, stage := none, stack := [], byData := bd', counter := nn' } ∧
                ((Data.allot env.data { s.data with fs := s.fs, skip := true, stage := none, stack := [] } type dat).2.1 = true →
                  newFile env.data ⟨true, false, true, bd, nn⟩ (type, dat) =
                    some (Data.allot env.data { s.data with fs := s.fs, skip := true, stage := none, stack := [] } type dat).1) := by
              subst q5 q6
              unfold Data.allot withData newFile
              dsimp only
              cases Assoc.item s.data.byData dat with
              | none => exact ⟨_, _, rfl, rfl, fun _ => rfl⟩
              | some q => exact ⟨_, _, rfl, rfl, fun h => (by cases h)⟩
            obtain ⟨bd', nn', w1, w2, w3⟩ := hal
            have hst : ∀ st, Data.allot env.data st type dat = Data.allot env.data st type dat := fun _ => rfl
            replace b2 : Data.make env.data
              (Data.allot env.data { s.data with fs := s.fs, skip := true, stage := none, stack := [] } type dat).2.1
              (Data.allot env.data { s.data with fs := s.fs, skip := true, stage := none, stack := [] } type dat).1 dat
              (Data.allot env.data { s.data with fs := s.fs, skip := true, stage := none, stack := [] } type dat).2.2 = .ok (b, x) := b2
            obtain ⟨⟨r1, r2, r3⟩, r4, r5, r6⟩ := make_reports (D := D) (P := P) b2
              (fun hnew => m2.data _ _ hfound (w3 hnew))
              (by rw [w2]; exact hr.dataC) (by rw [w2]; exact hr.dataP) (by rw [w2]; exact hr.dataR)
            rw [w2] at r4 r5 r6
            refine ih ⟨hr.nest, hr.iconC, hr.iconP, hr.iconR, r1, r2, r3, hr.urls⟩ hi ⟨false, true, ins, bd', nn'⟩ σ'
              ⟨rfl, r4, q4, r5, r6⟩ (fun _ => rfl) ⟨hM _ _ _, ?_⟩
            have hn2 : Pos.next env ⟨false, true, ins, bd', nn'⟩ (.function (txt "url")) = ⟨false, false, true, bd', nn'⟩ := by
              have e1 : Data.isUrl (.function (txt "url")) = true := rfl
              simp only [Pos.next, Data.found, e1, Urls.flagAfter, hl]
              simp
            rw [hn2]
            refine ⟨⟨?_, fun i hi => (by cases hi), fun r hr => (by cases hr), fun x p hx => (by cases hx)⟩, ?_⟩
            · intro w h hw hh
              cases hw
              rw [Urls.hashOf_query] at hh
              cases hh
            · have hu : ∃ w, u = .str w := by
                unfold Data.tokData at b1
                cases u <;> first | (cases b1; done) | exact ⟨_, rfl⟩
              obtain ⟨w, rfl⟩ := hu
              have e : Pos.next env ⟨!false, false, true, bd, nn⟩ (.str w) = Pos.next env ⟨false, false, true, bd', nn'⟩
                  (.str (url ++ txt "?" ++ env.data.query b)) := by
                simp only [Pos.next]
                rw [show Data.found (!false) (.str w) = some (type, dat) from hfound]
                rw [show (⟨!false, false, true, bd, nn⟩ : Pos) = ⟨true, false, true, bd, nn⟩ from rfl]
                simp only [w1]
                rfl
              rw [← e]
              exact hrest
    · -- URLs
      have hsome : ∀ a o x, (Urls.versionUrls false env.urls).cont a t = .ok (o, x) → ∃ y, o = some [Urls.withValue t (v ++ txt "?" ++ y)] ∧
          x = { a with children := add a.children h } := fun a o x hx => urls_cont hu hh0 hx
      obtain ⟨rfl, hcont⟩ := closed_single (t := t) (by
        intro a a' h
        obtain ⟨x, hx, -⟩ := part_goes h
        obtain ⟨y, hy, -⟩ := hsome _ _ _ hx
        cases hy) hh hc
      obtain ⟨x, hx, rfl⟩ := part_goes hcont
      obtain ⟨y, hy, rfl⟩ := hsome _ _ _ hx
      cases hy
      have hins := hat.inside
      refine ih ⟨hr.nest, hr.iconC, hr.iconP, hr.iconR, hr.dataC, hr.dataP, hr.dataR, ?_⟩ hi σ σ'
        ⟨hat.prev, hat.skip, hat.inside, hat.byData, hat.counter⟩ ?_ ?_
      · intro p hp
        rcases mem_add.1 hp with hp | rfl
        · exact hr.urls p hp
        · exact hsu.1.url v _ (by rw [← hins]; exact hu) hh0
      · intro hk
        have := hsk hk
        simp only [List.singleton_append, List.head?_cons, Option.some.injEq] at this
        subst this
        cases hu
      · have hsu2 := hsu.2
        rcases (Urls.urlHere_iff _ _ _).1 hu with ⟨rfl, -⟩ | ⟨rfl, -⟩
        all_goals
          refine ⟨⟨?_, fun i hi => (by cases hi), fun r hr => (by cases hr), ?_⟩, ?_⟩
          · intro w g hw hg
            simp only [Urls.withValue] at hw
            rcases (Urls.urlHere_iff _ _ _).1 hw with ⟨hw, -⟩ | ⟨hw, -⟩ <;> cases hw
            rw [Urls.hashOf_query] at hg
            cases hg
          · intro x p hx
            rw [hat.prev] at hx
            cases hx
          · have e : ∀ t', σ.next env t' = { σ with prev := Data.isUrl t' && !σ.skip, skip := σ.skip && !Data.isUrl t', inside := Urls.flagAfter env.urls σ.inside t' } := by
              intro t'
              simp only [Pos.next, Data.found, hat.prev]
              rfl
            have e2 := hsu2
            rw [e] at e2 ⊢
            exact e2
  | @unfinished s t m s1 run s2 ht hh ho =>
    intro hr _ _ _ _ _ _
    rcases taken_cases ht with ⟨rfl, r0, hr0, -⟩ | ⟨rfl, i, hi0, -⟩ | ⟨rfl, rfl, hk, rfl⟩ | ⟨rfl, v, h, hu, hh0, -⟩
    · exact (open_single (t := t) (by
        intro a a' h
        obtain ⟨x, hx, -⟩ := part_goes h
        have := (nest_children (show Nest.cont env.nest n _ t = .ok (none, x) from hx)).2
        cases this) hh ho).elim
    · exact (open_single (t := t) (by
        intro a a' h
        obtain ⟨x, hx, -⟩ := part_goes h
        obtain ⟨_, _, _, h2, _⟩ := icons_cont (show Icons.cont env.icon _ t = .ok (none, x) from hx)
        cases h2) hh ho).elim
    · cases ho with
      | nil => cases hh
      | @cons _ y sa us _ h1 h2 =>
        simp only [List.head?_cons, Option.some.injEq] at hh
        subst hh
        obtain ⟨x, hx, rfl⟩ := part_goes h1
        simp only [Data.outlineData, Data.cont, if_true] at hx
        cases hx
        cases h2 with
        | nil => exact ⟨hr.nest, hr.iconC, hr.iconP, hr.iconR, hr.dataC, hr.dataP, hr.dataR, hr.urls⟩
        | cons h3 h4 =>
          obtain ⟨x, hx, -⟩ := part_goes h3
          rcases data_build hx rfl with ⟨-, h, -⟩ | ⟨_, _, _, _, _, _, h⟩ <;> cases h
    · exact (open_single (t := t) (by
        intro a a' h
        obtain ⟨x, hx, -⟩ := part_goes h
        obtain ⟨y, hy, -⟩ := urls_cont hu hh0 (show Urls.cont env.urls _ t = .ok (none, x) from hx)
        cases hy) hh ho).elim

/-! ## The whole stylesheet -/

/-- No command stands inside of an URL, the buttons of the icons only have colors of the icon, and rules are imported from other
stylesheets only, which have been built. -/
structure Tame (env : Env) (ts : List Tok) : Prop where
  icons : ∀ (k : Nat) t i, ts[k]? = some t → Icons.IconOf env.icon t i → ¬ Urls.Inside env.urls.lower ts k ∧ Colored i
  imports : ∀ (k : Nat) t r, ts[k]? = some t → Nest.getImport env.nest t = some r → ¬ Urls.Inside env.urls.lower ts k ∧ Foreign env r

theorem announce_mono (new : Bool) (p : Text) (st : Data.St) : ∀ q ∈ st.produces, q ∈ (Data.announce new p st).produces := by
  intro q hq
  unfold Data.announce
  split
  · exact mem_addAll.2 (.inl (mem_add.2 (.inl hq)))
  · exact hq

theorem run_grows (env : Data.Env) : ∀ (ts : List Tok) (prev : Bool) (st st' : Data.St) (out : List Tok),
    Data.run true env prev st ts = .ok (out, st') → ∀ q ∈ st.produces, q ∈ st'.produces := by
  intro ts
  induction ts with
  | nil => intro prev st st' out h q hq; cases h; exact hq
  | cons t ts ih =>
    intro prev st st' out h q hq
    simp only [Data.run] at h
    split at h
    · cases h
    · next st1 h1 =>
      split at h
      · cases h
      · next h2 =>
        cases h
        refine ih _ _ _ _ h2 q ?_
        unfold Data.step at h1
        split at h1
        · cases h1; exact hq
        · simp only [Data.swap, if_true] at h1
          cases h1
          refine announce_mono _ _ _ q ?_
          unfold Data.allot
          split <;> exact hq

theorem web_image (n c : Text) : txt "out/www" ++ (txt "/img/icons/" ++ n ++ txt "/" ++ c ++ txt ".svg") = Icons.image n c := by
  have e : txt "out/www/img/icons/" = txt "out/www" ++ txt "/img/icons/" := by decide
  unfold Icons.image
  rw [e]
  simp only [List.append_assoc]

theorem suffices_doc {env : Env} {stem : Text} {doc : List Tok} (hr : Urls.Rooted doc) (hsp : Icons.Spaces env.icon.space)
    (hw : Icons.WellFormed env.icon doc) (hsl : Icons.Slashless env.icon doc) (ht : Tame env doc) :
    ∀ (ts pre : List Tok) (σ : Pos) (st st' : Data.St) (out : List Tok), pre ++ ts = doc → σ.skip = false →
      (σ.inside = true ↔ Urls.Inside env.urls.lower pre pre.length) → st.byData = σ.byData → st.counter = σ.counter →
      Data.run true env.data σ.prev st ts = .ok (out, st') → (∀ q ∈ st'.produces, Data.Outputs stem doc q) →
      ∃ σ', Suffices env (Depends env doc) (Makes env stem doc) σ ts σ' := by
  intro ts
  induction ts with
  | nil => intro pre σ st st' out _ _ _ _ _ _ _; exact ⟨σ, rfl⟩
  | cons t ts ih =>
    intro pre σ st st' out hdoc hsk hin hby hco hrun hout
    have hk : doc[pre.length]? = some t := by rw [← hdoc]; simp
    have hmem : t ∈ doc := List.mem_of_getElem? hk
    have hIn : σ.inside = true ↔ Urls.Inside env.urls.lower doc pre.length := by
      rw [hin, ← hdoc, Urls.inside_prefix _ _ _ _ (Nat.le_refl _)]
    simp only [Data.run] at hrun
    split at hrun
    · cases hrun
    · next t' st1 hstep =>
      split at hrun
      · cases hrun
      · next out1 st2 hrun1 =>
        cases hrun
        have hgrow := run_grows env.data _ _ _ _ _ hrun1
        have hnew : (∀ x p, Data.found σ.prev t = some x → newFile env.data σ x = some p → p ∈ st1.produces ∧ ∀ q ∈ (hashScan p).produces, q ∈ st1.produces) ∧
            st1.byData = (σ.next env t).byData ∧ st1.counter = (σ.next env t).counter := by
          unfold Data.step at hstep
          cases hf : Data.found σ.prev t with
          | none =>
            rw [hf] at hstep
            cases hstep
            exact ⟨fun x p h => (by cases h), by simp only [Pos.next, hf, hby], by simp only [Pos.next, hf, hco]⟩
          | some x =>
            obtain ⟨type, dat⟩ := x
            rw [hf] at hstep
            simp only [Data.swap, if_true, Data.allot, hby, hco] at hstep
            simp only [Pos.next, hf, withData, newFile]
            cases hi : Assoc.item σ.byData dat with
            | some q =>
              rw [hi] at hstep
              simp only [Data.announce] at hstep
              cases hstep
              refine ⟨fun x p h hp => ?_, rfl, rfl⟩
              cases h
              simp [hi] at hp
            | none =>
              rw [hi] at hstep
              simp only [Data.announce, if_true] at hstep
              cases hstep
              refine ⟨fun x p h hp => ?_, rfl, rfl⟩
              cases h
              simp only [hi, Option.some.injEq] at hp
              subst hp
              exact ⟨mem_addAll.2 (.inl (mem_add.2 (.inr rfl))), fun q hq => mem_addAll.2 (.inr hq)⟩
        obtain ⟨hn1, hn2, hn3⟩ := hnew
        obtain ⟨σ', hσ'⟩ := ih (pre ++ [t]) (σ.next env t) st1 st' out1 (by rw [← hdoc]; simp) (by simp [Pos.next, hsk])
          (by simpa [Pos.next] using Urls.flagAfter_inside hin t) hn2 hn3
          (by simpa [Pos.next, hsk] using hrun1) hout
        refine ⟨σ', ⟨?_, ?_, ?_, ?_⟩, hσ'⟩
        · intro v h hu hh
          have hu2 : Urls.UrlAt env.urls.lower doc pre.length v := by
            rcases (Urls.urlHere_iff _ _ _).1 hu with ⟨rfl, h2⟩ | ⟨rfl, h2⟩
            · exact .inl ⟨hk, hIn.1 h2⟩
            · exact .inr ⟨hk, fun h3 => h2 (hIn.2 h3)⟩
          have hroot : ¬ txt "//" <+: v := by
            rcases (Urls.urlHere_iff _ _ _).1 hu with ⟨rfl, h2⟩ | ⟨rfl, h2⟩
            · exact hr v (.inl hmem)
            · exact hr v (.inr hmem)
          obtain ⟨path, p1, p2⟩ := (Urls.hashOf_spec env.urls hroot h).1 hh
          exact .inr (.inr ⟨_, v, path, hu2, p1, p2⟩)
        · intro i hi
          obtain ⟨o, o1, o2⟩ := Icons.getIcon_spec env.icon hsp hw hmem
          rw [hi] at o1
          cases o1
          have hio := (o2 i).1 rfl
          obtain ⟨t1, t2⟩ := ht.icons _ _ _ hk hio
          have hwant : ∀ c ∈ i.colors, Icons.Wants env.icon doc i.name i.initial c := fun c hc => ⟨t, hmem, i, hio, rfl, rfl, hc⟩
          obtain ⟨hname, hslash⟩ := hsl.2 t hmem i hio
          have hout : ∀ c ∈ i.colors, i.output c = Icons.image i.name c := fun c hc =>
            Icons.output_eq hname hslash (hsl.1 c (hio.facts.1 c hc))
          refine ⟨by cases hb : σ.inside with | false => rfl | true => exact absurd (hIn.1 hb) t1, t2, ?_, ?_, ?_, ?_⟩
          · intro hne
            have hnec : i.colors ≠ [] := by
              obtain ⟨_, _, _, _, _, _, hreal⟩ := hio
              exact hreal.colorsNe
            obtain ⟨c, hc⟩ := List.exists_mem_of_ne_nil _ hnec
            exact .inr (.inl ⟨_, _, c, hwant c hc, .inl ⟨rfl, hne⟩⟩)
          · intro c hc
            rw [hout c hc]
            exact .inr (.inl ⟨_, _, c, hwant c hc, .inl rfl⟩)
          · intro c hc q hq
            rw [hout c hc] at hq
            obtain ⟨z, hz⟩ := Icons.image_out i.name c
            have : q = Icons.image i.name c ++ txt ".hash" := by
              unfold hashScan at hq
              rw [hz, Handlers.hashTarget_out] at hq
              rw [hz]
              simpa using hq
            exact .inr (.inl ⟨_, _, c, hwant c hc, .inr this⟩)
          · intro c hc h hh
            have hroot : ¬ txt "//" <+: i.web c := by
              have e1 : txt "//" = [47, 47] := by decide
              have e2 : txt "/img/icons/" = 47 :: 105 :: txt "mg/icons/" := by decide
              rintro ⟨z, hz⟩
              simp only [Icons.Icon.web, e1, e2, List.cons_append] at hz
              simp at hz
            obtain ⟨path, p1, p2⟩ := (Urls.hashOf_spec env.urls hroot h).1 hh
            refine .inr (.inl ⟨_, _, c, hwant c hc, .inr (.inr ?_)⟩)
            rw [p2, ← web_image]
            unfold Urls.hashFile
            have := p1.1
            unfold Icons.Icon.web at this
            rw [this]
            have e1 : txt "out/www/" = txt "out/www" ++ txt "/" := by decide
            rw [e1]
            simp only [List.append_assoc]
        · intro r hr
          obtain ⟨t1, t2⟩ := ht.imports _ _ _ hk hr
          exact ⟨by cases hb : σ.inside with | false => rfl | true => exact absurd (hIn.1 hb) t1, t2, .inl ⟨r, ⟨t, hmem, hr⟩, rfl, t2.1⟩⟩
        · intro x p hx hp
          obtain ⟨q1, q2⟩ := hn1 x p hx hp
          exact ⟨.inr (.inr (hout _ (hgrow _ q1))), fun q hq => .inr (.inr (hout _ (hgrow _ (q2 q hq))))⟩

end Verif.Css.Page
