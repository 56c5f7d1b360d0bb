import Verif.JsonDump
import Verif.ConfigCase
import Verif.RunnersThm
/-!
# C115: the text of the configuration

What init.py:56-163 writes into vanillaplusjs.json and what build.py:105-106 and dev.py:218-219 read from it.
-/
namespace Verif.Config
open Verif Verif.JsonText
open Verif.Reader (Text txt)
open Verif.Img.Glue (Json Number)

variable {I : Type}

mutual
/-- What Python writes for a dictionary; `shown` is Python's text of a float. -/
def ofJson (shown : ℚ → Text) : Json → Value
  | .null => .null
  | .bool b => .bool b
  | .num (.int n) => .int n
  | .num (.float q) => .float (shown q)
  | .num .inf => .infinite false
  | .num .ninf => .infinite true
  | .num .nan => .nan
  | .str t => .str t
  | .arr l => .arr (ofList shown l)
  | .obj l => .obj (ofItems shown l)
def ofList (shown : ℚ → Text) : List Json → List Value
  | [] => []
  | v :: l => ofJson shown v :: ofList shown l
def ofItems (shown : ℚ → Text) : List (Text × Json) → List (Text × Value)
  | [] => []
  | (k, v) :: l => (k, ofJson shown v) :: ofItems shown l
end

mutual
/-- What `json.load` gives; `float` is Python's `float` of a text. -/
def toJson (float : Text → Number) : Value → Json
  | .null => .null
  | .bool b => .bool b
  | .int n => .num (.int n)
  | .float t => .num (float t)
  | .infinite false => .num .inf
  | .infinite true => .num .ninf
  | .nan => .num .nan
  | .str t => .str t
  | .arr l => .arr (toList float l)
  | .obj l => .obj (toItems float l)
def toList (float : Text → Number) : List Value → List Json
  | [] => []
  | v :: l => toJson float v :: toList float l
def toItems (float : Text → Number) : List (Text × Value) → List (Text × Json)
  | [] => []
  | (k, v) :: l => (k, toJson float v) :: toItems float l
end

mutual
/-- The texts have only characters, dictionaries have every key once, and there are no floats but the infinities and NaN. -/
def Ordinary : Json → Prop
  | .num (.float _) => False
  | .num _ => True
  | .str t => Plain t
  | .arr l => Ordinaries l
  | .obj l => OrdinaryItems l ∧ (l.map (·.1)).Nodup
  | _ => True
def Ordinaries : List Json → Prop
  | [] => True
  | v :: l => Ordinary v ∧ Ordinaries l
def OrdinaryItems : List (Text × Json) → Prop
  | [] => True
  | (k, v) :: l => Plain k ∧ Ordinary v ∧ OrdinaryItems l
end

theorem ofItems_keys (shown : ℚ → Text) : ∀ l, (ofItems shown l).map (·.1) = l.map (·.1)
  | [] => by simp [ofItems]
  | (k, v) :: l => by simp [ofItems, ofItems_keys shown l]

mutual
theorem genuine_of (shown : ℚ → Text) : ∀ v, Ordinary v → Genuine (ofJson shown v)
  | .null, _ => by simp [ofJson, Genuine]
  | .bool b, _ => by simp [ofJson, Genuine]
  | .num (.int n), _ => by simp [ofJson, Genuine]
  | .num (.float q), h => by simp [Ordinary] at h
  | .num .inf, _ => by simp [ofJson, Genuine]
  | .num .ninf, _ => by simp [ofJson, Genuine]
  | .num .nan, _ => by simp [ofJson, Genuine]
  | .str t, h => by simpa [ofJson, Genuine, Ordinary] using h
  | .arr l, h => by
    simp only [Ordinary] at h
    simp only [ofJson, Genuine]
    exact genuine_list shown l h
  | .obj l, h => by
    simp only [Ordinary] at h
    simp only [ofJson, Genuine, ofItems_keys]
    exact ⟨genuine_items shown l h.1, h.2⟩
theorem genuine_list (shown : ℚ → Text) : ∀ l, Ordinaries l → Genuines (ofList shown l)
  | [], _ => by simp [ofList, Genuines]
  | v :: l, h => by
    simp only [Ordinaries] at h
    simp only [ofList, Genuines]
    exact ⟨genuine_of shown v h.1, genuine_list shown l h.2⟩
theorem genuine_items (shown : ℚ → Text) : ∀ l, OrdinaryItems l → GenuinePairs (ofItems shown l)
  | [], _ => by simp [ofItems, GenuinePairs]
  | (k, v) :: l, h => by
    simp only [OrdinaryItems] at h
    simp only [ofItems, GenuinePairs]
    exact ⟨h.1, genuine_of shown v h.2.1, genuine_items shown l h.2.2⟩
end

mutual
theorem to_of (shown : ℚ → Text) (float : Text → Number) : ∀ v, Ordinary v → toJson float (ofJson shown v) = v
  | .null, _ => by simp [ofJson, toJson]
  | .bool b, _ => by simp [ofJson, toJson]
  | .num (.int n), _ => by simp [ofJson, toJson]
  | .num (.float q), h => by simp [Ordinary] at h
  | .num .inf, _ => by simp [ofJson, toJson]
  | .num .ninf, _ => by simp [ofJson, toJson]
  | .num .nan, _ => by simp [ofJson, toJson]
  | .str t, _ => by simp [ofJson, toJson]
  | .arr l, h => by
    simp only [Ordinary] at h
    simp only [ofJson, toJson, to_of_list shown float l h]
  | .obj l, h => by
    simp only [Ordinary] at h
    simp only [ofJson, toJson, to_of_items shown float l h.1]
theorem to_of_list (shown : ℚ → Text) (float : Text → Number) : ∀ l, Ordinaries l → toList float (ofList shown l) = l
  | [], _ => by simp [ofList, toList]
  | v :: l, h => by
    simp only [Ordinaries] at h
    simp only [ofList, toList, to_of shown float v h.1, to_of_list shown float l h.2]
theorem to_of_items (shown : ℚ → Text) (float : Text → Number) : ∀ l, OrdinaryItems l → toItems float (ofItems shown l) = l
  | [], _ => by simp [ofItems, toItems]
  | (k, v) :: l, h => by
    simp only [OrdinaryItems] at h
    simp only [ofItems, toItems, to_of shown float v h.2.1, to_of_items shown float l h.2.2]
end

/-- init.py:56-163 with `DecimalEncoder` (init.py:182-186): the text of vanillaplusjs.json. -/
def configText (shown : ℚ → Text) (host : Option Text) : Text := dump none 0 (ofJson shown (initial host))

/-- build.py:105-131: `json.load`, whose JSONDecodeError is a ValueError, and what follows. -/
def buildText (w : World I) (float : Text → Number) (src : Bool) (t : Text) : Except Err (Context I) :=
  match loads t with
  | .error _ => .error .valueError
  | .ok v => forBuild w src (toJson float v)

/-- dev.py:218-241 -/
def watchText (w : World I) (float : Text → Number) (t : Text) : Except Err (Context I) :=
  match loads t with
  | .error _ => .error .valueError
  | .ok v => forWatch w (toJson float v)

theorem ordinary_host {host : Option Text} (h : ∀ t, host = some t → Plain t) : Ordinary (hostJson host) := by
  cases host with
  | none => simp [hostJson, Ordinary]
  | some t => simpa [hostJson, Ordinary] using h t rfl

theorem ordinary_export (lo hi : Option ℤ) (pref : ℤ) {kwargs : List (Text × Json)} (h : OrdinaryItems kwargs) (hn : (kwargs.map (·.1)).Nodup) :
    Ordinary (exportJson lo hi pref kwargs) := by
  cases lo <;> cases hi <;>
  · simp only [exportJson, Ordinary, OrdinaryItems, plain_txt, List.map_cons, List.map_nil, true_and, and_true, h, hn]
    decide

theorem ordinary_webp (q : ℤ) (l : Bool) : OrdinaryItems (webpArgs q l) ∧ ((webpArgs q l).map (·.1)).Nodup := by
  simp only [webpArgs, Ordinary, OrdinaryItems, plain_txt, List.map_cons, List.map_nil, true_and, and_true]
  decide

theorem ordinary_jpegJson : Ordinary jpegJson := by
  have k : ∀ q : ℤ, OrdinaryItems [(txt "quality", Json.num (.int q))] ∧ ([(txt "quality", Json.num (.int q))].map (·.1)).Nodup := by
    intro q
    simp only [Ordinary, OrdinaryItems, plain_txt, List.map_cons, List.map_nil, true_and, and_true]
    decide
  have e := fun lo hi p q => ordinary_export lo hi p (k q).1 (k q).2
  simp only [jpegJson, Ordinary, OrdinaryItems, plain_txt, e, List.map_cons, List.map_nil, true_and, and_true]
  decide

theorem ordinary_webpJson : Ordinary webpJson := by
  have e := fun lo hi p q l => ordinary_export lo hi p (ordinary_webp q l).1 (ordinary_webp q l).2
  simp only [webpJson, Ordinary, OrdinaryItems, plain_txt, e, List.map_cons, List.map_nil, true_and, and_true]
  decide

theorem plain_nil : Plain [] := by simp [Plain, NoPair]

theorem ordinary_initial {host : Option Text} (h : ∀ t, host = some t → Plain t) : Ordinary (initial host) := by
  have hv : Plain version := plain_txt _
  simp only [initial, Ordinary, OrdinaryItems, plain_txt, plain_nil, hv, ordinary_host h, ordinary_jpegJson, ordinary_webpJson, List.map_cons, List.map_nil,
    true_and, and_true]
  decide

/-- C115: whatever dictionary without floats has been written as the configuration, a build and a rebuild while watching get it as it
is: a build refuses other versions, a rebuild does not look at the version. -/
theorem C115_reads (w : World I) (shown : ℚ → Text) (float : Text → Number) (src : Bool) {items : List (Text × Json)} (ho : Ordinary (.obj items)) :
    buildText w float src (dump none 0 (ofJson shown (.obj items))) = forBuild w src (.obj items) ∧
    watchText w float (dump none 0 (ofJson shown (.obj items))) = forWatch w (.obj items) := by
  have hl : loads (dump none 0 (ofJson shown (.obj items))) = .ok (ofJson shown (.obj items)) :=
    loads_dump (genuine_of shown _ ho) (by simp only [ofJson]; trivial) none
  unfold buildText watchText
  rw [hl]
  simp only [to_of shown float _ ho, and_self]

/-- C115: the text which init writes is read as the configuration which init means, whatever the host is: a build and a
rebuild while watching of a new project get these settings. -/
theorem C115_text {w : World I} {icons : I} (hd : w.decimal (txt "0.5") = some (.fin (1 / 2))) {host : Option Text}
    (hh : ∀ t, host = some t → Plain t) (hw : ∀ items, initial host = .obj items → w.icons items = .ok icons) (shown : ℚ → Text) (float : Text → Number) :
    buildText w float true (configText shown host) = .ok ⟨host.elim .null .str, icons, images0, .bool true, [], constants0⟩ ∧
    watchText w float (configText shown host) = .ok ⟨host.elim .null .str, icons, images0, .bool true, [], constants0⟩ := by
  have ho := ordinary_initial hh
  have hl : loads (configText shown host) = .ok (ofJson shown (initial host)) :=
    loads_dump (genuine_of shown _ ho) (by unfold initial; simp only [ofJson]; trivial) none
  have hb : forBuild w true (initial host) = .ok ⟨host.elim .null .str, icons, images0, .bool true, [], constants0⟩ := by
    have he : ∃ items, initial host = .obj items := ⟨_, rfl⟩
    obtain ⟨items, he⟩ := he
    exact C87_init hd host he (hw _ he)
  constructor
  · unfold buildText
    rw [hl]
    simp only [to_of shown float _ ho, hb]
  · unfold watchText
    rw [hl]
    simp only [to_of shown float _ ho]
    exact C87_watch hb

/-- C115: a configuration of which only the beginning was written is refused. -/
theorem C115_torn (w : World I) {host : Option Text} (hh : ∀ t, host = some t → Plain t) {shown : ℚ → Text} (float : Text → Number) (src : Bool)
    {p s : Text} (hp : p ++ s = configText shown host) (hs : s ≠ []) :
    buildText w float src p = .error .valueError ∧ watchText w float p = .error .valueError := by
  have hg := genuine_of shown _ (ordinary_initial hh)
  unfold configText at hp
  have he : ∃ items, ofJson shown (initial host) = .obj items := by unfold initial; simp only [ofJson]; exact ⟨_, rfl⟩
  obtain ⟨items, he⟩ := he
  rw [he] at hg hp
  have hl := torn_dump hg hp hs
  unfold buildText watchText
  rw [hl]
  exact ⟨rfl, rfl⟩

open Verif.Runners (Fs)

/-- C115: after an init which does not fail, in a folder which had no configuration, a build gets these settings: there are a
configuration and the folder src. -/
theorem C115_init {w : World I} {icons : I} (hd : w.decimal (txt "0.5") = some (.fin (1 / 2))) {host : Option Text}
    (hh : ∀ t, host = some t → Plain t) (hw : ∀ items, initial host = .obj items → w.icons items = .ok icons) (shown : ℚ → Text) (float : Text → Number)
    (index folder : Text) {cwd : Text} (hc : Paths.isAbs cwd = true) {fs : Fs} (hn : fs (Runners.configAt cwd folder) = none)
    (h : (Runners.init (configText shown host) index cwd folder fs).2.1 = none) :
    ∃ t, (Runners.init (configText shown host) index cwd folder fs).2.2 (Runners.configAt cwd folder) = some (.file t) ∧
      (Runners.init (configText shown host) index cwd folder fs).2.2 (Runners.root cwd folder ++ [txt "src"]) = some .dir ∧
      buildText w float true t = .ok ⟨host.elim .null .str, icons, images0, .bool true, [], constants0⟩ := by
  obtain ⟨h1, h2, _⟩ := Runners.C54_done (configText shown host) index folder hc fs h
  rw [hn] at h2
  exact ⟨_, h2, h1 _ (by simp [Runners.dirs]), (C115_text hd hh hw shown float).1⟩

/-- C115, a finding: if an init stops before the configuration is written completely, no later init repairs it, and every
build and rebuild raises until the file is removed. -/
theorem C115_stuck (w : World I) {host : Option Text} (hh : ∀ t, host = some t → Plain t) {shown : ℚ → Text} (float : Text → Number) (src : Bool)
    {p s : Text} (hp : p ++ s = configText shown host) (hs : s ≠ []) (config index folder : Text) {cwd : Text} (hc : Paths.isAbs cwd = true)
    {fs : Fs} (ht : Runners.Tree fs) (hf : fs (Runners.configAt cwd folder) = some (.file p)) :
    (Runners.init config index cwd folder fs).2.2 (Runners.configAt cwd folder) = some (.file p) ∧
    buildText w float src p = .error .valueError ∧ watchText w float p = .error .valueError :=
  ⟨(Runners.C54_keeps config index folder hc fs ht _ (List.mem_cons_self ..)).1 _ _ hf, C115_torn w hh float src hp hs⟩

/-! ## A case -/

/-- A configuration without a version and with infinities. -/
theorem C115_reads_case : Ordinary (.obj [(txt "a", .num .inf), (txt "b", .arr [.num .ninf, .num .nan, .num (.int 3)])]) := by
  simp only [Ordinary, OrdinaryItems, Ordinaries]
  exact ⟨⟨plain_txt _, trivial, plain_txt _, ⟨trivial, trivial, trivial, trivial⟩, trivial⟩, by decide⟩

/-- The host é.org. -/
def place : Option Text := some [233, 46, 111, 114, 103]

theorem place_plain : ∀ t, place = some t → Plain t := by
  intro t ht
  cases ht
  exact ⟨by decide, by simp [NoPair, isHigh]⟩

def noFloat : Text → Number := fun _ => .nan

/-- The case for C115: init in the folder /p which has only a page, a build after it; and a project in which init was killed when it
had opened vanillaplusjs.json, with another init after it. -/
theorem C115_case :
    (Runners.init (configText (fun _ => []) place) (txt "page") (txt "/") (txt "p") (Runners.ofList Runners.started)).2.1 = none ∧
    (∃ t, (Runners.init (configText (fun _ => []) place) (txt "page") (txt "/") (txt "p") (Runners.ofList Runners.started)).2.2
        (Runners.configAt (txt "/") (txt "p")) = some (.file t) ∧
      buildText world noFloat true t = .ok ⟨.str [233, 46, 111, 114, 103], (), images0, .bool true, [], constants0⟩) ∧
    (Runners.init (configText (fun _ => []) place) (txt "page") (txt "/") (txt "p")
      (Runners.ofList [([], .dir), ([txt "p"], .dir), ([txt "p", txt "vanillaplusjs.json"], .file [])])).2.2 (Runners.configAt (txt "/") (txt "p")) = some (.file []) ∧
    buildText world noFloat true [] = .error .valueError := by
  obtain ⟨c1, c2, c3, c4, -, -, -⟩ := Runners.C54_case
  have hcfg : Runners.ofList Runners.started (Runners.configAt (txt "/") (txt "p")) = none := by decide +kernel
  have h : (Runners.init (configText (fun _ => []) place) (txt "page") (txt "/") (txt "p") (Runners.ofList Runners.started)).2.1 = none :=
    Runners.C54_succeeds _ _ _ c1 _ c2 c3 c4
  obtain ⟨t, h1, -, h2⟩ := C115_init (w := world) (icons := ()) rfl place_plain (fun _ _ => rfl) (fun _ => []) noFloat (txt "page") (txt "p") c1 hcfg h
  have hne : configText (fun _ => []) place ≠ [] := by
    unfold configText initial
    simp only [ofJson, ofItems, dump]
    exact List.cons_ne_nil _ _
  obtain ⟨k1, k2, -⟩ := C115_stuck world place_plain (shown := fun _ => []) noFloat true (p := []) rfl hne (configText (fun _ => []) place) (txt "page") (txt "p") c1
    (fs := Runners.ofList [([], .dir), ([txt "p"], .dir), ([txt "p", txt "vanillaplusjs.json"], .file [])]) (Runners.tree_ofList (by decide +kernel)) (by decide +kernel)
  exact ⟨h, ⟨t, h1, h2⟩, k1, k2⟩

end Verif.Config
