import Verif.Builder
import Verif.Assoc
import Verif.Paths

/-!
Model of the tokens of `vanillaplusjs/build/html/token.py`, of
`vanillaplusjs/build/html/manips/link_hash.py` and of
`vanillaplusjs/build/html/manips/link_rel_canonical.py`.

The builder (`html/builder.py`) is that of `Verif.Builder`.  A token is given by its type, name and data; its other
entries (the namespace of a tag, the identifiers of a doctype) are not looked at by any manipulator.
-/

namespace Verif.Html

open Verif.Reader (Text txt)
open Verif.Build (Manip)
open Verif.Assoc (item put ofList keys)
open Verif.Paths (join)

/-- token.py:21-32: the attributes of a tag by namespace and name. -/
abbrev Attrs := List ((Option Text × Text) × Text)

/-- token.py:6-32. -/
inductive HTok where
  | startTag (name : Text) (attrs : Attrs)
  | emptyTag (name : Text) (attrs : Attrs)
  | endTag (name : Text)
  | comment (data : Text)
  | characters (data : Text)
  | spaces (data : Text)
  | doctype (name : Text)
  deriving DecidableEq, Repr

/-- The exceptions of the manipulators. -/
inductive HErr where
  /-- the AssertionError of link_hash.py:144 -/
  | noHash (path : Text)
  /-- MissingConfigurationException of link_rel_canonical.py:64 -/
  | missingHost
  /-- AttributeError of an access to None -/
  | attribute
  | asserted
  | value
  | typeErr
  | notFound (path : Text)
  | keyErr
  deriving DecidableEq, Repr

/-- A manipulator as a part of the state of all manipulators. -/
def lift {A S τ E : Type} (look : S → A) (store : S → A → S) (m : Manip A τ E) : Manip S τ E where
  start s t := match m.start (look s) t with
    | .error e => .error e
    | .ok (b, a) => .ok (b, store s a)
  cont s t := match m.cont (look s) t with
    | .error e => .error e
    | .ok (r, a) => .ok (r, store s a)

/-- `a <= b` of strings, by code points. -/
def textLe : Text → Text → Bool
  | [], _ => true
  | _ :: _, [] => false
  | a :: s, b :: t => if a < b then true else if a = b then textLe s t else false

/-- One step of insertion. -/
def insertKey (k : Text) : List Text → List Text
  | [] => [k]
  | x :: xs => if textLe k x then k :: x :: xs else x :: insertKey k xs

/-- `sorted(keys)` -/
def sortKeys : List Text → List Text
  | [] => []
  | k :: ks => insertKey k (sortKeys ks)

/-- The upper-case hexadecimal digit. -/
def upperHexDigit (d : Nat) : Nat := if d < 10 then 48 + d else 55 + d

/-- The characters which `urllib.parse.quote_plus` leaves as they are. -/
def isUrlSafe (c : Nat) : Bool :=
  (48 ≤ c ∧ c ≤ 57) || (65 ≤ c ∧ c ≤ 90) || (97 ≤ c ∧ c ≤ 122) || c == 95 || c == 46 || c == 45 || c == 126

/-- `urllib.parse.quote_plus`; `enc c` is the escaped form of a character beyond ASCII. -/
def quotePlus (enc : Nat → Text) : Text → Text
  | [] => []
  | c :: cs =>
    (if isUrlSafe c then [c] else if c = 32 then [43]
      else if c < 128 then [37, upperHexDigit (c / 16), upperHexDigit (c % 16)] else enc c) ++ quotePlus enc cs

/-- constants.py:6 -/
def processorVersion : Text := txt "1.3.2"

/-- `urlencode({"v": hash, "pv": PROCESSOR_VERSION})` -/
def cacheQuery (enc : Nat → Text) (hash : Text) : Text :=
  txt "v=" ++ quotePlus enc hash ++ txt "&pv=" ++ quotePlus enc processorVersion

/-! ## link_hash.py -/

/-- What LinkHash reads: the mode, the folder of the project, the content of a file if there is one (144-147: the file
is taken to stay as it is between the two), `str.strip`, and the escapes of `urlencode`. -/
structure LinkEnv where
  scan : Bool
  folder : Text
  read : Text → Option Text
  strip : Text → Text
  enc : Nat → Text

/-- link_hash.py:18-34. -/
structure LinkDep where
  name : Text
  attrName : Text
  path : Text
  attributes : List (Text × Text)
  deriving DecidableEq, Repr

/-- link_hash.py:70-73, 175-186: the type of link which the token matches, by the name of the attribute, and the name
and data of the token. -/
def linkType : HTok → Option (Text × Text × Attrs)
  | .emptyTag name attrs =>
    if name = txt "link" ∧ (item attrs (none, txt "rel") = some (txt "stylesheet") ∨
        item attrs (none, txt "rel") = some (txt "preload")) then some (txt "href", name, attrs) else none
  | .startTag name attrs => if name = txt "script" then some (txt "src", name, attrs) else none
  | _ => none

/-- link_hash.py:169-200. -/
def asDependency (t : HTok) : Option LinkDep :=
  match linkType t with
  | none => none
  | some (attrName, name, attrs) =>
    match item attrs (none, attrName) with
    | none => none
    | some href =>
      if href.head? ≠ some 47 ∨ href.any (fun c => c == 63 || c == 35) then none
      else some { name := name, attrName := attrName, path := href.drop 1,
                  attributes := ofList ((attrs.filter fun p => p.1.2 ≠ txt "href").map fun p => (p.1.2, p.2)) }

/-- link_hash.py:120-133; the state are the dependencies or children, in the order in which they are added. -/
def linkStart (env : LinkEnv) (deps : List Text) (t : HTok) : Except HErr (Bool × List Text) :=
  match asDependency t with
  | none => .ok (false, deps)
  | some dep => .ok (!env.scan, deps ++ [join (join (txt "src") (txt "public")) dep.path])

/-- link_hash.py:141-144: where the hash is read from. -/
def linkHashFile (folder path : Text) : Text := join folder (join (join (txt "out") (txt "www")) path ++ txt ".hash")

/-- The token with the same type, other name and data. -/
def retag (t : HTok) (name : Text) (attrs : Attrs) : HTok :=
  match t with
  | .startTag _ _ => .startTag name attrs
  | .emptyTag _ _ => .emptyTag name attrs
  | t => t

/-- link_hash.py:149-159. -/
def linkData (dep : LinkDep) (newHref : Text) : Attrs :=
  ofList ((sortKeys (keys dep.attributes ++ [dep.attrName])).map fun key =>
    ((none, key), if key ≠ dep.attrName then (item dep.attributes key).getD [] else newHref))

/-- link_hash.py:135-167. -/
def linkCont (env : LinkEnv) (deps : List Text) (t : HTok) : Except HErr (Option (List HTok) × List Text) :=
  match asDependency t with
  | none => .error .attribute
  | some dep =>
    match env.read (linkHashFile env.folder dep.path) with
    | none => .error (.noHash (linkHashFile env.folder dep.path))
    | some content =>
      .ok (some [retag t dep.name (linkData dep (47 :: dep.path ++ txt "?" ++ cacheQuery env.enc (env.strip content)))],
        deps)

def linkHash (env : LinkEnv) : Manip (List Text) HTok HErr := { start := linkStart env, cont := linkCont env }

/-! ## link_rel_canonical.py -/

/-- What the manipulator reads. -/
structure CanonEnv where
  scan : Bool
  host : Option Text
  relpath : Text

/-- link_rel_canonical.py:15-28, without the other attributes. -/
structure CanonTag where
  name : Text
  attr : Text
  deriving DecidableEq, Repr

/-- link_rel_canonical.py:104-128, with the data of the token. -/
def canonInner : HTok → Option (CanonTag × Attrs)
  | .emptyTag name attrs =>
    if name = txt "link" then
      if item attrs (none, txt "rel") = some (txt "canonical") then some (⟨txt "link", txt "href"⟩, attrs) else none
    else if name = txt "meta" then
      if item attrs (none, txt "property") = some (txt "og:url") then some (⟨txt "meta", txt "content"⟩, attrs) else none
    else none
  | _ => none

/-- link_rel_canonical.py:90-102: the tag, the data of the token and the other attributes. -/
def canonTag (t : HTok) : Option (CanonTag × Attrs × List (Text × Text)) :=
  match canonInner t with
  | none => none
  | some (tag, attrs) =>
    match item attrs (none, tag.attr) with
    | some href =>
      if (txt "http").isPrefixOf href then none
      else some (tag, attrs, ofList ((attrs.filter fun p => p.1.2 ≠ tag.attr).map fun p => (p.1.2, p.2)))
    | none => some (tag, attrs, ofList ((attrs.filter fun p => p.1.2 ≠ tag.attr).map fun p => (p.1.2, p.2)))

/-- link_rel_canonical.py:57-69. -/
def canonStart {S : Type} (env : CanonEnv) (s : S) (t : HTok) : Except HErr (Bool × S) :=
  match canonTag t with
  | none => .ok (false, s)
  | some _ =>
    if env.scan then (if env.host = none then .error .missingHost else .ok (false, s))
    else .ok (true, s)

/-- link_rel_canonical.py:12. -/
def publicPrefixLength : Nat := (txt "src/public").length + 1

/-- link_rel_canonical.py:72-82; a missing host is written as None. -/
def canonHref (env : CanonEnv) (href : Option Text) : Text :=
  match href with
  | none => txt "https://" ++ env.host.getD (txt "None") ++ txt "/" ++ env.relpath.drop publicPrefixLength
  | some h => txt "https://" ++ env.host.getD (txt "None") ++ h

/-- link_rel_canonical.py:84-88. -/
def canonData (other : List (Text × Text)) (attr newHref : Text) : Attrs :=
  let tags := put other attr newHref
  ofList ((sortKeys (keys tags)).map fun k => ((none, k), (item tags k).getD []))

/-- link_rel_canonical.py:71-88. -/
def canonCont {S : Type} (env : CanonEnv) (s : S) (t : HTok) : Except HErr (Option (List HTok) × S) :=
  match canonTag t with
  | none => .error .attribute
  | some (tag, attrs, other) =>
    .ok (some [.emptyTag tag.name (canonData other tag.attr (canonHref env (item attrs (none, tag.attr))))], s)

def canonical {S : Type} (env : CanonEnv) : Manip S HTok HErr := { start := canonStart env, cont := canonCont env }

end Verif.Html
