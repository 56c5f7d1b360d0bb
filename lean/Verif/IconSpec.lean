import Batteries.Data.List.Basic
import Verif.IconThm
import Verif.BuilderSub

/-!
# What icon commands should do (C52)
-/

namespace Verif.Icons

open Verif.Reader (Text txt substitute)
open Verif.Css (Uni Tok)
open Verif.Assoc
open Verif.Nest (Sp)
open Verif.Handlers (Bytes Fs outWww)

/-! ## The command -/

/-- The form `! PREPROCESSOR: icon a` of a comment. -/
def IsIcon (space : Nat → Bool) (v a : Text) : Prop :=
  ∃ w1 w2 w3 w4 w5, Sp space w1 ∧ Sp space w2 ∧ Sp space w3 ∧ Sp space w4 ∧ Sp space w5 ∧ w4 ≠ [] ∧ w5 ≠ [] ∧
    (∀ c, a.head? = some c → space c = false) ∧
    v = w1 ++ txt "!" ++ w2 ++ txt "PREPROCESSOR" ++ w3 ++ txt ":" ++ w4 ++ txt "icon" ++ w5 ++ a

/-- `out` are the elements of `xs` with `p`, each once, in the order in which they first occur. -/
def Firsts (p : Text → Prop) (xs out : List Text) : Prop :=
  out.Nodup ∧ (∀ x, x ∈ out ↔ x ∈ xs ∧ p x) ∧
    ∀ l x r, out = l ++ x :: r → ∃ a b, xs = a ++ x :: b ∧ x ∉ a ∧ ∀ y ∈ l, y ∈ a

/-- What is asked for, restricted to what is configured; everything that is configured if nothing is asked for. -/
def Chosen (configured : List Text) : Option (List Text) → List Text → Prop
  | some asked, out => Firsts (· ∈ configured) asked out
  | none, out => out = configured

/-- All three colors are configured. -/
def Good (s : Settings) (b : Button) : Prop := b.active ∈ keys s.colors ∧ b.hover ∈ keys s.colors ∧ b.disabled ∈ keys s.colors

instance (s : Settings) (b : Button) : Decidable (Good s b) := by unfold Good; infer_instance

/-- The buttons a command asks for. -/
def asked (s : Settings) : ButtonArg → Option Buttons
  | .none => none
  | .default => s.buttons
  | .some b => some b

/-- The buttons with unknown colors dropped. -/
def goodButtons (s : Settings) (bs : Buttons) : Option Button × List (Text × Entry) :=
  ((match bs.default with
    | some b => if Good s b then some b else none
    | none => none),
   (bs.named.filter fun x => Good s x.2).map fun x => (x.1, .button x.2))

/-- `i` is what the command asks for, as far as it is configured. -/
structure Real (s : Settings) (c : Command) (i : Icon) : Prop where
  name : i.name = c.name
  initial : i.initial = c.initial
  known : c.initial ∈ keys s.colors
  colors : Chosen (keys s.colors) c.colors i.colors
  sizes : Chosen s.sizes c.sizes i.sizes
  colorsNe : i.colors ≠ []
  sizesNe : i.sizes ≠ []
  button : i.button = (asked s c.button).map (goodButtons s)

/-- The token is a command for the icon. -/
def IconOf (env : Env) (t : Tok) (i : Icon) : Prop :=
  ∃ v a c, t = .comment v ∧ IsIcon env.space v a ∧ CommandOf (itokenize env.uni (substitute a)) c ∧ Real env.settings c i

/-- Every command of the document is well-formed, and all the colors of its named buttons are configured. -/
def WellFormed (env : Env) (doc : List Tok) : Prop :=
  ∀ t ∈ doc, ∀ v a, t = .comment v → IsIcon env.space v a →
    ∃ c, CommandOf (itokenize env.uni (substitute a)) c ∧ ∀ bs, asked env.settings c.button = some bs → ∀ x ∈ bs.named, Good env.settings x.2

/-! ## The classes -/

/-- `ts` are the rules `.selector { body }`, with whitespace between them. -/
inductive RulesOf : List Tok → List (Text × List Tok) → Prop
  | nil : RulesOf [] []
  | space {w ts rules} : RulesOf ts rules → RulesOf (.whitespace w :: ts) rules
  | rule {sel body ts rules} : (∀ t ∈ body, t ≠ .leftCurly ∧ t ≠ .rightCurly) → RulesOf ts rules →
      RulesOf ([.delim (txt "."), .ident sel, .whitespace (txt " "), .leftCurly] ++ body ++ .rightCurly :: ts) ((sel, body) :: rules)

/-- The body has the declaration `name: value;`. -/
def HasDecl (body : List Tok) (name : Text) (value : List Tok) : Prop :=
  ∃ a b, body = a ++ [.ident name, .colon, .whitespace (txt " ")] ++ value ++ .semicolon :: b

/-- The image of an icon in a color, as seen from the web. -/
def imageUrl (name color : Text) : List Tok :=
  [.function (txt "url"), .str (txt "/img/icons/" ++ name ++ txt "/" ++ color ++ txt ".svg"), .rightParens]

/-- The size of an icon. -/
def sizeOf (size : Text) : List Tok := [.function (txt "var"), .ident (txt "--icon-size-" ++ size), .rightParens]

/-- The rules of a button: its selector with all that depends on the button. -/
def buttonRules (name size suffix : Text) (b : Button) : List (Text × List (Text × List Tok)) :=
  let sel := txt "icon-btn-" ++ name ++ txt "-" ++ size ++ suffix
  [ (sel, [(txt "cursor", [.ident (txt "pointer")])]),
    (sel ++ txt ":disabled", [(txt "cursor", [.ident (txt "not-allowed")])]),
    (sel ++ txt " .icon-btn--icon",
      [(txt "width", sizeOf size), (txt "height", sizeOf size), (txt "background-image", imageUrl name b.active)]),
    (sel ++ txt ":hover .icon-btn--icon", [(txt "background-image", imageUrl name b.hover)]),
    (sel ++ txt ":disabled .icon-btn--icon", [(txt "background-image", imageUrl name b.disabled)]) ]

/-- The rules of an icon. -/
def iconRules (i : Icon) : List (Text × List (Text × List Tok)) :=
  (i.sizes.flatMap fun s => i.colors.map fun c =>
    (txt "icon-" ++ i.name ++ txt "-" ++ s ++ txt "-" ++ c,
      [(txt "width", sizeOf s), (txt "height", sizeOf s), (txt "background-image", imageUrl i.name c)])) ++
  match i.button with
  | none => []
  | some (default, named) => i.sizes.flatMap fun s =>
      (match default with
        | some b => buttonRules i.name s [] b
        | none => []) ++
      named.flatMap fun x =>
        match x.2 with
        | .button b => buttonRules i.name s (txt "-" ++ x.1) b
        | .letter _ => []

/-- `ts` are the rules wanted: the same selectors in the same order, with the declarations wanted. -/
def Classes (wanted : List (Text × List (Text × List Tok))) (ts : List Tok) : Prop :=
  ∃ rules, RulesOf ts rules ∧ List.Forall₂ (fun r w => r.1 = w.1 ∧ ∀ d ∈ w.2, HasDecl r.2 d.1 d.2) rules wanted

/-- The document with the classes in place of the commands. -/
inductive DocOf (env : Env) : List Tok → List Tok → Prop
  | nil : DocOf env [] []
  | keep {t ts out} : (¬ ∃ i, IconOf env t i) → DocOf env ts out → DocOf env (t :: ts) (t :: out)
  | icon {t i ts r out} : IconOf env t i → Classes (iconRules i) r → DocOf env ts out → DocOf env (t :: ts) (r ++ out)

/-! ## The files -/

/-- `out` is `s` with every `old`, from the left, replaced by `new`. -/
inductive ReplaceOf (old new : Text) : Text → Text → Prop
  | nil : ReplaceOf old new [] []
  | hit {s out} : ReplaceOf old new s out → ReplaceOf old new (old ++ s) (new ++ out)
  | miss {c s out} : ¬ old <+: c :: s → ReplaceOf old new s out → ReplaceOf old new (c :: s) (c :: out)

def source (name : Text) : Text := txt "src/public/img/icons/" ++ name ++ txt ".svg"

def image (name color : Text) : Text := txt "out/www/img/icons/" ++ name ++ txt "/" ++ color ++ txt ".svg"

/-- A color in quotes, as in an attribute of the image. -/
def inQuotes (c : Color) : Text := txt "\"" ++ toHex c ++ txt "\""

/-- The text of the image in the color, made of the source with the initial color. -/
def Painted (env : Env) (fs : Fs) (name initial color : Text) (b : Bytes) : Prop :=
  ∃ svg og target text, fs (source name) = some svg ∧ item env.settings.colors initial = some og ∧
    item env.settings.colors color = some target ∧ ReplaceOf (inQuotes og) (inQuotes target) (env.decode svg) text ∧ b = env.encode text

/-- The document has a command for this icon, in this color, with this initial color. -/
def Wants (env : Env) (doc : List Tok) (name initial color : Text) : Prop :=
  ∃ t ∈ doc, ∃ i, IconOf env t i ∧ name = i.name ∧ initial = i.initial ∧ color ∈ i.colors

/-- Nothing that is there is touched; what is new are the images and their hashes. -/
structure FilesOf (env : Env) (doc : List Tok) (fs fs' : Fs) : Prop where
  kept : ∀ p b, fs p = some b → fs' p = some b
  fresh : ∀ p b, fs p = none → fs' p = some b → ∃ name initial color, Wants env doc name initial color ∧
    ((p = image name color ∧ Painted env fs name initial color b) ∨
     (p = image name color ++ txt ".hash" ∧ ∃ b', fs' (image name color) = some b' ∧ b = env.digest b'))
  image : ∀ name initial color, Wants env doc name initial color → (fs' (image name color)).isSome
  hash : ∀ name initial color, Wants env doc name initial color → fs (Icons.image name color) = none →
    (fs' (Icons.image name color ++ txt ".hash")).isSome

/-- The names can be used as names of files. -/
def Slashless (env : Env) (doc : List Tok) : Prop :=
  (∀ c ∈ keys env.settings.colors, 47 ∉ c) ∧ ∀ t ∈ doc, ∀ i, IconOf env t i → i.name ≠ [] ∧ 47 ∉ i.name

end Verif.Icons
