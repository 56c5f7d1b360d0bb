import Verif.JsTok
/-!
# What the JavaScript manipulators should do

A specification which does not use the model of the manipulators.
-/
namespace Verif.Js
open Verif.Reader (Text txt)

/-- Whitespace or a line terminator. -/
def Gap (t : Tok) : Prop := (∃ v, t = .whitespace v) ∨ t = .lineTerminator

instance (t : Tok) : Decidable (Gap t) := by
  cases t <;> first
    | exact .isTrue (.inl ⟨_, rfl⟩)
    | exact .isTrue (.inr rfl)
    | exact .isFalse (by rintro (⟨v, h⟩ | h) <;> cases h)

/-- The tokens without the gaps. -/
def significant (ts : List Tok) : List Tok := ts.filter fun t => decide (¬ Gap t)

/-- `name` or `name as other` -/
inductive DefaultImport : List Tok → Prop
  | name (v : Text) : DefaultImport [.identifier v]
  | renamed (v w : Text) : DefaultImport [.identifier v, .kwAs, .identifier w]

/-- `*` or `* as name` -/
inductive NamespaceImport : List Tok → Prop
  | all : NamespaceImport [.asterisk]
  | renamed (w : Text) : NamespaceImport [.asterisk, .kwAs, .identifier w]

/-- What is between the braces.  A comma after a plain name may be missing. -/
inductive Names : List Tok → Prop
  | nil : Names []
  | name {v ts} : Names ts → Names (.identifier v :: ts)
  | comma {v ts} : Names ts → Names (.identifier v :: .comma :: ts)
  | renamed {v w ts} : Names ts → Names (.identifier v :: .kwAs :: .identifier w :: .comma :: ts)
  | last {v w} : Names [.identifier v, .kwAs, .identifier w]

/-- `{ … }` -/
inductive NamedImports : List Tok → Prop
  | braces {ts} : Names ts → NamedImports (.openCurly :: ts ++ [.closeCurly])

/-- What is between `import` and `from`. -/
inductive Clause : List Tok → Prop
  | d {a} : DefaultImport a → Clause a
  | n {b} : NamespaceImport b → Clause b
  | c {c} : NamedImports c → Clause c
  | dn {a b} : DefaultImport a → NamespaceImport b → Clause (a ++ .comma :: b)
  | dc {a c} : DefaultImport a → NamedImports c → Clause (a ++ .comma :: c)
  | nc {b c} : NamespaceImport b → NamedImports c → Clause (b ++ .comma :: c)
  | dnc {a b c} : DefaultImport a → NamespaceImport b → NamedImports c → Clause (a ++ .comma :: b ++ .comma :: c)

/-- The import statements, without gaps, and their module specifiers. -/
inductive Statement : List Tok → Text → Prop
  | bare (s : Text) : Statement [.kwImport, .str s] s
  | clause {c} (s : Text) : Clause c → Statement (.kwImport :: c ++ [.kwFrom, .str s]) s

/-- The tokens are an import statement from `import` to its module specifier `s`, with gaps. -/
def Complete (run : List Tok) (s : Text) : Prop :=
  run.head? = some .kwImport ∧ run.getLast? = some (.str s) ∧ Statement (significant run) s

/-- The tokens are a proper beginning of an import statement. -/
def Begins (run : List Tok) : Prop := ∃ more s, more ≠ [] ∧ run ≠ [] ∧ Complete (run ++ more) s

/-- The module specifiers which are rewritten: paths, without query and fragment. -/
def Supported (s : Text) : Prop :=
  (txt "/" <+: s ∨ txt "./" <+: s ∨ txt "../" <+: s) ∧ 63 ∉ s ∧ 35 ∉ s

/-- A comment which says that the next import is to be ignored. -/
def IgnoreMark (t : Tok) : Prop := ∃ v, t = .comment v ∧ txt "PREPROCESSOR: ignore-import" <+: v

/-- `Hashed new dep b ts out ds`: of the tokens `ts` the tokens `out` are made, and the files `ds` depended
upon; `b` says that the next import is to be ignored.  The module specifiers of the import statements become
`new` of them; in front of what begins as an import statement, but is not one, or not one with a supported
module specifier, a comment is put; nothing else is changed. -/
inductive Hashed (new : Text → Option Text) (dep : Text → Text) : Bool → List Tok → List Tok → List Text → Prop
  | nil {b} : Hashed new dep b [] [] []
  | keep {b t ts o ds} : t ≠ .kwImport → (b = true ∨ ¬ IgnoreMark t) → Hashed new dep b ts o ds →
      Hashed new dep b (t :: ts) (t :: o) ds
  | mark {t ts o ds} : IgnoreMark t → Hashed new dep true ts o ds → Hashed new dep false (t :: ts) (t :: o) ds
  | ignored {ts o ds} : Hashed new dep false ts o ds → Hashed new dep true (.kwImport :: ts) (.kwImport :: o) ds
  | hash {run s s' rest o ds} : Complete (run ++ [.str s]) s → Supported s → new s = some s' →
      Hashed new dep false rest o ds →
      Hashed new dep false (run ++ .str s :: rest) (run ++ .str s' :: o) (dep s :: ds)
  | bad {run t rest o ds note} : Begins run → ¬ Begins (run ++ [t]) → (∀ s, Complete (run ++ [t]) s → ¬ Supported s) →
      Hashed new dep false (t :: rest) o ds →
      Hashed new dep false (run ++ t :: rest)
        (.comment (txt "PREPROCESSOR: ignore-import " ++ note) :: run ++ o) ds

/-- The tokens end with the end of file, and only there it is. -/
def EofEnd (ts : List Tok) : Prop := ∃ body, .eof ∉ body ∧ ts = body ++ [.eof]

end Verif.Js
