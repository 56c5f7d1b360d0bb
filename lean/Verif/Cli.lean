import Verif.Reader

/-!
Model of the command line: `vanillaplusjs/main.py` and the `main` functions of `vanillaplusjs/runners/*.py`, with the part of Python's
`argparse` which they use (as of Python 3.11: long options, `=`, abbreviations, `--`, negative numbers).  `argparse` ends the program by
printing help or an error; both are `none` here: nothing is done.
-/

namespace Verif.Cli

open Verif.Reader (Text txt)

/-- What an option takes: `action="store_true"` (and help), `type=str`, `type=int`, `nargs="+"`. -/
inductive Kind where
  | flag
  | text
  | number
  | many
  deriving DecidableEq

/-- The options of a command with what they take, besides `-h` and `--help`. -/
abbrev Options := List (Text × Kind)

/-- `-h` and `--help`, which `argparse` adds to every parser. -/
def help : Text := txt "--help"

/-- All the names with two dashes. -/
def names (o : Options) : List Text := help :: o.map (·.1)

/-- `str.partition("=")`; `none` if there is no `=`. -/
def cut : Text → Text × Option Text
  | [] => ([], none)
  | c :: cs => if c = 61 then ([], some cs) else (c :: (cut cs).1, (cut cs).2)

/-- What `argparse` sees in one argument. -/
inductive Word where
  /-- an argument, `A` -/
  | plain (t : Text)
  /-- an option, with what comes behind `=` -/
  | opt (name : Text) (value : Option Text)
  /-- something which is not known; an error in the end -/
  | unknown
  /-- `-h` and what may follow in the same argument; the program ends, with help or an error -/
  | stop
  deriving DecidableEq

/-- `_negative_number_matcher`: `-\d+` or `-\d*\.\d+`; `digit` is `\d`. -/
def negative (digit : Nat → Bool) : Text → Bool
  | [] => false
  | c :: cs => c = 45 && ((!cs.isEmpty && cs.all digit) ||
    (match cs.dropWhile digit with
     | 46 :: ds => !ds.isEmpty && ds.all digit
     | _ => false))

/-- `_parse_optional` and `_get_option_tuples`; `none` if several options begin so.  (`-h…` is the only option with one dash.  The
pattern of numbers may also match before a newline at the end, which is left out.) -/
def word (digit : Nat → Bool) (o : Options) (t : Text) : Option Word :=
  match t with
  | [] => some (.plain [])
  | [c] => some (.plain [c])
  | c :: d :: rest =>
    if c ≠ 45 then some (.plain t)
    else if d = 45 then
      if t ∈ names o then some (.opt t none)
      else if (cut t).2.isSome ∧ (cut t).1 ∈ names o then some (.opt (cut t).1 (cut t).2)
      else match (names o).filter (fun n => (cut t).1.isPrefixOf n) with
        | [] => some (if negative digit t then .plain t else if 32 ∈ t then .plain t else .unknown)
        | [n] => some (.opt n (cut t).2)
        | _ => none
    else if d = 104 then some .stop
    else some (if negative digit t then .plain t else if 32 ∈ t then .plain t else .unknown)

/-- `_parse_known_args`, the first loop: behind `--` everything is an argument.  As no command has arguments besides options, `--` itself
is always an error in the end. -/
def wordList (digit : Nat → Bool) (o : Options) : List Text → Option (List Word)
  | [] => some []
  | t :: ts =>
    if t = txt "--" then some (.unknown :: ts.map .plain)
    else match word digit o t, wordList digit o ts with
      | some w, some ws => some (w :: ws)
      | _, _ => none

/-- The arguments an option with `nargs="+"` takes. -/
def leading : List Word → List Text × List Word
  | .plain t :: ws => (t :: (leading ws).1, (leading ws).2)
  | ws => ([], ws)

theorem leading_length : ∀ ws, (leading ws).2.length ≤ ws.length
  | [] => Nat.le_refl _
  | .plain _ :: ws => Nat.le_succ_of_le (leading_length ws)
  | .opt _ _ :: _ => Nat.le_refl _
  | .unknown :: _ => Nat.le_refl _
  | .stop :: _ => Nat.le_refl _

/-- `_get_values`: the conversion to a number; `int` says what Python's `int` accepts. -/
def accepts (int : Text → Option Int) (k : Kind) (v : Text) : Bool :=
  match k with
  | .number => (int v).isSome
  | _ => true

/-- `_parse_known_args`, the second loop, and `parse_args`: the options which were given, in order, with their values. -/
def consume (int : Text → Option Int) (o : Options) : List Word → Option (List (Text × List Text))
  | [] => some []
  | .plain _ :: _ => none
  | .unknown :: _ => none
  | .stop :: _ => none
  | .opt n value :: ws =>
    match o.find? (fun x => x.1 = n) with
    | none => none
    | some (_, k) =>
      match value with
      | some v =>
        match k with
        | .flag => none
        | _ => if accepts int k v then (consume int o ws).map ((n, [v]) :: ·) else none
      | none =>
        match k with
        | .flag => (consume int o ws).map ((n, []) :: ·)
        | .many =>
          if (leading ws).1 = [] then none
          else (consume int o (leading ws).2).map ((n, (leading ws).1) :: ·)
        | _ =>
          match ws with
          | .plain v :: ws' => if accepts int k v then (consume int o ws').map ((n, [v]) :: ·) else none
          | _ => none
termination_by ws => ws.length
decreasing_by
  all_goals simp only [List.length_cons]
  all_goals first | omega | (have := leading_length ws; omega)

/-- `ArgumentParser.parse_args` -/
def parse (digit : Nat → Bool) (int : Text → Option Int) (o : Options) (args : List Text) : Option (List (Text × List Text)) :=
  match wordList digit o args with
  | none => none
  | some ws => consume int o ws

/-! ### The commands -/

/-- `args.x` of an option with one value: the last one given. -/
def given (seen : List (Text × List Text)) (n : Text) : Option Text :=
  match (seen.filter fun x => x.1 = n).getLast? with
  | some (_, v :: _) => some v
  | _ => none

/-- `args.x` of a flag -/
def isGiven (seen : List (Text × List Text)) (n : Text) : Bool := seen.any fun x => x.1 = n

/-- What is called at the end. -/
inductive Call where
  /-- `init(folder, host)` -/
  | init (folder : Text) (host : Option Text)
  /-- `build(folder, dev, symlinks, delay_files)` -/
  | build (folder : Text) (dev : Bool) (symlinks : Option Bool) (delay : List Text)
  /-- `run_server(host, port, folder)` -/
  | run (host : Text) (port : Int) (folder : Text)
  /-- `clean(folder, placeholders)`; without a choice `prompt_placeholders` is asked for one. -/
  | clean (folder : Text) (placeholders : Option Bool)
  /-- `dev(folder, host, port, watch, debounce)` -/
  | dev (folder host : Text) (port : Int) (watch : Bool) (debounce : Int)
  deriving DecidableEq

/-- init.py:13-30 -/
def initOptions : Options := [(txt "--folder", .text), (txt "--host", .text)]

/-- build.py:26-56 -/
def buildOptions : Options :=
  [(txt "--dev", .flag), (txt "--symlinks", .flag), (txt "--no-symlinks", .flag), (txt "--folder", .text), (txt "--delay-files", .many)]

/-- run.py:14-26 -/
def runOptions : Options := [(txt "--port", .number), (txt "--host", .text), (txt "--folder", .text)]

/-- clean.py:14-29 -/
def cleanOptions : Options := [(txt "--folder", .text), (txt "--placeholders", .flag), (txt "--no-placeholders", .flag)]

/-- dev.py:42-63 -/
def devOptions : Options :=
  [(txt "--folder", .text), (txt "--host", .text), (txt "--port", .number), (txt "--watch", .flag), (txt "--debounce", .number)]

/-- build.py:58-62 and clean.py:33-37 -/
def choice (seen : List (Text × List Text)) (yes no : Text) : Option Bool :=
  if isGiven seen yes then some true else if isGiven seen no then some false else none

/-- `args.x` of an option with a number -/
def numberOr (int : Text → Option Int) (seen : List (Text × List Text)) (n : Text) (default : Int) : Int :=
  match given seen n with
  | some v => (int v).getD default
  | none => default

/-- init.py:31-33 -/
def initMain (digit : Nat → Bool) (int : Text → Option Int) (args : List Text) : Option Call :=
  (parse digit int initOptions args).map fun s => .init ((given s (txt "--folder")).getD (txt ".")) (given s (txt "--host"))

/-- build.py:57-65; `args.delay_files` of the last time it was given. -/
def buildMain (digit : Nat → Bool) (int : Text → Option Int) (args : List Text) : Option Call :=
  (parse digit int buildOptions args).map fun s =>
    .build ((given s (txt "--folder")).getD (txt ".")) (isGiven s (txt "--dev")) (choice s (txt "--symlinks") (txt "--no-symlinks"))
      (((s.filter fun x => x.1 = txt "--delay-files").getLast?.map (·.2)).getD [])

/-- run.py:27-29 -/
def runMain (digit : Nat → Bool) (int : Text → Option Int) (args : List Text) : Option Call :=
  (parse digit int runOptions args).map fun s =>
    .run ((given s (txt "--host")).getD (txt "localhost")) (numberOr int s (txt "--port") 8888) ((given s (txt "--folder")).getD (txt "."))

/-- clean.py:31-42 -/
def cleanMain (digit : Nat → Bool) (int : Text → Option Int) (args : List Text) : Option Call :=
  (parse digit int cleanOptions args).map fun s =>
    .clean ((given s (txt "--folder")).getD (txt ".")) (choice s (txt "--placeholders") (txt "--no-placeholders"))

/-- dev.py:64-72 -/
def devMain (digit : Nat → Bool) (int : Text → Option Int) (args : List Text) : Option Call :=
  (parse digit int devOptions args).map fun s =>
    .dev ((given s (txt "--folder")).getD (txt ".")) ((given s (txt "--host")).getD (txt "localhost"))
      (numberOr int s (txt "--port") 8888) (isGiven s (txt "--watch")) (numberOr int s (txt "--debounce") 100)

/-- main.py:34-54; the first argument has to be the command.  (Whatever else it is ends the program.) -/
def main (digit : Nat → Bool) (int : Text → Option Int) : List Text → Option Call
  | [] => none
  | c :: args =>
    if c = txt "init" then initMain digit int args
    else if c = txt "build" then buildMain digit int args
    else if c = txt "run" then runMain digit int args
    else if c = txt "clean" then cleanMain digit int args
    else if c = txt "dev" then devMain digit int args
    else none

end Verif.Cli
